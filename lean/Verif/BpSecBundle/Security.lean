import Verif.BpSecBundle.Open

/-! A security block that is put in front of a bundle. -/

namespace Hdtn.BpSecBundle

open Hdtn.HashMap16 Hdtn.Cbor Hdtn.Cbor.Spec Hdtn.Bpv7Crc Hdtn.Bpv7Canonical Hdtn.Bpv7Canonical.Spec Hdtn.BpSec7 Hdtn.Cbhe
open Hdtn.BundleView7 Hdtn.BundleView7.Spec Hdtn.BpSec7.Spec Spec

theorem encode_le (v : Nat) : (encodeU64 v).length ≤ 9 := by
  rw [encode_length]
  unfold encodingSizeClassic
  split_ifs <;> omega

theorem stringHead_le (v : Nat) : (byteStringHead v).length ≤ 9 := by
  have := encode_le v
  unfold byteStringHead
  split
  · simp
  · rename_i h; rw [h] at this; exact this

theorem flatten_le {α : Type} (f : α → Bytes) (B : Nat) (l : List α) (h : ∀ x ∈ l, (f x).length ≤ B) :
    ((l.map f).flatten).length ≤ l.length * B := by
  induction l with
  | nil => simp
  | cons x l ih =>
    rw [List.map_cons, List.flatten_cons, List.length_append, List.length_cons, Nat.add_mul]
    have h1 := h x List.mem_cons_self
    have h2 := ih (fun y hy => h y (List.mem_cons_of_mem _ hy))
    omega

/-- The length of a value is at most `B`, if it is a byte string. -/
def ShortValue (B : Nat) (x : Pair) : Prop :=
  match x.value with
  | .uint v => v < 2 ^ 64
  | .bytes b => b.length ≤ B

theorem pairBytes_le (wrap : Bool) (B : Nat) (x : Pair) (h : ShortValue B x) : (pairBytes wrap x).length ≤ B + 29 := by
  obtain ⟨id, v | b⟩ := x
  · have h1 := encode_le id
    have h2 := encode_le v
    simp only [pairBytes, valueBytes, List.length_append, List.length_cons]
    have : (if wrap = true then [(0x81 : UInt8)] else []).length ≤ 1 := by split_ifs <;> simp
    omega
  · have h1 := encode_le id
    have h2 := stringHead_le b.length
    have h3 : b.length ≤ B := h
    simp only [pairBytes, valueBytes, List.length_append, List.length_cons]
    have : (if wrap = true then [(0x81 : UInt8)] else []).length ≤ 1 := by split_ifs <;> simp
    omega

theorem vecBytes_le (wrap : Bool) (B : Nat) (ps : List Pair) (h : ∀ x ∈ ps, ShortValue B x) :
    (vecBytes wrap ps).length ≤ 9 + ps.length * (B + 29) := by
  have h1 := encode_le ps.length
  have h2 := flatten_le (pairBytes wrap) (B + 29) ps (fun x hx => pairBytes_le wrap B x (h x hx))
  simp only [vecBytes, List.length_append, markArray_length]
  omega

theorem serialize7_le (e : Eid) : (serialize7 e).length ≤ 21 := by
  have h1 := encode_le e.node
  have h2 := encode_le e.service
  unfold serialize7 twoSerialize
  split_ifs
  · simp
  · simp only [List.length_cons, List.length_append]; omega

theorem arraySerialize_le (ts : List Nat) : (arraySerialize ts).length ≤ 9 + ts.length * 9 := by
  have h1 := encode_le ts.length
  have h2 := flatten_le encodeU64 9 ts (fun x _ => encode_le x)
  simp only [arraySerialize, List.length_append, markArray_length]
  omega

theorem writable_sec (admin : Bool) (c : Canonical) (a : Asb) (ht : IsSecType c.typeCode) (hf : a.flags = 1)
    (hc : a.context = 1 ∨ a.context = 2)
    (hs : a.source.node < 2 ^ 64 ∧ a.source.service < 2 ^ 64 ∧ (a.source.node = 0 → a.source.service = 0))
    (htl : a.targets.length ≤ 1000) (htr : ∀ t ∈ a.targets, t < 2 ^ 64) (hpl : a.params.length ≤ 1000)
    (hp : ∀ x ∈ a.params, ShortValue (2 ^ 32) x ∧ Assigned true a.context x.id x.value)
    (hrl : a.results.length ≤ 1000) (hr : ∀ x ∈ a.results, ShortValue (2 ^ 32) x ∧ Assigned false a.context x.id x.value) :
    Writable admin c (.sec a) := by
  have hrange : ∀ (param : Bool) (x : Pair), ShortValue (2 ^ 32) x → Assigned param a.context x.id x.value → PairInRange x := by
    rintro param ⟨id, v | b⟩ h1 h2
    · refine ⟨?_, h1⟩
      cases param <;> rcases hc with hc | hc <;> rw [hc] at h2 <;> simp only [Assigned] at h2 <;> show id < 2 ^ 64 <;> omega
    · refine ⟨?_, ?_⟩
      · cases param <;> rcases hc with hc | hc <;> rw [hc] at h2 <;> simp only [Assigned] at h2 <;> show id < 2 ^ 64 <;> omega
      · have : b.length ≤ 2 ^ 32 := h1
        show b.length < 2 ^ 64
        omega
  have hin : BpSec7.Spec.InRange a := ⟨htr, by omega, by omega, hs⟩
  have h1 : ∀ x ∈ a.params, PairInRange x := fun x hx => hrange true x (hp x hx).1 (hp x hx).2
  have h2 : ∀ x ∈ a.results, PairInRange x := fun x hx => hrange false x (hr x hx).1 (hr x hx).2
  refine ⟨ht, hin, h1, h2, htl, hpl, hrl, by omega, fun x hx => (hp x hx).2, fun x hx => (hr x hx).2, ?_⟩
  intro n hn
  have hsz := asb_size a ⟨hin, h1, h2, by omega, by omega, by omega⟩
  rw [hn, Option.some.injEq] at hsz
  subst hsz
  have l1 := arraySerialize_le a.targets
  have l2 := encode_le a.context
  have l3 := encode_le a.flags
  have l4 := serialize7_le a.source
  have l5 := vecBytes_le false (2 ^ 32) a.params (fun x hx => (hp x hx).1)
  have l6 := vecBytes_le true (2 ^ 32) a.results (fun x hx => (hr x hx).1)
  have l7 : a.params.length * (2 ^ 32 + 29) ≤ 1000 * (2 ^ 32 + 29) := Nat.mul_le_mul_right _ hpl
  have l8 : a.results.length * (2 ^ 32 + 29) ≤ 1000 * (2 ^ 32 + 29) := Nat.mul_le_mul_right _ hrl
  have l9 : (if a.hasParams = true then vecBytes false a.params else []).length ≤ (vecBytes false a.params).length := by
    split_ifs <;> simp
  simp only [asbBytes, List.length_append, List.length_nil]
  omega

/-- The header of a security block that was just written. -/
theorem header_done {skip admin : Bool} {enc : List Nat} {c : Canonical} {a : Asb} {w u : BlockView}
    (h : Done skip admin enc (newBlock c (.sec a)) w) (hw : Writable admin c (.sec a)) (hn : c.number < 2 ^ 64)
    (hf : c.flags < 2 ^ 64) (hu : u.raw = w.raw) (h1 : u.block.typeCode = c.typeCode) (h2 : u.block.number = c.number)
    (h3 : u.block.flags = c.flags) : headerOf u = .ok (headerOfNew c) := by
  obtain ⟨_, hr, _⟩ := h
  obtain ⟨hty, hin, hip, hir, hlt, hlp, hlr, hfl, hp, hs, hsz64⟩ := hw
  have ha : AllInRange a := ⟨hin, hip, hir, by omega, by omega, by omega⟩
  have hsz := asb_size a ha
  let mem : Bytes := List.replicate (w.raw.length + (asbBytes a).length) 0
  have hml : mem.length = w.raw.length + (asbBytes a).length := by simp [mem]
  have he := hr mem (by omega)
  unfold BlockView.render at he
  rw [if_pos (show (newBlock c (.sec a)).dirty = true from rfl)] at he
  have hwb : writeBlock mem (newBlock c (.sec a)).block (newBlock c (.sec a)).body =
      stored mem (serializeWith c.typeCode c.number c.flags c.crcType (asbBytes a).length (asbBytes a) mem) := by
    show storedWith mem a.size _ = _
    rw [hsz]
    unfold storedWith
    simp only
    rw [if_neg (by omega)]
    simp only [Asb.serialize, hsz, asb_write a ha _ (Nat.le_refl _), Option.bind_eq_bind, Option.bind_some]
    rfl
  rw [hwb] at he
  obtain ⟨⟨out, c'⟩, h4, h5⟩ := obind_ok.1 he
  have hout : out = w.raw := by
    simp only at h5
    split_ifs at h5
    simp only [Out.ok.injEq, Prod.mk.injEq] at h5
    exact h5.1
  have hsw : serializeWith c.typeCode c.number c.flags c.crcType (asbBytes a).length (asbBytes a) mem = some (out, c') := by
    unfold stored at h4
    split at h4
    · simp at h4
    · rename_i o x e
      split_ifs at h4
      simp only [Out.ok.injEq, Prod.mk.injEq] at h4
      rw [e, h4.1, h4.2]
  obtain ⟨x, rest, hx⟩ := serializeWith_front rfl (by omega) hsw
  have hh := headerOf_fresh (b := u) (x := x) (rest := rest) (by rw [h2]; exact hn) (by rw [h3]; exact hf)
    (by rw [hu, ← hout, hx, h1, h2, h3])
  rw [hh]
  simp only [headerOfNew, h1, h2, h3]

/-! ### Parameters and results -/

/-- The parameters of a confidentiality block. -/
theorem bcbParams_eq (iv : Bytes) (variant : Nat) (wrapped : Option Bytes) (scope : Nat) :
    bcbParams iv variant wrapped scope = some (⟨1, .bytes iv⟩ :: ⟨2, .uint variant⟩ ::
      ((wrapped.map fun w => (⟨3, .bytes w⟩ : Pair)).toList ++ [⟨4, .uint scope⟩])) := by
  cases wrapped <;> simp [bcbParams, setBytes, setUint]

theorem bibParams_eq (variant : Nat) (wrapped : Option Bytes) (scope : Nat) :
    bibParams variant wrapped scope = some (⟨1, .uint variant⟩ ::
      ((wrapped.map fun w => (⟨2, .bytes w⟩ : Pair)).toList ++ [⟨3, .uint scope⟩])) := by
  cases wrapped <;> simp [bibParams, setBytes, setUint]

theorem results_eq (tags : List Bytes) : ∀ rs : List Pair, tags.foldl (fun rs t => appendResult rs 1 t) rs =
    rs ++ tags.map fun t => (⟨1, .bytes t⟩ : Pair) := by
  induction tags with
  | nil => intro rs; simp
  | cons t tags ih =>
    intro rs
    rw [List.foldl_cons, ih]
    simp [appendResult]

theorem allResults_map (tags : List Bytes) : allResults (tags.map fun t => (⟨1, .bytes t⟩ : Pair)) 1 = tags := by
  induction tags with
  | nil => rfl
  | cons t tags ih =>
    unfold allResults at ih ⊢
    simp [ih]

end Hdtn.BpSecBundle
