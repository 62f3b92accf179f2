import Verif.BpSec7.Read

/-! Lemmas about writing security blocks. -/

namespace Hdtn.BpSec7

open Hdtn.HashMap16 Hdtn.Cbor Hdtn.Cbor.Spec Hdtn.Cbhe Hdtn.Cbhe.Spec Hdtn.Bpv7Canonical Hdtn.Bpv7Canonical.Spec
  Hdtn.AdminRecord7 Hdtn.AdminRecord7.Spec Spec

/-- The bytes of a value. -/
def valueBytes : Value → Bytes
  | .uint v => encodeU64 v
  | .bytes b => byteStringHead b.length ++ b

/-- The bytes of a pair. -/
def pairBytes (wrap : Bool) (p : Pair) : Bytes :=
  (if wrap then [0x81] else []) ++ 0x82 :: (encodeU64 p.id ++ valueBytes p.value)

/-- The bytes of an array of pairs. -/
def vecBytes (wrap : Bool) (ps : List Pair) : Bytes :=
  markArray (encodeU64 ps.length) ++ (ps.map (pairBytes wrap)).flatten

/-- The data of a block. -/
def asbBytes (a : Asb) : Bytes :=
  arraySerialize a.targets ++ ((encodeU64 a.context ++ (encodeU64 a.flags ++ (serialize7 a.source ++ []))) ++
    ((if a.hasParams then vecBytes false a.params else []) ++ vecBytes true a.results))

theorem encode_ne (v : Nat) : encodeU64 v ≠ [] := by
  obtain ⟨b, r, h, _⟩ := encode_first v
  rw [h]; simp

theorem byteStringHead_ne (v : Nat) : byteStringHead v ≠ [] := by
  obtain ⟨b, r, h, _⟩ := encode_first v
  unfold byteStringHead
  rw [h]; simp

theorem value_write (v : Value) (hv : match v with | .uint n => n < 2 ^ 64 | .bytes b => b.length < 2 ^ 64) (n : Nat)
    (hn : (valueBytes v).length ≤ n) : v.write n = some (valueBytes v) := by
  cases v with
  | uint v =>
    simp only [Value.write, valueBytes] at hn ⊢
    rw [stores_uint v n hn, if_neg (encode_ne v)]
  | bytes b =>
    simp only [valueBytes, List.length_append] at hn ⊢
    simp only [Value.write]
    rw [stores_head b.length hv n (by omega), if_neg]
    push Not
    exact ⟨byteStringHead_ne _, by omega⟩

theorem value_size (v : Value) (hv : match v with | .uint n => n < 2 ^ 64 | .bytes b => b.length < 2 ^ 64) :
    v.size = some (valueBytes v).length := by
  cases v with
  | uint v => exact size_uint v hv
  | bytes b =>
    simp only [Value.size, size_uint b.length hv, Option.map_some, valueBytes, List.length_append,
      (isStringHead_encode b.length hv).2]

theorem pair_write (wrap : Bool) (p : Pair) (hp : PairInRange p) (n : Nat) (hn : (pairBytes wrap p).length ≤ n) :
    p.write wrap n = some (pairBytes wrap p) := by
  simp only [pairBytes, List.length_append, List.length_cons] at hn
  simp only [Pair.write]
  rw [if_neg (by omega), stores_uint p.id _ (by omega), if_neg (encode_ne _), value_write p.value hp.2 _ (by omega)]
  rfl

theorem pairs_write (wrap : Bool) (ps : List Pair) (hp : ∀ p ∈ ps, PairInRange p) (n : Nat)
    (hn : (ps.map (pairBytes wrap)).flatten.length ≤ n) :
    writePairs wrap ps n = some (ps.map (pairBytes wrap)).flatten := by
  induction ps generalizing n with
  | nil => rfl
  | cons p ps ih =>
    simp only [List.map_cons, List.flatten_cons, List.length_append] at hn ⊢
    simp only [writePairs, pair_write wrap p (hp p (by simp)) n (by omega),
      ih (fun q hq => hp q (by simp [hq])) _ (Nat.le_sub_of_add_le' hn), Option.map_some]

theorem pairs_size (wrap : Bool) (ps : List Pair) (hp : ∀ p ∈ ps, PairInRange p) :
    pairsSize wrap ps = some (ps.map (pairBytes wrap)).flatten.length := by
  induction ps with
  | nil => rfl
  | cons p ps ih =>
    have h := hp p (by simp)
    simp only [pairsSize, size_uint p.id h.1, value_size p.value h.2, ih fun q hq => hp q (by simp [hq]),
      Option.bind_eq_bind, Option.bind_some, Option.pure_def, List.map_cons, List.flatten_cons, List.length_append,
      pairBytes, List.length_cons, Option.some.injEq]
    cases wrap <;> simp <;> omega

theorem vec_write (wrap : Bool) (ps : List Pair) (hp : ∀ p ∈ ps, PairInRange p) (n : Nat)
    (hn : (vecBytes wrap ps).length ≤ n) : writeVec wrap ps n = some (vecBytes wrap ps) := by
  simp only [vecBytes, List.length_append, markArray_length] at hn
  simp only [writeVec]
  rw [stores_uint _ n (by omega), if_neg (encode_ne _), pairs_write wrap ps hp _ (by omega)]
  rfl

theorem vec_size (wrap : Bool) (ps : List Pair) (hp : ∀ p ∈ ps, PairInRange p) (hl : ps.length < 2 ^ 64) :
    vecSize wrap ps = some (vecBytes wrap ps).length := by
  simp only [vecSize, size_uint _ hl, pairs_size wrap ps hp, Option.bind_eq_bind, Option.bind_some, Option.pure_def,
    vecBytes, List.length_append, markArray_length]

/-- All numbers of the block fit. -/
def AllInRange (a : Asb) : Prop :=
  InRange a ∧ (∀ p ∈ a.params, PairInRange p) ∧ (∀ p ∈ a.results, PairInRange p) ∧ a.targets.length < 2 ^ 64 ∧
    a.params.length < 2 ^ 64 ∧ a.results.length < 2 ^ 64

theorem arraySerialize_pos (ts : List Nat) : 0 < (arraySerialize ts).length := by
  obtain ⟨b, r, h, _⟩ := encode_first ts.length
  simp only [arraySerialize, List.length_append, markArray_length, h, List.length_cons]
  omega

theorem asb_write (a : Asb) (ha : AllInRange a) (n : Nat) (hn : (asbBytes a).length ≤ n) :
    a.write n = some (asbBytes a) := by
  obtain ⟨hr, hp, hq, hl1, hl2, hl3⟩ := ha
  simp only [asbBytes, List.length_append, List.length_nil, Nat.add_zero] at hn
  have hpos := arraySerialize_pos a.targets
  obtain ⟨out, ho, _, he⟩ := C06_array_bounded a.targets n (by omega)
  rw [he (by omega)] at ho
  have hh : AdminRecord7.writeAll [encodeU64Classic a.context, encodeU64Classic a.flags, serialize7Bounded a.source]
      (n - (arraySerialize a.targets).length) =
        encodeU64 a.context ++ (encodeU64 a.flags ++ (serialize7 a.source ++ [])) :=
    writeAll_eq (es := [encodeU64 a.context, encodeU64 a.flags, serialize7 a.source])
      (.cons (stores_uint _) (.cons (stores_uint _) (.cons (stores_eid _) .nil))) _
      (by simp only [List.flatten_cons, List.flatten_nil, List.length_append, List.length_nil]; omega)
  unfold Asb.write
  simp only [ho, hh, Option.bind_eq_bind, Option.bind_some, List.length_append, List.length_nil, Nat.add_zero]
  rcases Bool.eq_false_or_eq_true a.hasParams with h | h
  · simp only [h, if_true] at hn ⊢
    rw [vec_write false a.params hp _ (by omega), Option.bind_some, vec_write true a.results hq _ (by omega)]
    simp only [Option.bind_some, Option.pure_def, asbBytes, h, if_true]
  · simp only [h, Bool.false_eq_true, if_false, List.length_nil, Nat.sub_zero] at hn ⊢
    rw [Option.bind_some, List.length_nil, vec_write true a.results hq _ (by omega)]
    simp only [Option.bind_some, Option.pure_def, asbBytes, h, Bool.false_eq_true, if_false]

theorem asb_size (a : Asb) (ha : AllInRange a) : a.size = some (asbBytes a).length := by
  obtain ⟨hr, hp, hq, hl1, hl2, hl3⟩ := ha
  obtain ⟨ht, hc, hf, hn, hs, h0⟩ := hr
  have h1 := (C06_array_round_trip a.targets ht hl1).2.1
  have h2 := (C34_bpv7_round_trip a.source hn hs h0).2.1
  unfold Asb.size
  simp only [h1, size_uint _ hc, size_uint a.flags (by omega), h2, vec_size true a.results hq hl3, Option.bind_eq_bind,
    Option.bind_some, Option.pure_def]
  rcases Bool.eq_false_or_eq_true a.hasParams with h | h
  · simp only [h, if_true, vec_size false a.params hp hl2, Option.bind_some, asbBytes, List.length_append, List.length_nil,
      Option.some.injEq]
    omega
  · simp only [h, Bool.false_eq_true, if_false, Option.bind_some, asbBytes, List.length_append, List.length_nil,
      Option.some.injEq]
    omega

/-! ### What is written -/

theorem isValue_bytes (v : Value) (hv : match v with | .uint n => n < 2 ^ 64 | .bytes b => b.length < 2 ^ 64) :
    IsValue (valueBytes v) v := by
  cases v with
  | uint v => exact isUint_encode v hv
  | bytes b => exact ⟨_, rfl, (isStringHead_encode b.length hv).1⟩

theorem isIdValue_bytes (p : Pair) (hp : PairInRange p) : IsIdValue (pairBytes false p) p :=
  ⟨_, _, Or.inl rfl, isUint_encode _ hp.1, isValue_bytes _ hp.2⟩

theorem each_map {α : Type} {P : Bytes → α → Prop} {f : α → Bytes} (l : List α) (h : ∀ x ∈ l, P (f x) x) :
    Each P (l.map f).flatten l := by
  induction l with
  | nil => rfl
  | cons x l ih => exact ⟨_, _, rfl, h x (by simp), ih fun y hy => h y (by simp [hy])⟩

theorem isArrayOf_vec {P : Bytes → Pair → Prop} (wrap : Bool) (ps : List Pair) (hl : ps.length < 2 ^ 64)
    (h : ∀ x ∈ ps, P (pairBytes wrap x) x) : IsArrayOf P (vecBytes wrap ps) ps :=
  ⟨_, _, rfl, markArray_head _ hl, each_map ps h⟩

theorem isArrayHead_81 : IsArrayHead [0x81] 1 :=
  ⟨0x81, [], rfl, 1, rfl, 1, [], rfl, Or.inl ⟨by decide, rfl, rfl⟩⟩

theorem isArrayOf_results (rs : List Pair) (hl : rs.length < 2 ^ 64) (h : ∀ x ∈ rs, PairInRange x) :
    IsArrayOf (IsArrayOf IsIdValue) (vecBytes true rs) (rs.map fun r => [r]) := by
  refine ⟨_, _, rfl, by rw [List.length_map]; exact markArray_head _ hl, ?_⟩
  have := each_map (P := IsArrayOf IsIdValue) (f := fun l => (l.map (pairBytes true)).flatten) (rs.map fun r => [r])
    (by
      intro l hlm
      obtain ⟨r, hr, rfl⟩ := List.mem_map.1 hlm
      exact ⟨[0x81], pairBytes false r, by simp [pairBytes], isArrayHead_81, _, [], by simp, isIdValue_bytes r (h r hr), rfl⟩)
  simpa [Function.comp_def] using this

theorem front_bytes (a : Asb) (ha : InRange a) (hl : a.targets.length ≤ 1000) (hf : a.flags ≤ 0x1f) :
    TakenForFront (arraySerialize a.targets ++ (encodeU64 a.context ++ encodeU64 a.flags)) a := by
  obtain ⟨ht, hc, _, _⟩ := ha
  refine ⟨_, _, _, rfl, (taken_targets _ _).2 (Or.inl ⟨(C06_array_round_trip a.targets ht (by omega)).1, hl⟩),
    isUint_encode _ hc, isUint_encode _ (by omega), hf⟩

end Hdtn.BpSec7
