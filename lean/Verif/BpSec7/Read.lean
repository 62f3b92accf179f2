import Verif.BpSec7.Lemmas

/-! Reading a whole security block, and what it reads outside the block. -/

namespace Hdtn.BpSec7

open Hdtn.HashMap16 Hdtn.Cbor Hdtn.Cbor.Spec Hdtn.Cbhe Hdtn.Cbhe.Spec Hdtn.Bpv7Canonical Hdtn.Bpv7Canonical.Spec
  Hdtn.AdminRecord7.Spec Spec

/-- What the fields leave in an object whose parameters were `old`. -/
def Fields (old : List Pair) (p : Bytes) (a : Asb) : Prop :=
  ∃ w, TakenForAsb p w ∧ a = { w with params := if w.flags % 2 = 1 then w.params else old }

theorem fields_sound {old : List Pair} {n : Nat} {c c' : Cur} {a : Asb} (hc : Fine c) (hn : n < 2 ^ 64)
    (h : fieldsR old n c = .ok (a, c')) :
    ∃ p t, c.mem = p ++ t ∧ Fields old p a ∧ c' = c.advance p.length := by
  unfold fieldsR at h
  obtain ⟨⟨ts, c1⟩, h1, h⟩ := bind_ok.1 h
  obtain ⟨p1, t1, e1, hp1, rfl⟩ := reads_targets.sound c ts c1 hc h1
  have hc1 := fine_advance hc p1.length
  obtain ⟨⟨cx, c2⟩, h2, h⟩ := bind_ok.1 h
  obtain ⟨p2, t2, e2, hp2, rfl⟩ := reads_uint.sound _ cx c2 hc1 h2
  have hc2 := fine_advance hc1 p2.length
  obtain ⟨⟨fl, c3⟩, h3, h⟩ := bind_ok.1 h
  obtain ⟨p3, t3, e3, hp3, rfl⟩ := reads_uint.sound _ fl c3 hc2 h3
  have hc3 := fine_advance hc2 p3.length
  simp only at h
  split at h
  · simp at h
  rename_i hfl
  unfold tailR at h
  obtain ⟨⟨src, c4⟩, h4, h⟩ := bind_ok.1 h
  obtain ⟨p4, t4, e4, hp4, rfl⟩ := sourceR_sound hc3 hn h4
  have hc4 := fine_advance hc3 p4.length
  obtain ⟨⟨ps, c5⟩, h5, h⟩ := bind_ok.1 h
  obtain ⟨p5, t5, e5, hp5, rfl⟩ := (reads_params old cx fl).sound _ ps c5 hc4 h5
  have hc5 := fine_advance hc4 p5.length
  obtain ⟨⟨rs, c6⟩, h6, h⟩ := bind_ok.1 h
  have hv := reads_vec false cx true
  rw [wrapped_true] at hv
  obtain ⟨p6, t6, e6, hp6, rfl⟩ := hv.sound _ rs c6 hc5 h6
  simp only [Out.ok.injEq, Prod.mk.injEq] at h
  obtain ⟨rfl, rfl⟩ := h
  simp only [Cur.advance, e1, List.drop_left] at e2
  subst e2
  simp only [Cur.advance, e1, List.drop_left] at e3
  subst e3
  simp only [Cur.advance, e1, List.drop_left] at e4
  subst e4
  simp only [Cur.advance, e1, List.drop_left] at e5
  subst e5
  simp only [Cur.advance, e1, List.drop_left] at e6
  subst e6
  have hl := hc.1
  rw [e1] at hl
  simp only [List.length_append] at hl
  refine ⟨(p1 ++ (p2 ++ p3)) ++ (p4 ++ (p5 ++ p6)), t6, by rw [e1]; simp, ?_, ?_⟩
  · rcases hp5 with ⟨ho, hp5⟩ | ⟨ho, rfl, rfl⟩
    · exact ⟨⟨ts, cx, fl, src, ps, rs⟩, ⟨_, p4, p5, p6, rfl, ⟨p1, p2, p3, rfl, hp1, hp2, hp3, by simp only; omega⟩, hp4,
        Or.inl ⟨ho, hp5⟩, hp6⟩, by simp only [if_pos ho]⟩
    · exact ⟨⟨ts, cx, fl, src, [], rs⟩, ⟨_, p4, [], p6, rfl, ⟨p1, p2, p3, rfl, hp1, hp2, hp3, by simp only; omega⟩, hp4,
        Or.inr ⟨by simp only; omega, rfl, rfl⟩, hp6⟩, by simp only [if_neg ho]⟩
  · rw [advance_advance _ _ _ (by omega), advance_advance _ _ _ (by omega), advance_advance _ _ _ (by omega),
      advance_advance _ _ _ (by omega), advance_advance _ _ _ (by omega)]
    rw [show p1.length + (p2.length + (p3.length + (p4.length + (p5.length + p6.length)))) =
      (p1 ++ (p2 ++ p3) ++ (p4 ++ (p5 ++ p6))).length by simp only [List.length_append]; omega]

theorem advance_size {c : Cur} {k : Nat} (hc : Fine c) (hk : k ≤ c.size) : (c.advance k).size = c.size - k := by
  have := hc.2
  simp only [Cur.advance]
  omega

/-- Reading the fields before the source. -/
theorem front_complete {old : List Pair} {n : Nat} {c : Cur} {p t : Bytes} {w : Asb} (hc : Fine c) (hp : TakenForFront p w)
    (hm : c.mem = p ++ t) (hs : p.length ≤ c.size) :
    fieldsR old n c = tailR old n w.targets w.context w.flags (c.advance p.length) := by
  obtain ⟨p1, p2, p3, rfl, hp1, hp2, hp3, hfl⟩ := hp
  have hl := hc.1
  rw [hm] at hl
  simp only [List.length_append] at hl hs
  have h1 := reads_targets.complete p1 w.targets (p2 ++ (p3 ++ t)) c hc hp1 (by rw [hm]; simp) (by omega)
  have hc1 := fine_advance hc p1.length
  have h2 := reads_uint.complete p2 w.context (p3 ++ t) _ hc1 hp2
    (by simp only [Cur.advance, hm, List.append_assoc, List.drop_left]) (by rw [advance_size hc (by omega)]; omega)
  have hc2 := fine_advance hc1 p2.length
  have h3 := reads_uint.complete p3 w.flags t _ hc2 hp3
    (by simp only [Cur.advance, hm, List.append_assoc, List.drop_left])
    (by rw [advance_size hc1 (by rw [advance_size hc (by omega)]; omega), advance_size hc (by omega)]; omega)
  unfold fieldsR
  simp only [h1, ok_bind, h2, h3]
  rw [if_neg (by omega), advance_advance _ _ _ (by omega), advance_advance _ _ _ (by omega)]
  rw [show p1.length + (p2.length + p3.length) = (p1 ++ (p2 ++ p3)).length by simp only [List.length_append]]

theorem fields_complete {old : List Pair} {n : Nat} {c : Cur} {p t : Bytes} {a : Asb} (hc : Fine c) (hn : n < 2 ^ 64)
    (hp : Fields old p a) (hm : c.mem = p ++ t) (hs : p.length ≤ c.size) (hpn : p.length ≤ n) :
    fieldsR old n c = .ok (a, c.advance p.length) := by
  obtain ⟨w, ⟨f, p4, p5, p6, rfl, hf, hp4, hp5, hp6⟩, rfl⟩ := hp
  have hl := hc.1
  rw [hm] at hl
  simp only [List.length_append] at hl hs hpn
  rw [front_complete (t := p4 ++ (p5 ++ (p6 ++ t))) hc hf (by rw [hm]; simp) (by omega)]
  have hc1 := fine_advance hc f.length
  have hz1 := advance_size hc (show f.length ≤ c.size by omega)
  have h4 := sourceR_complete (n := n) (t := p5 ++ (p6 ++ t)) hc1 hn hp4
    (by simp only [Cur.advance, hm, List.append_assoc, List.drop_left]) (by omega)
  have hc4 := fine_advance hc1 p4.length
  have hz4 := advance_size hc1 (show p4.length ≤ (c.advance f.length).size by omega)
  have h5 := (reads_params old w.context w.flags).complete p5 (if w.flags % 2 = 1 then w.params else old) (p6 ++ t) _ hc4
    (by
      rcases hp5 with ⟨ho, hp5⟩ | ⟨ho, rfl, hq⟩
      · rw [if_pos ho]; exact Or.inl ⟨ho, hp5⟩
      · rw [if_neg (by omega)]; exact Or.inr ⟨by omega, rfl, rfl⟩)
    (by simp only [Cur.advance, hm, List.append_assoc, List.drop_left]) (by omega)
  have hc5 := fine_advance hc4 p5.length
  have hz5 := advance_size hc4 (show p5.length ≤ ((c.advance f.length).advance p4.length).size by omega)
  have hv := reads_vec false w.context true
  rw [wrapped_true] at hv
  have h6 := hv.complete p6 w.results t _ hc5 hp6
    (by simp only [Cur.advance, hm, List.append_assoc, List.drop_left]) (by omega)
  unfold tailR
  simp only [h4, ok_bind, h5, h6]
  rw [advance_advance _ _ _ (by omega), advance_advance _ _ _ (by omega), advance_advance _ _ _ (by omega)]
  rw [show f.length + (p4.length + (p5.length + p6.length)) = (f ++ (p4 ++ (p5 ++ p6))).length by
    simp only [List.length_append]]

theorem read_iff (old : Asb) (data rest : Bytes) (a : Asb) (hl : (data ++ rest).length < 2 ^ 64) :
    read old data rest = .ok a ↔ Fields old.params data a := by
  have hl' := hl
  rw [List.length_append] at hl'
  have hc : Fine ⟨data ++ rest, data.length⟩ := ⟨hl, by simp only; omega⟩
  unfold read
  constructor
  · intro h
    obtain ⟨⟨a', c'⟩, h1, h2⟩ := bind_ok.1 h
    obtain ⟨p, t, e, hp, rfl⟩ := fields_sound hc (by omega) h1
    simp only at h2
    split at h2
    · simp at h2
    rename_i hz
    simp only [Out.ok.injEq] at h2
    subst h2
    simp only at e
    have he := congrArg List.length e
    simp only [List.length_append] at he
    simp only [Cur.advance, ne_eq, not_not] at hz
    have hpl : p.length = data.length := by omega
    obtain ⟨rfl, _⟩ := List.append_inj e hpl.symm
    exact hp
  · intro h
    have h1 := fields_complete (old := old.params) (n := data.length) (c := ⟨data ++ rest, data.length⟩) (t := rest) hc
      (by omega) h rfl (le_refl _) (le_refl _)
    simp only [h1, ok_bind]
    rw [if_neg]
    rw [advance_size hc (le_refl _)]
    simp

/-! ### Staying inside the block -/

/-- With the memory `t` behind the data, and the true number of bytes left, `R` reads nothing it may not read and
keeps the number right. -/
def Safe {α : Type} (t : Bytes) (R : Cur → Out (α × Cur)) : Prop :=
  ∀ d : Bytes, (d ++ t).length < 2 ^ 64 → R ⟨d ++ t, d.length⟩ = .fail ∨
    ∃ a d1 d2, d = d1 ++ d2 ∧ R ⟨d ++ t, d.length⟩ = .ok (a, ⟨d2 ++ t, d2.length⟩)

theorem advance_inside (d1 d2 t : Bytes) (h : (d1 ++ d2 ++ t).length < 2 ^ 64) :
    Cur.advance ⟨d1 ++ d2 ++ t, (d1 ++ d2).length⟩ d1.length = ⟨d2 ++ t, d2.length⟩ := by
  simp only [List.length_append] at h
  simp only [Cur.advance, List.append_assoc, List.drop_left, List.length_append, Cur.mk.injEq, true_and]
  omega

theorem Safe.ret {α : Type} {t : Bytes} (a : α) : Safe t (fun c => .ok (a, c)) :=
  fun d _ => Or.inr ⟨a, [], d, rfl, rfl⟩

theorem Safe.fail {α : Type} {t : Bytes} : Safe t (fun _ => (.fail : Out (α × Cur))) := fun _ _ => Or.inl rfl

theorem Safe.bind {α β : Type} {t : Bytes} {R : Cur → Out (α × Cur)} {S : α → Cur → Out (β × Cur)} (hR : Safe t R)
    (hS : ∀ a, Safe t (S a)) : Safe t (fun c => R c >>= fun x => S x.1 x.2) := by
  intro d hd
  rcases hR d hd with h | ⟨a, d1, d2, rfl, h⟩
  · left; simp only [h, fail_bind]
  · have hd2 : (d2 ++ t).length < 2 ^ 64 := by
      simp only [List.length_append] at hd ⊢; omega
    rcases hS a d2 hd2 with h2 | ⟨b, e1, e2, rfl, h2⟩
    · left; simp only [h, ok_bind, h2]
    · right
      exact ⟨b, d1 ++ e1, e2, by simp, by simp only [h, ok_bind, h2]⟩

theorem Safe.ite {α : Type} {t : Bytes} {q : Prop} [Decidable q] {R S : Cur → Out (α × Cur)} (hR : Safe t R)
    (hS : Safe t S) : Safe t (fun c => if q then R c else S c) := by
  by_cases hq : q
  · simp only [if_pos hq]; exact hR
  · simp only [if_neg hq]; exact hS

theorem safe_checked (t : Bytes) : Safe t checkedR := by
  intro d hd
  cases d with
  | nil => left; rfl
  | cons b d =>
    right
    refine ⟨b, [b], d, rfl, ?_⟩
    have := advance_inside [b] d t hd
    unfold checkedR byteR
    rw [if_neg (by simp)]
    simp only [List.cons_append]
    exact congrArg (fun c => Out.ok (b, c)) this

theorem safe_uintFrom (t : Bytes) (b0 b : UInt8) (d : Bytes) (hd : (b :: d ++ t).length < 2 ^ 64) :
    uintFrom b0 ⟨b :: d ++ t, (b :: d).length⟩ = .fail ∨
      ∃ a d1 d2, b :: d = d1 ++ d2 ∧ uintFrom b0 ⟨b :: d ++ t, (b :: d).length⟩ = .ok (a, ⟨d2 ++ t, d2.length⟩) := by
  simp only [uintFrom]
  by_cases h : need b0 = 0 ∨ (b :: d).length < need b0
  · left; rw [if_pos h]
  · right
    push Not at h
    rw [if_neg (by push Not; exact h), if_neg (by simp only [List.length_append]; omega)]
    have hs : b :: d = (b :: d).take (need b0) ++ (b :: d).drop (need b0) := (List.take_append_drop _ _).symm
    have := advance_inside ((b :: d).take (need b0)) ((b :: d).drop (need b0)) t (by rw [← hs]; exact hd)
    rw [← hs, List.length_take, Nat.min_eq_left h.2] at this
    exact ⟨_, _, _, hs, by rw [this]⟩

theorem safe_uint (t : Bytes) : Safe t uintR := by
  intro d hd
  cases d with
  | nil => left; rfl
  | cons b d =>
    unfold uintR
    rw [if_neg (by simp)]
    exact safe_uintFrom t b b d hd

theorem safe_head (t : Bytes) (major : UInt8) (d : Bytes) (hd : (d ++ t).length < 2 ^ 64) (hne : d ≠ []) :
    headR major ⟨d ++ t, d.length⟩ = .fail ∨
      ∃ a d1 d2, d = d1 ++ d2 ∧ headR major ⟨d ++ t, d.length⟩ = .ok (a, ⟨d2 ++ t, d2.length⟩) := by
  cases d with
  | nil => simp at hne
  | cons b d =>
    unfold headR
    simp only [List.cons_append]
    by_cases h : b >>> 5 ≠ major
    · left; rw [if_pos h]
    · rw [if_neg h]
      exact safe_uintFrom t (b &&& 0x1f) b d hd

theorem safe_break (t : Bytes) : Safe t breakR :=
  (safe_checked t).bind (S := fun b c => if b ≠ 0xff then .fail else .ok ((), c)) fun _ => Safe.ite Safe.fail (Safe.ret ())

theorem safe_bytes (t : Bytes) : Safe t bytesR := by
  intro d hd
  unfold bytesR
  by_cases hne : d = []
  · subst hne; left; rfl
  rw [if_neg (by simpa using hne)]
  rcases safe_head t 2 d hd hne with h | ⟨n, d1, d2, rfl, h⟩
  · left; rw [h]; rfl
  · rw [h, ok_bind]
    by_cases hn : d2.length < n
    · left; simp only [if_pos hn]
    · right
      simp only [if_neg hn]
      rw [if_neg (by simp only [List.length_append]; omega)]
      have hs : d2 = d2.take n ++ d2.drop n := (List.take_append_drop _ _).symm
      have := advance_inside (d2.take n) (d2.drop n) t (by
        rw [← hs]; simp only [List.length_append] at hd ⊢; omega)
      rw [← hs, List.length_take, Nat.min_eq_left (by omega)] at this
      exact ⟨_, d1 ++ d2.take n, d2.drop n, by rw [List.append_assoc, ← hs], by rw [this]⟩

theorem safe_value (t : Bytes) (k : Kind) : Safe t (valueR k) := by
  cases k with
  | uint => exact (safe_uint t).bind (S := fun v c => .ok (Value.uint v, c)) fun v => Safe.ret _
  | bytes => exact (safe_bytes t).bind (S := fun v c => .ok (Value.bytes v, c)) fun v => Safe.ret _

theorem safe_items (t : Bytes) (isParam : Bool) (context : Nat) : Safe t (itemsR isParam context) := by
  refine (safe_uint t).bind (S := fun id c => match kindOf isParam context id with
    | none => .fail
    | some k => valueR k c >>= fun y => .ok ((⟨id, y.1⟩ : Pair), y.2)) fun id => ?_
  cases kindOf isParam context id with
  | none => exact Safe.fail
  | some k => exact (safe_value t k).bind (S := fun v c => .ok ((⟨id, v⟩ : Pair), c)) fun v => Safe.ret _

theorem safe_idValue (t : Bytes) (isParam : Bool) (context : Nat) : Safe t (idValueR isParam context) := by
  rw [idValueR_eq]
  refine (safe_checked t).bind (S := fun i c => if i ≠ 0x82 ∧ i ≠ 0x9f then .fail else
      itemsR isParam context c >>= fun x => if i = 0x9f then breakR x.2 >>= fun z => .ok (x.1, z.2)
        else .ok (x.1, x.2)) fun i => Safe.ite Safe.fail ?_
  refine (safe_items t isParam context).bind (S := fun x c => if i = 0x9f then breakR c >>= fun z => .ok (x, z.2)
        else .ok (x, c)) fun x => Safe.ite ?_ (Safe.ret x)
  exact (safe_break t).bind (S := fun _ c => .ok (x, c)) fun _ => Safe.ret x

theorem safe_wrap (b : UInt8) (t : Bytes) (hb : b ≠ 0x81) (wrap : Bool) : Safe (b :: t) (wrapR wrap) := by
  cases wrap with
  | false => exact Safe.ret ()
  | true =>
    intro d hd
    cases d with
    | nil =>
      left
      show (byteR ⟨b :: t, 0⟩ >>= fun x => if x.1 ≠ 0x81 then .fail else .ok ((), x.2)) = .fail
      simp [byteR, ok_bind, hb]
    | cons x d =>
      show (byteR ⟨x :: (d ++ b :: t), d.length + 1⟩ >>= fun y => if y.1 ≠ 0x81 then .fail else .ok ((), y.2)) = .fail ∨
        ∃ a d1 d2, x :: d = d1 ++ d2 ∧
          (byteR ⟨x :: (d ++ b :: t), d.length + 1⟩ >>= fun y => if y.1 ≠ 0x81 then .fail else .ok ((), y.2)) =
            .ok (a, ⟨d2 ++ b :: t, d2.length⟩)
      have : Cur.advance ⟨x :: (d ++ b :: t), d.length + 1⟩ 1 = ⟨d ++ b :: t, d.length⟩ := advance_inside [x] d (b :: t) hd
      simp only [byteR, ok_bind]
      by_cases hx : x ≠ 0x81
      · left; rw [if_pos hx]
      · right
        rw [if_neg hx]
        exact ⟨(), [x], d, rfl, by rw [this]⟩

theorem safe_pairs (b : UInt8) (t : Bytes) (hb : b ≠ 0x81) (isParam : Bool) (context : Nat) (wrap : Bool) (n : Nat) :
    Safe (b :: t) (pairsR isParam context wrap n) := by
  induction n with
  | zero => exact Safe.ret []
  | succ n ih =>
    exact (safe_wrap b t hb wrap).bind (S := fun _ c => idValueR isParam context c >>= fun x =>
        pairsR isParam context wrap n x.2 >>= fun y => .ok (x.1 :: y.1, y.2)) fun _ =>
      (safe_idValue _ isParam context).bind (S := fun x c =>
        pairsR isParam context wrap n c >>= fun y => .ok (x :: y.1, y.2)) fun x =>
      ih.bind (S := fun l c => .ok (x :: l, c)) fun l => Safe.ret _

theorem safe_vec (b : UInt8) (t : Bytes) (hb : b ≠ 0x81) (isParam : Bool) (context : Nat) (wrap : Bool) :
    Safe (b :: t) (vecR isParam context maxElements wrap) := by
  intro d hd
  cases d with
  | nil => left; rfl
  | cons i d =>
    unfold vecR
    rw [if_neg (by simp)]
    have h1 : byteR ⟨i :: (d ++ b :: t), d.length + 1⟩ = .ok (i, Cur.advance ⟨i :: (d ++ b :: t), d.length + 1⟩ 1) := by
      rw [byteR]
    have h2 : Cur.advance ⟨i :: (d ++ b :: t), d.length + 1⟩ 1 = ⟨d ++ b :: t, d.length⟩ := advance_inside [i] d (b :: t) hd
    rw [h2] at h1
    simp only [List.cons_append, List.length_cons, h1, ok_bind]
    split
    · have hs := (safe_pairs b t hb isParam context wrap maxElements).bind
        (S := fun l c => breakR c >>= fun y => .ok (l, y.2)) fun l =>
          (safe_break _).bind (S := fun _ c => .ok (l, c)) fun _ => Safe.ret l
      rcases hs d (by simp only [List.length_append, List.length_cons] at hd ⊢; omega) with h | ⟨a, d1, d2, rfl, h⟩
      · exact Or.inl h
      · exact Or.inr ⟨a, i :: d1, d2, rfl, h⟩
    · have hh := safe_head (b :: t) 4 (i :: d) hd (by simp)
      simp only [List.cons_append, List.length_cons] at hh
      rcases hh with h | ⟨n, d1, d2, e, h⟩
      · left; rw [h]; rfl
      · simp only [h, ok_bind]
        split
        · exact Or.inl rfl
        · have hl := congrArg List.length e
          simp only [List.length_append, List.length_cons] at hl
          rcases safe_pairs b t hb isParam context wrap n d2
            (by simp only [List.length_append, List.length_cons] at hd ⊢; omega) with h' | ⟨a, e1, e2, rfl, h'⟩
          · exact Or.inl h'
          · exact Or.inr ⟨a, d1 ++ e1, e2, by rw [e]; simp, h'⟩

theorem safe_targets (t : Bytes) : Safe t (targetsR maxElements) := by
  intro d hd
  unfold targetsR
  simp only [List.take_left]
  cases h : arrayDeserialize d maxElements with
  | none => left; rfl
  | some x =>
    obtain ⟨ts, k⟩ := x
    right
    have hk := ((C06_array_iff _ _ _ _).1 h).1
    have hs : d = d.take k ++ d.drop k := (List.take_append_drop _ _).symm
    have := advance_inside (d.take k) (d.drop k) t (by rw [← hs]; exact hd)
    rw [← hs, List.length_take, Nat.min_eq_left hk] at this
    exact ⟨ts, _, _, hs, by simp only [this]⟩

theorem safe_params (b : UInt8) (t : Bytes) (hb : b ≠ 0x81) (old : List Pair) (context flags : Nat) :
    Safe (b :: t) (paramsR old context flags) := Safe.ite (safe_vec b t hb true context false) (Safe.ret old)

/-- Once the source lies inside the block and the byte behind the block is not taken for the head of a result,
nothing is read that may not be read. -/
theorem read_safe (old : Asb) (front source body : Bytes) (w : Asb) (e : Eid) (b : UInt8) (t : Bytes) (hb : b ≠ 0x81)
    (hf : TakenForFront front w) (he : IsEid7 source e)
    (hl : (front ++ (source ++ body) ++ b :: t).length < 2 ^ 64) :
    read old (front ++ (source ++ body)) (b :: t) ≠ .fault := by
  have hl' := hl
  simp only [List.length_append, List.length_cons] at hl'
  have hc : Fine ⟨front ++ (source ++ body) ++ b :: t, (front ++ (source ++ body)).length⟩ :=
    ⟨hl, by simp only [List.length_append]; omega⟩
  unfold read
  rw [front_complete (t := source ++ (body ++ b :: t)) hc hf (by simp) (by simp only [List.length_append]; omega)]
  rw [advance_inside front (source ++ body) (b :: t) hl]
  have hc1 : Fine ⟨source ++ body ++ b :: t, (source ++ body).length⟩ :=
    ⟨by simp only [List.length_append, List.length_cons]; omega, by simp only [List.length_append]; omega⟩
  have h1 := sourceR_complete (n := (front ++ (source ++ body)).length) (t := body ++ b :: t) hc1
    (by simp only [List.length_append]; omega) he (by simp) (by simp only [List.length_append]; omega)
  rw [advance_inside source body (b :: t) (by simp only [List.length_append, List.length_cons]; omega)] at h1
  unfold tailR
  rw [h1, ok_bind]
  simp only
  rcases safe_params b t hb old.params w.context w.flags body
    (by simp only [List.length_append, List.length_cons]; omega) with h | ⟨ps, d1, d2, rfl, h⟩
  · rw [h]; simp [fail_bind]
  · rw [h, ok_bind]
    simp only
    simp only [List.length_append] at hl'
    rcases safe_vec b t hb false w.context true d2
      (by simp only [List.length_append, List.length_cons]; omega) with h | ⟨rs, d3, d4, rfl, h⟩
    · rw [h]; simp [fail_bind]
    · rw [h, ok_bind, ok_bind]
      simp only
      split <;> simp

end Hdtn.BpSec7
