import Verif.BpSec7.Spec
import Verif.AdminRecord7.Write

/-! Lemmas about reading security blocks. -/

namespace Hdtn.BpSec7

open Hdtn.HashMap16 Hdtn.Cbor Hdtn.Cbor.Spec Hdtn.Cbhe Hdtn.Cbhe.Spec Hdtn.Bpv7Canonical Hdtn.Bpv7Canonical.Spec
  Hdtn.AdminRecord7.Spec Spec

theorem bind_ok {α β : Type} {x : Out α} {f : α → Out β} {b : β} :
    (x >>= f) = .ok b ↔ ∃ a, x = .ok a ∧ f a = .ok b := by
  show Out.bind x f = .ok b ↔ _
  cases x <;> simp [Out.bind]

theorem ok_bind {α β : Type} (a : α) (f : α → Out β) : (Out.ok a >>= f) = f a := by
  show Out.bind (.ok a) f = f a
  rw [Out.bind]

theorem fail_bind {α β : Type} (f : α → Out β) : ((Out.fail : Out α) >>= f) = .fail := by
  show Out.bind .fail f = .fail
  rw [Out.bind]

/-- The numbers are 64-bit ones. -/
def Fine (c : Cur) : Prop := c.mem.length < 2 ^ 64 ∧ c.size < 2 ^ 64

theorem advance_advance (c : Cur) (j k : Nat) (h : j + k < 2 ^ 64) : (c.advance j).advance k = c.advance (j + k) := by
  simp only [Cur.advance, List.drop_drop, Cur.mk.injEq, true_and]
  omega

theorem advance_zero (c : Cur) (h : Fine c) : c.advance 0 = c := by
  obtain ⟨m, s⟩ := c
  simp only [Cur.advance, List.drop_zero, Cur.mk.injEq, true_and]
  have := h.2
  simp only at this
  omega

theorem fine_advance {c : Cur} (h : Fine c) (k : Nat) : Fine (c.advance k) := by
  have := h.1
  refine ⟨by simp only [Cur.advance, List.length_drop]; omega, by simp only [Cur.advance]; omega⟩

/-- `R` takes exactly the encodings `P`: whatever it takes is one, and it takes one whenever the size allows. -/
structure Reads {α : Type} (R : Cur → Out (α × Cur)) (P : Bytes → α → Prop) : Prop where
  sound : ∀ c a c', Fine c → R c = .ok (a, c') → ∃ p t, c.mem = p ++ t ∧ P p a ∧ c' = c.advance p.length
  complete : ∀ p a t c, Fine c → P p a → c.mem = p ++ t → p.length ≤ c.size → R c = .ok (a, c.advance p.length)

theorem Reads.ret {α : Type} (a : α) : Reads (fun c => .ok (a, c)) (fun p b => p = [] ∧ b = a) where
  sound c b c' hc h := by
    simp only [Out.ok.injEq, Prod.mk.injEq] at h
    exact ⟨[], c.mem, rfl, ⟨rfl, h.1.symm⟩, by rw [← h.2]; exact (advance_zero c hc).symm⟩
  complete p b t c hc hp hm hs := by
    obtain ⟨rfl, rfl⟩ := hp
    simp only [List.length_nil, advance_zero c hc]

theorem Reads.fail {α : Type} : Reads (fun _ => (.fail : Out (α × Cur))) (fun _ _ => False) where
  sound c b c' hc h := by simp at h
  complete p b t c hc hp hm hs := hp.elim

theorem Reads.bind {α β : Type} {R : Cur → Out (α × Cur)} {P : Bytes → α → Prop} {S : α → Cur → Out (β × Cur)}
    {Q : α → Bytes → β → Prop} (hR : Reads R P) (hS : ∀ a, Reads (S a) (Q a)) :
    Reads (fun c => R c >>= fun x => S x.1 x.2) (fun p b => ∃ p1 p2 a, p = p1 ++ p2 ∧ P p1 a ∧ Q a p2 b) where
  sound c b c' hc h := by
    obtain ⟨⟨a, c1⟩, h1, h2⟩ := bind_ok.1 h
    obtain ⟨p1, t1, e1, hp1, rfl⟩ := hR.sound c a c1 hc h1
    obtain ⟨p2, t2, e2, hp2, rfl⟩ := (hS a).sound _ b c' (fine_advance hc _) h2
    have ht : t1 = p2 ++ t2 := by
      rw [← e2]; simp only [Cur.advance, e1, List.drop_left]
    refine ⟨p1 ++ p2, t2, by rw [e1, ht, List.append_assoc], ⟨p1, p2, a, rfl, hp1, hp2⟩, ?_⟩
    have hl := hc.1
    rw [e1, ht] at hl
    simp only [List.length_append] at hl
    rw [advance_advance _ _ _ (by omega), List.length_append]
  complete p b t c hc hp hm hs := by
    obtain ⟨p1, p2, a, rfl, hp1, hp2⟩ := hp
    have hl := hc.1
    rw [hm] at hl
    simp only [List.length_append] at hl hs
    have h1 := hR.complete p1 a (p2 ++ t) c hc hp1 (by rw [hm, List.append_assoc]) (by omega)
    have hc2 := hc.2
    have h2 := (hS a).complete p2 b t (c.advance p1.length) (fine_advance hc _) hp2
      (by simp only [Cur.advance, hm, List.append_assoc, List.drop_left])
      (by simp only [Cur.advance]; omega)
    simp only [h1, ok_bind, h2]
    rw [advance_advance _ _ _ (by omega), List.length_append]

theorem Reads.ite {α : Type} {q : Prop} [Decidable q] {R S : Cur → Out (α × Cur)} {P Q : Bytes → α → Prop}
    (hR : q → Reads R P) (hS : ¬ q → Reads S Q) :
    Reads (fun c => if q then R c else S c) (fun p a => (q ∧ P p a) ∨ (¬ q ∧ Q p a)) where
  sound c a c' hc h := by
    by_cases hq : q
    · simp only [if_pos hq] at h
      obtain ⟨p, t, e, hp, hc'⟩ := (hR hq).sound c a c' hc h
      exact ⟨p, t, e, Or.inl ⟨hq, hp⟩, hc'⟩
    · simp only [if_neg hq] at h
      obtain ⟨p, t, e, hp, hc'⟩ := (hS hq).sound c a c' hc h
      exact ⟨p, t, e, Or.inr ⟨hq, hp⟩, hc'⟩
  complete p a t c hc hp hm hs := by
    rcases hp with ⟨hq, hp⟩ | ⟨hq, hp⟩
    · simp only [if_pos hq]; exact (hR hq).complete p a t c hc hp hm hs
    · simp only [if_neg hq]; exact (hS hq).complete p a t c hc hp hm hs

/-- The encodings may be described in another way. -/
theorem Reads.conv {α : Type} {R : Cur → Out (α × Cur)} {P Q : Bytes → α → Prop} (h : Reads R P)
    (hPQ : ∀ p a, P p a ↔ Q p a) : Reads R Q := by
  have : P = Q := by funext p a; exact propext (hPQ p a)
  exact this ▸ h

/-- A test of the size that a longer encoding passes anyway. -/
theorem Reads.guard {α : Type} {R : Cur → Out (α × Cur)} {P : Bytes → α → Prop} (k : Nat) (h : Reads R P)
    (hk : ∀ p a, P p a → k ≤ p.length) : Reads (fun c => if c.size < k then .fail else R c) P where
  sound c a c' hc h' := by
    split at h'
    · simp at h'
    · exact h.sound c a c' hc h'
  complete p a t c hc hp hm hs := by
    have := hk p a hp
    simp only [if_neg (show ¬ c.size < k by omega)]
    exact h.complete p a t c hc hp hm hs

theorem guard_zero {α : Type} (R : Cur → Out (α × Cur)) :
    (fun c : Cur => if c.size = 0 then .fail else R c) = fun c => if c.size < 1 then .fail else R c := by
  funext c
  simp only [Nat.lt_one_iff]

theorem reads_byte : Reads byteR (fun p b => p = [b]) where
  sound c a c' hc h := by
    unfold byteR at h
    split at h
    · simp at h
    · rename_i b r e
      simp only [Out.ok.injEq, Prod.mk.injEq] at h
      exact ⟨[a], r, by rw [e, h.1]; rfl, rfl, h.2.symm⟩
  complete p a t c hc hp hm hs := by
    subst hp
    unfold byteR
    rw [hm]
    rfl

theorem reads_checked : Reads checkedR (fun p b => p = [b]) := by
  have := reads_byte.guard 1 (by rintro p a rfl; simp)
  rwa [← guard_zero] at this

theorem need_of_isUint {b : UInt8} {r : Bytes} {v : Nat} (h : IsUint (b :: r) v) : need b = r.length + 1 := by
  obtain ⟨b', r', e, h⟩ := h
  simp only [List.cons.injEq] at e
  obtain ⟨rfl, rfl⟩ := e
  have e24 : b = 24 ↔ b.toNat = 24 := u8_eq_iff b 24 (by decide)
  have e25 : b = 25 ↔ b.toNat = 25 := u8_eq_iff b 25 (by decide)
  have e26 : b = 26 ↔ b.toNat = 26 := u8_eq_iff b 26 (by decide)
  have e27 : b = 27 ↔ b.toNat = 27 := u8_eq_iff b 27 (by decide)
  simp only [need, u8_lt_24, e24, e25, e26, e27]
  rcases h with ⟨h1, rfl, _⟩ | ⟨k, hk, hb, hr, _⟩
  · rw [if_pos h1]; rfl
  · rw [hr, if_neg (by omega)]
    interval_cases k <;> simp [hb]

theorem isUint_of_need {b : UInt8} {r : Bytes} (h0 : need b ≠ 0) (hl : need b ≤ r.length + 1) :
    IsUint ((b :: r).take (need b)) (decodeU64Classic (b :: r)).1 := by
  have hd : decodeU64Classic (b :: r) = ((decodeU64Classic (b :: r)).1, need b) := by
    refine Prod.ext rfl ?_
    have e24 : b = 24 ↔ b.toNat = 24 := u8_eq_iff b 24 (by decide)
    have e25 : b = 25 ↔ b.toNat = 25 := u8_eq_iff b 25 (by decide)
    have e26 : b = 26 ↔ b.toNat = 26 := u8_eq_iff b 26 (by decide)
    have e27 : b = 27 ↔ b.toNat = 27 := u8_eq_iff b 27 (by decide)
    rw [decode_cons]
    simp only [need, u8_lt_24, e24, e25, e26, e27] at h0 hl ⊢
    by_cases h1 : b.toNat < 24
    · simp only [if_pos h1]
    · by_cases h2 : b.toNat = 24
      · simp only [if_neg h1, if_pos h2] at hl ⊢; rw [if_pos (by omega)]
      · by_cases h3 : b.toNat = 25
        · simp only [if_neg h1, if_neg h2, if_pos h3] at hl ⊢; rw [if_pos (by omega)]
        · by_cases h4 : b.toNat = 26
          · simp only [if_neg h1, if_neg h2, if_neg h3, if_pos h4] at hl ⊢; rw [if_pos (by omega)]
          · by_cases h5 : b.toNat = 27
            · simp only [if_neg h1, if_neg h2, if_neg h3, if_neg h4, if_pos h5] at hl ⊢; rw [if_pos (by omega)]
            · simp [h1, h2, h3, h4, h5] at h0
  exact ((decode_iff (b :: r) _ (need b)).1 ⟨hd, h0⟩).2

theorem uintFrom_sound {b0 b : UInt8} {r : Bytes} {c c' : Cur} {v : Nat} (hm : c.mem = b :: r)
    (h : uintFrom b0 c = .ok (v, c')) :
    ∃ r1 t, r = r1 ++ t ∧ IsUint (b0 :: r1) v ∧ c' = c.advance (r1.length + 1) := by
  simp only [uintFrom] at h
  split at h
  · simp at h
  rename_i h0
  split at h
  · simp at h
  rename_i hl
  rw [hm, List.length_cons] at hl
  simp only [Out.ok.injEq, Prod.mk.injEq, hm, List.drop_succ_cons, List.drop_zero] at h
  have hn0 : need b0 ≠ 0 := fun hx => h0 (Or.inl hx)
  have hu := isUint_of_need hn0 (show need b0 ≤ r.length + 1 by omega)
  obtain ⟨k, hk⟩ : ∃ k, need b0 = k + 1 := ⟨need b0 - 1, by omega⟩
  rw [hk, List.take_succ_cons] at hu
  refine ⟨r.take k, r.drop k, (List.take_append_drop k r).symm, ?_, ?_⟩
  · rw [← h.1]; exact hu
  · rw [← h.2, hk, List.length_take, Nat.min_eq_left (by omega)]

theorem uintFrom_complete {b0 b : UInt8} {r t : Bytes} {c : Cur} {v : Nat} (hm : c.mem = b :: (r ++ t))
    (hu : IsUint (b0 :: r) v) (hs : r.length + 1 ≤ c.size) : uintFrom b0 c = .ok (v, c.advance (r.length + 1)) := by
  have hn := need_of_isUint hu
  have hd := (decode_iff (b0 :: r ++ t) v (r.length + 1)).2 ⟨by simp, by
    rw [show r.length + 1 = (b0 :: r).length from rfl, List.take_left]; exact hu⟩
  simp only [uintFrom, hn, hm, List.drop_succ_cons, List.drop_zero, List.length_cons, List.length_append]
  rw [if_neg (by omega), if_neg (by omega)]
  rw [List.cons_append] at hd
  rw [hd.1]

theorem reads_uint : Reads uintR IsUint where
  sound c a c' hc h := by
    unfold uintR at h
    split at h
    · simp at h
    split at h
    · simp at h
    rename_i b r e
    obtain ⟨r1, t, rfl, hu, rfl⟩ := uintFrom_sound e h
    exact ⟨b :: r1, t, e, hu, rfl⟩
  complete p a t c hc hp hm hs := by
    have hne := isUint_ne_nil hp
    cases p with
    | nil => simp at hne
    | cons b r =>
      simp only [List.length_cons] at hs
      unfold uintR
      rw [if_neg (by omega), hm]
      exact uintFrom_complete hm hp hs

theorem reads_head_array : Reads (headR 4) IsArrayHead where
  sound c a c' hc h := by
    unfold headR at h
    split at h
    · simp at h
    rename_i b r e
    split at h
    · simp at h
    rename_i h4
    rw [u8_shr5, not_not] at h4
    obtain ⟨r1, t, rfl, hu, rfl⟩ := uintFrom_sound e h
    refine ⟨b :: r1, t, e, ⟨b, r1, rfl, b &&& 0x1f, ?_, hu⟩, rfl⟩
    rw [u8_and_1f]
    omega
  complete p a t c hc hp hm hs := by
    obtain ⟨b, r, rfl, b0, hb, hu⟩ := hp
    have hb28 : b0.toNat < 28 := by
      obtain ⟨x, y, e, h⟩ := hu
      simp only [List.cons.injEq] at e
      rcases h with h | ⟨k, h⟩ <;> rw [e.1] <;> omega
    have hb0 : b &&& 0x1f = b0 := by
      rw [← UInt8.toNat_inj, u8_and_1f]; omega
    unfold headR
    rw [hm]
    simp only [List.cons_append]
    rw [if_neg (by rw [u8_shr5, not_not]; omega), hb0]
    exact uintFrom_complete hm hu hs

theorem u8_shr5_2 (b : UInt8) : (b >>> 5 ≠ 2) ↔ ¬ (0x40 ≤ b.toNat ∧ b.toNat < 0x60) := by
  have : ∀ k < 256, ((UInt8.ofNat k) >>> 5 ≠ 2) ↔ ¬ (0x40 ≤ (UInt8.ofNat k).toNat ∧ (UInt8.ofNat k).toNat < 0x60) := by
    decide +kernel
  exact u8_forall (P := fun b => (b >>> 5 ≠ 2) ↔ ¬ (0x40 ≤ b.toNat ∧ b.toNat < 0x60)) this b

theorem reads_head_string : Reads (headR 2) IsStringHead where
  sound c a c' hc h := by
    unfold headR at h
    split at h
    · simp at h
    rename_i b r e
    split at h
    · simp at h
    rename_i h4
    rw [u8_shr5_2, not_not] at h4
    obtain ⟨r1, t, rfl, hu, rfl⟩ := uintFrom_sound e h
    refine ⟨b :: r1, t, e, ⟨b, r1, rfl, b &&& 0x1f, ?_, hu⟩, rfl⟩
    rw [u8_and_1f]
    omega
  complete p a t c hc hp hm hs := by
    obtain ⟨b, r, rfl, b0, hb, hu⟩ := hp
    have hb28 : b0.toNat < 28 := by
      obtain ⟨x, y, e, h⟩ := hu
      simp only [List.cons.injEq] at e
      rcases h with h | ⟨k, h⟩ <;> rw [e.1] <;> omega
    have hb0 : b &&& 0x1f = b0 := by
      rw [← UInt8.toNat_inj, u8_and_1f]; omega
    unfold headR
    rw [hm]
    simp only [List.cons_append]
    rw [if_neg (by rw [u8_shr5_2, not_not]; omega), hb0]
    exact uintFrom_complete hm hu hs

theorem reads_break : Reads breakR (fun p _ => p = [0xff]) := by
  refine (reads_checked.bind (S := fun b c => if b ≠ 0xff then .fail else .ok ((), c)) fun b => Reads.ite (fun _ => Reads.fail) fun _ => Reads.ret ()).conv ?_
  intro p u
  constructor
  · rintro ⟨p1, p2, b, rfl, rfl, ⟨_, h⟩ | ⟨hb, rfl, _⟩⟩
    · exact h.elim
    · simp only [ne_eq, not_not] at hb
      simp [hb]
  · rintro rfl
    exact ⟨[0xff], [], 0xff, rfl, rfl, Or.inr ⟨by simp, rfl, rfl⟩⟩

/-- An array of two items, which `Q` describes. -/
theorem reads_closed {α : Type} {R : Cur → Out (α × Cur)} {Q : Bytes → α → Prop} (hR : Reads R Q) (i : UInt8) :
    Reads (fun c => R c >>= fun x => if i = 0x9f then breakR x.2 >>= fun y => .ok (x.1, y.2) else .ok (x.1, x.2))
      (fun p a => (i = 0x9f ∧ ∃ q, p = q ++ [0xff] ∧ Q q a) ∨ (i ≠ 0x9f ∧ Q p a)) := by
  refine (hR.bind (S := fun a c => if i = 0x9f then breakR c >>= fun y => .ok (a, y.2) else .ok (a, c)) fun a =>
    Reads.ite (fun _ => reads_break.bind (S := fun _ c => .ok (a, c)) fun _ => Reads.ret a) fun _ => Reads.ret a).conv ?_
  intro p a
  constructor
  · rintro ⟨p1, p2, a', rfl, hq, ⟨hi, q1, q2, _, rfl, rfl, rfl, rfl⟩ | ⟨hi, rfl, rfl⟩⟩
    · exact Or.inl ⟨hi, p1, by simp, hq⟩
    · exact Or.inr ⟨hi, by simpa using hq⟩
  · rintro (⟨hi, q, rfl, hq⟩ | ⟨hi, hq⟩)
    · exact ⟨q, [0xff], a, rfl, hq, Or.inl ⟨hi, [0xff], [], (), rfl, rfl, rfl, rfl⟩⟩
    · exact ⟨p, [], a, by simp, hq, Or.inr ⟨hi, rfl, rfl⟩⟩

theorem reads_two {α : Type} {R : Cur → Out (α × Cur)} {Q : Bytes → α → Prop} {H : Cur → Out (UInt8 × Cur)}
    (hH : Reads H (fun p b => p = [b])) (hR : Reads R Q) :
    Reads (fun c => H c >>= fun y => if y.1 ≠ 0x82 ∧ y.1 ≠ 0x9f then .fail else
        R y.2 >>= fun x => if y.1 = 0x9f then breakR x.2 >>= fun z => .ok (x.1, z.2) else .ok (x.1, x.2))
      (fun p a => ∃ q, IsArray 2 p q ∧ Q q a) := by
  refine (hH.bind (S := fun i c => if i ≠ 0x82 ∧ i ≠ 0x9f then .fail else
        R c >>= fun x => if i = 0x9f then breakR x.2 >>= fun z => .ok (x.1, z.2) else .ok (x.1, x.2))
    fun i => Reads.ite (fun _ => Reads.fail) fun _ => reads_closed hR i).conv ?_
  intro p a
  constructor
  · rintro ⟨p1, p2, i, rfl, rfl, ⟨_, h⟩ | ⟨hi, ⟨rfl, q, rfl, hq⟩ | ⟨h9, hq⟩⟩⟩
    · exact h.elim
    · exact ⟨q, Or.inr rfl, hq⟩
    · have : i = 0x82 := by
        by_contra h
        exact hi ⟨h, h9⟩
      subst this
      exact ⟨p2, Or.inl rfl, hq⟩
  · rintro ⟨q, rfl | rfl, hq⟩
    · exact ⟨[0x82], q, 0x82, rfl, rfl, Or.inr ⟨by decide, Or.inr ⟨by decide, hq⟩⟩⟩
    · exact ⟨[0x9f], q ++ [0xff], 0x9f, rfl, rfl, Or.inr ⟨by decide, Or.inl ⟨rfl, q, rfl, hq⟩⟩⟩

theorem isArray2 (p q : Bytes) : IsArray 2 p q ↔ (p = 0x82 :: q ∨ p = 0x9f :: q ++ [0xff]) := Iff.rfl

theorem reads_pair : Reads pairR (fun p x => IsPair p x.1 x.2) := by
  have h2 : Reads (fun c => uintR c >>= fun x => uintR x.2 >>= fun y => .ok ((x.1, y.1), y.2))
      (fun q x => IsUints q [x.1, x.2]) := by
    refine (reads_uint.bind (S := fun a c => uintR c >>= fun y => .ok ((a, y.1), y.2)) fun a =>
      reads_uint.bind (S := fun b c => .ok ((a, b), c)) fun b => Reads.ret (a, b)).conv ?_
    rintro p ⟨x, y⟩
    constructor
    · rintro ⟨p1, p2, a, rfl, ha, q1, q2, b, rfl, hb, rfl, h⟩
      simp only [Prod.mk.injEq] at h
      obtain ⟨rfl, rfl⟩ := h
      exact ⟨p1, q1 ++ [], rfl, ha, q1, [], rfl, hb, rfl⟩
    · rintro ⟨p1, p2, rfl, ha, q1, q2, rfl, hb, rfl⟩
      exact ⟨p1, _, x, rfl, ha, q1, [], y, rfl, hb, rfl, rfl⟩
  have h := reads_two reads_checked h2
  have he : pairR = fun c => checkedR c >>= fun y => if y.1 ≠ 0x82 ∧ y.1 ≠ 0x9f then .fail else
        (uintR y.2 >>= fun x => uintR x.2 >>= fun y => Out.ok ((x.1, y.1), y.2)) >>= fun x =>
          if y.1 = 0x9f then breakR x.2 >>= fun z => .ok (x.1, z.2) else .ok (x.1, x.2) := by
    funext c
    unfold pairR
    cases h1 : checkedR c with
    | fault => rfl
    | fail => rfl
    | ok x =>
      obtain ⟨i, c⟩ := x
      simp only [ok_bind]
      split
      · rfl
      cases h2 : uintR c with
      | fault => rfl
      | fail => rfl
      | ok x =>
        obtain ⟨a, c⟩ := x
        simp only [ok_bind]
        cases h3 : uintR c <;> rfl
  rw [he]
  exact h

theorem reads_scheme : Reads (fun c => byteR c >>= fun y => schemeR y.1 y.2) IsItems := by
  refine (reads_byte.bind (S := schemeR) (Q := fun uri p e => (uri = 1 ∧ ∃ p1 p2 s, p = p1 ++ p2 ∧ p1 = [s] ∧
      ((s ≠ 0 ∧ False) ∨ (¬ s ≠ 0 ∧ p2 = [] ∧ e = ⟨0, 0⟩))) ∨ (uri ≠ 1 ∧ ((uri = 2 ∧ ∃ p1 p2, ∃ x : Nat × Nat,
      p = p1 ++ p2 ∧ IsPair p1 x.1 x.2 ∧ p2 = [] ∧ e = ⟨x.1, x.2⟩) ∨ (uri ≠ 2 ∧ False)))) fun uri => ?_).conv ?_
  · refine Reads.ite (fun _ => ?_) fun _ => Reads.ite (fun _ => ?_) fun _ => Reads.fail
    · exact reads_byte.bind (S := fun s c => if s ≠ 0 then .fail else .ok ((⟨0, 0⟩ : Eid), c)) fun s =>
        Reads.ite (fun _ => Reads.fail) fun _ => Reads.ret _
    · exact reads_pair.bind (S := fun x c => .ok ((⟨x.1, x.2⟩ : Eid), c)) fun x => Reads.ret _
  · intro p e
    constructor
    · rintro ⟨_, p2, uri, rfl, rfl, ⟨rfl, _, q2, s, rfl, rfl, ⟨_, h⟩ | ⟨hs, rfl, rfl⟩⟩ |
        ⟨_, ⟨rfl, q1, q2, x, rfl, hx, rfl, rfl⟩ | ⟨_, h⟩⟩⟩
      · exact h.elim
      · simp only [ne_eq, not_not] at hs
        subst hs
        exact Or.inl ⟨rfl, rfl⟩
      · exact Or.inr ⟨q1, by simp, hx⟩
      · exact h.elim
    · rintro (⟨rfl, rfl⟩ | ⟨q, rfl, hq⟩)
      · exact ⟨[1], [0], 1, rfl, rfl, Or.inl ⟨rfl, [0], [], 0, rfl, rfl, Or.inr ⟨by simp, rfl, rfl⟩⟩⟩
      · exact ⟨[2], q, 2, rfl, rfl, Or.inr ⟨by decide, Or.inl ⟨rfl, q, [], (e.node, e.service), by simp, hq, rfl, rfl⟩⟩⟩

theorem isEid7_length {p : Bytes} {e : Eid} (h : IsEid7 p e) : 3 ≤ p.length := by
  obtain ⟨q, h, hi⟩ := h
  have : 2 ≤ q.length := by
    rcases hi with ⟨rfl, _⟩ | ⟨r, rfl, body, hb, _⟩
    · simp
    · rcases hb with rfl | rfl <;> simp
  rcases h with rfl | rfl <;> simp <;> omega

theorem reads_eid : Reads eidR IsEid7 := by
  refine Reads.guard 3 ?_ fun p e h => isEid7_length h
  have h := reads_two reads_byte reads_scheme
  refine Reads.conv (P := fun p a => ∃ q, IsArray 2 p q ∧ IsItems q a) ?_ fun p a => Iff.rfl
  convert h using 1
  funext c
  cases h1 : byteR c with
  | fault => rfl
  | fail => rfl
  | ok x =>
    obtain ⟨i, c⟩ := x
    simp only [ok_bind]
    split
    · rfl
    cases h2 : byteR c with
    | fault => rfl
    | fail => rfl
    | ok x =>
      obtain ⟨a, c⟩ := x
      simp only [ok_bind]

theorem sourceR_sound {n : Nat} {c c' : Cur} {e : Eid} (hc : Fine c) (hn : n < 2 ^ 64) (h : sourceR n c = .ok (e, c')) :
    ∃ p t, c.mem = p ++ t ∧ IsEid7 p e ∧ c' = c.advance p.length := by
  obtain ⟨⟨e', c1⟩, h1, h2⟩ := bind_ok.1 h
  obtain ⟨p, t, hm, hp, rfl⟩ := reads_eid.sound ⟨c.mem, n⟩ e' c1 ⟨hc.1, hn⟩ h1
  simp only [Out.ok.injEq, Prod.mk.injEq] at h2
  obtain ⟨rfl, rfl⟩ := h2
  refine ⟨p, t, hm, hp, ?_⟩
  simp only at hm
  simp only [Cur.advance, hm, List.drop_left, List.length_append]
  rw [show p.length + t.length - t.length = p.length by omega, List.drop_left]

theorem sourceR_complete {n : Nat} {c : Cur} {p t : Bytes} {e : Eid} (hc : Fine c) (hn : n < 2 ^ 64) (hp : IsEid7 p e)
    (hm : c.mem = p ++ t) (hs : p.length ≤ n) : sourceR n c = .ok (e, c.advance p.length) := by
  have h1 := reads_eid.complete p e t ⟨c.mem, n⟩ ⟨hc.1, hn⟩ hp hm hs
  simp only [sourceR, h1, ok_bind]
  simp only [Cur.advance, hm, List.drop_left, List.length_append]
  rw [show p.length + t.length - t.length = p.length by omega, List.drop_left]

theorem reads_bytes : Reads bytesR (fun p b => ∃ h, p = h ++ b ∧ IsStringHead h b.length) := by
  have : bytesR = fun c => if c.size < 1 then .fail else headR 2 c >>= fun x =>
      if x.2.size < x.1 then .fail else if x.2.mem.length < x.1 then .fault
      else .ok (x.2.mem.take x.1, x.2.advance x.1) := by
    funext c
    simp only [bytesR, Nat.lt_one_iff]
  rw [this]
  refine Reads.guard 1 ?_ ?_
  · refine (reads_head_string.bind (S := fun n c => if c.size < n then .fail else if c.mem.length < n then .fault
      else .ok (c.mem.take n, c.advance n)) (Q := fun n p b => p = b ∧ b.length = n) fun n => ?_).conv ?_
    · refine ⟨?_, ?_⟩
      · intro c a c' hc h
        split at h
        · simp at h
        split at h
        · simp at h
        rename_i hl
        simp only [Out.ok.injEq, Prod.mk.injEq] at h
        refine ⟨a, c.mem.drop n, by rw [← h.1, List.take_append_drop], ⟨rfl, ?_⟩, ?_⟩
        · rw [← h.1, List.length_take]; omega
        · rw [← h.2, ← h.1, List.length_take, Nat.min_eq_left (by omega)]
      · rintro p a t c hc ⟨rfl, rfl⟩ hm hs
        rw [if_neg (by omega), if_neg (by rw [hm, List.length_append]; omega), hm, List.take_left]
    · intro p b
      constructor
      · rintro ⟨p1, p2, n, rfl, hp1, rfl, rfl⟩
        exact ⟨p1, rfl, hp1⟩
      · rintro ⟨h, rfl, hh⟩
        exact ⟨h, b, b.length, rfl, hh, rfl, rfl⟩
  · rintro p a ⟨h, rfl, b, r, rfl, _⟩
    simp

theorem kindOf_iff (isParam : Bool) (context id : Nat) (v : Value) :
    Assigned isParam (context % 2 ^ 32) (id % 2 ^ 32) v ↔
      kindOf isParam context id = some (match v with | .uint _ => .uint | .bytes _ => .bytes) := by
  unfold kindOf Assigned
  generalize context % 2 ^ 32 = cx
  generalize id % 2 ^ 32 = i
  by_cases h1 : cx = 1
  · subst h1
    cases isParam <;> cases v <;> simp <;> (try split_ifs) <;> (try simp_all) <;> (try omega)
  · by_cases h2 : cx = 2
    · subst h2
      cases isParam <;> cases v <;> simp <;> (try split_ifs) <;> (try simp_all) <;> (try omega)
    · cases isParam <;> cases v <;> simp [h1, h2]

theorem reads_value (k : Kind) : Reads (valueR k)
    (fun p v => IsValue p v ∧ k = match v with | .uint _ => .uint | .bytes _ => .bytes) := by
  cases k with
  | uint =>
    refine (reads_uint.bind (S := fun v c => .ok (Value.uint v, c)) fun v => Reads.ret _).conv ?_
    intro p v
    constructor
    · rintro ⟨p1, p2, n, rfl, hn, rfl, rfl⟩
      exact ⟨by simpa [IsValue] using hn, rfl⟩
    · rintro ⟨hv, hk⟩
      cases v with
      | uint n => exact ⟨p, [], n, by simp, hv, rfl, rfl⟩
      | bytes b => simp at hk
  | bytes =>
    refine (reads_bytes.bind (S := fun v c => .ok (Value.bytes v, c)) fun v => Reads.ret _).conv ?_
    intro p v
    constructor
    · rintro ⟨p1, p2, n, rfl, hn, rfl, rfl⟩
      exact ⟨by simpa [IsValue] using hn, rfl⟩
    · rintro ⟨hv, hk⟩
      cases v with
      | uint n => simp at hk
      | bytes b => exact ⟨p, [], b, by simp, hv, rfl, rfl⟩

/-- The identifier and the value. -/
def itemsR (isParam : Bool) (context : Nat) (c : Cur) : Out (Pair × Cur) :=
  uintR c >>= fun x => match kindOf isParam context x.1 with
    | none => .fail
    | some k => valueR k x.2 >>= fun y => .ok (⟨x.1, y.1⟩, y.2)

theorem reads_items (isParam : Bool) (context : Nat) : Reads (itemsR isParam context)
    (fun p x => ∃ id v, p = id ++ v ∧ IsUint id x.id ∧ IsValue v x.value ∧
      Assigned isParam (context % 2 ^ 32) (x.id % 2 ^ 32) x.value) := by
  refine (reads_uint.bind (S := fun id c => match kindOf isParam context id with
    | none => .fail
    | some k => valueR k c >>= fun y => .ok ((⟨id, y.1⟩ : Pair), y.2))
    (Q := fun id p (x : Pair) => x.id = id ∧ IsValue p x.value ∧ Assigned isParam (context % 2 ^ 32) (id % 2 ^ 32) x.value)
    fun id => ?_).conv ?_
  · cases hk : kindOf isParam context id with
    | none =>
      refine Reads.fail.conv fun p x => ⟨False.elim, fun h => ?_⟩
      rw [kindOf_iff, hk] at h
      simp at h
    | some k =>
      refine ((reads_value k).bind (S := fun v c => .ok ((⟨id, v⟩ : Pair), c)) fun v => Reads.ret _).conv ?_
      rintro p ⟨i, v⟩
      rw [kindOf_iff, hk]
      constructor
      · rintro ⟨p1, p2, v', rfl, ⟨hv, rfl⟩, rfl, h⟩
        simp only [Pair.mk.injEq] at h
        obtain ⟨rfl, rfl⟩ := h
        exact ⟨rfl, by simpa using hv, rfl⟩
      · rintro ⟨rfl, hv, h⟩
        simp only [Option.some.injEq] at h
        exact ⟨p, [], v, by simp, ⟨hv, h⟩, rfl, rfl⟩
  · intro p x
    constructor
    · rintro ⟨p1, p2, id, rfl, h1, rfl, h2, h3⟩
      exact ⟨p1, p2, rfl, h1, h2, h3⟩
    · rintro ⟨id, v, rfl, h1, h2, h3⟩
      exact ⟨id, v, x.id, rfl, h1, rfl, h2, h3⟩

theorem idValueR_eq (isParam : Bool) (context : Nat) : idValueR isParam context =
    fun c => checkedR c >>= fun y => if y.1 ≠ 0x82 ∧ y.1 ≠ 0x9f then .fail else
      itemsR isParam context y.2 >>= fun x => if y.1 = 0x9f then breakR x.2 >>= fun z => .ok (x.1, z.2)
        else .ok (x.1, x.2) := by
  funext c
  unfold idValueR itemsR
  cases h1 : checkedR c with
  | fault => rfl
  | fail => rfl
  | ok x =>
    obtain ⟨i, c⟩ := x
    simp only [ok_bind]
    split
    · rfl
    cases h2 : uintR c with
    | fault => rfl
    | fail => rfl
    | ok x =>
      obtain ⟨a, c⟩ := x
      simp only [ok_bind]
      cases h3 : kindOf isParam context a with
      | none => rfl
      | some k =>
        simp only
        cases h4 : valueR k c <;> rfl

theorem reads_idValue (isParam : Bool) (context : Nat) :
    Reads (idValueR isParam context) (TakenForPair isParam context) := by
  rw [idValueR_eq]
  refine (reads_two reads_checked (reads_items isParam context)).conv ?_
  intro p x
  constructor
  · rintro ⟨q, hq, id, v, rfl, h1, h2, h3⟩
    exact ⟨⟨id, v, hq, h1, h2⟩, h3⟩
  · rintro ⟨⟨id, v, hq, h1, h2⟩, h3⟩
    exact ⟨_, hq, id, v, rfl, h1, h2, h3⟩

theorem reads_wrap (wrap : Bool) : Reads (wrapR wrap) (fun p _ => p = if wrap then [0x81] else []) := by
  cases wrap with
  | true =>
    refine (reads_byte.bind (S := fun b c => if b ≠ 0x81 then .fail else .ok ((), c)) fun b =>
      Reads.ite (fun _ => Reads.fail) fun _ => Reads.ret ()).conv ?_
    intro p u
    constructor
    · rintro ⟨p1, p2, b, rfl, rfl, ⟨_, h⟩ | ⟨hb, rfl, _⟩⟩
      · exact h.elim
      · simp only [ne_eq, not_not] at hb
        simp [hb]
    · rintro rfl
      exact ⟨[0x81], [], 0x81, rfl, rfl, Or.inr ⟨by simp, rfl, rfl⟩⟩
  | false =>
    refine (Reads.ret ()).conv fun p u => ⟨fun h => h.1, fun h => ⟨h, rfl⟩⟩

/-- A pair, in an array of one or not. -/
def Wrapped (isParam : Bool) (context : Nat) (wrap : Bool) (p : Bytes) (x : Pair) : Prop :=
  ∃ q, p = (if wrap then [0x81] else []) ++ q ∧ TakenForPair isParam context q x

theorem reads_pairs (isParam : Bool) (context : Nat) (wrap : Bool) (n : Nat) :
    Reads (pairsR isParam context wrap n) (fun p l => Each (Wrapped isParam context wrap) p l ∧ l.length = n) := by
  induction n with
  | zero =>
    refine (Reads.ret []).conv ?_
    intro p l
    constructor
    · rintro ⟨rfl, rfl⟩; exact ⟨rfl, rfl⟩
    · rintro ⟨h, hl⟩
      rw [List.length_eq_zero_iff] at hl
      subst hl
      exact ⟨h, rfl⟩
  | succ n ih =>
    refine ((reads_wrap wrap).bind (S := fun _ c => idValueR isParam context c >>= fun x =>
        pairsR isParam context wrap n x.2 >>= fun y => .ok (x.1 :: y.1, y.2)) fun _ =>
      (reads_idValue isParam context).bind (S := fun x c =>
        pairsR isParam context wrap n c >>= fun y => .ok (x :: y.1, y.2)) fun x =>
      ih.bind (S := fun l c => .ok (x :: l, c)) fun l => Reads.ret _).conv ?_
    intro p l
    constructor
    · rintro ⟨p1, p2, _, rfl, rfl, q1, q2, x, rfl, hx, r1, r2, l', rfl, ⟨hl, rfl⟩, rfl, rfl⟩
      exact ⟨⟨_, r1, by simp, ⟨q1, rfl, hx⟩, hl⟩, rfl⟩
    · rintro ⟨h, hl⟩
      cases l with
      | nil => simp at hl
      | cons x l =>
        obtain ⟨q, r, rfl, ⟨q', rfl, hx⟩, hr⟩ := h
        exact ⟨_, q' ++ r, (), by simp, rfl, q', r, x, rfl, hx, r, [], l, by simp, ⟨hr, by simpa using hl⟩, rfl, rfl⟩

theorem reads_vec (isParam : Bool) (context : Nat) (wrap : Bool) :
    Reads (vecR isParam context maxElements wrap) (TakenForArray (Wrapped isParam context wrap)) where
  sound c l c' hc h := by
    unfold vecR at h
    split at h
    · simp at h
    obtain ⟨⟨i, c1⟩, h1, h2⟩ := bind_ok.1 h
    simp only at h2
    split at h2
    · rename_i hi
      have hb := reads_byte.bind (S := fun _ c => pairsR isParam context wrap maxElements c >>= fun x =>
        breakR x.2 >>= fun y => .ok (x.1, y.2)) fun _ =>
        (reads_pairs isParam context wrap maxElements).bind (S := fun l c => breakR c >>= fun y => .ok (l, y.2)) fun l =>
          reads_break.bind (S := fun _ c => .ok (l, c)) fun _ => Reads.ret l
      obtain ⟨p, t, e, ⟨p1, p2, i', rfl, rfl, q1, q2, l', rfl, ⟨hl, hn⟩, r1, r2, _, rfl, rfl, rfl, rfl⟩, hc'⟩ :=
        hb.sound c l c' hc (bind_ok.2 ⟨_, h1, h2⟩)
      have hi' : i' = 0x9f := by
        unfold byteR at h1
        rw [e] at h1
        simp only [List.append_assoc, List.cons_append, List.nil_append, Out.ok.injEq, Prod.mk.injEq] at h1
        rw [h1.1, hi]
      subst hi'
      exact ⟨_, t, e, Or.inr ⟨q1, by simp, hl, hn⟩, hc'⟩
    · have hb := reads_head_array.bind (S := fun n c => if maxElements < n then .fail else
        pairsR isParam context wrap n c) fun n => Reads.ite (fun _ => Reads.fail) fun _ =>
          reads_pairs isParam context wrap n
      obtain ⟨p, t, e, ⟨p1, p2, n, rfl, hh, ⟨_, hf⟩ | ⟨hn, hl, rfl⟩⟩, hc'⟩ := hb.sound c l c' hc h2
      · exact hf.elim
      · exact ⟨_, t, e, Or.inl ⟨⟨p1, p2, rfl, hh, hl⟩, by simp only [maxElements] at hn; omega⟩, hc'⟩
  complete p l t c hc hp hm hs := by
    rcases hp with ⟨⟨hd, body, rfl, hh, hl⟩, hn⟩ | ⟨body, rfl, hl, hn⟩
    · obtain ⟨b, r, rfl, b0, hb, hu⟩ := hh
      have hb28 : b0.toNat < 28 := by
        obtain ⟨x, y, e, h⟩ := hu
        simp only [List.cons.injEq] at e
        rcases h with h | ⟨k, h⟩ <;> rw [e.1] <;> omega
      have hne : b ≠ 0x9f := by
        rw [Ne, ← UInt8.toNat_inj]
        have : (0x9f : UInt8).toNat = 159 := rfl
        omega
      have hb' := reads_head_array.bind (S := fun n c => if maxElements < n then .fail else
        pairsR isParam context wrap n c) fun n => Reads.ite (fun _ => Reads.fail) fun _ =>
          reads_pairs isParam context wrap n
      have := hb'.complete _ l t c hc ⟨b :: r, body, l.length, rfl, ⟨b, r, rfl, b0, hb, hu⟩,
        Or.inr ⟨by simp only [maxElements]; omega, hl, rfl⟩⟩ hm hs
      unfold vecR
      simp only [List.length_append, List.length_cons] at hs
      have h1 : byteR c = .ok (b, c.advance 1) := by
        unfold byteR; rw [hm]; rfl
      rw [if_neg (by omega), h1, ok_bind]
      simp only [if_neg hne]
      exact this
    · have hb := (reads_pairs isParam context wrap maxElements).bind (S := fun l c => breakR c >>= fun y => .ok (l, y.2))
          fun l => reads_break.bind (S := fun _ c => .ok (l, c)) fun _ => Reads.ret l
      have hb' := reads_byte.bind (S := fun _ c => pairsR isParam context wrap maxElements c >>= fun x =>
        breakR x.2 >>= fun y => .ok (x.1, y.2)) fun _ => hb
      have := hb'.complete _ l t c hc ⟨[0x9f], body ++ [0xff], 0x9f, rfl, rfl, body, [0xff], l, rfl, ⟨hl, hn⟩, [0xff], [], (),
        rfl, rfl, rfl, rfl⟩ (by rw [hm]; simp) (by simpa using hs)
      have h1 : byteR c = .ok (0x9f, c.advance 1) := by
        unfold byteR; rw [hm]; rfl
      rw [h1, ok_bind] at this
      unfold vecR
      simp only [List.length_append, List.length_cons] at hs
      rw [if_neg (by omega), h1, ok_bind]
      simp only [if_true]
      rw [show (0x9f :: body ++ [0xff] : Bytes).length = ([0x9f] ++ (body ++ [0xff])).length by simp]
      exact this

theorem isUints_each (p : Bytes) (l : List Nat) : IsUints p l ↔ Each IsUint p l := by
  induction l generalizing p with
  | nil => exact Iff.rfl
  | cons v l ih =>
    constructor
    · rintro ⟨a, b, rfl, h1, h2⟩; exact ⟨a, b, rfl, h1, (ih b).1 h2⟩
    · rintro ⟨a, b, rfl, h1, h2⟩; exact ⟨a, b, rfl, h1, (ih b).2 h2⟩

theorem taken_targets (p : Bytes) (l : List Nat) : TakenForArray IsUint p l ↔
    (IsDefiniteArray p l ∧ l.length ≤ 1000) ∨ (IsIndefiniteArray p l ∧ l.length = 1000) := by
  simp only [TakenForArray, IsArrayOf, IsDefiniteArray, IsIndefiniteArray, isUints_each]
  constructor
  · rintro (h | ⟨b, h1, h2, h3⟩)
    · exact Or.inl h
    · exact Or.inr ⟨⟨b, h1, h2⟩, h3⟩
  · rintro (h | ⟨⟨b, h1, h2⟩, h3⟩)
    · exact Or.inl h
    · exact Or.inr ⟨b, h1, h2, h3⟩

theorem reads_targets : Reads (targetsR maxElements) (TakenForArray IsUint) where
  sound c l c' hc h := by
    unfold targetsR at h
    split at h
    · simp at h
    rename_i ts k hd
    simp only [Out.ok.injEq, Prod.mk.injEq] at h
    obtain ⟨rfl, rfl⟩ := h
    obtain ⟨hk, hd⟩ := (C06_array_iff _ _ _ _).1 hd
    rw [List.length_take] at hk
    rw [List.take_take, Nat.min_eq_left (by omega)] at hd
    refine ⟨c.mem.take k, c.mem.drop k, (List.take_append_drop _ _).symm, (taken_targets _ _).2 hd, ?_⟩
    rw [List.length_take, Nat.min_eq_left (by omega)]
  complete p l t c hc hp hm hs := by
    have := (C06_array_iff (c.mem.take c.size) maxElements l p.length).2 ⟨by rw [hm]; simp; omega, by
      rw [List.take_take, Nat.min_eq_left hs, hm, List.take_left]
      exact (taken_targets _ _).1 hp⟩
    simp only [targetsR, this]

theorem wrapped_false (isParam : Bool) (context : Nat) : Wrapped isParam context false = TakenForPair isParam context := by
  funext p x
  simp [Wrapped]

theorem wrapped_true (context : Nat) : Wrapped false context true = TakenForResult context := by
  funext p x
  simp [Wrapped, TakenForResult]

theorem reads_params (old : List Pair) (context flags : Nat) : Reads (paramsR old context flags)
    (fun p l => (flags % 2 = 1 ∧ TakenForArray (TakenForPair true context) p l) ∨ (¬ flags % 2 = 1 ∧ p = [] ∧ l = old)) := by
  have h := reads_vec true context false
  rw [wrapped_false] at h
  exact Reads.ite (fun _ => h) fun _ => Reads.ret old

end Hdtn.BpSec7
