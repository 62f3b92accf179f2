import Verif.Iv.Spec
import Mathlib.Data.List.Induction
import Mathlib.Tactic.Ring

/-!
The vectors as numbers, and the invariant of a process.
-/

namespace Hdtn.Iv

open Spec

theorem toLe_length (n v : Nat) : (toLe n v).length = n := by
  induction n generalizing v with
  | zero => rfl
  | succ n ih => simp [toLe, ih]

theorem toLe_inj {n a b : Nat} (ha : a < 256 ^ n) (hb : b < 256 ^ n) (h : toLe n a = toLe n b) : a = b := by
  induction n generalizing a b with
  | zero => simp at ha hb; omega
  | succ n ih =>
    simp only [toLe, List.cons.injEq] at h
    have h1 : a % 256 = b % 256 := by
      have := congrArg UInt8.toNat h.1
      simp only [UInt8.toNat_ofNat'] at this
      omega
    rw [Nat.pow_succ] at ha hb
    have h2 := ih (a := a / 256) (b := b / 256) (by omega) (by omega) h.2
    omega

/-- The vector with the given value. -/
def ofValue (w value : Nat) : Vector := ⟨value / w % 2 ^ 64, value % w⟩

theorem start_eq {w t : Nat} (hw : 0 < w) (ht : t < 2 ^ 64) : Vector.start t = ofValue w (t * w) := by
  unfold Vector.start ofValue
  rw [Nat.mul_div_cancel _ hw, Nat.mod_eq_of_lt ht, Nat.mul_mod_left]

theorem increment_eq (short : Bool) (k : Nat) :
    (ofValue (256 ^ counterBytes short) k).increment short = ofValue (256 ^ counterBytes short) (k + 1) := by
  have hw : 1 < 256 ^ counterBytes short := Nat.one_lt_pow (by unfold counterBytes; split <;> omega) (by omega)
  unfold Vector.increment ofValue
  generalize 256 ^ counterBytes short = w at hw ⊢
  have hk : k = w * (k / w) + k % w := (Nat.div_add_mod k w).symm
  have hlt : k % w < w := Nat.mod_lt _ (by omega)
  by_cases hc : k % w + 1 = w
  · have h1 : k + 1 = w * (k / w + 1) := by rw [Nat.mul_add, Nat.mul_one]; omega
    have h2 : (k + 1) / w = k / w + 1 := by
      rw [h1, Nat.mul_div_cancel_left _ (by omega)]
    have h3 : (k + 1) % w = 0 := by rw [h1, Nat.mul_mod_right]
    have h4 : (k % w + 1) % w = 0 := by rw [hc, Nat.mod_self]
    simp only [h2, h3, h4, if_true, Vector.mk.injEq, and_true]
    omega
  · have h1 : k + 1 = k % w + 1 + w * (k / w) := by omega
    have h4 : (k % w + 1) % w = k % w + 1 := Nat.mod_eq_of_lt (by omega)
    have h2 : (k + 1) / w = k / w := by
      rw [h1, Nat.add_mul_div_left _ _ (by omega), Nat.div_eq_of_lt (by omega), Nat.zero_add]
    have h3 : (k + 1) % w = k % w + 1 := by
      conv_lhs => rw [h1]
      rw [Nat.add_mul_mod_self_left, h4]
    simp only [h2, h3, h4, Vector.mk.injEq, and_true]
    rw [if_neg (by omega)]
    omega

theorem serialize_inj {s s' : Bool} {a b : Nat}
    (h : (ofValue (256 ^ counterBytes s) a).serialize s = (ofValue (256 ^ counterBytes s') b).serialize s') :
    s = s' ∧ a % (2 ^ 64 * 256 ^ counterBytes s) = b % (2 ^ 64 * 256 ^ counterBytes s) := by
  have hl := congrArg List.length h
  simp only [Vector.serialize, List.length_append, toLe_length] at hl
  have hs : s = s' := by
    unfold counterBytes at hl
    cases s <;> cases s' <;> simp_all
  subst hs
  refine ⟨rfl, ?_⟩
  unfold Vector.serialize at h
  obtain ⟨h1, h2⟩ := List.append_inj h (by rw [toLe_length, toLe_length])
  have hw : 0 < 256 ^ counterBytes s := Nat.pow_pos (by omega)
  have e1 := toLe_inj (n := 8) (by simp only [ofValue]; omega) (by simp only [ofValue]; omega) h1
  have e2 := toLe_inj (by simp only [ofValue]; exact Nat.mod_lt _ hw) (by simp only [ofValue]; exact Nat.mod_lt _ hw) h2
  simp only [ofValue] at e1 e2
  rw [Nat.mul_comm, Nat.mod_mul, Nat.mod_mul, e1, e2]

theorem create_some {last : Nat} {clock : List Nat} {t : Nat} (h : create last clock = some t) :
    t ∈ clock ∧ last + minDiff ≤ t := by
  induction clock with
  | nil => cases h
  | cons x clock ih =>
    unfold create at h
    split at h
    · split at h
      · rw [← Option.some.inj h]
        exact ⟨List.mem_cons_self, by omega⟩
      · exact ⟨List.mem_cons_of_mem _ (ih h).1, (ih h).2⟩
    · exact ⟨List.mem_cons_of_mem _ (ih h).1, (ih h).2⟩

/-- The vector number `k` of an object created at time `t`. -/
def nth (short : Bool) (t k : Nat) : Bytes :=
  (ofValue (256 ^ counterBytes short) (t * 256 ^ counterBytes short + k)).serialize short

/-- The objects created at the times `ts` have issued the vectors numbered from 0 on. -/
structure Inv (p : Process) (ts : List Nat) : Prop where
  length : p.gens.length = ts.length
  small : ∀ t ∈ ts, t < 2 ^ 64 ∧ minDiff ≤ t ∧ t ≤ p.last
  apart : ts.Pairwise fun a b => a + minDiff ≤ b
  gen : ∀ i g t, p.gens[i]? = some g → ts[i]? = some t →
    g.short = ofValue (256 ^ counterBytes true) (t * 256 ^ counterBytes true + issuedBy p i true) ∧
    g.long = ofValue (256 ^ counterBytes false) (t * 256 ^ counterBytes false + issuedBy p i false)
  issued : ∀ x ∈ p.issued, ∃ t k, ts[x.1]? = some t ∧ k < issuedBy p x.1 x.2.1 ∧ x.2.2 = nth x.2.1 t k

theorem issuedBy_step (p : Process) (g : List Gen) (i j : Nat) (s s' : Bool) (b : Bytes) :
    issuedBy ⟨p.last, g, p.issued ++ [(i, s, b)]⟩ j s' = issuedBy p j s' + if i = j ∧ s = s' then 1 else 0 := by
  unfold issuedBy
  rw [List.filter_append, List.length_append]
  congr 1
  by_cases h : i = j ∧ s = s'
  · rw [if_pos h]
    simp [h]
  · rw [if_neg h]
    have : decide (i = j ∧ s = s') = false := by simpa using h
    simp [List.filter_cons]
    simpa using h

theorem next_eq {g : Gen} {t a b : Nat} (s : Bool)
    (h : g.short = ofValue (256 ^ counterBytes true) (t * 256 ^ counterBytes true + a) ∧
      g.long = ofValue (256 ^ counterBytes false) (t * 256 ^ counterBytes false + b)) :
    (g.next s).2 = nth s t (if s then a else b) ∧
    (g.next s).1.short = ofValue (256 ^ counterBytes true)
      (t * 256 ^ counterBytes true + (a + if s then 1 else 0)) ∧
    (g.next s).1.long = ofValue (256 ^ counterBytes false)
      (t * 256 ^ counterBytes false + (b + if s then 0 else 1)) := by
  unfold Gen.next nth
  cases s with
  | true =>
    simp only [if_true]
    refine ⟨by rw [h.1], ?_, by rw [Nat.add_zero]; exact h.2⟩
    rw [h.1, increment_eq, Nat.add_assoc]
  | false =>
    simp only [Bool.false_eq_true, if_false]
    refine ⟨by rw [h.2], by rw [Nat.add_zero]; exact h.1, ?_⟩
    rw [h.2, increment_eq, Nat.add_assoc]

theorem step_inv {p : Process} {ts : List Nat} (h : Inv p ts) (e : Event)
    (he : ∀ clock, e = .create clock → ∀ t ∈ clock, t < 2 ^ 64) : ∃ ts', Inv (p.step e) ts' := by
  cases e with
  | create clock =>
    simp only [Process.step]
    cases hc : create p.last clock with
    | none => exact ⟨ts, h⟩
    | some t =>
      obtain ⟨h1, h2⟩ := create_some hc
      have h3 := he clock rfl t h1
      have hcount : ∀ j s, issuedBy { p with last := t, gens := p.gens ++ [⟨.start t, .start t⟩] } j s =
          issuedBy p j s := fun _ _ => rfl
      refine ⟨ts ++ [t], by simp [h.length], ?_, ?_, ?_, ?_⟩
      · intro x hx
        rcases List.mem_append.mp hx with hx | hx
        · obtain ⟨a, b, c⟩ := h.small x hx
          exact ⟨a, b, by show x ≤ t; omega⟩
        · rw [List.mem_singleton.mp hx]
          exact ⟨h3, by omega, by show t ≤ t; omega⟩
      · rw [List.pairwise_append]
        refine ⟨h.apart, by simp, ?_⟩
        intro a ha b hb
        rw [List.mem_singleton.mp hb]
        have := (h.small a ha).2.2
        omega
      · intro i g x hg hx
        rw [hcount, hcount]
        by_cases hi : i < ts.length
        · rw [List.getElem?_append_left (by rw [h.length]; exact hi)] at hg
          rw [List.getElem?_append_left hi] at hx
          exact h.gen i g x hg hx
        · have hi' : i = ts.length := by
            have := (List.getElem?_eq_some_iff.mp hx).1
            simp at this
            omega
          rw [List.getElem?_append_right (by rw [h.length]; omega), h.length, hi'] at hg
          rw [List.getElem?_append_right (by omega), hi'] at hx
          simp only [Nat.sub_self, List.getElem?_cons_zero, Option.some.injEq] at hg hx
          have hnone : ∀ s, issuedBy p i s = 0 := by
            intro s
            unfold issuedBy
            rw [List.length_eq_zero_iff, List.filter_eq_nil_iff]
            intro y hy
            obtain ⟨_, _, hy, _⟩ := h.issued y hy
            have := (List.getElem?_eq_some_iff.mp hy).1
            simp only [decide_eq_true_eq, not_and]
            intro hyi
            omega
          rw [hnone, hnone, Nat.add_zero, Nat.add_zero, ← hg, ← hx]
          exact ⟨start_eq (Nat.pow_pos (by omega)) h3, start_eq (Nat.pow_pos (by omega)) h3⟩
      · intro x hx
        obtain ⟨y, k, hy, hk⟩ := h.issued x hx
        refine ⟨y, k, ?_, hk⟩
        rw [List.getElem?_append_left (List.getElem?_eq_some_iff.mp hy).1]
        exact hy
  | next i s =>
    simp only [Process.step]
    cases hg : p.gens[i]? with
    | none => exact ⟨ts, h⟩
    | some g =>
      have hlt : i < ts.length := by
        rw [← h.length]; exact (List.getElem?_eq_some_iff.mp hg).1
      obtain ⟨n1, n2, n3⟩ := next_eq s (h.gen i g ts[i] hg (List.getElem?_eq_getElem hlt))
      refine ⟨ts, ?_, h.small, h.apart, ?_, ?_⟩
      · simp only [List.length_set]
        exact h.length
      · intro j g' t' hg' ht'
        simp only [issuedBy_step]
        by_cases hij : i = j
        · subst hij
          rw [List.getElem?_set_self (by rw [h.length]; exact hlt)] at hg'
          rw [List.getElem?_eq_getElem hlt] at ht'
          rw [← Option.some.inj hg', ← Option.some.inj ht', n2, n3]
          cases s <;> simp
        · rw [List.getElem?_set_ne hij] at hg'
          have := h.gen j g' t' hg' ht'
          simpa [hij] using this
      · intro x hx
        simp only [issuedBy_step]
        rcases List.mem_append.mp hx with hx | hx
        · obtain ⟨y, k, hy, hk, hb⟩ := h.issued x hx
          exact ⟨y, k, hy, by omega, hb⟩
        · rw [List.mem_singleton.mp hx]
          refine ⟨ts[i], issuedBy p i s, List.getElem?_eq_getElem hlt, by simp, ?_⟩
          simp only [n1]
          cases s <;> rfl

theorem run_snoc (es : List Event) (e : Event) : Process.run (es ++ [e]) = (Process.run es).step e := by
  simp [Process.run, List.foldl_append]

theorem run_inv (es : List Event) (h : ClockOk es) : ∃ ts, Inv (Process.run es) ts := by
  induction es using List.reverseRecOn with
  | nil =>
    exact ⟨[], rfl, by simp, by simp, by simp [Process.run, Process.init], by simp [Process.run, Process.init]⟩
  | append_singleton es e ih =>
    obtain ⟨ts, hi⟩ := ih (fun c hc => h c (List.mem_append_left _ hc))
    rw [run_snoc]
    exact step_inv hi e (fun c hc => h c (List.mem_append_right _ (by simp [hc])))

/-- Different objects and numbers give different vectors. -/
theorem nth_inj {p : Process} {ts : List Nat} (h : Inv p ts) {s s' : Bool} {i j t t' k k' : Nat}
    (hi : ts[i]? = some t) (hj : ts[j]? = some t') (hk : k < minDiff * 256 ^ counterBytes s)
    (hk' : k' < minDiff * 256 ^ counterBytes s') (he : nth s t k = nth s' t' k') : s = s' ∧ i = j ∧ k = k' := by
  obtain ⟨hs, he⟩ := serialize_inj he
  subst hs
  refine ⟨rfl, ?_⟩
  have hw : 0 < 256 ^ counterBytes s := Nat.pow_pos (by omega)
  generalize 256 ^ counterBytes s = w at *
  obtain ⟨a1, a2, _⟩ := h.small t (List.mem_of_getElem? hi)
  obtain ⟨b1, b2, _⟩ := h.small t' (List.mem_of_getElem? hj)
  -- the value of a vector, reduced, lies in the interval of its object or below all of them
  have hred : ∀ x y : Nat, x < 2 ^ 64 → y < minDiff * w →
      (x * w + y) % (2 ^ 64 * w) = x * w + y ∨
      ((x * w + y) % (2 ^ 64 * w) + 2 ^ 64 * w = x * w + y ∧ (x * w + y) % (2 ^ 64 * w) < minDiff * w) := by
    intro x y hx hy
    have hxw : x * w + w ≤ 2 ^ 64 * w := by
      have := Nat.mul_le_mul_right w (show x + 1 ≤ 2 ^ 64 by omega)
      rw [Nat.add_mul, Nat.one_mul] at this
      exact this
    have hm : minDiff * w ≤ 2 ^ 64 * w := Nat.mul_le_mul_right w (by decide)
    generalize 2 ^ 64 * w = q at *
    generalize minDiff * w = m at *
    generalize x * w = xw at *
    by_cases hlt : xw + y < q
    · exact .inl (Nat.mod_eq_of_lt hlt)
    · right
      have : (xw + y) % q = xw + y - q := by
        rw [Nat.mod_eq_sub_mod (by omega), Nat.mod_eq_of_lt (by omega)]
      omega
  have hlow : ∀ x, minDiff ≤ x → minDiff * w ≤ x * w := fun x hx => Nat.mul_le_mul_right w hx
  have key : i = j → k = k' := by
    intro hij
    subst hij
    rw [hi] at hj
    have := Option.some.inj hj
    subst this
    have h1 := hred t k a1 hk
    have h2 := hred t k' a1 hk'
    have := hlow t a2
    have hm : minDiff * w ≤ 2 ^ 64 * w := Nat.mul_le_mul_right w (by decide)
    omega
  rcases Nat.lt_trichotomy i j with hij | hij | hij
  · exfalso
    have hap := List.pairwise_iff_getElem.mp h.apart i j (List.getElem?_eq_some_iff.mp hi).1
      (List.getElem?_eq_some_iff.mp hj).1 hij
    rw [(List.getElem?_eq_some_iff.mp hi).2, (List.getElem?_eq_some_iff.mp hj).2] at hap
    have hapw : t * w + minDiff * w ≤ t' * w := by
      rw [← Nat.add_mul]; exact Nat.mul_le_mul_right w hap
    have hq : t' * w ≤ 2 ^ 64 * w := Nat.mul_le_mul_right w (by omega)
    have h1 := hred t k a1 hk
    have h2 := hred t' k' b1 hk'
    have := hlow t a2
    omega
  · exact ⟨hij, key hij⟩
  · exfalso
    have hap := List.pairwise_iff_getElem.mp h.apart j i (List.getElem?_eq_some_iff.mp hj).1
      (List.getElem?_eq_some_iff.mp hi).1 hij
    rw [(List.getElem?_eq_some_iff.mp hi).2, (List.getElem?_eq_some_iff.mp hj).2] at hap
    have hapw : t' * w + minDiff * w ≤ t * w := by
      rw [← Nat.add_mul]; exact Nat.mul_le_mul_right w hap
    have hq : t * w ≤ 2 ^ 64 * w := Nat.mul_le_mul_right w (by omega)
    have h1 := hred t k a1 hk
    have h2 := hred t' k' b1 hk'
    have := hlow t' b2
    omega

end Hdtn.Iv
