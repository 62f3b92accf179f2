import Verif.BpSecPolicy.Spec

/-!
Lemmas on the filters.
-/

namespace Hdtn.BpSecPolicy

open HashMap16 (Eid)
open Spec

theorem Level.get_set {α : Type} (l : Level α) (p : Pat) (a : α) (q : Pat) :
    (l.set p a).get q = if q = p then some a else l.get q := by
  cases p <;> cases q <;> simp [Level.set, Level.get]

theorem Level.get_empty {α : Type} (p : Pat) : (Level.empty : Level α).get p = none := by
  cases p <;> rfl

/-- A lookup in a filter takes the strictest entry. -/
theorem Level.lookup_eq {α : Type} (l : Level α) (e : Eid) (x : α) :
    l.lookup e = some x ↔ ∃ p, Strictest (fun q => ∃ y, l.get q = some y) e p ∧ l.get p = some x := by
  unfold Level.lookup
  constructor
  · intro h
    cases h1 : l.exact e with
    | some a =>
      rw [h1] at h
      refine ⟨.exact e, ⟨⟨a, h1⟩, rfl, fun q _ _ => Nat.zero_le _⟩, ?_⟩
      show l.exact e = some x
      rw [h1]; exact h
    | none =>
      rw [h1] at h
      simp only at h
      cases h2 : l.node e.node with
      | some a =>
        rw [h2] at h
        refine ⟨.node e.node, ⟨⟨a, h2⟩, rfl, ?_⟩, ?_⟩
        · rintro q ⟨y, hy⟩ hm
          cases q with
          | exact e' =>
            have : e' = e := hm
            rw [this] at hy
            rw [show l.get (.exact e) = l.exact e from rfl, h1] at hy
            exact absurd hy (by simp)
          | node n => exact Nat.le_refl _
          | any => show 1 ≤ 2; omega
        · show l.node e.node = some x
          rw [h2]; exact h
      | none =>
        rw [h2] at h
        refine ⟨.any, ⟨⟨x, h⟩, trivial, ?_⟩, h⟩
        rintro q ⟨y, hy⟩ hm
        cases q with
        | exact e' =>
          have : e' = e := hm
          rw [this, show l.get (.exact e) = l.exact e from rfl, h1] at hy
          exact absurd hy (by simp)
        | node n =>
          have : n = e.node := hm
          rw [this, show l.get (.node e.node) = l.node e.node from rfl, h2] at hy
          exact absurd hy (by simp)
        | any => exact Nat.le_refl _
  · rintro ⟨p, ⟨_, hm, hs⟩, hx⟩
    cases p with
    | exact e' =>
      have : e' = e := hm
      subst this
      rw [show l.exact e' = some x from hx]
    | node n =>
      have : n = e.node := hm
      subst this
      cases h1 : l.exact e with
      | some a => exact absurd (hs (.exact e) ⟨a, h1⟩ rfl) (by show ¬ 1 ≤ 0; omega)
      | none => simp only; rw [show l.node e.node = some x from hx]
    | any =>
      cases h1 : l.exact e with
      | some a => exact absurd (hs (.exact e) ⟨a, h1⟩ rfl) (by show ¬ 2 ≤ 0; omega)
      | none =>
        simp only
        cases h2 : l.node e.node with
        | some a => exact absurd (hs (.node e.node) ⟨a, h2⟩ rfl) (by show ¬ 2 ≤ 1; omega)
        | none => exact hx

/-- The filter behind two patterns. -/
def at2 (root : Root) (a b : Pat) : Option (Level Roles) := (root.get a).bind (·.get b)

/-- The filter behind three patterns. -/
def at3 (root : Root) (a b c : Pat) : Option Roles := (at2 root a b).bind (·.get c)

/-- The policy at a place. -/
def idAt (root : Root) (p : Place) : Option Nat := (at3 root p.sec p.src p.dst).bind (· p.role)

instance (c : Call) (p : Place) : Decidable (IsFor c p) := by unfold IsFor; infer_instance

theorem at2_set (root : Root) (a : Pat) (l : Level (Level Roles)) (x y : Pat) :
    at2 (root.set a l) x y = if x = a then l.get y else at2 root x y := by
  unfold at2
  rw [Level.get_set]
  split <;> rfl

theorem at3_set (root : Root) (a : Pat) (l : Level (Level Roles)) (x y z : Pat) :
    at3 (root.set a l) x y z = if x = a then (l.get y).bind (·.get z) else at3 root x y z := by
  unfold at3
  rw [at2_set]
  split <;> rfl

theorem getD_get {α : Type} (o : Option (Level α)) (b : Pat) :
    (o.getD .empty).get b = o.bind (·.get b) := by
  cases o with
  | none => exact Level.get_empty b
  | some l => rfl

theorem IsFor.unique {c : Call} {p p' : Place} (h : IsFor c p) (h' : IsFor c p') : p = p' := by
  obtain ⟨h1, h2, h3, h4, _⟩ := h
  obtain ⟨h1', h2', h3', h4', _⟩ := h'
  rw [h1] at h1'; rw [h2] at h2'; rw [h3] at h3'
  cases p; cases p'
  simp only [Option.some.injEq] at h1' h2' h3'
  simp only at h4 h4'
  simp [h1', h2', h3', ← h4, ← h4']

/-- What a call does, seen from the places. -/
theorem create_eq (root : Root) (n : Nat) (c : Call) :
    (∀ a, (∃ y, (root.create n c).1.get a = some y) ↔ (∃ y, root.get a = some y) ∨ parsePat c.sec = some a) ∧
    (∀ a b, (∃ y, at2 (root.create n c).1 a b = some y) ↔
      (∃ y, at2 root a b = some y) ∨ (parsePat c.sec = some a ∧ parsePat c.src = some b)) ∧
    (∀ a b d, (∃ y, at3 (root.create n c).1 a b d = some y) ↔
      (∃ y, at3 root a b d = some y) ∨
        (parsePat c.sec = some a ∧ parsePat c.src = some b ∧ parsePat c.dst = some d)) ∧
    (∀ p, p.role < 3 → idAt (root.create n c).1 p =
      if IsFor c p then some ((idAt root p).getD n) else idAt root p) ∧
    ((root.create n c).2 = none ↔ ∀ p, ¬ IsFor c p) ∧
    (∀ p, IsFor c p → (root.create n c).2 = some ((idAt root p).getD n, (idAt root p).isNone)) := by
  have hset1 : ∀ (p1 : Pat) (l : Level (Level Roles)) (a : Pat),
      (∃ y, (root.set p1 l).get a = some y) ↔ (∃ y, root.get a = some y) ∨ some p1 = some a := by
    intro p1 l a
    rw [Level.get_set]
    by_cases h : a = p1
    · simp [h]
    · simp [h, Ne.symm h]
  have hset2 : ∀ (p1 p2 : Pat) (l2 : Level Roles) (a b : Pat),
      (∃ y, at2 (root.set p1 (((root.get p1).getD .empty).set p2 l2)) a b = some y) ↔
        (∃ y, at2 root a b = some y) ∨ (some p1 = some a ∧ some p2 = some b) := by
    intro p1 p2 l2 a b
    rw [at2_set, Level.get_set, getD_get]
    by_cases h : a = p1
    · by_cases h2 : b = p2
      · simp [h, h2]
      · subst h
        simp [h2, Ne.symm h2, at2]
    · simp [h, Ne.symm h]
  have hset3 : ∀ (p1 p2 p3 : Pat) (l3 : Roles) (a b d : Pat),
      at3 (root.set p1 (((root.get p1).getD .empty).set p2
        (((((root.get p1).getD .empty).get p2).getD .empty).set p3 l3))) a b d =
        if a = p1 ∧ b = p2 ∧ d = p3 then some l3 else at3 root a b d := by
    intro p1 p2 p3 l3 a b d
    rw [at3_set, Level.get_set, getD_get, getD_get]
    by_cases h : a = p1
    · by_cases h2 : b = p2
      · by_cases h3 : d = p3
        · simp [h, h2, h3, Level.get_set]
        · subst h; subst h2
          simp [h3, Level.get_set, getD_get, at3, at2]
      · subst h
        simp [h2, at3, at2]
    · simp [h]
  have hset3' : ∀ (p1 p2 : Pat) (a b d : Pat),
      at3 (root.set p1 (((root.get p1).getD .empty).set p2
        ((((root.get p1).getD .empty).get p2).getD .empty))) a b d = at3 root a b d := by
    intro p1 p2 a b d
    rw [at3_set, Level.get_set, getD_get, getD_get]
    by_cases h : a = p1
    · by_cases h2 : b = p2
      · subst h; subst h2
        simp [getD_get, at3, at2]
      · subst h
        simp [h2, at3, at2]
    · simp [h]
  have hset2' : ∀ (p1 : Pat) (a b : Pat),
      at2 (root.set p1 ((root.get p1).getD .empty)) a b = at2 root a b := by
    intro p1 a b
    rw [at2_set, getD_get]
    by_cases h : a = p1
    · subst h; simp [at2]
    · simp [h]
  unfold Root.create
  cases e1 : parsePat c.sec with
  | none =>
    refine ⟨by simp, by simp, by simp, ?_, ?_, ?_⟩
    · intro p _; rw [if_neg (by rintro ⟨h, _⟩; rw [e1] at h; simp at h)]
    · simp only [true_iff]; rintro p ⟨h, _⟩; rw [e1] at h; simp at h
    · rintro p ⟨h, _⟩; rw [e1] at h; simp at h
  | some p1 =>
    cases e2 : parsePat c.src with
    | none =>
      refine ⟨hset1 p1 _, ?_, ?_, ?_, ?_, ?_⟩
      · intro a b; simp [hset2']
      · intro a b d; simp [at3, hset2']
      · intro p _
        rw [if_neg (by rintro ⟨_, h, _⟩; rw [e2] at h; simp at h)]
        simp [idAt, at3, hset2']
      · simp only [true_iff]; rintro p ⟨_, h, _⟩; rw [e2] at h; simp at h
      · rintro p ⟨_, h, _⟩; rw [e2] at h; simp at h
    | some p2 =>
      cases e3 : parsePat c.dst with
      | none =>
        refine ⟨hset1 p1 _, hset2 p1 p2 _, ?_, ?_, ?_, ?_⟩
        · intro a b d; simp [hset3']
        · intro p _
          rw [if_neg (by rintro ⟨_, _, h, _⟩; rw [e3] at h; simp at h)]
          simp [idAt, hset3']
        · simp only [true_iff]; rintro p ⟨_, _, h, _⟩; rw [e3] at h; simp at h
        · rintro p ⟨_, _, h, _⟩; rw [e3] at h; simp at h
      | some p3 =>
        have hl3 : (((((root.get p1).getD .empty).get p2).getD .empty).get p3).getD (fun _ => none) =
            (at3 root p1 p2 p3).getD (fun _ => none) := by
          rw [getD_get, getD_get]; rfl
        have hex : ∀ (l3 : Roles) (a b d : Pat),
            (∃ y, (if a = p1 ∧ b = p2 ∧ d = p3 then some l3 else at3 root a b d) = some y) ↔
            (∃ y, at3 root a b d = some y) ∨ (some p1 = some a ∧ some p2 = some b ∧ some p3 = some d) := by
          intro l3 a b d
          by_cases h : a = p1 ∧ b = p2 ∧ d = p3
          · obtain ⟨rfl, rfl, rfl⟩ := h; simp
          · rw [if_neg h]
            constructor
            · exact Or.inl
            · rintro (h' | ⟨h1, h2, h3⟩)
              · exact h'
              · exact absurd ⟨(Option.some.inj h1).symm, (Option.some.inj h2).symm, (Option.some.inj h3).symm⟩ h
        have hid : ∀ p : Place, p.sec = p1 → p.src = p2 → p.dst = p3 →
            idAt root p = (at3 root p1 p2 p3).getD (fun _ => none) p.role := by
          intro p h1 h2 h3
          unfold idAt
          rw [h1, h2, h3]
          cases at3 root p1 p2 p3 <;> rfl
        simp only [hl3]
        by_cases hr : roleCount ≤ c.role
        · rw [if_pos hr]
          have hn : ∀ p, ¬ IsFor c p := by
            rintro p ⟨_, _, _, h4, h5⟩
            have : 3 ≤ c.role := hr
            omega
          refine ⟨hset1 p1 _, hset2 p1 p2 _, ?_, ?_, by simp [hn], fun p h => absurd h (hn p)⟩
          · intro a b d
            simp only [hset3]
            exact hex _ a b d
          · intro p _
            rw [if_neg (hn p)]
            unfold idAt
            rw [hset3]
            by_cases h : p.sec = p1 ∧ p.src = p2 ∧ p.dst = p3
            · rw [if_pos h, h.1, h.2.1, h.2.2]
              cases at3 root p1 p2 p3 <;> rfl
            · rw [if_neg h]
        · rw [if_neg hr]
          have hr' : c.role < 3 := Nat.lt_of_not_le hr
          have hfor : ∀ p, IsFor c p ↔ p = ⟨p1, p2, p3, c.role⟩ := by
            intro p
            constructor
            · intro h; exact IsFor.unique h ⟨e1, e2, e3, rfl, hr'⟩
            · rintro rfl; exact ⟨e1, e2, e3, rfl, hr'⟩
          have hidc := hid ⟨p1, p2, p3, c.role⟩ rfl rfl rfl
          cases hl : (at3 root p1 p2 p3).getD (fun _ => none) c.role with
          | some id =>
            rw [hl] at hidc
            refine ⟨hset1 p1 _, hset2 p1 p2 _, ?_, ?_, ?_, ?_⟩
            · intro a b d
              simp only [hset3]
              exact hex _ a b d
            · intro p _
              unfold idAt
              simp only [hset3]
              by_cases h : p.sec = p1 ∧ p.src = p2 ∧ p.dst = p3
              · rw [if_pos h]
                by_cases hf : IsFor c p
                · rw [if_pos hf, (hfor p).mp hf]
                  show some _ >>= _ = some ((idAt root _).getD n)
                  rw [hidc]
                  exact hl
                · rw [if_neg hf, h.1, h.2.1, h.2.2]
                  cases at3 root p1 p2 p3 <;> rfl
              · rw [if_neg h, if_neg (by intro hf; rw [hfor] at hf; subst hf; exact h ⟨rfl, rfl, rfl⟩)]
            · simp only [reduceCtorEq, false_iff]
              intro h
              exact h _ ((hfor _).mpr rfl)
            · intro p hf
              rw [(hfor p).mp hf, hidc]
              rfl
          | none =>
            rw [hl] at hidc
            refine ⟨hset1 p1 _, hset2 p1 p2 _, ?_, ?_, ?_, ?_⟩
            · intro a b d
              simp only [hset3]
              exact hex _ a b d
            · intro p _
              unfold idAt
              simp only [hset3]
              by_cases h : p.sec = p1 ∧ p.src = p2 ∧ p.dst = p3
              · rw [if_pos h]
                by_cases hf : IsFor c p
                · rw [if_pos hf, (hfor p).mp hf]
                  show (if c.role = c.role then some n else _) = some ((idAt root _).getD n)
                  rw [hidc, if_pos rfl]
                  rfl
                · rw [if_neg hf]
                  have hne : p.role ≠ c.role := by
                    intro he
                    apply hf
                    rw [hfor]
                    cases p
                    simp only at h he
                    simp [h, he]
                  show (if p.role = c.role then some n else _) = _
                  rw [if_neg hne, h.1, h.2.1, h.2.2]
                  cases at3 root p1 p2 p3 <;> rfl
              · rw [if_neg h, if_neg (by intro hf; rw [hfor] at hf; subst hf; exact h ⟨rfl, rfl, rfl⟩)]
            · simp only [reduceCtorEq, false_iff]
              intro h
              exact h _ ((hfor _).mpr rfl)
            · intro p hf
              rw [(hfor p).mp hf, hidc]
              rfl

/-- The outcome of a search in terms of what is at the places. -/
theorem find_eq (root : Root) (q : Query) (id : Nat) :
    root.find q = some id ↔ q.role < 3 ∧ ∃ a b d,
      Strictest (fun x => ∃ y, root.get x = some y) q.sec a ∧
      Strictest (fun x => ∃ y, at2 root a x = some y) q.src b ∧
      Strictest (fun x => ∃ y, at3 root a b x = some y) q.dst d ∧
      idAt root ⟨a, b, d, q.role⟩ = some id := by
  have key : root.find q = some id ↔ q.role < 3 ∧ ∃ l1 l2 l3, root.lookup q.sec = some l1 ∧
      l1.lookup q.src = some l2 ∧ l2.lookup q.dst = some l3 ∧ l3 q.role = some id := by
    unfold Root.find
    cases h1 : root.lookup q.sec with
    | none => simp
    | some l1 =>
      simp only
      cases h2 : l1.lookup q.src with
      | none => simp [h2]
      | some l2 =>
        simp only
        cases h3 : l2.lookup q.dst with
        | none => simp [h2, h3]
        | some l3 =>
          simp only
          by_cases hr : roleCount ≤ q.role
          · rw [if_pos hr]
            have : ¬ q.role < 3 := Nat.not_lt.mpr hr
            simp [this]
          · rw [if_neg hr]
            have : q.role < 3 := Nat.lt_of_not_le hr
            simp [this, h2, h3]
  rw [key]
  refine and_congr_right fun _ => ?_
  constructor
  · rintro ⟨l1, l2, l3, h1, h2, h3, h4⟩
    obtain ⟨a, ha, ha'⟩ := (Level.lookup_eq _ _ _).mp h1
    obtain ⟨b, hb, hb'⟩ := (Level.lookup_eq _ _ _).mp h2
    obtain ⟨d, hd, hd'⟩ := (Level.lookup_eq _ _ _).mp h3
    have e2 : ∀ x, at2 root a x = l1.get x := by intro x; simp [at2, ha']
    have e3 : ∀ x, at3 root a b x = l2.get x := by intro x; simp [at3, e2, hb']
    refine ⟨a, b, d, ha, ?_, ?_, ?_⟩
    · simpa only [e2] using hb
    · simpa only [e3] using hd
    · simp [idAt, e3, hd', h4]
  · rintro ⟨a, b, d, ha, hb, hd, hi⟩
    obtain ⟨l1, hl1⟩ := ha.1
    obtain ⟨l2, hl2⟩ := hb.1
    obtain ⟨l3, hl3⟩ := hd.1
    have e2 : ∀ x, at2 root a x = l1.get x := by intro x; simp [at2, hl1]
    rw [e2] at hl2
    have e3 : ∀ x, at3 root a b x = l2.get x := by intro x; simp [at3, e2, hl2]
    rw [e3] at hl3
    refine ⟨l1, l2, l3, (Level.lookup_eq _ _ _).mpr ⟨a, ha, hl1⟩,
      (Level.lookup_eq _ _ _).mpr ⟨b, ?_, hl2⟩, (Level.lookup_eq _ _ _).mpr ⟨d, ?_, hl3⟩, ?_⟩
    · simpa only [e2] using hb
    · simpa only [e3] using hd
    · simpa [idAt, e3, hl3] using hi

end Hdtn.BpSecPolicy
