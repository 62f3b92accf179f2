import Verif.Router.Flags

/-!
The events of a contact plan.
-/

namespace Hdtn.Router

open Spec

/-! ### The list of events -/

/-- A contact starts. -/
def upEvent (epoch : Nat) (c : Planned) (i : Nat) : Nat × Event :=
  (epoch + c.start * 1000000, ⟨c.contact, c.source, c.dest, c.start, c.rate, i, true⟩)

/-- A contact ends. -/
def downEvent (epoch : Nat) (c : Planned) (i : Nat) : Nat × Event :=
  (epoch + c.stop * 1000000, ⟨c.contact, c.source, c.dest, c.start, c.rate, i, false⟩)

/-- In the order of times. -/
def Ordered (l : List (Nat × Event)) : Prop := l.Pairwise fun a b => a.1 ≤ b.1

theorem mem_place (t : Nat) (e : Event) (l : List (Nat × Event)) (x : Nat × Event) : x ∈ place t e l ↔ x = (t, e) ∨ x ∈ l := by
  induction l with
  | nil => simp [place]
  | cons y l ih =>
    unfold place
    split
    · rw [List.mem_cons, ih, List.mem_cons]; tauto
    · rw [List.mem_cons]

theorem place_ordered (t : Nat) (e : Event) {l : List (Nat × Event)} (h : Ordered l) : Ordered (place t e l) := by
  induction l with
  | nil => simp [place, Ordered]
  | cons y l ih =>
    obtain ⟨h1, h2⟩ := List.pairwise_cons.mp h
    unfold place
    split
    next hy =>
      refine List.pairwise_cons.mpr ⟨fun x hx => ?_, ih h2⟩
      rcases (mem_place t e l x).mp hx with rfl | hx
      · exact hy
      · exact h1 x hx
    next hy =>
      refine List.pairwise_cons.mpr ⟨fun x hx => ?_, h⟩
      rcases List.mem_cons.mp hx with rfl | hx
      · simp only; omega
      · have := h1 x hx
        simp only; omega

theorem insert_ordered (t : Nat) (e : Event) {l : List (Nat × Event)} (h : Ordered l) : Ordered (insert l t e) := by
  unfold insert; split
  · exact h
  · exact place_ordered t e h

theorem addContact_ordered (epoch : Nat) {l : List (Nat × Event)} (h : Ordered l) (c : Planned) (i : Nat) :
    Ordered (addContact epoch l c i) := by
  unfold addContact; simp only; split
  · exact h
  · exact insert_ordered _ _ (insert_ordered _ _ h)

theorem mem_insert {l : List (Nat × Event)} {t : Nat} {e : Event} {x : Nat × Event} (h : x ∈ insert l t e) : x = (t, e) ∨ x ∈ l := by
  unfold insert at h
  split at h
  · exact .inr h
  · exact (mem_place t e l x).mp h

theorem subset_insert {l : List (Nat × Event)} {t : Nat} {e : Event} {x : Nat × Event} (h : x ∈ l) : x ∈ insert l t e := by
  unfold insert
  split
  · exact h
  · exact (mem_place t e l x).mpr (.inr h)

theorem insert_new {l : List (Nat × Event)} {t : Nat} {e : Event} (h : l.any (·.2.key == e.key) = false) : (t, e) ∈ insert l t e := by
  unfold insert
  rw [h]
  exact (mem_place t e l _).mpr (.inl rfl)

theorem pairwise_ne {α : Type} {R : α → α → Prop} (hs : ∀ a b, R a b → R b a) {l : List α} (h : l.Pairwise R) :
    ∀ a ∈ l, ∀ b ∈ l, a ≠ b → R a b := by
  induction h with
  | nil => intro a ha; cases ha
  | cons h1 _ ih =>
    intro a ha b hb hab
    rcases List.mem_cons.mp ha with ha | ha <;> rcases List.mem_cons.mp hb with hb | hb
    · exact absurd (ha.trans hb.symm) hab
    · rw [ha]; exact h1 b hb
    · rw [hb]; exact hs _ _ (h1 a ha)
    · exact ih a ha b hb hab

theorem subset_addContact {epoch : Nat} {l : List (Nat × Event)} {c : Planned} {i : Nat} {x : Nat × Event} (h : x ∈ l) :
    x ∈ addContact epoch l c i := by
  unfold addContact; simp only; split
  · exact h
  · exact subset_insert (subset_insert h)

theorem mem_addContact {epoch : Nat} {l : List (Nat × Event)} {c : Planned} {i : Nat} {x : Nat × Event} (h : x ∈ addContact epoch l c i) :
    x ∈ l ∨ x = upEvent epoch c i ∨ x = downEvent epoch c i := by
  unfold addContact at h; simp only at h
  split at h
  · exact .inl h
  · rcases mem_insert h with h | h
    · exact .inr (.inr h)
    · rcases mem_insert h with h | h
      · exact .inr (.inl h)
      · exact .inl h

/-- One contact of a plan. -/
def loadOne (C : Config) (index : Nat → Option Nat) (epoch : Nat) (events : List (Nat × Event)) (c : Planned) : List (Nat × Event) :=
  if c.dest = C.me ∨ c.source ≠ C.me then events
  else match index c.dest with
    | some i => addContact epoch events c i
    | none => events

theorem loadContacts_eq (C : Config) (index : Nat → Option Nat) (epoch : Nat) (l : List Planned) :
    loadContacts C index epoch l = l.foldl (loadOne C index epoch) [] := rfl

theorem load_ordered (C : Config) (index : Nat → Option Nat) (epoch : Nat) (l : List Planned) : Ordered (loadContacts C index epoch l) := by
  rw [loadContacts_eq]
  induction l using List.reverseRecOn with
  | nil => exact List.Pairwise.nil
  | append_singleton l c ih =>
    rw [List.foldl_append]
    show Ordered (loadOne C index epoch (l.foldl (loadOne C index epoch) []) c)
    unfold loadOne
    split
    · exact ih
    · cases index c.dest with
      | none => exact ih
      | some i => exact addContact_ordered epoch ih c i

theorem load_sound (C : Config) (index : Nat → Option Nat) (epoch : Nat) (l : List Planned) (x : Nat × Event)
    (h : x ∈ loadContacts C index epoch l) :
    ∃ c ∈ l, c.source = C.me ∧ index c.dest = some x.2.outduct ∧
      (x = upEvent epoch c x.2.outduct ∨ x = downEvent epoch c x.2.outduct) := by
  rw [loadContacts_eq] at h
  induction l using List.reverseRecOn with
  | nil => cases h
  | append_singleton l c ih =>
    rw [List.foldl_append] at h
    have ih' : x ∈ l.foldl (loadOne C index epoch) [] → _ := fun h =>
      let ⟨c', a, b⟩ := ih h
      (⟨c', List.mem_append_left _ a, b⟩ : ∃ c' ∈ l ++ [c], c'.source = C.me ∧ index c'.dest = some x.2.outduct ∧
        (x = upEvent epoch c' x.2.outduct ∨ x = downEvent epoch c' x.2.outduct))
    change x ∈ loadOne C index epoch (l.foldl (loadOne C index epoch) []) c at h
    unfold loadOne at h
    split at h
    · exact ih' h
    next hc =>
      cases hi : index c.dest with
      | none => rw [hi] at h; exact ih' h
      | some i =>
        rw [hi] at h
        have hs : c.source = C.me := by by_contra e; exact hc (.inr e)
        rcases mem_addContact h with h | h | h
        · exact ih' h
        · refine ⟨c, by simp, hs, ?_, ?_⟩ <;> rw [h]
          · exact hi
          · exact .inl rfl
        · refine ⟨c, by simp, hs, ?_, ?_⟩ <;> rw [h]
          · exact hi
          · exact .inr rfl

theorem load_complete (C : Config) (index : Nat → Option Nat) (epoch : Nat) (l : List Planned) (hop i : Nat) (hm : hop ≠ C.me)
    (hi : index hop = some i) (ha : Apart C.me hop l) (c : Planned) (hc : c ∈ l) (hs : c.source = C.me) (hd : c.dest = hop) :
    upEvent epoch c i ∈ loadContacts C index epoch l ∧ downEvent epoch c i ∈ loadContacts C index epoch l := by
  induction l using List.reverseRecOn generalizing c with
  | nil => cases hc
  | append_singleton l b ih =>
    obtain ⟨a1, a2⟩ := ha
    rw [List.pairwise_append] at a2
    have ha' : Apart C.me hop l := ⟨fun c hc => a1 c (List.mem_append_left _ hc), a2.1⟩
    rw [loadContacts_eq, List.foldl_append, ← loadContacts_eq]
    show _ ∈ loadOne C index epoch (loadContacts C index epoch l) b ∧ _ ∈ loadOne C index epoch (loadContacts C index epoch l) b
    rcases List.mem_append.mp hc with hc | hc
    · have sub : ∀ x, x ∈ loadContacts C index epoch l → x ∈ loadOne C index epoch (loadContacts C index epoch l) b := by
        intro x hx
        unfold loadOne
        split
        · exact hx
        · cases index b.dest with
          | none => exact hx
          | some j => exact subset_addContact hx
      obtain ⟨h1, h2⟩ := ih ha' c hc hs hd
      exact ⟨sub _ h1, sub _ h2⟩
    · have hcb : c = b := by simpa using hc
      subst hcb
      unfold loadOne
      rw [if_neg (by rw [hd, hs]; tauto), hd, hi]
      have fresh : ∀ up, (loadContacts C index epoch l).any (·.2.key == (⟨c.contact, c.source, c.dest, c.start, c.rate, i, up⟩ : Event).key) = false := by
        intro up
        rw [Bool.eq_false_iff]
        intro hany
        obtain ⟨x, hx, hk⟩ := List.any_eq_true.mp hany
        obtain ⟨c', hc', hs', -, hx'⟩ := load_sound C index epoch l x hx
        have hk := beq_iff_eq.mp hk
        have e1 : c'.dest = hop ∧ c'.start = c.start := by
          unfold Event.key at hk
          simp only [Prod.mk.injEq] at hk
          rcases hx' with e | e <;> rw [e] at hk <;> simp only [upEvent, downEvent] at hk <;> exact ⟨hk.2.2.1.trans hd, hk.2.2.2.2⟩
        have hR := a2.2.2 c' hc' c (by simp) hs' hs e1.1 hd
        have l1 := a1 c' (by simp [hc']) hs' e1.1
        have l2 := a1 c (by simp) hs hd
        omega
      simp only [addContact]
      rw [fresh true]
      simp only [Bool.false_eq_true, if_false]
      have f2 : (insert (loadContacts C index epoch l) (epoch + c.start * 1000000) ⟨c.contact, c.source, c.dest, c.start, c.rate, i, true⟩).any
          (·.2.key == (⟨c.contact, c.source, c.dest, c.start, c.rate, i, false⟩ : Event).key) = false := by
        rw [Bool.eq_false_iff]
        intro hany
        obtain ⟨x, hx, hk⟩ := List.any_eq_true.mp hany
        rcases mem_insert hx with rfl | hx
        · simp [Event.key] at hk
        · have := fresh false
          rw [Bool.eq_false_iff] at this
          exact this (List.any_eq_true.mpr ⟨x, hx, hk⟩)
      refine ⟨subset_insert ?_, ?_⟩
      · exact insert_new (fresh true)
      · exact insert_new f2

/-! ### The events that have been handled -/

/-- What the last event tells about a link. -/
def lastFor (i : Nat) (l : List (Nat × Event)) : Bool := l.foldl (fun b x => if x.2.outduct = i then x.2.up else b) false

theorem lastFor_snoc (i : Nat) (l : List (Nat × Event)) (x : Nat × Event) :
    lastFor i (l ++ [x]) = if x.2.outduct = i then x.2.up else lastFor i l := by
  unfold lastFor; rw [List.foldl_append]; rfl

theorem lastFor_split (i : Nat) (l : List (Nat × Event)) (h : lastFor i l = true) :
    ∃ pre x post, l = pre ++ x :: post ∧ x.2.outduct = i ∧ x.2.up = true ∧ ∀ y ∈ post, y.2.outduct ≠ i := by
  induction l using List.reverseRecOn with
  | nil => cases h
  | append_singleton l x ih =>
    rw [lastFor_snoc] at h
    by_cases hx : x.2.outduct = i
    · rw [if_pos hx] at h
      exact ⟨l, x, [], rfl, hx, h, by simp⟩
    · rw [if_neg hx] at h
      obtain ⟨pre, y, post, e, a, b, c⟩ := ih h
      refine ⟨pre, y, post ++ [x], by simp [e], a, b, ?_⟩
      intro z hz
      rcases List.mem_append.mp hz with hz | hz
      · exact c z hz
      · rw [List.mem_singleton.mp hz]; exact hx

theorem lastFor_true (i : Nat) (pre : List (Nat × Event)) (x : Nat × Event) (post : List (Nat × Event)) (hx : x.2.outduct = i)
    (hu : x.2.up = true) (h : ∀ y ∈ post, y.2.outduct = i → y.2.up = true) : lastFor i (pre ++ x :: post) = true := by
  induction post using List.reverseRecOn with
  | nil => rw [lastFor_snoc, if_pos hx, hu]
  | append_singleton post y ih =>
    rw [← List.cons_append, ← List.append_assoc, lastFor_snoc]
    split
    next hy => exact h y (by simp) hy
    next => exact ih fun z hz => h z (List.mem_append_left _ hz)

theorem handled_iff (C : Config) (index : Nat → Option Nat) (epoch : Nat) (l : List Planned) (hop i now : Nat) (hm : hop ≠ C.me)
    (hi : index hop = some i) (hu : ∀ h, index h = some i → h = hop) (ha : Apart C.me hop l) (done todo : List (Nat × Event))
    (he : loadContacts C index epoch l = done ++ todo) (hd : ∀ x ∈ done, x.1 ≤ now) (ht : ∀ x ∈ todo, now < x.1) :
    lastFor i done = true ↔ InContact C.me hop epoch l now := by
  have ho := load_ordered C index epoch l
  have hsound : ∀ x ∈ done, x.2.outduct = i → ∃ c ∈ l, c.source = C.me ∧ c.dest = hop ∧ (x = upEvent epoch c i ∨ x = downEvent epoch c i) := by
    intro x hx hxi
    obtain ⟨c, a, b, d, e⟩ := load_sound C index epoch l x (by rw [he]; exact List.mem_append_left _ hx)
    rw [hxi] at d e
    exact ⟨c, a, b, hu _ d, e⟩
  have hcomp := load_complete C index epoch l hop i hm hi ha
  have indone : ∀ x ∈ loadContacts C index epoch l, x.1 ≤ now → x ∈ done := by
    intro x hx hxn
    rw [he] at hx
    rcases List.mem_append.mp hx with h | h
    · exact h
    · have := ht x h; omega
  have hapart : ∀ a ∈ l, ∀ b ∈ l, a ≠ b → a.source = C.me → b.source = C.me → a.dest = hop → b.dest = hop → a.stop < b.start ∨ b.stop < a.start := by
    intro a ha' b hb hab
    exact pairwise_ne (fun a b h h1 h2 h3 h4 => (h h2 h1 h4 h3).symm) ha.2 a ha' b hb hab
  rw [he] at ho
  have hod : Ordered done := (List.pairwise_append.mp ho).1
  constructor
  · intro h
    obtain ⟨pre, x, post, e, a, b, d⟩ := lastFor_split i done h
    have hxd : x ∈ done := by rw [e]; simp
    obtain ⟨c, c1, c2, c3, c4⟩ := hsound x hxd a
    have hx : x = upEvent epoch c i := by
      rcases c4 with h | h
      · exact h
      · rw [h] at b; cases b
    refine ⟨c, c1, c2, c3, by simpa [hx, upEvent] using hd x hxd, ?_⟩
    by_contra hstop
    have hdn := indone _ (hcomp c c1 c2 c3).2 (by simp only [downEvent]; omega)
    rw [e] at hdn hod
    obtain ⟨-, o2, o3⟩ := List.pairwise_append.mp hod
    rcases List.mem_append.mp hdn with h | h
    · have := o3 _ h x (by simp)
      rw [hx] at this
      simp only [upEvent, downEvent] at this
      have := ha.1 c c1 c2 c3
      omega
    · rcases List.mem_cons.mp h with h | h
      · rw [← h] at b; cases b
      · exact d _ h rfl
  · rintro ⟨c, c1, c2, c3, c4, c5⟩
    have hup := indone _ (hcomp c c1 c2 c3).1 c4
    obtain ⟨pre, post, e⟩ := List.append_of_mem hup
    rw [e]
    refine lastFor_true i pre _ post rfl rfl ?_
    intro y hy hyi
    have hyd : y ∈ done := by rw [e]; simp [hy]
    obtain ⟨b, b1, b2, b3, b4⟩ := hsound y hyd hyi
    rcases b4 with rfl | rfl
    · rfl
    · exfalso
      rw [e] at hod
      have h1 := (List.pairwise_cons.mp (List.pairwise_append.mp hod).2.1).1 _ hy
      have h2 := hd _ hyd
      simp only [upEvent, downEvent] at h1 h2
      by_cases hcb : b = c
      · subst hcb; omega
      · have l1 := ha.1 b b1 b2 b3
        rcases hapart b b1 c c1 hcb b2 c2 b3 c3 with h | h <;> omega

end Hdtn.Router
