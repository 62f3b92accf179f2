import Verif.Router.RouteSteps

/-!
Neighbours without storage.
-/

namespace Hdtn.Router

open Spec

/-- How long a neighbour is held, in microseconds. -/
abbrev Config.hold (C : Config) : Nat := C.delay * 1000000

theorem mem_placeFull (t i : Nat) (l : List (Nat × Nat)) (x : Nat × Nat) : x ∈ placeFull t i l ↔ x = (t, i) ∨ x ∈ l := by
  induction l with
  | nil => simp [placeFull]
  | cons y l ih =>
    unfold placeFull
    split
    · rw [List.mem_cons, ih, List.mem_cons]; tauto
    · rw [List.mem_cons]

theorem placeFull_ordered (t i : Nat) {l : List (Nat × Nat)} (h : l.Pairwise fun a b => a.1 ≤ b.1) :
    (placeFull t i l).Pairwise fun a b => a.1 ≤ b.1 := by
  induction l with
  | nil => simp [placeFull]
  | cons y l ih =>
    obtain ⟨h1, h2⟩ := List.pairwise_cons.mp h
    unfold placeFull
    split
    next hy =>
      refine List.pairwise_cons.mpr ⟨fun x hx => ?_, ih h2⟩
      rcases (mem_placeFull t i l x).mp hx with rfl | hx
      · exact hy
      · exact h1 x hx
    next hy =>
      refine List.pairwise_cons.mpr ⟨fun x hx => ?_, h⟩
      rcases List.mem_cons.mp hx with rfl | hx
      · simp only; omega
      · have := h1 x hx
        simp only; omega

theorem placeFull_nodup (t i : Nat) {l : List (Nat × Nat)} (h : (l.map (·.2)).Nodup) (hi : i ∉ l.map (·.2)) :
    ((placeFull t i l).map (·.2)).Nodup := by
  induction l with
  | nil => simp [placeFull]
  | cons y l ih =>
    rw [List.map_cons] at h hi
    obtain ⟨h1, h2⟩ := List.nodup_cons.mp h
    unfold placeFull
    split
    · rw [List.map_cons]
      refine List.nodup_cons.mpr ⟨?_, ih h2 fun e => hi (List.mem_cons_of_mem _ e)⟩
      intro e
      obtain ⟨x, hx, ex⟩ := List.mem_map.mp e
      rcases (mem_placeFull t i l x).mp hx with rfl | hx
      · exact hi (by rw [show i = y.2 from ex]; exact List.mem_cons_self ..)
      · exact h1 (by rw [← ex]; exact List.mem_map.mpr ⟨x, hx, rfl⟩)
    · rw [List.map_cons]
      exact List.nodup_cons.mpr ⟨by rw [List.map_cons]; exact hi, by rw [List.map_cons]; exact h⟩

/-- What holds of the neighbours that are taken to have no storage. -/
structure FullInv (C : Config) (s : State) : Prop where
  ordered : s.full.Pairwise fun a b => a.1 ≤ b.1
  nodup : (s.full.map (·.2)).Nodup
  soon : ∀ x ∈ s.full, x.1 ≤ s.clock + C.hold
  timer : ∀ t, s.fullTimer = some t → ∀ x ∈ s.full, t ≤ x.1
  timerSoon : ∀ t, s.fullTimer = some t → t ≤ s.clock + C.hold
  armed : s.full ≠ [] → s.fullTimer ≠ none
  held : ∀ i o, s.outducts i = some o → (o.storage = false ↔ i ∈ s.full.map (·.2))
  known : ∀ x ∈ s.full, (s.outducts x.2).isSome = true

theorem full_restartFull (s : State) : s.restartFull.full = s.full ∧ s.restartFull.clock = s.clock := by
  unfold State.restartFull; split <;> exact ⟨rfl, rfl⟩

theorem timer_restartFull (s : State) : s.restartFull.fullTimer = match s.fullTimer with
    | none => s.full.head?.map (·.1)
    | some t => some t := by
  unfold State.restartFull
  cases h : s.fullTimer with
  | none => rfl
  | some t => exact h

/-- What a step does to the list and its timer. -/
theorem depleted_full {C : Config} {s s' : State} {now node : Nat} (h : s.step C now (.depleted node) = some s') :
    (∃ i o, s.index node = some i ∧ s.outducts i = some o ∧ s'.full = placeFull (now + C.hold) i (s.full.filter (·.2 != i)) ∧
      s'.fullTimer = match s.fullTimer with
        | none => s'.full.head?.map (·.1)
        | some t => some t) ∨
    ((∀ i, s.index node = some i → s.outducts i = none) ∧ s'.full = s.full ∧ s'.fullTimer = s.fullTimer) := by
  unfold State.step at h
  split at h
  · cases h
  cases h
  unfold State.depleted
  simp only
  cases hi : s.index node with
  | none => exact .inr ⟨fun i e => (by cases e), rfl, rfl⟩
  | some i =>
    simp only
    cases ho : s.outducts i with
    | none => exact .inr ⟨fun j e => (by cases e; exact ho), by simp [ho], by simp [ho]⟩
    | some o =>
      left
      simp only [ho]
      have hu := update_updated C (State.restartFull { s with
        clock := now, full := placeFull (now + C.delay * 1000000) i (s.full.filter (·.2 != i)) }) now i o { o with storage := false } false []
      refine ⟨i, o, rfl, ho, ?_, ?_⟩
      · rw [hu.full, (full_restartFull _).1]
      · rw [hu.fullTimer, hu.full, timer_restartFull, (full_restartFull _).1]

theorem storage_full {C : Config} {s s' : State} {now : Nat} (h : s.step C now .storageTimer = some s') :
    ∃ T, s.fullTimer = some T ∧ T ≤ now ∧
      ((s.full = [] ∧ s'.full = [] ∧ s'.fullTimer = none) ∨
       (∃ x rest, s.full = x :: rest ∧ s'.full = rest ∧ s'.fullTimer = if x.1 > now then some x.1 else rest.head?.map (·.1))) := by
  unfold State.step at h
  split at h
  · cases h
  simp only at h
  cases hT : s.fullTimer with
  | none => rw [hT] at h; cases h
  | some T =>
    rw [hT] at h
    simp only at h
    by_cases hle : T ≤ now
    · rw [if_pos hle] at h
      cases h
      refine ⟨T, rfl, hle, ?_⟩
      unfold State.storageEvent
      cases he : s.full with
      | nil => exact .inl ⟨rfl, rfl, rfl⟩
      | cons x rest =>
        right
        refine ⟨x, rest, rfl, ?_, ?_⟩
        · simp only; rw [(full_restartFull _).1]
        · simp only
          rw [timer_restartFull]
          simp only [(release_frame C _ now x.2).2.2.2.2.2.2.2.2.2]
          by_cases hx : x.1 > now
          · rw [if_pos hx, if_pos hx, timer_restartFull]
            rfl
          · rw [if_neg hx, if_neg hx]
    · rw [if_neg hle] at h; cases h

theorem other_full {C : Config} {s s' : State} {now : Nat} {a : Act} (h : s.step C now a = some s') (h1 : ∀ n, a ≠ .depleted n)
    (h2 : a ≠ .storageTimer) : s'.full = s.full ∧ s'.fullTimer = s.fullTimer := by
  unfold State.step at h
  split at h
  · cases h
  simp only at h
  cases a with
  | init l =>
    simp only at h
    split at h
    · cases h
    · cases h; exact ⟨rfl, rfl⟩
  | load l => cases h; exact ⟨rfl, rfl⟩
  | fire =>
    simp only at h
    split at h
    · cases h
    · split at h
      · cases h; exact ⟨rfl, rfl⟩
      · cases h
  | event =>
    simp only at h
    split at h
    · cases h
    · cases h
      unfold State.contactEvent
      cases he : s.events with
      | nil => exact ⟨rfl, rfl⟩
      | cons x rest =>
        have := contact_frame C { s with clock := now, queued := s.queued - 1, events := x :: rest } now x.2
        exact ⟨this.2.2.2.2.2.2.2.2.1, this.2.2.2.2.2.2.2.2.2⟩
  | physical i up =>
    cases h
    unfold State.physical
    cases ho : s.outducts i with
    | none => simp [ho]
    | some o =>
      simp only [ho]
      have hu := update_updated C { s with clock := now } now i o { o with physical := up } up []
      exact ⟨hu.full, hu.fullTimer⟩
  | api i up =>
    cases h
    unfold State.api
    cases ho : s.outducts i with
    | none => simp [ho]
    | some o =>
      simp only [ho]
      have hu := update_updated C { s with clock := now } now i o { o with byTime := up } up []
      exact ⟨hu.full, hu.fullTimer⟩
  | depleted n => exact absurd rfl (h1 n)
  | storageTimer => exact absurd rfl h2

/-- What a step does to the knowledge about storage. -/
theorem step_storage {C : Config} {s s' : State} {now : Nat} {a : Act} (h : s.step C now a = some s') (hn : ∀ l, a ≠ .init l) (i : Nat) :
    (s'.outducts i).map (·.storage) = match a with
      | .depleted node => if s.index node = some i then (s.outducts i).map fun _ => false else (s.outducts i).map (·.storage)
      | .storageTimer => if s.full.head?.map (·.2) = some i then (s.outducts i).map fun _ => true else (s.outducts i).map (·.storage)
      | _ => (s.outducts i).map (·.storage) := by
  have h1 := congrArg (Option.map (·.storage)) (step_flags h i)
  have h2 : ∀ x : Option Outduct, (x.map Outduct.bare).map (·.storage) = x.map (·.storage) := by
    intro x; cases x <;> rfl
  rw [h2] at h1
  rw [h1]
  have h3 : ∀ (f : Outduct → Outduct) (j : Nat), (∀ o, (f o).storage = o.storage) →
      (s.change f j i).map (·.storage) = (s.outducts i).map (·.storage) := by
    intro f j hf
    unfold State.change
    split
    · cases s.outducts i with
      | none => rfl
      | some o => exact congrArg some (hf o)
    · exact h2 _
  cases a with
  | init l => exact absurd rfl (hn l)
  | load l => simp only [State.flagsAfter]; cases s.outducts i <;> rfl
  | fire => exact h2 _
  | event =>
    simp only [State.flagsAfter]
    cases s.events with
    | nil => exact h2 _
    | cons x l => exact h3 _ _ fun _ => rfl
  | physical j up => exact h3 _ _ fun _ => rfl
  | api j up => exact h3 _ _ fun _ => rfl
  | depleted node =>
    simp only [State.flagsAfter]
    cases s.index node with
    | none => simpa using h2 _
    | some j =>
      simp only [State.change, Option.some.injEq]
      split
      · cases s.outducts i <;> rfl
      · exact h2 _
  | storageTimer =>
    simp only [State.flagsAfter]
    cases s.full with
    | nil => simpa using h2 _
    | cons x l =>
      simp only [State.change, List.head?_cons, Option.map_some, Option.some.injEq]
      split
      · cases s.outducts i <;> rfl
      · exact h2 _

theorem isSome_of_map {α β : Type} {f : α → β} {a b : Option α} (h : a.map f = b.map f) : a.isSome = b.isSome := by
  cases a <;> cases b <;> simp_all

theorem storage_held {s s' : State} (hs : ∀ i o, s.outducts i = some o → (o.storage = false ↔ i ∈ s.full.map (·.2)))
    (h : ∀ i, (s'.outducts i).map (·.storage) = (s.outducts i).map (·.storage)) (hf : s'.full = s.full) :
    ∀ i o, s'.outducts i = some o → (o.storage = false ↔ i ∈ s'.full.map (·.2)) := by
  intro i o ho
  have := h i
  rw [ho] at this
  cases h1 : s.outducts i with
  | none => rw [h1] at this; cases this
  | some o1 =>
    rw [h1] at this
    simp only [Option.map_some, Option.some.injEq] at this
    rw [this, hf]
    exact hs i o1 h1

theorem step_fullInv {C : Config} {s s' : State} {now : Nat} {a : Act} (hs : FullInv C s) (hl : LinkInv s)
    (h : s.step C now a = some s') : FullInv C s' := by
  have hc := step_clock h
  by_cases hi : ∀ l, a ≠ .init l
  · obtain ⟨-, -, hclk⟩ := step_index h hi
    have hsome : ∀ i, (s'.outducts i).isSome = (s.outducts i).isSome := fun i => isSome_of_map (step_hop h hi i)
    by_cases h1 : ∀ n, a ≠ .depleted n
    · by_cases h2 : a = .storageTimer
      · subst h2
        obtain ⟨T, t1, t2, t3⟩ := storage_full h
        have hst := step_storage h hi
        rcases t3 with ⟨e1, e2, e3⟩ | ⟨x, rest, e1, e2, e3⟩
        · refine ⟨by simp [e2], by simp [e2], by simp [e2], by simp [e2], by simp [e3], by simp [e2], ?_, by simp [e2]⟩
          refine storage_held hs.held (fun i => ?_) (by rw [e1, e2])
          rw [hst i]
          simp [e1]
        · have ho := hs.ordered
          have hn := hs.nodup
          rw [e1] at ho hn
          obtain ⟨o1, o2⟩ := List.pairwise_cons.mp ho
          rw [List.map_cons] at hn
          obtain ⟨n1, n2⟩ := List.nodup_cons.mp hn
          refine ⟨by rw [e2]; exact o2, by rw [e2]; exact n2, ?_, ?_, ?_, ?_, ?_, ?_⟩
          · intro y hy
            rw [e2] at hy
            have := hs.soon y (by rw [e1]; exact List.mem_cons_of_mem _ hy)
            rw [hclk]; omega
          · intro t ht y hy
            rw [e2] at hy
            rw [e3] at ht
            split at ht
            · cases ht; exact o1 y hy
            · cases rest with
              | nil => cases ht
              | cons z r =>
                cases ht
                rcases List.mem_cons.mp hy with rfl | hy
                · exact Nat.le_refl _
                · exact (List.pairwise_cons.mp o2).1 y hy
          · intro t ht
            rw [e3] at ht
            rw [hclk]
            split at ht
            · cases ht
              have := hs.soon x (by rw [e1]; exact List.mem_cons_self ..)
              omega
            · cases rest with
              | nil => cases ht
              | cons z r =>
                cases ht
                have := hs.soon z (by rw [e1]; simp)
                show z.1 ≤ now + C.hold
                omega
          · intro hne ht
            rw [e2] at hne
            rw [e3] at ht
            split at ht
            · cases ht
            · cases rest with
              | nil => exact hne rfl
              | cons z r => cases ht
          · intro i o hoi
            have := hst i
            simp only [e1, List.head?_cons, Option.map_some, Option.some.injEq] at this
            rw [hoi] at this
            rw [e2]
            cases h5 : s.outducts i with
            | none => rw [h5] at this; split at this <;> cases this
            | some o1 =>
              rw [h5] at this
              by_cases hx : x.2 = i
              · rw [if_pos hx] at this
                simp only [Option.map_some, Option.some.injEq] at this
                rw [this]
                constructor
                · intro e; cases e
                · intro e; rw [hx] at n1; exact absurd e n1
              · rw [if_neg hx] at this
                simp only [Option.map_some, Option.some.injEq] at this
                rw [this, hs.held i o1 h5, e1, List.map_cons, List.mem_cons]
                constructor
                · rintro (e | e)
                  · exact absurd e.symm hx
                  · exact e
                · exact .inr
          · intro y hy
            rw [e2] at hy
            rw [hsome]
            exact hs.known y (by rw [e1]; exact List.mem_cons_of_mem _ hy)
      · obtain ⟨f1, f2⟩ := other_full h h1 h2
        refine ⟨f1 ▸ hs.ordered, f1 ▸ hs.nodup, ?_, ?_, ?_, ?_, ?_, ?_⟩
        · intro x hx
          rw [f1] at hx
          have := hs.soon x hx
          rw [hclk]; omega
        · rw [f1, f2]; exact hs.timer
        · rw [f2, hclk]
          intro t ht
          have := hs.timerSoon t ht
          omega
        · rw [f1, f2]; exact hs.armed
        · refine storage_held hs.held (fun i => ?_) f1
          rw [step_storage h hi i]
          cases a with
          | depleted n => exact absurd rfl (h1 n)
          | storageTimer => exact absurd rfl h2
          | _ => rfl
        · intro x hx
          rw [hsome]; rw [f1] at hx; exact hs.known x hx
    · have : ∃ n, a = .depleted n := by
        by_contra e; exact h1 fun n e' => e ⟨n, e'⟩
      obtain ⟨node, rfl⟩ := this
      have hst := step_storage h hi
      simp only at hst
      rcases depleted_full h with ⟨i, o, d1, d2, d3, d4⟩ | ⟨d1, d2, d3⟩
      · have hmem : ∀ x ∈ s.full.filter (·.2 != i), x ∈ s.full ∧ x.2 ≠ i := by
          intro x hx
          have := List.mem_filter.mp hx
          exact ⟨this.1, by simpa using this.2⟩
        have hof : (s.full.filter (·.2 != i)).Pairwise fun a b => a.1 ≤ b.1 := hs.ordered.filter _
        have hnf : ((s.full.filter (·.2 != i)).map (·.2)).Nodup := hs.nodup.sublist (List.filter_sublist.map _)
        have hni : i ∉ (s.full.filter (·.2 != i)).map (·.2) := by
          intro e
          obtain ⟨x, hx, ex⟩ := List.mem_map.mp e
          exact (hmem x hx).2 ex
        have hord := placeFull_ordered (now + C.hold) i hof
        rw [← d3] at hord
        have hsoon : ∀ x ∈ s'.full, x.1 ≤ now + C.hold := by
          intro x hx
          rw [d3] at hx
          rcases (mem_placeFull _ _ _ x).mp hx with rfl | hx
          · exact Nat.le_refl _
          · have := hs.soon x (hmem x hx).1
            omega
        refine ⟨hord, by rw [d3]; exact placeFull_nodup _ _ hnf hni, by rw [hclk]; exact hsoon, ?_, ?_, ?_, ?_, ?_⟩
        · intro t ht x hx
          rw [d4] at ht
          cases hT : s.fullTimer with
          | none =>
            rw [hT] at ht
            cases hf : s'.full with
            | nil => rw [hf] at hx; cases hx
            | cons z r =>
              rw [hf] at ht hx hord
              cases ht
              rcases List.mem_cons.mp hx with rfl | hx
              · exact Nat.le_refl _
              · exact (List.pairwise_cons.mp hord).1 x hx
          | some T =>
            rw [hT] at ht
            cases ht
            rw [d3] at hx
            rcases (mem_placeFull _ _ _ x).mp hx with rfl | hx
            · have := hs.timerSoon _ hT
              simp only; omega
            · exact hs.timer _ hT x (hmem x hx).1
        · intro t ht
          rw [d4] at ht
          rw [hclk]
          cases hT : s.fullTimer with
          | none =>
            rw [hT] at ht
            cases hf : s'.full with
            | nil => rw [hf] at ht; cases ht
            | cons z r =>
              rw [hf] at ht
              cases ht
              exact hsoon z (by rw [hf]; exact List.mem_cons_self ..)
          | some T =>
            rw [hT] at ht
            cases ht
            have := hs.timerSoon _ hT
            omega
        · intro hne ht
          rw [d4] at ht
          cases hT : s.fullTimer with
          | none =>
            rw [hT] at ht
            cases hf : s'.full with
            | nil => exact hne hf
            | cons z r => rw [hf] at ht; cases ht
          | some T => rw [hT] at ht; cases ht
        · intro j oj hoj
          have := hst j
          rw [hoj, d1] at this
          have hm : j ∈ s'.full.map (·.2) ↔ j = i ∨ j ∈ s.full.map (·.2) := by
            rw [d3]
            constructor
            · intro e
              obtain ⟨x, hx, ex⟩ := List.mem_map.mp e
              rcases (mem_placeFull _ _ _ x).mp hx with rfl | hx
              · exact .inl ex.symm
              · exact .inr (List.mem_map.mpr ⟨x, (hmem x hx).1, ex⟩)
            · rintro (rfl | e)
              · exact List.mem_map.mpr ⟨_, (mem_placeFull _ _ _ _).mpr (.inl rfl), rfl⟩
              · by_cases hji : j = i
                · subst hji
                  exact List.mem_map.mpr ⟨_, (mem_placeFull _ _ _ _).mpr (.inl rfl), rfl⟩
                · obtain ⟨x, hx, ex⟩ := List.mem_map.mp e
                  refine List.mem_map.mpr ⟨x, (mem_placeFull _ _ _ _).mpr (.inr (List.mem_filter.mpr ⟨hx, ?_⟩)), ex⟩
                  simp only [bne_iff_ne]
                  rw [ex]; exact hji
          cases h5 : s.outducts j with
          | none => rw [h5] at this; split at this <;> cases this
          | some o1 =>
            rw [h5] at this
            by_cases hji : i = j
            · rw [if_pos (by rw [hji])] at this
              simp only [Option.map_some, Option.some.injEq] at this
              rw [this, hm]
              simp [hji]
            · rw [if_neg (by simpa using hji)] at this
              simp only [Option.map_some, Option.some.injEq] at this
              rw [this, hm, hs.held j o1 h5]
              constructor
              · exact .inr
              · rintro (e | e)
                · exact absurd e.symm hji
                · exact e
        · intro x hx
          rw [hsome]
          rw [d3] at hx
          rcases (mem_placeFull _ _ _ x).mp hx with rfl | hx
          · simp only; rw [d2]; rfl
          · exact hs.known x (hmem x hx).1
      · refine ⟨d2 ▸ hs.ordered, d2 ▸ hs.nodup, ?_, ?_, ?_, ?_, ?_, ?_⟩
        · intro x hx
          rw [d2] at hx
          have := hs.soon x hx
          rw [hclk]; omega
        · rw [d2, d3]; exact hs.timer
        · rw [d3, hclk]
          intro t ht
          have := hs.timerSoon t ht
          omega
        · rw [d2, d3]; exact hs.armed
        · refine storage_held hs.held (fun i => ?_) d2
          rw [hst i]
          split
          next e => rw [d1 i e]; rfl
          next => rfl
        · intro x hx
          rw [hsome]; rw [d2] at hx; exact hs.known x hx
  · have : ∃ l, a = .init l := by
      by_contra e; exact hi fun l e' => e ⟨l, e'⟩
    obtain ⟨l, rfl⟩ := this
    obtain ⟨hr, hd, rfl⟩ := init_ok h
    have hnil : s.full = [] := by
      cases hf : s.full with
      | nil => rfl
      | cons x r =>
        have := hs.known x (by rw [hf]; exact List.mem_cons_self ..)
        rw [hl.fresh hr] at this; cases this
    have hf : (State.init { s with clock := now } l).full = [] := hnil
    refine ⟨by simp [hf], by simp [hf], by simp [hf], by simp [hf], fun t ht => ?_, by simp [hf], ?_, by simp [hf]⟩
    · have := hs.timerSoon t ht
      show t ≤ now + C.hold
      omega
    intro i o ho
    rw [init_outducts hd] at ho
    rw [hf]
    cases hq : l.find? (·.1 == i) with
    | none => rw [hq] at ho; cases ho
    | some p => rw [hq] at ho; cases ho; simp

theorem run_fullInv {C : Config} {acts : List (Nat × Act)} {s : State} (h : run C start acts = some s) : FullInv C s :=
  run_induction (fun _ s => FullInv C s)
    ⟨List.Pairwise.nil, List.nodup_nil, by simp [start], by simp [start], by simp [start], by simp [start], by simp [start], by simp [start]⟩
    (fun _ _ _ _ _ h0 h h' => step_fullInv h (run_linkInv h0) h') h

/-! ### Next hops by what happened -/

theorem foldl_index_eq (l : List (Nat × Nat × Bool)) (f : Nat → Option Nat) (h : Nat) :
    l.foldl (fun f p => fun h => if h = p.2.1 then some p.1 else f h) f h = match l.reverse.find? (·.2.1 == h) with
      | some p => some p.1
      | none => f h := by
  induction l using List.reverseRecOn with
  | nil => rfl
  | append_singleton l p ih =>
    rw [List.foldl_append, List.reverse_append]
    simp only [List.foldl_cons, List.foldl_nil, List.reverse_singleton, List.singleton_append]
    by_cases hp : h = p.2.1
    · rw [if_pos hp, List.find?_cons_of_pos (by simpa using hp.symm)]
    · rw [if_neg hp, ih, List.find?_cons_of_neg (by simpa using Ne.symm hp)]

theorem step_outductTo {C : Config} {s s' : State} {now : Nat} {a : Act} (h : s.step C now a = some s') (x : Nat) :
    s'.index x = outductTo1 x (s.index x) a := by
  by_cases hi : ∀ l, a ≠ .init l
  · rw [(step_index h hi).1]
    cases a with
    | init l => exact absurd rfl (hi l)
    | _ => rfl
  · have : ∃ l, a = .init l := by
      by_contra e; exact hi fun l e' => e ⟨l, e'⟩
    obtain ⟨l, rfl⟩ := this
    obtain ⟨-, -, rfl⟩ := init_ok h
    have e := foldl_index_eq l (fun _ => none) x
    refine e.trans ?_
    simp only [outductTo1]
    cases l.reverse.find? (·.2.1 == x) <;> rfl

theorem outductTo_snoc (x : Nat) (acts : List (Nat × Act)) (a : Nat × Act) :
    outductTo x (acts ++ [a]) = outductTo1 x (outductTo x acts) a.2 := by
  unfold outductTo; rw [List.foldl_append]; rfl

theorem run_index {C : Config} {acts : List (Nat × Act)} {s : State} (h : run C start acts = some s) : ∀ x, s.index x = outductTo x acts :=
  run_induction (fun acts s => ∀ x, s.index x = outductTo x acts) (fun _ => rfl)
    (fun acts s now a s' _ hP hs x => by rw [step_outductTo hs, hP, outductTo_snoc]) h

/-! ### Reports -/

theorem run_reports {C : Config} {acts : List (Nat × Act)} {s : State} (h : run C start acts = some s) :
    ∀ x ∈ s.full, ∃ t n, (t, Act.depleted n) ∈ acts ∧ s.index n = some x.2 ∧ x.1 = t + C.hold := by
  refine run_induction (fun acts s => ∀ x ∈ s.full, ∃ t n, (t, Act.depleted n) ∈ acts ∧ s.index n = some x.2 ∧ x.1 = t + C.hold)
    (by simp [start]) ?_ h
  intro acts s now a s' h0 hP hs x hx
  have old : x ∈ s.full → s'.index = s.index → ∃ t n, (t, Act.depleted n) ∈ acts ++ [(now, a)] ∧ s'.index n = some x.2 ∧ x.1 = t + C.hold := by
    intro hx hix
    obtain ⟨t, n, e1, e2, e3⟩ := hP x hx
    exact ⟨t, n, List.mem_append_left _ e1, by rw [hix]; exact e2, e3⟩
  by_cases hi : ∀ l, a ≠ .init l
  · have hix := (step_index hs hi).1
    by_cases h1 : ∀ n, a ≠ .depleted n
    · by_cases h2 : a = .storageTimer
      · subst h2
        obtain ⟨T, t1, t2, ⟨e1, e2, e3⟩ | ⟨y, rest, e1, e2, e3⟩⟩ := storage_full hs
        · rw [e2] at hx; cases hx
        · rw [e2] at hx
          exact old (by rw [e1]; exact List.mem_cons_of_mem _ hx) hix
      · rw [(other_full hs h1 h2).1] at hx
        exact old hx hix
    · have : ∃ n, a = .depleted n := by
        by_contra e; exact h1 fun n e' => e ⟨n, e'⟩
      obtain ⟨node, rfl⟩ := this
      rcases depleted_full hs with ⟨i, o, d1, d2, d3, d4⟩ | ⟨d1, d2, d3⟩
      · rw [d3] at hx
        rcases (mem_placeFull _ _ _ x).mp hx with rfl | hx
        · exact ⟨now, node, by simp, by rw [hix]; exact d1, rfl⟩
        · exact old (List.mem_filter.mp hx).1 hix
      · rw [d2] at hx
        exact old hx hix
  · have : ∃ l, a = .init l := by
      by_contra e; exact hi fun l e' => e ⟨l, e'⟩
    obtain ⟨l, rfl⟩ := this
    obtain ⟨hr, hd, rfl⟩ := init_ok hs
    have := (run_fullInv h0).known x hx
    rw [(run_linkInv h0).fresh hr] at this; cases this

/-- Reports that are still in force are in the list. -/
def Kept (C : Config) (acts : List (Nat × Act)) (s : State) : Prop :=
  (s.fullTimer = s.full.head?.map (·.1)) ∧
  ∀ before t n after i, acts = before ++ (t, Act.depleted n) :: after → outductTo n before = some i →
    t + C.hold ≤ s.clock ∨ ∃ x ∈ s.full, x.2 = i ∧ t + C.hold ≤ x.1

theorem snoc_eq_split {α : Type} {l : List α} {x : α} {pre post : List α} {y : α} (h : l ++ [x] = pre ++ y :: post) :
    (post = [] ∧ pre = l ∧ x = y) ∨ ∃ post', post = post' ++ [x] ∧ l = pre ++ y :: post' := by
  rcases List.eq_nil_or_concat post with rfl | ⟨post', z, rfl⟩
  · obtain ⟨a, b⟩ := List.append_inj' h rfl
    cases b
    exact .inl ⟨rfl, a.symm, rfl⟩
  · rw [List.concat_eq_append, ← List.cons_append, ← List.append_assoc] at h
    obtain ⟨a, b⟩ := List.append_inj' h rfl
    cases b
    exact .inr ⟨post', by simp, a⟩

theorem run_kept {C : Config} {acts : List (Nat × Act)} {s : State} (h : run C start acts = some s) :
    NoRepeat C acts → Kept C acts s := by
  refine run_induction (fun acts s => NoRepeat C acts → Kept C acts s) ?_ ?_ h
  · intro _
    refine ⟨rfl, ?_⟩
    intro before t n after i e
    simp at e
  intro acts s now a s' h0 ih hs hrep
  have hc := step_clock hs
  have hF := run_fullInv h0
  obtain ⟨k1, k2⟩ := ih (by
    intro before t n after e s1 hs1
    exact hrep before t n (after ++ [(now, a)]) (by rw [e]; simp) s1 hs1)
  have hclk : s'.clock = now := by
    by_cases hi : ∀ l, a ≠ .init l
    · exact (step_index hs hi).2.2
    · have : ∃ l, a = .init l := by
        by_contra e; exact hi fun l e' => e ⟨l, e'⟩
      obtain ⟨l, rfl⟩ := this
      obtain ⟨-, -, rfl⟩ := init_ok hs
      rfl
  have old : (∀ y ∈ s.full, y ∈ s'.full ∨ y.1 ≤ now) → ∀ before t n after i, acts = before ++ (t, Act.depleted n) :: after →
      outductTo n before = some i → t + C.hold ≤ s'.clock ∨ ∃ x ∈ s'.full, x.2 = i ∧ t + C.hold ≤ x.1 := by
    intro hsub before t n after i e ho
    rw [hclk]
    rcases k2 before t n after i e ho with h | ⟨x, hx, e1, e2⟩
    · left; omega
    · rcases hsub x hx with h | h
      · exact .inr ⟨x, h, e1, e2⟩
      · left; omega
  have wrap : (∀ y ∈ s.full, y ∈ s'.full ∨ y.1 ≤ now) → (∀ n, a = .depleted n → ∀ i, s.index n = some i → ∃ x ∈ s'.full, x.2 = i ∧ now + C.hold ≤ x.1) →
      ∀ before t n after i, acts ++ [(now, a)] = before ++ (t, Act.depleted n) :: after →
      outductTo n before = some i → t + C.hold ≤ s'.clock ∨ ∃ x ∈ s'.full, x.2 = i ∧ t + C.hold ≤ x.1 := by
    intro hsub hnew before t n after i e ho
    rcases snoc_eq_split e with ⟨rfl, rfl, e2⟩ | ⟨post', rfl, e2⟩
    · cases e2
      right
      exact hnew n rfl i (by rw [run_index h0]; exact ho)
    · exact old hsub before t n post' i e2 ho
  by_cases h1 : ∀ n, a ≠ .depleted n
  · by_cases h2 : a = .storageTimer
    · subst h2
      obtain ⟨T, t1, t2, ⟨e1, e2, e3⟩ | ⟨y, rest, e1, e2, e3⟩⟩ := storage_full hs
      · rw [e1, t1] at k1; cases k1
      · rw [e1, t1] at k1
        cases k1
        refine ⟨?_, wrap ?_ fun n e => absurd e (h1 n)⟩
        · rw [e3, e2, if_neg]
          have : y.1 ≤ now := t2
          omega
        · intro z hz
          rw [e1] at hz
          rcases List.mem_cons.mp hz with rfl | hz
          · exact .inr t2
          · exact .inl (by rw [e2]; exact hz)
    · obtain ⟨f1, f2⟩ := other_full hs h1 h2
      refine ⟨by rw [f1, f2]; exact k1, wrap ?_ fun n e => absurd e (h1 n)⟩
      intro y hy; rw [f1]; exact .inl hy
  · have : ∃ n, a = .depleted n := by
      by_contra e; exact h1 fun n e' => e ⟨n, e'⟩
    obtain ⟨node, rfl⟩ := this
    rcases depleted_full hs with ⟨i, o, d1, d2, d3, d4⟩ | ⟨d1, d2, d3⟩
    · have hst : o.storage = true := hrep acts now node [] rfl s h0 i d1 o d2
      have hni : i ∉ s.full.map (·.2) := by
        intro e
        rw [← hF.held i o d2, hst] at e; cases e
      have hfil : s.full.filter (·.2 != i) = s.full := by
        rw [List.filter_eq_self]
        intro x hx
        simp only [bne_iff_ne]
        intro e
        exact hni (List.mem_map.mpr ⟨x, hx, e⟩)
      rw [hfil] at d3
      refine ⟨?_, wrap ?_ ?_⟩
      · rw [d4, k1]
        cases hf : s.full with
        | nil => rfl
        | cons z r =>
          rw [d3, hf]
          unfold placeFull
          have hz : z.1 ≤ now + C.hold := by
            have := hF.soon z (by rw [hf]; exact List.mem_cons_self ..)
            omega
          rw [if_pos hz]
          rfl
      · intro y hy
        rw [d3]; exact .inl ((mem_placeFull _ _ _ _).mpr (.inr hy))
      · rintro n ⟨⟩ j hj
        rw [d1] at hj
        cases hj
        rw [d3]
        exact ⟨_, (mem_placeFull _ _ _ _).mpr (.inl rfl), rfl, Nat.le_refl _⟩
    · refine ⟨by rw [d2, d3]; exact k1, wrap ?_ ?_⟩
      · intro y hy; rw [d2]; exact .inl hy
      · rintro n ⟨⟩ j hj
        have := d1 j hj
        have h5 := run_indexInv h0 _ j hj
        rw [this] at h5; cases h5

end Hdtn.Router
