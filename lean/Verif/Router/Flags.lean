import Verif.Router.Links

/-!
What each step does to the state of the links, and to the lists and timers.
-/

namespace Hdtn.Router

open Spec

/-- One link is changed in one way. -/
def State.change (s : State) (f : Outduct → Outduct) (j i : Nat) : Option Outduct :=
  if j = i then (s.outducts i).map fun o => (f o).bare else (s.outducts i).map Outduct.bare

/-- The links after a step, without the destinations. -/
def State.flagsAfter (s : State) (i : Nat) : Act → Option Outduct
  | .init l => (l.find? (·.1 == i)).map fun p => ⟨p.2.1, false, !p.2.2, true, []⟩
  | .load _ => (s.outducts i).map fun o => ({ o with byTime := false } : Outduct).bare
  | .fire => (s.outducts i).map Outduct.bare
  | .event => match s.events with
    | [] => (s.outducts i).map Outduct.bare
    | x :: _ => s.change (fun o => { o with byTime := x.2.up }) x.2.outduct i
  | .physical j up => s.change (fun o => { o with physical := up }) j i
  | .api j up => s.change (fun o => { o with byTime := up }) j i
  | .depleted node => match s.index node with
    | none => (s.outducts i).map Outduct.bare
    | some j => s.change (fun o => { o with storage := false }) j i
  | .storageTimer => match s.full with
    | [] => (s.outducts i).map Outduct.bare
    | x :: _ => s.change (fun o => { o with storage := true }) x.2 i

theorem Updated.change {s s0 s' : State} {j : Nat} {o : Outduct} {up : Bool} {first : List Msg} {f : Outduct → Outduct} (h : Updated s s' j o (f o) up first)
    (h0 : s.outducts = s0.outducts) (ho : s0.outducts j = some o) (i : Nat) :
    (s'.outducts i).map Outduct.bare = s0.change f j i := by
  unfold State.change
  by_cases hi : j = i
  · subst hi; rw [if_pos rfl, h.here, ho]; rfl
  · rw [if_neg hi, h.there i (Ne.symm hi), h0]

theorem change_none {s : State} {f : Outduct → Outduct} {j : Nat} (h : s.outducts j = none) (i : Nat) :
    (s.outducts i).map Outduct.bare = s.change f j i := by
  unfold State.change
  by_cases hi : j = i
  · subst hi; rw [if_pos rfl, h]; rfl
  · rw [if_neg hi]

theorem contact_flags (C : Config) (s : State) (now : Nat) (e : Event) (i : Nat) :
    ((s.contact C now e).outducts i).map Outduct.bare = s.change (fun o => { o with byTime := e.up }) e.outduct i := by
  unfold State.contact
  cases ho : s.outducts e.outduct with
  | none => exact change_none ho i
  | some o => exact (update_updated C s now e.outduct o _ e.up _).change (f := fun o => { o with byTime := e.up }) rfl ho i

theorem release_flags (C : Config) (s : State) (now j : Nat) (i : Nat) :
    ((s.release C now j).outducts i).map Outduct.bare = s.change (fun o => { o with storage := true }) j i := by
  unfold State.release
  cases ho : s.outducts j with
  | none => exact change_none ho i
  | some o => exact (update_updated C s now j o _ true _).change (f := fun o => { o with storage := true }) rfl ho i

theorem change_congr {s s' : State} (h : s'.outducts = s.outducts) (f : Outduct → Outduct) (j i : Nat) : s'.change f j i = s.change f j i := by
  unfold State.change; rw [h]

theorem step_flags {C : Config} {s s' : State} {now : Nat} {a : Act} (h : s.step C now a = some s') (i : Nat) :
    (s'.outducts i).map Outduct.bare = s.flagsAfter i a := by
  unfold State.step at h
  split at h
  · cases h
  simp only at h
  cases a with
  | init l =>
    simp only at h
    by_cases hc : (s.ready || !decide (l.map (·.1)).Nodup) = true
    · rw [if_pos hc] at h; cases h
    · rw [if_neg hc] at h; cases h
      simp at hc
      rw [init_outducts hc.2]
      simp only [State.flagsAfter]
      cases l.find? (·.1 == i) <;> rfl
  | load l =>
    cases h
    show ((s.outducts i).map _).map _ = _
    simp only [State.flagsAfter]
    cases s.outducts i <;> rfl
  | fire =>
    simp only at h
    split at h
    · cases h
    · split at h
      · cases h; rfl
      · cases h
  | event =>
    simp only at h
    split at h
    · cases h
    · cases h
      simp only [State.flagsAfter]
      unfold State.contactEvent
      cases he : s.events with
      | nil => rfl
      | cons x rest =>
        show (((State.contact C { s with clock := now, queued := s.queued - 1, events := x :: rest } now x.2).outducts i).map _) = _
        rw [contact_flags]; rfl
  | physical j up =>
    cases h
    unfold State.physical
    simp only [State.flagsAfter]
    cases ho : s.outducts j with
    | none => simp only [ho]; exact change_none (s := s) ho i
    | some o =>
      simp only [ho]
      exact (update_updated C { s with clock := now } now j o _ up []).change (s0 := s) (f := fun o => { o with physical := up }) rfl ho i
  | api j up =>
    cases h
    unfold State.api
    simp only [State.flagsAfter]
    cases ho : s.outducts j with
    | none => simp only [ho]; exact change_none (s := s) ho i
    | some o =>
      simp only [ho]
      exact (update_updated C { s with clock := now } now j o _ up []).change (s0 := s) (f := fun o => { o with byTime := up }) rfl ho i
  | depleted node =>
    cases h
    unfold State.depleted
    simp only [State.flagsAfter]
    cases hj : s.index node with
    | none => rfl
    | some j =>
      simp only
      cases ho : s.outducts j with
      | none => simp only [ho]; exact change_none (s := s) ho i
      | some o =>
        simp only [ho]
        refine (update_updated C _ now j o _ false _).change (s0 := s) (f := fun o => { o with storage := false }) ?_ ho i
        rw [(restartFull_frame _).2.1]
  | storageTimer =>
    simp only at h
    split at h
    · cases h
    · split at h
      · cases h
        simp only [State.flagsAfter]
        unfold State.storageEvent
        cases he : s.full with
        | nil => rfl
        | cons x rest =>
          rw [(restartFull_frame _).2.1]
          simp only
          rw [release_flags]
          apply change_congr
          split
          · rw [(restartFull_frame _).2.1]
          · rfl
      · cases h

theorem step_physical {C : Config} {s s' : State} {now : Nat} {a : Act} (h : s.step C now a = some s') (i : Nat) :
    (s'.outducts i).map (·.physical) = works1 i ((s.outducts i).map (·.physical)) a := by
  have h1 := congrArg (Option.map (·.physical)) (step_flags h i)
  have h2 : ∀ x : Option Outduct, (x.map Outduct.bare).map (·.physical) = x.map (·.physical) := by
    intro x; cases x <;> rfl
  rw [h2] at h1
  rw [h1]
  have h3 : ∀ (f : Outduct → Outduct) (j : Nat), (∀ o, (f o).physical = o.physical) →
      (s.change f j i).map (·.physical) = (s.outducts i).map (·.physical) := by
    intro f j hf
    unfold State.change
    split
    · cases s.outducts i with
      | none => rfl
      | some o => exact congrArg some (hf o)
    · exact h2 _
  cases a with
  | init l => simp only [State.flagsAfter, works1]; cases l.find? (·.1 == i) <;> rfl
  | load l => simp only [State.flagsAfter, works1]; cases s.outducts i <;> rfl
  | fire => exact h2 _
  | event =>
    simp only [State.flagsAfter, works1]
    cases s.events with
    | nil => exact h2 _
    | cons x l => exact h3 _ _ fun _ => rfl
  | physical j up =>
    simp only [State.flagsAfter, works1, State.change]
    split
    · cases s.outducts i <;> rfl
    · exact h2 _
  | api j up => exact h3 _ _ fun _ => rfl
  | depleted node =>
    simp only [State.flagsAfter, works1]
    cases s.index node with
    | none => exact h2 _
    | some j => exact h3 _ _ fun _ => rfl
  | storageTimer =>
    simp only [State.flagsAfter, works1]
    cases s.full with
    | nil => exact h2 _
    | cons x l => exact h3 _ _ fun _ => rfl

theorem run_physical {C : Config} {acts : List (Nat × Act)} {s : State} (h : run C start acts = some s) (i : Nat) :
    (s.outducts i).map (·.physical) = works i acts :=
  run_induction (fun acts s => (s.outducts i).map (·.physical) = works i acts) rfl
    (fun acts s now a s' _ hP hs => by
      rw [step_physical hs i, hP]; unfold works; rw [List.foldl_append]; rfl) h

/-! ### Lists and timers -/

theorem contact_frame (C : Config) (s : State) (now : Nat) (e : Event) :
    let s' := s.contact C now e
    s'.ready = s.ready ∧ s'.clock = s.clock ∧ s'.index = s.index ∧ s'.events = s.events ∧ s'.epoch = s.epoch ∧ s'.plan = s.plan ∧
      s'.timer = s.timer ∧ s'.queued = s.queued ∧ s'.full = s.full ∧ s'.fullTimer = s.fullTimer := by
  unfold State.contact
  cases s.outducts e.outduct with
  | none => exact ⟨rfl, rfl, rfl, rfl, rfl, rfl, rfl, rfl, rfl, rfl⟩
  | some o =>
    have h := update_updated C s now e.outduct o { o with byTime := e.up } e.up [.schedule e.outduct e.rate e.up]
    exact ⟨h.ready, h.clock, h.index, h.events, h.epoch, h.plan, h.timer, h.queued, h.full, h.fullTimer⟩

theorem release_frame (C : Config) (s : State) (now i : Nat) :
    let s' := s.release C now i
    s'.ready = s.ready ∧ s'.clock = s.clock ∧ s'.index = s.index ∧ s'.events = s.events ∧ s'.epoch = s.epoch ∧ s'.plan = s.plan ∧
      s'.timer = s.timer ∧ s'.queued = s.queued ∧ s'.full = s.full ∧ s'.fullTimer = s.fullTimer := by
  unfold State.release
  cases s.outducts i with
  | none => exact ⟨rfl, rfl, rfl, rfl, rfl, rfl, rfl, rfl, rfl, rfl⟩
  | some o =>
    have h := update_updated C s now i o { o with storage := true } true []
    exact ⟨h.ready, h.clock, h.index, h.events, h.epoch, h.plan, h.timer, h.queued, h.full, h.fullTimer⟩

end Hdtn.Router
