import Verif.Router.Spec
import Mathlib.Data.List.Nodup
import Mathlib.Data.List.Induction

/-!
Lemmas about the router: what the computation of routes leaves alone, and what messages tell.
-/

namespace Hdtn.Router

open Spec

/-! ### Messages -/

theorem announced_append (i : Nat) (a b : List Msg) : announced i (a ++ b) = b.foldl (hearLink i) (announced i a) := by
  unfold announced; rw [List.foldl_append]

theorem announced_snoc_link (i j : Nat) (up : Bool) (a : List Msg) :
    announced i (a ++ [.link j up]) = if j = i then up else announced i a := by
  rw [announced_append]; rfl

/-- Messages that are not about links. -/
def NoLink (l : List Msg) : Prop := ∀ i up, Msg.link i up ∉ l

theorem announced_noLink {i : Nat} {a b : List Msg} (h : NoLink b) : announced i (a ++ b) = announced i a := by
  rw [announced_append]
  generalize announced i a = x
  induction b generalizing x with
  | nil => rfl
  | cons m b ih =>
    rw [List.foldl_cons, ih (fun i up hm => h i up (List.mem_cons_of_mem _ hm))]
    cases m with
    | link j up => exact absurd (List.mem_cons_self ..) (h j up)
    | _ => rfl

theorem newsOnly_nil (i : Nat) : NewsOnly i [] := by
  intro a b up h; simp at h

theorem newsOnly_snoc_iff (i : Nat) (a : List Msg) (m : Msg) :
    NewsOnly i (a ++ [m]) ↔ NewsOnly i a ∧ ∀ up, m = .link i up → announced i a ≠ up := by
  constructor
  · intro h
    refine ⟨fun x y up hx => h x (y ++ [m]) up (by simp [hx]), ?_⟩
    rintro up rfl
    exact h a [] up rfl
  · rintro ⟨h1, h2⟩ x y up hx
    rcases List.eq_nil_or_concat y with rfl | ⟨y', z, rfl⟩
    · have := List.append_inj' hx rfl
      obtain ⟨rfl, e⟩ := this
      simp only [List.cons.injEq, and_true] at e
      exact h2 up e
    · rw [List.concat_eq_append, ← List.cons_append, ← List.append_assoc] at hx
      have := (List.append_inj' hx rfl).1
      exact h1 x y' up this

theorem newsOnly_noLink {i : Nat} {a b : List Msg} (h : NoLink b) (ha : NewsOnly i a) : NewsOnly i (a ++ b) := by
  induction b using List.reverseRecOn with
  | nil => simpa using ha
  | append_singleton b m ih =>
    rw [← List.append_assoc, newsOnly_snoc_iff]
    refine ⟨ih fun i up hm => h i up (List.mem_append_left _ hm), ?_⟩
    rintro up rfl
    exact absurd (by simp) (h i up)

theorem newsOnly_link {i j : Nat} {up : Bool} {a : List Msg} (ha : NewsOnly i a) (h : i = j → announced i a ≠ up) :
    NewsOnly i (a ++ [.link j up]) := by
  rw [newsOnly_snoc_iff]
  refine ⟨ha, ?_⟩
  intro up' e
  cases e
  exact h rfl

/-! ### The computation of routes -/

/-- An outduct without its destinations. -/
def Outduct.bare (o : Outduct) : Outduct := { o with dests := [] }

theorem Outduct.isUp_bare (o : Outduct) : o.bare.isUp = o.isUp := rfl

/-- Only routes changed. -/
structure RouteStep (s s' : State) : Prop where
  ready : s'.ready = s.ready
  clock : s'.clock = s.clock
  indices : s'.indices = s.indices
  index : s'.index = s.index
  events : s'.events = s.events
  epoch : s'.epoch = s.epoch
  plan : s'.plan = s.plan
  latest : s'.latest = s.latest
  timer : s'.timer = s.timer
  queued : s'.queued = s.queued
  full : s'.full = s.full
  fullTimer : s'.fullTimer = s.fullTimer
  outducts : ∀ i, (s'.outducts i).map Outduct.bare = (s.outducts i).map Outduct.bare
  msgs : ∃ l, s'.msgs = s.msgs ++ l ∧ NoLink l ∧ ∀ i r up, Msg.schedule i r up ∉ l

theorem RouteStep.refl (s : State) : RouteStep s s := by
  constructor <;> first | rfl | (intro i; rfl) | exact ⟨[], by simp, (by intro i up h; cases h), (by intro i r up h; cases h)⟩

theorem RouteStep.trans {a b c : State} (h : RouteStep a b) (h' : RouteStep b c) : RouteStep a c := by
  obtain ⟨l, e, n, k⟩ := h.msgs
  obtain ⟨l', e', n', k'⟩ := h'.msgs
  exact ⟨h'.ready.trans h.ready, h'.clock.trans h.clock, h'.indices.trans h.indices, h'.index.trans h.index,
    h'.events.trans h.events, h'.epoch.trans h.epoch, h'.plan.trans h.plan, h'.latest.trans h.latest, h'.timer.trans h.timer,
    h'.queued.trans h.queued, h'.full.trans h.full, h'.fullTimer.trans h.fullTimer, fun i => (h'.outducts i).trans (h.outducts i),
    l ++ l', by rw [e', e, List.append_assoc],
    fun i up hm => (List.mem_append.mp hm).elim (n i up) (n' i up),
    fun i r up hm => (List.mem_append.mp hm).elim (k i r up) (k' i r up)⟩

theorem RouteStep.send (s : State) (d : Nat) (h : Option Nat) : RouteStep s (s.send (.route d h)) := by
  constructor <;> first | rfl | (intro i; rfl) | exact ⟨[.route d h], rfl, (by intro i up h; simp at h), (by intro i r up h; simp at h)⟩

theorem RouteStep.setDests {s : State} {i : Nat} {o : Outduct} (ho : s.outducts i = some o) (l : List Nat) :
    RouteStep s (s.setOutduct i { o with dests := l }) := by
  constructor <;> first | rfl | skip
  · intro j
    simp only [State.setOutduct]
    by_cases hj : j = i
    · subst hj; simp [ho, Outduct.bare]
    · simp [hj]
  · exact ⟨[], by simp [State.setOutduct], (by intro i up h; cases h), (by intro i r up h; cases h)⟩

theorem RouteStep.setRoutes (s : State) (r : List (Nat × Option Nat)) : RouteStep s { s with routes := r } := by
  constructor <;> first | rfl | (intro i; rfl) | exact ⟨[], by simp, (by intro i up h; cases h), (by intro i r up h; cases h)⟩

theorem leave_step (s : State) (hop : Option Nat) (d : Nat) : RouteStep s (s.leave hop d) := by
  unfold State.leave
  cases h : hop.bind s.index with
  | none => exact .refl s
  | some i =>
    simp only
    cases h' : s.outducts i with
    | none => exact .refl s
    | some o => exact .setDests h' _

theorem join_step (s : State) (hop : Option Nat) (d : Nat) : RouteStep s (s.join hop d) := by
  unfold State.join
  cases h : hop.bind s.index with
  | none => exact .refl s
  | some i =>
    simp only
    cases h' : s.outducts i with
    | none => exact .refl s
    | some o => exact .setDests h' _

theorem reroute_step (C : Config) (s : State) (d : Nat) (old : Option Nat) : RouteStep s (s.reroute C d old) := by
  unfold State.reroute
  simp only
  split
  · exact .refl s
  · exact (((RouteStep.setRoutes s _).trans (leave_step _ _ _)).trans (join_step _ _ _)).trans (.send _ _ _)

theorem foldl_step {α : Type} (f : State → α → State) (hf : ∀ s a, RouteStep s (f s a)) (l : List α) (s : State) :
    RouteStep s (l.foldl f s) := by
  induction l generalizing s with
  | nil => exact .refl s
  | cons a l ih => exact (hf s a).trans (ih _)

theorem allRoutes_step (C : Config) (s : State) : RouteStep s (s.allRoutes C) :=
  foldl_step (fun s (p : Nat × Option Nat) => s.reroute C p.1 p.2) (fun s p => reroute_step C s p.1 p.2) _ _

theorem routesOf_step (C : Config) (s : State) (i : Nat) : RouteStep s (s.routesOf C i) := by
  unfold State.routesOf
  cases h : s.outducts i with
  | none => exact .refl s
  | some o => exact foldl_step (fun s d => s.reroute C d (some o.hop)) (fun s d => reroute_step C s d _) _ _

theorem linkChanged_step (C : Config) (s : State) (now i : Nat) (up : Bool) :
    RouteStep ((s.send (.link i up)).setTime now) (s.linkChanged C now i up) := by
  unfold State.linkChanged
  simp only
  split
  · split
    · exact allRoutes_step C _
    · exact routesOf_step C _ _
  · exact .refl _

theorem RouteStep.isUp {s s' : State} (h : RouteStep s s') (i : Nat) :
    (s'.outducts i).map Outduct.isUp = (s.outducts i).map Outduct.isUp := by
  have := congrArg (Option.map Outduct.isUp) (h.outducts i)
  simpa [Option.map_map, Function.comp_def, Outduct.isUp_bare] using this

theorem filtered_congr {C : Config} {s s' : State} (hp : s'.plan = s.plan) (hl : s'.latest = s.latest) (hi : s'.index = s.index)
    (ho : ∀ i, (s'.outducts i).map Outduct.isUp = (s.outducts i).map Outduct.isUp) : s'.filtered C = s.filtered C := by
  unfold State.filtered
  rw [hp, hl, hi]
  apply List.filter_congr
  intro c _
  cases h : s.index c.dst with
  | none => rfl
  | some i =>
    have := ho i
    simp only
    cases h1 : s.outducts i <;> cases h2 : s'.outducts i <;> simp_all

theorem best_congr {C : Config} {s s' : State} (h : RouteStep s s') (d : Nat) : s'.best C d = s.best C d := by
  unfold State.best
  rw [filtered_congr h.plan h.latest h.index h.isUp, h.latest]

end Hdtn.Router
