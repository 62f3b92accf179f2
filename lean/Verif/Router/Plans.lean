import Verif.Router.Full

/-!
The plan that was last loaded, the contacts that are avoided, and what egress is told about the schedule.
-/

namespace Hdtn.Router

open Spec

/-! ### The last plan -/

/-- The state since a plan was loaded at the time `t0`. -/
structure Loaded (C : Config) (t0 : Nat) (plan : List Planned) (s : State) : Prop where
  ready : s.ready = true
  contacts : s.plan = (plan.filter fun c => !(c.source == C.me && (s.index c.dest).isNone)).map Planned.toCgr
  epoch : s.epoch = if C.unix then 0 else t0
  keys : ∀ d, d ∈ s.routes.map (·.1) ↔ d ≠ C.me ∧ ∃ c ∈ plan, c.dest = d

theorem step_ready {C : Config} {s s' : State} {now : Nat} {a : Act} (h : s.step C now a = some s') (hr : s.ready = true) : s'.ready = true := by
  by_cases hi : ∀ l, a ≠ .init l
  · rw [(step_index h hi).2.1]; exact hr
  · have : ∃ l, a = .init l := by
      by_contra e; exact hi fun l e' => e ⟨l, e'⟩
    obtain ⟨l, rfl⟩ := this
    rw [(init_ok h).2.2]; rfl

theorem run_ready {C : Config} {acts : List (Nat × Act)} {s : State} (h : run C start acts = some s) :
    (∃ t l, (t, Act.init l) ∈ acts) → s.ready = true := by
  refine run_induction (fun acts s => (∃ t l, (t, Act.init l) ∈ acts) → s.ready = true) ?_ ?_ h
  · rintro ⟨t, l, h⟩; cases h
  · rintro acts s now a s' _ ih hs ⟨t, l, hm⟩
    rcases List.mem_append.mp hm with hm | hm
    · exact step_ready hs (ih ⟨t, l, hm⟩)
    · cases List.mem_singleton.mp hm
      rw [(init_ok hs).2.2]; rfl

theorem load_loaded {C : Config} {s s' : State} {now : Nat} {plan : List Planned} (hr : s.ready = true)
    (h : s.step C now (.load plan) = some s') : Loaded C now plan s' := by
  unfold State.step at h
  split at h
  · cases h
  cases h
  exact ⟨hr, rfl, rfl, (loadRoutes_none C plan).2.2⟩

theorem step_loaded {C : Config} {s s' : State} {now : Nat} {a : Act} {t0 : Nat} {plan : List Planned} (hs : Loaded C t0 plan s)
    (hR : RouteInv' s) (hx : IndexInv s) (h : s.step C now a = some s') (hl : ∀ l, a ≠ .load l) : Loaded C t0 plan s' := by
  rcases step_cases h with hsame | ⟨j, o, new, up, hls⟩ | ⟨l, rfl⟩ | ⟨l, rfl⟩
  · exact ⟨hsame.ready.trans hs.ready, by rw [hsame.plan, hsame.index]; exact hs.contacts, hsame.epoch.trans hs.epoch,
      by rw [hsame.routes]; exact hs.keys⟩
  · obtain ⟨s1, first, h1, hf, h2⟩ := hls.step
    have hu := update_updated C s1 now j o new up first
    obtain ⟨-, u2, -⟩ := update_spec (C := C) (now := now) (h1.routeInv hR.toRouteInv) (h1.indexInv hx)
      (o := o) (new := new) (up := up) (by rw [h1.outducts]; exact hls.outduct) hls.dests hls.hop hf
    refine ⟨h2.ready.trans (hu.ready.trans (h1.ready.trans hs.ready)), ?_, h2.epoch.trans (hu.epoch.trans (h1.epoch.trans hs.epoch)), ?_⟩
    · rw [h2.plan, hu.plan, h1.plan, h2.index, hu.index, h1.index]; exact hs.contacts
    · rw [h2.routes, u2, h1.routes]; exact hs.keys
  · have := (init_ok h).1
    rw [hs.ready] at this; cases this
  · exact absurd rfl (hl l)

theorem run_split {C : Config} {s s' : State} {a b : List (Nat × Act)} (h : run C s (a ++ b) = some s') :
    ∃ s1, run C s a = some s1 ∧ run C s1 b = some s' := by
  rw [run_append] at h
  cases h1 : run C s a with
  | none => rw [h1] at h; cases h
  | some s1 => rw [h1] at h; exact ⟨s1, rfl, h⟩

theorem run_cons {C : Config} {s s' : State} {now : Nat} {a : Act} {b : List (Nat × Act)} (h : run C s ((now, a) :: b) = some s') :
    ∃ s1, s.step C now a = some s1 ∧ run C s1 b = some s' := by
  unfold run at h
  cases h1 : s.step C now a with
  | none => rw [h1] at h; cases h
  | some s1 => rw [h1] at h; exact ⟨s1, rfl, h⟩

theorem run_snoc {C : Config} {s s' : State} {now : Nat} {a : Act} {b : List (Nat × Act)} (h : run C s (b ++ [(now, a)]) = some s') :
    ∃ s1, run C s b = some s1 ∧ s1.step C now a = some s' := by
  obtain ⟨s1, h1, h2⟩ := run_split h
  obtain ⟨s2, h3, h4⟩ := run_cons h2
  cases h4
  exact ⟨s1, h1, h3⟩

theorem run_loaded {C : Config} {acts : List (Nat × Act)} {s : State} (h : run C start acts = some s) :
    ∀ {t0 : Nat} {plan : List Planned}, LastPlan acts t0 plan → Loaded C t0 plan s := by
  refine run_induction (fun acts s => ∀ {t0 : Nat} {plan : List Planned}, LastPlan acts t0 plan → Loaded C t0 plan s) ?_ ?_ h
  · rintro t0 plan ⟨b, a, e, -⟩
    simp at e
  · rintro acts s now a s' h0 ih hs t0 plan ⟨before, after, e, hinit, hno⟩
    rcases snoc_eq_split e with ⟨rfl, rfl, e2⟩ | ⟨post, rfl, e2⟩
    · cases e2
      exact load_loaded (run_ready h0 hinit) hs
    · refine step_loaded (ih ⟨before, post, e2, hinit, fun x hx => hno x (List.mem_append_left _ hx)⟩) (run_routeInv h0) (run_indexInv h0) hs ?_
      exact hno (now, a) (by simp)

/-- The contacts among which routes are looked for. -/
theorem filtered_eq {C : Config} {s : State} {t0 : Nat} {plan : List Planned} (hs : Loaded C t0 plan s) (hl : LinkInv s) (hx : IndexInv s) :
    s.filtered C = contactsNow C.me s.index s.msgs s.latest plan := by
  unfold State.filtered contactsNow
  rw [hs.contacts, List.filter_map, List.filter_filter]
  congr 1
  apply List.filter_congr
  intro c _
  have e1 : decide (c.toCgr.start ≤ (s.latest : Int)) = decide (c.start ≤ s.latest) := by
    rw [decide_eq_decide]; exact Int.ofNat_le
  have e2 : decide ((s.latest : Int) ≤ c.toCgr.stop) = decide (s.latest ≤ c.stop) := by
    rw [decide_eq_decide]; exact Int.ofNat_le
  have e3 : c.toCgr.frm = c.source := rfl
  have e4 : c.toCgr.dst = c.dest := rfl
  simp only [Function.comp, available, e1, e2, e3, e4]
  cases hi : s.index c.dest with
  | none =>
    by_cases hm : c.source = C.me
    · simp [hm, bne]
    · simp [hm, bne]
  | some i =>
    have h1 := hx _ _ hi
    cases ho : s.outducts i with
    | none => rw [ho] at h1; cases h1
    | some o =>
      have h2 := hl.heard i
      unfold State.up at h2
      rw [ho] at h2
      simp only [Option.any_some] at h2
      simp only [h2, ho]
      by_cases hm : c.source = C.me <;> cases o.isUp <;> by_cases h3 : c.start ≤ s.latest <;> by_cases h4 : s.latest ≤ c.stop <;>
        simp [hm, h3, h4, bne]

theorem contactsNow_congr {me : Nat} {f : Nat → Option Nat} {m m' : List Msg} {t : Nat} {plan : List Planned}
    (h : ∀ i, announced i m = announced i m') : contactsNow me f m t plan = contactsNow me f m' t plan := by
  unfold contactsNow
  congr 1
  apply List.filter_congr
  intro c _
  unfold available
  cases f c.dest with
  | none => rfl
  | some i => simp only [h]

/-! ### The schedule -/

theorem scheduled_append (i : Nat) (a b : List Msg) : scheduled i (a ++ b) = b.foldl (hearSchedule i) (scheduled i a) := by
  unfold scheduled; rw [List.foldl_append]

theorem scheduled_quiet (i : Nat) (a b : List Msg) (h : ∀ j r up, Msg.schedule j r up ∉ b) : scheduled i (a ++ b) = scheduled i a := by
  rw [scheduled_append]
  generalize scheduled i a = x
  induction b with
  | nil => rfl
  | cons m b ih =>
    rw [List.foldl_cons]
    have hb := ih fun j r up hm => h j r up (List.mem_cons_of_mem _ hm)
    cases m with
    | schedule j r up => exact absurd (List.mem_cons_self ..) (h j r up)
    | _ => exact hb

/-- Egress knows the schedule. -/
def Sched (s : State) : Prop := ∀ i, scheduled i s.msgs = (s.outducts i).any (·.byTime)

theorem any_byTime (x : Option Outduct) : (x.map Outduct.bare).any (·.byTime) = x.any (·.byTime) := by
  cases x <;> rfl

theorem Updated.sched {s s' : State} {j : Nat} {o new : Outduct} {up : Bool} {first : List Msg} (h : Updated s s' j o new up first)
    (hs : Sched s) (ho : s.outducts j = some o) (hf : (first = [] ∧ new.byTime = o.byTime) ∨ ∃ r, first = [.schedule j r up] ∧ new.byTime = up) :
    Sched s' := by
  intro i
  obtain ⟨l, ⟨hl1, hl2⟩, hm⟩ := h.msgs
  rw [hm, scheduled_quiet i _ l (fun j r up => hl2 j r up), scheduled_quiet i _ _ (by
    intro j' r up' hmem
    split at hmem <;> simp at hmem)]
  rw [← any_byTime (s'.outducts i)]
  by_cases hij : i = j
  · subst hij
    rw [h.here]
    show _ = new.byTime
    rcases hf with ⟨rfl, e⟩ | ⟨r, rfl, e⟩
    · rw [List.append_nil, hs, ho]; exact e.symm
    · rw [scheduled_append]; simp [hearSchedule, e]
  · rw [h.there i hij, any_byTime, ← hs i]
    rcases hf with ⟨rfl, e⟩ | ⟨r, rfl, e⟩
    · rw [List.append_nil]
    · rw [scheduled_append]; simp [hearSchedule, Ne.symm hij]

theorem restartFull_sched {s : State} (h : Sched s) : Sched s.restartFull := by
  unfold State.restartFull; split <;> exact h

theorem step_sched {C : Config} {s s' : State} {now : Nat} {a : Act} (hs : Sched s) (hl : LinkInv s) (h : s.step C now a = some s')
    (hn : ∀ l, a ≠ .load l) (ha : ∀ i up, a ≠ .api i up) : Sched s' := by
  unfold State.step at h
  split at h
  · cases h
  simp only at h
  cases a with
  | init l =>
    simp only at h
    by_cases hc : (s.ready || !decide (l.map (·.1)).Nodup) = true
    · rw [if_pos hc] at h; cases h
    · rw [if_neg hc] at h; cases h
      simp at hc
      intro i
      show scheduled i s.msgs = _
      rw [hs i, hl.fresh hc.1 i, init_outducts hc.2]
      cases l.find? (·.1 == i) <;> rfl
  | load l => exact absurd rfl (hn l)
  | api i up => exact absurd rfl (ha i up)
  | fire =>
    simp only at h
    split at h
    · cases h
    · split at h
      · cases h; exact hs
      · cases h
  | event =>
    simp only at h
    split at h
    · cases h
    · cases h
      unfold State.contactEvent
      cases he : s.events with
      | nil => exact hs
      | cons x rest =>
        simp only
        unfold State.contact
        simp only
        cases ho : s.outducts x.2.outduct with
        | none => exact hs
        | some o =>
          exact (update_updated C { s with clock := now, queued := s.queued - 1, events := x :: rest } now x.2.outduct o
            { o with byTime := x.2.up } x.2.up [.schedule x.2.outduct x.2.rate x.2.up]).sched hs ho (.inr ⟨_, rfl, rfl⟩)
  | physical i up =>
    cases h
    unfold State.physical
    cases ho : s.outducts i with
    | none => simp only [ho]; exact hs
    | some o =>
      simp only [ho]
      exact (update_updated C _ _ _ _ _ _ _).sched (s := { s with clock := now }) hs ho (.inl ⟨rfl, rfl⟩)
  | depleted node =>
    cases h
    unfold State.depleted
    simp only
    cases hi : s.index node with
    | none => exact hs
    | some i =>
      simp only
      cases ho : s.outducts i with
      | none => simp only [ho]; exact hs
      | some o =>
        simp only [ho]
        have hsame := restartFull_same { s with clock := now, full := placeFull (now + C.delay * 1000000) i (s.full.filter (·.2 != i)) }
        exact (update_updated C _ _ _ _ _ _ _).sched (restartFull_sched hs) (by rw [hsame.outducts]; exact ho) (.inl ⟨rfl, rfl⟩)
  | storageTimer =>
    simp only at h
    split at h
    · cases h
    · split at h
      · cases h
        unfold State.storageEvent
        cases he : s.full with
        | nil => exact hs
        | cons x rest =>
          simp only
          obtain ⟨s1, hs1⟩ : ∃ s1, s1 = (if x.1 > now then State.restartFull { s with clock := now, full := x :: rest, fullTimer := none }
            else { s with clock := now, full := x :: rest, fullTimer := none }) := ⟨_, rfl⟩
          rw [← hs1]
          have hb : Sched s1 := by
            rw [hs1]; split
            · exact restartFull_sched hs
            · exact hs
          apply restartFull_sched
          show Sched (s1.release C now x.2)
          unfold State.release
          cases ho : s1.outducts x.2 with
          | none => exact hb
          | some o => exact (update_updated C _ _ _ _ _ _ _).sched hb ho (.inl ⟨rfl, rfl⟩)
      · cases h

/-- Before a plan is loaded there are no contacts. -/
structure NoPlan (s : State) : Prop where
  events : s.events = []
  sched : Sched s
  quiet : ∀ i o, s.outducts i = some o → o.byTime = false

theorem step_noPlan {C : Config} {s s' : State} {now : Nat} {a : Act} (hs : NoPlan s) (hl : LinkInv s) (h : s.step C now a = some s')
    (hn : ∀ l, a ≠ .load l) (ha : ∀ i up, a ≠ .api i up) : NoPlan s' := by
  refine ⟨?_, step_sched hs.sched hl h hn ha, ?_⟩
  · by_cases ho : a.other = true
    · rw [(step_beside h ho).events]; exact hs.events
    · unfold State.step at h
      split at h
      · cases h
      simp only at h
      cases a with
      | fire =>
        simp only at h
        split at h
        · cases h
        · split at h
          · cases h; exact hs.events
          · cases h
      | event =>
        simp only at h
        split at h
        · cases h
        · cases h
          unfold State.contactEvent
          simp only [hs.events]
      | load l => exact absurd rfl (hn l)
      | init l =>
        simp only at h
        by_cases hc : (s.ready || !decide (l.map (·.1)).Nodup) = true
        · rw [if_pos hc] at h; cases h
        · rw [if_neg hc] at h; cases h
          exact hs.events
      | _ => exact absurd rfl ho
  · intro i o ho
    by_cases hoth : a.other = true ∨ a = .fire
    · exact byTime_of_flags (step_byTime h ha hoth i) (hs.quiet i) o ho
    · have hf := step_flags h i
      rw [ho] at hf
      cases a with
      | init l =>
        simp only [State.flagsAfter] at hf
        cases hfi : l.find? (·.1 == i) with
        | none => rw [hfi] at hf; cases hf
        | some p =>
          rw [hfi] at hf
          simp only [Option.map_some, Option.some.injEq] at hf
          exact congrArg (·.byTime) hf
      | event =>
        simp only [State.flagsAfter, hs.events] at hf
        cases h5 : s.outducts i with
        | none => rw [h5] at hf; cases hf
        | some o1 =>
          rw [h5] at hf
          simp only [Option.map_some, Option.some.injEq] at hf
          exact (congrArg (·.byTime) hf).trans (hs.quiet i o1 h5)
      | load l => exact absurd rfl (hn l)
      | fire => exact absurd (.inr rfl) hoth
      | _ => exact absurd (.inl rfl) hoth

theorem run_noPlan {C : Config} {acts : List (Nat × Act)} {s : State} (h : run C start acts = some s) :
    Undisturbed acts → NoPlan s := by
  refine run_induction (fun acts s => Undisturbed acts → NoPlan s) ?_ ?_ h
  · exact fun _ => ⟨rfl, fun i => rfl, fun i o ho => by cases ho⟩
  · intro acts s now a s' h0 ih hs hu
    have := hu (now, a) (by simp)
    exact step_noPlan (ih fun x hx => hu x (List.mem_append_left _ hx)) (run_linkInv h0) hs this.1 this.2

theorem load_sched {C : Config} {s s' : State} {now : Nat} {plan : List Planned} (hs : NoPlan s)
    (h : s.step C now (.load plan) = some s') : Sched s' := by
  unfold State.step at h
  split at h
  · cases h
  cases h
  intro i
  rw [load_msgs, scheduled_quiet, scheduled_quiet, scheduled_quiet]
  · show scheduled i s.msgs = ((s.outducts i).map _).any _
    rw [hs.sched i]
    cases ho : s.outducts i with
    | none => rfl
    | some o => exact hs.quiet i o ho
  all_goals
    intro j r up hm
    obtain ⟨x, -, e⟩ := List.mem_map.mp hm
    cases e

/-- Only one plan is loaded and no link is set by a user. -/
theorem run_sched {C : Config} {s : State} {before after : List (Nat × Act)} {t0 : Nat} {plan : List Planned}
    (h : run C start (before ++ (t0, .load plan) :: after) = some s) (hb : Undisturbed before) (ha : Undisturbed after) : Sched s := by
  obtain ⟨s1, h1, h2⟩ := run_split h
  obtain ⟨s2, h3, h4⟩ := run_cons h2
  have hs2 := load_sched (run_noPlan h1 hb) h3
  have hl2 := step_linkInv (run_linkInv h1) h3
  clear h1 h2 h3 h
  induction after generalizing s2 with
  | nil => cases h4; exact hs2
  | cons x after ih =>
    obtain ⟨now, a⟩ := x
    obtain ⟨s3, h5, h6⟩ := run_cons h4
    have := ha (now, a) (List.mem_cons_self ..)
    exact ih (fun y hy => ha y (List.mem_cons_of_mem _ hy)) s3 h6 (step_sched hs2 hl2 h5 this.1 this.2) (step_linkInv hl2 h5)

/-! ### The time-based state -/

theorem run_inContact {C : Config} {s : State} {before after : List (Nat × Act)} {t0 : Nat} {plan : List Planned}
    (h : run C start (before ++ (t0, .load plan) :: after) = some s)
    (hi : ∃ t l, (t, Act.init l) ∈ before) (hq : ∀ s0, run C start before = some s0 → s0.queued = 0) (ha : Undisturbed after)
    (hz : s.queued = 0) (ht : ∀ t, s.timer = some t → s.clock < t)
    {hop i : Nat} (hm : hop ≠ C.me) (hx : s.index hop = some i) (hA : Apart C.me hop plan) :
    ∃ o, s.outducts i = some o ∧ (o.byTime = true ↔ InContact C.me hop (if C.unix then 0 else t0) plan s.clock) := by
  have hIx := run_indexInv h
  obtain ⟨s1, h1, h2⟩ := run_split h
  obtain ⟨s2, h3, h4⟩ := run_cons h2
  have hf := run_follows (load_follows (run_ready h1 hi) (hq s1 h1) h3) ha h4
  have ho := hIx hop i hx
  cases h5 : s.outducts i with
  | none => rw [h5] at ho; cases ho
  | some o =>
    refine ⟨o, rfl, ?_⟩
    obtain ⟨done, e1, e2, e3⟩ := hf.events
    rw [e3 i o h5]
    refine handled_iff C s1.index _ plan hop i s.clock hm (hf.index ▸ hx) ?_ hA done s.events e1 e2 ?_
    · intro x hxi
      rw [← hf.index] at hxi
      have := hIx x i hxi
      rw [this] at ho
      exact Option.some.inj ho
    · intro x hxe
      rcases hf.timer with ⟨-, t2⟩ | ⟨t1, -⟩
      · cases he : s.events with
        | nil => rw [he] at hxe; cases hxe
        | cons y r =>
          rw [he] at t2 hxe
          have hy := ht y.1 t2
          have hord := load_ordered C s1.index (if C.unix then 0 else t0) plan
          rw [e1, he] at hord
          have := (List.pairwise_append.mp hord).2.1
          rcases List.mem_cons.mp hxe with rfl | hxe
          · exact hy
          · have := (List.pairwise_cons.mp this).1 x hxe
            exact Nat.lt_of_lt_of_le hy this
      · omega

end Hdtn.Router
