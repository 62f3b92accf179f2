import Verif.Router.Changes

/-!
C108 to C113: links, contact plans, routes and depleted neighbours at the router.
-/

namespace Hdtn.Router

open Spec

theorem by_run {C : Config} {acts : List (Nat × Act)} {P : State → Prop} [DecidablePred P]
    (h : (match run C start acts with
      | some s => decide (P s)
      | none => false) = true) : ∃ s, run C start acts = some s ∧ P s := by
  cases hr : run C start acts with
  | none => rw [hr] at h; cases h
  | some s => rw [hr] at h; exact ⟨s, rfl, of_decide_eq_true h⟩

/-- Node 1; a neighbour without storage is left alone for ten seconds. -/
def node1 : Config := ⟨1, 10, false, false⟩

/-- Two neighbours, 2 and 3, by outducts 0 and 1. -/
def neighbours : List (Nat × Nat × Bool) := [(0, 2, false), (1, 3, false)]

/-- From node 1 to node 9 by way of 2 or of 3. -/
def plan1 : List Planned :=
  [⟨0, 1, 2, 10, 100, 1000, 1⟩, ⟨1, 2, 9, 0, 200, 1000, 1⟩, ⟨2, 1, 3, 0, 100, 1000, 1⟩, ⟨3, 3, 9, 50, 100, 1000, 1⟩]

/-- The plan is loaded, and the contact with node 3 starts. -/
def acts1 : List (Nat × Act) := [(0, .init neighbours), (0, .load plan1), (0, .fire), (0, .event)]

/-- The contact with node 2 starts, too. -/
def acts2 : List (Nat × Act) := acts1 ++ [(10000000, .fire), (10000000, .event)]

theorem lastPlan1 (after : List (Nat × Act)) (h : ∀ a ∈ after, ∀ l, a.2 ≠ .load l) : LastPlan (acts1 ++ after) 0 plan1 := by
  refine ⟨[(0, .init neighbours)], [(0, .fire), (0, .event)] ++ after, rfl, ⟨0, neighbours, by simp⟩, ?_⟩
  intro a ha l
  rcases List.mem_append.mp ha with ha | ha
  · simp only [List.mem_cons, List.not_mem_nil, or_false] at ha
    rcases ha with rfl | rfl <;> intro e <;> cases e
  · exact h a ha l

/-! ### C108: what is told about links -/

/-- **C108**, when a link is up: the last that ingress and storage heard about a link is that it is up exactly if its contact is on, egress told last
that it works, and its neighbour is not taken to have no storage. -/
theorem C108_up {C : Config} {acts : List (Nat × Act)} {s : State} (h : run C start acts = some s) (i : Nat) :
    announced i s.msgs = true ↔
      works i acts = some true ∧ ∃ o, s.outducts i = some o ∧ o.byTime = true ∧ o.storage = true := by
  rw [(run_linkInv h).heard, ← run_physical h]
  unfold State.up
  cases s.outducts i with
  | none => simp
  | some o =>
    simp only [Option.any_some, Outduct.isUp, Bool.and_eq_true, Option.map_some, Option.some.injEq, exists_eq_left']
    tauto

example : ∃ s, run node1 start acts2 = some s ∧ announced 0 s.msgs = true ∧ announced 1 s.msgs = true ∧ announced 2 s.msgs = false :=
  by_run (by decide +kernel)

/-- **C108**, only news: each message about a link differs from the last one about it; the first tells that it is up. -/
theorem C108_news {C : Config} {acts : List (Nat × Act)} {s : State} (h : run C start acts = some s) (i : Nat) : NewsOnly i s.msgs :=
  (run_linkInv h).news i

example : ∃ s, run node1 start (acts2 ++ [(11000000, .physical 0 false), (12000000, .physical 0 false)]) = some s ∧
    (s.msgs.filter fun m => m == .link 0 true || m == .link 0 false) = [.link 0 true, .link 0 false] := by_run (by decide +kernel)

/-- **C108**, only known links: there is no message about a link that egress did not tell of. -/
theorem C108_known {C : Config} {acts : List (Nat × Act)} {s : State} (h : run C start acts = some s) (i : Nat) (up : Bool)
    (hm : Msg.link i up ∈ s.msgs) : works i acts ≠ none := by
  rw [← run_physical h]
  suffices hk : ∀ i up, Msg.link i up ∈ s.msgs → (s.outducts i).isSome = true by
    have := hk i up hm
    cases ho : s.outducts i with
    | none => rw [ho] at this; cases this
    | some o => simp
  refine run_induction (fun _ s => ∀ i up, Msg.link i up ∈ s.msgs → (s.outducts i).isSome = true) (by simp [start]) ?_ h
  intro acts s now a s' h0 ih hs i up hm
  rcases step_cases hs with hsame | ⟨j, o, new, up', hls⟩ | ⟨l, rfl⟩ | ⟨l, rfl⟩
  · rw [hsame.msgs] at hm; rw [hsame.outducts]; exact ih i up hm
  · obtain ⟨s1, first, h1, hf, h2⟩ := hls.step
    have hu := update_updated C s1 now j o new up' first
    rw [h2.outducts, hu.isSome (by rw [h1.outducts]; exact hls.outduct), h1.outducts]
    obtain ⟨r, ⟨hr, -⟩, e⟩ := hu.msgs
    rw [h2.msgs, e, h1.msgs] at hm
    simp only [List.mem_append] at hm
    rcases hm with ((hm | hm) | hm) | hm
    · exact ih i up hm
    · obtain ⟨r, e⟩ := hf _ hm; cases e
    · split at hm
      · cases hm
      · cases List.mem_singleton.mp hm
        rw [hls.outduct]; rfl
    · exact absurd hm (hr i up)
  · obtain ⟨hr, -, rfl⟩ := init_ok hs
    have := ih i up hm
    rw [(run_linkInv h0).fresh hr] at this; cases this
  · unfold State.step at hs
    split at hs
    · cases hs
    cases hs
    show ((s.outducts i).map _).isSome = true
    rw [Option.isSome_map]
    rw [load_msgs] at hm
    simp only [List.mem_append] at hm
    rcases hm with ((hm | hm) | hm) | hm
    · exact ih i up hm
    · obtain ⟨k, hk, e⟩ := List.mem_map.mp hm
      cases e
      have := (List.mem_filter.mp hk).2
      simp only [State.up] at this
      cases ho : s.outducts i with
      | none => rw [ho] at this; cases this
      | some o => rfl
    · obtain ⟨k, -, e⟩ := List.mem_map.mp hm; cases e
    · obtain ⟨k, -, e⟩ := List.mem_map.mp hm; cases e

example : ∃ s, run node1 start acts2 = some s ∧ Msg.link 0 true ∈ s.msgs := by_run (by decide +kernel)

/-! ### C109: links follow the contact plan -/

/-- **C109**, in part.  When a contact plan was loaded while no handler of the timer for contacts was waiting, later no plan was loaded and no link
was set by a user, no handler for a contact is waiting or due now, and the contacts with a neighbour do not touch each other, then ingress and
storage take the link to the neighbour to be up exactly if it works and a contact with the neighbour is on, provided no neighbour on this
link told that it has no storage.
(Missing: the other cases; see the theorems below.) -/
theorem C109_follows_partial {C : Config} {before after acts : List (Nat × Act)} {t0 : Nat} {plan : List Planned} {s : State}
    (h : run C start acts = some s) (he : acts = before ++ (t0, .load plan) :: after) (hi : ∃ t l, (t, Act.init l) ∈ before)
    (hq : ∀ s0, run C start before = some s0 → s0.queued = 0) (hu : Undisturbed after)
    (hz : s.queued = 0) (ht : ∀ t, s.timer = some t → s.clock < t)
    {hop i : Nat} (hm : hop ≠ C.me) (hx : outductTo hop acts = some i) (hA : Apart C.me hop plan)
    (hs : ∀ t n, (t, Act.depleted n) ∈ acts → outductTo n acts ≠ some i) :
    announced i s.msgs = true ↔ works i acts = some true ∧ InContact C.me hop (if C.unix then 0 else t0) plan s.clock := by
  have hx' : s.index hop = some i := by rw [run_index h]; exact hx
  obtain ⟨o, ho, hb⟩ := run_inContact (he ▸ h) hi hq hu hz ht hm hx' hA
  have hst : o.storage = true := by
    rw [← Bool.not_eq_false]
    intro hf
    obtain ⟨x, hxm, e⟩ := List.mem_map.mp (((run_fullInv h).held i o ho).mp hf)
    obtain ⟨t, n, e1, e2, -⟩ := run_reports h x hxm
    rw [e, run_index h] at e2
    exact hs t n e1 e2
  rw [C108_up h]
  constructor
  · rintro ⟨a, o', ho', b, -⟩
    rw [ho] at ho'; cases ho'
    exact ⟨a, hb.mp b⟩
  · rintro ⟨a, b⟩
    exact ⟨a, o, ho, hb.mpr b, hst⟩

theorem plan1_apart (hop : Nat) : Apart 1 hop plan1 := by
  refine ⟨?_, ?_⟩
  · intro c hc
    simp only [plan1, List.mem_cons, List.not_mem_nil, or_false] at hc
    rcases hc with rfl | rfl | rfl | rfl <;> simp
  · simp only [plan1, List.pairwise_cons, List.mem_cons, List.not_mem_nil, or_false]
    refine ⟨?_, ?_, ?_, ?_, ?_⟩
    · rintro b (rfl | rfl | rfl) <;> simp <;> omega
    · rintro b (rfl | rfl) <;> simp
    · rintro b rfl <;> simp
    · simp
    · exact List.Pairwise.nil

example : ∃ s, run node1 start (acts1 ++ [(10000000, .fire), (10000000, .event)]) = some s ∧ announced 0 s.msgs = true ∧
    InContact 1 2 0 plan1 s.clock := by
  obtain ⟨s, h, a, b, c⟩ := by_run (C := node1) (acts := acts2)
    (P := fun s => s.queued = 0 ∧ s.timer = some 100000000 ∧ s.clock = 10000000) (by decide +kernel)
  have hic : InContact 1 2 0 plan1 s.clock := by
    rw [c]; exact ⟨⟨0, 1, 2, 10, 100, 1000, 1⟩, by simp [plan1], rfl, rfl, by decide, by decide⟩
  refine ⟨s, h, (C109_follows_partial (hop := 2) h (before := [(0, .init neighbours)])
    (after := [(0, .fire), (0, .event), (10000000, .fire), (10000000, .event)]) rfl ⟨0, neighbours, by simp⟩ ?_ ?_ a ?_ (by decide) (by decide)
    (plan1_apart 2) ?_).mpr ⟨by decide, hic⟩, hic⟩
  · rintro s0 ⟨⟩; rfl
  · intro x hx
    simp only [List.mem_cons, List.not_mem_nil, or_false] at hx
    rcases hx with rfl | rfl | rfl | rfl <;> exact ⟨fun _ e => (by cases e), fun _ _ e => (by cases e)⟩
  · intro t e; rw [b] at e; cases e; omega
  · intro t n hm
    simp [acts2, acts1] at hm

/-- Two contacts with node 2, the later one listed first, where one ends when the other starts. -/
def reversed : List Planned := [⟨0, 1, 2, 20, 30, 1000, 1⟩, ⟨1, 1, 2, 10, 20, 1000, 1⟩]

/-- **C109** does not hold of contacts that touch: when the contact that follows is listed first, the link goes down at its start and stays
down during all of it. -/
theorem C109_touching_violated : ∃ acts s, run node1 start acts = some s ∧ acts.take 2 = [(0, .init neighbours), (0, .load reversed)] ∧
    Undisturbed (acts.drop 2) ∧ s.queued = 0 ∧ s.timer = some 30000000 ∧ works 0 acts = some true ∧
    s.clock = 25000000 ∧ InContact 1 2 0 reversed s.clock ∧ announced 0 s.msgs = false := by
  obtain ⟨s, h, a, b, c, d⟩ := by_run (C := node1) (acts := [(0, .init neighbours), (0, .load reversed), (10000000, .fire), (10000000, .event),
    (20000000, .fire), (20000000, .event), (20000000, .fire), (20000000, .event), (25000000, .physical 0 true)])
    (P := fun s => s.queued = 0 ∧ s.timer = some 30000000 ∧ s.clock = 25000000 ∧ announced 0 s.msgs = false) (by decide +kernel)
  refine ⟨_, s, h, rfl, ?_, a, b, by decide, c, ?_, d⟩
  · intro x hx
    simp only [List.drop_succ_cons, List.drop_zero, List.mem_cons, List.not_mem_nil, or_false] at hx
    rcases hx with rfl | rfl | rfl | rfl | rfl | rfl | rfl <;> exact ⟨fun _ e => (by cases e), fun _ _ e => (by cases e)⟩
  · rw [c]; exact ⟨⟨0, 1, 2, 20, 30, 1000, 1⟩, by simp [reversed], rfl, rfl, by decide, by decide⟩

/-- Two contacts with node 2, one of which starts before the other ends. -/
def overlapping : List Planned := [⟨0, 1, 2, 10, 30, 1000, 1⟩, ⟨1, 1, 2, 20, 40, 2000, 1⟩]

/-- **C109** does not hold of contacts that overlap: the link goes down when the first one ends. -/
theorem C109_overlapping_violated : ∃ acts s, run node1 start acts = some s ∧ acts.take 2 = [(0, .init neighbours), (0, .load overlapping)] ∧
    Undisturbed (acts.drop 2) ∧ s.queued = 0 ∧ s.timer = some 40000000 ∧ works 0 acts = some true ∧
    s.clock = 30000000 ∧ InContact 1 2 0 overlapping s.clock ∧ announced 0 s.msgs = false := by
  obtain ⟨s, h, a, b, c, d⟩ := by_run (C := node1) (acts := [(0, .init neighbours), (0, .load overlapping), (10000000, .fire), (10000000, .event),
    (20000000, .fire), (20000000, .event), (30000000, .fire), (30000000, .event)])
    (P := fun s => s.queued = 0 ∧ s.timer = some 40000000 ∧ s.clock = 30000000 ∧ announced 0 s.msgs = false) (by decide +kernel)
  refine ⟨_, s, h, rfl, ?_, a, b, by decide, c, ?_, d⟩
  · intro x hx
    simp only [List.drop_succ_cons, List.drop_zero, List.mem_cons, List.not_mem_nil, or_false] at hx
    rcases hx with rfl | rfl | rfl | rfl | rfl | rfl <;> exact ⟨fun _ e => (by cases e), fun _ _ e => (by cases e)⟩
  · rw [c]; exact ⟨⟨1, 1, 2, 20, 40, 2000, 1⟩, by simp [overlapping], rfl, rfl, by decide, by decide⟩

/-- A contact with node 2 in a hundred seconds. -/
def later : List Planned := [⟨0, 1, 2, 100, 200, 1000, 1⟩]

/-- **C109** does not hold when a plan is loaded while a handler for the plan before it is waiting: this handler takes the first event of the new plan,
and the link is up a hundred seconds early. -/
theorem C109_early_violated : ∃ acts s, run node1 start acts = some s ∧ (10000000, Act.load later) ∈ acts ∧ s.queued = 0 ∧
    s.clock = 10000000 ∧ ¬ InContact 1 2 10000000 later s.clock ∧ announced 0 s.msgs = true := by
  obtain ⟨s, h, a, b, c⟩ := by_run (C := node1) (acts := [(0, .init neighbours), (0, .load plan1), (0, .fire), (0, .event),
    (10000000, .fire), (10000000, .load later), (10000000, .event)])
    (P := fun s => s.queued = 0 ∧ s.clock = 10000000 ∧ announced 0 s.msgs = true) (by decide +kernel)
  refine ⟨_, s, h, by simp, a, b, ?_, c⟩
  rw [b]
  rintro ⟨c, hc, -, -, h1, -⟩
  rw [List.mem_singleton.mp hc] at h1
  exact absurd h1 (by decide)

/-! ### C110: routes follow the links -/

theorem best_after {C : Config} {acts : List (Nat × Act)} {s s' : State} {now : Nat} {a : Act} {t0 : Nat} {plan : List Planned}
    (h : run C start acts = some s) (h' : s.step C now a = some s') (hp : LastPlan acts t0 plan) (hn : ∀ l, a ≠ .load l)
    (hm : C.mgr = false) (hB : Bounded plan) (ht : now / 1000000 < 2 ^ 63 - 1)
    (hlat : s'.latest = now / 1000000 - s.epoch / 1000000) {d : Nat} (hd : d ≠ C.me) :
    Best (contactsNow C.me (outductTo · acts) s'.msgs (seconds C t0 now) plan) C.me (seconds C t0 now) d (s'.best C d) := by
  have hL := run_loaded h hp
  have hL' := step_loaded hL (run_routeInv h) (run_indexInv h) h' hn
  have hlat' : s'.latest = seconds C t0 now := by rw [hlat, hL.epoch]; rfl
  have hlt : s'.latest < 2 ^ 63 - 1 := by
    rw [hlat']; unfold seconds; omega
  have := best_spec hL' (step_linkInv (run_linkInv h) h') (step_indexInv (run_indexInv h) h') hm hB hlt hd
  have hix : s'.index = (outductTo · acts) := by
    have hi : ∀ l, a ≠ .init l := by
      rintro l rfl
      have := (init_ok h').1
      rw [hL.ready] at this; cases this
    rw [(step_index h' hi).1]
    funext x; exact run_index h x
  rw [hix, hlat'] at this
  exact this

/-- **C110**, a link goes up: egress is then told, or was told before, a best next hop for every destination in the contact plan: the first node on a
way that arrives first among all ways that do not begin with a contact that is on now with a neighbour whose link is down. -/
theorem C110_up {C : Config} {acts : List (Nat × Act)} {s s' : State} {now : Nat} {a : Act} {t0 : Nat} {plan : List Planned}
    (h : run C start acts = some s) (h' : s.step C now a = some s') (hp : LastPlan acts t0 plan)
    {i : Nat} (hd : announced i s.msgs = false) (hu : announced i s'.msgs = true)
    (hm : C.mgr = false) (hB : Bounded plan) (ht : now / 1000000 < 2 ^ 63 - 1) {d : Nat} (hme : d ≠ C.me) (hpd : ∃ c ∈ plan, c.dest = d) :
    Best (contactsNow C.me (outductTo · acts) s'.msgs (seconds C t0 now) plan) C.me (seconds C t0 now) d (routed d s'.msgs) := by
  have hn : ∀ l, a ≠ .load l := by
    rintro l rfl
    have := load_down (step_linkInv (run_linkInv h) h') h' i
    rw [this] at hu; cases hu
  rcases step_links (run_routeInv h) (run_linkInv h) (run_indexInv h) (step_routeInv (run_routeInv h) (run_linkInv h) (run_indexInv h) h')
    (step_linkInv (run_linkInv h) h') h' hn with ⟨e, -⟩ | ⟨j, up, e1, e2, e3, e4, e5, -⟩
  · rw [e, hd] at hu; cases hu
  · have hij : i = j := by
      by_contra hne
      rw [e3 i hne, hd] at hu; cases hu
    subst hij
    rw [hu] at e2
    have hL := run_loaded h hp
    rw [e5 hL.ready e2.symm d ((hL.keys d).mpr ⟨hme, hpd⟩)]
    exact best_after h h' hp hn hm hB ht e4 hme

theorem plan1_bounded : Bounded plan1 := by unfold Bounded; decide

example : ∃ s s', run node1 start (acts1 ++ [(10000000, .fire)]) = some s ∧ s.step node1 10000000 .event = some s' ∧
    announced 0 s.msgs = false ∧ announced 0 s'.msgs = true ∧ LastPlan (acts1 ++ [(10000000, .fire)]) 0 plan1 ∧ Bounded plan1 ∧
    routed 9 s'.msgs = some 2 := by
  obtain ⟨s', h, a, b⟩ := by_run (C := node1) (acts := (acts1 ++ [(10000000, .fire)]) ++ [(10000000, .event)])
    (P := fun s => announced 0 s.msgs = true ∧ routed 9 s.msgs = some 2) (by decide +kernel)
  obtain ⟨s, h1, h2⟩ := run_snoc h
  obtain ⟨s2, h3, c⟩ := by_run (C := node1) (acts := acts1 ++ [(10000000, .fire)]) (P := fun s => announced 0 s.msgs = false) (by decide +kernel)
  rw [h1] at h3; cases h3
  refine ⟨s, s', h1, h2, c, a, lastPlan1 _ ?_, plan1_bounded, b⟩
  intro x hx l e
  rw [List.mem_singleton.mp hx] at e; cases e

/-- **C110**, a link goes down: egress is then told a best next hop for every destination whose bundles went over this link, and nothing about
the others. -/
theorem C110_down {C : Config} {acts : List (Nat × Act)} {s s' : State} {now : Nat} {a : Act} {t0 : Nat} {plan : List Planned}
    (h : run C start acts = some s) (h' : s.step C now a = some s') (hp : LastPlan acts t0 plan) (hn : ∀ l, a ≠ .load l)
    {i : Nat} (hu : announced i s.msgs = true) (hd : announced i s'.msgs = false)
    (hm : C.mgr = false) (hB : Bounded plan) (ht : now / 1000000 < 2 ^ 63 - 1) (d : Nat) :
    (∀ hop, routed d s.msgs = some hop → outductTo hop acts = some i →
      Best (contactsNow C.me (outductTo · acts) s'.msgs (seconds C t0 now) plan) C.me (seconds C t0 now) d (routed d s'.msgs)) ∧
    ((∀ hop, routed d s.msgs = some hop → outductTo hop acts ≠ some i) → routed d s'.msgs = routed d s.msgs) := by
  rcases step_links (run_routeInv h) (run_linkInv h) (run_indexInv h) (step_routeInv (run_routeInv h) (run_linkInv h) (run_indexInv h) h')
    (step_linkInv (run_linkInv h) h') h' hn with ⟨e, -⟩ | ⟨j, up, e1, e2, e3, e4, -, e5, e6⟩
  · rw [e, hu] at hd; cases hd
  · have hij : i = j := by
      by_contra hne
      rw [e3 i hne, hu] at hd; cases hd
    subst hij
    rw [hd] at e2
    have hL := run_loaded h hp
    refine ⟨fun hop hr ho => ?_, fun ho => ?_⟩
    · rw [e5 hL.ready e2.symm d hop hr (by rw [run_index h]; exact ho)]
      refine best_after h h' hp hn hm hB ht e4 ?_
      have hR := run_routeInv h
      rw [hR.told] at hr
      refine ((hL.keys d).mp ?_).1
      unfold lookup at hr
      cases hf : s.routes.find? (·.1 == d) with
      | none => rw [hf] at hr; cases hr
      | some p => exact List.mem_map.mpr ⟨p, List.mem_of_find?_eq_some hf, by simpa using List.find?_some hf⟩
    · exact e6 hL.ready e2.symm d fun hop hr => by rw [run_index h]; exact ho hop hr

example : ∃ s s', run node1 start acts2 = some s ∧ s.step node1 20000000 (.physical 0 false) = some s' ∧
    announced 0 s.msgs = true ∧ announced 0 s'.msgs = false ∧ LastPlan acts2 0 plan1 ∧
    routed 9 s.msgs = some 2 ∧ routed 9 s'.msgs = some 3 ∧ routed 3 s.msgs = some 3 ∧ routed 3 s'.msgs = some 3 := by
  obtain ⟨s', h, a, b, c⟩ := by_run (C := node1) (acts := acts2 ++ [(20000000, .physical 0 false)])
    (P := fun s => announced 0 s.msgs = false ∧ routed 9 s.msgs = some 3 ∧ routed 3 s.msgs = some 3) (by decide +kernel)
  obtain ⟨s, h1, h2⟩ := run_snoc h
  obtain ⟨s2, h3, d, e, f⟩ := by_run (C := node1) (acts := acts2)
    (P := fun s => announced 0 s.msgs = true ∧ routed 9 s.msgs = some 2 ∧ routed 3 s.msgs = some 3) (by decide +kernel)
  rw [h1] at h3; cases h3
  refine ⟨s, s', h1, h2, d, a, lastPlan1 _ ?_, e, b, f, c⟩
  intro x hx l e
  simp only [List.mem_cons, List.not_mem_nil, or_false] at hx
  rcases hx with rfl | rfl <;> cases e

/-- **C110**, no link changes: egress is told no other next hops. -/
theorem C110_same {C : Config} {acts : List (Nat × Act)} {s s' : State} {now : Nat} {a : Act}
    (h : run C start acts = some s) (h' : s.step C now a = some s') (hn : ∀ l, a ≠ .load l)
    (hs : ∀ i, announced i s'.msgs = announced i s.msgs) (d : Nat) : routed d s'.msgs = routed d s.msgs := by
  rcases step_links (run_routeInv h) (run_linkInv h) (run_indexInv h) (step_routeInv (run_routeInv h) (run_linkInv h) (run_indexInv h) h')
    (step_linkInv (run_linkInv h) h') h' hn with ⟨-, e⟩ | ⟨j, up, e1, e2, -⟩
  · exact e d
  · have := hs j
    rw [e1, e2] at this
    cases up <;> cases this

/-- **C110**, a plan is loaded: egress has no next hop for any destination, and all links are down, until a link goes up. -/
theorem C110_load {C : Config} {acts : List (Nat × Act)} {s s' : State} {now : Nat} {l : List Planned}
    (h : run C start acts = some s) (h' : s.step C now (.load l) = some s') :
    (∀ d, routed d s'.msgs = none) ∧ ∀ i, announced i s'.msgs = false := by
  refine ⟨fun d => ?_, load_down (step_linkInv (run_linkInv h) h') h'⟩
  unfold State.step at h'
  split at h'
  · cases h'
  cases h'
  have hR := run_routeInv h
  exact load_routed (s := { s with clock := now }) ⟨hR.nodup, hR.told, hR.dests⟩ now l d

example : ∃ s, run node1 start (acts2 ++ [(20000000, .load plan1)]) = some s ∧
    s.msgs.contains (.route 9 none) ∧ s.msgs.contains (.link 0 false) ∧ routed 9 s.msgs = none := by_run (by decide +kernel)

/-- **C110**, a next hop that is told is the last that a search gave: with the other search, which is told of in C80, likewise. -/
theorem C110_multigraph {C : Config} {acts : List (Nat × Act)} {s s' : State} {now : Nat} {a : Act} {t0 : Nat} {plan : List Planned}
    (h : run C start acts = some s) (h' : s.step C now a = some s') (hp : LastPlan acts t0 plan)
    {i : Nat} (hd : announced i s.msgs = false) (hu : announced i s'.msgs = true)
    (hm : C.mgr = true) {d : Nat} (hme : d ≠ C.me) (hpd : ∃ c ∈ plan, c.dest = d) :
    routed d s'.msgs =
      CgrMulti.routerNextHop (contactsNow C.me (outductTo · acts) s'.msgs (seconds C t0 now) plan) C.me (seconds C t0 now) d := by
  have hn : ∀ l, a ≠ .load l := by
    rintro l rfl
    have := load_down (step_linkInv (run_linkInv h) h') h' i
    rw [this] at hu; cases hu
  rcases step_links (run_routeInv h) (run_linkInv h) (run_indexInv h) (step_routeInv (run_routeInv h) (run_linkInv h) (run_indexInv h) h')
    (step_linkInv (run_linkInv h) h') h' hn with ⟨e, -⟩ | ⟨j, up, e1, e2, e3, e4, e5, -⟩
  · rw [e, hd] at hu; cases hu
  · have hij : i = j := by
      by_contra hne
      rw [e3 i hne, hd] at hu; cases hu
    subst hij
    rw [hu] at e2
    have hL := run_loaded h hp
    have hL' := step_loaded hL (run_routeInv h) (run_indexInv h) h' hn
    have hi : ∀ l, a ≠ .init l := by
      rintro l rfl
      have := (init_ok h').1
      rw [hL.ready] at this; cases this
    have hix : s'.index = (outductTo · acts) := by
      rw [(step_index h' hi).1]
      funext x; exact run_index h x
    have hlat' : s'.latest = seconds C t0 now := by rw [e4, hL.epoch]; rfl
    rw [e5 hL.ready e2.symm d ((hL.keys d).mpr ⟨hme, hpd⟩)]
    unfold State.best
    rw [hm, filtered_eq hL' (step_linkInv (run_linkInv h) h') (step_indexInv (run_indexInv h) h'), hix, hlat']
    rfl

example : ∃ s, run { node1 with mgr := true } start acts2 = some s ∧ announced 0 s.msgs = true ∧ routed 9 s.msgs = some 2 :=
  by_run (by decide +kernel)

/-! ### C111: failed contacts are avoided -/

/-- **C111**, in part.  When a link goes down, bundles are sent to its neighbour only for the sake of a contact in the future: a next hop over
this link begins with a contact that is not on now.
(Missing: a contact that starts while its link is down, see below.) -/
theorem C111_avoided_partial {C : Config} {acts : List (Nat × Act)} {s s' : State} {now : Nat} {a : Act} {t0 : Nat} {plan : List Planned}
    (h : run C start acts = some s) (h' : s.step C now a = some s') (hp : LastPlan acts t0 plan) (hn : ∀ l, a ≠ .load l)
    {i : Nat} (hu : announced i s.msgs = true) (hd : announced i s'.msgs = false)
    (hm : C.mgr = false) (hB : Bounded plan) (ht : now / 1000000 < 2 ^ 63 - 1) {d n : Nat}
    (hr : routed d s'.msgs = some n) (ho : outductTo n acts = some i) :
    ∃ c ∈ plan, c.source = C.me ∧ c.dest = n ∧ seconds C t0 now < c.start := by
  obtain ⟨k1, k2⟩ := C110_down h h' hp hn hu hd hm hB ht d
  have hbest : Best (contactsNow C.me (outductTo · acts) s'.msgs (seconds C t0 now) plan) C.me (seconds C t0 now) d (routed d s'.msgs) := by
    by_cases hw : ∃ hop, routed d s.msgs = some hop ∧ outductTo hop acts = some i
    · obtain ⟨hop, e1, e2⟩ := hw
      exact k1 hop e1 e2
    · have := k2 fun hop e1 e2 => hw ⟨hop, e1, e2⟩
      rw [this] at hr
      exact absurd ⟨n, hr, ho⟩ hw
  obtain ⟨c, cs, e, hj, -⟩ := hbest.2 n hr
  obtain ⟨hc, -, hf, hstop, -⟩ := hj
  obtain ⟨p, hpm, rfl⟩ := List.mem_map.mp hc
  obtain ⟨hpm, hav⟩ := List.mem_filter.mp hpm
  have hsrc : p.source = C.me := hf
  have hdst : p.dest = n := e
  refine ⟨p, hpm, hsrc, hdst, ?_⟩
  unfold available at hav
  simp only [hdst, ho, hsrc] at hav
  have hstop' : ((seconds C t0 now : Nat) : Int) < (p.stop : Int) := hstop
  rw [hd] at hav
  simp at hav
  omega

example : ∃ s s', run node1 start acts2 = some s ∧ s.step node1 20000000 (.physical 0 false) = some s' ∧
    announced 0 s.msgs = true ∧ announced 0 s'.msgs = false ∧ routed 9 s'.msgs = some 3 := by
  obtain ⟨s', h, a, b⟩ := by_run (C := node1) (acts := acts2 ++ [(20000000, .physical 0 false)])
    (P := fun s => announced 0 s.msgs = false ∧ routed 9 s.msgs = some 3) (by decide +kernel)
  obtain ⟨s, h1, h2⟩ := run_snoc h
  obtain ⟨s2, h3, d⟩ := by_run (C := node1) (acts := acts2) (P := fun s => announced 0 s.msgs = true) (by decide +kernel)
  rw [h1] at h3; cases h3
  exact ⟨s, s', h1, h2, d, a, b⟩

/-- **C111** does not hold of a contact that starts while its link is down: bundles stay routed to the neighbour that cannot be reached, although
there is a way by the other neighbour, whose link is up. -/
theorem C111_failed_contact_violated : ∃ acts s, run node1 start acts = some s ∧ LastPlan acts 0 plan1 ∧ s.queued = 0 ∧ s.timer = some 100000000 ∧
    s.clock = 20000000 ∧ works 0 acts = some false ∧ InContact 1 2 0 plan1 s.clock ∧ routed 9 s.msgs = some 2 ∧
    announced 1 s.msgs = true ∧
    ∃ cs, Cgr.Spec.Journey (contactsNow 1 (outductTo · acts) s.msgs 20 plan1) 1 20 cs ∧ Cgr.Spec.endNode 1 cs = 9 := by
  obtain ⟨s, h, a, b, c, d, e, f⟩ := by_run (C := node1)
    (acts := acts1 ++ [(5000000, .physical 0 false), (10000000, .fire), (10000000, .event), (20000000, .physical 1 true)])
    (P := fun s => s.queued = 0 ∧ s.timer = some 100000000 ∧ s.clock = 20000000 ∧ routed 9 s.msgs = some 2 ∧ announced 1 s.msgs = true ∧
      announced 0 s.msgs = false) (by decide +kernel)
  refine ⟨_, s, h, lastPlan1 _ ?_, a, b, c, by decide, ?_, d, e, [Planned.toCgr ⟨2, 1, 3, 0, 100, 1000, 1⟩, Planned.toCgr ⟨3, 3, 9, 50, 100, 1000, 1⟩],
    ?_, rfl⟩
  · intro x hx l e
    simp only [List.mem_cons, List.not_mem_nil, or_false] at hx
    rcases hx with rfl | rfl | rfl | rfl <;> cases e
  · rw [c]; exact ⟨⟨0, 1, 2, 10, 100, 1000, 1⟩, by simp [plan1], rfl, rfl, by decide, by decide⟩
  · refine ⟨List.mem_map.mpr ⟨⟨2, 1, 3, 0, 100, 1000, 1⟩, List.mem_filter.mpr ⟨by simp [plan1], ?_⟩, rfl⟩, by unfold Cgr.Spec.Usable; decide, rfl, by decide,
      List.mem_map.mpr ⟨⟨3, 3, 9, 50, 100, 1000, 1⟩, List.mem_filter.mpr ⟨by simp [plan1], rfl⟩, rfl⟩, by unfold Cgr.Spec.Usable; decide, rfl, by decide, trivial⟩
    show (_ || match some 1 with
      | none => false
      | some i => announced i s.msgs || _) = true
    simp [e]

/-! ### C112: neighbours without storage -/

/-- **C112**, in part, they are left alone: for the configured time after a neighbour told that it has no storage, its link is not up, provided no
neighbour that is left alone tells so again.
(Missing: repeated reports, see below.) -/
theorem C112_hold_partial {C : Config} {before after acts : List (Nat × Act)} {t n i : Nat} {s : State} (h : run C start acts = some s)
    (he : acts = before ++ (t, .depleted n) :: after) (hi : outductTo n before = some i) (hr : NoRepeat C acts)
    (ht : s.clock < t + C.delay * 1000000) : announced i s.msgs = false := by
  rcases (run_kept h hr).2 before t n after i he hi with hc | ⟨x, hx, e, -⟩
  · exact absurd ht (by simp only [Config.hold] at hc; omega)
  · rw [← Bool.not_eq_true]
    intro hu
    obtain ⟨-, o, ho, -, hst⟩ := (C108_up h i).mp hu
    have := ((run_fullInv h).held i o ho).mpr (List.mem_map.mpr ⟨x, hx, e⟩)
    rw [this] at hst; cases hst

example : ∃ acts s, acts = acts2 ++ [(20000000, .depleted 2), (25000000, .physical 1 true)] ∧ run node1 start acts = some s ∧
    NoRepeat node1 acts ∧ s.clock < 20000000 + node1.delay * 1000000 ∧ announced 0 s.msgs = false := by
  obtain ⟨s, h, a, b⟩ := by_run (C := node1) (acts := acts2 ++ [(20000000, .depleted 2), (25000000, .physical 1 true)])
    (P := fun s => s.clock < 20000000 + node1.delay * 1000000 ∧ announced 0 s.msgs = false) (by decide +kernel)
  refine ⟨_, s, rfl, h, ?_, a, b⟩
  intro before t n after e s1 h1 i hi o ho
  have hb : before = acts2 ∧ n = 2 := by
    simp only [acts2, acts1, List.cons_append, List.nil_append] at e
    rcases before with _ | ⟨a1, _ | ⟨a2, _ | ⟨a3, _ | ⟨a4, _ | ⟨a5, _ | ⟨a6, _ | ⟨a7, _ | ⟨a8, _⟩⟩⟩⟩⟩⟩⟩⟩ <;> simp_all [acts2, acts1]
  obtain ⟨rfl, rfl⟩ := hb
  obtain ⟨s2, h2, c⟩ := by_run (C := node1) (acts := acts2)
    (P := fun s => s.index 2 = some 0 ∧ (s.outducts 0).map (·.storage) = some true) (by decide +kernel)
  rw [h1] at h2; cases h2
  rw [c.1] at hi; cases hi
  rw [ho] at c
  exact Option.some.inj c.2

/-- **C112**, they are not left alone for longer: while the handler of the timer is not due, a link that works and whose contact is on is up
unless its neighbour told within the configured time that it has no storage. -/
theorem C112_released {C : Config} {acts : List (Nat × Act)} {i : Nat} {s : State} (h : run C start acts = some s)
    (hd : ∀ t, s.fullTimer = some t → s.clock < t) (hw : works i acts = some true) (hb : ∃ o, s.outducts i = some o ∧ o.byTime = true)
    (hu : announced i s.msgs = false) :
    ∃ t n, (t, Act.depleted n) ∈ acts ∧ outductTo n acts = some i ∧ s.clock < t + C.delay * 1000000 := by
  obtain ⟨o, ho, hb⟩ := hb
  have hF := run_fullInv h
  have hst : o.storage = false := by
    rw [← Bool.not_eq_true]
    intro hst
    have := (C108_up h i).mpr ⟨hw, o, ho, hb, hst⟩
    rw [hu] at this; cases this
  obtain ⟨x, hx, e⟩ := List.mem_map.mp ((hF.held i o ho).mp hst)
  obtain ⟨t, n, e1, e2, e3⟩ := run_reports h x hx
  refine ⟨t, n, e1, ?_, ?_⟩
  · rw [← run_index h, e2, e]
  · have hne : s.full ≠ [] := by intro e; rw [e] at hx; cases hx
    cases hft : s.fullTimer with
    | none => exact absurd hft (hF.armed hne)
    | some T =>
      have h1 := hF.timer T hft x hx
      have h2 := hd T hft
      simp only [Config.hold] at e3
      omega

example : ∃ s, run node1 start (acts2 ++ [(20000000, .depleted 2)]) = some s ∧ announced 0 s.msgs = false ∧
    s.fullTimer = some 30000000 ∧ (s.outducts 0).map (·.byTime) = some true := by_run (by decide +kernel)

example : ∃ s, run node1 start (acts2 ++ [(20000000, .depleted 2), (30000000, .storageTimer)]) = some s ∧ announced 0 s.msgs = true :=
  by_run (by decide +kernel)

/-- **C112** does not hold of repeated reports: a neighbour that tells again that it has no storage is not left alone from then on, but taken to have
storage after the time since its first report. -/
theorem C112_repeated_violated : ∃ acts s, run node1 start acts = some s ∧ (25000000, Act.depleted 2) ∈ acts ∧ outductTo 2 acts = some 0 ∧
    s.clock < 25000000 + node1.delay * 1000000 ∧ announced 0 s.msgs = true := by
  obtain ⟨s, h, a, b⟩ := by_run (C := node1)
    (acts := acts2 ++ [(20000000, .depleted 2), (25000000, .depleted 2), (30000000, .storageTimer)])
    (P := fun s => s.clock < 25000000 + node1.delay * 1000000 ∧ announced 0 s.msgs = true) (by decide +kernel)
  exact ⟨_, s, h, by simp, by decide, a, b⟩

/-- **C112**: then also another neighbour, which told so only once, is not left alone for the whole time. -/
theorem C112_other_violated : ∃ acts s, run node1 start acts = some s ∧ (28000000, Act.depleted 3) ∈ acts ∧
    (∀ t, (t, Act.depleted 3) ∈ acts → t = 28000000) ∧ outductTo 3 acts = some 1 ∧
    s.clock < 28000000 + node1.delay * 1000000 ∧ announced 1 s.msgs = true := by
  obtain ⟨s, h, a, b⟩ := by_run (C := node1)
    (acts := acts2 ++ [(20000000, .depleted 2), (25000000, .depleted 2), (28000000, .depleted 3), (30000000, .storageTimer), (35000000, .storageTimer)])
    (P := fun s => s.clock < 28000000 + node1.delay * 1000000 ∧ announced 1 s.msgs = true) (by decide +kernel)
  exact ⟨_, s, h, by simp, by simp [acts2, acts1], by decide, a, b⟩

/-! ### C113: egress knows the schedule -/

/-- **C113**, in part.  When only one contact plan was loaded and no link was set by a user, no handler for a contact is waiting or due now, and
the contacts with a neighbour do not touch each other, then the last that egress heard about the schedule of the link is that a contact is on exactly
if one is.
(Missing: other plans and links set by a user, see below.) -/
theorem C113_told_partial {C : Config} {before after acts : List (Nat × Act)} {t0 : Nat} {plan : List Planned} {s : State}
    (h : run C start acts = some s) (he : acts = before ++ (t0, .load plan) :: after) (hi : ∃ t l, (t, Act.init l) ∈ before)
    (hb : Undisturbed before) (hu : Undisturbed after) (hq : ∀ s0, run C start before = some s0 → s0.queued = 0)
    (hz : s.queued = 0) (ht : ∀ t, s.timer = some t → s.clock < t)
    {hop i : Nat} (hm : hop ≠ C.me) (hx : outductTo hop acts = some i) (hA : Apart C.me hop plan) :
    scheduled i s.msgs = true ↔ InContact C.me hop (if C.unix then 0 else t0) plan s.clock := by
  have hx' : s.index hop = some i := by rw [run_index h]; exact hx
  obtain ⟨o, ho, hb'⟩ := run_inContact (he ▸ h) hi hq hu hz ht hm hx' hA
  rw [run_sched (he ▸ h) hb hu i, ho]
  exact hb'

example : ∃ s, run node1 start acts2 = some s ∧ scheduled 0 s.msgs = true ∧ InContact 1 2 0 plan1 s.clock := by
  obtain ⟨s, h, a, b, c⟩ := by_run (C := node1) (acts := acts2)
    (P := fun s => s.queued = 0 ∧ s.timer = some 100000000 ∧ s.clock = 10000000) (by decide +kernel)
  have hic : InContact 1 2 0 plan1 s.clock := by
    rw [c]; exact ⟨⟨0, 1, 2, 10, 100, 1000, 1⟩, by simp [plan1], rfl, rfl, by decide, by decide⟩
  refine ⟨s, h, (C113_told_partial (hop := 2) h (before := [(0, .init neighbours)])
    (after := [(0, .fire), (0, .event), (10000000, .fire), (10000000, .event)]) rfl ⟨0, neighbours, by simp⟩ ?_ ?_ ?_ a ?_ (by decide) (by decide)
    (plan1_apart 2)).mpr hic, hic⟩
  · intro x hx
    rw [List.mem_singleton.mp hx]
    exact ⟨fun _ e => (by cases e), fun _ _ e => (by cases e)⟩
  · intro x hx
    simp only [List.mem_cons, List.not_mem_nil, or_false] at hx
    rcases hx with rfl | rfl | rfl | rfl <;> exact ⟨fun _ e => (by cases e), fun _ _ e => (by cases e)⟩
  · rintro s0 ⟨⟩; rfl
  · intro t e; rw [b] at e; cases e; omega

/-- **C113** does not hold when a plan is loaded during a contact: ingress and storage are told that the link is down, egress is not told that the
contact is over. -/
theorem C113_reload_violated : ∃ acts s, run node1 start acts = some s ∧ LastPlan acts 20000000 [] ∧ s.queued = 0 ∧ s.timer = none ∧
    announced 0 s.msgs = false ∧ scheduled 0 s.msgs = true := by
  obtain ⟨s, h, a, b, c, d⟩ := by_run (C := node1) (acts := acts2 ++ [(20000000, .load [])])
    (P := fun s => s.queued = 0 ∧ s.timer = none ∧ announced 0 s.msgs = false ∧ scheduled 0 s.msgs = true) (by decide +kernel)
  exact ⟨_, s, h, ⟨acts2, [], rfl, ⟨0, neighbours, by simp [acts2, acts1]⟩, by simp⟩, a, b, c, d⟩

/-- **C113** does not hold when a user sets a link: ingress and storage are told, egress is not. -/
theorem C113_api_violated : ∃ acts s, run node1 start acts = some s ∧ acts = acts2 ++ [(20000000, .api 0 false)] ∧
    announced 0 s.msgs = false ∧ scheduled 0 s.msgs = true := by
  obtain ⟨s, h, a⟩ := by_run (C := node1) (acts := acts2 ++ [(20000000, .api 0 false)])
    (P := fun s => announced 0 s.msgs = false ∧ scheduled 0 s.msgs = true) (by decide +kernel)
  exact ⟨_, s, h, rfl, a⟩

end Hdtn.Router
