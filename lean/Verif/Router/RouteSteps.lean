import Verif.Router.Routes

/-!
Every step is, for links and routes, nothing, an update of one link, the start, or the loading of a plan.
-/

namespace Hdtn.Router

open Spec

/-- The same as far as links and routes are concerned. -/
structure Same (s s' : State) : Prop where
  ready : s'.ready = s.ready
  outducts : s'.outducts = s.outducts
  index : s'.index = s.index
  epoch : s'.epoch = s.epoch
  plan : s'.plan = s.plan
  routes : s'.routes = s.routes
  latest : s'.latest = s.latest
  msgs : s'.msgs = s.msgs

theorem Same.refl (s : State) : Same s s := ⟨rfl, rfl, rfl, rfl, rfl, rfl, rfl, rfl⟩

theorem Same.trans {a b c : State} (h : Same a b) (h' : Same b c) : Same a c :=
  ⟨h'.ready.trans h.ready, h'.outducts.trans h.outducts, h'.index.trans h.index, h'.epoch.trans h.epoch, h'.plan.trans h.plan,
    h'.routes.trans h.routes, h'.latest.trans h.latest, h'.msgs.trans h.msgs⟩

theorem restartFull_same (s : State) : Same s s.restartFull := by
  unfold State.restartFull; split <;> exact ⟨rfl, rfl, rfl, rfl, rfl, rfl, rfl, rfl⟩

/-- One link is updated. -/
structure LinkStep (C : Config) (s s' : State) (now j : Nat) (o new : Outduct) (up : Bool) : Prop where
  outduct : s.outducts j = some o
  dests : new.dests = o.dests
  hop : new.hop = o.hop
  isUp : o.isUp ≠ new.isUp → new.isUp = up
  step : ∃ s1 first, Same s s1 ∧ (∀ m ∈ first, ∃ r, m = Msg.schedule j r up) ∧ Same (s1.update C now j o new up first) s'

theorem step_cases {C : Config} {s s' : State} {now : Nat} {a : Act} (h : s.step C now a = some s') :
    Same s s' ∨ (∃ j o new up, LinkStep C s s' now j o new up) ∨ (∃ l, a = .init l) ∨ (∃ l, a = .load l) := by
  unfold State.step at h
  split at h
  · cases h
  simp only at h
  have h0 : Same s { s with clock := now } := ⟨rfl, rfl, rfl, rfl, rfl, rfl, rfl, rfl⟩
  cases a with
  | init l => exact .inr (.inr (.inl ⟨l, rfl⟩))
  | load l => exact .inr (.inr (.inr ⟨l, rfl⟩))
  | fire =>
    simp only at h
    split at h
    · cases h
    · split at h
      · cases h; exact .inl ⟨rfl, rfl, rfl, rfl, rfl, rfl, rfl, rfl⟩
      · cases h
  | event =>
    simp only at h
    split at h
    · cases h
    · cases h
      unfold State.contactEvent
      cases he : s.events with
      | nil => exact .inl ⟨rfl, rfl, rfl, rfl, rfl, rfl, rfl, rfl⟩
      | cons x rest =>
        simp only
        unfold State.contact
        simp only
        cases ho : s.outducts x.2.outduct with
        | none => exact .inl ⟨rfl, rfl, rfl, rfl, rfl, rfl, rfl, rfl⟩
        | some o =>
          refine .inr (.inl ⟨x.2.outduct, o, { o with byTime := x.2.up }, x.2.up, ho, rfl, rfl, isUp_time o x.2.up,
            { s with clock := now, queued := s.queued - 1, events := x :: rest }, [.schedule x.2.outduct x.2.rate x.2.up],
            ⟨rfl, rfl, rfl, rfl, rfl, rfl, rfl, rfl⟩, ?_, ⟨rfl, rfl, rfl, rfl, rfl, rfl, rfl, rfl⟩⟩)
          intro m hm
          exact ⟨_, List.mem_singleton.mp hm⟩
  | physical i up =>
    cases h
    unfold State.physical
    cases ho : s.outducts i with
    | none => left; simpa [ho] using h0
    | some o =>
      simp only [ho]
      exact .inr (.inl ⟨i, o, { o with physical := up }, up, ho, rfl, rfl, isUp_physical o up, { s with clock := now }, [], h0, by simp, .refl _⟩)
  | api i up =>
    cases h
    unfold State.api
    cases ho : s.outducts i with
    | none => left; simpa [ho] using h0
    | some o =>
      simp only [ho]
      exact .inr (.inl ⟨i, o, { o with byTime := up }, up, ho, rfl, rfl, isUp_time o up, { s with clock := now }, [], h0, by simp, .refl _⟩)
  | depleted node =>
    cases h
    unfold State.depleted
    simp only
    cases hi : s.index node with
    | none => exact .inl h0
    | some i =>
      simp only
      cases ho : s.outducts i with
      | none => left; simpa [ho] using h0
      | some o =>
        simp only [ho]
        exact .inr (.inl ⟨i, o, { o with storage := false }, false, ho, rfl, rfl, isUp_storage o false, _, [],
          Same.trans (b := { s with clock := now, full := placeFull (now + C.delay * 1000000) i (s.full.filter (·.2 != i)) })
            ⟨rfl, rfl, rfl, rfl, rfl, rfl, rfl, rfl⟩ (restartFull_same _), by simp, .refl _⟩)
  | storageTimer =>
    simp only at h
    split at h
    · cases h
    · split at h
      · cases h
        unfold State.storageEvent
        cases he : s.full with
        | nil => exact .inl ⟨rfl, rfl, rfl, rfl, rfl, rfl, rfl, rfl⟩
        | cons x rest =>
          simp only
          obtain ⟨s1, hs1⟩ : ∃ s1, s1 = (if x.1 > now then State.restartFull { s with clock := now, full := x :: rest, fullTimer := none }
            else { s with clock := now, full := x :: rest, fullTimer := none }) := ⟨_, rfl⟩
          rw [← hs1]
          have hb : Same s s1 := by
            rw [hs1]; split
            · exact Same.trans (b := { s with clock := now, full := x :: rest, fullTimer := none })
                ⟨rfl, rfl, rfl, rfl, rfl, rfl, rfl, rfl⟩ (restartFull_same _)
            · exact ⟨rfl, rfl, rfl, rfl, rfl, rfl, rfl, rfl⟩
          have hr : Same (s1.release C now x.2) (State.restartFull { s1.release C now x.2 with full := rest }) :=
            Same.trans (b := { s1.release C now x.2 with full := rest }) ⟨rfl, rfl, rfl, rfl, rfl, rfl, rfl, rfl⟩ (restartFull_same _)
          cases ho : s1.outducts x.2 with
          | none =>
            have : s1.release C now x.2 = s1 := by unfold State.release; rw [ho]
            rw [this] at hr
            rw [this]
            exact .inl (hb.trans hr)
          | some o =>
            have : s1.release C now x.2 = s1.update C now x.2 o { o with storage := true } true [] := by unfold State.release; rw [ho]
            rw [this] at hr
            rw [this]
            exact .inr (.inl ⟨x.2, o, { o with storage := true }, true, hb.outducts ▸ ho, rfl, rfl, isUp_storage o true, s1, [], hb, by simp, hr⟩)
      · cases h

theorem Same.routeInv {s s' : State} (h : Same s s') (hs : RouteInv s) : RouteInv s' :=
  ⟨by rw [h.routes]; exact hs.nodup, fun d => by rw [h.msgs, h.routes]; exact hs.told d,
    fun i o ho => by rw [h.outducts] at ho; rw [h.routes, h.index]; exact hs.dests i o ho⟩

theorem Same.best {C : Config} {s s' : State} (h : Same s s') (d : Nat) : s'.best C d = s.best C d := by
  unfold State.best
  rw [filtered_congr h.plan h.latest h.index (fun i => by rw [h.outducts]), h.latest]

theorem Same.indexInv {s s' : State} (h : Same s s') (hs : IndexInv s) : IndexInv s' := by
  intro x i hx
  rw [h.index] at hx
  rw [h.outducts]
  exact hs x i hx

theorem routed_noRoute {d : Nat} {a b : List Msg} (h : ∀ m ∈ b, ∀ d' hop, m ≠ .route d' hop) : routed d (a ++ b) = routed d a := by
  rw [routed_append]
  generalize routed d a = x
  induction b generalizing x with
  | nil => rfl
  | cons m b ih =>
    rw [List.foldl_cons, ih fun m hm => h m (List.mem_cons_of_mem _ hm)]
    cases m with
    | route d' hop => exact absurd rfl (h _ (List.mem_cons_self ..) d' hop)
    | _ => rfl

/-- What an update of a link does to the routes. -/
theorem update_spec {C : Config} {s : State} (hs : RouteInv s) (hx : IndexInv s) {now j : Nat} {o new : Outduct} {up : Bool} {first : List Msg}
    (ho : s.outducts j = some o) (hd : new.dests = o.dests) (hh : new.hop = o.hop) (hf : ∀ m ∈ first, ∃ r, m = Msg.schedule j r up) :
    let s' := s.update C now j o new up first
    RouteInv s' ∧ s'.routes.map (·.1) = s.routes.map (·.1) ∧
    (o.isUp = new.isUp → ∀ x, lookup s'.routes x = lookup s.routes x) ∧
    (o.isUp ≠ new.isUp → s'.latest = now / 1000000 - s.epoch / 1000000) ∧
    (o.isUp ≠ new.isUp → s.ready = true →
      (up = true → ∀ x, lookup s'.routes x = if x ∈ s.routes.map (·.1) then s'.best C x else lookup s.routes x) ∧
      (up = false → ∀ x, lookup s'.routes x =
        if lookup s.routes x = some o.hop ∧ s.index o.hop = some j then s'.best C x else lookup s.routes x)) ∧
    (s.ready = false → ∀ x, lookup s'.routes x = lookup s.routes x) := by
  simp only
  unfold State.update
  simp only
  obtain ⟨s1, hs1⟩ : ∃ s1, s1 = { s.setOutduct j new with msgs := (s.setOutduct j new).msgs ++ first } := ⟨_, rfl⟩
  rw [← hs1]
  have r1 : RouteInv s1 := by
    rw [hs1]
    refine ⟨hs.nodup, ?_, ?_⟩
    · intro d
      show routed d (s.msgs ++ first) = _
      rw [routed_noRoute, hs.told]; rfl
      intro m hm d' hop e
      obtain ⟨r, hr⟩ := hf m hm
      rw [hr] at e; cases e
    · intro i o' ho'
      change (if i = j then some new else s.outducts i) = some o' at ho'
      by_cases hij : i = j
      · rw [if_pos hij] at ho'
        cases ho'
        subst hij
        rw [hd, hh]
        exact hs.dests i o ho
      · rw [if_neg hij] at ho'
        exact hs.dests i o' ho'
  have x1 : IndexInv s1 := by
    rw [hs1]
    intro h i hi
    have := hx h i hi
    show ((if i = j then some new else s.outducts i).map _) = _
    by_cases hij : i = j
    · subst hij
      rw [ho] at this
      rw [if_pos rfl, Option.map_some, hh]; exact this
    · rw [if_neg hij]; exact this
  have q1 : s1.routes = s.routes ∧ s1.index = s.index ∧ s1.ready = s.ready ∧ s1.epoch = s.epoch := by rw [hs1]; exact ⟨rfl, rfl, rfl, rfl⟩
  obtain ⟨q1, q2, q3, q4⟩ := q1
  have ho1 : s1.outducts j = some new := by rw [hs1]; simp [State.setOutduct]
  clear hs1
  by_cases hc : o.isUp = new.isUp
  · rw [if_neg (by simp [hc])]
    exact ⟨r1, by rw [q1], fun _ x => by rw [q1], fun h => absurd hc h, fun h => absurd hc h, fun _ x => by rw [q1]⟩
  · rw [if_pos (by simpa using hc)]
    obtain ⟨s2, hs2⟩ : ∃ s2, s2 = (s1.send (.link j up)).setTime now := ⟨_, rfl⟩
    have r2 : RouteInv s2 := by
      rw [hs2]
      refine ⟨r1.nodup, ?_, r1.dests⟩
      intro d
      show routed d (s1.msgs ++ [.link j up]) = _
      rw [routed_snoc]
      exact r1.told d
    have x2 : IndexInv s2 := by rw [hs2]; exact x1
    have p1 : s2.routes = s1.routes ∧ s2.index = s1.index ∧ s2.ready = s1.ready ∧ s2.outducts = s1.outducts ∧
        s2.latest = now / 1000000 - s1.epoch / 1000000 := by rw [hs2]; exact ⟨rfl, rfl, rfl, rfl, rfl⟩
    obtain ⟨p1, p2, p3, p4, p5⟩ := p1
    have hlc : s1.linkChanged C now j up = if s2.ready then if up then s2.allRoutes C else s2.routesOf C j else s2 := by
      rw [hs2]; rfl
    have hst : RouteStep s2 (s1.linkChanged C now j up) := by rw [hs2]; exact linkChanged_step C s1 now j up
    have hb : ∀ x, (s1.linkChanged C now j up).best C x = s2.best C x := fun x => best_congr hst x
    have hlat : (s1.linkChanged C now j up).latest = now / 1000000 - s.epoch / 1000000 := by rw [hst.latest, p5, q4]
    simp only [hb]
    refine ⟨?_, ?_, fun h => absurd h hc, fun _ => hlat, ?_, ?_⟩
    · rw [hlc]
      split
      · split
        · exact (allRoutes_spec r2 x2).1
        · exact (routesOf_spec r2 x2 (by rw [p4]; exact ho1)).1
      · exact r2
    · rw [hlc, ← q1, ← p1]
      split
      · split
        · exact (allRoutes_spec r2 x2).2.1
        · exact (routesOf_spec r2 x2 (by rw [p4]; exact ho1)).2.1
      · rfl
    · intro _ hr
      rw [hlc, p3, q3, hr, if_pos rfl, ← q1, ← p1, ← q2, ← p2]
      constructor
      · rintro rfl
        exact (allRoutes_spec r2 x2).2.2
      · rintro rfl
        simp only [Bool.false_eq_true, if_false]
        have := (routesOf_spec (C := C) r2 x2 (i := j) (o := new) (by rw [p4]; exact ho1)).2.2
        rw [hh] at this
        exact this
    · intro hr x
      rw [hlc, p3, q3, hr, ← q1, ← p1]
      rfl

/-! ### Every run -/

/-- Routes agree, and there are none before the outducts are known. -/
structure RouteInv' (s : State) : Prop extends RouteInv s where
  fresh : s.ready = false → ∀ d, lookup s.routes d = none

theorem loadRoutes_none (C : Config) (l : List Planned) :
    ((loadRoutes C l).map (·.1)).Nodup ∧ (∀ p ∈ loadRoutes C l, p.2 = none) ∧
    ∀ d, d ∈ (loadRoutes C l).map (·.1) ↔ d ≠ C.me ∧ ∃ c ∈ l, c.dest = d := by
  unfold loadRoutes
  induction l using List.reverseRecOn with
  | nil => simp
  | append_singleton l c ih =>
    rw [List.foldl_append]
    simp only [List.foldl_cons, List.foldl_nil]
    obtain ⟨i1, i2, i3⟩ := ih
    generalize List.foldl (fun r c => if c.dest = C.me then r else setRoute r c.dest none) [] l = r at i1 i2 i3
    by_cases hm : c.dest = C.me
    · rw [if_pos hm]
      refine ⟨i1, i2, fun d => ?_⟩
      rw [i3]
      constructor
      · rintro ⟨a, c', b, e⟩; exact ⟨a, c', List.mem_append_left _ b, e⟩
      · rintro ⟨a, c', b, e⟩
        rcases List.mem_append.mp b with b | b
        · exact ⟨a, c', b, e⟩
        · rw [List.mem_singleton.mp b] at e; exact absurd (e.symm.trans hm) a
    · rw [if_neg hm]
      by_cases hk : c.dest ∈ r.map (·.1)
      · refine ⟨by rw [setRoute_keys hk]; exact i1, ?_, ?_⟩
        · intro p hp
          unfold setRoute at hp
          split at hp
          · obtain ⟨q, hq, e⟩ := List.mem_map.mp hp
            split at e
            · rw [← e]
            · rw [← e]; exact i2 q hq
          · rcases List.mem_append.mp hp with hp | hp
            · exact i2 p hp
            · rw [List.mem_singleton.mp hp]
        · intro d
          rw [setRoute_keys hk, i3]
          constructor
          · rintro ⟨a, c', b, e⟩; exact ⟨a, c', List.mem_append_left _ b, e⟩
          · rintro ⟨a, c', b, e⟩
            rcases List.mem_append.mp b with b | b
            · exact ⟨a, c', b, e⟩
            · rw [List.mem_singleton.mp b] at e
              rw [e] at hk
              exact (i3 d).mp hk
      · have hany : r.any (·.1 == c.dest) = false := by
          rw [Bool.eq_false_iff]
          intro h
          obtain ⟨p, hp, e⟩ := List.any_eq_true.mp h
          exact hk (List.mem_map.mpr ⟨p, hp, by simpa using e⟩)
        have hset : setRoute r c.dest none = r ++ [(c.dest, none)] := by unfold setRoute; rw [hany]; rfl
        rw [hset]
        refine ⟨?_, ?_, ?_⟩
        · rw [List.map_append]
          exact List.nodup_append.mpr ⟨i1, by simp, by rintro a ha b hb rfl; simp at hb; rw [hb] at ha; exact hk ha⟩
        · intro p hp
          rcases List.mem_append.mp hp with hp | hp
          · exact i2 p hp
          · rw [List.mem_singleton.mp hp]
        · intro d
          rw [List.map_append, List.mem_append, i3]
          constructor
          · rintro (⟨a, c', b, e⟩ | h)
            · exact ⟨a, c', List.mem_append_left _ b, e⟩
            · simp at h; rw [h]; exact ⟨hm, c, by simp, rfl⟩
          · rintro ⟨a, c', b, e⟩
            rcases List.mem_append.mp b with b | b
            · exact .inl ⟨a, c', b, e⟩
            · rw [List.mem_singleton.mp b] at e; exact .inr (by simp [e])

theorem lookup_none_of_all {r : List (Nat × Option Nat)} (h : ∀ p ∈ r, p.2 = none) (d : Nat) : lookup r d = none := by
  unfold lookup
  cases hf : r.find? (·.1 == d) with
  | none => rfl
  | some p => exact h p (List.mem_of_find?_eq_some hf)

theorem routed_cleared (d : Nat) (l : List (Nat × Option Nat)) (a : List Msg) :
    routed d (a ++ l.map fun p => Msg.route p.1 none) = if d ∈ l.map (·.1) then none else routed d a := by
  induction l using List.reverseRecOn with
  | nil => simp
  | append_singleton l p ih =>
    rw [List.map_append, ← List.append_assoc, List.map_singleton, routed_snoc, ih]
    simp only [hearRoute, List.map_append, List.map_singleton, List.mem_append, List.mem_singleton]
    by_cases h : p.1 = d
    · simp [h]
    · rw [if_neg h]
      simp only [Ne.symm h, or_false]

theorem load_msgs (C : Config) (s : State) (now : Nat) (l : List Planned) :
    (s.load C now l).msgs = s.msgs ++ ((s.indices.filter fun i => s.up i).map fun i => Msg.link i false) ++
      ((s.routes.filter (·.2.isSome)).map fun p => Msg.route p.1 none) ++ (loadRoutes C l).map fun p => Msg.route p.1 none := by
  unfold State.load
  simp only [State.restart, State.up]

theorem load_routed {C : Config} {s : State} (hs : RouteInv s) (now : Nat) (l : List Planned) (d : Nat) :
    routed d (s.load C now l).msgs = none := by
  rw [load_msgs, routed_cleared, routed_cleared]
  split
  · rfl
  split
  · rfl
  next h =>
    rw [routed_noRoute (by intro m hm d' hop e; rw [e] at hm; simp at hm), hs.told]
    cases hl : lookup s.routes d with
    | none => rfl
    | some x =>
      exfalso
      apply h
      unfold lookup at hl
      cases hf : s.routes.find? (·.1 == d) with
      | none => rw [hf] at hl; cases hl
      | some p =>
        rw [hf] at hl
        have h1 := List.mem_of_find?_eq_some hf
        have h2 := List.find?_some hf
        refine List.mem_map.mpr ⟨p, List.mem_filter.mpr ⟨h1, ?_⟩, by simpa using h2⟩
        simp only [Option.bind_some] at hl
        rw [hl]; rfl

theorem load_routeInv {C : Config} {s : State} (hs : RouteInv s) (now : Nat) (l : List Planned) : RouteInv' (s.load C now l) := by
  obtain ⟨a, b, -⟩ := loadRoutes_none C l
  have hn : ∀ d, lookup (s.load C now l).routes d = none := fun d => lookup_none_of_all b d
  refine ⟨⟨a, fun d => ?_, ?_⟩, fun _ d => hn d⟩
  · rw [hn, load_routed hs]
  · intro i o ho
    change (s.outducts i).map (fun o => ({ o with byTime := false, dests := [] } : Outduct)) = some o at ho
    cases h1 : s.outducts i with
    | none => rw [h1] at ho; cases ho
    | some o1 =>
      rw [h1] at ho
      cases ho
      refine ⟨List.nodup_nil, fun d => ?_⟩
      rw [hn]
      simp

theorem step_routeInv {C : Config} {s s' : State} {now : Nat} {a : Act} (hs : RouteInv' s) (hl : LinkInv s) (hx : IndexInv s)
    (h : s.step C now a = some s') : RouteInv' s' := by
  rcases step_cases h with hsame | ⟨j, o, new, up, hls⟩ | ⟨l, rfl⟩ | ⟨l, rfl⟩
  · exact ⟨hsame.routeInv hs.toRouteInv, fun hr d => by rw [hsame.routes]; exact hs.fresh (hsame.ready ▸ hr) d⟩
  · obtain ⟨s1, first, h1, hf, h2⟩ := hls.step
    obtain ⟨u1, u2, u3, -, u4, u5⟩ := update_spec (C := C) (now := now) (h1.routeInv hs.toRouteInv) (h1.indexInv hx)
      (o := o) (new := new) (up := up) (by rw [h1.outducts]; exact hls.outduct) hls.dests hls.hop hf
    refine ⟨h2.routeInv u1, fun hr d => ?_⟩
    have hr' : s.ready = false := by
      rw [h2.ready, (update_updated C s1 now j o new up first).ready, h1.ready] at hr
      exact hr
    rw [h2.routes, u5 (h1.ready.trans hr'), h1.routes]
    exact hs.fresh hr' d
  · obtain ⟨hr, hd, rfl⟩ := init_ok h
    refine ⟨⟨hs.nodup, hs.told, ?_⟩, fun h => (by cases h)⟩
    intro i o ho
    rw [init_outducts hd] at ho
    have hn : ∀ d, lookup (State.init { s with clock := now } l).routes d = none := hs.fresh hr
    cases hf : l.find? (·.1 == i) with
    | none => rw [hf] at ho; cases ho
    | some p =>
      rw [hf] at ho
      cases ho
      refine ⟨List.nodup_nil, fun d => ?_⟩
      rw [hn]; simp
  · unfold State.step at h
    split at h
    · cases h
    · cases h
      exact load_routeInv (s := { s with clock := now }) ⟨hs.nodup, hs.told, hs.dests⟩ now l

theorem run_routeInv {C : Config} {acts : List (Nat × Act)} {s : State} (h : run C start acts = some s) : RouteInv' s :=
  run_induction (fun _ s => RouteInv' s)
    ⟨⟨List.nodup_nil, fun _ => rfl, fun i o ho => (by cases ho)⟩, fun _ _ => rfl⟩
    (fun _ _ _ _ _ h0 h h' => step_routeInv h (run_linkInv h0) (run_indexInv h0) h') h

end Hdtn.Router
