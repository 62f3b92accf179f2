import Verif.Router.Following

/-!
Routes: the table, the destinations of the outducts and the messages agree, and what a computation of routes finds.
-/

namespace Hdtn.Router

open Spec

/-! ### The table -/

/-- The route to a destination, `none` if there is none. -/
def lookup (r : List (Nat × Option Nat)) (d : Nat) : Option Nat := (r.find? (·.1 == d)).bind (·.2)

theorem setRoute_keys {r : List (Nat × Option Nat)} {d : Nat} (h : d ∈ r.map (·.1)) (hop : Option Nat) :
    (setRoute r d hop).map (·.1) = r.map (·.1) := by
  unfold setRoute
  have : r.any (·.1 == d) = true := by
    obtain ⟨p, hp, e⟩ := List.mem_map.mp h
    exact List.any_eq_true.mpr ⟨p, hp, by simpa using e⟩
  rw [if_pos this, List.map_map]
  apply List.map_congr_left
  intro p _
  simp only [Function.comp_def]
  split
  next e => exact e.symm
  next => rfl

theorem lookup_map (r : List (Nat × Option Nat)) (d x : Nat) (hop : Option Nat) (h : d ∈ r.map (·.1)) :
    lookup (r.map fun p => if p.1 = d then (d, hop) else p) x = if x = d then hop else lookup r x := by
  induction r with
  | nil => cases h
  | cons p r ih =>
    unfold lookup at ih ⊢
    rw [List.map_cons]
    by_cases hp : p.1 = d
    · rw [if_pos hp]
      by_cases hx : x = d
      · subst hx; rw [List.find?_cons_of_pos (by simp), if_pos rfl]; rfl
      · rw [List.find?_cons_of_neg (by simpa using Ne.symm hx), if_neg hx,
          show (p :: r).find? (·.1 == x) = r.find? (·.1 == x) from List.find?_cons_of_neg (by simpa [hp] using Ne.symm hx)]
        by_cases hd : d ∈ r.map (·.1)
        · rw [ih hd, if_neg hx]
        · congr 1
          clear ih h
          induction r with
          | nil => rfl
          | cons q r ih =>
            have hq : q.1 ≠ d := fun e => hd (by simp [e])
            rw [List.map_cons, if_neg hq]
            by_cases hqx : q.1 = x
            · rw [List.find?_cons_of_pos (by simpa using hqx), List.find?_cons_of_pos (by simpa using hqx)]
            · rw [List.find?_cons_of_neg (by simpa using hqx), List.find?_cons_of_neg (by simpa using hqx)]
              exact ih fun e => hd (by simp only [List.map_cons, List.mem_cons]; exact .inr e)
    · rw [if_neg hp]
      have hd : d ∈ r.map (·.1) := by
        rcases List.mem_cons.mp h with e | e
        · exact absurd e.symm hp
        · exact e
      by_cases hpx : p.1 = x
      · rw [List.find?_cons_of_pos (by simpa using hpx), List.find?_cons_of_pos (by simpa using hpx), if_neg (fun e => hp (hpx.trans e))]
      · rw [List.find?_cons_of_neg (by simpa using hpx), List.find?_cons_of_neg (by simpa using hpx)]
        exact ih hd

theorem lookup_setRoute {r : List (Nat × Option Nat)} {d : Nat} (h : d ∈ r.map (·.1)) (hop : Option Nat) (x : Nat) :
    lookup (setRoute r d hop) x = if x = d then hop else lookup r x := by
  unfold setRoute
  have : r.any (·.1 == d) = true := by
    obtain ⟨p, hp, e⟩ := List.mem_map.mp h
    exact List.any_eq_true.mpr ⟨p, hp, by simpa using e⟩
  rw [if_pos this]
  exact lookup_map r d x hop h

theorem lookup_mem {r : List (Nat × Option Nat)} (hn : (r.map (·.1)).Nodup) {p : Nat × Option Nat} (hp : p ∈ r) : lookup r p.1 = p.2 := by
  induction r with
  | nil => cases hp
  | cons q r ih =>
    unfold lookup at ih ⊢
    rcases List.mem_cons.mp hp with rfl | hp
    · rw [List.find?_cons_of_pos (by simp)]; rfl
    · have hq : q.1 ≠ p.1 := fun e => (List.nodup_cons.mp hn).1 (by simp only; rw [e]; exact List.mem_map.mpr ⟨p, hp, rfl⟩)
      rw [List.find?_cons_of_neg (by simpa using hq)]
      exact ih (List.nodup_cons.mp hn).2 hp

theorem lookup_some_key {r : List (Nat × Option Nat)} {d h : Nat} (hl : lookup r d = some h) : d ∈ r.map (·.1) := by
  unfold lookup at hl
  cases hf : r.find? (·.1 == d) with
  | none => rw [hf] at hl; cases hl
  | some p =>
    have h1 := List.mem_of_find?_eq_some hf
    have h2 := List.find?_some hf
    exact List.mem_map.mpr ⟨p, h1, by simpa using h2⟩

/-! ### Messages about routes -/

theorem routed_append (d : Nat) (a b : List Msg) : routed d (a ++ b) = b.foldl (hearRoute d) (routed d a) := by
  unfold routed; rw [List.foldl_append]

theorem routed_snoc (d : Nat) (a : List Msg) (m : Msg) : routed d (a ++ [m]) = hearRoute d (routed d a) m := by
  rw [routed_append]; rfl

/-- The table, the outducts and the messages agree. -/
structure RouteInv (s : State) : Prop where
  nodup : (s.routes.map (·.1)).Nodup
  told : ∀ d, routed d s.msgs = lookup s.routes d
  dests : ∀ i o, s.outducts i = some o → o.dests.Nodup ∧ ∀ d, d ∈ o.dests ↔ lookup s.routes d = some o.hop ∧ s.index o.hop = some i

theorem leave_outducts (s : State) (hop : Option Nat) (d j : Nat) :
    (s.leave hop d).outducts j = (s.outducts j).map fun o =>
      if hop.bind s.index = some j then { o with dests := o.dests.filter (· != d) } else o := by
  unfold State.leave
  cases h : hop.bind s.index with
  | none => simp
  | some i =>
    simp only
    cases h' : s.outducts i with
    | none =>
      by_cases hj : i = j
      · subst hj; rw [h']; rfl
      · simp [hj]
    | some o =>
      simp only [State.setOutduct]
      by_cases hj : i = j
      · subst hj; simp [h']
      · simp [hj, Ne.symm hj]

theorem join_outducts (s : State) (hop : Option Nat) (d j : Nat) :
    (s.join hop d).outducts j = (s.outducts j).map fun o =>
      if hop.bind s.index = some j then { o with dests := if o.dests.contains d then o.dests else o.dests ++ [d] } else o := by
  unfold State.join
  cases h : hop.bind s.index with
  | none => simp
  | some i =>
    simp only
    cases h' : s.outducts i with
    | none =>
      by_cases hj : i = j
      · subst hj; rw [h']; rfl
      · simp [hj]
    | some o =>
      simp only [State.setOutduct]
      by_cases hj : i = j
      · subst hj; simp [h']
      · simp [hj, Ne.symm hj]

theorem leave_routes (s : State) (hop : Option Nat) (d : Nat) : (s.leave hop d).routes = s.routes ∧ (s.leave hop d).msgs = s.msgs := by
  unfold State.leave
  cases hop.bind s.index with
  | none => exact ⟨rfl, rfl⟩
  | some i => simp only; cases s.outducts i <;> exact ⟨rfl, rfl⟩

theorem join_routes (s : State) (hop : Option Nat) (d : Nat) : (s.join hop d).routes = s.routes ∧ (s.join hop d).msgs = s.msgs := by
  unfold State.join
  cases hop.bind s.index with
  | none => exact ⟨rfl, rfl⟩
  | some i => simp only; cases s.outducts i <;> exact ⟨rfl, rfl⟩

theorem update_routes (s : State) (old new : Option Nat) (d : Nat) :
    (s.updateRoute old new d).routes = setRoute s.routes d new ∧ (s.updateRoute old new d).msgs = s.msgs ∧
    (s.updateRoute old new d).index = s.index := by
  unfold State.updateRoute
  obtain ⟨a, b⟩ := join_routes (State.leave { s with routes := setRoute s.routes d new } old d) new d
  obtain ⟨a', b'⟩ := leave_routes { s with routes := setRoute s.routes d new } old d
  exact ⟨a.trans a', b.trans b', ((leave_step _ _ _).trans (join_step _ _ _)).index⟩

/-- One destination gets the route that is found. -/
theorem reroute_spec {C : Config} {s : State} (hs : RouteInv s) (hx : IndexInv s) {d : Nat} (hd : d ∈ s.routes.map (·.1)) :
    let s' := s.reroute C d (lookup s.routes d)
    RouteInv s' ∧ s'.routes.map (·.1) = s.routes.map (·.1) ∧
      ∀ x, lookup s'.routes x = if x = d then s.best C d else lookup s.routes x := by
  simp only
  unfold State.reroute
  simp only
  split
  next he =>
    refine ⟨hs, rfl, fun x => ?_⟩
    split
    next h => rw [h, he]
    next => rfl
  next hne =>
    obtain ⟨u1, u2, u3⟩ := update_routes s (lookup s.routes d) (s.best C d) d
    obtain ⟨s1, hs1⟩ : ∃ s1, s1 = s.updateRoute (lookup s.routes d) (s.best C d) d := ⟨_, rfl⟩
    rw [← hs1] at u1 u2 u3 ⊢
    have hl : ∀ x, lookup s1.routes x = if x = d then s.best C d else lookup s.routes x := by
      intro x; rw [u1]; exact lookup_setRoute hd _ x
    refine ⟨⟨?_, ?_, ?_⟩, ?_, hl⟩
    · show (s1.routes.map (·.1)).Nodup
      rw [u1, setRoute_keys hd]; exact hs.nodup
    · intro x
      show routed x (s1.msgs ++ [.route d (s.best C d)]) = lookup s1.routes x
      rw [routed_snoc, hl, u2, hs.told]
      simp only [hearRoute]
      by_cases h : x = d
      · simp [h]
      · simp [h, Ne.symm h]
    · intro i o ho
      change s1.outducts i = some o at ho
      show o.dests.Nodup ∧ ∀ x, x ∈ o.dests ↔ lookup s1.routes x = some o.hop ∧ s1.index o.hop = some i
      rw [hs1] at ho
      unfold State.updateRoute at ho
      rw [join_outducts, (leave_step _ _ _).index, leave_outducts] at ho
      change ((s.outducts i).map _).map _ = some o at ho
      cases ho0 : s.outducts i with
      | none => rw [ho0] at ho; cases ho
      | some o0 =>
        rw [ho0] at ho
        simp only [Option.map_some, Option.some.injEq] at ho
        obtain ⟨n0, m0⟩ := hs.dests i o0 ho0
        obtain ⟨o1, ho1⟩ : ∃ o1, o1 = (if (lookup s.routes d).bind s.index = some i then { o0 with dests := o0.dests.filter (· != d) } else o0) :=
          ⟨_, rfl⟩
        have h1 : o1.hop = o0.hop ∧ o1.dests.Nodup ∧ d ∉ o1.dests ∧ ∀ x, x ≠ d → (x ∈ o1.dests ↔ x ∈ o0.dests) := by
          rw [ho1]
          split
          · exact ⟨rfl, n0.filter _, by simp, fun x hx => by simp [hx]⟩
          next hno =>
            refine ⟨rfl, n0, fun hmem => hno ?_, fun x _ => Iff.rfl⟩
            obtain ⟨a, b⟩ := (m0 d).mp hmem
            rw [a]; exact b
        obtain ⟨q1, q2, q3, q4⟩ := h1
        have h2 : o.hop = o0.hop ∧ o.dests.Nodup ∧ (d ∈ o.dests ↔ (s.best C d).bind s.index = some i) ∧
            ∀ x, x ≠ d → (x ∈ o.dests ↔ x ∈ o0.dests) := by
          have ho' : (if (s.best C d).bind s.index = some i then
              { o1 with dests := if o1.dests.contains d then o1.dests else o1.dests ++ [d] } else o1) = o := by
            rw [ho1]; exact ho
          by_cases hb : (s.best C d).bind s.index = some i
          · rw [if_pos hb, if_neg (by simpa using q3)] at ho'
            rw [← ho']
            refine ⟨q1, ?_, by simp [hb], fun x hx => ?_⟩
            · exact List.nodup_append.mpr ⟨q2, by simp, by rintro a ha b hb' rfl; simp at hb'; exact q3 (hb' ▸ ha)⟩
            · simp only [List.mem_append, List.mem_singleton, hx, or_false]; exact q4 x hx
          · rw [if_neg hb] at ho'
            rw [← ho']
            exact ⟨q1, q2, by simp [hb, q3], q4⟩
        obtain ⟨r1, r2, r3, r4⟩ := h2
        refine ⟨r2, fun x => ?_⟩
        rw [hl, u3, r1]
        by_cases hxd : x = d
        · subst hxd
          rw [if_pos rfl, r3]
          constructor
          · intro hb
            obtain ⟨h, b1, b2⟩ := Option.bind_eq_some_iff.mp hb
            have := hx h i b2
            rw [ho0] at this
            simp only [Option.map_some, Option.some.injEq] at this
            rw [this]
            exact ⟨b1, b2⟩
          · rintro ⟨b1, b2⟩
            rw [b1]; exact b2
        · rw [if_neg hxd, r4 x hxd]
          exact m0 x
    · show s1.routes.map (·.1) = _
      rw [u1, setRoute_keys hd]

theorem RouteStep.indexInv {s s' : State} (h : RouteStep s s') (hx : IndexInv s) : IndexInv s' := by
  intro x i hi
  rw [h.index] at hi
  have h1 := hx x i hi
  have h2 := congrArg (Option.map (·.hop)) (h.outducts i)
  have h3 : ∀ y : Option Outduct, (y.map Outduct.bare).map (·.hop) = y.map (·.hop) := by intro y; cases y <;> rfl
  rw [h3, h3] at h2
  rw [h2]; exact h1

/-- Several destinations get the routes that are found. -/
theorem reroutes_spec {C : Config} (old : Nat → Option Nat) (l : List Nat) : ∀ {s : State}, RouteInv s → IndexInv s → l.Nodup →
    (∀ d ∈ l, d ∈ s.routes.map (·.1) ∧ lookup s.routes d = old d) →
    let s' := l.foldl (fun s d => s.reroute C d (old d)) s
    RouteInv s' ∧ s'.routes.map (·.1) = s.routes.map (·.1) ∧
      ∀ x, lookup s'.routes x = if x ∈ l then s.best C x else lookup s.routes x := by
  induction l with
  | nil => intro s hs hx _ _; exact ⟨hs, rfl, fun x => by simp⟩
  | cons d l ih =>
    intro s hs hx hn h
    obtain ⟨hd1, hd2⟩ := h d (List.mem_cons_self ..)
    obtain ⟨n1, n2⟩ := List.nodup_cons.mp hn
    obtain ⟨a1, a2, a3⟩ := reroute_spec (C := C) hs hx hd1
    rw [hd2] at a1 a2 a3
    have hst := reroute_step C s d (old d)
    obtain ⟨b1, b2, b3⟩ := ih a1 (hst.indexInv hx) n2 (by
      intro x hxl
      obtain ⟨c1, c2⟩ := h x (List.mem_cons_of_mem _ hxl)
      refine ⟨by rw [a2]; exact c1, ?_⟩
      have hxd : x ≠ d := fun e => n1 (by rw [← e]; exact hxl)
      rw [a3, if_neg hxd]
      exact c2)
    refine ⟨b1, b2.trans a2, fun x => ?_⟩
    rw [List.foldl_cons, b3, a3, best_congr hst]
    by_cases h1 : x ∈ l
    · simp [h1]
    · by_cases h2 : x = d
      · simp [h2]
      · simp [h1, h2]

theorem allRoutes_eq (C : Config) {s : State} (hs : RouteInv s) :
    s.allRoutes C = (s.routes.map (·.1)).foldl (fun t d => t.reroute C d (lookup s.routes d)) s := by
  unfold State.allRoutes
  rw [List.foldl_map]
  have key : ∀ (l : List (Nat × Option Nat)) (t : State), (∀ p ∈ l, p ∈ s.routes) →
      l.foldl (fun s p => s.reroute C p.1 p.2) t = l.foldl (fun t p => t.reroute C p.1 (lookup s.routes p.1)) t := by
    intro l
    induction l with
    | nil => intro t _; rfl
    | cons p l ih =>
      intro t h
      rw [List.foldl_cons, List.foldl_cons, lookup_mem hs.nodup (h p (List.mem_cons_self ..))]
      exact ih _ fun q hq => h q (List.mem_cons_of_mem _ hq)
  exact key _ _ fun p hp => hp

theorem allRoutes_spec {C : Config} {s : State} (hs : RouteInv s) (hx : IndexInv s) :
    RouteInv (s.allRoutes C) ∧ (s.allRoutes C).routes.map (·.1) = s.routes.map (·.1) ∧
      ∀ x, lookup (s.allRoutes C).routes x = if x ∈ s.routes.map (·.1) then s.best C x else lookup s.routes x := by
  rw [allRoutes_eq C hs]
  exact reroutes_spec (lookup s.routes) _ hs hx hs.nodup fun d hd => ⟨hd, rfl⟩

theorem routesOf_spec {C : Config} {s : State} (hs : RouteInv s) (hx : IndexInv s) {i : Nat} {o : Outduct} (ho : s.outducts i = some o) :
    RouteInv (s.routesOf C i) ∧ (s.routesOf C i).routes.map (·.1) = s.routes.map (·.1) ∧
      ∀ x, lookup (s.routesOf C i).routes x =
        if lookup s.routes x = some o.hop ∧ s.index o.hop = some i then s.best C x else lookup s.routes x := by
  obtain ⟨n, m⟩ := hs.dests i o ho
  have he : s.routesOf C i = o.dests.foldl (fun s d => s.reroute C d (some o.hop)) s := by
    unfold State.routesOf; rw [ho]
  rw [he]
  obtain ⟨a, b, c⟩ := reroutes_spec (C := C) (fun _ => some o.hop) o.dests hs hx n (by
    intro d hd
    have := ((m d).mp hd).1
    exact ⟨lookup_some_key this, this⟩)
  refine ⟨a, b, fun x => ?_⟩
  rw [c]
  simp only [m x]

end Hdtn.Router
