import Verif.Cgr.Search
import Mathlib.Data.List.Induction
import Mathlib.Data.List.Perm.Subperm

/-!
The end of the search, and the route made from it.
-/

namespace Hdtn.Cgr

open Spec

theorem init_inv {plan : List Contact} {source dest : Nat} {now : Int} (h : now ≤ maxTime) :
    Inv plan source now dest (fun r => r = .root) (fun _ => False) (Search.init source now) := by
  have hroot : Chain plan source now (fun r => r = .root) (Search.init source now).work .root [] :=
    .root ⟨rfl, rfl, trivial, by simp [nodesOf]⟩ rfl
  refine ⟨hroot, ?_, ?_, fun _ _ h => h.elim, fun _ _ _ _ => Int.le_refl _, Int.le_refl _,
    fun _ => rfl, fun _ h => by cases h⟩
  · intro i c _
    exact .inl ⟨rfl, by simp⟩
  · intro r i c hr _ _
    subst hr
    exact h

theorem init_at {plan : List Contact} {source : Nat} {now : Int} :
    At plan source now (fun r => r = .root) ⟨.root, source, source⟩ [] (Search.init source now) := by
  refine ⟨?_, .root ⟨rfl, rfl, trivial, by simp [nodesOf]⟩ rfl, ?_, rfl, by simp [nodesOf]⟩
  · intro r
    cases r <;> simp [Search.init, Work.clear]
  · intro r hr
    subst hr
    exact Int.le_refl _

theorem search_done {plan : List Contact} {source : Nat} {now : Int} {dest : Nat}
    (hC : Causal plan) (hT : InTime plan source now) :
    ∃ (s' : Search) (Q : Ref → Prop),
      search plan dest (plan.length + 1) ⟨.root, source, source⟩ (Search.init source now) =
        .done s' ∧ Inv plan source now dest Q Q s' ∧
      ∀ i c, plan[i]? = some c → ¬ Q (.leg i) → c.suppressed = false →
        (s'.work (.leg i)).arrival ≤ s'.finTime → maxTime ≤ (s'.work (.leg i)).arrival := by
  have hnow : now < maxTime := hT.2 [] trivial
  refine search_spec hC hT _ _ [] _ _ _ (init_inv (Int.le_of_lt hnow)) init_at
    (fun r h => .inr h) ?_
  have : (todo plan ⟨.root, source, source⟩ (Search.init source now)).card ≤
      (Finset.range plan.length).card := Finset.card_filter_le _ _
  rw [Finset.card_range] at this
  omega

/-- Whatever a journey reaches before the time found, a settled contact reaches no later. -/
theorem settled_reaches {plan source now dest Q s} (hC : Causal plan)
    (inv : Inv plan source now dest Q Q s) (hT : InTime plan source now)
    (hstop : ∀ i c, plan[i]? = some c → ¬ Q (.leg i) → c.suppressed = false →
        (s.work (.leg i)).arrival ≤ s.finTime → maxTime ≤ (s.work (.leg i)).arrival)
    (cs : List Contact) (hj : Journey plan source now cs) (hlt : arrival now cs < s.finTime) :
    ∃ r p, Chain plan source now Q s.work r p ∧ endNode source p = endNode source cs ∧
      arrival now p ≤ arrival now cs := by
  induction cs using List.reverseRecOn with
  | nil => exact ⟨.root, [], inv.rootChain, rfl, Int.le_refl _⟩
  | append_singleton cs c ih =>
    obtain ⟨h1, h2, h3, h4, h5⟩ := (journey_snoc _ _ _ _ _).mp hj
    have hco := hC c h2
    rw [arrival_snoc] at hlt
    have hle : arrival now cs ≤ arrive (arrival now cs) c := le_arrive hco
    obtain ⟨r, p, a1, a2, a3⟩ := ih h1 (by omega)
    obtain ⟨j, hjl, hjc⟩ := List.mem_iff_getElem.mp h2
    have hj' : plan[j]? = some c := List.getElem?_eq_some_iff.mpr ⟨hjl, hjc⟩
    rcases inv.seen r p a1.settled a1 j c hj' (h4.trans a2.symm) h3 (by omega) with h | h
    · obtain ⟨r', p', b1, b2, b3⟩ := a1.earlier hC h
      refine ⟨r', p', b1, by rw [b2, endNode_snoc], ?_⟩
      rw [arrival_snoc]
      omega
    · have hm := arrive_mono c a3
      rw [arrival_snoc, endNode_snoc]
      have hmax := hT.2 _ hj
      rw [arrival_snoc] at hmax
      have hQ : Q (.leg j) := by
        by_contra hn
        have := hstop j c hj' hn h3.1 (by omega)
        omega
      rcases inv.each j c hj' with hx | hx
      · exact absurd hQ hx.2
      · obtain ⟨r', q, z1, z2, z3⟩ := hx
        refine ⟨.leg j, q ++ [c], .leg hj' hQ z1 z2 z3, endNode_snoc _ _ _, ?_⟩
        rw [← z3.arrival]
        omega

theorem chain_traceBack {plan source now P work r p}
    (h : Chain plan source now P work r p) (fuel : Nat) (hf : p.length ≤ fuel) :
    traceBack plan work fuel r = some p.reverse := by
  induction h generalizing fuel with
  | root => cases fuel <;> rfl
  | leg h1 h2 h3 h4 h5 ih =>
    rw [List.length_append, List.length_singleton] at hf
    obtain ⟨n, rfl⟩ : ∃ n, fuel = n + 1 := ⟨fuel - 1, by omega⟩
    simp only [traceBack, h1, h3]
    rw [ih n (by omega)]
    simp

theorem journey_length {plan source now p} (h : Journey plan source now p)
    (hn : (nodesOf source p).Nodup) : p.length ≤ plan.length := by
  have h1 : p.Nodup := by
    have := (List.nodup_cons.mp hn).2
    exact List.Nodup.of_map _ this
  exact (List.subperm_of_subset h1 (fun c hc => journey_mem h c hc)).length_le

/-- What `refresh_metrics` computes for the hops `p`. -/
structure Metrics (source : Nat) (p : List Contact) (r : Route) : Prop where
  hops : r.hops = p
  visited : ∀ x ∈ r.visited, x ∈ nodesOf source p
  toNode : p ≠ [] → r.toNode = endNode source p
  nextNode : ∀ c cs, p = c :: cs → r.nextNode = c.dst ∧ r.fromTime = c.start
  toTime : p ≠ [] → r.toTime = p.foldl (fun t c => min t c.stop) maxTime
  delivery : p ≠ [] → r.bestDelivery = arrival 0 p

theorem foldl_arrival (t : Int) (p : List Contact) :
    p.foldl (fun t c => max (t + c.owlt) (c.start + c.owlt)) t = arrival t p := by
  induction p generalizing t with
  | nil => rfl
  | cons c p ih =>
    simp only [List.foldl_cons, arrival]
    rw [ih]
    congr 1
    unfold arrive
    omega

theorem append_metrics {plan source now} (hC : Causal plan) {p : List Contact} {c : Contact}
    {r : Route} (hm : Metrics source p r) (hj : Journey plan source now (p ++ [c]))
    (hn : (nodesOf source (p ++ [c])).Nodup) :
    ∃ r', r.append c = some r' ∧ Metrics source (p ++ [c]) r' := by
  obtain ⟨j1, j2, j3, j4, j5⟩ := (journey_snoc _ _ _ _ _).mp hj
  rw [nodesOf_snoc] at hn
  have hnot : c.dst ∉ nodesOf source p := by
    intro h
    exact (List.nodup_append.mp hn).2.2 _ h _ (List.mem_singleton.mpr rfl) rfl
  have hel : r.eligible c = true := by
    unfold Route.eligible
    rw [hm.hops]
    cases hl : p.getLast? with
    | none => rfl
    | some last =>
      simp only [Bool.and_eq_true, Bool.not_eq_true', decide_eq_true_eq]
      refine ⟨?_, ?_⟩
      · by_contra hv
        have : r.visited.contains c.dst = true := by simpa using hv
        exact hnot (hm.visited _ (by simpa using this))
      · obtain ⟨q, rfl⟩ := List.getLast?_eq_some_iff.mp hl
        rw [arrival_snoc] at j5
        have : last.start + last.owlt ≤ arrive (arrival now q) last := by
          unfold arrive; omega
        omega
  unfold Route.append
  rw [if_pos hel]
  refine ⟨_, rfl, ?_⟩
  have hlast : (r.hops ++ [c]).getLast? = some c := by simp
  obtain ⟨f, hf⟩ : ∃ f, (r.hops ++ [c]).head? = some f := by
    cases hh : r.hops with
    | nil => exact ⟨c, rfl⟩
    | cons a l => exact ⟨a, rfl⟩
  unfold Route.refresh
  simp only [hlast, hf]
  rw [hm.hops] at hf ⊢
  refine ⟨rfl, ?_, fun _ => (endNode_snoc _ _ _).symm, ?_, fun _ => rfl,
    fun _ => foldl_arrival _ _⟩
  · intro x hx
    rw [nodesOf_snoc, List.mem_append]
    rcases List.mem_append.mp hx with hx | hx
    · exact .inl (hm.visited x hx)
    · rcases List.mem_cons.mp hx with rfl | hx
      · left; rw [j4]; exact endNode_mem _ _
      · right; exact hx
  · intro d cs hd
    rw [hd] at hf
    cases hf
    exact ⟨rfl, rfl⟩

theorem appendAll_metrics {plan source now} (hC : Causal plan) (q : List Contact)
    {p : List Contact} {r : Route} (hm : Metrics source p r)
    (hj : Journey plan source now (p ++ q)) (hn : (nodesOf source (p ++ q)).Nodup) :
    ∃ r', r.appendAll q = some r' ∧ Metrics source (p ++ q) r' := by
  induction q generalizing p r with
  | nil => exact ⟨r, rfl, by simpa using hm⟩
  | cons c q ih =>
    have e : p ++ c :: q = (p ++ [c]) ++ q := by simp
    rw [e] at hj hn ⊢
    have hn1 : (nodesOf source (p ++ [c])).Nodup := by
      have : nodesOf source (p ++ [c] ++ q) = nodesOf source (p ++ [c]) ++ q.map (·.dst) := by
        simp [nodesOf]
      rw [this] at hn
      exact (List.nodup_append.mp hn).1
    obtain ⟨r1, e1, m1⟩ := append_metrics hC hm ((journey_append _ _ _ _ _).mp hj).1 hn1
    obtain ⟨r2, e2, m2⟩ := ih m1 hj hn
    exact ⟨r2, by simp only [Route.appendAll, e1, e2], m2⟩

theorem empty_metrics (source : Nat) : Metrics source [] Route.empty :=
  ⟨rfl, by simp [Route.empty], fun h => absurd rfl h, fun _ _ h => (by cases h),
    fun h => absurd rfl h, fun h => absurd rfl h⟩

/-- The whole search, in one statement. -/
theorem dijkstra_spec {plan : List Contact} {source : Nat} {now : Int} {dest : Nat}
    (hC : Causal plan) (hT : InTime plan source now) :
    (dijkstra plan source now dest = .route Route.empty ∧
      (dest ≠ source → ∀ cs, Journey plan source now cs → endNode source cs ≠ dest)) ∨
    ∃ r, dijkstra plan source now dest = .route r ∧ r.hops ≠ [] ∧ Metrics source r.hops r ∧
      Journey plan source now r.hops ∧ endNode source r.hops = dest ∧
      (nodesOf source r.hops).Nodup ∧
      ∀ cs, Journey plan source now cs → endNode source cs = dest →
        arrival now r.hops ≤ arrival now cs := by
  obtain ⟨s, Q, e, inv, hstop⟩ := search_done (dest := dest) hC hT
  -- a journey to the destination cannot beat the time found
  have hbest : dest ≠ source → ∀ cs, Journey plan source now cs → endNode source cs = dest →
      s.finTime ≤ arrival now cs := by
    intro hds cs hj he
    by_contra hlt
    obtain ⟨r, p, a1, a2, a3⟩ := settled_reaches hC inv hT hstop cs hj (by omega)
    rw [he] at a2
    cases a1 with
    | root => exact hds a2.symm
    | @leg i c r p h1 h2 h3 h4 h5 =>
      rw [endNode_snoc] at a2
      have := inv.finLe i c h1 a2
      rw [h5.arrival] at this
      omega
  unfold dijkstra
  rw [e]
  cases hf : s.final with
  | none =>
    left
    refine ⟨by simp only [hf], ?_⟩
    intro hds cs hj he
    have h1 := hbest hds cs hj he
    have h2 := hT.2 cs hj
    have h3 := inv.finNone hf
    omega
  | some f =>
    right
    obtain ⟨c, h1, h2, ⟨r, p, a1, a2, a3⟩, h4⟩ := inv.finSome f hf
    have hlen := journey_length a3.journey a3.nodup
    rw [List.length_append, List.length_singleton] at hlen
    have ht : traceBack plan s.work (plan.length + 1) (.leg f) = some (p ++ [c]).reverse := by
      simp only [traceBack, h1, a1]
      rw [chain_traceBack a2 _ (by omega)]
      simp
    obtain ⟨rt, e1, m1⟩ := appendAll_metrics (p := []) hC (p ++ [c]) (empty_metrics source)
      a3.journey a3.nodup
    refine ⟨rt, ?_, ?_⟩
    · simp only [hf, ht, List.reverse_reverse, e1]
    · simp only [List.nil_append] at m1
      rw [m1.hops]
      refine ⟨by simp, m1, a3.journey, by rw [endNode_snoc, h2], a3.nodup, ?_⟩
      intro cs hj he
      have hds : dest ≠ source := by
        intro hds
        have := a3.nodup
        rw [nodesOf_snoc, h2, hds] at this
        exact (List.nodup_append.mp this).2.2 source (by simp [nodesOf]) source (by simp) rfl
      rw [← a3.arrival, h4]
      exact hbest hds cs hj he

end Hdtn.Cgr
