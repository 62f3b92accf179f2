import Verif.CgrMulti.Smaller
import Verif.Cgr.Props

/-!
C80: multigraph routing.
-/

namespace Hdtn.CgrMulti

open Hdtn.Cgr Hdtn.Cgr.Spec Spec

/-- The assumptions under which multigraph routing works, all in one. -/
theorem C80_spec {plan : List Contact} {source dest : Nat} {start : Int}
    (hg : Good plan source start dest) (hf : SourceFirst plan source)
    (hfd : source < dest) (hsrc : ∃ c ∈ plan, c.frm = source) :
    (cmrDijkstra plan source start dest = .route Route.empty ∧
      ∀ cs, Journey plan source start cs → endNode source cs ≠ dest) ∨
    ∃ r, cmrDijkstra plan source start dest = .route r ∧ r.hops ≠ [] ∧ Metrics source r.hops r ∧
      Journey plan source start r.hops ∧ endNode source r.hops = dest ∧
      (nodesOf source r.hops).Nodup ∧
      ∀ cs, Journey plan source start cs → endNode source cs = dest →
        arrival start r.hops ≤ arrival start cs := by
  have hds : dest ≠ source := by omega
  have hsv : source ∈ vertices plan dest := mem_vertices.mpr (.inr hsrc)
  have hnd : (vertices plan dest).Nodup := List.nodup_dedup _
  have hstart : start < maxTime := hg.inTime.2 [] trivial
  have hmap : ∀ e : Int × Nat, e ∈ (init plan dest source start).queue ↔
      e.1 = maxTime ∧ e.2 ∈ vertices plan dest := by
    rintro ⟨k, u⟩
    simp only [init, List.mem_map]
    constructor
    · rintro ⟨w, hw, he⟩
      cases he
      exact ⟨rfl, hw⟩
    · rintro ⟨rfl, hu⟩
      exact ⟨u, hu, rfl⟩
  unfold cmrDijkstra
  rw [if_neg (fun h => h hsv)]
  -- the first node is the source
  have htop : top (init plan dest source start).queue = some (maxTime, source) := by
    cases ht : top (init plan dest source start).queue with
    | none =>
      have := (hmap (maxTime, source)).mpr ⟨rfl, hsv⟩
      rw [top_none ht] at this
      cases this
    | some x =>
      obtain ⟨k, y⟩ := x
      obtain ⟨h1, h2⟩ := top_some ht
      obtain ⟨hk, hy⟩ := (hmap _).mp h1
      have hle := h2 _ ((hmap (maxTime, source)).mpr ⟨rfl, hsv⟩)
      simp only at hk hy hle
      have hge : source ≤ y := by
        rcases mem_vertices.mp hy with rfl | ⟨c, hc, rfl⟩
        · omega
        · exact (hf c hc).1
      have : y = source := by omega
      rw [hk, this]
  simp only [pop, htop]
  let s0 : State := { init plan dest source start with
    queue := (init plan dest source start).queue.erase (maxTime, source) }
  have ha0 : s0.arrival source = start := put_same (fun _ => maxTime) source start
  have hao : ∀ u, u ≠ source → s0.arrival u = maxTime :=
    fun u hu => put_ne (fun _ => maxTime) start hu
  have hch : MChain plan source start (fun x => x = source) s0 source [] :=
    .root ⟨ha0, trivial, rfl, by simp [nodesOf]⟩ rfl
  have inv0 : MInv plan source start dest (fun x => x = source) (fun _ => False) s0 := by
    refine ⟨hch, rfl, fun u hu => .inl ⟨hao u hu, rfl⟩, ?_, fun _ h => h.elim, fun _ h => h.elim,
      ?_, ?_⟩
    · intro x u hx hu
      subst hx
      rw [ha0, hao u hu]
      omega
    · intro u hu hus
      rw [hao u hus]
      refine (List.mem_erase_of_ne ?_).mpr ((hmap _).mpr ⟨rfl, hu⟩)
      intro he
      exact hus (congrArg Prod.snd he)
    · intro e he
      obtain ⟨h1, h2⟩ := (hmap e).mp (List.mem_of_mem_erase he)
      refine ⟨h2, ?_⟩
      rw [h1]
      by_cases hes : e.2 = source
      · rw [hes, ha0]; omega
      · rw [hao _ hes]
  have at0 : MAt plan source start (fun x => x = source) source s0 := by
    refine ⟨?_, ?_, .inr ⟨[], hch⟩⟩
    · intro x
      simp [s0, init]
    · intro x hx
      subst hx
      exact Int.le_refl _
  have hfuel : s0.queue.length + weight plan s0.visited (vertices plan dest) < turns plan dest := by
    have h1 : s0.queue.length ≤ (vertices plan dest).length := by
      refine Nat.le_trans (List.length_erase_le) ?_
      simp [init]
    have h2 : weight plan s0.visited (vertices plan dest) =
        ((vertices plan dest).map (fun v => (neighbours plan v).length)).sum := by
      simp [weight, s0, init]
    unfold turns
    omega
  obtain ⟨s, Q, e, hQd, ⟨k, inv⟩, hmin⟩ := run_spec hg hds (turns plan dest) source _ _ s0 inv0
    (.inr ⟨rfl, at0, fun x h => .inr h⟩) hsv (fun h => hds h.symm) hds hfuel
  rw [show run plan dest (turns plan dest) source s0 = .go s from e]
  simp only
  -- nothing gets to the destination earlier
  have hbest : ∀ cs, Journey plan source start cs → endNode source cs = dest →
      s.arrival dest ≤ arrival start cs := by
    intro cs hj he
    by_contra hlt
    obtain ⟨h1, h2⟩ := settled_in_time hg inv hmin cs hj (by simpa using hlt)
    rw [he] at h1
    exact hQd h1
  rcases inv.each dest hds with ⟨h1, h2⟩ | ⟨i, c, p, h1, h2, h3, h4, h5⟩
  · left
    have ht : traceBack plan source s.pred (plan.length + 1) dest = some [] := by
      simp only [traceBack]
      rw [show s.pred dest = none from h2]
    rw [ht]
    refine ⟨rfl, ?_⟩
    intro cs hj he
    have a1 := hbest cs hj he
    have a2 := hg.inTime.2 cs hj
    simp only at h1
    omega
  · right
    have hlen := journey_length h5.journey h5.nodup
    have hchain : MChain plan source start (fun _ => True) { s with queue := k } dest (p ++ [c]) :=
      .step h1 h2 h3 trivial (h4.mono (fun _ _ => trivial) (fun _ _ => ⟨rfl, rfl⟩))
        ⟨h5.arrival, h5.journey, h5.endNode, h5.nodup⟩
    have ht : traceBack plan source s.pred (plan.length + 1) dest = some (p ++ [c]).reverse :=
      chain_traceBack hchain inv.rootPred _ (by omega)
    obtain ⟨rt, e1, m1⟩ := appendAll_metrics (p := []) hg.causal (p ++ [c]) (empty_metrics source)
      h5.journey h5.nodup
    rw [ht]
    simp only [List.reverse_reverse, e1]
    simp only [List.nil_append] at m1
    refine ⟨rt, rfl, ?_⟩
    rw [m1.hops]
    refine ⟨by simp, m1, h5.journey, h5.endNode, h5.nodup, ?_⟩
    intro cs hj he
    rw [← h5.arrival]
    exact hbest cs hj he

/-- If all times of the plan at which something can happen are even, and all ends odd, no contact
ends at the moment a bundle gets to it. -/
theorem noTie_of_parity {plan : List Contact} {source : Nat} {start : Int} (h0 : start % 2 = 0)
    (h : ∀ c ∈ plan, c.start % 2 = 0 ∧ c.owlt % 2 = 0 ∧ c.stop % 2 = 1) :
    NoTie plan source start := by
  intro cs hj c hc hcf he
  have heven : arrival start cs % 2 = 0 := by
    clear he hcf
    induction cs using List.reverseRecOn with
    | nil => exact h0
    | append_singleton cs d ih =>
      obtain ⟨a, b, _⟩ := (journey_snoc _ _ _ _ _).mp hj
      have := ih a
      have := h d b
      rw [arrival_snoc]
      unfold arrive
      omega
  have := h c hc
  omega

/-- Three nodes in a row, and a late direct contact: a plan that meets all assumptions. -/
def plan4 : List Contact :=
  [Contact.make 10 40 900 1001 100 2, Contact.make 10 20 0 101 100 2,
   Contact.make 20 40 300 401 100 4, Contact.make 20 40 50 151 100 4]

theorem plan4_separate : Separate plan4 := by
  have h : ∀ x ∈ plan4.zipIdx, ∀ y ∈ plan4.zipIdx, x.2 ≠ y.2 → x.1.frm = y.1.frm →
      x.1.dst = y.1.dst →
      (x.1.stop ≤ y.1.start ∨ y.1.stop ≤ x.1.start) ∧ x.1.owlt = y.1.owlt := by
    decide +kernel
  intro i j c d hi hj hij h1 h2
  exact h (c, i) (List.mem_zipIdx_iff_getElem?.mpr hi) (d, j)
    (List.mem_zipIdx_iff_getElem?.mpr hj) hij h1 h2

theorem plan4_good : Good plan4 10 8 40 where
  separate := plan4_separate
  proper := by unfold Proper; decide +kernel
  causal := by unfold Causal; decide +kernel
  inTime := inTime_of_bounds (by decide) (by decide) (by decide +kernel)
  usable := by unfold Usable; decide +kernel
  noDeadEnd := by unfold NoDeadEnd; decide +kernel
  noTie := noTie_of_parity (by decide) (by decide +kernel)

/-- **C80**, in part.  If the contacts of each pair of nodes follow one another and take equally
long, every contact is usable, none ends at the moment a bundle gets to it, no node is a dead
end, and the source has the smallest node number and some contact, then multigraph routing finds
a route exactly when the destination can be reached from the start time of the root contact, and
then one a bundle can follow and no other of which gets there earlier.
(Missing: every other plan, see the theorems below.) -/
theorem C80_earliest_partial {plan : List Contact} {source dest : Nat} {start : Int}
    (hg : Good plan source start dest) (hf : SourceFirst plan source)
    (hfd : source < dest) (hsrc : ∃ c ∈ plan, c.frm = source) :
    ∃ r, cmrDijkstra plan source start dest = .route r ∧
      (r.valid = true ↔ ∃ cs, Journey plan source start cs ∧ endNode source cs = dest) ∧
      (r.valid = true →
        Journey plan source start r.hops ∧ endNode source r.hops = dest ∧
        (nodesOf source r.hops).Nodup ∧
        (∀ cs, Journey plan source start cs → endNode source cs = dest →
          arrival start r.hops ≤ arrival start cs) ∧
        ∃ c cs, r.hops = c :: cs ∧ r.nextNode = c.dst ∧ r.toNode = dest) := by
  rcases C80_spec hg hf hfd hsrc with ⟨h1, h2⟩ | ⟨r, h1, h2, h3, h4, h5, h6, h7⟩
  · refine ⟨_, h1, ⟨fun h => (by cases h), ?_⟩, fun h => (by cases h)⟩
    rintro ⟨cs, hj, he⟩
    exact absurd he (h2 cs hj)
  · cases hh : r.hops with
    | nil => exact absurd hh h2
    | cons c cs =>
      refine ⟨r, h1, ⟨fun _ => ⟨_, h4, h5⟩, fun _ => ?_⟩, fun _ => ?_⟩
      · unfold Route.valid
        rw [hh]; rfl
      · exact ⟨h4, h5, h6, h7, c, cs, hh, (h3.nextNode c cs hh).1, (h3.toNode h2).trans h5⟩

example := C80_earliest_partial plan4_good (by unfold SourceFirst; decide +kernel) (by decide)
  ⟨Contact.make 10 20 0 101 100 2, by decide +kernel, rfl⟩

example : ∃ r, cmrDijkstra plan4 10 8 40 = .route r ∧
    r.hops = [Contact.make 10 20 0 101 100 2, Contact.make 20 40 50 151 100 4] := by
  refine ⟨⟨_, 40, 20, 0, 101, 54, [10, 20, 20, 40]⟩, ?_, rfl⟩
  decide +kernel

/-- **C80**, the binary search of contacts: in a list of contacts in ascending order of their
ends, the contact found is the first one that ends after the given time, and the last one of the
list if there is none. -/
theorem C80_search {l : List Link}
    (hs : l.Pairwise (fun x y => x.1.stop ≤ y.1.stop)) (hne : l ≠ []) (t : Int) :
    ∃ k x, searchIndex l t = some k ∧ searchLink l t = some x ∧ l[k]? = some x ∧
      ((∃ y ∈ l, t < y.1.stop) →
        t < x.1.stop ∧ ∀ j y, l[j]? = some y → t < y.1.stop → k ≤ j) ∧
      ((∀ y ∈ l, y.1.stop ≤ t) → k + 1 = l.length) := by
  obtain ⟨k, e, hk, hlo, hhi⟩ := searchIndex_spec hs hne t
  have hx := List.getElem?_eq_getElem hk
  refine ⟨k, l[k], e, ?_, hx, ?_, ?_⟩
  · unfold searchLink
    rw [e]; exact hx
  · rintro ⟨y, hy, hyt⟩
    have hfirst : ∀ j y, l[j]? = some y → t < y.1.stop → k ≤ j := by
      intro j y hj hyt
      by_contra hlt
      have := hlo j y (by omega) hj
      omega
    refine ⟨?_, hfirst⟩
    rcases hhi with h | h
    · obtain ⟨j, hj⟩ := List.mem_iff_getElem?.mp hy
      have h1 := hfirst j y hj hyt
      have hj' := (List.getElem?_eq_some_iff.mp hj).1
      have hjk : j = k := by omega
      subst hjk
      rw [hj] at hx
      injection hx with hx
      rw [← hx]
      exact hyt
    · exact h _ hx
  · intro hall
    rcases hhi with h | h
    · have := List.length_pos_iff.mpr hne
      omega
    · have h1 := h _ hx
      have h2 := hall _ (List.getElem_mem hk)
      omega

example := C80_search (l := [(Contact.make 20 40 50 151 100 4, 3), (Contact.make 20 40 300 401 100 4, 2)])
  (by decide +kernel) (by decide) 200

/-- **C80**, the adjacency lists: whatever the order of a plan, the contacts of a pair of nodes
are put in order of time, provided they do not overlap. -/
theorem C80_adjacency {plan : List Contact} (hs : Separate plan) (hp : Proper plan) (a b : Nat) :
    ∃ l, links plan a b = some l ∧ l.Pairwise (fun x y => x.1.stop ≤ y.1.start) ∧
      ∀ c i, (c, i) ∈ l ↔ plan[i]? = some c ∧ c.frm = a ∧ c.dst = b := by
  obtain ⟨l, e, o, h⟩ := links_spec hs hp a b
  exact ⟨l, e, o, fun c i => h (c, i)⟩

example := C80_adjacency plan4_separate plan4_good.proper 20 40

/-- **C80 fails**, for every plan: no contact of a route leads to a node whose number is smaller
than that of the source. -/
theorem C80_smaller_never {plan : List Contact} {source dest : Nat} {start : Int}
    (hstart : start ≤ maxTime) {r : Route} (hr : cmrDijkstra plan source start dest = .route r) :
    ∀ c ∈ r.hops, source < c.dst := by
  rcases cmr_greater (plan := plan) (source := source) (dest := dest) hstart with
    h | ⟨s, fuel, back, r', hs, ht, hr', hh⟩
  · rw [hr] at h
    cases hhops : r.hops with
    | nil => simp
    | cons c cs =>
      have : r.valid = true := by unfold Route.valid; rw [hhops]; rfl
      simp only [nextHop, this, if_true] at h
      cases h
  · rw [hr] at hr'
    cases hr'
    intro c hc
    rw [hh, List.mem_reverse] at hc
    exact traceBack_greater hs fuel dest ht c hc

example := C80_smaller_never (plan := plan4) (source := 10) (dest := 40) (start := 8) (by decide)
  (r := ⟨[Contact.make 10 20 0 101 100 2, Contact.make 20 40 50 151 100 4], 40, 20, 0, 101, 54,
    [10, 20, 20, 40]⟩) (by decide +kernel)

/-- **C80 fails**, for every plan: a node finds no route to a node with a smaller number. -/
theorem C80_smaller_violated {plan : List Contact} {source dest : Nat} {start : Int}
    (hstart : start ≤ maxTime) (hd : dest ≤ source) :
    nextHop (cmrDijkstra plan source start dest) = none := by
  rcases cmr_greater (plan := plan) (source := source) (dest := dest) hstart with
    h | ⟨s, fuel, back, r, hs, ht, hr, hh⟩
  · exact h
  · have hb : back = [] := by
      cases fuel with
      | zero => cases ht
      | succ fuel =>
        simp only [traceBack] at ht
        cases hp : s.pred dest with
        | none => rw [hp] at ht; cases ht; rfl
        | some i =>
          have := (hs dest i hp).1
          omega
    rw [hr]
    have : r.valid = false := by unfold Route.valid; rw [hh, hb]; rfl
    simp [nextHop, this]

/-- ... although there is a contact that leads there at once, and the other search uses it. -/
example : nextHop (dijkstra [Contact.make 2 1 0 1000 100 1] 2 5 1) = some 1 ∧
    nextHop (cmrDijkstra [Contact.make 2 1 0 1000 100 1] 2 5 1) = none := by
  decide +kernel

/-- **C80 fails** for a plan with a dead end: one contact to a node from which no contact goes on
hides all routes. -/
theorem C80_dead_end_violated :
    nextHop (cmrDijkstra [Contact.make 1 3 0 1000 100 1] 1 5 3) = some 3 ∧
    nextHop (cmrDijkstra [Contact.make 1 3 0 1000 100 1, Contact.make 1 2 0 1000 100 1] 1 5 3) =
      none := by
  decide +kernel

/-- **C80 fails** for the present time: the router's question has the same answer at all times, and
the contact it is told to use may be over. -/
theorem C80_past_violated :
    (∀ plan source now now' dest,
      routerNextHop plan source now dest = routerNextHop plan source now' dest) ∧
    routerNextHop [Contact.make 1 2 0 10 100 1, Contact.make 2 4 0 900 100 1,
      Contact.make 1 3 0 900 100 5, Contact.make 3 4 0 900 100 5] 1 500 4 = some 2 ∧
    nextHop (dijkstra [Contact.make 1 2 0 10 100 1, Contact.make 2 4 0 900 100 1,
      Contact.make 1 3 0 900 100 5, Contact.make 3 4 0 900 100 5] 1 500 4) = some 3 :=
  ⟨fun _ _ _ _ _ => rfl, by decide +kernel, by decide +kernel⟩

/-- **C80 fails** when a contact ends at the moment a bundle gets to it: the contact is taken,
and the assertion of the route that is made of it fails. -/
theorem C80_tie_violated :
    cmrDijkstra [Contact.make 1 2 10 100 100 5, Contact.make 2 3 0 15 100 1] 1 0 3 = .aborted := by
  decide +kernel

/-- **C80 fails** for contacts that overlap: a later arrival is found than possible. -/
theorem C80_overlap_violated : ∃ plan cs r,
    cmrDijkstra plan 1 0 2 = .route r ∧ Journey plan 1 0 cs ∧ endNode 1 cs = 2 ∧
    arrival 0 cs < arrival 0 r.hops := by
  refine ⟨[Contact.make 1 2 0 100 100 50, Contact.make 1 2 1 200 100 1],
    [Contact.make 1 2 1 200 100 1],
    ⟨[Contact.make 1 2 0 100 100 50], 2, 2, 0, 100, 50, [1, 2]⟩, ?_, ?_, ?_, ?_⟩
  · decide +kernel
  · simp only [Journey, Usable]
    decide +kernel
  · decide +kernel
  · decide +kernel

/-- **C80 fails** for contacts that are suppressed or have no volume left: they are used. -/
theorem C80_usable_violated :
    nextHop (cmrDijkstra [⟨1, 2, 0, 100, 1, [0, 0, 0], true⟩] 1 5 2) = some 2 ∧
    nextHop (dijkstra [⟨1, 2, 0, 100, 1, [0, 0, 0], true⟩] 1 5 2) = none := by
  decide +kernel

/-- **C80 fails** for every plan without a contact from the source (unless the source is the
destination): a vertex without id is used. -/
theorem C80_no_contact_violated {plan : List Contact} {source dest : Nat} {start : Int}
    (hd : dest ≠ source) (h : ∀ c ∈ plan, c.frm ≠ source) :
    cmrDijkstra plan source start dest = .broken := by
  unfold cmrDijkstra
  rw [if_pos]
  rw [mem_vertices]
  rintro (h' | ⟨c, hc, hs⟩)
  · exact hd h'.symm
  · exact h c hc hs

example := C80_no_contact_violated (plan := plan4) (source := 40) (dest := 10) (start := 8)
  (by decide) (by decide +kernel)

end Hdtn.CgrMulti
