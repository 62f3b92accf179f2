import Verif.Cgr.Final

/-!
C79: the route search over a contact plan finds the earliest delivery.  C81: the figures of a route.
-/

namespace Hdtn.Cgr

open Spec

/-- A plan whose contacts all end in time is one where nothing takes too long. -/
theorem inTime_of_bounds {plan : List Contact} {a : Nat} {t : Int} (h1 : -(2 ^ 63) ≤ t)
    (h2 : t < maxTime)
    (h : ∀ c ∈ plan, c.start + c.owlt < maxTime ∧ c.stop + c.owlt ≤ maxTime) :
    InTime plan a t := by
  refine ⟨h1, fun cs hj => ?_⟩
  induction cs using List.reverseRecOn with
  | nil => exact h2
  | append_singleton cs c _ =>
    obtain ⟨_, b, _, _, e⟩ := (journey_snoc _ _ _ _ _).mp hj
    rw [arrival_snoc]
    have := h c b
    unfold arrive
    omega

/-- A plan of five contacts: from node 10 straight to node 40 (late), or by 20 and 30 (early),
with a contact from 30 to 40 that has ended when a bundle can be there, and one that has not. -/
def plan5 : List Contact :=
  [Contact.make 10 40 900 1000 100 1, Contact.make 10 20 0 100 100 1,
   Contact.make 20 30 50 150 100 2, Contact.make 30 40 0 40 100 1, Contact.make 30 40 60 200 100 1]

theorem plan5_causal : Causal plan5 := by
  unfold Causal; decide +kernel

theorem plan5_inTime (a : Nat) : InTime plan5 a 7 :=
  inTime_of_bounds (by decide) (by decide) (by decide +kernel)

/-- **C79.**  For every plan, source, destination and present time: the search ends without
failing, finds a route exactly when the destination can be reached, and then the route is one a
bundle can follow, passes no node twice, ends at the destination, and no other way of following
the contacts of the plan gets there earlier. -/
theorem C79_earliest {plan : List Contact} {source dest : Nat} {now : Int} (hC : Causal plan)
    (hT : InTime plan source now) (hd : dest ≠ source) :
    ∃ r, dijkstra plan source now dest = .route r ∧
      (r.valid = true ↔ ∃ cs, Journey plan source now cs ∧ endNode source cs = dest) ∧
      (r.valid = true →
        Journey plan source now r.hops ∧ endNode source r.hops = dest ∧
        (nodesOf source r.hops).Nodup ∧
        ∀ cs, Journey plan source now cs → endNode source cs = dest →
          arrival now r.hops ≤ arrival now cs) := by
  rcases dijkstra_spec (dest := dest) hC hT with ⟨h1, h2⟩ | ⟨r, h1, h2, h3, h4, h5, h6, h7⟩
  · refine ⟨_, h1, ⟨fun h => (by cases h), ?_⟩, fun h => (by cases h)⟩
    rintro ⟨cs, hj, he⟩
    exact absurd he (h2 hd cs hj)
  · refine ⟨r, h1, ⟨fun _ => ⟨_, h4, h5⟩, fun _ => ?_⟩, fun _ => ⟨h4, h5, h6, h7⟩⟩
    unfold Route.valid
    cases hh : r.hops with
    | nil => exact absurd hh h2
    | cons _ _ => rfl

/-- The five contacts: the route found takes the three short contacts. -/
example : ∃ r, dijkstra plan5 10 7 40 = .route r ∧
    r.hops = [Contact.make 10 20 0 100 100 1, Contact.make 20 30 50 150 100 2,
      Contact.make 30 40 60 200 100 1] ∧ arrival 7 r.hops = 61 := by
  refine ⟨⟨_, 40, 20, 0, 100, 61, [10, 20, 20, 30, 30, 40]⟩, ?_, rfl, ?_⟩ <;> decide +kernel

example := C79_earliest plan5_causal (plan5_inTime 10) (show 40 ≠ 10 by decide)

/-- **C79**, what the router uses: the next hop it is given is the first node of an earliest
journey, and it is told that there is no route exactly when there is none. -/
theorem C79_next_hop {plan : List Contact} {source dest : Nat} {now : Int} (hC : Causal plan)
    (hT : InTime plan source now) (hd : dest ≠ source) :
    (nextHop (dijkstra plan source now dest) = none ↔
      ¬ ∃ cs, Journey plan source now cs ∧ endNode source cs = dest) ∧
    ∀ n, nextHop (dijkstra plan source now dest) = some n →
      ∃ c cs, c.dst = n ∧ Journey plan source now (c :: cs) ∧ endNode source (c :: cs) = dest ∧
        ∀ cs', Journey plan source now cs' → endNode source cs' = dest →
          arrival now (c :: cs) ≤ arrival now cs' := by
  rcases dijkstra_spec (dest := dest) hC hT with ⟨h1, h2⟩ | ⟨r, h1, h2, h3, h4, h5, h6, h7⟩
  · rw [h1]
    refine ⟨⟨fun _ => ?_, fun _ => rfl⟩, fun n hn => (by cases hn)⟩
    rintro ⟨cs, hj, he⟩
    exact absurd he (h2 hd cs hj)
  · rw [h1]
    cases hh : r.hops with
    | nil => exact absurd hh h2
    | cons c cs =>
      have hv : r.valid = true := by unfold Route.valid; rw [hh]; rfl
      have hnn := (h3.nextNode c cs hh).1
      simp only [nextHop, hv, if_true]
      rw [hh] at h4 h5 h7
      refine ⟨⟨fun h => (by cases h), fun h => absurd ⟨_, h4, h5⟩ h⟩, ?_⟩
      rintro n ⟨⟩
      exact ⟨c, cs, hnn.symm, h4, h5, h7⟩

example : nextHop (dijkstra plan5 10 7 40) = some 20 := by decide +kernel

example := C79_next_hop plan5_causal (plan5_inTime 10) (show 40 ≠ 10 by decide)

/-- **C81**, in part, the figures of a route: its end points, when its first contact starts, the earliest
end of its contacts, and the time at which a bundle that sets out at time 0 is delivered.
(Missing: the delivery time of a bundle that sets out now.) -/
theorem C81_figures_partial {plan : List Contact} {source dest : Nat} {now : Int} (hC : Causal plan)
    (hT : InTime plan source now) {r : Route} (hr : dijkstra plan source now dest = .route r)
    (hv : r.valid = true) :
    ∃ c cs, r.hops = c :: cs ∧ r.nextNode = c.dst ∧ r.fromTime = c.start ∧ r.toNode = dest ∧
      r.bestDelivery = arrival 0 r.hops ∧ (∀ d ∈ r.hops, r.toTime ≤ d.stop) ∧
      (r.toTime = maxTime ∨ ∃ d ∈ r.hops, r.toTime = d.stop) := by
  rcases dijkstra_spec (dest := dest) hC hT with ⟨h1, _⟩ | ⟨r', h1, h2, h3, h4, h5, h6, h7⟩
  · rw [h1] at hr; cases hr; cases hv
  · rw [h1] at hr; cases hr
    cases hh : r.hops with
    | nil => exact absurd hh h2
    | cons c cs =>
      obtain ⟨a, b⟩ := h3.nextNode c cs hh
      refine ⟨c, cs, rfl, a, b, (h3.toNode h2).trans h5, ?_, ?_⟩
      · rw [h3.delivery h2, hh]
      · rw [h3.toTime h2, hh]
        have key : ∀ (l : List Contact) (t : Int),
            l.foldl (fun t c => min t c.stop) t ≤ t ∧
            (∀ d ∈ l, l.foldl (fun t c => min t c.stop) t ≤ d.stop) ∧
            (l.foldl (fun t c => min t c.stop) t = t ∨
              ∃ d ∈ l, l.foldl (fun t c => min t c.stop) t = d.stop) := by
          intro l
          induction l with
          | nil => intro t; simp
          | cons d l ih =>
            intro t
            obtain ⟨i1, i2, i3⟩ := ih (min t d.stop)
            simp only [List.foldl_cons]
            refine ⟨by omega, ?_, ?_⟩
            · intro x hx
              rcases List.mem_cons.mp hx with rfl | hx
              · omega
              · exact i2 x hx
            · rcases i3 with h | ⟨x, hx, h⟩
              · rw [h]
                rcases Int.le_total t d.stop with h' | h'
                · exact .inl (by omega)
                · exact .inr ⟨d, List.mem_cons_self .., by omega⟩
              · exact .inr ⟨x, List.mem_cons_of_mem _ hx, h⟩
        exact ⟨(key (c :: cs) maxTime).2.1, (key (c :: cs) maxTime).2.2⟩

example : ∃ r, dijkstra plan5 10 7 40 = .route r ∧ r.valid = true ∧ r.toTime = 100 := by
  refine ⟨⟨[Contact.make 10 20 0 100 100 1, Contact.make 20 30 50 150 100 2,
      Contact.make 30 40 60 200 100 1], 40, 20, 0, 100, 61, [10, 20, 20, 30, 30, 40]⟩, ?_, rfl, rfl⟩
  decide +kernel

/-- **C79**, a node has no route to itself, whatever the plan. -/
theorem C79_self {plan : List Contact} {source : Nat} {now : Int} (hC : Causal plan)
    (hT : InTime plan source now) :
    dijkstra plan source now source = .route Route.empty := by
  rcases dijkstra_spec (dest := source) hC hT with ⟨h1, _⟩ | ⟨r, h1, h2, h3, h4, h5, h6, h7⟩
  · exact h1
  · exfalso
    rcases List.eq_nil_or_concat r.hops with h | ⟨p, c, h⟩
    · exact h2 h
    · rw [List.concat_eq_append] at h
      rw [h, endNode_snoc] at h5
      rw [h, nodesOf_snoc, h5] at h6
      exact (List.nodup_append.mp h6).2.2 source (by simp [nodesOf]) source (by simp) rfl

example : dijkstra plan5 10 7 10 = .route Route.empty := C79_self plan5_causal (plan5_inTime 10)

/-- **C81 fails** for the delivery time of a route: it ignores the present time, and can be in
the past. -/
theorem C81_delivery_violated : ∃ (plan : List Contact) (source dest : Nat) (now : Int) (r : Route),
    Causal plan ∧ InTime plan source now ∧ dijkstra plan source now dest = .route r ∧
    r.valid = true ∧ r.bestDelivery < now ∧ now < arrival now r.hops := by
  refine ⟨[Contact.make 1 2 0 1000 100 1], 1, 2, 500,
    ⟨[Contact.make 1 2 0 1000 100 1], 2, 2, 0, 1000, 1, [1, 2]⟩, ?_, ?_, ?_, ?_, ?_, ?_⟩
  · unfold Causal; decide +kernel
  · exact inTime_of_bounds (by decide) (by decide) (by decide +kernel)
  · decide +kernel
  · decide +kernel
  · decide +kernel
  · decide +kernel

/-- **C79 fails** for a contact whose volume is a multiple of 2⁶⁴: the product wraps to zero and
the contact is not used (here: 2⁴⁰ bits per second for 2²⁴ seconds). -/
theorem C79_volume_violated :
    dijkstra [Contact.make 1 2 0 (2 ^ 24) (2 ^ 40) 1] 1 5 2 = .route Route.empty ∧
    nextHop (dijkstra [Contact.make 1 2 0 (2 ^ 24) (2 ^ 40 - 1) 1] 1 5 2) = some 2 := by
  decide +kernel

/-- **C79 fails** for a plan with a negative light time: the search settles a contact before the
better way to it has been looked at. -/
theorem C79_negative_violated : ∃ (plan : List Contact) (cs : List Contact) (r : Route),
    InTime plan 1 0 ∧ dijkstra plan 1 0 3 = .route r ∧ Journey plan 1 0 cs ∧
    endNode 1 cs = 3 ∧ arrival 0 cs < arrival 0 r.hops := by
  refine ⟨[Contact.make 1 3 0 1000 100 5, Contact.make 1 2 10 1000 100 0,
      Contact.make 2 3 0 1000 100 (-9)],
    [Contact.make 1 2 10 1000 100 0, Contact.make 2 3 0 1000 100 (-9)],
    ⟨[Contact.make 1 3 0 1000 100 5], 3, 3, 0, 1000, 5, [1, 3]⟩, ?_, ?_, ?_, ?_, ?_⟩
  · exact inTime_of_bounds (by decide) (by decide) (by decide +kernel)
  · decide +kernel
  · simp only [Journey, Usable]
    decide +kernel
  · decide +kernel
  · decide +kernel

/-- **C79 fails** for a plan whose times reach the end of `time_t`: the addition overflows. -/
theorem C79_overflow_violated :
    dijkstra [Contact.make 1 2 (maxTime - 5) maxTime 100 10] 1 0 2 = .overflow := by
  decide +kernel

end Hdtn.Cgr
