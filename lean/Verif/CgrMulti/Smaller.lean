import Verif.CgrMulti.Run

/-!
Nodes with a smaller number than the source.
-/

namespace Hdtn.CgrMulti

open Hdtn.Cgr Hdtn.Cgr.Spec Spec

theorem addLink_mem {l l' : List Link} {ci x : Link} (h : addLink l ci = some l') (hx : x ∈ l') :
    x = ci ∨ x ∈ l := by
  unfold addLink at h
  cases hl : l.getLast? with
  | none =>
    rw [hl] at h
    cases h
    exact .inl (List.mem_singleton.mp hx)
  | some last =>
    rw [hl] at h
    simp only at h
    split at h
    · cases h
      rcases List.mem_append.mp hx with hx | hx
      · exact .inr hx
      · exact .inl (List.mem_singleton.mp hx)
    · cases hk : searchIndex l ci.1.start with
      | none => rw [hk] at h; cases h
      | some k =>
        rw [hk] at h
        cases h
        rcases List.mem_append.mp hx with hx | hx
        · exact .inr (List.mem_of_mem_take hx)
        · rcases List.mem_cons.mp hx with hx | hx
          · exact .inl hx
          · exact .inr (List.mem_of_mem_drop hx)

theorem addLinks_mem (cs : List Link) {l l' : List Link} {x : Link}
    (h : addLinks l cs = some l') (hx : x ∈ l') : x ∈ l ∨ x ∈ cs := by
  induction cs generalizing l with
  | nil => cases h; exact .inl hx
  | cons ci cs ih =>
    simp only [addLinks] at h
    cases h1 : addLink l ci with
    | none => rw [h1] at h; cases h
    | some l1 =>
      rw [h1] at h
      rcases ih h with h2 | h2
      · rcases addLink_mem h1 h2 with rfl | h3
        · exact .inr (List.mem_cons_self ..)
        · exact .inl h3
      · exact .inr (List.mem_cons_of_mem _ h2)

theorem links_mem {plan : List Contact} {a b : Nat} {l : List Link} {x : Link}
    (h : links plan a b = some l) (hx : x ∈ l) :
    plan[x.2]? = some x.1 ∧ x.1.frm = a ∧ x.1.dst = b := by
  rcases addLinks_mem _ h hx with h | h
  · cases h
  · obtain ⟨c, i⟩ := x
    simpa [List.mem_zipIdx_iff_getElem?] using h

theorem searchLink_mem {l : List Link} {t : Int} {x : Link} (h : searchLink l t = some x) :
    x ∈ l := by
  unfold searchLink at h
  cases hk : searchIndex l t with
  | none => rw [hk] at h; cases h
  | some k => rw [hk] at h; exact List.mem_of_getElem? h

/-- One neighbour: the state stays, or a node that is neither visited nor the current one gets an
arrival time not before that of the current node, or the search fails. -/
theorem relax_cases (plan : List Contact) (dest v : Nat) (s : State) (u : Nat) :
    (∃ r, relax plan dest v s u = .stop r ∧ nextHop r = none) ∨
    relax plan dest v s u = .go s ∨
    (u ∈ vertices plan dest ∧ s.visited u = false ∧ u ≠ v ∧ ∃ (t : Int) (c : Contact) (i : Nat),
      plan[i]? = some c ∧ c.dst = u ∧ s.arrival v ≤ t ∧ t < s.arrival u ∧
      relax plan dest v s u = .go { s with
        arrival := put s.arrival u t
        pred := put s.pred u (some i)
        queue := (t, u) :: s.queue }) := by
  simp only [relax]
  by_cases h1 : u ∉ vertices plan dest
  · rw [if_pos h1]; exact .inl ⟨_, rfl, rfl⟩
  rw [if_neg h1]
  by_cases h2 : s.visited u = true
  · rw [if_pos h2]; exact .inr (.inl rfl)
  rw [if_neg h2]
  cases hl : links plan v u with
  | none => exact .inl ⟨_, rfl, rfl⟩
  | some l =>
    simp only
    cases hg : l.getLast? with
    | none => exact .inr (.inl rfl)
    | some last =>
      simp only
      by_cases h3 : last.1.stop < s.arrival v ∧ s.arrival v ≠ maxTime
      · rw [if_pos h3]; exact .inr (.inl rfl)
      rw [if_neg h3]
      cases hb : searchLink l (s.arrival v) with
      | none => exact .inl ⟨_, rfl, rfl⟩
      | some best =>
        simp only
        by_cases h4 : best.1.owlt < 0
        · rw [if_pos h4]; exact .inl ⟨_, rfl, rfl⟩
        rw [if_neg h4]
        have hge : s.arrival v ≤ (if max best.1.start (s.arrival v) ≤ maxTime - best.1.owlt then
            max best.1.start (s.arrival v) + best.1.owlt else max best.1.start (s.arrival v)) := by
          split <;> omega
        generalize (if max best.1.start (s.arrival v) ≤ maxTime - best.1.owlt then
            max best.1.start (s.arrival v) + best.1.owlt else max best.1.start (s.arrival v)) = t
          at hge ⊢
        by_cases h5 : t < s.arrival u
        · rw [if_pos h5]
          obtain ⟨a1, a2, a3⟩ := links_mem hl (searchLink_mem hb)
          refine .inr (.inr ⟨not_not.mp h1, by simpa using h2, ?_, t, best.1, best.2, a1, a3, hge,
            h5, rfl⟩)
          rintro rfl
          omega
        · rw [if_neg h5]; exact .inr (.inl rfl)

/-- Before the source has been visited: nothing is known of any node. -/
structure Idle (plan : List Contact) (source dest : Nat) (s : State) : Prop where
  pred : ∀ u, s.pred u = none
  arrival : ∀ u, u ≠ source → s.arrival u = maxTime
  le : ∀ u, s.arrival u ≤ maxTime
  keys : ∀ e ∈ s.queue, e.1 = maxTime

/-- After: only nodes with a greater number are reached. -/
def Greater (plan : List Contact) (source : Nat) (s : State) : Prop :=
  ∀ u i, s.pred u = some i → source < u ∧ ∃ c, plan[i]? = some c ∧ c.dst = u

theorem relaxAll_idle {plan : List Contact} {source dest v : Nat} {s : State}
    (hi : Idle plan source dest s) (hv : v ≠ source) (us : List Nat) :
    (∃ r, relaxAll plan dest v us s = .stop r ∧ nextHop r = none) ∨
    relaxAll plan dest v us s = .go s := by
  induction us with
  | nil => exact .inr rfl
  | cons u us ih =>
    simp only [relaxAll]
    rcases relax_cases plan dest v s u with ⟨r, e, hr⟩ | e | ⟨_, _, _, t, _, _, _, _, h1, h2, _⟩
    · rw [e]; exact .inl ⟨r, rfl, hr⟩
    · rw [e]; exact ih
    · have := hi.arrival v hv
      have := hi.le u
      omega

theorem relaxAll_greater {plan : List Contact} {source dest v : Nat} {s : State}
    (hi : Greater plan source s)
    (hs : ∀ u ∈ vertices plan dest, u ≤ source → s.visited u = true ∨ u = v) (us : List Nat) :
    (∃ r, relaxAll plan dest v us s = .stop r ∧ nextHop r = none) ∨
    ∃ s', relaxAll plan dest v us s = .go s' ∧ Greater plan source s' ∧
      s'.visited = s.visited := by
  induction us generalizing s with
  | nil => exact .inr ⟨s, rfl, hi, rfl⟩
  | cons u us ih =>
    simp only [relaxAll]
    rcases relax_cases plan dest v s u with
      ⟨r, e, hr⟩ | e | ⟨h1, h2, h3, t, c, i, h4, h5, h6, h7, e⟩
    · rw [e]; exact .inl ⟨r, rfl, hr⟩
    · rw [e]; exact ih hi hs
    · rw [e]
      refine ih (s := { s with
        arrival := put s.arrival u t
        pred := put s.pred u (some i)
        queue := (t, u) :: s.queue }) ?_ hs
      intro x j hj
      simp only at hj
      by_cases hx : x = u
      · subst hx
        rw [put_same] at hj
        cases hj
        refine ⟨?_, c, h4, h5⟩
        by_contra hle
        rcases hs x h1 (by omega) with h | h
        · rw [h2] at h; cases h
        · exact h3 h
      · rw [put_ne _ _ hx] at hj
        exact hi x j hj

/-- However the main loop ends, only nodes with a greater number than the source are reached. -/
theorem run_greater {plan : List Contact} {source dest : Nat}
    (hsv : source ∈ vertices plan dest) (fuel v : Nat) (s : State)
    (h : (Idle plan source dest s ∧ s.visited source = false ∧
          (∀ u ∈ vertices plan dest, s.visited u = false → u = v ∨ (maxTime, u) ∈ s.queue) ∧
          (∀ u ∈ vertices plan dest, u < v → s.visited u = true)) ∨
        (Greater plan source s ∧
          ∀ u ∈ vertices plan dest, u ≤ source → s.visited u = true ∨ u = v)) :
    (∃ r, run plan dest fuel v s = .stop r ∧ nextHop r = none) ∨
    ∃ s', run plan dest fuel v s = .go s' ∧ Greater plan source s' := by
  induction fuel generalizing v s with
  | zero => exact .inl ⟨_, rfl, rfl⟩
  | succ fuel ih =>
    simp only [run]
    -- the second stage, from any state
    have stage2 : Greater plan source s →
        (∀ u ∈ vertices plan dest, u ≤ source → s.visited u = true ∨ u = v) →
        (∃ r, run plan dest (fuel + 1) v s = .stop r ∧ nextHop r = none) ∨
        ∃ s', run plan dest (fuel + 1) v s = .go s' ∧ Greater plan source s' := by
      intro hg hs
      simp only [run]
      rcases relaxAll_greater hg hs (neighbours plan v) with ⟨r, e, hr⟩ | ⟨s1, e, g1, v1⟩
      · rw [e]; exact .inl ⟨r, rfl, hr⟩
      · rw [e]
        simp only [pop]
        cases ht : top s1.queue with
        | none => exact .inl ⟨_, rfl, rfl⟩
        | some x =>
          simp only
          by_cases hx : x.2 = dest
          · rw [if_pos hx]; exact .inr ⟨_, rfl, g1⟩
          · rw [if_neg hx]
            refine ih _ _ (.inr ⟨g1, ?_⟩)
            intro u hu hle
            left
            show put s1.visited v true u = true
            rw [v1]
            rcases hs u hu hle with h | h
            · unfold put; split
              · rfl
              · exact h
            · rw [h, put_same]
    rcases h with ⟨hi, hnv, hq, hlt⟩ | ⟨hg, hs⟩
    · by_cases hv : v = source
      · subst hv
        refine stage2 ?_ ?_
        · intro u i hu; rw [hi.pred] at hu; cases hu
        · intro u hu hle
          rcases Nat.lt_or_eq_of_le hle with h | h
          · exact .inl (hlt u hu h)
          · exact .inr h
      · rcases relaxAll_idle hi hv (neighbours plan v) with ⟨r, e, hr⟩ | e
        · rw [e]; exact .inl ⟨r, rfl, hr⟩
        · rw [e]
          simp only [pop]
          cases ht : top s.queue with
          | none => exact .inl ⟨_, rfl, rfl⟩
          | some x =>
            obtain ⟨hxq, hmin⟩ := top_some ht
            have hkx := hi.keys x hxq
            simp only
            by_cases hx : x.2 = dest
            · rw [if_pos hx]
              refine .inr ⟨_, rfl, ?_⟩
              intro u i hu
              rw [show s.pred u = none from hi.pred u] at hu
              cases hu
            · rw [if_neg hx]
              refine ih _ _ (.inl ⟨⟨hi.pred, hi.arrival, hi.le, fun e he =>
                hi.keys e (List.mem_of_mem_erase he)⟩, ?_, ?_, ?_⟩)
              · show put s.visited v true source = false
                rw [put_ne _ _ (fun h => hv h.symm)]
                exact hnv
              · intro u hu hun
                have hun' : put s.visited v true u = false := hun
                by_cases huv : u = v
                · rw [huv, put_same] at hun'; cases hun'
                · rw [put_ne _ _ huv] at hun'
                  by_cases hux : u = x.2
                  · exact .inl hux
                  · refine .inr ((List.mem_erase_of_ne ?_).mpr ((hq u hu hun').resolve_left huv))
                    intro he
                    exact hux (congrArg Prod.snd he)
              · intro u hu hux
                show put s.visited v true u = true
                by_cases huv : u = v
                · rw [huv, put_same]
                · rw [put_ne _ _ huv]
                  by_contra hun
                  have := hmin _ ((hq u hu (by simpa using hun)).resolve_left huv)
                  simp only at this
                  omega
    · exact stage2 hg hs

theorem traceBack_greater {plan : List Contact} {source : Nat} {s : State}
    (h : Greater plan source s) (fuel u : Nat) {l : List Contact}
    (hl : traceBack plan source s.pred fuel u = some l) : ∀ c ∈ l, source < c.dst := by
  induction fuel generalizing u l with
  | zero => cases hl
  | succ fuel ih =>
    simp only [traceBack] at hl
    cases hp : s.pred u with
    | none => rw [hp] at hl; cases hl; simp
    | some i =>
      obtain ⟨h1, c, h2, h3⟩ := h u i hp
      rw [hp] at hl
      simp only [h2] at hl
      by_cases hfd : c.frm = c.dst
      · rw [if_pos hfd] at hl; cases hl; simp
      rw [if_neg hfd] at hl
      by_cases hfs : c.frm = source
      · rw [if_pos hfs] at hl
        cases hl
        intro d hd
        rw [List.mem_singleton] at hd
        subst hd
        omega
      · rw [if_neg hfs] at hl
        cases ht : traceBack plan source s.pred fuel c.frm with
        | none => rw [ht] at hl; cases hl
        | some l' =>
          rw [ht] at hl
          cases hl
          intro d hd
          rcases List.mem_cons.mp hd with rfl | hd
          · omega
          · exact ih c.frm ht d hd

theorem append_hops {r r' : Route} {c : Contact} (h : r.append c = some r') :
    r'.hops = r.hops ++ [c] := by
  unfold Route.append at h
  split at h
  · cases h
    unfold Route.refresh
    split <;> rfl
  · cases h

theorem appendAll_hops (l : List Contact) {r r' : Route} (h : r.appendAll l = some r') :
    r'.hops = r.hops ++ l := by
  induction l generalizing r with
  | nil => cases h; simp
  | cons c l ih =>
    simp only [Route.appendAll] at h
    cases ha : r.append c with
    | none => rw [ha] at h; cases h
    | some r1 =>
      rw [ha] at h
      rw [ih h, append_hops ha]
      simp

theorem init_idle (plan : List Contact) (dest source : Nat) {start : Int} (h : start ≤ maxTime) :
    Idle plan source dest (init plan dest source start) := by
  refine ⟨fun _ => rfl, fun u hu => put_ne (fun _ => maxTime) start hu, ?_, ?_⟩
  · intro u
    by_cases hu : u = source
    · subst hu
      show put (fun _ => maxTime) u start u ≤ maxTime
      rw [put_same]; exact h
    · show put (fun _ => maxTime) source start u ≤ maxTime
      rw [put_ne _ _ hu]
  · intro e he
    simp only [init, List.mem_map] at he
    obtain ⟨_, _, rfl⟩ := he
    rfl

/-- The whole call: what is returned, if anything. -/
theorem cmr_greater {plan : List Contact} {source dest : Nat} {start : Int}
    (hstart : start ≤ maxTime) :
    nextHop (cmrDijkstra plan source start dest) = none ∨
    ∃ s fuel back r, Greater plan source s ∧
      traceBack plan source s.pred fuel dest = some back ∧
      cmrDijkstra plan source start dest = .route r ∧ r.hops = back.reverse := by
  unfold cmrDijkstra
  by_cases hsv : source ∉ vertices plan dest
  · rw [if_pos hsv]; exact .inl rfl
  rw [if_neg hsv]
  have hsv := not_not.mp hsv
  have hidle := init_idle plan dest source hstart
  cases hp : pop (init plan dest source start).queue with
  | none => exact .inl rfl
  | some xq =>
    obtain ⟨x, q⟩ := xq
    simp only [pop] at hp
    cases ht : top (init plan dest source start).queue with
    | none => rw [ht] at hp; cases hp
    | some y =>
      rw [ht] at hp
      cases hp
      obtain ⟨hxq, hmin⟩ := top_some ht
      have hkx := hidle.keys x hxq
      have hall : ∀ u ∈ vertices plan dest, (maxTime, u) ∈ (init plan dest source start).queue := by
        intro u hu
        exact List.mem_map.mpr ⟨u, hu, rfl⟩
      have h1 : ∀ u ∈ vertices plan dest, false = false → u = x.2 ∨
          (maxTime, u) ∈ (init plan dest source start).queue.erase x := by
        intro u hu _
        by_cases hux : u = x.2
        · exact .inl hux
        · refine .inr ((List.mem_erase_of_ne ?_).mpr (hall u hu))
          intro he
          exact hux (congrArg Prod.snd he)
      have h2 : ∀ u ∈ vertices plan dest, u < x.2 → false = true := by
        intro u hu hux
        have := hmin _ (hall u hu)
        simp only at this
        omega
      simp only
      rcases run_greater hsv (turns plan dest) x.2
        { init plan dest source start with queue := (init plan dest source start).queue.erase x }
        (.inl ⟨⟨hidle.pred, hidle.arrival, hidle.le,
            fun e he => hidle.keys e (List.mem_of_mem_erase he)⟩, rfl, h1, h2⟩) with
        ⟨r, e, hr⟩ | ⟨s, e, hs⟩
      · rw [e]; exact .inl hr
      · rw [e]
        simp only
        cases htb : traceBack plan source s.pred (plan.length + 1) dest with
        | none => exact .inl rfl
        | some back =>
          simp only
          cases ha : Route.empty.appendAll back.reverse with
          | none => exact .inl rfl
          | some r =>
            exact .inr ⟨s, _, back, r, hs, htb, rfl, by rw [appendAll_hops _ ha]; rfl⟩

end Hdtn.CgrMulti
