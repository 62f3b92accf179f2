import Verif.CgrMulti.Lemmas

/-!
The main loop, for a source with the smallest node number.
-/

namespace Hdtn.CgrMulti

open Hdtn.Cgr Hdtn.Cgr.Spec Spec

/-- What the arrival time of a node says about the way it was reached. -/
structure MInfo (plan : List Contact) (source : Nat) (start : Int) (s : State) (u : Nat)
    (p : List Contact) : Prop where
  arrival : s.arrival u = arrival start p
  journey : Journey plan source start p
  endNode : endNode source p = u
  nodup : (nodesOf source p).Nodup

/-- The way back from a settled node to the source. -/
inductive MChain (plan : List Contact) (source : Nat) (start : Int) (P : Nat → Prop) (s : State) :
    Nat → List Contact → Prop
  | root : MInfo plan source start s source [] → P source → MChain plan source start P s source []
  | step {u i : Nat} {c : Contact} {p : List Contact} : s.pred u = some i → plan[i]? = some c →
      c.dst = u → P u → MChain plan source start P s c.frm p →
      MInfo plan source start s u (p ++ [c]) → MChain plan source start P s u (p ++ [c])

theorem MChain.info {plan source start P s u p} (h : MChain plan source start P s u p) :
    MInfo plan source start s u p := by
  cases h <;> assumption

theorem MChain.settled {plan source start P s u p} (h : MChain plan source start P s u p) :
    ∀ x ∈ nodesOf source p, P x := by
  induction h with
  | root _ h =>
    intro x hx
    simp only [nodesOf, List.map_nil, List.mem_singleton] at hx
    subst hx
    exact h
  | step h1 h2 h3 h4 h5 h6 ih =>
    intro x hx
    rw [nodesOf_snoc, List.mem_append] at hx
    rcases hx with hx | hx
    · exact ih x hx
    · rw [List.mem_singleton] at hx
      subst hx
      rw [h3]
      exact h4

theorem MChain.mono {plan source start} {P Q : Nat → Prop} {s s' : State} {u p}
    (hPQ : ∀ x, P x → Q x)
    (hs : ∀ x, P x → s'.arrival x = s.arrival x ∧ s'.pred x = s.pred x)
    (h : MChain plan source start P s u p) : MChain plan source start Q s' u p := by
  induction h with
  | root h1 h2 =>
    exact .root ⟨by rw [(hs _ h2).1, h1.arrival], h1.journey, h1.endNode, h1.nodup⟩ (hPQ _ h2)
  | step h1 h2 h3 h4 h5 h6 ih =>
    exact .step (by rw [(hs _ h4).2, h1]) h2 h3 (hPQ _ h4) ih
      ⟨by rw [(hs _ h4).1, h6.arrival], h6.journey, h6.endNode, h6.nodup⟩

/-- A node that has been reached from a settled one. -/
def MLabelled (plan : List Contact) (source : Nat) (start : Int) (P : Nat → Prop) (s : State)
    (u : Nat) : Prop :=
  ∃ i c p, s.pred u = some i ∧ plan[i]? = some c ∧ c.dst = u ∧
    MChain plan source start P s c.frm p ∧ MInfo plan source start s u (p ++ [c])

theorem MLabelled.mono {plan source start} {P Q : Nat → Prop} {s s' : State} {u}
    (hPQ : ∀ x, P x → Q x)
    (hs : ∀ x, P x → s'.arrival x = s.arrival x ∧ s'.pred x = s.pred x)
    (hu : s'.arrival u = s.arrival u ∧ s'.pred u = s.pred u)
    (h : MLabelled plan source start P s u) : MLabelled plan source start Q s' u := by
  obtain ⟨i, c, p, h1, h2, h3, h4, h5⟩ := h
  exact ⟨i, c, p, by rw [hu.2, h1], h2, h3, h4.mono hPQ hs,
    ⟨by rw [hu.1, h5.arrival], h5.journey, h5.endNode, h5.nodup⟩⟩

/-- The invariant.  `P`: the settled nodes; `R`: those all of whose neighbours have been looked
at. -/
structure MInv (plan : List Contact) (source : Nat) (start : Int) (dest : Nat) (P R : Nat → Prop)
    (s : State) : Prop where
  rootChain : MChain plan source start P s source []
  rootPred : s.pred source = none
  each : ∀ u, u ≠ source → (s.arrival u = maxTime ∧ s.pred u = none) ∨
    MLabelled plan source start P s u
  sorted : ∀ x u, P x → ¬ P u → s.arrival x ≤ s.arrival u
  looked : ∀ x, R x → P x
  seen : ∀ x, R x → ∀ c ∈ plan, c.frm = x → s.arrival x < c.stop →
    s.arrival c.dst ≤ arrive (s.arrival x) c
  queued : ∀ u ∈ vertices plan dest, ¬ P u → (s.arrival u, u) ∈ s.queue
  late : ∀ e ∈ s.queue, e.2 ∈ vertices plan dest ∧ s.arrival e.2 ≤ e.1

theorem mem_vertices {plan : List Contact} {dest u : Nat} :
    u ∈ vertices plan dest ↔ u = dest ∨ ∃ c ∈ plan, c.frm = u := by
  simp [vertices]

theorem mem_neighbours {plan : List Contact} {a u : Nat} :
    u ∈ neighbours plan a ↔ ∃ c ∈ plan, c.frm = a ∧ c.dst = u := by
  simp [neighbours, and_assoc]

theorem dst_vertex {plan : List Contact} {dest : Nat} (h : NoDeadEnd plan dest) {c : Contact}
    (hc : c ∈ plan) : c.dst ∈ vertices plan dest := by
  rw [mem_vertices]
  exact h c hc

theorem MInv.le_max {plan source start dest P R s} (hg : Good plan source start dest)
    (inv : MInv plan source start dest P R s) (u : Nat) : s.arrival u ≤ maxTime := by
  by_cases hu : u = source
  · subst hu
    have := inv.rootChain.info
    rw [this.arrival]
    exact Int.le_of_lt (hg.inTime.2 [] trivial)
  · rcases inv.each u hu with h | ⟨i, c, p, _, _, _, _, h⟩
    · rw [h.1]
    · rw [h.arrival]
      exact Int.le_of_lt (hg.inTime.2 _ h.journey)

/-- The cursor stands on node `v`, the last one settled. -/
structure MAt (plan : List Contact) (source : Nat) (start : Int) (P : Nat → Prop) (v : Nat)
    (s : State) : Prop where
  settled : ∀ x, P x ↔ s.visited x = true ∨ x = v
  latest : ∀ x, P x → s.arrival x ≤ s.arrival v
  way : s.arrival v = maxTime ∨ ∃ p, MChain plan source start P s v p

theorem put_same {α : Type} (f : Nat → α) (k : Nat) (x : α) : put f k x k = x := by simp [put]

theorem put_ne {α : Type} (f : Nat → α) {k n : Nat} (x : α) (h : n ≠ k) : put f k x n = f n := by
  simp [put, h]

/-- Looking at one neighbour of the node under the cursor. -/
theorem MInv.relax {plan source start dest P R v s} (hg : Good plan source start dest)
    (inv : MInv plan source start dest P R s) (hat : MAt plan source start P v s) {u : Nat}
    (hu : u ∈ neighbours plan v) :
    ∃ s', CgrMulti.relax plan dest v s u = .go s' ∧ MInv plan source start dest P R s' ∧
      MAt plan source start P v s' ∧
      (∀ c ∈ plan, c.frm = v → c.dst = u → s'.arrival v < c.stop →
        s'.arrival u ≤ arrive (s'.arrival v) c) ∧
      (∀ x, s'.arrival x ≤ s.arrival x) ∧ s'.arrival v = s.arrival v ∧
      s'.visited = s.visited ∧ s'.queue.length ≤ s.queue.length + 1 := by
  obtain ⟨c0, hc0, hf0, hd0⟩ := mem_neighbours.mp hu
  have huv : u ∈ vertices plan dest := hd0 ▸ dst_vertex hg.noDeadEnd hc0
  have hvP : P v := (hat.settled v).mpr (.inr rfl)
  simp only [CgrMulti.relax]
  rw [if_neg (fun h => h huv)]
  by_cases hvis : s.visited u = true
  · rw [if_pos hvis]
    refine ⟨s, rfl, inv, hat, ?_, fun _ => Int.le_refl _, rfl, rfl, by omega⟩
    intro c hc _ hd _
    exact Int.le_trans (hat.latest u ((hat.settled u).mpr (.inl hvis)))
      (le_arrive (hg.causal c hc))
  rw [if_neg hvis]
  obtain ⟨l, e, ho, hl⟩ := links_spec hg.separate hg.proper v u
  rw [e]
  obtain ⟨i0, hi0⟩ := List.mem_iff_getElem?.mp hc0
  have hc0l : (c0, i0) ∈ l := (hl (c0, i0)).mpr ⟨hi0, hf0, hd0⟩
  obtain ⟨last, hlast⟩ : ∃ last, l.getLast? = some last := by
    cases hll : l.getLast? with
    | none => rw [List.getLast?_eq_none_iff] at hll; subst hll; cases hc0l
    | some x => exact ⟨x, rfl⟩
  have hlm : last ∈ l := by
    obtain ⟨q, rfl⟩ := List.getLast?_eq_some_iff.mp hlast
    simp
  obtain ⟨hl1, hl2, hl3⟩ := (hl last).mp hlm
  obtain ⟨best, eb, hbm, hbb, hbl⟩ :=
    searchLink_spec hg.separate hg.proper ho hl hlast (s.arrival v)
  obtain ⟨hb1, hb2, hb3⟩ := (hl best).mp hbm
  have hbp : best.1 ∈ plan := List.mem_of_getElem? hb1
  have hbo := hg.causal _ hbp
  simp only [hlast]
  -- what is known about contacts from `v` to `u`
  have hin : ∀ c ∈ plan, c.frm = v → c.dst = u → ∃ i, (c, i) ∈ l := by
    intro c hc h1 h2
    obtain ⟨i, hi⟩ := List.mem_iff_getElem?.mp hc
    exact ⟨i, (hl (c, i)).mpr ⟨hi, h1, h2⟩⟩
  by_cases hsk : last.1.stop < s.arrival v ∧ s.arrival v ≠ maxTime
  · rw [if_pos hsk]
    refine ⟨s, rfl, inv, hat, ?_, fun _ => Int.le_refl _, rfl, rfl, by omega⟩
    intro c hc h1 h2 h3
    obtain ⟨i, hi⟩ := hin c hc h1 h2
    have := hbl _ hi
    simp only at this
    omega
  rw [if_neg hsk, eb]
  simp only
  rw [if_neg (by omega)]
  rcases hat.way with hmax | ⟨p0, hch⟩
  · -- nothing has reached `v`
    have hbst := hg.proper _ hbp
    have ht : ¬ (if max best.1.start (s.arrival v) ≤ maxTime - best.1.owlt then
        max best.1.start (s.arrival v) + best.1.owlt else max best.1.start (s.arrival v)) <
        s.arrival u := by
      have := inv.le_max hg u
      split <;> omega
    rw [if_neg ht]
    refine ⟨s, rfl, inv, hat, ?_, fun _ => Int.le_refl _, rfl, rfl, by omega⟩
    intro c hc h1 h2 h3
    have := hg.proper c hc
    omega
  · have i0 := hch.info
    have hvlt : s.arrival v < maxTime := by
      rw [i0.arrival]; exact hg.inTime.2 _ i0.journey
    have hlastlt : s.arrival v < last.1.stop := by
      have h1 : s.arrival v ≠ last.1.stop := by
        rw [i0.arrival]
        exact hg.noTie p0 i0.journey last.1 (List.mem_of_getElem? hl1) (by rw [hl2, i0.endNode])
      have h2 : ¬ last.1.stop < s.arrival v := fun h => hsk ⟨h, by omega⟩
      omega
    obtain ⟨hbs, hbe⟩ := hbb hlastlt
    have hjn : Journey plan source start (p0 ++ [best.1]) := by
      refine (journey_snoc _ _ _ _ _).mpr ⟨i0.journey, hbp, hg.usable _ hbp, ?_, ?_⟩
      · rw [hb2, i0.endNode]
      · rw [← i0.arrival]; exact hbs
    have hjt := hg.inTime.2 _ hjn
    rw [arrival_snoc, ← i0.arrival] at hjt
    have htt : (if max best.1.start (s.arrival v) ≤ maxTime - best.1.owlt then
        max best.1.start (s.arrival v) + best.1.owlt else max best.1.start (s.arrival v)) =
        arrive (s.arrival v) best.1 := by
      unfold arrive at hjt ⊢
      split <;> omega
    rw [htt]
    have hge : s.arrival v ≤ arrive (s.arrival v) best.1 := le_arrive hbo
    have hseenNow : ∀ c ∈ plan, c.frm = v → c.dst = u → s.arrival v < c.stop →
        arrive (s.arrival v) best.1 ≤ arrive (s.arrival v) c := by
      intro c hc h1 h2 h3
      obtain ⟨i, hi⟩ := hin c hc h1 h2
      exact hbe _ hi h3
    by_cases hlt : arrive (s.arrival v) best.1 < s.arrival u
    · rw [if_pos hlt]
      have huv' : u ≠ v := by rintro rfl; omega
      have hnP : ¬ P u := by
        rw [hat.settled]
        rintro (h | h)
        · exact hvis h
        · exact huv' h
      have hne : ∀ x, P x → x ≠ u := fun x hx he => hnP (he ▸ hx)
      have hPs : P source := inv.rootChain.settled _ (by simp [nodesOf])
      let s' : State := { s with
        arrival := put s.arrival u (arrive (s.arrival v) best.1)
        pred := put s.pred u (some best.2)
        queue := (arrive (s.arrival v) best.1, u) :: s.queue }
      have ha : ∀ x, x ≠ u → s'.arrival x = s.arrival x := fun x hx => put_ne _ _ hx
      have hp : ∀ x, x ≠ u → s'.pred x = s.pred x := fun x hx => put_ne _ _ hx
      have hau : s'.arrival u = arrive (s.arrival v) best.1 := put_same _ _ _
      have hpu : s'.pred u = some best.2 := put_same _ _ _
      have hsame : ∀ x, P x → s'.arrival x = s.arrival x ∧ s'.pred x = s.pred x :=
        fun x hx => ⟨ha x (hne x hx), hp x (hne x hx)⟩
      have hle : ∀ x, s'.arrival x ≤ s.arrival x := by
        intro x
        by_cases hx : x = u
        · subst hx; rw [hau]; exact Int.le_of_lt hlt
        · rw [ha x hx]
      have hav : s'.arrival v = s.arrival v := ha v (hne v hvP)
      have hunot : u ∉ nodesOf source p0 := fun h => hnP (hch.settled u h)
      have hlab : MLabelled plan source start P s' u := by
        refine ⟨best.2, best.1, p0, hpu, hb1, hb3, ?_, ?_, hjn, ?_, ?_⟩
        · rw [hb2]; exact hch.mono (fun _ h => h) hsame
        · rw [hau, arrival_snoc, i0.arrival]
        · rw [endNode_snoc, hb3]
        · rw [nodesOf_snoc, hb3]
          exact List.nodup_append.mpr ⟨i0.nodup, by simp, by
            intro a ha' b hb' hab
            rw [List.mem_singleton] at hb'
            exact hunot (by rw [← hb', ← hab]; exact ha')⟩
      refine ⟨s', rfl, ⟨inv.rootChain.mono (fun _ h => h) hsame,
        by rw [hp source (hne source hPs)]; exact inv.rootPred, ?_, ?_, inv.looked, ?_, ?_, ?_⟩, ⟨?_, ?_, ?_⟩,
        ?_, hle, hav, rfl, ?_⟩
      · intro x hx
        by_cases hxu : x = u
        · subst hxu; exact .inr hlab
        · rcases inv.each x hx with h | h
          · left; rw [ha x hxu, hp x hxu]; exact h
          · exact .inr (h.mono (fun _ h => h) hsame ⟨ha x hxu, hp x hxu⟩)
      · intro x y hx hy
        rw [ha x (hne x hx)]
        by_cases hyu : y = u
        · subst hyu
          rw [hau]
          exact Int.le_trans (hat.latest x hx) hge
        · rw [ha y hyu]; exact inv.sorted x y hx hy
      · intro x hx c hc hcx hst
        have hxu : x ≠ u := hne x (inv.looked x hx)
        rw [ha x hxu] at hst ⊢
        exact Int.le_trans (hle _) (inv.seen x hx c hc hcx hst)
      · intro x hx hxP
        by_cases hxu : x = u
        · subst hxu
          rw [hau]
          exact List.mem_cons_self ..
        · rw [ha x hxu]
          exact List.mem_cons_of_mem _ (inv.queued x hx hxP)
      · intro x hx
        rcases List.mem_cons.mp hx with rfl | hx
        · exact ⟨huv, by rw [hau]⟩
        · obtain ⟨h1, h2⟩ := inv.late x hx
          exact ⟨h1, Int.le_trans (hle _) h2⟩
      · exact hat.settled
      · intro x hx
        rw [hav, ha x (hne x hx)]
        exact hat.latest x hx
      · exact .inr ⟨p0, hch.mono (fun _ h => h) hsame⟩
      · intro c hc h1 h2 h3
        rw [hav] at h3 ⊢
        rw [hau]
        exact hseenNow c hc h1 h2 h3
      · simp [s']
    · rw [if_neg hlt]
      refine ⟨s, rfl, inv, hat, ?_, fun _ => Int.le_refl _, rfl, rfl, by omega⟩
      intro c hc h1 h2 h3
      have := hseenNow c hc h1 h2 h3
      omega

theorem MInv.relaxAll {plan source start dest P R v} (hg : Good plan source start dest)
    (us : List Nat) (hus : ∀ u ∈ us, u ∈ neighbours plan v) {s : State}
    (inv : MInv plan source start dest P R s) (hat : MAt plan source start P v s) :
    ∃ s', CgrMulti.relaxAll plan dest v us s = .go s' ∧ MInv plan source start dest P R s' ∧
      MAt plan source start P v s' ∧
      (∀ c ∈ plan, c.frm = v → c.dst ∈ us → s'.arrival v < c.stop →
        s'.arrival c.dst ≤ arrive (s'.arrival v) c) ∧
      (∀ x, s'.arrival x ≤ s.arrival x) ∧ s'.arrival v = s.arrival v ∧
      s'.visited = s.visited ∧ s'.queue.length ≤ s.queue.length + us.length := by
  induction us generalizing s with
  | nil =>
    exact ⟨s, rfl, inv, hat, by simp, fun _ => Int.le_refl _, rfl, rfl, by simp⟩
  | cons u us ih =>
    obtain ⟨s1, e1, i1, a1, n1, m1, v1, vi1, q1⟩ := inv.relax hg hat (hus u (List.mem_cons_self ..))
    obtain ⟨s2, e2, i2, a2, n2, m2, v2, vi2, q2⟩ :=
      ih (fun x hx => hus x (List.mem_cons_of_mem _ hx)) i1 a1
    refine ⟨s2, ?_, i2, a2, ?_, fun x => Int.le_trans (m2 x) (m1 x), v2.trans v1, vi2.trans vi1,
      by rw [List.length_cons]; omega⟩
    · simp only [CgrMulti.relaxAll, e1]
      exact e2
    · intro c hc hf hd hst
      rcases List.mem_cons.mp hd with hd | hd
      · rw [v2] at hst ⊢
        have := n1 c hc hf hd hst
        rw [hd]
        exact Int.le_trans (m2 u) this
      · exact n2 c hc hf hd hst

/-- Looking again at a neighbour of a node all of whose neighbours have been looked at changes
nothing. -/
theorem relax_again {plan source start dest P R v s} (hg : Good plan source start dest)
    (inv : MInv plan source start dest P R s) (hR : R v) {u : Nat} (hu : u ∈ neighbours plan v) :
    CgrMulti.relax plan dest v s u = .go s := by
  obtain ⟨c0, hc0, hf0, hd0⟩ := mem_neighbours.mp hu
  have huv : u ∈ vertices plan dest := hd0 ▸ dst_vertex hg.noDeadEnd hc0
  simp only [CgrMulti.relax]
  rw [if_neg (fun h => h huv)]
  by_cases hvis : s.visited u = true
  · rw [if_pos hvis]
  rw [if_neg hvis]
  obtain ⟨l, e, ho, hl⟩ := links_spec hg.separate hg.proper v u
  rw [e]
  obtain ⟨i0, hi0⟩ := List.mem_iff_getElem?.mp hc0
  have hc0l : (c0, i0) ∈ l := (hl (c0, i0)).mpr ⟨hi0, hf0, hd0⟩
  obtain ⟨last, hlast⟩ : ∃ last, l.getLast? = some last := by
    cases hll : l.getLast? with
    | none => rw [List.getLast?_eq_none_iff] at hll; subst hll; cases hc0l
    | some x => exact ⟨x, rfl⟩
  obtain ⟨best, eb, hbm, hbb, hbl⟩ :=
    searchLink_spec hg.separate hg.proper ho hl hlast (s.arrival v)
  obtain ⟨hb1, hb2, hb3⟩ := (hl best).mp hbm
  have hbp : best.1 ∈ plan := List.mem_of_getElem? hb1
  have hbo := hg.causal _ hbp
  have hlm : last ∈ l := by
    obtain ⟨q, rfl⟩ := List.getLast?_eq_some_iff.mp hlast
    simp
  obtain ⟨hl1, hl2, hl3⟩ := (hl last).mp hlm
  simp only [hlast]
  by_cases hsk : last.1.stop < s.arrival v ∧ s.arrival v ≠ maxTime
  · rw [if_pos hsk]
  rw [if_neg hsk, eb]
  simp only
  rw [if_neg (by omega)]
  have hum := inv.le_max hg u
  have hvm := inv.le_max hg v
  refine if_neg ?_
  by_cases hmax : s.arrival v = maxTime
  · have := hg.proper _ hbp
    split <;> omega
  · have hway : ∃ p, MInfo plan source start s v p := by
      by_cases hvs : v = source
      · subst hvs; exact ⟨[], inv.rootChain.info⟩
      · rcases inv.each v hvs with h | ⟨i, c, p, _, _, _, _, h⟩
        · exact absurd h.1 hmax
        · exact ⟨_, h⟩
    obtain ⟨p0, i0⟩ := hway
    have hlastlt : s.arrival v < last.1.stop := by
      have h1 : s.arrival v ≠ last.1.stop := by
        rw [i0.arrival]
        exact hg.noTie p0 i0.journey last.1 (List.mem_of_getElem? hl1) (by rw [hl2, i0.endNode])
      have h2 : ¬ last.1.stop < s.arrival v := fun h => hsk ⟨h, hmax⟩
      omega
    obtain ⟨hbs, _⟩ := hbb hlastlt
    have hs := inv.seen v hR best.1 hbp hb2 hbs
    have hjt := hg.inTime.2 (p0 ++ [best.1]) ((journey_snoc _ _ _ _ _).mpr
      ⟨i0.journey, hbp, hg.usable _ hbp, by rw [hb2, i0.endNode], by rw [← i0.arrival]; exact hbs⟩)
    rw [arrival_snoc, ← i0.arrival] at hjt
    rw [hb3] at hs
    unfold arrive at hs hjt
    split <;> omega

theorem relaxAll_again {plan source start dest P R v s} (hg : Good plan source start dest)
    (inv : MInv plan source start dest P R s) (hR : R v) (us : List Nat)
    (hus : ∀ u ∈ us, u ∈ neighbours plan v) : CgrMulti.relaxAll plan dest v us s = .go s := by
  induction us with
  | nil => rfl
  | cons u us ih =>
    simp only [CgrMulti.relaxAll, relax_again hg inv hR (hus u (List.mem_cons_self ..))]
    exact ih (fun x hx => hus x (List.mem_cons_of_mem _ hx))

/-- What is still to be done. -/
def weight (plan : List Contact) (visited : Nat → Bool) (l : List Nat) : Nat :=
  (l.map (fun v => if visited v then 0 else (neighbours plan v).length)).sum

theorem weight_put (plan : List Contact) (visited : Nat → Bool) (v : Nat) (l : List Nat)
    (hn : l.Nodup) :
    weight plan (put visited v true) l +
      (if v ∈ l ∧ visited v = false then (neighbours plan v).length else 0) =
      weight plan visited l := by
  induction l with
  | nil => simp [weight]
  | cons a l ih =>
    obtain ⟨h1, h2⟩ := List.nodup_cons.mp hn
    have ih := ih h2
    simp only [weight, List.map_cons, List.sum_cons] at ih ⊢
    by_cases hav : a = v
    · subst hav
      rw [if_neg (fun h => h1 h.1)] at ih
      simp only [put_same, List.mem_cons_self, true_and, if_true]
      rcases Bool.eq_false_or_eq_true (visited a) with hb | hb
      · simp only [hb, if_true, Bool.true_eq_false, if_false]
        omega
      · simp only [hb, if_true, Bool.false_eq_true, if_false]
        omega
    · rw [put_ne visited true hav]
      have : (v ∈ a :: l ∧ visited v = false) ↔ (v ∈ l ∧ visited v = false) := by
        rw [List.mem_cons]
        constructor
        · rintro ⟨h | h, h'⟩
          · exact absurd h.symm hav
          · exact ⟨h, h'⟩
        · rintro ⟨h, h'⟩; exact ⟨.inr h, h'⟩
      rw [if_congr this rfl rfl]
      omega

theorem weight_visited (plan : List Contact) (visited : Nat → Bool) (v : Nat) (l : List Nat)
    (hv : visited v = true) : put visited v true = visited := by
  funext n
  unfold put
  split
  · rename_i h; rw [h, hv]
  · rfl

theorem MInv.congr {plan source start dest P R s} (inv : MInv plan source start dest P R s)
    {s' : State} (ha : s'.arrival = s.arrival) (hp : s'.pred = s.pred)
    (hq : ∀ u ∈ vertices plan dest, ¬ P u → (s.arrival u, u) ∈ s.queue →
      (s.arrival u, u) ∈ s'.queue)
    (hl : ∀ e ∈ s'.queue, e ∈ s.queue) : MInv plan source start dest P R s' := by
  have hs : ∀ x, P x → s'.arrival x = s.arrival x ∧ s'.pred x = s.pred x :=
    fun x _ => ⟨by rw [ha], by rw [hp]⟩
  refine ⟨inv.rootChain.mono (fun _ h => h) hs, by rw [hp]; exact inv.rootPred, ?_, ?_, inv.looked, ?_, ?_, ?_⟩
  · intro u hu
    rcases inv.each u hu with h | h
    · left; rw [ha, hp]; exact h
    · exact .inr (h.mono (fun _ h => h) hs ⟨by rw [ha], by rw [hp]⟩)
  · rw [ha]; exact inv.sorted
  · rw [ha]; exact inv.seen
  · intro u hu hP
    rw [ha]
    exact hq u hu hP (inv.queued u hu hP)
  · intro e he
    rw [ha]
    exact inv.late e (hl e he)

/-- The main loop comes to the destination, and then no node that is not settled is reached
earlier. -/
theorem run_spec {plan source start dest} (hg : Good plan source start dest)
    (hds : dest ≠ source) (fuel v : Nat) (P R : Nat → Prop) (s : State)
    (inv : MInv plan source start dest P R s)
    (hcase : (s.visited v = true ∧ (∀ x, P x ↔ s.visited x = true) ∧ (∀ x, P x → R x)) ∨
      (s.visited v = false ∧ MAt plan source start P v s ∧ (∀ x, P x → R x ∨ x = v)))
    (hv : v ∈ vertices plan dest) (hvd : v ≠ dest) (hdP : ¬ P dest)
    (hfuel : s.queue.length + weight plan s.visited (vertices plan dest) < fuel) :
    ∃ s' Q, run plan dest fuel v s = .go s' ∧ ¬ Q dest ∧
      (∃ k, MInv plan source start dest Q Q { s' with queue := k }) ∧
      ∀ u, ¬ Q u → s'.arrival dest ≤ s'.arrival u := by
  have hnd : (vertices plan dest).Nodup := List.nodup_dedup _
  induction fuel generalizing v P R s with
  | zero => omega
  | succ fuel ih =>
    -- in both cases, the state after the neighbours
    have hmid : ∃ s1, CgrMulti.relaxAll plan dest v (neighbours plan v) s = .go s1 ∧
        MInv plan source start dest P P s1 ∧
        (∀ x, P x ↔ put s1.visited v true x = true) ∧
        s1.queue.length + weight plan (put s1.visited v true) (vertices plan dest) ≤
          s.queue.length + weight plan s.visited (vertices plan dest) := by
      rcases hcase with ⟨hvis, hPv, hPR⟩ | ⟨hvis, hat, hPR⟩
      · refine ⟨s, relaxAll_again hg inv (hPR v ((hPv v).mpr hvis)) _ (fun _ h => h), ?_, ?_, ?_⟩
        · exact ⟨inv.rootChain, inv.rootPred, inv.each, inv.sorted, fun _ h => h,
            fun x hx => inv.seen x (hPR x hx), inv.queued, inv.late⟩
        · intro x
          rw [weight_visited plan _ v [] hvis]
          exact hPv x
        · rw [weight_visited plan _ v [] hvis]
      · obtain ⟨s1, e1, i1, a1, n1, m1, v1, vi1, q1⟩ :=
          inv.relaxAll hg (neighbours plan v) (fun _ h => h) hat
        refine ⟨s1, e1, ⟨i1.rootChain, i1.rootPred, i1.each, i1.sorted, fun _ h => h, ?_, i1.queued, i1.late⟩,
          ?_, ?_⟩
        · intro x hx c hc hcx hst
          rcases hPR x hx with h | h
          · exact i1.seen x h c hc hcx hst
          · subst h
            exact n1 c hc hcx (mem_neighbours.mpr ⟨c, hc, hcx, rfl⟩) hst
        · intro x
          rw [a1.settled]
          unfold put
          by_cases hx : x = v
          · simp [hx]
          · simp [hx]
        · have hw := weight_put plan s.visited v _ hnd
          rw [vi1]
          rw [if_pos ⟨hv, hvis⟩] at hw
          omega
    obtain ⟨s1, e1, i1, hP1, hw1⟩ := hmid
    have hdv : dest ∈ vertices plan dest := mem_vertices.mpr (.inl rfl)
    have hdq := i1.queued dest hdv hdP
    have hPs : P source := i1.rootChain.settled _ (by simp [nodesOf])
    simp only [run, e1, pop]
    cases ht : top s1.queue with
    | none => rw [top_none ht] at hdq; cases hdq
    | some x =>
      obtain ⟨k, y⟩ := x
      obtain ⟨hxq, hmin⟩ := top_some ht
      obtain ⟨hyv, hyk⟩ := i1.late _ hxq
      simp only at hyv hyk hmin
      -- the key of a node that is not settled is its arrival time
      have hkey : ¬ P y → k = s1.arrival y ∧ ∀ u, ¬ P u → s1.arrival y ≤ s1.arrival u := by
        intro hy
        have hk : k = s1.arrival y := by
          have := hmin _ (i1.queued y hyv hy)
          simp only at this
          omega
        refine ⟨hk, fun u hu => ?_⟩
        by_cases huv : u ∈ vertices plan dest
        · have := hmin _ (i1.queued u huv hu)
          simp only at this
          omega
        · have hus : u ≠ source := fun h => hu (h ▸ hPs)
          rcases i1.each u hus with h | ⟨i, c, p, _, h2, h3, _, _⟩
          · rw [h.1]; exact i1.le_max hg y
          · exact absurd (h3 ▸ dst_vertex hg.noDeadEnd (List.mem_of_getElem? h2)) huv
      simp only
      by_cases hyd : y = dest
      · subst hyd
        rw [if_pos rfl]
        refine ⟨_, P, rfl, hdP, ⟨s1.queue, i1.congr rfl rfl (fun _ _ _ h => h) (fun _ h => h)⟩, ?_⟩
        exact (hkey hdP).2
      · rw [if_neg hyd]
        have hlen : (s1.queue.erase (k, y)).length + 1 = s1.queue.length := by
          rw [List.length_erase_of_mem hxq]
          have := List.length_pos_of_mem hxq
          omega
        by_cases hyP : P y
        · refine ih y P P _ (i1.congr rfl rfl ?_ ?_) (.inl ⟨(hP1 y).mp hyP, hP1, fun _ h => h⟩)
            hyv hyd hdP ?_
          · intro u _ hu hm
            refine (List.mem_erase_of_ne ?_).mpr hm
            rintro ⟨⟩
            exact hu hyP
          · intro e he; exact List.mem_of_mem_erase he
          · simp only
            omega
        · obtain ⟨hk, hfirst⟩ := hkey hyP
          let Q : Nat → Prop := fun x => P x ∨ x = y
          have hPQ : ∀ x, P x → Q x := fun x h => .inl h
          have hys : y ≠ source := fun h => hyP (h ▸ hPs)
          let s3 : State := ⟨s1.arrival, put s1.visited v true, s1.pred, s1.queue.erase (k, y)⟩
          have hsame : ∀ x, P x → s3.arrival x = s1.arrival x ∧ s3.pred x = s1.pred x :=
            fun _ _ => ⟨rfl, rfl⟩
          have iQ : MInv plan source start dest Q P s3 := by
            refine ⟨i1.rootChain.mono hPQ hsame, i1.rootPred, ?_, ?_, hPQ, i1.seen, ?_, ?_⟩
            · intro u hu
              rcases i1.each u hu with h | h
              · exact .inl h
              · exact .inr (h.mono hPQ hsame ⟨rfl, rfl⟩)
            · rintro x u (hx | rfl) hu
              · exact i1.sorted x u hx (fun h => hu (.inl h))
              · exact hfirst u (fun h => hu (.inl h))
            · intro u hu hQ
              refine (List.mem_erase_of_ne ?_).mpr (i1.queued u hu (fun h => hQ (.inl h)))
              intro he
              exact hQ (.inr (congrArg Prod.snd he))
            · intro e he
              exact i1.late e (List.mem_of_mem_erase he)
          have aQ : MAt plan source start Q y s3 := by
            refine ⟨?_, ?_, ?_⟩
            · intro x; simp only [Q, s3, hP1]
            · rintro x (hx | rfl)
              · exact i1.sorted x y hx hyP
              · exact Int.le_refl _
            · rcases i1.each y hys with h | ⟨i, c, p, h1, h2, h3, h4, h5⟩
              · exact .inl h.1
              · exact .inr ⟨p ++ [c], .step h1 h2 h3 (.inr rfl) (h4.mono hPQ hsame)
                  ⟨h5.arrival, h5.journey, h5.endNode, h5.nodup⟩⟩
          have hyvis : s3.visited y = false := by
            have := mt (hP1 y).mpr hyP
            simpa [s3] using this
          refine ih y Q P s3 iQ (.inr ⟨hyvis, aQ, fun x h => h⟩) hyv hyd ?_ ?_
          · rintro (h | h)
            · exact hdP h
            · exact hyd h.symm
          · simp only [s3]
            omega

/-- Whatever a journey reaches before the destination is reached, is settled, and reached no
later. -/
theorem settled_in_time {plan source start dest Q s} (hg : Good plan source start dest)
    (inv : MInv plan source start dest Q Q s)
    (hmin : ∀ u, ¬ Q u → s.arrival dest ≤ s.arrival u) (cs : List Contact)
    (hj : Journey plan source start cs) (hlt : arrival start cs < s.arrival dest) :
    Q (endNode source cs) ∧ s.arrival (endNode source cs) ≤ arrival start cs := by
  induction cs using List.reverseRecOn with
  | nil =>
    refine ⟨inv.rootChain.settled _ (by simp [nodesOf, endNode]), ?_⟩
    have := inv.rootChain.info.arrival
    simp only [endNode]
    rw [this]
  | append_singleton cs c ih =>
    obtain ⟨h1, h2, h3, h4, h5⟩ := (journey_snoc _ _ _ _ _).mp hj
    rw [arrival_snoc] at hlt ⊢
    have hle : arrival start cs ≤ arrive (arrival start cs) c := le_arrive (hg.causal c h2)
    obtain ⟨a1, a2⟩ := ih h1 (by omega)
    have hs := inv.seen _ a1 c h2 h4 (by omega)
    have hm := arrive_mono c a2
    rw [endNode_snoc]
    refine ⟨?_, by omega⟩
    by_contra hn
    have := hmin _ hn
    omega

theorem chain_traceBack {plan source start P s} {u : Nat} {p : List Contact}
    (h : MChain plan source start P s u p) (hroot : s.pred source = none) (fuel : Nat)
    (hf : p.length < fuel) : traceBack plan source s.pred fuel u = some p.reverse := by
  induction h generalizing fuel with
  | root =>
    obtain ⟨n, rfl⟩ : ∃ n, fuel = n + 1 := ⟨fuel - 1, by omega⟩
    simp only [traceBack, hroot, List.reverse_nil]
  | @step u i c p h1 h2 h3 h4 h5 h6 ih =>
    rw [List.length_append, List.length_singleton] at hf
    obtain ⟨n, rfl⟩ : ∃ n, fuel = n + 1 := ⟨fuel - 1, by omega⟩
    simp only [traceBack, h1, h2]
    have hn := h6.nodup
    rw [nodesOf_snoc] at hn
    have hjs := (journey_snoc _ _ _ _ _).mp h6.journey
    have hne : c.frm ≠ c.dst := by
      intro he
      rw [hjs.2.2.2.1] at he
      exact (List.nodup_append.mp hn).2.2 _ (endNode_mem source p) c.dst (by simp) he
    rw [if_neg hne]
    by_cases hs : c.frm = source
    · rw [if_pos hs]
      rw [hs] at h5
      have hp : p = [] := by
        cases h5 with
        | root => rfl
        | step g1 _ _ _ _ _ => rw [hroot] at g1; cases g1
      rw [hp]; rfl
    · rw [if_neg hs, ih n (by omega)]
      simp

end Hdtn.CgrMulti
