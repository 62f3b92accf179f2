import Verif.Cgr.Lemmas
import Mathlib.Data.Finset.Card

/-!
The search keeps its invariant.
-/

namespace Hdtn.Cgr

open Spec

/-- The cursor stands on a settled contact reached by `p0`, the last one settled. -/
structure At (plan : List Contact) (source : Nat) (now : Int) (P : Ref → Prop) (cur : Cursor)
    (p0 : List Contact) (s : Search) : Prop where
  settled : ∀ r, P r ↔ (s.work r).visited = true ∨ r = cur.ref
  chain : Chain plan source now P s.work cur.ref p0
  latest : ∀ r, P r → (s.work r).arrival ≤ (s.work cur.ref).arrival
  dst : cur.dst = endNode source p0
  frm : cur.frm ∈ nodesOf source p0

theorem skip_false {cur : Cursor} {w : Work} {c : Contact} {wc : Work}
    (h : skip cur w c wc = false) :
    c.suppressed = false ∧ wc.visited = false ∧ c.dst ∉ w.nodes ∧ w.arrival < c.stop ∧
      (∃ m ∈ c.mav, m ≠ 0) := by
  simp only [skip, Bool.or_eq_false_iff] at h
  obtain ⟨⟨⟨⟨⟨h1, h2⟩, h3⟩, h4⟩, h5⟩, _⟩ := h
  refine ⟨h1, h2, ?_, ?_, ?_⟩
  · intro hm
    rw [List.contains_iff_mem.mpr hm] at h3
    cases h3
  · have := of_decide_eq_false h4
    omega
  · rw [List.all_eq_false] at h5
    obtain ⟨m, hm, hne⟩ := h5
    exact ⟨m, hm, by simpa using hne⟩

theorem skip_true {cur : Cursor} {w : Work} {c : Contact} {wc : Work}
    (h : skip cur w c wc = true) :
    ¬ Usable c ∨ wc.visited = true ∨ c.dst ∈ w.nodes ∨ ¬ w.arrival < c.stop ∨
      (cur.frm = c.dst ∧ cur.dst = c.frm) := by
  simp only [skip, Bool.or_eq_true] at h
  rcases h with ((((h | h) | h) | h) | h) | h
  · exact .inl (fun hu => by rw [hu.1] at h; cases h)
  · exact .inr (.inl h)
  · exact .inr (.inr (.inl (by simpa using h)))
  · have := of_decide_eq_true h
    exact .inr (.inr (.inr (.inl (by omega))))
  · refine .inl ?_
    rintro ⟨_, m, hm, hne⟩
    rw [List.all_eq_true] at h
    exact hne (by simpa using h m hm)
  · refine .inr (.inr (.inr (.inr ?_)))
    simpa using h

theorem setWork_same (f : Ref → Work) (r : Ref) (w : Work) : setWork f r w r = w := by
  simp [setWork]

theorem setWork_ne (f : Ref → Work) {r x : Ref} (w : Work) (h : x ≠ r) :
    setWork f r w x = f x := by
  simp [setWork, h]

theorem Inv.relax {plan source now dest P R cur p0 s} (hC : Causal plan)
    (hT : InTime plan source now) (inv : Inv plan source now dest P R s)
    (hat : At plan source now P cur p0 s) {j : Nat} {c : Contact} (hj : plan[j]? = some c)
    (hf : c.frm = cur.dst) :
    ∃ s', Cgr.relax dest cur s (c, j) = some s' ∧ Inv plan source now dest P R s' ∧
      At plan source now P cur p0 s' ∧ Seen source now s'.work p0 j c ∧
      (∀ k, (s'.work (.leg k)).arrival ≤ (s.work (.leg k)).arrival) ∧
      (∀ r, (s'.work r).visited = (s.work r).visited) := by
  have hcm : c ∈ plan := List.mem_of_getElem? hj
  have i0 := hat.chain.info
  simp only [Cgr.relax, arrivalVia_eq]
  rcases Bool.eq_false_or_eq_true (skip cur (s.work cur.ref) c (s.work (.leg j))) with hs | hs
  · rw [if_pos hs]
    refine ⟨s, rfl, inv, hat, ?_, fun _ => Int.le_refl _, fun _ => rfl⟩
    intro hu hlt
    rcases skip_true hs with h | h | h | h | h
    · exact absurd hu h
    · right
      have := hat.latest (.leg j) ((hat.settled _).mpr (.inl h))
      rw [i0.arrival] at this
      exact Int.le_trans this (le_arrive (hC c hcm))
    · left; rw [← i0.nodes]; exact h
    · rw [i0.arrival] at h; exact absurd hlt h
    · left; rw [← h.1]; exact hat.frm
  · rw [if_neg (by rw [hs]; decide)]
    obtain ⟨h1, h2, h3, h4, h5⟩ := skip_false hs
    have hu : Usable c := ⟨h1, h5⟩
    rw [i0.nodes] at h3
    rw [i0.arrival] at h4
    have hjn : Journey plan source now (p0 ++ [c]) :=
      (journey_snoc _ _ _ _ _).mpr ⟨i0.journey, hcm, hu, hf.trans hat.dst, h4⟩
    have hlt := hT.2 _ hjn
    have hge := le_arrival hC hjn
    rw [arrival_snoc] at hlt hge
    have hfit : ¬ fits (arrive (s.work cur.ref).arrival c) = false := by
      rw [i0.arrival]
      have := hT.1
      unfold fits
      rw [decide_eq_true (by omega), decide_eq_true (by omega)]
      decide
    rw [if_neg hfit]
    -- contact `j` is not settled
    have hnP : ¬ P (.leg j) := by
      intro hp
      rcases (hat.settled _).mp hp with h | h
      · rw [h2] at h; cases h
      · have hch := hat.chain
        rw [← h] at hch
        cases hch with
        | leg a1 a2 a3 a4 a5 =>
          rw [hj] at a1; cases a1
          exact h3 (by rw [nodesOf_snoc]; simp)
    have hne : ∀ r, P r → r ≠ .leg j := fun r hr he => hnP (he ▸ hr)
    by_cases ht : arrive (s.work cur.ref).arrival c ≤ (s.work (.leg j)).arrival
    · rw [if_pos ht]
      have hlj : ∀ w, w = setWork s.work (.leg j) { s.work (.leg j) with
            arrival := arrive (s.work cur.ref).arrival c
            pred := some cur.ref
            nodes := (s.work cur.ref).nodes ++ [c.dst] } →
          (∀ x, x ≠ .leg j → w x = s.work x) ∧
          (w (.leg j)).arrival = arrive (s.work cur.ref).arrival c ∧
          (w (.leg j)).pred = some cur.ref ∧
          (w (.leg j)).nodes = (s.work cur.ref).nodes ++ [c.dst] ∧
          (w (.leg j)).visited = (s.work (.leg j)).visited := by
        rintro w rfl
        refine ⟨fun x hx => setWork_ne _ _ hx, ?_⟩
        rw [setWork_same]
        exact ⟨rfl, rfl, rfl, rfl⟩
      generalize setWork s.work (.leg j) { s.work (.leg j) with
            arrival := arrive (s.work cur.ref).arrival c
            pred := some cur.ref
            nodes := (s.work cur.ref).nodes ++ [c.dst] } = w at hlj ⊢
      obtain ⟨wo, wa, wp, wn, wv⟩ := hlj w rfl
      have hsame : ∀ x, P x → (w x).arrival = (s.work x).arrival ∧ (w x).pred = (s.work x).pred ∧
          (w x).nodes = (s.work x).nodes := by
        intro x hx
        rw [wo x (hne x hx)]
        exact ⟨rfl, rfl, rfl⟩
      have hsame' : ∀ x, P x → (s.work x).arrival = (w x).arrival ∧ (s.work x).pred = (w x).pred ∧
          (s.work x).nodes = (w x).nodes := by
        intro x hx
        obtain ⟨a, b, d⟩ := hsame x hx
        exact ⟨a.symm, b.symm, d.symm⟩
      have hle : ∀ k, (w (.leg k)).arrival ≤ (s.work (.leg k)).arrival := by
        intro k
        by_cases hk : Ref.leg k = .leg j
        · rw [hk, wa]; exact ht
        · rw [wo _ hk]
      have hcP : P cur.ref := hat.chain.settled
      have hcw : w cur.ref = s.work cur.ref := wo _ (hne _ hcP)
      have hlab : Labelled plan source now P w j c := by
        refine ⟨cur.ref, p0, wp, hat.chain.mono (fun _ h => h) hsame, ?_, ?_, hjn, ?_⟩
        · rw [wn, i0.nodes, nodesOf_snoc]
        · rw [wa, arrival_snoc, i0.arrival]
        · rw [nodesOf_snoc]
          exact List.nodup_append.mpr ⟨i0.nodup, by simp, by
            intro a ha b hb hab
            simp at hb
            exact h3 (by rw [← hb, ← hab]; exact ha)⟩
      have hat' : ∀ s', s'.work = w → At plan source now P cur p0 s' := by
        intro s' hw
        refine ⟨?_, ?_, ?_, hat.dst, hat.frm⟩
        · intro r
          rw [hat.settled, hw]
          by_cases hr : r = .leg j
          · subst hr; rw [wv]
          · rw [wo r hr]
        · rw [hw]; exact hat.chain.mono (fun _ h => h) hsame
        · intro r hr
          rw [hw, hcw, wo r (hne r hr)]
          exact hat.latest r hr
      have heach : ∀ i d, plan[i]? = some d → ((w (.leg i)).arrival = maxTime ∧ ¬ P (.leg i)) ∨
          Labelled plan source now P w i d := by
        intro i d hi
        by_cases hij : Ref.leg i = .leg j
        · injection hij with hij
          subst hij
          rw [hj] at hi; cases hi
          exact .inr hlab
        · rcases inv.each i d hi with h | h
          · left; rw [wo _ hij]; exact h
          · right
            refine h.mono (fun _ h => h) hsame ?_
            rw [wo _ hij]; exact ⟨rfl, rfl, rfl⟩
      have hsorted : ∀ r i d, P r → plan[i]? = some d → ¬ P (.leg i) →
          (w r).arrival ≤ (w (.leg i)).arrival := by
        intro r i d hr hi hnp
        rw [wo r (hne r hr)]
        by_cases hij : Ref.leg i = .leg j
        · rw [hij, wa]
          exact Int.le_trans (hat.latest r hr) (le_arrive (hC c hcm))
        · rw [wo _ hij]
          exact inv.sorted r i d hr hi hnp
      have hseen : ∀ r p, R r → Chain plan source now P w r p → ∀ k d, plan[k]? = some d →
          d.frm = endNode source p → Seen source now w p k d := by
        intro r p hr hch k d hk hd hu' hlt'
        rcases inv.seen r p hr (hch.mono (fun _ h => h) hsame') k d hk hd hu' hlt' with h | h
        · exact .inl h
        · exact .inr (Int.le_trans (hle k) h)
      have hvis : ∀ r, (w r).visited = (s.work r).visited := by
        intro r
        by_cases hr : r = .leg j
        · subst hr; exact wv
        · rw [wo r hr]
      have hseenc : Seen source now w p0 j c := by
        intro _ _
        right
        rw [wa, i0.arrival]
      have hroot : Chain plan source now P w .root [] :=
        inv.rootChain.mono (fun _ h => h) hsame
      by_cases hd : c.dst = dest ∧ arrive (s.work cur.ref).arrival c < s.finTime
      · rw [if_pos hd]
        refine ⟨_, rfl, ⟨hroot, heach, hsorted, hseen, ?_, ?_, ?_, ?_⟩, hat' _ rfl, hseenc, hle,
          hvis⟩
        · intro i d hi hdd
          by_cases hij : Ref.leg i = .leg j
          · simp only [hij, wa]; exact Int.le_refl _
          · simp only [wo _ hij]
            exact Int.le_trans (Int.le_of_lt hd.2) (inv.finLe i d hi hdd)
        · exact Int.le_of_lt (Int.lt_of_lt_of_le hd.2 inv.finMax)
        · intro h; cases h
        · intro f hf'
          cases hf'
          exact ⟨c, hj, hd.1, hlab, wa⟩
      · rw [if_neg hd]
        refine ⟨_, rfl, ⟨hroot, heach, hsorted, hseen, ?_, inv.finMax, inv.finNone, ?_⟩, hat' _ rfl,
          hseenc, hle, hvis⟩
        · intro i d hi hdd
          by_cases hij : Ref.leg i = .leg j
          · injection hij with hij
            subst hij
            rw [hj] at hi; cases hi
            simp only [wa]
            by_contra hlt'
            exact hd ⟨hdd, by omega⟩
          · simp only [wo _ hij]
            exact inv.finLe i d hi hdd
        · intro f hf'
          obtain ⟨d, hd1, hd2, hd3, hd4⟩ := inv.finSome f hf'
          by_cases hij : Ref.leg f = .leg j
          · injection hij with hij
            subst hij
            rw [hj] at hd1; cases hd1
            refine ⟨c, hj, hd2, hlab, ?_⟩
            simp only [wa]
            have : ¬ arrive (s.work cur.ref).arrival c < s.finTime := fun h => hd ⟨hd2, h⟩
            omega
          · refine ⟨d, hd1, hd2, ?_, ?_⟩
            · exact hd3.mono (fun _ h => h) hsame ⟨congrArg Work.arrival (wo _ hij),
                congrArg Work.pred (wo _ hij), congrArg Work.nodes (wo _ hij)⟩
            · simp only [wo _ hij]; exact hd4
    · rw [if_neg ht]
      refine ⟨s, rfl, inv, hat, ?_, fun _ => Int.le_refl _, fun _ => rfl⟩
      intro _ _
      right
      rw [i0.arrival] at ht
      omega

theorem Inv.relaxAll {plan source now dest P R cur p0} (hC : Causal plan)
    (hT : InTime plan source now) (l : List (Contact × Nat))
    (hl : ∀ ci ∈ l, plan[ci.2]? = some ci.1 ∧ ci.1.frm = cur.dst) {s : Search}
    (inv : Inv plan source now dest P R s) (hat : At plan source now P cur p0 s) :
    ∃ s', Cgr.relaxAll dest cur l s = some s' ∧ Inv plan source now dest P R s' ∧
      At plan source now P cur p0 s' ∧ (∀ ci ∈ l, Seen source now s'.work p0 ci.2 ci.1) ∧
      (∀ k, (s'.work (.leg k)).arrival ≤ (s.work (.leg k)).arrival) ∧
      (∀ r, (s'.work r).visited = (s.work r).visited) := by
  induction l generalizing s with
  | nil => exact ⟨s, rfl, inv, hat, by simp, fun _ => Int.le_refl _, fun _ => rfl⟩
  | cons ci l ih =>
    obtain ⟨hj, hf⟩ := hl ci (List.mem_cons_self ..)
    obtain ⟨s1, e1, i1, a1, n1, m1, v1⟩ := inv.relax hC hT hat hj hf
    obtain ⟨s2, e2, i2, a2, n2, m2, v2⟩ :=
      ih (fun x hx => hl x (List.mem_cons_of_mem _ hx)) i1 a1
    refine ⟨s2, ?_, i2, a2, ?_, fun k => Int.le_trans (m2 k) (m1 k), fun r => (v2 r).trans (v1 r)⟩
    · simp only [Cgr.relaxAll]
      rw [show Cgr.relax dest cur s ci = some s1 from e1]
      exact e2
    · intro x hx
      rcases List.mem_cons.mp hx with rfl | hx
      · intro hu hlt
        rcases n1 hu hlt with h | h
        · exact .inl h
        · exact .inr (Int.le_trans (m2 _) h)
      · exact n2 x hx

theorem mem_leaving {plan : List Contact} {node : Nat} {ci : Contact × Nat} :
    ci ∈ leaving plan node ↔ plan[ci.2]? = some ci.1 ∧ ci.1.frm = node := by
  obtain ⟨c, i⟩ := ci
  simp [leaving, List.mem_zipIdx_iff_getElem?]

/-- The choice of the next contact: the first of the earliest. -/
theorem nextBest_spec (s : Search) (l : List (Contact × Nat)) (t : Int)
    (best : Option (Contact × Nat))
    (hb : ∀ ci, best = some ci → (s.work (.leg ci.2)).arrival = t ∧ ci.1.suppressed = false ∧
      (s.work (.leg ci.2)).visited = false ∧ t ≤ s.finTime) :
    (nextBest s l t best = none → best = none ∧ ∀ ci ∈ l, ci.1.suppressed = false →
        (s.work (.leg ci.2)).visited = false → (s.work (.leg ci.2)).arrival ≤ s.finTime →
        t ≤ (s.work (.leg ci.2)).arrival) ∧
    (∀ r, nextBest s l t best = some r → (best = some r ∨ r ∈ l) ∧ r.1.suppressed = false ∧
        (s.work (.leg r.2)).visited = false ∧ (s.work (.leg r.2)).arrival ≤ s.finTime ∧
        (s.work (.leg r.2)).arrival ≤ t ∧
        (best = none → (s.work (.leg r.2)).arrival < t) ∧
        ∀ ci ∈ l, ci.1.suppressed = false → (s.work (.leg ci.2)).visited = false →
          (s.work (.leg ci.2)).arrival ≤ s.finTime →
          (s.work (.leg r.2)).arrival ≤ (s.work (.leg ci.2)).arrival) := by
  induction l generalizing t best with
  | nil =>
    refine ⟨fun h => ⟨h, by simp⟩, fun r h => ?_⟩
    simp only [nextBest] at h
    obtain ⟨a, b, d, e⟩ := hb r h
    refine ⟨.inl h, b, d, by omega, by omega, ?_, by simp⟩
    intro hn; rw [hn] at h; cases h
  | cons x l ih =>
    have skipCase : (x.1.suppressed = true ∨ (s.work (.leg x.2)).visited = true ∨
          (s.work (.leg x.2)).arrival > s.finTime ∨ t ≤ (s.work (.leg x.2)).arrival) →
        nextBest s (x :: l) t best = nextBest s l t best →
        (nextBest s (x :: l) t best = none → best = none ∧ ∀ ci ∈ x :: l, ci.1.suppressed = false →
        (s.work (.leg ci.2)).visited = false → (s.work (.leg ci.2)).arrival ≤ s.finTime →
        t ≤ (s.work (.leg ci.2)).arrival) ∧
    (∀ r, nextBest s (x :: l) t best = some r → (best = some r ∨ r ∈ x :: l) ∧
        r.1.suppressed = false ∧
        (s.work (.leg r.2)).visited = false ∧ (s.work (.leg r.2)).arrival ≤ s.finTime ∧
        (s.work (.leg r.2)).arrival ≤ t ∧
        (best = none → (s.work (.leg r.2)).arrival < t) ∧
        ∀ ci ∈ x :: l, ci.1.suppressed = false → (s.work (.leg ci.2)).visited = false →
          (s.work (.leg ci.2)).arrival ≤ s.finTime →
          (s.work (.leg r.2)).arrival ≤ (s.work (.leg ci.2)).arrival) := by
      intro hx he
      rw [he]
      obtain ⟨i1, i2⟩ := ih t best hb
      refine ⟨fun h => ⟨(i1 h).1, ?_⟩, fun r h => ?_⟩
      · intro ci hci h1 h2 h3
        rcases List.mem_cons.mp hci with rfl | hci
        · rcases hx with hx | hx | hx | hx
          · rw [h1] at hx; cases hx
          · rw [h2] at hx; cases hx
          · omega
          · exact hx
        · exact (i1 h).2 ci hci h1 h2 h3
      · obtain ⟨a, b, d, e, f, g, k⟩ := i2 r h
        refine ⟨a.imp id (List.mem_cons_of_mem _), b, d, e, f, g, ?_⟩
        intro ci hci h1 h2 h3
        rcases List.mem_cons.mp hci with rfl | hci
        · rcases hx with hx | hx | hx | hx
          · rw [h1] at hx; cases hx
          · rw [h2] at hx; cases hx
          · omega
          · omega
        · exact k ci hci h1 h2 h3
    by_cases h1 : (x.1.suppressed || (s.work (.leg x.2)).visited) = true
    · refine skipCase ?_ (by simp only [nextBest]; rw [if_pos h1])
      rcases Bool.or_eq_true_iff.mp h1 with h | h
      · exact .inl h
      · exact .inr (.inl h)
    by_cases h2 : (s.work (.leg x.2)).arrival > s.finTime
    · exact skipCase (.inr (.inr (.inl h2)))
        (by simp only [nextBest]; rw [if_neg h1, if_pos h2])
    by_cases h3 : (s.work (.leg x.2)).arrival < t
    · have he : nextBest s (x :: l) t best =
          nextBest s l (s.work (.leg x.2)).arrival (some x) := by
        simp only [nextBest]; rw [if_neg h1, if_neg h2, if_pos h3]
      have h1' : x.1.suppressed = false ∧ (s.work (.leg x.2)).visited = false := by
        simpa using h1
      rw [he]
      obtain ⟨i1, i2⟩ := ih (s.work (.leg x.2)).arrival (some x) (by
        rintro ci ⟨⟩; exact ⟨rfl, h1'.1, h1'.2, by omega⟩)
      refine ⟨fun h => absurd (i1 h).1 (by simp), fun r h => ?_⟩
      obtain ⟨a, b, d, e, f, g, k⟩ := i2 r h
      refine ⟨.inr ?_, b, d, e, by omega, fun _ => by omega, ?_⟩
      · rcases a with a | a
        · cases a; exact List.mem_cons_self ..
        · exact List.mem_cons_of_mem _ a
      · intro ci hci g1 g2 g3
        rcases List.mem_cons.mp hci with rfl | hci
        · exact f
        · exact k ci hci g1 g2 g3
    · exact skipCase (.inr (.inr (.inr (by omega))))
        (by simp only [nextBest]; rw [if_neg h1, if_neg h2, if_neg h3])

/-- The contacts still to be settled. -/
def todo (plan : List Contact) (cur : Cursor) (s : Search) : Finset Nat :=
  (Finset.range plan.length).filter
    (fun i => (s.work (.leg i)).visited = false ∧ Ref.leg i ≠ cur.ref)

theorem markVisited_same (s : Search) (r x : Ref) :
    ((markVisited s r).work x).arrival = (s.work x).arrival ∧
    ((markVisited s r).work x).pred = (s.work x).pred ∧
    ((markVisited s r).work x).nodes = (s.work x).nodes ∧
    (((markVisited s r).work x).visited = true ↔ (s.work x).visited = true ∨ x = r) := by
  unfold markVisited setWork
  by_cases h : x = r
  · subst h; simp
  · simp [h]

theorem Inv.work {plan source now dest P R s} (inv : Inv plan source now dest P R s) {s' : Search}
    (hw : ∀ x, (s'.work x).arrival = (s.work x).arrival ∧ (s'.work x).pred = (s.work x).pred ∧
      (s'.work x).nodes = (s.work x).nodes) (hf : s'.final = s.final)
    (ht : s'.finTime = s.finTime) : Inv plan source now dest P R s' := by
  have hw' : ∀ x, (s.work x).arrival = (s'.work x).arrival ∧ (s.work x).pred = (s'.work x).pred ∧
      (s.work x).nodes = (s'.work x).nodes :=
    fun x => ⟨(hw x).1.symm, (hw x).2.1.symm, (hw x).2.2.symm⟩
  refine ⟨inv.rootChain.mono (fun _ h => h) (fun x _ => hw x), ?_, ?_, ?_, ?_, by
    rw [ht]; exact inv.finMax, by rw [hf, ht]; exact inv.finNone, ?_⟩
  · intro i c hi
    rcases inv.each i c hi with h | h
    · left; rw [(hw _).1]; exact h
    · exact .inr (h.mono (fun _ h => h) (fun x _ => hw x) (hw _))
  · intro r i c hr hi hn
    rw [(hw _).1, (hw _).1]
    exact inv.sorted r i c hr hi hn
  · intro r p hr hch j c hj hc hu hl
    rw [(hw _).1]
    exact inv.seen r p hr (hch.mono (fun _ h => h) (fun x _ => hw' x)) j c hj hc hu hl
  · intro i c hi hd
    rw [ht, (hw _).1]
    exact inv.finLe i c hi hd
  · intro f hff
    rw [hf] at hff
    obtain ⟨c, a1, a2, a3, a4⟩ := inv.finSome f hff
    exact ⟨c, a1, a2, a3.mono (fun _ h => h) (fun x _ => hw x) (hw _), by
      rw [(hw _).1, ht]; exact a4⟩

/-- The search ends, keeps its invariant, and leaves nothing worth looking at. -/
theorem search_spec {plan : List Contact} {source : Nat} {now : Int} {dest : Nat}
    (hC : Causal plan) (hT : InTime plan source now) (fuel : Nat) (cur : Cursor)
    (p0 : List Contact) (P R : Ref → Prop) (s : Search)
    (inv : Inv plan source now dest P R s) (hat : At plan source now P cur p0 s)
    (hR : ∀ r, P r → R r ∨ r = cur.ref) (hfuel : (todo plan cur s).card < fuel) :
    ∃ (s' : Search) (Q : Ref → Prop), search plan dest fuel cur s = .done s' ∧
      Inv plan source now dest Q Q s' ∧
      ∀ i c, plan[i]? = some c → ¬ Q (.leg i) → c.suppressed = false →
        (s'.work (.leg i)).arrival ≤ s'.finTime → maxTime ≤ (s'.work (.leg i)).arrival := by
  induction fuel generalizing cur p0 P R s with
  | zero => omega
  | succ fuel ih =>
    obtain ⟨s1, e1, i1, a1, n1, m1, v1⟩ := inv.relaxAll hC hT (leaving plan cur.dst)
      (fun ci h => mem_leaving.mp h) hat
    have mv := markVisited_same s1 cur.ref
    generalize hs2 : markVisited s1 cur.ref = s2 at mv
    have hw : ∀ x, (s2.work x).arrival = (s1.work x).arrival ∧
        (s2.work x).pred = (s1.work x).pred ∧ (s2.work x).nodes = (s1.work x).nodes :=
      fun x => ⟨(mv x).1, (mv x).2.1, (mv x).2.2.1⟩
    have hf2 : s2.final = s1.final := by rw [← hs2]; rfl
    have ht2 : s2.finTime = s1.finTime := by rw [← hs2]; rfl
    have hP2 : ∀ r, P r ↔ (s2.work r).visited = true := by
      intro r; rw [a1.settled, (mv r).2.2.2]
    have i1' : Inv plan source now dest P P s1 := by
      refine ⟨i1.rootChain, i1.each, i1.sorted, ?_, i1.finLe, i1.finMax, i1.finNone, i1.finSome⟩
      intro r p hr hch j c hj hc
      rcases hR r hr with h | h
      · exact i1.seen r p h hch j c hj hc
      · subst h
        have hp := a1.chain.unique hch
        subst hp
        exact n1 (c, j) (mem_leaving.mpr ⟨hj, by rw [hc, a1.dst]⟩)
    have i2 : Inv plan source now dest P P s2 := i1'.work hw hf2 ht2
    obtain ⟨b1, b2⟩ := nextBest_spec s2 plan.zipIdx maxTime none (by simp)
    have he : search plan dest (fuel + 1) cur s =
        match nextBest s2 plan.zipIdx maxTime none with
        | none => .done s2
        | some (c, i) => search plan dest fuel ⟨.leg i, c.frm, c.dst⟩ s2 := by
      simp only [search]
      rw [e1]
      simp only [hs2]
      rfl
    rw [he]
    have hmem : ∀ i c, plan[i]? = some c → (c, i) ∈ plan.zipIdx := by
      intro i c h
      exact List.mem_zipIdx_iff_getElem?.mpr h
    cases hb : nextBest s2 plan.zipIdx maxTime none with
    | none =>
      refine ⟨s2, P, rfl, i2, ?_⟩
      intro i c hi hn hs ha
      refine (b1 hb).2 (c, i) (hmem i c hi) hs ?_ ha
      have := mt (hP2 (.leg i)).mpr hn
      simpa using this
    | some r =>
      obtain ⟨c, i⟩ := r
      obtain ⟨g1, g2, g3, g4, g5, g6, g7⟩ := b2 _ hb
      have hi : plan[i]? = some c := by
        rcases g1 with g1 | g1
        · cases g1
        · exact List.mem_zipIdx_iff_getElem?.mp g1
      have hlt : (s2.work (.leg i)).arrival < maxTime := g6 rfl
      have hnP : ¬ P (.leg i) := by
        rw [hP2]; simpa using g3
      have hlab : Labelled plan source now P s2.work i c := by
        rcases i2.each i c hi with h | h
        · rw [h.1] at hlt; omega
        · exact h
      let Q : Ref → Prop := fun r => P r ∨ r = .leg i
      have hPQ : ∀ x, P x → Q x := fun x h => .inl h
      have hid : ∀ x, P x → (s2.work x).arrival = (s2.work x).arrival ∧
          (s2.work x).pred = (s2.work x).pred ∧ (s2.work x).nodes = (s2.work x).nodes :=
        fun _ _ => ⟨rfl, rfl, rfl⟩
      have hch : ∃ p, Chain plan source now Q s2.work (.leg i) (p ++ [c]) ∧
          c.frm ∈ nodesOf source (p ++ [c]) := by
        obtain ⟨r, p, x1, x2, x3⟩ := hlab
        refine ⟨p, .leg hi (.inr rfl) x1 (x2.mono hPQ hid) x3, ?_⟩
        rw [nodesOf_snoc, List.mem_append]
        left
        have := ((journey_snoc _ _ _ _ _).mp x3.journey).2.2.2.1
        rw [this]
        exact endNode_mem _ _
      obtain ⟨p, hch, hfrm⟩ := hch
      have hfirst : ∀ k d, plan[k]? = some d → ¬ Q (.leg k) →
          (s2.work (.leg i)).arrival ≤ (s2.work (.leg k)).arrival := by
        intro k d hk hn
        have hnP' : ¬ P (.leg k) := fun h => hn (.inl h)
        rcases i2.each k d hk with h | h
        · rw [h.1]; omega
        · by_cases hle : (s2.work (.leg k)).arrival ≤ s2.finTime
          · refine g7 (d, k) (hmem k d hk) h.usable.1 ?_ hle
            have := mt (hP2 (.leg k)).mpr hnP'
            simpa using this
          · have h4 := g4
            simp only at h4
            omega
      have iQ : Inv plan source now dest Q P s2 := by
        refine ⟨i2.rootChain.mono hPQ hid, ?_, ?_, ?_, i2.finLe, i2.finMax, i2.finNone, ?_⟩
        · intro k d hk
          rcases i2.each k d hk with h | h
          · by_cases hki : k = i
            · subst hki
              rw [h.1] at hlt; omega
            · refine .inl ⟨h.1, ?_⟩
              rintro (hq | hq)
              · exact h.2 hq
              · injection hq with hq; exact hki hq
          · exact .inr (h.mono hPQ hid ⟨rfl, rfl, rfl⟩)
        · intro r k d hr hk hn
          rcases hr with hr | rfl
          · exact i2.sorted r k d hr hk (fun h => hn (.inl h))
          · exact hfirst k d hk hn
        · intro r p' hr hch' j d hj hd
          refine i2.seen r p' hr ?_ j d hj hd
          -- a chain from a contact settled before does not use the new one
          have : ∃ p'', Chain plan source now P s2.work r p'' := by
            cases r with
            | root => exact ⟨[], i2.rootChain⟩
            | leg k =>
              obtain ⟨d', hk⟩ : ∃ d', plan[k]? = some d' := by
                cases hch' with
                | leg q1 _ _ _ _ => exact ⟨_, q1⟩
              rcases i2.each k d' hk with h | h
              · exact absurd hr h.2
              · obtain ⟨r', q, z1, z2, z3⟩ := h
                exact ⟨q ++ [d'], .leg hk hr z1 z2 z3⟩
          obtain ⟨p'', hp''⟩ := this
          have := (hp''.mono hPQ hid).unique hch'
          rw [this]; exact hp''
        · intro f hf
          obtain ⟨d, y1, y2, y3, y4⟩ := i2.finSome f hf
          exact ⟨d, y1, y2, y3.mono hPQ hid ⟨rfl, rfl, rfl⟩, y4⟩
      have aQ : At plan source now Q ⟨.leg i, c.frm, c.dst⟩ (p ++ [c]) s2 := by
        refine ⟨?_, hch, ?_, (endNode_snoc _ _ _).symm, hfrm⟩
        · intro r; simp only [Q, hP2]
        · rintro r (hr | rfl)
          · exact i2.sorted r i c hr hi hnP
          · exact Int.le_refl _
      refine ih ⟨.leg i, c.frm, c.dst⟩ (p ++ [c]) Q P s2 iQ aQ (fun r h => h) ?_
      have hil : i < plan.length := (List.getElem?_eq_some_iff.mp hi).1
      have hsub : todo plan ⟨.leg i, c.frm, c.dst⟩ s2 ⊂ todo plan cur s := by
        rw [Finset.ssubset_iff_of_subset]
        · refine ⟨i, ?_, ?_⟩
          · simp only [todo, Finset.mem_filter, Finset.mem_range]
            refine ⟨hil, ?_⟩
            have := mt (a1.settled (.leg i)).mpr hnP
            rw [v1] at this
            constructor
            · by_contra hv
              exact this (.inl (by simpa using hv))
            · exact fun h => this (.inr h)
          · simp [todo]
        · intro k hk
          simp only [todo, Finset.mem_filter, Finset.mem_range] at hk ⊢
          refine ⟨hk.1, ?_⟩
          have : ¬ P (.leg k) := by rw [hP2]; simp [hk.2.1]
          have := mt (a1.settled (.leg k)).mpr this
          rw [v1] at this
          constructor
          · by_contra hv
            exact this (.inl (by simpa using hv))
          · exact fun h => this (.inr h)
      have := Finset.card_lt_card hsub
      omega

end Hdtn.Cgr
