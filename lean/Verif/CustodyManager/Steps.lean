import Mathlib.Data.List.Nodup
import Verif.CustodyManager.Lemmas

namespace Hdtn.CustodyManager

open Hdtn.HashMap16 Hdtn.FragmentSet Hdtn.Sdnv Hdtn.BundleView6 Hdtn.BundleView6.Spec
open Hdtn.CustodyManager.Spec
open Hdtn.AdminRecord6 (DtnTime CustodySignal StatusReport Content Record)
open Hdtn.Bpv6Primary (Primary)

/-! ### The pending sets -/

theorem pending_stamp (m : Mgr) (now : Nat) (c : Eid) (i : Fin 7) :
    (stamp m now).2.pending c i = m.pending c i := rfl

theorem pending_setPending (m : Mgr) (c : Eid) (i : Fin 7) (fills : List Frag) (c' : Eid) (j : Fin 7) :
    (m.setPending c i fills).pending c' j = if c' = c ∧ j = i then fills else m.pending c' j := by
  unfold Mgr.setPending
  simp only [Mgr.pending, OrdMap.lookup_upsert]
  by_cases h : c' = c
  · subst h
    by_cases hj : j = i <;> simp [hj]
  · simp [h]

/-- What every history keeps: the map is sorted, the sets are canonical, the custodians fit, the clock
of the last creation was never set, and no set has more ranges than the running maximum. -/
structure Inv (m : Mgr) : Prop where
  sorted : OrdMap.Sorted Eid.lt m.acs
  canonical : ∀ c i, Canonical (m.pending c i)
  fits : ∀ e ∈ m.acs, EidFits e.1
  zero : m.lastCreation = 0
  seq : m.sequence < 2 ^ 64
  bounded : ∀ c i, (m.pending c i).length ≤ m.largest

theorem inv_init (aware : Bool) (me : Eid) : Inv (init aware me) :=
  ⟨OrdMap.sorted_nil, fun _ _ => canonical_nil, by simp [init], rfl, by simp [init], fun _ _ => Nat.le_refl 0⟩

theorem Inv.stamp {m : Mgr} (h : Inv m) (now : Nat) : Inv (stamp m now).2 :=
  ⟨h.sorted, h.canonical, h.fits, h.zero, Nat.mod_lt _ (by decide), h.bounded⟩

theorem Inv.setPending {m : Mgr} (h : Inv m) (c : Eid) (hc : EidFits c) (i : Fin 7) (fills : List Frag)
    (hf : Canonical fills) (n : Nat) (hn : fills.length ≤ n) (hm : m.largest ≤ n) :
    Inv { m.setPending c i fills with largest := n } := by
  have hp : ∀ c' j, Mgr.pending { m.setPending c i fills with largest := n } c' j =
      if c' = c ∧ j = i then fills else m.pending c' j := pending_setPending m c i fills
  refine ⟨OrdMap.sorted_upsert Eid.lt_strict _ _ _ h.sorted, ?_, ?_, h.zero, h.seq, ?_⟩
  · intro c' j
    rw [hp]; split
    · exact hf
    · exact h.canonical _ _
  · intro e he
    rcases OrdMap.mem_upsert he with rfl | he
    · exact hc
    · exact h.fits _ he
  · intro c' j
    rw [hp]; split
    · exact hn
    · exact Nat.le_trans (h.bounded _ _) hm

theorem inv_aggregate {m : Mgr} (h : Inv m) (c : Eid) (hc : EidFits c) (i : Fin 7) (x : Nat)
    (hx : x + 1 < 2 ^ 64) :
    Inv (aggregate m c i x) ∧
      (∀ y, Covers ((aggregate m c i x).pending c i) y ↔ Covers (m.pending c i) y ∨ y = x) ∧
      (∀ c' j, ¬ (c' = c ∧ j = i) → (aggregate m c i x).pending c' j = m.pending c' j) := by
  obtain ⟨k1, k2, _, _⟩ := C07_insert (m.pending c i) ⟨x, x⟩ (h.canonical c i) ⟨Nat.le_refl _, hx⟩
  have hp : ∀ c' j, (aggregate m c i x).pending c' j =
      if c' = c ∧ j = i then (insertFragment (m.pending c i) ⟨x, x⟩).1 else m.pending c' j :=
    pending_setPending m c i _
  refine ⟨h.setPending c hc i _ k1 _ (Nat.le_max_left _ _) (Nat.le_max_right _ _), ?_, ?_⟩
  · intro y
    rw [hp, if_pos ⟨rfl, rfl⟩, k2]
    refine or_congr Iff.rfl ?_
    show x ≤ y ∧ y ≤ x ↔ _
    omega
  · intro c' j hn
    rw [hp, if_neg hn]

/-! ### Stamps -/

theorem stamp_seq {m : Mgr} (h : Inv m) (now : Nat) : (stamp m now).1.1 = now ∧
    (stamp m now).1.2 < 2 ^ 64 ∧ (now ≠ 0 → (stamp m now).1.2 = 0) := by
  refine ⟨rfl, ?_, ?_⟩
  · simp only [CustodyManager.stamp]
    split
    · decide
    · exact h.seq
  · intro hn
    simp only [CustodyManager.stamp]
    rw [if_pos (by rw [h.zero]; exact hn)]

/-! ### Generated bundles fit in their buffers -/

theorem renderMax_done {v w : View} {out : Bytes} {n : Nat} (h : v.render = some (out, w))
    (hn : out.length ≤ n) : v.renderMax n = .done out w := by
  unfold View.renderMax
  rw [h]
  simp only
  rw [if_neg (by omega)]

theorem isFragment_bit (p : Primary) : p.isFragment = p.flags.testBit 0 := by
  rfl

theorem signalRecord_eq (p : Primary) (n : Nat) (i : Fin 7) (t : DtnTime) :
    signalRecord p n i t = signalFor p n i t := by
  unfold signalRecord signalFor
  rw [isFragment_bit, statusByte_eq]

theorem deletionRecord_eq (p : Primary) (n : Nat) (t : DtnTime) :
    deletionRecord p n t = deletionFor p n t := by
  unfold deletionRecord deletionFor
  rw [isFragment_bit]

theorem acsRecord_eq (i : Fin 7) (fills : List Frag) : acsRecord i fills = aggregateFor i fills := by
  unfold acsRecord aggregateFor
  rw [statusByte_eq]

theorem signal_done {m : Mgr} (h : Inv m) (hme : EidFits m.me) (p : Primary) (hp : PrimaryFits p) (n : Nat)
    (hn : n < 2 ^ 64) (i : Fin 7) (now : Nat) (hnow : now < 2 ^ 64) (t : DtnTime) (ht : TimeFits t) :
    ∃ out w, (generateSignal m p n i now t).1 = .done out w ∧
      IsAdminBundle out m.me p.custodian (p.flags / 128 % 4) now (stamp m now).1.2 (signalFor p n i t) := by
  obtain ⟨d, hd, hl⟩ := signal_sound p hp n hn i t ht
  obtain ⟨_, hs, _⟩ := stamp_seq h now
  obtain ⟨out, w, h1, h2, _, h4⟩ := admin_rendered m.me p.custodian hme hp.2.2.2.2.1 p.flags now
    (stamp m now).1.2 hnow hs _ d hd (by omega)
  refine ⟨out, w, renderMax_done ?_ ?_, h2⟩
  · rw [signalRecord_eq]; exact h1
  · have : primaryRoom + signalRoom = 278 := rfl
    omega

theorem report_done {m : Mgr} (h : Inv m) (hme : EidFits m.me) (p : Primary) (hp : PrimaryFits p) (n : Nat)
    (hn : n < 2 ^ 64) (now : Nat) (hnow : now < 2 ^ 64) (t : DtnTime) (ht : TimeFits t) :
    ∃ out w, (deletionReport m p n now t).1 = .done out w ∧
      IsAdminBundle out m.me p.reportTo (p.flags / 128 % 4) now (stamp m now).1.2 (deletionFor p n t) := by
  obtain ⟨d, hd, hl⟩ := deletion_sound p hp n hn t ht
  obtain ⟨_, hs, _⟩ := stamp_seq h now
  obtain ⟨out, w, h1, h2, _, h4⟩ := admin_rendered m.me p.reportTo hme hp.2.2.2.1 p.flags now
    (stamp m now).1.2 hnow hs _ d hd (by omega)
  refine ⟨out, w, renderMax_done ?_ ?_, h2⟩
  · rw [deletionRecord_eq]; exact h1
  · have : primaryRoom + reportRoom + 100 = 439 := rfl
    omega

theorem acs_done {m : Mgr} (h : Inv m) (hme : EidFits m.me) (c : Eid) (hc : EidFits c) (i : Fin 7)
    (fills : List Frag) (hf : Canonical fills) (hne : fills ≠ []) (hl : fills.length ≤ 101) (now : Nat)
    (hnow : now < 2 ^ 64) :
    ∃ out w, generateAcs m c i fills now = some (.done out w, (stamp m now).2) ∧
      IsAdminBundle out m.me c 0 now (stamp m now).1.2 (aggregateFor i fills) := by
  obtain ⟨d, hd, hl1, _⟩ := aggregate_sound i fills hf hne
  obtain ⟨_, hs, _⟩ := stamp_seq h now
  obtain ⟨out, w, h1, h2, _, h4⟩ := admin_rendered m.me c hme hc 0 now
    (stamp m now).1.2 hnow hs _ d hd (by omega)
  refine ⟨out, w, ?_, h2⟩
  unfold generateAcs
  rw [if_neg hne]
  simp only
  have h1' : (adminView (adminPrimary (adminFlags 0) m.me c (stamp m now).1) (acsRecord i fills)).render =
      some (out, w) := by rw [acsRecord_eq]; exact h1
  rw [renderMax_done h1' (by have : primaryRoom + 2000 = 2175 := rfl; omega)]

theorem one_none {m : Mgr} {c : Eid} {i : Fin 7} (h : m.pending c i = []) (b : Bool) (now : Nat) :
    generateOne m c i b now = none := by
  unfold generateOne generateAcs
  rw [h, if_pos rfl]

theorem one_done {m : Mgr} (h : Inv m) (hme : EidFits m.me) (c : Eid) (hc : EidFits c) (i : Fin 7)
    (hne : m.pending c i ≠ []) (hl : (m.pending c i).length ≤ 101) (b : Bool) (now : Nat)
    (hnow : now < 2 ^ 64) :
    ∃ out w, generateOne m c i b now =
        some (.done out w, if b then (stamp m now).2 else (stamp m now).2.setPending c i []) ∧
      IsAdminBundle out m.me c 0 now (stamp m now).1.2 (aggregateFor i (m.pending c i)) := by
  obtain ⟨out, w, h1, h2⟩ := acs_done h hme c hc i _ (h.canonical c i) hne hl now hnow
  exact ⟨out, w, by unfold generateOne; rw [h1], h2⟩

theorem inv_one {m : Mgr} (h : Inv m) (c : Eid) (hc : EidFits c) (i : Fin 7) (b : Bool) (now : Nat) :
    Inv (if b then (stamp m now).2 else (stamp m now).2.setPending c i []) := by
  cases b
  · exact (h.stamp now).setPending c hc i [] canonical_nil _ (Nat.zero_le _) (Nat.le_refl _)
  · exact h.stamp now

/-! ### Sending everything -/

/-- Outcome of the loops when no set is too large. -/
theorem each_done (clock : Nat → Nat) (hclock : ∀ k, clock k < 2 ^ 64) (me : Eid) (hme : EidFits me) :
    ∀ (L : List (Eid × Fin 7)) (k : Nat) (m : Mgr), Inv m → m.me = me → L.Nodup →
      (∀ e ∈ L, EidFits e.1) → (∀ e ∈ L, (m.pending e.1 e.2).length ≤ 101) →
      (generateEach clock L k m).1 = true ∧ Inv (generateEach clock L k m).2.2 ∧
      (generateEach clock L k m).2.2.me = me ∧
      (generateEach clock L k m).2.2.aware = m.aware ∧
      (generateEach clock L k m).2.2.largest = m.largest ∧
      (generateEach clock L k m).2.1.map (fun x => (x.1, x.2.1)) =
        L.filter (fun e => m.pending e.1 e.2 ≠ []) ∧
      (∀ x ∈ (generateEach clock L k m).2.1, ∃ out w n q, x.2.2 = .done out w ∧
        n < (generateEach clock L k m).2.1.length ∧ ((∀ k, clock k ≠ 0) → q = 0) ∧
        IsAdminBundle out me x.1 0 (clock (k + n)) q (aggregateFor x.2.1 (m.pending x.1 x.2.1))) ∧
      (∀ c i, (generateEach clock L k m).2.2.pending c i = if (c, i) ∈ L then [] else m.pending c i) := by
  intro L
  induction L with
  | nil => intro k m h1 h2 _ _ _; simp [generateEach, h1, h2]
  | cons e L ih =>
    obtain ⟨c, i⟩ := e
    intro k m hi hm hnd hfit hlen
    obtain ⟨hni, hnd'⟩ := List.nodup_cons.1 hnd
    by_cases he : m.pending c i = []
    · have hg : generateEach clock ((c, i) :: L) k m = generateEach clock L k m := by
        rw [generateEach, one_none he]
      obtain ⟨i1, i2, i3, i3', i3'', i4, i5, i6⟩ := ih k m hi hm hnd' (fun e h => hfit e (by simp [h]))
        (fun e h => hlen e (by simp [h]))
      rw [hg]
      refine ⟨i1, i2, i3, i3', i3'', ?_, i5, ?_⟩
      · rw [i4, List.filter_cons]
        simp [he]
      · intro c' j
        rw [i6]
        by_cases hc : (c', j) = (c, i)
        · simp only [Prod.mk.injEq] at hc
          obtain ⟨rfl, rfl⟩ := hc
          simp [he]
        · simp only [List.mem_cons, hc, false_or]
    · obtain ⟨out, w, g1, g2⟩ := one_done hi (by rw [hm]; exact hme) c (hfit (c, i) (by simp)) i he
        (hlen (c, i) (by simp)) false (clock k) (hclock k)
      simp only [Bool.false_eq_true, if_false] at g1
      generalize hm' : (stamp m (clock k)).2.setPending c i [] = m' at g1
      have hi' : Inv m' := by
        have := inv_one hi c (hfit (c, i) (by simp)) i false (clock k)
        simp only [Bool.false_eq_true, if_false] at this
        rwa [hm'] at this
      have hp' : ∀ c' j, m'.pending c' j = if c' = c ∧ j = i then [] else m.pending c' j := by
        subst hm'
        exact pending_setPending _ c i []
      have hpL : ∀ e ∈ L, m'.pending e.1 e.2 = m.pending e.1 e.2 := by
        intro e h
        rw [hp', if_neg]
        rintro ⟨h1, h2⟩
        exact hni (by rw [← h1, ← h2]; exact h)
      have hme' : m'.me = me := by subst hm'; exact hm
      obtain ⟨i1, i2, i3, i3', i3'', i4, i5, i6⟩ := ih (k + 1) m' hi' hme' hnd'
        (fun e h => hfit e (by simp [h])) (fun e h => by rw [hpL e h]; exact hlen e (by simp [h]))
      have hg : generateEach clock ((c, i) :: L) k m =
          ((generateEach clock L (k + 1) m').1, (c, i, .done out w) :: (generateEach clock L (k + 1) m').2.1,
            (generateEach clock L (k + 1) m').2.2) := by
        rw [generateEach, g1]
      rw [hg]
      refine ⟨i1, i2, i3, by rw [i3']; subst hm'; rfl, by rw [i3'']; subst hm'; rfl, ?_, ?_, ?_⟩
      · rw [List.filter_cons, if_pos (by simpa using he), List.map_cons, i4]
        congr 1
        apply List.filter_congr
        intro e h
        rw [hpL e h]
      · intro x hx
        rcases List.mem_cons.1 hx with rfl | hx
        · refine ⟨out, w, 0, (stamp m (clock k)).1.2, rfl, by simp, ?_, by rw [← hm]; exact g2⟩
          intro hz
          exact (stamp_seq hi _).2.2 (hz k)
        · obtain ⟨out', w', n, q, a1, a2, a3, a4⟩ := i5 x hx
          refine ⟨out', w', n + 1, q, a1, by simp only [List.length_cons]; omega, a3, ?_⟩
          have hxL : (x.1, x.2.1) ∈ L := by
            have : (x.1, x.2.1) ∈ (generateEach clock L (k + 1) m').2.1.map (fun x => (x.1, x.2.1)) :=
              List.mem_map.2 ⟨x, hx, rfl⟩
            rw [i4] at this
            exact (List.mem_filter.1 this).1
          rw [← hpL _ hxL, show k + (n + 1) = k + 1 + n by omega]
          exact a4
      · intro c' j
        rw [i6, hp']
        by_cases hc : (c', j) = (c, i)
        · simp only [Prod.mk.injEq] at hc
          obtain ⟨rfl, rfl⟩ := hc
          simp
        · have hc' : ¬ (c' = c ∧ j = i) := fun h => hc (by rw [h.1, h.2])
          simp only [List.mem_cons, hc, false_or, if_neg hc']

/-- The entries that are gone through. -/
def entries (m : Mgr) : List (Eid × Fin 7) :=
  m.acs.flatMap fun e => (List.finRange 7).map fun i => (e.1, i)

theorem mem_entries (m : Mgr) (c : Eid) (i : Fin 7) : (c, i) ∈ entries m ↔ c ∈ m.acs.map (·.1) := by
  simp [entries, List.mem_flatMap]

theorem entries_nodup {m : Mgr} (h : OrdMap.Sorted Eid.lt m.acs) : (entries m).Nodup := by
  unfold entries
  rw [List.nodup_flatMap]
  refine ⟨fun e _ => (List.nodup_finRange 7).map (fun a b hab => by simpa using hab), ?_⟩
  refine List.Pairwise.imp ?_ h
  intro a b hab x hx hy
  simp only [List.mem_map] at hx hy
  obtain ⟨_, _, rfl⟩ := hx
  obtain ⟨_, _, hy⟩ := hy
  exact Eid.lt_strict.ne hab (by simp only [Prod.mk.injEq] at hy; exact hy.1.symm)

theorem pending_not_entry {m : Mgr} {c : Eid} {i : Fin 7} (h : (c, i) ∉ entries m) : m.pending c i = [] := by
  rw [mem_entries] at h
  unfold Mgr.pending
  have : OrdMap.lookup m.acs c = none := by
    rw [OrdMap.lookup_none]
    intro v hv
    exact h (List.mem_map.2 ⟨_, hv, rfl⟩)
  rw [this]

theorem all_done {m : Mgr} (h : Inv m) (hme : EidFits m.me) (hl : m.largest ≤ 101) (clock : Nat → Nat)
    (hclock : ∀ k, clock k < 2 ^ 64) :
    (generateAll m clock).1 = true ∧ Inv (generateAll m clock).2.2 ∧
      (generateAll m clock).2.2.me = m.me ∧ (generateAll m clock).2.2.aware = m.aware ∧
      (generateAll m clock).2.2.largest = 0 ∧
      ((generateAll m clock).2.1.map fun x => (x.1, x.2.1)).Nodup ∧
      (∀ c i, (c, i) ∈ (generateAll m clock).2.1.map (fun x => (x.1, x.2.1)) ↔ m.pending c i ≠ []) ∧
      (∀ x ∈ (generateAll m clock).2.1, ∃ out w n q, x.2.2 = .done out w ∧
        n < (generateAll m clock).2.1.length ∧ ((∀ k, clock k ≠ 0) → q = 0) ∧
        IsAdminBundle out m.me x.1 0 (clock n) q (aggregateFor x.2.1 (m.pending x.1 x.2.1))) ∧
      (∀ c i, (generateAll m clock).2.2.pending c i = []) := by
  -- the loops never look at the running maximum, so it may be kept for the invariant
  have key : ∀ (L : List (Eid × Fin 7)) (k : Nat) (m : Mgr),
      generateEach clock L k { m with largest := 0 } =
        ((generateEach clock L k m).1, (generateEach clock L k m).2.1,
          { (generateEach clock L k m).2.2 with largest := 0 }) := by
    intro L
    induction L with
    | nil => intro k m; rfl
    | cons e L ih =>
      obtain ⟨c, i⟩ := e
      intro k m
      rw [generateEach, generateEach]
      have hone : generateOne { m with largest := 0 } c i false (clock k) =
          (generateOne m c i false (clock k)).map fun x => (x.1, { x.2 with largest := 0 }) := by
        have hpen : Mgr.pending { m with largest := 0 } c i = m.pending c i := rfl
        unfold generateOne generateAcs
        rw [hpen]
        by_cases hp : m.pending c i = []
        · simp [hp]
        · simp only [if_neg hp]
          rfl
      rw [hone]
      cases hg : generateOne m c i false (clock k) with
      | none => exact ih k m
      | some x =>
        obtain ⟨r, m'⟩ := x
        cases r with
        | done out v => simp only [Option.map_some]; rw [ih (k + 1) m']
        | _ => rfl
  obtain ⟨i1, i2, i3, i3', i3'', i4, i5, i6⟩ := each_done clock hclock m.me hme (entries m) 0 m h rfl
    (entries_nodup h.sorted)
    (fun e he => by
      obtain ⟨c, i⟩ := e
      rw [mem_entries] at he
      obtain ⟨e', he', rfl⟩ := List.mem_map.1 he
      exact h.fits _ he')
    (fun e _ => Nat.le_trans (h.bounded _ _) hl)
  have hg : generateAll m clock = ((generateEach clock (entries m) 0 m).1,
      (generateEach clock (entries m) 0 m).2.1,
      { (generateEach clock (entries m) 0 m).2.2 with largest := 0 }) := key _ _ _
  have hz : ∀ c i, (generateEach clock (entries m) 0 m).2.2.pending c i = [] := by
    intro c i
    rw [i6]
    split
    · rfl
    · rename_i hn; exact pending_not_entry hn
  rw [hg]
  refine ⟨i1, ⟨i2.sorted, i2.canonical, i2.fits, i2.zero, i2.seq, ?_⟩, i3, i3', rfl, ?_, ?_, ?_, hz⟩
  · intro c i
    show (Mgr.pending (generateEach clock (entries m) 0 m).2.2 c i).length ≤ 0
    rw [hz]; simp
  · simp only
    rw [i4]
    exact (entries_nodup h.sorted).filter _
  · intro c i
    simp only
    rw [i4, List.mem_filter]
    constructor
    · intro hh; simpa using hh.2
    · intro hh
      refine ⟨?_, by simpa using hh⟩
      by_contra hc
      exact hh (pending_not_entry hc)
  · intro x hx
    obtain ⟨out, w, n, q, a⟩ := i5 x hx
    rw [Nat.zero_add] at a
    exact ⟨out, w, n, q, a⟩

end Hdtn.CustodyManager
