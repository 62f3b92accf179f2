import Mathlib.Data.List.Infix
import Verif.CustodyManager.History

/-!
C42, C66, C67 and C68: custody signalling.
-/

namespace Hdtn.CustodyManager

open Hdtn.FragmentSet hiding Op
open Hdtn.HashMap16 Hdtn.BundleView6 Hdtn.BundleView6.Spec
open Hdtn.CustodyManager.Spec
open Hdtn.AdminRecord6 (DtnTime CustodySignal StatusReport Content Record)
open Hdtn.Bpv6Primary (Primary)

theorem reached_inv {aware : Bool} {me : Eid} {m : Mgr} (h : Reached aware me m) (hme : EidFits me) :
    Inv m ∧ m.me = me ∧ m.aware = aware := by
  obtain ⟨ops, h1, h2, rfl⟩ := h
  obtain ⟨i1, i2, i3, _⟩ := run_ok ops (init aware me) (inv_init aware me) hme h2 h1
  exact ⟨i1, i2, i3⟩

theorem reached_below {aware : Bool} {me : Eid} {m : Mgr} (h : Reached aware me m) : m.largest ≤ 101 := by
  obtain ⟨ops, _, h2, rfl⟩ := h
  exact h2 ops (List.prefix_refl _)

/-! ### C42 -/

/-- C42, in part: every bundle generated in any history of calls carries the node's endpoint as source,
the second the clock showed, and, if the clock never shows 0, sequence number 0. So two generated bundles
have different identities if they were generated in different seconds. Missing: bundles generated in the
same second; see `C42_violated`. -/
theorem C42_partial (aware : Bool) (me : Eid) (hme : EidFits me) (ops : List Op) (hf : ∀ op ∈ ops, op.Fits)
    (hb : Below 101 (init aware me) ops) :
    ∀ o ∈ (run (init aware me) ops).2, ∃ op ∈ ops, ∃ out w dest priority seconds sequence r,
      o.rendered = .done out w ∧ IsAdminBundle out me dest priority seconds sequence r ∧
      op.Shows seconds ∧ (op.Ticking → sequence = 0) :=
  (run_ok ops (init aware me) (inv_init aware me) hme hb hf).2.2.2.1

/-- C42 is violated whenever two reports are made in one second: whatever happened before, both carry the
same source, time and sequence number, although they report about different bundles. -/
theorem C42_violated (aware : Bool) (me : Eid) (hme : EidFits me) (m : Mgr) (hm : Reached aware me m)
    (p p' : Primary) (hp : PrimaryFits p) (hp' : PrimaryFits p') (now : Nat) (hnow : now < 2 ^ 64)
    (h0 : now ≠ 0) (t : DtnTime) (ht : TimeFits t) :
    ∃ out w out' w', (run m [.report p 0 now t, .report p' 0 now t]).2 =
        [.report (.done out w), .report (.done out' w')] ∧
      IsAdminBundle out me p.reportTo (p.flags / 128 % 4) now 0 (deletionFor p 0 t) ∧
      IsAdminBundle out' me p'.reportTo (p'.flags / 128 % 4) now 0 (deletionFor p' 0 t) := by
  obtain ⟨hi, h1, _⟩ := reached_inv hm hme
  subst h1
  obtain ⟨out, w, g1, g2⟩ := report_done hi hme p hp 0 (by decide) now hnow t ht
  have hi' := hi.stamp now
  obtain ⟨out', w', g1', g2'⟩ := report_done hi' hme p' hp' 0 (by decide) now hnow t ht
  rw [(stamp_seq hi now).2.2 h0] at g2
  rw [(stamp_seq hi' now).2.2 h0] at g2'
  refine ⟨out, w, out', w', ?_, g2, g2'⟩
  have hm' : (deletionReport m p 0 now t).2 = (stamp m now).2 := rfl
  simp only [run, step, g1, hm', g1', List.append_nil, List.cons_append, List.nil_append]

/-! ### C66 -/

/-- C66: a bundle is rejected exactly when it is malformed, and then nothing changes. -/
theorem C66_rejects_iff (m : Mgr) (v : View) (accept : Bool) (id : Nat) (i : Fin 7) (now : Nat) (t : DtnTime) :
    process m v accept id i now t = none ↔ Malformed m.aware v :=
  process_none_iff m v accept id i now t

/-- C66: if the node does not know CTEBs or the bundle has no valid one, one custody signal is generated
at once: from the node to the previous custodian, with the priority of the bundle, naming the bundle and
the outcome. The pending sets stay as they are. -/
theorem C66_signals (aware : Bool) (me : Eid) (hme : EidFits me) (m : Mgr) (hm : Reached aware me m) (v : View)
    (hv : ¬ Malformed aware v) (hc : ¬ (aware = true ∧ ∃ x, ValidCteb v x)) (accept : Bool) (id : Nat)
    (i : Fin 7) (now : Nat) (t : DtnTime) (hf : (Op.process v accept id i now t).Fits) :
    ∃ v' out w m' b sequence, v.byType 1 = [b] ∧
      process m v accept id i now t = some (v', some (.done out w), m') ∧
      IsAdminBundle out me v.primary.custodian (v.primary.flags / 128 % 4) now sequence
        (signalFor v.primary b.block.data.length (if accept = true then 0 else i) t) ∧
      ∀ c j, m'.pending c j = m.pending c j := by
  obtain ⟨hi, h1, h2⟩ := reached_inv hm hme
  subst h1; subst h2
  obtain ⟨f1, f2, f3, f4, f5, f6⟩ := hf
  obtain ⟨v', n, _, hn, hp⟩ := process_invalid hv hc accept id i now t
  obtain ⟨b, hb, hb'⟩ := payloadSize_some (malformed_payload hv)
  rw [hn, Option.some.injEq] at hb'
  subst hb'
  have hbm : b ∈ v.byType 1 := by rw [hb]; simp
  obtain ⟨out, w, g1, g2⟩ := signal_done hi hme v.primary f1 b.block.data.length
    (f2 b (List.mem_filter.1 hbm).1) (if accept = true then 0 else i) now f5 t f6
  exact ⟨v', out, w, _, b, _, hb, by rw [hp, g1], g2, fun c j => pending_stamp m now c j⟩

/-- C66: if the node knows CTEBs and the bundle has a valid one, no bundle is generated; the identifier
in it is added to the pending set of the previous custodian and the outcome, and to no other. -/
theorem C66_defers (aware : Bool) (me : Eid) (hme : EidFits me) (m : Mgr) (hm : Reached aware me m) (v : View)
    (hpay : (v.byType 1).length = 1) (ha : aware = true) (x : Nat) (hx : ValidCteb v x) (accept : Bool)
    (id : Nat) (i : Fin 7) (now : Nat) (t : DtnTime) (hf : (Op.process v accept id i now t).Fits) :
    ∃ v' m', process m v accept id i now t = some (v', none, m') ∧
      ∀ c j y, Covers (m'.pending c j) y ↔ Covers (m.pending c j) y ∨
        c = v.primary.custodian ∧ j = (if accept = true then 0 else i) ∧ y = x := by
  obtain ⟨hi, h1, h2⟩ := reached_inv hm hme
  subst h1; subst h2
  obtain ⟨f1, f2, f3, f4, f5, f6⟩ := hf
  obtain ⟨v', _, hp⟩ := process_valid hpay ha hx accept id i now t
  obtain ⟨a1, a2, a3⟩ := inv_aggregate hi v.primary.custodian f1.2.2.2.2.1
    (if accept = true then 0 else i) x (f4 x hx)
  refine ⟨v', _, hp, ?_⟩
  intro c j y
  by_cases hcj : c = v.primary.custodian ∧ j = if accept = true then 0 else i
  · obtain ⟨rfl, rfl⟩ := hcj
    rw [a2]
    simp
  · rw [a3 c j hcj]
    refine ⟨.inl, ?_⟩
    rintro (k | ⟨k1, k2, _⟩)
    · exact k
    · exact absurd ⟨k1, k2⟩ hcj

theorem process_view {m m' : Mgr} {v v' : View} {accept : Bool} {id : Nat} {i : Fin 7} {now : Nat} {t : DtnTime}
    {r : Option Rendered} (h : process m v accept id i now t = some (v', r, m')) :
    updateFields m v accept id = some v' := by
  unfold process at h
  split at h
  · simp at h
  · split at h
    · simp at h
    · rename_i v'' hv
      simp only [Option.some.injEq, Prod.mk.injEq] at h
      rw [hv, h.1]

/-- C66: accepting custody changes the custodian in the primary block to the node; a node that knows
CTEBs leaves exactly one CTEB, with the new identifier and its own endpoint; everything else is kept. -/
theorem C66_accepted (m m' : Mgr) (v v' : View) (id : Nat) (i : Fin 7) (now : Nat) (t : DtnTime)
    (r : Option Rendered) (h : process m v true id i now t = some (v', r, m')) :
    v'.primary = { v.primary with custodian := m.me } ∧
      (v'.blocks.filter fun b => b.block.typeCode ≠ 10) = (v.blocks.filter fun b => b.block.typeCode ≠ 10) ∧
      (m.aware = false → v'.blocks = v.blocks) ∧
      (m.aware = true → ∃ b, v'.byType 10 = [b] ∧ b.deleted = false ∧
        b.body = .ext (.cteb id (Uri.getIpnUriString m.me.node m.me.service))) := by
  obtain ⟨u1, u2, _, u4, u5, u6⟩ := update_accept (process_view h)
  refine ⟨u1, u4, u5, fun ha => ?_⟩
  obtain ⟨b, b1, b2, _, b4, _⟩ := u6 ha
  exact ⟨b, b1, b2, b4⟩

/-- C66: refusing custody changes nothing in the bundle, except that an invalid CTEB is removed by a node
that knows CTEBs. -/
theorem C66_refused (m m' : Mgr) (v v' : View) (id : Nat) (i : Fin 7) (now : Nat) (t : DtnTime)
    (r : Option Rendered) (h : process m v false id i now t = some (v', r, m')) :
    v'.primary = v.primary ∧
      (v'.blocks.filter fun b => b.block.typeCode ≠ 10) = (v.blocks.filter fun b => b.block.typeCode ≠ 10) ∧
      ((m.aware = false ∨ v.byType 10 = [] ∨ ∃ x, ValidCteb v x) → v' = v) ∧
      (m.aware = true → (∃ x c, HasCteb v x c ∧ v.primary.custodian ≠ c) →
        ∀ b ∈ v'.byType 10, b.deleted = true) := by
  obtain ⟨u1, _, _, u4, u5, u6⟩ := update_refuse (process_view h)
  exact ⟨u1, u4, u5, u6⟩

/-- C66: a received bundle whose custody was accepted, written and read at the next hop, has this node as
custodian and, if this node knows CTEBs, a valid CTEB with the identifier this node chose; the payload and
the other fields of the primary block are the received ones. The flags of its blocks must fit in one byte
(see C56) and the new primary block must be serializable (see C38). -/
theorem C66_next_hop (aware : Bool) (me : Eid) (hme : EidFits me) (m m' : Mgr) (hm : Reached aware me m)
    (buf : Bytes) (v v' : View) (hl : load buf = some v)
    (ho : ∀ b ∈ v.blocks, OneByteFlags b.raw b.block)
    (hser : (Bpv6Primary.serialize { v.primary with custodian := me }).1.isSome = true)
    (id : Nat) (hid : id < 2 ^ 64) (i : Fin 7) (now : Nat) (t : DtnTime) (r : Option Rendered)
    (h : process m v true id i now t = some (v', r, m')) :
    ∃ out w, v'.render = some (out, w) ∧ load out = some w ∧
      w.primary = { v.primary with custodian := me, blockLength := w.primary.blockLength } ∧
      (aware = true → ValidCteb w id) ∧
      (w.byType 1).map (fun b => (b.body, b.block.data)) =
        (v.byType 1).map (fun b => (b.body, b.block.data)) := by
  obtain ⟨_, h1, h2⟩ := reached_inv hm hme
  subst h1; subst h2
  have hnm : ¬ Malformed m.aware v := fun hh => by
    rw [(process_none_iff m v true id i now t).2 hh] at h
    simp at h
  exact next_hop hme hl ho hid (process_view h) hser (malformed_payload hnm)

/-! ### C67 -/

/-- C67: sending everything gives exactly one aggregate custody signal for each custodian and outcome with
pending identifiers, carrying exactly these, and leaves nothing pending. -/
theorem C67_flush (aware : Bool) (me : Eid) (hme : EidFits me) (m : Mgr) (hm : Reached aware me m)
    (clock : Nat → Nat) (hclock : ∀ k, clock k < 2 ^ 64) :
    (generateAll m clock).1 = true ∧
      ((generateAll m clock).2.1.map fun x => (x.1, x.2.1)).Nodup ∧
      (∀ c i, (c, i) ∈ (generateAll m clock).2.1.map (fun x => (x.1, x.2.1)) ↔
        ∃ x, Covers (m.pending c i) x) ∧
      (∀ c i r, (c, i, r) ∈ (generateAll m clock).2.1 → ∃ out w n q, r = .done out w ∧
        IsAdminBundle out me c 0 (clock n) q (aggregateFor i (m.pending c i))) ∧
      (∀ c i, (generateAll m clock).2.2.pending c i = []) := by
  obtain ⟨hi, h1, _⟩ := reached_inv hm hme
  subst h1
  obtain ⟨i1, _, _, _, _, i6, i7, i8, i9⟩ := all_done hi hme (reached_below hm) clock hclock
  refine ⟨i1, i6, ?_, ?_, i9⟩
  · intro c i
    rw [i7]
    constructor
    · intro hne
      obtain ⟨f, fs, hfs⟩ := List.exists_cons_of_ne_nil hne
      have hf : f ∈ m.pending c i := by rw [hfs]; simp
      exact ⟨f.b, f, hf, Nat.le_refl _, ((hi.canonical c i).1 f hf).1⟩
    · rintro ⟨x, hx⟩
      exact covers_ne_nil hx
  · intro c i r hr
    obtain ⟨out, w, n, q, a1, _, _, a4⟩ := i8 _ hr
    exact ⟨out, w, n, q, a1, a4⟩

/-- C67, in part: in every history of calls in which no pending set has more than 101 ranges, the
identifiers owed to a custodian with an outcome are exactly those still pending and those in the aggregate
custody signals sent: none is lost, none invented, none sent to another custodian or with another outcome.
Missing: larger sets; see `C67_violated`. -/
theorem C67_conserved_partial (aware : Bool) (me : Eid) (hme : EidFits me) (ops : List Op)
    (hf : ∀ op ∈ ops, op.Fits) (hb : Below 101 (init aware me) ops) (c : Eid) (j : Fin 7) (x : Nat) :
    (∃ op ∈ ops, Owes aware op c j x) ↔
      Covers ((run (init aware me) ops).1.pending c j) x ∨ Carries me (run (init aware me) ops).2 c j x := by
  have h := (run_ok ops (init aware me) (inv_init aware me) hme hb hf).2.2.2.2.2 c j x
  have hz : ¬ Covers ((init aware me).pending c j) x := covers_nil x
  rw [show (init aware me).me = me from rfl, show (init aware me).aware = aware from rfl] at h
  simp only [hz, false_or] at h
  exact h.symm

/-- C67: a caller that sends everything as soon as `GetLargestNumberOfFills` exceeds a threshold of at most
100, as the storage module does with its default setting, satisfies the hypothesis of the theorems. -/
theorem C67_threshold (aware : Bool) (me : Eid) (hme : EidFits me) (n : Nat) (hn : n ≤ 100) (ops : List Op)
    (hf : ∀ op ∈ ops, op.Fits) (hs : SendsAbove n (init aware me) ops) : Below 101 (init aware me) ops := by
  intro before hb
  have := sendsAbove_below hn (init aware me) (inv_init aware me) hme (Nat.zero_le _) ops hf hs before hb
  omega

/-- With 1088 ranges or more the buffer overflows. -/
theorem acs_overflow {m : Mgr} (h : Inv m) (hme : EidFits m.me) (c : Eid) (hc : EidFits c) (i : Fin 7)
    (fills : List Frag) (hf : Canonical fills) (hl : 1088 ≤ fills.length) (hl' : fills.length < 2 ^ 59)
    (now : Nat) (hnow : now < 2 ^ 64) :
    generateAcs m c i fills now = some (.overflow, (stamp m now).2) := by
  have hne : fills ≠ [] := by rintro rfl; simp at hl
  obtain ⟨d, hd, hl1, hl2⟩ := aggregate_sound i fills hf hne
  obtain ⟨_, hs, _⟩ := stamp_seq h now
  obtain ⟨out, w, h1, _, h3, _⟩ := admin_rendered m.me c hme hc 0 now
    (stamp m now).1.2 hnow hs _ d hd (by omega)
  unfold generateAcs
  rw [if_neg hne]
  simp only
  have h1' : (adminView (adminPrimary (adminFlags 0) m.me c (stamp m now).1) (acsRecord i fills)).render =
      some (out, w) := by rw [acsRecord_eq]; exact h1
  unfold View.renderMax
  rw [h1']
  simp only
  rw [if_pos (by have : primaryRoom + 2000 = 2175 := rfl; omega)]

/-- A bundle from 5.1 to 7.1 in custody of 6.0, with a CTEB with this identifier. -/
def bundleOf (x : Nat) : View :=
  ⟨⟨8, 0, ⟨7, 1⟩, ⟨5, 1⟩, ⟨0, 0⟩, ⟨6, 0⟩, 1000, x, 60, 0, 0⟩, [], true,
    [newBlock 10 0 [] (.ext (.cteb x (Uri.getIpnUriString 6 0))), newBlock 1 0 [104, 105] .plain]⟩

theorem bundleOf_valid (x : Nat) : ValidCteb (bundleOf x) x :=
  ⟨_, Uri.getIpnUriString 6 0, rfl, rfl, parse_me ⟨6, 0⟩ ⟨by decide, by decide⟩⟩

theorem bundleOf_fits (x : Nat) (hx : x + 1 < 2 ^ 64) : PrimaryFits (bundleOf x).primary := by
  refine ⟨?_, ⟨?_, ?_⟩, ⟨?_, ?_⟩, ⟨?_, ?_⟩, ⟨?_, ?_⟩, ?_, ?_, ?_, ?_, ?_⟩ <;> simp only [bundleOf] <;> omega

theorem process_bundleOf_fits (x : Nat) (hx : x + 1 < 2 ^ 64) (accept : Bool) (id : Nat) (hid : id < 2 ^ 64)
    (i : Fin 7) (now : Nat) (hnow : now < 2 ^ 64) (t : DtnTime) (ht : TimeFits t) :
    (Op.process (bundleOf x) accept id i now t).Fits := by
  refine ⟨bundleOf_fits x hx, ?_, hid, ?_, hnow, ht⟩
  · intro b hb
    simp only [bundleOf, List.mem_cons, List.not_mem_nil, or_false] at hb
    rcases hb with rfl | rfl <;> simp [newBlock]
  · intro y hy
    rw [(hasCteb_unique hy (bundleOf_valid x)).1]
    exact hx

/-- Acceptance of the bundles with identifiers 0, 2, 4, ... -/
def evenOps (n : Nat) : List Op :=
  (List.range n).map fun k => .process (bundleOf (2 * k)) true k 0 5 ⟨5, 0⟩

theorem even_pending (n : Nat) (hn : n ≤ 2000) :
    (run (init true ⟨9, 0⟩) (evenOps n)).2 = [] ∧ Inv (run (init true ⟨9, 0⟩) (evenOps n)).1 ∧
      (run (init true ⟨9, 0⟩) (evenOps n)).1.me = ⟨9, 0⟩ ∧
      (run (init true ⟨9, 0⟩) (evenOps n)).1.aware = true ∧
      ∀ y, Covers ((run (init true ⟨9, 0⟩) (evenOps n)).1.pending ⟨6, 0⟩ 0) y ↔ ∃ k < n, y = 2 * k := by
  induction n with
  | zero =>
    refine ⟨rfl, inv_init _ _, rfl, rfl, fun y => ?_⟩
    have : ¬ Covers ((init true ⟨9, 0⟩).pending ⟨6, 0⟩ 0) y := covers_nil y
    exact ⟨fun h => absurd h this, fun ⟨k, hk, _⟩ => by omega⟩
  | succ n ih =>
    obtain ⟨i1, i2, i3, i4, i5⟩ := ih (by omega)
    have he : evenOps (n + 1) = evenOps n ++ [.process (bundleOf (2 * n)) true n 0 5 ⟨5, 0⟩] := by
      unfold evenOps
      rw [List.range_succ, List.map_append, List.map_singleton]
    rw [he, run_append]
    generalize run (init true ⟨9, 0⟩) (evenOps n) = r at *
    obtain ⟨m, outs⟩ := r
    simp only at i1 i2 i3 i4 i5 ⊢
    obtain ⟨v', _, hp⟩ := process_valid (m := m) (v := bundleOf (2 * n)) rfl i4 (bundleOf_valid (2 * n)) true n 0
      5 ⟨5, 0⟩
    obtain ⟨a1, a2, _⟩ := inv_aggregate i2 ⟨6, 0⟩ ⟨by decide, by decide⟩ 0 (2 * n) (by omega)
    have hs : run m [.process (bundleOf (2 * n)) true n 0 5 ⟨5, 0⟩] = (aggregate m ⟨6, 0⟩ 0 (2 * n), []) := by
      simp only [run, step, hp, if_true]
      rfl
    rw [hs]
    refine ⟨by simp [i1], a1, i3, i4, fun y => ?_⟩
    simp only
    rw [a2, i5]
    constructor
    · rintro (⟨k, hk, rfl⟩ | rfl)
      · exact ⟨k, by omega, rfl⟩
      · exact ⟨n, by omega, rfl⟩
    · rintro ⟨k, hk, rfl⟩
      by_cases hkn : k = n
      · exact .inr (by rw [hkn])
      · exact .inl ⟨k, by omega, rfl⟩

/-- C67 fails for large sets: after 1088 bundles with identifiers 0, 2, 4, ... were accepted, the aggregate
custody signal is written beyond the end of its buffer. -/
theorem C67_violated : ∃ ops : List Op, (∀ op ∈ ops, op.Fits) ∧
    Out.acs ⟨6, 0⟩ 0 .overflow ∈ (run (init true ⟨9, 0⟩) ops).2 := by
  refine ⟨evenOps 1088 ++ [.one ⟨6, 0⟩ 0 false 6], ?_, ?_⟩
  · intro op ho
    rcases List.mem_append.1 ho with ho | ho
    · obtain ⟨k, hk, rfl⟩ := List.mem_map.1 ho
      have hk' := List.mem_range.1 hk
      exact process_bundleOf_fits _ (by omega) _ _ (by omega) _ _ (by decide) _ ⟨by decide, by decide⟩
    · simp only [List.mem_singleton] at ho
      subst ho
      exact ⟨⟨by decide, by decide⟩, by decide⟩
  · obtain ⟨i1, i2, i3, i4, i5⟩ := even_pending 1088 (by omega)
    rw [run_append]
    generalize run (init true ⟨9, 0⟩) (evenOps 1088) = r at *
    obtain ⟨m, outs⟩ := r
    simp only at i1 i2 i3 i4 i5 ⊢
    have hcan : Canonical ((List.range 1088).map fun k => (⟨2 * k, 2 * k⟩ : Frag)) := by
      refine ⟨?_, ?_⟩
      · intro f hf
        obtain ⟨k, hk, rfl⟩ := List.mem_map.1 hf
        have := List.mem_range.1 hk
        exact ⟨Nat.le_refl _, by simp only; omega⟩
      · rw [List.pairwise_map]
        refine List.Pairwise.imp ?_ (List.pairwise_lt_range (n := 1088))
        intro a b hab
        simp only
        omega
    have hpen : m.pending ⟨6, 0⟩ 0 = (List.range 1088).map fun k => (⟨2 * k, 2 * k⟩ : Frag) := by
      refine canonical_unique _ _ (i2.canonical _ _) hcan fun y => ?_
      rw [i5]
      constructor
      · rintro ⟨k, hk, rfl⟩
        exact ⟨⟨2 * k, 2 * k⟩, List.mem_map.2 ⟨k, List.mem_range.2 hk, rfl⟩, Nat.le_refl _, Nat.le_refl _⟩
      · rintro ⟨f, hf, h1, h2⟩
        obtain ⟨k, hk, rfl⟩ := List.mem_map.1 hf
        simp only at h1 h2
        exact ⟨k, List.mem_range.1 hk, by omega⟩
    have hov := acs_overflow i2 (by rw [i3]; exact ⟨by decide, by decide⟩) ⟨6, 0⟩ ⟨by decide, by decide⟩ 0
      (m.pending ⟨6, 0⟩ 0) (i2.canonical _ _) (by rw [hpen]; simp) (by rw [hpen]; simp) 6 (by decide)
    have hone : (step m (.one ⟨6, 0⟩ 0 false 6)).2 = [.acs ⟨6, 0⟩ 0 .overflow] := by
      simp only [step, generateOne, hov]
    rw [run, hone]
    simp

/-! ### C68 -/

/-- C68: bundles are released only by a signal that tells of success, or of a failure because the bundle
was received before (reason 3). -/
theorem C68_only_on_success (v : View) (h : processAdmin v ≠ .nothing) :
    ∃ b r content status, v.byType 1 = [b] ∧ b.body = .admin r ∧ r.content = some content ∧
      ((∃ fills, content = .aggregate status fills) ∨ ∃ s, content = .custody s ∧ s.status = status) ∧
      (128 ≤ status.toNat ∨ status.toNat % 128 = 3) := by
  have hrel : ∀ s : UInt8, releases s = true → 128 ≤ s.toNat ∨ s.toNat % 128 = 3 := by
    have : ∀ k < 256, releases (UInt8.ofNat k) = true → 128 ≤ (UInt8.ofNat k).toNat ∨
        (UInt8.ofNat k).toNat % 128 = 3 := by decide +kernel
    intro s
    simpa using this s.toNat s.toNat_lt
  unfold processAdmin at h
  split at h
  · rename_i b hb
    split at h
    · rename_i ty fr st fills hbody
      split at h
      · simp at h
      · rename_i hr
        exact ⟨b, _, _, st, hb, hbody, rfl, .inl ⟨fills, rfl⟩, hrel st (by simpa using hr)⟩
    · rename_i ty fr c hbody
      split at h
      · simp at h
      · rename_i hr
        exact ⟨b, _, _, c.status, hb, hbody, rfl, .inr ⟨c, rfl, rfl⟩, hrel _ (by simpa using hr)⟩
    · simp at h
  · simp at h

/-- C68: an aggregate custody signal that arrives at its destination frees exactly the identifiers in it if
it tells of success or of redundant reception, and otherwise nothing. -/
theorem C68_aggregate (out : Bytes) (source me : Eid) (p s q : Nat) (hp : p < 4) (i : Fin 7)
    (fills : List Frag) (hf : Canonical fills)
    (h : IsAdminBundle out source me p s q (aggregateFor i fills)) :
    ∃ v, load out = some v ∧ isAdminFor v.primary me = true ∧
      processAdmin v = if i = 0 ∨ i = 1 then .ids fills else .nothing := by
  obtain ⟨v, b, h1, h2, h3, h4⟩ := admin_arrives h hp
  refine ⟨v, h1, h2, ?_⟩
  unfold processAdmin
  rw [h3]
  simp only [h4, aggregateFor, releases_status]
  have hany : (fills.any fun f => f.e == 2 ^ 64 - 1) = false := by
    rw [List.any_eq_false]
    intro f hff
    have := (hf.1 f hff).2
    simp only [beq_iff_eq]
    omega
  rw [hany]
  by_cases hi : i = 0 ∨ i = 1 <;> simp [hi]

/-- C68: a custody signal that arrives at its destination releases exactly the bundle, or fragment, that it
was made for if it tells of success or of redundant reception, and otherwise nothing. -/
theorem C68_signal (out : Bytes) (source me : Eid) (p s q : Nat) (hp : p < 4) (i : Fin 7) (b : Primary)
    (hb : PrimaryFits b) (n : Nat) (t : DtnTime)
    (h : IsAdminBundle out source me p s q (signalFor b n i t)) :
    ∃ v, load out = some v ∧ isAdminFor v.primary me = true ∧
      processAdmin v = if i = 0 ∨ i = 1 then
        .bundle b.source b.creationSeconds b.creationSequence
          (if b.flags.testBit 0 then some (b.fragmentOffset, n) else none)
      else .nothing := by
  obtain ⟨v, bl, h1, h2, h3, h4⟩ := admin_arrives h hp
  refine ⟨v, h1, h2, ?_⟩
  unfold processAdmin
  rw [h3]
  simp only [h4, signalFor, releases_status, parse_me b.source hb.2.2.1]
  by_cases hi : i = 0 ∨ i = 1
  · cases hfr : b.flags.testBit 0 <;> simp [hi]
  · simp [hi]

/-- C68, from end to end: let the next hop make any history of calls, and let custodian `c` receive any of
the aggregate custody signals addressed to it. It frees an identifier only if the next hop was given a bundle
with this identifier and `c` as custodian, and accepted custody of it or refused because it has it. And each
such identifier is freed when the signals arrive, unless it is still pending at the next hop. -/
theorem C68_end_to_end (aware : Bool) (me : Eid) (hme : EidFits me) (ops : List Op) (hf : ∀ op ∈ ops, op.Fits)
    (hb : Below 101 (init aware me) ops) (c : Eid) (x : Nat) :
    ((∃ j out w v fills, Out.acs c j (.done out w) ∈ (run (init aware me) ops).2 ∧ load out = some v ∧
        isAdminFor v.primary c = true ∧ processAdmin v = .ids fills ∧ Covers fills x) →
      ∃ op ∈ ops, Owes aware op c 0 x ∨ Owes aware op c 1 x) ∧
    (∀ j, j = 0 ∨ j = 1 → (∃ op ∈ ops, Owes aware op c j x) →
      ¬ Covers ((run (init aware me) ops).1.pending c j) x →
      ∃ out w v fills, Out.acs c j (.done out w) ∈ (run (init aware me) ops).2 ∧ load out = some v ∧
        isAdminFor v.primary c = true ∧ processAdmin v = .ids fills ∧ Covers fills x) := by
  have hacs := (run_ok ops (init aware me) (inv_init aware me) hme hb hf).2.2.2.2.1
  constructor
  · rintro ⟨j, out, w, v, fills, h1, h2, h3, h4, h5⟩
    obtain ⟨out', w', s, q, fills', e, hcan, hadm⟩ := hacs c j _ h1
    simp only [Rendered.done.injEq] at e
    obtain ⟨rfl, rfl⟩ := e
    obtain ⟨v', g1, g2, g3⟩ := C68_aggregate out me c 0 s q (by decide) j fills' hcan hadm
    rw [h2, Option.some.injEq] at g1
    subst g1
    rw [h4] at g3
    by_cases hj : j = 0 ∨ j = 1
    · rw [if_pos hj] at g3
      simp only [Release.ids.injEq] at g3
      subst g3
      obtain ⟨op, ho, how⟩ := (C67_conserved_partial aware me hme ops hf hb c j x).2
        (.inr ⟨out, w, s, q, fills, h1, hadm, h5⟩)
      refine ⟨op, ho, ?_⟩
      rcases hj with rfl | rfl
      · exact .inl how
      · exact .inr how
    · rw [if_neg hj] at g3
      simp at g3
  · intro j hj how hnp
    rcases (C67_conserved_partial aware me hme ops hf hb c j x).1 how with h | h
    · exact absurd h hnp
    · obtain ⟨out, w, s, q, fills, h1, h2, h3⟩ := h
      obtain ⟨out', w', s', q', fills', e, hcan, hadm⟩ := hacs c j _ h1
      simp only [Rendered.done.injEq] at e
      obtain ⟨rfl, rfl⟩ := e
      have hff := aggregateFor_inj (isAdmin_unique h2 hadm).2.2.2.2
      subst hff
      obtain ⟨v', g1, g2, g3⟩ := C68_aggregate out me c 0 s q (by decide) j fills hcan h2
      rw [if_pos hj] at g3
      exact ⟨out, w, v', fills, h1, g1, g2, g3, h3⟩

/-- C68 fails for a range that ends with the largest identifier: freeing it never ends. -/
theorem C68_endless_violated : ∃ out v, load out = some v ∧ isAdminFor v.primary ⟨6, 0⟩ = true ∧
    processAdmin v = .endless := by
  have h : (load [6, 22, 13, 6, 0, 9, 0, 0, 0, 0, 0, 5, 0, 135, 104, 0, 1, 8, 13, 64, 128, 5, 129, 255, 255,
      255, 255, 255, 255, 255, 255, 123]).map (fun v => (isAdminFor v.primary ⟨6, 0⟩, processAdmin v)) =
      some (true, .endless) := by decide +kernel
  obtain ⟨v, h1, h2⟩ := Option.map_eq_some_iff.1 h
  simp only [Prod.mk.injEq] at h2
  exact ⟨_, v, h1, h2.1, h2.2⟩

/-! ### Instances -/

/-- Two bundles accepted, one refused for lack of storage, one without CTEB, one report; then everything is
sent. -/
def demo : List Op :=
  [.process (bundleOf 3) true 70 0 5 ⟨5, 1⟩, .process (bundleOf 4) true 71 0 5 ⟨5, 2⟩,
   .process (bundleOf 8) false 0 2 6 ⟨6, 0⟩,
   .process { bundleOf 9 with blocks := [newBlock 1 0 [104, 105] .plain] } true 72 0 7 ⟨7, 9⟩,
   .report (bundleOf 3).primary 2 8 ⟨8, 0⟩, .flush fun k => 9 + k % 100]

theorem demo_fits : ∀ op ∈ demo, op.Fits := by
  intro op ho
  simp only [demo, List.mem_cons, List.not_mem_nil, or_false] at ho
  rcases ho with rfl | rfl | rfl | rfl | rfl | rfl
  · exact process_bundleOf_fits _ (by decide) _ _ (by decide) _ _ (by decide) _ ⟨by decide, by decide⟩
  · exact process_bundleOf_fits _ (by decide) _ _ (by decide) _ _ (by decide) _ ⟨by decide, by decide⟩
  · exact process_bundleOf_fits _ (by decide) _ _ (by decide) _ _ (by decide) _ ⟨by decide, by decide⟩
  · refine ⟨bundleOf_fits 9 (by decide), by simp [newBlock], by decide, ?_, by decide, by decide, by decide⟩
    rintro x ⟨b, e, hb, _⟩
    simp [View.byType, newBlock] at hb
  · exact ⟨bundleOf_fits 3 (by decide), by decide, by decide, by decide, by decide⟩
  · intro k
    show 9 + k % 100 < 2 ^ 64
    omega

theorem demo_below : Below 101 (init true ⟨9, 0⟩) demo := by
  have : ∀ before ∈ demo.inits, (run (init true ⟨9, 0⟩) before).1.largest ≤ 101 := by decide +kernel
  exact fun before hb => this before ((List.mem_inits _ _).2 hb)

/-- The hypotheses of the theorems hold for `demo` (and `EidFits` for its endpoints). -/
example : (∀ op ∈ demo, op.Fits) ∧ Below 101 (init true ⟨9, 0⟩) demo ∧ EidFits ⟨9, 0⟩ ∧
    Reached true ⟨9, 0⟩ (run (init true ⟨9, 0⟩) demo).1 ∧ (∀ op ∈ demo, op.Ticking) :=
  ⟨demo_fits, demo_below, ⟨by decide, by decide⟩, ⟨demo, demo_fits, demo_below, rfl⟩, by
    intro op ho
    simp only [demo, List.mem_cons, List.not_mem_nil, or_false] at ho
    rcases ho with rfl | rfl | rfl | rfl | rfl | rfl <;> simp [Op.Ticking]⟩

/-- A caller with threshold 1 sends after the third bundle. -/
example : SendsAbove 1 (init true ⟨9, 0⟩)
    [.process (bundleOf 3) true 70 0 5 ⟨5, 1⟩, .process (bundleOf 5) true 71 0 5 ⟨5, 2⟩, .flush fun _ => 9] ∧
    (run (init true ⟨9, 0⟩) [.process (bundleOf 3) true 70 0 5 ⟨5, 1⟩,
      .process (bundleOf 5) true 71 0 5 ⟨5, 2⟩]).1.largest = 2 := by
  refine ⟨?_, by decide +kernel⟩
  rintro before op ⟨rest, h⟩ hl
  match before, h with
  | [], h => exact absurd hl (by decide)
  | [a], h =>
    simp only [List.cons_append, List.nil_append, List.cons.injEq] at h
    obtain ⟨rfl, _⟩ := h
    exact absurd hl (by decide +kernel)
  | [a, b], h =>
    simp only [List.cons_append, List.nil_append, List.cons.injEq] at h
    exact ⟨_, h.2.2.1⟩
  | a :: b :: c :: d, h =>
    simp at h

/-- What the previous custodian does with the four bundles: the signal releases one bundle, the report
and the refusal nothing, the aggregate signal identifiers 3 and 4. -/
example : ((run (init true ⟨9, 0⟩) demo).2.map fun o =>
    match o.rendered with
    | .done out _ => (load out).map processAdmin
    | _ => none) =
    [some (.bundle ⟨5, 1⟩ 1000 9 none), some .nothing, some (.ids [⟨3, 4⟩]), some .nothing] := by
  decide +kernel

/-- The hypotheses of C66: a bundle with a valid CTEB, one without, one with the CTEB of another custodian,
and a malformed one. -/
example : ValidCteb (bundleOf 3) 3 ∧ ((bundleOf 3).byType 1).length = 1 ∧
    (¬ Malformed true { bundleOf 9 with blocks := [newBlock 1 0 [104, 105] .plain] }) ∧
    (HasCteb { bundleOf 3 with primary := { (bundleOf 3).primary with custodian := ⟨8, 0⟩ } } 3 ⟨6, 0⟩) ∧
    Malformed true { bundleOf 9 with blocks := [] } := by
  refine ⟨bundleOf_valid 3, rfl, ?_, bundleOf_valid 3, .inl (by decide)⟩
  rintro (h | ⟨_, h, _⟩)
  · exact h (by decide)
  · exact h (by decide)

/-- The hypotheses of `C66_next_hop`: the bundle is written, read, and accepted by node 9. -/
example : ∃ buf v, load buf = some v ∧ (∀ b ∈ v.blocks, OneByteFlags b.raw b.block) ∧
    (Bpv6Primary.serialize { v.primary with custodian := ⟨9, 0⟩ }).1.isSome = true ∧
    (process (init true ⟨9, 0⟩) v true 70 0 5 ⟨5, 1⟩).isSome = true := by
  have h : ((bundleOf 3).render.bind fun x => (load x.1).map fun v =>
      (v.blocks.all fun b => decide (b.block.flags ≤ 127) && b.raw[1]? == some (UInt8.ofNat b.block.flags)) &&
      (Bpv6Primary.serialize { v.primary with custodian := ⟨9, 0⟩ }).1.isSome &&
      (process (init true ⟨9, 0⟩) v true 70 0 5 ⟨5, 1⟩).isSome) = some true := by decide +kernel
  obtain ⟨⟨buf, _⟩, _, h⟩ := Option.bind_eq_some_iff.1 h
  obtain ⟨v, hv, h⟩ := Option.map_eq_some_iff.1 h
  simp only [Bool.and_eq_true, List.all_eq_true, decide_eq_true_eq, beq_iff_eq] at h
  exact ⟨buf, v, hv, h.1.1, h.1.2, h.2⟩

/-- Two reports about different bundles, as in `C42_violated`. -/
example : PrimaryFits (bundleOf 3).primary ∧ PrimaryFits (bundleOf 4).primary ∧
    deletionFor (bundleOf 3).primary 0 ⟨5, 0⟩ ≠ deletionFor (bundleOf 4).primary 0 ⟨5, 0⟩ :=
  ⟨bundleOf_fits 3 (by decide), bundleOf_fits 4 (by decide), by decide +kernel⟩

end Hdtn.CustodyManager
