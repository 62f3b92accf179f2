import Verif.LtpLink.Recover

/-!
Theorems about a sending and a receiving LTP session together: C61, C62.
-/

namespace Hdtn.LtpLink
open Hdtn.LtpReport
open Hdtn.LtpReceiver (Seg)

/-- C61: whatever the network does, no action that can happen makes either session fail: no read or write
outside a buffer, no endless loop. -/
theorem C61_no_failure (cs : LtpSender.Cfg) (cr : LtpReceiver.Cfg) (hfit : Fit cs cr) (csn rsn : Nat)
    (hcsn : csn < 2 ^ 64) (sys : Sys) (h : Reach cs cr csn rsn sys) (hlen : sys.sevs.length < 2 ^ 64)
    (x : Action) (hp : Possible sys x) : ∃ sys', act cs cr sys x = some sys' := by
  have hok := reach_ok hfit hcsn h (by omega)
  cases x with
  | sender e =>
    obtain ⟨st, effs, h1, h2⟩ := LtpSender.story cs hfit.sender csn hcsn sys.sevs hok.fair
    rw [hok.srun] at h1
    simp only [Option.some.injEq, Prod.mk.injEq] at h1
    obtain ⟨rfl, rfl⟩ := h1
    have hfe : e.Fair cs := by
      cases e with
      | report n c r =>
        obtain ⟨st, effs, k1, k2⟩ := LtpReceiver.C57_reports_exact cr hfit.receiver cs.redBytes hfit.redPos
          hfit.redMax rsn sys.revs hok.faithful
        rw [hok.rrun] at k1
        simp only [Option.some.injEq, Prod.mk.injEq] at k1
        obtain ⟨rfl, rfl⟩ := k1
        obtain ⟨pre, -, k3, -, k4, -⟩ := k2 n c r hp
        rw [LtpSender.redBytes_length cs hfit.sender] at k4
        exact ⟨k3, k4⟩
      | _ => trivial
    obtain ⟨st', effs', k1, -⟩ := LtpSender.step_inv cs hfit.sender sys.s h2.inv e hfe
    rw [act, k1]
    exact ⟨_, rfl⟩
  | receiver e =>
    obtain ⟨st, effs, h1, h2⟩ := LtpReceiver.honest_run cr hfit.receiver cs.redBytes hfit.redPos hfit.redMax
      rsn sys.revs hok.faithful.1 hok.faithful.2
    rw [hok.rrun] at h1
    simp only [Option.some.injEq, Prod.mk.injEq] at h1
    obtain ⟨rfl, rfl⟩ := h1
    have hse : e.Sane := by
      cases e with
      | data s => exact (segment_facts hfit.sender hcsn hok.fair hok.srun s hp).piece.toSane
      | _ => trivial
    obtain ⟨st', effs', k1, -⟩ := LtpReceiver.step_inv cr hfit.receiver sys.r h2.inv e hse
    rw [act, k1]
    exact ⟨_, rfl⟩

/-- C61: whatever the network does, nothing but the red part of the block is ever delivered as such, and that
at most once. -/
theorem C61_only_the_red_part (cs : LtpSender.Cfg) (cr : LtpReceiver.Cfg) (hfit : Fit cs cr) (csn rsn : Nat)
    (hcsn : csn < 2 ^ 64) (sys : Sys) (h : Reach cs cr csn rsn sys) (hlen : sys.sevs.length ≤ 2 ^ 64) :
    LtpReceiver.deliveries sys.reffs = [] ∨
    LtpReceiver.deliveries sys.reffs = [(cs.block.take cs.red, cs.red)] := by
  have hok := reach_ok hfit hcsn h hlen
  obtain ⟨st, effs, h1, h2⟩ := LtpReceiver.C13_delivery cr hfit.receiver cs.redBytes hfit.redPos hfit.redMax
    rsn sys.revs hok.faithful
  rw [hok.rrun] at h1
  simp only [Option.some.injEq, Prod.mk.injEq] at h1
  obtain ⟨rfl, rfl⟩ := h1
  rw [h2, LtpSender.redBytes_length cs hfit.sender]
  split
  · right; rfl
  · left; rfl

/-- C61: whatever the network does, when the sender reports success, the receiver has delivered exactly
the red part of the block. -/
theorem C61_success_means_delivered (cs : LtpSender.Cfg) (cr : LtpReceiver.Cfg) (hfit : Fit cs cr)
    (csn rsn : Nat) (hcsn : csn < 2 ^ 64) (sys : Sys) (h : Reach cs cr csn rsn sys)
    (hlen : sys.sevs.length ≤ 2 ^ 64) (reason : LtpReceiver.Reason)
    (hs : LtpSender.Eff.delete false reason ∈ sys.seffs) :
    LtpReceiver.deliveries sys.reffs = [(cs.block.take cs.red, cs.red)] := by
  have hok := reach_ok hfit hcsn h hlen
  obtain ⟨st, effs, h1, h2⟩ := LtpReceiver.C13_delivery cr hfit.receiver cs.redBytes hfit.redPos hfit.redMax
    rsn sys.revs hok.faithful
  rw [hok.rrun] at h1
  simp only [Option.some.injEq, Prod.mk.injEq] at h1
  obtain ⟨rfl, rfl⟩ := h1
  obtain ⟨st, effs, k1, k2⟩ := LtpReceiver.C57_reports_exact cr hfit.receiver cs.redBytes hfit.redPos
    hfit.redMax rsn sys.revs hok.faithful
  rw [hok.rrun] at k1
  simp only [Option.some.injEq, Prod.mk.injEq] at k1
  obtain ⟨rfl, rfl⟩ := k1
  obtain ⟨st, effs, l1, l2⟩ := LtpSender.story cs hfit.sender csn hcsn sys.sevs hok.fair
  rw [hok.srun] at l1
  simp only [Option.some.injEq, Prod.mk.injEq] at l1
  obtain ⟨rfl, rfl⟩ := l1
  obtain ⟨-, -, hall⟩ := l2.success reason hs
  have hgot : ∀ x < cs.red, LtpReceiver.Got sys.revs x := by
    intro x hx
    obtain ⟨r, ⟨pre, n, c, post, he, -⟩, hcl⟩ := hall x hx
    have hm := hok.reports n c r (by rw [he]; simp)
    obtain ⟨p, hp, -, -, -, hex⟩ := k2 n c r hm
    obtain ⟨s, s1, s2⟩ := ((hex x).1 hcl).2
    exact ⟨s, hp.subset s1, s2⟩
  have hred := hfit.red
  have harr : LtpReceiver.Arrived cs.redBytes sys.revs := by
    refine ⟨fun x hx => hgot x (by rwa [LtpSender.redBytes_length cs hfit.sender] at hx), ?_⟩
    obtain ⟨s, s1, s2, s3⟩ := hgot (cs.red - 1) (by omega)
    refine ⟨s, s1, (l2.segs s (hok.data s s1)).ends s2 ?_⟩
    have hin := (l2.segs s (hok.data s s1)).piece.red_inside s2
    rw [LtpSender.redBytes_length cs hfit.sender] at hin
    simp only [Seg.Has] at s3
    omega
  rw [h2, if_pos harr, LtpSender.redBytes_length cs hfit.sender]
  rfl

/-- The sender may go on with its first pass. -/
theorem leads_first (cs : LtpSender.Cfg) (cr : LtpReceiver.Cfg) (hfit : Fit cs cr) (csn rsn : Nat)
    (hcsn : csn < 2 ^ 64) (k : Nat) (sys : Sys) (h : Reach cs cr csn rsn sys)
    (hlen : sys.sevs.length + k ≤ 2 ^ 64) (hno : ∀ r, LtpSender.Eff.delete true r ∉ sys.seffs) :
    ∃ sys', Leads cs cr sys sys' ∧ sys'.sevs = sys.sevs ++ List.replicate k .first ∧
      ∀ r, LtpSender.Eff.delete true r ∉ sys'.seffs := by
  induction k generalizing sys with
  | zero => exact ⟨sys, .refl _, by simp, hno⟩
  | succ k ih =>
    obtain ⟨sys1, h1⟩ := C61_no_failure cs cr hfit csn rsn hcsn sys h (by omega) (.sender .first) trivial
    have hl : Leads cs cr sys sys1 := .step _ _ _ _ (.refl _) (by trivial) h1
    rw [act] at h1
    split at h1
    · cases h1
    · rename_i s effs hs
      simp only [Option.some.injEq] at h1
      subst h1
      obtain ⟨sys2, k1, k2, k3⟩ := ih _ (Leads.trans h hl)
        (by simp only [List.length_append, List.length_singleton]; omega) (by
          intro r hm
          rcases List.mem_append.1 hm with hm | hm
          · exact hno r hm
          · exact first_no_failure hs r hm)
      refine ⟨sys2, hl.trans k1, ?_, k3⟩
      rw [k2, List.replicate_succ]
      simp

/-- C62: if a plain segment completed the red part, whatever was lost or repeated before or after that, the sender
can still succeed as long as it has not given up: there is a continuation in which it reports success. Only with
2^64 events or reports could the serial numbers run out. Missing for the full property: the red part may as well be completed by a
checkpoint, see the theorems below. -/
theorem C62_plain_completion_partial (cs : LtpSender.Cfg) (cr : LtpReceiver.Cfg) (hfit : Fit cs cr)
    (csn rsn : Nat) (hcsn : csn < 2 ^ 64) (hrsn : rsn < 2 ^ 64) (sys : Sys) (h : Reach cs cr csn rsn sys)
    (hlen : sys.sevs.length + cs.block.length + 1 ≤ 2 ^ 64) (hcount : sys.reffs.count .producible ≤ 2 ^ 64)
    (pre post : List LtpReceiver.Event) (s : Seg) (hrevs : sys.revs = pre ++ .data s :: post)
    (hopen : ¬ LtpReceiver.Arrived (cs.block.take cs.red) pre)
    (harr : LtpReceiver.Arrived (cs.block.take cs.red) (pre ++ [.data s]))
    (hplain : s.IsRed ∧ ¬ s.IsCheckpoint)
    (hlive : LtpSender.deletions sys.seffs = 0) :
    ∃ sys', Leads cs cr sys sys' ∧ ∃ reason, LtpSender.Eff.delete false reason ∈ sys'.seffs := by
  have hok := reach_ok hfit hcsn h (by omega)
  have hno : ∀ r, LtpSender.Eff.delete true r ∉ sys.seffs := by
    intro r hm
    rw [LtpSender.deletions, List.countP_eq_zero] at hlive
    exact hlive _ hm rfl
  have hflags : s.flags = 0 := by
    have h1 := hplain.1
    have h2 := hplain.2
    simp only [Seg.IsRed, Seg.IsCheckpoint] at h1 h2
    omega
  have hrun := hok.rrun
  have hfa := hok.faithful
  rw [hrevs] at hrun hfa
  obtain ⟨n, c, hsent⟩ := full_sent hfit.receiver hfit.redPos hfit.redMax hrsn hfa hflags hopen harr hrun hcount
  rw [LtpSender.redBytes_length cs hfit.sender] at hsent
  have hsane : ∀ e ∈ sys.revs, e.Sane := by
    intro e he
    cases e with
    | data t => exact (hok.faithful.1 t he).toSane
    | _ => trivial
  obtain ⟨st, effs, l1, l2, l3⟩ := LtpReceiver.ledger_run cr hfit.receiver rsn hrsn sys.revs hsane
  rw [hok.rrun] at l1
  simp only [Option.some.injEq, Prod.mk.injEq] at l1
  obtain ⟨rfl, rfl⟩ := l1
  obtain ⟨⟨k, -, hretry⟩, hledger⟩ := l3 hcount
  -- the full report is sent
  have hone : ∃ sys1, Leads cs cr sys sys1 ∧ sys1.sevs = sys.sevs ∧ sys1.seffs = sys.seffs ∧
      LtpReceiver.Eff.send n c (full cs.red) ∈ sys1.reffs ∧
      ∀ c' r', LtpReceiver.Eff.send n c' r' ∈ sys1.reffs → r' = full cs.red := by
    obtain ⟨r1, effs1, d1, -, d3, d4, -, d6⟩ := LtpReceiver.drain cr sys.r.queue.length sys.r l2 (Nat.le_refl _)
    obtain ⟨sys1, e1, e2, e3, e4, e5⟩ := leads_next (cs := cs) sys.r.queue.length d1
    refine ⟨sys1, e1, e2, e3, ?_, ?_⟩
    · rw [e4]
      rcases hledger.sent _ hsent with hh | ⟨r, hq⟩
      · exact List.mem_append_left _ hh
      · obtain ⟨c', r', f1, f2⟩ := d6 _ hq
        have f3 := LtpReceiver.find_key sys.r.sent hretry.keysNodup _ hsent
        simp only at f1 f3
        rw [f3] at f1
        simp only [Option.some.injEq, Prod.mk.injEq] at f1
        obtain ⟨-, rfl, rfl⟩ := f1
        exact List.mem_append_right _ f2
    · intro c' r' hm
      have hok1 := leads_ok hfit hcsn e1 hok (by rw [e2]; omega)
      obtain ⟨st, effs, k1, k2⟩ := LtpReceiver.honest_run cr hfit.receiver cs.redBytes hfit.redPos hfit.redMax
        rsn sys1.revs hok1.faithful.1 hok1.faithful.2
      rw [hok1.rrun] at k1
      simp only [Option.some.injEq, Prod.mk.injEq] at k1
      obtain ⟨rfl, rfl⟩ := k1
      have hin := k2.sends n c' r' hm
      rw [e5, d3] at hin
      have f1 := LtpReceiver.find_key sys.r.sent hretry.keysNodup _ hsent
      have f2 := LtpReceiver.find_key sys.r.sent hretry.keysNodup _ hin
      simp only at f1 f2
      rw [f2] at f1
      simp only [Option.some.injEq, Prod.mk.injEq] at f1
      exact f1.2.2
  obtain ⟨sys1, g1, g2, g3, g4, g5⟩ := hone
  -- the report arrives
  obtain ⟨sys2, h2⟩ := C61_no_failure cs cr hfit csn rsn hcsn sys1 (Leads.trans h g1) (by rw [g2]; omega)
    (.sender (.report n c (full cs.red))) g4
  have hl2 : Leads cs cr sys1 sys2 := .step _ _ _ (.sender (.report n c (full cs.red))) (.refl _) g4 h2
  rw [act] at h2
  split at h2
  · cases h2
  · rename_i s' effs' hs'
    simp only [Option.some.injEq] at h2
    -- and the rest of the block is sent
    obtain ⟨sys3, k1, k2, k3⟩ := leads_first cs cr hfit csn rsn hcsn cs.block.length sys2
      ((Leads.trans h g1).trans hl2)
      (by rw [← h2]; simp only [List.length_append, List.length_singleton, g2]; omega) (by
        intro r hm
        rw [← h2] at hm
        simp only at hm
        rcases List.mem_append.1 hm with hm | hm
        · exact hno r (g3 ▸ hm)
        · exact report_no_failure hs' r hm)
    refine ⟨sys3, g1.trans (hl2.trans k1), ?_⟩
    have hlen3 : sys3.sevs.length ≤ 2 ^ 64 := by
      rw [k2, ← h2]
      simp only [List.length_append, List.length_singleton, List.length_replicate, g2]
      omega
    have hok3 := reach_ok hfit hcsn ((Leads.trans h g1).trans (hl2.trans k1)) hlen3
    have hb : 1 ≤ cs.block.length := Nat.le_trans hfit.red hfit.sender.red
    obtain ⟨st, effs, m1, m2⟩ := LtpSender.C17_success_exact cs hfit.sender hb csn hcsn sys3.sevs hok3.fair
    rw [hok3.srun] at m1
    simp only [Option.some.injEq, Prod.mk.injEq] at m1
    obtain ⟨rfl, rfl⟩ := m1
    obtain ⟨st, effs, m3, m4, -⟩ := LtpSender.C16_covers_block cs hfit.sender csn hcsn sys3.sevs hok3.fair
      (by rw [k2, List.count_append, List.count_replicate_self]; omega)
    rw [hok3.srun] at m3
    simp only [Option.some.injEq, Prod.mk.injEq] at m3
    obtain ⟨rfl, rfl⟩ := m3
    refine (m2 k3).2 ⟨m4, fun x hx => ⟨full cs.red, accepted_of_mem (n := n) (c := c) ?_ ?_, ?_⟩⟩
    · rw [k2, ← h2]; simp
    · intro c' r' hm
      have hm2 : LtpSender.Event.report n c' r' ∈ sys1.sevs ++ [.report n c (full cs.red)] := by
        rw [k2, ← h2] at hm
        rcases List.mem_append.1 hm with hm | hm
        · exact hm
        · exact absurd (List.eq_of_mem_replicate hm) (by simp)
      rcases List.mem_append.1 hm2 with hm2 | hm2
      · have hok1 := reach_ok hfit hcsn (Leads.trans h g1) (by rw [g2]; omega)
        exact g5 c' r' (hok1.reports _ _ _ hm2)
      · simp only [List.mem_singleton, LtpSender.Event.report.injEq] at hm2
        exact hm2.2.2
    · refine ⟨⟨0, cs.red⟩, by simp [full], ?_⟩
      simp only [full]
      omega

/-! ### Examples -/

/-- A block of four bytes in four segments, of which the last alone is a checkpoint. -/
def exS : LtpSender.Cfg := ⟨1, 0, 2, false, 1, [10, 11, 12, 13], 4⟩
def exR : LtpReceiver.Cfg := ⟨10, 1000, 2, false⟩
/-- The plain segment at this offset. -/
def exD (i : Nat) : Seg := ⟨0, 1, i, 1, none, some [UInt8.ofNat (10 + i)]⟩
def exEnd : Seg := ⟨3, 1, 3, 1, some (7, 0), some [13]⟩

/-- The second segment is lost, the others arrive in reverse order and twice; the report says so, the lost segment is
sent again, and arrives. -/
def exActions : List Action :=
  List.replicate 4 (.sender .first) ++
  [.receiver (.data exEnd), .receiver (.data (exD 2)), .receiver (.data exEnd), .receiver (.data (exD 2)),
   .receiver (.data (exD 0)), .receiver .next, .sender (.report 100 7 ⟨0, 4, [⟨3, 1⟩]⟩), .sender .next, .sender .next,
   .sender .next, .sender .next, .receiver (.data (exD 1))]

/-- And then its report arrives. -/
def exRest : List Action :=
  [.receiver .next, .sender (.report 101 0 ⟨0, 4, [⟨0, 4⟩]⟩)]

theorem exFit : Fit exS exR := ⟨⟨by decide, by decide, by decide, by decide⟩, ⟨by decide, by decide⟩, by decide, by decide⟩

example : ((play exS exR (start exS 7 100) (exActions ++ exRest)).map fun sys =>
    (LtpReceiver.deliveries sys.reffs,
      decide (LtpSender.Eff.delete false .reserved ∈ sys.seffs))) =
    some ([([10, 11, 12, 13], 4)], true) := by
  decide +kernel

/-- The hypotheses of C61 can be met with success. -/
example : ∃ sys, Reach exS exR 7 100 sys ∧ sys.sevs.length ≤ 2 ^ 64 ∧
    LtpSender.Eff.delete false .reserved ∈ sys.seffs := by
  have h : ((play exS exR (start exS 7 100) (exActions ++ exRest)).map fun sys =>
      decide (sys.sevs.length = 10 ∧ LtpSender.Eff.delete false .reserved ∈ sys.seffs)) = some true := by
    decide +kernel
  obtain ⟨sys, h1, h2⟩ := Option.map_eq_some_iff.1 h
  have h3 := of_decide_eq_true h2
  exact ⟨sys, play_leads h1, by rw [h3.1]; decide, h3.2⟩

def exBefore : List LtpReceiver.Event :=
  [.data exEnd, .data (exD 2), .data exEnd, .data (exD 2), .data (exD 0), .next]

/-- The hypotheses of C62_plain_completion_partial can be met. -/
example : ∃ sys, Reach exS exR 7 100 sys ∧ sys.revs = exBefore ++ [.data (exD 1)] ∧
    ¬ LtpReceiver.Arrived (exS.block.take exS.red) exBefore ∧
    LtpReceiver.Arrived (exS.block.take exS.red) (exBefore ++ [.data (exD 1)]) ∧
    ((exD 1).IsRed ∧ ¬ (exD 1).IsCheckpoint) ∧
    sys.sevs.length + exS.block.length + 1 ≤ 2 ^ 64 ∧ sys.reffs.count .producible ≤ 2 ^ 64 ∧
    LtpSender.deletions sys.seffs = 0 := by
  have h : ((play exS exR (start exS 7 100) exActions).map fun sys =>
      decide (sys.revs = exBefore ++ [.data (exD 1)] ∧ sys.sevs.length = 9 ∧
        sys.reffs.count .producible = 2 ∧ LtpSender.deletions sys.seffs = 0)) = some true := by
    decide +kernel
  obtain ⟨sys, h1, h2⟩ := Option.map_eq_some_iff.1 h
  obtain ⟨a1, a2, a3, a4⟩ := of_decide_eq_true h2
  refine ⟨sys, play_leads h1, a1, ?_, ⟨?_, ⟨exEnd, by simp [exBefore], by decide⟩⟩, by decide,
    by rw [a2]; decide, by rw [a3]; decide, a4⟩
  · intro h
    obtain ⟨s, s1, -, s2, s3⟩ := h.1 1 (by decide)
    simp only [exBefore, List.mem_cons, LtpReceiver.Event.data.injEq, List.not_mem_nil, or_false, reduceCtorEq] at s1
    rcases s1 with rfl | rfl | rfl | rfl | rfl <;> simp [exEnd, exD] at s2 s3
  · intro x hx
    have hx : x < 4 := hx
    have : x = 0 ∨ x = 1 ∨ x = 2 ∨ x = 3 := by omega
    rcases this with rfl | rfl | rfl | rfl
    · exact ⟨exD 0, by simp [exBefore], by decide, by decide, by decide⟩
    · exact ⟨exD 1, by simp [exBefore], by decide, by decide, by decide⟩
    · exact ⟨exD 2, by simp [exBefore], by decide, by decide, by decide⟩
    · exact ⟨exEnd, by simp [exBefore], by decide, by decide, by decide⟩

/-! ### The receiver has the whole red part, but the sender can never learn this -/

/-- Every segment a checkpoint, as the setting of the checkpoint period allows. -/
def deadS : LtpSender.Cfg := ⟨1, 1, 2, false, 1, [10, 11], 2⟩
def deadA : Seg := ⟨1, 1, 0, 1, some (7, 0), some [10]⟩
def deadB : Seg := ⟨3, 1, 1, 1, some (8, 0), some [11]⟩
def deadActions : List Action :=
  [.sender .first, .sender .first, .receiver (.data deadB), .receiver (.data deadA)]

/-- C62 does not hold when a checkpoint completes the red part. Two segments that are both checkpoints are swapped on the way:
the one report goes out for the second segment when the first has not arrived yet, and when it arrives, the red part is
delivered, but no report is made, then or later. Whatever happens from then on, the sender never
succeeds. -/
theorem C62_checkpoints_violated : ∃ sys, Reach deadS exR 7 100 sys ∧
    LtpReceiver.deliveries sys.reffs = [([10, 11], 2)] ∧
    LtpSender.deletions sys.seffs = 0 ∧ LtpReceiver.deletions sys.reffs = 0 ∧
    ∀ sys', Leads deadS exR sys sys' → ∀ reason, LtpSender.Eff.delete false reason ∉ sys'.seffs := by
  have h : ((play deadS exR (start deadS 7 100) deadActions).map fun sys =>
      decide (LtpReceiver.deliveries sys.reffs = [([10, 11], 2)] ∧ LtpSender.deletions sys.seffs = 0 ∧
        LtpReceiver.deletions sys.reffs = 0 ∧ sys.r.didRed = true ∧ sys.r.pending = [] ∧
        sys.r.delayTimers = [] ∧ sys.r.sent = [(100, 8, ⟨0, 2, [⟨1, 1⟩]⟩)] ∧
        sys.sevs = [.first, .first] ∧
        sys.reffs = [.producible, .red [10, 11] 2 1 true])) = some true := by
    decide +kernel
  obtain ⟨sys, h1, h2⟩ := Option.map_eq_some_iff.1 h
  obtain ⟨a1, a2, a3, a4, a5, a6, a7, a8, a9⟩ := of_decide_eq_true h2
  have hreach : Reach deadS exR 7 100 sys := play_leads h1
  have hok := reach_ok (csn := 7) (rsn := 100)
    ⟨⟨by decide, by decide, by decide, by decide⟩, ⟨by decide, by decide⟩, by decide, by decide⟩
    (by decide) hreach (by rw [a8]; decide)
  refine ⟨sys, hreach, a1, a2, a3, fun sys' hl => ?_⟩
  refine final_leads (x := 0) (rs := [(100, 8, ⟨0, 2, [⟨1, 1⟩]⟩)]) (by decide) ?_ (by decide) ?_ hl hok.srun
    ⟨a4, a5, a6, a7⟩ ?_ ?_
  · intro k hk
    simp only [List.mem_singleton] at hk
    subst hk
    intro c hc
    simp only [List.mem_singleton] at hc
    subst hc
    decide
  · intro k hk
    simp only [List.mem_singleton] at hk
    subst hk
    rintro ⟨c, hc, h⟩
    simp only [List.mem_singleton] at hc
    subst hc
    simp at h
  · rw [a9]; simp
  · rw [a8]; simp

/-- Six segments of which only the last is a checkpoint, and a receiver that puts one claim in a report. -/
def splitS : LtpSender.Cfg := ⟨1, 0, 2, false, 1, [10, 11, 12, 13, 14, 15], 6⟩
def splitR : LtpReceiver.Cfg := ⟨1, 1000, 2, false⟩
def splitEnd : Seg := ⟨3, 1, 5, 1, some (7, 0), some [15]⟩
/-- The first segment, sent again as a checkpoint. -/
def splitAgain : Seg := ⟨1, 1, 0, 1, some (8, 100), some [10]⟩
def split1 : Report := ⟨0, 2, [⟨1, 1⟩]⟩
def split2 : Report := ⟨2, 6, [⟨3, 1⟩]⟩
def split3 : Report := ⟨0, 1, [⟨0, 1⟩]⟩
def splitActions : List Action :=
  List.replicate 6 (.sender .first) ++
  [.receiver (.data (exD 1)), .receiver (.data splitEnd), .receiver .next, .receiver .next,
   .sender (.report 100 7 split1), .sender (.report 101 7 split2)] ++
  List.replicate 6 (.sender .next) ++
  [.receiver (.data (exD 2)), .receiver (.data (exD 3)), .receiver (.data (exD 4)),
   .receiver (.data splitAgain)]

/-- C62 does not hold either when checkpoints are sent only where they must be. A report had to be split in two, and
both halves ask for segments to be sent again, with a checkpoint each. The missing segments arrive, first the plain ones,
and then one of the two checkpoints, which completes the red part: the report it gets is about its own half, and
the other half is never claimed. -/
theorem C62_split_reports_violated : ∃ sys, Reach splitS splitR 7 100 sys ∧
    LtpReceiver.deliveries sys.reffs = [([10, 11, 12, 13, 14, 15], 6)] ∧
    LtpSender.deletions sys.seffs = 0 ∧ LtpReceiver.deletions sys.reffs = 0 ∧
    ∀ sys', Leads splitS splitR sys sys' → ∀ reason, LtpSender.Eff.delete false reason ∉ sys'.seffs := by
  have h : ((play splitS splitR (start splitS 7 100) splitActions).map fun sys =>
      decide (LtpReceiver.deliveries sys.reffs = [([10, 11, 12, 13, 14, 15], 6)] ∧
        LtpSender.deletions sys.seffs = 0 ∧
        LtpReceiver.deletions sys.reffs = 0 ∧ sys.r.didRed = true ∧ sys.r.pending = [] ∧
        sys.r.delayTimers = [] ∧ sys.r.sent = [(100, 7, split1), (101, 7, split2), (102, 8, split3)] ∧
        sys.sevs = List.replicate 6 .first ++ [.report 100 7 split1, .report 101 7 split2] ++
          List.replicate 6 .next ∧
        sys.reffs = [.producible, .producible, .send 100 7 split1, .send 101 7 split2, .producible,
          .red [10, 11, 12, 13, 14, 15] 6 1 true])) = some true := by
    decide +kernel
  obtain ⟨sys, h1, h2⟩ := Option.map_eq_some_iff.1 h
  obtain ⟨a1, a2, a3, a4, a5, a6, a7, a8, a9⟩ := of_decide_eq_true h2
  have hreach : Reach splitS splitR 7 100 sys := play_leads h1
  have hok := reach_ok (csn := 7) (rsn := 100)
    ⟨⟨by decide, by decide, by decide, by decide⟩, ⟨by decide, by decide⟩, by decide, by decide⟩
    (by decide) hreach (by rw [a8]; decide)
  refine ⟨sys, hreach, a1, a2, a3, fun sys' hl => ?_⟩
  have hall : ∀ k ∈ [(100, 7, split1), (101, 7, split2), (102, 8, split3)],
      k.2.2.InRange ∧ ¬ k.2.2.Claims 2 := by
    intro k hk
    simp only [List.mem_cons, List.not_mem_nil, or_false] at hk
    rcases hk with rfl | rfl | rfl
    all_goals
      refine ⟨?_, ?_⟩
      · intro c hc
        simp only [split1, split2, split3, List.mem_singleton] at hc
        subst hc
        decide
      · rintro ⟨c, hc, h⟩
        simp only [split1, split2, split3, List.mem_singleton] at hc
        subst hc
        simp [split1, split2, split3] at h
  refine final_leads (x := 2) (rs := [(100, 7, split1), (101, 7, split2), (102, 8, split3)]) (by decide)
    (fun k hk => (hall k hk).1) (by decide) (fun k hk => (hall k hk).2) hl hok.srun ⟨a4, a5, a6, a7⟩ ?_ ?_
  · rw [a9]
    intro n c r hm
    simp only [List.mem_cons, reduceCtorEq, LtpReceiver.Eff.send.injEq, List.not_mem_nil, or_false, false_or] at hm
    rcases hm with ⟨rfl, rfl, rfl⟩ | ⟨rfl, rfl, rfl⟩ <;> simp
  · rw [a8]
    intro n c r hm
    simp only [List.replicate, List.cons_append, List.nil_append, List.mem_cons, reduceCtorEq,
      LtpSender.Event.report.injEq, List.not_mem_nil, or_false, false_or] at hm
    rcases hm with ⟨rfl, rfl, rfl⟩ | ⟨rfl, rfl, rfl⟩ <;> simp

end Hdtn.LtpLink
