import Verif.LtpLink.Model
import Verif.LtpSender.Props
import Verif.LtpReceiver.Props

namespace Hdtn.LtpLink
open Hdtn.LtpReport
open Hdtn.LtpReceiver (Seg)

/-- What is always true of the two histories. -/
structure Ok (cs : LtpSender.Cfg) (cr : LtpReceiver.Cfg) (csn rsn : Nat) (sys : Sys) : Prop where
  srun : LtpSender.run cs (LtpSender.init cs csn) sys.sevs = some (sys.s, sys.seffs)
  rrun : LtpReceiver.run cr (LtpReceiver.init rsn) sys.revs = some (sys.r, sys.reffs)
  reports : ∀ n c r, LtpSender.Event.report n c r ∈ sys.sevs → LtpReceiver.Eff.send n c r ∈ sys.reffs
  data : ∀ s, LtpReceiver.Event.data s ∈ sys.revs → s ∈ LtpSender.segments sys.seffs
  fair : LtpSender.Fair cs sys.sevs
  faithful : LtpReceiver.Faithful cs.redBytes sys.revs

/-- Settings that fit together: there is a red part and the receiver accepts one of this length. -/
structure Fit (cs : LtpSender.Cfg) (cr : LtpReceiver.Cfg) : Prop where
  sender : cs.Sane
  receiver : cr.Sane
  red : 1 ≤ cs.red
  accepts : cs.red ≤ cr.maxRedRx

theorem Fit.redPos {cs : LtpSender.Cfg} {cr : LtpReceiver.Cfg} (h : Fit cs cr) : 1 ≤ cs.redBytes.length := by
  rw [LtpSender.redBytes_length cs h.sender]; exact h.red

theorem Fit.redMax {cs : LtpSender.Cfg} {cr : LtpReceiver.Cfg} (h : Fit cs cr) :
    cs.redBytes.length ≤ cr.maxRedRx := by
  rw [LtpSender.redBytes_length cs h.sender]; exact h.accepts

theorem start_ok (cs : LtpSender.Cfg) (cr : LtpReceiver.Cfg) (csn rsn : Nat) :
    Ok cs cr csn rsn (start cs csn rsn) where
  srun := rfl
  rrun := rfl
  reports := by simp [start]
  data := by simp [start]
  fair := by intro n c r h; simp [start] at h
  faithful := ⟨by simp [start], by intro s t a b c h; simp [start] at h⟩

theorem segment_facts {cs : LtpSender.Cfg} {csn : Nat} (hc : cs.Sane) (hs : csn < 2 ^ 64)
    {evs : List LtpSender.Event} (hf : LtpSender.Fair cs evs) {st : LtpSender.State} {effs : List LtpSender.Eff}
    (h : LtpSender.run cs (LtpSender.init cs csn) evs = some (st, effs)) :
    ∀ s ∈ LtpSender.segments effs, LtpSender.SegOk cs s := by
  obtain ⟨st', effs', h1, h2⟩ := LtpSender.story cs hc csn hs evs hf
  rw [h] at h1
  simp only [Option.some.injEq, Prod.mk.injEq] at h1
  obtain ⟨rfl, rfl⟩ := h1
  exact h2.segs

theorem act_ok {cs : LtpSender.Cfg} {cr : LtpReceiver.Cfg} (hfit : Fit cs cr) {csn rsn : Nat}
    (hcsn : csn < 2 ^ 64) {sys sys' : Sys} (h : Ok cs cr csn rsn sys) {x : Action} (hp : Possible sys x)
    (ha : act cs cr sys x = some sys') (hlen : sys'.sevs.length ≤ 2 ^ 64) : Ok cs cr csn rsn sys' := by
  cases x with
  | sender e =>
    rw [act] at ha
    split at ha
    · cases ha
    · rename_i s effs hstep
      simp only [Option.some.injEq] at ha
      subst ha
      refine ⟨?_, h.rrun, ?_, ?_, ?_, h.faithful⟩
      · simp only; rw [LtpSender.run_snoc cs _ _ _ _ _ h.srun, hstep]; rfl
      · intro n c r hm
        rcases List.mem_append.1 hm with hm | hm
        · exact h.reports n c r hm
        · simp only [List.mem_singleton] at hm
          subst hm
          exact hp
      · intro s hs
        simp only
        rw [LtpSender.segments_append]
        exact List.mem_append_left _ (h.data s hs)
      · intro n c r hm
        rcases List.mem_append.1 hm with hm | hm
        · exact h.fair n c r hm
        · simp only [List.mem_singleton] at hm
          subst hm
          obtain ⟨st, effs, k1, k2⟩ := LtpReceiver.C57_reports_exact cr hfit.receiver cs.redBytes hfit.redPos
            hfit.redMax rsn sys.revs h.faithful
          rw [h.rrun] at k1
          simp only [Option.some.injEq, Prod.mk.injEq] at k1
          obtain ⟨rfl, rfl⟩ := k1
          obtain ⟨pre, -, k3, -, k4, -⟩ := k2 n c r hp
          rw [LtpSender.redBytes_length cs hfit.sender] at k4
          exact ⟨k3, k4⟩
  | receiver e =>
    rw [act] at ha
    split at ha
    · cases ha
    · rename_i s effs hstep
      simp only [Option.some.injEq] at ha
      subst ha
      have hsub : ∀ t, LtpReceiver.Event.data t ∈ sys.revs ++ [e] → t ∈ LtpSender.segments sys.seffs := by
        intro t hm
        rcases List.mem_append.1 hm with hm | hm
        · exact h.data t hm
        · simp only [List.mem_singleton] at hm
          subst hm
          exact hp
      refine ⟨h.srun, ?_, ?_, hsub, h.fair, ?_, ?_⟩
      · simp only; rw [LtpReceiver.run_snoc _ _ _ _ _ _ h.rrun, hstep]
      · intro n c r hm
        exact List.mem_append_left _ (h.reports n c r hm)
      · intro t ht
        exact (segment_facts hfit.sender hcsn h.fair h.srun t (hsub t ht)).piece
      · intro t u a b c ht hu h1 h2 h3 h4
        obtain ⟨st, effs, k1, -, -, k2⟩ := LtpSender.C20_checkpoint_transmissions cs hfit.sender csn hcsn
          sys.sevs h.fair hlen
        rw [h.srun] at k1
        simp only [Option.some.injEq, Prod.mk.injEq] at k1
        obtain ⟨rfl, rfl⟩ := k1
        exact (k2 t (hsub t ht) u (hsub u hu) a b c h3 h4).2

theorem act_length {cs : LtpSender.Cfg} {cr : LtpReceiver.Cfg} {sys sys' : Sys} {x : Action}
    (ha : act cs cr sys x = some sys') : sys.sevs.length ≤ sys'.sevs.length := by
  cases x with
  | sender e =>
    rw [act] at ha
    split at ha
    · cases ha
    · simp only [Option.some.injEq] at ha; subst ha; simp
  | receiver e =>
    rw [act] at ha
    split at ha
    · cases ha
    · simp only [Option.some.injEq] at ha; subst ha; exact Nat.le_refl _

theorem leads_ok {cs : LtpSender.Cfg} {cr : LtpReceiver.Cfg} (hfit : Fit cs cr) {csn rsn : Nat}
    (hcsn : csn < 2 ^ 64) {a b : Sys} (h : Leads cs cr a b) (ha : Ok cs cr csn rsn a)
    (hlen : b.sevs.length ≤ 2 ^ 64) : Ok cs cr csn rsn b := by
  induction h with
  | refl => exact ha
  | step b c x hl hp hact ih =>
    exact act_ok hfit hcsn (ih (Nat.le_trans (act_length hact) hlen)) hp hact hlen

theorem reach_ok {cs : LtpSender.Cfg} {cr : LtpReceiver.Cfg} (hfit : Fit cs cr) {csn rsn : Nat}
    (hcsn : csn < 2 ^ 64) {sys : Sys} (h : Reach cs cr csn rsn sys) (hlen : sys.sevs.length ≤ 2 ^ 64) :
    Ok cs cr csn rsn sys :=
  leads_ok hfit hcsn h (start_ok cs cr csn rsn) hlen

theorem Leads.trans {cs : LtpSender.Cfg} {cr : LtpReceiver.Cfg} {a b c : Sys} (h1 : Leads cs cr a b)
    (h2 : Leads cs cr b c) : Leads cs cr a c := by
  induction h2 with
  | refl => exact h1
  | step b c x _ hp hact ih => exact .step _ _ _ x ih hp hact

end Hdtn.LtpLink
