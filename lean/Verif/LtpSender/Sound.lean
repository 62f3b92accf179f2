import Verif.LtpSender.History

/-!
Completion of a session whatever the receiver sends.
-/

namespace Hdtn.LtpSender
open Hdtn.FragmentSet Hdtn.LtpReport
open Hdtn.LtpReceiver (Seg Reason)

/-- The parts of the state that only reports and completion touch. -/
structure Kept (st st' : State) : Prop where
  acked : st'.acked = st.acked
  seen : st'.seen = st.seen
  allRed : st'.allRed = st.allRed
  didNotify : st'.didNotify = st.didNotify
  index : st'.index = st.index

theorem Kept.refl (st : State) : Kept st st := ⟨rfl, rfl, rfl, rfl, rfl⟩

theorem Kept.trans {a b c : State} (h : Kept a b) (k : Kept b c) : Kept a c :=
  ⟨k.acked.trans h.acked, k.seen.trans h.seen, k.allRed.trans h.allRed,
    k.didNotify.trans h.didNotify, k.index.trans h.index⟩

theorem queuePiece_kept (cfg : Cfg) (serial : Nat) (l : Bool) (e : Nat) (st : State) (p : Nat × Nat) :
    Kept st (queuePiece cfg serial l e st p) := by
  unfold queuePiece
  split <;> exact ⟨rfl, rfl, rfl, rfl, rfl⟩

theorem queueAll_kept (cfg : Cfg) (serial : Nat) (l : Bool) (e : Nat) (ps : List (Nat × Nat))
    (st : State) : Kept st (ps.foldl (queuePiece cfg serial l e) st) := by
  induction ps generalizing st with
  | nil => exact Kept.refl st
  | cons p ps ih => exact (queuePiece_kept cfg serial l e st p).trans (ih _)

theorem resendData_kept (cfg : Cfg) (serial : Nat) (fs : List Frag) (st st' : State)
    (h : resendData cfg serial st fs = some st') : Kept st st' := by
  induction fs generalizing st with
  | nil => simp only [resendData, Option.some.injEq] at h; subst h; exact Kept.refl st
  | cons f fs ih =>
    rw [resendData] at h
    split at h
    · cases h
    · exact (queueAll_kept cfg serial _ _ _ st).trans (ih _ h)

theorem resendAll_kept (cfg : Cfg) (l : List (Nat × List Frag)) (st st' : State)
    (h : resendAll cfg st l = some st') : Kept st st' := by
  induction l generalizing st with
  | nil => simp only [resendAll, Option.some.injEq] at h; subst h; exact Kept.refl st
  | cons p l ih =>
    obtain ⟨serial, gaps⟩ := p
    rw [resendAll] at h
    split at h
    · cases h
    · rename_i st1 h1
      exact (resendData_kept cfg serial gaps st st1 h1).trans (ih _ h)

theorem scheduleResend_kept (cfg : Cfg) (st st' : State) (serial : Nat) (b : Frag)
    (h : scheduleResend cfg st serial b = some st') : Kept st st' := by
  rw [scheduleResend] at h
  simp only at h
  split at h
  · exact resendData_kept cfg serial _ st st' h
  · split at h
    · split at h <;> simp only [Option.some.injEq] at h <;> subst h <;> exact ⟨rfl, rfl, rfl, rfl, rfl⟩
    · split at h
      · cases h
      · split at h <;> simp only [Option.some.injEq] at h <;> subst h <;>
          exact ⟨rfl, rfl, rfl, rfl, rfl⟩

theorem firstRed_kept (cfg : Cfg) (st st' : State) (effs : List Eff)
    (h : firstRed cfg st = some (st', effs)) :
    Kept st { st' with index := st.index } ∧ ∃ s, effs = [.first s] := by
  rw [firstRed] at h
  split at h
  · cases h
  · split at h <;> simp only [Option.some.injEq, Prod.mk.injEq] at h <;> obtain ⟨rfl, rfl⟩ := h <;>
      exact ⟨⟨rfl, rfl, rfl, rfl, rfl⟩, _, rfl⟩

theorem firstGreen_kept (cfg : Cfg) (st st' : State) (effs : List Eff)
    (h : firstGreen cfg st = some (st', effs)) :
    Kept st { st' with index := st.index } ∧ ∃ s, effs = [.first s] := by
  rw [firstGreen] at h
  split at h
  · cases h
  · simp only [Option.some.injEq, Prod.mk.injEq] at h
    obtain ⟨rfl, rfl⟩ := h
    exact ⟨⟨rfl, rfl, rfl, rfl, rfl⟩, _, rfl⟩

/-- What a step does in terms of completion. -/
inductive Ends (cfg : Cfg) (st st' : State) : List Eff → Prop where
  | silent {effs : List Eff} : (∀ c r, Eff.delete c r ∉ effs) → st'.didNotify = st.didNotify →
      Ends cfg st st' effs
  | failed {effs : List Eff} : (∀ r, Eff.delete false r ∉ effs) →
      deletions effs = (if st.didNotify then 0 else 1) → st'.didNotify = true → Ends cfg st st' effs
  | done {effs : List Eff} : (∀ c r, Eff.delete c r ∈ effs → c = false) → st'.index = cfg.block.length →
      (cfg.red = 0 ∨ st'.allRed = true ∨ redAcked cfg st'.acked = true) →
      deletions effs = (if st.didNotify then 0 else 1) → st'.didNotify = true → Ends cfg st st' effs

theorem no_delete {effs : List Eff} (h : ∀ c r, Eff.delete c r ∉ effs) : deletions effs = 0 := by
  unfold deletions
  rw [List.countP_eq_zero]
  intro e he
  cases e with
  | delete c r => exact absurd he (h c r)
  | _ => simp

theorem firstPass_ends (cfg : Cfg) (st st' : State) (effs : List Eff)
    (h : firstPass cfg st = some (st', effs)) :
    st'.acked = st.acked ∧ st'.seen = st.seen ∧ st'.allRed = st.allRed ∧
      (st'.index = st.index ∨ st.index < cfg.block.length) ∧ Ends cfg st st' effs := by
  rw [firstPass] at h
  split at h
  · rename_i hlt
    have key : ∀ st1 effs1, (if st.index < cfg.red then firstRed cfg st else firstGreen cfg st) =
        some (st1, effs1) → Kept st { st1 with index := st.index } ∧ ∃ s, effs1 = [.first s] := by
      intro st1 effs1 h1
      split at h1
      · exact firstRed_kept cfg st st1 effs1 h1
      · exact firstGreen_kept cfg st st1 effs1 h1
    generalize (if st.index < cfg.red then firstRed cfg st else firstGreen cfg st) = o at h key
    cases o with
    | none => cases h
    | some p =>
      obtain ⟨st1, effs1⟩ := p
      obtain ⟨⟨k1, k2, k3, k4, -⟩, s, rfl⟩ := key st1 effs1 rfl
      simp only at k1 k2 k3 k4 h
      split at h
      · rename_i hfull
        split at h
        · rename_i hd
          rw [notifyDelete_spec] at h
          simp only [Option.some.injEq, Prod.mk.injEq] at h
          obtain ⟨rfl, rfl⟩ := h
          refine ⟨k1, k2, k3, .inr hlt, .done ?_ hfull ?_ ?_ rfl⟩
          · intro c r; rw [k4]; split <;> simp <;> exact fun h _ => h
          · rcases hd with hd | hd
            · exact .inl hd
            · exact .inr (.inr hd)
          · rw [k4]; split <;> rfl
        · simp only [Option.some.injEq, Prod.mk.injEq] at h
          obtain ⟨rfl, rfl⟩ := h
          exact ⟨k1, k2, k3, .inr hlt, .silent (by simp) k4⟩
      · simp only [Option.some.injEq, Prod.mk.injEq] at h
        obtain ⟨rfl, rfl⟩ := h
        exact ⟨k1, k2, k3, .inr hlt, .silent (by simp) k4⟩
  · simp only [Option.some.injEq, Prod.mk.injEq] at h
    obtain ⟨rfl, rfl⟩ := h
    exact ⟨rfl, rfl, rfl, .inl rfl, .silent (by simp) rfl⟩

theorem next_ends (cfg : Cfg) (st st' : State) (effs : List Eff)
    (h : nextCritical cfg st = some (st', effs)) :
    Kept st st' ∧ ∀ c r, Eff.delete c r ∉ effs := by
  rw [nextCritical] at h
  split at h
  · simp only [Option.some.injEq, Prod.mk.injEq] at h
    obtain ⟨rfl, rfl⟩ := h
    exact ⟨⟨rfl, rfl, rfl, rfl, rfl⟩, by simp⟩
  · split at h
    · simp only [Option.some.injEq, Prod.mk.injEq] at h
      obtain ⟨rfl, rfl⟩ := h
      exact ⟨⟨rfl, rfl, rfl, rfl, rfl⟩, by simp⟩
    · split at h
      · simp only [Option.some.injEq, Prod.mk.injEq] at h
        obtain ⟨rfl, rfl⟩ := h
        exact ⟨⟨rfl, rfl, rfl, rfl, rfl⟩, by simp⟩
      · split at h
        · cases h
        · split at h <;> simp only [Option.some.injEq, Prod.mk.injEq] at h <;> obtain ⟨rfl, rfl⟩ := h <;>
            exact ⟨⟨rfl, rfl, rfl, rfl, rfl⟩, by simp⟩

theorem delay_ends (cfg : Cfg) (st st' : State) (effs : List Eff)
    (h : delayExpired cfg st = some (st', effs)) :
    Kept st st' ∧ ∀ c r, Eff.delete c r ∉ effs := by
  rw [delayExpired] at h
  split at h
  · simp only [Option.some.injEq, Prod.mk.injEq] at h
    obtain ⟨rfl, rfl⟩ := h
    exact ⟨⟨rfl, rfl, rfl, rfl, rfl⟩, by simp⟩
  · split at h
    · cases h
    · rename_i st1 h1
      have := resendAll_kept cfg _ st st1 h1
      simp only [Option.some.injEq, Prod.mk.injEq] at h
      obtain ⟨rfl, rfl⟩ := h
      refine ⟨⟨this.acked, this.seen, this.allRed, this.didNotify, this.index⟩, ?_⟩
      intro c r; split <;> simp

theorem expired_ends (cfg : Cfg) (st st' : State) (effs : List Eff) (csn : Nat)
    (h : checkpointExpired cfg st csn = (st', effs)) :
    st'.acked = st.acked ∧ st'.seen = st.seen ∧ st'.allRed = st.allRed ∧ st'.index = st.index ∧
      Ends cfg st st' effs := by
  rw [checkpointExpired] at h
  split at h
  · simp only [Prod.mk.injEq] at h
    obtain ⟨rfl, rfl⟩ := h
    exact ⟨rfl, rfl, rfl, rfl, .silent (by simp) rfl⟩
  · simp only at h
    split at h
    · split at h <;> simp only [Prod.mk.injEq] at h <;> obtain ⟨rfl, rfl⟩ := h <;>
        exact ⟨rfl, rfl, rfl, rfl, .silent (by simp) rfl⟩
    · rw [notifyDelete_spec] at h
      simp only [Prod.mk.injEq] at h
      obtain ⟨rfl, rfl⟩ := h
      refine ⟨rfl, rfl, rfl, rfl, .failed ?_ ?_ rfl⟩
      · intro r; split <;> simp
      · split <;> rfl

theorem report_ends (cfg : Cfg) (st st' : State) (effs : List Eff) (n c : Nat) (r : Report)
    (h : reportSegment cfg st n c r = some (st', effs)) :
    st'.index = st.index ∧
      ((n ∈ st.seen ∧ st'.acked = st.acked ∧ st'.seen = st.seen ∧ st'.allRed = st.allRed) ∨
       (n ∉ st.seen ∧ st'.acked = (addReport st.acked r).1 ∧ st'.seen = n :: st.seen ∧
        (st'.allRed = true → st.allRed = true ∨ redAcked cfg (addReport st.acked r).1 = true))) ∧
      Ends cfg st st' effs := by
  rw [reportSegment] at h
  simp only at h
  by_cases hs : n ∈ st.seen
  · simp only [hs, if_true, Option.some.injEq, Prod.mk.injEq, List.nil_append] at h
    obtain ⟨rfl, rfl⟩ := h
    exact ⟨rfl, .inl ⟨hs, rfl, rfl, rfl⟩, .silent (by intro c r; split <;> simp) rfl⟩
  · simp only [hs, if_false] at h
    cases hnew : (addReport st.acked r).2 with
    | false =>
      simp only [hnew, Bool.false_eq_true, if_false, Option.some.injEq, Prod.mk.injEq,
        List.nil_append] at h
      obtain ⟨rfl, rfl⟩ := h
      exact ⟨rfl, .inr ⟨hs, rfl, rfl, fun h => .inl h⟩, .silent (by intro c r; split <;> simp) rfl⟩
    | true =>
      simp only [hnew, if_true, newClaims] at h
      by_cases hd : st.index = cfg.block.length ∧
          (st.allRed || redAcked cfg (addReport st.acked r).1) = true
      · rw [if_pos hd, notifyDelete_spec] at h
        simp only at h
        split at h
        · cases h
        · rename_i st1 effs1 h1
          split at h1
          · cases h1
          · rename_i st2 h2
            have k := scheduleResend_kept cfg _ st2 _ _ h2
            simp only [Option.some.injEq, Prod.mk.injEq] at h1 h
            obtain ⟨rfl, rfl⟩ := h1
            obtain ⟨rfl, rfl⟩ := h
            have kd := k.didNotify
            have kl := k.allRed
            simp only at kd kl
            refine ⟨k.index, .inr ⟨hs, k.acked, k.seen, fun h => ?_⟩, .done ?_ ?_ ?_ ?_ kd⟩
            · rw [kl] at h; simpa using h
            · intro c r; rw [kd]; split <;> simp <;> exact fun h _ => h
            · rw [k.index]; exact hd.1
            · rw [kl]; exact .inr (.inl hd.2)
            · rw [kd]; split <;> rfl
      · rw [if_neg hd] at h
        simp only at h
        split at h
        · cases h
        · rename_i st1 effs1 h1
          split at h1
          · cases h1
          · rename_i st2 h2
            have k := scheduleResend_kept cfg _ st2 _ _ h2
            simp only [Option.some.injEq, Prod.mk.injEq] at h1 h
            obtain ⟨rfl, rfl⟩ := h1
            obtain ⟨rfl, rfl⟩ := h
            have kl := k.allRed
            simp only at kl
            refine ⟨k.index, .inr ⟨hs, k.acked, k.seen, fun h => ?_⟩,
              .silent (by intro c r; rw [List.nil_append]; split <;> simp) k.didNotify⟩
            rw [kl] at h; simpa using h

theorem Ends.once {cfg : Cfg} {st st' : State} {effs effs' : List Eff} (h : Ends cfg st st' effs')
    (k : deletions effs = if st.didNotify then 1 else 0) :
    deletions (effs ++ effs') = if st'.didNotify then 1 else 0 := by
  rw [deletions_append, k]
  cases h with
  | silent h1 h2 => rw [no_delete h1, h2]; rfl
  | failed h1 h2 h3 => rw [h2, h3]; cases st.didNotify <;> rfl
  | done h1 h2 h3 h4 h5 => rw [h4, h5]; cases st.didNotify <;> rfl

theorem step_ends (cfg : Cfg) (st st' : State) (effs : List Eff) (e : Event)
    (h : step cfg st e = some (st', effs)) : Ends cfg st st' effs := by
  cases e with
  | first => exact (firstPass_ends cfg st st' effs h).2.2.2.2
  | next => exact .silent (next_ends cfg st st' effs h).2 (next_ends cfg st st' effs h).1.didNotify
  | report n c r => exact (report_ends cfg st st' effs n c r h).2.2
  | checkpointExpired csn =>
    simp only [step, Option.some.injEq] at h
    exact (expired_ends cfg st st' effs csn h).2.2.2.2
  | delayExpired =>
    exact .silent (delay_ends cfg st st' effs h).2 (delay_ends cfg st st' effs h).1.didNotify

theorem once (cfg : Cfg) (serial : Nat) (evs : List Event) (st : State) (effs : List Eff)
    (h : run cfg (init cfg serial) evs = some (st, effs)) :
    deletions effs = if st.didNotify then 1 else 0 := by
  induction evs using List.reverseRecOn generalizing st effs with
  | nil =>
    simp only [run, Option.some.injEq, Prod.mk.injEq] at h
    obtain ⟨rfl, rfl⟩ := h
    simp [init, deletions]
  | append_singleton evs e ih =>
    obtain ⟨st1, x, y, h1, h2, rfl⟩ := run_snoc_inv cfg _ _ _ _ _ h
    exact (step_ends cfg st1 st y e h2).once (ih st1 x h1)

/-- All reports have non-empty claims that end below 2^64. -/
def AllInRange (evs : List Event) : Prop := ∀ n c r, Event.report n c r ∈ evs → r.InRange

structure Honest (cfg : Cfg) (evs : List Event) (st : State) (effs : List Eff) : Prop where
  acked : Canonical st.acked
  seen : ∀ n, n ∈ st.seen ↔ ∃ c r, Event.report n c r ∈ evs
  claimed : ∀ x, Covers st.acked x ↔ Claimed evs x
  allRed : st.allRed = true → ∀ x < cfg.red, Covers st.acked x
  success : ∀ r, Eff.delete false r ∈ effs → st.index = cfg.block.length ∧ ∀ x < cfg.red, Claimed evs x

theorem Honest.step {cfg : Cfg} (hred : cfg.red < 2 ^ 64) {evs : List Event} {st st' : State}
    {effs effs' : List Eff} {e : Event} (h : Honest cfg evs st effs)
    (hr : ∀ n c r, e = .report n c r → r.InRange) (hs : step cfg st e = some (st', effs')) :
    Honest cfg (evs ++ [e]) st' (effs ++ effs') := by
  have hends := step_ends cfg st st' effs' e hs
  have key : Canonical st'.acked ∧ (∀ n, n ∈ st'.seen ↔ ∃ c r, Event.report n c r ∈ evs ++ [e]) ∧
      (∀ x, Covers st'.acked x ↔ Claimed (evs ++ [e]) x) ∧
      (st'.allRed = true → ∀ x < cfg.red, Covers st'.acked x) ∧
      (st'.index = st.index ∨ st.index < cfg.block.length) := by
    have other : (∀ n c r, e ≠ .report n c r) → st'.acked = st.acked → st'.seen = st.seen →
        st'.allRed = st.allRed → (st'.index = st.index ∨ st.index < cfg.block.length) →
        Canonical st'.acked ∧ (∀ n, n ∈ st'.seen ↔ ∃ c r, Event.report n c r ∈ evs ++ [e]) ∧
        (∀ x, Covers st'.acked x ↔ Claimed (evs ++ [e]) x) ∧
        (st'.allRed = true → ∀ x < cfg.red, Covers st'.acked x) ∧
        (st'.index = st.index ∨ st.index < cfg.block.length) := by
      intro h1 h2 h3 h4 h5
      refine ⟨by rw [h2]; exact h.acked, fun n => ?_, fun x => ?_, by rw [h2, h4]; exact h.allRed, h5⟩
      · rw [h3, h.seen n]
        constructor
        · rintro ⟨c, r, hm⟩; exact ⟨c, r, by simp [hm]⟩
        · rintro ⟨c, r, hm⟩
          rcases List.mem_append.1 hm with hm | hm
          · exact ⟨c, r, hm⟩
          · exact absurd (List.mem_singleton.1 hm).symm (h1 n c r)
      · rw [h2, h.claimed x, claimed_not_report evs e h1]
    cases e with
    | first =>
      obtain ⟨k1, k2, k3, k4, -⟩ := firstPass_ends cfg st st' effs' hs
      exact other (by simp) k1 k2 k3 k4
    | next =>
      obtain ⟨k, -⟩ := next_ends cfg st st' effs' hs
      exact other (by simp) k.acked k.seen k.allRed (.inl k.index)
    | checkpointExpired csn =>
      simp only [LtpSender.step, Option.some.injEq] at hs
      obtain ⟨k1, k2, k3, k4, -⟩ := expired_ends cfg st st' effs' csn hs
      exact other (by simp) k1 k2 k3 (.inl k4)
    | delayExpired =>
      obtain ⟨k, -⟩ := delay_ends cfg st st' effs' hs
      exact other (by simp) k.acked k.seen k.allRed (.inl k.index)
    | report n c r =>
      obtain ⟨k1, k2, -⟩ := report_ends cfg st st' effs' n c r hs
      obtain ⟨a1, a2, -⟩ := C12_report_added st.acked h.acked r (hr n c r rfl)
      have hcl : ∀ x, Claimed (evs ++ [.report n c r]) x ↔ Claimed evs x ∨ (n ∉ st.seen ∧ r.Claims x) := by
        intro x
        rw [claimed_snoc, h.seen n]
        constructor
        · rintro (h | ⟨n', c', r', he, hn, hx⟩)
          · exact .inl h
          · injection he with e1 e2 e3
            subst e1 e2 e3
            exact .inr ⟨fun ⟨c'', r'', hm⟩ => hn c'' r'' hm, hx⟩
        · rintro (h | ⟨hn, hx⟩)
          · exact .inl h
          · exact .inr ⟨n, c, r, rfl, fun c'' r'' hm => hn ⟨c'', r'', hm⟩, hx⟩
      have hseen : ∀ m, (m = n ∨ m ∈ st.seen) ↔ ∃ c' r', Event.report m c' r' ∈ evs ++ [.report n c r] := by
        intro m
        rw [h.seen m]
        constructor
        · rintro (rfl | ⟨c', r', hm⟩)
          · exact ⟨c, r, by simp⟩
          · exact ⟨c', r', by simp [hm]⟩
        · rintro ⟨c', r', hm⟩
          rcases List.mem_append.1 hm with hm | hm
          · exact .inr ⟨c', r', hm⟩
          · simp only [List.mem_singleton, Event.report.injEq] at hm
            exact .inl hm.1
      rcases k2 with ⟨hin, b1, b2, b3⟩ | ⟨hout, b1, b2, b3⟩
      · refine ⟨by rw [b1]; exact h.acked, fun m => ?_, fun x => ?_, by rw [b1, b3]; exact h.allRed,
          .inl k1⟩
        · rw [← hseen m, b2]
          constructor
          · exact .inr
          · rintro (rfl | h)
            · exact hin
            · exact h
        · rw [b1, hcl x, h.claimed x]
          constructor
          · exact .inl
          · rintro (h | ⟨h, -⟩)
            · exact h
            · exact absurd hin h
      · refine ⟨by rw [b1]; exact a1, fun m => ?_, fun x => ?_, fun hall x hx => ?_, .inl k1⟩
        · rw [← hseen m, b2, List.mem_cons]
        · rw [b1, hcl x, a2 x, h.claimed x]
          constructor
          · rintro (h | h)
            · exact .inl h
            · exact .inr ⟨hout, h⟩
          · rintro (h | ⟨-, h⟩)
            · exact .inl h
            · exact .inr h
        · rw [b1]
          rcases b3 hall with h' | h'
          · exact (a2 x).2 (.inl (h.allRed h' x hx))
          · exact redAcked_covers cfg _ h' hred x hx
  obtain ⟨k1, k2, k3, k4, k5⟩ := key
  refine ⟨k1, k2, k3, k4, fun r hm => ?_⟩
  rcases List.mem_append.1 hm with hm | hm
  · obtain ⟨g1, g2⟩ := h.success r hm
    refine ⟨?_, fun x hx => (claimed_snoc _ _ _).2 (.inl (g2 x hx))⟩
    rcases k5 with k5 | k5
    · rw [k5]; exact g1
    · omega
  · cases hends with
    | silent h1 _ => exact absurd hm (h1 _ _)
    | failed h1 _ _ => exact absurd hm (h1 _)
    | done h1 h2 h3 _ _ =>
      refine ⟨h2, fun x hx => (k3 x).1 ?_⟩
      rcases h3 with h3 | h3 | h3
      · omega
      · exact k4 h3 x hx
      · exact redAcked_covers cfg _ h3 hred x hx

theorem honest (cfg : Cfg) (hred : cfg.red < 2 ^ 64) (serial : Nat) (evs : List Event) (st : State)
    (effs : List Eff) (hr : AllInRange evs) (h : run cfg (init cfg serial) evs = some (st, effs)) :
    Honest cfg evs st effs := by
  induction evs using List.reverseRecOn generalizing st effs with
  | nil =>
    simp only [run, Option.some.injEq, Prod.mk.injEq] at h
    obtain ⟨rfl, rfl⟩ := h
    refine ⟨canonical_nil, by simp [init], fun x => ?_, by simp [init], by simp⟩
    constructor
    · intro h; exact absurd h (covers_nil x)
    · rintro ⟨r, ⟨pre, n, c, post, h, -⟩, -⟩; simp at h
  | append_singleton evs e ih =>
    obtain ⟨st1, x, y, h1, h2, rfl⟩ := run_snoc_inv cfg _ _ _ _ _ h
    exact (ih st1 x (fun n c r hm => hr n c r (by simp [hm])) h1).step hred
      (fun n c r he => hr n c r (by simp [he])) h2

end Hdtn.LtpSender
