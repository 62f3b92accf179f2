import Verif.LtpLink.Lemmas

/-! A state of the two sessions from which the sender cannot succeed any more. -/

namespace Hdtn.LtpLink
open Hdtn.LtpReport
open Hdtn.LtpReceiver (Seg)

/-- Nothing will be reported but these reports. -/
structure Final (rs : List (Nat × Nat × Report)) (st : LtpReceiver.State) : Prop where
  done : st.didRed = true
  pending : st.pending = []
  timers : st.delayTimers = []
  sent : st.sent = rs

theorem final_notify {rs : List (Nat × Nat × Report)} {st : LtpReceiver.State} (h : Final rs st) (c : Bool)
    (r : LtpReceiver.Reason) : Final rs (LtpReceiver.notifyDelete st c r).1 ∧
      ∀ n k q, LtpReceiver.Eff.send n k q ∉ (LtpReceiver.notifyDelete st c r).2 := by
  rw [LtpReceiver.notifyDelete]
  split
  · exact ⟨h, by simp⟩
  · exact ⟨⟨h.done, h.pending, h.timers, h.sent⟩, by simp⟩

theorem final_step {cr : LtpReceiver.Cfg} {rs : List (Nat × Nat × Report)} {st st' : LtpReceiver.State}
    {e : LtpReceiver.Event} {effs : List LtpReceiver.Eff} (h : Final rs st)
    (hs : LtpReceiver.step cr st e = some (st', effs)) :
    Final rs st' ∧ ∀ n c r, LtpReceiver.Eff.send n c r ∈ effs → (n, c, r) ∈ rs := by
  have no : ∀ (st : LtpReceiver.State), Final rs st → ∀ c r, some (LtpReceiver.notifyDelete st c r) = some (st', effs) →
      Final rs st' ∧ ∀ n c r, LtpReceiver.Eff.send n c r ∈ effs → (n, c, r) ∈ rs := by
    intro st h c r hh
    obtain ⟨k1, k2⟩ := final_notify h c r
    simp only [Option.some.injEq] at hh
    rw [hh] at k1 k2
    exact ⟨k1, fun n c r hm => absurd hm (k2 n c r)⟩
  cases e with
  | data s =>
    rw [LtpReceiver.step, LtpReceiver.dataSegment] at hs
    have h0 : Final rs (if s.flags &&& 3 = 3 then
        { st with eob := true, eobRed := decide (s.flags ≤ 3) } else st) := by
      split
      · exact ⟨h.done, h.pending, h.timers, h.sent⟩
      · exact h
    revert hs
    generalize (if s.flags &&& 3 = 3 then
        { st with eob := true, eobRed := decide (s.flags ≤ 3) } else st) = st0 at h0
    intro hs
    split at hs
    · rw [LtpReceiver.redSegment] at hs
      simp only [h0.done] at hs
      generalize (if (decide (st0.curRed < add64 s.offset s.length)) = true then add64 s.offset s.length
        else st0.curRed) = cur at hs
      split at hs
      · refine no _ ?_ _ _ hs
        exact ⟨rfl, h0.pending, h0.timers, h0.sent⟩
      · simp only [if_true, Option.some.injEq, Prod.mk.injEq] at hs
        obtain ⟨rfl, rfl⟩ := hs
        exact ⟨⟨rfl, h0.pending, h0.timers, h0.sent⟩, by simp⟩
    · rw [LtpReceiver.greenSegment] at hs
      simp only at hs
      have h1 : Final rs { st0 with lowestGreen := min s.offset st0.lowestGreen } :=
        ⟨h0.done, h0.pending, h0.timers, h0.sent⟩
      split at hs
      · exact no _ h1 _ _ hs
      · split at hs
        · cases hs
        · split at hs
          · cases hs
          · split at hs
            · simp only [Option.some.injEq, Prod.mk.injEq] at hs
              obtain ⟨k1, k2⟩ := final_notify h1 false .reserved
              rw [hs.1] at k1
              refine ⟨k1, fun n c r hm => ?_⟩
              rw [← hs.2] at hm
              rcases List.mem_append.1 hm with hm | hm
              · simp at hm
              · exact absurd hm (k2 n c r)
            · simp only [Option.some.injEq, Prod.mk.injEq] at hs
              obtain ⟨rfl, rfl⟩ := hs
              exact ⟨h1, by simp⟩
  | ack n =>
    rw [LtpReceiver.step] at hs
    simp only [LtpReceiver.reportAck] at hs
    have h1 : Final rs { st with rsnTimers := st.rsnTimers.filter fun t => t.1 ≠ n } :=
      ⟨h.done, h.pending, h.timers, h.sent⟩
    split at hs
    · exact no _ h1 _ _ hs
    · simp only [Option.some.injEq, Prod.mk.injEq] at hs
      obtain ⟨rfl, rfl⟩ := hs
      exact ⟨h1, by simp⟩
  | delayExpired n =>
    rw [LtpReceiver.step, LtpReceiver.delayExpired, h.timers] at hs
    simp only [List.find?_nil, Option.some.injEq, Prod.mk.injEq] at hs
    obtain ⟨rfl, rfl⟩ := hs
    exact ⟨h, by simp⟩
  | reportExpired n =>
    rw [LtpReceiver.step, LtpReceiver.reportExpired] at hs
    split at hs
    · simp only [Option.some.injEq, Prod.mk.injEq] at hs
      obtain ⟨rfl, rfl⟩ := hs
      exact ⟨h, by simp⟩
    · simp only at hs
      split at hs
      · simp only [Option.some.injEq, Prod.mk.injEq] at hs
        obtain ⟨rfl, rfl⟩ := hs
        exact ⟨⟨h.done, h.pending, h.timers, h.sent⟩, by simp⟩
      · have h1 : Final rs { st with rsnTimers := st.rsnTimers.filter fun t => t.1 ≠ n } :=
          ⟨h.done, h.pending, h.timers, h.sent⟩
        exact no _ h1 _ _ hs
  | next =>
    rw [LtpReceiver.step, LtpReceiver.nextDataToSend] at hs
    split at hs
    · simp only [Option.some.injEq, Prod.mk.injEq] at hs
      obtain ⟨rfl, rfl⟩ := hs
      exact ⟨h, by simp⟩
    · split at hs
      · cases hs
      · rename_i _ serial retry rest hq _ n cp r hf
        have hkey : n = serial := by simpa using List.find?_some hf
        simp only [Option.some.injEq, Prod.mk.injEq] at hs
        obtain ⟨rfl, rfl⟩ := hs
        refine ⟨⟨h.done, h.pending, h.timers, h.sent⟩, ?_⟩
        intro n' c' r' hm
        simp only [List.mem_singleton, LtpReceiver.Eff.send.injEq] at hm
        obtain ⟨rfl, rfl, rfl⟩ := hm
        rw [← hkey, ← h.sent]
        exact List.mem_of_find?_eq_some hf

/-- If the receiver is done and its reports leave a byte of the red part out, the sender never
succeeds. -/
theorem final_leads {cs : LtpSender.Cfg} {cr : LtpReceiver.Cfg} (hred : cs.red < 2 ^ 64) {csn : Nat}
    {rs : List (Nat × Nat × Report)} (hin : ∀ k ∈ rs, k.2.2.InRange) {x : Nat} (hx : x < cs.red)
    (hgap : ∀ k ∈ rs, ¬ k.2.2.Claims x) {a b : Sys} (hl : Leads cs cr a b)
    (hrun : LtpSender.run cs (LtpSender.init cs csn) a.sevs = some (a.s, a.seffs))
    (hfin : Final rs a.r) (hsent : ∀ n c r, LtpReceiver.Eff.send n c r ∈ a.reffs → (n, c, r) ∈ rs)
    (hrep : ∀ n c r, LtpSender.Event.report n c r ∈ a.sevs → (n, c, r) ∈ rs) :
    ∀ reason, LtpSender.Eff.delete false reason ∉ b.seffs := by
  have key : LtpSender.run cs (LtpSender.init cs csn) b.sevs = some (b.s, b.seffs) ∧ Final rs b.r ∧
      (∀ n c r, LtpReceiver.Eff.send n c r ∈ b.reffs → (n, c, r) ∈ rs) ∧
      (∀ n c r, LtpSender.Event.report n c r ∈ b.sevs → (n, c, r) ∈ rs) := by
    induction hl with
    | refl => exact ⟨hrun, hfin, hsent, hrep⟩
    | step b c y _ hp hact ih =>
      obtain ⟨k1, k2, k3, k4⟩ := ih
      cases y with
      | sender e =>
        rw [act] at hact
        split at hact
        · cases hact
        · rename_i s effs hstep
          simp only [Option.some.injEq] at hact
          subst hact
          refine ⟨?_, k2, k3, ?_⟩
          · simp only; rw [LtpSender.run_snoc cs _ _ _ _ _ k1, hstep]; rfl
          · intro n c r hm
            rcases List.mem_append.1 hm with hm | hm
            · exact k4 n c r hm
            · simp only [List.mem_singleton] at hm
              subst hm
              exact k3 n c r hp
      | receiver e =>
        rw [act] at hact
        split at hact
        · cases hact
        · rename_i s effs hstep
          simp only [Option.some.injEq] at hact
          subst hact
          obtain ⟨f1, f2⟩ := final_step k2 hstep
          refine ⟨k1, f1, ?_, k4⟩
          intro n c r hm
          rcases List.mem_append.1 hm with hm | hm
          · exact k3 n c r hm
          · exact f2 n c r hm
  obtain ⟨k1, -, -, k4⟩ := key
  intro reason hd
  have hall : LtpSender.AllInRange b.sevs := fun n c r hm => hin _ (k4 n c r hm)
  obtain ⟨-, hcl⟩ := LtpSender.C17_success_sound_partial cs hred csn b.sevs hall b.s b.seffs k1 reason hd
  obtain ⟨r, ⟨pre, n, c, post, he, -⟩, hc⟩ := hcl x hx
  exact hgap _ (k4 n c r (by rw [he]; simp)) hc

/-! ### Playing out a list of actions -/

instance (sys : Sys) (x : Action) : Decidable (Possible sys x) :=
  match x with
  | .sender (.report n c r) => inferInstanceAs (Decidable (LtpReceiver.Eff.send n c r ∈ sys.reffs))
  | .sender .first | .sender .next | .sender (.checkpointExpired _) | .sender .delayExpired =>
    inferInstanceAs (Decidable True)
  | .receiver (.data s) => inferInstanceAs (Decidable (s ∈ LtpSender.segments sys.seffs))
  | .receiver (.ack n) => inferInstanceAs (Decidable (LtpSender.Eff.ack n ∈ sys.seffs))
  | .receiver (.delayExpired _) | .receiver (.reportExpired _) | .receiver .next =>
    inferInstanceAs (Decidable True)

/-- The actions one after the other, if possible. -/
def play (cs : LtpSender.Cfg) (cr : LtpReceiver.Cfg) : Sys → List Action → Option Sys
  | sys, [] => some sys
  | sys, x :: xs =>
    if Possible sys x then
      match act cs cr sys x with
      | none => none
      | some sys => play cs cr sys xs
    else none

theorem play_leads {cs : LtpSender.Cfg} {cr : LtpReceiver.Cfg} {a b : Sys} {xs : List Action}
    (h : play cs cr a xs = some b) : Leads cs cr a b := by
  induction xs generalizing a with
  | nil => simp only [play, Option.some.injEq] at h; subst h; exact .refl a
  | cons x xs ih =>
    rw [play] at h
    split at h
    · rename_i hp
      split at h
      · cases h
      · rename_i c hc
        exact Leads.trans (.step _ _ _ x (.refl a) hp hc) (ih h)
    · cases h

end Hdtn.LtpLink
