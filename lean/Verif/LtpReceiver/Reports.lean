import Mathlib.Data.List.Induction
import Verif.LtpReceiver.Deliver

namespace Hdtn.LtpReceiver
open Hdtn.FragmentSet Hdtn.LtpReport

/-! ### Reports, transmissions and requests for deletion -/

/-- No report is sent. -/
def NoSend (effs : List Eff) : Prop := ∀ n c r, Eff.send n c r ∉ effs

theorem Quiet.noSend {effs : List Eff} (h : Quiet effs) : NoSend effs := by
  intro n c r he
  cases h _ he

/-- A data segment. -/
theorem data_report (cfg : Cfg) (hc : cfg.Sane) (st : State) (h : Inv cfg st) (s : Seg)
    (hs : s.Sane) :
    ∃ st' effs, dataSegment cfg st s = some (st', effs) ∧ Inv cfg st' ∧ Issues cfg st st' effs ∧
      st'.rsnTimers = st.rsnTimers ∧ (NoSend effs ∧ ∀ c, Eff.delete c .rlexc ∉ effs) ∧
      Notified st st' effs ∧
      (∀ x, Covers st'.frags x → Covers st.frags x ∨ s.IsRed ∧ s.Has x) ∧
      ∀ r, Eff.delete false r ∈ effs → ¬ s.IsRed ∧ s.EndsBlock ∧ (st.didRed = true ∨
        (st.lengthOfRed = 2 ^ 64 - 1 ∧ st.frags = [])) := by
  rw [dataSegment]
  obtain ⟨st0, hst0, hinv0, a, b, hfr⟩ : ∃ st0 : State,
      (if s.flags &&& 3 = 3 then { st with eob := true, eobRed := decide (s.flags ≤ 3) } else st)
        = st0 ∧ Inv cfg st0 ∧ ∃ a b, st0 = { st with eob := a, eobRed := b } := by
    refine ⟨_, rfl, ?_, ?_⟩
    · split
      · exact eobUpdate_inv cfg st h _ _
      · exact h
    · split
      · exact ⟨_, _, rfl⟩
      · exact ⟨st.eob, st.eobRed, rfl⟩
  simp only [hst0]
  have ho : st0.out = st.out := by rw [hfr]; rfl
  have hn : st0.didNotify = st.didNotify := by rw [hfr]
  have hf : st0.frags = st.frags := by rw [hfr]
  have hd : st0.didRed = st.didRed := by rw [hfr]
  have hl : st0.lengthOfRed = st.lengthOfRed := by rw [hfr]
  have hr : st0.rsnTimers = st.rsnTimers := by rw [hfr]
  have hnot : ∀ st' effs, Notified st0 st' effs → Notified st st' effs := by
    intro st' effs hh
    rw [Notified, hn] at hh
    exact hh
  split
  · rename_i hred
    have hred : s.IsRed := by simpa [Seg.IsRed] using hred
    obtain ⟨st', effs, e1, e2, ⟨⟨its, e3, e4⟩, e5⟩, e6⟩ := redSegment_spec cfg hc st0 hinv0 s hs hred
    refine ⟨st', effs, e1, e2, ⟨its, e3.left ho.symm, e4⟩, by rw [e5, hr], ?_⟩
    rcases e6 with ⟨-, ⟨b, hb⟩, hdel, hno⟩ | ⟨-, m, hm, hm1, hm2⟩
    · refine ⟨⟨?_, ?_⟩, hnot _ _ hno, ?_, ?_⟩
      · intro n c r he
        obtain ⟨_, hh, -⟩ := hdel _ he
        cases hh
      · intro c he
        obtain ⟨r, hh, hne⟩ := hdel _ he
        simp only [Eff.delete.injEq] at hh
        exact hne hh.2.symm
      · intro x hx
        rw [hb] at hx
        simp only [hf] at hx
        exact .inl hx
      · intro r he
        obtain ⟨r', hh, -⟩ := hdel _ he
        simp at hh
    · have hcov : ∀ x, Covers m.frags x → Covers st.frags x ∨ s.IsRed ∧ s.Has x := by
        intro x hx
        rcases (hm.covers x).1 hx with h' | h'
        · exact .inl (hf ▸ h')
        · exact .inr ⟨hred, h'⟩
      by_cases hgo : ¬ Early st0 s ∧ Complete m
      · obtain ⟨n, sn, l, q, hst', q', hq', heff⟩ := hm2 hgo
        have hnd : NoDelete effs := by
          intro c r he
          rw [heff] at he
          rcases List.mem_append.1 he with he | he
          · exact hq'.noDelete c r he
          · simp at he
        refine ⟨⟨?_, fun c => hnd c _⟩, .inl ⟨by rw [hst', ← hn]; exact hm.didNotify, hnd⟩, ?_,
          fun r he => absurd he (hnd _ r)⟩
        · intro n c r he
          rw [heff] at he
          rcases List.mem_append.1 he with he | he
          · exact hq'.noSend n c r he
          · simp at he
        · rw [hst']; exact hcov
      · obtain ⟨hst', hq⟩ := hm1 (by
          by_cases hh : Early st0 s
          · exact .inl hh
          · exact .inr fun h' => hgo ⟨hh, h'⟩)
        subst hst'
        exact ⟨⟨hq.noSend, fun c => hq.noDelete c _⟩, .inl ⟨by rw [← hn]; exact hm.didNotify, hq.noDelete⟩, hcov,
          fun r he => absurd he (hq.noDelete _ r)⟩
  · rename_i hred
    have hred : ¬ s.IsRed := by simpa [Seg.IsRed] using hred
    obtain ⟨st', effs, b', e1, e2, e3, -, e4, ⟨e5, e8, e6⟩, e7⟩ := greenSegment_spec cfg st0 hinv0 s hs
    refine ⟨st', effs, e1, e2, issues_none _ _ _ _ (by rw [e3]; exact ho) e5, by rw [e3]; exact hr,
      ⟨e6, e8⟩, hnot _ _ e4, ?_, ?_⟩
    · intro x hx
      rw [e3] at hx
      exact .inl (by rw [← hf]; exact hx)
    · intro r he
      obtain ⟨g1, g2⟩ := e7 r he
      rw [hd, hl, hf] at g2
      exact ⟨hred, g1, g2⟩

theorem out_sent (its : List Item) (o : Out) :
    (∀ k ∈ o.sent, k ∈ (its.foldl Out.add o).sent) ∧
    ∀ k ∈ (its.foldl Out.add o).sent, k ∈ o.sent ∨ ∃ i ∈ its, k.2.2 = i.report := by
  induction its generalizing o with
  | nil => exact ⟨fun k h => h, fun k h => .inl h⟩
  | cons i is ih =>
    obtain ⟨h1, h2⟩ := ih (o.add i)
    rw [List.foldl_cons]
    constructor
    · intro k hk
      refine h1 k ?_
      simp only [Out.add]
      split
      · exact hk
      · exact List.mem_append_left _ hk
    · intro k hk
      rcases h2 k hk with h' | ⟨j, hj, hj'⟩
      · simp only [Out.add] at h'
        split at h'
        · exact .inl h'
        · rcases List.mem_append.1 h' with h' | h'
          · exact .inl h'
          · simp only [List.mem_singleton] at h'
            exact .inr ⟨i, by simp, by rw [h']⟩
      · exact .inr ⟨j, List.mem_cons_of_mem _ hj, hj'⟩

theorem out_queue (its : List Item) (o : Out) : ∀ e ∈ o.queue, e ∈ (its.foldl Out.add o).queue := by
  induction its generalizing o with
  | nil => exact fun e h => h
  | cons i is ih =>
    intro e he
    rw [List.foldl_cons]
    exact ih _ e (List.mem_append_left _ he)

theorem Issues.sent {cfg : Cfg} {st st' : State} {effs : List Eff} (h : Issues cfg st st' effs) :
    (∀ k ∈ st.sent, k ∈ st'.sent) ∧
    ∀ k ∈ st'.sent, k ∈ st.sent ∨ Exact cfg st'.frags k.2.2 := by
  obtain ⟨its, ⟨h1, h2⟩, -⟩ := h
  have hs : st'.sent = (its.foldl Out.add st.out).sent := by rw [← h2]; rfl
  obtain ⟨g1, g2⟩ := out_sent its st.out
  rw [hs]
  refine ⟨g1, fun k hk => ?_⟩
  rcases g2 k hk with h | ⟨i, hi, hi'⟩
  · exact .inl h
  · exact .inr (hi' ▸ h1 i hi)

/-- Every event, as far as reports and deletion are concerned. -/
theorem step_report (cfg : Cfg) (hc : cfg.Sane) (st : State) (h : Inv cfg st) (e : Event)
    (he : e.Sane) :
    ∃ st' effs, step cfg st e = some (st', effs) ∧ Inv cfg st' ∧ Notified st st' effs ∧
      (∀ x, Covers st'.frags x →
        Covers st.frags x ∨ ∃ s, e = .data s ∧ s.IsRed ∧ s.Has x) ∧
      (∀ k ∈ st.sent, k ∈ st'.sent) ∧
      (∀ k ∈ st'.sent, k ∈ st.sent ∨ Exact cfg st'.frags k.2.2) ∧
      ∀ n c r, Eff.send n c r ∈ effs → (n, c, r) ∈ st'.sent := by
  cases e with
  | data s =>
    obtain ⟨st', effs, e1, e2, e3, -, e5, e6, e7, -⟩ := data_report cfg hc st h s he
    refine ⟨st', effs, e1, e2, e6, fun x hx => ?_, e3.sent.1, e3.sent.2,
      fun n c r hh => absurd hh (e5.1 n c r)⟩
    exact (e7 x hx).imp id fun h => ⟨s, rfl, h⟩
  | ack n =>
    obtain ⟨t, b, h1, h2, -, h4⟩ := reportAck_spec cfg st h n
    refine ⟨(reportAck st n).1, (reportAck st n).2, rfl, h2, h4, ?_, ?_, ?_, ?_⟩
    · rw [h1]; exact fun x hx => .inl hx
    · rw [h1]; exact fun k hk => hk
    · rw [h1]; exact fun k hk => .inl hk
    · intro n' c r hh
      simp only [reportAck] at hh
      split at hh
      · rw [notifyDelete_spec] at hh
        simp only at hh
        split at hh <;> simp at hh
      · simp at hh
  | delayExpired n =>
    obtain ⟨st', effs, n', s, l, q, ps, ts, h0, h2, h3, h4, h1, -⟩ := delayExpired_spec cfg hc st h n
    refine ⟨st', effs, h0, h2, .inl ⟨by rw [h1], h3.noDelete⟩, ?_, h4.sent.1, h4.sent.2,
      fun n c r hh => absurd hh (h3.noSend n c r)⟩
    rw [h1]; exact fun x hx => .inl hx
  | reportExpired n =>
    obtain ⟨q, t, b, h1, h2, -, h4⟩ := reportExpired_spec cfg st h n
    refine ⟨(reportExpired cfg st n).1, (reportExpired cfg st n).2, rfl, h2, h4, ?_, ?_, ?_, ?_⟩
    · rw [h1]; exact fun x hx => .inl hx
    · rw [h1]; exact fun k hk => hk
    · rw [h1]; exact fun k hk => .inl hk
    · intro n' c r hh
      simp only [reportExpired] at hh
      split at hh
      · simp at hh
      · split at hh
        · simp at hh
        · rw [notifyDelete_spec] at hh
          simp only at hh
          split at hh <;> simp at hh
  | next =>
    obtain ⟨st', effs, q, t, h0, h2, h1, -, h4⟩ := nextDataToSend_spec cfg st h
    refine ⟨st', effs, h0, h2, .inl ⟨by rw [h1], ?_⟩, ?_, ?_, ?_, ?_⟩
    · intro c r hh
      rw [nextDataToSend] at h0
      split at h0
      · simp only [Option.some.injEq, Prod.mk.injEq] at h0
        rw [← h0.2] at hh; simp at hh
      · split at h0
        · cases h0
        · simp only [Option.some.injEq, Prod.mk.injEq] at h0
          rw [← h0.2] at hh; simp at hh
    · rw [h1]; exact fun x hx => .inl hx
    · rw [h1]; exact fun k hk => hk
    · rw [h1]; exact fun k hk => .inl hk
    · rw [h1]; exact h4

/-- The effects of a history. -/
structure Story (cfg : Cfg) (evs : List Event) (effs : List Eff) (st : State) : Prop where
  inv : Inv cfg st
  got : ∀ x, Covers st.frags x → Got evs x
  sends : ∀ n c r, Eff.send n c r ∈ effs → (n, c, r) ∈ st.sent
  deletes : (st.didNotify = false → NoDelete effs) ∧
    deletions effs ≤ 1

theorem noDelete_count {effs : List Eff} (h : NoDelete effs) :
    deletions effs = 0 := by
  rw [deletions, List.countP_eq_zero]
  intro e he
  cases e with
  | delete c r => exact absurd he (h c r)
  | _ => simp

theorem story_run (cfg : Cfg) (hc : cfg.Sane) (serial : Nat) (evs : List Event)
    (he : ∀ e ∈ evs, e.Sane) :
    ∃ st effs, run cfg (init serial) evs = some (st, effs) ∧ Story cfg evs effs st := by
  induction evs using List.reverseRecOn with
  | nil =>
    refine ⟨_, _, rfl, init_inv cfg serial, fun x h => absurd h (covers_nil x), by simp, ?_⟩
    exact ⟨fun _ => quiet_nil.noDelete, by simp [deletions]⟩
  | append_singleton evs e ih =>
    obtain ⟨st, effs, h1, h2⟩ := ih fun e h => he e (List.mem_append_left _ h)
    obtain ⟨st', effs', g1, g2, g3, g4, g5, g6, g7⟩ := step_report cfg hc st h2.inv e (he e (by simp))
    refine ⟨st', effs ++ effs', by rw [run_snoc _ _ _ _ _ _ h1, g1], g2, ?_, ?_, ?_⟩
    · intro x hx
      rw [got_snoc]
      exact (g4 x hx).imp (h2.got x) id
    · intro n c r hh
      rcases List.mem_append.1 hh with hh | hh
      · exact g5 _ (h2.sends n c r hh)
      · exact g7 n c r hh
    · have happ : ∀ a b, deletions (a ++ b) = deletions a + deletions b :=
        fun a b => List.countP_append
      rw [happ]
      rcases g3 with ⟨k1, k2⟩ | ⟨k1, k2, pre, c, r, rfl, k4⟩
      · refine ⟨fun hh c r hm => ?_, by rw [noDelete_count k2]; exact h2.deletes.2⟩
        rcases List.mem_append.1 hm with hm | hm
        · exact h2.deletes.1 (k1 ▸ hh) c r hm
        · exact k2 c r hm
      · refine ⟨fun hh => ?_, ?_⟩
        · rw [k2] at hh; cases hh
        · rw [noDelete_count (h2.deletes.1 k1), happ, noDelete_count k4]
          simp [deletions]

/-- For an honest sender every report says exactly what had arrived at some point. -/
structure Honest (cfg : Cfg) (red : Bytes) (evs : List Event) (effs : List Eff) (st : State) : Prop
    where
  inv : Inv cfg st
  tracks : Tracks red evs st
  exact_ : ∀ k ∈ st.sent, ∃ pre, pre <+: evs ∧ k.2.2.WellFormed ∧
    k.2.2.claims.length ≤ cfg.maxClaims ∧ ∀ x, k.2.2.Claims x ↔ k.2.2.InScope x ∧ Got pre x
  sends : ∀ n c r, Eff.send n c r ∈ effs → (n, c, r) ∈ st.sent
  delivered : deliveries effs = if st.didRed = true then [(red, red.length)] else []
  eobRed : st.eobRed = true ↔ EndedByRed evs
  service : ∀ d n v b, Eff.red d n v b ∈ effs → ∃ pre s post, evs = pre ++ Event.data s :: post ∧
    s.IsRed ∧ v = s.service ∧ (b = true ↔ EndedByRed (pre ++ [Event.data s])) ∧
    Arrived red (pre ++ [Event.data s]) ∧ ¬ Arrived red pre

theorem endedByRed_snoc (evs : List Event) (e : Event) :
    EndedByRed (evs ++ [e]) ↔ (∃ s, e = .data s ∧ s.EndsBlock ∧ s.IsRed) ∨
      ((∀ s, e = .data s → ¬ s.EndsBlock) ∧ EndedByRed evs) := by
  constructor
  · rintro ⟨a, s, b, h1, h2, h3, h4⟩
    rcases List.eq_nil_or_concat b with rfl | ⟨b', t, rfl⟩
    · have : evs ++ [e] = a ++ [Event.data s] := h1
      have := (List.append_inj' this rfl).2
      simp only [List.cons.injEq, and_true] at this
      exact .inl ⟨s, this, h2, h3⟩
    · rw [List.concat_eq_append] at h1 h4
      have h1' : evs ++ [e] = (a ++ Event.data s :: b') ++ [t] := by
        rw [h1]; simp
      obtain ⟨g1, g2⟩ := List.append_inj' h1' rfl
      simp only [List.cons.injEq, and_true] at g2
      subst g2
      refine .inr ⟨fun s' hs' => h4 s' (by simp [hs']), a, s, b', g1, h2, h3, fun t' ht' => ?_⟩
      exact h4 t' (List.mem_append_left _ ht')
  · rintro (⟨s, rfl, h2, h3⟩ | ⟨h, a, s, b, rfl, h2, h3, h4⟩)
    · exact ⟨evs, s, [], rfl, h2, h3, by simp⟩
    · refine ⟨a, s, b ++ [e], by simp, h2, h3, fun t ht => ?_⟩
      rcases List.mem_append.1 ht with ht | ht
      · exact h4 t ht
      · simp only [List.mem_singleton] at ht
        exact h t ht.symm

/-- The flag that the block ended with red data, after an event. -/
def eobAfter (old : Bool) : Event → Bool
  | .data s => if s.EndsBlock then decide s.IsRed else old
  | _ => old

theorem step_eobRed (cfg : Cfg) (hc : cfg.Sane) (st st' : State) (h : Inv cfg st) (e : Event)
    (he : e.Sane) (effs : List Eff) (hs : step cfg st e = some (st', effs)) :
    st'.eobRed = eobAfter st.eobRed e := by
  cases e with
  | ack n =>
    obtain ⟨t, b, h1, -⟩ := reportAck_spec cfg st h n
    simp only [step, Option.some.injEq] at hs
    rw [hs] at h1
    simp only at h1
    rw [h1]; rfl
  | delayExpired n =>
    obtain ⟨st1, effs1, n', s, l, q, ps, ts, h0, -, -, -, h1, -⟩ := delayExpired_spec cfg hc st h n
    rw [step, h0] at hs
    simp only [Option.some.injEq, Prod.mk.injEq] at hs
    rw [← hs.1, h1]; rfl
  | reportExpired n =>
    obtain ⟨q, t, b, h1, -⟩ := reportExpired_spec cfg st h n
    simp only [step, Option.some.injEq] at hs
    rw [hs] at h1
    simp only at h1
    rw [h1]; rfl
  | next =>
    obtain ⟨st1, effs1, q, t, h0, -, h1, -⟩ := nextDataToSend_spec cfg st h
    rw [step, h0] at hs
    simp only [Option.some.injEq, Prod.mk.injEq] at hs
    rw [← hs.1, h1]; rfl
  | data s =>
    have hsane : s.Sane := he
    rw [step, dataSegment] at hs
    obtain ⟨st0, hst0, hinv0, hfr⟩ : ∃ st0 : State,
        (if s.flags &&& 3 = 3 then { st with eob := true, eobRed := decide (s.flags ≤ 3) } else st)
          = st0 ∧ Inv cfg st0 ∧ st0.eobRed = if s.EndsBlock then decide s.IsRed else st.eobRed := by
      refine ⟨_, rfl, ?_, ?_⟩
      · split
        · exact eobUpdate_inv cfg st h _ _
        · exact h
      · split
        · rename_i h
          rw [if_pos ((flags_eob s hsane.flags).1 h)]; rfl
        · rename_i h
          rw [if_neg fun h' => h ((flags_eob s hsane.flags).2 h')]
    simp only [hst0] at hs
    rw [eobAfter, ← hfr]
    split at hs
    · rename_i hr
      obtain ⟨st1, effs1, e1, -, -, e3⟩ := redSegment_spec cfg hc st0 hinv0 s hsane
        (by simpa [Seg.IsRed] using hr)
      rw [e1] at hs
      simp only [Option.some.injEq, Prod.mk.injEq] at hs
      rw [← hs.1]
      rcases e3 with ⟨-, ⟨b, hb⟩, -⟩ | ⟨-, m, hm, hm1, hm2⟩
      · rw [hb]
      · by_cases hgo : ¬ Early st0 s ∧ Complete m
        · obtain ⟨n, sn, l, q, hst', -⟩ := hm2 hgo
          rw [hst']; exact hm.eobRed
        · rw [(hm1 (by
            by_cases hh : Early st0 s
            · exact .inl hh
            · exact .inr fun h' => hgo ⟨hh, h'⟩)).1]
          exact hm.eobRed
    · obtain ⟨st1, effs1, b, e1, -, e3, -⟩ := greenSegment_spec cfg st0 hinv0 s hsane
      rw [e1] at hs
      simp only [Option.some.injEq, Prod.mk.injEq] at hs
      rw [← hs.1, e3]

theorem honest_run (cfg : Cfg) (hc : cfg.Sane) (red : Bytes) (hpos : 1 ≤ red.length)
    (hmax : red.length ≤ cfg.maxRedRx) (serial : Nat) (evs : List Event)
    (hp : ∀ s, Event.data s ∈ evs → s.PieceOf red) (hcons : Consistent evs) :
    ∃ st effs, run cfg (init serial) evs = some (st, effs) ∧ Honest cfg red evs effs st := by
  have hred := hc.red
  induction evs using List.reverseRecOn with
  | nil =>
    refine ⟨_, _, rfl, init_inv cfg serial, tracks_init red hpos (by omega) serial, by simp [init],
      by simp, rfl, ?_, by simp⟩
    simp only [init, Bool.false_eq_true, false_iff]
    rintro ⟨a, s, b, h, -⟩
    simp at h
  | append_singleton evs e ih =>
    obtain ⟨st, effs, h1, h2⟩ := ih (fun s h => hp s (List.mem_append_left _ h))
      fun s t a b c h1 h2 => hcons s t a b c (List.mem_append_left _ h1) (List.mem_append_left _ h2)
    have hesane : e.Sane := by
      cases e with
      | data s => exact (hp s (by simp)).toSane
      | _ => exact trivial
    obtain ⟨st', effs', g1, g2, g3, g4, g5⟩ := tracks_step cfg hc red hpos hmax evs e hp hcons st
      h2.inv h2.tracks
    obtain ⟨st'', effs'', k1, -, -, -, k5, k6, k7⟩ := step_report cfg hc st h2.inv e hesane
    rw [g1] at k1
    simp only [Option.some.injEq, Prod.mk.injEq] at k1
    obtain ⟨rfl, rfl⟩ := k1
    have hmono : st.didRed = true → st'.didRed = true := fun h =>
      g3.done.2 (arrived_mono red evs e (h2.tracks.done.1 h))
    have heob := step_eobRed cfg hc st st' h2.inv e hesane effs' g1
    have heob' : st'.eobRed = true ↔ EndedByRed (evs ++ [e]) := by
      rw [heob, endedByRed_snoc, ← h2.eobRed]
      cases e with
      | data s =>
        simp only [eobAfter, Event.data.injEq, exists_eq_left', forall_eq']
        split
        · rename_i hh; simp [hh]
        · rename_i hh; simp [hh]
      | _ => simp [eobAfter]
    refine ⟨st', effs ++ effs', by rw [run_snoc _ _ _ _ _ _ h1, g1], g2, g3, ?_, ?_, ?_, heob', ?_⟩
    · intro k hk
      rcases k6 k hk with hk | ⟨w1, w2, w3⟩
      · obtain ⟨pre, hpre, hh⟩ := h2.exact_ k hk
        exact ⟨pre, hpre.trans (List.prefix_append _ _), hh⟩
      · refine ⟨evs ++ [e], List.prefix_refl _, w1, w2, fun x => ?_⟩
        rw [w3 x, g3.covers x]
    · intro n c r hh
      rcases List.mem_append.1 hh with hh | hh
      · exact k5 _ (h2.sends n c r hh)
      · exact k7 n c r hh
    · rw [deliveries_append, h2.delivered, g4]
      cases hd : st.didRed with
      | true => simp [hmono hd]
      | false => cases hd' : st'.didRed <;> simp
    · intro d n v b hh
      rcases List.mem_append.1 hh with hh | hh
      · obtain ⟨pre, s, post, w1, w2⟩ := h2.service d n v b hh
        exact ⟨pre, s, post ++ [e], by rw [w1]; simp, w2⟩
      · obtain ⟨s, rfl, w2, w3, w4⟩ := g5 d n v b hh
        refine ⟨evs, s, [], rfl, w2, w3, ?_, ?_⟩
        · rw [← heob', heob, w4]
          simp only [eobAfter]
          split
          · simp [w2]
          · exact Iff.rfl
        · have hne : deliveries effs' ≠ [] := by
            intro h0
            rw [deliveries, List.filterMap_eq_nil_iff] at h0
            have := h0 _ hh
            simp at this
          rw [g4] at hne
          split at hne
          · rename_i hh
            refine ⟨g3.done.1 hh.1, fun ha => ?_⟩
            have := h2.tracks.done.2 ha
            rw [hh.2] at this; cases this
          · exact absurd rfl hne

end Hdtn.LtpReceiver
