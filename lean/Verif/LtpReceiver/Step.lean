import Verif.LtpReceiver.Safe

namespace Hdtn.LtpReceiver
open Hdtn.FragmentSet Hdtn.LtpReport

/-! ### Each event keeps the invariant -/

theorem flags_end (s : Seg) (h : s.IsRed) : s.flags &&& 2 ≠ 0 ↔ s.EndsRed := by
  have : ∀ k ≤ 3, k &&& 2 ≠ 0 ↔ k = 2 ∨ k = 3 := by decide
  exact this _ h

theorem flags_eob (s : Seg) (h : s.flags ≤ 7) : s.flags &&& 3 = 3 ↔ s.EndsBlock := by
  have : ∀ k ≤ 7, k &&& 3 = 3 ↔ k = 3 ∨ k = 7 := by decide
  exact this _ h

theorem flags_checkpoint (s : Seg) (h : s.IsRed) : s.flags ≠ 0 ↔ s.IsCheckpoint := by
  simp only [Seg.IsRed] at h
  simp only [Seg.IsCheckpoint]; omega

/-- The handling of the segment ends before the check for completeness. -/
def Early (st : State) (s : Seg) : Prop :=
  s.IsCheckpoint ∧ (s.checkpoint = none ∨ ∃ a r, s.checkpoint = some (a, r) ∧ a ∈ st.checkpoints)

/-- The state after a red segment was stored and its checkpoint handled. -/
structure Stored (cfg : Cfg) (st : State) (s : Seg) (m : State) : Prop where
  safe : Safe cfg m
  length : m.data.length = m.curRed
  curRed : m.curRed = max st.curRed (s.offset + s.length)
  lowestGreen : m.lowestGreen = st.lowestGreen
  didRed : m.didRed = false
  didNotify : m.didNotify = st.didNotify
  eob : m.eob = st.eob
  eobRed : m.eobRed = st.eobRed
  rsnTimers : m.rsnTimers = st.rsnTimers
  lengthOfRed : (s.EndsRed → m.lengthOfRed = s.offset + s.length) ∧
    (¬ s.EndsRed → m.lengthOfRed = st.lengthOfRed)
  covers : ∀ x, Covers m.frags x ↔ Covers st.frags x ∨ s.Has x
  bytes : ∀ sd, s.data = some sd → ∀ x, Covers m.frags x →
    (Covers st.frags x ∧ m.data[x]? = st.data[x]?) ∨ (s.Has x ∧ m.data[x]? = sd[x - s.offset]?)
  checkpoints : ∀ a, a ∈ m.checkpoints ↔ a ∈ st.checkpoints ∨
    (s.IsCheckpoint ∧ ∃ r, s.checkpoint = some (a, r))

/-- Only requests to cancel the session. -/
def OnlyDelete (effs : List Eff) : Prop := ∀ e ∈ effs, ∃ r, e = .delete true r ∧ r ≠ .rlexc

theorem notifyDelete_spec (st : State) (c : Bool) (r : Reason) :
    notifyDelete st c r = ({ st with didNotify := true },
      if st.didNotify then [] else [.delete c r]) := by
  rw [notifyDelete]
  split
  · rename_i h
    obtain ⟨⟩ := st
    simp only at h
    subst h; rfl
  · rfl

/-- No request to delete the session. -/
def NoDelete (effs : List Eff) : Prop := ∀ c r, Eff.delete c r ∉ effs

/-- At most one request to delete the session, and only if there was none before. -/
def Notified (st st' : State) (effs : List Eff) : Prop :=
  (st'.didNotify = st.didNotify ∧ NoDelete effs) ∨
    (st.didNotify = false ∧ st'.didNotify = true ∧
      ∃ pre c r, effs = pre ++ [.delete c r] ∧ NoDelete pre)

theorem notified_of (st st' : State) (pre : List Eff) (hp : NoDelete pre) (c : Bool) (r : Reason)
    (h : st'.didNotify = true) :
    Notified st st' (pre ++ if st.didNotify then [] else [.delete c r]) := by
  cases hn : st.didNotify with
  | true => exact .inl ⟨by rw [h, hn], by simpa using hp⟩
  | false => exact .inr ⟨hn, h, pre, c, r, by simp, hp⟩

theorem Quiet.noDelete {effs : List Eff} (h : Quiet effs) : NoDelete effs := by
  intro c r he
  cases h _ he

theorem Quiet.count {effs : List Eff} (h : Quiet effs) : effs.count .producible = effs.length :=
  List.count_eq_length.2 fun e he => (h e he).symm

/-- The reports issued while handling an event. -/
def Issues (cfg : Cfg) (st st' : State) (effs : List Eff) : Prop :=
  ∃ its, Grew cfg st'.frags st st' its ∧ its.length = effs.count .producible

theorem issues_none (cfg : Cfg) (st st' : State) (effs : List Eff) (h : st'.out = st.out)
    (he : Eff.producible ∉ effs) : Issues cfg st st' effs :=
  ⟨[], grew_refl _ _ _ _ h, (List.count_eq_zero.2 he).symm⟩

theorem redSegment_spec (cfg : Cfg) (hc : cfg.Sane) (st : State) (h : Inv cfg st) (s : Seg)
    (hs : s.Sane) (hred : s.IsRed) :
    ∃ st' effs, redSegment cfg st s = some (st', effs) ∧ Inv cfg st' ∧
      (Issues cfg st st' effs ∧ st'.rsnTimers = st.rsnTimers) ∧
      (((st.lowestGreen < max st.curRed (s.offset + s.length) ∨ st.didRed = true ∨
            cfg.maxRedRx < max st.curRed (s.offset + s.length)) ∧
          (∃ b, st' = { st with
            curRed := max st.curRed (s.offset + s.length)
            didNotify := b }) ∧ OnlyDelete effs ∧ Notified st st' effs) ∨
       (¬ (st.lowestGreen < max st.curRed (s.offset + s.length) ∨ st.didRed = true ∨
            cfg.maxRedRx < max st.curRed (s.offset + s.length)) ∧
        ∃ m, Stored cfg st s m ∧
          ((Early st s ∨ ¬ Complete m) → st' = m ∧ Quiet effs) ∧
          (¬ Early st s ∧ Complete m → ∃ n sn l q, st' = { m with
            nextRsn := n, sent := sn, lastPrimary := l, queue := q, didRed := true } ∧
            ∃ q, Quiet q ∧ effs = q ++ [.red m.data m.lengthOfRed s.service m.eobRed]))) := by
  obtain ⟨hadd, -⟩ := frag_of_seg s hs
  have hcur : (if decide (st.curRed < s.offset + s.length) = true then s.offset + s.length
      else st.curRed) = max st.curRed (s.offset + s.length) := by
    simp only [decide_eq_true_eq]; split <;> omega
  rw [redSegment]
  simp only [hadd, hcur]
  generalize hM : max st.curRed (s.offset + s.length) = M at *
  have hMle : st.curRed ≤ M := by omega
  have hsafe1 : Safe cfg { st with curRed := M } :=
    { h.toSafe with le := by have := h.le; simp only; omega }
  have blocked : ∀ b, (st.lowestGreen < M ∨ st.didRed = true ∨ cfg.maxRedRx < M) →
      Inv cfg { st with curRed := M, didNotify := b } := fun b hb =>
    { hsafe1 with full := .inr hb }
  split
  · rename_i h1
    rw [notifyDelete_spec]
    refine ⟨_, _, rfl, blocked _ (.inl h1),
      ⟨issues_none _ _ _ _ rfl (by simp only; split <;> simp), rfl⟩, .inl ⟨.inl h1, ⟨true, rfl⟩, ?_,
      notified_of st _ [] quiet_nil.noDelete _ _ rfl⟩⟩
    · intro e he
      simp only at he
      split at he
      · simp at he
      · exact ⟨.miscolored, by simpa using he, by simp⟩
  · rename_i h1
    split
    · rename_i h2
      refine ⟨_, _, rfl, blocked _ (.inr (.inl h2)),
        ⟨issues_none _ _ _ _ rfl (by simp), rfl⟩, .inl ⟨.inr (.inl h2), ⟨st.didNotify, rfl⟩, ?_,
        .inl ⟨rfl, quiet_nil.noDelete⟩⟩⟩
      intro e he; simp at he
    · rename_i h2
      split
      · rename_i h3
        rw [notifyDelete_spec]
        refine ⟨_, _, rfl, blocked _ (.inr (.inr h3)),
      ⟨issues_none _ _ _ _ rfl (by simp only; split <;> simp), rfl⟩, .inl ⟨.inr (.inr h3), ⟨true, rfl⟩, ?_,
          notified_of st _ [] quiet_nil.noDelete _ _ rfl⟩⟩
        · intro e he
          simp only at he
          split at he
          · simp at he
          · exact ⟨.systemCancelled, by simpa using he, by simp⟩
      · rename_i h3
        have h2' : st.didRed = false := by simpa using h2
        have hnb : ¬ Blocked cfg st := by
          rintro (hb | hb | hb)
          · exact h1 (by omega)
          · exact h2 hb
          · exact h3 (by omega)
        have hfull : st.data.length = st.curRed := h.full.resolve_right hnb
        obtain ⟨st1, effs1, rep, fr, d, n, sn, l, q, ps, ts, its, e1, e2, eg, e3, e4, e5, e6, e7, e8⟩ :=
          safe_store cfg hc { st with curRed := M } hsafe1 s hs
            (decide (st.curRed < s.offset + s.length)) (by simp only; omega) (by simp only; omega)
            (by intro hh; simp only [decide_eq_false_iff_not] at hh; simp only; omega)
            (by intro hh; simp only [decide_eq_true_eq] at hh; simp only; omega)
        simp only [e1]
        have hnw := hs.noWrap
        have hlr := h.lengthOfRed
        -- the length of the red part
        obtain ⟨st2, hst2, hlen2, hsafe2⟩ : ∃ st2 : State,
            { st1 with lengthOfRed := if s.flags &&& 2 ≠ 0 then s.offset + s.length
              else st1.lengthOfRed } = st2 ∧
            ((s.EndsRed → st2.lengthOfRed = s.offset + s.length) ∧
              (¬ s.EndsRed → st2.lengthOfRed = st.lengthOfRed)) ∧ Safe cfg st2 := by
          refine ⟨_, rfl, ⟨fun hh => ?_, fun hh => ?_⟩, ?_⟩
          · simp only; rw [if_pos ((flags_end s hred).2 hh)]
          · simp only; rw [if_neg (fun h => hh ((flags_end s hred).1 h)), e3]
          · refine { e4 with lengthOfRed := ?_ }
            simp only
            split
            · omega
            · exact e4.lengthOfRed
        rw [hst2]
        -- the checkpoint
        have hcp : ∃ st3 effs2 b n sn l q ps ts cs its,
            (if s.flags ≠ 0 then handleCheckpoint cfg st2 s.checkpoint (s.offset + s.length)
              else some (st2, [], true)) = some (st3, effs2, b) ∧ Quiet effs2 ∧
            (Grew cfg st2.frags st2 st3 its ∧ effs2.length = its.length) ∧
            st3 = { st2 with
              nextRsn := n, sent := sn, lastPrimary := l, queue := q, pending := ps
              delayTimers := ts, checkpoints := cs } ∧ Safe cfg st3 ∧
            (b = false ↔ Early st s) ∧
            ∀ a, a ∈ cs ↔ a ∈ st.checkpoints ∨ (s.IsCheckpoint ∧ ∃ r, s.checkpoint = some (a, r)) := by
          have hck : st2.checkpoints = st.checkpoints := by rw [← hst2, e3]
          split
          · rename_i hf
            obtain ⟨st3, effs2, b, n, sn, l, q, ps, ts, cs, its', f1, f2, fg, f3, f4, f5, f6⟩ :=
              safe_checkpoint cfg hc st2 hsafe2 (by rw [← hst2, e3]; exact e6) s.checkpoint
                (s.offset + s.length) (by rw [← hst2, e3]; simp only; rw [e5]; simp only; omega)
            have hcp := (flags_checkpoint s hred).1 hf
            rw [hck] at f5 f6
            refine ⟨st3, effs2, b, n, sn, l, q, ps, ts, cs, its', f1, f2, fg, f3, f4, ?_, ?_⟩
            · rw [f5, Early]; exact ⟨fun h => ⟨hcp, h⟩, fun h => h.2⟩
            · intro a; rw [f6]
              exact ⟨fun h => h.imp id fun h => ⟨hcp, h⟩, fun h => h.imp id fun h => h.2⟩
          · rename_i hf
            have hncp : ¬ s.IsCheckpoint := fun h => hf ((flags_checkpoint s hred).2 h)
            refine ⟨st2, [], true, st2.nextRsn, st2.sent, st2.lastPrimary, st2.queue, st2.pending,
              st2.delayTimers, st2.checkpoints, [], rfl, quiet_nil,
              ⟨grew_refl _ _ _ _ rfl, rfl⟩, rfl, hsafe2, ?_, ?_⟩
            · simp only [Bool.true_eq_false, false_iff]
              exact fun h => hncp h.1
            · intro a; rw [hck]
              exact ⟨.inl, fun h => h.resolve_right fun h => hncp h.1⟩
        obtain ⟨st3, effs2, b, n3, sn3, l3, q3, ps3, ts3, cs3, its3, f1, f2, fg, f3, f4, f5, f6⟩ := hcp
        rw [f1]
        have hstored : Stored cfg st s st3 := by
          have g1 : st3.data = d := by rw [f3, ← hst2, e3]
          have g2 : st3.frags = fr := by rw [f3, ← hst2, e3]
          have g3 : st3.curRed = M := by rw [f3, ← hst2, e3]
          refine ⟨f4, by rw [g1, g3, e5], by rw [g3, hM], by rw [f3, ← hst2, e3],
            by rw [f3, ← hst2, e3]; exact h2', by rw [f3, ← hst2, e3], by rw [f3, ← hst2, e3],
            by rw [f3, ← hst2, e3], by rw [f3, ← hst2, e3], ?_, ?_, ?_, ?_⟩
          · have : st3.lengthOfRed = st2.lengthOfRed := by rw [f3]
            rw [this]; exact hlen2
          · rw [g2]; exact e7
          · rw [g1, g2]; exact e8
          · have : st3.checkpoints = cs3 := by rw [f3]
            rw [this]; exact f6
        have hquiet := e2.append f2
        have hf3 : st3.frags = fr := by rw [f3, ← hst2, e3]
        have hgrew : Grew cfg fr st st3 (its ++ its3) := by
          have hf2 : st2.frags = fr := by rw [← hst2, e3]
          rw [hf2] at fg
          exact (eg.1.left rfl).trans (fg.1.left (by rw [← hst2]; rfl))
        have hlen3 : (its ++ its3).length = (effs1 ++ effs2).length := by
          rw [List.length_append, List.length_append, eg.2, fg.2]
        have hrt3 : st3.rsnTimers = st.rsnTimers := by rw [f3, ← hst2, e3]
        cases b with
        | false =>
          refine ⟨_, _, rfl, { f4 with full := .inl hstored.length },
            ⟨⟨_, hf3 ▸ hgrew, by rw [hquiet.count, hlen3]⟩, hrt3⟩, .inr ⟨?_, st3, hstored, ?_, ?_⟩⟩
          · rintro (hb | hb | hb)
            · exact h1 hb
            · exact h2 hb
            · exact h3 hb
          · exact fun _ => ⟨rfl, hquiet⟩
          · exact fun hh => absurd (f5.1 rfl) hh.1
        | true =>
          have hne : ¬ Early st s := fun he => by cases f5.2 he
          obtain ⟨st4, effs3, n4, sn4, l4, q4, its4, k1, kg, k2, k3⟩ := safe_complete cfg hc st3 f4 s rep
          simp only [k1]
          refine ⟨_, _, rfl, ?_, ?_, .inr ⟨?_, st3, hstored, ?_, ?_⟩⟩
          rotate_left
          · rw [hf3] at kg
            rcases k2 with ⟨-, rfl, rfl, rfl⟩ | ⟨-, k2, q', hq', rfl⟩
            · refine ⟨⟨_, hf3 ▸ hgrew, ?_⟩, hrt3⟩
              rw [List.append_nil, hquiet.count, hlen3]
            · have hf4 : st4.frags = fr := by rw [k2]; exact hf3
              refine ⟨⟨_, hf4 ▸ hgrew.trans kg, ?_⟩, by rw [k2]; exact hrt3⟩
              have c1 := hquiet.count
              have c2 := hq'.1.count
              have c3 := hq'.2
              have c4 : List.count Eff.producible
                [Eff.red st3.data st3.lengthOfRed s.service st3.eobRed] = 0 := by simp
              rw [List.length_append, hlen3, List.count_append (l₁ := effs1 ++ effs2), c1,
                List.count_append (l₁ := q'), c2, c3, c4]
              rfl
          rotate_right
          · rcases k2 with ⟨-, rfl, -⟩ | ⟨-, k2, -⟩
            · exact { k3 with full := .inl hstored.length }
            · exact { k3 with full := .inl (by rw [k2]; exact hstored.length) }
          · rintro (hb | hb | hb)
            · exact h1 hb
            · exact h2 hb
            · exact h3 hb
          · intro hh
            have hnc := hh.resolve_left hne
            rcases k2 with ⟨-, rfl, rfl, -⟩ | ⟨k2, -⟩
            · exact ⟨rfl, by rw [List.append_nil]; exact hquiet⟩
            · exact absurd k2 hnc
          · rintro ⟨-, hcomp⟩
            rcases k2 with ⟨k2, -⟩ | ⟨-, k2, q', hq', rfl⟩
            · exact absurd hcomp k2
            · exact ⟨n4, sn4, l4, q4, k2, effs1 ++ effs2 ++ q', hquiet.append hq'.1,
                by simp only [List.append_assoc]⟩

theorem greenSegment_spec (cfg : Cfg) (st : State) (h : Inv cfg st) (s : Seg) (hs : s.Sane) :
    ∃ st' effs b, greenSegment st s = some (st', effs) ∧ Inv cfg st' ∧
      st' = { st with lowestGreen := min s.offset st.lowestGreen, didNotify := b } ∧
      (∀ d n v e, Eff.red d n v e ∉ effs) ∧ Notified st st' effs ∧
      (Eff.producible ∉ effs ∧ (∀ c, Eff.delete c .rlexc ∉ effs) ∧ ∀ n c r, Eff.send n c r ∉ effs) ∧
      ∀ r, Eff.delete false r ∈ effs → s.EndsBlock ∧ (st.didRed = true ∨
        (st.lengthOfRed = 2 ^ 64 - 1 ∧ st.frags = [])) := by
  obtain ⟨sd, hsd, hsl⟩ := hs.bytes
  have hinv : ∀ b, Inv cfg { st with lowestGreen := min s.offset st.lowestGreen, didNotify := b } :=
    fun b => { h.toSafe with
      full := by
        rcases h.full with hf | hf | hf
        · exact .inl hf
        · refine .inr (.inl ?_); simp only; omega
        · exact .inr (.inr hf) }
  rw [greenSegment]
  simp only
  split
  · rename_i h1
    rw [notifyDelete_spec]
    refine ⟨_, _, true, rfl, hinv _, rfl, ?_, notified_of st _ [] quiet_nil.noDelete _ _ rfl, ?_, ?_⟩
    · intro d n v e he
      simp only at he
      split at he <;> simp at he
    · refine ⟨fun he => ?_, fun c he => ?_, fun n c r he => ?_⟩ <;>
      · simp only at he
        split at he <;> simp at he
    · intro r he
      simp only at he
      split at he <;> simp at he
  · rw [hsd]
    simp only
    rw [if_neg (by omega)]
    split
    · rename_i hc
      rw [notifyDelete_spec]
      refine ⟨_, _, true, rfl, hinv _, rfl, ?_,
        notified_of st _ [_] (by intro c r h; simp at h) _ _ rfl, ?_, ?_⟩
      · intro d n v e he
        simp only at he
        split at he <;> simp at he
      · refine ⟨fun he => ?_, fun c he => ?_, fun n c r he => ?_⟩ <;>
        · simp only at he
          split at he <;> simp at he
      · intro r _
        refine ⟨(flags_eob s hs.flags).1 (by simpa using hc.1), ?_⟩
        exact hc.2.symm
    · refine ⟨_, _, st.didNotify, rfl, hinv _, rfl, ?_, .inl ⟨rfl, by intro c r h; simp at h⟩, ?_, ?_⟩
      · intro d n v e he
        simp at he
      · simp
      · simp

theorem delayExpired_spec (cfg : Cfg) (hc : cfg.Sane) (st : State) (h : Inv cfg st) (csn : Nat) :
    ∃ st' effs n s l q ps ts, delayExpired cfg st csn = some (st', effs) ∧ Inv cfg st' ∧
      Quiet effs ∧ Issues cfg st st' effs ∧ st' = { st with
        nextRsn := n, sent := s, lastPrimary := l, queue := q, pending := ps, delayTimers := ts } ∧
      ∀ p ∈ st.pending, p.checkpoint = csn → ∃ rs, Issued cfg st.frags p.range.b (p.range.e + 1) rs ∧
        st'.out = (rs.map fun r => (⟨csn, p.secondary, r⟩ : Item)).foldl Out.add st.out ∧
        effs.length = rs.length := by
  rw [delayExpired]
  split
  · exact ⟨_, _, st.nextRsn, st.sent, st.lastPrimary, st.queue, st.pending, st.delayTimers, rfl, h,
      quiet_nil, issues_none _ _ _ _ rfl (by simp), rfl, fun p hp hpc => by
        rename_i hnone
        have := List.find?_eq_none.1 hnone _ (h.pend_timer p hp)
        simp [hpc] at this⟩
  · rename_i c range hf
    have hmem := List.mem_of_find?_eq_some hf
    have hkey : c = csn := by simpa using List.find?_some hf
    obtain ⟨p, hp, hpr, hpc⟩ := h.timer_pend _ hmem
    simp only at hpr hpc
    split
    · rename_i hnone
      have := List.find?_eq_none.1 hnone p hp
      simp [hpr] at this
    · rename_i p' hp'
      have hm' := List.mem_of_find?_eq_some hp'
      have hr' : p'.range = range := by simpa using List.find?_some hp'
      have : p' = p := h.ordered.range_inj hm' hp (hr'.trans hpr.symm)
      subst this
      have h1 := h.ordered.1 p' hp
      have h2 := h.pend p' hp
      have h3 := h.max
      have h4 := hc.red
      have h5 : (p'.range.e + 1) % U64 = p'.range.e + 1 :=
        Nat.mod_eq_of_lt (by simp only [U64]; omega)
      rw [h5]
      -- the reports do not look at the timers
      obtain ⟨st1, effs, n, s, l, q, ps, e1, e2, e3, e4, e7, -, e5, e6⟩ := safe_issue cfg hc st h.toSafe
        (h.pend_ne (by rintro e; rw [e] at hp; simp at hp)) p'.checkpoint p'.range.b
        (p'.range.e + 1) p'.secondary (by omega) (by omega)
      have hcomm : issue cfg { st with delayTimers := st.delayTimers.filter fun t => t.1 ≠ csn }
          p'.checkpoint p'.range.b (p'.range.e + 1) p'.secondary =
          some ({ st1 with delayTimers := st.delayTimers.filter fun t => t.1 ≠ csn }, effs) := by
        have hfold : ∀ (ps : List Report) (st : State) (ts : List (Nat × Frag)),
            ps.foldl (issueOne p'.checkpoint p'.secondary) { st with delayTimers := ts } =
              { ps.foldl (issueOne p'.checkpoint p'.secondary) st with delayTimers := ts } := by
          intro ps
          induction ps with
          | nil => intro st ts; rfl
          | cons r rs ih =>
            intro st ts
            rw [List.foldl_cons, List.foldl_cons, ← ih]
            rfl
        rw [issue] at e1 ⊢
        simp only at e1 ⊢
        split at e1
        · cases e1
        · split at e1
          · rename_i hlen
            rw [if_pos hlen]
            split at e1
            · simp only [Option.some.injEq, Prod.mk.injEq] at e1
              rw [hfold, e1.1, e1.2]
            · cases e1
          · rename_i hlen
            rw [if_neg hlen]
            simp only [Option.some.injEq, Prod.mk.injEq] at e1 ⊢
            exact ⟨by rw [← e1.1]; rfl, e1.2⟩
      rw [hcomm]
      refine ⟨_, _, n, s, l, q, erasePending st.pending range,
        st.delayTimers.filter fun t => t.1 ≠ csn, rfl, ?_, e2,
        ⟨ps.map fun r => ⟨p'.checkpoint, p'.secondary, r⟩, ?_,
          by rw [e2.count, e6, List.length_map]⟩, by rw [e3], ?_⟩
      rotate_right
      · intro p hp2 hp3
        have : p = p' := h.csn_inj p hp2 p' hp (by rw [hp3, hpc, hkey])
        subst this
        refine ⟨ps, e7, ?_, e6⟩
        have := e5.2
        rw [hp3] at this
        exact this
      rotate_left
      · have : st1.frags = st.frags := by rw [e3]
        exact this ▸ e5.right rfl
      have hsafe := safe_erase cfg st1 e4 p' (by rw [e3]; exact hp)
      rw [hpr, hpc, hkey] at hsafe
      have hd : st1.delayTimers = st.delayTimers := by rw [e3]
      rw [hd] at hsafe
      refine { hsafe with full := ?_ }
      rw [e3]; exact h.full

theorem reportExpired_spec (cfg : Cfg) (st : State) (h : Inv cfg st) (serial : Nat) :
    ∃ q t b, (reportExpired cfg st serial).1 = { st with queue := q, rsnTimers := t, didNotify := b } ∧
      Inv cfg (reportExpired cfg st serial).1 ∧
      (∀ d n v e, Eff.red d n v e ∉ (reportExpired cfg st serial).2) ∧
      Notified st (reportExpired cfg st serial).1 (reportExpired cfg st serial).2 := by
  rw [reportExpired]
  split
  · exact ⟨st.queue, st.rsnTimers, st.didNotify, rfl, h, by simp, .inl ⟨rfl, quiet_nil.noDelete⟩⟩
  · rename_i c retry hf
    have hmem := List.mem_of_find?_eq_some hf
    have hkey : c = serial := by simpa using List.find?_some hf
    subst hkey
    have hts : ∀ e ∈ st.rsnTimers.filter (fun t => t.1 ≠ c), ∃ k ∈ st.sent, k.1 = e.1 :=
      fun e he => h.timers_sent e (List.mem_filter.1 he).1
    simp only
    split
    · refine ⟨_, _, st.didNotify, rfl, ?_, by simp, .inl ⟨rfl, by intro c r h; simp at h⟩⟩
      exact { h with
        timers_sent := hts
        queue_sent := fun e he => by
          rcases List.mem_append.1 he with he | he
          · exact h.queue_sent e he
          · simp only [List.mem_singleton] at he
            subst he
            exact h.timers_sent (c, retry) hmem }
    · rw [notifyDelete_spec]
      refine ⟨st.queue, _, true, rfl, { h with timers_sent := hts }, ?_,
        notified_of st _ [] quiet_nil.noDelete _ _ rfl⟩
      intro d n v e he
      simp only at he
      split at he <;> simp at he

theorem reportAck_spec (cfg : Cfg) (st : State) (h : Inv cfg st) (serial : Nat) :
    ∃ t b, (reportAck st serial).1 = { st with rsnTimers := t, didNotify := b } ∧
      Inv cfg (reportAck st serial).1 ∧
      (∀ d n v e, Eff.red d n v e ∉ (reportAck st serial).2) ∧
      Notified st (reportAck st serial).1 (reportAck st serial).2 := by
  have hts : ∀ e ∈ st.rsnTimers.filter (fun t => t.1 ≠ serial), ∃ k ∈ st.sent, k.1 = e.1 :=
    fun e he => h.timers_sent e (List.mem_filter.1 he).1
  simp only [reportAck]
  split
  · rw [notifyDelete_spec]
    refine ⟨_, true, rfl, { h with timers_sent := hts }, ?_,
      notified_of st _ [] quiet_nil.noDelete _ _ rfl⟩
    intro d n v e he
    simp only at he
    split at he <;> simp at he
  · exact ⟨_, st.didNotify, rfl, { h with timers_sent := hts }, by simp,
      .inl ⟨rfl, quiet_nil.noDelete⟩⟩

theorem nextDataToSend_spec (cfg : Cfg) (st : State) (h : Inv cfg st) :
    ∃ st' effs q t, nextDataToSend st = some (st', effs) ∧ Inv cfg st' ∧
      st' = { st with queue := q, rsnTimers := t } ∧ (∀ d n v e, Eff.red d n v e ∉ effs) ∧
      ∀ n c r, Eff.send n c r ∈ effs → (n, c, r) ∈ st.sent := by
  rw [nextDataToSend]
  split
  · exact ⟨_, _, st.queue, st.rsnTimers, rfl, h, rfl, by simp, by simp⟩
  · rename_i serial retry rest hq
    obtain ⟨c, hc, hce⟩ := h.queue_sent (serial, retry) (by rw [hq]; simp)
    simp only at hce
    split
    · rename_i hnone
      have := List.find?_eq_none.1 hnone c hc
      simp [hce] at this
    · rename_i k cp r hf
      have hmem := List.mem_of_find?_eq_some hf
      have hkey : k = serial := by simpa using List.find?_some hf
      subst hkey
      refine ⟨_, _, _, _, rfl, ?_, rfl, by simp, ?_⟩
      · exact { h with
          queue_sent := fun e he => h.queue_sent e (by rw [hq]; exact List.mem_cons_of_mem _ he)
          timers_sent := fun e he => by
            simp only at he
            split at he
            · exact h.timers_sent e he
            · rcases List.mem_cons.1 he with rfl | he
              · exact ⟨_, hmem, rfl⟩
              · exact h.timers_sent e he }
      · intro n c' r' he
        simp only [List.mem_singleton, Eff.send.injEq] at he
        obtain ⟨rfl, rfl, rfl⟩ := he
        exact hmem

/-- The state in which the kind of the segment is looked at. -/
theorem eobUpdate_inv (cfg : Cfg) (st : State) (h : Inv cfg st) (a b : Bool) :
    Inv cfg { st with eob := a, eobRed := b } := { h with }

/-- The events the safety theorem speaks about. -/
def Event.Sane : Event → Prop
  | .data s => s.Sane
  | _ => True

theorem step_inv (cfg : Cfg) (hc : cfg.Sane) (st : State) (h : Inv cfg st) (e : Event)
    (he : e.Sane) : ∃ st' effs, step cfg st e = some (st', effs) ∧ Inv cfg st' := by
  cases e with
  | data s =>
    rw [step, dataSegment]
    have h' : Inv cfg (if s.flags &&& 3 = 3 then { st with
        eob := true, eobRed := decide (s.flags ≤ 3) } else st) := by
      split
      · exact eobUpdate_inv cfg st h _ _
      · exact h
    split
    · rename_i hr
      obtain ⟨st', effs, e1, e2, -⟩ := redSegment_spec cfg hc _ h' s he (by simpa [Seg.IsRed] using hr)
      exact ⟨st', effs, e1, e2⟩
    · obtain ⟨st', effs, -, e1, e2, -⟩ := greenSegment_spec cfg _ h' s he
      exact ⟨st', effs, e1, e2⟩
  | ack n =>
    obtain ⟨-, -, -, h', -⟩ := reportAck_spec cfg st h n
    exact ⟨_, _, rfl, h'⟩
  | delayExpired n =>
    obtain ⟨st', effs, -, -, -, -, -, -, e1, e2, -⟩ := delayExpired_spec cfg hc st h n
    exact ⟨st', effs, e1, e2⟩
  | reportExpired n =>
    obtain ⟨-, -, -, -, h', -⟩ := reportExpired_spec cfg st h n
    exact ⟨_, _, rfl, h'⟩
  | next =>
    obtain ⟨st', effs, -, -, e1, e2, -⟩ := nextDataToSend_spec cfg st h
    exact ⟨st', effs, e1, e2⟩

theorem run_inv (cfg : Cfg) (hc : cfg.Sane) (st : State) (h : Inv cfg st) (evs : List Event)
    (he : ∀ e ∈ evs, e.Sane) : ∃ st' effs, run cfg st evs = some (st', effs) ∧ Inv cfg st' := by
  induction evs generalizing st with
  | nil => exact ⟨st, [], rfl, h⟩
  | cons e es ih =>
    obtain ⟨st1, effs1, h1, h2⟩ := step_inv cfg hc st h e (he e (by simp))
    obtain ⟨st2, effs2, h3, h4⟩ := ih st1 h2 fun e h => he e (List.mem_cons_of_mem _ h)
    exact ⟨st2, effs1 ++ effs2, by rw [run, h1]; simp only; rw [h3], h4⟩

theorem run_append (cfg : Cfg) (st : State) (a b : List Event) :
    run cfg st (a ++ b) = match run cfg st a with
      | none => none
      | some (st1, effs1) =>
        match run cfg st1 b with
        | none => none
        | some (st2, effs2) => some (st2, effs1 ++ effs2) := by
  induction a generalizing st with
  | nil =>
    simp only [List.nil_append, run]
    cases run cfg st b with
    | none => rfl
    | some v => rfl
  | cons e es ih =>
    rw [List.cons_append, run, run]
    cases step cfg st e with
    | none => rfl
    | some v =>
      obtain ⟨st1, effs1⟩ := v
      simp only
      rw [ih]
      cases run cfg st1 es with
      | none => rfl
      | some v =>
        obtain ⟨st2, effs2⟩ := v
        simp only
        cases run cfg st2 b with
        | none => rfl
        | some v => simp only [List.append_assoc]

theorem run_snoc (cfg : Cfg) (st st' : State) (evs : List Event) (e : Event) (effs : List Eff)
    (h : run cfg st evs = some (st', effs)) :
    run cfg st (evs ++ [e]) = match step cfg st' e with
      | none => none
      | some (st2, effs2) => some (st2, effs ++ effs2) := by
  rw [run_append, h]
  simp only [run]
  cases step cfg st' e with
  | none => rfl
  | some v => simp only [List.append_nil]

end Hdtn.LtpReceiver
