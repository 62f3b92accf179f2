import Verif.LtpReceiver.Retry

namespace Hdtn.LtpReceiver
open Hdtn.FragmentSet Hdtn.LtpReport

/-! ### What becomes of a checkpoint -/

theorem issue_pending (cfg : Cfg) (st st' : State) (effs : List Eff) (csn lower upper : Nat)
    (sec : Bool) (h : issue cfg st csn lower upper sec = some (st', effs)) :
    st'.pending = st.pending := by
  rw [issue] at h
  split at h
  · cases h
  · split at h
    · split at h
      · rename_i pieces _
        simp only [Option.some.injEq, Prod.mk.injEq] at h
        obtain ⟨n, s, l, q, hf, -⟩ := issueAll_frame csn sec pieces st
        rw [← h.1, hf]
      · cases h
    · simp only [Option.some.injEq, Prod.mk.injEq] at h
      rw [← h.1]; rfl

theorem store_pending (cfg : Cfg) (st st' : State) (s : Seg) (grow b : Bool) (effs : List Eff)
    (h : store cfg st s grow = some (st', effs, b)) : ∀ p ∈ st'.pending, p ∈ st.pending := by
  simp only [store] at h
  split at h
  · split at h
    · cases h
    · split at h
      · simp only [Option.some.injEq, Prod.mk.injEq] at h
        rw [← h.1]; exact fun p hp => hp
      · rw [fillGaps] at h
        split at h
        · simp only [Option.some.injEq, Prod.mk.injEq] at h
          rw [← h.1]; exact fun p hp => hp
        · split at h
          · simp only at h
            split at h
            · cases h
            · rename_i st1 effs1 hi
              simp only [Option.some.injEq, Prod.mk.injEq] at h
              rw [← h.1]
              intro p hp
              have := (List.mem_filter.1 hp).1
              rw [issue_pending _ _ _ _ _ _ _ _ hi] at this
              exact this
          · simp only [Option.some.injEq, Prod.mk.injEq] at h
            rw [← h.1]; exact fun p hp => hp
  · simp only [Option.some.injEq, Prod.mk.injEq] at h
    rw [← h.1]; exact fun p hp => hp

theorem insertPending_none (ps : List Pending) (p : Pending) (h : insertPending ps p = none) :
    ∃ q ∈ ps, q.range.b ≤ p.range.e ∧ p.range.b ≤ q.range.e := by
  rw [insertPending] at h
  split at h
  · cases h
  · rename_i q qs hd
    have hq : q ∈ ps := by
      have : q ∈ ps.dropWhile fun q => q.range.ltAbut p.range := by rw [hd]; simp
      exact (List.dropWhile_sublist _).subset this
    have hn : q.range.ltAbut p.range = false := by
      have := List.head?_dropWhile_not (fun q : Pending => q.range.ltAbut p.range) ps
      rw [hd] at this
      simpa using this
    split at h
    · cases h
    · rename_i hlt
      simp only [Frag.ltAbut, decide_eq_false_iff_not, decide_eq_true_eq] at hn hlt
      exact ⟨q, hq, by omega, by omega⟩

/-- The state in which the checkpoint is looked at, and what then becomes of it. -/
structure Handled (cfg : Cfg) (st : State) (s : Seg) (csn rsn : Nat) (st' m : State) (its : List Item)
    (effs : List Eff) : Prop where
  safe : Safe cfg m
  grew : Grew cfg m.frags st m its
  sub : ∀ p ∈ m.pending, p ∈ st.pending
  rsnTimers : m.rsnTimers = st.rsnTimers
  rsnTimers' : st'.rsnTimers = st.rsnTimers
  noSend : NoSend effs
  cases : (s.offset + s.length ≤ lowerBoundFor m rsn ∧ st'.out = m.out) ∨
    (lowerBoundFor m rsn < s.offset + s.length ∧ ∃ ps,
      Issued cfg m.frags (lowerBoundFor m rsn) (s.offset + s.length) ps ∧
      st'.out = (ps.map fun r => (⟨csn, decide (rsn ≠ 0), r⟩ : Item)).foldl Out.add m.out ∧
      its.length + ps.length ≤ effs.count .producible) ∨
    (cfg.deferral = true ∧ lowerBoundFor m rsn < s.offset + s.length ∧ st'.out = m.out ∧
      ∃ p ∈ st'.pending, p.range = ⟨lowerBoundFor m rsn, s.offset + s.length - 1⟩ ∧
        p.checkpoint = csn ∧ p.secondary = decide (rsn ≠ 0)) ∨
    (cfg.deferral = true ∧ lowerBoundFor m rsn < s.offset + s.length ∧ st'.out = m.out ∧
      ∃ p ∈ m.pending, p.range.b < s.offset + s.length ∧ lowerBoundFor m rsn ≤ p.range.e)
  count : its.length ≤ effs.count .producible

theorem complete_checkpoint (cfg : Cfg) (st st' : State) (s : Seg) (rep : Bool) (effs : List Eff)
    (hf : s.flags ≠ 0) (h : complete cfg st s rep = some (st', effs)) :
    st'.out = st.out ∧ st'.pending = st.pending ∧ st'.rsnTimers = st.rsnTimers ∧ NoSend effs := by
  rw [complete] at h
  split at h
  · split at h
    · split at h
      · rw [if_neg (by rintro ⟨h, -⟩; exact hf h)] at h
        simp only [Option.some.injEq, Prod.mk.injEq] at h
        rw [← h.1, ← h.2]
        refine ⟨rfl, rfl, rfl, ?_⟩
        intro n c r he
        simp at he
      · simp only [Option.some.injEq, Prod.mk.injEq] at h
        rw [← h.1, ← h.2]; exact ⟨rfl, rfl, rfl, quiet_nil.noSend⟩
    · simp only [Option.some.injEq, Prod.mk.injEq] at h
      rw [← h.1, ← h.2]; exact ⟨rfl, rfl, rfl, quiet_nil.noSend⟩
  · simp only [Option.some.injEq, Prod.mk.injEq] at h
    rw [← h.1, ← h.2]; exact ⟨rfl, rfl, rfl, quiet_nil.noSend⟩

theorem lowerBoundFor_checkpoints (st : State) (cs : List Nat) (rsn : Nat) :
    lowerBoundFor { st with checkpoints := cs } rsn = lowerBoundFor st rsn := rfl

theorem red_checkpoint (cfg : Cfg) (hc : cfg.Sane) (st : State) (h : Inv cfg st) (s : Seg)
    (hs : s.Sane) (hred : s.IsRed) (hcp : s.IsCheckpoint) (csn rsn : Nat)
    (hck : s.checkpoint = some (csn, rsn)) (hfresh : csn ∉ st.checkpoints)
    (hok : ¬ (st.lowestGreen < max st.curRed (s.offset + s.length) ∨ st.didRed = true ∨
      cfg.maxRedRx < max st.curRed (s.offset + s.length))) :
    ∃ st' effs m its, redSegment cfg st s = some (st', effs) ∧
      Handled cfg st s csn rsn st' m its effs := by
  obtain ⟨hadd, -⟩ := frag_of_seg s hs
  have hcur : (if decide (st.curRed < s.offset + s.length) = true then s.offset + s.length
      else st.curRed) = max st.curRed (s.offset + s.length) := by
    simp only [decide_eq_true_eq]; split <;> omega
  rw [redSegment]
  simp only [hadd, hcur]
  generalize hM : max st.curRed (s.offset + s.length) = M at *
  have hMle : st.curRed ≤ M := by omega
  have hsafe1 : Safe cfg { st with curRed := M } :=
    { h.toSafe with le := by have := h.le; simp only; omega }
  rw [if_neg (fun h => hok (.inl h)), if_neg (fun h => hok (.inr (.inl h))),
    if_neg (fun h => hok (.inr (.inr h)))]
  have hnb : ¬ Blocked cfg st := by
    rintro (hb | hb | hb)
    · exact hok (.inl (by omega))
    · exact hok (.inr (.inl hb))
    · exact hok (.inr (.inr (by omega)))
  have hfull : st.data.length = st.curRed := h.full.resolve_right hnb
  have hle : M ≤ cfg.maxRedRx := by
    by_contra hh
    exact hok (.inr (.inr (by omega)))
  obtain ⟨st1, effs1, rep, fr, d, n, sn, l, q, ps, ts, its, e1, e2, eg, e3, e4, e5, e6, -⟩ :=
    safe_store cfg hc { st with curRed := M } hsafe1 s hs
      (decide (st.curRed < s.offset + s.length)) (by simp only; omega) (by simp only; omega)
      (by intro hh; simp only [decide_eq_false_iff_not] at hh; simp only; omega)
      (by intro hh; simp only [decide_eq_true_eq] at hh; simp only; omega)
  have hsub := store_pending _ _ _ _ _ _ _ e1
  simp only [e1]
  have hnw := hs.noWrap
  obtain ⟨st2, hst2, hsafe2⟩ : ∃ st2 : State,
      { st1 with lengthOfRed := if s.flags &&& 2 ≠ 0 then s.offset + s.length
        else st1.lengthOfRed } = st2 ∧ Safe cfg st2 := by
    refine ⟨_, rfl, ?_⟩
    refine { e4 with lengthOfRed := ?_ }
    simp only
    split
    · omega
    · exact e4.lengthOfRed
  rw [hst2]
  have hflag : s.flags ≠ 0 := (flags_checkpoint s hred).2 hcp
  rw [if_pos hflag, hck]
  have hf2 : st2.frags = fr := by rw [← hst2, e3]
  have hd2 : st2.data.length = M := by rw [← hst2, e3]; exact e5
  obtain ⟨st3, effs2, b, n3, sn3, l3, q3, ps3, ts3, cs3, its3, f1, f2, fg, f3, f4, -⟩ :=
    safe_checkpoint cfg hc st2 hsafe2 (by rw [hf2]; exact e6) (some (csn, rsn))
      (s.offset + s.length) (by rw [hd2]; omega)
  have hgrew : Grew cfg st2.frags st st2 its := by
    rw [hf2]
    exact (eg.1.left rfl).right (by rw [← hst2]; rfl)
  have hsub2 : ∀ p ∈ st2.pending, p ∈ st.pending := by rw [← hst2]; exact hsub
  have hrt2 : st2.rsnTimers = st.rsnTimers := by rw [← hst2, e3]
  have hrt3 : st3.rsnTimers = st2.rsnTimers := by rw [f3]
  have hck2 : st2.checkpoints = st.checkpoints := by rw [← hst2, e3]
  -- the four outcomes
  have hcases : b = true ∧ ((s.offset + s.length ≤ lowerBoundFor st2 rsn ∧ st3.out = st2.out) ∨
    (lowerBoundFor st2 rsn < s.offset + s.length ∧ ∃ ps,
      Issued cfg st2.frags (lowerBoundFor st2 rsn) (s.offset + s.length) ps ∧
      st3.out = (ps.map fun r => (⟨csn, decide (rsn ≠ 0), r⟩ : Item)).foldl Out.add st2.out ∧
      effs2.length = ps.length) ∨
    (cfg.deferral = true ∧ lowerBoundFor st2 rsn < s.offset + s.length ∧ st3.out = st2.out ∧
      ∃ p ∈ st3.pending, p.range = ⟨lowerBoundFor st2 rsn, s.offset + s.length - 1⟩ ∧
        p.checkpoint = csn ∧ p.secondary = decide (rsn ≠ 0)) ∨
    (cfg.deferral = true ∧ lowerBoundFor st2 rsn < s.offset + s.length ∧ st3.out = st2.out ∧
      ∃ p ∈ st2.pending, p.range.b < s.offset + s.length ∧ lowerBoundFor st2 rsn ≤ p.range.e)) := by
    rw [handleCheckpoint] at f1
    simp only at f1
    rw [if_neg (by rw [hck2]; exact hfresh)] at f1
    rw [lowerBoundFor_checkpoints] at f1
    split at f1
    · rename_i hge
      simp only [Option.some.injEq, Prod.mk.injEq] at f1
      exact ⟨f1.2.2.symm, .inl ⟨hge, by rw [← f1.1]; rfl⟩⟩
    · rename_i hlt
      split at f1
      · have h0 : Safe cfg { st2 with checkpoints := csn :: st2.checkpoints } :=
          { hsafe2 with csn_mem := fun p hp => List.mem_cons_of_mem _ (hsafe2.csn_mem p hp) }
        obtain ⟨st', effs', n', s', l', q', ps', i1, i2, i3, i4, i5, i6, i7, i8⟩ :=
          safe_issue cfg hc _ h0 (by simp only; rw [hf2]; exact e6) csn (lowerBoundFor st2 rsn)
            (s.offset + s.length) (rsn ≠ 0) (by omega) (by simp only; rw [hd2]; omega)
        rw [i1] at f1
        simp only [Option.some.injEq, Prod.mk.injEq] at f1
        obtain ⟨rfl, rfl, rfl⟩ := f1
        refine ⟨rfl, .inr (.inl ⟨by omega, ps', i5, ?_, i8⟩)⟩
        exact i7.2
      · rename_i hdef
        have hdef' : cfg.deferral = true := by
          cases hh : cfg.deferral with
          | true => rfl
          | false => exact absurd (.inl (by rw [hh]; rfl)) hdef
        split at f1
        · rename_i hnone
          simp only [Option.some.injEq, Prod.mk.injEq] at f1
          obtain ⟨p, hp, hp1, hp2⟩ := insertPending_none _ _ hnone
          simp only at hp1 hp2
          refine ⟨f1.2.2.symm, .inr (.inr (.inr ⟨hdef', by omega, by rw [← f1.1]; rfl, p, hp, by omega, hp2⟩))⟩
        · rename_i qs hqs
          simp only [Option.some.injEq, Prod.mk.injEq] at f1
          obtain ⟨a, b', -, hb, -⟩ := insertPending_some _ _ _ hqs
          refine ⟨f1.2.2.symm, .inr (.inr (.inl ⟨hdef', by omega, by rw [← f1.1]; rfl, ?_⟩))⟩
          rw [← f1.1]
          refine ⟨⟨⟨lowerBoundFor st2 rsn, s.offset + s.length - 1⟩, csn, decide (rsn ≠ 0)⟩, ?_,
            rfl, rfl, rfl⟩
          rw [hb]; simp
  obtain ⟨rfl, hcases⟩ := hcases
  rw [f1]
  obtain ⟨st4, effs3, n4, sn4, l4, q4, its4, k1, -⟩ := safe_complete cfg hc st3 f4 s rep
  simp only [k1]
  obtain ⟨c1, c2, c3, c4⟩ := complete_checkpoint cfg st3 st4 s rep effs3 hflag k1
  refine ⟨_, _, st2, its, rfl, hsafe2, hgrew, hsub2, hrt2, by rw [c3, hrt3, hrt2], ?_, ?_, ?_⟩
  · intro n c r he
    rcases List.mem_append.1 he with he | he
    · exact (e2.append f2).noSend n c r he
    · exact c4 n c r he
  · rw [c1, c2]
    rcases hcases with hh | ⟨g1, ps', g2, g3, g4⟩ | hh | hh
    · exact .inl hh
    · refine .inr (.inl ⟨g1, ps', g2, g3, ?_⟩)
      have c5 := (e2.append f2).count
      rw [List.count_append (l₁ := effs1 ++ effs2), c5, List.length_append, ← eg.2, g4]
      omega
    · exact .inr (.inr (.inl hh))
    · exact .inr (.inr (.inr hh))
  · have c5 := (e2.append f2).count
    rw [List.count_append (l₁ := effs1 ++ effs2), c5, List.length_append, ← eg.2]
    omega

/-- Issued reports are kept under their serial numbers and queued. -/
theorem issued_sent (cfg : Cfg) (s0 : Nat) (effs : List Eff) (timers : List (Nat × Nat))
    (its : List Item) : ∀ (k : Nat) (o : Out), Retry cfg s0 k effs o timers →
      k + its.length ≤ 2 ^ 64 → ∀ i ∈ its, ∃ n,
        (n, i.checkpoint, i.report) ∈ (its.foldl Out.add o).sent ∧
        (n, 1) ∈ (its.foldl Out.add o).queue := by
  induction its with
  | nil => intro k o _ _ i hi; simp at hi
  | cons j js ih =>
    intro k o hr hk i hi
    rw [List.length_cons] at hk
    rw [List.foldl_cons]
    have hr' := retry_add cfg s0 k effs o timers hr (by omega) j
    rcases List.mem_cons.1 hi with e | e
    · subst e
      have hfresh : o.sent.any (fun e => e.1 == o.nextRsn) = false := by
        rw [List.any_eq_false]
        intro e he hh
        have hh : e.1 = o.nextRsn := by simpa using hh
        obtain ⟨m, hm, hm'⟩ := hr.keys e he
        rw [hr.next, hm'] at hh
        exact serial_ne hm (by omega) hh
      refine ⟨o.nextRsn, (out_sent js _).1 _ ?_, out_queue js _ _ ?_⟩
      · simp only [Out.add, hfresh]
        simp
      · simp [Out.add]
    · exact ih (k + 1) _ hr' (by omega) i e

/-- Asking often enough for data to send sends everything queued. -/
theorem drain (cfg : Cfg) : ∀ (m : Nat) (st : State), Inv cfg st → st.queue.length ≤ m →
    ∃ st' effs, run cfg st (List.replicate m .next) = some (st', effs) ∧ Inv cfg st' ∧
      st'.sent = st.sent ∧ effs.count .producible = 0 ∧ st'.queue = [] ∧
      ∀ e ∈ st.queue, ∃ c r, st.sent.find? (fun k => k.1 == e.1) = some (e.1, c, r) ∧
        Eff.send e.1 c r ∈ effs := by
  intro m
  induction m with
  | zero =>
    intro st h hl
    have : st.queue = [] := List.eq_nil_of_length_eq_zero (by omega)
    exact ⟨st, [], rfl, h, rfl, rfl, this, by rw [this]; simp⟩
  | succ m ih =>
    intro st h hl
    obtain ⟨st1, effs1, q, t, g1, g2, g3, -, -⟩ := nextDataToSend_spec cfg st h
    have hrun : ∀ st' effs, run cfg st1 (List.replicate m .next) = some (st', effs) →
        run cfg st (List.replicate (m + 1) .next) = some (st', effs1 ++ effs) := by
      intro st' effs hh
      rw [List.replicate_succ, run, step, g1]
      simp only
      rw [hh]
    rw [nextDataToSend] at g1
    split at g1
    · rename_i hq
      simp only [Option.some.injEq, Prod.mk.injEq] at g1
      obtain ⟨rfl, rfl⟩ := g1
      obtain ⟨st', effs, i1, i2, i3, i4, i6, i5⟩ := ih st g2 (by rw [hq]; simp)
      exact ⟨st', [] ++ effs, hrun _ _ i1, i2, i3, i4, i6, by rw [hq]; simp⟩
    · rename_i serial retry rest hq
      split at g1
      · cases g1
      · rename_i n cp r hf
        have hkey : n = serial := by simpa using List.find?_some hf
        subst hkey
        simp only [Option.some.injEq, Prod.mk.injEq] at g1
        obtain ⟨hst1, rfl⟩ := g1
        have hq1 : st1.queue = rest := by rw [← hst1]
        have hs1 : st1.sent = st.sent := by rw [← hst1]
        rw [hq] at hl
        simp only [List.length_cons] at hl
        obtain ⟨st', effs, i1, i2, i3, i4, i6, i5⟩ := ih st1 g2 (by rw [hq1]; omega)
        refine ⟨st', _, hrun _ _ i1, i2, by rw [i3, hs1], ?_, i6, ?_⟩
        · rw [List.count_append, i4]; simp
        · intro e he
          rw [hq] at he
          rcases List.mem_cons.1 he with e' | e'
          · subst e'
            exact ⟨cp, r, hf, by simp⟩
          · obtain ⟨c, r', j1, j2⟩ := i5 e (by rw [hq1]; exact e')
            rw [hs1] at j1
            exact ⟨c, r', j1, List.mem_append_right _ j2⟩

theorem find_key (l : List (Nat × Nat × Report)) (hn : (l.map Prod.fst).Nodup) (e : Nat × Nat × Report)
    (he : e ∈ l) : l.find? (fun k => k.1 == e.1) = some e := by
  induction l with
  | nil => simp at he
  | cons a l ih =>
    simp only [List.map_cons, List.nodup_cons] at hn
    rw [List.find?_cons]
    rcases List.mem_cons.1 he with h | h
    · subst h; simp
    · have hne : a.1 ≠ e.1 := fun hh => hn.1 (hh ▸ List.mem_map_of_mem h)
      have : (a.1 == e.1) = false := by simpa using hne
      rw [this]
      exact ih hn.2 h

theorem out_sent_queue (its : List Item) (o : Out) : ∀ k ∈ (its.foldl Out.add o).sent,
    k ∈ o.sent ∨ (k.1, 1) ∈ (its.foldl Out.add o).queue := by
  induction its generalizing o with
  | nil => exact fun k h => .inl h
  | cons i is ih =>
    intro k hk
    rw [List.foldl_cons] at hk ⊢
    rcases ih _ k hk with h | h
    · simp only [Out.add] at h
      split at h
      · exact .inl h
      · rcases List.mem_append.1 h with h | h
        · exact .inl h
        · simp only [List.mem_singleton] at h
          refine .inr (out_queue is _ _ ?_)
          rw [h]; simp [Out.add]
    · exact .inr h

/-- Every issued report was sent or is queued, and is not forgotten before it is acknowledged. -/
structure Ledger (evs : List Event) (effs : List Eff) (st : State) : Prop where
  sent : ∀ k ∈ st.sent, Eff.send k.1 k.2.1 k.2.2 ∈ effs ∨ ∃ r, (k.1, r) ∈ st.queue
  acked : ∀ k ∈ st.sent, st.didNotify = true ∨ (∃ r, (k.1, r) ∈ st.queue) ∨
    (∃ r, (k.1, r) ∈ st.rsnTimers) ∨ Event.ack k.1 ∈ evs

theorem ledger_issues (cfg : Cfg) (evs : List Event) (effs effs' : List Eff) (st st' : State)
    (e : Event) (h : Ledger evs effs st) (hi : Issues cfg st st' effs')
    (ht : st'.rsnTimers = st.rsnTimers) (hn : st.didNotify = true → st'.didNotify = true) :
    Ledger (evs ++ [e]) (effs ++ effs') st' := by
  obtain ⟨its, ⟨-, hg⟩, -⟩ := hi
  have hs : st'.sent = (its.foldl Out.add st.out).sent := by rw [← hg]; rfl
  have hq : st'.queue = (its.foldl Out.add st.out).queue := by rw [← hg]; rfl
  constructor
  · intro k hk
    rw [hs] at hk
    rw [hq]
    rcases out_sent_queue its _ k hk with h' | h'
    · rcases h.sent k h' with g | ⟨r, g⟩
      · exact .inl (List.mem_append_left _ g)
      · exact .inr ⟨r, out_queue its _ _ g⟩
    · exact .inr ⟨1, h'⟩
  · intro k hk
    rw [hs] at hk
    rw [hq, ht]
    rcases out_sent_queue its _ k hk with h' | h'
    · rcases h.acked k h' with g | ⟨r, g⟩ | g | g
      · exact .inl (hn g)
      · exact .inr (.inl ⟨r, out_queue its _ _ g⟩)
      · exact .inr (.inr (.inl g))
      · exact .inr (.inr (.inr (List.mem_append_left _ g)))
    · exact .inr (.inl ⟨1, h'⟩)

theorem ledger_step (cfg : Cfg) (hc : cfg.Sane) (s0 k : Nat) (evs : List Event) (effs : List Eff)
    (st : State) (h : Inv cfg st) (hr : Retry cfg s0 k effs st.out st.rsnTimers) (e : Event)
    (he : e.Sane) (hl : Ledger evs effs st) :
    ∃ st' effs', step cfg st e = some (st', effs') ∧ Ledger (evs ++ [e]) (effs ++ effs') st' := by
  have hmono : ∀ st' effs', Notified st st' effs' → st.didNotify = true → st'.didNotify = true := by
    rintro st' effs' (⟨h1, -⟩ | ⟨-, h1, -⟩) h2
    · rw [h1, h2]
    · exact h1
  cases e with
  | data s =>
    obtain ⟨st', effs', e1, e2, e3, e4, e5, e6, -⟩ := data_report cfg hc st h s he
    exact ⟨st', effs', e1, ledger_issues cfg evs effs effs' st st' _ hl e3 e4 (hmono _ _ e6)⟩
  | delayExpired n =>
    obtain ⟨st', effs', n', s, l, q, ps, ts, h0, h2, h3, h4, h1, -⟩ := delayExpired_spec cfg hc st h n
    exact ⟨st', effs', h0, ledger_issues cfg evs effs effs' st st' _ hl h4 (by rw [h1])
      (by rw [h1]; exact fun h => h)⟩
  | ack n =>
    obtain ⟨-, -, -, -, -, hno⟩ := reportAck_spec cfg st h n
    refine ⟨(reportAck st n).1, (reportAck st n).2, rfl, ?_⟩
    have ho : (reportAck st n).1.out = st.out := by
      simp only [reportAck]
      split
      · rw [notifyDelete_spec]; rfl
      · rfl
    have ht : (reportAck st n).1.rsnTimers = st.rsnTimers.filter fun t => t.1 ≠ n := by
      simp only [reportAck]
      split
      · rw [notifyDelete_spec]
      · rfl
    have hs : (reportAck st n).1.sent = st.sent := congrArg Out.sent ho
    have hq : (reportAck st n).1.queue = st.queue := congrArg Out.queue ho
    constructor
    · intro k hk
      rw [hs] at hk
      rw [hq]
      exact (hl.sent k hk).imp (fun g => List.mem_append_left _ g) id
    · intro k hk
      rw [hs] at hk
      rw [hq, ht]
      rcases hl.acked k hk with g | g | ⟨r, g⟩ | g
      · exact .inl (hmono _ _ hno g)
      · exact .inr (.inl g)
      · by_cases hkn : k.1 = n
        · exact .inr (.inr (.inr (by rw [hkn]; simp)))
        · refine .inr (.inr (.inl ⟨r, List.mem_filter.2 ⟨g, by simpa using hkn⟩⟩))
      · exact .inr (.inr (.inr (List.mem_append_left _ g)))
  | reportExpired n =>
    obtain ⟨-, -, -, -, -, -, hno⟩ := reportExpired_spec cfg st h n
    refine ⟨(reportExpired cfg st n).1, (reportExpired cfg st n).2, rfl, ?_⟩
    simp only [reportExpired] at hno ⊢
    split
    · constructor
      · intro k hk
        exact (hl.sent k hk).imp (fun g => List.mem_append_left _ g) id
      · intro k hk
        rcases hl.acked k hk with g | g | g | g
        · exact .inl g
        · exact .inr (.inl g)
        · exact .inr (.inr (.inl g))
        · exact .inr (.inr (.inr (List.mem_append_left _ g)))
    · rename_i c retry hf
      have hkey : c = n := by simpa using List.find?_some hf
      subst hkey
      split
      · constructor
        · intro k hk
          rcases hl.sent k hk with g | ⟨r, g⟩
          · exact .inl (List.mem_append_left _ g)
          · exact .inr ⟨r, List.mem_append_left _ g⟩
        · intro k hk
          rcases hl.acked k hk with g | ⟨r, g⟩ | ⟨r, g⟩ | g
          · exact .inl g
          · exact .inr (.inl ⟨r, List.mem_append_left _ g⟩)
          · by_cases hkn : k.1 = c
            · exact .inr (.inl ⟨retry + 1, by rw [hkn]; simp⟩)
            · exact .inr (.inr (.inl ⟨r, List.mem_filter.2 ⟨g, by simpa using hkn⟩⟩))
          · exact .inr (.inr (.inr (List.mem_append_left _ g)))
      · rw [notifyDelete_spec]
        constructor
        · intro k hk
          exact (hl.sent k hk).imp (fun g => List.mem_append_left _ g) id
        · exact fun k hk => .inl rfl
  | next =>
    obtain ⟨st', effs', q, t, h0, h2, h1, -, h4⟩ := nextDataToSend_spec cfg st h
    refine ⟨st', effs', h0, ?_⟩
    rw [nextDataToSend] at h0
    split at h0
    · simp only [Option.some.injEq, Prod.mk.injEq] at h0
      obtain ⟨rfl, rfl⟩ := h0
      constructor
      · intro k hk
        exact (hl.sent k hk).imp (fun g => List.mem_append_left _ g) id
      · intro k hk
        rcases hl.acked k hk with g | g | g | g
        · exact .inl g
        · exact .inr (.inl g)
        · exact .inr (.inr (.inl g))
        · exact .inr (.inr (.inr (List.mem_append_left _ g)))
    · rename_i serial retry rest hq
      split at h0
      · cases h0
      · rename_i n cp r hf
        have hkey : n = serial := by simpa using List.find?_some hf
        subst hkey
        simp only [Option.some.injEq, Prod.mk.injEq] at h0
        obtain ⟨rfl, rfl⟩ := h0
        constructor
        · intro k hk
          simp only at hk ⊢
          rcases hl.sent k hk with g | ⟨r', g⟩
          · exact .inl (List.mem_append_left _ g)
          · rw [hq] at g
            rcases List.mem_cons.1 g with g | g
            · simp only [Prod.mk.injEq] at g
              have := find_key st.sent hr.keysNodup k hk
              rw [g.1, hf] at this
              simp only [Option.some.injEq] at this
              refine .inl (List.mem_append_right _ ?_)
              rw [← this]; simp
            · exact .inr ⟨r', g⟩
        · intro k hk
          simp only at hk ⊢
          rcases hl.acked k hk with g | ⟨r', g⟩ | ⟨r', g⟩ | g
          · exact .inl g
          · rw [hq] at g
            rcases List.mem_cons.1 g with g | g
            · simp only [Prod.mk.injEq] at g
              refine .inr (.inr (.inl ?_))
              split
              · rename_i hany
                obtain ⟨t, ht, ht'⟩ := List.any_eq_true.1 hany
                have ht' : t.1 = n := by simpa using ht'
                exact ⟨t.2, by rw [g.1, ← ht']; exact ht⟩
              · exact ⟨retry, by rw [g.1]; simp⟩
            · exact .inr (.inl ⟨r', g⟩)
          · refine .inr (.inr (.inl ⟨r', ?_⟩))
            split
            · exact g
            · exact List.mem_cons_of_mem _ g
          · exact .inr (.inr (.inr (List.mem_append_left _ g)))

theorem ledger_run (cfg : Cfg) (hc : cfg.Sane) (serial : Nat) (hs : serial < 2 ^ 64)
    (evs : List Event) (he : ∀ e ∈ evs, e.Sane) :
    ∃ st effs, run cfg (init serial) evs = some (st, effs) ∧ Inv cfg st ∧
      (effs.count .producible ≤ 2 ^ 64 → (∃ k ≤ effs.count .producible,
        Retry cfg serial k effs st.out st.rsnTimers) ∧ Ledger evs effs st) := by
  induction evs using List.reverseRecOn with
  | nil =>
    refine ⟨_, _, rfl, init_inv cfg serial, fun _ => ?_⟩
    obtain ⟨st, effs, h1, -, h3⟩ := retry_run cfg hc serial hs [] (by simp)
    simp only [run, Option.some.injEq, Prod.mk.injEq] at h1
    obtain ⟨rfl, rfl⟩ := h1
    exact ⟨(h3 (by simp)).1, by simp [init], by simp [init]⟩
  | append_singleton evs e ih =>
    obtain ⟨st, effs, h1, h2, h3⟩ := ih fun e h => he e (List.mem_append_left _ h)
    obtain ⟨st', effs', g1, g2⟩ := step_inv cfg hc st h2 e (he e (by simp))
    have hrun : run cfg (init serial) (evs ++ [e]) = some (st', effs ++ effs') := by
      rw [run_snoc _ _ _ _ _ _ h1, g1]
    refine ⟨st', effs ++ effs', hrun, g2, fun hk => ?_⟩
    obtain ⟨st2, effs2, k1, -, k3⟩ := retry_run cfg hc serial hs (evs ++ [e]) he
    rw [hrun] at k1
    simp only [Option.some.injEq, Prod.mk.injEq] at k1
    obtain ⟨rfl, rfl⟩ := k1
    refine ⟨(k3 hk).1, ?_⟩
    rw [List.count_append] at hk
    obtain ⟨⟨k, -, hr⟩, hl⟩ := h3 (by omega)
    obtain ⟨st3, effs3, j1, j2⟩ := ledger_step cfg hc serial k evs effs st h2 hr e (he e (by simp)) hl
    rw [g1] at j1
    simp only [Option.some.injEq, Prod.mk.injEq] at j1
    obtain ⟨rfl, rfl⟩ := j1
    exact j2

theorem lowerBound_origin (cfg : Cfg) (hc : cfg.Sane) (m : State) (h : Safe cfg m) (rsn : Nat) :
    lowerBoundFor m rsn = 0 ∨
    (∃ k ∈ m.sent, k.1 = rsn ∧ rsn ≠ 0 ∧ lowerBoundFor m rsn = k.2.2.lower) ∨
    (∃ k ∈ m.sent, lowerBoundFor m rsn = k.2.2.upper) ∨
    ∃ p ∈ m.pending, lowerBoundFor m rsn = p.range.e + 1 := by
  have hred := hc.red
  have hmax := h.max
  by_cases hne : rsn ≠ 0
  · rw [lowerBoundFor, if_pos hne]
    split
    · rename_i k c r hf
      have hk : k = rsn := by simpa using List.find?_some hf
      exact .inr (.inl ⟨_, List.mem_of_find?_eq_some hf, hk, hne, rfl⟩)
    · exact .inl rfl
  · obtain ⟨low, hlow, he⟩ : ∃ low, (low = 0 ∨ ∃ k ∈ m.sent, low = k.2.2.upper) ∧
        lowerBoundFor m rsn = match m.pending.reverse.find? (fun p => !p.secondary) with
          | none => low
          | some p => max low ((p.range.e + 1) % U64) := by
      rw [lowerBoundFor, if_neg hne]
      refine ⟨_, ?_, rfl⟩
      split
      · exact .inl rfl
      · split
        · rename_i k c r hf
          exact .inr ⟨_, List.mem_of_find?_eq_some hf, rfl⟩
        · exact .inl rfl
    rw [he]
    split
    · rcases hlow with h0 | h0
      · exact .inl h0
      · exact .inr (.inr (.inl h0))
    · rename_i p hp
      have hm := List.mem_reverse.1 (List.mem_of_find?_eq_some hp)
      have hpe := h.pend p hm
      have hmod : (p.range.e + 1) % U64 = p.range.e + 1 :=
        Nat.mod_eq_of_lt (by simp only [U64]; omega)
      rw [hmod]
      rcases Nat.le_total low (p.range.e + 1) with hle | hle
      · rw [Nat.max_eq_right hle]
        exact .inr (.inr (.inr ⟨p, hm, rfl⟩))
      · rw [Nat.max_eq_left hle]
        rcases hlow with h0 | h0
        · exact .inl h0
        · exact .inr (.inr (.inl h0))

theorem checkpoint_answered (cfg : Cfg) (hc : cfg.Sane) (red : Bytes) (hpos : 1 ≤ red.length)
    (hmax : red.length ≤ cfg.maxRedRx) (serial : Nat) (hserial : serial < 2 ^ 64)
    (evs : List Event) (s : Seg) (hp : ∀ t, Event.data t ∈ evs ++ [.data s] → t.PieceOf red)
    (hcons : Consistent (evs ++ [.data s])) (hcp : s.IsCheckpoint) (csn rsn : Nat)
    (hck : s.checkpoint = some (csn, rsn))
    (hfresh : ∀ t r, Event.data t ∈ evs → t.IsCheckpoint → t.checkpoint ≠ some (csn, r))
    (hopen : ¬ Arrived red evs) :
    ∃ st effs, run cfg (init serial) evs = some (st, effs) ∧
    ∃ m st' effs', run cfg (init serial)
        (evs ++ .data s :: .delayExpired csn :: List.replicate m .next) = some (st', effs') ∧
      (effs'.count .producible ≤ 2 ^ 64 →
        (∃ l ps, Tiles l (s.offset + s.length) ps ∧ (∀ p ∈ ps, ∃ n, Eff.send n csn p ∈ effs') ∧
          (rsn ≠ 0 → ∀ c r, Eff.send rsn c r ∈ effs → l = r.lower) ∧
          (rsn = 0 → l = 0 ∨ (∃ n c r, Eff.send n c r ∈ effs' ∧ l = r.upper) ∨
            ∃ p ∈ st.pending, l = p.range.e + 1)) ∨
        (∃ n c r, Eff.send n c r ∈ effs' ∧ s.offset + s.length ≤ r.upper) ∨
        (∃ p ∈ st.pending, s.offset + s.length ≤ p.range.e + 1) ∨
        (cfg.deferral = true ∧ ∃ p ∈ st.pending, p.range.b < s.offset + s.length)) := by
  have hcr := hc.red
  obtain ⟨st, effs, h1, hh⟩ := honest_run cfg hc red hpos hmax serial evs
    (fun t ht => hp t (List.mem_append_left _ ht))
    (fun s t a b c h1 h2 => hcons s t a b c (List.mem_append_left _ h1) (List.mem_append_left _ h2))
  refine ⟨st, effs, h1, ?_⟩
  have hps : s.PieceOf red := hp s (by simp)
  have hs : s.Sane := hps.toSane
  have hne := hs.nonempty
  have hr : s.IsRed := by
    simp only [Seg.IsCheckpoint] at hcp
    simp only [Seg.IsRed]; omega
  have hin := hps.red_inside hr
  have hnd : st.didRed = false := by
    cases hd : st.didRed with
    | false => rfl
    | true => exact absurd (hh.tracks.done.1 hd) hopen
  have hnew : csn ∉ st.checkpoints := by
    intro hm
    obtain ⟨t, r, t1, t2, t3⟩ := hh.tracks.checkpoints hnd csn hm
    exact hfresh t r t1 t2 t3
  have hcur := hh.tracks.curRed
  have hgreen := hh.tracks.green
  -- the segment
  obtain ⟨st0, hst0, hinv0, a, b, hfr⟩ : ∃ st0 : State,
      (if s.flags &&& 3 = 3 then { st with eob := true, eobRed := decide (s.flags ≤ 3) } else st)
        = st0 ∧ Inv cfg st0 ∧ ∃ a b, st0 = { st with eob := a, eobRed := b } := by
    refine ⟨_, rfl, ?_, ?_⟩
    · split
      · exact eobUpdate_inv cfg st hh.inv _ _
      · exact hh.inv
    · split
      · exact ⟨_, _, rfl⟩
      · exact ⟨st.eob, st.eobRed, rfl⟩
  obtain ⟨st1, effs1, m, its, g1, g2⟩ := red_checkpoint cfg hc st0 hinv0 s hs hr hcp csn rsn hck
    (by rw [hfr]; exact hnew) (by
      rw [hfr]; simp only
      rintro (h | h | h)
      · omega
      · rw [hnd] at h; cases h
      · omega)
  have hstep : step cfg st (.data s) = some (st1, effs1) := by
    rw [step, dataSegment]
    simp only [hst0]
    rw [if_pos (by simpa [Seg.IsRed] using hr), g1]
  have hinv1 : Inv cfg st1 := by
    obtain ⟨st1', effs1', i1, i2⟩ := step_inv cfg hc st hh.inv (.data s) hs
    rw [hstep] at i1
    simp only [Option.some.injEq, Prod.mk.injEq] at i1
    rw [i1.1]; exact i2
  -- the timer
  obtain ⟨st2, effs2, n', s', l', q', ps', ts', d0, d2, d3, d4, d1, d5⟩ :=
    delayExpired_spec cfg hc st1 hinv1 csn
  -- the packets
  obtain ⟨st3, effs3, r1, r2, r3, r4, r5, -⟩ := drain cfg st2.queue.length st2 d2 (Nat.le_refl _)
  have hrun : run cfg (init serial)
      (evs ++ .data s :: .delayExpired csn :: List.replicate st2.queue.length .next) =
      some (st3, effs ++ (effs1 ++ (effs2 ++ effs3))) := by
    rw [run_append, h1]
    have hd : step cfg st1 (.delayExpired csn) = some (st2, effs2) := d0
    simp only [run, hstep, hd, r1]
  refine ⟨_, st3, _, hrun, fun hk => ?_⟩
  have hsane : ∀ e ∈ evs ++ .data s :: .delayExpired csn :: List.replicate st2.queue.length .next,
      e.Sane := by
    intro e he
    cases e with
    | data t =>
      refine (hp t ?_).toSane
      simp only [List.mem_append, List.mem_cons, List.mem_replicate, reduceCtorEq, and_false,
        or_false, List.not_mem_nil] at he ⊢
      exact he
    | _ => exact trivial
  -- everything issued has been sent
  obtain ⟨st3', effs3', w1, -, w2⟩ := ledger_run cfg hc serial hserial _ hsane
  rw [hrun] at w1
  simp only [Option.some.injEq, Prod.mk.injEq] at w1
  obtain ⟨rfl, rfl⟩ := w1
  obtain ⟨-, hled⟩ := w2 hk
  have hsent : ∀ k ∈ st1.sent, Eff.send k.1 k.2.1 k.2.2 ∈ effs ++ (effs1 ++ (effs2 ++ effs3)) := by
    intro k hk1
    rcases hled.sent k (by rw [r3]; exact d4.sent.1 k hk1) with h | ⟨r, h⟩
    · exact h
    · rw [r5] at h; simp at h
  simp only [List.count_append] at hk
  obtain ⟨stR, effsR, v1, -, v2⟩ := retry_run cfg hc serial hserial evs fun e he => hsane e
    (List.mem_append_left _ he)
  rw [h1] at v1
  simp only [Option.some.injEq, Prod.mk.injEq] at v1
  obtain ⟨rfl, rfl⟩ := v1
  obtain ⟨⟨k, hk1, hretry⟩, -⟩ := v2 (by omega)
  have ho : st0.out = st.out := by rw [hfr]; rfl
  have hpend : ∀ p ∈ m.pending, p ∈ st.pending := by
    intro p hp
    have := g2.sub p hp
    rw [hfr] at this; exact this
  have hretryM : Retry cfg serial (k + its.length) effs m.out st.rsnTimers := by
    rw [g2.grew.2, ho]
    refine retry_items cfg serial effs _ its k _ hretry ?_
    have := g2.count
    omega
  have hmsent : ∀ k ∈ m.sent, k ∈ st1.sent := by
    intro e he
    rcases g2.cases with ⟨-, h⟩ | ⟨-, ps, -, h, -⟩ | ⟨-, -, h, -⟩ | ⟨-, -, h, -⟩
    · rw [show st1.sent = m.sent from congrArg Out.sent h]; exact he
    · rw [show st1.sent = _ from congrArg Out.sent h]
      exact (out_sent _ _).1 e he
    · rw [show st1.sent = m.sent from congrArg Out.sent h]; exact he
    · rw [show st1.sent = m.sent from congrArg Out.sent h]; exact he
  have hstm : ∀ e ∈ st.sent, e ∈ m.sent := by
    intro e he
    rw [show m.sent = _ from congrArg Out.sent g2.grew.2, ho]
    exact (out_sent _ _).1 e he
  have hlow : (rsn ≠ 0 → ∀ c r, Eff.send rsn c r ∈ effs → lowerBoundFor m rsn = r.lower) ∧
      (rsn = 0 → lowerBoundFor m rsn = 0 ∨
        (∃ n c r, Eff.send n c r ∈ effs ++ (effs1 ++ (effs2 ++ effs3)) ∧
          lowerBoundFor m rsn = r.upper) ∨
        ∃ p ∈ st.pending, lowerBoundFor m rsn = p.range.e + 1) := by
    constructor
    · intro h0 c r hse
      have hmem := hstm _ (hh.sends rsn c r hse)
      have hf := find_key m.sent hretryM.keysNodup _ hmem
      rw [lowerBoundFor, if_pos h0]
      simp only at hf
      rw [hf]
    · intro h0
      rcases lowerBound_origin cfg hc m g2.safe rsn with h | ⟨e, -, -, h, -⟩ | ⟨e, he, h⟩ | ⟨p, hp, h⟩
      · exact .inl h
      · exact absurd h0 h
      · exact .inr (.inl ⟨_, _, _, hsent e (hmsent e he), h⟩)
      · exact .inr (.inr ⟨p, hpend p hp, h⟩)
  rcases g2.cases with ⟨hle, h⟩ | ⟨hlt, ps, hiss, h, hcnt⟩ | ⟨hdef, hlt, h, p, hpm, hpr, hpc, hpsec⟩ |
      ⟨hdef, hlt, h, p, hpm, hpb, -⟩
  · rcases lowerBound_origin cfg hc m g2.safe rsn with h0 | ⟨e, he, -, -, h0⟩ | ⟨e, he, h0⟩ | ⟨p, hp, h0⟩
    · omega
    · have hwf := (g2.safe.sent_ok e he).1.1
      exact .inr (.inl ⟨_, _, _, hsent e (hmsent e he), by omega⟩)
    · exact .inr (.inl ⟨_, _, _, hsent e (hmsent e he), by omega⟩)
    · exact .inr (.inr (.inl ⟨p, hpend p hp, by omega⟩))
  · refine .inl ⟨_, ps, hiss.tiles, fun p hp => ?_, hlow⟩
    obtain ⟨n, hn, -⟩ := issued_sent cfg serial effs st.rsnTimers
      (ps.map fun r => (⟨csn, decide (rsn ≠ 0), r⟩ : Item)) _ _ hretryM
      (by rw [List.length_map]; omega) ⟨csn, decide (rsn ≠ 0), p⟩ (List.mem_map.2 ⟨p, hp, rfl⟩)
    rw [← h] at hn
    exact ⟨n, hsent _ hn⟩
  · obtain ⟨rs, hiss, h', hcnt⟩ := d5 p hpm hpc
    rw [hpr] at hiss
    simp only at hiss
    rw [show s.offset + s.length - 1 + 1 = s.offset + s.length by omega] at hiss
    refine .inl ⟨_, rs, hiss.tiles, fun r hr => ?_, hlow⟩
    have hm := g2.count
    have hq := d3.count
    obtain ⟨n, hn, -⟩ := issued_sent cfg serial effs st.rsnTimers
      (rs.map fun r => (⟨csn, p.secondary, r⟩ : Item)) _ _ hretryM
      (by rw [List.length_map]; omega) ⟨csn, p.secondary, r⟩ (List.mem_map.2 ⟨r, hr, rfl⟩)
    rw [← h, ← h'] at hn
    rcases hled.sent _ (by rw [r3]; exact hn) with hx | ⟨r, hx⟩
    · exact ⟨n, hx⟩
    · rw [r5] at hx; simp at hx
  · exact .inr (.inr (.inr ⟨hdef, p, hpend p hpm, hpb⟩))

end Hdtn.LtpReceiver
