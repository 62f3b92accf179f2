import Verif.LtpReceiver.Reports

namespace Hdtn.LtpReceiver
open Hdtn.FragmentSet Hdtn.LtpReport

/-! ### How often a report is sent -/

theorem transmissions_append (a b : List Eff) (n : Nat) :
    transmissions (a ++ b) n = transmissions a n + transmissions b n := List.countP_append

theorem NoSend.transmissions {effs : List Eff} (h : NoSend effs) (n : Nat) :
    transmissions effs n = 0 := by
  rw [LtpReceiver.transmissions, List.countP_eq_zero]
  intro e he
  cases e with
  | send m c r => exact absurd he (h m c r)
  | _ => simp

/-- `k` reports were issued, the first with serial number `s0`; the retry counts agree with the
transmissions. -/
structure Retry (cfg : Cfg) (s0 k : Nat) (effs : List Eff) (o : Out) (timers : List (Nat × Nat)) :
    Prop where
  next : o.nextRsn = (s0 + k) % 2 ^ 64
  known : ∀ e ∈ o.queue ++ timers, ∃ i < k, e.1 = (s0 + i) % 2 ^ 64
  sent : ∀ n, 0 < transmissions effs n → ∃ i < k, n = (s0 + i) % 2 ^ 64
  keys : ∀ e ∈ o.sent, ∃ i < k, e.1 = (s0 + i) % 2 ^ 64
  keysNodup : (o.sent.map Prod.fst).Nodup
  nodup : ((o.queue ++ timers).map Prod.fst).Nodup
  queue : ∀ e ∈ o.queue, e.2 = transmissions effs e.1 + 1 ∧ e.2 ≤ cfg.maxRetries + 1
  timer : ∀ e ∈ timers, e.2 = transmissions effs e.1 ∧ e.2 ≤ cfg.maxRetries + 1
  bound : ∀ n, transmissions effs n ≤ cfg.maxRetries + 1

theorem retry_congr {cfg : Cfg} {s0 k : Nat} {effs effs' : List Eff} {o : Out}
    {timers : List (Nat × Nat)} (h : Retry cfg s0 k effs o timers)
    (he : ∀ n, transmissions effs' n = transmissions effs n) : Retry cfg s0 k effs' o timers where
  next := h.next
  known := h.known
  sent := fun n => by rw [he]; exact h.sent n
  keys := h.keys
  keysNodup := h.keysNodup
  nodup := h.nodup
  queue := fun e => by rw [he]; exact h.queue e
  timer := fun e => by rw [he]; exact h.timer e
  bound := fun n => by rw [he]; exact h.bound n

theorem serial_ne {s0 i k : Nat} (hi : i < k) (hk : k < 2 ^ 64) :
    (s0 + i) % 2 ^ 64 ≠ (s0 + k) % 2 ^ 64 := by omega

theorem retry_add (cfg : Cfg) (s0 k : Nat) (effs : List Eff) (o : Out) (timers : List (Nat × Nat))
    (h : Retry cfg s0 k effs o timers) (hk : k < 2 ^ 64) (i : Item) :
    Retry cfg s0 (k + 1) effs (o.add i) timers := by
  have hfresh : ∀ e ∈ o.queue ++ timers, e.1 ≠ o.nextRsn := by
    intro e he hh
    obtain ⟨j, hj, hj'⟩ := h.known e he
    rw [h.next, hj'] at hh
    exact serial_ne hj hk hh
  have hzero : transmissions effs o.nextRsn = 0 := by
    by_contra hne
    obtain ⟨j, hj, hj'⟩ := h.sent _ (Nat.pos_of_ne_zero hne)
    rw [h.next] at hj'
    exact serial_ne hj hk hj'.symm
  have hnew : ∀ e ∈ o.sent, e.1 ≠ o.nextRsn := by
    intro e he hh
    obtain ⟨j, hj, hj'⟩ := h.keys e he
    rw [h.next, hj'] at hh
    exact serial_ne hj hk hh
  refine ⟨?_, ?_, ?_, ?_, ?_, ?_, ?_, h.timer, h.bound⟩
  · simp only [Out.add, h.next, U64]; omega
  · intro e he
    simp only [Out.add, List.append_assoc, List.mem_append, List.mem_singleton] at he
    rcases he with he | he | he
    · obtain ⟨j, hj, hj'⟩ := h.known e (List.mem_append_left _ he)
      exact ⟨j, by omega, hj'⟩
    · exact ⟨k, by omega, by rw [he]; exact h.next⟩
    · obtain ⟨j, hj, hj'⟩ := h.known e (List.mem_append_right _ he)
      exact ⟨j, by omega, hj'⟩
  · intro n hn
    obtain ⟨j, hj, hj'⟩ := h.sent n hn
    exact ⟨j, by omega, hj'⟩
  · intro e he
    simp only [Out.add] at he
    split at he
    · obtain ⟨j, hj, hj'⟩ := h.keys e he
      exact ⟨j, by omega, hj'⟩
    · rcases List.mem_append.1 he with he | he
      · obtain ⟨j, hj, hj'⟩ := h.keys e he
        exact ⟨j, by omega, hj'⟩
      · simp only [List.mem_singleton] at he
        exact ⟨k, by omega, by rw [he]; exact h.next⟩
  · simp only [Out.add]
    split
    · exact h.keysNodup
    · rw [List.map_append, List.nodup_append]
      refine ⟨h.keysNodup, by simp, ?_⟩
      intro a ha b hb hab
      simp only [List.map_cons, List.map_nil, List.mem_singleton] at hb
      obtain ⟨e, he, he'⟩ := List.mem_map.1 ha
      exact hnew e he (he'.trans (hab.trans hb))
  · have hperm : List.Perm ((o.add i).queue ++ timers) ((o.nextRsn, 1) :: (o.queue ++ timers)) := by
      simp only [Out.add, List.append_assoc, List.cons_append, List.nil_append]
      exact List.perm_middle
    rw [(hperm.map Prod.fst).nodup_iff, List.map_cons, List.nodup_cons]
    refine ⟨?_, h.nodup⟩
    intro hm
    obtain ⟨e, he, he'⟩ := List.mem_map.1 hm
    exact hfresh e he he'
  · intro e he
    simp only [Out.add, List.mem_append, List.mem_singleton] at he
    rcases he with he | he
    · exact h.queue e he
    · subst he
      refine ⟨by simp only [hzero], by simp only; omega⟩

theorem retry_items (cfg : Cfg) (s0 : Nat) (effs : List Eff) (timers : List (Nat × Nat))
    (its : List Item) : ∀ (k : Nat) (o : Out), Retry cfg s0 k effs o timers →
      k + its.length ≤ 2 ^ 64 →
      Retry cfg s0 (k + its.length) effs (its.foldl Out.add o) timers := by
  induction its with
  | nil => intro k o h _; exact h
  | cons i is ih =>
    intro k o h hk
    rw [List.length_cons] at hk ⊢
    have := ih (k + 1) (o.add i) (retry_add cfg s0 k effs o timers h (by omega) i) (by omega)
    rw [List.foldl_cons]
    rw [show k + (is.length + 1) = k + 1 + is.length by omega]
    exact this

theorem retry_step (cfg : Cfg) (hc : cfg.Sane) (s0 k : Nat) (effs : List Eff) (st : State)
    (h : Inv cfg st) (hr : Retry cfg s0 k effs st.out st.rsnTimers) (e : Event) (he : e.Sane) :
    ∃ st' effs', step cfg st e = some (st', effs') ∧ Inv cfg st' ∧
      (k + effs'.count .producible ≤ 2 ^ 64 → ∃ k', k' ≤ k + effs'.count .producible ∧
        Retry cfg s0 k' (effs ++ effs') st'.out st'.rsnTimers) ∧
      ∀ c, Eff.delete c .rlexc ∈ effs' →
        ∃ n, transmissions effs n = cfg.maxRetries + 1 ∧ e = .reportExpired n := by
  have issues : ∀ (st' : State) (effs' : List Eff), Issues cfg st st' effs' →
      st'.rsnTimers = st.rsnTimers → NoSend effs' → k + effs'.count .producible ≤ 2 ^ 64 →
      ∃ k', k' ≤ k + effs'.count .producible ∧
        Retry cfg s0 k' (effs ++ effs') st'.out st'.rsnTimers := by
    rintro st' effs' ⟨its, ⟨-, h1⟩, h2⟩ h3 h4 h5
    refine ⟨k + its.length, by rw [h2], ?_⟩
    rw [h3, h1]
    refine retry_congr (retry_items cfg s0 effs _ its k _ hr (by rw [h2]; exact h5)) fun n => ?_
    rw [transmissions_append, h4.transmissions]; rfl
  cases e with
  | data s =>
    obtain ⟨st', effs', e1, e2, e3, e4, e5, e6, -⟩ := data_report cfg hc st h s he
    refine ⟨st', effs', e1, e2, issues st' effs' e3 e4 e5.1,
      fun c hh => absurd hh (e5.2 c)⟩
  | delayExpired n =>
    obtain ⟨st', effs', n', s, l, q, ps, ts, h0, h2, h3, h4, h1, -⟩ := delayExpired_spec cfg hc st h n
    exact ⟨st', effs', h0, h2, issues st' effs' h4 (by rw [h1]) h3.noSend,
      fun c hh => absurd hh (h3.noDelete _ _)⟩
  | ack n =>
    obtain ⟨-, -, -, h2, -⟩ := reportAck_spec cfg st h n
    refine ⟨(reportAck st n).1, (reportAck st n).2, rfl, h2, fun _ => ⟨k, by omega, ?_⟩, ?_⟩
    · have hn : NoSend (reportAck st n).2 := by
        intro n' c r hh
        simp only [reportAck] at hh
        split at hh
        · rw [notifyDelete_spec] at hh
          simp only at hh
          split at hh <;> simp at hh
        · simp at hh
      have ho : (reportAck st n).1.out = st.out := by
        simp only [reportAck]
        split
        · rw [notifyDelete_spec]; rfl
        · rfl
      have ht : (reportAck st n).1.rsnTimers = st.rsnTimers.filter fun t => t.1 ≠ n := by
        simp only [reportAck]
        split
        · rw [notifyDelete_spec]
        · rfl
      rw [ho, ht]
      refine retry_congr (effs := effs) ?_ fun m => by
        rw [transmissions_append, hn.transmissions]; rfl
      have hsub : (st.rsnTimers.filter fun t => t.1 ≠ n) ⊆ st.rsnTimers :=
        fun e h => (List.mem_filter.1 h).1
      refine ⟨hr.next, fun e he => ?_, hr.sent, hr.keys, hr.keysNodup, ?_, hr.queue, fun e he => hr.timer e (hsub he),
        hr.bound⟩
      · rcases List.mem_append.1 he with he | he
        · exact hr.known e (List.mem_append_left _ he)
        · exact hr.known e (List.mem_append_right _ (hsub he))
      · refine hr.nodup.sublist (List.Sublist.map _ ?_)
        exact List.Sublist.append_left List.filter_sublist _
    · intro c hh
      simp only [reportAck] at hh
      split at hh
      · rw [notifyDelete_spec] at hh
        simp only at hh
        split at hh <;> simp at hh
      · simp at hh
  | reportExpired n =>
    obtain ⟨-, -, -, -, h2, -⟩ := reportExpired_spec cfg st h n
    refine ⟨(reportExpired cfg st n).1, (reportExpired cfg st n).2, rfl, h2, ?_⟩
    simp only [reportExpired]
    split
    · refine ⟨fun _ => ⟨k, by omega, by rw [List.append_nil]; exact hr⟩, by simp⟩
    · rename_i c retry hf
      have hmem := List.mem_of_find?_eq_some hf
      have hkey : c = n := by simpa using List.find?_some hf
      subst hkey
      have hsub : (st.rsnTimers.filter fun t => t.1 ≠ c) ⊆ st.rsnTimers :=
        fun e h => (List.mem_filter.1 h).1
      obtain ⟨hcount, hmax⟩ := hr.timer _ hmem
      simp only at hcount hmax
      have hbase : ∀ effs' : List Eff, NoSend effs' →
          Retry cfg s0 k (effs ++ effs') st.out (st.rsnTimers.filter fun t => t.1 ≠ c) := by
        intro effs' hn
        refine retry_congr (effs := effs) ?_ fun m => by
          rw [transmissions_append, hn.transmissions]; rfl
        refine ⟨hr.next, fun e he => ?_, hr.sent, hr.keys, hr.keysNodup, ?_, hr.queue, fun e he => hr.timer e (hsub he),
          hr.bound⟩
        · rcases List.mem_append.1 he with he | he
          · exact hr.known e (List.mem_append_left _ he)
          · exact hr.known e (List.mem_append_right _ (hsub he))
        · refine hr.nodup.sublist (List.Sublist.map _ ?_)
          exact List.Sublist.append_left List.filter_sublist _
      split
      · rename_i hle
        refine ⟨fun _ => ⟨k, by omega, ?_⟩, by simp⟩
        have hb := hbase [.producible] (by intro _ _ _ hh; simp at hh)
        have htr : ∀ m, transmissions (effs ++ [Eff.producible]) m = transmissions effs m := by
          intro m; rw [transmissions_append]; rfl
        refine ⟨hb.next, fun e he => ?_, hb.sent, hb.keys, hb.keysNodup, ?_,
          fun e he => ?_, hb.timer, hb.bound⟩
        · simp only [State.out, List.append_assoc, List.mem_append, List.mem_singleton] at he
          rcases he with he | he | he
          · exact hr.known e (List.mem_append_left _ he)
          · obtain ⟨j, hj, hj'⟩ := hr.known _ (List.mem_append_right _ hmem)
            exact ⟨j, hj, by rw [he]; exact hj'⟩
          · exact hr.known e (List.mem_append_right _ (hsub he))
        · simp only [State.out, List.append_assoc, List.cons_append, List.nil_append]
          have hperm : List.Perm
              (st.queue ++ (c, retry + 1) :: (st.rsnTimers.filter fun t => t.1 ≠ c))
              ((c, retry + 1) :: (st.queue ++ st.rsnTimers.filter fun t => t.1 ≠ c)) :=
            List.perm_middle
          rw [(hperm.map Prod.fst).nodup_iff, List.map_cons, List.nodup_cons]
          refine ⟨fun hm => ?_, hb.nodup⟩
          obtain ⟨e, he, he'⟩ := List.mem_map.1 hm
          rcases List.mem_append.1 he with he | he
          · have hnd := hr.nodup
            rw [List.map_append, List.nodup_append] at hnd
            exact hnd.2.2 e.1 (List.mem_map_of_mem he) c (List.mem_map_of_mem hmem) he'
          · have := (List.mem_filter.1 he).2
            simp only [ne_eq, decide_not, Bool.not_eq_eq_eq_not, Bool.not_true,
              decide_eq_false_iff_not] at this
            exact this he'
        · simp only [State.out, List.mem_append, List.mem_singleton] at he
          rw [htr]
          rcases he with he | he
          · exact hr.queue e he
          · subst he
            simp only; omega
      · rename_i hle
        rw [notifyDelete_spec]
        refine ⟨fun _ => ⟨k, by omega, ?_⟩, fun _ _ => ⟨c, by omega, rfl⟩⟩
        simp only
        refine hbase _ ?_
        intro _ _ _ hh
        split at hh <;> simp at hh
  | next =>
    obtain ⟨st', effs', q, t, h0, h2, h1, -, h4⟩ := nextDataToSend_spec cfg st h
    refine ⟨st', effs', h0, h2, ?_⟩
    rw [nextDataToSend] at h0
    split at h0
    · simp only [Option.some.injEq, Prod.mk.injEq] at h0
      obtain ⟨rfl, rfl⟩ := h0
      exact ⟨fun _ => ⟨k, by omega, by rw [List.append_nil]; exact hr⟩, by simp⟩
    · rename_i serial retry rest hq
      split at h0
      · cases h0
      · rename_i n cp r hf
        simp only [Option.some.injEq, Prod.mk.injEq] at h0
        obtain ⟨hst', rfl⟩ := h0
        refine ⟨fun _ => ⟨k, by simp, ?_⟩, by simp⟩
        have hnd := hr.nodup
        simp only [State.out, hq, List.cons_append, List.map_cons, List.nodup_cons] at hnd
        have hnt : st.rsnTimers.any (fun t => t.1 == serial) = false := by
          rw [List.any_eq_false]
          intro t ht hh
          refine hnd.1 ?_
          have : t.1 = serial := by simpa using hh
          rw [← this]
          exact List.mem_map_of_mem (List.mem_append_right _ ht)
        rw [hnt] at hst'
        subst hst'
        simp only [State.out, Bool.false_eq_true, if_false]
        obtain ⟨hcount, hmax⟩ := hr.queue (serial, retry) (by simp only [State.out, hq]; simp)
        simp only at hcount hmax
        have hkey : n = serial := by simpa using List.find?_some hf
        have hone : ∀ m, transmissions (effs ++ [Eff.send serial cp r]) m =
            transmissions effs m + if serial = m then 1 else 0 := by
          intro m
          rw [transmissions_append]
          simp only [transmissions, List.countP_cons, List.countP_nil, beq_iff_eq]
          split <;> simp
        have hother : ∀ e ∈ rest ++ st.rsnTimers, serial ≠ e.1 := by
          intro e he hh
          exact hnd.1 (hh ▸ List.mem_map_of_mem he)
        have hkn := hr.known
        simp only [State.out, hq] at hkn
        refine ⟨hr.next, fun e he => ?_, fun m hm => ?_, hr.keys, hr.keysNodup, ?_, fun e he => ?_, fun e he => ?_,
          fun m => ?_⟩
        · simp only [List.mem_append, List.mem_cons] at he
          rcases he with he | he | he
          · exact hkn e (by simp [he])
          · obtain ⟨j, hj, hj'⟩ := hkn (serial, retry) (by simp)
            exact ⟨j, hj, by rw [he]; exact hj'⟩
          · exact hkn e (by simp [he])
        · rw [hone] at hm
          split at hm
          · rename_i hs
            obtain ⟨j, hj, hj'⟩ := hkn (serial, retry) (by simp)
            exact ⟨j, hj, by rw [← hs]; exact hj'⟩
          · exact hr.sent m (by omega)
        · have hperm : List.Perm (rest ++ (serial, retry) :: st.rsnTimers)
              ((serial, retry) :: (rest ++ st.rsnTimers)) := List.perm_middle
          rw [(hperm.map Prod.fst).nodup_iff, List.map_cons, List.nodup_cons]
          exact hnd
        · rw [hone, if_neg (hother e (List.mem_append_left _ he))]
          exact hr.queue e (by simp only [State.out, hq]; exact List.mem_cons_of_mem _ he)
        · rw [hone]
          rcases List.mem_cons.1 he with he | he
          · subst he
            simp only [if_true]; omega
          · rw [if_neg (hother e (List.mem_append_right _ he))]
            exact hr.timer e he
        · rw [hone]
          have := hr.bound m
          split
          · rename_i hs
            rw [← hs]; omega
          · omega

theorem retry_run (cfg : Cfg) (hc : cfg.Sane) (serial : Nat) (hs : serial < 2 ^ 64)
    (evs : List Event) (he : ∀ e ∈ evs, e.Sane) :
    ∃ st effs, run cfg (init serial) evs = some (st, effs) ∧ Inv cfg st ∧
      (effs.count .producible ≤ 2 ^ 64 → (∃ k ≤ effs.count .producible,
        Retry cfg serial k effs st.out st.rsnTimers) ∧
        ∀ c, Eff.delete c .rlexc ∈ effs → ∃ n, transmissions effs n = cfg.maxRetries + 1) := by
  induction evs using List.reverseRecOn with
  | nil =>
    refine ⟨_, _, rfl, init_inv cfg serial, fun _ => ⟨⟨0, by simp, ?_⟩, by simp⟩⟩
    refine ⟨?_, by simp [init, State.out], by simp [transmissions], by simp [init, State.out],
      by simp [init, State.out], by simp [init, State.out],
      by simp [init, State.out], by simp [init], by simp [transmissions]⟩
    simp only [init, State.out]; omega
  | append_singleton evs e ih =>
    obtain ⟨st, effs, h1, h2, h3⟩ := ih fun e h => he e (List.mem_append_left _ h)
    obtain ⟨st', effs', g1, g2⟩ := step_inv cfg hc st h2 e (he e (by simp))
    refine ⟨st', effs ++ effs', by rw [run_snoc _ _ _ _ _ _ h1, g1], g2, fun hk => ?_⟩
    rw [List.count_append] at hk
    obtain ⟨⟨k, hk1, hk2⟩, hgive⟩ := h3 (by omega)
    obtain ⟨st'', effs'', k1, -, k3, k4⟩ := retry_step cfg hc serial k effs st h2 hk2 e
      (he e (by simp))
    rw [g1] at k1
    simp only [Option.some.injEq, Prod.mk.injEq] at k1
    obtain ⟨rfl, rfl⟩ := k1
    obtain ⟨k', hk', hr⟩ := k3 (by omega)
    refine ⟨⟨k', by rw [List.count_append]; omega, hr⟩, fun c hh => ?_⟩
    have hfinal : ∀ n, transmissions effs n = cfg.maxRetries + 1 →
        transmissions (effs ++ effs') n = cfg.maxRetries + 1 := by
      intro n hn
      have := hr.bound n
      rw [transmissions_append] at this ⊢
      omega
    rcases List.mem_append.1 hh with hh | hh
    · obtain ⟨n, hn⟩ := hgive c hh
      exact ⟨n, hfinal n hn⟩
    · obtain ⟨n, hn, -⟩ := k4 c hh
      exact ⟨n, hfinal n hn⟩

end Hdtn.LtpReceiver
