import Verif.Source.More

/-!
Properties of the source of bundles: identities, what becomes of bundles, the pipeline, answers, and custody.
-/

namespace Hdtn.Source

open Spec Hdtn.HashMap16

/-! ### C122: no bundle is lost -/

/-- C122: at any time, whatever the outduct did and in whatever order, the bundles made are, each once: the one in the hands of the thread, those
that the outduct has, those that failed and wait to be sent again, those reported as sent (and those of them for which a failure was
reported later), those the outduct has lost without a word, and the one with which the thread ended. No two have the same identifier. -/
theorem C122_conserved (C : Cfg) (es : List Ev) :
    let s := run C start es
    s.made.Perm (s.pc.held ++ s.duct ++ s.failed ++ s.acked ++ s.late ++ s.vanished ++ s.abandoned) ∧ (s.made.map (·.id)).Nodup := by
  have h := inv_run (inv_start C) es
  refine ⟨List.perm_iff_count.mpr fun x => ?_, h.nodup⟩
  have := h.whole x
  unfold places at this
  simp only [List.count_append]
  exact this

/-- C122: as long as the source runs, and no security policy is applied, each bundle that was made is still in the hands of the source, or was
reported as sent. -/
theorem C122_kept_or_sent_partial (C : Cfg) (plain : C.inPlace = false) (es : List Ev) (running : (run C start es).running = true)
    (b : Bundle) (made : b ∈ (run C start es).made) : Kept (run C start es) b ∨ Reported (run C start es) b := by
  have h := inv_run (inv_start C) es
  have hc : 0 < (run C start es).made.count b := List.count_pos_iff.mpr made
  rw [h.whole] at hc
  unfold places at hc
  have hv : (run C start es).vanished = [] := h.secured plain
  have ha : (run C start es).abandoned = [] := by
    by_contra q
    have := (h.gone q).1
    rw [running] at this
    exact Bool.noConfusion this
  rw [hv, ha] at hc
  simp only [List.count_nil] at hc
  unfold Kept Reported
  by_cases h1 : 0 < (run C start es).pc.held.count b
  · exact Or.inl (Or.inl (List.count_pos_iff.mp h1))
  by_cases h2 : 0 < (run C start es).duct.count b
  · exact Or.inl (Or.inr (Or.inl (List.count_pos_iff.mp h2)))
  by_cases h3 : 0 < (run C start es).failed.count b
  · exact Or.inl (Or.inr (Or.inr (List.count_pos_iff.mp h3)))
  by_cases h4 : 0 < (run C start es).acked.count b
  · exact Or.inr (Or.inl (List.count_pos_iff.mp h4))
  exact Or.inr (Or.inr (List.count_pos_iff.mp (by omega)))

/-- An answer for the witnesses: a payload, and `Forward` accepts. -/
def yes (n : UInt8) : Ev := .main ⟨.bundle [n], true, true, true⟩

/-- Nothing more to send; `Forward` refuses. -/
def no : Ev := .main ⟨.finished, true, true, false⟩

/-- Two bundles, the first of which fails and is sent again: made, sent, and reported. -/
example : (run ⟨5, false, false⟩ start ([yes 1, yes 1, yes 1, yes 1, yes 1, yes 1, .fail 0, .link false, yes 2, yes 2, yes 2, yes 2, yes 2, yes 2,
      .ok 0])).running = true ∧
    (run ⟨5, false, false⟩ start ([yes 1, yes 1, yes 1, yes 1, yes 1, yes 1, .fail 0, .link false, yes 2, yes 2, yes 2, yes 2, yes 2, yes 2,
      .ok 0])).acked = [⟨0, [1]⟩] := by decide +kernel

/-- C122 does not hold with a security policy: bundles are then rendered in place and given to the outduct as ZeroMQ messages, and for the failure of
those the source has no callback. A bundle that the outduct cannot send is lost, whatever comes later, while the source still runs. -/
theorem C122_secured_violated : ∃ (es : List Ev) (b : Bundle),
    (run ⟨5, false, true⟩ start es).running = true ∧ b ∈ (run ⟨5, false, true⟩ start es).made ∧
    ∀ later, ¬ Kept (run ⟨5, false, true⟩ start (es ++ later)) b ∧ ¬ Reported (run ⟨5, false, true⟩ start (es ++ later)) b := by
  refine ⟨[yes 1, yes 1, yes 1, yes 1, yes 1, .fail 0], ⟨0, [1]⟩, by decide +kernel, by decide +kernel, fun later => ?_⟩
  have h := inv_run (inv_start ⟨5, false, true⟩) ([yes 1, yes 1, yes 1, yes 1, yes 1, .fail 0] ++ later)
  have hv : (⟨0, [1]⟩ : Bundle) ∈ (run ⟨5, false, true⟩ start ([yes 1, yes 1, yes 1, yes 1, yes 1, .fail 0] ++ later)).vanished := by
    rw [run_append]
    exact vanished_run (by decide +kernel) later
  have hle := h.count_le ⟨0, [1]⟩
  have hvc := List.count_pos_iff.mpr hv
  unfold places at hle
  unfold Kept Reported
  refine ⟨?_, ?_⟩
  · rintro (q | q | q) <;> (have := List.count_pos_iff.mpr q; omega)
  · rintro (q | q) <;> (have := List.count_pos_iff.mpr q; omega)

/-! ### C123: "all bundles generated and fully sent" -/

/-- C123: if no failure is reported between the moment when the thread sees that there are no failed bundles and the moment when it sees that none is
being sent, then, once it says that all bundles were sent, each bundle made was reported as sent. What is missing: other histories. -/
theorem C123_all_sent_partial (C : Cfg) (es : List Ev) (quiet : Quiet C start es) (said : (run C start es).saidAll = true)
    (b : Bundle) (made : b ∈ (run C start es).made) : Reported (run C start es) b := by
  have h := inv_run (inv_start C) es
  have hf := quiet_run (inv_start C) quiet (by simp [start]) (by simp [start]) said
  obtain ⟨hd, hv, -, hp, ha⟩ := h.said said
  have hc : 0 < (run C start es).made.count b := List.count_pos_iff.mpr made
  rw [h.whole] at hc
  unfold places at hc
  have hh : (run C start es).pc.held = [] := by rcases hp with hp | hp <;> (rw [hp]; rfl)
  rw [hf, hd, hv, ha, hh] at hc
  simp only [List.count_nil] at hc
  by_cases h4 : 0 < (run C start es).acked.count b
  · exact Or.inl (List.count_pos_iff.mp h4)
  exact Or.inr (List.count_pos_iff.mp (by omega))

/-- A history in which a bundle fails, is sent again, and the thread then says that all was sent. -/
def goodDay : List Ev :=
  [yes 1, yes 1, yes 1, yes 1, yes 1, .fail 0, .link false, no, no, no, no, yes 1, .ok 0, no, no, no, no, no, no]

instance (C : Cfg) : (s : Src) → (es : List Ev) → Decidable (Quiet C s es)
  | _, [] => .isTrue trivial
  | s, e :: es =>
    have : Decidable (Quiet C (s.step C e) es) := instDecidableQuiet C (s.step C e) es
    have : Decidable (s.pc = .checked → ∀ id, e ≠ .fail id) :=
      match e with
      | .fail id => if q : s.pc = .checked then .isFalse (fun h => h q id rfl) else .isTrue (fun h => (q h).elim)
      | .main _ | .ok _ | .failLate _ | .link _ | .rx | .stop => .isTrue (fun _ _ => by simp)
    inferInstanceAs (Decidable (_ ∧ _))

example : Quiet ⟨5, false, false⟩ start goodDay ∧ (run ⟨5, false, false⟩ start goodDay).saidAll = true ∧
    (run ⟨5, false, false⟩ start goodDay).made = [⟨0, [1]⟩] := by decide +kernel

/-- C123 does not hold: a bundle fails between the two checks. Its identifier is gone from the set and the bundle is in the queue, but the thread has
already seen the queue empty; it says that all bundles were sent, and ends. The bundle is never reported as sent, whatever comes later. -/
theorem C123_race_violated : ∃ (es : List Ev) (b : Bundle),
    (run ⟨5, false, false⟩ start es).saidAll = true ∧ b ∈ (run ⟨5, false, false⟩ start es).made ∧
    ∀ later, ¬ Reported (run ⟨5, false, false⟩ start (es ++ later)) b := by
  refine ⟨[yes 1, yes 1, yes 1, yes 1, yes 1, no, no, no, no, .fail 0, no], ⟨0, [1]⟩, by decide +kernel, by decide +kernel, fun later => ?_⟩
  have h := inv_run (inv_start ⟨5, false, false⟩) ([yes 1, yes 1, yes 1, yes 1, yes 1, no, no, no, no, .fail 0, no] ++ later)
  have hf : (⟨0, [1]⟩ : Bundle) ∈
      (run ⟨5, false, false⟩ start ([yes 1, yes 1, yes 1, yes 1, yes 1, no, no, no, no, .fail 0, no] ++ later)).failed := by
    rw [run_append, ended_run ⟨by decide +kernel, by decide +kernel, by decide +kernel⟩ later]
    decide +kernel
  have hle := h.count_le ⟨0, [1]⟩
  have hfc := List.count_pos_iff.mpr hf
  unfold places at hle
  unfold Reported
  rintro (q | q) <;> (have := List.count_pos_iff.mpr q; omega)

/-! ### C124: the pipeline -/

/-- C124: the outduct never has more bundles than it was configured for. -/
theorem C124_pipeline (C : Cfg) (es : List Ev) : (run C start es).duct.length ≤ C.max := by
  have h := inv_run (inv_start C) es
  refine Nat.le_trans ?_ h.pipe
  have hn : ((run C start es).duct.map (·.id)).Nodup := by
    have hp := (C122_conserved C es).1
    have hs : ((run C start es).duct).Subperm (run C start es).made := by
      apply List.Subperm.trans _ hp.symm.subperm
      apply List.Sublist.subperm
      exact ((((((List.sublist_append_right (run C start es).pc.held _).trans (List.sublist_append_left _ _)).trans
        (List.sublist_append_left _ _)).trans (List.sublist_append_left _ _)).trans (List.sublist_append_left _ _)).trans
        (List.sublist_append_left _ _))
    obtain ⟨l, hl, hsub⟩ := hs
    exact ((hl.map (·.id)).nodup_iff).mp (h.nodup.sublist (hsub.map _))
  have := (List.subperm_of_subset hn (l₂ := (run C start es).sending) (by
    intro i hi
    obtain ⟨b, hb, rfl⟩ := List.mem_map.mp hi
    exact h.ducts b (Or.inl hb))).length_le
  simpa using this

/-- The pipeline is used: two bundles are in the outduct. -/
example : (run ⟨2, false, false⟩ start [yes 1, yes 1, yes 1, yes 1, yes 1, yes 1, yes 2, yes 2, yes 2, yes 2, yes 2, yes 2]).duct.length = 2 := by
  decide +kernel

/-- C124: with a pipeline for one bundle, a bundle that `Forward` refuses once (the link has just gone, say) is never sent: its identifier stays in the
set, and the thread waits for the room that it takes itself. Nothing that happens later helps. -/
theorem C124_stuck_violated : ∃ (es : List Ev) (b : Bundle),
    (run ⟨1, false, false⟩ start es).running = true ∧ b ∈ (run ⟨1, false, false⟩ start es).made ∧
    (∀ id, Ev.fail id ∉ es) ∧ Ev.link true ∉ es ∧
    ∀ later, (run ⟨1, false, false⟩ start (es ++ later)).duct = [] ∧ ¬ Reported (run ⟨1, false, false⟩ start (es ++ later)) b := by
  refine ⟨[yes 1, yes 1, no, no, no], ⟨0, [1]⟩, by decide +kernel, by decide +kernel, by simp [yes, no], by simp [yes, no], fun later => ?_⟩
  have h := inv_run (inv_start ⟨1, false, false⟩) ([yes 1, yes 1, no, no, no] ++ later)
  have hs : Stuck (run ⟨1, false, false⟩ start ([yes 1, yes 1, no, no, no] ++ later)) ⟨0, [1]⟩ := by
    rw [run_append]
    exact stuck_run rfl ⟨by decide +kernel, by decide +kernel, by decide +kernel⟩ later
  refine ⟨hs.duct, ?_⟩
  have key : ∀ (later : List Ev) (s : Src), Stuck s ⟨0, [1]⟩ → s.acked = [] → s.late = [] →
      (run ⟨1, false, false⟩ s later).acked = [] ∧ (run ⟨1, false, false⟩ s later).late = [] := by
    intro later
    induction later with
    | nil => intro s _ h1 h2; exact ⟨h1, h2⟩
    | cons e later ih =>
      intro s hs h1 h2
      refine ih _ (stuck_step rfl hs e) ?_ ?_
      · cases e with
        | main a => unfold Src.step; dsimp only; unfold Src.main; repeat' split
                    all_goals exact h1
        | ok id => unfold Src.step; dsimp only; rw [hs.duct, named_nil]; exact h1
        | fail id => unfold Src.step; dsimp only; rw [hs.duct, named_nil]; exact h1
        | failLate id => unfold Src.step; dsimp only; rw [h1, named_nil]; exact h1
        | link d => exact h1
        | rx => exact h1
        | stop => exact h1
      · cases e with
        | main a => unfold Src.step; dsimp only; unfold Src.main; repeat' split
                    all_goals exact h2
        | ok id => unfold Src.step; dsimp only; rw [hs.duct, named_nil]; exact h2
        | fail id => unfold Src.step; dsimp only; rw [hs.duct, named_nil]; exact h2
        | failLate id => unfold Src.step; dsimp only; rw [h1, named_nil]; exact h2
        | link d => exact h2
        | rx => exact h2
        | stop => exact h2
  have := key later (run ⟨1, false, false⟩ start [yes 1, yes 1, no, no, no]) ⟨by decide +kernel, by decide +kernel, by decide +kernel⟩
    (by decide +kernel) (by decide +kernel)
  rw [run_append]
  unfold Reported
  rw [this.1, this.2]
  simp

/-! ### C125: identities -/

/-- C125: if the clock is never set back, the timestamps of the bundles of one run, of which there are fewer than 2^64, are different: each is before
the next ones. What is missing: clocks that are set back, and another run. -/
theorem C125_distinct_partial (times : List Nat) (mono : Forwards times) (few : times.length < U64) :
    (Clock.start.stamps times).Pairwise Before ∧ (Clock.start.stamps times).Nodup ∧
    (Clock.start.stamps times).map (·.1) = times := by
  have h := stamps_before Clock.start times U64 (by simpa [Clock.start] using few) (Nat.le_refl _) mono (fun _ _ => Nat.zero_le _)
  refine ⟨h.1, ?_, ?_⟩
  · refine h.1.imp ?_
    intro a b hab e
    subst e
    unfold Before at hab
    omega
  · have : ∀ c : Clock, (c.stamps times).map (·.1) = times := by
      clear h few mono
      induction times with
      | nil => intro c; rfl
      | cons t ts ih => intro c; simp only [Clock.stamps, List.map_cons, ih]; rfl
    exact this _

example : Forwards [3, 3, 4, 4, 4] ∧ Clock.start.stamps [3, 3, 4, 4, 4] = [(3, 0), (3, 1), (4, 0), (4, 1), (4, 2)] := by
  unfold Forwards; decide

/-- C125 does not hold when the clock is set back: any time that comes again, after another one, gives the timestamp that it gave before. -/
theorem C125_clock_back_violated (t u : Nat) (first : t ≠ 0) (other : u ≠ t) (ht : u ≠ 0) :
    Clock.start.stamps [t, u, t] = [(t, 0), (u, 0), (t, 0)] := by
  have h1 : ¬ t = u := fun e => other e.symm
  simp [Clock.stamps, Clock.stamp, Clock.start, first, other, h1]

/-- C125 does not hold for two runs: a source that is started again within the same second, or millisecond in version 7, gives its first bundle the
timestamp that a bundle of the run before had. -/
theorem C125_restart_violated (t : Nat) (n : Nat) (first : t ≠ 0) :
    (t, 0) ∈ Clock.start.stamps (List.replicate (n + 1) t) ∧ (Clock.start.stamps [t]) = [(t, 0)] := by
  simp [List.replicate_succ, Clock.stamps, Clock.stamp, Clock.start, first]

/-! ### C126: one bundle for one -/

/-- C126: a source that must receive a bundle before the next one is sent never has sent more bundles than it has received, and one. -/
theorem C126_one_for_one (C : Cfg) (require : C.requireRx = true) (es : List Ev) :
    (run C start es).count ≤ (run C start es).received + 1 := by
  exact (turns_run require (s := start) ⟨by simp [start], by simp [start], by simp [start], by simp [start]⟩ es).never

/-- It sends: two bundles, with an answer between them. -/
example : (run ⟨5, true, false⟩ start [yes 1, yes 1, yes 1, yes 1, yes 1, .rx, yes 2, yes 2, yes 2, yes 2, yes 2, yes 2]).count = 2 := by
  decide +kernel

/-- C126: such a source stops for ever when a bundle fails: it waits for the answer to a bundle that it would have to send again. Nothing that the outduct
does, a link that is up again included, makes it send; only a received bundle or `Stop` ends it. -/
theorem C126_hang_violated : ∃ (es : List Ev) (b : Bundle),
    b ∈ (run ⟨5, true, false⟩ start es).made ∧ (run ⟨5, true, false⟩ start es).running = true ∧
    ∀ later, Ev.rx ∉ later → Ev.stop ∉ later → b ∈ (run ⟨5, true, false⟩ start (es ++ later)).failed ∧
      (run ⟨5, true, false⟩ start (es ++ later)).pc = .sent := by
  refine ⟨[yes 1, yes 1, yes 1, yes 1, yes 1, .fail 0], ⟨0, [1]⟩, by decide +kernel, by decide +kernel, fun later h1 h2 => ?_⟩
  have := hung_run (C := ⟨5, true, false⟩) rfl (s := run ⟨5, true, false⟩ start [yes 1, yes 1, yes 1, yes 1, yes 1, .fail 0]) (b := ⟨0, [1]⟩)
    ⟨by decide +kernel, by decide +kernel, by decide +kernel, by decide +kernel⟩ later h1 h2
  rw [run_append]
  exact ⟨this.failed, this.place⟩

/-! ### C127: answers -/

/-- C127: of the bundles of version 6, exactly those are taken as answers that are addressed to the source, are neither fragments nor administrative
records, and have one payload block; its data is what is processed. -/
theorem C127_answers6_partial (s : Acct) (v : BundleView6.View) (p : Bytes) :
    (s.receive6 v).2 = .answer p ↔ v.primary.dest = s.me ∧ v.primary.isFragment = false ∧ BundleView6.isAdmin v.primary = false ∧
      ∃ b, v.byType 1 = [b] ∧ b.block.data = p := by
  unfold Acct.receive6
  constructor
  · intro h
    split at h
    · simp at h
    rename_i hf
    split at h
    · rename_i ha
      split at h
      · simp at h
      rename_i hd
      split at h
      · rename_i b hb
        injection h with h
        exact ⟨by simpa using hd, by simpa using hf, by simpa using ha, b, hb, h⟩
      · simp at h
    · split at h
      · simp at h
      split at h
      · split at h
        · split at h <;> simp at h
        · split at h
          · simp at h
          split at h
          · simp at h
          split at h
          · dsimp only at h
            split at h <;> simp at h
          · simp at h
        · simp at h
      · simp at h
  · rintro ⟨hd, hf, ha, b, hb, rfl⟩
    simp [hd, hf, ha, hb]

/-- A bundle of version 6 to `ipn:1.2`, with a payload. -/
def answer6 : BundleView6.View :=
  ⟨⟨16, 0, ⟨1, 2⟩, ⟨3, 4⟩, ⟨0, 0⟩, ⟨0, 0⟩, 5, 6, 1000, 0, 0⟩, [], true, [BundleView6.newBlock 1 8 [7, 8] .plain]⟩

example : ((Acct.start ⟨1, 2⟩ ⟨1, 9⟩).receive6 answer6).2 = .answer [7, 8] := by decide +kernel

/-- C127 does not hold for version 7: neither the destination nor the flags are looked at. A bundle to any node is taken as an answer, and so is an
administrative record. -/
theorem C127_any_destination_violated (ghost : Nat × Nat) (v : BundleView7.View) (p : Bpv7Primary.Primary) :
    receive7 ghost { v with primary := p } = receive7 ghost v := rfl

/-- C127: what the source checks in version 7: at most one previous node block, at most one hop count block, whose limit is not exceeded, and one
payload block. -/
theorem C127_answers7_partial (ghost : Nat × Nat) (v : BundleView7.View) (p : Bytes) :
    receive7 ghost v = .answer p ↔ (v.byType 6).length ≤ 1 ∧ hopOk ghost v = true ∧ ∃ b, v.byType 1 = [b] ∧ b.block.data = p := by
  unfold receive7
  constructor
  · intro h
    split at h
    · simp at h
    rename_i h6
    split at h
    · simp at h
    rename_i hh
    split at h
    · rename_i b hb
      injection h with h
      exact ⟨by omega, by simpa using hh, b, hb, h⟩
    · simp at h
  · rintro ⟨h6, hh, b, hb, rfl⟩
    simp [Nat.not_lt.mpr h6, hh, hb]

/-- C127: a bundle of version 7 that has passed more nodes than its hop count allows is not taken, and one that has not is, if it is whole otherwise. -/
theorem C127_hops (ghost : Nat × Nat) (v : BundleView7.View) (h b : BundleView7.BlockView) (limit count : Nat) (hop : v.byType 10 = [h])
    (read : h.body = .ext (.hopCount limit count)) (small : count + 1 < 2 ^ 64) (prev : v.byType 6 = []) (one : v.byType 1 = [b]) :
    (count < limit ∧ count < 255 → receive7 ghost v = .answer b.block.data) ∧
    (¬ (count < limit ∧ count < 255) → receive7 ghost v = .nothing) := by
  have e : (count + 1) % 2 ^ 64 = count + 1 := Nat.mod_eq_of_lt small
  have hh : hopOk ghost v = decide (count + 1 ≤ limit ∧ count + 1 ≤ 255) := by
    unfold hopOk
    simp only [hop, read, e]
  unfold receive7
  rw [hh, prev, one]
  constructor
  · rintro ⟨h1, h2⟩
    simp [show count + 1 ≤ limit by omega, show count + 1 ≤ 255 by omega]
  · intro q
    rw [decide_eq_false (by omega)]
    simp

/-- A bundle of version 7 to `ipn:9.9`, with a payload. -/
def stray7 : BundleView7.View :=
  ⟨⟨0, ⟨9, 9⟩, ⟨3, 4⟩, ⟨0, 0⟩, 0, 0, 0, 0, 0, 0, 0, 0⟩, [], true, [BundleView7.newBlock ⟨1, 1, 0, 0, [7], 0, 0⟩ .plain],
    BundleView7.freeInit, [], []⟩

example : receive7 (0, 0) stray7 = .answer [7] := by decide +kernel

/-- The same with a hop count of 3 and a limit of 4. -/
def stray7hops : BundleView7.View :=
  { stray7 with blocks := BundleView7.newBlock ⟨10, 2, 0, 0, [], 0, 0⟩ (.ext (.hopCount 4 3)) :: stray7.blocks }

example : (stray7hops.byType 10).map (·.body) = [.ext (.hopCount 4 3)] ∧ stray7hops.byType 6 = [] ∧ (stray7hops.byType 1).length = 1 ∧
    receive7 (0, 0) stray7hops = .answer [7] := by decide +kernel

/-! ### C128: "Received all custody transfers" -/

/-- C128: if no aggregate custody signals come in, the source says that it has received all custody transfers only if, for each bundle that it has sent,
a custody signal has come in that tells of success. What is missing: aggregate signals. -/
theorem C128_all_received_partial (me custodian : Eid) (ops : List Op) (s : Acct)
    (plain : ∀ v, Op.bundle v ∈ ops → ¬ IsAggregate v) (ran : (Acct.start me custodian).run ops = some s) (said : s.saysAll = true)
    (id : Id) (sent : Op.send id ∈ ops) : ∃ v, Op.bundle v ∈ ops ∧ SignalFor custodian id v := by
  obtain ⟨h1, h2, h3, h4⟩ := acct_run _ s ops rfl plain ran
  have hs : max s.signals s.acs = s.count := by simpa [Acct.saysAll] using said
  simp only [Acct.start, List.length_nil] at h1 h2 h3
  have hz : s.uuids = [] := by
    apply List.length_eq_zero_iff.mp
    omega
  rcases h4 id (Or.inr sent) with h | h
  · rw [hz] at h; exact (List.not_mem_nil h).elim
  · exact h

/-- A custody signal for the bundle `ipn:1.2`, 5, 6. -/
def signal6 : BundleView6.View :=
  CustodyManager.adminView (CustodyManager.adminPrimary (CustodyManager.adminFlags 0) ⟨7, 0⟩ ⟨1, 9⟩ (0, 0))
    ⟨2, false, some (.custody ⟨CustodyManager.statusByte 0, false, 0, 0, ⟨0, 0⟩, 5, 6, Uri.getIpnUriString 1 2⟩)⟩

example : ∃ s, (Acct.start ⟨1, 2⟩ ⟨1, 9⟩).run [.send ⟨⟨1, 2⟩, 5, 6⟩, .bundle signal6] = some s ∧ s.saysAll = true ∧ s.count = 1 :=
  ⟨_, by rfl, by decide +kernel, by decide +kernel⟩

/-- An aggregate custody signal for the custody identifier 0. -/
def acs6 : BundleView6.View :=
  CustodyManager.adminView (CustodyManager.adminPrimary (CustodyManager.adminFlags 0) ⟨7, 0⟩ ⟨1, 9⟩ (0, 0)) (CustodyManager.acsRecord 0 [⟨0, 0⟩])

/-- C128 does not hold with aggregate custody signals: the identifiers in them are counted without a look at which are outstanding. Two signals for the
first bundle make the source say that it has received all, though nobody has taken custody of the second. -/
theorem C128_repeated_violated : ∃ s, (Acct.start ⟨1, 2⟩ ⟨1, 9⟩).run
      [.send ⟨⟨1, 2⟩, 5, 0⟩, .send ⟨⟨1, 2⟩, 5, 1⟩, .bundle acs6, .bundle acs6] = some s ∧ s.saysAll = true ∧ s.count = 2 :=
  ⟨_, by rfl, by decide +kernel, by decide +kernel⟩

end Hdtn.Source
