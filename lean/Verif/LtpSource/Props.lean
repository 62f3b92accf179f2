import Verif.LtpSource.Lemmas

/-!
Properties C157 to C159: the bundle source over LTP.
-/

namespace Hdtn.LtpSource

open Spec

/-- One bundle goes all the way to the engine. -/
private def one1 (n : Nat) : List Act := [.call 10 true, .next, .next, .next, .start n, .release]

theorem underWay_eq (s : Src) : underWay s = s.posted.length + s.sessions.length + s.pc.m := by
  unfold underWay
  cases s.pc <;> rfl

/-- C157, as far as it holds: there are never more bundles under way than one more than the configured limit, whatever the threads do. Missing: engines that start sessions to
receive (and limits near the size of the counter). -/
theorem C157_bound_partial (limit : Nat) (hl : limit + 4 < 2 ^ 32) (as : List Act) (ha : NoForeign as) :
    underWay (({ limit := limit } : Src).run as) ≤ limit + 1 := by
  have h := (lim_run as (inv_init limit) (lim_init limit) hl ha).bound
  rw [run_limit] at h
  rw [underWay_eq]
  simp only at h
  omega

example : NoForeign (one1 5 ++ [.call 7 true, .next]) ∧ underWay (({ limit := 1 } : Src).run (one1 5 ++ [.call 7 true, .next])) = 2 := by
  refine ⟨by unfold NoForeign; decide, by decide +kernel⟩

/-- What a whole call of `Forward` does. -/
theorem forward_eq (s : Src) (hp : s.pc = .idle) (hs : s.starting + 1 < U32) (size : Nat) (ready : Bool) :
    forward s size ready =
      if ready = true ∧ s.active.length + s.starting ≤ s.limit then
        { s with
          starting := s.starting + 1
          posted := s.posted ++ [size]
          sent := (s.sent + 1) % U64
          bytes := (s.bytes + size) % U64
          pc := .idle
          results := s.results ++ [(size, true)] }
      else { s with results := s.results ++ [(size, false)] } := by
  obtain ⟨limit, starting, active, sent, acked, failed, bytes, pc, results, posted, sessions, releasing, lost⟩ := s
  simp only at hp hs
  subst hp
  unfold forward Src.run
  cases ready with
  | false => simp [Src.step, Src.call, Src.next]
  | true =>
    simp only [List.foldl_cons, List.foldl_nil, Src.step, Src.call, if_true, true_and]
    rw [Nat.mod_eq_of_lt hs]
    by_cases hc : active.length + starting ≤ limit
    · rw [if_pos hc]
      simp only [Src.next]
      rw [if_neg (by omega)]
    · rw [if_neg hc]
      simp only [Src.next]
      rw [if_pos (by omega), dec_succ hs]

/-- C157, as far as it holds: if the engine is at rest during the call, a bundle is accepted exactly if the source is ready and no more than the configured number are under way. It is then under
way itself; a refused one changes nothing. Missing: engines that give up requests or start sessions to receive, and engines that work meanwhile. -/
theorem C157_accepts_partial (limit : Nat) (hl : limit + 4 < 2 ^ 32) (as : List Act) (ha : NoForeign as) (hd : NoDrop as) (size : Nat) (ready : Bool) :
    let s := ({ limit := limit } : Src).run as
    s.pc = .idle → s.releasing = false →
      ((forward s size ready).results = s.results ++ [(size, decide (ready = true ∧ underWay s ≤ limit))]) ∧
      ((ready = true ∧ underWay s ≤ limit) → (forward s size ready).posted = s.posted ++ [size]) ∧
      (¬(ready = true ∧ underWay s ≤ limit) → forward s size ready = { s with results := s.results ++ [(size, false)] }) := by
  intro s hp hr
  have hi : Inv s := inv_run as (inv_init limit)
  have h : Lim s := lim_run as (inv_init limit) (lim_init limit) hl ha
  have hlim : s.limit = limit := run_limit as _
  have hlost : s.lost = [] := by
    have gen : ∀ as (s : Src), NoDrop as → s.lost = [] → (s.run as).lost = [] := by
      intro as
      induction as with
      | nil => intro s _ h; exact h
      | cons a as ih =>
        intro s hn h
        refine ih (s.step a) (fun hc => hn (List.mem_cons_of_mem _ hc)) ?_
        cases a <;> simp only [Src.step]
        · unfold Src.call; split
          · split_ifs <;> exact h
          · exact h
        · unfold Src.next; split
          · exact h
          · split_ifs <;> exact h
          · exact h
          · exact h
        · unfold Src.start
          split
          · exact h
          · split <;> exact h
        · unfold Src.release; split_ifs <;> exact h
        · exact absurd List.mem_cons_self hn
        · unfold Src.foreign; split_ifs <;> exact h
        · unfold Src.complete; simp only; split_ifs <;> exact h
        · unfold Src.cancel; simp only; split_ifs <;> exact h
    exact gen as _ hd rfl
  have h1 := h.starting
  have h2 := h.bound
  rw [hp, hr, hlost] at h1
  rw [hp, hlost] at h2
  simp only [one, Pc.a, Pc.m, List.length_nil, Bool.false_eq_true, if_false] at h1 h2
  have hact : s.active.length = s.sessions.length := by rw [hi.same, List.length_map]
  have hu : underWay s = s.active.length + s.starting := by
    rw [underWay_eq, hp]
    simp only [Pc.m]; omega
  have hst : s.starting + 1 < U32 := by unfold U32; omega
  rw [forward_eq s hp hst size ready, hu, hlim]
  by_cases hc : ready = true ∧ s.active.length + s.starting ≤ limit
  · rw [if_pos hc]
    exact ⟨by rw [decide_eq_true hc], fun _ => rfl, fun hn => absurd hc hn⟩
  · rw [if_neg hc]
    exact ⟨by rw [decide_eq_false hc], fun hn => absurd hn hc, fun _ => rfl⟩

example : let s := ({ limit := 1 } : Src).run (one1 5)
    s.pc = .idle ∧ s.releasing = false ∧ underWay s = 1 ∧ (forward s 7 true).results = [(10, true), (7, true)] ∧
    (forward (forward s 7 true) 8 true).results = [(10, true), (7, true), (8, false)] := by decide +kernel

/-- The state after some bundles were forwarded and the engine has done nothing. -/
theorem forwarded (limit : Nat) (hl : limit + 4 < U32) : ∀ k, k ≤ limit + 1 →
    ∃ s, s = ({ limit := limit } : Src).run (List.replicate k [Act.call 1 true, .next, .next, .next]).flatten ∧
      s.limit = limit ∧ s.pc = .idle ∧ s.starting = k ∧ s.active = [] ∧ s.posted = List.replicate k 1 ∧ s.sessions = [] ∧ s.releasing = false ∧
      s.lost = [] ∧ s.results = List.replicate k (1, true) := by
  intro k
  induction k with
  | zero => intro _; exact ⟨_, rfl, rfl, rfl, rfl, rfl, rfl, rfl, rfl, rfl, rfl⟩
  | succ k ih =>
    intro hk
    obtain ⟨s, hs, h1, h2, h3, h4, h5, h6, h7, h8, h9⟩ := ih (by omega)
    refine ⟨forward s 1 true, ?_, ?_⟩
    · rw [List.replicate_succ', List.flatten_append]
      unfold Src.run at hs ⊢
      rw [List.foldl_append, ← hs]
      rfl
    · rw [forward_eq s h2 (by omega), if_pos ⟨rfl, by rw [h4, h3, h1, List.length_nil]; omega⟩]
      exact ⟨h1, rfl, by simp only [h3], h4, by simp only [h5, ← List.replicate_succ'], h6, h7, h8, by simp only [h9, ← List.replicate_succ']⟩

/-- C157 does not hold: whatever the configured limit is, one bundle more is accepted. -/
theorem C157_limit_violated (limit : Nat) (hl : limit + 4 < 2 ^ 32) : ∃ as, NoForeign as ∧ NoDrop as ∧
    underWay (({ limit := limit } : Src).run as) = limit + 1 ∧ (({ limit := limit } : Src).run as).results = List.replicate (limit + 1) (1, true) := by
  obtain ⟨s, hs, h1, h2, h3, h4, h5, h6, h7, h8, h9⟩ := forwarded limit hl (limit + 1) (Nat.le_refl _)
  have hmem : ∀ a ∈ (List.replicate (limit + 1) [Act.call 1 true, .next, .next, .next]).flatten, a = .call 1 true ∨ a = .next := by
    intro a ha
    rw [List.mem_flatten] at ha
    obtain ⟨l, hl', ha⟩ := ha
    rw [List.eq_of_mem_replicate hl'] at ha
    simpa using ha
  refine ⟨_, ?_, ?_, ?_, hs ▸ h9⟩
  · intro hc
    rcases hmem _ hc with h | h <;> cases h
  · intro hc
    rcases hmem _ hc with h | h <;> cases h
  · rw [← hs, underWay_eq, h2, h5, h6]; simp [Pc.m]

/-- C157 does not hold: a bundle can be refused although, during the whole call, fewer are under way than configured: a session that begins at that time is counted twice. -/
theorem C157_race_violated : ∃ (as bs : List Act), NoForeign (as ++ bs) ∧ NoDrop (as ++ bs) ∧
    (({ limit := 2 } : Src).run as).pc = .idle ∧
    (∀ k, underWay (({ limit := 2 } : Src).run (as ++ bs.take k)) ≤ 2) ∧
    (({ limit := 2 } : Src).run (as ++ bs)).results = [(1, true), (1, true), (7, false)] := by
  refine ⟨[.call 1 true, .next, .next, .next, .call 1 true, .next, .next, .next], [.call 7 true, .start 3, .next], by unfold NoForeign; decide, by unfold NoDrop; decide, by decide +kernel, ?_,
    by decide +kernel⟩
  intro k
  have h4 : ∀ k, k ≤ 3 → underWay (({ limit := 2 } : Src).run ([.call 1 true, .next, .next, .next, .call 1 true, .next, .next, .next] ++
      [Act.call 7 true, .start 3, .next].take k)) ≤ 2 := by decide +kernel
  by_cases hk : k ≤ 3
  · exact h4 k hk
  · rw [List.take_of_length_le (by simp; omega)]
    exact h4 3 (by decide)

/-- Nothing is accepted as long as this holds. -/
structure Full (s : Src) : Prop where
  lost : s.limit < s.lost.length
  pc : s.pc = .idle ∨ ∃ size old, s.pc = .asked size old
  none : s.posted = []

theorem accepted_same {s s' : Src} (h : s'.results = s.results) : accepted s' = accepted s := by
  unfold accepted; rw [h]

theorem full_step {s : Src} (hi : Inv s) (hl : Lim s) (h : Full s) (a : Act) :
    Full (s.step a) ∧ accepted (s.step a) = accepted s := by
  cases a with
  | foreign =>
    simp only [Src.step]; unfold Src.foreign
    generalize dec s.starting = k
    split_ifs
    · exact ⟨h, rfl⟩
    · exact ⟨⟨h.lost, h.pc, h.none⟩, accepted_same rfl⟩
  | call size ready =>
    simp only [Src.step]; unfold Src.call
    generalize (s.starting + 1) % U32 = k
    cases hp : s.pc with
    | idle =>
      simp only
      split_ifs
      · exact ⟨⟨h.lost, .inr ⟨_, _, rfl⟩, h.none⟩, accepted_same rfl⟩
      · refine ⟨⟨h.lost, .inl rfl, h.none⟩, ?_⟩
        rw [accepted_append s (size, false) _ rfl]; simp
    | asked => exact ⟨h, rfl⟩
    | admitted => exact ⟨h, rfl⟩
    | handed => exact ⟨h, rfl⟩
  | next =>
    simp only [Src.step]; unfold Src.next
    generalize dec s.starting = k
    rcases h.pc with hp | ⟨size, old, hp⟩
    · rw [hp]; exact ⟨h, rfl⟩
    · have := hl.old size old hp
      have := h.lost
      rw [hp]
      simp only
      rw [if_pos (by omega)]
      refine ⟨⟨h.lost, .inl rfl, h.none⟩, ?_⟩
      rw [accepted_append s (size, false) _ rfl]; simp
  | start n =>
    simp only [Src.step]; unfold Src.start
    split
    · exact ⟨h, rfl⟩
    · rw [h.none]; exact ⟨h, rfl⟩
  | release =>
    simp only [Src.step]; unfold Src.release
    generalize dec s.starting = k
    split_ifs
    · exact ⟨⟨h.lost, h.pc, h.none⟩, accepted_same rfl⟩
    · exact ⟨h, rfl⟩
  | drop =>
    simp only [Src.step]; unfold Src.drop
    split
    · exact ⟨h, rfl⟩
    · rw [h.none]; exact ⟨h, rfl⟩
  | complete n =>
    simp only [Src.step]
    rcases (end_eq hi n).1 with ⟨h5, -⟩ | ⟨-, -, h6⟩
    · rw [h5]; exact ⟨h, rfl⟩
    · rw [h6]; exact ⟨⟨h.lost, h.pc, h.none⟩, accepted_same rfl⟩
  | cancel n =>
    simp only [Src.step]
    rcases (end_eq hi n).2 with ⟨h5, -⟩ | ⟨-, -, h6⟩
    · rw [h5]; exact ⟨h, rfl⟩
    · rw [h6]; exact ⟨⟨h.lost, h.pc, h.none⟩, accepted_same rfl⟩

theorem dropped (s : Src) (hr : s.releasing = false) : ∀ k, k ≤ s.posted.length →
    s.run (List.replicate k .drop) = { s with posted := s.posted.drop k, lost := s.lost ++ s.posted.take k } := by
  intro k
  induction k with
  | zero => intro _; simp [Src.run]
  | succ k ih =>
    intro hk
    have hih := ih (by omega)
    rw [List.replicate_succ']
    unfold Src.run at hih ⊢
    rw [List.foldl_append, hih]
    simp only [List.foldl_cons, List.foldl_nil, Src.step, Src.drop, hr, Bool.false_eq_true, if_false]
    rw [List.drop_eq_getElem_cons (by omega)]
    simp only
    rw [List.append_assoc, List.take_append_getElem (by omega)]

/-- C157 does not hold: requests that the engine gives up are counted for ever. After one more than the configured number the source accepts no bundle, though none is under way. -/
theorem C157_leak_violated (limit : Nat) (hl : limit + 4 < 2 ^ 32) : ∃ as, NoForeign as ∧ underWay (({ limit := limit } : Src).run as) = 0 ∧
    ∀ bs, NoForeign bs → accepted (({ limit := limit } : Src).run (as ++ bs)) = accepted (({ limit := limit } : Src).run as) ∧
      underWay (({ limit := limit } : Src).run (as ++ bs)) = 0 := by
  obtain ⟨s, hs, h1, h2, h3, h4, h5, h6, h7, h8, h9⟩ := forwarded limit hl (limit + 1) (Nat.le_refl _)
  refine ⟨(List.replicate (limit + 1) [Act.call 1 true, .next, .next, .next]).flatten ++ List.replicate (limit + 1) .drop, ?_, ?_, ?_⟩
  · intro hc
    rcases List.mem_append.mp hc with hc | hc
    · rw [List.mem_flatten] at hc
      obtain ⟨l, hl', ha⟩ := hc
      rw [List.eq_of_mem_replicate hl'] at ha
      simp at ha
    · cases List.eq_of_mem_replicate hc
  all_goals
    have hrun : ({ limit := limit } : Src).run ((List.replicate (limit + 1) [Act.call 1 true, .next, .next, .next]).flatten ++ List.replicate (limit + 1) .drop) =
        { s with posted := [], lost := List.replicate (limit + 1) 1 } := by
      have := dropped s h7 (limit + 1) (by rw [h5]; simp)
      rw [h5, h8] at this
      simp only [List.drop_replicate, List.take_replicate, Nat.sub_self, Nat.min_self, List.replicate_zero, List.nil_append] at this
      unfold Src.run at hs this ⊢
      rw [List.foldl_append, ← hs]
      exact this
  · rw [hrun, underWay_eq]
    simp [h2, h6, Pc.m]
  · intro bs hb
    have gen : ∀ bs (s : Src), NoForeign bs → Inv s → Lim s → s.limit + 4 < U32 → Full s → s.sessions = [] →
        accepted (s.run bs) = accepted s ∧ underWay (s.run bs) = 0 := by
      intro bs
      induction bs with
      | nil =>
        intro s _ _ _ _ hf hse
        refine ⟨rfl, ?_⟩
        rw [underWay_eq]
        rcases hf.pc with hp | ⟨a, b, hp⟩ <;> simp [Src.run, hf.none, hse, hp, Pc.m]
      | cons b bs ih =>
        intro s hn hi hli h4 hf hse
        have hne : b ≠ .foreign := by
          rintro rfl
          exact hn List.mem_cons_self
        have hst := full_step hi hli hf b
        have hse' : (s.step b).sessions = [] := by
          have hnil : s.sessions.map Prod.fst = [] := by rw [hse]; rfl
          cases b <;> simp only [Src.step]
          · unfold Src.call; split
            · split_ifs <;> exact hse
            · exact hse
          · unfold Src.next; split
            · exact hse
            · split_ifs <;> exact hse
            · exact hse
            · exact hse
          · unfold Src.start
            split
            · exact hse
            · rw [hf.none]; exact hse
          · unfold Src.release; split_ifs <;> exact hse
          · unfold Src.drop; split
            · exact hse
            · rw [hf.none]; exact hse
          · exact absurd rfl hne
          · rename_i n
            rcases (end_eq hi n).1 with ⟨h5, -⟩ | ⟨-, h5, -⟩
            · rw [h5]; exact hse
            · rw [hnil] at h5; simp at h5
          · rename_i n
            rcases (end_eq hi n).2 with ⟨h5, -⟩ | ⟨-, h5, -⟩
            · rw [h5]; exact hse
            · rw [hnil] at h5; simp at h5
        have := ih (s.step b) (fun hc => hn (List.mem_cons_of_mem _ hc)) (inv_step hi b) (lim_step hi hli h4 b hne)
          (by rw [step_limit]; exact h4) hst.1 hse'
        exact ⟨this.1.trans hst.2, this.2⟩
    have hsplit : ∀ as, ({ limit := limit } : Src).run (as ++ bs) = (({ limit := limit } : Src).run as).run bs := by
      intro as; unfold Src.run; rw [List.foldl_append]
    have hnf : NoForeign ((List.replicate (limit + 1) [Act.call 1 true, .next, .next, .next]).flatten ++ List.replicate (limit + 1) .drop) := by
      intro hc
      rcases List.mem_append.mp hc with hc | hc
      · rw [List.mem_flatten] at hc
        obtain ⟨l, hl', ha⟩ := hc
        rw [List.eq_of_mem_replicate hl'] at ha
        simp at ha
      · cases List.eq_of_mem_replicate hc
    rw [hsplit]
    refine gen bs _ hb (inv_run _ (inv_init limit)) (lim_run _ (inv_init limit) (lim_init limit) hl hnf) (by rw [run_limit]; exact hl) ?_ (by rw [hrun]; exact h6)
    rw [hrun]
    refine ⟨by simp only [h1, List.length_replicate]; omega, .inl h2, rfl⟩

/-- C157 does not hold: a data segment of the remote engine, which makes the engine start a session to receive, lets the counter wrap around. From then on no bundle is accepted. -/
theorem C157_foreign_violated (limit : Nat) (hl : limit + 1 < 2 ^ 32) (bs : List Act) (hb : NoForeign bs) :
    accepted (({ limit := limit } : Src).run (.foreign :: bs)) = [] ∧ underWay (({ limit := limit } : Src).run (.foreign :: bs)) = 0 := by
  have hz : (2 ^ 32 - 1 + 1) % U32 = 0 := by decide +kernel
  have hd : dec 0 = 2 ^ 32 - 1 := by decide +kernel
  have gen : ∀ bs (s : Src), NoForeign bs → s.limit = limit → s.posted = [] → s.sessions = [] → s.releasing = false → accepted s = [] →
      (s.pc = .idle ∧ s.starting = 2 ^ 32 - 1 ∨ ∃ size, s.pc = .asked size (2 ^ 32 - 1) ∧ s.starting = 0) →
      accepted (s.run bs) = [] ∧ underWay (s.run bs) = 0 := by
    intro bs
    induction bs with
    | nil =>
      intro s _ _ h1 h2 _ h3 h4
      refine ⟨h3, ?_⟩
      rw [underWay_eq]
      rcases h4 with ⟨hp, -⟩ | ⟨a, hp, -⟩ <;> simp [Src.run, h1, h2, hp, Pc.m]
    | cons b bs ih =>
      intro s hn h0 h1 h2 hrel h3 h4
      have same : s.step b = s → accepted (s.run (b :: bs)) = [] ∧ underWay (s.run (b :: bs)) = 0 := by
        intro he
        have : s.run (b :: bs) = s.run bs := by
          unfold Src.run; rw [List.foldl_cons, he]
        rw [this]
        exact ih s (fun hc => hn (List.mem_cons_of_mem _ hc)) h0 h1 h2 hrel h3 h4
      have hrun : s.run (b :: bs) = (s.step b).run bs := rfl
      cases b with
      | foreign => exact absurd List.mem_cons_self hn
      | call size ready =>
        rcases h4 with ⟨hp, hst⟩ | ⟨a, hp, hst⟩
        · rw [hrun]
          cases ready with
          | true =>
            have hc : s.step (.call size true) = { s with starting := 0, pc := .asked size (2 ^ 32 - 1) } := by
              simp only [Src.step]; unfold Src.call; rw [hp, hst]; simp only [if_true]; rw [hz]
            rw [hc]
            exact ih _ (fun hc => hn (List.mem_cons_of_mem _ hc)) h0 h1 h2 hrel h3 (.inr ⟨size, rfl, rfl⟩)
          | false =>
            have hc : s.step (.call size false) = { s with results := s.results ++ [(size, false)] } := by
              simp only [Src.step]; unfold Src.call; rw [hp]; rfl
            rw [hc]
            refine ih _ (fun hc => hn (List.mem_cons_of_mem _ hc)) h0 h1 h2 hrel ?_ (.inl ⟨hp, hst⟩)
            rw [accepted_append s (size, false) _ rfl, h3]; simp
        · exact same (by simp only [Src.step]; unfold Src.call; rw [hp])
      | next =>
        rcases h4 with ⟨hp, hst⟩ | ⟨a, hp, hst⟩
        · exact same (by simp only [Src.step]; unfold Src.next; rw [hp])
        · rw [hrun]
          have hc : s.step .next = { s with starting := 2 ^ 32 - 1, pc := .idle, results := s.results ++ [(a, false)] } := by
            simp only [Src.step]; unfold Src.next; rw [hp, hst]
            simp only
            rw [if_pos (by rw [h0]; omega), hd]
          rw [hc]
          refine ih _ (fun hc => hn (List.mem_cons_of_mem _ hc)) h0 h1 h2 hrel ?_ (.inl ⟨rfl, rfl⟩)
          rw [accepted_append s (a, false) _ rfl, h3]; simp
      | start n => exact same (by simp only [Src.step]; unfold Src.start; rw [h1]; simp)
      | release => exact same (by simp only [Src.step]; unfold Src.release; rw [hrel]; rfl)
      | drop => exact same (by simp only [Src.step]; unfold Src.drop; rw [hrel, h1]; rfl)
      | complete n => exact same (by simp only [Src.step]; unfold Src.complete; rw [if_pos (.inr (by rw [h2]; simp))])
      | cancel n => exact same (by simp only [Src.step]; unfold Src.cancel; rw [if_pos (.inr (by rw [h2]; simp))])
  have h0 : ({ limit := limit } : Src).run (.foreign :: bs) = ({ limit := limit, starting := 2 ^ 32 - 1 } : Src).run bs := by
    unfold Src.run
    rw [List.foldl_cons]
    simp only [Src.step, Src.foreign, Bool.false_eq_true, if_false, hd]
  rw [h0]
  exact gen bs _ hb rfl rfl rfl rfl rfl (.inl ⟨rfl, rfl⟩)

example : NoForeign (one1 5) ∧ (({ limit := 100 } : Src).run (.foreign :: one1 5)).results = [(10, false)] := by
  refine ⟨by unfold NoForeign; decide, by decide +kernel⟩

/-- C158: between calls, the number of bundles that are not acknowledged is the number that are under way, and with them those the engine gave up. -/
theorem C158_unacked (limit : Nat) (hl : limit + 4 < 2 ^ 32) (as : List Act) (ha : NoForeign as) :
    let s := ({ limit := limit } : Src).run as
    s.pc = .idle → s.unacked = underWay s + s.lost.length := by
  intro s hp
  have hi : Inv s := inv_run as (inv_init limit)
  have h : Lim s := lim_run as (inv_init limit) (lim_init limit) hl ha
  have h1 := hi.count
  have h2 := h.bound
  have hlim : s.limit = limit := run_limit as _
  rw [underWay_eq, hp]
  rw [hp] at h1 h2
  simp only [Pc.h, Pc.m] at h1 h2 ⊢
  unfold Src.unacked
  unfold U64 at h1 ⊢
  omega

example : let s := ({ limit := 3 } : Src).run (one1 5 ++ one1 6 ++ one1 7 ++ [.complete 6, .cancel 5])
    s.pc = .idle ∧ s.unacked = 1 ∧ s.sent = 3 ∧ s.acked = 1 ∧ s.failed = 1 ∧ s.bytes = 30 ∧ NoForeign (one1 5) := by
  refine ⟨by decide +kernel, by decide +kernel, by decide +kernel, by decide +kernel, by decide +kernel, by decide +kernel, by unfold NoForeign; decide⟩

/-- C158: bundles and bytes are counted as sent exactly for the bundles for which `Forward` returned true (as 64-bit numbers). -/
theorem C158_sent (limit : Nat) (as : List Act) :
    (({ limit := limit } : Src).run as).sent % 2 ^ 64 = (accepted (({ limit := limit } : Src).run as)).length % 2 ^ 64 ∧
    (({ limit := limit } : Src).run as).bytes % 2 ^ 64 = (accepted (({ limit := limit } : Src).run as)).sum % 2 ^ 64 :=
  ⟨(inv_run as (inv_init limit)).sent, (inv_run as (inv_init limit)).bytes⟩

example : accepted (({ limit := 0 } : Src).run ([.call 7 false] ++ one1 5 ++ [.call 9 true, .next])) = [10] := by decide +kernel

/-- C158: every session that the engine ends is counted, as acknowledged or as failed, and no longer keeps others from being accepted. -/
theorem C158_answered (limit : Nat) (as : List Act) (n : Nat) :
    let s := ({ limit := limit } : Src).run as
    s.releasing = false → n ∈ s.sessions.map Prod.fst →
      (s.complete n).acked = (s.acked + 1) % 2 ^ 64 ∧ (s.complete n).failed = s.failed ∧ (s.complete n).active.length + 1 = s.active.length ∧
      (s.cancel n).failed = (s.failed + 1) % 2 ^ 64 ∧ (s.cancel n).acked = s.acked ∧ (s.cancel n).active.length + 1 = s.active.length := by
  intro s hr hn
  have hi : Inv s := inv_run as (inv_init limit)
  have hlen : (s.active.filter fun x => x ≠ n).length + 1 = s.active.length := by
    have := filter_out hi.nodup hn
    rw [hi.same, ← map_filter_out, List.length_map, List.length_map]
    exact this
  rcases (end_eq hi n).1 with ⟨-, h5⟩ | ⟨-, -, h6⟩
  · rcases h5 with h5 | h5
    · rw [hr] at h5; cases h5
    · exact absurd hn h5
  · rcases (end_eq hi n).2 with ⟨-, h5⟩ | ⟨-, -, h7⟩
    · rcases h5 with h5 | h5
      · rw [hr] at h5; cases h5
      · exact absurd hn h5
    · rw [h6, h7]
      exact ⟨rfl, rfl, hlen, rfl, rfl, hlen⟩

example : let s := ({ limit := 3 } : Src).run (one1 5)
    s.releasing = false ∧ 5 ∈ s.sessions.map Prod.fst := by decide +kernel

/-- C158 does not hold during a call: if the engine has finished before the bundle is counted, the number of bundles that are not acknowledged is 2 ^ 64 - 1. -/
theorem C158_wraps_violated : ∃ as, NoForeign as ∧ NoDrop as ∧ underWay (({ limit := 5 } : Src).run as) = 0 ∧ (({ limit := 5 } : Src).run as).unacked = 2 ^ 64 - 1 :=
  ⟨[.call 10 true, .next, .next, .start 1, .release, .complete 1], by unfold NoForeign; decide, by unfold NoDrop; decide, by decide +kernel, by decide +kernel⟩

/-- C159: if `Stop` ends because all is acknowledged, then it was so when it last asked. -/
theorem C159_done (us : List Nat) (h : stop us = some true) : ∃ before after, us = before ++ 0 :: after ∧ 0 ∉ before := by
  have gen : ∀ us a p, stopLoop a p us = some true → ∃ before after, us = before ++ 0 :: after ∧ 0 ∉ before := by
    intro us
    induction us with
    | nil => intro a p h; unfold stopLoop at h; split_ifs at h <;> cases h
    | cons u us ih =>
      intro a p h
      unfold stopLoop at h
      by_cases ha : a < 10
      · rw [if_pos ha] at h
        by_cases hu : u = 0
        · exact ⟨[], us, by simp [hu], by simp⟩
        · rw [if_pos hu] at h
          have hrec : ∃ a' p', stopLoop a' p' us = some true := by
            split_ifs at h
            · exact ⟨_, _, h⟩
            · exact ⟨_, _, h⟩
          obtain ⟨a', p', h'⟩ := hrec
          obtain ⟨before, after, h1, h2⟩ := ih a' p' h'
          exact ⟨u :: before, after, by rw [h1]; rfl, by simp [h2, Ne.symm hu]⟩
      · rw [if_neg ha] at h; cases h
  exact gen us _ _ h

example : stop [3, 3, 2, 0, 1] = some true := by decide +kernel

/-- C159: if `Stop` gives up, bundles were unacknowledged all the time, and after some moment nine further questions found no fewer. (The number is below 2 ^ 64 - 1.) -/
theorem C159_gives_up (us : List Nat) (hm : ∀ u ∈ us, u < 2 ^ 64 - 1) (h : stop us = some false) :
    ∃ before u still after, us = before ++ u :: still ++ after ∧ still.length = 9 ∧ u ≠ 0 ∧ (∀ x ∈ still, u ≤ x) ∧ 0 ∉ before := by
  have gen : ∀ us a p, 1 ≤ a → a ≤ 10 → stopLoop a p us = some false →
      (∃ still after, us = still ++ after ∧ still.length = 10 - a ∧ ∀ x ∈ still, p ≤ x) ∨
      (∃ before u still after, us = before ++ u :: still ++ after ∧ still.length = 9 ∧ u ≠ 0 ∧ (∀ x ∈ still, u ≤ x) ∧ 0 ∉ before) := by
    intro us
    induction us with
    | nil =>
      intro a p h1 h10 h
      unfold stopLoop at h
      split_ifs at h with ha
      exact .inl ⟨[], [], rfl, by simp; omega, by simp⟩
    | cons u us ih =>
      intro a p h1 h10 h
      unfold stopLoop at h
      by_cases ha : a < 10
      · rw [if_pos ha] at h
        by_cases hu : u = 0
        · rw [if_neg (by simp [hu])] at h; cases h
        · rw [if_pos hu] at h
          by_cases hp : p > u
          · rw [if_pos hp] at h
            right
            rcases ih _ _ (by omega) (by omega) h with ⟨still, after, e1, e2, e3⟩ | ⟨before, v, still, after, e1, e2, e3, e4, e5⟩
            · exact ⟨[], u, still, after, by rw [e1]; rfl, e2, hu, e3, by simp⟩
            · exact ⟨u :: before, v, still, after, by rw [e1]; rfl, e2, e3, e4, by simp [e5, Ne.symm hu]⟩
          · rw [if_neg hp] at h
            rcases ih _ _ (by omega) (by omega) h with ⟨still, after, e1, e2, e3⟩ | ⟨before, v, still, after, e1, e2, e3, e4, e5⟩
            · left
              refine ⟨u :: still, after, by rw [e1]; rfl, by simp only [List.length_cons]; omega, ?_⟩
              intro x hx
              rcases List.mem_cons.mp hx with rfl | hx
              · omega
              · exact e3 x hx
            · exact .inr ⟨u :: before, v, still, after, by rw [e1]; rfl, e2, e3, e4, by simp [e5, Ne.symm hu]⟩
      · exact .inl ⟨[], u :: us, rfl, by simp; omega, by simp⟩
  unfold stop at h
  cases us with
  | nil => unfold stopLoop at h; cases h
  | cons u us =>
    unfold stopLoop at h
    rw [if_pos (by decide)] at h
    by_cases hu : u = 0
    · rw [if_neg (by simp [hu])] at h; cases h
    · have := hm u List.mem_cons_self
      rw [if_pos hu, if_pos (by unfold U64; omega)] at h
      rcases gen us _ _ (by omega) (by omega) h with ⟨still, after, e1, e2, e3⟩ | ⟨before, v, still, after, e1, e2, e3, e4, e5⟩
      · exact ⟨[], u, still, after, by rw [e1]; rfl, e2, hu, e3, by simp⟩
      · exact ⟨u :: before, v, still, after, by rw [e1]; rfl, e2, e3, e4, by simp [e5, Ne.symm hu]⟩

example : stop [4, 3, 3, 3, 3, 3, 3, 3, 3, 3, 3] = some false ∧ stop [4, 3, 3, 3, 3, 3, 3, 3, 3, 3, 2] = none := by decide +kernel

/-- C159: `Stop` ends after a number of questions that the first answer bounds. -/
theorem C159_ends (u : Nat) (us : List Nat) (hu : u < 2 ^ 64 - 1) (hlen : 10 * u + 9 ≤ us.length) : stop (u :: us) ≠ none := by
  have gen : ∀ us a p, a ≤ 10 → 10 + 10 * p ≤ us.length + a → stopLoop a p us ≠ none := by
    intro us
    induction us with
    | nil =>
      intro a p h10 hl
      unfold stopLoop
      simp only [List.length_nil] at hl
      rw [if_neg (by omega)]
      simp
    | cons v us ih =>
      intro a p h10 hl
      simp only [List.length_cons] at hl
      unfold stopLoop
      by_cases ha : a < 10
      · rw [if_pos ha]
        by_cases hv : v = 0
        · rw [if_neg (by simp [hv])]; simp
        · rw [if_pos hv]
          by_cases hp : p > v
          · rw [if_pos hp]; exact ih _ _ (by omega) (by omega)
          · rw [if_neg hp]; exact ih _ _ (by omega) (by omega)
      · rw [if_neg ha]; simp
  unfold stop stopLoop
  rw [if_pos (by decide)]
  by_cases h0 : u = 0
  · rw [if_neg (by simp [h0])]; simp
  · rw [if_pos h0, if_pos (by unfold U64; omega)]
    exact gen us _ _ (by omega) (by omega)

example : stop (1 :: List.replicate 19 1) = some false := by decide +kernel

end Hdtn.LtpSource
