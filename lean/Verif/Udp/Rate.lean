import Verif.Udp.Lemmas

/-!
The refresh timer and the rate.
-/

namespace Hdtn.Udp

open Spec TokenBucket

/-! ### The timer -/

/-- Packets in the queues have at most `P` bytes; the last refresh is not in the future; the timer
runs if a packet is queued, and is due within one interval. -/
structure Basic (cfg : Cfg) (P : Nat) (s : Source) : Prop where
  sizes : ∀ p, p ∈ s.posted ∨ p ∈ s.vecQ ∨ p ∈ s.zmqQ → p.bytes.length ≤ P
  last : ∀ t, s.last = some t → t ≤ s.now
  due : ∀ d, s.timer = some d → d ≤ s.now + cfg.refresh ∧ s.last ≠ none
  runs : s.vecQ ≠ [] ∨ s.zmqQ ≠ [] → s.timer ≠ none

theorem restart_basic {cfg : Cfg} {P : Nat} {s : Source}
    (h1 : ∀ p, p ∈ s.posted ∨ p ∈ s.vecQ ∨ p ∈ s.zmqQ → p.bytes.length ≤ P)
    (h2 : ∀ t, s.last = some t → t ≤ s.now)
    (h3 : ∀ d, s.timer = some d → d ≤ s.now + cfg.refresh ∧ s.last ≠ none) :
    Basic cfg P (s.restart cfg) := by
  unfold Source.restart
  split
  · rename_i d hd
    exact ⟨h1, h2, h3, fun _ => by rw [hd]; simp⟩
  · refine ⟨h1, ?_, ?_, fun _ => by simp⟩
    · intro t
      simp only
      split
      · intro ht
        injection ht with ht
        omega
      · rename_i t' ht'
        intro ht
        injection ht with ht
        rw [← ht]
        exact h2 t' ht'
    · intro d hd
      simp only at hd ⊢
      injection hd with hd
      refine ⟨by omega, ?_⟩
      split <;> simp

/-- What `done` changes. -/
theorem done_eq (s : Source) : ∃ ready flight toAck notes wire,
    s.done = { s with ready := ready, flight := flight, toAck := toAck, notes := notes, wire := wire } := by
  unfold Source.done
  split
  · exact ⟨_, _, _, _, _, rfl⟩
  · rename_i p rest _
    cases ht : s.toAck with
    | nil =>
      refine ⟨false, rest, [], s.notes, s.wire ++ [p.bytes], ?_⟩
      simp [Source.processSent, ht]
    | cons x l =>
      obtain ⟨size, tag⟩ := x
      by_cases hx : size = p.bytes.length
      · refine ⟨s.ready, rest, l, s.notes ++ [.sent tag], s.wire ++ [p.bytes], ?_⟩
        simp [Source.processSent, ht, hx]
      · refine ⟨false, rest, (size, tag) :: l, s.notes, s.wire ++ [p.bytes], ?_⟩
        simp [Source.processSent, ht, hx]

theorem basic_step {cfg : Cfg} {P : Nat} {s s' : Source} (e : Event)
    (he : ∀ p, e = .forward p → p.bytes.length ≤ P) (h : Basic cfg P s)
    (hs : s.step cfg e = some s') : Basic cfg P s' := by
  cases e with
  | setRate r =>
    obtain ⟨l, rfl⟩ := setRate_eq hs
    exact ⟨h.sizes, h.last, h.due, h.runs⟩
  | resolved =>
    rw [← Option.some.inj hs]
    unfold Source.resolved
    split
    · exact h
    · exact ⟨h.sizes, h.last, h.due, h.runs⟩
  | forward p =>
    have hp := he p rfl
    rw [← Option.some.inj hs]
    unfold Source.forward
    split
    · exact h
    · split
      · exact h
      · refine ⟨?_, h.last, h.due, h.runs⟩
        rintro x (hx | hx)
        · rcases List.mem_append.mp hx with hx | hx
          · exact h.sizes x (.inl hx)
          · rw [List.mem_singleton.mp hx]; exact hp
        · exact h.sizes x (.inr hx)
  | runPost =>
    simp only [Source.step] at hs
    rcases runPost_cases hs with ⟨_, rfl⟩ | ⟨p, rest, q, s2, hp, h1, h2⟩
    · exact h
    · obtain ⟨pre, hq, hsent⟩ := sendFront_sent h1
      have hsz : p.bytes.length ≤ P := h.sizes p (.inl (by rw [hp]; exact List.mem_cons_self ..))
      have hrest : ∀ x ∈ rest, x.bytes.length ≤ P := fun x hx =>
        h.sizes x (.inl (by rw [hp]; exact List.mem_cons_of_mem _ hx))
      have hqs : ∀ x ∈ q, x.bytes.length ≤ P := by
        intro x hx
        have : x ∈ (if p.zmq then s.zmqQ else s.vecQ) ++ [p] := by
          rw [hq]; exact List.mem_append_right _ hx
        rcases List.mem_append.mp this with hx | hx
        · split at hx
          · exact h.sizes x (.inr (.inr hx))
          · exact h.sizes x (.inr (.inl hx))
        · rw [List.mem_singleton.mp hx]; exact hsz
      rw [h2]
      rw [hsent]
      split
      · refine restart_basic ?_ h.last h.due
        rintro x (hx | hx | hx)
        · exact hrest x hx
        · exact h.sizes x (.inr (.inl hx))
        · exact hqs x hx
      · refine restart_basic ?_ h.last h.due
        rintro x (hx | hx | hx)
        · exact hrest x hx
        · exact hqs x hx
        · exact h.sizes x (.inr (.inr hx))
  | expire =>
    simp only [Source.step, Source.expire] at hs
    split at hs
    · rename_i due t ht hl
      split at hs
      · rw [← Option.some.inj hs]; exact h
      · simp only [Option.bind_eq_bind, Option.bind_eq_some_iff] at hs
        obtain ⟨l, _, hs⟩ := hs
        obtain ⟨q, s1, h1, h2⟩ := drainAll_cases hs
        obtain ⟨pre, hq, hsent⟩ := drain_sent h1
        have hvq : s.vecQ = pre ++ q := hq
        have hlast : ∀ t, some s.now = some t → t ≤ s.now := by
          intro t ht; injection ht with ht; omega
        rcases h2 with ⟨hne, h2⟩ | ⟨rfl, q', s3, h3, h4⟩
        · rw [h2, hsent]
          refine restart_basic ?_ hlast (fun d hd => by cases hd)
          rintro x (hx | hx | hx)
          · exact h.sizes x (.inl hx)
          · exact h.sizes x (.inr (.inl (by rw [hvq]; exact List.mem_append_right _ hx)))
          · exact h.sizes x (.inr (.inr hx))
        · obtain ⟨pre', hq', hsent'⟩ := drain_sent h3
          have hz1 : s1.zmqQ = s.zmqQ := by rw [hsent]; rfl
          rw [hz1] at hq'
          rcases h4 with h4 | ⟨hq0, h4, _⟩
          · rw [h4, hsent', hsent]
            refine restart_basic ?_ hlast (fun d hd => by cases hd)
            rintro x (hx | hx | hx)
            · exact h.sizes x (.inl hx)
            · cases hx
            · exact h.sizes x (.inr (.inr (by rw [hq']; exact List.mem_append_right _ hx)))
          · rw [h4, hsent', hsent]
            refine ⟨?_, hlast, fun d hd => (by cases hd), ?_⟩
            · rintro x (hx | hx | hx)
              · exact h.sizes x (.inl hx)
              · cases hx
              · cases hx
            · rintro (hx | hx)
              · exact absurd rfl hx
              · exact absurd rfl hx
    · rw [← Option.some.inj hs]; exact h
  | done =>
    rw [← Option.some.inj hs]
    split
    · obtain ⟨a, b, c, d, e, hd⟩ := done_eq s
      rw [hd]
      exact ⟨h.sizes, h.last, h.due, h.runs⟩
    · exact h
  | fails =>
    rw [← Option.some.inj hs]
    unfold Source.fails
    split
    · exact h
    · exact ⟨h.sizes, h.last, h.due, h.runs⟩
  | passes d =>
    rw [← Option.some.inj hs]
    refine ⟨h.sizes, fun t ht => ?_, fun d' hd => ?_, h.runs⟩
    · have := h.last t ht
      show t ≤ s.now + d
      omega
    · have := h.due d' hd
      refine ⟨?_, this.2⟩
      show d' ≤ s.now + d + _
      omega

theorem basic_run {cfg : Cfg} {P : Nat} (es : List Event) : ∀ {s s' : Source},
    (∀ p, .forward p ∈ es → p.bytes.length ≤ P) → Basic cfg P s → s.run cfg es = some s' →
    Basic cfg P s' := by
  induction es with
  | nil => intro s s' _ h hs; rw [← Option.some.inj hs]; exact h
  | cons e es ih =>
    intro s s' hk h hs
    simp only [Source.run, Option.bind_eq_bind, Option.bind_eq_some_iff] at hs
    obtain ⟨s1, h1, h2⟩ := hs
    exact ih (fun p hp => hk p (List.mem_cons_of_mem _ hp))
      (basic_step e (fun p hp => hk p (by rw [hp]; exact List.mem_cons_self ..)) h h1) h2

theorem basic_init (cfg : Cfg) (P : Nat) : Basic cfg P Source.init := by
  refine ⟨?_, fun t ht => (by cases ht), fun d hd => (by cases hd), ?_⟩
  · rintro p (hp | hp | hp) <;> cases hp
  · rintro (h | h) <;> exact absurd rfl h

/-! ### The rate -/

theorem bytesOf_append (a b : List Mark) : bytesOf (a ++ b) = bytesOf a + bytesOf b := by
  induction a with
  | nil => simp [bytesOf]
  | cons m a ih => cases m <;> simp only [List.cons_append, bytesOf, ih] <;> omega

theorem timeOf_append (a b : List Mark) : timeOf (a ++ b) = timeOf a + timeOf b := by
  induction a with
  | nil => simp [timeOf]
  | cons m a ih => cases m <;> simp only [List.cons_append, timeOf, ih] <;> omega

/-- What the limiter has granted in the last part `b` of the log.  `I`: ticks in a second, `L`: the
full bucket, `r`: the rate, `M`: the largest packet times `I`. -/
def Fair (I L r M remain : Int) (last : Option Nat) (now : Nat) (b : List Mark) : Prop :=
  (Mark.refreshed ∉ b → (bytesOf b : Int) * I + remain ≤ L) ∧
  (Mark.refreshed ∈ b → ∃ t : Nat, last = some t ∧ (now : Int) - t ≤ timeOf b ∧
    (bytesOf b : Int) * I + remain ≤ 2 * L + M + r * (timeOf b - (now - t)))

/-- The invariant of the rate, since the log was `log0`. -/
structure RateInv (I L r M : Int) (log0 : List Mark) (s : Source) : Prop where
  on : s.rate ≠ 0
  rate : s.limiter.rate = r
  interval : s.limiter.interval = I
  limit : s.limiter.limit = L
  top : s.limiter.remain ≤ L
  low : -M ≤ s.limiter.remain
  last : ∀ t, s.last = some t → t ≤ s.now
  more : ∃ more, s.log = log0 ++ more ∧
    (∀ a b, more = a ++ b → Fair I L r M s.limiter.remain s.last s.now b) ∧
    (∀ a b n c, more = a ++ b ++ .started n :: c →
      (bytesOf b : Int) * I ≤ 2 * L + M + r * timeOf b)

theorem RateInv.congr {I L r M : Int} {log0 : List Mark} {s s' : Source} (h : RateInv I L r M log0 s)
    (h1 : s'.rate = s.rate) (h2 : s'.limiter = s.limiter) (h3 : s'.log = s.log)
    (h4 : s'.last = s.last) (h5 : s'.now = s.now) : RateInv I L r M log0 s' :=
  ⟨by rw [h1]; exact h.on, by rw [h2]; exact h.rate, by rw [h2]; exact h.interval,
    by rw [h2]; exact h.limit, by rw [h2]; exact h.top, by rw [h2]; exact h.low,
    by rw [h4, h5]; exact h.last, by rw [h2, h3, h4, h5]; exact h.more⟩

/-- A last part of a list with one more element. -/
theorem suffix_snoc {more a b : List Mark} {m : Mark} (h : more ++ [m] = a ++ b) :
    b = [] ∨ ∃ b', b = b' ++ [m] ∧ more = a ++ b' := by
  rcases concat_eq_append h with ⟨h, _⟩ | h
  · exact .inl h
  · exact .inr h

theorem fair_nil {I L r M remain : Int} {last : Option Nat} {now : Nat} (h : remain ≤ L) :
    Fair I L r M remain last now [] := by
  refine ⟨fun _ => ?_, fun h => by cases h⟩
  simp only [bytesOf, Nat.cast_zero, Int.zero_mul, Int.zero_add]
  exact h

/-- A mark that is no `started` puts no new bound. -/
theorem bound_snoc {I L r M : Int} {more : List Mark} {m : Mark} (hm : ∀ n, m ≠ .started n)
    (h : ∀ a b n c, more = a ++ b ++ .started n :: c → (bytesOf b : Int) * I ≤ 2 * L + M + r * timeOf b) :
    ∀ a b n c, more ++ [m] = a ++ b ++ .started n :: c →
      (bytesOf b : Int) * I ≤ 2 * L + M + r * timeOf b := by
  intro a b n c hc
  rcases suffix_snoc hc with hc | ⟨c', hc, hm'⟩
  · cases hc
  · cases c' with
    | nil =>
      injection hc with hc
      exact absurd hc.symm (hm n)
    | cons x c' =>
      injection hc with hc1 hc2
      rw [← hc1] at hm'
      exact h a b n c' hm'

theorem take_granted {l l' : Limiter} {n : Nat} (hi : 0 < l.interval)
    (hn : (n : Int) * l.interval < 2 ^ 63) (h : takeTokens l n = some (true, l')) :
    0 ≤ l.remain ∧ l' = { l with remain := l.remain - n * l.interval } := by
  unfold takeTokens at h
  split at h
  · simp at h
  · rename_i hr
    simp only [Option.bind_eq_bind, Option.bind_eq_some_iff, Option.some.injEq, Prod.mk.injEq] at h
    obtain ⟨r, h1, _, h2⟩ := h
    rw [delta_eq n _ hi hn] at h1
    have := fit_eq _ _ h1
    refine ⟨by omega, ?_⟩
    rw [← h2, this]

theorem rate_start {I L r M : Int} {log0 : List Mark} {s s' : Source} {p : Pkt} (hI : 0 < I)
    (hL : 0 ≤ L) (hr : 0 ≤ r) (hM : M < 2 ^ 63) (hp : (p.bytes.length : Int) * I ≤ M)
    (h : RateInv I L r M log0 s) (hg : s.grant p.bytes.length = some (true, s')) :
    RateInv I L r M log0 (s'.start p) := by
  unfold Source.grant at hg
  rw [if_neg h.on] at hg
  simp only [Option.bind_eq_bind, Option.bind_eq_some_iff, Option.some.injEq, Prod.mk.injEq] at hg
  obtain ⟨⟨ok, l⟩, h1, h2, h3⟩ := hg
  simp only at h2
  subst h2
  obtain ⟨h0, hl⟩ := take_granted (by rw [h.interval]; exact hI) (by rw [h.interval]; omega) h1
  rw [h.interval] at hl
  obtain ⟨more, m1, m2, m3⟩ := h.more
  subst h3
  have hrem : l.remain = s.limiter.remain - p.bytes.length * I := by rw [hl]
  have htop := h.top
  have hpos : 0 ≤ (p.bytes.length : Int) * I := by positivity
  refine ⟨h.on, ?_, ?_, ?_, ?_, ?_, h.last, more ++ [.started p.bytes.length], ?_, ?_, ?_⟩
  · show l.rate = r; rw [hl]; exact h.rate
  · show l.interval = I; rw [hl]
  · show l.limit = L; rw [hl]; exact h.limit
  · show l.remain ≤ L; omega
  · show -M ≤ l.remain; omega
  · simp only [Source.start, m1, List.append_assoc]
  · intro a b hab
    show Fair I L r M l.remain s.last s.now b
    rcases suffix_snoc hab with rfl | ⟨b', rfl, hm⟩
    · exact fair_nil (by omega)
    · obtain ⟨f1, f2⟩ := m2 a b' hm
      have hb : ((bytesOf (b' ++ [.started p.bytes.length]) : Nat) : Int) * I =
          (bytesOf b' : Int) * I + p.bytes.length * I := by
        rw [bytesOf_append]
        simp only [bytesOf, Nat.add_zero]
        push_cast
        ring
      have ht : timeOf (b' ++ [.started p.bytes.length]) = timeOf b' := by
        rw [timeOf_append]; rfl
      constructor
      · intro hn
        have := f1 (fun hx => hn (List.mem_append_left _ hx))
        rw [hb]
        omega
      · intro hx
        rcases List.mem_append.mp hx with hx | hx
        · obtain ⟨t, e1, e2, e3⟩ := f2 hx
          refine ⟨t, e1, by rw [ht]; exact e2, ?_⟩
          rw [hb, ht]
          omega
        · simp at hx
  · intro a b n c hc
    rcases suffix_snoc hc with hc | ⟨c', hc, hm⟩
    · cases hc
    · cases c' with
      | nil =>
        rw [List.append_nil] at hm
        obtain ⟨f1, f2⟩ := m2 a b hm
        have hnn : 0 ≤ r * (timeOf b : Int) := by positivity
        by_cases hx : Mark.refreshed ∈ b
        · obtain ⟨t, e1, e2, e3⟩ := f2 hx
          have hle := h.last t e1
          have : r * ((timeOf b : Int) - (s.now - t)) ≤ r * timeOf b :=
            mul_le_mul_of_nonneg_left (by omega) hr
          omega
        · have := f1 hx
          omega
      | cons x c' =>
        injection hc with hc1 hc2
        rw [← hc1] at hm
        exact m3 a b n c' hm

theorem rate_refuse {I L r M : Int} {log0 : List Mark} {s s' : Source} {n : Nat}
    (h : RateInv I L r M log0 s) (hg : s.grant n = some (false, s')) : RateInv I L r M log0 s' := by
  unfold Source.grant at hg
  rw [if_neg h.on] at hg
  simp only [Option.bind_eq_bind, Option.bind_eq_some_iff, Option.some.injEq, Prod.mk.injEq] at hg
  obtain ⟨⟨ok, l⟩, h1, h2, h3⟩ := hg
  simp only at h2
  subst h2
  have hl : l = s.limiter := by
    unfold takeTokens at h1
    split at h1
    · simp only [Option.some.injEq, Prod.mk.injEq, true_and] at h1
      exact h1.symm
    · simp only [Option.bind_eq_bind, Option.bind_eq_some_iff, Option.some.injEq, Prod.mk.injEq] at h1
      obtain ⟨_, _, hb, _⟩ := h1
      cases hb
  exact h.congr (by rw [← h3]) (by rw [← h3, hl]) (by rw [← h3]) (by rw [← h3]) (by rw [← h3])

theorem rate_refresh {I L r M : Int} {log0 : List Mark} {s : Source} {l : Limiter} {t : Nat}
    (hr : 0 ≤ r) (hM : 0 ≤ M) (h : RateInv I L r M log0 s) (ht : s.last = some t)
    (hl : addTime s.limiter ((s.now - t : Nat) : Int) = some l) (hL : 0 ≤ L) :
    RateInv I L r M log0 (s.refreshed l) := by
  obtain ⟨more, m1, m2, m3⟩ := h.more
  have htn := h.last t ht
  have hcast : ((s.now - t : Nat) : Int) = (s.now : Int) - t := by omega
  have hl' : l = { s.limiter with remain := if s.limiter.remain + r * ((s.now : Int) - t) > L then L
      else s.limiter.remain + r * ((s.now : Int) - t) } := by
    unfold addTime at hl
    simp only [Option.bind_eq_bind, Option.bind_eq_some_iff, Option.some.injEq] at hl
    obtain ⟨d, h1, x, h2, h3⟩ := hl
    have e1 := fit_eq _ _ h1
    have e2 := fit_eq _ _ h2
    rw [h.rate, hcast] at e1
    rw [← h3, e2, e1]
    simp only [h.limit]
  have hadd : 0 ≤ r * ((s.now : Int) - t) := mul_nonneg hr (by omega)
  have hlow := h.low
  have htop := h.top
  have hrem : l.remain ≤ L ∧ l.remain ≤ s.limiter.remain + r * ((s.now : Int) - t) ∧
      s.limiter.remain ≤ l.remain := by
    rw [hl']
    simp only
    split <;> omega
  obtain ⟨r1, r2, r3⟩ := hrem
  refine ⟨h.on, ?_, ?_, ?_, r1, by show -M ≤ l.remain; omega, ?_, more ++ [.refreshed], ?_, ?_,
    bound_snoc (by simp) m3⟩
  · show l.rate = r; rw [hl']; exact h.rate
  · show l.interval = I; rw [hl']; exact h.interval
  · show l.limit = L; rw [hl']; exact h.limit
  · intro t' ht'
    simp only [Source.refreshed] at ht' ⊢
    injection ht' with ht'
    omega
  · simp only [Source.refreshed, m1, List.append_assoc]
  · intro a b hab
    show Fair I L r M l.remain (some s.now) s.now b
    rcases suffix_snoc hab with rfl | ⟨b', rfl, hm⟩
    · exact fair_nil r1
    · obtain ⟨f1, f2⟩ := m2 a b' hm
      have hb : bytesOf (b' ++ [.refreshed]) = bytesOf b' := by rw [bytesOf_append]; rfl
      have htm : timeOf (b' ++ [.refreshed]) = timeOf b' := by rw [timeOf_append]; rfl
      have hnn : 0 ≤ r * (timeOf b' : Int) := by positivity
      constructor
      · intro hn
        exact absurd (List.mem_append_right _ (List.mem_singleton.mpr rfl)) hn
      · intro _
        rw [hb, htm]
        refine ⟨s.now, rfl, by omega, ?_⟩
        have e0 : (timeOf b' : Int) - ((s.now : Int) - s.now) = timeOf b' := by omega
        rw [e0]
        by_cases hx : Mark.refreshed ∈ b'
        · obtain ⟨t', e1, e2, e3⟩ := f2 hx
          rw [ht] at e1
          injection e1 with e1
          subst e1
          have : r * ((timeOf b' : Int) - (s.now - t)) = r * timeOf b' - r * ((s.now : Int) - t) := by
            ring
          omega
        · have := f1 hx
          omega

theorem rate_pass {I L r M : Int} {log0 : List Mark} {s : Source} (d : Nat)
    (h : RateInv I L r M log0 s) :
    RateInv I L r M log0 { s with now := s.now + d, log := s.log ++ [.passed d] } := by
  obtain ⟨more, m1, m2, m3⟩ := h.more
  refine ⟨h.on, h.rate, h.interval, h.limit, h.top, h.low, fun t ht => ?_, more ++ [.passed d], ?_, ?_,
    bound_snoc (by simp) m3⟩
  · have := h.last t ht
    show t ≤ s.now + d
    omega
  · simp only [m1, List.append_assoc]
  · intro a b hab
    show Fair I L r M s.limiter.remain s.last (s.now + d) b
    rcases suffix_snoc hab with rfl | ⟨b', rfl, hm⟩
    · exact fair_nil h.top
    · obtain ⟨f1, f2⟩ := m2 a b' hm
      have hb : bytesOf (b' ++ [.passed d]) = bytesOf b' := by rw [bytesOf_append]; rfl
      have htm : ((timeOf (b' ++ [.passed d]) : Nat) : Int) = timeOf b' + d := by
        rw [timeOf_append]; simp [timeOf]
      constructor
      · intro hn
        rw [hb]
        exact f1 (fun hx => hn (List.mem_append_left _ hx))
      · intro hx
        rcases List.mem_append.mp hx with hx | hx
        · obtain ⟨t, e1, e2, e3⟩ := f2 hx
          refine ⟨t, e1, ?_, ?_⟩
          · rw [htm]; push_cast; omega
          · rw [hb, htm]
            have : ((timeOf b' : Int) + d - (((s.now + d : Nat) : Int) - t)) =
                (timeOf b' : Int) - (s.now - t) := by push_cast; omega
            rw [this]
            exact e3
        · simp at hx

theorem rate_restart {I L r M : Int} {log0 : List Mark} {s : Source} (cfg : Cfg)
    (h : RateInv I L r M log0 s) : RateInv I L r M log0 (s.restart cfg) := by
  unfold Source.restart
  split
  · exact h
  · cases hl : s.last with
    | some t => exact h.congr rfl rfl rfl hl.symm rfl
    | none =>
      obtain ⟨more, m1, m2, m3⟩ := h.more
      refine ⟨h.on, h.rate, h.interval, h.limit, h.top, h.low, fun t ht => ?_, more, m1, ?_, m3⟩
      · simp only at ht ⊢
        injection ht with ht
        omega
      · intro a b hab
        obtain ⟨f1, f2⟩ := m2 a b hab
        refine ⟨f1, fun hx => ?_⟩
        obtain ⟨t, e1, _⟩ := f2 hx
        rw [hl] at e1; cases e1

theorem rate_step {cfg : Cfg} {P : Nat} {I L r : Int} {log0 : List Mark} {s s' : Source} (e : Event)
    (hI : 0 < I) (hL : 0 ≤ L) (hr : 0 ≤ r) (hM : (P : Int) * I < 2 ^ 63) (he : ∀ r, e ≠ .setRate r)
    (hb : Basic cfg P s) (h : RateInv I L r (P * I) log0 s) (hs : s.step cfg e = some s') :
    RateInv I L r (P * I) log0 s' := by
  have hM0 : 0 ≤ (P : Int) * I := by positivity
  have hok : ∀ {s s' : Source} {p : Pkt}, p.bytes.length ≤ P → RateInv I L r (P * I) log0 s →
      s.grant p.bytes.length = some (true, s') → RateInv I L r (P * I) log0 (s'.start p) := by
    intro s s' p hp hi hg
    exact rate_start hI hL hr hM (mul_le_mul_of_nonneg_right (by omega) (by omega)) hi hg
  cases e with
  | setRate r => exact absurd rfl (he r)
  | resolved =>
    rw [← Option.some.inj hs]
    unfold Source.resolved
    split
    · exact h
    · exact h.congr rfl rfl rfl rfl rfl
  | forward p =>
    rw [← Option.some.inj hs]
    unfold Source.forward
    split
    · exact h
    · split
      · exact h
      · exact h.congr rfl rfl rfl rfl rfl
  | runPost =>
    simp only [Source.step] at hs
    rcases runPost_cases hs with ⟨_, rfl⟩ | ⟨p, rest, q, s2, hp, h1, h2⟩
    · exact h
    · have h0 : RateInv I L r (P * I) log0 { s with posted := rest } := h.congr rfl rfl rfl rfl rfl
      have h3 : RateInv I L r (P * I) log0 s2 := by
        rcases sendFront_cases h1 with ⟨_, _, c⟩ | ⟨p', r', s1, a, b, _, d⟩ | ⟨p', r', _, b, _⟩
        · rw [c]; exact h0
        · rw [d]
          refine hok ?_ h0 b
          have : p' ∈ (if p.zmq then s.zmqQ else s.vecQ) ++ [p] := by rw [a]; exact List.mem_cons_self ..
          rcases List.mem_append.mp this with hx | hx
          · split at hx
            · exact hb.sizes _ (.inr (.inr hx))
            · exact hb.sizes _ (.inr (.inl hx))
          · rw [List.mem_singleton.mp hx]
            exact hb.sizes _ (.inl (by rw [hp]; exact List.mem_cons_self ..))
        · exact rate_refuse h0 b
      rw [h2]
      refine rate_restart cfg ?_
      split
      · exact h3.congr rfl rfl rfl rfl rfl
      · exact h3.congr rfl rfl rfl rfl rfl
  | expire =>
    simp only [Source.step, Source.expire] at hs
    split at hs
    · rename_i due t ht hl
      split at hs
      · rw [← Option.some.inj hs]; exact h
      · simp only [Option.bind_eq_bind, Option.bind_eq_some_iff] at hs
        obtain ⟨l, hadd, hs⟩ := hs
        have h0 := rate_refresh hr hM0 h hl hadd hL
        obtain ⟨q, s1, h1, h2⟩ := drainAll_cases hs
        obtain ⟨pre, hq, hsent⟩ := drain_sent h1
        have h3 : RateInv I L r (P * I) log0 s1 :=
          drain_pres (Q := fun p => p.bytes.length ≤ P) hok rate_refuse
            (fun p hp => hb.sizes p (.inr (.inl hp))) h1 h0
        rcases h2 with ⟨hne, h2⟩ | ⟨rfl, q', s3, h4, h5⟩
        · rw [h2]
          exact rate_restart cfg (h3.congr rfl rfl rfl rfl rfl)
        · have hz1 : s1.zmqQ = s.zmqQ := by rw [hsent]; rfl
          have h6 : RateInv I L r (P * I) log0 s3 :=
            drain_pres (Q := fun p => p.bytes.length ≤ P) hok rate_refuse
              (fun p hp => hb.sizes p (.inr (.inr (by rw [← hz1]; exact hp)))) h4
              (h3.congr rfl rfl rfl rfl rfl)
          rcases h5 with h5 | ⟨_, h5, _⟩
          · rw [h5]
            exact rate_restart cfg (h6.congr rfl rfl rfl rfl rfl)
          · rw [h5]
            exact h6.congr rfl rfl rfl rfl rfl
    · rw [← Option.some.inj hs]; exact h
  | done =>
    rw [← Option.some.inj hs]
    split
    · obtain ⟨a, b, c, d, e, hd⟩ := done_eq s
      rw [hd]
      exact h.congr rfl rfl rfl rfl rfl
    · exact h
  | fails =>
    rw [← Option.some.inj hs]
    unfold Source.fails
    split
    · exact h
    · exact h.congr rfl rfl rfl rfl rfl
  | passes d =>
    rw [← Option.some.inj hs]
    exact rate_pass d h

theorem rate_run {cfg : Cfg} {P : Nat} {I L r : Int} {log0 : List Mark} (hI : 0 < I) (hL : 0 ≤ L)
    (hr : 0 ≤ r) (hM : (P : Int) * I < 2 ^ 63) (es : List Event) : ∀ {s s' : Source}, RateKept es →
    (∀ p, .forward p ∈ es → p.bytes.length ≤ P) → Basic cfg P s → RateInv I L r (P * I) log0 s →
    s.run cfg es = some s' → RateInv I L r (P * I) log0 s' := by
  induction es with
  | nil => intro s s' _ _ _ h hs; rw [← Option.some.inj hs]; exact h
  | cons e es ih =>
    intro s s' hk hf hb h hs
    simp only [Source.run, Option.bind_eq_bind, Option.bind_eq_some_iff] at hs
    obtain ⟨s1, h1, h2⟩ := hs
    exact ih (fun p hp => hk p (List.mem_cons_of_mem _ hp)) (fun p hp => hf p (List.mem_cons_of_mem _ hp))
      (basic_step e (fun p hp => hf p (by rw [hp]; exact List.mem_cons_self ..)) hb h1)
      (rate_step e hI hL hr hM (fun r hr => hk r (by rw [hr]; exact List.mem_cons_self ..)) hb h h1) h2

end Hdtn.Udp
