import Verif.Udp.Spec

/-!
What the sending functions leave alone, and the accounting.
-/

namespace Hdtn.Udp

open Spec TokenBucket

/-- `s'` is `s` after `pre` have been handed to the operating system. -/
def Sent (s s' : Source) (pre : List Pkt) : Prop :=
  s' = { s with limiter := s'.limiter, flight := s.flight ++ pre, log := s'.log }

theorem grant_sent {s s' : Source} {n : Nat} {ok : Bool} (h : s.grant n = some (ok, s')) :
    s' = { s with limiter := s'.limiter } := by
  unfold Source.grant at h
  split at h
  · simp only [Option.some.injEq, Prod.mk.injEq] at h
    rw [← h.2]
  · simp only [Option.bind_eq_bind, Option.bind_eq_some_iff, Option.some.injEq, Prod.mk.injEq] at h
    obtain ⟨⟨a, l⟩, _, _, h⟩ := h
    rw [← h]

theorem start_sent {s s' : Source} {n : Nat} (p : Pkt) (h : s.grant n = some (true, s')) :
    Sent s (s'.start p) [p] := by
  have := grant_sent h
  unfold Sent Source.start
  rw [this]

theorem Sent.trans {s s' s'' : Source} {a b : List Pkt} (h : Sent s s' a) (h' : Sent s' s'' b) :
    Sent s s'' (a ++ b) := by
  unfold Sent at h h' ⊢
  rw [h', h]
  simp

theorem sendFront_cases {s s' : Source} {q q' : List Pkt} (h : s.sendFront q = some (q', s')) :
    (q = [] ∧ q' = [] ∧ s' = s) ∨
    (∃ p r s1, q = p :: r ∧ s.grant p.bytes.length = some (true, s1) ∧ q' = r ∧ s' = s1.start p) ∨
    (∃ p r, q = p :: r ∧ s.grant p.bytes.length = some (false, s') ∧ q' = q) := by
  cases q with
  | nil =>
    simp only [Source.sendFront, Option.some.injEq, Prod.mk.injEq] at h
    exact .inl ⟨rfl, h.1.symm, h.2.symm⟩
  | cons p r =>
    simp only [Source.sendFront, Option.bind_eq_bind, Option.bind_eq_some_iff] at h
    obtain ⟨⟨ok, s1⟩, h1, h2⟩ := h
    cases ok with
    | true =>
      simp only [if_true, Option.some.injEq, Prod.mk.injEq] at h2
      exact .inr (.inl ⟨p, r, s1, rfl, h1, h2.1.symm, h2.2.symm⟩)
    | false =>
      simp only [Bool.false_eq_true, if_false, Option.some.injEq, Prod.mk.injEq] at h2
      refine .inr (.inr ⟨p, r, rfl, ?_, h2.1.symm⟩)
      rw [← h2.2]; exact h1

theorem sendFront_sent {s s' : Source} {q q' : List Pkt} (h : s.sendFront q = some (q', s')) :
    ∃ pre, q = pre ++ q' ∧ Sent s s' pre := by
  rcases sendFront_cases h with ⟨a, b, c⟩ | ⟨p, r, s1, a, b, c, d⟩ | ⟨p, r, a, b, c⟩
  · subst c
    exact ⟨[], by rw [a, b]; rfl, by simp [Sent]⟩
  · exact ⟨[p], by rw [a, c]; rfl, by rw [d]; exact start_sent p b⟩
  · refine ⟨[], by rw [c]; rfl, ?_⟩
    have := grant_sent b
    unfold Sent
    rw [this]; simp

theorem drain_sent {q : List Pkt} : ∀ {s s' : Source} {q' : List Pkt},
    s.drain q = some (q', s') → ∃ pre, q = pre ++ q' ∧ Sent s s' pre := by
  induction q with
  | nil =>
    intro s s' q' h
    simp only [Source.drain, Option.some.injEq, Prod.mk.injEq] at h
    refine ⟨[], h.1, ?_⟩
    rw [← h.2]; simp [Sent]
  | cons p r ih =>
    intro s s' q' h
    simp only [Source.drain, Option.bind_eq_bind, Option.bind_eq_some_iff] at h
    obtain ⟨⟨ok, s1⟩, h1, h2⟩ := h
    cases ok with
    | true =>
      simp only [if_true] at h2
      obtain ⟨pre, e, hs⟩ := ih h2
      exact ⟨p :: pre, by rw [e]; rfl, (start_sent p h1).trans hs⟩
    | false =>
      simp only [Bool.false_eq_true, if_false, Option.some.injEq, Prod.mk.injEq] at h2
      refine ⟨[], h2.1, ?_⟩
      have := grant_sent h1
      rw [← h2.2]
      unfold Sent
      rw [this]; simp

/-- What is kept by single sends is kept by the loop. -/
theorem drain_pres {P : Source → Prop} {Q : Pkt → Prop}
    (hok : ∀ {s s' : Source} {p : Pkt}, Q p → P s → s.grant p.bytes.length = some (true, s') → P (s'.start p))
    (hno : ∀ {s s' : Source} {n : Nat}, P s → s.grant n = some (false, s') → P s') {q : List Pkt} :
    ∀ {s s' : Source} {q' : List Pkt}, (∀ p ∈ q, Q p) → s.drain q = some (q', s') → P s → P s' := by
  induction q with
  | nil =>
    intro s s' q' _ h hp
    simp only [Source.drain, Option.some.injEq, Prod.mk.injEq] at h
    rw [← h.2]; exact hp
  | cons p r ih =>
    intro s s' q' hq h hp
    simp only [Source.drain, Option.bind_eq_bind, Option.bind_eq_some_iff] at h
    obtain ⟨⟨ok, s1⟩, h1, h2⟩ := h
    cases ok with
    | true =>
      simp only [if_true] at h2
      exact ih (fun p hp => hq p (List.mem_cons_of_mem _ hp)) h2
        (hok (hq p (List.mem_cons_self ..)) hp h1)
    | false =>
      simp only [Bool.false_eq_true, if_false, Option.some.injEq, Prod.mk.injEq] at h2
      rw [← h2.2]; exact hno hp h1

/-- The loop ends with an empty queue or without tokens. -/
theorem drain_end {q : List Pkt} : ∀ {s s' : Source} {q' : List Pkt},
    s.drain q = some (q', s') → q' = [] ∨ (s'.rate ≠ 0 ∧ s'.limiter.remain < 0) := by
  induction q with
  | nil =>
    intro s s' q' h
    simp only [Source.drain, Option.some.injEq, Prod.mk.injEq] at h
    exact .inl h.1.symm
  | cons p r ih =>
    intro s s' q' h
    simp only [Source.drain, Option.bind_eq_bind, Option.bind_eq_some_iff] at h
    obtain ⟨⟨ok, s1⟩, h1, h2⟩ := h
    cases ok with
    | true =>
      simp only [if_true] at h2
      exact ih h2
    | false =>
      simp only [Bool.false_eq_true, if_false, Option.some.injEq, Prod.mk.injEq] at h2
      right
      rw [← h2.2]
      unfold Source.grant at h1
      split at h1
      · simp at h1
      · rename_i hr
        simp only [Option.bind_eq_bind, Option.bind_eq_some_iff, Option.some.injEq,
          Prod.mk.injEq] at h1
        obtain ⟨⟨a, l⟩, ht, ha, h⟩ := h1
        rw [← h]
        refine ⟨hr, ?_⟩
        unfold takeTokens at ht
        split at ht
        · rename_i hn
          simp only [Option.some.injEq, Prod.mk.injEq] at ht
          rw [← ht.2]; exact hn
        · simp only [Option.bind_eq_bind, Option.bind_eq_some_iff, Option.some.injEq,
            Prod.mk.injEq] at ht
          obtain ⟨_, _, hb, _⟩ := ht
          simp only at ha
          rw [ha] at hb; cases hb

/-- `restart` changes only the timer. -/
theorem restart_eq (cfg : Cfg) (s : Source) :
    s.restart cfg = { s with timer := (s.restart cfg).timer, last := (s.restart cfg).last } := by
  unfold Source.restart
  split <;> rfl

/-- What `runPost` does. -/
theorem runPost_cases {cfg : Cfg} {s s' : Source} (h : s.runPost cfg = some s') :
    (s.posted = [] ∧ s' = s) ∨
    ∃ p rest q s2, s.posted = p :: rest ∧
      (({ s with posted := rest } : Source).sendFront ((if p.zmq then s.zmqQ else s.vecQ) ++ [p]) = some (q, s2)) ∧
      s' = Source.restart cfg (if p.zmq then { s2 with zmqQ := q } else { s2 with vecQ := q }) := by
  unfold Source.runPost at h
  split at h
  · rename_i hp
    exact .inl ⟨hp, (Option.some.inj h).symm⟩
  · rename_i p rest hp
    right
    split at h
    · rename_i hz
      simp only [Option.bind_eq_bind, Option.bind_eq_some_iff, Option.some.injEq] at h
      obtain ⟨⟨q, s2⟩, h1, h2⟩ := h
      exact ⟨p, rest, q, s2, hp, by rw [if_pos hz]; exact h1, by rw [if_pos hz]; exact h2.symm⟩
    · rename_i hz
      simp only [Option.bind_eq_bind, Option.bind_eq_some_iff, Option.some.injEq] at h
      obtain ⟨⟨q, s2⟩, h1, h2⟩ := h
      exact ⟨p, rest, q, s2, hp, by rw [if_neg hz]; exact h1, by rw [if_neg hz]; exact h2.symm⟩

/-- What the loops of `expire` do. -/
theorem drainAll_cases {cfg : Cfg} {s s' : Source} (h : s.drainAll cfg = some s') :
    ∃ q s1, s.drain s.vecQ = some (q, s1) ∧
      ((q ≠ [] ∧ s' = Source.restart cfg { s1 with vecQ := q }) ∨
       (q = [] ∧ ∃ q' s3, ({ s1 with vecQ := [] } : Source).drain s1.zmqQ = some (q', s3) ∧
        (s' = Source.restart cfg { s3 with zmqQ := q' } ∨
          (q' = [] ∧ s' = { s3 with zmqQ := [] } ∧ isFull s3.limiter = true)))) := by
  unfold Source.drainAll at h
  simp only [Option.bind_eq_bind, Option.bind_eq_some_iff] at h
  obtain ⟨⟨q, s1⟩, h1, h2⟩ := h
  refine ⟨q, s1, h1, ?_⟩
  by_cases hq : q = []
  · right
    subst hq
    simp only [ne_eq, not_true, if_false, Option.bind_eq_some_iff] at h2
    obtain ⟨⟨q', s3⟩, h3, h4⟩ := h2
    refine ⟨rfl, q', s3, h3, ?_⟩
    by_cases hq' : q' = []
    · subst hq'
      simp only [not_true, if_false] at h4
      split at h4
      · rename_i hf
        exact .inr ⟨rfl, (Option.some.inj h4).symm, hf⟩
      · exact .inl (Option.some.inj h4).symm
    · simp only [hq', not_false_iff, if_true] at h4
      exact .inl (Option.some.inj h4).symm
  · left
    simp only [ne_eq, hq, not_false_iff, if_true, Option.some.injEq] at h2
    exact ⟨hq, h2.symm⟩

/-! ### Accounting -/

/-- The entry of a bundle in the ring. -/
def entry (p : Pkt) : Nat × Nat := (p.bytes.length, p.tag)

/-- Of the bundles taken, `good` were sent and `lost` failed; the others are pending. -/
structure Inv (zmq : Bool) (all : List Pkt) (s : Source) (good lost : List Pkt) : Prop where
  whole : all = good ++ lost ++ pending s
  kinds : ∀ p ∈ all, p.zmq = zmq
  other : if zmq then s.vecQ = [] else s.zmqQ = []
  notes : s.notes = good.map (fun p => .sent p.tag)
  wire : s.wire = good.map (·.bytes)
  good : s.ready = true ∨ s.opened = false → lost = [] ∧ s.toAck = (pending s).map entry
  opened : s.ready = true → s.opened = true
  start : s.opened = false → all = []

def Accounted (zmq : Bool) (all : List Pkt) (s : Source) : Prop := ∃ good lost, Inv zmq all s good lost

theorem Inv.congr {zmq : Bool} {all good lost : List Pkt} {s s' : Source} (h : Inv zmq all s good lost)
    (h1 : pending s' = pending s) (h2 : if zmq then s'.vecQ = [] else s'.zmqQ = [])
    (h3 : s'.notes = s.notes) (h4 : s'.wire = s.wire) (h5 : s'.ready = s.ready)
    (h6 : s'.opened = s.opened) (h7 : s'.toAck = s.toAck) : Inv zmq all s' good lost :=
  ⟨by rw [h1]; exact h.whole, h.kinds, h2, by rw [h3]; exact h.notes, by rw [h4]; exact h.wire,
    by rw [h1, h5, h6, h7]; exact h.good, by rw [h5, h6]; exact h.opened, by rw [h6]; exact h.start⟩

/-- What one event takes. -/
theorem taken_single (cfg : Cfg) (s : Source) (e : Event) : taken cfg s [e] =
    match e with
      | .forward p => if (s.forward cfg p).2 then [p] else []
      | _ => [] := by
  unfold taken
  generalize s.step cfg e = o
  cases o with
  | none => exact List.append_nil _
  | some s' => exact List.append_nil _

theorem setRate_eq {cfg : Cfg} {s s' : Source} {r : Nat} (h : s.setRate cfg r = some s') :
    ∃ l, s' = { s with rate := r, limiter := l } := by
  unfold Source.setRate at h
  cases hl : TokenBucket.setRate ((r / 8 : Nat) : Int) second cfg.window with
  | none => rw [hl] at h; cases h
  | some l => rw [hl] at h; exact ⟨l, (Option.some.inj h).symm⟩

theorem step_inv {cfg : Cfg} {zmq : Bool} {all : List Pkt} {s s' : Source} (e : Event)
    (he : ∀ p, e = .forward p → p.zmq = zmq) (h : Accounted zmq all s)
    (hs : s.step cfg e = some s') : Accounted zmq (all ++ taken cfg s [e]) s' := by
  obtain ⟨good, lost, h⟩ := h
  have hnil : ∀ {e : Event}, (∀ p, e ≠ .forward p) → taken cfg s [e] = [] := by
    intro e hne
    rw [taken_single]
    cases e with
    | forward p => exact absurd rfl (hne p)
    | _ => rfl
  cases e with
  | setRate r =>
    rw [hnil (by simp), List.append_nil]
    obtain ⟨l, rfl⟩ := setRate_eq hs
    exact ⟨good, lost, h.congr rfl h.other rfl rfl rfl rfl rfl⟩
  | resolved =>
    rw [hnil (by simp), List.append_nil]
    simp only [Source.step, Option.some.injEq] at hs
    subst hs
    refine ⟨good, lost, ?_⟩
    unfold Source.resolved
    split
    · exact h
    · rename_i ho
      refine ⟨h.whole, h.kinds, h.other, h.notes, h.wire, fun _ => h.good (.inr (by simpa using ho)),
        fun _ => rfl, fun hf => by cases hf⟩
  | forward p =>
    have hk := he p rfl
    simp only [Source.step, Option.some.injEq] at hs
    subst hs
    rw [taken_single]
    simp only
    by_cases hf : (s.forward cfg p).2 = true
    · rw [if_pos hf]
      unfold Source.forward at hf ⊢
      split at hf
      · cases hf
      · rename_i h1
        split at hf
        · cases hf
        · rename_i h2
          rw [if_neg h1, if_neg h2]
          have hr : s.ready = true := by simpa using h1
          obtain ⟨hl, ha⟩ := h.good (.inl hr)
          refine ⟨good, lost, ?_, ?_, h.other, h.notes, h.wire, fun _ => ⟨hl, ?_⟩, h.opened, ?_⟩
          · rw [h.whole]; simp [pending]
          · intro x hx
            rcases List.mem_append.mp hx with hx | hx
            · exact h.kinds x hx
            · rw [List.mem_singleton.mp hx]; exact hk
          · simp only [ha, pending, entry, List.map_append, List.append_assoc]
            rfl
          · intro hf
            rw [h.opened hr] at hf; cases hf
    · rw [if_neg hf]
      simp only [List.append_nil]
      refine ⟨good, lost, ?_⟩
      unfold Source.forward at hf ⊢
      split
      · exact h
      · rename_i h1
        split
        · exact h
        · rename_i h2
          rw [if_neg h1, if_neg h2] at hf
          exact absurd rfl hf
  | runPost =>
    rw [hnil (by simp), List.append_nil]
    simp only [Source.step] at hs
    rcases runPost_cases hs with ⟨_, rfl⟩ | ⟨p, rest, q, s2, hp, h1, h2⟩
    · exact ⟨good, lost, h⟩
    · obtain ⟨pre, hq, hsent⟩ := sendFront_sent h1
      have hk : p.zmq = zmq := h.kinds p (by rw [h.whole]; simp [pending, hp])
      rw [restart_eq, hk] at h2
      rw [hk] at hq
      refine ⟨good, lost, ?_⟩
      have ho := h.other
      cases zmq with
      | true =>
        simp only [if_true] at hq h2 ho
        rw [hsent] at h2
        rw [h2]
        refine h.congr ?_ ho rfl rfl rfl rfl rfl
        simp only [pending, hp, ho]
        simp only [List.append_nil, List.append_assoc]
        rw [← List.append_assoc pre, ← hq]
        simp
      | false =>
        simp only [Bool.false_eq_true, if_false] at hq h2 ho
        rw [hsent] at h2
        rw [h2]
        refine h.congr ?_ ho rfl rfl rfl rfl rfl
        simp only [pending, hp, ho]
        simp only [List.append_nil, List.append_assoc]
        rw [← List.append_assoc pre, ← hq]
        simp
  | expire =>
    rw [hnil (by simp), List.append_nil]
    simp only [Source.step, Source.expire] at hs
    split at hs
    · rename_i due t ht hl
      split at hs
      · rw [← Option.some.inj hs]; exact ⟨good, lost, h⟩
      · simp only [Option.bind_eq_bind, Option.bind_eq_some_iff] at hs
        obtain ⟨l, _, hs⟩ := hs
        have h0 : Inv zmq all (s.refreshed l) good lost := h.congr rfl h.other rfl rfl rfl rfl rfl
        clear h
        generalize s.refreshed l = s0 at hs h0
        obtain ⟨q, s1, h1, h2⟩ := drainAll_cases hs
        obtain ⟨pre, hq, hsent⟩ := drain_sent h1
        have ho := h0.other
        refine ⟨good, lost, ?_⟩
        rcases h2 with ⟨hne, h2⟩ | ⟨rfl, q', s3, h3, h4⟩
        · rw [restart_eq, hsent] at h2
          cases zmq with
          | true =>
            simp only [if_true] at ho
            rw [ho] at hq
            have := List.append_eq_nil_iff.mp hq.symm
            exact absurd this.2 hne
          | false =>
            simp only [Bool.false_eq_true, if_false] at ho
            rw [h2]
            refine h0.congr ?_ ho rfl rfl rfl rfl rfl
            simp only [pending, hq, List.append_assoc]
        · obtain ⟨pre', hq', hsent'⟩ := drain_sent h3
          rw [List.append_nil] at hq
          have hz1 : s1.zmqQ = s0.zmqQ := by rw [hsent]
          rw [hz1] at hq'
          have key : ∀ t l, Inv zmq all { s3 with zmqQ := q', timer := t, last := l } good lost := by
            intro t l
            have e : { s3 with zmqQ := q', timer := t, last := l } =
                ({ s0 with
                    limiter := s3.limiter, flight := s0.flight ++ pre ++ pre', log := s3.log
                    vecQ := [], zmqQ := q', timer := t, last := l } : Source) := by
              rw [hsent', hsent]
            rw [e]
            cases zmq with
            | true =>
              simp only [if_true] at ho
              refine h0.congr ?_ rfl rfl rfl rfl rfl rfl
              rw [ho] at hq
              simp only [pending, ho, ← hq, hq', List.append_assoc, List.nil_append]
            | false =>
              simp only [Bool.false_eq_true, if_false] at ho
              rw [ho] at hq'
              have hnn := List.append_eq_nil_iff.mp hq'.symm
              refine h0.congr ?_ hnn.2 rfl rfl rfl rfl rfl
              simp only [pending, ho, hq, hnn.1, hnn.2, List.append_assoc, List.append_nil,
                List.nil_append]
          rcases h4 with h4 | ⟨hq0, h4, _⟩
          · rw [restart_eq] at h4
            rw [h4]
            exact key _ _
          · have := key s3.timer s3.last
            rw [h4, ← hq0]
            exact this
    · rw [← Option.some.inj hs]; exact ⟨good, lost, h⟩
  | done =>
    rw [hnil (by simp), List.append_nil]
    simp only [Source.step, Option.some.injEq] at hs
    subst hs
    split
    · rename_i hr
      obtain ⟨hl, ha⟩ := h.good (.inl hr)
      unfold Source.done
      split
      · exact ⟨good, lost, h⟩
      · rename_i p rest hf
        have hta : s.toAck = entry p :: (rest ++ s.vecQ ++ s.zmqQ ++ s.posted).map entry := by
          rw [ha]; simp [pending, hf]
        simp only [Source.processSent, hta, entry, if_true]
        refine ⟨good ++ [p], [], ?_, h.kinds, h.other, ?_, ?_, fun _ => ⟨rfl, ?_⟩, h.opened,
          h.start⟩
        · rw [h.whole, hl]; simp [pending, hf]
        · simp [h.notes]
        · simp [h.wire]
        · rfl
    · exact ⟨good, lost, h⟩
  | fails =>
    rw [hnil (by simp), List.append_nil]
    simp only [Source.step, Option.some.injEq] at hs
    subst hs
    unfold Source.fails
    split
    · exact ⟨good, lost, h⟩
    · rename_i p rest hf
      refine ⟨good, lost ++ [p], ?_, h.kinds, h.other, h.notes, h.wire, ?_, fun hf => (by cases hf), h.start⟩
      · rw [h.whole]; simp [pending, hf]
      · rintro (hr | ho)
        · cases hr
        · have := h.start ho
          rw [h.whole] at this
          simp [pending, hf] at this
  | passes d =>
    rw [hnil (by simp), List.append_nil]
    simp only [Source.step, Option.some.injEq] at hs
    subst hs
    exact ⟨good, lost, h.congr rfl h.other rfl rfl rfl rfl rfl⟩

theorem taken_cons {cfg : Cfg} {s s' : Source} {e : Event} (es : List Event)
    (h : s.step cfg e = some s') : taken cfg s (e :: es) = taken cfg s [e] ++ taken cfg s' es := by
  simp only [taken, h, List.append_nil]

theorem run_inv {cfg : Cfg} {zmq : Bool} (es : List Event) : ∀ {all : List Pkt} {s s' : Source},
    OneKind zmq es → Accounted zmq all s → s.run cfg es = some s' →
    Accounted zmq (all ++ taken cfg s es) s' := by
  induction es with
  | nil =>
    intro all s s' _ h hs
    rw [← Option.some.inj hs, show taken cfg s [] = [] from rfl, List.append_nil]
    exact h
  | cons e es ih =>
    intro all s s' hk h hs
    simp only [Source.run, Option.bind_eq_bind, Option.bind_eq_some_iff] at hs
    obtain ⟨s1, h1, h2⟩ := hs
    rw [taken_cons es h1, ← List.append_assoc]
    exact ih (fun p hp => hk p (List.mem_cons_of_mem _ hp))
      (step_inv e (fun p hp => hk p (by rw [hp]; exact List.mem_cons_self ..)) h h1) h2

theorem init_inv (zmq : Bool) : Accounted zmq [] Source.init :=
  ⟨[], [], rfl, by simp, by cases zmq <;> rfl, rfl, rfl, fun _ => ⟨rfl, rfl⟩, fun h => (by cases h),
    fun _ => rfl⟩

end Hdtn.Udp
