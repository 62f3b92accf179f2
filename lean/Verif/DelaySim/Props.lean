import Verif.DelaySim.Lemmas

/-!
Properties C144 to C146: the simulator of a delayed link.
-/

namespace Hdtn.DelaySim

open Spec Hdtn.CircularIndex

/-- A history for examples: two packets, the second one five later; both are sent. -/
private def hist : List Ev :=
  [.receive [1, 2, 3] false, .clock 5, .receive [4] false, .clock 5, .expired, .handleSend true, .clock 5, .expired, .handleSend true]

/-- C144: packets are sent as they arrived, in the order in which they were accepted, each once, and none before the delay is over. (With fewer than two places in the ring
no packet is ever accepted.) -/
theorem C144_delayed (c : Cfg) (es : List Ev) (h2 : 2 ≤ c.vectors) (h32 : c.vectors < 2 ^ 32) :
    List.Forall₂ (Delayed c.delay) ((accepted c (Sim.start c) 0 es).take ((Sim.start c).run c es).sent.length) ((Sim.start c).run c es).sent :=
  (inv_of h2 h32 es).sent

example : ((Sim.start ⟨3, 10, 10, 0, 0⟩).run ⟨3, 10, 10, 0, 0⟩ hist).sent = [(10, [1, 2, 3]), (15, [4])] ∧
    accepted ⟨3, 10, 10, 0, 0⟩ (Sim.start ⟨3, 10, 10, 0, 0⟩) 0 hist = [(0, [1, 2, 3]), (5, [4])] := by
  decide +kernel

theorem step_now (c : Cfg) (s : Sim) (e : Ev) : (s.step c e).now = match e with
    | .clock d => s.now + d
    | _ => s.now := by
  cases e with
  | clock d => rfl
  | receive p drop =>
    simp only [Sim.step]
    split
    · rfl
    · unfold Sim.receive Sim.queue
      simp only
      split <;> split <;> first | rfl | skip
      all_goals (split <;> first | rfl | skip)
      all_goals (split <;> first | rfl | exact (restart_now _).1)
  | expired => simp only [Sim.step]; unfold Sim.expired; split <;> first | rfl | (split <;> first | rfl | (split <;> rfl))
  | handleSend ok =>
    simp only [Sim.step]
    split
    · rfl
    · unfold Sim.handleSend
      split
      · rfl
      · split
        · exact (restart_now _).1
        · rfl
  | losExpired => simp only [Sim.step]; unfold Sim.losExpired; split <;> first | rfl | (split <;> first | rfl | (split <;> rfl))
  | error => rfl

/-- C144: only packets that arrived are accepted, in the same order. -/
theorem C144_accepted (c : Cfg) (es : List Ev) : (accepted c (Sim.start c) 0 es).Sublist (received c.maxPacket 0 es) := by
  suffices h : ∀ (s : Sim) (n : Nat), (accepted c s n es).Sublist (received c.maxPacket s.now es) from h _ _
  induction es with
  | nil => intro s n; exact List.Sublist.refl _
  | cons e es ih =>
    intro s n
    have hn := step_now c s e
    cases e with
    | receive p drop =>
      simp only at hn
      have h := ih (s.step c (.receive p drop))
      rw [hn] at h
      simp only [accepted, received]
      cases drop with
      | true => simpa using h n
      | false =>
        simp only [Bool.false_eq_true, if_false]
        split
        · exact (h (n + 1)).cons_cons _
        · exact (h n).cons _
    | clock d => have h := ih (s.step c (.clock d)) n; rw [hn] at h; exact h
    | expired => exact (show _ = s.now from hn) ▸ ih (s.step c .expired) n
    | handleSend ok => exact (show _ = s.now from hn) ▸ ih (s.step c (.handleSend ok)) n
    | losExpired => exact (show _ = s.now from hn) ▸ ih (s.step c .losExpired) n
    | error => exact (show _ = s.now from hn) ▸ ih (s.step c .error) n

/-- What holds of the timer for loss of signal; `fa` is when the first packet arrived. -/
structure Los (c : Cfg) (s : Sim) (fa : Option Nat) : Prop where
  none : s.losStarts = 0 → s.los = false ∧ s.losTimer = none
  zero : c.losStart = 0 → s.losStarts = 0
  first : c.losStart ≠ 0 → s.losStarts = 0 → s.closed = false → fa = .none
  begins : ∀ t, s.losTimer = some (t, true) → s.los = false ∧ ∃ t0, fa = some t0 ∧ t = t0 + c.losStart
  ends : ∀ t, s.losTimer = some (t, false) → s.los = true ∧ ∃ t0, fa = some t0 ∧ t0 + c.losStart + c.losDuration ≤ t
  los : s.los = true → ∃ t0, fa = some t0 ∧ t0 + c.losStart ≤ s.now
  waits : s.los = true → s.closed = false → ∃ t, s.losTimer = some (t, false)
  over : s.losStarts ≠ 0 → s.losTimer = .none → s.los = false → s.closed = false → ∃ t0, fa = some t0 ∧ t0 + c.losStart + c.losDuration ≤ s.now

/-- The loss of signal is over. -/
def Over (c : Cfg) (s : Sim) (fa : Option Nat) : Prop :=
  s.los = false ∧ s.losTimer = none ∧ s.losStarts ≠ 0 ∧ ∃ t0, fa = some t0 ∧ t0 + c.losStart + c.losDuration ≤ s.now

/-- The first arrival after one more event. -/
def arrive (fa : Option Nat) (now : Nat) : Ev → Option Nat
  | .receive _ _ => fa.or (some now)
  | _ => fa

theorem queue_same (c : Cfg) (s : Sim) (n : Nat) : (s.queue c n).now = s.now ∧ (s.queue c n).los = s.los ∧ (s.queue c n).losTimer = s.losTimer ∧
    (s.queue c n).losStarts = s.losStarts ∧ (s.queue c n).closed = s.closed ∧ (s.queue c n).sent = s.sent := by
  unfold Sim.queue
  split
  · exact ⟨rfl, rfl, rfl, rfl, rfl, rfl⟩
  · rename_i i _
    have h := restart_now { s with
      buffer := (s.slots i).buffer
      slots := fun j => if j = i then ⟨s.buffer, n, s.now + c.delay⟩ else s.slots j
      last := wrapInc c.vectors s.last }
    exact ⟨h.1, h.2.1, h.2.2.1, h.2.2.2.1, h.2.2.2.2.1, h.2.2.2.2.2.2⟩

theorem receive_same (c : Cfg) (s : Sim) (p : Bytes) (drop : Bool) : (s.receive c p drop).now = s.now ∧ (s.receive c p drop).los = s.los ∧
    (s.receive c p drop).closed = s.closed ∧ (s.receive c p drop).sent = s.sent ∧
    (s.receive c p drop).losTimer = (if c.losStart ≠ 0 ∧ s.losStarts = 0 then some (s.now + c.losStart, true) else s.losTimer) ∧
    (s.receive c p drop).losStarts = (if c.losStart ≠ 0 ∧ s.losStarts = 0 then s.losStarts + 1 else s.losStarts) := by
  unfold Sim.receive
  simp only
  by_cases hc : c.losStart ≠ 0 ∧ s.losStarts = 0
  · simp only [if_pos hc]
    split
    · exact ⟨rfl, rfl, rfl, rfl, rfl, rfl⟩
    · split
      · exact ⟨rfl, rfl, rfl, rfl, rfl, rfl⟩
      · obtain ⟨a, b, d, e, f, g⟩ := queue_same c { s with
          buffer := p.take s.buffer.length ++ s.buffer.drop (p.take s.buffer.length).length
          losStarts := s.losStarts + 1
          losTimer := some (s.now + c.losStart, true) } (p.take s.buffer.length).length
        exact ⟨a, b, f, g, d, e⟩
  · simp only [if_neg hc]
    split
    · exact ⟨rfl, rfl, rfl, rfl, rfl, rfl⟩
    · split
      · exact ⟨rfl, rfl, rfl, rfl, rfl, rfl⟩
      · obtain ⟨a, b, d, e, f, g⟩ := queue_same c { s with
          buffer := p.take s.buffer.length ++ s.buffer.drop (p.take s.buffer.length).length } (p.take s.buffer.length).length
        exact ⟨a, b, f, g, d, e⟩

theorem expired_same (s : Sim) : s.expired.now = s.now ∧ s.expired.los = s.los ∧ s.expired.losTimer = s.losTimer ∧ s.expired.losStarts = s.losStarts ∧
    s.expired.closed = s.closed := by
  unfold Sim.expired
  split
  · exact ⟨rfl, rfl, rfl, rfl, rfl⟩
  · split <;> exact ⟨rfl, rfl, rfl, rfl, rfl⟩

theorem handleSend_same (c : Cfg) (s : Sim) (ok : Bool) : (s.handleSend c ok).now = s.now ∧ (s.handleSend c ok).los = s.los ∧
    (s.handleSend c ok).losStarts = s.losStarts ∧
    (((s.handleSend c ok).losTimer = s.losTimer ∧ (s.handleSend c ok).closed = s.closed) ∨
      ((s.handleSend c ok).losTimer = none ∧ (s.handleSend c ok).closed = true)) := by
  unfold Sim.handleSend
  split
  · exact ⟨rfl, rfl, rfl, .inl ⟨rfl, rfl⟩⟩
  · split
    · rename_i i _ _
      have h := restart_now { s with
        sending := none
        sent := s.sent ++ [(s.now, (s.slots i).buffer.take (s.slots i).bytes)]
        running := false
        first := wrapInc c.vectors s.first }
      exact ⟨h.1, h.2.1, h.2.2.2.1, .inl ⟨h.2.2.1, h.2.2.2.2.1⟩⟩
    · exact ⟨rfl, rfl, rfl, .inr ⟨rfl, rfl⟩⟩

/-- A step that leaves the loss of signal as it is. -/
theorem los_same {c : Cfg} {s s' : Sim} {fa : Option Nat} (h : Los c s fa) (h1 : s.now ≤ s'.now) (h2 : s'.los = s.los) (h3 : s'.losStarts = s.losStarts)
    (h4 : (s'.losTimer = s.losTimer ∧ s'.closed = s.closed) ∨ (s'.losTimer = none ∧ s'.closed = true)) : Los c s' fa := by
  refine ⟨?_, ?_, ?_, ?_, ?_, ?_, ?_, ?_⟩
  · intro hs
    rw [h3] at hs
    refine ⟨by rw [h2]; exact (h.none hs).1, ?_⟩
    rcases h4 with h4 | h4
    · rw [h4.1]; exact (h.none hs).2
    · exact h4.1
  · rw [h3]; exact h.zero
  · rw [h3]
    intro a b d
    rcases h4 with h4 | h4
    · exact h.first a b (by rw [← h4.2]; exact d)
    · rw [h4.2] at d; exact nomatch d
  · intro t ht
    rcases h4 with h4 | h4
    · rw [h2]; rw [h4.1] at ht; exact h.begins t ht
    · rw [h4.1] at ht; exact nomatch ht
  · intro t ht
    rcases h4 with h4 | h4
    · rw [h2]; rw [h4.1] at ht; exact h.ends t ht
    · rw [h4.1] at ht; exact nomatch ht
  · intro hl
    rw [h2] at hl
    obtain ⟨t0, a, b⟩ := h.los hl
    exact ⟨t0, a, by omega⟩
  · intro hl hc
    rw [h2] at hl
    rcases h4 with h4 | h4
    · rw [h4.1]; exact h.waits hl (by rw [← h4.2]; exact hc)
    · rw [h4.2] at hc; exact nomatch hc
  · intro a b d e
    rcases h4 with h4 | h4
    · obtain ⟨t0, x, y⟩ := h.over (by rw [← h3]; exact a) (by rw [← h4.1]; exact b) (by rw [← h2]; exact d) (by rw [← h4.2]; exact e)
      exact ⟨t0, x, by omega⟩
    · rw [h4.2] at e; exact nomatch e

theorem los_more {c : Cfg} {s : Sim} {fa : Option Nat} (h : Los c s fa) (hs : s.losStarts ≠ 0 ∨ c.losStart = 0 ∨ s.closed = true) (x : Nat) :
    Los c s (fa.or (some x)) := by
  have hor : ∀ t0, fa = some t0 → fa.or (some x) = some t0 := by intro t0 h; rw [h]; rfl
  refine ⟨h.none, h.zero, ?_, ?_, ?_, ?_, h.waits, ?_⟩
  · intro a b d
    rcases hs with hs | hs | hs
    · exact absurd b hs
    · exact absurd hs a
    · rw [hs] at d; exact nomatch d
  · intro t ht
    obtain ⟨a, t0, b, d⟩ := h.begins t ht
    exact ⟨a, t0, hor _ b, d⟩
  · intro t ht
    obtain ⟨a, t0, b, d⟩ := h.ends t ht
    exact ⟨a, t0, hor _ b, d⟩
  · intro hl
    obtain ⟨t0, b, d⟩ := h.los hl
    exact ⟨t0, hor _ b, d⟩
  · intro a b d e
    obtain ⟨t0, x, y⟩ := h.over a b d e
    exact ⟨t0, hor _ x, y⟩

theorem los_step {c : Cfg} {s : Sim} {fa : Option Nat} (h : Los c s fa) (e : Ev) : Los c (s.step c e) (arrive fa s.now e) := by
  cases e with
  | clock d => exact los_same h (Nat.le_add_right _ _) rfl rfl (.inl ⟨rfl, rfl⟩)
  | error => exact los_same h (Nat.le_refl _) rfl rfl (.inr ⟨rfl, rfl⟩)
  | expired =>
    simp only [Sim.step]
    split
    · exact h
    · obtain ⟨a, b, d, e, f⟩ := expired_same s
      exact los_same h (Nat.le_of_eq a.symm) b e (.inl ⟨d, f⟩)
  | handleSend ok =>
    simp only [Sim.step]
    split
    · exact h
    · obtain ⟨a, b, d, e⟩ := handleSend_same c s ok
      exact los_same h (Nat.le_of_eq a.symm) b d e
  | losExpired =>
    simp only [Sim.step]
    split
    · exact h
    · rename_i hopen
      unfold Sim.losExpired
      split
      · exact h
      · rename_i t b ht
        split
        · rename_i hle
          have hns : s.losStarts ≠ 0 := fun h0 => by rw [(h.none h0).2] at ht; exact nomatch ht
          cases b with
          | true =>
            obtain ⟨_, t0, a1, a2⟩ := h.begins t ht
            refine ⟨fun h0 => absurd h0 hns, h.zero, fun _ h0 => absurd h0 hns, ?_, ?_, ?_, ?_, ?_⟩
            · intro t' ht'; simp at ht'
            · intro t' ht'
              simp only [if_true, Option.some.injEq, Prod.mk.injEq, and_true] at ht'
              exact ⟨rfl, t0, a1, by omega⟩
            · intro _; exact ⟨t0, a1, by show _ ≤ s.now; omega⟩
            · intro _ _; exact ⟨_, rfl⟩
            · intro _ _ hf; exact nomatch hf
          | false =>
            obtain ⟨_, t0, a1, a2⟩ := h.ends t ht
            refine ⟨fun h0 => absurd h0 hns, h.zero, fun _ h0 => absurd h0 hns, ?_, ?_, ?_, ?_, ?_⟩
            · intro t' ht'; simp at ht'
            · intro t' ht'; simp at ht'
            · intro hf; exact nomatch hf
            · intro hf; exact nomatch hf
            · intro _ _ _ _; exact ⟨t0, a1, by show _ ≤ s.now; omega⟩
        · exact h
  | receive p drop =>
    simp only [Sim.step, arrive]
    cases hc : s.closed with
    | true => exact los_more h (.inr (.inr hc)) _
    | false =>
      simp only [Bool.false_eq_true, if_false]
      obtain ⟨a, b, d, _, e, f⟩ := receive_same c s p drop
      by_cases hx : c.losStart ≠ 0 ∧ s.losStarts = 0
      · rw [if_pos hx] at e f
        have hfa := h.first hx.1 hx.2 hc
        subst hfa
        have hl := (h.none hx.2).1
        refine ⟨fun h0 => by rw [f] at h0; omega, fun h0 => absurd h0 hx.1, fun _ h0 => by rw [f] at h0; omega, ?_, ?_, ?_, ?_, ?_⟩
        · intro t ht
          rw [e, Option.some.injEq, Prod.mk.injEq] at ht
          exact ⟨by rw [b]; exact hl, s.now, rfl, ht.1.symm⟩
        · intro t ht; rw [e, Option.some.injEq, Prod.mk.injEq] at ht; exact nomatch ht.2
        · intro hh; rw [b, hl] at hh; exact nomatch hh
        · intro hh; rw [b, hl] at hh; exact nomatch hh
        · intro _ hh; rw [e] at hh; exact nomatch hh
      · rw [if_neg hx] at e f
        refine los_same (los_more h ?_ _) (Nat.le_of_eq a.symm) b f (.inl ⟨e, d⟩)
        by_cases h0 : c.losStart = 0
        · exact .inr (.inl h0)
        · exact .inl (fun h1 => hx ⟨h0, h1⟩)

theorem arrive_run (c : Cfg) (es : List Ev) : ∀ (s : Sim) (fa : Option Nat), Los c s fa → Los c (s.run c es) (fa.or (firstArrival s.now es)) := by
  induction es with
  | nil => intro s fa h; simpa [firstArrival, Sim.run] using h
  | cons e es ih =>
    intro s fa h
    have h1 := ih _ _ (los_step h e)
    have hn := step_now c s e
    have e1 : (arrive fa s.now e).or (firstArrival (s.step c e).now es) = fa.or (firstArrival s.now (e :: es)) := by
      rw [hn]
      cases e with
      | receive p drop => cases fa <;> rfl
      | _ => rfl
    rw [e1] at h1
    exact h1

theorem los_start (c : Cfg) : Los c (Sim.start c) none := by
  constructor <;> simp [Sim.start]

theorem los_of (c : Cfg) (es : List Ev) : Los c ((Sim.start c).run c es) (firstArrival 0 es) := by
  have := arrive_run c es (Sim.start c) none (los_start c)
  rw [Option.none_or] at this
  exact this

theorem over_step {c : Cfg} {s : Sim} {fa : Option Nat} (h : Over c s fa) (e : Ev) : Over c (s.step c e) (arrive fa s.now e) := by
  obtain ⟨h1, h2, h3, t0, h4, h5⟩ := h
  subst h4
  have hn : s.now ≤ (s.step c e).now := by rw [step_now]; cases e <;> simp
  have e1 : arrive (some t0) s.now e = some t0 := by cases e <;> rfl
  rw [e1]
  refine ⟨?_, ?_, ?_, t0, rfl, by omega⟩ <;> cases e <;> simp only [Sim.step, Sim.shutdown] <;> try (first | exact h1 | exact h2 | exact h3)
  all_goals (split <;> first | exact h1 | exact h2 | exact h3 | skip)
  · rw [(receive_same c s _ _).2.1]; exact h1
  · rw [(expired_same s).2.1]; exact h1
  · rw [(handleSend_same c s _).2.1]; exact h1
  · simp only [Sim.losExpired, h2]; exact h1
  · rw [(receive_same c s _ _).2.2.2.2.1, if_neg (fun hh => h3 hh.2)]; exact h2
  · rw [(expired_same s).2.2.1]; exact h2
  · rcases (handleSend_same c s _).2.2.2 with hh | hh
    · rw [hh.1]; exact h2
    · exact hh.1
  · simp only [Sim.losExpired, h2]
  · rw [(receive_same c s _ _).2.2.2.2.2, if_neg (fun hh => h3 hh.2)]; exact h3
  · rw [(expired_same s).2.2.2.1]; exact h3
  · rw [(handleSend_same c s _).2.2.1]; exact h3
  · simp only [Sim.losExpired, h2]; exact h3

theorem lost_step {c : Cfg} {s : Sim} {fa : Option Nat} (hl : Los c s fa) (h : s.los = true) (e : Ev) :
    (s.step c e).los = true ∨ Over c (s.step c e) (arrive fa s.now e) := by
  cases e with
  | clock d => exact .inl h
  | error => exact .inl h
  | expired =>
    simp only [Sim.step]
    split
    · exact .inl h
    · left; rw [(expired_same s).2.1]; exact h
  | handleSend ok =>
    simp only [Sim.step]
    split
    · exact .inl h
    · left; rw [(handleSend_same c s ok).2.1]; exact h
  | receive p drop =>
    simp only [Sim.step]
    split
    · exact .inl h
    · left; rw [(receive_same c s p drop).2.1]; exact h
  | losExpired =>
    simp only [Sim.step]
    split
    · exact .inl h
    · unfold Sim.losExpired
      split
      · exact .inl h
      · rename_i t b ht
        split
        · rename_i hle
          cases b with
          | true => exact .inl rfl
          | false =>
            obtain ⟨_, t0, a1, a2⟩ := hl.ends t ht
            right
            refine ⟨rfl, rfl, ?_, t0, a1, by show _ ≤ s.now; omega⟩
            intro h0
            have := (hl.none h0).1
            rw [h] at this
            exact nomatch this
        · exact .inl h

theorem over_run (c : Cfg) (es : List Ev) : ∀ (s : Sim) (fa : Option Nat), Over c s fa → Over c (s.run c es) (fa.or (firstArrival s.now es)) := by
  induction es with
  | nil => intro s fa h; simpa [firstArrival, Sim.run] using h
  | cons e es ih =>
    intro s fa h
    have h1 := ih _ _ (over_step h e)
    have e1 : (arrive fa s.now e).or (firstArrival (s.step c e).now es) = fa.or (firstArrival s.now (e :: es)) := by
      rw [step_now]
      cases e with
      | receive p drop => cases fa <;> rfl
      | _ => rfl
    rw [e1] at h1
    exact h1

theorem lost_run (c : Cfg) (es : List Ev) : ∀ (s : Sim) (fa : Option Nat), Los c s fa → s.los = true →
    (s.run c es).los = true ∨ Over c (s.run c es) (fa.or (firstArrival s.now es)) := by
  induction es with
  | nil => intro s fa _ h; exact .inl h
  | cons e es ih =>
    intro s fa hl h
    have e1 : (arrive fa s.now e).or (firstArrival (s.step c e).now es) = fa.or (firstArrival s.now (e :: es)) := by
      rw [step_now]
      cases e with
      | receive p drop => cases fa <;> rfl
      | _ => rfl
    rcases lost_step hl h e with h1 | h1
    · have := ih _ _ (los_step hl e) h1
      rw [e1] at this
      exact this
    · have := over_run c es _ _ h1
      rw [e1] at this
      exact .inr this

theorem firstArrival_append (a b : List Ev) (t : Nat) (c : Cfg) (s : Sim) (h : s.now = t) :
    firstArrival t (a ++ b) = (firstArrival t a).or (firstArrival (s.run c a).now b) := by
  induction a generalizing s t with
  | nil => subst h; rfl
  | cons e a ih =>
    have hn := step_now c s e
    cases e with
    | receive p drop => rfl
    | clock d => exact ih (t + d) _ (by rw [hn]; simp [h])
    | _ => exact ih t _ (by rw [hn]; exact h)

/-- C145: the signal is not lost before the configured time after the arrival of the first packet. -/
theorem C145_not_before (c : Cfg) (es : List Ev) (h : ((Sim.start c).run c es).los = true) :
    ∃ t, firstArrival 0 es = some t ∧ t + c.losStart ≤ ((Sim.start c).run c es).now := (los_of c es).los h

/-- C145: it is lost from that time on, for the configured duration, if the timer ends in time. -/
theorem C145_begins (c : Cfg) (es : List Ev) (t : Nat) (hs : c.losStart ≠ 0) (ho : ((Sim.start c).run c es).closed = false) (hf : firstArrival 0 es = some t)
    (h1 : t + c.losStart ≤ ((Sim.start c).run c es).now) (h2 : ((Sim.start c).run c es).now < t + c.losStart + c.losDuration) :
    (((Sim.start c).run c es).step c .losExpired).los = true := by
  have h := los_of c es
  generalize (Sim.start c).run c es = s at *
  have hns : s.losStarts ≠ 0 := fun h0 => by rw [h.first hs h0 ho] at hf; exact nomatch hf
  simp only [Sim.step, ho, Bool.false_eq_true, if_false]
  unfold Sim.losExpired
  cases ht : s.losTimer with
  | none =>
    cases hl : s.los with
    | true => rfl
    | false =>
      obtain ⟨t0, a, b⟩ := h.over hns ht hl ho
      rw [hf] at a
      cases a
      omega
  | some x =>
    obtain ⟨t', b⟩ := x
    cases b with
    | true =>
      obtain ⟨_, t0, a, b⟩ := h.begins t' ht
      rw [hf] at a
      cases a
      simp only
      rw [if_pos (by omega)]
    | false =>
      obtain ⟨a1, t0, a, b⟩ := h.ends t' ht
      rw [hf] at a
      cases a
      simp only
      rw [if_neg (by omega)]
      exact a1

/-- C145: once it is lost it is back only after the configured duration, and it is never lost again. -/
theorem C145_once (c : Cfg) (es more rest : List Ev) (h1 : ((Sim.start c).run c es).los = true) (h2 : ((Sim.start c).run c (es ++ more)).los = false) :
    (∃ t, firstArrival 0 es = some t ∧ t + c.losStart + c.losDuration ≤ ((Sim.start c).run c (es ++ more)).now) ∧
    ((Sim.start c).run c (es ++ more ++ rest)).los = false := by
  have h := los_of c es
  have e1 : (Sim.start c).run c (es ++ more) = ((Sim.start c).run c es).run c more := List.foldl_append
  have e2 : (Sim.start c).run c (es ++ more ++ rest) = (((Sim.start c).run c es).run c more).run c rest := by
    unfold Sim.run; rw [List.foldl_append, List.foldl_append]
  rw [e1] at h2 ⊢
  rw [e2]
  rcases lost_run c more _ _ h h1 with h3 | h3
  · rw [h3] at h2; exact nomatch h2
  · obtain ⟨t, ht, _⟩ := h.los h1
    refine ⟨?_, (over_run c rest _ _ h3).1⟩
    obtain ⟨t0, a, b⟩ := h3.2.2.2
    rw [ht] at a
    cases a
    exact ⟨t, ht, b⟩

/-- C145: it comes back: while the socket is open and the signal is lost, there is a time from which on the end of the timer ends the loss. -/
theorem C145_back (c : Cfg) (es : List Ev) (ho : ((Sim.start c).run c es).closed = false) (h : ((Sim.start c).run c es).los = true) :
    ∃ d, ∀ d' ≥ d, ((Sim.start c).run c (es ++ [.clock d', .losExpired])).los = false := by
  obtain ⟨t, ht⟩ := (los_of c es).waits h ho
  refine ⟨t, fun d' hd => ?_⟩
  unfold Sim.run at *
  rw [List.foldl_append]
  generalize List.foldl _ _ es = s at *
  simp only [List.foldl, Sim.step, ho, Bool.false_eq_true, if_false, Sim.losExpired, ht]
  rw [if_pos (by omega)]

/-- A history for examples: the signal is lost from 3 to 5, and the second packet is not sent. -/
private def lost : List Ev := [.receive [1] false, .clock 3, .losExpired, .receive [2] false, .clock 2, .losExpired, .receive [3] false]

example : ((Sim.start ⟨3, 10, 1, 3, 2⟩).run ⟨3, 10, 1, 3, 2⟩ (lost.take 3)).los = true ∧ ((Sim.start ⟨3, 10, 1, 3, 2⟩).run ⟨3, 10, 1, 3, 2⟩ lost).los = false ∧
    ((Sim.start ⟨3, 10, 1, 3, 2⟩).run ⟨3, 10, 1, 3, 2⟩ (lost.take 2)).now = 3 ∧ firstArrival 0 (lost.take 2) = some 0 ∧
    accepted ⟨3, 10, 1, 3, 2⟩ (Sim.start ⟨3, 10, 1, 3, 2⟩) 0 lost = [(0, [1]), (5, [3])] := by
  decide +kernel

/-- C145: without a loss of signal in the configuration the signal is never lost. -/
theorem C145_never (c : Cfg) (es : List Ev) (h : c.losStart = 0) : ((Sim.start c).run c es).los = false :=
  ((los_of c es).none ((los_of c es).zero h)).1

theorem overruns_step {c : Cfg} {s : Sim} {kept : List (Nat × Bytes)} (h2 : 2 ≤ c.vectors) (h32 : c.vectors < 2 ^ 32) (h : Inv c s kept) (e : Ev) :
    s.overruns ≤ (s.step c e).overruns ∧ (s.closed = true → (s.step c e).closed = true) ∧
    ((s.step c e).overruns = s.overruns → (s.step c e).closed = false → s.los = false →
      accepted c s kept.length [e] = received c.maxPacket s.now [e]) := by
  cases e with
  | clock d => exact ⟨Nat.le_refl _, fun hc => hc, fun _ _ _ => rfl⟩
  | error => exact ⟨Nat.le_refl _, fun _ => rfl, fun _ _ _ => rfl⟩
  | expired =>
    refine ⟨?_, ?_, fun _ _ _ => rfl⟩
    · simp only [Sim.step]; split
      · exact Nat.le_refl _
      · unfold Sim.expired; split
        · exact Nat.le_refl _
        · split <;> exact Nat.le_refl _
    · intro hc; simp only [Sim.step, hc, if_true]
  | handleSend ok =>
    refine ⟨?_, ?_, fun _ _ _ => rfl⟩
    · simp only [Sim.step]; split
      · exact Nat.le_refl _
      · unfold Sim.handleSend; split
        · exact Nat.le_refl _
        · split
          · rename_i i _ _
            have hq := (restart_now { s with
              sending := none
              sent := s.sent ++ [(s.now, (s.slots i).buffer.take (s.slots i).bytes)]
              running := false
              first := wrapInc c.vectors s.first }).2.2.2.2.2.1
            exact Nat.le_of_eq hq.symm
          · exact Nat.le_refl _
    · intro hc; simp only [Sim.step, hc, if_true]
  | losExpired =>
    refine ⟨?_, ?_, fun _ _ _ => rfl⟩
    · simp only [Sim.step]; split
      · exact Nat.le_refl _
      · unfold Sim.losExpired; split
        · exact Nat.le_refl _
        · split <;> exact Nat.le_refl _
    · intro hc; simp only [Sim.step, hc, if_true]
  | receive p drop =>
    simp only [Sim.step]
    cases hc : s.closed with
    | true => exact ⟨Nat.le_refl _, fun _ => hc, fun _ hf => by simp only [if_true] at hf; rw [hc] at hf; exact nomatch hf⟩
    | false =>
      simp only [Bool.false_eq_true, if_false]
      have hq : ∀ s1 : Sim, s1.first = s.first → s1.last = s.last → ∀ n, (s1.queue c n).overruns
          = if kept.length - s.sent.length < c.vectors - 1 then s1.overruns else s1.overruns + 1 := by
        intro s1 e1 e2 n
        unfold Sim.queue
        rw [e1, e2, full_iff h2 h32 h]
        by_cases hl : kept.length - s.sent.length < c.vectors - 1
        · simp only [if_pos hl]; exact (restart_now _).2.2.2.2.2.1
        · simp only [if_neg hl]
      have hr : (s.receive c p drop).overruns = if drop = false ∧ s.los = false ∧ ¬ kept.length - s.sent.length < c.vectors - 1 then s.overruns + 1 else s.overruns := by
        unfold Sim.receive
        simp only
        cases drop with
        | true =>
          simp only [if_true]
          split <;> simp
        | false =>
          simp only [Bool.false_eq_true, if_false, true_and]
          by_cases hx : c.losStart ≠ 0 ∧ s.losStarts = 0
          · simp only [if_pos hx]
            cases hl : s.los with
            | true => simp
            | false =>
              simp only [Bool.false_eq_true, if_false, true_and]
              refine (hq _ ?_ ?_ _).trans ?_
              · rfl
              · rfl
              by_cases hk : kept.length - s.sent.length < c.vectors - 1
              · rw [if_pos hk, if_neg (fun hh => hh hk)]
              · rw [if_neg hk, if_pos hk]
          · simp only [if_neg hx]
            cases hl : s.los with
            | true => simp
            | false =>
              simp only [Bool.false_eq_true, if_false, true_and]
              refine (hq _ ?_ ?_ _).trans ?_
              · rfl
              · rfl
              by_cases hk : kept.length - s.sent.length < c.vectors - 1
              · rw [if_pos hk, if_neg (fun hh => hh hk)]
              · rw [if_neg hk, if_pos hk]
      refine ⟨?_, (fun hf => nomatch hf), ?_⟩
      · rw [hr]; split <;> omega
      · intro a _ hl
        rw [hr] at a
        simp only [accepted, received]
        cases drop with
        | true => simp
        | false =>
          by_cases hk : kept.length - s.sent.length < c.vectors - 1
          · rw [if_pos ⟨rfl, hc, hl, hk⟩]; simp
          · rw [if_pos ⟨rfl, hl, hk⟩] at a; omega

/-- C146: at most `vectors - 1` packets wait. Without loss of signal and as long as no overrun was counted and the socket is open, every packet that arrives is accepted. -/
theorem C146_capacity (c : Cfg) (es : List Ev) (h2 : 2 ≤ c.vectors) (h32 : c.vectors < 2 ^ 32) :
    ((Sim.start c).run c es).sent.length ≤ (accepted c (Sim.start c) 0 es).length ∧
    (accepted c (Sim.start c) 0 es).length ≤ ((Sim.start c).run c es).sent.length + (c.vectors - 1) ∧
    (c.losStart = 0 → ((Sim.start c).run c es).overruns = 0 → ((Sim.start c).run c es).closed = false →
      accepted c (Sim.start c) 0 es = received c.maxPacket 0 es) := by
  refine ⟨(inv_of h2 h32 es).le, (inv_of h2 h32 es).room, ?_⟩
  intro hlos hover hopen
  suffices h : ∀ (es : List Ev) (s : Sim) (kept : List (Nat × Bytes)) (fa : Option Nat), Inv c s kept → Los c s fa →
      (s.run c es).closed = false → s.overruns ≤ (s.run c es).overruns ∧ s.closed = false ∧ ((s.run c es).overruns = s.overruns →
        accepted c s kept.length es = received c.maxPacket s.now es) by
    have := (h es (Sim.start c) [] none (inv_start c) (los_start c) hopen).2.2
    exact this (by rw [hover]; rfl)
  intro es
  induction es with
  | nil => intro s kept fa _ _ hc; exact ⟨Nat.le_refl _, hc, fun _ => rfl⟩
  | cons e es ih =>
    intro s kept fa hi hl hc
    obtain ⟨a1, a2, a3⟩ := overruns_step h2 h32 hi e
    obtain ⟨b1, b2, b3⟩ := ih _ _ _ (inv_step h2 h32 hi e) (los_step hl e) hc
    have hrun : s.run c (e :: es) = (s.step c e).run c es := rfl
    rw [hrun] at *
    have hopen' : s.closed = false := by
      cases hx : s.closed with
      | false => rfl
      | true => rw [a2 hx] at b2; exact nomatch b2
    refine ⟨by omega, hopen', fun heq => ?_⟩
    have hnl : s.los = false := (hl.none (hl.zero hlos)).1
    have c1 := a3 (by omega) b2 hnl
    have c2 := b3 (by omega)
    rw [List.length_append] at c2
    rw [accepted_cons, c2, c1]
    have hn := step_now c s e
    rw [hn]
    cases e with
    | receive p drop => cases drop <;> simp [received]
    | _ => simp [received]

example : ((Sim.start ⟨3, 10, 10, 0, 0⟩).run ⟨3, 10, 10, 0, 0⟩ hist).overruns = 0 ∧ ((Sim.start ⟨3, 10, 10, 0, 0⟩).run ⟨3, 10, 10, 0, 0⟩ hist).closed = false ∧
    received 10 0 hist = [(0, [1, 2, 3]), (5, [4])] := by
  decide +kernel

/-- C146: a packet that waits is never forgotten: while the socket is open and packets wait, the first of them is being sent, or the timer runs and ends exactly when its
delay is over. -/
theorem C146_no_stall (c : Cfg) (es : List Ev) (h2 : 2 ≤ c.vectors) (h32 : c.vectors < 2 ^ 32) (ho : ((Sim.start c).run c es).closed = false)
    (x : Nat × Bytes) (hx : (accepted c (Sim.start c) 0 es)[((Sim.start c).run c es).sent.length]? = some x) :
    ((Sim.start c).run c es).sending ≠ none ∨ ∃ i, ((Sim.start c).run c es).timer = some (i, x.1 + c.delay) := by
  have h := inv_of h2 h32 es
  generalize (Sim.start c).run c es = s at *
  generalize accepted c (Sim.start c) 0 es = kept at *
  have hlt := (List.getElem?_eq_some_iff.mp hx).1
  cases hr : s.running with
  | false => have := h.stopped ho hr; omega
  | true =>
    rcases h.goes ho hr with hg | hg
    · right
      cases ht : s.timer with
      | none => exact absurd ht hg
      | some y =>
        obtain ⟨i, t⟩ := y
        obtain ⟨_, _, b, d, _⟩ := h.timer i t ht
        have e := (h.slots _ x (Nat.le_refl _) hx).2
        rw [d, b, e]
        exact ⟨_, rfl⟩
    · exact .inl hg

theorem received_zero (max : Nat) (es : List Ev) (t0 : Nat) {t : Nat} (h : received max t0 es = []) : received max t es = [] := by
  induction es generalizing t0 t with
  | nil => rfl
  | cons e es ih =>
    cases e with
    | receive p drop =>
      cases drop with
      | true => exact ih t0 h
      | false => exact nomatch h
    | clock d => exact ih _ h
    | _ => exact ih t0 h

theorem drain_one {c : Cfg} {s : Sim} {kept : List (Nat × Bytes)} (h2 : 2 ≤ c.vectors) (h32 : c.vectors < 2 ^ 32) (h : Inv c s kept) (ho : s.closed = false)
    (hlt : s.sent.length < kept.length) :
    ∃ more, (∀ t, received c.maxPacket t more = []) ∧ Inv c (s.run c more) kept ∧ (s.run c more).closed = false ∧ (s.run c more).sent.length = s.sent.length + 1 := by
  have hsend : ∀ s : Sim, Inv c s kept → s.closed = false → s.sending ≠ none → (s.step c (.handleSend true)).closed = false ∧
      (s.step c (.handleSend true)).sent.length = s.sent.length + 1 := by
    intro s _ ho hs
    simp only [Sim.step, ho, Bool.false_eq_true, if_false]
    unfold Sim.handleSend
    cases hh : s.sending with
    | none => exact absurd hh hs
    | some i =>
      simp only [if_true]
      have hq := restart_now { s with
        sending := none
        sent := s.sent ++ [(s.now, (s.slots i).buffer.take (s.slots i).bytes)]
        running := false
        first := wrapInc c.vectors s.first }
      rw [hq.2.2.2.2.1, hq.2.2.2.2.2.2]
      exact ⟨ho, by simp⟩
  have hi1 : ∀ (s : Sim) e, accepted c s kept.length [e] = [] → Inv c s kept → Inv c (s.step c e) kept := by
    intro s e he h
    have := inv_step h2 h32 h e
    rw [he, List.append_nil] at this
    exact this
  cases hr : s.running with
  | false => have := h.stopped ho hr; omega
  | true =>
    by_cases hs : s.sending = none
    · rcases h.goes ho hr with hg | hg
      · cases ht : s.timer with
        | none => exact absurd ht hg
        | some y =>
          obtain ⟨i, t⟩ := y
          let s1 := s.step c (.clock t)
          have g1 : Inv c s1 kept := hi1 s (.clock t) rfl h
          let s2 := s1.step c .expired
          have g2 : Inv c s2 kept := hi1 s1 .expired rfl g1
          have e2 : s2 = { s1 with timer := none, sending := some i } := by
            show (if s.closed then s1 else s1.expired) = _
            rw [ho]
            show s1.expired = _
            unfold Sim.expired
            rw [show s1.timer = some (i, t) from ht]
            simp only
            rw [if_pos (show t ≤ s1.now by show t ≤ s.now + t; omega)]
          have ho2 : s2.closed = false := by rw [e2]; exact ho
          have hs2 : s2.sending ≠ none := by rw [e2]; exact fun hx => nomatch hx
          obtain ⟨f1, f2⟩ := hsend s2 g2 ho2 hs2
          refine ⟨[.clock t, .expired, .handleSend true], fun _ => rfl, hi1 s2 (.handleSend true) rfl g2, f1, ?_⟩
          show (s2.step c (.handleSend true)).sent.length = _
          rw [f2, e2]
          rfl
      · exact absurd hs hg
    · obtain ⟨f1, f2⟩ := hsend s h ho hs
      exact ⟨[.handleSend true], fun _ => rfl, hi1 s (.handleSend true) rfl h, f1, f2⟩

/-- C146: after any history in which the socket stays open all packets that were accepted can be sent, with no further arrivals. -/
theorem C146_drains (c : Cfg) (es : List Ev) (h2 : 2 ≤ c.vectors) (h32 : c.vectors < 2 ^ 32) (ho : ((Sim.start c).run c es).closed = false) :
    ∃ more, (∀ t, received c.maxPacket t more = []) ∧
      ((Sim.start c).run c (es ++ more)).sent.length = (accepted c (Sim.start c) 0 es).length := by
  have key : ∀ (n : Nat) (s : Sim) (kept : List (Nat × Bytes)), Inv c s kept → s.closed = false → kept.length - s.sent.length = n →
      ∃ more, (∀ t, received c.maxPacket t more = []) ∧ (s.run c more).sent.length = kept.length := by
    intro n
    induction n with
    | zero =>
      intro s kept h _ hn
      have := h.le
      exact ⟨[], fun _ => rfl, by show s.sent.length = _; omega⟩
    | succ n ih =>
      intro s kept h ho hn
      obtain ⟨m1, a1, a2, a3, a4⟩ := drain_one h2 h32 h ho (by omega)
      obtain ⟨m2, b1, b2⟩ := ih _ kept a2 a3 (by omega)
      refine ⟨m1 ++ m2, ?_, ?_⟩
      · have : ∀ (a : List Ev) t, (∀ t, received c.maxPacket t a = []) → received c.maxPacket t (a ++ m2) = [] := by
          intro a
          induction a with
          | nil => intro t _; exact b1 t
          | cons e a iha =>
            intro t ha
            cases e with
            | receive p drop =>
              cases drop with
              | true => exact iha t (fun t => ha t)
              | false => exact nomatch ha 0
            | clock d => exact iha _ (fun _ => received_zero c.maxPacket a _ (ha 0))
            | expired => exact iha t (fun t => ha t)
            | handleSend ok => exact iha t (fun t => ha t)
            | losExpired => exact iha t (fun t => ha t)
            | error => exact iha t (fun t => ha t)
        exact fun t => this m1 t a1
      · show (List.foldl _ s (m1 ++ m2)).sent.length = _
        rw [List.foldl_append]; exact b2
  obtain ⟨more, h3, h4⟩ := key _ _ _ (inv_of h2 h32 es) ho rfl
  refine ⟨more, h3, ?_⟩
  rw [← h4]
  unfold Sim.run
  rw [List.foldl_append]

example : ((Sim.start ⟨3, 10, 10, 0, 0⟩).run ⟨3, 10, 10, 0, 0⟩ (hist.take 4)).closed = false ∧
    (accepted ⟨3, 10, 10, 0, 0⟩ (Sim.start ⟨3, 10, 10, 0, 0⟩) 0 (hist.take 4))[((Sim.start ⟨3, 10, 10, 0, 0⟩).run ⟨3, 10, 10, 0, 0⟩ (hist.take 4)).sent.length]?
      = some (0, [1, 2, 3]) := by
  decide +kernel

/-- Nothing is in the ring. -/
structure Nothing (s : Sim) : Prop where
  first : s.first = 0
  last : s.last = 0
  timer : s.timer = none
  sending : s.sending = none
  sent : s.sent = []

theorem nothing_step {c : Cfg} (h : c.vectors ≤ 1) {s : Sim} (hs : Nothing s) (e : Ev) : Nothing (s.step c e) := by
  have hq : ∀ (s : Sim), Nothing s → ∀ n, Nothing (s.queue c n) := by
    intro s hs n
    unfold Sim.queue
    have : indexForWrite c.vectors s.last s.first = none := by
      rw [hs.first, hs.last]
      unfold indexForWrite wrapInc
      simp
      omega
    simp only [this]
    exact ⟨hs.first, hs.last, hs.timer, hs.sending, hs.sent⟩
  obtain ⟨h1, h2, h3, h4, h5⟩ := hs
  cases e with
  | clock d => exact ⟨h1, h2, h3, h4, h5⟩
  | error => exact ⟨h1, h2, rfl, h4, h5⟩
  | expired =>
    simp only [Sim.step]
    split
    · exact ⟨h1, h2, h3, h4, h5⟩
    · unfold Sim.expired; rw [h3]; exact ⟨h1, h2, h3, h4, h5⟩
  | handleSend ok =>
    simp only [Sim.step]
    split
    · exact ⟨h1, h2, h3, h4, h5⟩
    · unfold Sim.handleSend; rw [h4]; exact ⟨h1, h2, h3, h4, h5⟩
  | losExpired =>
    simp only [Sim.step]
    split
    · exact ⟨h1, h2, h3, h4, h5⟩
    · unfold Sim.losExpired
      split
      · exact ⟨h1, h2, h3, h4, h5⟩
      · split <;> exact ⟨h1, h2, h3, h4, h5⟩
  | receive p drop =>
    simp only [Sim.step]
    split
    · exact ⟨h1, h2, h3, h4, h5⟩
    · unfold Sim.receive
      simp only
      split <;> split <;> (try split) <;> first | exact ⟨h1, h2, h3, h4, h5⟩ | (apply hq; exact ⟨h1, h2, h3, h4, h5⟩)

/-- C146, violated for one place in the ring, which the configuration allows: no packet is ever sent. -/
theorem C146_one_violated (c : Cfg) (es : List Ev) (h : c.vectors ≤ 1) : ((Sim.start c).run c es).sent = [] := by
  suffices hh : ∀ s, Nothing s → Nothing (s.run c es) from (hh _ ⟨rfl, rfl, rfl, rfl, rfl⟩).sent
  induction es with
  | nil => exact fun s hs => hs
  | cons e es ih => exact fun s hs => ih _ (nothing_step h hs e)

end Hdtn.DelaySim
