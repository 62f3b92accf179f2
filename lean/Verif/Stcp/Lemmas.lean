import Verif.Stcp.Spec

/-!
The receiving side.
-/

namespace Hdtn.Stcp

open Spec

theorem units_append {bs bs' : List Bytes} {w w' : Bytes} (h : Units bs w) (h' : Units bs' w') :
    Units (bs ++ bs') (w ++ w') := by
  induction h with
  | nil => exact h'
  | keepAlive _ ih => rw [List.append_assoc]; exact .keepAlive ih
  | unit h0 h1 h2 _ ih => rw [List.append_assoc]; exact .unit h0 h1 h2 ih

theorem units_single {b size : Bytes} (h0 : b ≠ []) (h1 : size.length = 4)
    (h2 : beValue size = b.length) : Units [b] (size ++ b) := by
  have := Units.unit h0 h1 h2 .nil
  rwa [List.append_nil] at this

theorem size_zero {size : Bytes} (h : size.length = 4) (h0 : beValue size = 0) :
    size = [0, 0, 0, 0] := beValue_inj _ _ h (by rw [h0]; rfl)

/-- The first four bytes of a stream decide how it goes on. -/
theorem units_head {bs : List Bytes} {size w : Bytes} (h : Units bs (size ++ w))
    (h4 : size.length = 4) :
    (beValue size = 0 ∧ Units bs w) ∨
    (beValue size ≠ 0 ∧ ∃ b bs' w', bs = b :: bs' ∧ b.length = beValue size ∧ w = b ++ w' ∧
      Units bs' w') := by
  generalize hv : size ++ w = v at h
  cases h with
  | nil =>
    have := congrArg List.length hv
    simp only [List.length_append, List.length_nil] at this
    omega
  | @keepAlive _ w' h =>
    obtain ⟨h1, h2⟩ := List.append_inj hv (by simpa using h4)
    left
    rw [h1, h2]
    exact ⟨rfl, h⟩
  | @unit b bs' size' w' h0 h1 h2 h =>
    rw [List.append_assoc] at hv
    obtain ⟨a1, a2⟩ := List.append_inj hv (by omega)
    right
    rw [a1, a2]
    have : b.length ≠ 0 := by simpa using h0
    exact ⟨by omega, b, bs', w', rfl, h2.symm, rfl, h⟩

theorem units_short {bs : List Bytes} {w : Bytes} (h : Units bs w) (h4 : w.length < 4) : bs = [] := by
  cases h with
  | nil => rfl
  | keepAlive => simp at h4; omega
  | unit _ h1 => simp only [List.length_append] at h4; omega

/-- A stream is read in one way only. -/
theorem units_prefix {rs : List Bytes} {w : Bytes} (h : Units rs w) :
    ∀ {bs : List Bytes} {x : Bytes}, Units bs (w ++ x) → ∃ bs', bs = rs ++ bs' ∧ Units bs' x := by
  induction h with
  | nil => intro bs x h; exact ⟨bs, rfl, h⟩
  | keepAlive _ ih =>
    intro bs x h
    rw [List.append_assoc] at h
    rcases units_head h rfl with ⟨_, h⟩ | ⟨h, _⟩
    · exact ih h
    · exact absurd rfl h
  | @unit b bs0 size w h0 h1 h2 _ ih =>
    intro bs x h
    rw [List.append_assoc, List.append_assoc] at h
    have : b.length ≠ 0 := by simpa using h0
    rcases units_head h h1 with ⟨h, _⟩ | ⟨_, b', bs', w', e1, e2, e3, h⟩
    · omega
    · obtain ⟨a1, a2⟩ := List.append_inj e3 (by omega)
      subst a1
      rw [← a2] at h
      obtain ⟨bs'', e, h⟩ := ih h
      exact ⟨bs'', by rw [e1, e]; rfl, h⟩

/-- The invariant of the sink; `all` are the bytes that have arrived. -/
structure SinkInv (cfg : Cfg) (all : Bytes) (s : Sink) : Prop where
  wire : ∃ w, Units (received s) w ∧
    ((s.closed = false ∧ (s.phase = .room ∨ s.phase = .size) ∧ all = w ++ s.buf) ∨
     (s.closed = false ∧ ∃ size, size.length = 4 ∧ beValue size ≠ 0 ∧
        s.phase = .data (beValue size) ∧ beValue size ≤ cfg.maxSize ∧ all = w ++ (size ++ s.buf)) ∨
     (s.closed = true ∧ ∃ size, size.length = 4 ∧ beValue size > cfg.maxSize ∧
        all = w ++ (size ++ s.buf)))
  limit : ∀ b ∈ received s, b ≠ [] ∧ b.length ≤ cfg.maxSize
  room : s.phase ≠ .room → s.ring.length + 1 < cfg.slots
  cap : s.ring.length + 1 ≤ max cfg.slots 1
  live : s.phase = .room → s.closed = false → cfg.slots ≤ s.ring.length + 1 ∨ 0 < s.posts

theorem tryStart_inv {cfg : Cfg} {all : Bytes} {s : Sink}
    (h1 : ∃ w, Units (received s) w ∧
    ((s.closed = false ∧ (s.phase = .room ∨ s.phase = .size) ∧ all = w ++ s.buf) ∨
     (s.closed = false ∧ ∃ size, size.length = 4 ∧ beValue size ≠ 0 ∧
        s.phase = .data (beValue size) ∧ beValue size ≤ cfg.maxSize ∧ all = w ++ (size ++ s.buf)) ∨
     (s.closed = true ∧ ∃ size, size.length = 4 ∧ beValue size > cfg.maxSize ∧
        all = w ++ (size ++ s.buf))))
    (h2 : ∀ b ∈ received s, b ≠ [] ∧ b.length ≤ cfg.maxSize)
    (h3 : s.phase ≠ .room → s.ring.length + 1 < cfg.slots)
    (h4 : s.ring.length + 1 ≤ max cfg.slots 1) : SinkInv cfg all (s.tryStart cfg) := by
  unfold Sink.tryStart
  split
  · rename_i hp
    split
    · rename_i hf
      exact ⟨h1, h2, h3, h4, fun _ _ => .inl hf⟩
    · rename_i hf
      refine ⟨?_, h2, fun _ => ?_, h4, fun h => by cases h⟩
      · obtain ⟨w, hu, h | ⟨_, size, _, _, hd, _⟩ | ⟨hc, _⟩⟩ := h1
        · exact ⟨w, hu, .inl ⟨h.1, .inr rfl, h.2.2⟩⟩
        · rw [hp.1] at hd; cases hd
        · rw [hp.2] at hc; cases hc
      · show s.ring.length + 1 < _
        omega
  · rename_i hp
    exact ⟨h1, h2, h3, h4, fun a b => absurd ⟨a, b⟩ hp⟩

theorem step_inv {cfg : Cfg} {all : Bytes} {s : Sink} (e : SinkEvent) (h : SinkInv cfg all s) :
    SinkInv cfg (all ++ arrived [e]) (s.step cfg e) := by
  obtain ⟨h1, h2, h3, h4, h5⟩ := h
  cases e with
  | arrive bs =>
    refine ⟨?_, h2, h3, h4, h5⟩
    obtain ⟨w, hu, h⟩ := h1
    refine ⟨w, hu, ?_⟩
    simp only [Sink.step, arrived, List.append_nil]
    rcases h with ⟨a, b, c⟩ | ⟨a, size, b, c, d, e, f⟩ | ⟨a, size, b, c, d⟩
    · exact .inl ⟨a, b, by rw [c]; simp⟩
    · exact .inr (.inl ⟨a, size, b, c, d, e, by rw [f]; simp⟩)
    · exact .inr (.inr ⟨a, size, b, c, by rw [d]; simp⟩)
  | pop =>
    simp only [arrived, List.append_nil, Sink.step, Sink.pop]
    split
    · exact ⟨h1, h2, h3, h4, h5⟩
    · rename_i b bs hr
      have hrec : received { s with ring := bs, delivered := s.delivered ++ [b], posts := s.posts + 1 } =
          received s := by simp [received, hr]
      rw [hr] at h3 h4
      refine ⟨by rw [hrec]; exact h1, by rw [hrec]; exact h2, fun h => ?_, ?_, fun _ _ => ?_⟩
      · have := h3 h
        simp only [List.length_cons] at this
        show bs.length + 1 < _
        omega
      · simp only [List.length_cons] at h4
        show bs.length + 1 ≤ _
        omega
      · right
        simp
  | posted =>
    simp only [arrived, List.append_nil, Sink.step]
    split
    · exact ⟨h1, h2, h3, h4, h5⟩
    · exact tryStart_inv h1 h2 h3 h4
  | read =>
    simp only [arrived, List.append_nil, Sink.step, Sink.read]
    split
    · exact ⟨h1, h2, h3, h4, h5⟩
    · rename_i hc
      have hc' : s.closed = false := by simpa using hc
      split
      · exact ⟨h1, h2, h3, h4, h5⟩
      · rename_i hp
        split
        · exact ⟨h1, h2, h3, h4, h5⟩
        · rename_i hl
          have hl4 : (s.buf.take 4).length = 4 := by rw [List.length_take]; omega
          have hbuf : s.buf = s.buf.take 4 ++ s.buf.drop 4 := (List.take_append_drop 4 s.buf).symm
          obtain ⟨w, hu, h⟩ := h1
          have hall : all = w ++ s.buf := by
            rcases h with ⟨_, _, c⟩ | ⟨_, size, _, _, d, _⟩ | ⟨a, _⟩
            · exact c
            · rw [hp] at d; cases d
            · rw [hc'] at a; cases a
          have hr := h3 (by rw [hp]; simp)
          split
          · rename_i hz
            refine ⟨⟨w ++ s.buf.take 4, ?_, .inl ⟨hc', .inr hp, ?_⟩⟩, h2, h3, h4,
              fun h => by rw [hp] at h; cases h⟩
            · have hk : Units [] (s.buf.take 4) := by
                rw [size_zero hl4 hz]
                exact .keepAlive .nil
              have := units_append hu hk
              rwa [List.append_nil] at this
            · rw [hall, List.append_assoc]
              congr 1
          · rename_i hz
            split
            · rename_i hm
              refine ⟨⟨w, hu, .inr (.inr ⟨rfl, s.buf.take 4, hl4, hm, ?_⟩)⟩, h2, h3, h4,
                fun _ h => by cases h⟩
              rw [hall]
              congr 1
            · rename_i hm
              refine ⟨⟨w, hu, .inr (.inl ⟨hc', s.buf.take 4, hl4, hz, rfl, by omega, ?_⟩)⟩, h2,
                fun _ => hr, h4, fun h => by cases h⟩
              rw [hall]
              congr 1
      · rename_i n hp
        split
        · exact ⟨h1, h2, h3, h4, h5⟩
        · rename_i hl
          obtain ⟨w, hu, h⟩ := h1
          obtain ⟨size, b, c, d, e, f⟩ : ∃ size : Bytes, size.length = 4 ∧ beValue size ≠ 0 ∧
              n = beValue size ∧ beValue size ≤ cfg.maxSize ∧ all = w ++ (size ++ s.buf) := by
            rcases h with ⟨_, h, _⟩ | ⟨_, size, b, c, d, e, f⟩ | ⟨a, _⟩
            · rw [hp] at h; rcases h with h | h <;> cases h
            · rw [hp] at d
              injection d with d
              exact ⟨size, b, c, d, e, f⟩
            · rw [hc'] at a; cases a
          have hln : (s.buf.take n).length = n := by rw [List.length_take]; omega
          have hne : s.buf.take n ≠ [] := by
            intro h
            rw [h] at hln
            simp only [List.length_nil] at hln
            omega
          have hr := h3 (by rw [hp]; simp)
          have hrec : received { s with buf := s.buf.drop n, ring := s.ring ++ [s.buf.take n], phase := .room } = received s ++ [s.buf.take n] := by simp [received]
          refine tryStart_inv ⟨w ++ (size ++ s.buf.take n), ?_, .inl ⟨hc', .inl rfl, ?_⟩⟩ ?_ ?_ ?_
          · rw [hrec]
            exact units_append hu (units_single hne b (by omega))
          · rw [f]
            simp only [List.append_assoc, List.take_append_drop]
          · rw [hrec]
            intro x hx
            rcases List.mem_append.mp hx with hx | hx
            · exact h2 x hx
            · rw [List.mem_singleton.mp hx]
              exact ⟨hne, by omega⟩
          · intro h; exact absurd rfl h
          · simp only [List.length_append, List.length_singleton]
            omega

theorem init_inv (cfg : Cfg) : SinkInv cfg [] (Sink.init cfg) := by
  refine tryStart_inv ⟨[], .nil, .inl ⟨rfl, .inl rfl, rfl⟩⟩ ?_ ?_ ?_
  · simp [received]
  · intro h; exact absurd rfl h
  · simp

theorem arrived_cons (e : SinkEvent) (es : List SinkEvent) :
    arrived (e :: es) = arrived [e] ++ arrived es := by
  cases e <;> simp [arrived]

theorem run_inv {cfg : Cfg} (es : List SinkEvent) : ∀ {all : Bytes} {s : Sink},
    SinkInv cfg all s → SinkInv cfg (all ++ arrived es) (s.run cfg es) := by
  induction es with
  | nil => intro all s h; rw [show arrived [] = [] from rfl, List.append_nil]; exact h
  | cons e es ih =>
    intro all s h
    rw [arrived_cons, ← List.append_assoc]
    exact ih (step_inv e h)

theorem prefix_takeWhile {α : Type} {p : α → Bool} : ∀ {l bs : List α}, (∀ b ∈ l, p b = true) →
    l <+: bs → l <+: bs.takeWhile p := by
  intro l
  induction l with
  | nil => intro bs _ _; exact List.nil_prefix
  | cons a l ih =>
    rintro bs h ⟨t, rfl⟩
    have ha := h a (List.mem_cons_self ..)
    rw [List.cons_append, List.takeWhile_cons_of_pos ha]
    exact (List.cons_prefix_cons).mpr
      ⟨rfl, ih (fun b hb => h b (List.mem_cons_of_mem _ hb)) (List.prefix_append ..)⟩

theorem takeWhile_mono {α : Type} {p : α → Bool} {l bs : List α} (h : l <+: bs) :
    l.takeWhile p <+: bs.takeWhile p := by
  obtain ⟨t, rfl⟩ := h
  induction l with
  | nil => exact List.nil_prefix
  | cons a l ih =>
    rw [List.cons_append]
    by_cases ha : p a = true
    · rw [List.takeWhile_cons_of_pos ha, List.takeWhile_cons_of_pos ha]
      exact List.cons_prefix_cons.mpr ⟨rfl, ih⟩
    · rw [List.takeWhile_cons_of_neg ha]; exact List.nil_prefix

/-- What the sink puts out of a stream, part of which has arrived. -/
theorem sink_prefix {cfg : Cfg} {all : Bytes} {s : Sink} (h : SinkInv cfg all s) {bs : List Bytes}
    {W : Bytes} (hu : Units bs W) (hp : all <+: W) : received s <+: upToLimit cfg bs := by
  obtain ⟨y, rfl⟩ := hp
  refine prefix_takeWhile (fun b hb => by simpa using (h.limit b hb).2) ?_
  obtain ⟨w, hw, h1⟩ := h.wire
  obtain ⟨x, hx⟩ : ∃ x, all = w ++ x := by
    rcases h1 with ⟨_, _, c⟩ | ⟨_, size, _, _, _, _, f⟩ | ⟨_, size, _, _, f⟩
    · exact ⟨_, c⟩
    · exact ⟨_, f⟩
    · exact ⟨_, f⟩
  rw [hx, List.append_assoc] at hu
  obtain ⟨bs', e, _⟩ := units_prefix hw hu
  rw [e]
  exact List.prefix_append ..

/-- All of a stream has arrived, and nothing is left to do. -/
theorem sink_complete {cfg : Cfg} {all : Bytes} {s : Sink} (h : SinkInv cfg all s)
    (hc : 2 ≤ cfg.slots) {bs : List Bytes} (hu : Units bs all) (hr : AtRest s) :
    received s = upToLimit cfg bs := by
  have hpre := sink_prefix h hu (List.prefix_refl _)
  obtain ⟨w, hw, h1⟩ := h.wire
  obtain ⟨r1, r2, r3⟩ := hr
  have hlim : ∀ b ∈ received s, decide (b.length ≤ cfg.maxSize) = true :=
    fun b hb => by simpa using (h.limit b hb).2
  have fin : ∀ {bs' : List Bytes}, bs = received s ++ bs' →
      (bs' = [] ∨ ∃ b l, bs' = b :: l ∧ cfg.maxSize < b.length) → received s = upToLimit cfg bs := by
    intro bs' e hb
    unfold upToLimit
    rw [e, List.takeWhile_append_of_pos hlim]
    rcases hb with hb | ⟨b, l, hb, hgt⟩
    · rw [hb]; simp
    · rw [hb, List.takeWhile_cons_of_neg (by simpa using hgt)]; simp
  rcases h1 with ⟨c, ph, e⟩ | ⟨c, size, b4, nz, d, le, e⟩ | ⟨c, size, b4, gt, e⟩
  · rcases ph with ph | ph
    · rcases h.live ph c with hl | hl
      · rw [r1] at hl; simp only [List.length_nil] at hl; omega
      · omega
    · rw [ph] at r3
      rw [e] at hu
      obtain ⟨bs', e', hb⟩ := units_prefix hw hu
      exact fin e' (.inl (units_short hb r3))
  · rw [d] at r3
    simp only at r3
    rw [e] at hu
    obtain ⟨bs', e', hb⟩ := units_prefix hw hu
    rcases units_head hb b4 with ⟨hz, _⟩ | ⟨_, b, _, w', _, hl, hbuf, _⟩
    · exact absurd hz nz
    · have := congrArg List.length hbuf
      simp only [List.length_append] at this
      omega
  · rw [e] at hu
    obtain ⟨bs', e', hb⟩ := units_prefix hw hu
    rcases units_head hb b4 with ⟨hz, _⟩ | ⟨_, b, l, w', hbs, hl, hbuf, _⟩
    · omega
    · exact fin e' (.inr ⟨b, l, hbs, by omega⟩)

end Hdtn.Stcp
