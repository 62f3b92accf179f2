import Verif.Slip.Spec

/-!
The receiving side, one packet after the other.
-/

namespace Hdtn.Slip

open Spec

theorem encodeChars_stuffed (data : Bytes) : Stuffed data (encodeChars data) := by
  induction data with
  | nil => exact .nil
  | cons c cs ih =>
    simp only [encodeChars, encodeChar]
    split
    · rename_i h; subst h; exact .fin ih
    · rename_i h1
      split
      · rename_i h2; subst h2; exact .esc ih
      · rename_i h2; exact .plain h1 h2 ih

theorem stuffed_unique {data w : Bytes} (h : Stuffed data w) : w = encodeChars data := by
  induction h with
  | nil => rfl
  | fin _ ih => rw [ih]; rfl
  | esc _ ih => rw [ih]; rfl
  | @plain c data w h1 h2 _ ih =>
    have : encodeChar c = [c] := by
      unfold encodeChar
      rw [if_neg (show c ≠ Slip.fin from h1), if_neg (show c ≠ Slip.esc from h2)]
    rw [encodeChars, this, ih]; rfl

theorem stuffed_no_fin {data w : Bytes} (h : Stuffed data w) : (0xC0 : UInt8) ∉ w := by
  induction h with
  | nil => simp
  | fin _ ih => simp [ih]
  | esc _ ih => simp [ih]
  | plain h1 _ _ ih => simp [ih, Ne.symm h1]

theorem stuffed_length {data w : Bytes} (h : Stuffed data w) :
    data.length ≤ w.length ∧ w.length ≤ 2 * data.length := by
  induction h with
  | nil => simp
  | fin _ ih => simp only [List.length_cons]; omega
  | esc _ ih => simp only [List.length_cons]; omega
  | plain _ _ _ ih => simp only [List.length_cons]; omega

/-- The part of a receiver that a byte other than END changes. -/
structure Core where
  prev : UInt8
  cur : Option Bytes
  over : Bool

def Core.byte (max : Nat) (k : Core) (c : UInt8) : Core :=
  match (decodeChar k.prev c).2, k.cur with
  | .char o, some b =>
    if b.length < max then ⟨(decodeChar k.prev c).1, some (b ++ [o]), k.over⟩
    else ⟨(decodeChar k.prev c).1, some b, true⟩
  | _, cur => ⟨(decodeChar k.prev c).1, cur, k.over⟩

def core (s : Rx) : Core := ⟨s.prev, s.cur, s.over⟩

theorem decode_no_fin {p c : UInt8} (h : c ≠ 0xC0) : (decodeChar p c).2 ≠ .complete := by
  unfold decodeChar
  split
  · simp
  · rw [if_neg (show c ≠ Slip.fin from h)]; simp

theorem byte_core (cfg : Cfg) (s : Rx) {c : UInt8} (h : c ≠ 0xC0) :
    core (s.byte cfg c) = (core s).byte cfg.maxSize c ∧ (s.byte cfg c).ring = s.ring ∧
      (s.byte cfg c).delivered = s.delivered := by
  have hc := decode_no_fin (p := s.prev) h
  unfold Rx.byte Core.byte core
  cases hd : decodeChar s.prev c with
  | mk p r =>
    rw [hd] at hc
    cases r with
    | nothing => simp
    | complete => simp at hc
    | char o =>
      cases hcur : s.cur with
      | none => simp [hcur]
      | some b =>
        simp only [hcur]
        split <;> simp [hcur]

theorem pop_received (s : Rx) : received s.pop = received s := by
  unfold Rx.pop received
  split
  · rfl
  · rename_i h; simp [h]

theorem pop_core (s : Rx) : core s.pop = core s := by
  unfold Rx.pop core
  split <;> rfl

theorem run_append (cfg : Cfg) (s : Rx) (es es' : List RxEvent) :
    s.run cfg (es ++ es') = (s.run cfg es).run cfg es' := List.foldl_append ..

theorem run_core (cfg : Cfg) (es : List RxEvent) : ∀ s : Rx, (0xC0 : UInt8) ∉ bytesOf es →
    core (s.run cfg es) = (bytesOf es).foldl (Core.byte cfg.maxSize) (core s) ∧
      received (s.run cfg es) = received s := by
  induction es with
  | nil => intro s _; exact ⟨rfl, rfl⟩
  | cons e es ih =>
    intro s h
    cases e with
    | pop =>
      obtain ⟨h1, h2⟩ := ih s.pop h
      rw [pop_core] at h1
      rw [pop_received] at h2
      exact ⟨h1, h2⟩
    | byte c =>
      simp only [bytesOf, List.mem_cons, not_or] at h
      obtain ⟨h1, h2⟩ := ih (s.byte cfg c) h.2
      obtain ⟨a, b, d⟩ := byte_core cfg s (Ne.symm h.1)
      refine ⟨?_, ?_⟩
      · show core ((s.byte cfg c).run cfg es) = _
        rw [h1, a]; rfl
      · show received ((s.byte cfg c).run cfg es) = _
        rw [h2]
        unfold received
        rw [b, d]

/-- Stuffed data is gathered in the current bundle. -/
theorem core_stuffed {max : Nat} {data w : Bytes} (h : Stuffed data w) :
    ∀ (p : UInt8) (b : Bytes) (o : Bool), p ≠ 0xDB → b.length ≤ max →
      ∃ p', p' ≠ 0xDB ∧ w.foldl (Core.byte max) ⟨p, some b, o⟩ =
        ⟨p', some ((b ++ data).take max), o || decide (max < b.length + data.length)⟩ := by
  have step : ∀ (c o : UInt8) (data w : Bytes) (p q : UInt8) (b : Bytes) (ov : Bool),
      q ≠ 0xDB → b.length ≤ max →
      decodeChar p c = (q, .char o) →
      (∀ (p : UInt8) (b : Bytes) (o : Bool), p ≠ 0xDB → b.length ≤ max →
        ∃ p', p' ≠ 0xDB ∧ w.foldl (Core.byte max) ⟨p, some b, o⟩ =
          ⟨p', some ((b ++ data).take max), o || decide (max < b.length + data.length)⟩) →
      ∃ p', p' ≠ 0xDB ∧ (c :: w).foldl (Core.byte max) ⟨p, some b, ov⟩ =
        ⟨p', some ((b ++ o :: data).take max),
          ov || decide (max < b.length + (o :: data).length)⟩ := by
    intro c o data w p q b ov hq hb hd ih
    by_cases hlt : b.length < max
    · obtain ⟨p', h1, h2⟩ := ih q (b ++ [o]) ov hq (by simp; omega)
      refine ⟨p', h1, ?_⟩
      have : Core.byte max ⟨p, some b, ov⟩ c = ⟨q, some (b ++ [o]), ov⟩ := by
        simp [Core.byte, hd, hlt]
      rw [List.foldl_cons, this, h2]
      have e : b.length + 1 + data.length = b.length + (data.length + 1) := by omega
      simp [e]
    · obtain ⟨p', h1, h2⟩ := ih q b true hq hb
      refine ⟨p', h1, ?_⟩
      have : Core.byte max ⟨p, some b, ov⟩ c = ⟨q, some b, true⟩ := by
        simp [Core.byte, hd, hlt]
      rw [List.foldl_cons, this, h2]
      have hbl : b.length = max := by omega
      have e1 : max < b.length + (o :: data).length := by simp; omega
      rw [List.take_append_of_le_length (by omega), List.take_append_of_le_length (by omega)]
      simp only [decide_eq_true e1, Bool.true_or, Bool.or_true]
  induction h with
  | nil =>
    intro p b o hp hb
    refine ⟨p, hp, ?_⟩
    have : ¬ max < b.length := by omega
    simp [this, List.take_of_length_le hb]
  | @fin data w _ ih =>
    intro p b o hp hb
    obtain ⟨p', h1, h2⟩ := step 0xDC 0xC0 data w 0xDB 0xDC b o (by decide) hb (by decide) ih
    exact ⟨p', h1, h2⟩
  | @esc data w _ ih =>
    intro p b o hp hb
    obtain ⟨p', h1, h2⟩ := step 0xDD 0xDB data w 0xDB 0xDD b o (by decide) hb (by decide) ih
    exact ⟨p', h1, h2⟩
  | @plain c data w c1 c2 _ ih =>
    intro p b o hp hb
    refine step c c data w p c b o c2 hb ?_ ih
    unfold decodeChar
    rw [if_neg (show c ≠ Slip.esc from c2), if_neg (show c ≠ Slip.fin from c1)]
    have : p ≠ Slip.esc := hp
    rw [if_neg this]

/-- Different data is stuffed differently. -/
theorem encodeChars_inj {x y : Bytes} (h : encodeChars x = encodeChars y) : x = y := by
  obtain ⟨_, _, h1⟩ := core_stuffed (max := x.length + y.length) (encodeChars_stuffed x) 0 []
    false (by decide) (by simp)
  obtain ⟨_, _, h2⟩ := core_stuffed (max := x.length + y.length) (encodeChars_stuffed y) 0 []
    false (by decide) (by simp)
  rw [h, h2] at h1
  have h3 := congrArg Core.cur h1
  simp only [List.nil_append, Option.some.injEq] at h3
  rwa [List.take_of_length_le (by omega), List.take_of_length_le (by omega), eq_comm] at h3

theorem core_none {max : Nat} (w : Bytes) : ∀ (p : UInt8) (o : Bool),
    ∃ p', w.foldl (Core.byte max) ⟨p, none, o⟩ = ⟨p', none, o⟩ := by
  induction w with
  | nil => intro p o; exact ⟨p, rfl⟩
  | cons c w ih =>
    intro p o
    obtain ⟨p', h⟩ := ih (decodeChar p c).1 o
    refine ⟨p', ?_⟩
    rw [List.foldl_cons, ← h]
    congr 1
    unfold Core.byte
    cases (decodeChar p c).2 <;> rfl

/-! Splitting the events of the receiving side at its bytes. -/

theorem bytesOf_append (es es' : List RxEvent) : bytesOf (es ++ es') = bytesOf es ++ bytesOf es' := by
  induction es with
  | nil => rfl
  | cons e es ih => cases e <;> simp [bytesOf, ih]

theorem bytesOf_split : ∀ (es : List RxEvent) {u v : Bytes}, bytesOf es = u ++ v →
    ∃ e1 e2, es = e1 ++ e2 ∧ bytesOf e1 = u ∧ bytesOf e2 = v := by
  intro es
  induction es with
  | nil =>
    intro u v h
    have := List.append_eq_nil_iff.mp h.symm
    exact ⟨[], [], rfl, this.1.symm, this.2.symm⟩
  | cons e es ih =>
    intro u v h
    cases e with
    | pop =>
      obtain ⟨e1, e2, h1, h2, h3⟩ := ih h
      exact ⟨.pop :: e1, e2, by rw [h1]; rfl, h2, h3⟩
    | byte c =>
      cases u with
      | nil => exact ⟨[], .byte c :: es, rfl, rfl, h⟩
      | cons d u =>
        simp only [bytesOf, List.cons_append, List.cons.injEq] at h
        obtain ⟨rfl, h⟩ := h
        obtain ⟨e1, e2, h1, h2, h3⟩ := ih h
        exact ⟨.byte c :: e1, e2, by rw [h1]; rfl, by simp [bytesOf, h2], h3⟩

/-- One END: what is put out depends on neither pops before nor after. -/
theorem bytesOf_single {es : List RxEvent} {c : UInt8} (h : bytesOf es = [c]) :
    ∃ e1 e2, es = e1 ++ .byte c :: e2 ∧ bytesOf e1 = [] ∧ bytesOf e2 = [] := by
  induction es with
  | nil => cases h
  | cons e es ih =>
    cases e with
    | pop =>
      obtain ⟨e1, e2, h1, h2, h3⟩ := ih h
      exact ⟨.pop :: e1, e2, by rw [h1]; rfl, h2, h3⟩
    | byte d =>
      simp only [bytesOf, List.cons.injEq] at h
      obtain ⟨rfl, h⟩ := h
      exact ⟨[], es, rfl, rfl, h⟩

/-- What is put out by an END. -/
def flush (k : Core) : List Bytes :=
  match k.cur with
  | none => []
  | some b => if b ≠ [] ∧ k.over = false then [b] else []

theorem fin_received (cfg : Cfg) (s : Rx) :
    received (s.byte cfg 0xC0) = received s ++ flush (core s) ∧
    (s.byte cfg 0xC0).prev = 0 ∧ (s.byte cfg 0xC0).over = false ∧
    (s.byte cfg 0xC0).cur =
      if cfg.slots ≤ (s.byte cfg 0xC0).ring.length + 1 then none else some [] := by
  have hd : decodeChar s.prev 0xC0 = (s.prev, .complete) := by
    unfold decodeChar; rfl
  unfold Rx.byte flush core received
  rw [hd]
  cases hc : s.cur with
  | none => simp [Rx.reset]; rfl
  | some b =>
    simp only
    by_cases hb : b ≠ [] ∧ s.over = false
    · rw [if_pos hb, if_pos hb]; simp [Rx.reset]
    · rw [if_neg hb, if_neg hb]; simp [Rx.reset]; rfl

/-- Between packets. -/
def Clean (s : Rx) : Prop := s.prev = 0 ∧ s.over = false ∧ (s.cur = none ∨ s.cur = some [])

theorem fin_clean (cfg : Cfg) (s : Rx) : Clean (s.byte cfg 0xC0) := by
  obtain ⟨_, h1, h2, h3⟩ := fin_received cfg s
  refine ⟨h1, h2, ?_⟩
  rw [h3]
  split
  · exact .inl rfl
  · exact .inr rfl

theorem Clean.flush {s : Rx} (h : Clean s) : flush (core s) = [] := by
  obtain ⟨_, _, h | h⟩ := h <;> simp [Slip.flush, core, h]

theorem clean_of_core {s s' : Rx} (h : Clean s) (e : core s' = core s) : Clean s' := by
  simp only [core, Core.mk.injEq] at e
  obtain ⟨a, b, c⟩ := h
  exact ⟨e.1.trans a, e.2.2.trans b, by rw [e.2.1]; exact c⟩

theorem pops_run (cfg : Cfg) (s : Rx) {es : List RxEvent} (h : bytesOf es = []) :
    core (s.run cfg es) = core s ∧ received (s.run cfg es) = received s := by
  obtain ⟨a, b⟩ := run_core cfg es s (by rw [h]; simp)
  rw [h] at a
  exact ⟨a, b⟩

theorem keepsUp_append {cfg : Cfg} {s : Rx} {e1 e2 : List RxEvent} (h : KeepsUp cfg s (e1 ++ e2)) :
    KeepsUp cfg s e1 ∧ KeepsUp cfg (s.run cfg e1) e2 := by
  constructor
  · intro pre hp
    exact h pre (hp.trans (List.prefix_append ..))
  · intro pre hp
    have := h (e1 ++ pre) ((List.prefix_append_right_inj e1).mpr hp)
    rwa [run_append] at this

/-- One packet, from any state: the bundle is put out after what was there before, if it fits and
there was room. -/
theorem packet_run (cfg : Cfg) (s : Rx) {es : List RxEvent} {b w : Bytes} (hp : Packet b w)
    (hb : bytesOf es = w) :
    Clean (s.run cfg es) ∧ ∃ l, received (s.run cfg es) = received (s.byte cfg 0xC0) ++ l ∧
      List.Sublist l ([b].filter (fits cfg)) ∧
      (KeepsUp cfg s es → l = [b].filter (fits cfg)) := by
  obtain ⟨m, hm, rfl⟩ := hp
  have hb' : bytesOf es = [0xC0] ++ (m ++ [0xC0]) := hb
  obtain ⟨e1, er, rfl, he1, her⟩ := bytesOf_split es hb'
  obtain ⟨e2, e3, rfl, he2, he3⟩ := bytesOf_split er her
  obtain ⟨p1, p2, rfl, hp1, hp2⟩ := bytesOf_single he1
  obtain ⟨p3, p4, rfl, hp3, hp4⟩ := bytesOf_single he3
  -- the first END
  obtain ⟨c1, r1⟩ := pops_run cfg s hp1
  obtain ⟨f1, f2, f3, f4⟩ := fin_received cfg (s.run cfg p1)
  obtain ⟨g1, _, _, _⟩ := fin_received cfg s
  rw [r1, c1, ← g1] at f1
  -- the bytes between
  let s1 := (s.run cfg p1).byte cfg 0xC0
  have hno : (0xC0 : UInt8) ∉ bytesOf (p2 ++ e2 ++ p3) := by
    rw [bytesOf_append, bytesOf_append, hp2, he2, hp3]
    simpa using stuffed_no_fin hm
  obtain ⟨c2, r2⟩ := run_core cfg (p2 ++ e2 ++ p3) s1 hno
  have hby : bytesOf (p2 ++ e2 ++ p3) = m := by
    rw [bytesOf_append, bytesOf_append, hp2, he2, hp3]
    simp
  rw [hby] at c2
  let s2 := s1.run cfg (p2 ++ e2 ++ p3)
  -- the last END
  obtain ⟨h1, h2, h3, h4⟩ := fin_received cfg s2
  obtain ⟨c4, r4⟩ := pops_run cfg (s2.byte cfg 0xC0) hp4
  have hrun : s.run cfg ((p1 ++ RxEvent.byte 0xC0 :: p2) ++ (e2 ++ (p3 ++ RxEvent.byte 0xC0 :: p4))) =
      (s2.byte cfg 0xC0).run cfg p4 := by
    have : (p1 ++ RxEvent.byte 0xC0 :: p2) ++ (e2 ++ (p3 ++ RxEvent.byte 0xC0 :: p4)) =
        p1 ++ ([.byte 0xC0] ++ ((p2 ++ e2 ++ p3) ++ ([.byte 0xC0] ++ p4))) := by simp
    rw [this, run_append, run_append, run_append, run_append]
    rfl
  rw [hrun]
  refine ⟨clean_of_core (fin_clean cfg s2) c4, flush (core s2), ?_, ?_⟩
  · rw [r4, h1, r2, f1]
  -- the current bundle at the last END
  have hcase : (s1.cur = none ∧ flush (core s2) = []) ∨
      (s1.cur = some [] ∧ flush (core s2) = [b].filter (fits cfg)) := by
    have e0 : core s1 = ⟨0, s1.cur, false⟩ := by
      show (⟨s1.prev, s1.cur, s1.over⟩ : Core) = _
      rw [show s1.prev = 0 from f2, show s1.over = false from f3]
    rw [e0] at c2
    have f4' : s1.cur = if cfg.slots ≤ s1.ring.length + 1 then none else some [] := f4
    by_cases hfull : cfg.slots ≤ s1.ring.length + 1
    · rw [if_pos hfull] at f4'
      left
      refine ⟨f4', ?_⟩
      rw [f4'] at c2
      obtain ⟨p', hp'⟩ := core_none (max := cfg.maxSize) m 0 false
      rw [show core s2 = _ from c2, hp']
      rfl
    · rw [if_neg hfull] at f4'
      right
      refine ⟨f4', ?_⟩
      rw [f4'] at c2
      obtain ⟨p', _, hp'⟩ := core_stuffed (max := cfg.maxSize) hm 0 [] false (by decide) (by simp)
      rw [show core s2 = _ from c2, hp']
      simp only [flush, List.nil_append, List.length_nil, Nat.zero_add, Bool.false_or,
        decide_eq_false_iff_not, Nat.not_lt]
      by_cases hfit : b ≠ [] ∧ b.length ≤ cfg.maxSize
      · rw [List.take_of_length_le hfit.2, if_pos hfit]
        simp [fits, hfit.1, hfit.2]
      · have h1 : [b].filter (fits cfg) = [] := by
          simp only [List.filter_cons, List.filter_nil]
          rw [if_neg]
          simp only [fits, Bool.and_eq_true, decide_eq_true_eq]
          exact hfit
        rw [h1, if_neg]
        rintro ⟨x, y⟩
        apply hfit
        refine ⟨?_, y⟩
        rintro rfl
        simp at x
  rcases hcase with ⟨hn, hf⟩ | ⟨hs, hf⟩
  · rw [hf]
    refine ⟨List.nil_sublist _, ?_⟩
    intro hk
    have hpre : p1 ++ [RxEvent.byte 0xC0] <+:
        (p1 ++ RxEvent.byte 0xC0 :: p2) ++ (e2 ++ (p3 ++ RxEvent.byte 0xC0 :: p4)) := by
      refine ⟨p2 ++ (e2 ++ (p3 ++ RxEvent.byte 0xC0 :: p4)), by simp⟩
    have := hk _ hpre
    rw [run_append] at this
    have this' : s1.ring.length + 1 < cfg.slots := this
    have f4' : s1.cur = if cfg.slots ≤ s1.ring.length + 1 then none else some [] := f4
    rw [if_neg (by omega)] at f4'
    rw [f4'] at hn
    cases hn
  · rw [hf]
    exact ⟨List.Sublist.refl _, fun _ => rfl⟩

/-- Packets, from a state between packets. -/
theorem packets_run (cfg : Cfg) {bs : List Bytes} {ws : Bytes} (hp : Packets bs ws) :
    ∀ (s : Rx) (es : List RxEvent), Clean s → bytesOf es = ws →
    ∃ l, received (s.run cfg es) = received s ++ l ∧ List.Sublist l (bs.filter (fits cfg)) ∧
      (KeepsUp cfg s es → l = bs.filter (fits cfg)) := by
  induction hp with
  | nil =>
    intro s es _ hb
    obtain ⟨_, h⟩ := pops_run cfg s hb
    exact ⟨[], by simp [h], by simp, fun _ => rfl⟩
  | @cons b bs w ws h _ ih =>
    intro s es hc hb
    obtain ⟨e1, e2, rfl, h1, h2⟩ := bytesOf_split es hb
    obtain ⟨c1, l1, r1, s1, k1⟩ := packet_run cfg s h h1
    obtain ⟨l2, r2, s2, k2⟩ := ih (s.run cfg e1) e2 c1 h2
    obtain ⟨g1, _⟩ := fin_received cfg s
    rw [hc.flush, List.append_nil] at g1
    have hf : (b :: bs).filter (fits cfg) = [b].filter (fits cfg) ++ bs.filter (fits cfg) := by
      rw [← List.filter_append]; rfl
    refine ⟨l1 ++ l2, ?_, ?_, ?_⟩
    · rw [run_append, r2, r1, g1, List.append_assoc]
    · rw [hf]; exact s1.append s2
    · intro hk
      obtain ⟨a, b⟩ := keepsUp_append hk
      rw [hf, k1 a, k2 b]

/-- Packets, from any state. -/
theorem packets_any (cfg : Cfg) {b : Bytes} {bs : List Bytes} {ws : Bytes}
    (hp : Packets (b :: bs) ws) (s : Rx) (es : List RxEvent) (hb : bytesOf es = ws) :
    ∃ l, received (s.run cfg es) = received (s.byte cfg 0xC0) ++ l ∧
      List.Sublist l ((b :: bs).filter (fits cfg)) ∧
      (KeepsUp cfg s es → l = (b :: bs).filter (fits cfg)) := by
  cases hp with
  | @cons _ _ w ws h hs =>
    obtain ⟨e1, e2, rfl, h1, h2⟩ := bytesOf_split es hb
    obtain ⟨c1, l1, r1, s1, k1⟩ := packet_run cfg s h h1
    obtain ⟨l2, r2, s2, k2⟩ := packets_run cfg hs (s.run cfg e1) e2 c1 h2
    have hf : (b :: bs).filter (fits cfg) = [b].filter (fits cfg) ++ bs.filter (fits cfg) := by
      rw [← List.filter_append]; rfl
    refine ⟨l1 ++ l2, ?_, ?_, ?_⟩
    · rw [run_append, r2, r1, List.append_assoc]
    · rw [hf]; exact s1.append s2
    · intro hk
      obtain ⟨a, b⟩ := keepsUp_append hk
      rw [hf, k1 a, k2 b]

/-- What was put out stays. -/
theorem run_grows (cfg : Cfg) (es : List RxEvent) : ∀ s : Rx, received s <+: received (s.run cfg es) := by
  induction es with
  | nil => intro s; exact List.prefix_refl _
  | cons e es ih =>
    intro s
    refine List.IsPrefix.trans ?_ (ih (s.step cfg e))
    cases e with
    | pop => rw [show s.step cfg .pop = s.pop from rfl, pop_received]; exact List.prefix_refl _
    | byte c =>
      by_cases h : c = 0xC0
      · subst h
        rw [show s.step cfg (.byte 0xC0) = s.byte cfg 0xC0 from rfl, (fin_received cfg s).1]
        exact List.prefix_append ..
      · obtain ⟨_, b, d⟩ := byte_core cfg s h
        rw [show s.step cfg (.byte c) = s.byte cfg c from rfl]
        unfold received
        rw [b, d]
        exact List.prefix_refl _

theorem packets_append {bs bs' : List Bytes} {w w' : Bytes} (h : Packets bs w)
    (h' : Packets bs' w') : Packets (bs ++ bs') (w ++ w') := by
  induction h with
  | nil => exact h'
  | cons hp _ ih => rw [List.append_assoc]; exact .cons hp ih

/-- Everything put out fits. -/
def Sane (cfg : Cfg) (s : Rx) : Prop :=
  (∀ b ∈ received s, b ≠ [] ∧ b.length ≤ cfg.maxSize) ∧ s.ring.length + 1 ≤ max cfg.slots 1 ∧
  ∀ b, s.cur = some b → b.length ≤ cfg.maxSize ∧ s.ring.length + 1 < cfg.slots

theorem step_sane (cfg : Cfg) (s : Rx) (e : RxEvent) (h : Sane cfg s) : Sane cfg (s.step cfg e) := by
  obtain ⟨h1, h2, h3⟩ := h
  cases e with
  | pop =>
    refine ⟨?_, ?_, ?_⟩
    · rw [show s.step cfg .pop = s.pop from rfl, pop_received]; exact h1
    · show s.pop.ring.length + 1 ≤ _
      unfold Rx.pop
      split
      · exact h2
      · rename_i hr; rw [hr] at h2; simp only [List.length_cons] at h2 ⊢; omega
    · intro b hb
      have hb' : s.pop.cur = some b := hb
      have hc := pop_core s
      simp only [core, Core.mk.injEq] at hc
      rw [hc.2.1] at hb'
      obtain ⟨x, y⟩ := h3 b hb'
      refine ⟨x, ?_⟩
      show s.pop.ring.length + 1 < _
      unfold Rx.pop
      split
      · exact y
      · rename_i hr; rw [hr] at y; simp only [List.length_cons] at y ⊢; omega
  | byte c =>
    show Sane cfg (s.byte cfg c)
    by_cases hc : c = 0xC0
    · subst hc
      obtain ⟨f1, _, _, f4⟩ := fin_received cfg s
      have hfl : ∀ b ∈ flush (core s), b ≠ [] ∧ s.cur = some b := by
        intro b hb
        unfold flush core at hb
        cases hcur : s.cur with
        | none => rw [hcur] at hb; cases hb
        | some d =>
          rw [hcur] at hb
          simp only at hb
          split at hb
          · rename_i hx
            simp only [List.mem_singleton] at hb
            subst hb
            exact ⟨hx.1, rfl⟩
          · cases hb
      have hring : (s.byte cfg 0xC0).ring.length + 1 ≤ max cfg.slots 1 := by
        have hd : decodeChar s.prev 0xC0 = (s.prev, .complete) := by unfold decodeChar; rfl
        unfold Rx.byte
        rw [hd]
        cases hcur : s.cur with
        | none => simpa [Rx.reset] using h2
        | some d =>
          obtain ⟨_, y⟩ := h3 d hcur
          simp only
          split
          · simp only [Rx.reset, List.length_append, List.length_singleton]
            omega
          · simp only [Rx.reset]; omega
      refine ⟨?_, hring, ?_⟩
      · rw [f1]
        intro b hb
        rcases List.mem_append.mp hb with hb | hb
        · exact h1 b hb
        · obtain ⟨a, b'⟩ := hfl b hb
          exact ⟨a, (h3 b b').1⟩
      · intro b hb
        rw [f4] at hb
        split at hb
        · cases hb
        · cases hb
          exact ⟨by simp, by omega⟩
    · obtain ⟨a, b, d⟩ := byte_core cfg s hc
      refine ⟨?_, by rw [b]; exact h2, ?_⟩
      · unfold received
        rw [b, d]
        exact h1
      · intro x hx
        rw [b]
        have a2 : (core (s.byte cfg c)).cur = some x := hx
        rw [a] at a2
        unfold Core.byte core at a2
        simp only at a2
        split at a2
        · rename_i o b' _ hcur
          obtain ⟨y, z⟩ := h3 b' hcur
          split at a2
          · cases a2
            refine ⟨?_, z⟩
            simp only [List.length_append, List.length_singleton]; omega
          · cases a2; exact ⟨y, z⟩
        · exact h3 x a2

theorem run_sane (cfg : Cfg) (es : List RxEvent) : ∀ s : Rx, Sane cfg s → Sane cfg (s.run cfg es) := by
  induction es with
  | nil => intro s h; exact h
  | cons e es ih => intro s h; exact ih _ (step_sane cfg s e h)

theorem init_sane (cfg : Cfg) : Sane cfg (Rx.init cfg) := by
  refine ⟨by simp [received, Rx.init, Rx.reset], by simp [Rx.init, Rx.reset], ?_⟩
  intro b hb
  simp only [Rx.init, Rx.reset, List.length_nil] at hb ⊢
  split at hb
  · cases hb
  · cases hb
    exact ⟨by simp, by omega⟩

end Hdtn.Slip
