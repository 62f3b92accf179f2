import Verif.EncapRepeater.Spec
import Mathlib.Tactic.SplitIfs

namespace Hdtn.EncapRepeater

open Hdtn.EncapRepeater.Spec

theorem trySend_fields (d : Dir) : d.trySend.queue = d.queue ∧ d.trySend.got = d.got ∧ d.trySend.sent = d.sent ∧ d.trySend.wire = d.wire ∧ d.trySend.err = d.err ∧
    d.trySend.reading = d.reading ∧ d.trySend.rxUp = d.rxUp ∧ d.trySend.txUp = d.txUp ∧ d.trySend.conn = d.conn := by
  unfold Dir.trySend; split_ifs <;> simp

theorem resume_fields (d : Dir) : d.resume.queue = d.queue ∧ d.resume.got = d.got ∧ d.resume.sent = d.sent ∧ d.resume.wire = d.wire ∧ d.resume.err = d.err ∧
    d.resume.writing = d.writing ∧ d.resume.rxUp = d.rxUp ∧ d.resume.txUp = d.txUp ∧ d.resume.conn = d.conn := by
  unfold Dir.resume Dir.startRead; split_ifs <;> simp

theorem resume_reading (d : Dir) (h : d.rxUp = true) (hr : d.resume.reading = false) : 5 ≤ d.queue.length := by
  unfold Dir.resume Dir.startRead at hr
  by_cases h1 : d.queue.length < 5
  · rw [if_pos h1, if_pos h] at hr; cases hr
  · omega

theorem trySend_writing (d : Dir) (h1 : d.queue ≠ []) (h2 : d.txUp = true) (h3 : d.err = false) : d.trySend.writing.isSome = true := by
  unfold Dir.trySend
  cases hw : d.writing with
  | none => simp [h1, h2, h3]
  | some c => simp [hw]

/-- What always holds. -/
structure Inv (d : Dir) : Prop where
  busy : ∀ c, d.writing = some c → d.queue ≠ [] ∧ d.err = false
  going : d.queue ≠ [] → d.txUp = true → d.err = false → d.writing.isSome = true
  awake : d.rxUp = true → d.reading = false → 5 ≤ d.queue.length
  down : d.rxUp = false → d.reading = false
  good : d.err = false → d.got = d.sent ++ d.queue ∧ d.wire.map Prod.snd = d.sent
  bad : d.err = true → ∃ c p k, d.got = d.sent ++ p :: d.got.drop (d.sent.length + 1) ∧ d.wire.map Prod.snd = d.sent ++ [p.take k] ∧
    d.got.drop (d.sent.length + 1) = d.queue ∧ d.wire.getLast? = some (c, p.take k)

theorem inv_init (n : Nat) : Inv (Dir.init n) := by
  constructor <;> simp [Dir.init]

theorem inv_trySend (d : Dir) (h1 : ∀ c, d.writing = some c → d.queue ≠ [] ∧ d.err = false) (c : Nat) (h : d.trySend.writing = some c) : d.queue ≠ [] ∧ d.err = false := by
  unfold Dir.trySend at h
  split_ifs at h with hc
  · simp only [Bool.and_eq_true, Bool.not_eq_true', List.isEmpty_eq_false_iff] at hc
    exact ⟨hc.1.1.1, hc.1.2⟩
  · exact h1 c h

theorem inv_packet (d : Dir) (p : Bytes) (h : Inv d) : Inv (d.packet p) := by
  unfold Dir.packet
  by_cases hr : d.reading = true
  · rw [if_pos hr]
    generalize hd : ({ d with reading := false, queue := d.queue ++ [p], got := d.got ++ [p] } : Dir) = e
    have f := trySend_fields e
    have g := resume_fields e.trySend
    obtain ⟨f1, f2, f3, f4, f5, f6, f7, f8, f9⟩ := f
    obtain ⟨g1, g2, g3, g4, g5, g6, g7, g8, g9⟩ := g
    rw [f1] at g1; rw [f2] at g2; rw [f3] at g3; rw [f4] at g4; rw [f5] at g5; rw [f7] at g7; rw [f8] at g8
    have eq : e.queue = d.queue ++ [p] := by rw [← hd]
    have eg : e.got = d.got ++ [p] := by rw [← hd]
    have es : e.sent = d.sent := by rw [← hd]
    have ew : e.wire = d.wire := by rw [← hd]
    have ee : e.err = d.err := by rw [← hd]
    have ex : e.rxUp = d.rxUp := by rw [← hd]
    have ea : e.writing = d.writing := by rw [← hd]
    have hup : d.rxUp = true := by
      cases hu : d.rxUp with
      | true => rfl
      | false => rw [h.down hu] at hr; cases hr
    constructor
    · intro c hc
      rw [g1, g5]
      rw [g6] at hc
      exact inv_trySend e (fun c hc => by rw [ea] at hc; exact ⟨by simp [eq], by rw [ee]; exact (h.busy c hc).2⟩) c hc
    · intro h1 h2 h3
      rw [g6]
      exact trySend_writing e (by rwa [g1] at h1) (by rwa [g8] at h2) (by rwa [g5] at h3)
    · intro h1 h2
      have := resume_reading e.trySend (by rw [f7, ex]; exact hup) h2
      rw [g1]; rwa [f1] at this
    · intro h1
      rw [g7, ex, hup] at h1; cases h1
    · intro h1
      rw [g5, ee] at h1
      obtain ⟨a, b⟩ := h.good h1
      rw [g1, g2, g3, g4, eg, es, ew, eq, a]
      exact ⟨by simp, b⟩
    · intro h1
      rw [g5, ee] at h1
      obtain ⟨c, q, k, a, b, b2, b3⟩ := h.bad h1
      have hl : d.sent.length + 1 ≤ d.got.length := by
        have := congrArg List.length a; simp at this; omega
      refine ⟨c, q, k, ?_⟩
      rw [g1, g2, g3, g4, eg, es, ew, eq, List.drop_append_of_le_length hl, b2]
      refine ⟨?_, b, rfl, b3⟩
      rw [b2] at a
      rw [a]; simp
  · rw [if_neg hr]; exact h

theorem inv_handleSend (d : Dir) (er : Option Nat) (h : Inv d) : Inv (d.handleSend er) := by
  unfold Dir.handleSend
  cases hw : d.writing with
  | none => exact h
  | some c =>
    cases hq : d.queue with
    | nil => exact h
    | cons p queue =>
      show Inv (Dir.resume (Dir.trySend (match er with
        | none => { d with queue := queue, writing := none, sent := d.sent ++ [p], wire := d.wire ++ [(c, p)] }
        | some k => { d with queue := queue, writing := none, err := true, wire := d.wire ++ [(c, p.take k)] })))
      have hn : d.err = false := (h.busy c hw).2
      obtain ⟨a, b⟩ := h.good hn
      generalize hd : (match er with
        | none => { d with queue := queue, writing := none, sent := d.sent ++ [p], wire := d.wire ++ [(c, p)] }
        | some k => { d with queue := queue, writing := none, err := true, wire := d.wire ++ [(c, p.take k)] } : Dir) = e
      obtain ⟨f1, f2, f3, f4, f5, f6, f7, f8, f9⟩ := trySend_fields e
      obtain ⟨g1, g2, g3, g4, g5, g6, g7, g8, g9⟩ := resume_fields e.trySend
      rw [f1] at g1; rw [f2] at g2; rw [f3] at g3; rw [f4] at g4; rw [f5] at g5; rw [f7] at g7; rw [f8] at g8
      have eq : e.queue = queue := by rw [← hd]; cases er <;> rfl
      have eg : e.got = d.got := by rw [← hd]; cases er <;> rfl
      have ex : e.rxUp = d.rxUp := by rw [← hd]; cases er <;> rfl
      have er' : e.reading = d.reading := by rw [← hd]; cases er <;> rfl
      have ea : e.writing = none := by rw [← hd]; cases er <;> rfl
      constructor
      · intro c' hc
        rw [g1, g5]
        rw [g6] at hc
        exact inv_trySend e (fun c hc => by rw [ea] at hc; cases hc) c' hc
      · intro h1 h2 h3
        rw [g6]
        exact trySend_writing e (by rwa [g1] at h1) (by rwa [g8] at h2) (by rwa [g5] at h3)
      · intro h1 h2
        have := resume_reading e.trySend (by rw [f7]; rwa [g7] at h1) h2
        rw [g1]; rwa [f1] at this
      · intro h1
        rw [g7, ex] at h1
        have : e.trySend.reading = false := by rw [f6, er']; exact h.down h1
        unfold Dir.resume Dir.startRead
        have hx : e.trySend.rxUp = false := by rw [f7, ex]; exact h1
        split_ifs with h2 h3
        · rw [hx] at h3; cases h3
        · exact this
        · exact this
      · intro h1
        rw [g5] at h1
        rw [g1, g2, g3, g4, eg, eq]
        cases er with
        | none =>
          rw [← hd]
          refine ⟨?_, by simp [b]⟩
          rw [a, hq]; simp
        | some k => rw [← hd] at h1; cases h1
      · intro h1
        rw [g5] at h1
        rw [g1, g2, g3, g4, eg, eq]
        cases er with
        | none => rw [← hd] at h1; simp only at h1; rw [hn] at h1; cases h1
        | some k =>
          refine ⟨c, p, k, ?_⟩
          rw [← hd]
          simp only
          rw [hq] at a
          have hdrop : d.got.drop (d.sent.length + 1) = queue := by
            rw [a, show d.sent ++ p :: queue = (d.sent ++ [p]) ++ queue by simp, show d.sent.length + 1 = (d.sent ++ [p]).length by simp,
              List.drop_left]
          rw [hdrop]
          exact ⟨a, by simp [b], rfl, by simp⟩

theorem inv_source (d : Dir) (up : Bool) (h : Inv d) : Inv (d.source up) := by
  unfold Dir.source Dir.startRead
  cases up with
  | true =>
    simp only [if_true]
    exact ⟨h.busy, h.going, (by intro _ h2; cases h2), (by intro h1; cases h1), h.good, h.bad⟩
  | false =>
    simp only [Bool.false_eq_true, if_false]
    exact ⟨h.busy, h.going, (by intro h1; cases h1), fun _ => rfl, h.good, h.bad⟩

theorem inv_target (d : Dir) (up : Bool) (h : Inv d) : Inv (d.target up) := by
  unfold Dir.target
  cases up with
  | true =>
    rw [if_pos rfl]
    generalize hd : ({ d with txUp := true, conn := d.conn + 1 } : Dir) = e
    obtain ⟨f1, f2, f3, f4, f5, f6, f7, f8, f9⟩ := trySend_fields e
    have hb : ∀ c, e.writing = some c → e.queue ≠ [] ∧ e.err = false := by rw [← hd]; exact h.busy
    constructor
    · intro c hc; rw [f1, f5]; exact inv_trySend e hb c hc
    · intro h1 h2 h3; exact trySend_writing e (by rwa [f1] at h1) (by rwa [f8] at h2) (by rwa [f5] at h3)
    · rw [f7, f6, f1, ← hd]; exact h.awake
    · rw [f7, f6, ← hd]; exact h.down
    · rw [f5, f2, f3, f1, f4, ← hd]; exact h.good
    · rw [f5, f2, f3, f1, f4, ← hd]; exact h.bad
  | false =>
    rw [if_neg (by decide)]
    exact ⟨h.busy, (by intro _ h2; cases h2), h.awake, h.down, h.good, h.bad⟩

theorem inv_step (d : Dir) (e : DirEv) (h : Inv d) : Inv (d.step e) := by
  cases e with
  | packet p => exact inv_packet d p h
  | written e => exact inv_handleSend d e h
  | source up => exact inv_source d up h
  | target up => exact inv_target d up h

theorem inv_run (evs : List DirEv) : ∀ d : Dir, Inv d → Inv (d.run evs) := by
  induction evs with
  | nil => intro d h; exact h
  | cons e evs ih => intro d h; exact ih _ (inv_step d e h)

/-- The events of one direction. -/
def toDir (i : Bool) : Ev → Option DirEv
  | .packet j p => if i = j then some (.packet p) else none
  | .written j e => if i = !j then some (.written e) else none
  | .connection j up => some (if i = j then .source up else .target up)

theorem step_dir (r : Repeater) (i : Bool) (e : Ev) : (r.step e).dir i = match toDir i e with | some x => (r.dir i).step x | none => r.dir i := by
  cases e with
  | packet j p => by_cases h : i = j <;> simp [Repeater.step, toDir, h, Dir.step]
  | written j e => by_cases h : i = !j <;> simp [Repeater.step, toDir, h, Dir.step]
  | connection j up => by_cases h : i = j <;> simp [Repeater.step, toDir, h, Dir.step]

theorem run_dir (i : Bool) (evs : List Ev) : ∀ r : Repeater, (r.run evs).dir i = (r.dir i).run (evs.filterMap (toDir i)) := by
  induction evs with
  | nil => intro r; rfl
  | cons e evs ih =>
    intro r
    show ((r.step e).run evs).dir i = _
    rw [ih, step_dir]
    cases h : toDir i e with
    | none => simp [List.filterMap_cons, h]
    | some x => simp [List.filterMap_cons, h, Dir.run]

theorem inv (n : Nat) (evs : List Ev) (i : Bool) : Inv (((Repeater.init n).run evs).dir i) := by
  rw [run_dir]; exact inv_run _ _ (inv_init n)

/-! ### Errors -/

theorem err_step (d : Dir) (e : DirEv) (h : ∀ k, e ≠ .written (some k)) : (d.step e).err = d.err := by
  cases e with
  | packet p =>
    simp only [Dir.step, Dir.packet]
    split_ifs
    · rw [(resume_fields _).2.2.2.2.1, (trySend_fields _).2.2.2.2.1]
    · rfl
  | written er =>
    cases er with
    | some k => exact absurd rfl (h k)
    | none =>
      simp only [Dir.step, Dir.handleSend]
      split
      · rw [(resume_fields _).2.2.2.2.1, (trySend_fields _).2.2.2.2.1]
      · rfl
  | source up => cases up <;> simp [Dir.step, Dir.source, Dir.startRead]
  | target up =>
    simp only [Dir.step, Dir.target]
    split_ifs
    · rw [(trySend_fields _).2.2.2.2.1]
    · rfl

theorem err_run (evs : List DirEv) (h : ∀ k, DirEv.written (some k) ∉ evs) : ∀ d : Dir, (d.run evs).err = d.err := by
  induction evs with
  | nil => intro d; rfl
  | cons e evs ih =>
    intro d
    show ((d.step e).run evs).err = _
    rw [ih (fun k hk => h k (List.mem_cons_of_mem _ hk)), err_step d e (fun k hk => h k (hk ▸ List.mem_cons_self))]

theorem noError_dir (i : Bool) (evs : List Ev) (h : NoError (!i) evs) (k : Nat) : DirEv.written (some k) ∉ evs.filterMap (toDir i) := by
  intro hk
  obtain ⟨e, he, hx⟩ := List.mem_filterMap.mp hk
  cases e with
  | packet j p => simp only [toDir] at hx; split_ifs at hx <;> cases hx
  | written j er =>
    simp only [toDir] at hx
    split_ifs at hx with hj
    cases hx
    apply h k
    rw [hj, Bool.not_not]; exact he
  | connection j up => simp only [toDir] at hx; split_ifs at hx <;> cases hx

/-- After an error nothing is written. -/
theorem dead_step (d : Dir) (e : DirEv) (h1 : d.err = true) (h2 : d.writing = none) : (d.step e).err = true ∧ (d.step e).writing = none ∧ (d.step e).wire = d.wire ∧
    (d.queue.length ≤ (d.step e).queue.length) := by
  have ht : ∀ x : Dir, x.err = true → x.writing = none → x.trySend.writing = none := by
    intro x h3 h4
    unfold Dir.trySend
    simp [h3, h4]
  cases e with
  | packet p =>
    simp only [Dir.step, Dir.packet]
    split_ifs
    · obtain ⟨f1, f2, f3, f4, f5, f6, f7, f8, f9⟩ := trySend_fields { d with reading := false, queue := d.queue ++ [p], got := d.got ++ [p] }
      obtain ⟨g1, g2, g3, g4, g5, g6, g7, g8, g9⟩ := resume_fields (Dir.trySend { d with reading := false, queue := d.queue ++ [p], got := d.got ++ [p] })
      rw [g5, g6, g4, g1, f5, f4, f1]
      exact ⟨h1, ht _ h1 h2, rfl, by simp⟩
    · exact ⟨h1, h2, rfl, Nat.le_refl _⟩
  | written er => simp [Dir.step, Dir.handleSend, h1, h2]
  | source up => cases up <;> simp [Dir.step, Dir.source, Dir.startRead, h1, h2]
  | target up =>
    cases up with
    | false => simp [Dir.step, Dir.target, h1, h2]
    | true =>
      simp only [Dir.step, Dir.target, if_true]
      obtain ⟨f1, f2, f3, f4, f5, f6, f7, f8, f9⟩ := trySend_fields { d with txUp := true, conn := d.conn + 1 }
      rw [f5, f4, f1]
      exact ⟨h1, ht _ h1 h2, rfl, Nat.le_refl _⟩

theorem dead_run (evs : List DirEv) : ∀ d : Dir, d.err = true → d.writing = none → (d.run evs).wire = d.wire ∧ d.queue.length ≤ (d.run evs).queue.length := by
  induction evs with
  | nil => intro d _ _; exact ⟨rfl, Nat.le_refl _⟩
  | cons e evs ih =>
    intro d h1 h2
    obtain ⟨a, b, c, l⟩ := dead_step d e h1 h2
    obtain ⟨x, y⟩ := ih (d.step e) a b
    exact ⟨x.trans c, l.trans y⟩

/-! ### The bound -/

/-- Before the first connection of the source, and after it. -/
structure Bound (d : Dir) (n : Nat) : Prop where
  le : d.queue.length ≤ 5
  room : d.reading = true → d.queue.length < 5
  fresh : n = 0 → d.queue = [] ∧ d.rxUp = false

theorem resume_bound (d : Dir) (hf : d.reading = true → d.queue.length < 5) (h : d.resume.reading = true) : d.queue.length < 5 := by
  unfold Dir.resume at h
  split_ifs at h with h1
  · exact h1
  · exact hf h

theorem bound_step (d : Dir) (n : Nat) (e : DirEv) (hi : Inv d) (h : Bound d n) (hn : n + (if e = .source true then 1 else 0) ≤ 1) :
    Bound (d.step e) (n + (if e = .source true then 1 else 0)) := by
  cases e with
  | packet p =>
    have hz : n + (if DirEv.packet p = .source true then 1 else 0) = n := by simp
    rw [hz]
    simp only [Dir.step, Dir.packet]
    split_ifs with hr
    · obtain ⟨f1, f2, f3, f4, f5, f6, f7, f8, f9⟩ := trySend_fields { d with reading := false, queue := d.queue ++ [p], got := d.got ++ [p] }
      obtain ⟨g1, g2, g3, g4, g5, g6, g7, g8, g9⟩ := resume_fields (Dir.trySend { d with reading := false, queue := d.queue ++ [p], got := d.got ++ [p] })
      have := h.room hr
      constructor
      · rw [g1, f1]; simp; omega
      · intro h1
        have := resume_bound _ (by intro h2; rw [f6] at h2; cases h2) h1
        rw [g1]; exact this
      · intro h0
        have hd := hi.down (h.fresh h0).2
        rw [hr] at hd; cases hd
    · exact h
  | written er =>
    have hz : n + (if DirEv.written er = .source true then 1 else 0) = n := by simp
    rw [hz]
    simp only [Dir.step, Dir.handleSend]
    cases hw : d.writing with
    | none => exact h
    | some c =>
      cases hq : d.queue with
      | nil => exact h
      | cons p queue =>
        have key : ∀ x : Dir, x.queue = queue → x.rxUp = d.rxUp → Bound (Dir.resume (Dir.trySend x)) n := by
          intro x hx hx2
          have hl := h.le
          rw [hq, List.length_cons] at hl
          obtain ⟨f1, f2, f3, f4, f5, f6, f7, f8, f9⟩ := trySend_fields x
          obtain ⟨g1, g2, g3, g4, g5, g6, g7, g8, g9⟩ := resume_fields x.trySend
          constructor
          · rw [g1, f1, hx]; omega
          · intro _; rw [g1, f1, hx]; omega
          · intro h0
            have := (h.fresh h0).1
            rw [hq] at this; cases this
        cases er with
        | none => exact key _ rfl rfl
        | some k => exact key _ rfl rfl
  | source up =>
    cases up with
    | true =>
      have h0 : n = 0 := by simp at hn; omega
      have hq := (h.fresh h0).1
      simp only [Dir.step, Dir.source, Dir.startRead, if_true]
      constructor
      · exact h.le
      · intro _; simp [hq]
      · intro h1; omega
    | false =>
      have hz : n + (if DirEv.source false = .source true then 1 else 0) = n := by simp
      rw [hz]
      simp only [Dir.step, Dir.source, Bool.false_eq_true, if_false]
      exact ⟨h.le, (by intro h1; cases h1), fun h0 => ⟨(h.fresh h0).1, rfl⟩⟩
  | target up =>
    have hz : n + (if DirEv.target up = .source true then 1 else 0) = n := by simp
    rw [hz]
    simp only [Dir.step, Dir.target]
    split_ifs
    · obtain ⟨f1, f2, f3, f4, f5, f6, f7, f8, f9⟩ := trySend_fields { d with txUp := true, conn := d.conn + 1 }
      constructor
      · rw [f1]; exact h.le
      · rw [f6, f1]; exact h.room
      · rw [f1, f7]; exact h.fresh
    · exact ⟨h.le, h.room, h.fresh⟩

theorem bound_run (evs : List DirEv) : ∀ (d : Dir) (n : Nat), Inv d → Bound d n → n + evs.countP (· == DirEv.source true) ≤ 1 → (d.run evs).queue.length ≤ 5 := by
  induction evs with
  | nil => intro d n _ h _; exact h.le
  | cons e evs ih =>
    intro d n hi h hn
    rw [List.countP_cons] at hn
    have he : (if (e == DirEv.source true) = true then 1 else 0) = (if e = DirEv.source true then 1 else 0 : Nat) := by simp
    rw [he] at hn
    exact ih (d.step e) _ (inv_step d e hi) (bound_step d n e hi h (by omega)) (by omega)

theorem once_dir (i : Bool) (evs : List Ev) : (evs.filterMap (toDir i)).countP (· == DirEv.source true) = evs.countP (fun e => e == Ev.connection i true) := by
  induction evs with
  | nil => rfl
  | cons e evs ih =>
    rw [List.filterMap_cons, List.countP_cons]
    cases e with
    | packet j p => by_cases h : i = j <;> simp [toDir, h, List.countP_cons] <;> simpa [h] using ih
    | written j er => by_cases h : i = !j <;> simp [toDir, h, List.countP_cons] <;> simpa [h] using ih
    | connection j up =>
      by_cases h : i = j
      · subst h
        simp [toDir, List.countP_cons, ih]
      · have h' : ¬ j = i := fun x => h x.symm
        simp [toDir, h, h', List.countP_cons, ih]

/-! ### Draining -/

theorem written_step (d : Dir) (hi : Inv d) (h1 : d.txUp = true) (h2 : d.err = false) (p : Bytes) (queue : List Bytes) (hq : d.queue = p :: queue) :
    (d.step (.written none)).queue = queue ∧ (d.step (.written none)).txUp = true ∧ (d.step (.written none)).err = false ∧
    (d.step (.written none)).sent = d.sent ++ [p] ∧ (d.step (.written none)).rxUp = d.rxUp ∧ (d.step (.written none)).got = d.got := by
  have hw := hi.going (by rw [hq]; simp) h1 h2
  obtain ⟨c, hc⟩ := Option.isSome_iff_exists.mp hw
  simp only [Dir.step, Dir.handleSend, hc, hq]
  obtain ⟨f1, f2, f3, f4, f5, f6, f7, f8, f9⟩ := trySend_fields { d with queue := queue, writing := none, sent := d.sent ++ [p], wire := d.wire ++ [(c, p)] }
  obtain ⟨g1, g2, g3, g4, g5, g6, g7, g8, g9⟩ := resume_fields (Dir.trySend { d with queue := queue, writing := none, sent := d.sent ++ [p], wire := d.wire ++ [(c, p)] })
  rw [g1, g8, g5, g3, g7, g2, f1, f8, f5, f3, f7, f2]
  exact ⟨rfl, h1, h2, rfl, rfl, rfl⟩

theorem drain (n : Nat) : ∀ d : Dir, Inv d → d.txUp = true → d.err = false → d.queue.length ≤ n →
    (d.run (List.replicate n (.written none))).queue = [] ∧ (d.run (List.replicate n (.written none))).got = d.got ∧
    (d.run (List.replicate n (.written none))).err = false ∧ (d.run (List.replicate n (.written none))).rxUp = d.rxUp := by
  induction n with
  | zero =>
    intro d _ _ h2 h
    have hq : d.queue = [] := List.length_eq_zero_iff.mp (by omega)
    exact ⟨hq, rfl, h2, rfl⟩
  | succ n ih =>
    intro d hi h1 h2 h
    rw [List.replicate_succ]
    show ((d.step (.written none)).run _).queue = [] ∧ ((d.step (.written none)).run _).got = _ ∧ ((d.step (.written none)).run _).err = _ ∧ ((d.step (.written none)).run _).rxUp = _
    have hi' := inv_step d (.written none) hi
    cases hq : d.queue with
    | nil =>
      have hs : d.step (.written none) = d := by
        simp only [Dir.step, Dir.handleSend, hq]
        split <;> first | rfl | simp_all
      rw [hs]
      exact ih d hi h1 h2 (by simp [hq])
    | cons p queue =>
      obtain ⟨a, b, c, _, e, g⟩ := written_step d hi h1 h2 p queue hq
      obtain ⟨x, y, z, w⟩ := ih _ hi' b c (by rw [a]; rw [hq] at h; simp at h; omega)
      exact ⟨x, y.trans g, z, w.trans e⟩

/-! ### What came, and what is connected -/

theorem got_step (d : Dir) (e : DirEv) : (d.step e).got = d.got ∨ ∃ p, e = .packet p ∧ (d.step e).got = d.got ++ [p] := by
  cases e with
  | packet p =>
    simp only [Dir.step, Dir.packet]
    split_ifs
    · right
      exact ⟨p, rfl, by rw [(resume_fields _).2.1, (trySend_fields _).2.1]⟩
    · exact Or.inl rfl
  | written er =>
    left
    simp only [Dir.step, Dir.handleSend]
    split
    · rw [(resume_fields _).2.1, (trySend_fields _).2.1]; cases er <;> rfl
    · rfl
  | source up => left; cases up <;> simp [Dir.step, Dir.source, Dir.startRead]
  | target up =>
    left
    simp only [Dir.step, Dir.target]
    split_ifs
    · rw [(trySend_fields _).2.1]
    · rfl

theorem got_brought (i : Bool) (evs : List Ev) : ∀ r : Repeater, ∃ l, l.Sublist (brought i evs) ∧ ((r.run evs).dir i).got = (r.dir i).got ++ l := by
  induction evs with
  | nil => intro r; exact ⟨[], List.Sublist.refl _, by simp [Repeater.run]⟩
  | cons e evs ih =>
    intro r
    obtain ⟨l, h1, h2⟩ := ih (r.step e)
    have h2 : ((r.run (e :: evs)).dir i).got = ((r.step e).dir i).got ++ l := h2
    rw [step_dir] at h2
    cases e with
    | packet j p =>
      by_cases h : i = j
      · subst h
        simp only [toDir, if_true] at h2
        rcases got_step (r.dir i) (.packet p) with hg | ⟨q, hq, hg⟩
        · rw [hg] at h2
          exact ⟨l, by simp only [brought, if_true]; exact h1.cons p, h2⟩
        · cases hq
          rw [hg] at h2
          exact ⟨p :: l, by simp only [brought, if_true]; exact h1.cons_cons p, by rw [h2]; simp⟩
      · simp only [toDir, if_neg h] at h2
        exact ⟨l, by simp only [brought, if_neg (fun x : j = i => h x.symm)]; exact h1, h2⟩
    | written j er =>
      by_cases h : i = !j
      · simp only [toDir, if_pos h] at h2
        rcases got_step (r.dir i) (.written er) with hg | ⟨q, hq, hg⟩
        · rw [hg] at h2; exact ⟨l, h1, h2⟩
        · cases hq
      · simp only [toDir, if_neg h] at h2
        exact ⟨l, h1, h2⟩
    | connection j up =>
      simp only [toDir] at h2
      refine ⟨l, h1, ?_⟩
      rw [h2]
      by_cases h : i = j
      · rw [if_pos h]
        rcases got_step (r.dir i) (.source up) with hg | ⟨q, hq, hg⟩
        · rw [hg]
        · cases hq
      · rw [if_neg h]
        rcases got_step (r.dir i) (.target up) with hg | ⟨q, hq, hg⟩
        · rw [hg]
        · cases hq

theorem ups_step (d : Dir) (e : DirEv) : (d.step e).rxUp = (match e with | .source u => u | _ => d.rxUp) ∧ (d.step e).txUp = (match e with | .target u => u | _ => d.txUp) := by
  cases e with
  | packet p =>
    simp only [Dir.step, Dir.packet]
    split_ifs
    · rw [(resume_fields _).2.2.2.2.2.2.1, (resume_fields _).2.2.2.2.2.2.2.1, (trySend_fields _).2.2.2.2.2.2.1, (trySend_fields _).2.2.2.2.2.2.2.1]
      exact ⟨rfl, rfl⟩
    · exact ⟨rfl, rfl⟩
  | written er =>
    simp only [Dir.step, Dir.handleSend]
    split
    · rw [(resume_fields _).2.2.2.2.2.2.1, (resume_fields _).2.2.2.2.2.2.2.1, (trySend_fields _).2.2.2.2.2.2.1, (trySend_fields _).2.2.2.2.2.2.2.1]
      cases er <;> exact ⟨rfl, rfl⟩
    · exact ⟨rfl, rfl⟩
  | source up => cases up <;> simp [Dir.step, Dir.source, Dir.startRead]
  | target up =>
    cases up with
    | false => simp [Dir.step, Dir.target]
    | true =>
      simp only [Dir.step, Dir.target, if_true]
      rw [(trySend_fields _).2.2.2.2.2.2.1, (trySend_fields _).2.2.2.2.2.2.2.1]
      exact ⟨rfl, rfl⟩

theorem ups_run (i : Bool) (evs : List Ev) : ∀ r : Repeater,
    ((r.run evs).dir i).rxUp = evs.foldl (upAfter i) (r.dir i).rxUp ∧
    ((r.run evs).dir i).txUp = evs.foldl (upAfter (!i)) (r.dir i).txUp := by
  induction evs with
  | nil => intro r; exact ⟨rfl, rfl⟩
  | cons e evs ih =>
    intro r
    obtain ⟨h1, h2⟩ := ih (r.step e)
    have hs := step_dir r i e
    show (((r.step e).run evs).dir i).rxUp = _ ∧ (((r.step e).run evs).dir i).txUp = _
    rw [h1, h2, List.foldl_cons, List.foldl_cons]
    have key : ((r.step e).dir i).rxUp = upAfter i (r.dir i).rxUp e ∧
        ((r.step e).dir i).txUp = upAfter (!i) (r.dir i).txUp e := by
      rw [hs]
      cases e with
      | packet j p =>
        by_cases h : i = j
        · simp only [toDir, if_pos h]; exact ups_step _ _
        · simp only [toDir, if_neg h]; exact ⟨rfl, rfl⟩
      | written j er =>
        by_cases h : i = !j
        · simp only [toDir, if_pos h]; exact ups_step _ _
        · simp only [toDir, if_neg h]; exact ⟨rfl, rfl⟩
      | connection j up =>
        by_cases h : i = j
        · subst h
          have hn : ¬ i = !i := by cases i <;> decide
          simp only [toDir, upAfter, if_true, hn, if_false]
          exact ups_step _ _
        · have h' : ¬ j = i := fun x => h x.symm
          have hn : j = !i := by cases i <;> cases j <;> simp_all
          simp only [toDir, upAfter, if_neg h, if_neg h', if_pos hn]
          exact ups_step _ _
    rw [key.1, key.2]
    exact ⟨rfl, rfl⟩

/-! ### After an error the source stops too -/

theorem stopped_step (d : Dir) (e : DirEv) (he : e ≠ .source true) (h1 : d.err = true) (h2 : d.writing = none) (h3 : d.reading = false) :
    (d.step e).err = true ∧ (d.step e).writing = none ∧ (d.step e).reading = false ∧ (d.step e).got = d.got := by
  obtain ⟨a, b, _, _⟩ := dead_step d e h1 h2
  refine ⟨a, b, ?_⟩
  cases e with
  | packet p => simp [Dir.step, Dir.packet, h3]
  | written er => simp [Dir.step, Dir.handleSend, h2, h3]
  | source up =>
    cases up with
    | true => exact absurd rfl he
    | false => simp [Dir.step, Dir.source]
  | target up =>
    simp only [Dir.step, Dir.target]
    split_ifs
    · rw [(trySend_fields _).2.2.2.2.2.1, (trySend_fields _).2.1]; exact ⟨h3, rfl⟩
    · exact ⟨h3, rfl⟩

theorem stopped_run (evs : List DirEv) (he : DirEv.source true ∉ evs) : ∀ d : Dir, d.err = true → d.writing = none → d.reading = false → (d.run evs).got = d.got := by
  induction evs with
  | nil => intro d _ _ _; rfl
  | cons e evs ih =>
    intro d h1 h2 h3
    obtain ⟨a, b, c, g⟩ := stopped_step d e (fun x => he (x ▸ List.mem_cons_self)) h1 h2 h3
    exact (ih (fun x => he (List.mem_cons_of_mem _ x)) (d.step e) a b c).trans g

/-! ### Reconnections of the source -/

/-- A source that is connected again and again, while the target is not there. -/
theorem grow (p : Bytes) (n : Nat) : ∀ d : Dir, d.txUp = false → ∀ m, m = n →
    (d.run (List.replicate m [DirEv.source true, .packet p]).flatten).queue.length = d.queue.length + n := by
  induction n with
  | zero => intro d _ m hm; subst hm; simp [Dir.run]
  | succ n ih =>
    intro d h m hm
    subst hm
    rw [List.replicate_succ, List.flatten_cons]
    show (((d.step (.source true)).step (.packet p)).run (List.replicate n [DirEv.source true, .packet p]).flatten).queue.length = _
    have e1 : (d.step (.source true)).reading = true := by simp [Dir.step, Dir.source, Dir.startRead]
    have e2 : (d.step (.source true)).queue = d.queue := by simp [Dir.step, Dir.source, Dir.startRead]
    have e3 : ((d.step (.source true)).step (.packet p)).queue = d.queue ++ [p] := by
      generalize hx : d.step (.source true) = x at e1 e2
      simp only [Dir.step, Dir.packet]
      rw [if_pos e1, (resume_fields _).1, (trySend_fields _).1, e2]
    have e4 : ((d.step (.source true)).step (.packet p)).txUp = false := by
      rw [(ups_step _ _).2]
      show (d.step (.source true)).txUp = false
      rw [(ups_step _ _).2]; exact h
    rw [ih _ e4 n rfl, e3]
    simp; omega

end Hdtn.EncapRepeater
