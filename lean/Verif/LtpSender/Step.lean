import Verif.LtpSender.Inv

namespace Hdtn.LtpSender
open Hdtn.FragmentSet Hdtn.LtpReport
open Hdtn.LtpReceiver (Seg Reason)

/-- `notifyDelete` as a record. -/
theorem notifyDelete_spec (st : State) (c : Bool) (r : Reason) :
    notifyDelete st c r = ({ st with didNotify := true }, if st.didNotify then [] else [.delete c r]) := by
  rcases st with ⟨a, b, c', d, e, f, g, h, i, j, k, l⟩
  cases k <;> rfl

theorem redAcked_covers (cfg : Cfg) (acked : List Frag) (h : redAcked cfg acked = true)
    (hlt : cfg.red < 2 ^ 64) : ∀ x < cfg.red, Covers acked x := by
  unfold redAcked at h
  split at h
  · rename_i f
    simp only [decide_eq_true_eq] at h
    intro x hx
    rw [sub64_eq _ _ hlt (by omega)] at h
    exact ⟨f, by simp, by simp only [Frag.Has]; omega⟩
  · cases h

theorem covers_redAcked (cfg : Cfg) (acked : List Frag) (hcan : Canonical acked)
    (hin : ∀ x, Covers acked x → x < cfg.red) (hpos : 1 ≤ cfg.red) (hlt : cfg.red < 2 ^ 64)
    (h : ∀ x < cfg.red, Covers acked x) : redAcked cfg acked = true := by
  have he : acked = [⟨0, cfg.red - 1⟩] := by
    apply canonical_unique _ _ hcan
    · rw [canonical_cons]
      exact ⟨by simp only [Frag.Valid]; omega, by simp, canonical_nil⟩
    · intro x
      rw [covers_cons]
      simp only [Frag.Has, covers_nil, or_false]
      constructor
      · intro hx; have := hin x hx; omega
      · intro hx; exact h x (by omega)
  rw [he, redAcked, sub64_eq _ _ hlt hpos]
  simp

/-! ### First pass -/

/-- What follows the last segment of the first pass. -/
def FirstTail (cfg : Cfg) (st1 st' : State) (tail : List Eff) : Prop :=
  (st1.index ≠ cfg.block.length ∧ st' = st1 ∧ tail = []) ∨
  (st1.index = cfg.block.length ∧ (cfg.red = 0 ∨ redAcked cfg st1.acked = true) ∧
    st' = { st1 with didNotify := true } ∧
    tail = .transmitted :: if st1.didNotify then [] else [.delete false .reserved]) ∨
  (st1.index = cfg.block.length ∧ ¬ (cfg.red = 0 ∨ redAcked cfg st1.acked = true) ∧ st' = st1 ∧
    tail = [.transmitted])

theorem firstPass_spec (cfg : Cfg) (hc : cfg.Sane) (st : State) (hi : Inv cfg st) :
    (st.index = cfg.block.length ∧ firstPass cfg st = some (st, [])) ∨
    (st.index < cfg.block.length ∧ ∃ st1 s st' tail, FirstStep cfg st st1 s ∧ FirstTail cfg st1 st' tail ∧
      firstPass cfg st = some (st', .first s :: tail)) := by
  have hidx := hi.index
  by_cases h : st.index < cfg.block.length
  · right
    refine ⟨h, ?_⟩
    have key : ∃ st1 s, (if st.index < cfg.red then firstRed cfg st else firstGreen cfg st) =
        some (st1, [.first s]) ∧ FirstStep cfg st st1 s := by
      by_cases hr : st.index < cfg.red
      · rw [if_pos hr]; exact firstRed_spec cfg hc st hi hr
      · rw [if_neg hr]; exact firstGreen_spec cfg hc st hi hr h
    obtain ⟨st1, s, k1, k2⟩ := key
    rw [firstPass, if_pos h, k1]
    simp only
    by_cases he : st1.index = cfg.block.length
    · rw [if_pos he]
      by_cases hd : cfg.red = 0 ∨ redAcked cfg st1.acked = true
      · rw [if_pos hd, notifyDelete_spec]
        exact ⟨st1, s, _, _, k2, .inr (.inl ⟨he, hd, rfl, rfl⟩), rfl⟩
      · rw [if_neg hd]
        exact ⟨st1, s, _, _, k2, .inr (.inr ⟨he, hd, rfl, rfl⟩), rfl⟩
    · rw [if_neg he]
      exact ⟨st1, s, _, _, k2, .inl ⟨he, rfl, rfl⟩, rfl⟩
  · left
    refine ⟨by omega, ?_⟩
    rw [firstPass, if_neg h]

theorem FirstStep.size {cfg : Cfg} {st st1 : State} {s : Seg} (h : FirstStep cfg st st1 s) :
    st1.index = st.index + s.length ∧ st1.acked = st.acked ∧ st1.allRed = st.allRed ∧
    st1.resend = st.resend ∧ st1.pending = st.pending ∧ st1.acks = st.acks ∧ st1.seen = st.seen ∧
    st1.didNotify = st.didNotify := by
  rcases h.frame with ⟨-, hf⟩ | ⟨-, -, -, -, hf⟩ <;> rw [hf] <;> simp

theorem FirstStep.inv {cfg : Cfg} {st st1 : State} {s : Seg} (hi : Inv cfg st)
    (h : FirstStep cfg st st1 s) {i : Nat} (hok : FirstOk cfg i s) : Inv cfg st1 := by
  obtain ⟨z1, z2, z3, z4, z5, z6, z7, z8⟩ := h.size
  refine ⟨?_, fun hp => ?_, ?_, by rw [z2]; exact hi.acked, by rw [z2]; exact hi.inside,
    by rw [z2, z3]; exact hi.allRed, by rw [z4]; exact hi.resend, ?_, by rw [z5]; exact hi.pending⟩
  · have := hok.inside
    rw [h.offset] at this
    omega
  · have hcnt := hi.counter hp
    obtain ⟨c1, c2, c3⟩ := h.counter hp
    by_cases hr : s.IsRed
    · by_cases h1 : st.counter = 1
      · rw [c1 hr h1]; omega
      · rw [c2 hr h1]; omega
    · rw [c3 hr]; omega
  · rcases h.frame with ⟨-, hf⟩ | ⟨-, -, -, -, hf⟩ <;> rw [hf]
    · exact hi.csn
    · exact Nat.mod_lt _ (by decide)
  · rcases h.frame with ⟨-, hf⟩ | ⟨-, -, ho, hfl, hf⟩ <;> rw [hf]
    · exact hi.timers
    · intro t ht
      rcases startTimer_mem ht with ht | rfl
      · exact hi.timers t ht
      · exact ⟨ho, hfl, rfl⟩

theorem Inv.notified {cfg : Cfg} {st : State} (hi : Inv cfg st) (b : Bool) :
    Inv cfg { st with didNotify := b } :=
  ⟨hi.index, hi.counter, hi.csn, hi.acked, hi.inside, hi.allRed, hi.resend, hi.timers, hi.pending⟩

theorem FirstTail.inv {cfg : Cfg} {st1 st' : State} {tail : List Eff} (hi : Inv cfg st1)
    (h : FirstTail cfg st1 st' tail) : Inv cfg st' := by
  rcases h with ⟨-, rfl, -⟩ | ⟨-, -, rfl, -⟩ | ⟨-, -, rfl, -⟩
  · exact hi
  · exact hi.notified true
  · exact hi

/-! ### Queued packets -/

/-- The packet made from an entry of the queue. -/
def segOf (cfg : Cfg) (f : Resend) : Seg :=
  ⟨f.flags, cfg.service, f.offset, f.length,
    if f.flags ≠ 0 then some (f.checkpoint, f.report) else none,
    some ((cfg.block.drop f.offset).take f.length)⟩

theorem nextCritical_spec (cfg : Cfg) (hc : cfg.Sane) (st : State) (hi : Inv cfg st) :
    (∃ a rest, st.acks = a :: rest ∧ nextCritical cfg st = some ({ st with acks := rest }, [.ack a])) ∨
    (st.acks = [] ∧ st.allRed = true ∧ nextCritical cfg st = some ({ st with resend := [] }, [])) ∨
    (st.acks = [] ∧ st.allRed = false ∧ st.resend = [] ∧ nextCritical cfg st = some (st, [])) ∨
    (∃ f rest, st.acks = [] ∧ st.allRed = false ∧ st.resend = f :: rest ∧
      nextCritical cfg st = some ({ st with
        resend := rest
        timers := if f.flags ≠ 0 then startTimer st.timers f else st.timers },
        [.again (segOf cfg f)])) := by
  have hred := hc.red
  cases ha : st.acks with
  | cons a rest =>
    left
    refine ⟨a, rest, rfl, ?_⟩
    rw [nextCritical, ha]
  | nil =>
    right
    cases hall : st.allRed with
    | true =>
      left
      refine ⟨rfl, rfl, ?_⟩
      rw [nextCritical, ha]
      simp only [hall, if_true]
    | false =>
      right
      cases hr : st.resend with
      | nil =>
        left
        refine ⟨rfl, rfl, rfl, ?_⟩
        rw [nextCritical, ha]
        simp only [hall, Bool.false_eq_true, if_false, hr]
      | cons f rest =>
        right
        have hf := hi.resend f (by rw [hr]; simp)
        refine ⟨f, rest, rfl, rfl, rfl, ?_⟩
        rw [nextCritical, ha]
        simp only [hall, Bool.false_eq_true, if_false, hr]
        rw [slice_some _ _ _ (by have := hf.inside; omega)]
        simp only
        by_cases hz : f.flags = 0
        · rw [if_neg (by simpa using hz)]
          simp only [segOf, hz, ne_eq, not_true_eq_false, if_false]
        · rw [if_pos hz]
          simp only [segOf, ne_eq, hz, not_false_eq_true, if_true]

/-! ### Reports -/

theorem mem_addPending {p q : Frag × Nat} {l : List (Frag × Nat)} (h : q ∈ addPending p l) :
    q = p ∨ q ∈ l := by
  induction l with
  | nil => simp only [addPending, List.mem_singleton] at h; exact .inl h
  | cons r rs ih =>
    rw [addPending] at h
    split at h
    · rcases List.mem_cons.1 h with h | h
      · exact .inl h
      · exact .inr h
    · split at h
      · rcases List.mem_cons.1 h with h | h
        · right; simp [h]
        · rcases ih h with h | h
          · exact .inl h
          · right; simp [h]
      · exact .inr h

theorem addPending_length (p : Frag × Nat) (l : List (Frag × Nat)) :
    (addPending p l).length ≤ l.length + 1 ∧ addPending p l ≠ [] := by
  induction l with
  | nil => simp [addPending]
  | cons r rs ih =>
    rw [addPending]
    split
    · simp
    · split
      · simp only [List.length_cons]; exact ⟨by omega, by simp⟩
      · simp

theorem fair_bounds {cfg : Cfg} (hc : cfg.Sane) {r : Report} (hr : FairReport cfg r) :
    (⟨r.lower, sub64 r.upper 1⟩ : Frag) = ⟨r.lower, r.upper - 1⟩ ∧
    (⟨r.lower, r.upper - 1⟩ : Frag).Valid ∧ r.upper - 1 < cfg.red ∧ r.InRange := by
  have h1 := hr.1.1
  have h2 := hr.2
  have h3 := hc.red
  have h4 := hc.block
  refine ⟨by rw [sub64_eq _ _ (by omega) (by omega)], by simp only [Frag.Valid]; omega, by omega, ?_⟩
  intro c hc'
  have := hr.1.2.1 c hc'
  exact ⟨this.1, by omega⟩

/-- What a report with new claims does to the queue. -/
theorem scheduleResend_spec (cfg : Cfg) (hc : cfg.Sane) (st : State) (hi : Inv cfg st) (serial : Nat)
    (b : Frag) (hb : b.Valid) (hbe : b.e < cfg.red) :
    ∃ q n pend le, scheduleResend cfg st serial b = some { st with
        nextCsn := (st.nextCsn + n) % U64
        resend := st.resend ++ q
        pending := pend
        largestEnd := le } ∧
      Push cfg st.nextCsn n q ∧ n + pend.length ≤ st.pending.length + 1 ∧
      (∀ p ∈ pend, p.1.Valid ∧ p.1.e < cfg.red) := by
  obtain ⟨g1, g2⟩ := boundsMinus_spec b hb st.acked hi.acked
  have hcsn : (st.nextCsn + 0) % U64 = st.nextCsn := by
    rw [Nat.add_zero]; exact Nat.mod_eq_of_lt hi.csn
  have hin : ∀ x, Covers (boundsMinusFragments b st.acked) x → x < cfg.red := by
    intro x hx
    have := ((g2 x).1 hx).1
    simp only [Frag.Has] at this
    omega
  rw [scheduleResend]
  simp only
  by_cases hd : cfg.deferral = true
  · simp only [hd, Bool.not_true, Bool.false_eq_true, if_false]
    cases hp : st.pending with
    | nil =>
      simp only
      by_cases hg : boundsMinusFragments b st.acked = []
      · rw [if_pos hg]
        exact ⟨[], 0, [], st.largestEnd, by rw [hcsn, List.append_nil, ← hp], push_nil _ _, by simp,
          by simp⟩
      · rw [if_neg hg]
        refine ⟨[], 0, [(b, serial)], b.e, by rw [hcsn, List.append_nil], push_nil _ _, by simp, ?_⟩
        intro p hp'
        simp only [List.mem_singleton] at hp'
        subst hp'
        exact ⟨hb, hbe⟩
    | cons p0 ps0 =>
      simp only
      have hl := addPending_length (b, serial) (p0 :: ps0)
      have hmem : ∀ p ∈ addPending (b, serial) (p0 :: ps0), p.1.Valid ∧ p.1.e < cfg.red := by
        intro p hp'
        rcases mem_addPending hp' with rfl | h
        · exact ⟨hb, hbe⟩
        · exact hi.pending p (by rw [hp]; exact h)
      generalize addPending (b, serial) (p0 :: ps0) = l at *
      cases l with
      | nil => exact absurd rfl hl.2
      | cons p1 ps1 =>
        simp only
        by_cases hcov : containsEntirely st.acked ⟨p1.1.b, max st.largestEnd b.e⟩ = true
        · rw [if_pos hcov]
          exact ⟨[], 0, [], max st.largestEnd b.e, by rw [hcsn, List.append_nil], push_nil _ _,
            by simp, by simp⟩
        · rw [if_neg hcov]
          refine ⟨[], 0, p1 :: ps1, max st.largestEnd b.e, by rw [hcsn, List.append_nil], push_nil _ _,
            ?_, hmem⟩
          have := hl.1
          omega
  · have hd' : cfg.deferral = false := by simpa using hd
    simp only [hd', Bool.not_false, if_true]
    rcases resendData_spec cfg hc serial st _ g1 hin with ⟨-, h⟩ | ⟨q, h1, h2, -⟩
    · exact ⟨[], 0, st.pending, st.largestEnd, by rw [h, hcsn, List.append_nil], push_nil _ _,
        by omega, hi.pending⟩
    · exact ⟨q, 1, st.pending, st.largestEnd, h1, h2.push hi.csn, by omega, hi.pending⟩

/-- The effect of a report. -/
structure Reported (cfg : Cfg) (st st' : State) (serial checkpoint : Nat) (r : Report)
    (effs : List Eff) : Prop where
  known : serial ∈ st.seen →
    st' = { st with acks := st.acks ++ [serial] } ∧ effs = if st.didNotify then [] else [.producible]
  fresh : serial ∉ st.seen → ∃ q n pend le all,
    st' = { st with
      acks := st.acks ++ [serial]
      seen := serial :: st.seen
      timers := if checkpoint ≠ 0 then st.timers.filter (fun t => t.1 ≠ checkpoint) else st.timers
      acked := (addReport st.acked r).1
      allRed := all
      didNotify := st'.didNotify
      nextCsn := (st.nextCsn + n) % U64
      resend := st.resend ++ q
      pending := pend
      largestEnd := le } ∧
    Push cfg st.nextCsn n q ∧ n + pend.length ≤ st.pending.length + 1 ∧
    (∀ p ∈ pend, p.1.Valid ∧ p.1.e < cfg.red) ∧
    (all = (st.allRed || ((addReport st.acked r).2 && redAcked cfg (addReport st.acked r).1))) ∧
    (((addReport st.acked r).2 = true ∧ st.index = cfg.block.length ∧ all = true ∧ st'.didNotify = true ∧
        effs = if st.didNotify then [] else [.delete false .reserved]) ∨
      (¬ ((addReport st.acked r).2 = true ∧ st.index = cfg.block.length ∧ all = true) ∧
        st'.didNotify = st.didNotify ∧ effs = if st.didNotify then [] else [.producible]))

theorem reportSegment_spec (cfg : Cfg) (hc : cfg.Sane) (st : State) (hi : Inv cfg st)
    (serial checkpoint : Nat) (r : Report) (hr : FairReport cfg r) :
    ∃ st' effs, reportSegment cfg st serial checkpoint r = some (st', effs) ∧
      Reported cfg st st' serial checkpoint r effs ∧ Inv cfg st' := by
  obtain ⟨b1, b2, b3, b4⟩ := fair_bounds hc hr
  have hredlt : cfg.red < 2 ^ 64 := by have := hc.red; have := hc.block; omega
  by_cases hs : serial ∈ st.seen
  · rw [reportSegment]
    simp only [hs, if_true, List.nil_append]
    refine ⟨_, _, rfl, ⟨fun _ => ⟨rfl, rfl⟩, fun h => absurd hs h⟩, ?_⟩
    exact ⟨hi.index, hi.counter, hi.csn, hi.acked, hi.inside, hi.allRed, hi.resend, hi.timers,
      hi.pending⟩
  · obtain ⟨a1, a2, a3⟩ := C12_report_added st.acked hi.acked r b4
    have ain : ∀ x, Covers (addReport st.acked r).1 x → x < cfg.red := by
      intro x hx
      rcases (a2 x).1 hx with h | ⟨c, hc', hx'⟩
      · exact hi.inside x h
      · have := hr.1.2.1 c hc'
        have := hr.2
        omega
    have aall : st.allRed = true → ∀ x < cfg.red, Covers (addReport st.acked r).1 x :=
      fun h x hx => (a2 x).2 (.inl (hi.allRed h x hx))
    have htim : ∀ t ∈ (if checkpoint ≠ 0 then st.timers.filter (fun t => t.1 ≠ checkpoint)
        else st.timers), t.2.Ok cfg ∧ t.2.flags ≠ 0 ∧ t.2.checkpoint = t.1 := by
      intro t ht
      split at ht
      · exact hi.timers t ((List.mem_filter.1 ht).1)
      · exact hi.timers t ht
    rw [reportSegment]
    simp only [hs, if_false]
    cases hnew : (addReport st.acked r).2 with
    | false =>
      simp only [Bool.false_eq_true, if_false, List.nil_append]
      refine ⟨_, _, rfl, ⟨fun h => absurd h hs, fun _ => ⟨[], 0, st.pending, st.largestEnd, st.allRed,
        ?_, push_nil _ _, by omega, hi.pending, by simp [hnew], .inr ⟨by simp [hnew], rfl, rfl⟩⟩⟩, ?_⟩
      · have : (st.nextCsn + 0) % U64 = st.nextCsn := by
          rw [Nat.add_zero]; exact Nat.mod_eq_of_lt hi.csn
        rw [this, List.append_nil]
      · exact ⟨hi.index, hi.counter, hi.csn, a1, ain, aall, hi.resend, htim, hi.pending⟩
    | true =>
      simp only [if_true, newClaims]
      rw [b1]
      generalize hall : (st.allRed || redAcked cfg (addReport st.acked r).1) = all
      have allOk : all = true → ∀ x < cfg.red, Covers (addReport st.acked r).1 x := by
        intro h
        rw [← hall, Bool.or_eq_true] at h
        rcases h with h | h
        · exact aall h
        · exact redAcked_covers cfg _ h hredlt
      have hinv1 : Inv cfg { st with
          acks := st.acks ++ [serial]
          seen := serial :: st.seen
          timers := if checkpoint ≠ 0 then st.timers.filter (fun t => t.1 ≠ checkpoint) else st.timers
          acked := (addReport st.acked r).1
          allRed := all } :=
        ⟨hi.index, hi.counter, hi.csn, a1, ain, allOk, hi.resend, htim, hi.pending⟩
      by_cases hdone : st.index = cfg.block.length ∧ all = true
      · simp only [hdone, and_self, if_true]
        rw [notifyDelete_spec]
        simp only
        obtain ⟨q, n, pend, le, k1, k2, k3, k4⟩ := scheduleResend_spec cfg hc _ (hinv1.notified true)
          serial _ b2 b3
        simp only [hdone] at k1
        rw [k1]
        simp only [if_true, List.append_nil]
        refine ⟨_, _, rfl, ⟨fun h => absurd h hs, fun _ => ⟨q, n, pend, le, true, ?_, k2, k3, k4, ?_,
          .inl ⟨hnew, hdone.1, rfl, rfl, rfl⟩⟩⟩, ?_⟩
        · simp only [hdone.1]
        · rw [hnew, Bool.true_and, hall, hdone.2]
        · refine ⟨?_, hi.counter, Nat.mod_lt _ (by decide), a1, ain, fun _ => allOk hdone.2, ?_, htim, k4⟩
          · simp
          · intro f hf
            rcases List.mem_append.1 hf with hf | hf
            · exact hi.resend f hf
            · exact k2.ok f hf
      · rw [if_neg hdone]
        simp only
        obtain ⟨q, n, pend, le, k1, k2, k3, k4⟩ := scheduleResend_spec cfg hc _ hinv1
          serial _ b2 b3
        rw [k1]
        simp only [List.nil_append]
        refine ⟨_, _, rfl, ⟨fun h => absurd h hs, fun _ => ⟨q, n, pend, le, all, rfl, k2, k3, k4, ?_,
          .inr ⟨?_, rfl, rfl⟩⟩⟩, ?_⟩
        · rw [hnew, Bool.true_and, hall]
        · rintro ⟨-, h1, h2⟩; exact hdone ⟨h1, h2⟩
        · refine ⟨hi.index, hi.counter, Nat.mod_lt _ (by decide), a1, ain, allOk, ?_, htim, k4⟩
          intro f hf
          rcases List.mem_append.1 hf with hf | hf
          · exact hi.resend f hf
          · exact k2.ok f hf

/-! ### Timers -/

theorem checkpointExpired_spec (cfg : Cfg) (hc : cfg.Sane) (st : State) (hi : Inv cfg st) (csn : Nat) :
    ((∀ f, (csn, f) ∉ st.timers) ∧ checkpointExpired cfg st csn = (st, [])) ∨
    (∃ f, (csn, f) ∈ st.timers ∧ st.timers.find? (fun t => t.1 == csn) = some (csn, f) ∧
      ((f.retry ≤ cfg.maxRetries ∧ (∀ x, f.offset ≤ x → x < f.offset + f.length → Covers st.acked x) ∧
          checkpointExpired cfg st csn = ({ st with timers := st.timers.filter fun t => t.1 ≠ csn }, [])) ∨
       (f.retry ≤ cfg.maxRetries ∧ checkpointExpired cfg st csn = ({ st with
          timers := st.timers.filter fun t => t.1 ≠ csn
          resend := st.resend ++ [{ f with retry := f.retry + 1 }] }, [.producible])) ∨
       (¬ f.retry ≤ cfg.maxRetries ∧ checkpointExpired cfg st csn = ({ st with
          timers := st.timers.filter fun t => t.1 ≠ csn
          didNotify := true }, if st.didNotify then [] else [.delete true .rlexc])))) := by
  rw [checkpointExpired]
  cases hf : st.timers.find? (fun t => t.1 == csn) with
  | none =>
    left
    refine ⟨fun f hm => ?_, rfl⟩
    have := List.find?_eq_none.1 hf _ hm
    simp at this
  | some t =>
    right
    obtain ⟨c, f⟩ := t
    have hc' : c = csn := by simpa using List.find?_some hf
    subst hc'
    refine ⟨f, List.mem_of_find?_eq_some hf, rfl, ?_⟩
    simp only
    by_cases hr : f.retry ≤ cfg.maxRetries
    · rw [if_pos hr]
      by_cases hd : f.flags = 1 ∧ containsEntirely st.acked
          ⟨f.offset, sub64 (add64 f.offset f.length) 1⟩ = true
      · rw [if_pos hd]
        refine .inl ⟨hr, fun x h1 h2 => ?_, rfl⟩
        have hok := (hi.timers _ (List.mem_of_find?_eq_some hf)).1
        have hin := hok.inside
        have hsz := hok.size
        have hb := hc.red
        have hl := hc.block
        simp only at hin hsz
        have hcov := hd.2
        rw [add64_eq _ _ (by omega), sub64_eq _ _ (by omega) (by omega),
          containsEntirely_iff _ _ hi.acked (by simp only [Frag.Valid]; omega)] at hcov
        exact hcov x (by simp only [Frag.Has]; omega)
      · rw [if_neg hd]
        exact .inr (.inl ⟨hr, rfl⟩)
    · rw [if_neg hr, notifyDelete_spec]
      exact .inr (.inr ⟨hr, rfl⟩)

theorem reduce_ok (cfg : Cfg) (st : State) (hi : Inv cfg st) :
    (reduce st.pending st.acked).length ≤ st.pending.length ∧
    ∀ p ∈ reduce st.pending st.acked, Canonical p.2 ∧ p.2 ≠ [] ∧ ∀ x, Covers p.2 x → x < cfg.red := by
  constructor
  · rw [reduce]
    generalize st.acked = acc
    induction st.pending generalizing acc with
    | nil => simp [reduceLoop]
    | cons p ps ih =>
      rw [reduceLoop]
      split
      · exact Nat.le_succ_of_le (ih _)
      · simp only [List.length_cons]; have := ih (insertFragment acc p.1).1; omega
  · intro p hp
    obtain ⟨-, -, h3⟩ := C12_reduce st.acked hi.acked st.pending (fun q hq => (hi.pending q hq).1)
    obtain ⟨g1, ⟨x, hx⟩, q, g2, -, g4⟩ := h3 p hp
    refine ⟨g1, fun h => ?_, fun y hy => ?_⟩
    · rw [h] at hx; exact covers_nil x hx
    · have h5 := g4 y hy
      have h6 := (hi.pending q g2).2
      simp only [Frag.Has] at h5
      omega

theorem delayExpired_spec (cfg : Cfg) (hc : cfg.Sane) (st : State) (hi : Inv cfg st) :
    (st.pending = [] ∧ delayExpired cfg st = some (st, [])) ∨
    (st.pending ≠ [] ∧ ∃ q n, delayExpired cfg st = some ({ st with
        nextCsn := (st.nextCsn + n) % U64
        resend := st.resend ++ q
        pending := [] }, if st.didNotify then [] else [.producible]) ∧
      Push cfg st.nextCsn n q ∧ n ≤ st.pending.length ∧ n = (reduce st.pending st.acked).length ∧
      Batches cfg st.nextCsn (reduce st.pending st.acked) q) := by
  cases hp : st.pending with
  | nil => left; refine ⟨rfl, ?_⟩; rw [delayExpired, hp]
  | cons p ps =>
    right
    obtain ⟨r1, r2⟩ := reduce_ok cfg st hi
    obtain ⟨q, k1, k2⟩ := resendAll_spec cfg hc st _ hi.csn r2
    refine ⟨by simp, q, _, ?_, by rw [← hp]; exact k2.push hi.csn, by rw [hp] at r1; exact r1, rfl,
      by rw [← hp]; exact k2⟩
    rw [delayExpired, hp]
    simp only
    rw [hp] at k1
    rw [k1]

/-! ### One event -/

/-- A fair event. -/
def Event.Fair (cfg : Cfg) : Event → Prop
  | .report _ _ r => FairReport cfg r
  | _ => True

theorem step_inv (cfg : Cfg) (hc : cfg.Sane) (st : State) (hi : Inv cfg st) (e : Event)
    (he : e.Fair cfg) : ∃ st' effs, step cfg st e = some (st', effs) ∧ Inv cfg st' := by
  cases e with
  | first =>
    rcases firstPass_spec cfg hc st hi with ⟨-, h⟩ | ⟨hlt, st1, s, st', tail, h1, h2, h3⟩
    · exact ⟨_, _, h, hi⟩
    · refine ⟨_, _, h3, h2.inv ?_⟩
      by_cases hcnt : st.counter = 1
      · refine h1.inv hi (i := cfg.period - 1) (h1.ok _ fun _ hp => ⟨fun _ => ?_, fun _ => hcnt⟩)
        have : cfg.period - 1 + 1 = cfg.period := by omega
        rw [this]
      · by_cases hp : cfg.period = 1
        · refine h1.inv hi (i := 0) (h1.ok _ fun hr hp' => ?_)
          have := hi.counter hp'
          omega
        · refine h1.inv hi (i := 0) (h1.ok _ fun hr hp' => ⟨fun h => absurd h hcnt, fun h => ?_⟩)
          exact absurd (Nat.dvd_one.1 h) hp
  | next =>
    rcases nextCritical_spec cfg hc st hi with ⟨a, rest, -, h⟩ | ⟨-, -, h⟩ | ⟨-, -, -, h⟩ |
      ⟨f, rest, -, -, hr, h⟩
    · exact ⟨_, _, h, hi.index, hi.counter, hi.csn, hi.acked, hi.inside, hi.allRed, hi.resend,
        hi.timers, hi.pending⟩
    · exact ⟨_, _, h, hi.index, hi.counter, hi.csn, hi.acked, hi.inside, hi.allRed, by simp,
        hi.timers, hi.pending⟩
    · exact ⟨_, _, h, hi⟩
    · have hf := hi.resend f (by rw [hr]; simp)
      refine ⟨_, _, h, hi.index, hi.counter, hi.csn, hi.acked, hi.inside, hi.allRed, ?_, ?_,
        hi.pending⟩
      · intro g hg; exact hi.resend g (by rw [hr]; simp only at hg; simp [hg])
      · intro t ht
        simp only at ht
        split at ht
        · rename_i hz
          rcases startTimer_mem ht with ht | rfl
          · exact hi.timers t ht
          · exact ⟨hf, hz, rfl⟩
        · exact hi.timers t ht
  | report n c r =>
    obtain ⟨st', effs, h1, -, h3⟩ := reportSegment_spec cfg hc st hi n c r he
    exact ⟨st', effs, h1, h3⟩
  | checkpointExpired csn =>
    have hfil : ∀ t ∈ st.timers.filter (fun t => t.1 ≠ csn),
        t.2.Ok cfg ∧ t.2.flags ≠ 0 ∧ t.2.checkpoint = t.1 :=
      fun t ht => hi.timers t ((List.mem_filter.1 ht).1)
    rcases checkpointExpired_spec cfg hc st hi csn with ⟨-, h⟩ | ⟨f, hm, -, ⟨-, -, h⟩ | ⟨-, h⟩ | ⟨-, h⟩⟩
    · exact ⟨_, _, congrArg some h, hi⟩
    · exact ⟨_, _, congrArg some h, hi.index, hi.counter, hi.csn, hi.acked, hi.inside, hi.allRed,
        hi.resend, hfil, hi.pending⟩
    · refine ⟨_, _, congrArg some h, hi.index, hi.counter, hi.csn, hi.acked, hi.inside, hi.allRed,
        ?_, hfil, hi.pending⟩
      intro g hg
      rcases List.mem_append.1 hg with hg | hg
      · exact hi.resend g hg
      · simp only [List.mem_singleton] at hg
        subst hg
        obtain ⟨o, -, -⟩ := hi.timers _ hm
        exact ⟨o.size, o.inside, o.marked, o.plain⟩
    · exact ⟨_, _, congrArg some h, hi.index, hi.counter, hi.csn, hi.acked, hi.inside, hi.allRed,
        hi.resend, hfil, hi.pending⟩
  | delayExpired =>
    rcases delayExpired_spec cfg hc st hi with ⟨-, h⟩ | ⟨-, q, n, h, hp, -⟩
    · exact ⟨_, _, h, hi⟩
    · refine ⟨_, _, h, hi.index, hi.counter, Nat.mod_lt _ (by decide), hi.acked, hi.inside, hi.allRed,
        ?_, hi.timers, by simp⟩
      intro f hf
      rcases List.mem_append.1 hf with hf | hf
      · exact hi.resend f hf
      · exact hp.ok f hf

end Hdtn.LtpSender
