import Verif.LtpSender.Lemmas

namespace Hdtn.LtpSender
open Hdtn.FragmentSet Hdtn.LtpReport
open Hdtn.LtpReceiver (Seg Reason)

/-! ### Batches -/

/-- What a step adds to the queue: `n` checkpoints with the serial numbers from `csn` on, and plain
segments. -/
structure Push (cfg : Cfg) (csn n : Nat) (q : List Resend) : Prop where
  ok : ∀ f ∈ q, f.Ok cfg
  fresh : ∀ f ∈ q, f.retry = 1
  serials : (q.filter fun f => f.flags ≠ 0).map Resend.checkpoint =
    (List.range n).map fun i => (csn + i) % U64

theorem push_nil (cfg : Cfg) (csn : Nat) : Push cfg csn 0 [] := ⟨by simp, by simp, by simp⟩

theorem filter_plain (q : List Resend) (h : ∀ g ∈ q, g.flags = 0) :
    q.filter (fun f => f.flags ≠ 0) = [] := by
  rw [List.filter_eq_nil_iff]
  intro f hf
  simp [h f hf]

theorem Batch.push {cfg : Cfg} {serial csn : Nat} {q : List Resend} (hcsn : csn < 2 ^ 64)
    (h : Batch cfg serial csn q) : Push cfg csn 1 q := by
  refine ⟨h.ok, fun f hf => (h.shape f hf).2, ?_⟩
  obtain ⟨ini, f, rfl, h2, h3, h4⟩ := h.last
  rw [List.filter_append, filter_plain _ h4]
  simp only [List.nil_append, List.range_one, List.map_cons, List.map_nil, Nat.add_zero]
  rw [List.filter_cons_of_pos (by simpa using h2)]
  simp only [List.filter_nil, List.map_cons, List.map_nil, h3, U64, Nat.mod_eq_of_lt hcsn]

theorem Push.append {cfg : Cfg} {csn n m : Nat} {q r : List Resend} (h : Push cfg csn n q)
    (k : Push cfg ((csn + n) % U64) m r) : Push cfg csn (n + m) (q ++ r) := by
  refine ⟨fun f hf => ?_, fun f hf => ?_, ?_⟩
  · rcases List.mem_append.1 hf with hf | hf
    · exact h.ok f hf
    · exact k.ok f hf
  · rcases List.mem_append.1 hf with hf | hf
    · exact h.fresh f hf
    · exact k.fresh f hf
  · rw [List.filter_append, List.map_append, h.serials, k.serials, List.range_add, List.map_append,
      List.map_map]
    congr 1
    apply List.map_congr_left
    intro i _
    simp only [Function.comp, U64, Nat.mod_add_mod, Nat.add_assoc]

/-! ### Delayed retransmission -/

/-- The batches for a list of reports. -/
inductive Batches (cfg : Cfg) : Nat → List (Nat × List Frag) → List Resend → Prop where
  | nil (csn : Nat) : Batches cfg csn [] []
  | cons {csn serial : Nat} {gaps : List Frag} {rest : List (Nat × List Frag)} {q q' : List Resend} :
      Batch cfg serial csn q →
      (∀ x, (∃ f ∈ q, f.offset ≤ x ∧ x < f.offset + f.length) ↔ Covers gaps x) →
      Batches cfg ((csn + 1) % U64) rest q' → Batches cfg csn ((serial, gaps) :: rest) (q ++ q')

theorem Batches.push {cfg : Cfg} {csn : Nat} {l : List (Nat × List Frag)} {q : List Resend}
    (hcsn : csn < 2 ^ 64) (h : Batches cfg csn l q) : Push cfg csn l.length q := by
  induction h with
  | nil => exact push_nil _ _
  | cons h1 h2 h3 ih =>
    rw [List.length_cons, Nat.add_comm]
    exact (h1.push hcsn).append (ih (Nat.mod_lt _ (by decide)))

theorem resendAll_spec (cfg : Cfg) (hc : cfg.Sane) (st : State) (l : List (Nat × List Frag))
    (hcsn : st.nextCsn < 2 ^ 64)
    (h : ∀ p ∈ l, Canonical p.2 ∧ p.2 ≠ [] ∧ ∀ x, Covers p.2 x → x < cfg.red) :
    ∃ q, resendAll cfg st l =
        some { st with nextCsn := (st.nextCsn + l.length) % U64, resend := st.resend ++ q } ∧
      Batches cfg st.nextCsn l q := by
  induction l generalizing st with
  | nil =>
    refine ⟨[], ?_, .nil _⟩
    simp only [resendAll, List.length_nil, Nat.add_zero, List.append_nil, U64]
    rw [Nat.mod_eq_of_lt hcsn]
  | cons p l ih =>
    obtain ⟨serial, gaps⟩ := p
    obtain ⟨h1, h2, h3⟩ := h (serial, gaps) (by simp)
    rcases resendData_spec cfg hc serial st gaps h1 h3 with ⟨g, -⟩ | ⟨q, g1, g2, g3⟩
    · exact absurd g h2
    · obtain ⟨q', k1, k2⟩ := ih
        { st with nextCsn := (st.nextCsn + 1) % U64, resend := st.resend ++ q }
        (Nat.mod_lt _ (by decide)) (fun p hp => h p (by simp [hp]))
      refine ⟨q ++ q', ?_, .cons g2 g3 k2⟩
      have he : ((st.nextCsn + 1) % U64 + l.length) % U64
          = (st.nextCsn + (l.length + 1)) % U64 := by
        rw [Nat.mod_add_mod]; congr 1; omega
      rw [resendAll, g1]
      simp only
      rw [k1]
      simp only [List.length_cons, List.append_assoc, he]

/-! ### The invariant of a session -/

structure Inv (cfg : Cfg) (st : State) : Prop where
  index : st.index ≤ cfg.block.length
  counter : cfg.period ≠ 0 → 1 ≤ st.counter ∧ st.counter ≤ cfg.period
  csn : st.nextCsn < 2 ^ 64
  acked : Canonical st.acked
  inside : ∀ x, Covers st.acked x → x < cfg.red
  allRed : st.allRed = true → ∀ x < cfg.red, Covers st.acked x
  resend : ∀ f ∈ st.resend, f.Ok cfg
  timers : ∀ t ∈ st.timers, t.2.Ok cfg ∧ t.2.flags ≠ 0 ∧ t.2.checkpoint = t.1
  pending : ∀ p ∈ st.pending, p.1.Valid ∧ p.1.e < cfg.red

theorem init_inv (cfg : Cfg) (serial : Nat) (hs : serial < 2 ^ 64) : Inv cfg (init cfg serial) :=
  ⟨by simp [init], by simp only [init]; omega, hs, canonical_nil,
    fun x h => absurd h (covers_nil x), by simp [init], by simp [init], by simp [init],
    by simp [init]⟩

theorem startTimer_mem {timers : List (Nat × Resend)} {f : Resend} {t : Nat × Resend}
    (h : t ∈ startTimer timers f) : t ∈ timers ∨ t = (f.checkpoint, f) := by
  unfold startTimer at h
  split at h
  · exact .inl h
  · simpa using h

/-- A segment of the block as an honest sender sends it: a piece in the sense of the receiver, which
also says so if it ends the red part, and has serial numbers only if it is a checkpoint. -/
structure SegOk (cfg : Cfg) (s : Seg) : Prop where
  piece : s.PieceOf cfg.redBytes
  ends : s.IsRed → s.offset + s.length = cfg.red → s.EndsRed
  plain : ¬ s.IsCheckpoint → s.checkpoint = none

theorem redBytes_length (cfg : Cfg) (hc : cfg.Sane) : cfg.redBytes.length = cfg.red := by
  have := hc.red
  simp only [Cfg.redBytes, List.length_take]
  omega

theorem red_slice (cfg : Cfg) (o n : Nat) (h : o + n ≤ cfg.red) :
    (cfg.block.drop o).take n = (cfg.redBytes.drop o).take n := by
  rw [Cfg.redBytes, List.drop_take, List.take_take, Nat.min_eq_left (by omega)]

theorem slice_length (block : Bytes) (o n : Nat) (h : o + n ≤ block.length) :
    ((block.drop o).take n).length = n := by
  simp only [List.length_take, List.length_drop]; omega

/-- A segment of the first pass. -/
theorem FirstOk.seg {cfg : Cfg} (hc : cfg.Sane) {i : Nat} {s : Seg} (h : FirstOk cfg i s) :
    SegOk cfg s := by
  have h1 := hc.red
  have h2 := hc.block
  have h3 := h.size
  have h4 := h.inside
  refine ⟨{ flags := ?_, nonempty := h3.1, noWrap := by omega,
            bytes := ⟨_, h.data, slice_length _ _ _ h4⟩,
            red_inside := fun hr => by rw [redBytes_length cfg hc]; exact h.apart hr
            red_bytes := fun hr => by rw [h.data, red_slice cfg _ _ (h.apart hr)]
            red_end := fun he => by rw [redBytes_length cfg hc]; exact (h.endsRed.1 he).2
            green_after := fun hr => by
              rw [redBytes_length cfg hc]
              have := (not_congr h.red).1 hr
              omega
            serials := h.serial }, fun hr he => h.endsRed.2 ⟨hr, he⟩, fun hn => ?_⟩
  · have := h.known
    simp only [List.mem_cons, List.not_mem_nil, or_false] at this
    omega
  · cases hcp : s.checkpoint with
    | none => rfl
    | some n => exact absurd (h.serials n hcp).1 hn

/-- A segment of the queue. -/
theorem Resend.Ok.seg {cfg : Cfg} (hc : cfg.Sane) {f : Resend} (h : f.Ok cfg) :
    SegOk cfg ⟨f.flags, cfg.service, f.offset, f.length,
      if f.flags ≠ 0 then some (f.checkpoint, f.report) else none,
      some ((cfg.block.drop f.offset).take f.length)⟩ := by
  have h1 := hc.red
  have h2 := hc.block
  have h3 := h.size
  have h4 := h.inside
  have hfl : f.flags ≤ 3 ∧ ((f.flags = 2 ∨ f.flags = 3) ↔ f.offset + f.length = cfg.red) ∧
      (f.flags ≠ 0 → (f.flags = 1 ∨ f.flags = 2 ∨ f.flags = 3)) := by
    by_cases hz : f.flags = 0
    · have := h.plain hz
      refine ⟨by omega, by omega, fun h => absurd hz h⟩
    · have := h.marked hz
      rw [cpFlags] at this
      split at this <;> (try split at this) <;>
        refine ⟨by omega, by omega, by omega⟩
  obtain ⟨hf1, hf2, hf3⟩ := hfl
  refine ⟨{ flags := by simp only; omega, nonempty := h3.1, noWrap := by simp only; omega,
            bytes := ⟨_, rfl, slice_length _ _ _ (by omega)⟩,
            red_inside := fun hr => by rw [redBytes_length cfg hc]; exact h4
            red_bytes := fun hr => by simp only; rw [red_slice cfg _ _ h4]
            red_end := fun he => by rw [redBytes_length cfg hc]; exact hf2.1 he
            green_after := fun hr => absurd hf1 hr
            serials := fun hcp => ?_ }, fun _ he => hf2.2 he, fun hn => ?_⟩
  · simp only
    rw [if_pos (by simp only [Seg.IsCheckpoint] at hcp; omega)]
    simp
  · simp only
    rw [if_neg]
    intro hz
    exact hn (hf3 hz)

/-! ### The first pass -/

/-- The segment the first pass sends next. -/
structure FirstStep (cfg : Cfg) (st st' : State) (s : Seg) : Prop where
  offset : s.offset = st.index
  ok : ∀ i, (st.index < cfg.red → cfg.period ≠ 0 → (st.counter = 1 ↔ cfg.period ∣ i + 1)) →
    FirstOk cfg i s
  counter : cfg.period ≠ 0 → (s.IsRed → st.counter = 1 → st'.counter = cfg.period) ∧
    (s.IsRed → st.counter ≠ 1 → st'.counter = st.counter - 1) ∧
    (¬ s.IsRed → st'.counter = st.counter)
  frame : (¬ s.IsCheckpoint ∧ st' = { st with index := st.index + s.length, counter := st'.counter }) ∨
    (s.IsCheckpoint ∧ s.checkpoint = some (st.nextCsn, 0) ∧
      (⟨s.offset, s.length, st.nextCsn, 0, s.flags, 1⟩ : Resend).Ok cfg ∧ s.flags ≠ 0 ∧
      st' = { st with
        index := st.index + s.length
        counter := st'.counter
        nextCsn := (st.nextCsn + 1) % U64
        timers := startTimer st.timers ⟨s.offset, s.length, st.nextCsn, 0, s.flags, 1⟩ })

theorem firstRed_spec (cfg : Cfg) (hc : cfg.Sane) (st : State) (hi : Inv cfg st)
    (hr : st.index < cfg.red) :
    ∃ st' s, firstRed cfg st = some (st', [.first s]) ∧ FirstStep cfg st st' s := by
  have hm := hc.mtu
  have hred := hc.red
  have hlen := hc.block
  have hper := hc.period
  have hcnt := hi.counter
  generalize hn : min (cfg.red - st.index) cfg.mtu = n
  have hsub : cfg.period ≠ 0 → sub64 st.counter 1 = st.counter - 1 := fun h => by
    have := hcnt h
    exact sub64_eq _ _ (by omega) (by omega)
  have hslice := slice_some cfg.block st.index n (by omega)
  -- the two conditions
  by_cases hp : cfg.period ≠ 0 ∧ st.counter = 1
  · have hper' : (cfg.period ≠ 0 ∧ sub64 st.counter 1 = 0) := ⟨hp.1, by rw [hsub hp.1]; omega⟩
    have hfl : ((if n + st.index = cfg.red then (if cfg.red = cfg.block.length then 3 else 2) else 1) =
        cpFlags cfg (st.index + n)) := by rw [cpFlags, Nat.add_comm]
    have hfl3 : cpFlags cfg (st.index + n) = 1 ∨ cpFlags cfg (st.index + n) = 2 ∨
        cpFlags cfg (st.index + n) = 3 := by
      unfold cpFlags; split <;> (try split) <;> simp
    have hdec : decide (cfg.period ≠ 0 ∧ sub64 st.counter 1 = 0) = true := decide_eq_true hper'
    have heq : firstRed cfg st = some ({ st with
          index := st.index + n
          counter := if cfg.period = 0 then st.counter else cfg.period
          nextCsn := (st.nextCsn + 1) % U64
          timers := startTimer st.timers ⟨st.index, n, st.nextCsn, 0, cpFlags cfg (st.index + n), 1⟩ },
        [.first ⟨cpFlags cfg (st.index + n), cfg.service, st.index, n, some (st.nextCsn, 0),
          some ((cfg.block.drop st.index).take n)⟩]) := by
      rw [firstRed]
      simp only [hn, hslice, hdec, true_or, if_true, decide_eq_true_eq, hfl]
    refine ⟨_, _, heq, ?_⟩
    · refine ⟨rfl, fun i hi' => ?_, fun h => ?_, .inr ⟨hfl3, rfl, ?_, cpFlags_pos _ _, ?_⟩⟩
      · have hdiv := (hi' hr hp.1).1 hp.2
        refine ⟨⟨by simp only; omega, by simp only; omega⟩, by simp only; omega, rfl, rfl, ?_, ?_, ?_, ?_,
          ?_, ?_, ?_, ?_⟩ <;> simp only [Seg.IsRed, Seg.IsCheckpoint, Seg.EndsRed, Seg.EndsBlock]
        · constructor
          · intro _; exact hr
          · intro _; omega
        · intro _; omega
        · constructor
          · intro _; exact ⟨by omega, .inr ⟨hp.1, hdiv⟩⟩
          · intro _; exact hfl3
        · unfold cpFlags; split <;> (try split) <;> omega
        · unfold cpFlags; split <;> (try split) <;> omega
        · intro m hm'; simp only [Option.some.injEq] at hm'; subst hm'; exact ⟨hfl3, rfl⟩
        · intro _; simp
        · simp only [List.mem_cons, List.not_mem_nil, or_false]; omega
      · refine ⟨fun _ _ => if_neg h, fun _ hh => absurd hp.2 hh, fun hh => absurd ?_ hh⟩
        simp only [Seg.IsRed]; omega
      · refine ⟨⟨by simp only; omega, by simp only; omega⟩, by simp only; omega, fun _ => rfl, fun h => ?_⟩
        exact absurd h (cpFlags_pos _ _)
      · rfl
  · have hper' : ¬ (cfg.period ≠ 0 ∧ sub64 st.counter 1 = 0) := by
      rintro ⟨h1, h2⟩
      rw [hsub h1] at h2
      have := hcnt h1
      exact hp ⟨h1, by omega⟩
    have hdec : decide (cfg.period ≠ 0 ∧ sub64 st.counter 1 = 0) = false := decide_eq_false hper'
    by_cases he : n + st.index = cfg.red
    · have hfl3 : (if cfg.red = cfg.block.length then 3 else 2) = 2 ∨
          (if cfg.red = cfg.block.length then 3 else 2) = 3 := by split <;> simp
      have heq : firstRed cfg st = some ({ st with
            index := st.index + n
            counter := if cfg.period = 0 then st.counter else sub64 st.counter 1
            nextCsn := (st.nextCsn + 1) % U64
            timers := startTimer st.timers ⟨st.index, n, st.nextCsn, 0,
              if cfg.red = cfg.block.length then 3 else 2, 1⟩ },
          [.first ⟨if cfg.red = cfg.block.length then 3 else 2, cfg.service, st.index, n,
            some (st.nextCsn, 0), some ((cfg.block.drop st.index).take n)⟩]) := by
        rw [firstRed]
        simp only [hn, hslice, hdec, he, decide_true, or_true, if_true, Bool.false_eq_true, if_false]
      refine ⟨_, _, heq, ?_⟩
      · refine ⟨rfl, fun i hi' => ?_, fun h => ?_,
          .inr ⟨?_, rfl, ?_, ?_, rfl⟩⟩
        · refine ⟨⟨by simp only; omega, by simp only; omega⟩, by simp only; omega, rfl, rfl, ?_, ?_, ?_,
            ?_, ?_, ?_, ?_, ?_⟩ <;>
            simp only [Seg.IsRed, Seg.IsCheckpoint, Seg.EndsRed, Seg.EndsBlock]
          · constructor
            · intro _; exact hr
            · intro _; omega
          · intro _; omega
          · constructor
            · intro _; exact ⟨by omega, .inl (by omega)⟩
            · intro _; omega
          · constructor
            · intro _; omega
            · intro _; omega
          · split <;> omega
          · intro m hm'; simp only [Option.some.injEq] at hm'; subst hm'; exact ⟨by omega, rfl⟩
          · intro _; simp
          · simp only [List.mem_cons, List.not_mem_nil, or_false]; omega
        · refine ⟨fun _ hh => absurd ⟨h, hh⟩ hp, fun _ _ => ?_, fun hh => absurd ?_ hh⟩
          · simp only; rw [if_neg h, hsub h]
          · simp only [Seg.IsRed]; omega
        · simp only [Seg.IsCheckpoint]; omega
        · refine ⟨⟨by simp only; omega, by simp only; omega⟩, by simp only; omega, fun _ => ?_,
            fun h => ?_⟩
          · simp only; rw [cpFlags, if_pos (show st.index + n = cfg.red by omega)]
          · simp only at h; omega
        · simp only; omega
    · have heq : firstRed cfg st = some ({ st with
            index := st.index + n
            counter := if cfg.period = 0 then st.counter else sub64 st.counter 1 },
          [.first ⟨0, cfg.service, st.index, n, none,
            some ((cfg.block.drop st.index).take n)⟩]) := by
        rw [firstRed]
        simp only [hn, hslice, hdec, he, decide_false, or_false, Bool.false_eq_true, if_false]
      refine ⟨_, _, heq, ?_⟩
      · refine ⟨rfl, fun i hi' => ?_, fun h => ?_, .inl ⟨?_, rfl⟩⟩
        · refine ⟨⟨by simp only; omega, by simp only; omega⟩, by simp only; omega, rfl, rfl, ?_, ?_, ?_,
            ?_, ?_, ?_, ?_, ?_⟩ <;>
            simp only [Seg.IsRed, Seg.IsCheckpoint, Seg.EndsRed, Seg.EndsBlock]
          · constructor
            · intro _; exact hr
            · intro _; omega
          · intro _; omega
          · constructor
            · intro h; omega
            · rintro ⟨_, h | ⟨h1, h2⟩⟩
              · omega
              · exact absurd ⟨h1, (hi' hr h1).2 h2⟩ hp
          · constructor
            · intro h; omega
            · intro h; omega
          · constructor
            · intro h; omega
            · intro h; omega
          · intro m hm'; cases hm'
          · intro h; omega
          · simp
        · refine ⟨fun _ hh => absurd ⟨h, hh⟩ hp, fun _ _ => ?_, fun hh => absurd ?_ hh⟩
          · simp only; rw [if_neg h, hsub h]
          · simp only [Seg.IsRed]; omega
        · simp only [Seg.IsCheckpoint]; omega

theorem firstGreen_spec (cfg : Cfg) (hc : cfg.Sane) (st : State) (_hi : Inv cfg st)
    (hr : ¬ st.index < cfg.red) (hb : st.index < cfg.block.length) :
    ∃ st' s, firstGreen cfg st = some (st', [.first s]) ∧ FirstStep cfg st st' s := by
  have hm := hc.mtu
  generalize hn : min (cfg.block.length - st.index) cfg.mtu = n
  have hslice := slice_some cfg.block st.index n (by omega)
  have hfl : (if n + st.index = cfg.block.length then 7 else 4) = 7 ∨
      (if n + st.index = cfg.block.length then 7 else 4) = 4 := by split <;> simp
  have heq : firstGreen cfg st = some ({ st with index := st.index + n },
      [.first ⟨if n + st.index = cfg.block.length then 7 else 4, cfg.service, st.index, n, none,
        some ((cfg.block.drop st.index).take n)⟩]) := by
    rw [firstGreen]
    simp only [hn, hslice]
  refine ⟨_, _, heq, ?_⟩
  · refine ⟨rfl, fun i _ => ?_, fun h => ?_, .inl ⟨?_, rfl⟩⟩
    · refine ⟨⟨by simp only; omega, by simp only; omega⟩, by simp only; omega, rfl, rfl, ?_, ?_, ?_,
        ?_, ?_, ?_, ?_, ?_⟩ <;>
        simp only [Seg.IsRed, Seg.IsCheckpoint, Seg.EndsRed, Seg.EndsBlock]
      · constructor
        · intro h; omega
        · intro h; exact absurd h hr
      · intro h; omega
      · constructor
        · intro h; omega
        · intro h; omega
      · constructor
        · intro h; omega
        · intro h; omega
      · split <;> omega
      · intro m hm'; cases hm'
      · intro h; omega
      · simp only [List.mem_cons, List.not_mem_nil, or_false]; omega
    · refine ⟨fun hh => absurd hh ?_, fun hh => absurd hh ?_, fun _ => rfl⟩ <;>
        simp only [Seg.IsRed] <;> omega
    · simp only [Seg.IsCheckpoint]; omega

end Hdtn.LtpSender
