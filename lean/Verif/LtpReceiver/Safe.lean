import Verif.LtpReceiver.Lemmas

namespace Hdtn.LtpReceiver
open Hdtn.FragmentSet Hdtn.LtpReport

/-- Red segments are refused from now on. -/
def Blocked (cfg : Cfg) (st : State) : Prop :=
  st.lowestGreen < st.curRed ∨ st.didRed = true ∨ cfg.maxRedRx < st.curRed

/-- The part of the invariant that holds at every point inside the handling of an event. -/
structure Safe (cfg : Cfg) (st : State) : Prop where
  canon : Canonical st.frags
  covered : ∀ x, Covers st.frags x → x < st.data.length
  le : st.data.length ≤ st.curRed
  max : st.data.length ≤ cfg.maxRedRx
  lengthOfRed : st.lengthOfRed < 2 ^ 64
  ordered : Ordered st.pending
  pend : ∀ p ∈ st.pending, p.range.e < st.data.length
  pend_ne : st.pending ≠ [] → st.frags ≠ []
  timer_pend : ∀ t ∈ st.delayTimers, ∃ p ∈ st.pending, p.range = t.2 ∧ p.checkpoint = t.1
  pend_timer : ∀ p ∈ st.pending, (p.checkpoint, p.range) ∈ st.delayTimers
  csn_mem : ∀ p ∈ st.pending, p.checkpoint ∈ st.checkpoints
  csn_inj : ∀ p ∈ st.pending, ∀ q ∈ st.pending, p.checkpoint = q.checkpoint → p = q
  sent_ok : ∀ e ∈ st.sent, e.2.2.WellFormed ∧ e.2.2.upper ≤ st.data.length ∧
    e.2.2.claims.length ≤ cfg.maxClaims ∧ ∀ x, e.2.2.Claims x → Covers st.frags x
  queue_sent : ∀ e ∈ st.queue, ∃ c ∈ st.sent, c.1 = e.1
  timers_sent : ∀ e ∈ st.rsnTimers, ∃ c ∈ st.sent, c.1 = e.1
  last_sent : ∀ r, st.lastPrimary = some r → ∃ c ∈ st.sent, c.1 = r

/-- The invariant between events. -/
structure Inv (cfg : Cfg) (st : State) : Prop extends Safe cfg st where
  full : st.data.length = st.curRed ∨ Blocked cfg st

/-- Only notifications that there is something to send. -/
def Quiet (effs : List Eff) : Prop := ∀ e ∈ effs, e = .producible

theorem quiet_nil : Quiet [] := by simp [Quiet]

theorem quiet_map {α : Type} (l : List α) : Quiet (l.map fun _ => Eff.producible) := by
  intro e he
  obtain ⟨a, -, rfl⟩ := List.mem_map.1 he
  rfl

theorem Quiet.append {a b : List Eff} (ha : Quiet a) (hb : Quiet b) : Quiet (a ++ b) := by
  intro e he
  rcases List.mem_append.1 he with h | h
  · exact ha e h
  · exact hb e h

theorem init_inv (cfg : Cfg) (serial : Nat) : Inv cfg (init serial) where
  canon := canonical_nil
  covered := fun x h => absurd h (covers_nil x)
  le := by simp [init]
  max := by simp [init]
  lengthOfRed := by simp [init, U64]
  ordered := ⟨by simp [init], by simp [init]⟩
  pend := by simp [init]
  pend_ne := by simp [init]
  timer_pend := by simp [init]
  pend_timer := by simp [init]
  csn_mem := by simp [init]
  csn_inj := by simp [init]
  sent_ok := by simp [init]
  queue_sent := by simp [init]
  timers_sent := by simp [init]
  last_sent := by simp [init]
  full := .inl (by simp [init])

/-- Issuing reports. -/
theorem safe_issue (cfg : Cfg) (hc : cfg.Sane) (st : State) (h : Safe cfg st)
    (hne : st.frags ≠ []) (csn lower upper : Nat) (sec : Bool) (hlu : lower < upper)
    (hu : upper ≤ st.data.length) :
    ∃ st' effs n s l q ps, issue cfg st csn lower upper sec = some (st', effs) ∧ Quiet effs ∧
      st' = { st with nextRsn := n, sent := s, lastPrimary := l, queue := q } ∧ Safe cfg st' ∧
      Issued cfg st.frags lower upper ps ∧ st' = ps.foldl (issueOne csn sec) st ∧
      Grew cfg st.frags st st' (ps.map fun r => ⟨csn, sec, r⟩) ∧ effs.length = ps.length := by
  have hm := h.max
  have hr := hc.red
  obtain ⟨ps, hps, hiss⟩ := issue_spec cfg hc st h.canon hne csn lower upper sec hlu (by omega)
  obtain ⟨n, s, l, q, hf, h1, h2, h3, h4, h5⟩ := issueAll_frame csn sec ps st
  refine ⟨_, _, n, s, l, q, ps, hiss, quiet_map _, hf, ?_, hps, rfl, ⟨?_, issueAll_out _ _ _ _⟩, by simp⟩
  rotate_left
  · intro i hi
    obtain ⟨p, hp, rfl⟩ := List.mem_map.1 hi
    exact hps.each p hp
  rw [hf]
  constructor
  case sent_ok =>
    intro e he
    rcases h2 e he with h' | ⟨-, h'⟩
    · exact h.sent_ok e h'
    · obtain ⟨a, b, c⟩ := hps.each _ h'
      have := hps.bounds _ h'
      exact ⟨a, by simp only; omega, b, fun x hx => ((c x).1 hx).2⟩
  case queue_sent =>
    intro e he
    rcases h4 e he with h' | h'
    · obtain ⟨c, hc, hce⟩ := h.queue_sent e h'
      exact ⟨c, h1 c hc, hce⟩
    · exact h'
  case timers_sent =>
    intro e he
    obtain ⟨c, hc, hce⟩ := h.timers_sent e he
    exact ⟨c, h1 c hc, hce⟩
  case last_sent =>
    intro r hr
    rcases h5 with h' | ⟨c, hc, h'⟩
    · obtain ⟨c, hc, hce⟩ := h.last_sent r (by rw [← h']; exact hr)
      exact ⟨c, h1 c hc, hce⟩
    · simp only at hr
      rw [h'] at hr
      exact ⟨c, hc, by simpa using hr⟩
  case canon => exact h.canon
  case covered => exact h.covered
  case le => exact h.le
  case max => exact h.max
  case lengthOfRed => exact h.lengthOfRed
  case ordered => exact h.ordered
  case pend => exact h.pend
  case pend_ne => exact h.pend_ne
  case timer_pend => exact h.timer_pend
  case pend_timer => exact h.pend_timer
  case csn_mem => exact h.csn_mem
  case csn_inj => exact h.csn_inj

/-- Removing a waiting report and its timer. -/
theorem safe_erase (cfg : Cfg) (st : State) (h : Safe cfg st) (p : Pending) (hp : p ∈ st.pending) :
    Safe cfg { st with
      delayTimers := st.delayTimers.filter fun t => t.1 ≠ p.checkpoint
      pending := erasePending st.pending p.range } := by
  have hmem : ∀ q, q ∈ erasePending st.pending p.range ↔ q ∈ st.pending ∧ q ≠ p := by
    intro q
    simp only [erasePending, List.mem_filter, decide_eq_true_eq, ne_eq]
    constructor
    · rintro ⟨a, b⟩; exact ⟨a, fun e => b (by rw [e])⟩
    · rintro ⟨a, b⟩; exact ⟨a, fun e => b (h.ordered.range_inj a hp e)⟩
  constructor
  case canon => exact h.canon
  case covered => exact h.covered
  case le => exact h.le
  case max => exact h.max
  case lengthOfRed => exact h.lengthOfRed
  case ordered => exact h.ordered.filter _
  case pend => intro q hq; exact h.pend q ((hmem q).1 hq).1
  case pend_ne =>
    intro _
    exact h.pend_ne (by rintro e; rw [e] at hp; simp at hp)
  case timer_pend =>
    intro t ht
    simp only [List.mem_filter, decide_eq_true_eq, ne_eq] at ht
    obtain ⟨q, hq, e1, e2⟩ := h.timer_pend t ht.1
    exact ⟨q, (hmem q).2 ⟨hq, fun e => ht.2 (by rw [← e2, e])⟩, e1, e2⟩
  case pend_timer =>
    intro q hq
    obtain ⟨a, b⟩ := (hmem q).1 hq
    simp only [List.mem_filter, decide_eq_true_eq, ne_eq]
    exact ⟨h.pend_timer q a, fun e => b (h.csn_inj q a p hp e)⟩
  case csn_mem => intro q hq; exact h.csn_mem q ((hmem q).1 hq).1
  case csn_inj =>
    intro q hq r hr
    exact h.csn_inj q ((hmem q).1 hq).1 r ((hmem r).1 hr).1
  case sent_ok => exact h.sent_ok
  case queue_sent => exact h.queue_sent
  case timers_sent => exact h.timers_sent
  case last_sent => exact h.last_sent

theorem safe_fillGaps (cfg : Cfg) (hc : cfg.Sane) (st : State) (h : Safe cfg st) (offset : Nat) :
    ∃ st' effs b n s l q ps ts its, fillGaps cfg st offset = some (st', effs, b) ∧ Quiet effs ∧
      (Grew cfg st.frags st st' its ∧ effs.length = its.length) ∧
      st' = { st with
        nextRsn := n, sent := s, lastPrimary := l, queue := q, pending := ps
        delayTimers := ts } ∧ Safe cfg st' := by
  rw [fillGaps]
  split
  · exact ⟨_, _, _, st.nextRsn, st.sent, st.lastPrimary, st.queue, st.pending, st.delayTimers, [],
      rfl, quiet_nil, ⟨grew_refl _ _ _ _ rfl, rfl⟩, rfl, h⟩
  · rename_i p hp
    obtain ⟨hp, -, -⟩ := findPending_some _ _ _ hp
    split
    · have h1 := h.ordered.1 p hp
      have h2 := h.pend p hp
      have h3 := h.max
      have h4 := hc.red
      have h5 : (p.range.e + 1) % U64 = p.range.e + 1 := Nat.mod_eq_of_lt (by simp only [U64]; omega)
      simp only [h5]
      obtain ⟨st', effs, n, s, l, q, _, e1, e2, e3, e4, -, -, e5, e6⟩ := safe_issue cfg hc st h
        (h.pend_ne (by rintro e; rw [e] at hp; simp at hp)) p.checkpoint p.range.b (p.range.e + 1)
        p.secondary (by omega) (by omega)
      rw [e1]
      refine ⟨_, _, _, n, s, l, q, erasePending st.pending p.range,
        st.delayTimers.filter fun t => t.1 ≠ p.checkpoint, _, rfl, e2,
        ⟨e5.right rfl, by rw [e6, List.length_map]⟩, ?_, ?_⟩
      · rw [e3]
      · exact safe_erase cfg st' e4 p (by rw [e3]; exact hp)
    · exact ⟨_, _, _, st.nextRsn, st.sent, st.lastPrimary, st.queue, st.pending, st.delayTimers, [],
        rfl, quiet_nil, ⟨grew_refl _ _ _ _ rfl, rfl⟩, rfl, h⟩

/-- More bytes received. -/
theorem safe_more (cfg : Cfg) (st : State) (h : Safe cfg st) (fr : List Frag) (d : Bytes)
    (hcan : Canonical fr) (hcov : ∀ x, Covers fr x → x < d.length) (hle : d.length ≤ st.curRed)
    (hmax : d.length ≤ cfg.maxRedRx) (hgrow : st.data.length ≤ d.length)
    (hmore : ∀ x, Covers st.frags x → Covers fr x) (hne : fr ≠ []) :
    Safe cfg { st with frags := fr, data := d } where
  canon := hcan
  covered := hcov
  le := hle
  max := hmax
  lengthOfRed := h.lengthOfRed
  ordered := h.ordered
  pend := fun p hp => by have := h.pend p hp; simp only; omega
  pend_ne := fun _ => hne
  timer_pend := h.timer_pend
  pend_timer := h.pend_timer
  csn_mem := h.csn_mem
  csn_inj := h.csn_inj
  sent_ok := fun e he => by
    obtain ⟨a, b, c, d'⟩ := h.sent_ok e he
    exact ⟨a, by simp only; omega, c, fun x hx => hmore x (d' x hx)⟩
  queue_sent := h.queue_sent
  timers_sent := h.timers_sent
  last_sent := h.last_sent

theorem frag_of_seg (s : Seg) (hs : s.Sane) :
    add64 s.offset s.length = s.offset + s.length ∧
      (⟨s.offset, sub64 (add64 s.offset s.length) 1⟩ : Frag) =
        ⟨s.offset, s.offset + s.length - 1⟩ := by
  have h1 := hs.noWrap
  have h2 := hs.nonempty
  have h3 : add64 s.offset s.length = s.offset + s.length := by
    rw [add64]; exact Nat.mod_eq_of_lt (by simp only [U64]; omega)
  refine ⟨h3, ?_⟩
  have h4 : sub64 (s.offset + s.length) 1 = s.offset + s.length - 1 := by
    rw [sub64]
    have : s.offset + s.length + U64 - 1 = s.offset + s.length - 1 + U64 := by omega
    rw [this, Nat.add_mod_right]
    exact Nat.mod_eq_of_lt (by simp only [U64]; omega)
  rw [h3, h4]

theorem safe_store (cfg : Cfg) (hc : cfg.Sane) (st : State) (h : Safe cfg st) (s : Seg)
    (hs : s.Sane) (grow : Bool) (hin : s.offset + s.length ≤ st.curRed)
    (hmax : st.curRed ≤ cfg.maxRedRx) (h1 : grow = false → st.data.length = st.curRed)
    (h2 : grow = true → st.data.length < s.offset + s.length) :
    ∃ st' effs b fr d n sn l q ps ts its, store cfg st s grow = some (st', effs, b) ∧ Quiet effs ∧
      (Grew cfg fr st st' its ∧ effs.length = its.length) ∧
      st' = { st with
        frags := fr, data := d, nextRsn := n, sent := sn, lastPrimary := l
        queue := q, pending := ps, delayTimers := ts } ∧ Safe cfg st' ∧ d.length = st.curRed ∧ fr ≠ [] ∧
      (∀ x, Covers fr x ↔ Covers st.frags x ∨ s.Has x) ∧
      ∀ sd, s.data = some sd → ∀ x, Covers fr x → (Covers st.frags x ∧ d[x]? = st.data[x]?) ∨
        (s.Has x ∧ d[x]? = sd[x - s.offset]?) := by
  have hw := hs.noWrap
  have hp := hs.nonempty
  have hr := hc.red
  have hle := h.le
  obtain ⟨sd, hsd, hsl⟩ := hs.bytes
  have hvalid : Frag.Valid ⟨s.offset, s.offset + s.length - 1⟩ := by
    simp only [Frag.Valid]; omega
  obtain ⟨c1, c2, c3, c4⟩ := C07_insert st.frags _ h.canon hvalid
  have hhas : ∀ x, Frag.Has ⟨s.offset, s.offset + s.length - 1⟩ x ↔ s.Has x := by
    intro x; simp only [Frag.Has, Seg.Has]; omega
  simp only [hhas] at c2 c3
  have hne : (insertFragment st.frags ⟨s.offset, s.offset + s.length - 1⟩).1 ≠ [] := by
    intro e
    have := (c2 s.offset).2 (.inr (by simp only [Seg.Has]; omega))
    rw [e] at this
    exact covers_nil _ this
  rw [store, (frag_of_seg s hs).2]
  generalize insertFragment st.frags ⟨s.offset, s.offset + s.length - 1⟩ = r at *
  split
  · -- something new
    rename_i hnew
    simp only
    obtain ⟨d, e1, e2, e3⟩ := memcpyTo_spec (if grow = true then resize st.data st.curRed else st.data)
      sd s.offset s.length hsl (by
        cases grow with
        | true => rw [if_pos rfl, resize_length]; exact hin
        | false => rw [if_neg (by simp), h1 rfl]; exact hin)
    rw [hsd, e1]
    simp only
    have hlen : d.length = st.curRed := by
      rw [e2]
      cases grow with
      | true => rw [if_pos rfl, resize_length]
      | false => rw [if_neg (by simp), h1 rfl]
    have hcov : ∀ x, Covers r.1 x → x < d.length := by
      intro x hx
      rcases (c2 x).1 hx with h' | h'
      · have := h.covered x h'; omega
      · simp only [Seg.Has] at h'; omega
    have hcont : ∀ x, Covers r.1 x → (Covers st.frags x ∧ d[x]? = st.data[x]?) ∨
        (s.Has x ∧ d[x]? = sd[x - s.offset]?) := by
      intro x hx
      by_cases hh : s.Has x
      · refine .inr ⟨hh, ?_⟩
        rw [e3, if_pos (show s.offset ≤ x ∧ x < s.offset + s.length from hh)]
      · rcases (c2 x).1 hx with h' | h'
        · refine .inl ⟨h', ?_⟩
          rw [e3, if_neg (show ¬ (s.offset ≤ x ∧ x < s.offset + s.length) from hh)]
          cases grow with
          | true => rw [if_pos rfl, resize_get _ _ _ hle (h.covered x h')]
          | false => rw [if_neg (by simp)]
        · exact absurd h' hh
    have hsafe := safe_more cfg st h r.1 d c1 hcov (by omega) (by omega) (by omega)
      (fun x hx => (c2 x).2 (.inl hx)) hne
    split
    · exact ⟨_, _, _, r.1, d, st.nextRsn, st.sent, st.lastPrimary, st.queue, st.pending,
        st.delayTimers, [], rfl, quiet_nil, ⟨grew_refl _ _ _ _ rfl, rfl⟩, rfl, hsafe, hlen, hne, c2, fun sd' hsd' => by
          rw [Option.some.injEq] at hsd'; subst hsd'; exact hcont⟩
    · obtain ⟨st', effs, b, n, sn, l, q, ps, ts, its, f1, f2, fg, f3, f4⟩ := safe_fillGaps cfg hc _ hsafe s.offset
      rw [f1]
      exact ⟨st', effs, b, r.1, d, n, sn, l, q, ps, ts, its, rfl, f2, ⟨fg.1.left rfl, fg.2⟩, f3, f4, hlen, hne, c2,
        fun sd' hsd' => by rw [Option.some.injEq] at hsd'; subst hsd'; exact hcont⟩
  · -- nothing new
    rename_i hnew
    have hnew : r.2 = false := by simpa using hnew
    have hsame := c4 hnew
    have hall : ∀ x, s.Has x → Covers st.frags x := by
      intro x hx
      by_contra hc
      rw [c3.2 ⟨x, hx, hc⟩] at hnew
      cases hnew
    have hgrow : grow = false := by
      cases grow with
      | false => rfl
      | true =>
        have := h.covered _ (hall (s.offset + s.length - 1) (by simp only [Seg.Has]; omega))
        have := h2 rfl
        omega
    refine ⟨_, _, _, r.1, st.data, st.nextRsn, st.sent, st.lastPrimary, st.queue, st.pending,
        st.delayTimers, [], rfl, quiet_nil, ⟨grew_refl _ _ _ _ rfl, rfl⟩, rfl, ?_, h1 hgrow, hne, c2, ?_⟩
    · rw [hsame]; exact h
    · intro sd' _ x hx
      rw [hsame] at hx
      exact .inl ⟨hx, rfl⟩

theorem safe_lowerBound (cfg : Cfg) (st : State) (h : Safe cfg st) (rsn : Nat) :
    lowerBoundFor st rsn ≤ st.data.length := by
  have hs : ∀ k c r, st.sent.find? (fun e => e.1 == k) = some (c, r) → r.2.upper ≤ st.data.length ∧
      r.2.lower ≤ st.data.length := by
    intro k c r hf
    obtain ⟨a, b, -, -⟩ := h.sent_ok _ (List.mem_of_find?_eq_some hf)
    have := a.1
    exact ⟨b, by simp only at *; omega⟩
  rw [lowerBoundFor]
  split
  · split
    · rename_i c cs r hf
      exact (hs _ _ _ hf).2
    · omega
  · have hl : (match st.lastPrimary with
      | none => 0
      | some rsn =>
        match st.sent.find? (fun e => e.1 == rsn) with
        | some (_, _, r) => r.upper
        | none => 0) ≤ st.data.length := by
      split
      · omega
      · split
        · rename_i hf
          exact (hs _ _ _ hf).1
        · omega
    simp only
    split
    · exact hl
    · rename_i p hp
      have hm := List.mem_reverse.1 (List.mem_of_find?_eq_some hp)
      have := h.pend p hm
      exact Nat.max_le.2 ⟨hl, Nat.le_trans (Nat.mod_le _ _) (by omega)⟩

theorem safe_checkpoint (cfg : Cfg) (hc : cfg.Sane) (st : State) (h : Safe cfg st)
    (hne : st.frags ≠ []) (cp : Option (Nat × Nat)) (upper : Nat) (hu : upper ≤ st.data.length) :
    ∃ st' effs b n sn l q ps ts cs its, handleCheckpoint cfg st cp upper = some (st', effs, b) ∧
      Quiet effs ∧ (Grew cfg st.frags st st' its ∧ effs.length = its.length) ∧
      st' = { st with
        nextRsn := n, sent := sn, lastPrimary := l, queue := q, pending := ps
        delayTimers := ts, checkpoints := cs } ∧ Safe cfg st' ∧
      (b = false ↔ cp = none ∨ ∃ a r, cp = some (a, r) ∧ a ∈ st.checkpoints) ∧
      ∀ a, a ∈ cs ↔ a ∈ st.checkpoints ∨ ∃ r, cp = some (a, r) := by
  unfold handleCheckpoint
  split
  · exact ⟨st, [], false, st.nextRsn, st.sent, st.lastPrimary, st.queue, st.pending, st.delayTimers,
      st.checkpoints, [], rfl, quiet_nil, ⟨grew_refl _ _ _ _ rfl, rfl⟩, rfl, h, by simp, by simp⟩
  · rename_i csn rsn
    split
    · rename_i hin
      refine ⟨st, [], false, st.nextRsn, st.sent, st.lastPrimary, st.queue, st.pending,
        st.delayTimers, st.checkpoints, [], rfl, quiet_nil, ⟨grew_refl _ _ _ _ rfl, rfl⟩, rfl, h, ?_, ?_⟩
      · simpa using hin
      · intro a
        constructor
        · exact .inl
        · rintro (h | ⟨r, h⟩)
          · exact h
          · simp only [Option.some.injEq, Prod.mk.injEq] at h
            rw [← h.1]; exact hin
    · rename_i hnin
      simp only
      have h0 : Safe cfg { st with checkpoints := csn :: st.checkpoints } :=
        { h with csn_mem := fun p hp => List.mem_cons_of_mem _ (h.csn_mem p hp) }
      generalize hst0 : ({ st with checkpoints := csn :: st.checkpoints } : State) = st0 at *
      have hflag : (true = false ↔ (some (csn, rsn) : Option (Nat × Nat)) = none ∨
          ∃ a r, (some (csn, rsn) : Option (Nat × Nat)) = some (a, r) ∧ a ∈ st.checkpoints) := by
        simpa using hnin
      have hcs : ∀ a, a ∈ csn :: st.checkpoints ↔ a ∈ st.checkpoints ∨
          ∃ r, (some (csn, rsn) : Option (Nat × Nat)) = some (a, r) := by
        intro a
        simp only [List.mem_cons, Option.some.injEq, Prod.mk.injEq]
        constructor
        · rintro (e | e)
          · exact .inr ⟨rsn, e.symm, rfl⟩
          · exact .inl e
        · rintro (e | ⟨r, e, -⟩)
          · exact .inr e
          · exact .inl e.symm
      split
      · exact ⟨st0, [], true, st0.nextRsn, st0.sent, st0.lastPrimary, st0.queue, st0.pending,
          st0.delayTimers, csn :: st.checkpoints, [], rfl, quiet_nil,
          ⟨grew_refl _ _ _ _ (by rw [← hst0]; rfl), rfl⟩, by rw [← hst0], h0, hflag, hcs⟩
      · rename_i hlt
        split
        · obtain ⟨st', effs, n, s, l, q, _, e1, e2, e3, e4, -, -, e5, e6⟩ := safe_issue cfg hc st0 h0
            (by rw [← hst0]; exact hne) csn (lowerBoundFor st0 rsn) upper (rsn ≠ 0) (by omega)
            (by rw [← hst0]; exact hu)
          rw [e1]
          refine ⟨st', effs, true, n, s, l, q, st0.pending, st0.delayTimers, csn :: st.checkpoints,
            _, rfl, e2, ⟨(?_ : Grew cfg st.frags st st' (List.map
              (fun r => ⟨csn, decide (rsn ≠ 0), r⟩) _)), by rw [e6, List.length_map]⟩, by rw [e3, ← hst0], e4, hflag, hcs⟩
          have : st0.frags = st.frags := by rw [← hst0]
          rw [this] at e5
          exact e5.left (by rw [← hst0]; rfl)
        · split
          · exact ⟨st0, [], true, st0.nextRsn, st0.sent, st0.lastPrimary, st0.queue, st0.pending,
              st0.delayTimers, csn :: st.checkpoints, [], rfl, quiet_nil,
          ⟨grew_refl _ _ _ _ (by rw [← hst0]; rfl), rfl⟩, by rw [← hst0], h0, hflag, hcs⟩
          · rename_i ps hps
            have hpend : ∀ p ∈ st.pending, p.checkpoint ≠ csn := by
              intro p hp e
              exact hnin (e ▸ h.csn_mem p hp)
            have htim : ∀ t ∈ st.delayTimers, t.1 ≠ csn := by
              intro t ht e
              obtain ⟨p, hp, -, e2⟩ := h.timer_pend t ht
              exact hpend p hp (e2.trans e)
            have hany : st.delayTimers.any (fun t => t.1 == csn) = false := by
              rw [List.any_eq_false]
              intro t ht
              simpa using htim t ht
            obtain ⟨ho, hm⟩ := insertPending_ordered _ _ _ (by simp only; omega) h.ordered hps
            refine ⟨_, _, _, st0.nextRsn, st0.sent, st0.lastPrimary, st0.queue, ps,
              st.delayTimers ++ [(csn, ⟨lowerBoundFor st0 rsn, upper - 1⟩)], csn :: st.checkpoints,
              [], rfl, quiet_nil, ⟨grew_refl _ _ _ _ (by rw [← hst0]; rfl), rfl⟩, ?_, ?_, hflag, hcs⟩
            · rw [hany, ← hst0]; simp
            · have hcur : csn ∈ csn :: st.checkpoints := by simp
              rw [hany]
              constructor
              case canon => exact h.canon
              case covered => exact h.covered
              case le => exact h.le
              case max => exact h.max
              case lengthOfRed => exact h.lengthOfRed
              case ordered => exact ho
              case pend =>
                intro p hp
                rcases (hm p).1 hp with rfl | hp
                · simp only; omega
                · exact h.pend p hp
              case pend_ne => intro _; exact hne
              case timer_pend =>
                intro t ht
                rcases List.mem_append.1 ht with ht | ht
                · obtain ⟨p, hp, e⟩ := h.timer_pend t ht
                  exact ⟨p, (hm p).2 (.inr hp), e⟩
                · simp only [List.mem_singleton] at ht
                  exact ⟨_, (hm _).2 (.inl rfl), by rw [ht], by rw [ht]⟩
              case pend_timer =>
                intro p hp
                rcases (hm p).1 hp with rfl | hp
                · exact List.mem_append_right _ (by simp)
                · exact List.mem_append_left _ (h.pend_timer p hp)
              case csn_mem =>
                intro p hp
                rcases (hm p).1 hp with rfl | hp
                · exact hcur
                · exact List.mem_cons_of_mem _ (h.csn_mem p hp)
              case csn_inj =>
                intro p hp q hq e
                rcases (hm p).1 hp with e1 | hp <;> rcases (hm q).1 hq with e2 | hq
                · rw [e1, e2]
                · exact absurd (e.symm.trans (by rw [e1])) (hpend q hq)
                · exact absurd (e.trans (by rw [e2])) (hpend p hp)
                · exact h.csn_inj p hp q hq e
              case sent_ok => exact h.sent_ok
              case queue_sent => exact h.queue_sent
              case timers_sent => exact h.timers_sent
              case last_sent => exact h.last_sent

/-- The red part is complete. -/
def Complete (st : State) : Prop :=
  st.didRed = false ∧ st.lengthOfRed ≠ 2 ^ 64 - 1 ∧ 1 ≤ st.lengthOfRed ∧
    st.frags = [⟨0, st.lengthOfRed - 1⟩]

theorem safe_complete (cfg : Cfg) (hc : cfg.Sane) (st : State) (h : Safe cfg st) (s : Seg)
    (reported : Bool) :
    ∃ st' effs n sn l q its, complete cfg st s reported = some (st', effs) ∧
      Grew cfg st.frags st st' its ∧
      ((¬ Complete st ∧ st' = st ∧ effs = [] ∧ its = []) ∨
      (Complete st ∧ st' = { st with
        nextRsn := n, sent := sn, lastPrimary := l, queue := q, didRed := true } ∧
        ∃ q, (Quiet q ∧ q.length = its.length) ∧ effs = q ++ [.red st.data st.lengthOfRed s.service st.eobRed])) ∧
      Safe cfg st' := by
  have keep : ¬ Complete st → ∃ st' effs n sn l q its,
      some (st, ([] : List Eff)) = some (st', effs) ∧ Grew cfg st.frags st st' its ∧
      ((¬ Complete st ∧ st' = st ∧ effs = [] ∧ its = []) ∨
      (Complete st ∧ st' = { st with
        nextRsn := n, sent := sn, lastPrimary := l, queue := q, didRed := true } ∧
        ∃ q, (Quiet q ∧ q.length = its.length) ∧ effs = q ++ [.red st.data st.lengthOfRed s.service st.eobRed])) ∧
      Safe cfg st' := fun hn =>
    ⟨st, [], st.nextRsn, st.sent, st.lastPrimary, st.queue, [], rfl, grew_refl _ _ _ _ rfl,
      .inl ⟨hn, rfl, rfl, rfl⟩, h⟩
  rw [complete]
  have hl := h.lengthOfRed
  have hm := h.max
  have hr := hc.red
  have hsub : 1 ≤ st.lengthOfRed → sub64 st.lengthOfRed 1 = st.lengthOfRed - 1 := by
    intro h1
    rw [sub64]
    have : st.lengthOfRed + U64 - 1 = st.lengthOfRed - 1 + U64 := by omega
    rw [this, Nat.add_mod_right]
    exact Nat.mod_eq_of_lt (by simp only [U64]; omega)
  split
  · rename_i h1
    simp only [Bool.not_eq_true', U64] at h1
    split
    · rename_i f hf
      have hfe : f.e < st.data.length :=
        h.covered f.e ⟨f, by rw [hf]; simp, by
          have := h.canon.1 f (by rw [hf]; simp)
          simp only [Frag.Valid] at this
          simp only [Frag.Has]; omega⟩
      split
      · rename_i h2
        have hpos : 1 ≤ st.lengthOfRed := by
          rcases Nat.eq_zero_or_pos st.lengthOfRed with e | e
          · have : sub64 0 1 = 2 ^ 64 - 1 := by decide
            rw [e, this] at h2; omega
          · exact e
        rw [hsub hpos] at h2
        have hcomp : Complete st := ⟨h1.1, h1.2, hpos, by
          rw [hf]; obtain ⟨b, e⟩ := f; simp only at h2; rw [h2.1, h2.2]⟩
        have hdone : ∀ st', Safe cfg st' → Safe cfg { st' with didRed := true } :=
          fun st' h => { h with }
        split
        · obtain ⟨st', effs, n, sn, l, q, _, e1, e2, e3, e4, -, -, e5, e6⟩ := safe_issue cfg hc st h
            (by rw [hf]; simp) 0 0 st.lengthOfRed false (by omega) (by omega)
          simp only [e1]
          exact ⟨_, _, n, sn, l, q, _, rfl, e5.right rfl, .inr ⟨hcomp, by rw [e3], effs,
            ⟨e2, by rw [e6, List.length_map]⟩, by rw [e3]⟩, hdone _ e4⟩
        · exact ⟨_, _, st.nextRsn, st.sent, st.lastPrimary, st.queue, [], rfl,
            grew_refl _ _ _ _ rfl, .inr ⟨hcomp, rfl, [], ⟨quiet_nil, rfl⟩, rfl⟩, hdone _ h⟩
      · rename_i h2
        apply keep
        rintro ⟨-, -, hpos, e⟩
        rw [hf] at e
        simp only [List.cons.injEq, and_true] at e
        apply h2
        rw [e, hsub hpos]
        exact ⟨rfl, rfl⟩
    · rename_i hf
      apply keep
      rintro ⟨-, -, -, e⟩
      exact hf _ e
  · rename_i h1
    apply keep
    rintro ⟨a, b, -⟩
    apply h1
    simp only [Bool.not_eq_true', U64]
    exact ⟨a, b⟩

end Hdtn.LtpReceiver
