import Verif.LtpIpc.Spec
import Verif.LtpUdpManager.Lemmas
import Verif.CircularIndex.Props

/-!
Lemmas about LTP over shared memory.
-/

namespace Hdtn.LtpIpc

open Spec Hdtn.Sdnv Hdtn.LtpRng Hdtn.LtpUdpManager Hdtn.LtpUdpManager.Spec Hdtn.LtpWire Hdtn.LtpWire.Spec

theorem fill_ok (cap : Nat) (bufs : List Bytes) : ∀ (t : Nat) (out : Bytes), t + bufs.flatten.length ≤ cap →
    fill cap bufs t out = (t + bufs.flatten.length, out ++ bufs.flatten, true) := by
  induction bufs with
  | nil => intro t out _; simp [fill]
  | cons b bs ih =>
    intro t out h
    simp only [List.flatten_cons, List.length_append] at h
    unfold fill
    rw [if_neg (by omega), ih _ _ (by omega)]
    simp [Nat.add_assoc]

theorem fill_no (cap : Nat) (bufs : List Bytes) : ∀ (t : Nat) (out : Bytes), t ≤ cap → cap < t + bufs.flatten.length → (fill cap bufs t out).2.2 = false := by
  induction bufs with
  | nil => intro t out h1 h2; simp at h2; omega
  | cons b bs ih =>
    intro t out h1 h2
    simp only [List.flatten_cons, List.length_append] at h2
    unfold fill
    by_cases h : cap < t + b.length
    · rw [if_pos h]
    · rw [if_neg h]; exact ih _ _ (by omega) (by omega)

/-- What `VerifyIpcPacketReceive` makes of a segment. -/
theorem verify_segment {remote : Nat} {w stale : Bytes} {e : Event} (h : IsSegment w e) :
    verify remote (w ++ stale) w.length = some (if bySender e.content then e.id.engine == remote else engineIndexOf e.id.number == 1) := by
  obtain ⟨flags, s, x, p, t, n, rfl, hf, hs, -, -, -, hc, -⟩ := h
  obtain ⟨p1, q1, rfl, hp, hq⟩ := split_two hs
  have hp0 := (decode_sdnv hp []).2
  have hq0 := (decode_sdnv hq []).2
  have hb : (UInt8.ofNat flags).toNat = flags := by
    rw [UInt8.toNat_ofNat']; omega
  unfold verify
  rw [if_neg (by simp only [List.length_cons, List.length_append]; omega)]
  simp only [List.cons_append, List.headD_cons, hb, content_way hc]
  have h1 := decode_take hp (q1 ++ n :: (x ++ (p ++ t)) ++ stale) (n := 99) (by omega)
  have h2 := decode_take hq (n :: (x ++ (p ++ t)) ++ stale) (n := 89) (by omega)
  have e1 : (List.drop 1 (UInt8.ofNat flags :: (p1 ++ q1 ++ n :: (x ++ (p ++ t)) ++ stale))) =
      p1 ++ (q1 ++ n :: (x ++ (p ++ t)) ++ stale) := by simp
  have e2 : (List.drop (1 + p1.length) (UInt8.ofNat flags :: (p1 ++ q1 ++ n :: (x ++ (p ++ t)) ++ stale))) =
      q1 ++ (n :: (x ++ (p ++ t)) ++ stale) := by
    rw [Nat.add_comm, List.drop_succ_cons]; simp
  rw [e1, h1.1]
  by_cases hby : bySender e.content = true
  · rw [if_pos hby, if_pos hby]
    simp only
    rw [if_neg (Nat.ne_of_gt hp0)]
  · rw [if_neg hby, if_neg hby]
    simp only
    rw [if_neg (Nat.ne_of_gt hp0), e2, h2.1]
    simp only
    rw [if_neg (Nat.ne_of_gt hq0)]
    rfl

theorem verify_for {remote : Nat} {w stale : Bytes} (h : ForEngine remote w) : verify remote (w ++ stale) w.length = some true := by
  obtain ⟨e, h1, h2, h3⟩ := h
  rw [verify_segment h1]
  by_cases hb : bySender e.content = true
  · rw [if_pos hb, h2 hb, beq_self_eq_true]
  · rw [if_neg hb, h3 (by simpa using hb)]; rfl

/-- The places are accounted for. -/
structure Count (s : Ring) : Prop where
  size : 2 ≤ s.n
  slots : s.slots.length = s.n
  order : s.r ≤ s.w
  data : s.data = s.w - s.r
  sum : ∃ u, s.free + (s.w - s.r) + s.posted.length + s.ongoing + s.pending.isSome.toNat + s.lost + u = s.n - 1 ∧ (s.undef = false → u = 0)
  fatal : s.fatal = false
  len : s.committed.length = s.w

theorem count_step {s : Ring} (h : Count s) (ev : Ev) : Count (s.step ev) := by
  obtain ⟨h1, h2, h3, h4, ⟨u, h5, h5'⟩, h6, h7⟩ := h
  cases ev with
  | send bufs =>
    simp only [Ring.step]; unfold Ring.send
    by_cases hp : s.pending.isSome = true
    · rw [if_pos hp]; exact ⟨h1, h2, h3, h4, ⟨u, h5, h5'⟩, h6, h7⟩
    · rw [if_neg hp]
      by_cases hf : s.free = 0
      · rw [if_pos hf]; exact ⟨h1, h2, h3, h4, ⟨u, h5, h5'⟩, h6, h7⟩
      · rw [if_neg hf]
        have hp' : s.pending = none := by simpa using hp
        rw [hp'] at h5
        simp only [Option.isSome_none, Bool.toNat_false] at h5
        simp only
        have hne : ¬s.r % s.n = (s.w + 1) % s.n := by
          intro hc
          have := CircularIndex.mod_inj s.n s.r (s.w + 1) (by omega) (by omega) hc.symm
          omega
        rw [if_neg hne]
        rcases hfl : fill s.cap bufs 0 [] with ⟨t, out, b⟩
        cases b with
        | true =>
          refine ⟨h1, by simpa using h2, h3, h4, ⟨u, ?_, h5'⟩, h6, h7⟩
          simp only [Option.isSome_some, Bool.toNat_true]; omega
        | false =>
          refine ⟨h1, by simpa using h2, h3, h4, ⟨u, ?_, h5'⟩, h6, h7⟩
          simp only [hp', Option.isSome_none, Bool.toNat_false]; omega
  | commit =>
    simp only [Ring.step]; unfold Ring.commit
    cases hp : s.pending with
    | none => exact ⟨h1, h2, h3, h4, ⟨u, h5, h5'⟩, h6, h7⟩
    | some p =>
      rw [hp] at h5
      simp only [Option.isSome_some, Bool.toNat_true] at h5
      refine ⟨h1, h2, by simp only; omega, by simp only; omega, ⟨u, ?_, h5'⟩, h6, by simp [h7]⟩
      simp only [Option.isSome_none, Bool.toNat_false]; omega
  | receive =>
    simp only [Ring.step]; unfold Ring.receive
    by_cases hd : s.data = 0
    · rw [if_pos hd]; exact ⟨h1, h2, h3, h4, ⟨u, h5, h5'⟩, h6, h7⟩
    · rw [if_neg hd]
      simp only
      have hne : ¬s.w % s.n = s.r % s.n := by
        intro hc
        have := CircularIndex.mod_inj s.n s.r s.w h3 (by omega) hc
        omega
      rw [if_neg hne]
      cases hv : verify s.remote (s.slots.getD (s.r % s.n) (0, [])).2 (s.slots.getD (s.r % s.n) (0, [])).1 with
      | none =>
        refine ⟨h1, h2, by simp only; omega, by simp only; omega, ⟨u + 1, by simp only; omega, ?_⟩, h6, h7⟩
        intro hc; cases hc
      | some b =>
        cases b with
        | false => exact ⟨h1, h2, by simp only; omega, by simp only; omega, ⟨u, by simp only; omega, h5'⟩, h6, h7⟩
        | true => exact ⟨h1, h2, by simp only; omega, by simp only; omega, ⟨u, by simp only [List.length_append, List.length_cons, List.length_nil]; omega, h5'⟩, h6, h7⟩
  | process disk =>
    simp only [Ring.step]; unfold Ring.process
    cases hp : s.posted with
    | nil => exact ⟨h1, h2, h3, h4, ⟨u, h5, h5'⟩, h6, h7⟩
    | cons x rest =>
      obtain ⟨i, len⟩ := x
      rw [hp] at h5
      simp only [List.length_cons] at h5
      cases disk with
      | true => exact ⟨h1, h2, h3, h4, ⟨u, by simp only [if_true]; omega, h5'⟩, h6, h7⟩
      | false => exact ⟨h1, h2, h3, h4, ⟨u, by simp only [Bool.false_eq_true, if_false]; omega, h5'⟩, h6, h7⟩
  | complete =>
    simp only [Ring.step]; unfold Ring.complete
    by_cases ho : s.ongoing = 0
    · rw [if_pos ho]; exact ⟨h1, h2, h3, h4, ⟨u, h5, h5'⟩, h6, h7⟩
    · rw [if_neg ho]
      exact ⟨h1, h2, h3, h4, ⟨u, by simp only; omega, h5'⟩, h6, h7⟩

theorem count_run (evs : List Ev) : ∀ {s : Ring}, Count s → Count (s.run evs) := by
  induction evs with
  | nil => intro s h; exact h
  | cons ev evs ih => intro s h; exact ih (count_step h ev)

theorem count_init (n cap remote : Nat) (hn : 2 ≤ n) : Count (Ring.init n cap remote) :=
  ⟨hn, by simp [Ring.init], Nat.le_refl _, rfl, ⟨0, by simp [Ring.init], fun _ => rfl⟩, rfl, rfl⟩

/-- The place of the `j`th packet holds the packet `p`. -/
def Holds (s : Ring) (j : Nat) (p : Bytes) : Prop := ∃ stale, s.slots.getD (j % s.n) (0, []) = (p.length, p ++ stale)

/-- What holds as long as all packets are for the engine. -/
structure Good (s : Ring) : Prop where
  read : s.r = s.handed.length + s.posted.length
  handed : s.handed = s.committed.take s.handed.length
  posted : ∀ k, k < s.posted.length → ∃ p, s.committed[s.handed.length + k]? = some p ∧ s.posted[k]? = some ((s.handed.length + k) % s.n, p.length)
  holds : ∀ j p, s.handed.length ≤ j → s.committed[j]? = some p → Holds s j p
  pending : ∀ p, s.pending = some p → Holds s s.w p ∧ ForEngine s.remote p
  all : ∀ p ∈ s.committed, ForEngine s.remote p
  undef : s.undef = false

theorem getD_set_ne (l : List (Nat × Bytes)) (i j : Nat) (x d : Nat × Bytes) (h : i ≠ j) : (l.set i x).getD j d = l.getD j d := by
  simp [List.getD, List.getElem?_set_ne h]

theorem getD_set_eq (l : List (Nat × Bytes)) (i : Nat) (x d : Nat × Bytes) (h : i < l.length) : (l.set i x).getD i d = x := by
  simp [List.getD, h]

theorem good_step {s : Ring} (hc : Count s) (h : Good s) (ev : Ev) (hev : ∀ bufs, ev = .send bufs → ForEngine s.remote bufs.flatten) : Good (s.step ev) := by
  have hcn := count_step hc ev
  obtain ⟨c1, c2, c3, c4, ⟨u, c5, c5'⟩, c6, c7⟩ := hc
  obtain ⟨g1, g2, g3, g4, g5, g6, g7⟩ := h
  have hu := c5' g7
  cases ev with
  | send bufs =>
    simp only [Ring.step]; unfold Ring.send
    by_cases hp : s.pending.isSome = true
    · rw [if_pos hp]; exact ⟨g1, g2, g3, g4, g5, g6, g7⟩
    · rw [if_neg hp]
      by_cases hf : s.free = 0
      · rw [if_pos hf]; exact ⟨g1, g2, g3, g4, g5, g6, g7⟩
      · rw [if_neg hf]
        have hp' : s.pending = none := by simpa using hp
        rw [hp'] at c5
        simp only [Option.isSome_none, Bool.toNat_false] at c5
        simp only
        have hne : ¬s.r % s.n = (s.w + 1) % s.n := by
          intro hc
          have := CircularIndex.mod_inj s.n s.r (s.w + 1) (by omega) (by omega) hc.symm
          omega
        rw [if_neg hne]
        have hlt : s.w % s.n < s.slots.length := by rw [c2]; exact Nat.mod_lt _ (by omega)
        have keep : ∀ x j p, s.handed.length ≤ j → s.committed[j]? = some p → ∃ stale, (s.slots.set (s.w % s.n) x).getD (j % s.n) (0, []) = (p.length, p ++ stale) := by
          intro x j p h1 h2
          have hj : j < s.w := by rw [← c7]; exact (List.getElem?_eq_some_iff.mp h2).1
          have hm : s.w % s.n ≠ j % s.n := by
            intro hc
            have := CircularIndex.mod_inj s.n j s.w (by omega) (by omega) hc
            omega
          rw [getD_set_ne _ _ _ _ _ hm]
          exact g4 j p h1 h2
        by_cases hcap : bufs.flatten.length ≤ s.cap
        · rw [fill_ok s.cap bufs 0 [] (by omega)]
          simp only [List.nil_append]
          refine ⟨g1, g2, g3, fun j p h1 h2 => keep _ j p h1 h2, ?_, g6, g7⟩
          intro p hpp
          simp only [Option.some.injEq] at hpp
          subst hpp
          refine ⟨⟨(s.slots.getD (s.w % s.n) (0, [])).2.drop bufs.flatten.length, ?_⟩, hev bufs rfl⟩
          simp only
          rw [getD_set_eq _ _ _ _ hlt, Nat.zero_add]
        · have hno := fill_no s.cap bufs 0 [] (by omega) (by omega)
          rcases hfl : fill s.cap bufs 0 [] with ⟨t, out, b⟩
          rw [hfl] at hno
          simp only at hno
          subst hno
          refine ⟨g1, g2, g3, fun j p h1 h2 => keep _ j p h1 h2, ?_, g6, g7⟩
          intro p hpp
          rw [show ({ s with free := s.free - 1, slots := _, lost := s.lost + 1 } : Ring).pending = s.pending from rfl, hp'] at hpp
          cases hpp
  | commit =>
    simp only [Ring.step]; unfold Ring.commit
    cases hp : s.pending with
    | none => exact ⟨g1, g2, g3, g4, g5, g6, g7⟩
    | some p =>
      obtain ⟨i1, i2⟩ := g5 p hp
      have hle : s.handed.length ≤ s.committed.length := by omega
      refine ⟨g1, ?_, ?_, ?_, fun q hq => (nomatch hq), ?_, g7⟩
      · simp only
        rw [List.take_append_of_le_length hle]; exact g2
      · intro k hk
        obtain ⟨q, q1, q2⟩ := g3 k hk
        refine ⟨q, ?_, q2⟩
        simp only
        rw [List.getElem?_append_left (List.getElem?_eq_some_iff.mp q1).1]; exact q1
      · intro j q h1 h2
        simp only at h1 h2
        by_cases hj : j < s.committed.length
        · rw [List.getElem?_append_left hj] at h2
          exact g4 j q h1 h2
        · rw [List.getElem?_append_right (by omega)] at h2
          have hj0 : j - s.committed.length = 0 := by
            have := (List.getElem?_eq_some_iff.mp h2).1
            simp at this; omega
          rw [hj0] at h2
          simp only [List.getElem?_cons_zero, Option.some.injEq] at h2
          subst h2
          have : j = s.w := by omega
          rw [this]; exact i1
      · intro q hq
        rcases List.mem_append.mp hq with hq | hq
        · exact g6 q hq
        · rw [List.mem_singleton.mp hq]; exact i2
  | receive =>
    simp only [Ring.step]; unfold Ring.receive
    by_cases hd : s.data = 0
    · rw [if_pos hd]; exact ⟨g1, g2, g3, g4, g5, g6, g7⟩
    · rw [if_neg hd]
      simp only
      have hne : ¬s.w % s.n = s.r % s.n := by
        intro hc
        have := CircularIndex.mod_inj s.n s.r s.w c3 (by omega) hc
        omega
      rw [if_neg hne]
      have hrw : s.r < s.committed.length := by omega
      obtain ⟨stale, hst⟩ := g4 s.r s.committed[s.r] (by omega) (List.getElem?_eq_getElem hrw)
      rw [hst]
      simp only
      rw [verify_for (g6 _ (List.getElem_mem hrw))]
      refine ⟨?_, g2, ?_, g4, g5, g6, g7⟩
      · simp only [List.length_append, List.length_cons, List.length_nil]; omega
      · intro k hk
        simp only [List.length_append, List.length_cons, List.length_nil] at hk
        by_cases hk' : k < s.posted.length
        · obtain ⟨q, q1, q2⟩ := g3 k hk'
          refine ⟨q, q1, ?_⟩
          simp only
          rw [List.getElem?_append_left hk']; exact q2
        · have : k = s.posted.length := by omega
          subst this
          refine ⟨s.committed[s.r], ?_, ?_⟩
          · simp only; rw [← g1]; exact List.getElem?_eq_getElem hrw
          · simp only
            rw [List.getElem?_append_right (Nat.le_refl _), ← g1]; simp
  | process disk =>
    simp only [Ring.step]; unfold Ring.process
    cases hp : s.posted with
    | nil => exact ⟨g1, g2, g3, g4, g5, g6, g7⟩
    | cons x rest =>
      obtain ⟨q, q1, q2⟩ := g3 0 (by rw [hp]; simp)
      rw [hp] at q2
      simp only [List.getElem?_cons_zero, Nat.add_zero] at q1 q2
      simp only [Option.some.injEq] at q2
      subst q2
      obtain ⟨stale, hst⟩ := g4 s.handed.length q (Nat.le_refl _) q1
      have hq : (s.slots.getD (s.handed.length % s.n) (0, [])).2.take q.length = q := by rw [hst]; simp
      simp only
      rw [hq]
      have hlt := (List.getElem?_eq_some_iff.mp q1).1
      have hget := (List.getElem?_eq_some_iff.mp q1).2
      have hlen : s.r = s.handed.length + rest.length + 1 := by rw [g1, hp]; simp; omega
      have a2 : s.handed ++ [q] = s.committed.take (s.handed ++ [q]).length := by
        simp only [List.length_append, List.length_cons, List.length_nil, Nat.zero_add]
        rw [← List.take_append_getElem hlt, ← g2, hget]
      have a3 : ∀ k, k < rest.length → ∃ p, s.committed[(s.handed ++ [q]).length + k]? = some p ∧ rest[k]? = some (((s.handed ++ [q]).length + k) % s.n, p.length) := by
        intro k hk
        obtain ⟨p, p1, p2⟩ := g3 (k + 1) (by rw [hp]; simp; omega)
        rw [hp, List.getElem?_cons_succ] at p2
        have : (s.handed ++ [q]).length + k = s.handed.length + (k + 1) := by simp; omega
        rw [this]
        exact ⟨p, p1, p2⟩
      have a1 : s.r = (s.handed ++ [q]).length + rest.length := by simp; omega
      have a4 : ∀ j p, (s.handed ++ [q]).length ≤ j → s.committed[j]? = some p → Holds s j p := by
        intro j p h1 h2
        simp only [List.length_append, List.length_cons, List.length_nil] at h1
        exact g4 j p (by omega) h2
      cases disk with
      | true => exact ⟨a1, a2, a3, a4, g5, g6, g7⟩
      | false => exact ⟨a1, a2, a3, a4, g5, g6, g7⟩
  | complete =>
    simp only [Ring.step]; unfold Ring.complete
    by_cases ho : s.ongoing = 0
    · rw [if_pos ho]; exact ⟨g1, g2, g3, g4, g5, g6, g7⟩
    · rw [if_neg ho]; exact ⟨g1, g2, g3, g4, g5, g6, g7⟩

theorem same_remote (s : Ring) (ev : Ev) : (s.step ev).remote = s.remote ∧ (s.step ev).n = s.n ∧ (s.step ev).cap = s.cap := by
  cases ev with
  | send bufs =>
    simp only [Ring.step]; unfold Ring.send
    by_cases hp : s.pending.isSome = true
    · rw [if_pos hp]; exact ⟨rfl, rfl, rfl⟩
    · rw [if_neg hp]
      by_cases hf : s.free = 0
      · rw [if_pos hf]; exact ⟨rfl, rfl, rfl⟩
      · rw [if_neg hf]
        simp only
        by_cases hc : s.r % s.n = (s.w + 1) % s.n
        · rw [if_pos hc]; exact ⟨rfl, rfl, rfl⟩
        · rw [if_neg hc]
          rcases fill s.cap bufs 0 [] with ⟨t, out, b⟩
          cases b <;> exact ⟨rfl, rfl, rfl⟩
  | commit =>
    simp only [Ring.step]; unfold Ring.commit
    cases s.pending <;> exact ⟨rfl, rfl, rfl⟩
  | receive =>
    simp only [Ring.step]; unfold Ring.receive
    by_cases hd : s.data = 0
    · rw [if_pos hd]; exact ⟨rfl, rfl, rfl⟩
    · rw [if_neg hd]
      simp only
      by_cases hc : s.w % s.n = s.r % s.n
      · rw [if_pos hc]; exact ⟨rfl, rfl, rfl⟩
      · rw [if_neg hc]
        cases verify s.remote (s.slots.getD (s.r % s.n) (0, [])).2 (s.slots.getD (s.r % s.n) (0, [])).1 with
        | none => exact ⟨rfl, rfl, rfl⟩
        | some b => cases b <;> exact ⟨rfl, rfl, rfl⟩
  | process disk =>
    simp only [Ring.step]; unfold Ring.process
    cases s.posted with
    | nil => exact ⟨rfl, rfl, rfl⟩
    | cons x rest =>
      obtain ⟨i, len⟩ := x
      cases disk <;> exact ⟨rfl, rfl, rfl⟩
  | complete =>
    simp only [Ring.step]; unfold Ring.complete
    by_cases ho : s.ongoing = 0
    · rw [if_pos ho]; exact ⟨rfl, rfl, rfl⟩
    · rw [if_neg ho]; exact ⟨rfl, rfl, rfl⟩

theorem good_run (evs : List Ev) : ∀ {s : Ring}, Count s → Good s → AllFor s.remote evs → Good (s.run evs) := by
  induction evs with
  | nil => intro s _ h _; exact h
  | cons ev evs ih =>
    intro s hc h ha
    refine ih (count_step hc ev) (good_step hc h ev fun bufs hb => ha bufs (by rw [hb]; exact List.mem_cons_self)) ?_
    rw [(same_remote s ev).1]
    exact fun bufs hb => ha bufs (List.mem_cons_of_mem _ hb)

theorem good_init (n cap remote : Nat) : Good (Ring.init n cap remote) :=
  ⟨rfl, rfl, fun k hk => absurd hk (Nat.not_lt_zero k), fun j p _ h => (by cases h), fun p h => (by cases h), fun p h => (by cases h), rfl⟩

end Hdtn.LtpIpc
