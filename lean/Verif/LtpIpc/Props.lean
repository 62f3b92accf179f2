import Verif.LtpIpc.Lemmas
import Verif.LtpRng.Props

/-!
Properties C163 and C164: LTP over shared memory.
-/

namespace Hdtn.LtpIpc

open Spec Hdtn.Sdnv.Spec Hdtn.LtpRng Hdtn.LtpWire Hdtn.LtpWire.Spec Hdtn.LtpUdpManager.Spec

/-- C163, as far as it holds: if all packets are segments for the receiving engine, then it is handed the packets that were sent, unchanged, in order and each once, however the threads are
interleaved and whichever packets are being written to disk; and none is lost: the others wait in the ring or are posted. Missing: packets that the receiver refuses. -/
theorem C163_in_order_partial (n cap remote : Nat) (hn : 2 ≤ n) (evs : List Ev) (ha : AllFor remote evs) :
    let s := (Ring.init n cap remote).run evs
    s.handed <+: s.committed ∧ s.committed.length = s.handed.length + s.posted.length + s.data ∧ s.undef = false := by
  intro s
  have hc : Count s := count_run evs (count_init n cap remote hn)
  have hg : Good s := good_run evs (count_init n cap remote hn) (good_init n cap remote) ha
  refine ⟨?_, ?_, hg.undef⟩
  · have h := hg.handed
    rw [h]
    exact List.take_prefix _ _
  · have h1 := hg.read
    have h2 := hc.data
    have h3 := hc.order
    have h4 := hc.len
    omega

/-- Apart from `send`, no event changes which packets the sender has copied. -/
theorem quiet_step (s : Ring) (ev : Ev) (he : ∀ bufs, ev ≠ .send bufs) :
    (s.step ev).committed ++ (s.step ev).pending.toList = s.committed ++ s.pending.toList := by
  cases ev with
  | send bufs => exact absurd rfl (he bufs)
  | commit =>
    simp only [Ring.step]; unfold Ring.commit
    cases hp : s.pending with
    | none => simp [hp]
    | some p => simp
  | receive =>
    simp only [Ring.step]; unfold Ring.receive
    by_cases hd : s.data = 0
    · rw [if_pos hd]
    · rw [if_neg hd]
      simp only
      by_cases hc : s.w % s.n = s.r % s.n
      · rw [if_pos hc]
      · rw [if_neg hc]
        cases verify s.remote (s.slots.getD (s.r % s.n) (0, [])).2 (s.slots.getD (s.r % s.n) (0, [])).1 with
        | none => rfl
        | some b => cases b <;> rfl
  | process disk =>
    simp only [Ring.step]; unfold Ring.process
    cases s.posted with
    | nil => rfl
    | cons x rest => obtain ⟨i, len⟩ := x; cases disk <;> rfl
  | complete =>
    simp only [Ring.step]; unfold Ring.complete
    by_cases ho : s.ongoing = 0
    · rw [if_pos ho]
    · rw [if_neg ho]

/-- C163: the packets committed are packets that were handed to the sending side, in order. -/
theorem C163_only_sent (n cap remote : Nat) (evs : List Ev) : ((Ring.init n cap remote).run evs).committed.Sublist (packets evs) := by
  have gen : ∀ (evs : List Ev) (s : Ring) (l : List Bytes), (s.committed ++ s.pending.toList).Sublist l →
      ((s.run evs).committed ++ (s.run evs).pending.toList).Sublist (l ++ packets evs) := by
    intro evs
    induction evs with
    | nil =>
      intro s l h
      rw [show packets [] = [] from rfl, List.append_nil]
      exact h
    | cons ev evs ih =>
      intro s l h
      by_cases hev : ∃ bufs, ev = .send bufs
      · obtain ⟨bufs, rfl⟩ := hev
        have hp : l ++ packets (.send bufs :: evs) = (l ++ [bufs.flatten]) ++ packets evs := by simp [packets]
        rw [hp]
        refine ih (s.step (.send bufs)) (l ++ [bufs.flatten]) ?_
        have hsub : (s.committed ++ s.pending.toList).Sublist (l ++ [bufs.flatten]) := h.trans (List.sublist_append_left _ _)
        simp only [Ring.step]; unfold Ring.send
        by_cases hp : s.pending.isSome = true
        · rw [if_pos hp]; exact hsub
        · rw [if_neg hp]
          have hp' : s.pending = none := by simpa using hp
          rw [hp'] at h hsub
          simp only [Option.toList_none, List.append_nil] at h hsub
          by_cases hf : s.free = 0
          · rw [if_pos hf, hp']; simpa using hsub
          · rw [if_neg hf]
            simp only
            by_cases hc : s.r % s.n = (s.w + 1) % s.n
            · rw [if_pos hc]; simp only [hp']; simpa using hsub
            · rw [if_neg hc]
              by_cases hcap : bufs.flatten.length ≤ s.cap
              · rw [fill_ok s.cap bufs 0 [] (by omega)]
                simp only [List.nil_append, Option.toList_some]
                exact h.append (List.Sublist.refl _)
              · have hno := fill_no s.cap bufs 0 [] (by omega) (by omega)
                rcases hfl : fill s.cap bufs 0 [] with ⟨t, out, b⟩
                rw [hfl] at hno
                simp only at hno
                subst hno
                simp only [hp']; simpa using hsub
      · have hp : packets (ev :: evs) = packets evs := by
          cases ev with
          | send bufs => exact absurd ⟨bufs, rfl⟩ hev
          | _ => rfl
        rw [hp]
        refine ih (s.step ev) l ?_
        rw [quiet_step s ev fun bufs hb => hev ⟨bufs, hb⟩]
        exact h
  have := gen evs (Ring.init n cap remote) [] (by simp [Ring.init])
  rw [List.nil_append] at this
  exact (List.sublist_append_left _ _).trans this

/-- A red data segment of session 5 of engine 7. -/
private def seg (b : UInt8) : Bytes := [0, 7, 5, 0, 1, 0, 1, b]

private theorem sdnv_byte (b : UInt8) (h : b.toNat < 128) : IsSdnv64 [b] b.toNat :=
  ⟨by simp, h, by simp [value]; omega, by omega⟩

private theorem seg_is (b : UInt8) : IsSegment (seg b) ⟨⟨7, 5⟩, [], .data 0 ⟨1, 0, 1, none⟩ (some [b]), []⟩ :=
  ⟨0, [7, 5], [], [1, 0, 1, b], [], 0, rfl, by decide,
    .cons (p := [7]) (sdnv_byte 7 (by decide)) (.cons (p := [5]) (sdnv_byte 5 (by decide)) (.nil [])), rfl, Nat.zero_lt_succ 15, .nil,
    .plainData (d := [b]) (.inl rfl) (by simp)
      (.cons (p := [1]) (sdnv_byte 1 (by decide)) (.cons (p := [0]) (sdnv_byte 0 (by decide))
        (.cons (p := [1]) (sdnv_byte 1 (by decide)) (.nil _)))), .nil⟩

private theorem seg_for (b : UInt8) : ForEngine 7 (seg b) := ⟨_, seg_is b, fun _ => rfl, fun h => (by cases h)⟩

/-- Three packets in a ring of three places: the first is being written to disk when the place of the second is free again. -/
private def three : List Ev :=
  [.send [[0, 7, 5, 0, 1, 0], [1, 1]], .commit, .receive, .send [seg 2], .process true, .commit, .receive, .process false, .send [seg 3], .commit]

example : AllFor 7 three ∧ ((Ring.init 3 100 7).run three).handed = [seg 1, seg 2] ∧ ((Ring.init 3 100 7).run three).committed = [seg 1, seg 2, seg 3] ∧
    ((Ring.init 3 100 7).run three).ongoing = 1 := by
  refine ⟨?_, by decide +kernel⟩
  intro bufs hb
  simp only [three, List.mem_cons, Ev.send.injEq, List.not_mem_nil, or_false, false_or, reduceCtorEq] at hb
  rcases hb with rfl | rfl | rfl
  · exact seg_for 1
  · exact seg_for 2
  · exact seg_for 3

/-- C163: the conditions that the program calls fatal, a ring that is full although a place was free and one that is empty although there was data, never occur, whatever the packets are; and
each place is free, being written, full, being processed or written to disk, or was lost with a packet that did not fit. -/
theorem C163_places (n cap remote : Nat) (hn : 2 ≤ n) (evs : List Ev) :
    let s := (Ring.init n cap remote).run evs
    s.fatal = false ∧ (s.undef = false → s.free + s.pending.toList.length + s.data + s.posted.length + s.ongoing + s.lost = n - 1) := by
  intro s
  have hc : Count s := count_run evs (count_init n cap remote hn)
  have hnn : s.n = n := by
    have gen : ∀ (evs : List Ev) (s : Ring), (s.run evs).n = s.n := by
      intro evs
      induction evs with
      | nil => intro s; rfl
      | cons ev evs ih => intro s; exact (ih (s.step ev)).trans (same_remote s ev).2.1
    exact gen evs _
  refine ⟨hc.fatal, fun hu => ?_⟩
  obtain ⟨u, h1, h2⟩ := hc.sum
  have := h2 hu
  have h3 := hc.data
  have h4 : s.pending.toList.length = s.pending.isSome.toNat := by cases s.pending <;> rfl
  rw [h4]
  omega

example : let s := (Ring.init 4 100 7).run [.send [seg 1], .commit, .send [List.replicate 101 0], .send [seg 2], .commit, .receive]
    s.free = 0 ∧ s.data = 1 ∧ s.posted = [(0, 8)] ∧ s.lost = 1 ∧ s.undef = false := by decide +kernel

/-- C163, as far as it holds: if all packets are segments for the receiving engine, the threads can always go on until it was handed all packets that were sent and all places, but for those lost with packets that did not fit, are free. -/
theorem C163_drains_partial (n cap remote : Nat) (hn : 2 ≤ n) (evs : List Ev) (ha : AllFor remote evs) :
    ∃ more : List Ev, (∀ ev ∈ more, ∀ bufs, ev ≠ .send bufs) ∧
      let s := (Ring.init n cap remote).run evs
      let s' := (Ring.init n cap remote).run (evs ++ more)
      s'.handed = s.committed ++ s.pending.toList ∧ s'.free + s'.lost = n - 1 := by
  have gen : ∀ (m : Nat) (s : Ring), Count s → Good s → 4 * s.pending.isSome.toNat + 3 * s.data + 2 * s.posted.length + s.ongoing ≤ m →
      ∃ more : List Ev, (∀ ev ∈ more, ∀ bufs, ev ≠ .send bufs) ∧ (s.run more).handed = s.committed ++ s.pending.toList ∧ (s.run more).free + (s.run more).lost = s.n - 1 := by
    intro m
    induction m with
    | zero =>
      intro s hc hg hm
      refine ⟨[], by simp, ?_, ?_⟩
      · have h1 := hg.handed
        have h2 := hg.read
        have h3 := hc.data
        have h4 := hc.len
        have h5 := hc.order
        have hp : s.pending = none := by
          cases hp : s.pending with
          | none => rfl
          | some p => rw [hp] at hm; simp at hm
        rw [hp]
        simp only [Option.toList_none, List.append_nil]
        show s.handed = s.committed
        rw [h1]
        exact List.take_of_length_le (by omega)
      · obtain ⟨u, h1, h2⟩ := hc.sum
        have := h2 hg.undef
        have := hc.data
        show s.free + s.lost = s.n - 1
        omega
    | succ m ih =>
      intro s hc hg hm
      have next : ∀ ev : Ev, (∀ bufs, ev ≠ .send bufs) →
          4 * (s.step ev).pending.isSome.toNat + 3 * (s.step ev).data + 2 * (s.step ev).posted.length + (s.step ev).ongoing ≤ m →
          ∃ more : List Ev, (∀ ev ∈ more, ∀ bufs, ev ≠ .send bufs) ∧ (s.run more).handed = s.committed ++ s.pending.toList ∧ (s.run more).free + (s.run more).lost = s.n - 1 := by
        intro ev he hm'
        obtain ⟨more, g1, g2, g3⟩ := ih (s.step ev) (count_step hc ev) (good_step hc hg ev fun bufs hb => absurd hb (he bufs)) hm'
        refine ⟨ev :: more, ?_, ?_, ?_⟩
        · intro x hx
          rcases List.mem_cons.mp hx with rfl | hx
          · exact he
          · exact g1 x hx
        · rw [← quiet_step s ev he]; exact g2
        · rw [← (same_remote s ev).2.1]; exact g3
      cases hp : s.pending with
      | some p =>
        rw [← hp]
        refine next .commit (fun _ => by simp) ?_
        rw [hp] at hm
        simp only [Option.isSome_some, Bool.toNat_true] at hm
        simp only [Ring.step]; unfold Ring.commit; rw [hp]
        simp only [Option.isSome_none, Bool.toNat_false]
        omega
      | none =>
        rw [hp] at hm
        simp only [Option.isSome_none, Bool.toNat_false] at hm
        rw [← hp]
        by_cases hd : s.data = 0
        · cases hq : s.posted with
          | cons x rest =>
            obtain ⟨i, len⟩ := x
            refine next (.process false) (fun _ => by simp) ?_
            rw [hq] at hm
            simp only [List.length_cons] at hm
            simp only [Ring.step]; unfold Ring.process; rw [hq]
            simp only [hp, Bool.false_eq_true, if_false, Option.isSome_none, Bool.toNat_false]
            omega
          | nil =>
            rw [hq] at hm
            by_cases ho : s.ongoing = 0
            · have h0 : 4 * s.pending.isSome.toNat + 3 * s.data + 2 * s.posted.length + s.ongoing ≤ m := by
                rw [hp, hq, hd, ho]; simp
              exact ih s hc hg h0
            · refine next .complete (fun _ => by simp) ?_
              simp only [Ring.step]; unfold Ring.complete; rw [if_neg ho]
              simp only [hp, hq, Option.isSome_none, Bool.toNat_false]
              simp at hm ⊢
              omega
        · refine next .receive (fun _ => by simp) ?_
          simp only [Ring.step]; unfold Ring.receive; rw [if_neg hd]
          simp only
          have h3 := hc.order
          have h4 := hc.data
          have h5 := hc.len
          have h6 := hg.read
          have hne : ¬s.w % s.n = s.r % s.n := by
            intro hcc
            obtain ⟨u, h1, -⟩ := hc.sum
            have := CircularIndex.mod_inj s.n s.r s.w h3 (by have := hc.size; omega) hcc
            omega
          rw [if_neg hne]
          have hrw : s.r < s.committed.length := by omega
          obtain ⟨stale, hst⟩ := hg.holds s.r s.committed[s.r] (by omega) (List.getElem?_eq_getElem hrw)
          rw [hst]
          simp only
          rw [verify_for (hg.all _ (List.getElem_mem hrw))]
          simp only [hp, Option.isSome_none, Bool.toNat_false, List.length_append, List.length_cons, List.length_nil]
          omega
  have hc : Count ((Ring.init n cap remote).run evs) := count_run evs (count_init n cap remote hn)
  have hg : Good ((Ring.init n cap remote).run evs) := good_run evs (count_init n cap remote hn) (good_init n cap remote) ha
  obtain ⟨more, g1, g2, g3⟩ := gen _ _ hc hg (Nat.le_refl _)
  have hnn : ((Ring.init n cap remote).run evs).n = n := by
    have gen : ∀ (evs : List Ev) (s : Ring), (s.run evs).n = s.n := by
      intro evs
      induction evs with
      | nil => intro s; rfl
      | cons ev evs ih => intro s; exact (ih (s.step ev)).trans (same_remote s ev).2.1
    exact gen evs _
  have hs : (Ring.init n cap remote).run (evs ++ more) = ((Ring.init n cap remote).run evs).run more := by unfold Ring.run; rw [List.foldl_append]
  refine ⟨more, g1, ?_⟩
  simp only
  rw [hs]
  exact ⟨g2, by rw [g3, hnn]⟩

/-- C163 does not hold: each packet that does not fit costs a place for ever. After as many as there are places but one, the sending engine's thread waits for ever: no packet is sent any more. -/
theorem C163_leak_violated (n cap remote : Nat) (hn : 2 ≤ n) : ∃ evs : List Ev, (∀ ev ∈ evs, ev = .send [List.replicate (cap + 1) 0]) ∧ evs.length = n - 1 ∧
    ∀ more : List Ev, ((Ring.init n cap remote).run (evs ++ more)).committed = [] ∧ ((Ring.init n cap remote).run (evs ++ more)).free = 0 := by
  have gen : ∀ k, k ≤ n - 1 → ∃ s, s = (Ring.init n cap remote).run (List.replicate k (.send [List.replicate (cap + 1) 0])) ∧
      s.w = 0 ∧ s.r = 0 ∧ s.n = n ∧ s.cap = cap ∧ s.pending = none ∧ s.free = n - 1 - k ∧ s.lost = k ∧ s.committed = [] := by
    intro k
    induction k with
    | zero => intro _; exact ⟨_, rfl, rfl, rfl, rfl, rfl, rfl, rfl, rfl, rfl⟩
    | succ k ih =>
      intro hk
      obtain ⟨s, h1, h2, h3, h4, h5, h6, h7, h8, h9⟩ := ih (by omega)
      refine ⟨s.send [List.replicate (cap + 1) 0], ?_, ?_⟩
      · rw [List.replicate_succ' (n := k)]
        unfold Ring.run at h1 ⊢
        rw [List.foldl_append, ← h1]; rfl
      · have hfill : fill s.cap [List.replicate (cap + 1) 0] 0 [] = (0 + (List.replicate (cap + 1) (0 : UInt8)).length, [], false) := by
          unfold fill
          rw [if_pos (by rw [h5]; simp)]
        unfold Ring.send
        rw [if_neg (by rw [h6]; simp), if_neg (by omega)]
        simp only
        rw [if_neg (by
          rw [h2, h3, h4, Nat.zero_mod, Nat.zero_add, Nat.mod_eq_of_lt (by omega)]; decide), hfill]
        exact ⟨h2, h3, h4, h5, h6, by simp only; omega, by simp only; omega, h9⟩
  obtain ⟨s, h1, h2, h3, h4, h5, h6, h7, h8, h9⟩ := gen (n - 1) (Nat.le_refl _)
  refine ⟨List.replicate (n - 1) (.send [List.replicate (cap + 1) 0]), fun ev hev => List.eq_of_mem_replicate hev, by simp, fun more => ?_⟩
  have hs : (Ring.init n cap remote).run (List.replicate (n - 1) (.send [List.replicate (cap + 1) 0]) ++ more) = s.run more := by
    rw [h1]; unfold Ring.run; rw [List.foldl_append]
  rw [hs]
  have hc : Count s := by rw [h1]; exact count_run _ (count_init n cap remote hn)
  have stay : ∀ (more : List Ev) (s : Ring), Count s → s.lost = s.n - 1 → s.committed = [] → (s.run more).committed = [] ∧ (s.run more).free = 0 := by
    intro more
    induction more with
    | nil =>
      intro s hc hl h0
      obtain ⟨u, g1, -⟩ := hc.sum
      exact ⟨h0, by show s.free = 0; omega⟩
    | cons ev more ih =>
      intro s hc hl h0
      obtain ⟨u, g1, -⟩ := hc.sum
      have g2 := hc.data
      have hsame : s.step ev = s := by
        cases ev with
        | send bufs =>
          simp only [Ring.step]; unfold Ring.send
          by_cases hp : s.pending.isSome = true
          · rw [if_pos hp]
          · rw [if_neg hp, if_pos (by omega)]
        | commit =>
          simp only [Ring.step]; unfold Ring.commit
          cases hp : s.pending with
          | none => rfl
          | some p => rw [hp] at g1; simp at g1; omega
        | receive => simp only [Ring.step]; unfold Ring.receive; rw [if_pos (by omega)]
        | process disk =>
          simp only [Ring.step]; unfold Ring.process
          cases hp : s.posted with
          | nil => rfl
          | cons x rest => rw [hp] at g1; simp at g1; omega
        | complete => simp only [Ring.step]; unfold Ring.complete; rw [if_pos (by omega)]
      show ((s.step ev).run more).committed = [] ∧ ((s.step ev).run more).free = 0
      rw [hsame]
      exact ih s hc hl h0
  exact stay more s hc (by omega) h9

/-- C163 does not hold: the place of a packet that is refused is given back at once, though earlier packets are not yet processed; the sender then writes over a packet that
the engine has still to read. Here the engine is handed the fourth packet twice and the first one never. -/
theorem C163_overwritten_violated : ∃ evs : List Ev,
    let s := (Ring.init 3 100 7).run evs
    s.committed = [seg 1, [0, 9, 5, 0, 1, 0, 1, 1], [0, 9, 5, 0, 1, 0, 1, 2], seg 4] ∧ s.handed = [seg 4, seg 4] ∧ s.posted = [] ∧ s.data = 0 :=
  ⟨[.send [seg 1], .commit, .send [[0, 9, 5, 0, 1, 0, 1, 1]], .commit, .receive, .receive, .send [[0, 9, 5, 0, 1, 0, 1, 2]], .commit, .receive,
    .send [seg 4], .commit, .process false, .receive, .process false], by decide +kernel⟩

/-- C164: a segment is let in exactly if it was sent by the sender of a block and names the expected engine as the originator, or was sent by the receiver of a block and its session number is one that belongs to this engine; what
the memory holds behind it does not matter. -/
theorem C164_lets_in (remote : Nat) (w stale : Bytes) (e : Event) (h : IsSegment w e) :
    ∃ b, verify remote (w ++ stale) w.length = some b ∧
      (b = true ↔ (bySender e.content = true ∧ e.id.engine = remote) ∨ (bySender e.content = false ∧ engineIndexOf e.id.number = 1)) := by
  refine ⟨_, verify_segment h, ?_⟩
  by_cases hb : bySender e.content = true
  · rw [if_pos hb]; simp [hb]
  · rw [if_neg hb]
    have : bySender e.content = false := by simpa using hb
    simp [this]

example : verify 7 (seg 1 ++ [1, 2]) 8 = some true ∧ verify 8 (seg 1 ++ [1, 2]) 8 = some false := by decide +kernel

/-- C164: the segments about blocks that an engine of index 1 sends are let in. -/
theorem C164_own_sessions (remote : Nat) (w stale : Bytes) (e : Event) (h : IsSegment w e) (hs : bySender e.content = false) (rs : List Nat)
    (hn : e.id.number ∈ sessions64 (Rng.init 1) rs ∨ e.id.number ∈ sessions32 (Rng.init 1) rs ∨ e.id.number = ping64 (Rng.init 1) ∨ e.id.number = ping32 (Rng.init 1)) :
    verify remote (w ++ stale) w.length = some true := by
  have hx := C15_engine_index 1 (by decide) rs e.id.number
  have hi : engineIndexOf e.id.number = 1 := by
    rcases hn with hn | hn | hn | hn
    · exact (hx.1 hn).1
    · exact (hx.2.1 hn).1
    · rw [hn]; exact hx.2.2.1
    · rw [hn]; exact hx.2.2.2
  rw [verify_segment h, hs, hi]; rfl

/-- C164: a packet of two bytes or less is refused, and so is one whose type LTP does not know. -/
theorem C164_refused (remote : Nat) (mem : Bytes) (len : Nat) (h : len ≤ 2 ∨ ((mem.headD 0).toNat < 32 ∧ (mem.headD 0).toNat ∉ [0, 1, 2, 3, 4, 7, 8, 9, 12, 13, 14, 15])) :
    verify remote mem len = some false := by
  unfold verify
  by_cases hl : len ≤ 2
  · rw [if_pos hl]
  · rw [if_neg hl]
    obtain ⟨h1, h2⟩ := h.resolve_left hl
    have : ∀ k : Nat, k < 32 → k ∉ [0, 1, 2, 3, 4, 7, 8, 9, 12, 13, 14, 15] → LtpUdpManager.direction k = .invalid := by decide
    rw [this _ h1 h2]

/-- C164 does not hold: a packet whose first byte is 32 or more is not refused; the behaviour of the program is not defined. -/
theorem C164_undefined_violated (remote : Nat) (mem : Bytes) (len : Nat) (hl : 2 < len) (h : 32 ≤ (mem.headD 0).toNat) : verify remote mem len = none := by
  unfold verify
  rw [if_neg (by omega)]
  unfold LtpUdpManager.direction
  rw [if_pos h]

example : (2 : Nat) < 3 ∧ 32 ≤ (([0x20, 1, 1] : Bytes).headD 0).toNat := by decide

/-- C164 does not hold: whether a cut packet is let in depends on what an earlier packet left in the memory behind it. -/
theorem C164_stale_violated : verify 7 ([0, 0x80, 0x80] ++ [7]) 3 = some true ∧ verify 7 ([0, 0x80, 0x80] ++ [9]) 3 = some false := by decide +kernel

end Hdtn.LtpIpc
