import Verif.LtpUdpManager.Lemmas

/-!
Properties C154 to C156: LTP engines that share a UDP port.
-/

namespace Hdtn.LtpUdpManager

open Spec Hdtn.Sdnv.Spec Hdtn.LtpRng Hdtn.LtpWire Hdtn.LtpWire.Spec

/-- A manager for examples: two inducts and two outducts. -/
private def two : List Ev := [.add true 7 4, .add false 7 4, .add true 9 4, .add false 9 2]

/-- A red data segment of session 5 of engine 7. -/
private def dataSeg : Bytes := [0, 7, 5, 0, 1, 0, 2, 0xaa, 0xbb]

private theorem sdnv_byte (b : UInt8) (h : b.toNat < 128) : IsSdnv64 [b] b.toNat :=
  ⟨by simp, h, by simp [value]; omega, by omega⟩

private theorem dataSeg_is : IsSegment dataSeg ⟨⟨7, 5⟩, [], .data 0 ⟨1, 0, 2, none⟩ (some [0xaa, 0xbb]), []⟩ :=
  ⟨0, [7, 5], [], [1, 0, 2, 0xaa, 0xbb], [], 0, rfl, by decide,
    .cons (p := [7]) (sdnv_byte 7 (by decide)) (.cons (p := [5]) (sdnv_byte 5 (by decide)) (.nil [])), rfl, by decide, .nil,
    .plainData (d := [0xaa, 0xbb]) (.inl rfl) (by simp)
      (.cons (p := [1]) (sdnv_byte 1 (by decide)) (.cons (p := [0]) (sdnv_byte 0 (by decide))
        (.cons (p := [2]) (sdnv_byte 2 (by decide)) (.nil _)))), .nil⟩

private theorem ackSeg_is : IsSegment [13, 20, 0x86, 0x80, 0x80, 0x80, 1, 0] ⟨⟨20, 0x60000001⟩, [], .cancelAck true, []⟩ :=
  ⟨13, [20, 0x86, 0x80, 0x80, 0x80, 1], [], [], [], 0, rfl, by decide,
    .cons (p := [20]) (sdnv_byte 20 (by decide))
      (.cons (p := [0x86, 0x80, 0x80, 0x80, 1]) ⟨by decide, by decide, by decide, by decide⟩ (.nil [])), rfl, by decide, .nil,
    .cancelAckToSender, .nil⟩

/-- C154: a segment from a sender of blocks goes to the induct for the engine that it names as the originator of its session, and to no other engine. It is kept unless
that engine's ring is full; what was in the buffer before plays no part. -/
theorem C154_to_receiver (es : List Ev) (m : Mgr) (hm : ({} : Mgr).run es = some m) (ho : m.opened = true) (w stale : Bytes) (e : Event)
    (hw : IsSegment w e) (hs : bySender e.content = true) :
    ∃ m', m.receive w stale = some m' ∧ OnlyTo w e.id.engine m.rx m'.rx ∧ m'.tx = m.tx ∧ m'.opened = true ∧ m'.ready = m.ready := by
  have h := inv_run inv_init hm
  obtain ⟨c, hc, -⟩ := toReceiver_eq h e.id.engine w
  rw [receive_segment ho hw, if_pos hs]
  exact ⟨_, hc, change_only _ _ _, rfl, ho, rfl⟩

example : (({} : Mgr).run (two ++ [.datagram dataSeg [1, 2]])).map (fun m => m.rx.map given) = some [[dataSeg], []] ∧
    ∃ e, IsSegment dataSeg e ∧ bySender e.content = true ∧ e.id.engine = 7 := ⟨by decide +kernel, _, dataSeg_is, rfl, rfl⟩

/-- C154: a segment from a receiver of blocks goes to the outduct that started the session, whose session numbers are drawn with the index it was given, and to no other engine. -/
theorem C154_to_sender (es : List Ev) (m : Mgr) (hm : ({} : Mgr).run es = some m) (ho : m.opened = true) (w stale : Bytes) (e : Event)
    (hw : IsSegment w e) (hs : bySender e.content = false) (t : Engine) (ht : t ∈ m.tx) (rs : List Nat)
    (hn : e.id.number ∈ sessions64 (Rng.init t.index) rs ∨ e.id.number ∈ sessions32 (Rng.init t.index) rs ∨
      e.id.number = ping64 (Rng.init t.index) ∨ e.id.number = ping32 (Rng.init t.index)) :
    ∃ m', m.receive w stale = some m' ∧ OnlyTo w t.remote m.tx m'.tx ∧ m'.rx = m.rx ∧ m'.opened = true ∧ m'.ready = m.ready := by
  have h := inv_run inv_init hm
  have h7 := h.index t ht
  have h8 := h.next
  have hx := C15_engine_index t.index ⟨h7.1, by omega⟩ rs e.id.number
  have hi : engineIndexOf e.id.number = t.index := by
    rcases hn with hn | hn | hn | hn
    · exact (hx.1 hn).1
    · exact (hx.2.1 hn).1
    · rw [hn]; exact hx.2.2.1
    · rw [hn]; exact hx.2.2.2
  have hr := receive_segment (stale := stale) ho hw
  rw [if_neg (by rw [hs]; decide)] at hr
  rcases toSender_eq h ho e.id.number w with ⟨-, h2⟩ | ⟨t', ht', hi', h2⟩
  · exact absurd hi.symm (h2 t ht)
  · have : t'.remote = t.remote := by
      have a := h.slot t ht
      have b := h.slot t' ht'
      rw [hi', hi, a] at b
      simp only [Option.some.injEq] at b
      exact b.symm
    rw [this] at h2
    exact ⟨_, hr.trans h2, change_only _ _ _, rfl, ho, rfl⟩

example : (({} : Mgr).run (two ++ [.add false 11 3, .datagram [13, 20, 0x86, 0x80, 0x80, 0x80, 1, 0] []])).map
    (fun m => m.tx.map fun e => (e.remote, e.index, (given e).length)) = some [(7, 1, 0), (9, 2, 0), (11, 3, 1)] ∧
    ∃ e, IsSegment [13, 20, 0x86, 0x80, 0x80, 0x80, 1, 0] e ∧ bySender e.content = false ∧ e.id.number ∈ sessions32 (Rng.init 3) [0] :=
  ⟨by decide +kernel, _, ackSeg_is, rfl, by decide +kernel⟩

/-- C154: outducts that exist at the same time have different indices from one to seven. -/
theorem C154_indices (es : List Ev) (m : Mgr) (hm : ({} : Mgr).run es = some m) :
    (∀ t ∈ m.tx, 1 ≤ t.index ∧ t.index ≤ 7) ∧ ∀ t ∈ m.tx, ∀ t' ∈ m.tx, t.index = t'.index → t.remote = t'.remote := by
  have h := inv_run inv_init hm
  refine ⟨fun t ht => ⟨(h.index t ht).1, ?_⟩, ?_⟩
  · have := h.index t ht
    have := h.next
    omega
  · intro t ht t' ht' hi
    have a := h.slot t ht
    have b := h.slot t' ht'
    rw [hi, b] at a
    simp only [Option.some.injEq] at a
    exact a.symm

example : (({} : Mgr).run two).map (fun m => m.tx.map (·.index)) = some [1, 2] := by decide +kernel

theorem given_post (e : Engine) (d : Bytes) : given (e.post d) = given e ∨ given (e.post d) = given e ++ [d] := by
  unfold Engine.post given
  split_ifs
  · exact .inl rfl
  · exact .inr (by simp)

theorem given_process (e : Engine) : given e.process = given e := by
  unfold Engine.process given
  split
  · rfl
  · rename_i d ds h
    simp [h]

theorem sub_step {m m' : Mgr} (h : Inv m) {ds : List Bytes} (hp : ∀ e ∈ m.rx ++ m.tx, (given e).Sublist ds) (ev : Ev)
    (hs : m.step ev = some m') : ∀ e ∈ m'.rx ++ m'.tx, (given e).Sublist (ds ++ datagrams [ev]) := by
  have grow : ∀ e ∈ m.rx ++ m.tx, ∀ l, (given e).Sublist (ds ++ l) := fun e he l => (hp e he).trans (List.sublist_append_left ds l)
  cases ev with
  | add i r s =>
    cases hs
    intro e he
    rcases add_cases m i r s with h1 | h1 | h1 <;> rw [h1] at he
    · exact grow e he _
    · simp only [List.mem_append, List.mem_singleton] at he
      rcases he with (he | rfl) | he
      · exact grow e (by simp [he]) _
      · simp [given]
      · exact grow e (by simp [he]) _
    · simp only [List.mem_append, List.mem_singleton] at he
      rcases he with he | he | rfl
      · exact grow e (by simp [he]) _
      · exact grow e (by simp [he]) _
      · simp [given]
  | remove i r =>
    cases hs
    intro e he
    rcases remove_cases m i r with h1 | h1 | ⟨k, h1⟩ <;> rw [h1] at he
    · exact grow e he _
    · rcases List.mem_append.mp he with he | he
      · exact grow e (List.mem_append_left _ (List.mem_filter.mp he).1) _
      · exact grow e (List.mem_append_right _ he) _
    · rcases List.mem_append.mp he with he | he
      · exact grow e (List.mem_append_left _ he) _
      · exact grow e (List.mem_append_right _ (List.mem_filter.mp he).1) _
  | datagram d stale =>
    have hd : datagrams [Ev.datagram d stale] = [d] := rfl
    have key : ∀ l, (∀ e ∈ l, e ∈ m.rx ++ m.tx) → ∀ r, ∀ e ∈ change l r (·.post d), (given e).Sublist (ds ++ [d]) := by
      intro l hl r e he
      obtain ⟨a, ha, rfl⟩ := mem_change.mp he
      split_ifs
      · rcases given_post a d with h1 | h1
        · rw [h1]; exact grow a (hl a ha) _
        · rw [h1]; exact List.Sublist.append (hp a (hl a ha)) (List.Sublist.refl _)
      · exact grow a (hl a ha) _
    have he := receive_effect h d stale
    simp only [Mgr.step] at hs
    rw [hs] at he
    rw [hd]
    intro e hm
    cases he with
    | nothing => exact grow e hm _
    | shutdown _ => simp [Mgr.shutdown] at hm
    | induct r c hc =>
      rcases List.mem_append.mp hm with hm | hm
      · exact key m.rx (fun e he => List.mem_append_left _ he) r e hm
      · exact grow e (List.mem_append_right _ hm) _
    | outduct r =>
      rcases List.mem_append.mp hm with hm | hm
      · exact grow e (List.mem_append_left _ hm) _
      · exact key m.tx (fun e he => List.mem_append_right _ he) r e hm
  | process i r =>
    have key : ∀ l, (∀ e ∈ l, e ∈ m.rx ++ m.tx) → ∀ r, ∀ e ∈ change l r Engine.process, ∀ l', (given e).Sublist (ds ++ l') := by
      intro l hl r e he l'
      obtain ⟨a, ha, rfl⟩ := mem_change.mp he
      split_ifs
      · rw [given_process]; exact grow a (hl a ha) _
      · exact grow a (hl a ha) _
    cases i with
    | true =>
      cases hs
      intro e hm
      rcases List.mem_append.mp hm with hm | hm
      · exact key m.rx (fun e he => List.mem_append_left _ he) r e hm _
      · exact grow e (List.mem_append_right _ hm) _
    | false =>
      cases hs
      intro e hm
      rcases List.mem_append.mp hm with hm | hm
      · exact grow e (List.mem_append_left _ hm) _
      · exact key m.tx (fun e he => List.mem_append_right _ he) r e hm _

theorem sub_run (es : List Ev) : ∀ {m m' : Mgr} {ds : List Bytes}, Inv m → (∀ e ∈ m.rx ++ m.tx, (given e).Sublist ds) → m.run es = some m' →
    ∀ e ∈ m'.rx ++ m'.tx, (given e).Sublist (ds ++ datagrams es) := by
  induction es with
  | nil => intro m m' ds h hp hr; cases hr; simpa [datagrams] using hp
  | cons ev es ih =>
    intro m m' ds h hp hr
    rw [Mgr.run] at hr
    cases hs : m.step ev with
    | none => rw [hs] at hr; cases hr
    | some m1 =>
      rw [hs] at hr
      have := ih (inv_step h ev hs) (sub_step h hp ev hs) hr
      have e : datagrams (ev :: es) = datagrams [ev] ++ datagrams es := by
        rw [datagrams, ← List.singleton_append, List.filterMap_append]; rfl
      rw [e, ← List.append_assoc]
      exact this

/-- C154: an engine is given only datagrams that arrived, as they arrived and in their order, none more often than it arrived, and processes them in that order. -/
theorem C154_in_order (es : List Ev) (m : Mgr) (hm : ({} : Mgr).run es = some m) (e : Engine) (he : e ∈ m.rx ++ m.tx) :
    (given e).Sublist (datagrams es) ∧ e.done <+: given e :=
  ⟨by simpa using sub_run es inv_init (ds := []) (fun _ h => (nomatch h)) hm e he, List.prefix_append _ _⟩

example : (({} : Mgr).run (two ++ [.datagram dataSeg [], .datagram [0, 7, 6, 0, 9] [], .process true 7, .datagram [0, 9, 1, 1] []])).map
    (fun m => m.rx.map fun e => (e.done, e.inbox)) = some [([dataSeg], [[0, 7, 6, 0, 9]]), ([], [[0, 9, 1, 1]])] := by decide +kernel

/-- C155, as far as it holds: as long as no datagram has a type that LTP does not know, the manager goes on and its behaviour is defined, whatever else the datagrams contain. -/
theorem C155_known_types_partial (es : List Ev) (hk : KnownTypes es) :
    ∃ m, ({} : Mgr).run es = some m ∧ m.opened = true ∧ m.ready = true := by
  have gen : ∀ es, KnownTypes es → ∀ m : Mgr, Inv m → m.opened = true → m.ready = true → ∃ m', m.run es = some m' ∧ m'.opened = true ∧ m'.ready = true := by
    intro es
    induction es with
    | nil => intro _ m _ h1 h2; exact ⟨m, rfl, h1, h2⟩
    | cons ev es ih =>
      intro hk m h h1 h2
      have hk' : KnownTypes es := by
        intro d hd
        apply hk
        rw [datagrams, ← List.singleton_append, List.filterMap_append]
        exact List.mem_append_right _ hd
      have : ∃ m1, m.step ev = some m1 ∧ m1.opened = true ∧ m1.ready = true := by
        cases ev with
        | add i r s =>
          refine ⟨_, rfl, ?_⟩
          rcases add_cases m i r s with h3 | h3 | h3 <;> rw [h3] <;> exact ⟨h1, h2⟩
        | remove i r =>
          refine ⟨_, rfl, ?_⟩
          rcases remove_cases m i r with h3 | h3 | ⟨k, h3⟩ <;> rw [h3] <;> exact ⟨h1, h2⟩
        | process i r =>
          cases i <;> exact ⟨_, rfl, h1, h2⟩
        | datagram d stale =>
          have hd := hk d (by simp [datagrams])
          simp only [Mgr.step]
          by_cases hl : d.length ≤ 2
          · refine ⟨m, ?_, h1, h2⟩
            unfold Mgr.receive
            rw [if_neg (by rw [h1]; decide), if_pos hl]
          · have hd := hd.resolve_left hl
            have he := receive_effect h d stale
            generalize m.receive d stale = o at he
            cases he with
            | nothing => exact ⟨m, rfl, h1, h2⟩
            | undefined h32 =>
              exfalso
              have : ∀ n ∈ [0, 1, 2, 3, 4, 7, 8, 9, 12, 13, 14, 15], n < 32 := by decide
              exact absurd (this _ hd) (by omega)
            | shutdown hn => exact absurd hd hn
            | induct r c hc => exact ⟨_, rfl, h1, h2⟩
            | outduct r => exact ⟨_, rfl, h1, h2⟩
      obtain ⟨m1, hs, h3, h4⟩ := this
      obtain ⟨m', hr, h5⟩ := ih hk' m1 (inv_step h ev hs) h3 h4
      exact ⟨m', by rw [Mgr.run, hs]; exact hr, h5⟩
  exact gen es hk {} inv_init rfl rfl

example : KnownTypes (two ++ [.datagram dataSeg [], .datagram [5] [], .datagram [8, 0xff, 0xff, 0xff, 0xff, 0xff, 0xff, 0xff, 0xff, 0xff, 0xff] []]) := by
  unfold KnownTypes; decide +kernel

/-- C155 does not hold: a single datagram of three bytes whose first is one of the values below 32 that LTP does not use closes the socket, removes the engines of all
inducts and outducts, and nothing is ever received on the port again. -/
theorem C155_unknown_type_violated (m : Mgr) (ho : m.opened = true) (d stale : Bytes) (hl : 2 < d.length) (h32 : (d.headD 0).toNat < 32)
    (ht : (d.headD 0).toNat ∉ [0, 1, 2, 3, 4, 7, 8, 9, 12, 13, 14, 15]) :
    ∃ m', m.receive d stale = some m' ∧ m'.rx = [] ∧ m'.tx = [] ∧ m'.opened = false ∧ m'.ready = false ∧
      ∀ es m'', m'.run es = some m'' → m''.opened = false ∧ m''.ready = false ∧ ∀ e ∈ m''.rx ++ m''.tx, given e = [] := by
  refine ⟨m.shutdown, ?_, rfl, rfl, rfl, rfl, ?_⟩
  · unfold Mgr.receive
    rw [if_neg (by rw [ho]; decide), if_neg (by omega)]
    have hd : (d ++ stale).headD 0 = d.headD 0 := by
      cases d with
      | nil => simp at hl
      | cons a l => rfl
    simp only [hd, (direction_small h32).1.mpr ht]
  · have gen : ∀ es (m m'' : Mgr), m.opened = false → m.ready = false → (∀ e ∈ m.rx ++ m.tx, given e = []) → m.run es = some m'' →
        m''.opened = false ∧ m''.ready = false ∧ ∀ e ∈ m''.rx ++ m''.tx, given e = [] := by
      intro es
      induction es with
      | nil => intro m m'' h1 h2 h3 hr; cases hr; exact ⟨h1, h2, h3⟩
      | cons ev es ih =>
        intro m m'' h1 h2 h3 hr
        rw [Mgr.run] at hr
        have hpr : ∀ l, (∀ e ∈ l, given e = []) → ∀ r, ∀ e ∈ change l r Engine.process, given e = [] := by
          intro l hl r e he
          obtain ⟨a, ha, rfl⟩ := mem_change.mp he
          split_ifs
          · rw [given_process]; exact hl a ha
          · exact hl a ha
        cases ev with
        | add i r s =>
          have hr : (m.add i r s).2.run es = some m'' := hr
          rcases add_cases m i r s with h4 | h4 | h4 <;> rw [h4] at hr
          · exact ih _ m'' h1 h2 h3 hr
          · refine ih _ m'' ?_ ?_ ?_ hr
            · exact h1
            · exact h2
            · intro e he
              simp only [List.mem_append, List.mem_singleton] at he
              rcases he with (he | rfl) | he
              · exact h3 e (by simp [he])
              · rfl
              · exact h3 e (by simp [he])
          · refine ih _ m'' ?_ ?_ ?_ hr
            · exact h1
            · exact h2
            · intro e he
              simp only [List.mem_append, List.mem_singleton] at he
              rcases he with he | he | rfl
              · exact h3 e (by simp [he])
              · exact h3 e (by simp [he])
              · rfl
        | remove i r =>
          have hr : (m.remove i r).run es = some m'' := hr
          rcases remove_cases m i r with h4 | h4 | ⟨k, h4⟩ <;> rw [h4] at hr
          · exact ih _ m'' h1 h2 h3 hr
          · refine ih _ m'' ?_ ?_ ?_ hr
            · exact h1
            · exact h2
            · intro e he
              rcases List.mem_append.mp he with he | he
              · exact h3 e (List.mem_append_left _ (List.mem_filter.mp he).1)
              · exact h3 e (List.mem_append_right _ he)
          · refine ih _ m'' ?_ ?_ ?_ hr
            · exact h1
            · exact h2
            · intro e he
              rcases List.mem_append.mp he with he | he
              · exact h3 e (List.mem_append_left _ he)
              · exact h3 e (List.mem_append_right _ (List.mem_filter.mp he).1)
        | process i r =>
          cases i with
          | true =>
            refine ih _ m'' ?_ ?_ ?_ hr
            · exact h1
            · exact h2
            · intro e he
              rcases List.mem_append.mp he with he | he
              · exact hpr m.rx (fun e he => h3 e (List.mem_append_left _ he)) r e he
              · exact h3 e (List.mem_append_right _ he)
          | false =>
            refine ih _ m'' ?_ ?_ ?_ hr
            · exact h1
            · exact h2
            · intro e he
              rcases List.mem_append.mp he with he | he
              · exact h3 e (List.mem_append_left _ he)
              · exact hpr m.tx (fun e he => h3 e (List.mem_append_right _ he)) r e he
        | datagram d stale =>
          have : m.step (.datagram d stale) = some m := by
            simp only [Mgr.step]
            unfold Mgr.receive
            rw [if_pos h1]
          rw [this] at hr
          exact ih m m'' h1 h2 h3 hr
    exact fun es m'' hr => gen es m.shutdown m'' rfl rfl (fun _ h => (nomatch h)) hr

example : (({} : Mgr).run (two ++ [.datagram [5, 0, 0] [], .datagram dataSeg []])).map (fun m => (m.rx, m.tx, m.opened)) = some ([], [], false) := by
  decide +kernel

/-- C155 does not hold: if the first byte of a datagram of three bytes is 32 or more, the behaviour of the program is not defined. -/
theorem C155_undefined_violated (m : Mgr) (ho : m.opened = true) (d stale : Bytes) (hl : 2 < d.length) (h32 : 32 ≤ (d.headD 0).toNat) :
    m.receive d stale = none := by
  unfold Mgr.receive
  rw [if_neg (by rw [ho]; decide), if_neg (by omega)]
  have hd : (d ++ stale).headD 0 = d.headD 0 := by
    cases d with
    | nil => simp at hl
    | cons a l => rfl
  simp only [hd, direction_large h32]

example : ({} : Mgr).run (two ++ [.datagram [0x20, 0, 0] []]) = none := by decide +kernel

/-- C155 does not hold: the engine for a datagram that is too short is chosen by what the buffer held before. The same datagram goes to one engine, to another one, or to none. -/
theorem C155_stale_violated : ∃ (es : List Ev) (d : Bytes),
    (({} : Mgr).run (es ++ [.datagram d [7]])).map (fun m => m.rx.map given) = some [[d], []] ∧
    (({} : Mgr).run (es ++ [.datagram d [9]])).map (fun m => m.rx.map given) = some [[], [d]] ∧
    (({} : Mgr).run (es ++ [.datagram d [8]])).map (fun m => m.rx.map given) = some [[], []] :=
  ⟨two, [0, 0x80, 0x80], by decide +kernel⟩

/-- C156: an induct can be added exactly if there is none for its remote engine. -/
theorem C156_add_induct (m : Mgr) (remote size : Nat) :
    ((m.add true remote size).1 = true ↔ ∀ e ∈ m.rx, e.remote ≠ remote) := by
  unfold Mgr.add
  rw [if_neg (by simp)]
  simp only [if_true]
  cases hf : find m.rx remote with
  | none => simpa using find_none hf
  | some e =>
    simp only [Option.isSome_some, if_true, Bool.false_eq_true, false_iff]
    intro h
    exact h e (find_some hf).1 (find_some hf).2

example : (({ rx := [⟨7, 1, 4, [], [], 0⟩] } : Mgr).add true 7 4).1 = false ∧ (({ rx := [⟨7, 1, 4, [], [], 0⟩] } : Mgr).add true 8 4).1 = true := by decide +kernel

/-- No outduct is removed. -/
def KeepsOutducts (es : List Ev) : Prop := ∀ r, Ev.remove false r ∉ es

/-- C156, as far as it holds: as long as none was removed and no datagram had an unknown type, an outduct can be added exactly if there are fewer than seven and none for its remote engine. -/
theorem C156_add_outduct_partial (es : List Ev) (hk : KnownTypes es) (hr : KeepsOutducts es) (m : Mgr) (hm : ({} : Mgr).run es = some m) (remote size : Nat) :
    ((m.add false remote size).1 = true ↔ m.tx.length < 7 ∧ ∀ e ∈ m.tx, e.remote ≠ remote) := by
  have gen : ∀ es, KnownTypes es → KeepsOutducts es → ∀ m m' : Mgr, Inv m → m.next = m.tx.length + 1 → m.run es = some m' → m'.next = m'.tx.length + 1 := by
    intro es
    induction es with
    | nil => intro _ _ m m' _ h hr; cases hr; exact h
    | cons ev es ih =>
      intro hk hr m m' hi h hrun
      have hk' : KnownTypes es := by
        intro d hd
        apply hk
        rw [datagrams, ← List.singleton_append, List.filterMap_append]
        exact List.mem_append_right _ hd
      have hr' : KeepsOutducts es := fun r hc => hr r (List.mem_cons_of_mem _ hc)
      rw [Mgr.run] at hrun
      cases hs : m.step ev with
      | none => rw [hs] at hrun; cases hrun
      | some m1 =>
        rw [hs] at hrun
        refine ih hk' hr' m1 m' (inv_step hi ev hs) ?_ hrun
        cases ev with
        | add i r s =>
          cases hs
          rcases add_cases m i r s with h4 | h4 | h4 <;> rw [h4]
          · exact h
          · exact h
          · simp [h]
        | remove i r =>
          cases i with
          | false => exact absurd List.mem_cons_self (hr r)
          | true =>
            cases hs
            unfold Mgr.remove
            split
            · exact h
            · exact h
        | process i r =>
          cases i with
          | true => cases hs; exact h
          | false => cases hs; simp only [change, List.length_map]; exact h
        | datagram d stale =>
          have hd := hk d (by simp [datagrams])
          simp only [Mgr.step] at hs
          by_cases hl : d.length ≤ 2
          · have : m.receive d stale = some m := by
              unfold Mgr.receive
              split_ifs <;> rfl
            rw [this] at hs
            cases hs
            exact h
          · have he := receive_effect hi d stale
            rw [hs] at he
            cases he with
            | nothing => exact h
            | shutdown hn => exact absurd (hd.resolve_left hl) hn
            | induct r c hc => exact h
            | outduct r => simp only [change, List.length_map]; exact h
  have hn := gen es hk hr {} m inv_init rfl hm
  unfold Mgr.add
  by_cases h7 : 7 < m.next
  · rw [if_pos ⟨h7, rfl⟩]
    simp only [Bool.false_eq_true, false_iff]
    rintro ⟨h, -⟩
    omega
  · rw [if_neg (by simp [h7])]
    simp only [Bool.false_eq_true, if_false]
    cases hf : find m.tx remote with
    | none =>
      simp only [Option.isSome_none, Bool.false_eq_true, if_false, true_iff]
      exact ⟨by omega, find_none hf⟩
    | some e =>
      simp only [Option.isSome_some, if_true, Bool.false_eq_true, false_iff]
      rintro ⟨-, h⟩
      exact h e (find_some hf).1 (find_some hf).2

example : KnownTypes two ∧ KeepsOutducts two ∧
    (({} : Mgr).run two).map (fun m => ((m.add false 9 4).1, (m.add false 10 4).1)) = some (false, true) := by
  refine ⟨?_, ?_, by decide +kernel⟩
  · unfold KnownTypes; decide +kernel
  · intro r; simp [two]

/-- C156 does not hold in general: an outduct that was added and removed seven times cannot be added again, although there is none. -/
theorem C156_readd_violated : ∃ (es : List Ev) (m : Mgr), ({} : Mgr).run es = some m ∧ m.opened = true ∧ m.tx = [] ∧ ∀ remote size, (m.add false remote size).1 = false := by
  refine ⟨(List.replicate 7 [Ev.add false 3 4, Ev.remove false 3]).flatten, { next := 8 }, by decide +kernel, rfl, rfl, ?_⟩
  intro remote size
  unfold Mgr.add
  rw [if_pos ⟨by decide, rfl⟩]

/-- C156: removing an engine removes that one and leaves all others as they are. -/
theorem C156_remove (m : Mgr) (induct : Bool) (remote : Nat) :
    (m.remove induct remote).rx = (if induct then m.rx.filter (fun e => e.remote ≠ remote) else m.rx) ∧
    (m.remove induct remote).tx = (if induct then m.tx else m.tx.filter (fun e => e.remote ≠ remote)) ∧
    (m.remove induct remote).opened = m.opened ∧ (m.remove induct remote).ready = m.ready := by
  have hsame : ∀ l, find l remote = none → l.filter (fun e => e.remote ≠ remote) = l := by
    intro l hl
    rw [List.filter_eq_self]
    intro e he
    simpa using find_none hl e he
  unfold Mgr.remove
  cases induct with
  | true =>
    simp only [if_true]
    cases hf : find m.rx remote with
    | none => exact ⟨(hsame _ hf).symm, rfl, rfl, rfl⟩
    | some e => exact ⟨rfl, rfl, rfl, rfl⟩
  | false =>
    simp only [Bool.false_eq_true, if_false]
    cases hf : find m.tx remote with
    | none => exact ⟨rfl, (hsame _ hf).symm, rfl, rfl⟩
    | some e => exact ⟨rfl, rfl, rfl, rfl⟩

example : (({} : Mgr).run (two ++ [.datagram dataSeg [], .remove true 7, .datagram dataSeg []])).map (fun m => (m.rx.map (·.remote), m.tx.map (·.remote), m.cache)) =
    some ([9], [7, 9], none) := by decide +kernel

end Hdtn.LtpUdpManager
