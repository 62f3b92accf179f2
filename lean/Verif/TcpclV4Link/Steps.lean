import Verif.TcpclV4Link.Events

/-! The invariant is kept by every action. -/

namespace Hdtn.TcpclV4Link

open TcpclV4 (Event Ext slow start slow_append feed_slow)
open TcpclV4.Spec (generate Sendable Fits opens)
open Spec (Suits segment perBundle Possible)

variable {careful : Bool} {c d : Cfg} {x y : Side} {v w : View}

/-! ### The parser -/

theorem sent_shape (cy : Core careful d c y w v.sent) :
    w.sent = [] ∨ ∃ es, w.sent = contactMsg d :: es ∧ ∀ e ∈ es, opens e = false := by
  obtain ⟨rest, h1, h2, h3⟩ := cy.opening
  have hplain : ∀ e, plain e = true → opens e = false := by
    intro e he
    cases e <;> first | rfl | simp [plain] at he
  rcases hs : w.sent with _ | ⟨a, as⟩
  · exact .inl rfl
  · right
    rw [hs] at h1
    have hsplit : ∃ r, opened d w.got.length = contactMsg d :: r ∧ ∀ e ∈ r ++ rest, opens e = false := by
      by_cases hact : d.active = true
      · by_cases hn : w.got.length = 0
        · exact ⟨[], by simp [opened, hact, hn], fun e he => hplain e (h2 e (by simpa using Or.inl he))⟩
        · refine ⟨[initMsg d], by simp [opened, hact, hn], fun e he => ?_⟩
          simp only [List.mem_append, List.mem_singleton] at he
          rcases he with rfl | he
          · rfl
          · exact hplain e (h2 e (by simp [he]))
      · by_cases hn : w.got.length = 0
        · simp [opened, hact, hn, (h3 (by omega)).1] at h1
        · by_cases hn1 : w.got.length = 1
          · exact ⟨[], by simp [opened, hact, hn1], fun e he => hplain e (h2 e (by simpa using Or.inl he))⟩
          · refine ⟨[initMsg d], by simp [opened, hact, hn, hn1], fun e he => ?_⟩
            simp only [List.mem_append, List.mem_singleton] at he
            rcases he with rfl | he
            · rfl
            · exact hplain e (h2 e (by simp [he]))
    obtain ⟨r, hr, hopen⟩ := hsplit
    rw [hr] at h1
    simp only [List.cons_append, List.cons.injEq] at h1
    refine ⟨as, by rw [h1.1], fun e he => hopen e ?_⟩
    rw [← h1.2]
    simp [he]

/-- The bytes the peer has written are understood. -/
theorem parse_sent (cy : Core careful d c y w v.sent) : ∃ r, slow c.xferMru start y.out = (w.sent, r) := by
  rw [cy.out]
  rcases sent_shape cy with h | ⟨es, h, ho⟩
  · exact ⟨_, by rw [h]; rfl⟩
  · refine ⟨⟨.msg, []⟩, ?_⟩
    have hok : ∀ e ∈ w.sent, Sendable e ∧ Fits c.xferMru e := fun e he => cy.ok e (by simp [he])
    rw [h] at hok ⊢
    have hc := TcpclV4.conforms_generate d.tryTls es fun e he => ⟨(hok e (by simp [he])).1, ho e he⟩
    exact TcpclV4.goes_conforms hc fun e he => (hok e he).2

/-- What has been read, has been understood. -/
def Rd (c : Cfg) (y x : Side) (v : View) : Prop :=
  slow c.xferMru start (y.out.take x.read) = (v.got, x.link.rx) ∧ x.read ≤ y.out.length

theorem Rd.mono (h : Rd c y x v) {y' : Side} (hy : y.out <+: y'.out) : Rd c y' x v := by
  obtain ⟨t, ht⟩ := hy
  refine ⟨?_, ?_⟩
  · rw [← ht, List.take_append_of_le_length h.2]
    exact h.1
  · rw [← ht, List.length_append]
    exact Nat.le_trans h.2 (Nat.le_add_right _ _)

/-- The callbacks do not touch the parser. -/
theorem handle_rx (c : Cfg) (l : Link) (e : Event) {l' : Link} {effs : List Eff} (h : handle c l e = .ok (l', effs)) :
    l'.rx = l.rx := by
  cases e with
  | contact tls =>
    simp only [handle, onContact, Except.ok.injEq] at h
    split_ifs at h <;> · cases h; rfl
  | init keep segMru xferMru node exts =>
    simp only [handle, onInit] at h
    repeat' split at h
    all_goals first | · cases h; rfl | simp at h
  | data cont s e id xs =>
    simp only [handle, onData, Except.ok.injEq] at h
    split_ifs at h <;> · cases h; rfl
  | ack s e id n =>
    simp only [handle, onAck] at h
    repeat' split at h
    all_goals first | · cases h; rfl | simp at h
  | reject _ _ => cases h; rfl
  | refusal _ _ => cases h; rfl
  | keepAlive => cases h; rfl
  | term _ _ => cases h; rfl

theorem handleAll_rx (c : Cfg) (es : List Event) : ∀ {l l' : Link} {effs : List Eff},
    handleAll c l es = .ok (l', effs) → l'.rx = l.rx := by
  induction es with
  | nil => intro l l' effs h; cases h; rfl
  | cons e es ih =>
    intro l l' effs h
    simp only [handleAll] at h
    split at h
    · simp at h
    · rename_i l1 effs1 h1
      split at h
      · simp at h
      · rename_i l2 effs2 h2
        cases h
        rw [ih h2, handle_rx c l e h1]

/-- An action of one entity goes well, and keeps the invariant. -/
def Good (careful : Bool) (c d : Cfg) (x y : Side) (v w : View) (r : Except Crash Side) : Prop :=
  ∃ x' v', r = .ok x' ∧ Core careful c d x' v' w.sent ∧ Rd c y x' v' ∧ v.sent <+: v'.sent ∧ x.out <+: x'.out

theorem out_mono (cx : Core careful c d x v w.sent) {x' : Side} {v' : View} (cx' : Core careful c d x' v' w.sent)
    (h : v.sent <+: v'.sent) : x.out <+: x'.out := by
  rw [cx.out, cx'.out]
  obtain ⟨t, ht⟩ := h
  exact ⟨t.flatMap generate, by rw [← ht]; simp⟩

/-- Bytes are read. -/
theorem recv_core (hr : c.active = !d.active) (ht : (c.tryTls && d.tryTls) = false) (hcd : Suits c d) (hdc : Suits d c)
    (cx : Core careful c d x v w.sent) (cy : Core careful d c y w v.sent) (hrd : Rd c y x v) (n : Nat) :
    ∃ x' v' es, act c y.out x (.recv n) = .ok x' ∧ Core careful c d x' v' w.sent ∧ Rd c y x' v' ∧ Gains v v' es ∧
      x'.read = x.read + min n (y.out.length - x.read) ∧ x'.forwarded = x.forwarded := by
  obtain ⟨h1, h2⟩ := hrd
  obtain ⟨chunk, hc⟩ : ∃ chunk, (y.out.drop x.read).take n = chunk := ⟨_, rfl⟩
  obtain ⟨r, hp⟩ := parse_sent cy
  have hsplit : y.out = y.out.take x.read ++ (chunk ++ (y.out.drop x.read).drop n) := by
    rw [← hc, List.take_append_drop, List.take_append_drop]
  rw [hsplit, slow_append, h1, slow_append] at hp
  simp only [Prod.mk.injEq] at hp
  have hlen : x.read + chunk.length ≤ y.out.length := by
    rw [← hc, List.length_take, List.length_drop]
    omega
  have htake : y.out.take (x.read + chunk.length) = y.out.take x.read ++ chunk := by
    rw [List.take_add]
    congr 1
    rw [← hc, List.length_take, List.take_eq_take_min]
    rw [List.take_eq_take_iff]
    omega
  obtain ⟨l, effs, v', g1, g2, g3⟩ := events_step hr ht hcd hdc (slow c.xferMru x.link.rx chunk).1
    { x with link := { x.link with rx := (slow c.xferMru x.link.rx chunk).2 }, read := x.read + chunk.length } v
    (cx.rx _ _) cy ⟨_, by rw [List.append_assoc]; exact hp.1⟩
  refine ⟨_, v', _, ?_, g2, ⟨?_, ?_⟩, g3, ?_, ?_⟩
  · simp only [act, hc, recv, feed_slow]
    simp only at g1
    rw [g1]
  · rw [apply_link]
    have hread := apply_read (x.read + chunk.length) effs
      { x with link := { x.link with rx := (slow c.xferMru x.link.rx chunk).2 } }
    simp only at hread ⊢
    rw [hread]
    simp only
    rw [htake, slow_append, h1, g3.1, handleAll_rx c _ g1]
  · rw [apply_link]
    have hread := apply_read (x.read + chunk.length) effs
      { x with link := { x.link with rx := (slow c.xferMru x.link.rx chunk).2 } }
    simp only at hread ⊢
    rw [hread]
    exact hlen
  · rw [apply_link]
    have hread := apply_read (x.read + chunk.length) effs
      { x with link := { x.link with rx := (slow c.xferMru x.link.rx chunk).2 } }
    simp only at hread ⊢
    rw [hread]
    simp [← hc]
  · rw [apply_forwarded]

theorem recv_good (hr : c.active = !d.active) (ht : (c.tryTls && d.tryTls) = false) (hcd : Suits c d) (hdc : Suits d c)
    (cx : Core careful c d x v w.sent) (cy : Core careful d c y w v.sent) (hrd : Rd c y x v) (n : Nat) :
    Good careful c d x y v w (act c y.out x (.recv n)) := by
  obtain ⟨x', v', es, h1, h2, h3, h4, -, -⟩ := recv_core hr ht hcd hdc cx cy hrd n
  exact ⟨x', v', h1, h2, h3, h4.sent, out_mono cx h2 h4.sent⟩

/-! ### Writing -/

/-- A message that is neither data nor an acknowledgement is written at once. -/
theorem plain_good (cx : Core careful c d x v w.sent) (h2 : 2 ≤ v.got.length) (hrd : Rd c y x v) (e : Event)
    (hp : plain e = true) (hd : isData e = false) (ha : isAck e = false) (hok : Sendable e ∧ Fits d.xferMru e)
    (b1 b2 : Bool) (ts : List (UInt8 × Bool)) :
    Good careful c d x y v w (.ok { x with
      out := x.out ++ generate e
      link := { x.link with shutdownCalled := b1, ready := b2 }
      tasks := ts }) := by
  obtain ⟨o1, o2⟩ := opening_add cx h2 [e] [] [] (by simpa using hp)
  refine ⟨_, { v with sent := v.sent ++ [e] }, rfl, ?_, hrd, List.prefix_append _ _, List.prefix_append _ _⟩
  exact {
    out := by simp only [List.flatMap_append, List.flatMap_singleton, cx.out]
    posted := cx.posted
    outbox := cx.outbox
    ok := by
      intro q hq
      have := cx.ok q
      simp only [List.mem_append, List.mem_singleton] at hq this
      rcases hq with ((hq | rfl) | hq) | hq
      · exact this (.inl (.inl hq))
      · exact hok
      · exact this (.inl (.inr hq))
      · exact this (.inr hq)
    got := cx.got
    opening := by simpa using o1
    flushed := by
      intro _
      simpa using o2
    jobs := cx.jobs
    forwarded := cx.forwarded
    data := by
      have := cx.data
      simpa [hd] using this
    acks := by
      have := cx.acks
      simpa [ha] using this
    concat := cx.concat
    delivered := cx.delivered
    early := by
      intro h
      simp only at h
      omega
    late := cx.late
    nextId := cx.nextId
    ring := cx.ring
    succeeded := cx.succeeded }

/-- The next message is written. -/
theorem write_core (cx : Core careful c d x v w.sent) {e : Event} {es : List Event} (hp : v.posted = e :: es) (wire : Bytes) :
    act c wire x .write = .ok { x with posted := es.map generate, out := x.out ++ generate e } ∧
      Core careful c d { x with posted := es.map generate, out := x.out ++ generate e }
        { v with sent := v.sent ++ [e], posted := es } w.sent := by
  have hx : x.posted = generate e :: es.map generate := by rw [cx.posted, hp]; rfl
  have hsame : (v.sent ++ [e]) ++ es = v.sent ++ v.posted := by simp [hp]
  refine ⟨by simp [act, hx], ?_⟩
  exact {
    out := by simp only [List.flatMap_append, List.flatMap_singleton, cx.out]
    posted := rfl
    outbox := cx.outbox
    ok := by
      have := cx.ok
      rw [← hsame] at this
      exact this
    got := cx.got
    opening := by
      have := cx.opening
      rw [← hsame] at this
      exact this
    flushed := fun h => (cx.flushed h).trans (List.prefix_append _ _)
    jobs := cx.jobs
    forwarded := cx.forwarded
    data := by
      have := cx.data
      rw [← hsame] at this
      exact this
    acks := by
      have := cx.acks
      rw [← hsame] at this
      exact this
    concat := cx.concat
    delivered := cx.delivered
    early := cx.early
    late := cx.late
    nextId := cx.nextId
    ring := cx.ring
    succeeded := cx.succeeded }

theorem write_good (cx : Core careful c d x v w.sent) (hrd : Rd c y x v) :
    Good careful c d x y v w (act c y.out x .write) := by
  rcases hp : v.posted with _ | ⟨e, es⟩
  · have : x.posted = [] := by rw [cx.posted, hp]; rfl
    refine ⟨x, v, ?_, cx, hrd, List.prefix_refl _, List.prefix_refl _⟩
    simp [act, this]
  · obtain ⟨h1, h2⟩ := write_core cx hp y.out
    exact ⟨_, _, h1, h2, hrd, List.prefix_append _ _, List.prefix_append _ _⟩

/-- The next message is handed over; it is data. -/
theorem hand_core (cx : Core careful c d x v w.sent) {e : Event} {es : List Event} (hp : v.outbox = e :: es) (wire : Bytes) :
    act c wire x .hand = .ok { x with outbox := es.map generate, posted := x.posted ++ [generate e] } ∧
      Core careful c d { x with outbox := es.map generate, posted := x.posted ++ [generate e] }
        { v with posted := v.posted ++ [e], outbox := es } w.sent ∧ isData e = true := by
  have hx : x.outbox = generate e :: es.map generate := by rw [cx.outbox, hp]; rfl
  obtain ⟨rest, o1, o2, o3⟩ := cx.opening
  have h2 : 2 ≤ v.got.length := by
    by_contra h
    have := (o3 (by omega)).2
    simp [hp] at this
  have hdata : isData e = true := by
    have hm : e ∈ (allPieces (segment d) v.jobs).map fun p => p.event := by
      rw [← cx.data, hp]
      simp
    obtain ⟨p, hp1, rfl⟩ := List.mem_map.1 hm
    obtain ⟨j, -, hj⟩ := List.mem_flatMap.1 hp1
    exact isData_pieces _ j p hj
  have hack : isAck e = false := by
    cases e <;> first | rfl | simp [isData] at hdata
  refine ⟨by simp [act, hx], ?_, hdata⟩
  exact {
    out := cx.out
    posted := by simp [cx.posted]
    outbox := rfl
    ok := by
      have := cx.ok
      rw [hp] at this
      simpa using this
    got := cx.got
    opening := ⟨rest ++ [e], by simp only [← List.append_assoc, o1], by
      rw [hp] at o2
      simpa using o2, fun h => by
      simp only at h
      omega⟩
    flushed := cx.flushed
    jobs := cx.jobs
    forwarded := cx.forwarded
    data := by
      have := cx.data
      rw [hp] at this
      simpa [hdata] using this
    acks := by
      have := cx.acks
      simpa [hack] using this
    concat := cx.concat
    delivered := cx.delivered
    early := cx.early
    late := cx.late
    nextId := cx.nextId
    ring := cx.ring
    succeeded := cx.succeeded }

theorem hand_good (cx : Core careful c d x v w.sent) (hrd : Rd c y x v) :
    Good careful c d x y v w (act c y.out x .hand) := by
  rcases hp : v.outbox with _ | ⟨e, es⟩
  · have : x.outbox = [] := by rw [cx.outbox, hp]; rfl
    refine ⟨x, v, ?_, cx, hrd, List.prefix_refl _, List.prefix_refl _⟩
    simp [act, this]
  · obtain ⟨h1, h2, -⟩ := hand_core cx hp y.out
    exact ⟨_, _, h1, h2, hrd, List.prefix_refl _, List.prefix_refl _⟩

/-! ### Forwarding -/

theorem entries_append (a b : List Piece) : entries (a ++ b) = entries a ++ entries b := by simp [entries]

theorem allPieces_append (seg : Nat) (a b : List Job) : allPieces seg (a ++ b) = allPieces seg a ++ allPieces seg b := by
  simp [allPieces]

/-- The acknowledgements that end a transfer are those of the bundles. -/
theorem ends_allPieces (seg : Nat) (hs : 0 < seg) (js : List Job) (hj : ∀ j ∈ js, j.bundle ≠ []) :
    ((entries (allPieces seg js)).filter fun q => q.1.isEnd).map Prod.snd = js.map (·.user) := by
  induction js with
  | nil => rfl
  | cons j js ih =>
    obtain ⟨ps, p, h1, h2, h3, h4⟩ := pieces_ends seg j hs (hj j (by simp))
    have hnone : (entries ps).filter (fun q => q.1.isEnd) = [] := by
      rw [List.filter_eq_nil_iff]
      intro q hq
      obtain ⟨r, hr, rfl⟩ := List.mem_map.1 hq
      simp [h4 r hr]
    have hsplit : allPieces seg (j :: js) = (ps ++ [p]) ++ allPieces seg js := by simp [allPieces, h1]
    rw [hsplit, entries_append, entries_append, List.filter_append, List.filter_append, hnone, List.map_append,
      ih fun j' h' => hj j' (by simp [h'])]
    simp [entries, h2, h3]

/-- The room in the queue. -/
theorem room (hs : 0 < segment d) (js : List Job) (hj : ∀ j ∈ js, j.bundle ≠ [] ∧ j.bundle.length ≤ d.xferMru) (k : Nat) :
    ((entries (allPieces (segment d) js)).drop k).length ≤
      (js.length - (((entries (allPieces (segment d) js)).take k).filter fun q => q.1.isEnd).length) * perBundle d := by
  have hb := suffix_bound (perBundle d) (js.map fun j => entries (pieces (segment d) j)) (by
    intro b hb
    obtain ⟨j, hjm, rfl⟩ := List.mem_map.1 hb
    obtain ⟨h1, h2⟩ := hj j hjm
    refine ⟨by simpa [entries] using pieces_length d j hs h1 h2, ?_⟩
    obtain ⟨ps, p, q1, q2, q3, q4⟩ := pieces_ends (segment d) j hs h1
    refine ⟨entries ps, (p.ack, p.user), by rw [q1]; simp [entries], q2, ?_⟩
    intro q hq
    obtain ⟨r, hr, rfl⟩ := List.mem_map.1 hq
    exact q4 r hr) k
  have hflat : (js.map fun j => entries (pieces (segment d) j)).flatten = entries (allPieces (segment d) js) := by
    simp only [allPieces, entries, List.flatMap, List.map_flatten, List.map_map]
    rfl
  rw [hflat] at hb
  have hcount : (((entries (allPieces (segment d) js)).take k).filter fun q => q.1.isEnd).length +
      (((entries (allPieces (segment d) js)).drop k).filter fun q => q.1.isEnd).length = js.length := by
    rw [← List.length_append, ← List.filter_append, List.take_append_drop]
    have := congrArg List.length (ends_allPieces (segment d) hs js fun j h => (hj j h).1)
    simpa using this
  have : js.length - (((entries (allPieces (segment d) js)).take k).filter fun q => q.1.isEnd).length =
      (((entries (allPieces (segment d) js)).drop k).filter fun q => q.1.isEnd).length := by omega
  rw [this]
  exact hb

/-- `BaseClass_Forward` on an established session. -/
theorem forward_cases (l : Link) (bundle user : Bytes) (r : Ring) (hready : l.ready = true) (hring : l.ring = some r)
    (hs : 0 < l.remoteSeg) (hb : bundle ≠ []) :
    (∃ r', forward l bundle user =
        .ok ({ l with sent := l.sent + 1, nextId := (l.nextId + 1) % 2 ^ 64, ring := some r' }, none) ∧
      r.cap < r.items.length + (pieces l.remoteSeg ⟨l.nextId, bundle, user⟩).length) ∨
    forward l bundle user =
      .ok ({ l with
        sent := l.sent + 1
        nextId := (l.nextId + 1) % 2 ^ 64
        ring := some ⟨r.cap, r.items ++ entries (pieces l.remoteSeg ⟨l.nextId, bundle, user⟩)⟩ },
        some ((pieces l.remoteSeg ⟨l.nextId, bundle, user⟩).map fun p => generate p.event)) := by
  have hs0 : l.remoteSeg ≠ 0 := by omega
  unfold forward pieces
  simp only [hready, hring, Bool.not_true, Bool.false_eq_true, if_false]
  by_cases hlen : bundle.length > l.remoteSeg
  · rw [if_pos ⟨hs0, hlen⟩, if_pos hlen]
    rcases fragment_cases l.remoteSeg l.nextId bundle.length user hs bundle.length 0 bundle r hb (by omega) (Nat.le_refl _)
      (fun _ => hlen) with ⟨h1, h2⟩ | h1
    · left
      refine ⟨(fragment l.remoteSeg l.nextId bundle.length user bundle.length 0 bundle r).1, ?_, h2⟩
      rw [h1]
    · right
      rw [h1]
  · rw [if_neg (by omega), if_neg hlen]
    unfold push
    by_cases hc : r.items.length < r.cap
    · right
      rw [if_pos hc]
      rfl
    · left
      rw [if_neg hc]
      refine ⟨r, ?_, ?_⟩
      · rw [← hring]
      · simp
        omega

/-- A careful application finds room in the queue. -/
theorem has_room (hcd : Suits c d) (hc : careful = true) (cx : Core careful c d x v w.sent) (h2 : 2 ≤ v.got.length) {r : Ring}
    (hring : x.link.ring = some r) (b u : Bytes) (hb : b ≠ []) (k1 : b.length ≤ d.xferMru)
    (k2 : x.forwarded.length - x.succeeded.length < c.maxUnacked) :
    ¬ r.cap < r.items.length + (pieces (segment d) ⟨x.link.nextId, b, u⟩).length := by
  have hs := segment_pos hcd
  have hring' := cx.ring hc h2
  rw [hring] at hring'
  obtain rfl := Option.some.inj hring'
  have hr := room hs v.jobs (fun j hj => ⟨(cx.jobs j hj).1, (cx.jobs j hj).2.2.2 hc⟩) (v.got.filter isAck).length
  have hsu := congrArg List.length (cx.succeeded hc)
  have hfw := congrArg List.length cx.forwarded
  simp only [List.length_map] at hsu hfw
  rw [hsu, hfw] at k2
  have hpl := pieces_length d ⟨x.link.nextId, b, u⟩ hs hb k1
  have hmul : (v.jobs.length - (((entries (allPieces (segment d) v.jobs)).take (v.got.filter isAck).length).filter
      fun q => q.1.isEnd).length + 1) * perBundle d ≤ c.maxUnacked * perBundle d := Nat.mul_le_mul_right _ (by omega)
  rw [Nat.add_mul, Nat.one_mul] at hmul
  simp only
  omega

/-- The bundle of a careful application is accepted. -/
theorem forward_accepts (hcd : Suits c d) (cx : Core true c d x v w.sent) (hready : x.link.ready = true) (b u : Bytes)
    (hp : Possible true c d x (.forward b u)) : ∃ l messages, forward x.link b u = .ok (l, some messages) := by
  obtain ⟨hb, h64, hcare⟩ := hp
  have h2 : 2 ≤ v.got.length := by
    by_contra h
    have := (cx.early (by omega)).2.1
    simp [hready] at this
  obtain ⟨hseg, r, hring⟩ := cx.late h2
  have hs := segment_pos hcd
  obtain ⟨k1, k2⟩ := hcare rfl
  rcases forward_cases x.link b u r hready hring (by omega) hb with ⟨r', h1, h3⟩ | h1
  · rw [hseg] at h3
    exact absurd h3 (has_room hcd rfl cx h2 hring b u hb k1 k2)
  · exact ⟨_, _, h1⟩

theorem forward_good (hcd : Suits c d) (cx : Core careful c d x v w.sent) (cy : Core careful d c y w v.sent) (hrd : Rd c y x v) (b u : Bytes)
    (hp : Possible careful c d x (.forward b u)) : Good careful c d x y v w (act c y.out x (.forward b u)) := by
  obtain ⟨hb, h64, hcare⟩ := hp
  by_cases hready : x.link.ready = true
  · have h2 : 2 ≤ v.got.length := by
      by_contra h
      have := (cx.early (by omega)).2.1
      simp [hready] at this
    obtain ⟨hseg, r, hring⟩ := cx.late h2
    have hs := segment_pos hcd
    have hroom : careful = true → ¬ r.cap < r.items.length + (pieces (segment d) ⟨x.link.nextId, b, u⟩).length := by
      intro hc
      obtain ⟨k1, k2⟩ := hcare hc
      exact has_room hcd hc cx h2 hring b u hb k1 k2
    rcases forward_cases x.link b u r hready hring (by omega) hb with ⟨r', h1, h3⟩ | h1
    · rw [hseg] at h3
      refine ⟨{ x with link := { x.link with sent := x.link.sent + 1, nextId := (x.link.nextId + 1) % 2 ^ 64, ring := some r' } },
        v, by simp only [act, h1], ?_, hrd, List.prefix_refl _, List.prefix_refl _⟩
      exact { cx with
        early := fun h => by omega
        late := fun _ => ⟨hseg, _, rfl⟩
        nextId := Nat.mod_lt _ (by decide)
        ring := fun hc _ => absurd h3 (hroom hc) }
    · rw [hseg] at h1
      obtain ⟨j, hj⟩ : ∃ j : Job, j = ⟨x.link.nextId, b, u⟩ := ⟨_, rfl⟩
      rw [← hj] at h1
      have hjb : j.bundle = b := by rw [hj]
      have hju : j.user = u := by rw [hj]
      have hji : j.id < 2 ^ 64 := by rw [hj]; exact cx.nextId
      have hall : allPieces (segment d) (v.jobs ++ [j]) = allPieces (segment d) v.jobs ++ pieces (segment d) j := by
        rw [allPieces_append]; simp [allPieces]
      obtain ⟨rest, o1, o2, o3⟩ := cx.opening
      have hacks : (v.got.filter isAck).length ≤ (entries (allPieces (segment d) v.jobs)).length := by
        have := (acks_got hs cx cy cx.got).length_le
        simpa [entries] using this
      refine ⟨{ x with
          link := { x.link with
            sent := x.link.sent + 1
            nextId := (x.link.nextId + 1) % 2 ^ 64
            ring := some ⟨r.cap, r.items ++ entries (pieces (segment d) j)⟩ }
          outbox := x.outbox ++ (pieces (segment d) j).map fun p => generate p.event
          forwarded := x.forwarded ++ [(b, u)] }, { v with
          outbox := v.outbox ++ (pieces (segment d) j).map fun p => p.event
          jobs := v.jobs ++ [j] }, by simp only [act, h1, hseg], ?_, hrd, List.prefix_refl _, List.prefix_refl _⟩
      exact {
        out := cx.out
        posted := cx.posted
        outbox := by simp [cx.outbox]
        ok := by
          intro e he
          rw [← List.append_assoc, List.mem_append] at he
          rcases he with he | he
          · exact cx.ok e he
          · obtain ⟨p, hp, rfl⟩ := List.mem_map.1 he
            refine pieces_fits (segment d) d.xferMru j hs ?_ hji (by rw [hjb]; exact hb) (by rw [hjb]; exact h64) p hp
            unfold segment
            omega
        got := cx.got
        opening := ⟨rest, o1, by
          intro e he
          rw [← List.append_assoc, List.mem_append] at he
          rcases he with he | he
          · exact o2 e he
          · obtain ⟨p, hp, rfl⟩ := List.mem_map.1 he
            have hd := isData_pieces _ j p hp
            cases he' : p.event <;> first | rfl | simp [he', isData] at hd, fun h => by
          simp only at h
          omega⟩
        flushed := cx.flushed
        jobs := by
          intro j' hj'
          simp only [List.mem_append, List.mem_singleton] at hj'
          rcases hj' with hj' | rfl
          · exact cx.jobs j' hj'
          · exact ⟨by rw [hjb]; exact hb, hji, by rw [hjb]; exact h64, fun hc => by rw [hjb]; exact (hcare hc).1⟩
        forwarded := by simp [cx.forwarded, hjb, hju]
        data := by
          rw [hall, List.map_append, ← cx.data, List.append_assoc]
        acks := cx.acks
        concat := cx.concat
        delivered := cx.delivered
        early := fun h => by
          simp only at h
          omega
        late := fun _ => ⟨hseg, _, rfl⟩
        nextId := Nat.mod_lt _ (by decide)
        ring := by
          intro hc _
          have hring' := cx.ring hc h2
          rw [hring] at hring'
          obtain rfl := Option.some.inj hring'
          simp only
          rw [hall, entries_append, List.drop_append_of_le_length hacks]
        succeeded := by
          intro hc
          simp only
          rw [hall, entries_append, List.take_append_of_le_length hacks]
          exact cx.succeeded hc }
  · refine ⟨x, v, ?_, cx, hrd, List.prefix_refl _, List.prefix_refl _⟩
    simp [act, forward, hready]

/-! ### Every action -/

theorem act_good (hr : c.active = !d.active) (ht : (c.tryTls && d.tryTls) = false) (hcd : Suits c d) (hdc : Suits d c)
    (cx : Core careful c d x v w.sent) (cy : Core careful d c y w v.sent) (hrd : Rd c y x v) (a : Act)
    (hp : Possible careful c d x a) : Good careful c d x y v w (act c y.out x a) := by
  cases a with
  | forward b u => exact forward_good hcd cx cy hrd b u hp
  | hand => exact hand_good cx hrd
  | write => exact write_good cx hrd
  | recv n => exact recv_good hr ht hcd hdc cx cy hrd n
  | keepAlive =>
    simp only [act]
    by_cases hk : x.link.keep ≠ 0
    · rw [if_pos hk]
      have h2 : 2 ≤ v.got.length := by
        by_contra h
        exact hk (cx.early (by omega)).2.2.1
      exact plain_good cx h2 hrd .keepAlive rfl rfl rfl ⟨trivial, trivial⟩ x.link.shutdownCalled x.link.ready x.tasks
    · rw [if_neg hk]
      exact ⟨x, v, rfl, cx, hrd, List.prefix_refl _, List.prefix_refl _⟩
  | terminate r =>
    have h2 : 2 ≤ v.got.length := by
      by_contra h
      have := (cx.early (by omega)).2.1
      have hp' : x.link.ready = true := hp
      simp [hp'] at this
    refine ⟨{ x with tasks := x.tasks ++ [(r, false)] }, v, rfl, ?_, hrd, List.prefix_refl _, List.prefix_refl _⟩
    exact { cx with early := fun h => by omega }
  | task =>
    simp only [act]
    rcases htk : x.tasks with _ | ⟨⟨r, a⟩, ts⟩
    · exact ⟨x, v, rfl, cx, hrd, List.prefix_refl _, List.prefix_refl _⟩
    · have h2 : 2 ≤ v.got.length := by
        by_contra h
        have := (cx.early (by omega)).2.2.2
        simp [htk] at this
      simp only [doShutdown]
      by_cases hs : x.link.shutdownCalled = true
      · rw [if_pos hs]
        refine ⟨{ x with tasks := ts }, v, rfl, ?_, hrd, List.prefix_refl _, List.prefix_refl _⟩
        exact { cx with early := fun h => by omega }
      · rw [if_neg hs]
        exact plain_good cx h2 hrd (.term r a) rfl rfl rfl ⟨trivial, trivial⟩ true false ts

/-- The invariant of the two entities. -/
structure Inv (careful : Bool) (ca cb : Cfg) (s : Sys) (va vb : View) : Prop where
  a : Core careful ca cb s.a va vb.sent
  b : Core careful cb ca s.b vb va.sent
  ra : Rd ca s.b s.a va
  rb : Rd cb s.a s.b vb

theorem core_new (hc : c.active = true ∨ c.active = false) (peer : List Event) : Core careful c d (newSide c)
    ⟨[], if c.active then [contactMsg c] else [], [], [], []⟩ peer := by
  exact {
    out := rfl
    posted := by
      unfold newSide
      rcases hc with h | h <;> simp [h, contactMsg, generate]
    outbox := rfl
    ok := by
      intro e he
      rcases hc with h | h
      · simp only [h, if_true, List.append_nil, List.nil_append, List.mem_singleton] at he
        subst he
        exact sendable_contact _
      · simp [h] at he
    got := List.nil_prefix
    opening := ⟨[], by rcases hc with h | h <;> simp [h, opened], by simp, by simp⟩
    flushed := by simp
    jobs := by simp
    forwarded := rfl
    data := by rcases hc with h | h <;> simp [h, contactMsg, isData, allPieces]
    acks := by rcases hc with h | h <;> simp [h, contactMsg, isAck, asm]
    concat := rfl
    delivered := rfl
    early := fun _ => ⟨rfl, rfl, rfl, rfl⟩
    late := by simp
    nextId := by simp [newSide, newLink]
    ring := by simp
    succeeded := fun _ => rfl }

variable {ca cb : Cfg} {s : Sys} {va vb : View}

theorem inv_new (ca cb : Cfg) : Inv careful ca cb ⟨newSide ca, newSide cb⟩
    ⟨[], if ca.active then [contactMsg ca] else [], [], [], []⟩
    ⟨[], if cb.active then [contactMsg cb] else [], [], [], []⟩ where
  a := core_new (by cases ca.active <;> simp) _
  b := core_new (by cases cb.active <;> simp) _
  ra := ⟨rfl, Nat.le_refl _⟩
  rb := ⟨rfl, Nat.le_refl _⟩

/-- Every action that is possible goes well, and keeps the invariant. -/
theorem step_inv (hag : Spec.Agree ca cb) (h : Inv careful ca cb s va vb) (who : Bool) (a : Act)
    (hp : Possible careful (if who then ca else cb) (if who then cb else ca) (Spec.side s who) a) :
    ∃ t va' vb', step ca cb s who a = .ok t ∧ Inv careful ca cb t va' vb' := by
  cases who with
  | true =>
    obtain ⟨x', v', h1, h2, h3, h4, h5⟩ := act_good (by rw [hag.active, hag.passive]; rfl) hag.plain hag.ab hag.ba h.a h.b
      h.ra a hp
    refine ⟨{ s with a := x' }, v', vb, by simp only [step, h1], ?_⟩
    exact ⟨h2, h.b.mono h4, h3, h.rb.mono h5⟩
  | false =>
    obtain ⟨x', v', h1, h2, h3, h4, h5⟩ := act_good (by rw [hag.active, hag.passive]; rfl)
      (by rw [Bool.and_comm]; exact hag.plain) hag.ba hag.ab h.b h.a h.rb a hp
    refine ⟨{ s with b := x' }, va, v', by simp only [step, h1], ?_⟩
    exact ⟨h.a.mono h4, h2, h.ra.mono h5, h3⟩

theorem inv_leads (hag : Spec.Agree ca cb) {t : Sys} (h : Spec.Leads careful ca cb s t) :
    ∀ {va vb}, Inv careful ca cb s va vb → ∃ va' vb', Inv careful ca cb t va' vb' := by
  induction h with
  | refl => intro va vb hi; exact ⟨va, vb, hi⟩
  | step t u who x _ hp hs ih =>
    intro va vb hi
    obtain ⟨va', vb', hi'⟩ := ih hi
    obtain ⟨u', v1, v2, h1, h2⟩ := step_inv hag hi' who x hp
    rw [hs] at h1
    cases h1
    exact ⟨v1, v2, h2⟩

theorem inv_reach (hag : Spec.Agree ca cb) (h : Spec.Reach careful ca cb s) : ∃ va vb, Inv careful ca cb s va vb :=
  inv_leads hag h (inv_new ca cb)

/-! ### What follows -/

theorem delivered_prefix (hcd : Suits c d) (hdc : Suits d c) (cx : Core careful c d x v w.sent)
    (cy : Core careful d c y w v.sent) : y.delivered <+: Spec.bundles x := by
  rw [cy.delivered, Spec.bundles, cx.forwarded]
  have := (asm_got (segment_pos hcd) cx cy.got d.leaves).1
  simpa [List.map_map, Function.comp_def] using this

/-- When all has been read, all messages have been got. -/
theorem got_all (cy : Core careful d c y w v.sent) (hrd : Rd c y x v) (h : x.read = y.out.length) : v.got = w.sent := by
  obtain ⟨r, hp⟩ := parse_sent cy
  obtain ⟨h1, -⟩ := hrd
  rw [h, List.take_length, hp] at h1
  exact (congrArg Prod.fst h1).symm

theorem map_generate_nil {l : List Event} (h : l.map generate = []) : l = [] := by simpa using h

theorem delivered_all (hcd : Suits c d) (cx : Core careful c d x v w.sent) (cy : Core careful d c y w v.sent)
    (hrd : Rd d x y w) (h1 : x.outbox = []) (h2 : x.posted = []) (h3 : y.read = x.out.length) :
    y.delivered = Spec.bundles x ∧
      (asm d.leaves [] w.got).2.2 = (allPieces (segment d) v.jobs).map fun p => p.ack.event := by
  have hg := got_all cx hrd h3
  have e1 := map_generate_nil (cx.outbox.symm.trans h1)
  have e2 := map_generate_nil (cx.posted.symm.trans h2)
  have hd := cx.data
  rw [e1, e2, List.append_nil, List.append_nil] at hd
  obtain ⟨c', ha⟩ := asm_allPieces d.leaves (segment d) (segment_pos hcd) v.jobs (fun j hj => (cx.jobs j hj).1) []
  rw [← hd, asm_filter] at ha
  rw [cy.delivered, Spec.bundles, cx.forwarded, hg, ha]
  simp [List.map_map, Function.comp_def]

theorem succeeded_prefix (hcd : Suits c d) (cx : Core true c d x v w.sent) : x.succeeded <+: Spec.users x := by
  rw [cx.succeeded rfl, Spec.users, cx.forwarded]
  have := ends_allPieces (segment d) (segment_pos hcd) v.jobs fun j hj => (cx.jobs j hj).1
  rw [List.map_map, show (Prod.snd ∘ fun j : Job => (j.bundle, j.user)) = fun j => j.user from rfl, ← this]
  exact ((List.take_prefix _ _).filter _).map _

theorem asm_ends (leaves : Bytes → Bytes) (es : List Event) : ∀ concat, (asm leaves concat es).2.1.length =
    ((asm leaves concat es).2.2.filter fun e => match e with
      | .ack _ e _ _ => e
      | _ => false).length := by
  induction es with
  | nil => intro concat; rfl
  | cons e es ih =>
    intro concat
    cases e with
    | data cont s e id xs =>
      cases s <;> cases e <;> simp [asm, ih]
    | _ => simpa [asm] using ih concat

/-- No bundle is reported as sent before it has been delivered. -/
theorem succeeded_le (hcd : Suits c d) (cx : Core true c d x v w.sent) (cy : Core true d c y w v.sent) :
    x.succeeded.length ≤ y.delivered.length := by
  rw [cx.succeeded rfl, cy.delivered, asm_ends, ← cy.acks, List.length_map]
  -- the acknowledgements that were sent
  have hpre : (w.sent ++ w.posted).filter isAck <+: (allPieces (segment d) v.jobs).map fun p => p.ack.event := by
    rw [cy.acks]
    exact (asm_got (segment_pos hcd) cx cy.got d.leaves).2
  have hle : (v.got.filter isAck).length ≤ ((w.sent ++ w.posted).filter isAck).length := by
    obtain ⟨t, ht⟩ := cx.got
    rw [← ht]
    simp only [List.filter_append, List.length_append]
    omega
  rw [List.prefix_iff_eq_take.1 hpre, ← List.map_take, List.filter_map, List.length_map]
  unfold entries
  rw [← List.map_take, List.filter_map, List.length_map]
  exact ((List.take_prefix_take_left hle).filter _).length_le

theorem succeeded_all (hcd : Suits c d) (cx : Core true c d x v w.sent) (cy : Core true d c y w v.sent)
    (hrx : Rd c y x v) (hry : Rd d x y w) (h1 : x.outbox = []) (h2 : x.posted = []) (h3 : y.read = x.out.length)
    (h4 : y.posted = []) (h5 : x.read = y.out.length) : x.succeeded = Spec.users x := by
  have hg := got_all cy hrx h5
  have e2 := map_generate_nil (cy.posted.symm.trans h4)
  have hack := cy.acks
  rw [e2, List.append_nil, (delivered_all hcd cx cy hry h1 h2 h3).2, ← hg] at hack
  have := ends_allPieces (segment d) (segment_pos hcd) v.jobs fun j hj => (cx.jobs j hj).1
  rw [cx.succeeded rfl, Spec.users, cx.forwarded, List.map_map,
    show (Prod.snd ∘ fun j : Job => (j.bundle, j.user)) = fun j => j.user from rfl, ← this, hack, List.take_of_length_le]
  simp [entries]

end Hdtn.TcpclV4Link
