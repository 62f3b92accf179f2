import Verif.TcpclV4Link.Inv

/-! The invariant is kept when an entity gets a message. -/

namespace Hdtn.TcpclV4Link

open TcpclV4 (Event Ext)
open TcpclV4.Spec (generate Sendable Fits opens)
open Spec (Suits segment perBundle)

variable {careful : Bool} {c d : Cfg} {x y : Side} {v w : View}

/-- What it takes until a message has no more effects, once it is on the wire. -/
def weight : Event → Nat
  | .data _ _ _ _ _ => 4
  | _ => 1

/-- What messages that are written, or queued, add. -/
def cost (s p : List Event) : Nat := (s.map weight).sum + (p.map fun e => weight e + 2).sum

/-- What an entity adds when it gets messages. -/
def Gains (v v' : View) (es : List Event) : Prop :=
  v'.got = v.got ++ es ∧ v'.outbox = v.outbox ∧ ∃ s p, v'.sent = v.sent ++ s ∧ v'.posted = v.posted ++ p ∧
    cost s p + es.length + 10 * (2 - v'.got.length) ≤ (es.map weight).sum + 10 * (2 - v.got.length)

theorem Gains.sent {v v' : View} {es : List Event} (h : Gains v v' es) : v.sent <+: v'.sent := by
  obtain ⟨-, -, s, p, h, -⟩ := h
  exact ⟨s, h.symm⟩

theorem Gains.append {v v' v'' : View} {es fs : List Event} (h : Gains v v' es) (h' : Gains v' v'' fs) :
    Gains v v'' (es ++ fs) := by
  obtain ⟨a1, a2, s, p, a3, a4, a5⟩ := h
  obtain ⟨b1, b2, s', p', b3, b4, b5⟩ := h'
  refine ⟨by rw [b1, a1]; simp, b2.trans a2, s ++ s', p ++ p', by rw [b3, a3]; simp, by rw [b4, a4]; simp, ?_⟩
  simp only [cost, List.map_append, List.sum_append, List.length_append] at *
  omega

theorem apply_link (l : Link) (effs : List Eff) : ∀ x : Side,
    effs.foldl apply { x with link := l } = { effs.foldl apply x with link := l } := by
  induction effs with
  | nil => intro x; rfl
  | cons e es ih =>
    intro x
    simp only [List.foldl_cons]
    rw [← ih]
    cases e <;> rfl

theorem apply_read (n : Nat) (effs : List Eff) : ∀ x : Side,
    effs.foldl apply { x with read := n } = { effs.foldl apply x with read := n } := by
  induction effs with
  | nil => intro x; rfl
  | cons e es ih =>
    intro x
    simp only [List.foldl_cons]
    rw [← ih]
    cases e <;> rfl

theorem apply_forwarded (effs : List Eff) : ∀ x : Side, (effs.foldl apply x).forwarded = x.forwarded := by
  induction effs with
  | nil => intro x; rfl
  | cons e es ih =>
    intro x
    rw [List.foldl_cons, ih]
    cases e <;> rfl

theorem foldl_link (l : Link) (effs : List Eff) (x : Side) : (effs.foldl apply { x with link := l }).link = l := by
  rw [apply_link]

/-- A 64-bit number has at most twenty digits. -/
theorem digits_length (n : Nat) (h : n < 2 ^ 64) : (Uri.decimal n).length ≤ 20 := by
  obtain ⟨-, -, h1, -⟩ := Uri.decimal_spec n
  by_contra hc
  have hpos : 0 < n := by
    by_contra h0
    obtain rfl : n = 0 := by omega
    exact hc (by decide +kernel)
  have h2 : 10 ^ 20 ≤ 10 ^ ((Uri.decimal n).length - 1) := Nat.pow_le_pow_right (by decide) (by omega)
  have h3 := Nat.le_trans h2 (h1 hpos)
  have h4 : (2 : Nat) ^ 64 < 10 ^ 20 := by decide
  omega

theorem name_length (n : Nat) (h : n < 2 ^ 64) : (Uri.getIpnUriString n 0).length < 2 ^ 16 ∧ Uri.getIpnUriString n 0 ≠ [] := by
  refine ⟨?_, by simp [Uri.getIpnUriString]⟩
  have h1 := digits_length n h
  have h2 := digits_length 0 (by decide)
  simp only [Uri.getIpnUriString, List.length_append, List.length_cons, List.length_nil]
  omega

theorem sendable_contact (lim : Nat) : Sendable (contactMsg c) ∧ Fits lim (contactMsg c) := ⟨trivial, trivial⟩

theorem sendable_init (lim : Nat) (h : Suits d c) : Sendable (initMsg c) ∧ Fits lim (initMsg c) := by
  obtain ⟨h1, h2⟩ := name_length c.nodeId h.node
  exact ⟨⟨h.keep, h.segMru.2, h.xferMru.2, h1, by simp [TcpclV4.Spec.ExtsFit]⟩, h2⟩

/-- Contact header at the active entity. -/
theorem contact_active (ha : c.active = true) (hd : d.active = false) (ht : (c.tryTls && d.tryTls) = false)
    (hcd : Suits c d) (hdc : Suits d c)
    (cx : Core careful c d x v w.sent) (cy : Core careful d c y w v.sent) (hg : v.got ++ [e] <+: w.sent)
    (h0 : v.got.length = 0) : ∃ l effs v', handle c x.link e = .ok (l, effs) ∧
      Core careful c d (effs.foldl apply { x with link := l }) v' w.sent ∧ Gains v v' [e] := by
  obtain ⟨rfl, hw⟩ := (next_event cy hg).1 h0
  have hw := hw hd
  have hv : 1 ≤ v.sent.length := Nat.le_trans hw cy.got.length_le
  obtain ⟨f1, f2, f3⟩ := flushed_early cx (by omega) (by rw [h0]; simpa [opened, ha] using hv)
  have hgot : v.got = [] := List.length_eq_zero_iff.1 h0
  have hop : opened c 0 = [contactMsg c] := by simp [opened, ha]
  rw [h0, hop] at f1
  have heff : onContact c x.link d.tryTls = ({ x.link with usingTls := false }, [.write (sessInit c)]) := by
    simp [onContact, ht, hcd.tls, ha]
  refine ⟨_, _, { v with sent := v.sent ++ [initMsg c], got := v.got ++ [contactMsg d] }, congrArg Except.ok heff, ?_, rfl, rfl,
    [initMsg c], [], rfl, by simp, by simp [cost, weight, initMsg, contactMsg, h0]⟩
  obtain ⟨e1, e2, e3, e4⟩ := cx.early (by omega)
  exact {
    out := by simp only [List.foldl_cons, List.foldl_nil, apply, List.flatMap_append, List.flatMap_singleton, cx.out]; rfl
    posted := cx.posted
    outbox := cx.outbox
    ok := by
      intro e he
      simp only [f1, f2, f3, List.append_nil, List.mem_append, List.mem_singleton] at he
      rcases he with rfl | rfl
      · exact sendable_contact _
      · exact sendable_init _ hdc
    got := hg
    opening := ⟨[], by simp [f1, f2, h0, opened, ha], by simp [f3], by simp [f3]⟩
    flushed := by simp [h0]
    jobs := cx.jobs
    forwarded := cx.forwarded
    data := by simp [f1, f2, f3, e1, contactMsg, initMsg, isData, allPieces]
    acks := by simp [f1, f2, hgot, contactMsg, initMsg, isAck, asm]
    concat := by simpa [hgot, asm, contactMsg, apply] using cx.concat
    delivered := by simpa [hgot, asm, contactMsg, apply] using cx.delivered
    early := fun _ => ⟨e1, e2, e3, e4⟩
    late := by simp [h0]
    nextId := cx.nextId
    ring := by simp [h0]
    succeeded := by
      intro hc
      have := cx.succeeded hc
      simpa [hgot, isAck, contactMsg, apply] using this }

/-- Contact header at the passive entity. -/
theorem contact_passive (ha : c.active = false) (ht : (c.tryTls && d.tryTls) = false)
    (hcd : Suits c d)
    (cx : Core careful c d x v w.sent) (cy : Core careful d c y w v.sent) (hg : v.got ++ [e] <+: w.sent)
    (h0 : v.got.length = 0) : ∃ l effs v', handle c x.link e = .ok (l, effs) ∧
      Core careful c d (effs.foldl apply { x with link := l }) v' w.sent ∧ Gains v v' [e] := by
  obtain ⟨rfl, -⟩ := (next_event cy hg).1 h0
  have hop : opened c 0 = [] := by simp [opened, ha]
  obtain ⟨f1, f2, f3⟩ := flushed_early cx (by omega) (by rw [h0, hop]; simp)
  have hgot : v.got = [] := List.length_eq_zero_iff.1 h0
  rw [h0, hop] at f1
  have heff : onContact c x.link d.tryTls = ({ x.link with usingTls := false }, [.post (TcpclV4.genContact c.tryTls)]) := by
    simp [onContact, ht, hcd.tls, ha]
  refine ⟨_, _, { v with posted := v.posted ++ [contactMsg c], got := v.got ++ [contactMsg d] }, congrArg Except.ok heff, ?_, rfl, rfl,
    [], [contactMsg c], by simp, rfl, by simp [cost, weight, contactMsg, h0]⟩
  obtain ⟨e1, e2, e3, e4⟩ := cx.early (by omega)
  exact {
    out := cx.out
    posted := by simp only [List.foldl_cons, List.foldl_nil, apply, List.map_append, List.map_cons, List.map_nil, cx.posted]; rfl
    outbox := cx.outbox
    ok := by
      intro e he
      simp only [f1, f2, f3, List.append_nil, List.nil_append, List.mem_singleton] at he
      subst he
      exact sendable_contact _
    got := hg
    opening := ⟨[], by simp [f1, f2, h0, opened, ha], by simp [f3], by simp [f3]⟩
    flushed := by simp [h0]
    jobs := cx.jobs
    forwarded := cx.forwarded
    data := by simp [f1, f2, f3, e1, contactMsg, isData, allPieces]
    acks := by simp [f1, f2, hgot, contactMsg, isAck, asm]
    concat := by simpa [hgot, asm, contactMsg, apply] using cx.concat
    delivered := by simpa [hgot, asm, contactMsg, apply] using cx.delivered
    early := fun _ => ⟨e1, e2, e3, e4⟩
    late := by simp [h0]
    nextId := cx.nextId
    ring := by simp [h0]
    succeeded := by
      intro hc
      have := cx.succeeded hc
      simpa [hgot, isAck, contactMsg, apply] using this }

/-- What the session initialisation of a peer that suits does. -/
theorem onInit_eq (hcd : Suits c d) (l : Link) : onInit c l d.keep d.segMru d.xferMru (Uri.getIpnUriString d.nodeId 0) =
    .ok ({ l with
      remoteNode := d.nodeId
      remoteSeg := segment d
      remoteXfer := d.xferMru
      ring := some ⟨c.maxUnacked * perBundle d + 9, []⟩
      keep := negotiate c.keep d.keep
      ready := true }, (if c.active then [] else [.write (sessInit c)]) ++ [.linkUp]) := by
  have hp := (Uri.C53_round_trip d.nodeId 0 hcd.node (by decide)).2 false
  have hexp : ¬ (expectedEid c ≠ [] ∧ Uri.getIpnUriString d.nodeId 0 ≠ expectedEid c) := by
    rcases hcd.expected with h | ⟨s, hs, h⟩
    · simp [expectedEid, h]
    · have h2 := (Uri.C53_round_trip d.nodeId s hcd.node hs).2 false
      have hne : Uri.getIpnUriString d.nodeId s ≠ [] := by simp [Uri.getIpnUriString]
      simp [expectedEid, h, h2, hne]
  have hs0 : d.segMru ≠ 0 := by have := hcd.segMru.1; omega
  have hseg : (if d.segMru > d.xferMru then d.xferMru else d.segMru) = segment d := by
    unfold segment
    split <;> omega
  have hseg0 : segment d ≠ 0 := by have := segment_pos hcd; omega
  have hsz : ((d.xferMru / segment d + 1) % 2 ^ 64 * c.maxUnacked % 2 ^ 64 + 10) % 2 ^ 64 =
      c.maxUnacked * perBundle d + 10 := by
    have h32 := hcd.small
    rw [Nat.mod_mul_mod, show d.xferMru / segment d + 1 = perBundle d from rfl, Nat.mul_comm (perBundle d)]
    rw [Nat.mod_eq_of_lt (a := c.maxUnacked * perBundle d) (by omega), Nat.mod_eq_of_lt (by omega)]
  unfold onInit
  simp only [hp, ne_eq, not_true_eq_false, if_false, hexp, hs0, hseg, hseg0, hsz]
  rw [if_neg (by have := hcd.room; omega)]
  have h32 := hcd.small
  rw [Nat.mod_eq_of_lt (a := c.maxUnacked * perBundle d + 10) (by omega)]
  simp

/-- Session initialisation. -/
theorem init_event (hr : c.active = !d.active) (hcd : Suits c d) (hdc : Suits d c)
    (cx : Core careful c d x v w.sent) (cy : Core careful d c y w v.sent) (hg : v.got ++ [e] <+: w.sent)
    (h1 : v.got.length = 1) : ∃ l effs v', handle c x.link e = .ok (l, effs) ∧
      Core careful c d (effs.foldl apply { x with link := l }) v' w.sent ∧ Gains v v' [e] := by
  obtain ⟨rfl, hw1, hw2⟩ := (next_event cy hg).2.1 h1
  have hle := cy.got.length_le
  obtain ⟨f1, f2, f3⟩ := flushed_early cx (by omega) (by
    rw [h1]
    unfold opened
    split
    · rename_i h
      have := hw2 (by rw [h] at hr; simpa using hr)
      simp
      omega
    · simp
      omega)
  rw [h1] at f1
  obtain ⟨a, hgot⟩ := List.length_eq_one_iff.1 h1
  have hsent : v.sent ++ (if c.active then [] else [initMsg c]) = [contactMsg c, initMsg c] := by
    rw [f1]
    unfold opened
    split <;> simp
  have hop : opened c 2 = [contactMsg c, initMsg c] := by
    unfold opened
    split <;> simp
  have hgota : a = contactMsg d := by
    have hg' : [] ++ [a] <+: w.sent := by
      rw [hgot] at hg
      exact List.IsPrefix.trans (by simp) hg
    exact ((next_event cy hg').1 rfl).1
  refine ⟨_, _, { v with sent := v.sent ++ (if c.active then [] else [initMsg c]), got := v.got ++ [initMsg d] },
    onInit_eq hcd x.link, ?_, rfl, rfl, _, [], rfl, by simp, by
      simp only [h1, List.length_append, List.length_singleton]
      split <;> simp [cost, weight, initMsg]⟩
  obtain ⟨e1, e2, e3, e4⟩ := cx.early (by omega)
  have hfold : ((if c.active = true then [] else [Eff.write (sessInit c)]) ++ [Eff.linkUp]).foldl apply
      { x with link := { x.link with
          remoteNode := d.nodeId
          remoteSeg := segment d
          remoteXfer := d.xferMru
          ring := some ⟨c.maxUnacked * perBundle d + 9, []⟩
          keep := negotiate c.keep d.keep
          ready := true } } =
      { x with
        link := { x.link with
          remoteNode := d.nodeId
          remoteSeg := segment d
          remoteXfer := d.xferMru
          ring := some ⟨c.maxUnacked * perBundle d + 9, []⟩
          keep := negotiate c.keep d.keep
          ready := true }
        out := x.out ++ (if c.active then [] else [initMsg c]).flatMap generate } := by
    split
    · simp [apply]
    · simp only [List.cons_append, List.nil_append, List.foldl_cons, List.foldl_nil, apply, List.flatMap_singleton]
      rfl
  rw [hfold]
  exact {
    out := by simp only [List.flatMap_append, cx.out]
    posted := cx.posted
    outbox := cx.outbox
    ok := by
      intro e he
      simp only [hsent, f2, f3, List.append_nil, List.mem_cons, List.not_mem_nil, or_false] at he
      rcases he with rfl | rfl
      · exact sendable_contact _
      · exact sendable_init _ hdc
    got := hg
    opening := ⟨[], by simp only [hsent, f2, List.length_append, h1, List.length_singleton, hop, List.append_nil],
      by simp [f3], by simp [f3]⟩
    flushed := by
      intro _
      simp only [hsent, List.length_append, h1, List.length_singleton, hop]
      exact List.prefix_refl _
    jobs := cx.jobs
    forwarded := cx.forwarded
    data := by
      simp only [hsent, f2, f3, e1]
      simp [contactMsg, initMsg, isData, allPieces]
    acks := by
      simp only [hsent, f2, hgot, hgota]
      simp [contactMsg, initMsg, isAck, asm]
    concat := by
      have := cx.concat
      simpa [hgot, hgota, asm, contactMsg, initMsg] using this
    delivered := by
      have := cx.delivered
      simpa [hgot, hgota, asm, contactMsg, initMsg] using this
    early := by simp [h1]
    late := fun _ => ⟨rfl, _, rfl⟩
    nextId := cx.nextId
    ring := by
      intro _ _
      simp [e1, allPieces, entries]
    succeeded := by
      intro hc
      have := cx.succeeded hc
      simpa [hgot, isAck, contactMsg, initMsg, hgota, e1, allPieces, entries] using this }

/-! ### An established session -/

/-- Messages may be written or queued. -/
theorem opening_add (cx : Core careful c d x v w.sent) (h2 : 2 ≤ v.got.length) (s p g : List Event)
    (hs : ∀ e ∈ s ++ p, plain e = true) :
    (∃ rest, v.sent ++ s ++ (v.posted ++ p) = opened c (v.got ++ g).length ++ rest ∧
      (∀ e ∈ rest ++ v.outbox, plain e = true) ∧ ((v.got ++ g).length < 2 → rest = [] ∧ v.outbox = [])) ∧
    opened c (v.got ++ g).length <+: v.sent ++ s := by
  have hop : opened c (v.got ++ g).length = opened c v.got.length := by
    unfold opened
    simp only [List.length_append]
    rw [if_neg (show ¬ v.got.length + g.length = 0 by omega), if_neg (show ¬ v.got.length + g.length = 0 by omega),
      if_neg (show ¬ v.got.length + g.length = 1 by omega), if_neg (show ¬ v.got.length = 0 by omega),
      if_neg (show ¬ v.got.length = 0 by omega), if_neg (show ¬ v.got.length = 1 by omega)]
  obtain ⟨r, hr⟩ := cx.flushed h2
  obtain ⟨rest, o1, o2, -⟩ := cx.opening
  have hrest : rest = r ++ v.posted := by
    rw [← hr, List.append_assoc] at o1
    exact (List.append_cancel_left o1).symm
  refine ⟨⟨r ++ s ++ (v.posted ++ p), ?_, ?_, ?_⟩, ?_⟩
  · rw [hop, ← hr]; simp
  · intro e he
    simp only [List.mem_append] at he
    simp only [hrest, List.mem_append] at o2 hs
    rcases he with ((he | he) | he | he) | he
    · exact o2 e (.inl (.inl he))
    · exact hs e (.inl he)
    · exact o2 e (.inl (.inr he))
    · exact hs e (.inr he)
    · exact o2 e (.inr he)
  · intro h
    simp only [List.length_append] at h
    omega
  · rw [hop, ← hr]
    exact ⟨r ++ s, by simp⟩

/-- A data segment. -/
theorem data_event (hcd : Suits c d) (hdc : Suits d c)
    (cx : Core careful c d x v w.sent) (cy : Core careful d c y w v.sent) (cont : Bytes) (s e : Bool) (id : Nat) (xs : List Ext)
    (hg : v.got ++ [.data cont s e id xs] <+: w.sent)
    (h2 : 2 ≤ v.got.length) : ∃ l effs v', handle c x.link (.data cont s e id xs) = .ok (l, effs) ∧
      Core careful c d (effs.foldl apply { x with link := l }) v' w.sent ∧ Gains v v' [.data cont s e id xs] := by
  -- the acknowledgement
  have happ := asm_append c.leaves v.got [.data cont s e id xs] []
  rw [← cx.concat, ← cx.delivered, ← cx.acks] at happ
  obtain ⟨n, hn⟩ : ∃ n, (asm c.leaves [] (v.got ++ [.data cont s e id xs])).2.2 =
      (v.sent ++ v.posted).filter isAck ++ [.ack s e id n] ∧
      (onData c x.link cont s e id).2.foldl apply { x with link := (onData c x.link cont s e id).1 } =
        { x with
          link := { x.link with concat := (asm c.leaves [] (v.got ++ [.data cont s e id xs])).1 }
          posted := x.posted ++ [generate (.ack s e id n)]
          delivered := (asm c.leaves [] (v.got ++ [.data cont s e id xs])).2.1 } := by
    rw [happ]
    unfold onData
    simp only [asm]
    by_cases hse : (s && e) = true
    · simp only [if_pos hse]
      exact ⟨cont.length, rfl, rfl⟩
    · simp only [if_neg hse]
      by_cases he : e = true
      · simp only [if_pos he]
        exact ⟨_, rfl, rfl⟩
      · simp only [if_neg he]
        refine ⟨_, rfl, ?_⟩
        simp only [List.foldl_cons, List.foldl_nil, apply, List.append_nil]
        rfl
  obtain ⟨hn, hfold⟩ := hn
  have hack : Sendable (.ack s e id n) := by
    have hp := (asm_got (segment_pos hdc) cy hg c.leaves).2
    rw [hn] at hp
    have hm : Event.ack s e id n ∈ (allPieces (segment c) w.jobs).map fun p => p.ack.event := hp.subset (by simp)
    obtain ⟨p, hp1, hp2⟩ := List.mem_map.1 hm
    obtain ⟨j, hj, hpj⟩ := List.mem_flatMap.1 hp1
    obtain ⟨q1, q2⟩ := pieces_ack _ j p hpj
    obtain ⟨-, j1, j2, -⟩ := cy.jobs j hj
    simp only [Ack.event, Event.ack.injEq] at hp2
    exact ⟨by omega, by omega⟩
  refine ⟨(onData c x.link cont s e id).1, (onData c x.link cont s e id).2,
    { v with posted := v.posted ++ [.ack s e id n], got := v.got ++ [.data cont s e id xs] }, rfl, ?_, rfl, rfl,
    [], [.ack s e id n], by simp, rfl, by simp [cost, weight]; omega⟩
  rw [hfold]
  obtain ⟨o1, o2⟩ := opening_add cx h2 [] [.ack s e id n] [.data cont s e id xs] (by simp [plain])
  exact {
    out := cx.out
    posted := by simp only [cx.posted, List.map_append, List.map_cons, List.map_nil]
    outbox := cx.outbox
    ok := by
      intro q hq
      simp only [List.mem_append, List.mem_singleton] at hq
      have := cx.ok q
      simp only [List.mem_append] at this
      rcases hq with (hq | hq | rfl) | hq
      · exact this (.inl (.inl hq))
      · exact this (.inl (.inr hq))
      · exact ⟨hack, trivial⟩
      · exact this (.inr hq)
    got := hg
    opening := by simpa using o1
    flushed := by
      intro _
      simpa using o2
    jobs := cx.jobs
    forwarded := cx.forwarded
    data := by
      have := cx.data
      simpa [isData] using this
    acks := by
      rw [hn]
      simp [isAck]
    concat := rfl
    delivered := rfl
    early := by
      intro h
      simp only [List.length_append] at h
      omega
    late := fun _ => cx.late h2
    nextId := cx.nextId
    ring := by
      intro hc _
      have := cx.ring hc h2
      simpa [isAck] using this
    succeeded := by
      intro hc
      have := cx.succeeded hc
      simpa [isAck] using this }

/-- Getting an acknowledgement. -/
theorem ack_event (hcd : Suits c d)
    (cx : Core careful c d x v w.sent) (cy : Core careful d c y w v.sent) (s e : Bool) (id n : Nat)
    (hg : v.got ++ [.ack s e id n] <+: w.sent)
    (h2 : 2 ≤ v.got.length) : ∃ l effs v', handle c x.link (.ack s e id n) = .ok (l, effs) ∧
      Core careful c d (effs.foldl apply { x with link := l }) v' w.sent ∧ Gains v v' [.ack s e id n] := by
  obtain ⟨hseg, r, hr⟩ := cx.late h2
  obtain ⟨o1, o2⟩ := opening_add cx h2 [] [] [.ack s e id n] (by simp)
  have hpre := acks_got (segment_pos hcd) cx cy hg
  -- what the callback does in general
  obtain ⟨l, effs, hl, ho, hsu⟩ : ∃ l effs, onAck x.link ⟨s, e, id, n⟩ = .ok (l, effs) ∧
      (∃ r' k, l = { x.link with ring := some r', acked := k }) ∧ (effs = [] ∨ ∃ u, effs = [.success u]) := by
    unfold onAck
    rw [hr]
    simp only
    split
    · exact ⟨_, _, rfl, ⟨r, x.link.acked, by rw [← hr]⟩, .inl rfl⟩
    · split
      · split
        · exact ⟨_, _, rfl, ⟨_, _, rfl⟩, .inr ⟨_, rfl⟩⟩
        · exact ⟨_, _, rfl, ⟨_, _, rfl⟩, .inl rfl⟩
      · exact ⟨_, _, rfl, ⟨r, x.link.acked, by rw [← hr]⟩, .inl rfl⟩
  -- what it does when the application is careful
  have hcare : careful = true →
      l.ring = some ⟨c.maxUnacked * perBundle d + 9,
        (entries (allPieces (segment d) v.jobs)).drop ((v.got ++ [Event.ack s e id n]).filter isAck).length⟩ ∧
      (effs.foldl apply x).succeeded =
        (((entries (allPieces (segment d) v.jobs)).take ((v.got ++ [Event.ack s e id n]).filter isAck).length).filter
          fun q => q.1.isEnd).map Prod.snd := by
    intro hc
    have hring := cx.ring hc h2
    have hsucc := cx.succeeded hc
    obtain ⟨k, hk⟩ : ∃ k, (v.got.filter isAck).length = k := ⟨_, rfl⟩
    have hone : [Event.ack s e id n].filter isAck = [.ack s e id n] := rfl
    have hk' : ((v.got ++ [Event.ack s e id n]).filter isAck).length = k + 1 := by
      rw [List.filter_append, hone, List.length_append, hk]
      rfl
    rw [hk] at hring hsucc
    rw [hk']
    have hget : ((allPieces (segment d) v.jobs).map fun p => p.ack.event)[k]? = some (.ack s e id n) := by
      obtain ⟨t, ht⟩ := hpre
      rw [← ht, List.filter_append, ← hk, hone]
      simp
    rw [List.getElem?_map] at hget
    obtain ⟨p, hp, hpe⟩ := Option.map_eq_some_iff.1 hget
    have hpa : p.ack = ⟨s, e, id, n⟩ := by
      obtain ⟨_, ⟨a1, a2, a3, a4⟩, _⟩ := p
      simp only [Ack.event, Event.ack.injEq] at hpe
      simp [hpe]
    have hent : (entries (allPieces (segment d) v.jobs))[k]? = some (⟨s, e, id, n⟩, p.user) := by
      unfold entries
      rw [List.getElem?_map, hp, Option.map_some, hpa]
    have hdrop : (entries (allPieces (segment d) v.jobs)).drop k =
        (⟨s, e, id, n⟩, p.user) :: (entries (allPieces (segment d) v.jobs)).drop (k + 1) :=
      List.drop_eq_getElem?_toList_append.trans (by rw [hent]; rfl)
    have htake : (entries (allPieces (segment d) v.jobs)).take (k + 1) =
        (entries (allPieces (segment d) v.jobs)).take k ++ [(⟨s, e, id, n⟩, p.user)] := by
      rw [List.take_add_one, hent]; rfl
    unfold onAck at hl
    rw [hring, hdrop] at hl
    simp only [if_true] at hl
    rw [htake, List.filter_append, List.map_append, ← hsucc]
    split at hl
    · rename_i he
      cases hl
      simp [apply, he]
    · rename_i he
      cases hl
      simp [he]
  obtain ⟨r', k, rfl⟩ := ho
  have hfold : effs.foldl apply { x with link := { x.link with ring := some r', acked := k } } =
      { x with link := { x.link with ring := some r', acked := k }, succeeded := (effs.foldl apply x).succeeded } := by
    rw [apply_link]
    rcases hsu with rfl | ⟨u, rfl⟩ <;> rfl
  refine ⟨_, _, { v with got := v.got ++ [.ack s e id n] }, hl, ?_, rfl, rfl, [], [], by simp, by simp, by
    simp [cost, weight]; omega⟩
  rw [hfold]
  have hasm : asm c.leaves [] (v.got ++ [Event.ack s e id n]) = asm c.leaves [] v.got := by
    rw [asm_append]; simp [asm]
  exact {
    out := cx.out
    posted := cx.posted
    outbox := cx.outbox
    ok := cx.ok
    got := hg
    opening := by simpa using o1
    flushed := by
      intro _
      simpa using o2
    jobs := cx.jobs
    forwarded := cx.forwarded
    data := cx.data
    acks := by rw [hasm]; exact cx.acks
    concat := by rw [hasm]; exact cx.concat
    delivered := by rw [hasm]; exact cx.delivered
    early := by
      intro h
      simp only [List.length_append] at h
      omega
    late := fun _ => ⟨hseg, _, rfl⟩
    nextId := cx.nextId
    ring := fun hc _ => (hcare hc).1
    succeeded := fun hc => (hcare hc).2 }

/-- A keep-alive or a termination. -/
theorem other_event (cx : Core careful c d x v w.sent) (e : Event) (ts : List (UInt8 × Bool)) (hg : v.got ++ [e] <+: w.sent)
    (h2 : 2 ≤ v.got.length) (hd : isData e = false) (ha : isAck e = false) :
    Core careful c d { x with tasks := ts } { v with got := v.got ++ [e] } w.sent := by
  obtain ⟨o1, o2⟩ := opening_add cx h2 [] [] [e] (by simp)
  have hasm : asm c.leaves [] (v.got ++ [e]) = asm c.leaves [] v.got := by
    rw [asm_append, ← asm_filter c.leaves [e]]
    simp [hd, asm]
  exact {
    out := cx.out
    posted := cx.posted
    outbox := cx.outbox
    ok := cx.ok
    got := hg
    opening := by simpa using o1
    flushed := by
      intro _
      simpa using o2
    jobs := cx.jobs
    forwarded := cx.forwarded
    data := cx.data
    acks := by rw [hasm]; exact cx.acks
    concat := by rw [hasm]; exact cx.concat
    delivered := by rw [hasm]; exact cx.delivered
    early := by
      intro h
      simp only [List.length_append] at h
      omega
    late := fun _ => cx.late h2
    nextId := cx.nextId
    ring := by
      intro hc _
      have := cx.ring hc h2
      simpa [ha] using this
    succeeded := by
      intro hc
      have := cx.succeeded hc
      simpa [ha] using this }

/-- The invariant is kept by every message of the peer, and none of them is fatal. -/
theorem event_step (hr : c.active = !d.active) (ht : (c.tryTls && d.tryTls) = false) (hcd : Suits c d) (hdc : Suits d c)
    (cx : Core careful c d x v w.sent) (cy : Core careful d c y w v.sent) (e : Event) (hg : v.got ++ [e] <+: w.sent) :
    ∃ l effs v', handle c x.link e = .ok (l, effs) ∧
      Core careful c d (effs.foldl apply { x with link := l }) v' w.sent ∧ Gains v v' [e] := by
  by_cases h0 : v.got.length = 0
  · by_cases ha : c.active = true
    · exact contact_active ha (by simpa [ha] using hr) ht hcd hdc cx cy hg h0
    · exact contact_passive (by simpa using ha) ht hcd cx cy hg h0
  · by_cases h1 : v.got.length = 1
    · exact init_event hr hcd hdc cx cy hg h1
    · have h2 : 2 ≤ v.got.length := by omega
      have hp := ((next_event cy hg).2.2 h2).1
      cases e with
      | data cont s e id xs => exact data_event hcd hdc cx cy cont s e id xs hg h2
      | ack s e id n => exact ack_event hcd cx cy s e id n hg h2
      | keepAlive => exact ⟨_, _, _, rfl, other_event cx .keepAlive x.tasks hg h2 rfl rfl,
        rfl, rfl, [], [], by simp, by simp, by simp [cost, weight]; omega⟩
      | term r a =>
        refine ⟨_, _, { v with got := v.got ++ [.term r a] }, rfl, ?_, rfl, rfl, [], [], by simp, by simp, by
          simp [cost, weight]; omega⟩
        cases a with
        | true => exact other_event cx (.term r true) x.tasks hg h2 rfl rfl
        | false => exact other_event cx (.term r false) (x.tasks ++ [(r, true)]) hg h2 rfl rfl
      | contact _ => simp [plain] at hp
      | init _ _ _ _ _ => simp [plain] at hp
      | reject _ _ => simp [plain] at hp
      | refusal _ _ => simp [plain] at hp

theorem events_step (hr : c.active = !d.active) (ht : (c.tryTls && d.tryTls) = false) (hcd : Suits c d) (hdc : Suits d c)
    (es : List Event) : ∀ (x : Side) (v : View), Core careful c d x v w.sent → Core careful d c y w v.sent →
    v.got ++ es <+: w.sent →
    ∃ l effs v', handleAll c x.link es = .ok (l, effs) ∧
      Core careful c d (effs.foldl apply { x with link := l }) v' w.sent ∧ Gains v v' es := by
  induction es with
  | nil =>
    intro x v cx cy _
    exact ⟨x.link, [], v, rfl, cx, by simp, rfl, [], [], by simp, by simp, by simp [cost]⟩
  | cons e es ih =>
    intro x v cx cy hg
    have hg1 : v.got ++ [e] <+: w.sent := by
      obtain ⟨t, ht⟩ := hg
      exact ⟨es ++ t, by rw [← ht]; simp⟩
    obtain ⟨l, effs, v1, h1, h2, h3⟩ := event_step hr ht hcd hdc cx cy e hg1
    obtain ⟨l', effs', v2, k1, k2, k3⟩ := ih _ v1 h2 (cy.mono h3.sent) (by rw [h3.1]; simpa using hg)
    rw [foldl_link] at k1
    refine ⟨l', effs ++ effs', v2, ?_, ?_, h3.append k3⟩
    · simp only [handleAll, h1, k1]
    · rw [List.foldl_append]
      have : effs.foldl apply { x with link := l' } = { effs.foldl apply { x with link := l } with link := l' } := by
        rw [apply_link l effs x, apply_link l' effs x]
      rw [this]
      exact k2

end Hdtn.TcpclV4Link
