import Verif.Encap.Lemmas

/-!
What users of encapsulation packets and of local streams rely on.
-/

namespace Hdtn.Encap

open Spec

/-! ### C119: headers -/

/-- C119: from a header that was made for a payload the kind, the size of the header and the size of the payload are read again. -/
theorem C119_roundtrip (kind : Kind) (hk : kind ≠ .idle) (n : Nat) (h0 : 0 < n) (hn : n ≤ 4294967287) :
    ∃ first rest, encode kind n = some (first :: rest) ∧ decodeFirst kind first = (first :: rest).length ∧
      decodeRest (first :: rest).length rest = some (0, n) ∧
      (first :: rest).length = if n ≤ 253 then 2 else if n ≤ 65531 then 4 else 8 := by
  have : ∃ h, encode kind n = some h := by
    unfold encode
    rw [if_neg (by omega), if_neg (by omega), if_neg hk]
    split
    · exact ⟨_, rfl⟩
    · split <;> exact ⟨_, rfl⟩
  obtain ⟨h, he⟩ := this
  obtain ⟨f, rest, rfl, h1, h2, h3, h4⟩ := header_decode he hk
  refine ⟨f, rest, he, h1, h3, ?_⟩
  obtain ⟨_, _, h5⟩ := encode_some he hk
  rcases h5 with ⟨hl, e⟩ | ⟨hl, hl2, e⟩ | ⟨hl, e⟩
  · rw [if_pos hl, e]; rfl
  · rw [if_neg (by omega), if_pos hl2, e]; rfl
  · rw [if_neg (by omega), if_neg (by omega), e]; rfl

/-- C119: an idle packet is one byte, which is known as such whatever is expected. -/
theorem C119_idle (kind : Kind) : ∃ b, encode .idle 0 = some [b] ∧ decodeFirst kind b = 1 := by
  refine ⟨0xe0, by decide, ?_⟩
  cases kind <;> decide

/-- C119: a header is made for every payload that is not empty and not too long, and for idle packets. -/
theorem C119_refused (kind : Kind) (n : Nat) :
    encode kind n = none ↔ 4294967287 < n ∨ (n = 0 ∧ kind ≠ .idle) ∨ (n ≠ 0 ∧ kind = .idle) := by
  by_cases h1 : n > 0xffffffff - 8
  · simp only [encode, if_pos h1, true_iff]
    left; omega
  · have h1' : ¬ 4294967287 < n := by omega
    by_cases hk : kind = .idle
    · subst hk
      by_cases h2 : n = 0
      · subst h2; decide
      · unfold encode
        rw [if_neg h1, if_neg h2, if_pos rfl]
        simp [h2]
    · by_cases h2 : n = 0
      · unfold encode
        rw [if_neg h1, if_pos h2, if_neg hk]
        simp [h2, hk]
      · obtain ⟨f, r, he, _⟩ := C119_roundtrip kind hk n (by omega) (by omega)
        rw [he]
        simp [h1', h2, hk]

/-- C119: a header of another kind is not accepted. -/
theorem C119_other_kind (k k' : Kind) (hk : k ≠ .idle) (hk' : k' ≠ .idle) (hne : k ≠ k') (n : Nat) (first : UInt8) (rest : Bytes)
    (he : encode k n = some (first :: rest)) : decodeFirst k' first = 0 := by
  obtain ⟨_, _, h⟩ := encode_some he hk
  have hf : first = k.byte ||| 1 ∨ first = k.byte ||| 2 ∨ first = k.byte ||| 3 := by
    rcases h with ⟨_, e⟩ | ⟨_, _, e⟩ | ⟨_, e⟩ <;> simp at e <;> simp [e]
  cases k <;> cases k' <;> simp_all <;> rcases hf with rfl | rfl | rfl <;> decide

/-! ### C120: packets get through -/

/-- C120: the packets handed over are the first ones that were sent, each exactly as it was sent, whatever chunks the bytes come in and whenever reads are
started. -/
theorem C120_in_order_partial (kind : Kind) (keep auto : Bool) (hk : kind ≠ .idle) (sent : List (Bytes × Bytes)) (hs : ∀ x ∈ sent, Framed kind x)
    (ops : List Op) (hc : connected ops) (hr : received ops <+: stream sent) :
    ∃ k, k ≤ sent.length ∧ ((Rx.connected kind keep auto).run ops).out = (sent.take k).map fun x => handed keep x.1 x.2 := by
  have h0 : At (Rx.connected kind keep auto) [] sent 0 [] (Rx.connected kind keep auto) := by
    refine ⟨by omega, Or.inr ⟨rfl, ⟨.first, rfl⟩, ?_⟩⟩
    cases sent with
    | nil => exact Or.inl ⟨rfl, rfl⟩
    | cons x l =>
      refine Or.inr ⟨x, rfl, ?_⟩
      have := (encode_some (hs x List.mem_cons_self).header hk).1
      simp only [List.length_append, List.length_nil]; omega
  obtain ⟨k, u, _, h⟩ := at_run (c := Rx.connected kind keep auto) hk hs ops hc h0 (by simpa [stream] using hr)
  refine ⟨k, h.le, ?_⟩
  rcases h.state with ⟨_, h⟩ | ⟨_, ⟨rd, h⟩, _⟩
  · rw [h]; simp [resting, handedAll, Rx.connected, Rx.startRead]
  · rw [h]; simp [ready, handedAll, Rx.connected, Rx.startRead]

/-- Nothing is left to be read when all is read. -/
theorem all_read {c : Rx} {fs : List (Bytes × Bytes)} (hfs : ∀ x ∈ fs, Framed c.kind x) {out : List Packet} {k : Nat} {u : Bytes} {s : Rx}
    (h : At c out fs k u s) (he : stream (fs.take k) ++ u = stream fs) (hrd : ∃ rd, s = { ready c (out ++ handedAll c.keepHeader (fs.take k)) with pending := some rd }) :
    k = fs.length := by
  rcases h.state with ⟨_, h⟩ | ⟨_, _, h⟩
  · obtain ⟨rd, hr⟩ := hrd
    rw [h] at hr
    have := congrArg Rx.pending hr
    simp [resting] at this
  · rcases h with ⟨h, _⟩ | ⟨x, hx, hl⟩
    · exact h
    · rw [← stream_take_drop fs k] at he
      have he := List.append_cancel_left he
      rw [he] at hl
      have := stream_pos hfs hx
      omega

/-- C120: when all came and the callback starts the next read, all packets are handed over. -/
theorem C120_all_partial (kind : Kind) (keep : Bool) (hk : kind ≠ .idle) (sent : List (Bytes × Bytes)) (hs : ∀ x ∈ sent, Framed kind x)
    (ops : List Op) (hc : connected ops) (hr : received ops = stream sent) :
    ((Rx.connected kind keep true).run ops).out = sent.map fun x => handed keep x.1 x.2 := by
  have h0 : At (Rx.connected kind keep true) [] sent 0 [] (Rx.connected kind keep true) := by
    refine ⟨by omega, Or.inr ⟨rfl, ⟨.first, rfl⟩, ?_⟩⟩
    cases sent with
    | nil => exact Or.inl ⟨rfl, rfl⟩
    | cons x l =>
      refine Or.inr ⟨x, rfl, ?_⟩
      have := (encode_some (hs x List.mem_cons_self).header hk).1
      simp only [List.length_append, List.length_nil]; omega
  obtain ⟨k, u, e, h⟩ := at_run (c := Rx.connected kind keep true) hk hs ops hc h0 (by simp [stream] at hr ⊢; rw [hr]; exact List.prefix_refl _)
  rw [hr] at e
  have e : stream (sent.take k) ++ u = stream sent := by rw [← e]; simp [stream]
  rcases h.state with ⟨ha, _⟩ | ⟨_, ⟨rd, h1⟩, _⟩
  · cases ha
  · have := all_read (c := Rx.connected kind keep true) hs h e ⟨rd, h1⟩
    rw [h1, this]
    simp [ready, handedAll, Rx.connected, Rx.startRead]

/-- C120: when all came and as many reads are started as packets were sent, all packets are handed over. -/
theorem C120_all_manual_partial (kind : Kind) (keep auto : Bool) (hk : kind ≠ .idle) (sent : List (Bytes × Bytes)) (hs : ∀ x ∈ sent, Framed kind x)
    (ops : List Op) (hc : connected ops) (hr : received ops = stream sent) (n : Nat) (hn : sent.length ≤ n) :
    ((Rx.connected kind keep auto).run (ops ++ List.replicate n .restart)).out = sent.map fun x => handed keep x.1 x.2 := by
  have h0 : At (Rx.connected kind keep auto) [] sent 0 [] (Rx.connected kind keep auto) := by
    refine ⟨by omega, Or.inr ⟨rfl, ⟨.first, rfl⟩, ?_⟩⟩
    cases sent with
    | nil => exact Or.inl ⟨rfl, rfl⟩
    | cons x l =>
      refine Or.inr ⟨x, rfl, ?_⟩
      have := (encode_some (hs x List.mem_cons_self).header hk).1
      simp only [List.length_append, List.length_nil]; omega
  obtain ⟨k, u, e, h⟩ := at_run (c := Rx.connected kind keep auto) hk hs ops hc h0 (by simp [stream] at hr ⊢; rw [hr]; exact List.prefix_refl _)
  rw [hr] at e
  have e : stream (sent.take k) ++ u = stream sent := by rw [← e]; simp [stream]
  have hrun : (Rx.connected kind keep auto).run (ops ++ List.replicate n .restart) = ((Rx.connected kind keep auto).run ops).run (List.replicate n .restart) := by
    simp [Rx.run, List.foldl_append]
  rw [hrun]
  generalize (Rx.connected kind keep auto).run ops = s at h
  have key : ∀ n k u s, At (Rx.connected kind keep auto) [] sent k u s → stream (sent.take k) ++ u = stream sent → sent.length ≤ n + k →
      ∃ k' u', At (Rx.connected kind keep auto) [] sent k' u' (s.run (List.replicate n .restart)) ∧ k' = sent.length := by
    intro n
    induction n with
    | zero =>
      intro k u s h _ hn
      have := h.le
      exact ⟨k, u, h, by omega⟩
    | succ n ih =>
      intro k u s h e hn
      obtain ⟨k', u', e1, e2, e3⟩ := at_restart (c := Rx.connected kind keep auto) hk hs h (by rw [e]; exact List.prefix_refl _)
      have hstep : s.run (List.replicate (n + 1) .restart) = (s.step .restart).run (List.replicate n .restart) := rfl
      rw [hstep]
      refine ih k' u' _ e2 (by rw [← e1, e]) ?_
      rcases e3 with h | ⟨hkk, rd, hrd⟩
      · omega
      · have : k' = sent.length := all_read (c := Rx.connected kind keep auto) hs e2 (by rw [← e1, e]) ⟨rd, by rw [hrd, hkk]⟩
        omega
  obtain ⟨k', u', h', hk'⟩ := key n k u s h e (by omega)
  rcases h'.state with ⟨_, h⟩ | ⟨_, ⟨rd, h⟩, _⟩
  · rw [h, hk']; simp [resting, handedAll, Rx.connected, Rx.startRead]
  · rw [h, hk']; simp [ready, handedAll, Rx.connected, Rx.startRead]

/-- C120: after a reconnection reading begins anew, whatever was before. -/
theorem C120_reconnect (s : Rx) : s.step .reconnect = { Rx.connected s.kind s.keepHeader s.auto with out := s.out } := by
  simp [Rx.step, Rx.startRead, Rx.connected]

/-- Nothing more is read. -/
theorem stuck_run (ops : List Op) (hc : connected ops) : ∀ s : Rx, s.started = true → s.pending = none → (s.run ops).out = s.out := by
  induction ops with
  | nil => intro s _ _; rfl
  | cons op ops ih =>
    intro s h1 h2
    have ih' := ih fun o ho => hc o (List.mem_cons_of_mem _ ho)
    show ((s.step op).run ops).out = s.out
    cases op with
    | bytes l =>
      simp only [Rx.step]
      rw [bytes_none s h2]
      exact ih' _ h1 h2
    | restart =>
      have e : Rx.startRead { s with unread := [] } = { s with unread := [] } := by simp [Rx.startRead, h1]
      simp only [Rx.step]
      rw [e, bytes_none { s with unread := [] } h2]
      exact ih' _ h1 h2
    | reconnect => exact absurd rfl (hc _ List.mem_cons_self)

/-- C120 is violated: after an idle packet nothing is read any more, until the stream is lost and connected again. -/
theorem C120_idle_violated (s : Rx) (hs : s.started = true) (hp : s.pending = some .first) (b : UInt8) (hb : encode .idle 0 = some [b])
    (ops : List Op) (hc : connected ops) : (s.run (.bytes [b] :: ops)).out = s.out := by
  have hb : b = 0xe0 := by
    have : encode .idle 0 = some [0xe0] := by decide
    rw [this] at hb; cases hb; rfl
  have hd : decodeFirst s.kind b = 1 := by rw [hb]; cases s.kind <;> decide
  have hstep : s.bytes [b] = { s with pending := none } := by
    rw [bytes_cons]
    unfold Rx.byte
    rw [hp]
    simp [hd, Rx.startRead, hs, Rx.bytes]
  show ((s.step (.bytes [b])).run ops).out = s.out
  simp only [Rx.step]
  rw [hstep]
  exact stuck_run ops hc { s with pending := none } hs rfl

/-- C120 is violated: after a byte that begins no packet of the expected kind nothing is read any more, and the stream stays connected. -/
theorem C120_invalid_violated (s : Rx) (hs : s.started = true) (hp : s.pending = some .first) (b : UInt8) (hb : decodeFirst s.kind b = 0)
    (ops : List Op) (hc : connected ops) : (s.run (.bytes [b] :: ops)).out = s.out := by
  have hstep : s.bytes [b] = { s with pending := none } := by
    rw [bytes_cons]
    unfold Rx.byte
    rw [hp]
    simp [hb, Rx.bytes]
  show ((s.step (.bytes [b])).run ops).out = s.out
  simp only [Rx.step]
  rw [hstep]
  exact stuck_run ops hc { s with pending := none } hs rfl

/-- What arrives of a payload whose size was cut. -/
theorem cut_frame (kind : Kind) (keep : Bool) (hk : kind ≠ .idle) (payload : Bytes) (n : Nat) (hmod : payload.length % U32 = n) (h0 : 0 < n)
    (h1 : n ≤ 4294967287) (h2 : n ≤ payload.length) :
    ∃ header, frame kind payload = some (header ++ payload) ∧
      ((Rx.connected kind keep false).run [.bytes (header ++ payload)]).out = [handed keep header (payload.take n)] := by
  obtain ⟨f, rest, he, _⟩ := C119_roundtrip kind hk n h0 h1
  refine ⟨f :: rest, ?_, ?_⟩
  · simp [frame, hmod, he]
  · have hl : (payload.take n).length = n := by rw [List.length_take]; exact Nat.min_eq_left h2
    have hsplit : f :: rest ++ payload = ((f :: rest) ++ payload.take n) ++ payload.drop n := by
      rw [List.append_assoc, List.take_append_drop]
    show ((Rx.connected kind keep false).bytes (f :: rest ++ payload)).out = _
    rw [hsplit, bytes_append, read_frame (Rx.connected kind keep false) rfl (by rw [hl]; exact he) hk]
    rw [bytes_none _ rfl]
    cases keep <;> simp [Rx.complete, Rx.connected, Rx.startRead, handed]

/-- C120 is violated for payloads of more than four gigabytes: the size is cut to 32 bits, and what arrives is the beginning. -/
theorem C120_large_violated (kind : Kind) (keep : Bool) (hk : kind ≠ .idle) (payload : Bytes) (h1 : 4294967296 < payload.length)
    (h2 : payload.length ≤ 8589934583) :
    ∃ header, frame kind payload = some (header ++ payload) ∧
      ((Rx.connected kind keep false).run [.bytes (header ++ payload)]).out = [handed keep header (payload.take (payload.length - 4294967296))] := by
  have hmod : payload.length % U32 = payload.length - 4294967296 := by
    rw [show U32 = 4294967296 by rfl, Nat.mod_eq_sub_mod (by omega), Nat.mod_eq_of_lt (by omega)]
  exact cut_frame kind keep hk payload _ hmod (by omega) (by omega) (by omega)

/-! ### C121: whatever bytes come -/

/-- What is true of a read. -/
def ReadOk : Option Read → Prop
  | none => True
  | some .first => True
  | some (.header _ size got) => (size = 2 ∨ size = 4 ∨ size = 8) ∧ got.length < size - 1
  | some (.payload header size got) => (header.length = 2 ∨ header.length = 4 ∨ header.length = 8) ∧ got.length < size ∧
      (∃ u, decodeRest header.length (header.drop 1) = some (u, size))

/-- A packet as it may be handed over. -/
def PacketOk (keep : Bool) (p : Packet) : Prop :=
  (p.headerSize = 2 ∨ p.headerSize = 4 ∨ p.headerSize = 8) ∧ p.buffer.length = p.payloadSize + (if keep then p.headerSize else 0) ∧
    (keep = true → ∃ u, decodeRest p.headerSize ((p.buffer.take p.headerSize).drop 1) = some (u, p.payloadSize))

theorem decodeFirst_values (kind : Kind) (b : UInt8) : decodeFirst kind b = 0 ∨ decodeFirst kind b = 1 ∨ decodeFirst kind b = 2 ∨
    decodeFirst kind b = 4 ∨ decodeFirst kind b = 8 := by
  unfold decodeFirst
  split
  · simp
  · split
    · rename_i h
      have hlt : (b &&& 3).toNat < 4 := by
        have : (b &&& 3).toNat ≤ 3 := by rw [UInt8.toNat_and]; exact Nat.and_le_right
        omega
      have hne : (b &&& 3).toNat ≠ 0 := fun h0 => h.2 (by
        apply UInt8.toNat_inj.mp; simpa using h0)
      generalize (b &&& 3).toNat = n at hlt hne
      match n, hlt, hne with
      | 1, _, _ => simp
      | 2, _, _ => simp
      | 3, _, _ => simp
    · simp

/-- The bytes that are read of a packet that is not complete. -/
def readBytes : Read → Bytes
  | .first => []
  | .header f _ got => f :: got
  | .payload h _ got => h ++ got

/-- The invariant for any bytes: `got` came. -/
structure AnyInv (got : Bytes) (s : Rx) : Prop where
  read : ReadOk s.pending
  packets : ∀ p ∈ s.out, PacketOk s.keepHeader p
  busy : s.pending ≠ none → s.started = true ∧ s.unread = []
  account : s.keepHeader = true → ∃ x, got = (s.out.map Packet.buffer).flatten ++ x ∧
    (∀ rd, s.pending = some rd → x = readBytes rd) ∧ (s.pending = none → s.started = false → x = s.unread)

theorem complete_any {got : Bytes} {s : Rx} {header data : Bytes} (hp : ∀ p ∈ s.out, PacketOk s.keepHeader p) (hu : s.unread = [])
    (hacc : s.keepHeader = true → got = (s.out.map Packet.buffer).flatten ++ (header ++ data))
    (hok : PacketOk s.keepHeader ⟨(if s.keepHeader then header else []) ++ data, data.length, header.length⟩) :
    AnyInv got (s.complete header data) ∧ (s.complete header data).keepHeader = s.keepHeader := by
  have hpk : ∀ p ∈ s.out ++ [(⟨(if s.keepHeader then header else []) ++ data, data.length, header.length⟩ : Packet)], PacketOk s.keepHeader p := by
    intro p hpm
    rcases List.mem_append.mp hpm with h | h
    · exact hp p h
    · rw [List.mem_singleton] at h; rw [h]; exact hok
  have hac : s.keepHeader = true → got = ((s.out ++ [(⟨(if s.keepHeader then header else []) ++ data, data.length, header.length⟩ : Packet)]).map
      Packet.buffer).flatten ++ [] := by
    intro h; rw [hacc h]; simp [h]
  unfold Rx.complete
  by_cases ha : s.auto = true
  · simp only [ha, if_true, Rx.startRead, Bool.false_eq_true, if_false]
    refine ⟨⟨trivial, hpk, fun _ => ⟨rfl, hu⟩, fun h => ⟨[], hac h, ?_, ?_⟩⟩, trivial⟩
    · intro rd hr; cases hr; rfl
    · intro hr; cases hr
  · have ha : s.auto = false := by simpa using ha
    simp only [ha, Bool.false_eq_true, if_false]
    refine ⟨⟨trivial, hpk, fun h => absurd rfl h, fun h => ⟨[], hac h, ?_, ?_⟩⟩, trivial⟩
    · intro rd hr; cases hr
    · intro _ _; exact hu.symm

theorem byte_any {got : Bytes} {s : Rx} (h : AnyInv got s) (b : UInt8) : AnyInv (got ++ [b]) (s.byte b) ∧ (s.byte b).keepHeader = s.keepHeader := by
  obtain ⟨h1, h2, h3, h4⟩ := h
  -- a read that fails
  have fail : ∀ rd, s.pending = some rd → AnyInv (got ++ [b]) { s with pending := none } := by
    intro rd hrd
    obtain ⟨hs, hu⟩ := h3 (by rw [hrd]; simp)
    refine ⟨trivial, h2, fun h => absurd rfl h, ?_⟩
    intro hk
    obtain ⟨x, hx, _⟩ := h4 hk
    refine ⟨x ++ [b], by rw [hx]; simp, ?_, ?_⟩
    · intro _ h; cases h
    · intro _ h; rw [hs] at h; cases h
  -- a read that goes on
  have go : ∀ rd rd', s.pending = some rd → readBytes rd' = readBytes rd ++ [b] → ReadOk (some rd') →
      AnyInv (got ++ [b]) { s with pending := some rd' } := by
    intro rd rd' hrd hb hok
    obtain ⟨hs, hu⟩ := h3 (by rw [hrd]; simp)
    refine ⟨hok, h2, fun _ => ⟨hs, hu⟩, ?_⟩
    intro hk
    obtain ⟨x, hx, hx2, _⟩ := h4 hk
    refine ⟨x ++ [b], by rw [hx]; simp, ?_, ?_⟩
    · intro r hr; cases hr; rw [hb, hx2 rd hrd]
    · intro h; cases h
  unfold Rx.byte
  split
  · rename_i hp
    refine ⟨⟨by rw [hp]; trivial, h2, fun h => absurd hp h, ?_⟩, rfl⟩
    intro hk
    obtain ⟨x, hx, hx2, hx3⟩ := h4 hk
    refine ⟨x ++ [b], by rw [hx]; simp, ?_, ?_⟩
    · intro rd hr; rw [hp] at hr; cases hr
    · intro _ hs; rw [hx3 hp hs]
  · rename_i hp
    simp only
    by_cases q0 : decodeFirst s.kind b = 0
    · rw [if_pos q0]; exact ⟨fail _ hp, rfl⟩
    rw [if_neg q0]
    by_cases q1 : decodeFirst s.kind b = 1
    · rw [if_pos q1]
      have hs := (h3 (by rw [hp]; simp)).1
      have : Rx.startRead { s with pending := none } = { s with pending := none } := by simp [Rx.startRead, hs]
      rw [this]
      exact ⟨fail _ hp, rfl⟩
    rw [if_neg q1]
    have hv := decodeFirst_values s.kind b
    refine ⟨go _ _ hp (by simp [readBytes]) ?_, rfl⟩
    refine ⟨by omega, ?_⟩
    simp only [List.length_nil]; omega
  · rename_i first size g hp
    rw [hp] at h1
    obtain ⟨hz, hg⟩ := h1
    by_cases q : g.length + 1 < size - 1
    · rw [if_pos q]
      exact ⟨go _ _ hp (by simp [readBytes]) ⟨hz, by simp; omega⟩, rfl⟩
    rw [if_neg q]
    have hlen : (first :: (g ++ [b])).length = size := by simp; omega
    split
    · exact ⟨fail _ hp, rfl⟩
    · rename_i u n hd
      have hdd : decodeRest (first :: (g ++ [b])).length ((first :: (g ++ [b])).drop 1) = some (u, n) := by rw [hlen]; exact hd
      by_cases qn : n = 0
      · rw [if_pos qn]
        obtain ⟨hs, hu⟩ := h3 (by rw [hp]; simp)
        refine complete_any h2 hu ?_ ?_
        · intro hk
          obtain ⟨x, hx, hx2, _⟩ := h4 hk
          rw [hx, hx2 _ hp]; simp [readBytes]
        · refine ⟨by simp only [hlen]; exact hz, ?_, ?_⟩
          · cases s.keepHeader <;> simp
          · intro hk
            refine ⟨u, ?_⟩
            simp only [hk, if_true, List.append_nil, List.length_nil, List.take_length]
            rw [hdd, qn]
      · rw [if_neg qn]
        exact ⟨go _ _ hp (by simp [readBytes]) ⟨by rw [hlen]; exact hz, by simp; omega, ⟨u, hdd⟩⟩, rfl⟩
  · rename_i header size g hp
    rw [hp] at h1
    obtain ⟨hz, hg, u, hd⟩ := h1
    by_cases q : g.length + 1 < size
    · rw [if_pos q]
      exact ⟨go _ _ hp (by simp [readBytes]) ⟨hz, by simp; omega, ⟨u, hd⟩⟩, rfl⟩
    rw [if_neg q]
    obtain ⟨hs, hu⟩ := h3 (by rw [hp]; simp)
    refine complete_any h2 hu ?_ ?_
    · intro hk
      obtain ⟨x, hx, hx2, _⟩ := h4 hk
      rw [hx, hx2 _ hp]; simp [readBytes]
    · have hsz : (g ++ [b]).length = size := by simp; omega
      refine ⟨hz, ?_, ?_⟩
      · cases s.keepHeader <;> simp; omega
      · intro hk
        refine ⟨u, ?_⟩
        simp only [hk, if_true, hsz]
        rw [List.take_left' rfl]
        exact hd

theorem bytes_any (l : Bytes) : ∀ {got : Bytes} {s : Rx}, AnyInv got s → AnyInv (got ++ l) (s.bytes l) ∧ (s.bytes l).keepHeader = s.keepHeader := by
  induction l with
  | nil => intro got s h; exact ⟨by simpa [Rx.bytes] using h, rfl⟩
  | cons b l ih =>
    intro got s h
    obtain ⟨h1, h2⟩ := byte_any h b
    obtain ⟨h3, h4⟩ := ih h1
    rw [bytes_cons]
    exact ⟨by simpa using h3, by rw [h4, h2]⟩

theorem run_any (ops : List Op) (hc : connected ops) : ∀ {got : Bytes} {s : Rx}, AnyInv got s →
    AnyInv (got ++ received ops) (s.run ops) ∧ (s.run ops).keepHeader = s.keepHeader := by
  induction ops with
  | nil => intro got s h; exact ⟨by simpa [received, Rx.run] using h, rfl⟩
  | cons op ops ih =>
    intro got s h
    have ih' := @ih fun o ho => hc o (List.mem_cons_of_mem _ ho)
    cases op with
    | bytes l =>
      obtain ⟨h1, h2⟩ := bytes_any l h
      obtain ⟨h3, h4⟩ := ih' h1
      refine ⟨?_, by rw [← h2]; exact h4⟩
      have : AnyInv (got ++ l ++ received ops) ((s.bytes l).run ops) := h3
      rw [List.append_assoc] at this
      exact this
    | restart =>
      have hstep : AnyInv got (s.step .restart) ∧ (s.step .restart).keepHeader = s.keepHeader := by
        simp only [Rx.step]
        by_cases hs : s.started = true
        · have e : Rx.startRead { s with unread := [] } = { s with unread := [] } := by simp [Rx.startRead, hs]
          rw [e]
          by_cases hp : s.pending = none
          · rw [bytes_none { s with unread := [] } hp]
            simp only [List.nil_append]
            exact ⟨h, trivial⟩
          · have hu := (h.busy hp).2
            have e2 : ({ s with unread := [] } : Rx) = s := by cases s; simp_all
            rw [e2, hu]
            exact ⟨h, rfl⟩
        · have hs' : s.started = false := by simpa using hs
          have e : Rx.startRead { s with unread := [] } = { s with unread := [], started := true, pending := some .first } := by
            simp [Rx.startRead, hs']
          rw [e]
          have hpn : s.pending = none := by
            cases hp : s.pending with
            | none => rfl
            | some rd => exact absurd (h.busy (by rw [hp]; simp)).1 hs
          have hthe : ∀ got', (s.keepHeader = true → got' = (s.out.map Packet.buffer).flatten) →
              AnyInv got' { s with unread := [], started := true, pending := some .first } := by
            intro got' hg
            refine ⟨trivial, h.packets, fun _ => ⟨rfl, rfl⟩, ?_⟩
            intro hk
            refine ⟨[], by rw [hg hk]; simp, ?_, ?_⟩
            · intro rd hr; cases hr; rfl
            · intro hr; cases hr
          by_cases hk : s.keepHeader = true
          · obtain ⟨x, hx, _, hx3⟩ := h.account hk
            have hxu := hx3 hpn hs'
            obtain ⟨h5, h6⟩ := bytes_any s.unread (hthe ((s.out.map Packet.buffer).flatten) (fun _ => rfl))
            rw [← hxu, ← hx, hxu] at h5
            exact ⟨h5, h6⟩
          · obtain ⟨h5, h6⟩ := bytes_any s.unread (hthe [] (fun hh => absurd hh hk))
            refine ⟨⟨h5.read, h5.packets, h5.busy, ?_⟩, h6⟩
            intro hk2
            rw [h6] at hk2
            exact absurd hk2 hk
      obtain ⟨h3, h4⟩ := ih' hstep.1
      exact ⟨h3, by rw [← hstep.2]; exact h4⟩
    | reconnect => exact absurd rfl (hc _ List.mem_cons_self)

theorem any_start (kind : Kind) (keep auto : Bool) : AnyInv [] (Rx.connected kind keep auto) := by
  refine ⟨trivial, by simp [Rx.connected, Rx.startRead], fun _ => ⟨rfl, rfl⟩, fun _ => ⟨[], by simp [Rx.connected, Rx.startRead], ?_, ?_⟩⟩
  · intro rd hr; cases hr; rfl
  · intro hr; cases hr

/-- C121: whatever bytes come, each packet that is handed over has a header of 2, 4 or 8 bytes, and is as long as is told with it; when
headers are kept, its header says the same. -/
theorem C121_sizes (kind : Kind) (keep auto : Bool) (ops : List Op) (hc : connected ops) :
    ∀ p ∈ ((Rx.connected kind keep auto).run ops).out, (p.headerSize = 2 ∨ p.headerSize = 4 ∨ p.headerSize = 8) ∧
      p.buffer.length = p.payloadSize + (if keep then p.headerSize else 0) ∧
      (keep = true → ∃ u, decodeRest p.headerSize ((p.buffer.take p.headerSize).drop 1) = some (u, p.payloadSize)) := by
  obtain ⟨h1, h2⟩ := run_any ops hc (any_start kind keep auto)
  intro p hp
  have := h1.packets p hp
  rw [h2] at this
  exact this

/-- C121: whatever bytes come, the packets with their headers are the bytes that came, from the first on and without a gap. -/
theorem C121_no_gap (kind : Kind) (auto : Bool) (ops : List Op) (hc : connected ops) :
    (((Rx.connected kind true auto).run ops).out.map Packet.buffer).flatten <+: received ops := by
  obtain ⟨h1, h2⟩ := run_any ops hc (any_start kind true auto)
  obtain ⟨x, hx, _⟩ := h1.account (by rw [h2]; rfl)
  rw [List.nil_append] at hx
  exact ⟨x, hx.symm⟩

/-- C121 is violated: a header that says that the packet is shorter than the header makes the receiver wait for, and reserve, four gigabytes. -/
theorem C121_short_violated (kind : Kind) (hk : kind ≠ .idle) (keep auto : Bool) (n : UInt8) (hn : n.toNat < 2) :
    ((Rx.connected kind keep auto).bytes [kind.byte ||| 1, n]).pending = some (.payload [kind.byte ||| 1, n] (4294967294 + n.toNat) []) := by
  have hd := (decodeFirst_made kind hk).1
  have e1 : (Rx.connected kind keep auto).byte (kind.byte ||| 1) = { Rx.connected kind keep auto with pending := some (.header (kind.byte ||| 1) 2 []) } := by
    have : (Rx.connected kind keep auto).kind = kind := rfl
    unfold Rx.byte
    rw [show (Rx.connected kind keep auto).pending = some .first from rfl]
    simp [this, hd]
  rw [bytes_cons, bytes_cons, e1]
  have hs : sub32 n.toNat 2 = 4294967294 + n.toNat := by unfold sub32; simp only [U32]; omega
  simp [Rx.byte, decodeRest, hs, Rx.bytes]

/-- C121 is violated: there is no limit; for every limit below four gigabytes there is a header that makes the receiver reserve more. -/
theorem C121_no_limit_violated (kind : Kind) (hk : kind ≠ .idle) (keep auto : Bool) (limit : Nat) (hl : limit < 4294967287) :
    ∃ header size, limit < size ∧ ((Rx.connected kind keep auto).bytes header).pending = some (.payload header size []) := by
  obtain ⟨f, rest, he, _⟩ := C119_roundtrip kind hk (limit + 1) (by omega) (by omega)
  refine ⟨f :: rest, limit + 1, by omega, ?_⟩
  rw [read_header (Rx.connected kind keep auto) rfl he hk]

/-! ### Examples -/

/-- Two packets, in chunks that fit nothing. -/
def exSent : List (Bytes × Bytes) := [([0xf1, 5], [1, 2, 3]), ([0xf1, 3], [9])]

example : (∀ x ∈ exSent, Framed .bp x) ∧ connected [.bytes [0xf1], .bytes [5, 1, 2], .bytes [3, 0xf1, 3], .bytes [9]] ∧
    received [.bytes [0xf1], .bytes [5, 1, 2], .bytes [3, 0xf1, 3], .bytes [9]] = stream exSent := by
  refine ⟨?_, ?_, by decide⟩
  · intro x hx
    simp only [exSent, List.mem_cons, List.not_mem_nil, or_false] at hx
    rcases hx with rfl | rfl <;> exact ⟨by decide, by decide⟩
  · intro op hop
    simp only [List.mem_cons, List.not_mem_nil, or_false] at hop
    rcases hop with rfl | rfl | rfl | rfl <;> simp

example : ((Rx.connected .bp false true).run [.bytes [0xf1], .bytes [5, 1, 2], .bytes [3, 0xf1, 3], .bytes [9]]).out =
    [⟨[1, 2, 3], 3, 2⟩, ⟨[9], 1, 2⟩] := by decide +kernel

example : ((Rx.connected .bp true false).run [.bytes [0xf1, 5, 1, 2, 3, 0xf1, 3], .restart, .bytes [9], .restart]).out =
    [⟨[0xf1, 5, 1, 2, 3], 3, 2⟩, ⟨[0xf1, 3, 9], 1, 2⟩] := by decide +kernel

/-- C120_idle_violated: an idle packet before the two packets. -/
example : ((Rx.connected .bp false true).run [.bytes [0xe0, 0xf1, 5, 1, 2, 3, 0xf1, 3, 9], .restart]).out = [] := by decide +kernel

/-- C120_invalid_violated: a byte that begins no packet. -/
example : decodeFirst .bp 0x06 = 0 ∧ decodeFirst .bp 0xe5 = 0 := by decide

end Hdtn.Encap
