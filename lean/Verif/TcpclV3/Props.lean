import Verif.TcpclV3.Sound

/-!
The properties C43 and C44: the receiver of the TCP convergence layer, version 3.

Streams are sequences of calls of `HandleReceivedChars` (`feedAll`), each with one chunk of the bytes;
`bytewise` is the receiver that is given every byte on its own.
-/

namespace Hdtn.TcpclV3

open Spec Hdtn.Sdnv Hdtn.Sdnv.Spec

/-- A receiver with the default limit of 10 MB that can allocate a gigabyte. -/
def defaults : Cfg := ⟨10000000, 2 ^ 30⟩

/-- An endpoint for the examples. -/
def sampleEid : Bytes := [0x69, 0x70, 0x6e, 0x3a, 0x31, 0x2e, 0x30]

/-- A session for the examples: header, a segment of 20 bytes, an acknowledgement, a keep-alive, a
refusal, a length and a shutdown. -/
def sampleEvents : List Event :=
  [.contact 1 30 sampleEid, .data (List.replicate 20 7) true true, .ack 300, .keepAlive, .refusal 2, .length 1000,
    .shutdown (some 1) (some 129), .contact 0 600 sampleEid]

/-! ### C43: independence of the chunks -/

/-- As long as no data segment has a malformed length or one over the limit, every way to cut the stream
gives the same messages and the same state. (Missing: streams with such a length, for which it is false,
see `C43_limit_violated` and `C43_resync_violated`.) -/
theorem C43_chunks_partial (cfg : Cfg) (p : Phase) (stream : Bytes) (h : NoRefusal cfg p stream) (bufs : List Bytes)
    (hb : bufs.flatten = stream) : feedAll cfg p bufs = bytewise cfg p stream := by
  rw [bytewise_eq, ← hb]
  exact feedAll_slow bufs p (.inl ((noRefusal_iff _ p).1 (hb ▸ h)))

/-- For chunks of at most 16 bytes nothing has to be assumed of the stream. -/
theorem C43_small_chunks_partial (cfg : Cfg) (p : Phase) (bufs : List Bytes) (h : ∀ b ∈ bufs, b.length ≤ 16) :
    feedAll cfg p bufs = bytewise cfg p bufs.flatten := by
  rw [bytewise_eq]
  exact feedAll_slow bufs p (.inr h)

/-- In both cases the contents of every reported data segment keep to the limit. -/
theorem C43_limit_partial (cfg : Cfg) (bufs : List Bytes)
    (h : NoRefusal cfg start bufs.flatten ∨ ∀ b ∈ bufs, b.length ≤ 16) (c : Bytes) (s e : Bool)
    (he : .data c s e ∈ (feedAll cfg start bufs).1) : c.length ≤ cfg.max := by
  have h1 : feedAll cfg start bufs = slow cfg start bufs.flatten := by
    apply feedAll_slow
    rcases h with h | h
    · exact .inl ((noRefusal_iff _ _).1 h)
    · exact .inr h
  rw [h1] at he
  exact (limited_slow (cfg := cfg) bufs.flatten (p := start) trivial).2 _ he

/-- The limit is not enforced on large chunks: after any contact header, a segment over the limit that
arrives in one chunk is delivered in full, whatever the limit is. One byte at a time it is not. -/
theorem C43_limit_violated (cfg : Cfg) (f : UInt8) (k : Nat) (eid c : Bytes) (s e : Bool) (hk : k < 2 ^ 16)
    (he : eid ≠ []) (hl : eid.length < 2 ^ 64) (hr : eid.length ≤ cfg.room) (hm : cfg.max < c.length)
    (h15 : 15 ≤ c.length) (hc : c.length < 2 ^ 64) (hcr : c.length ≤ cfg.room) :
    feedAll cfg start [genContact f k eid, genData s e c] = ([.contact f k eid, .data c s e], .msg) ∧
      .data c s e ∉ (bytewise cfg start (genContact f k eid ++ genData s e c)).1 := by
  constructor
  · have h1 := goes_contact (cfg := cfg) (isContact_gen f k eid hk he hl) hr
    have h2 : feed cfg start (genContact f k eid) = ([.contact f k eid], .msg) := by
      rw [feed_slow (cfg := cfg) start _ (.inl h1.2)]
      exact h1.1
    have h3 : feed cfg .msg (genData s e c) = ([.data c s e], .msg) := by
      have hs := isSdnv64_encode c.length hc
      have hn := isSdnv64_ne_nil hs
      obtain ⟨t1, t2, t3⟩ := header_two 1 (by decide) s e
      obtain ⟨f1, f2, f3, -⟩ := flags_eq (header 1 (twoFlags s e))
      have ht : (header 1 (twoFlags s e) >>> 4).toNat = 1 := by rw [f3]; exact t1
      have e1 : round cfg .msg (header 1 (twoFlags s e)) (encodeU64ClassicBufSize10 c.length ++ c) =
          ((.data s e c.length [], []), c) := by
        simp only [round]
        rw [if_pos ⟨ht, by simp only [List.length_append]; omega⟩, readSdnv_encode _ hc]
        simp only [startContents, f1, f2, t2, t3]
        rw [if_neg (by omega)]
      have h0 : c ≠ [] := by rintro rfl; simp at h15
      have h4 := goes_bytes (cfg := cfg) (p := .data s e c.length) (len := c.length)
        (f := fun got => (.msg, [.data got s e])) (fun _ _ => rfl) (fun _ _ => rfl) c [] h0 (by simp)
      unfold feed genData
      simp only [List.length_cons, loop, e1, List.nil_append]
      rw [loop_slow _ _ _ (by simp) (.inl h4.2)]
      exact h4.1
    simp only [feedAll, h2, h3]
    rfl
  · intro hx
    rw [bytewise_eq] at hx
    have := (limited_slow (cfg := cfg) _ (p := start) trivial).2 _ hx
    simp only [WithinLimit] at this
    omega

/-- A contact header, a data segment whose length does not decode, and bytes in which another contact
header begins with the last byte of that length. -/
def resyncStream : Bytes :=
  genContact 0 0 sampleEid ++ (0x13 :: List.replicate 9 0xff ++ ([0x64, 0x74, 0x6e, 0x21, 3, 0, 0, 0, 1, 0x78, 0x40]))

/-- A malformed length leads to different messages, too: in one chunk its bytes are searched for a
contact header, one byte at a time they are not. -/
theorem C43_resync_violated : ∃ stream : Bytes,
    (feedAll defaults start [stream]).1 ≠ (bytewise defaults start stream).1 :=
  ⟨resyncStream, by decide +kernel⟩

/-- When a message is expected, the beginning of a data segment that announces more than can be allocated
ends in an exception if it arrives in one chunk with 16 more bytes. One byte at a time it is refused. -/
theorem C43_throws_violated (cfg : Cfg) (n : Nat) (s e : Bool) (more : Bytes) (hn : n < 2 ^ 64) (hr : cfg.room < n)
    (hm : cfg.max < n) (hl : 16 ≤ more.length) :
    feedAll cfg .msg [genDataHeader s e n ++ more] = ([], .thrown) ∧
      bytewise cfg .msg (genDataHeader s e n) = ([], .sync1) := by
  have hs := isSdnv64_encode n hn
  obtain ⟨t1, t2, t3⟩ := header_two 1 (by decide) s e
  obtain ⟨f1, f2, f3, -⟩ := flags_eq (header 1 (twoFlags s e))
  have ht : (header 1 (twoFlags s e) >>> 4).toNat = 1 := by rw [f3]; exact t1
  constructor
  · have e1 : round cfg .msg (header 1 (twoFlags s e)) (encodeU64ClassicBufSize10 n ++ more) = ((.thrown, []), more) := by
      simp only [round]
      rw [if_pos ⟨ht, by simp only [List.length_append]; omega⟩, readSdnv_encode _ hn]
      simp only [startContents]
      rw [if_pos hr]
    have h1 : ∀ w, slow cfg .thrown w = ([], .thrown) := by
      intro w
      induction w with
      | nil => rfl
      | cons b bs ih => simp [slow, step, ih]
    have h2 : ∀ w, clean cfg .thrown w = true := by
      intro w
      induction w with
      | nil => rfl
      | cons b bs ih => simp [clean, step, refuses, ih]
    simp only [feedAll, feed, genDataHeader, List.cons_append, List.length_cons, loop, e1, List.nil_append,
      List.append_nil]
    rw [loop_slow _ _ _ (by simp) (.inl (h2 _)), h1]
  · rw [bytewise_eq]
    obtain ⟨init, last, h1, h2, h3⟩ := LtpWire.wellFormed_split hs.2.1
    rw [h1] at hs
    have hl : init.length + 1 ≤ 10 := by simpa using hs.1
    have h4 := (goes_more (cfg := cfg) (reads_dataLen s e) (by simp) init [] h2 (by simp; omega)).1
    have h5 : step cfg (.dataLen s e init) last = (.sync1, []) := by
      simp only [step]; rw [sdnvStep_done hs h3, if_pos hm]
    have h6 : step cfg .msg (header 1 (twoFlags s e)) = (.dataLen s e [], []) := by
      simp only [step, typeByte, ht, f1, f2, t2, t3]
    unfold genDataHeader
    rw [h1]
    simp only [slow, h6, slow_append]
    rw [h4]
    simp [slow, h5]

/-- A contact header that announces an endpoint longer than can be allocated ends in an exception,
however it is cut. -/
theorem C43_contact_throws (cfg : Cfg) (f hi lo : UInt8) (n : Nat) (hn : n < 2 ^ 64) (hr : cfg.room < n)
    (bufs : List Bytes)
    (hb : bufs.flatten = [0x64, 0x74, 0x6e, 0x21, 3, f, hi, lo] ++ encodeU64ClassicBufSize10 n) :
    feedAll cfg start bufs = ([], .thrown) := by
  have hd : Goes cfg .sync1 [0x64, 0x74, 0x6e, 0x21, 3, f, hi, lo] [] (.eidLen f (hi.toNat * 256 + lo.toNat) []) := by
    constructor <;> simp [slow, clean, step, refuses]
  have hn := goes_number (cfg := cfg) (ph := .eidLen f (hi.toNat * 256 + lo.toNat))
    (done := fun len => (if cfg.room < len then .thrown else .eid f (hi.toNat * 256 + lo.toNat) len [], []))
    (fun _ _ => rfl) (by simp) (isSdnv64_encode n hn) (.inl (by simp))
  simp only [if_pos hr] at hn
  have h := hd.append hn
  rw [← hb] at h
  rw [feedAll_slow bufs start (.inl h.2)]
  exact h.1

/-! ### C44: messages -/

/-- What a conforming peer sends, with contents and endpoints that are not empty and not too large, is
reported message by message, however the stream is cut. -/
theorem C44_conforming (cfg : Cfg) (w : Bytes) (es : List Event) (up : Bool) (h : Conforms false w es up)
    (hf : ∀ e ∈ es, Fits cfg e) (bufs : List Bytes) (hb : bufs.flatten = w) :
    feedAll cfg start bufs = (es, if up then .msg else start) := by
  have h1 := goes_conforms h hf
  rw [← hb] at h1
  rw [feedAll_slow bufs start (.inl h1.2)]
  exact h1.1

/-- What the generators write, in a proper order, is reported with the same fields, one message for one
message, however the stream is cut. -/
theorem C44_round_trip (cfg : Cfg) (es : List Event) (ho : Ordered false es) (hs : ∀ e ∈ es, Sendable e)
    (hf : ∀ e ∈ es, Fits cfg e) (bufs : List Bytes) (hb : bufs.flatten = es.flatMap generate) :
    (feedAll cfg start bufs).1 = es := by
  obtain ⟨up, h⟩ := conforms_generate es false ho hs
  rw [C44_conforming cfg _ es up h hf bufs hb]

/-- Every message that a generator writes has the format of the protocol. -/
theorem C44_format (e : Event) (h : Sendable e) :
    if opens e then IsContact (generate e) e else IsMessage (generate e) e := by
  cases e with
  | contact f k eid => exact isContact_gen f k eid h.1 h.2.1 h.2.2
  | data c s e => exact isMessage_data s e c h.1 h.2
  | ack n => exact isMessage_ack n h
  | refusal c =>
    have hc : c < 16 := h
    have h4 := isMessage_refusal (UInt8.ofNat c) (by simp only [UInt8.toNat_ofNat']; omega)
    have e : (UInt8.ofNat c).toNat = c := by simp only [UInt8.toNat_ofNat']; omega
    rw [e] at h4
    exact h4
  | length n => exact isMessage_length n h
  | keepAlive => exact isMessage_keepAlive
  | shutdown r d => exact isMessage_shutdown r d h

/-- Whatever bytes arrive and however they are cut: every reported message was sent, each by bytes of its
own, in this order, and none before a contact header or between a shutdown and the next one. -/
theorem C44_sound (cfg : Cfg) (bufs : List Bytes) :
    ∃ w rest up, bufs.flatten = w ++ rest ∧ Explains w (feedAll cfg start bufs).1 up := by
  obtain ⟨w, x, h1, h2, -⟩ := inv_feedAll (cfg := cfg) bufs [] [] start inv_start
  exact ⟨w, x, _, by simpa using h1, by simpa using h2⟩

/-- A data segment without contents is not reported: the receiver takes everything that follows for its
contents and never reports anything again. -/
theorem C44_empty_violated (cfg : Cfg) (s e : Bool) (more : Bytes) (bufs : List Bytes)
    (hb : bufs.flatten = genData s e [] ++ more) : feedAll cfg .msg bufs = ([], .data s e 0 more) := by
  obtain ⟨t1, t2, t3⟩ := header_two 1 (by decide) s e
  obtain ⟨f1, f2, f3, -⟩ := flags_eq (header 1 (twoFlags s e))
  have ht : (header 1 (twoFlags s e) >>> 4).toNat = 1 := by rw [f3]; exact t1
  have hs := isSdnv64_encode 0 (by omega)
  have h6 : step cfg .msg (header 1 (twoFlags s e)) = (.dataLen s e [], []) := by
    simp only [step, typeByte, ht, f1, f2, t2, t3]
  have hn := goes_number (cfg := cfg) (reads_dataLen s e) (by simp) hs (.inr (by simp [startContents]))
  simp only [startContents, Nat.not_lt_zero, if_false] at hn
  have h7 := slow_contents (cfg := cfg) s e 0 more [] (by intros; simp; omega)
  have h8 : ∀ (w got : Bytes), clean cfg (.data s e 0 got) w = true := by
    intro w
    induction w with
    | nil => intro got; rfl
    | cons b bs ih =>
      intro got
      have : step cfg (.data s e 0 got) b = (.data s e 0 (got ++ [b]), []) := by simp [step]
      simp [clean, refuses, this, ih]
  have h := (Goes.one h6 rfl).append (hn.append ⟨h7, h8 _ _⟩)
  have he : [header 1 (twoFlags s e)] ++ (encodeU64ClassicBufSize10 0 ++ more) = bufs.flatten := by
    rw [hb]; simp [genData]
  rw [he] at h
  rw [feedAll_slow bufs .msg (.inl h.2)]
  exact h.1

/-! ### The hypotheses are met -/

example : Ordered false sampleEvents ∧ (∀ e ∈ sampleEvents, Sendable e) ∧ (∀ e ∈ sampleEvents, Fits defaults e) := by
  refine ⟨by simp [sampleEvents, Ordered, opens, staysUp], ?_, ?_⟩ <;>
    simp [sampleEvents, Sendable, Fits, defaults, sampleEid]

/-- One call with the whole session. -/
example : (feedAll defaults start [sampleEvents.flatMap generate]).1 = sampleEvents := by decide +kernel

/-- Three calls; the first cut is in the middle of the segment. -/
example : let w := sampleEvents.flatMap generate
    (feedAll defaults start [w.take 25, (w.drop 25).take 3, w.drop 28]).1 = sampleEvents := by decide +kernel

example : NoRefusal defaults start (sampleEvents.flatMap generate) := by
  rw [noRefusal_iff]; decide +kernel

example : ∃ up, Conforms false (sampleEvents.flatMap generate) sampleEvents up :=
  conforms_generate _ _ (by simp [sampleEvents, Ordered, opens, staysUp])
    (by simp [sampleEvents, Sendable, sampleEid])

/-- A limit of 16 bytes, contents of 20 bytes: reported if it arrives at once, refused otherwise. -/
example : (feedAll ⟨16, 2 ^ 30⟩ start [genContact 0 0 sampleEid, genData true true (List.replicate 20 0)]).1 =
      [.contact 0 0 sampleEid, .data (List.replicate 20 0) true true] ∧
    (bytewise ⟨16, 2 ^ 30⟩ start (genContact 0 0 sampleEid ++ genData true true (List.replicate 20 0))).1 =
      [.contact 0 0 sampleEid] := by decide +kernel

example : (feedAll defaults start [resyncStream]).1 = [.contact 0 0 sampleEid, .contact 0 0 [0x78], .keepAlive] ∧
    (bytewise defaults start resyncStream).1 = [.contact 0 0 sampleEid] := by decide +kernel

end Hdtn.TcpclV3
