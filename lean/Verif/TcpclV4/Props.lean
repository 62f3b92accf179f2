import Verif.TcpclV4.Sound

/-!
The properties C45 and C46: the receiver of the TCP convergence layer, version 4.

Streams are sequences of calls of `HandleReceivedChars` (`feedAll`), each with one chunk of the bytes;
`bytewise` is the receiver that is given every byte on its own. `lim` is the limit for the contents of one
data segment.
-/

namespace Hdtn.TcpclV4

open Spec

/-- A node for the examples. -/
def sampleNode : Bytes := [0x69, 0x70, 0x6e, 0x3a, 0x31, 0x2e, 0x30]

/-- Messages for the examples. -/
def sampleEvents : List Event :=
  [.init 30 1000 2000 sampleNode [⟨0, 2, [1, 2, 3]⟩, ⟨1, 3, []⟩], .data [1, 2, 3] true false 7 [⟨1, 1, toBe 8 5⟩],
    .keepAlive, .data [4, 5] false true 7 [], .ack true true 7 5, .refusal 2 8, .reject 1 9,
    .data (List.replicate 20 7) true true 9 [], .init 0 0 1 [0x78] [], .term 3 true]

/-! ### C45: independence of the chunks -/

/-- From every state of the receiver, every way to cut a stream gives the same messages and the same state. -/
theorem C45_chunks (lim : Nat) (r : Rx) (stream : Bytes) (bufs : List Bytes) (hb : bufs.flatten = stream) :
    feedAll lim r bufs = bytewise lim r stream := by
  rw [bytewise_eq, feedAll_slow, hb]

/-- So any two ways to cut it give the same. -/
theorem C45_any_two (lim : Nat) (r : Rx) (bufs bufs' : List Bytes) (h : bufs.flatten = bufs'.flatten) :
    feedAll lim r bufs = feedAll lim r bufs' := by
  rw [C45_chunks lim r _ bufs h, C45_chunks lim r _ bufs' rfl]

/-! ### C46: messages -/

/-- What a conforming peer sends, with contents within the limit and neither contents nor node empty, is
reported message by message, however the stream is cut. -/
theorem C46_conforming (lim : Nat) (w : Bytes) (es : List Event) (h : Conforms w es) (hf : ∀ e ∈ es, Fits lim e)
    (bufs : List Bytes) (hb : bufs.flatten = w) : feedAll lim start bufs = (es, ⟨.msg, []⟩) := by
  rw [feedAll_slow, hb]
  exact goes_conforms h hf

/-- What the generators write after a contact header is reported with the same fields, one message for one
message, however the stream is cut. (Missing: an empty node, for which it is false, see
`C46_empty_node_violated`; nodes and extensions that do not fit the fields for their lengths.) -/
theorem C46_round_trip_partial (lim : Nat) (tls : Bool) (es : List Event) (ho : ∀ e ∈ es, opens e = false)
    (hs : ∀ e ∈ es, Sendable e) (hf : ∀ e ∈ es, Fits lim e) (bufs : List Bytes)
    (hb : bufs.flatten = genContact tls ++ es.flatMap generate) :
    (feedAll lim start bufs).1 = .contact tls :: es := by
  have h := conforms_generate tls es fun e he => ⟨hs e he, ho e he⟩
  rw [C46_conforming lim _ _ h (by simpa [Fits] using hf) bufs hb]

/-- Every message that a generator writes has the format of the protocol. -/
theorem C46_format (e : Event) (h : Sendable e) :
    if opens e then IsContact (generate e) e else IsMessage Exact (generate e) e := by
  cases e with
  | contact tls => exact isContact_gen tls
  | _ => exact isMessage_generate _ h rfl

/-- The functions for segments that are not `GenerateStartDataSegment` itself write what it writes for the
corresponding arguments, and those that write only a header write what comes before the contents. -/
theorem C46_generators (id total : Nat) (c : Bytes) (e : Bool) (xs : List Ext) :
    genWhole id c = generate (.data c true true id []) ∧
    genWholeExt id c xs = generate (.data c true true id xs) ∧
    genFirst id c total = generate (.data c true false id [⟨1, 1, toBe 8 total⟩]) ∧
    genStartHeader e id c.length xs ++ c = generate (.data c true e id xs) ∧
    genWholeHeader id c.length ++ c = generate (.data c true true id []) ∧
    genWholeExtHeader id c.length xs ++ c = generate (.data c true true id xs) ∧
    genFirstHeader id c.length total ++ c = generate (.data c true false id [⟨1, 1, toBe 8 total⟩]) ∧
    genNextHeader e id c.length ++ c = generate (.data c false e id []) := by
  have h0 : toBe 4 (extsSize []) = [0, 0, 0, 0] := by decide +kernel
  have h1 : toBe 4 (extsSize [⟨1, 1, toBe 8 total⟩]) = toBe 4 13 := by simp [extsSize, toBe_length]
  have h2 : transferLength total = serializeExts [⟨1, 1, toBe 8 total⟩] := by
    simp only [transferLength, serializeExts, List.flatMap_cons, List.flatMap_nil, serializeExt, toBe_length]
    have a : toBe 2 1 = [0, 1] := by decide +kernel
    have b : toBe 2 8 = [0, 8] := by decide +kernel
    rw [a, b]
    simp
  have h5 : serializeExts [] = [] := rfl
  simp [generate, genWhole, genWholeExt, genFirst, genStartHeader, genWholeHeader, genWholeExtHeader,
    genFirstHeader, genNextHeader, genStart, genNext, h0, h1, h2, h5]
  decide +kernel

/-- A segment that is empty or over the limit is refused, however it arrives: once its length is read nothing
is reported for it and the receiver looks for a contact header. -/
theorem C46_refused (lim : Nat) (w : Bytes) (es : List Event) (h : Conforms w es) (hf : ∀ e ∈ es, Fits lim e)
    (hd p : Bytes) (s e : Bool) (id n : Nat) (xs : List Ext) (hh : IsSegHead Exact hd s e id xs) (hp : IsNum 8 p n)
    (hn : n = 0 ∨ lim < n) (bufs : List Bytes) (hb : bufs.flatten = w ++ (hd ++ p)) :
    (feedAll lim start bufs).1 = es ∧ (feedAll lim start bufs).2.phase = .sync1 := by
  have := (goes_conforms h hf).append (goes_refused (lim := lim) hh hp hn)
  rw [feedAll_slow, hb]
  unfold Goes at this
  rw [this]
  simp

/-- Whatever bytes arrive and however they are cut: no data segment is reported that is empty or over the
limit. -/
theorem C46_limit (lim : Nat) (bufs : List Bytes) (c : Bytes) (s e : Bool) (id : Nat) (xs : List Ext)
    (h : .data c s e id xs ∈ (feedAll lim start bufs).1) : c ≠ [] ∧ c.length ≤ lim := by
  rw [feedAll_slow] at h
  exact (limited_slow (lim := lim) bufs.flatten (r := start) (by simp [Limited, start])).2 _ h c s e id xs rfl

/-- Whatever bytes arrive and however they are cut: every reported message was sent, each by bytes of its
own, in this order, and none before a contact header. (Missing: extension items whose length was announced
exactly, not only modulo 2^32; extensions of segments that are not the first of their transfer, for which
see `C46_stale_violated`.) -/
theorem C46_sound_partial (lim : Nat) (bufs : List Bytes) :
    ∃ w rest up, bufs.flatten = w ++ rest ∧ Explains w (feedAll lim start bufs).1 up := by
  obtain ⟨w, x, h1, h2, -⟩ := inv_slow (lim := lim) inv_start bufs.flatten
  rw [feedAll_slow]
  exact ⟨w, x, _, by simpa using h1, by simpa using h2⟩

/-- A session initialisation with an empty node, which the protocol allows, is not reported: the receiver
takes everything that follows for the node and never reports anything again. -/
theorem C46_empty_node_violated (lim : Nat) (tls : Bool) (k m x : Nat) (xs : List Ext) (hk : k < 2 ^ 16)
    (hm : m < 2 ^ 64) (hx : x < 2 ^ 64) (hxs : ExtsFit xs) (more : Bytes) (bufs : List Bytes)
    (hb : bufs.flatten = genContact tls ++ (genInit k m x [] xs ++ more)) :
    IsMessage Exact (genInit k m x [] xs) (.init k m x [] xs) ∧ (feedAll lim start bufs).1 = [.contact tls] := by
  refine ⟨isMessage_generate (.init k m x [] xs) ⟨hk, hm, hx, by simp, hxs⟩ rfl, ?_⟩
  have g := goes_contact (lim := lim) (isContact_gen tls) []
  have g0 : Goes lim ⟨.msg, []⟩ [7] [] ⟨.initKeep [], []⟩ := goes_type 7 _ _ _ rfl
  have g1 := goes_num (lim := lim) (ph := fun t => ⟨.initKeep t, []⟩)
    (done := fun k => (⟨.initSeg k [], []⟩, [])) (fun _ _ => rfl) (by decide) (isNum_toBe 2 k (by omega))
  have g2 := goes_num (lim := lim) (ph := fun t => ⟨.initSeg k t, []⟩)
    (done := fun m => (⟨.initXfer k m [], []⟩, [])) (fun _ _ => rfl) (by decide) (isNum_toBe 8 m (by omega))
  have g3 := goes_num (lim := lim) (ph := fun t => ⟨.initXfer k m t, []⟩)
    (done := fun x => (⟨.initNodeLen k m x [], []⟩, [])) (fun _ _ => rfl) (by decide) (isNum_toBe 8 x (by omega))
  have g4 := goes_num (lim := lim) (ph := fun t => ⟨.initNodeLen k m x t, []⟩)
    (done := fun n => (⟨.initNode k m x n [], []⟩, [])) (fun _ _ => rfl) (by decide) (isNum_toBe 2 0 (by omega))
  have g5 := goes_some (lim := lim) (p := fun got => ⟨.initNode k m x 0 got, []⟩)
    (f := fun got => (⟨.initExtLen k m x got [], []⟩, [])) (len := 0) (fun _ _ => rfl)
    (toBe 4 (extsSize xs) ++ (serializeExts xs ++ more)) [] (by intros; simp; omega)
  have h := g.append (g0.append (g1.append (g2.append (g3.append (g4.append g5)))))
  have he : genContact tls ++ ([7] ++ (toBe 2 k ++ (toBe 8 m ++ (toBe 8 x ++ (toBe 2 0 ++
      (toBe 4 (extsSize xs) ++ (serializeExts xs ++ more))))))) = bufs.flatten := by
    rw [hb]; simp [genInit]
  rw [he] at h
  rw [feedAll_slow]
  unfold Goes at h
  rw [show start = ⟨.sync1, []⟩ from rfl, h]
  simp

/-- A session in which the first segment of transfer 1 has an extension and is over the limit of ten bytes,
and a new session in which a segment of transfer 2 arrives. -/
def staleStream : Bytes :=
  genContact false ++ genStartHeader false 1 11 [⟨1, 9, [5]⟩] ++ genContact false ++ genNext true 2 [1, 2]

/-- The extensions of a refused segment are reported with a segment of another transfer. -/
theorem C46_stale_violated : ∃ stream : Bytes, feedAll 10 start [stream] =
    ([.contact false, .contact false, .data [1, 2] false true 2 [⟨1, 9, [5]⟩]], ⟨.msg, []⟩) :=
  ⟨staleStream, by decide +kernel⟩

/-- Nor does `InitRx`, which is called for a new connection, remove them. -/
theorem C46_init_rx_violated (lim id id' : Nat) (s e e' : Bool) (hd p c : Bytes) (xs : List Ext) (n : Nat)
    (hh : IsSegHead Exact hd s e id xs) (hp : IsNum 8 p n) (hn : n = 0 ∨ lim < n) (hi : id' < 2 ^ 64) (hc : c ≠ [])
    (hl : c.length ≤ lim) (h64 : c.length < 2 ^ 64) :
    let before := (feedAll lim start [genContact false, hd ++ p]).2
    (feedAll lim (initRx before) [genContact false, genNext e' id' c]).1 =
      [.contact false, .data c false e' id' xs] := by
  have h1 := (goes_contact (lim := lim) (isContact_gen false) []).append (goes_refused (lim := lim) hh hp hn)
  have h2 := goes_contact (lim := lim) (isContact_gen false) xs
  have e1 : feedAll lim start [genContact false, hd ++ p] = ([.contact false], ⟨.sync1, xs⟩) := by
    rw [feedAll_slow]
    simpa [Goes, start] using h1
  simp only [e1, initRx]
  have g0 : Goes lim ⟨.msg, xs⟩ [1] [] ⟨.segFlags, xs⟩ := goes_type 1 _ _ _ rfl
  have g1 : Goes lim ⟨.segFlags, xs⟩ [if e' then 1 else 0] [] ⟨.segId false e' [], xs⟩ := by
    apply Goes.one
    cases e' <;> rfl
  have g2 := goes_num (lim := lim) (reads_segId false e' xs) (by decide) (isNum_toBe 8 id' (by omega))
  have g3 := goes_num (lim := lim) (reads_segLen false e' id' xs) (by decide) (isNum_toBe 8 c.length (by omega))
  have hne : ¬ (lim < c.length ∨ c.length = 0) := by
    have : c.length ≠ 0 := by simpa using hc
    omega
  simp only [startContents, if_neg hne] at g3
  have g4 := goes_bytes (lim := lim) (p := fun got => ⟨.seg false e' id' c.length got, xs⟩)
    (f := fun got => (⟨.msg, []⟩, [.data got false e' id' xs])) (step_seg false e' id' c.length xs) c [] hc (by simp)
  have h := h2.append (g0.append (g1.append (g2.append (g3.append g4))))
  rw [feedAll_slow]
  unfold Goes at h
  have he : [genContact false, genNext e' id' c].flatten = genContact false ++ ([1] ++ ([if e' then 1 else 0] ++
      (toBe 8 id' ++ (toBe 8 c.length ++ c)))) := by simp [genNext]
  rw [he, h]
  simp

/-! ### The hypotheses are met -/

example : (∀ e ∈ sampleEvents, opens e = false) ∧ (∀ e ∈ sampleEvents, Sendable e) ∧
    (∀ e ∈ sampleEvents, Fits 20 e) := by
  refine ⟨?_, ?_, ?_⟩ <;>
    simp [sampleEvents, Sendable, Fits, ExtsFit, sampleNode, opens, toBe_length]

/-- One call with the whole session. -/
example : (feedAll 20 start [genContact true ++ sampleEvents.flatMap generate]).1 =
    .contact true :: sampleEvents := by decide +kernel

/-- Four calls. -/
example : let w := genContact true ++ sampleEvents.flatMap generate
    (feedAll 20 start [w.take 25, (w.drop 25).take 50, [], w.drop 75]).1 = .contact true :: sampleEvents := by
  decide +kernel

example : Conforms (genContact true ++ sampleEvents.flatMap generate) (.contact true :: sampleEvents) :=
  conforms_generate _ _ (by simp [sampleEvents, Sendable, ExtsFit, sampleNode, opens, toBe_length])

/-- A limit of ten bytes: a segment of eleven is refused. -/
example : feedAll 10 start [genContact false, genWhole 1 (List.replicate 11 0)] = ([.contact false], start) ∧
    IsSegHead Exact (1 :: 3 :: (toBe 8 1 ++ ([0, 0, 0, 0] ++ []))) true true 1 [] ∧ IsNum 8 (toBe 8 11) 11 := by
  refine ⟨by decide +kernel, ?_, isNum_toBe 8 11 (by decide)⟩
  exact .first 3 (toBe 8 1) _ 1 [] (by decide +kernel) (isNum_toBe 8 1 (by decide))
    (.mk 0 [0, 0, 0, 0] [] [] ⟨rfl, by decide +kernel⟩ .nil rfl)

/-- An empty one, too. -/
example : feedAll 10 start [genContact false, genNext true 1 []] = ([.contact false], start) := by decide +kernel

example : ExtsFit [⟨0, 2, [1, 2, 3]⟩] := by simp [ExtsFit]

end Hdtn.TcpclV4
