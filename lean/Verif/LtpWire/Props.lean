import Verif.LtpWire.Complete

/-!
C18: LTP segments on the wire. C19: the parser and the way in which its input is cut.
-/

namespace Hdtn.LtpWire

open Spec Hdtn.Sdnv Hdtn.Sdnv.Spec Hdtn.LtpReport

/-! ### C18 -/

theorem feedAll_single (p : Phase) (buf : Bytes) : feedAll p [buf] = feed p buf := by
  unfold feedAll
  generalize feed p buf = r
  obtain ⟨es, _ | q⟩ := r
  · rfl
  · simp [feedAll]

/-- C18: segments one behind the other in one buffer are reported one by one, exactly, and the parser
is in its initial state afterwards. -/
theorem C18_segments_read (ws : List Bytes) (es : List Event) (h : List.Forall₂ IsSegment ws es)
    (hc : ∀ e ∈ es, ∀ r cs, e.content = .report r cs → cs.length < 2 ^ 31) :
    feed .control ws.flatten = (es, some .control) := by
  have hs := slow_segments h []
  simp only [List.append_nil, slow] at hs
  have hf := feed_same (p := .control) (rest := []) (buf := ws.flatten) (modest_segments h hc)
    (by rw [List.append_nil]; exact pos_start _)
  have e : Phase.control.enter.unlent = .control := rfl
  rw [e, hs] at hf
  generalize feed .control ws.flatten = f at hf
  obtain ⟨fs, fq⟩ := f
  obtain ⟨h1, h2⟩ := hf
  simp only at h1 h2
  subst h1
  rcases h2 with ⟨q, h3, h4⟩ | ⟨h3, h4⟩ | ⟨h3, -, q, h4, h5⟩
  · subst h3
    simp only [Option.some.injEq] at h4
    cases q with
    | control => rfl
    | _ => cases h4
  · cases h4
  · simp only [Option.some.injEq] at h4
    subst h4
    have := h5 0
    simp [slowStep, step] at this

/-- C18: however the segments are cut into buffers, each is reported once, in order, and the parser is in
its initial state afterwards. The data of a data segment with trailer may be missing. -/
theorem C18_segments_read_cut (ws : List Bytes) (es : List Event) (h : List.Forall₂ IsSegment ws es)
    (hc : ∀ e ∈ es, ∀ r cs, e.content = .report r cs → cs.length < 2 ^ 31) (bufs : List Bytes)
    (hb : bufs.flatten = ws.flatten) :
    ∃ es', feedAll .control bufs = (es', some .control) ∧ List.Forall₂ Agrees es' es := by
  have hs := slow_segments h []
  simp only [List.append_nil, slow] at hs
  have hm := modest_segments h hc
  have hf := feedAll_same (stream := bufs.flatten) (hb ▸ hm) bufs [] .control .control (pos_start _) (.inl rfl)
  rw [hb, hs] at hf
  obtain ⟨h1, h2⟩ := hf
  generalize feedAll .control bufs = f at h1 h2
  obtain ⟨fs, fq⟩ := f
  rcases h2 with ⟨q, q0, h3, h4, h5⟩ | ⟨h3, h4⟩ | ⟨h3, h6, q, h4, h5⟩
  · simp only at h3 h4
    subst h3
    cases h4
    refine ⟨fs, ?_, h1⟩
    have : q.unlent = .control := by
      rcases h5 with h5 | h5 <;> exact h5
    cases q with
    | control => rfl
    | _ => cases this
  · cases h4
  · simp only [Option.some.injEq] at h4
    subst h4
    have := h5 0
    simp [slowStep, step] at this

/-- C18: nothing else is reported. Whatever the stream, the callbacks are those of segments it begins with,
in order; if the parser is in its initial state, these segments are all of it. -/
theorem C18_only_segments (bufs : List Bytes) (hm : Modest bufs.flatten) :
    ∃ ws tail, bufs.flatten = ws.flatten ++ tail ∧ List.Forall₂ Reports ws (feedAll .control bufs).1 ∧
      ((feedAll .control bufs).2 = some .control → tail = []) := by
  have h := feedAll_pos hm bufs [] .control (pos_start _)
  generalize hf : feedAll .control bufs = f at h
  obtain ⟨es, _ | q⟩ := f
  · obtain ⟨ws, tail, h1, h2⟩ := h.2 es rfl
    exact ⟨ws, tail, h1, by simpa using h2, by simp⟩
  · obtain ⟨ws, w, h1, h2, h3⟩ := h.1 es q rfl
    refine ⟨ws, w, by simpa using h1, by simpa using h2, ?_⟩
    intro hq
    simp only [Option.some.injEq] at hq
    subst hq
    exact h3

/-! #### Generated segments -/

theorem isExts_serialize (xs : List Ext) (h : ∀ x ∈ xs, x.value.length < 2 ^ 64) : IsExts (serializeExts xs) xs := by
  induction xs with
  | nil => exact .nil
  | cons x xs ih =>
    have h1 := isSdnv64_encode x.value.length (h x (by simp))
    have := IsExts.cons h1 (ih fun y hy => h y (List.mem_cons_of_mem _ hy))
    have e : serializeExts (x :: xs) = x.tag :: (encodeU64ClassicBufSize10 x.value.length ++ (x.value ++ serializeExts xs)) := by
      simp [serializeExts, Ext.serialize]
    rw [e]
    exact this

theorem counts_byte (a b : Nat) (ha : a ≤ 15) (hb : b ≤ 15) :
    (UInt8.ofNat ((a % 256) <<< 4 ||| b % 256)).toNat = a * 16 + b := by
  have : ∀ a < 16, ∀ b < 16, (UInt8.ofNat ((a % 256) <<< 4 ||| b % 256)).toNat = a * 16 + b := by
    decide +kernel
  exact this a (by omega) b (by omega)

/-- A generated segment. -/
theorem isSegment_generated {flags : Nat} {id : SessionId} {header trailer : List Ext} {p : Bytes} {c : Content}
    (hf : flags < 16) (he : id.engine < 2 ^ 64) (hn : id.number < 2 ^ 64) (hh : ExtsFit header)
    (ht : ExtsFit trailer) (hc : IsContent flags p c) :
    IsSegment (serializeHeader flags id header.length trailer.length ++ serializeExts header ++ p ++
      serializeExts trailer) ⟨id, header, c, trailer⟩ := by
  refine ⟨flags, encodeU64ClassicBufSize10 id.engine ++ encodeU64ClassicBufSize10 id.number, serializeExts header, p,
    serializeExts trailer, _, ?_, hf, ?_, counts_byte _ _ hh.1 ht.1, by have := ht.1; simp only; omega,
    isExts_serialize _ hh.2, hc, isExts_serialize _ ht.2⟩
  · simp [serializeHeader]
  · exact split_append (split_encode _ he) (split_encode _ hn)

theorem feed_one {w : Bytes} {e : Event} (h : IsSegment w e)
    (hc : ∀ r cs, e.content = .report r cs → cs.length < 2 ^ 31) : feed .control w = ([e], some .control) := by
  have := C18_segments_read [w] [e] (.cons h .nil) (by simpa using hc)
  simpa using this

/-- C18: a data segment is read back. Its header is generated by the sender, its data and trailer
follow. -/
theorem C18_data_round_trip (flags : Nat) (id : SessionId) (m : Meta) (header trailer : List Ext) (d : Bytes)
    (hf : flags ≤ 4 ∨ flags = 7) (hk : m.checkpoint.isSome ↔ 1 ≤ flags ∧ flags ≤ 3)
    (he : id.engine < 2 ^ 64) (hn : id.number < 2 ^ 64) (hc : m.client < 2 ^ 64) (ho : m.offset < 2 ^ 64)
    (hl : m.length < 2 ^ 64) (hkr : ∀ k r, m.checkpoint = some (k, r) → k < 2 ^ 64 ∧ r < 2 ^ 64)
    (hd : d.length = m.length) (h0 : d ≠ []) (hh : ExtsFit header) (ht : ExtsFit trailer) :
    feed .control (generateDataHeader flags id m header trailer.length ++ d ++ serializeExts trailer) =
      ([⟨id, header, .data flags m (some d), trailer⟩], some .control) := by
  refine feed_one ?_ (by simp)
  have hcont : IsContent flags (m.serialize ++ d) (.data flags m (some d)) := by
    obtain ⟨c, o, l, k⟩ := m
    simp only at *
    subst hd
    have h3 := split_append (split_encode c hc) (split_append (split_encode o ho) (split_encode d.length hl))
    cases k with
    | none =>
      refine .plainData ?_ h0 ?_
      · simp only [Option.isSome_none, Bool.false_eq_true, false_iff] at hk
        omega
      · have := split_rest h3 d
        simpa [Meta.serialize] using this
    | some kr =>
      obtain ⟨k, r⟩ := kr
      obtain ⟨hk1, hr1⟩ := hkr k r rfl
      refine .checkpoint ?_ h0 ?_
      · simp only [Option.isSome_some, true_iff] at hk
        omega
      · have := split_rest (split_append h3 (split_append (split_encode k hk1) (split_encode r hr1))) d
        simpa [Meta.serialize] using this
  have := isSegment_generated (id := id) (by omega) he hn hh ht hcont
  simpa [generateDataHeader] using this

theorem split_claims (cs : List Claim) (h : ∀ c ∈ cs, c.offset < 2 ^ 64 ∧ c.length < 2 ^ 64) :
    Split (cs.map serializeClaim).flatten (claimNums cs) [] := by
  induction cs with
  | nil => exact .nil _
  | cons c cs ih =>
    obtain ⟨h1, h2⟩ := h c (by simp)
    have := split_append (split_append (split_encode _ h1) (split_encode _ h2))
      (ih fun x hx => h x (List.mem_cons_of_mem _ hx))
    simpa [serializeClaim, claimNums] using this

/-- C18: a report is read back. -/
theorem C18_report_round_trip (id : SessionId) (r : ReportNums) (cs : List Claim) (header trailer : List Ext)
    (he : id.engine < 2 ^ 64) (hn : id.number < 2 ^ 64) (h1 : r.reportSerial < 2 ^ 64)
    (h2 : r.checkpointSerial < 2 ^ 64) (h3 : r.upper < 2 ^ 64) (h4 : r.lower < 2 ^ 64)
    (h0 : cs ≠ []) (h5 : cs.length < 2 ^ 31)
    (hcs : ∀ c ∈ cs, c.offset < 2 ^ 64 ∧ c.length < 2 ^ 64 ∧ c.length ≠ 0)
    (hh : ExtsFit header) (ht : ExtsFit trailer) :
    feed .control (generateReport id r cs header trailer) =
      ([⟨id, header, .report r cs, trailer⟩], some .control) := by
  refine feed_one ?_ ?_
  · have hp : IsContent 8 (serializeReport r cs) (.report r cs) := by
      refine .report h0 (fun c hc => (hcs c hc).2.2) ?_
      have := split_append (split_append (split_encode _ h1) (split_append (split_encode _ h2)
        (split_append (split_encode _ h3) (split_append (split_encode _ h4)
          (split_encode cs.length (by omega)))))) (split_claims cs fun c hc => ⟨(hcs c hc).1, (hcs c hc).2.1⟩)
      simpa [serializeReport] using this
    exact isSegment_generated (by decide) he hn hh ht hp
  · rintro _ _ h
    cases h
    exact h5

/-- C18: an acknowledgement of a report is read back. -/
theorem C18_reportAck_round_trip (id : SessionId) (serial : Nat) (header trailer : List Ext)
    (he : id.engine < 2 ^ 64) (hn : id.number < 2 ^ 64) (hs : serial < 2 ^ 64)
    (hh : ExtsFit header) (ht : ExtsFit trailer) :
    feed .control (generateReportAck id serial header trailer) =
      ([⟨id, header, .reportAck serial, trailer⟩], some .control) :=
  feed_one (isSegment_generated (by decide) he hn hh ht (.reportAck (isSdnv64_encode _ hs))) (by simp)

/-- C18: a cancellation is read back. -/
theorem C18_cancel_round_trip (id : SessionId) (reason : UInt8) (fromSender : Bool) (header trailer : List Ext)
    (he : id.engine < 2 ^ 64) (hn : id.number < 2 ^ 64) (hh : ExtsFit header) (ht : ExtsFit trailer) :
    feed .control (generateCancel id reason fromSender header trailer) =
      ([⟨id, header, .cancel reason fromSender, trailer⟩], some .control) := by
  refine feed_one ?_ (by simp)
  cases fromSender with
  | true => exact isSegment_generated (by decide) he hn hh ht .cancelBySender
  | false => exact isSegment_generated (by decide) he hn hh ht .cancelByReceiver

/-- C18: an acknowledgement of a cancellation is read back. -/
theorem C18_cancelAck_round_trip (id : SessionId) (toSender : Bool) (header trailer : List Ext)
    (he : id.engine < 2 ^ 64) (hn : id.number < 2 ^ 64) (hh : ExtsFit header) (ht : ExtsFit trailer) :
    feed .control (generateCancelAck id toSender header trailer) =
      ([⟨id, header, .cancelAck toSender, trailer⟩], some .control) := by
  refine feed_one ?_ (by simp)
  cases toSender with
  | true =>
    have := isSegment_generated (id := id) (flags := 13) (by decide) he hn hh ht .cancelAckToSender
    simpa [generateCancelAck] using this
  | false =>
    have := isSegment_generated (id := id) (flags := 15) (by decide) he hn hh ht .cancelAckToReceiver
    simpa [generateCancelAck] using this

example : feed .control (generateDataHeader 3 ⟨300, 7⟩ ⟨1, 1000, 3, some (5, 0)⟩ [⟨192, [1, 2]⟩] 1 ++ [10, 11, 12] ++
    serializeExts [⟨193, []⟩]) =
    ([⟨⟨300, 7⟩, [⟨192, [1, 2]⟩], .data 3 ⟨1, 1000, 3, some (5, 0)⟩ (some [10, 11, 12]), [⟨193, []⟩]⟩], some .control) :=
  C18_data_round_trip 3 ⟨300, 7⟩ ⟨1, 1000, 3, some (5, 0)⟩ [⟨192, [1, 2]⟩] [⟨193, []⟩] [10, 11, 12] (by decide) (by decide)
    (by decide) (by decide) (by decide) (by decide) (by decide)
    (by intro k r h; simp only [Option.some.injEq, Prod.mk.injEq] at h; omega)
    rfl (by decide) ⟨by decide, by decide⟩ ⟨by decide, by decide⟩

example : feed .control (generateReport ⟨300, 7⟩ ⟨9, 5, 2000, 1000⟩ [⟨0, 200⟩, ⟨500, 500⟩] [] [⟨193, [4]⟩]) =
    ([⟨⟨300, 7⟩, [], .report ⟨9, 5, 2000, 1000⟩ [⟨0, 200⟩, ⟨500, 500⟩], [⟨193, [4]⟩]⟩], some .control) :=
  C18_report_round_trip ⟨300, 7⟩ ⟨9, 5, 2000, 1000⟩ [⟨0, 200⟩, ⟨500, 500⟩] [] [⟨193, [4]⟩] (by decide) (by decide)
    (by decide) (by decide) (by decide) (by decide) (by decide) (by decide) (by decide)
    ⟨by decide, by decide⟩ ⟨by decide, by decide⟩

/-- Sixteen header extensions do not fit into the byte of the counts: the segment is not read back. -/
theorem C18_sixteen_extensions :
    feed .control (generateCancelAck ⟨1, 2⟩ true (List.replicate 16 ⟨192, []⟩) []) =
      ([⟨⟨1, 2⟩, [], .cancelAck true, []⟩], none) := by
  decide +kernel

/-! ### C19 -/

theorem feedAll_control {bufs : List Bytes} (hm : Modest bufs.flatten) :
    SameAll bufs.flatten (feedAll .control bufs) (slow .control bufs.flatten) :=
  feedAll_same hm bufs [] .control .control (pos_start _) (.inl rfl)

theorem loses_control {q q0 : Phase} (h : Loses q.unlent q0) : q = .control ↔ q0 = .control := by
  rcases h with h | h
  · rw [← h]
    cases q <;> simp [Phase.unlent]
  · cases q <;> cases q0 <;> simp [Phase.unlent, Phase.lose] at h ⊢

/-- C19 without streams in which a report announces 2^31 claims or more: two ways to cut a stream lead to
the same callbacks in the same order, except that the data of data segments with trailer may be missing;
after both the parser is between two segments, or after none; after both it has failed, or after none,
unless the stream ends in ten bytes that begin a number longer than ten bytes. -/
theorem C19_chunks_partial (bufs bufs' : List Bytes) (h : bufs.flatten = bufs'.flatten) (hm : Modest bufs.flatten) :
    List.Forall₂ (fun e e' => ∃ f, Agrees e f ∧ Agrees e' f) (feedAll .control bufs).1 (feedAll .control bufs').1 ∧
    ((feedAll .control bufs).2 = some .control ↔ (feedAll .control bufs').2 = some .control) ∧
    (¬ CutAtTen bufs.flatten → ((feedAll .control bufs).2 = none ↔ (feedAll .control bufs').2 = none)) := by
  have h1 := feedAll_control hm
  have h2 := feedAll_control (bufs := bufs') (h ▸ hm)
  rw [← h] at h2
  generalize slow .control bufs.flatten = s at h1 h2
  have ctl : ∀ f, SameAll bufs.flatten f s → (f.2 = some .control ↔ s.2 = some .control) := by
    rintro f ⟨-, ⟨q, q0, a1, a2, a3⟩ | ⟨a1, a2⟩ | ⟨a1, -, q0, a2, a3⟩⟩
    · rw [a1, a2, Option.some.injEq, Option.some.injEq]
      exact loses_control a3
    · rw [a1, a2]
    · rw [a1, a2]
      simp only [reduceCtorEq, Option.some.injEq, false_iff]
      rintro rfl
      have := a3 0
      simp [slowStep, step] at this
  have non : ∀ f, SameAll bufs.flatten f s → ¬ CutAtTen bufs.flatten → (f.2 = none ↔ s.2 = none) := by
    rintro f ⟨-, ⟨q, q0, a1, a2, a3⟩ | ⟨a1, a2⟩ | ⟨a1, a0, q0, a2, a3⟩⟩ hc
    · rw [a1, a2]; simp
    · rw [a1, a2]
    · exact absurd a0 hc
  refine ⟨?_, (ctl _ h1).trans (ctl _ h2).symm, fun hc => (non _ h1 hc).trans (non _ h2 hc).symm⟩
  have e1 := h1.1
  have e2 := h2.1
  clear h1 h2 ctl non
  generalize (feedAll .control bufs).1 = a at e1 ⊢
  generalize (feedAll .control bufs').1 = b at e2 ⊢
  generalize s.1 = c at e1 e2
  induction e1 generalizing b with
  | nil => cases e2; exact .nil
  | @cons x y xs ys hxy _ ih =>
    cases e2 with
    | @cons x' _ xs' _ hxy' h' => exact .cons ⟨y, hxy, hxy'⟩ (ih _ h')

/-- C19: without data segments with trailer the callbacks are the same. -/
theorem C19_same_callbacks_partial (bufs bufs' : List Bytes) (h : bufs.flatten = bufs'.flatten)
    (hm : Modest bufs.flatten) (ht : NoTrailedData (feedAll .control bufs).1) :
    (feedAll .control bufs).1 = (feedAll .control bufs').1 := by
  have h1 := (C19_chunks_partial bufs bufs' h hm).1
  generalize (feedAll .control bufs).1 = a at h1 ht ⊢
  generalize (feedAll .control bufs').1 = b at h1 ⊢
  induction h1 with
  | nil => rfl
  | @cons x y xs ys hxy _ ih =>
    rw [ih fun e he => ht e (List.mem_cons_of_mem _ he)]
    obtain ⟨f, h1, h2⟩ := hxy
    have hx := ht x (by simp)
    congr 1
    rcases h1 with rfl | ⟨hf, flags, m, d, hd, rfl⟩
    · rcases h2 with rfl | ⟨hf, flags, m, d, hd, rfl⟩
      · rfl
      · exact absurd hd (hx hf _ _ _)
    · exact absurd rfl (hx hf _ _ _)

/-! #### When data is missing -/

/-- The contents are not data that is missing, or data of a length in `P`. -/
def Kept (P : Nat → Prop) (c : Content) : Prop := ∀ flags m, c = .data flags m none → P m.length

/-- Data that may get lost with the next call has a length in `P`. -/
def Lendable (P : Nat → Prop) (lent : Bool) (c : Content) : Prop :=
  Kept P c ∧ (lent = true → ∀ flags m d, c = .data flags m d → P m.length)

def KeptPhase (P : Nat → Prop) : Phase → Prop
  | .trailerTag _ lent c _ => Lendable P lent c
  | .trailerLen _ lent c _ _ _ => Lendable P lent c
  | .trailerValue _ lent c _ _ _ _ => Lendable P lent c
  | _ => True

def KeptRes (P : Nat → Prop) : Res → Prop
  | .next q => KeptPhase P q
  | .emit e => Kept P e.content ∧ (e.trailer = [] → ∀ flags m, e.content ≠ .data flags m none)
  | _ => True

theorem kept_sdnv {P : Nat → Prop} {tmp : Bytes} {b : UInt8} {ph : Bytes → Phase} {done : Nat → Res}
    (h1 : ∀ t, KeptPhase P (ph t)) (h2 : ∀ v, KeptRes P (done v)) : KeptRes P (sdnvStep tmp b ph done) := by
  unfold sdnvStep
  simp only
  split
  · trivial
  split
  · split
    · trivial
    · exact h2 _
  · exact h1 _

theorem kept_finish {P : Nat → Prop} {h : Head} {lent : Bool} {c : Content} (hc : Lendable P lent c)
    (hn : ∀ flags m, c ≠ .data flags m none) : KeptRes P (finish h lent c) := by
  unfold finish
  split
  · exact hc
  · exact ⟨hc.1, fun _ => hn⟩

theorem lendable_false {P : Nat → Prop} {c : Content} (hn : ∀ flags m, c ≠ .data flags m none) : Lendable P false c :=
  ⟨fun flags m h => absurd h (hn flags m), fun h => by cases h⟩

theorem kept_step {P : Nat → Prop} {p : Phase} (hp : KeptPhase P p) (b : UInt8) : KeptRes P (step p b) := by
  have hext : ∀ h x, KeptRes P (headerExtDone h x) := by
    intro h x
    unfold headerExtDone
    simp only
    split <;> trivial
  have htr : ∀ h lent c exts x, Lendable P lent c → KeptRes P (trailerExtDone h lent c exts x) := by
    intro h lent c exts x hl
    unfold trailerExtDone
    simp only
    split
    · exact ⟨hl.1, fun he => absurd he (by simp)⟩
    · exact hl
  cases p with
  | control => simp only [step]; split <;> trivial
  | session flags vals tmp =>
    simp only [step]
    refine kept_sdnv (fun _ => trivial) fun v => ?_
    rcases vals with _ | ⟨e, vals⟩ <;> trivial
  | counts flags id => simp only [step]; split <;> trivial
  | headerTag h => trivial
  | headerLen h tag tmp =>
    simp only [step]
    refine kept_sdnv (fun _ => trivial) fun v => ?_
    split
    · exact hext _ _
    · trivial
  | headerValue h tag len got =>
    simp only [step]
    split
    · exact hext _ _
    · trivial
  | dataNums h vals tmp =>
    simp only [step]
    refine kept_sdnv (fun _ => trivial) fun v => ?_
    rcases vals with _ | ⟨a, _ | ⟨c, _ | ⟨d, _ | ⟨e, _ | ⟨f, _⟩⟩⟩⟩⟩
    · trivial
    · trivial
    · simp only [dataNext]
      split
      · trivial
      · split <;> trivial
    · trivial
    · trivial
    · trivial
  | dataBytes h m got =>
    simp only [step]
    split
    · exact kept_finish (lendable_false (by simp)) (by simp)
    · trivial
  | reportNums h vals tmp =>
    simp only [step]
    refine kept_sdnv (fun _ => trivial) fun v => ?_
    unfold reportNext
    split
    · split <;> trivial
    · trivial
  | claimOffset h r count claims tmp =>
    simp only [step]
    exact kept_sdnv (fun _ => trivial) fun v => trivial
  | claimLength h r count claims offset tmp =>
    simp only [step]
    refine kept_sdnv (fun _ => trivial) fun v => ?_
    unfold claimNext
    split
    · trivial
    · simp only
      split
      · trivial
      · exact kept_finish (lendable_false (by simp)) (by simp)
  | ackNum h tmp =>
    simp only [step]
    exact kept_sdnv (fun _ => trivial) fun v => kept_finish (lendable_false (by simp)) (by simp)
  | cancelByte h => exact kept_finish (lendable_false (by simp)) (by simp)
  | trailerTag h lent c exts => exact hp
  | trailerLen h lent c exts tag tmp =>
    simp only [step]
    refine kept_sdnv (fun _ => hp) fun v => ?_
    split
    · exact htr _ _ _ _ _ hp
    · exact hp
  | trailerValue h lent c exts tag len got =>
    simp only [step]
    split
    · exact htr _ _ _ _ _ hp
    · exact hp

theorem kept_start {P : Nat → Prop} (h : Head) (rest : Bytes) : KeptRes P (startContent h rest).1 := by
  unfold startContent
  split
  · exact kept_finish (lendable_false (by simp)) (by simp)
  split
  · trivial
  split
  · unfold dataShortcut
    split
    · trivial
    · rename_i vs _ _
      rcases vs with _ | ⟨a, _ | ⟨c, _ | ⟨d, _ | ⟨e, _ | ⟨f, vs'⟩⟩⟩⟩⟩
      · trivial
      · trivial
      · trivial
      · simp only [dataAfter]; split <;> (try trivial); split <;> trivial
      · simp only [dataAfter]; split <;> trivial
      · cases vs' with
        | nil => simp only [dataAfter]; split <;> trivial
        | cons _ _ => trivial
  split
  · unfold reportShortcut
    split
    · trivial
    · split
      · split
        · trivial
        · unfold claimsShortcut
          simp only
          split
          · trivial
          · split
            · trivial
            · split
              · exact kept_finish (lendable_false (by simp)) (by simp)
              · split <;> trivial
      · trivial
  split <;> trivial

theorem kept_round {P : Nat → Prop} {p : Phase} (hp : KeptPhase P p) (b : UInt8) (rest : Bytes)
    (hP : ∀ n, n ≤ rest.length + 1 → P n) : KeptRes P (round p b rest).1 := by
  have gen : ∀ p : Phase, KeptPhase P p → KeptRes P (match step p b with
        | .content h => startContent h rest
        | r => (r, rest)).1 := by
    intro p hp
    have := kept_step hp b
    cases hs : step p b with
    | content h => exact kept_start h rest
    | fail => trivial
    | next q => rw [hs] at this; exact this
    | emit e => rw [hs] at this; exact this
  unfold round
  split
  · unfold controlByte
    split
    · trivial
    · split
      · trivial
      · split <;> trivial
  · unfold dataByte
    split
    · rename_i hc
      refine kept_finish ⟨fun _ _ h => (by cases h), fun _ flags m' d h => ?_⟩ (by simp)
      cases h
      exact hP _ hc.2
    · simp only
      split
      · exact kept_finish (lendable_false (by simp)) (by simp)
      · trivial
  · exact gen p hp

/-- Callbacks without missing data, or with data of a length in `P` and a trailer. -/
def KeptEvents (P : Nat → Prop) (es : List Event) : Prop :=
  ∀ e ∈ es, ∀ flags m, e.content = .data flags m none → e.trailer ≠ [] ∧ P m.length

theorem kept_loop {P : Nat → Prop} : ∀ (n : Nat) (p : Phase) (buf : Bytes), KeptPhase P p →
    (∀ k, k ≤ buf.length → P k) → KeptEvents P (loop n p buf).1 ∧ ∀ q, (loop n p buf).2 = some q → KeptPhase P q := by
  intro n
  induction n with
  | zero =>
    intro p buf hp hP
    refine ⟨fun e he => (by cases he), fun q hq => ?_⟩
    cases hq
    exact hp
  | succ n ih =>
    intro p buf hp hP
    cases buf with
    | nil =>
      refine ⟨fun e he => (by cases he), fun q hq => ?_⟩
      cases hq
      exact hp
    | cons b rest =>
      have hk := kept_round hp b rest hP
      have hl := round_length p b rest
      simp only [loop]
      generalize round p b rest = rr at hk hl
      obtain ⟨r, rest'⟩ := rr
      simp only [List.length_cons] at hP hl
      cases r with
      | fail => exact ⟨fun e he => (by cases he), fun q hq => (by cases hq)⟩
      | content h => exact ⟨fun e he => (by cases he), fun q hq => (by cases hq)⟩
      | next q =>
        refine ih q rest' hk fun k hk => hP k ?_
        rcases hl with hl | hl
        · cases hl
        · omega
      | emit e =>
        have := ih .control rest' trivial fun k hk => hP k (by
          rcases hl with hl | hl
          · cases hl
          · omega)
        refine ⟨?_, this.2⟩
        intro x hx
        rcases List.mem_cons.1 hx with rfl | hx
        · intro flags m hxm
          exact ⟨fun ht => hk.2 ht flags m hxm, hk.1 flags m hxm⟩
        · exact this.1 x hx

theorem kept_enter {P : Nat → Prop} {p : Phase} (h : KeptPhase P p) : KeptPhase P p.enter := by
  have lost : ∀ c : Content, Lendable P true c → Lendable P false c.lost := by
    intro c hl
    refine ⟨?_, fun h => by cases h⟩
    intro flags m hc
    cases c with
    | data flags' m' d =>
      cases hc
      exact hl.2 rfl _ _ d rfl
    | _ => cases hc
  cases p with
  | trailerTag h' l c exts =>
    cases l with
    | true => exact lost c h
    | false => exact h
  | trailerLen h' l c exts tag tmp =>
    cases l with
    | true => exact lost c h
    | false => exact h
  | trailerValue h' l c exts tag len got =>
    cases l with
    | true => exact lost c h
    | false => exact h
  | _ => exact h

/-- C19: data is missing only if it came in one piece in front of a trailer; data that came in several
buffers is kept. -/
theorem C19_missing_data (bufs : List Bytes) : ∀ e ∈ (feedAll .control bufs).1, ∀ flags m,
    e.content = .data flags m none → e.trailer ≠ [] ∧ ∃ buf ∈ bufs, m.length ≤ buf.length := by
  have key : ∀ (P : Nat → Prop) (bufs : List Bytes) (p : Phase), KeptPhase P p →
      (∀ buf ∈ bufs, ∀ k, k ≤ buf.length → P k) → KeptEvents P (feedAll p bufs).1 := by
    intro P bufs
    induction bufs with
    | nil => intro p _ _ e he; cases he
    | cons buf bufs ih =>
      intro p hp hP
      have h1 := kept_loop buf.length p.enter buf (kept_enter hp) (hP buf (by simp))
      unfold feedAll feed
      generalize loop buf.length p.enter buf = r at h1
      obtain ⟨es, _ | q⟩ := r
      · exact h1.1
      · have h2 := ih q (h1.2 q rfl) fun b hb => hP b (List.mem_cons_of_mem _ hb)
        intro e he
        rcases List.mem_append.1 he with he | he
        · exact h1.1 e he
        · exact h2 e he
  exact key (fun k => ∃ buf ∈ bufs, k ≤ buf.length) bufs .control trivial fun buf hb k hk => ⟨buf, hb, hk⟩

example : (feedAll .control [[0, 1, 1, 1, 1, 0, 2, 10], [11], [192, 0]]).1 =
    [⟨⟨1, 1⟩, [], .data 0 ⟨1, 0, 2, none⟩ (some [10, 11]), [⟨192, []⟩]⟩] := by
  decide +kernel

/-- C19: a stream that is one segment with fewer than 2^31 claims satisfies the condition of the theorems
above; this one is a checkpoint and an acknowledgement. -/
example : Modest ([3, 1, 2, 0, 1, 0, 2, 5, 0, 10, 11] ++ [9, 1, 2, 0, 7]) := by
  have h1 : IsSegment [3, 1, 2, 0, 1, 0, 2, 5, 0, 10, 11] ⟨⟨1, 2⟩, [], .data 3 ⟨1, 0, 2, some (5, 0)⟩ (some [10, 11]), []⟩ := by
    refine ⟨3, [1, 2], [], [1, 0, 2, 5, 0, 10, 11], [], 0, rfl, by decide, ?_, rfl, by decide, .nil, ?_, .nil⟩
    · exact .cons (p := [1]) ((decode_whole _ _).1 (by decide +kernel)) (.cons (p := [2]) ((decode_whole _ _).1 (by decide +kernel)) (.nil _))
    · exact .checkpoint (by decide) (by decide) (.cons (p := [1]) ((decode_whole _ _).1 (by decide +kernel)) (.cons (p := [0]) ((decode_whole _ _).1 (by decide +kernel))
        (.cons (p := [2]) ((decode_whole _ _).1 (by decide +kernel)) (.cons (p := [5]) ((decode_whole _ _).1 (by decide +kernel)) (.cons (p := [0]) ((decode_whole _ _).1 (by decide +kernel)) (.nil _))))))
  have h2 : IsSegment [9, 1, 2, 0, 7] ⟨⟨1, 2⟩, [], .reportAck 7, []⟩ := by
    refine ⟨9, [1, 2], [], [7], [], 0, rfl, by decide, ?_, rfl, by decide, .nil, .reportAck ((decode_whole _ _).1 (by decide +kernel)), .nil⟩
    exact .cons (p := [1]) ((decode_whole _ _).1 (by decide +kernel)) (.cons (p := [2]) ((decode_whole _ _).1 (by decide +kernel)) (.nil _))
  exact modest_segments (ws := [_, _]) (.cons h1 (.cons h2 .nil)) (by simp)

/-- C19 is violated: a report that announces 2^31 + 1 claims and contains one is reported with this one when
it comes in one buffer, and never when it comes byte by byte. -/
theorem C19_many_claims_violated :
    let w : Bytes := [8, 1, 1, 0, 1, 1, 10, 0] ++ encodeU64ClassicBufSize10 (2 ^ 31 + 1) ++ [0, 10]
    (feedAll .control [w]).1 = [⟨⟨1, 1⟩, [], .report ⟨1, 1, 10, 0⟩ [⟨0, 10⟩], []⟩] ∧
    (feedAll .control (w.map fun b => [b])).1 = [] := by
  decide +kernel

/-- C19 is violated: when the trailer of a data segment comes in a later buffer than its data, the data
reported is not there any more. -/
theorem C19_trailed_data_violated :
    let w : Bytes := [0, 1, 1, 1, 1, 0, 2, 10, 11]
    (feedAll .control [w ++ [192, 0]]).1 = [⟨⟨1, 1⟩, [], .data 0 ⟨1, 0, 2, none⟩ (some [10, 11]), [⟨192, []⟩]⟩] ∧
    (feedAll .control [w, [192, 0]]).1 = [⟨⟨1, 1⟩, [], .data 0 ⟨1, 0, 2, none⟩ none, [⟨192, []⟩]⟩] := by
  decide +kernel

/-- Ten bytes with the top bit set are an error at once in one buffer, and only with the next byte when
they come byte by byte. -/
theorem C19_long_number_later :
    let w : Bytes := 0 :: List.replicate 10 128
    (feedAll .control [w]).2 = none ∧ (feedAll .control (w.map fun b => [b])).2 ≠ none ∧
    ∀ b, (feedAll .control ((w ++ [b]).map fun b => [b])).2 = none := by
  refine ⟨by decide +kernel, by decide +kernel, ?_⟩
  intro b
  have : ∀ k < 256, (feedAll .control (((0 :: List.replicate 10 128) ++ [UInt8.ofNat k]).map fun b => [b])).2 = none := by
    decide +kernel
  simpa using this b.toNat b.toNat_lt

end Hdtn.LtpWire
