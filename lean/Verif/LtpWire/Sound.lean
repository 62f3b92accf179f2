import Verif.LtpWire.Lemmas

/-! What the bytes read so far are in each state of the parser. -/

namespace Hdtn.LtpWire

open Spec Hdtn.Sdnv Hdtn.Sdnv.Spec Hdtn.LtpReport

/-- `w` begins a segment with head `h`. -/
def IsHead (w : Bytes) (h : Head) : Prop :=
  ∃ (s x : Bytes) (n : UInt8), w = UInt8.ofNat h.flags :: (s ++ n :: x) ∧ h.flags < 16 ∧
    Split s [h.id.engine, h.id.number] [] ∧ n.toNat = h.numHeader * 16 + h.numTrailer ∧
    h.numTrailer < 16 ∧ IsExts x h.exts

/-- As `IsHead`, with all header extensions. -/
def Full (w : Bytes) (h : Head) : Prop := IsHead w h ∧ h.exts.length = h.numHeader

/-- The contents of the segment, possibly with the data lost. -/
def WeakContent (flags : Nat) (p : Bytes) (c : Content) : Prop :=
  ∃ c', IsContent flags p c' ∧ (c = c' ∨ c = c'.lost)

def isData (flags : Nat) : Prop := flags ≤ 4 ∨ flags = 7

/-- The numbers of a data segment. -/
def Meta.nums (m : Meta) : List Nat :=
  [m.client, m.offset, m.length] ++ (match m.checkpoint with | some (k, r) => [k, r] | none => [])

/-- Contents and some trailer extensions have been read. -/
def InTrailer (w : Bytes) (h : Head) (c : Content) (exts : List Ext) : Prop :=
  ∃ w0 p t, w = w0 ++ (p ++ t) ∧ Full w0 h ∧ WeakContent h.flags p c ∧ IsExts t exts ∧
    exts.length < h.numTrailer

/-- The numbers of a report up to some claims have been read. -/
def InClaims (w : Bytes) (h : Head) (r : ReportNums) (count : Nat) (claims : List Claim) (more : List Nat) : Prop :=
  ∃ w0 s, w = w0 ++ s ∧ Full w0 h ∧ h.flags = 8 ∧ claims.length < count ∧ (∀ c ∈ claims, c.length ≠ 0) ∧
    Split s ([r.reportSerial, r.checkpointSerial, r.upper, r.lower, count] ++ claimNums claims ++ more) []

/-- The bytes of the segment read so far. -/
def Holds (w : Bytes) : Phase → Prop
  | .control => w = []
  | .session flags vals tmp => ∃ s, w = UInt8.ofNat flags :: s ++ tmp ∧ flags < 16 ∧ Split s vals [] ∧ vals.length < 2
  | .counts flags id => ∃ s, w = UInt8.ofNat flags :: s ∧ flags < 16 ∧ Split s [id.engine, id.number] []
  | .headerTag h => IsHead w h ∧ h.exts.length < h.numHeader
  | .headerLen h tag tmp => ∃ w0, w = w0 ++ [tag] ++ tmp ∧ IsHead w0 h ∧ h.exts.length < h.numHeader
  | .headerValue h tag len got => ∃ w0 q, w = w0 ++ [tag] ++ q ++ got ∧ IsHead w0 h ∧ h.exts.length < h.numHeader ∧
      IsSdnv64 q len ∧ got.length < len
  | .dataNums h vals tmp => ∃ w0 s, w = w0 ++ s ++ tmp ∧ Full w0 h ∧ isData h.flags ∧ Split s vals [] ∧
      vals.length < 5 ∧ (3 ≤ vals.length → isCheckpoint h.flags = true ∧ vals[2]? ≠ some 0)
  | .dataBytes h m got => ∃ w0 s, w = w0 ++ s ++ got ∧ Full w0 h ∧ isData h.flags ∧ Split s m.nums [] ∧
      (isCheckpoint h.flags = m.checkpoint.isSome) ∧ got.length < m.length
  | .reportNums h vals tmp => ∃ w0 s, w = w0 ++ s ++ tmp ∧ Full w0 h ∧ h.flags = 8 ∧ Split s vals [] ∧ vals.length < 5
  | .claimOffset h r count claims tmp => ∃ w1, w = w1 ++ tmp ∧ InClaims w1 h r count claims []
  | .claimLength h r count claims offset tmp => ∃ w1, w = w1 ++ tmp ∧ InClaims w1 h r count claims [offset]
  | .ackNum h tmp => ∃ w0, w = w0 ++ tmp ∧ Full w0 h ∧ h.flags = 9
  | .cancelByte h => Full w h ∧ (h.flags = 12 ∨ h.flags = 14)
  | .trailerTag h _ c exts => InTrailer w h c exts
  | .trailerLen h _ c exts tag tmp => ∃ w1, w = w1 ++ [tag] ++ tmp ∧ InTrailer w1 h c exts
  | .trailerValue h _ c exts tag len got => ∃ w1 q, w = w1 ++ [tag] ++ q ++ got ∧ InTrailer w1 h c exts ∧
      IsSdnv64 q len ∧ got.length < len

/-- What a result says about the bytes read. -/
def Good (w : Bytes) : Res → Prop
  | .fail => True
  | .next q => Holds w q
  | .emit e => Reports w e
  | .content h => Full w h

theorem good_sdnv {ph : Bytes → Phase} {done : Nat → Res} {Base : Bytes → Prop}
    (hph : ∀ w0 tmp, Base w0 → Holds (w0 ++ tmp) (ph tmp))
    (hdone : ∀ w0 p v, Base w0 → IsSdnv64 p v → Good (w0 ++ p) (done v))
    {w0 tmp : Bytes} {b : UInt8} (h0 : Base w0) : Good (w0 ++ tmp ++ [b]) (sdnvStep tmp b ph done) := by
  unfold sdnvStep
  simp only
  split
  · trivial
  split
  · split
    · trivial
    · rename_i h
      rw [List.append_assoc]
      exact hdone _ _ _ h0 ((decode_whole _ _).1 ⟨Prod.ext rfl (not_not.1 h), by simp⟩)
  · rw [List.append_assoc]
    exact hph _ _ h0

theorem isExts_snoc {p q : Bytes} {xs : List Ext} {tag : UInt8} {v : Bytes} (h : IsExts p xs)
    (hq : IsSdnv64 q v.length) : IsExts (p ++ [tag] ++ q ++ v) (xs ++ [⟨tag, v⟩]) := by
  induction h with
  | nil =>
    have := IsExts.cons (x := ⟨tag, v⟩) hq .nil
    simpa using this
  | cons h1 h2 ih =>
    have := IsExts.cons h1 ih
    simpa [List.append_assoc] using this

theorem isHead_snoc {w q v : Bytes} {h : Head} {tag : UInt8} (hh : IsHead w h) (hq : IsSdnv64 q v.length) :
    IsHead (w ++ [tag] ++ q ++ v) { h with exts := h.exts ++ [⟨tag, v⟩] } := by
  obtain ⟨s, x, n, rfl, h1, h2, h3, h4, h5⟩ := hh
  exact ⟨s, x ++ [tag] ++ q ++ v, n, by simp, h1, h2, h3, h4, isExts_snoc h5 hq⟩

theorem good_headerExtDone {w q v : Bytes} {h : Head} {tag : UInt8} (hh : IsHead w h)
    (hl : h.exts.length < h.numHeader) (hq : IsSdnv64 q v.length) :
    Good (w ++ [tag] ++ q ++ v) (headerExtDone h ⟨tag, v⟩) := by
  have := isHead_snoc (tag := tag) hh hq
  unfold headerExtDone
  simp only
  split
  · exact ⟨this, by assumption⟩
  · rename_i hne
    refine ⟨this, ?_⟩
    simp only [List.length_append, List.length_cons, List.length_nil] at hne ⊢
    omega

theorem good_finish {w p : Bytes} {h : Head} {lent : Bool} {c : Content} (hf : Full w h)
    (hc : IsContent h.flags p c) : Good (w ++ p) (finish h lent c) := by
  unfold finish
  split
  · exact ⟨w, p, [], by simp, hf, ⟨c, hc, .inl rfl⟩, .nil, by simp; omega⟩
  · rename_i hn
    obtain ⟨⟨s, x, n, rfl, h1, h2, h3, h4, h5⟩, h6⟩ := hf
    refine ⟨_, ⟨h.flags, s, x, p, [], n, by simp, h1, h2, ?_, by simp, h5, hc, .nil⟩, .inl rfl⟩
    simp only [List.length_nil]
    omega

theorem lost_cases {flags : Nat} {p : Bytes} {c : Content} (h : IsContent flags p c) :
    c.lost = c ∨ ∃ flags m d, c = .data flags m (some d) := by
  cases h with
  | plainData _ _ _ => exact .inr ⟨_, _, _, rfl⟩
  | checkpoint _ _ _ => exact .inr ⟨_, _, _, rfl⟩
  | report => exact .inl rfl
  | reportAck => exact .inl rfl
  | cancelBySender => exact .inl rfl
  | cancelByReceiver => exact .inl rfl
  | cancelAckToSender => exact .inl rfl
  | cancelAckToReceiver => exact .inl rfl

theorem good_trailerExtDone {w q v : Bytes} {h : Head} {lent : Bool} {c : Content} {exts : List Ext} {tag : UInt8}
    (hh : InTrailer w h c exts) (hq : IsSdnv64 q v.length) :
    Good (w ++ [tag] ++ q ++ v) (trailerExtDone h lent c exts ⟨tag, v⟩) := by
  obtain ⟨w0, p, t, rfl, hf, hc, ht, hl⟩ := hh
  have ht' := isExts_snoc (tag := tag) ht hq
  unfold trailerExtDone
  simp only
  split
  · rename_i he
    obtain ⟨c', hc', hcc⟩ := hc
    obtain ⟨⟨s, x, n, rfl, h1, h2, h3, h4, h5⟩, h6⟩ := hf
    refine ⟨⟨h.id, h.exts, c', exts ++ [⟨tag, v⟩]⟩, ?_, ?_⟩
    · refine ⟨h.flags, s, x, p, t ++ [tag] ++ q ++ v, n, by simp, h1, h2, ?_, ?_, h5, hc', ht'⟩
      · simp only; omega
      · simp only; omega
    · rcases hcc with rfl | rfl
      · exact .inl rfl
      · rcases lost_cases hc' with hl' | ⟨flags, m, d, rfl⟩
        · rw [hl']; exact .inl rfl
        · exact .inr ⟨by simp, flags, m, d, rfl, rfl⟩
  · rename_i hne
    refine ⟨w0, p, t ++ [tag] ++ q ++ v, by simp, hf, hc, ht', ?_⟩
    simp only [List.length_append, List.length_cons, List.length_nil] at hne ⊢
    omega

theorem split_snoc {s p : Bytes} {vs : List Nat} {v : Nat} (h : Split s vs []) (hp : IsSdnv64 p v) :
    Split (s ++ p) (vs ++ [v]) [] := split_append h ((split_one p v).2 hp)

theorem claimNums_snoc (cs : List Claim) (c : Claim) : claimNums (cs ++ [c]) = claimNums cs ++ [c.offset, c.length] := by
  simp [claimNums]

theorem isData_content {h : Head} {m : Meta} {s d : Bytes} (hd : isData h.flags) (hs : Split s m.nums [])
    (hc : isCheckpoint h.flags = m.checkpoint.isSome) (hl : d.length = m.length) (h0 : d ≠ []) :
    IsContent h.flags (s ++ d) (.data h.flags m (some d)) := by
  obtain ⟨c, o, l, k⟩ := m
  have hs' := split_rest hs d
  simp only at hl hc
  subst hl
  cases k with
  | none =>
    refine .plainData ?_ h0 hs'
    simp only [isCheckpoint, Option.isSome_none, Bool.and_eq_false_iff, decide_eq_false_iff_not] at hc
    rcases hd with hd | hd <;> omega
  | some k =>
    refine .checkpoint ?_ h0 hs'
    simp only [isCheckpoint, Option.isSome_some, Bool.and_eq_true, decide_eq_true_iff] at hc
    omega

theorem ofNat_mod16 (b : UInt8) (hb : b.toNat / 16 = 0) : b = UInt8.ofNat (b.toNat % 16) := by
  have : b.toNat % 16 = b.toNat := by omega
  rw [this]
  simp

theorem good_step (w : Bytes) (p : Phase) (b : UInt8) (hw : Holds w p) : Good (w ++ [b]) (step p b) := by
  cases p with
  | control =>
    simp only [Holds] at hw
    subst hw
    simp only [step]
    split
    · trivial
    · rename_i hb
      refine ⟨[], ?_, Nat.mod_lt _ (by omega), .nil _, by simp⟩
      simpa using ofNat_mod16 b (not_not.1 hb)
  | session flags vals tmp =>
    obtain ⟨s, rfl, h1, h2, h3⟩ := hw
    simp only [step]
    refine good_sdnv (Base := fun w0 => ∃ s, w0 = UInt8.ofNat flags :: s ∧ Split s vals []) ?_ ?_ ⟨s, rfl, h2⟩
    · rintro _ tmp ⟨s, rfl, h⟩
      exact ⟨s, rfl, h1, h, h3⟩
    · rintro _ p v ⟨s, rfl, h⟩ hp
      rcases vals with _ | ⟨e, _ | ⟨_, _⟩⟩
      · exact ⟨s ++ p, by simp, h1, split_snoc h hp, by simp⟩
      · exact ⟨s ++ p, by simp, h1, split_snoc h hp⟩
      · simp only [List.length_cons] at h3; omega
  | counts flags id =>
    obtain ⟨s, rfl, h1, h2⟩ := hw
    have hb := b.toNat_lt
    have hh : IsHead (UInt8.ofNat flags :: s ++ [b]) ⟨flags, id, b.toNat / 16, b.toNat % 16, []⟩ :=
      ⟨s, [], b, by simp, h1, h2, by simp only; omega, by simp only; omega, .nil⟩
    simp only [step]
    split
    · exact ⟨hh, by simp only [List.length_nil]; omega⟩
    · exact ⟨hh, by simp only [List.length_nil]; omega⟩
  | headerTag h =>
    exact ⟨w, by simp, hw.1, hw.2⟩
  | headerLen h tag tmp =>
    obtain ⟨w0, rfl, h1, h2⟩ := hw
    simp only [step]
    refine good_sdnv (Base := fun w1 => ∃ w0, w1 = w0 ++ [tag] ∧ IsHead w0 h) ?_ ?_ ⟨w0, rfl, h1⟩
    · rintro _ tmp ⟨w0, rfl, h⟩
      exact ⟨w0, rfl, h, h2⟩
    · rintro _ p v ⟨w0, rfl, hh⟩ hp
      split
      · rename_i hv
        have := good_headerExtDone (tag := tag) (v := []) hh h2 (by simpa [hv] using hp)
        simpa using this
      · exact ⟨w0, p, by simp, hh, h2, hp, by simp; omega⟩
  | headerValue h tag len got =>
    obtain ⟨w0, q, rfl, h1, h2, h3, h4⟩ := hw
    simp only [step]
    split
    · rename_i hl
      have := good_headerExtDone (tag := tag) (v := got ++ [b]) h1 h2 (by rw [hl]; exact h3)
      simpa using this
    · rename_i hl
      refine ⟨w0, q, by simp, h1, h2, h3, ?_⟩
      simp only [List.length_append, List.length_cons, List.length_nil] at hl ⊢
      omega
  | dataNums h vals tmp =>
    obtain ⟨w0, s, rfl, h1, h2, h3, h4, h5⟩ := hw
    simp only [step]
    refine good_sdnv (Base := fun w1 => ∃ w0 s, w1 = w0 ++ s ∧ Full w0 h ∧ Split s vals []) ?_ ?_ ⟨w0, s, rfl, h1, h3⟩
    · rintro _ tmp ⟨w0, s, rfl, h, h'⟩
      exact ⟨w0, s, rfl, h, h2, h', h4, h5⟩
    · rintro _ p v ⟨w0, s, rfl, hh, hs⟩ hp
      have hs' := split_snoc hs hp
      rcases vals with _ | ⟨a, _ | ⟨c, _ | ⟨d, _ | ⟨e, _ | ⟨f, _⟩⟩⟩⟩⟩
      · exact ⟨w0, s ++ p, by simp, hh, h2, hs', by simp, by simp⟩
      · exact ⟨w0, s ++ p, by simp, hh, h2, hs', by simp, by simp⟩
      · simp only [dataNext]
        split
        · trivial
        · rename_i hv
          split
          · rename_i hc
            exact ⟨w0, s ++ p, by simp, hh, h2, hs', by simp, fun _ => ⟨hc, by simpa using hv⟩⟩
          · rename_i hc
            exact ⟨w0, s ++ p, by simp, hh, h2, hs', by simpa using hc, by simp; omega⟩
      · have := h5 (by simp)
        exact ⟨w0, s ++ p, by simp, hh, h2, hs', by simp, fun _ => ⟨this.1, by simpa using this.2⟩⟩
      · have := h5 (by simp)
        refine ⟨w0, s ++ p, by simp, hh, h2, hs', by simpa using this.1, ?_⟩
        have := this.2
        simp at this ⊢
        omega
      · simp only [List.length_cons] at h4; omega
  | dataBytes h m got =>
    obtain ⟨w0, s, rfl, h1, h2, h3, h4, h5⟩ := hw
    simp only [step]
    split
    · rename_i hl
      have := good_finish (lent := false) h1 (isData_content h2 h3 h4 hl (by simp))
      simpa using this
    · rename_i hl
      refine ⟨w0, s, by simp, h1, h2, h3, h4, ?_⟩
      simp only [List.length_append, List.length_cons, List.length_nil] at hl ⊢
      omega
  | reportNums h vals tmp =>
    obtain ⟨w0, s, rfl, h1, h2, h3, h4⟩ := hw
    simp only [step]
    refine good_sdnv (Base := fun w1 => ∃ w0 s, w1 = w0 ++ s ∧ Full w0 h ∧ Split s vals []) ?_ ?_ ⟨w0, s, rfl, h1, h3⟩
    · rintro _ tmp ⟨w0, s, rfl, h, h'⟩
      exact ⟨w0, s, rfl, h, h2, h', h4⟩
    · rintro _ p v ⟨w0, s, rfl, hh, hs⟩ hp
      have hs' := split_snoc hs hp
      rcases vals with _ | ⟨a, _ | ⟨c, _ | ⟨d, _ | ⟨e, _ | ⟨f, _⟩⟩⟩⟩⟩
      · exact ⟨w0, s ++ p, by simp, hh, h2, hs', by simp⟩
      · exact ⟨w0, s ++ p, by simp, hh, h2, hs', by simp⟩
      · exact ⟨w0, s ++ p, by simp, hh, h2, hs', by simp⟩
      · exact ⟨w0, s ++ p, by simp, hh, h2, hs', by simp⟩
      · simp only [reportNext]
        split
        · trivial
        · exact ⟨w0 ++ s ++ p, by simp, w0, s ++ p, by simp, hh, h2, by simp; omega, by simp, by simpa [claimNums] using hs'⟩
      · simp only [List.length_cons] at h4; omega
  | claimOffset h r count claims tmp =>
    obtain ⟨w1, rfl, h1⟩ := hw
    simp only [step]
    refine good_sdnv (Base := fun w1 => InClaims w1 h r count claims []) ?_ ?_ h1
    · exact fun w1 tmp h => ⟨w1, rfl, h⟩
    · rintro _ p v ⟨w0, s, rfl, a1, a2, a3, a4, a5⟩ hp
      refine ⟨w0 ++ s ++ p, by simp, w0, s ++ p, by simp, a1, a2, a3, a4, ?_⟩
      have := split_snoc a5 hp
      simpa using this
  | claimLength h r count claims offset tmp =>
    obtain ⟨w1, rfl, h1⟩ := hw
    simp only [step]
    refine good_sdnv (Base := fun w1 => InClaims w1 h r count claims [offset]) ?_ ?_ h1
    · exact fun w1 tmp h => ⟨w1, rfl, h⟩
    · rintro _ p v ⟨w0, s, rfl, a1, a2, a3, a4, a5⟩ hp
      have hs := split_snoc a5 hp
      have hs' : Split (s ++ p) ([r.reportSerial, r.checkpointSerial, r.upper, r.lower, count] ++
          claimNums (claims ++ [⟨offset, v⟩])) [] := by
        rw [claimNums_snoc]
        simpa using hs
      unfold claimNext
      split
      · trivial
      · rename_i hv
        have hz : ∀ c ∈ claims ++ [(⟨offset, v⟩ : Claim)], c.length ≠ 0 := by
          intro c hc
          rcases List.mem_append.1 hc with hc | hc
          · exact a4 c hc
          · rw [List.mem_singleton.1 hc]; exact hv
        simp only
        split
        · rename_i hl
          exact ⟨w0 ++ s ++ p, by simp, w0, s ++ p, by simp, a1, a2, hl, hz, by simpa using hs'⟩
        · rename_i hl
          rw [List.append_assoc]
          refine good_finish a1 ?_
          rw [a2]
          refine .report (by simp) hz ?_
          have : (claims ++ [(⟨offset, v⟩ : Claim)]).length = count := by
            simp only [List.length_append, List.length_cons, List.length_nil] at hl ⊢
            omega
          rw [this]
          exact hs'
  | ackNum h tmp =>
    obtain ⟨w0, rfl, h1, h2⟩ := hw
    simp only [step]
    refine good_sdnv (Base := fun w0 => Full w0 h) ?_ ?_ h1
    · exact fun w0 tmp h => ⟨w0, rfl, h, h2⟩
    · intro w0 p v hh hp
      exact good_finish hh (by rw [h2]; exact .reportAck hp)
  | cancelByte h =>
    obtain ⟨h1, h2⟩ := hw
    simp only [step]
    refine good_finish h1 ?_
    rcases h2 with h2 | h2
    · rw [h2]; exact .cancelBySender
    · rw [h2]; exact .cancelByReceiver
  | trailerTag h lent c exts =>
    exact ⟨w, by simp, hw⟩
  | trailerLen h lent c exts tag tmp =>
    obtain ⟨w1, rfl, h1⟩ := hw
    simp only [step]
    refine good_sdnv (Base := fun w2 => ∃ w1, w2 = w1 ++ [tag] ∧ InTrailer w1 h c exts) ?_ ?_ ⟨w1, rfl, h1⟩
    · rintro _ tmp ⟨w1, rfl, h⟩
      exact ⟨w1, rfl, h⟩
    · rintro _ p v ⟨w1, rfl, hh⟩ hp
      split
      · rename_i hv
        have := good_trailerExtDone (tag := tag) (v := []) (lent := lent) hh (by simpa [hv] using hp)
        simpa using this
      · exact ⟨w1, p, by simp, hh, hp, by simp; omega⟩
  | trailerValue h lent c exts tag len got =>
    obtain ⟨w1, q, rfl, h1, h2, h3⟩ := hw
    simp only [step]
    split
    · rename_i hl
      have := good_trailerExtDone (tag := tag) (v := got ++ [b]) (lent := lent) h1 (by rw [hl]; exact h2)
      simpa using this
    · rename_i hl
      refine ⟨w1, q, by simp, h1, h2, ?_⟩
      simp only [List.length_append, List.length_cons, List.length_nil] at hl ⊢
      omega

/-- The contents begin. -/
theorem good_content {w : Bytes} {h : Head} (hf : Full w h) : Good w (startContent h []).1 := by
  unfold startContent
  split
  · rename_i hc
    have hl : h.flags < 16 := by
      obtain ⟨⟨_, _, _, _, h1, _⟩, _⟩ := hf
      exact h1
    have h13 : h.flags = 13 ∨ h.flags = 15 := by
      have : ∀ k < 16, isCancelAck k = true → k = 13 ∨ k = 15 := by decide
      exact this _ hl hc
    have := good_finish (lent := false) (p := []) (c := .cancelAck (h.flags = 13)) hf (by
      rcases h13 with h13 | h13
      · rw [h13]; exact .cancelAckToSender
      · rw [h13]; exact .cancelAckToReceiver)
    simpa using this
  split
  · trivial
  rename_i hn
  split
  · rename_i h7
    have hd : isData h.flags := by unfold isData; omega
    unfold dataShortcut
    rw [batch_nil]
    exact ⟨w, [], by simp, hf, hd, .nil _, by simp, by simp⟩
  split
  · rename_i h8
    unfold reportShortcut
    rw [batch_nil]
    exact ⟨w, [], by simp, hf, h8, .nil _, by simp⟩
  split
  · rename_i h9
    exact ⟨w, by simp, hf, h9⟩
  · rename_i hc h7 h8 h9
    have hl : h.flags < 16 := by
      obtain ⟨⟨_, _, _, _, h1, _⟩, _⟩ := hf
      exact h1
    have : ∀ k < 16, ¬ isCancelAck k = true → k ≠ 13 ∧ k ≠ 15 := by decide
    have := this _ hl hc
    exact ⟨hf, by omega⟩

theorem good_slowStep (w : Bytes) (p : Phase) (b : UInt8) (hw : Holds w p) : Good (w ++ [b]) (slowStep p b) := by
  have := good_step w p b hw
  unfold slowStep
  cases hs : step p b with
  | content h => rw [hs] at this; exact good_content this
  | fail => trivial
  | next q => rw [hs] at this; exact this
  | emit e => rw [hs] at this; exact this

/-- The stream consists of segments reported by `es`, a part read in state `p`, and `buf`. -/
def Pos (stream : Bytes) (es : List Event) (p : Phase) (buf : Bytes) : Prop :=
  ∃ ws w, stream = ws.flatten ++ w ++ buf ∧ List.Forall₂ Reports ws es ∧ Holds w p

theorem forall2_snoc {α β : Type} {R : α → β → Prop} {as : List α} {bs : List β} {a : α} {b : β}
    (h : List.Forall₂ R as bs) (hr : R a b) : List.Forall₂ R (as ++ [a]) (bs ++ [b]) := by
  induction h with
  | nil => exact .cons hr .nil
  | cons h _ ih => exact .cons h ih

theorem Pos.silent {stream a b : Bytes} {es : List Event} {p q : Phase} (hs : Silent p a q b)
    (h : Pos stream es p a) : Pos stream es q b := by
  induction hs with
  | refl => exact h
  | @next p q _ c rest _ h1 _ ih =>
    apply ih
    obtain ⟨ws, w, rfl, h2, h3⟩ := h
    have := good_slowStep w p c h3
    rw [h1] at this
    exact ⟨ws, w ++ [c], by simp, h2, this⟩

theorem Pos.emit {stream a b : Bytes} {es : List Event} {p : Phase} {e : Event} (hs : Reach p a (.emit e) b)
    (h : Pos stream es p a) : Pos stream (es ++ [e]) .control b := by
  obtain ⟨q, c, h1, h2⟩ := hs
  obtain ⟨ws, w, rfl, h3, h4⟩ := h.silent h1
  have := good_slowStep w q c h4
  rw [h2] at this
  exact ⟨ws ++ [w ++ [c]], [], by simp, forall2_snoc h3 this, rfl⟩

theorem reports_seg {ws : List Bytes} {es : List Event} (h : List.Forall₂ Reports ws es) :
    ∃ fs, List.Forall₂ IsSegment ws fs ∧ List.Forall₂ Agrees es fs := by
  induction h with
  | nil => exact ⟨[], .nil, .nil⟩
  | cons h _ ih =>
    obtain ⟨fs, h1, h2⟩ := ih
    obtain ⟨f, h3, h4⟩ := h
    exact ⟨f :: fs, .cons h3 h1, .cons h4 h2⟩

/-- The numbers behind a complete header of a report. -/
theorem Pos.announces {stream rest rest' : Bytes} {es : List Event} {w : Bytes} {ws : List Bytes} {h : Head}
    {a b c d n : Nat} (hst : stream = ws.flatten ++ w ++ rest) (hw : List.Forall₂ Reports ws es) (hf : Full w h)
    (h8 : h.flags = 8) (hs : Split rest [a, b, c, d, n] rest') : Announces stream n := by
  obtain ⟨fs, h1, -⟩ := reports_seg hw
  obtain ⟨⟨s, x, k, rfl, h2, h3, h4, h5, h6⟩, h7⟩ := hf
  obtain ⟨p, r, rfl, h9, h10⟩ := split_unappend (vs := [a, b, c, d, n]) (ws := []) (by simpa using hs)
  rw [split_nil_iff] at h10
  subst h10
  refine ⟨ws, fs, s, x, p, r, k, _, _, a, b, c, d, h.exts, ?_, h1, h3, ?_, h6, h9⟩
  · rw [hst, h8]
    simp
  · omega

end Hdtn.LtpWire
