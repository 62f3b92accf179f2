import Verif.LtpWire.Chunks

/-! Every segment is read. -/

namespace Hdtn.LtpWire

open Spec Hdtn.Sdnv Hdtn.Sdnv.Spec Hdtn.LtpReport

theorem Reach.then {p q : Phase} {a b c : Bytes} {r : Res} (h : Reach p a (.next q) b) (h' : Reach q b r c) :
    Reach p a r c := Reach.before h.next h'

theorem silent_session {flags : Nat} (hf : flags < 16) {s : Bytes} {e n : Nat} (hs : Split s [e, n] []) (rest : Bytes) :
    Silent .control (UInt8.ofNat flags :: s ++ rest) (.counts flags ⟨e, n⟩) rest := by
  simp only [split_cons_iff, split_nil_iff] at hs
  obtain ⟨p, _, rfl, hp, q, _, rfl, hq, rfl⟩ := hs
  have h0 : slowStep .control (UInt8.ofNat flags) = .next (.session flags [] []) := by
    have h1 : (UInt8.ofNat flags).toNat = flags := by
      rw [UInt8.toNat_ofNat_of_lt']; exact Nat.lt_of_lt_of_le hf (by decide)
    have h2 : ¬ flags / 16 ≠ 0 := by omega
    have h3 : flags % 16 = flags := Nat.mod_eq_of_lt hf
    simp only [slowStep, step, h1, h2, if_false, h3]
  have h1 := reach_number (reads_session flags []) hp (q ++ rest)
  have h2 := reach_number (reads_session flags [e]) hq rest
  have h3 := (Silent.one (rest := p ++ (q ++ rest)) h0).trans ((Reach.next h1).trans (Reach.next h2))
  simpa using h3

theorem slowStep_resolve (p : Phase) (b : UInt8) : slowStep p b = (step p b).resolve := by
  unfold slowStep
  cases step p b <;> rfl

theorem nil_or_snoc (l : Bytes) : l = [] ∨ ∃ d b, l = d ++ [b] := by
  rcases List.eq_nil_or_concat l with h | ⟨d, b, h⟩
  · exact .inl h
  · exact .inr ⟨d, b, by rw [h, List.concat_eq_append]⟩

/-- The last step of a sequence. -/
theorem Silent.last {p q : Phase} {a b : Bytes} (hs : Silent p a q b) : a = b ∨ Reach p a (.next q) b := by
  induction hs with
  | refl => exact .inl rfl
  | @next p q1 q2 x xs ys hst hrest ih =>
    right
    cases hrest with
    | refl => exact ⟨p, x, .refl _ _, hst⟩
    | next h1 h2 =>
      rcases ih with ih | ih
      · obtain ⟨w, hw⟩ := h2.suffix
        have := congrArg List.length ih
        rw [hw] at this
        simp only [List.length_cons, List.length_append] at this
        omega
      · exact Reach.before (.one hst) ih

theorem slowStep_content {p : Phase} {b : UInt8} {h : Head} (hs : step p b = .content h) :
    slowStep p b = (startContent h []).1 := by
  simp only [slowStep, hs]

theorem reads_headerLen (h : Head) (tag : UInt8) : Reads (.headerLen h tag) fun v =>
    if v = 0 then headerExtDone h ⟨tag, []⟩ else .next (.headerValue h tag v []) := fun _ _ => rfl

theorem reads_trailerLen (h : Head) (lent : Bool) (c : Content) (exts : List Ext) (tag : UInt8) :
    Reads (.trailerLen h lent c exts tag) fun v =>
      if v = 0 then trailerExtDone h lent c exts ⟨tag, []⟩ else .next (.trailerValue h lent c exts tag v []) :=
  fun _ _ => rfl

theorem silent_headerValue (h : Head) (tag : UInt8) (len : Nat) (d : Bytes) : ∀ (got rest : Bytes),
    got.length + d.length < len →
    Silent (.headerValue h tag len got) (d ++ rest) (.headerValue h tag len (got ++ d)) rest := by
  induction d with
  | nil => intro got rest _; simpa using Silent.refl _ _
  | cons c d ih =>
    intro got rest hl
    simp only [List.length_cons] at hl
    refine .next (q := .headerValue h tag len (got ++ [c])) ?_ ?_
    · simp only [slowStep, step]
      rw [if_neg (by simp only [List.length_append, List.length_cons, List.length_nil]; omega)]
    · have := ih (got ++ [c]) rest (by simp only [List.length_append, List.length_cons, List.length_nil]; omega)
      simpa using this

theorem silent_trailerValue (h : Head) (lent : Bool) (c : Content) (exts : List Ext) (tag : UInt8) (len : Nat)
    (d : Bytes) : ∀ (got rest : Bytes), got.length + d.length < len →
    Silent (.trailerValue h lent c exts tag len got) (d ++ rest)
      (.trailerValue h lent c exts tag len (got ++ d)) rest := by
  induction d with
  | nil => intro got rest _; simpa using Silent.refl _ _
  | cons x d ih =>
    intro got rest hl
    simp only [List.length_cons] at hl
    refine .next (q := .trailerValue h lent c exts tag len (got ++ [x])) ?_ ?_
    · simp only [slowStep, step]
      rw [if_neg (by simp only [List.length_append, List.length_cons, List.length_nil]; omega)]
    · have := ih (got ++ [x]) rest (by simp only [List.length_append, List.length_cons, List.length_nil]; omega)
      simpa using this

/-- One header extension. -/
theorem reach_headerExt (h : Head) (x : Ext) {q : Bytes} (hq : IsSdnv64 q x.value.length) (rest : Bytes) :
    Reach (.headerTag h) (x.tag :: (q ++ (x.value ++ rest))) (headerExtDone h x).resolve rest := by
  have h0 : Silent (.headerTag h) (x.tag :: (q ++ (x.value ++ rest))) (.headerLen h x.tag []) (q ++ (x.value ++ rest)) :=
    .one rfl
  refine Reach.before h0 ?_
  have h1 := reach_number (reads_headerLen h x.tag) hq (x.value ++ rest)
  obtain ⟨tag, value⟩ := x
  simp only at *
  rcases nil_or_snoc value with rfl | ⟨d, b, rfl⟩
  · simpa using h1
  · rw [if_neg (by simp)] at h1
    refine Reach.then h1 (Reach.before (q := .headerValue h tag (d ++ [b]).length d) (b := b :: rest) ?_ ?_)
    · have := silent_headerValue h tag (d ++ [b]).length d [] (b :: rest) (by simp)
      simpa using this
    · refine ⟨_, b, .refl _ _, ?_⟩
      rw [slowStep_resolve]
      simp only [step, if_true]

/-- One trailer extension. -/
theorem reach_trailerExt (h : Head) (lent : Bool) (c : Content) (exts : List Ext) (x : Ext) {q : Bytes}
    (hq : IsSdnv64 q x.value.length) (rest : Bytes) :
    Reach (.trailerTag h lent c exts) (x.tag :: (q ++ (x.value ++ rest))) (trailerExtDone h lent c exts x) rest := by
  have hres : ∀ x, (trailerExtDone h lent c exts x).resolve = trailerExtDone h lent c exts x := by
    intro x
    unfold trailerExtDone
    simp only
    split <;> rfl
  have h0 : Silent (.trailerTag h lent c exts) (x.tag :: (q ++ (x.value ++ rest))) (.trailerLen h lent c exts x.tag [])
      (q ++ (x.value ++ rest)) := .one rfl
  refine Reach.before h0 ?_
  have h1 := reach_number (reads_trailerLen h lent c exts x.tag) hq (x.value ++ rest)
  obtain ⟨tag, value⟩ := x
  simp only at *
  rcases nil_or_snoc value with rfl | ⟨d, b, rfl⟩
  · rw [← hres]
    simpa using h1
  · rw [if_neg (by simp)] at h1
    refine Reach.then h1 (Reach.before (q := .trailerValue h lent c exts tag (d ++ [b]).length d) (b := b :: rest) ?_ ?_)
    · have := silent_trailerValue h lent c exts tag (d ++ [b]).length d [] (b :: rest) (by simp)
      simpa using this
    · refine ⟨_, b, .refl _ _, ?_⟩
      rw [slowStep_resolve]
      simp only [step, if_true, hres]

theorem reach_header {x : Bytes} {xs : List Ext} (hx : IsExts x xs) : ∀ (h : Head) (rest : Bytes), xs ≠ [] →
    h.exts.length + xs.length = h.numHeader →
    Reach (.headerTag h) (x ++ rest) (startContent { h with exts := h.exts ++ xs } []).1 rest := by
  induction hx with
  | nil => intro h rest h0; exact absurd rfl h0
  | @cons q p x xs h1 h2 ih =>
    intro h rest _ hl
    simp only [List.length_cons] at hl
    have h3 := reach_headerExt h x h1 (p ++ rest)
    simp only [List.cons_append, List.append_assoc]
    unfold headerExtDone at h3
    simp only [List.length_append, List.length_cons, List.length_nil] at h3
    cases xs with
    | nil =>
      simp only [List.length_nil] at hl
      rw [if_pos (by omega)] at h3
      cases h2
      exact h3
    | cons y ys =>
      simp only [List.length_cons] at hl
      rw [if_neg (by omega)] at h3
      have := ih { h with exts := h.exts ++ [x] } rest (by simp)
        (by simp only [List.length_append, List.length_cons, List.length_nil]; omega)
      simp only [List.append_assoc, List.cons_append, List.nil_append] at this
      exact Reach.then h3 this

theorem reach_trailer {t : Bytes} {xs : List Ext} (hx : IsExts t xs) : ∀ (h : Head) (c : Content) (exts : List Ext)
    (rest : Bytes), xs ≠ [] → exts.length + xs.length = h.numTrailer →
    Reach (.trailerTag h false c exts) (t ++ rest) (.emit ⟨h.id, h.exts, c, exts ++ xs⟩) rest := by
  induction hx with
  | nil => intro h c exts rest h0; exact absurd rfl h0
  | @cons q p x xs h1 h2 ih =>
    intro h c exts rest _ hl
    simp only [List.length_cons] at hl
    have h3 := reach_trailerExt h false c exts x h1 (p ++ rest)
    simp only [List.cons_append, List.append_assoc]
    unfold trailerExtDone at h3
    simp only [List.length_append, List.length_cons, List.length_nil] at h3
    cases xs with
    | nil =>
      simp only [List.length_nil] at hl
      rw [if_pos (by omega)] at h3
      cases h2
      exact h3
    | cons y ys =>
      simp only [List.length_cons] at hl
      rw [if_neg (by omega)] at h3
      have := ih h c (exts ++ [x]) rest (by simp)
        (by simp only [List.length_append, List.length_cons, List.length_nil]; omega)
      simp only [List.append_assoc, List.cons_append, List.nil_append] at this
      exact Reach.then h3 this

/-- Control byte, session, counts and header extensions. -/
theorem reach_head {flags : Nat} (hf : flags < 16) {s x : Bytes} {e k : Nat} {n : UInt8} {xs : List Ext}
    (hs : Split s [e, k] []) (hn : n.toNat / 16 = xs.length) (hx : IsExts x xs) (rest : Bytes) :
    Reach .control (UInt8.ofNat flags :: (s ++ n :: (x ++ rest)))
      (startContent ⟨flags, ⟨e, k⟩, xs.length, n.toNat % 16, xs⟩ []).1 rest := by
  have h1 := silent_session hf hs (n :: (x ++ rest))
  refine Reach.before h1 ?_
  cases xs with
  | nil =>
    cases hx
    refine ⟨_, n, .refl _ _, ?_⟩
    apply slowStep_content
    simp only [List.length_nil] at hn
    simp [step, hn]
  | cons y ys =>
    refine Reach.then (q := .headerTag ⟨flags, ⟨e, k⟩, (y :: ys).length, n.toNat % 16, []⟩) (b := x ++ rest) ?_ ?_
    · refine ⟨_, n, .refl _ _, ?_⟩
      simp only [slowStep, step, hn]
      rw [if_pos (by simp)]
    · have := reach_header hx ⟨flags, ⟨e, k⟩, (y :: ys).length, n.toNat % 16, []⟩ rest (by simp) (by simp)
      simpa using this

theorem silent_report {h : Head} {a b c d n : Nat} {p : Bytes} (hs : Split p [a, b, c, d, n] []) (hn : n ≠ 0)
    (rest : Bytes) : Silent (.reportNums h [] []) (p ++ rest) (.claimOffset h ⟨a, b, c, d⟩ n [] []) rest := by
  simp only [split_cons_iff, split_nil_iff] at hs
  obtain ⟨p1, _, rfl, h1, p2, _, rfl, h2, p3, _, rfl, h3, p4, _, rfl, h4, p5, _, rfl, h5, rfl⟩ := hs
  have g1 := reach_number (reads_report h []) h1 (p2 ++ (p3 ++ (p4 ++ (p5 ++ rest))))
  have g2 := reach_number (reads_report h [a]) h2 (p3 ++ (p4 ++ (p5 ++ rest)))
  have g3 := reach_number (reads_report h [a, b]) h3 (p4 ++ (p5 ++ rest))
  have g4 := reach_number (reads_report h [a, b, c]) h4 (p5 ++ rest)
  have g5 := reach_number (reads_report h [a, b, c, d]) h5 rest
  simp only [reportNext, hn, if_false, List.nil_append, List.cons_append] at g1 g2 g3 g4 g5
  simpa using (Reach.next g1).trans ((Reach.next g2).trans ((Reach.next g3).trans ((Reach.next g4).trans (Reach.next g5))))

theorem pairUp_claimNums (cs : List Claim) : pairUp (claimNums cs) = (cs, none) := by
  induction cs with
  | nil => rfl
  | cons c cs ih =>
    have : claimNums (c :: cs) = c.offset :: c.length :: claimNums cs := by simp [claimNums]
    rw [this, pairUp, ih]

theorem claimNums_length (cs : List Claim) : (claimNums cs).length = 2 * cs.length := by
  induction cs with
  | nil => rfl
  | cons c cs ih =>
    have : claimNums (c :: cs) = c.offset :: c.length :: claimNums cs := by simp [claimNums]
    rw [this, List.length_cons, List.length_cons, ih, List.length_cons]
    omega

theorem startContent_report {h : Head} (h8 : h.flags = 8) : (startContent h []).1 = .next (.reportNums h [] []) := by
  unfold startContent
  rw [h8]
  simp [isCancelAck, reportShortcut, batch_nil]

theorem startContent_data {h : Head} (hd : isData h.flags) : (startContent h []).1 = .next (.dataNums h [] []) := by
  have : ∀ k < 8, k ≤ 4 ∨ k = 7 → isCancelAck k = false ∧ ¬ (k = 5 ∨ k = 6 ∨ k = 10 ∨ k = 11) := by decide
  obtain ⟨h1, h2⟩ := this h.flags (by unfold isData at hd; omega) hd
  unfold startContent
  rw [h1, if_neg (by simp), if_neg h2, if_pos (by unfold isData at hd; omega)]
  simp [dataShortcut, batch_nil, dataAfter]

theorem reach_bytes (h : Head) (m : Meta) (d rest : Bytes) (h0 : d ≠ []) (hl : d.length = m.length) :
    Reach (.dataBytes h m []) (d ++ rest) (finish h false (.data h.flags m (some d))) rest := by
  rcases nil_or_snoc d with rfl | ⟨d', b, rfl⟩
  · exact absurd rfl h0
  · simp only [List.length_append, List.length_cons, List.length_nil] at hl
    have h1 := silent_bytes h m d' [] (b :: rest) (by simp only [List.length_nil]; omega)
    have h2 := reach_last h m d' rest b (by omega)
    rw [List.nil_append] at h1
    rw [List.append_assoc]
    exact Reach.before h1 h2

/-- The contents of a segment. -/
theorem reach_content {flags : Nat} {p : Bytes} {c : Content} (hc : IsContent flags p c) {h : Head}
    (hf : h.flags = flags) {P : Phase} {buf rest : Bytes}
    (hr : Reach P buf (startContent h []).1 (p ++ rest)) : Reach P buf (finish h false c) rest := by
  cases hc with
  | @plainData _ _ d c o h1 h2 h3 =>
    subst hf
    rw [startContent_data (by unfold isData; omega)] at hr
    refine Reach.then hr ?_
    have hck : isCheckpoint h.flags = false := by
      rcases h1 with h1 | h1 | h1 <;> rw [h1] <;> rfl
    simp only [split_cons_iff, split_nil_iff] at h3
    obtain ⟨p1, _, rfl, a1, p2, _, rfl, a2, p3, d', rfl, a3, hd'⟩ := h3
    rw [hd'] 
    have g1 := reach_number (reads_data h []) a1 (p2 ++ (p3 ++ (d ++ rest)))
    have g2 := reach_number (reads_data h [c]) a2 (p3 ++ (d ++ rest))
    have g3 := reach_number (reads_data h [c, o]) a3 (d ++ rest)
    have hne : ¬ d.length = 0 := fun h => h2 (List.eq_nil_of_length_eq_zero h)
    simp only [dataNext, hne, if_false, hck, Bool.false_eq_true] at g1 g2 g3
    simp only [List.append_assoc]
    exact Reach.then g1 (Reach.then g2 (Reach.then g3 (reach_bytes h _ d rest h2 rfl)))
  | @checkpoint _ _ d c o k r h1 h2 h3 =>
    subst hf
    rw [startContent_data (by unfold isData; omega)] at hr
    refine Reach.then hr ?_
    have hck : isCheckpoint h.flags = true := by
      rcases h1 with h1 | h1 | h1 <;> rw [h1] <;> rfl
    simp only [split_cons_iff, split_nil_iff] at h3
    obtain ⟨p1, _, rfl, a1, p2, _, rfl, a2, p3, _, rfl, a3, p4, _, rfl, a4, p5, d', rfl, a5, hd'⟩ := h3
    rw [hd']
    have g1 := reach_number (reads_data h []) a1 (p2 ++ (p3 ++ (p4 ++ (p5 ++ (d ++ rest)))))
    have g2 := reach_number (reads_data h [c]) a2 (p3 ++ (p4 ++ (p5 ++ (d ++ rest))))
    have g3 := reach_number (reads_data h [c, o]) a3 (p4 ++ (p5 ++ (d ++ rest)))
    have g4 := reach_number (reads_data h [c, o, d.length]) a4 (p5 ++ (d ++ rest))
    have g5 := reach_number (reads_data h [c, o, d.length, k]) a5 (d ++ rest)
    have hne : ¬ d.length = 0 := fun h => h2 (List.eq_nil_of_length_eq_zero h)
    simp only [dataNext, hne, if_false, hck, if_true] at g1 g2 g3 g4 g5
    simp only [List.append_assoc]
    exact Reach.then g1 (Reach.then g2 (Reach.then g3 (Reach.then g4 (Reach.then g5
      (reach_bytes h _ d rest h2 rfl)))))
  | @report _ r cs h1 h2 h3 =>
    rw [startContent_report hf] at hr
    refine Reach.then hr ?_
    obtain ⟨p1, p2, rfl, a1, a2⟩ := split_unappend h3
    have hne : cs.length ≠ 0 := fun h => h1 (List.eq_nil_of_length_eq_zero h)
    rw [List.append_assoc]
    refine Reach.before (silent_report a1 hne (p2 ++ rest)) ?_
    have hg := goes_claims h r cs.length (claimNums cs) [] (p2 ++ rest) rest (by simp; omega)
      (by rw [claimNums_length]; simp) (split_rest a2 rest)
    have e : claimRes h r cs.length [] (claimNums cs) = finish h false (.report r cs) := by
      unfold claimRes
      rw [pairUp_claimNums, claimNums_length]
      have : ¬ (cs.any (fun c => c.length = 0)) = true := by
        simpa using h2
      simp [this]
    rw [e] at hg
    cases cs with
    | nil => exact absurd rfl h1
    | cons c cs =>
      cases hfin : finish h false (.report r (c :: cs)) with
      | fail => unfold finish at hfin; split at hfin <;> cases hfin
      | content h' => exact absurd hfin (finish_ne _ _ _ _)
      | emit e => rw [hfin] at hg; exact hg
      | next q =>
        rw [hfin] at hg
        have hs : Silent (.claimOffset h r (c :: cs).length [] []) (p2 ++ rest) q rest := hg
        rcases hs.last with h | h
        · exfalso
          have ec : claimNums (c :: cs) = c.offset :: c.length :: claimNums cs := by simp [claimNums]
          rw [ec, split_cons_iff] at a2
          obtain ⟨u, v, rfl, hu, -⟩ := a2
          have h1 := isSdnv64_ne_nil hu
          have h2 := congrArg List.length h
          simp only [List.length_append] at h2
          omega
        · exact h
  | reportAck h1 =>
    have : (startContent h []).1 = .next (.ackNum h []) := by
      unfold startContent
      rw [hf]
      simp [isCancelAck]
    rw [this] at hr
    refine Reach.then hr ?_
    have := reach_number (ph := .ackNum h) (done := fun v => finish h false (.reportAck v)) (fun _ _ => rfl) h1 rest
    rw [resolve_finish] at this
    exact this
  | @cancelBySender b =>
    have : (startContent h []).1 = .next (.cancelByte h) := by
      unfold startContent
      rw [hf]
      simp [isCancelAck]
    rw [this] at hr
    refine Reach.then hr ⟨_, b, .refl _ _, ?_⟩
    rw [slowStep_resolve]
    simp only [step, hf, decide_true, resolve_finish]
  | @cancelByReceiver b =>
    have : (startContent h []).1 = .next (.cancelByte h) := by
      unfold startContent
      rw [hf]
      simp [isCancelAck]
    rw [this] at hr
    refine Reach.then hr ⟨_, b, .refl _ _, ?_⟩
    rw [slowStep_resolve]
    simp only [step, hf, resolve_finish]
    rfl
  | cancelAckToSender =>
    have : (startContent h []).1 = finish h false (.cancelAck true) := by
      unfold startContent
      rw [hf]
      simp [isCancelAck]
    rw [this] at hr
    exact hr
  | cancelAckToReceiver =>
    have : (startContent h []).1 = finish h false (.cancelAck false) := by
      unfold startContent
      rw [hf]
      simp [isCancelAck]
    rw [this] at hr
    exact hr

/-- A segment is read. -/
theorem reach_segment {w : Bytes} {e : Event} (h : IsSegment w e) (rest : Bytes) :
    Reach .control (w ++ rest) (.emit e) rest := by
  obtain ⟨flags, s, x, p, t, n, rfl, hf, hs, hn, ht, hx, hc, htr⟩ := h
  have h1 := reach_head hf hs (n := n) (by omega) hx (p ++ (t ++ rest))
  have h2 := reach_content hc (h := ⟨flags, e.id, e.header.length, n.toNat % 16, e.header⟩) rfl h1
  have hn' : n.toNat % 16 = e.trailer.length := by omega
  simp only [List.cons_append, List.append_assoc]
  obtain ⟨id, header, content, trailer⟩ := e
  simp only at *
  unfold finish at h2
  simp only [hn'] at h2
  cases trailer with
  | nil =>
    rw [if_neg (by simp)] at h2
    cases htr
    exact h2
  | cons y ys =>
    rw [if_pos (by simp)] at h2
    refine Reach.then h2 ?_
    have := reach_trailer htr ⟨flags, id, header.length, n.toNat % 16, header⟩ content [] rest (by simp)
      (by simp [hn'])
    rw [hn'] at this
    simpa using this

theorem slow_segments {ws : List Bytes} {es : List Event} (h : List.Forall₂ IsSegment ws es) (rest : Bytes) :
    slow .control (ws.flatten ++ rest) = (es ++ (slow .control rest).1, (slow .control rest).2) := by
  induction h with
  | nil => rfl
  | @cons w e ws es h _ ih =>
    rw [List.flatten_cons, List.append_assoc, (reach_segment h _).slow]
    simp only [after, ih]
    rfl

/-! ### Announced claims -/

def bigEvent (e : Event) : Prop := ∃ r cs, e.content = .report r cs ∧ 2 ^ 31 ≤ cs.length

/-- A report with many claims is being read. -/
def Big : Phase → Prop
  | .claimOffset _ _ count _ _ => 2 ^ 31 ≤ count
  | .claimLength _ _ count _ _ _ => 2 ^ 31 ≤ count
  | .trailerTag _ _ c _ => ∃ r cs, c = .report r cs ∧ 2 ^ 31 ≤ cs.length
  | .trailerLen _ _ c _ _ _ => ∃ r cs, c = .report r cs ∧ 2 ^ 31 ≤ cs.length
  | .trailerValue _ _ c _ _ _ _ => ∃ r cs, c = .report r cs ∧ 2 ^ 31 ≤ cs.length
  | _ => False

def BigRes : Res → Prop
  | .fail => True
  | .next q => Big q
  | .emit e => bigEvent e
  | .content _ => False

theorem big_sdnv {tmp : Bytes} {b : UInt8} {ph : Bytes → Phase} {done : Nat → Res} (h1 : ∀ t, Big (ph t))
    (h2 : ∀ v, BigRes (done v)) : BigRes (sdnvStep tmp b ph done) := by
  unfold sdnvStep
  simp only
  split
  · trivial
  split
  · split
    · trivial
    · exact h2 _
  · exact h1 _

theorem big_trailer {h : Head} {lent : Bool} {c : Content} {exts : List Ext} {x : Ext}
    (hc : ∃ r cs, c = .report r cs ∧ 2 ^ 31 ≤ cs.length) : BigRes (trailerExtDone h lent c exts x) := by
  unfold trailerExtDone
  simp only
  split
  · exact hc
  · exact hc

theorem big_step {p : Phase} (hp : Big p) (b : UInt8) : BigRes (step p b) := by
  cases p with
  | claimOffset h r count claims tmp =>
    simp only [step]
    exact big_sdnv (fun _ => hp) (fun _ => hp)
  | claimLength h r count claims offset tmp =>
    simp only [step]
    refine big_sdnv (fun _ => hp) fun v => ?_
    unfold claimNext
    split
    · trivial
    · simp only
      split
      · exact hp
      · rename_i hl
        have h2 : 2 ^ 31 ≤ (claims ++ [(⟨offset, v⟩ : Claim)]).length := by
          simp only [Big] at hp
          omega
        unfold finish
        split
        · exact ⟨r, _, rfl, h2⟩
        · exact ⟨r, _, rfl, h2⟩
  | trailerTag h lent c exts => exact hp
  | trailerLen h lent c exts tag tmp =>
    simp only [step]
    refine big_sdnv (fun _ => hp) fun v => ?_
    split
    · exact big_trailer hp
    · exact hp
  | trailerValue h lent c exts tag len got =>
    simp only [step]
    split
    · exact big_trailer hp
    · exact hp
  | _ => exact hp.elim

theorem big_slow (buf : Bytes) : ∀ {p : Phase}, Big p → (∃ q, (slow p buf).2 = some q ∧ Big q) ∨
    (slow p buf).2 = none ∨ ∃ e ∈ (slow p buf).1, bigEvent e := by
  induction buf with
  | nil => intro p hp; exact .inl ⟨p, rfl, hp⟩
  | cons b rest ih =>
    intro p hp
    have := big_step hp b
    rw [slow_cons]
    unfold slowStep
    cases hs : step p b with
    | fail => exact .inr (.inl rfl)
    | content h => rw [hs] at this; exact this.elim
    | next q => rw [hs] at this; exact ih this
    | emit e => rw [hs] at this; exact .inr (.inr ⟨e, by simp [after], this⟩)

/-- A sequence of reports with fewer than 2^31 claims announces fewer. -/
theorem modest_segments {ws : List Bytes} {es : List Event} (h : List.Forall₂ IsSegment ws es)
    (hc : ∀ e ∈ es, ∀ r cs, e.content = .report r cs → cs.length < 2 ^ 31) : Modest ws.flatten := by
  intro count hann
  by_contra hge
  have hge : 2 ^ 31 ≤ count := by omega
  obtain ⟨ws', es', s, x, p, rest, n, engine, number, a, b, c, d, header, h1, h2, h3, h4, h5, h6⟩ := hann
  have full := slow_segments h []
  rw [List.append_nil, h1, slow_segments h2] at full
  have h7 := reach_head (flags := 8) (by decide) h3 h4 h5 (p ++ rest)
  rw [startContent_report rfl] at h7
  have h8 := (Reach.next h7).trans (silent_report h6 (by omega) rest)
  have e8 : (UInt8.ofNat 8 : UInt8) = 8 := rfl
  rw [e8] at h8
  rw [h8.slow] at full
  have hb := big_slow rest (p := .claimOffset ⟨8, ⟨engine, number⟩, header.length, n.toNat % 16, header⟩ ⟨a, b, c, d⟩ count [] [])
    hge
  simp only [slow, List.append_nil, Prod.mk.injEq] at full
  obtain ⟨f1, f2⟩ := full
  rcases hb with ⟨q, h9, h10⟩ | h9 | ⟨e, h9, r, cs, h10, h11⟩
  · rw [f2] at h9
    cases h9
    exact h10
  · rw [f2] at h9
    cases h9
  · have := hc e (by rw [← f1]; exact List.mem_append_right _ h9) r cs h10
    omega

end Hdtn.LtpWire
