import Verif.LtpWire.Sound

/-! The loop over a buffer and over several buffers, compared with single steps. -/

namespace Hdtn.LtpWire

open Spec Hdtn.Sdnv Hdtn.Sdnv.Spec Hdtn.LtpReport

/-- The state when the data had been copied. -/
def Phase.unlent : Phase → Phase
  | .trailerTag h _ c exts => .trailerTag h false c exts
  | .trailerLen h _ c exts tag tmp => .trailerLen h false c exts tag tmp
  | .trailerValue h _ c exts tag len got => .trailerValue h false c exts tag len got
  | p => p

/-- The state when the data is lost. -/
def Phase.lose : Phase → Phase
  | .trailerTag h _ c exts => .trailerTag h false c.lost exts
  | .trailerLen h _ c exts tag tmp => .trailerLen h false c.lost exts tag tmp
  | .trailerValue h _ c exts tag len got => .trailerValue h false c.lost exts tag len got
  | p => p

def Res.unlent : Res → Res
  | .next q => .next q.unlent
  | r => r

theorem finish_unlent (h : Head) (lent : Bool) (c : Content) : (finish h lent c).unlent = finish h false c := by
  unfold finish
  split <;> rfl

theorem headerExtDone_unlent (h : Head) (x : Ext) : (headerExtDone h x).unlent = headerExtDone h x := by
  unfold headerExtDone
  simp only
  split <;> rfl

theorem trailerExtDone_unlent (h : Head) (lent : Bool) (c : Content) (exts : List Ext) (x : Ext) :
    (trailerExtDone h lent c exts x).unlent = trailerExtDone h false c exts x := by
  unfold trailerExtDone
  simp only
  split <;> rfl

theorem sdnvStep_unlent {tmp : Bytes} {b : UInt8} {ph ph' : Bytes → Phase} {done done' : Nat → Res}
    (h1 : ∀ t, (ph t).unlent = ph' t) (h2 : ∀ v, (done v).unlent = done' v) :
    (sdnvStep tmp b ph done).unlent = sdnvStep tmp b ph' done' := by
  unfold sdnvStep
  simp only
  split
  · rfl
  split
  · split
    · rfl
    · exact h2 _
  · simp only [Res.unlent, h1]

theorem step_unlent (p : Phase) (b : UInt8) : (step p b).unlent = step p.unlent b := by
  cases p with
  | control => simp only [step, Phase.unlent]; split <;> rfl
  | session flags vals tmp =>
    simp only [step, Phase.unlent]
    refine sdnvStep_unlent (fun _ => rfl) fun v => ?_
    rcases vals with _ | ⟨e, vals⟩ <;> rfl
  | counts flags id => simp only [step, Phase.unlent]; split <;> rfl
  | headerTag h => rfl
  | headerLen h tag tmp =>
    simp only [step, Phase.unlent]
    refine sdnvStep_unlent (fun _ => rfl) fun v => ?_
    split
    · exact headerExtDone_unlent _ _
    · rfl
  | headerValue h tag len got =>
    simp only [step, Phase.unlent]
    split
    · exact headerExtDone_unlent _ _
    · rfl
  | dataNums h vals tmp =>
    simp only [step, Phase.unlent]
    refine sdnvStep_unlent (fun _ => rfl) fun v => ?_
    rcases vals with _ | ⟨a, _ | ⟨c, _ | ⟨d, _ | ⟨e, _ | ⟨f, _⟩⟩⟩⟩⟩
    · rfl
    · rfl
    · simp only [dataNext]
      split
      · rfl
      · split <;> rfl
    · rfl
    · rfl
    · rfl
  | dataBytes h m got =>
    simp only [step, Phase.unlent]
    split
    · exact finish_unlent _ _ _
    · rfl
  | reportNums h vals tmp =>
    simp only [step, Phase.unlent]
    refine sdnvStep_unlent (fun _ => rfl) fun v => ?_
    unfold reportNext
    split
    · split <;> rfl
    · rfl
  | claimOffset h r count claims tmp =>
    simp only [step, Phase.unlent]
    exact sdnvStep_unlent (fun _ => rfl) fun v => rfl
  | claimLength h r count claims offset tmp =>
    simp only [step, Phase.unlent]
    refine sdnvStep_unlent (fun _ => rfl) fun v => ?_
    unfold claimNext
    split
    · rfl
    · simp only
      split
      · rfl
      · exact finish_unlent _ _ _
  | ackNum h tmp =>
    simp only [step, Phase.unlent]
    exact sdnvStep_unlent (fun _ => rfl) fun v => finish_unlent _ _ _
  | cancelByte h => exact finish_unlent _ _ _
  | trailerTag h lent c exts => rfl
  | trailerLen h lent c exts tag tmp =>
    simp only [step, Phase.unlent]
    refine sdnvStep_unlent (fun _ => rfl) fun v => ?_
    split
    · exact trailerExtDone_unlent _ _ _ _ _
    · rfl
  | trailerValue h lent c exts tag len got =>
    simp only [step, Phase.unlent]
    split
    · exact trailerExtDone_unlent _ _ _ _ _
    · rfl

/-- The contents begin, in the middle of a buffer. -/
theorem goes_content {p : Phase} {b : UInt8} {h : Head} (hs : step p b = .content h) (rest : Bytes)
    (hc : h.flags = 8 → ∀ a b c d n rest', Split rest [a, b, c, d, n] rest' → n < 2 ^ 31) :
    Goes p (b :: rest) (startContent h rest).1 (startContent h rest).2 := by
  have hr : ∀ r, (startContent h []).1 = r → Reach p (b :: rest) r rest := by
    intro r h1
    refine ⟨p, b, .refl _ _, ?_⟩
    unfold slowStep
    rw [hs]
    exact h1
  unfold startContent at hr ⊢
  split
  · rename_i h1
    rw [if_pos h1] at hr
    exact (hr _ rfl).goes fun h' => finish_ne _ _ _ _
  rename_i h1
  rw [if_neg h1] at hr
  split
  · rename_i h2
    rw [if_pos h2] at hr
    exact .inl ⟨_, hr _ rfl⟩
  rename_i h2
  rw [if_neg h2] at hr
  split
  · rename_i h3
    rw [if_pos h3] at hr
    refine Goes.before (Reach.next (hr (.next (.dataNums h [] [])) ?_)) (goes_data h rest)
    unfold dataShortcut
    rw [batch_nil]
    rfl
  rename_i h3
  rw [if_neg h3] at hr
  split
  · rename_i h4
    rw [if_pos h4] at hr
    refine Goes.before (Reach.next (hr (.next (.reportNums h [] [])) ?_)) (goes_report h rest (hc h4))
    unfold reportShortcut
    rw [batch_nil]
  rename_i h4
  rw [if_neg h4] at hr
  split
  · rename_i h5
    rw [if_pos h5] at hr
    exact (hr _ rfl).next
  · rename_i h5
    rw [if_neg h5] at hr
    exact (hr _ rfl).next

theorem silent_bytes (h : Head) (m : Meta) (d : Bytes) : ∀ (got rest : Bytes), got.length + d.length < m.length →
    Silent (.dataBytes h m got) (d ++ rest) (.dataBytes h m (got ++ d)) rest := by
  induction d with
  | nil => intro got rest _; simpa using Silent.refl _ _
  | cons c d ih =>
    intro got rest hl
    simp only [List.length_cons] at hl
    refine .next (q := .dataBytes h m (got ++ [c])) ?_ ?_
    · simp only [slowStep, step]
      rw [if_neg (by simp only [List.length_append, List.length_cons, List.length_nil]; omega)]
    · have := ih (got ++ [c]) rest (by simp only [List.length_append, List.length_cons, List.length_nil]; omega)
      simpa using this

theorem reach_last (h : Head) (m : Meta) (got rest : Bytes) (b : UInt8) (hl : got.length + 1 = m.length) :
    Reach (.dataBytes h m got) (b :: rest) (finish h false (.data h.flags m (some (got ++ [b])))) rest := by
  refine ⟨_, b, .refl _ _, ?_⟩
  simp only [slowStep, step]
  rw [if_pos (by simpa using hl)]
  cases hf : finish h false (.data h.flags m (some (got ++ [b]))) with
  | content h' => exact absurd hf (finish_ne _ _ _ _)
  | _ => rfl

/-- Data, in the middle of a buffer. -/
theorem goes_dataByte (h : Head) (m : Meta) (got : Bytes) (b : UInt8) (rest : Bytes) (hl : got.length < m.length) :
    Goes (.dataBytes h m got) (b :: rest) (dataByte h m got b rest).1.unlent (dataByte h m got b rest).2 := by
  unfold dataByte
  split
  · rename_i hc
    have hg : got = [] := List.eq_nil_of_length_eq_zero hc.1
    subst hg
    simp only [List.length_nil] at hl
    rw [finish_unlent]
    have e : (b :: rest).take m.length = (b :: rest).take (m.length - 1) ++ [(b :: rest)[m.length - 1]'(by simp; omega)] := by
      conv_lhs => rw [show m.length = (m.length - 1) + 1 by omega]
      rw [List.take_add_one, List.getElem?_eq_getElem (by simp; omega)]
      rfl
    have hlen : ((b :: rest).take (m.length - 1)).length = m.length - 1 := by
      rw [List.length_take, List.length_cons]; omega
    have hsplit : b :: rest = (b :: rest).take (m.length - 1) ++ ((b :: rest)[m.length - 1]'(by simp; omega) ::
        rest.drop (m.length - 1)) := by
      have h1 := (List.take_append_drop m.length (b :: rest)).symm
      rw [e] at h1
      have h2 : (b :: rest).drop m.length = rest.drop (m.length - 1) := by
        conv_lhs => rw [show m.length = (m.length - 1) + 1 by omega]
        rfl
      rw [h2, List.append_assoc] at h1
      exact h1
    rw [e]
    have h1 := silent_bytes h m ((b :: rest).take (m.length - 1)) [] ((b :: rest)[m.length - 1]'(by simp; omega) ::
        rest.drop (m.length - 1)) (by rw [hlen, List.length_nil]; omega)
    rw [← hsplit] at h1
    simp only [List.nil_append] at h1
    have h2 := reach_last h m ((b :: rest).take (m.length - 1)) (rest.drop (m.length - 1))
      ((b :: rest)[m.length - 1]'(by simp; omega)) (by rw [hlen]; omega)
    exact (Reach.before h1 h2).goes fun _ => finish_ne _ _ _ _
  · simp only [List.length_append, List.length_cons, List.length_nil]
    split
    · rename_i he
      rw [finish_unlent]
      exact (reach_last h m got rest b (by omega)).goes fun _ => finish_ne _ _ _ _
    · rename_i hne
      have hk : min rest.length (m.length - (got.length + (0 + 1)) - 1) ≤ m.length - (got.length + (0 + 1)) - 1 :=
        Nat.min_le_right _ _
      generalize min rest.length (m.length - (got.length + (0 + 1)) - 1) = k at hk
      have hlen : (rest.take k).length ≤ k := by rw [List.length_take]; omega
      have := silent_bytes h m (b :: rest.take k) got (rest.drop k) (by simp only [List.length_cons]; omega)
      simpa [Goes, Res.unlent, Phase.unlent] using this

theorem Silent.tail {p q : Phase} {a b : Bytes} (h : Silent p a q b) (t : Bytes) : Silent p (a ++ t) q (b ++ t) := by
  induction h with
  | refl => exact .refl _ _
  | next h _ ih => exact .next h ih

theorem Reach.tail {p : Phase} {a b : Bytes} {r : Res} (h : Reach p a r b) (t : Bytes) :
    Reach p (a ++ t) r (b ++ t) := by
  obtain ⟨q, c, h1, h2⟩ := h
  exact ⟨q, c, h1.tail t, h2⟩

theorem split_tail {a b : Bytes} {vs : List Nat} (h : Split a vs b) (t : Bytes) : Split (a ++ t) vs (b ++ t) := by
  induction h with
  | nil => exact .nil _
  | cons h _ ih => rw [List.append_assoc]; exact .cons h ih

/-- One round of the loop; `tail` is what later calls bring. -/
theorem goes_round (stream : Bytes) (es : List Event) (p : Phase) (b : UInt8) (rest tail : Bytes) (hm : Modest stream)
    (hp : Pos stream es p.unlent (b :: rest ++ tail)) :
    Goes p.unlent (b :: rest) (round p b rest).1.unlent (round p b rest).2 := by
  have gen : ∀ p : Phase, Pos stream es p.unlent (b :: rest ++ tail) → Goes p.unlent (b :: rest)
      (match step p b with
        | .content h => startContent h rest
        | r => (r, rest)).1.unlent
      (match step p b with
        | .content h => startContent h rest
        | r => (r, rest)).2 := by
    intro p hp
    have hu := step_unlent p b
    cases hs : step p b with
    | content h =>
      rw [hs] at hu
      have hg := goes_content hu.symm rest (fun h8 a b' c d n rest' hsp => by
        obtain ⟨ws, w, h1, h2, h3⟩ := hp
        have := good_step w p.unlent b h3
        rw [← hu] at this
        refine hm n (Pos.announces (w := w ++ [b]) (rest := rest ++ tail) (h := h) ?_ h2 this h8 (split_tail hsp tail))
        rw [h1]; simp)
      have : ((startContent h rest).1).unlent = (startContent h rest).1 := by
        unfold startContent
        split
        · exact finish_unlent _ _ _
        split
        · rfl
        split
        · unfold dataShortcut
          split
          · rfl
          · rename_i vs _ _
            rcases vs with _ | ⟨a, _ | ⟨c, _ | ⟨d, _ | ⟨e, _ | ⟨f, _⟩⟩⟩⟩⟩
            · rfl
            · rfl
            · rfl
            · simp only [dataAfter]; split <;> (try rfl); split <;> rfl
            · simp only [dataAfter]; split <;> rfl
            · rename_i vs' _
              cases vs' with
              | nil => simp only [dataAfter]; split <;> rfl
              | cons _ _ => rfl
        split
        · unfold reportShortcut
          split
          · rfl
          · split
            · split
              · rfl
              · unfold claimsShortcut
                simp only
                split
                · rfl
                · split
                  · rfl
                  · split
                    · exact finish_unlent _ _ _
                    · split <;> rfl
            · rfl
        split <;> rfl
      simp only
      rw [this]
      exact hg
    | fail =>
      rw [hs] at hu
      refine .inl ⟨rest, _, b, .refl _ _, ?_⟩
      simp only [slowStep, ← hu, Res.unlent]
    | next q =>
      rw [hs] at hu
      refine Silent.one ?_
      simp only [slowStep, ← hu, Res.unlent]
    | emit e =>
      rw [hs] at hu
      refine ⟨_, b, .refl _ _, ?_⟩
      simp only [slowStep, ← hu, Res.unlent]
  cases p with
  | control =>
    have h1 := goes_control b rest
    have h2 : (controlByte b rest).1.unlent = (controlByte b rest).1 := by
      unfold controlByte
      split
      · rfl
      · split
        · rfl
        · split <;> rfl
    simp only [round, h2]
    exact h1
  | dataBytes h m got =>
    obtain ⟨ws, w, h1, h2, w0, s, h3, h4, h5, h6, h7, h8⟩ := hp
    exact goes_dataByte h m got b rest h8
  | session _ _ _ => exact gen _ hp
  | counts _ _ => exact gen _ hp
  | headerTag _ => exact gen _ hp
  | headerLen _ _ _ => exact gen _ hp
  | headerValue _ _ _ _ => exact gen _ hp
  | dataNums _ _ _ => exact gen _ hp
  | reportNums _ _ _ => exact gen _ hp
  | claimOffset _ _ _ _ _ => exact gen _ hp
  | claimLength _ _ _ _ _ _ => exact gen _ hp
  | ackNum _ _ => exact gen _ hp
  | cancelByte _ => exact gen _ hp
  | trailerTag _ _ _ _ => exact gen _ hp
  | trailerLen _ _ _ _ _ _ => exact gen _ hp
  | trailerValue _ _ _ _ _ _ _ => exact gen _ hp

/-! ### One buffer -/

/-- The results of two readings of the same bytes: equal, except that the first may have failed already on
ten bytes with the top bit set at the end. -/
def Same (buf : Bytes) (f s : List Event × Option Phase) : Prop :=
  f.1 = s.1 ∧
    ((∃ q, f.2 = some q ∧ s.2 = some q.unlent) ∨ (f.2 = none ∧ s.2 = none) ∨
      (f.2 = none ∧ CutAtTen buf ∧ ∃ q, s.2 = some q ∧ ∀ b, slowStep q b = .fail))

theorem cut_before {w buf : Bytes} (h : CutAtTen buf) : CutAtTen (w ++ buf) := by
  obtain ⟨t, bs, rfl, h⟩ := h
  exact ⟨w ++ t, bs, by simp, h⟩

theorem same_dead {p : Phase} {buf : Bytes} (h : Dead p buf) : Same buf ([], none) (slow p buf) := by
  rcases h with ⟨rest, h⟩ | ⟨hc, q, h1, h2⟩
  · rw [h.slow]
    exact ⟨rfl, .inr (.inl ⟨rfl, rfl⟩)⟩
  · rw [h1.slow]
    exact ⟨rfl, .inr (.inr ⟨rfl, hc, q, rfl, h2⟩)⟩

theorem goes_suffix {p : Phase} {buf rest : Bytes} {r : Res} (h : Goes p buf r rest) (hr : r ≠ .fail) :
    ∃ w, buf = w ++ rest := by
  cases r with
  | fail => exact absurd rfl hr
  | next q => exact Silent.suffix h
  | emit e => obtain ⟨w, _, h⟩ := Reach.suffix h; exact ⟨w, h⟩
  | content h' => exact h.elim

theorem round_length (p : Phase) (b : UInt8) (rest : Bytes) : (round p b rest).1 = .fail ∨ (round p b rest).2.length ≤ rest.length := by
  have drop : ∀ (n : Nat) (vs : List Nat) (rest rest' : Bytes), batch n rest = some (vs, rest') → rest'.length ≤ rest.length := by
    intro n vs rest rest' h
    rcases batch_spec n rest with ⟨vs, r, h1, _, h3, _⟩ | ⟨_, _, h1, _⟩
    · rw [h1] at h
      simp only [Option.some.injEq, Prod.mk.injEq] at h
      obtain ⟨p, rfl⟩ := split_length h3
      rw [← h.2]
      simp
    · rw [h1] at h; simp at h
  have start : ∀ h, (startContent h rest).1 = .fail ∨ (startContent h rest).2.length ≤ rest.length := by
    intro h
    unfold startContent
    split
    · exact .inr (Nat.le_refl _)
    split
    · exact .inl rfl
    split
    · unfold dataShortcut
      split
      · exact .inl rfl
      · rename_i hb; exact .inr (drop _ _ _ _ hb)
    split
    · unfold reportShortcut
      split
      · exact .inl rfl
      · rename_i hb
        have l1 := drop _ _ _ _ hb
        split
        · split
          · exact .inl rfl
          · unfold claimsShortcut
            simp only
            split
            · exact .inl rfl
            · rename_i hb2
              have l2 := drop _ _ _ _ hb2
              split
              · exact .inl rfl
              · right
                split
                · exact Nat.le_trans l2 l1
                · split <;> exact Nat.le_trans l2 l1
        · exact .inr l1
    split <;> exact .inr (Nat.le_refl _)
  have gen : ∀ p : Phase, (match step p b with
        | .content h => startContent h rest
        | r => (r, rest)).1 = .fail ∨ (match step p b with
        | .content h => startContent h rest
        | r => (r, rest)).2.length ≤ rest.length := by
    intro p
    cases step p b with
    | content h => exact start h
    | fail => exact .inl rfl
    | next q => exact .inr (Nat.le_refl _)
    | emit e => exact .inr (Nat.le_refl _)
  unfold round
  split
  · unfold controlByte
    split
    · exact .inl rfl
    · split
      · exact .inl rfl
      · rename_i hb
        have l1 := drop _ _ _ _ hb
        split <;> exact .inr l1
  · right
    unfold dataByte
    split
    · simp
    · simp only
      split
      · exact Nat.le_refl _
      · simp
  · exact gen p

theorem loop_same (stream tail : Bytes) (hm : Modest stream) : ∀ (n : Nat) (p : Phase) (buf : Bytes) (es : List Event),
    buf.length ≤ n → Pos stream es p.unlent (buf ++ tail) → Same buf (loop n p buf) (slow p.unlent buf) := by
  intro n
  induction n with
  | zero =>
    intro p buf es hl _
    have : buf = [] := List.eq_nil_of_length_eq_zero (by omega)
    subst this
    exact ⟨rfl, .inl ⟨p, rfl, rfl⟩⟩
  | succ n ih =>
    intro p buf es hl hp
    cases buf with
    | nil => exact ⟨rfl, .inl ⟨p, rfl, rfl⟩⟩
    | cons b rest =>
      have hg := goes_round stream es p b rest tail hm hp
      have hlen := round_length p b rest
      unfold loop
      generalize hr : round p b rest = rr at hg hlen
      obtain ⟨r, rest'⟩ := rr
      simp only [List.length_cons] at hl hlen
      cases r with
      | fail => exact same_dead hg
      | content h => exact hg.elim
      | next q =>
        have hs : Silent p.unlent (b :: rest) q.unlent rest' := hg
        have := ih q rest' es (by rcases hlen with h | h; · cases h
                                  omega) (hp.silent (hs.tail tail))
        simp only
        rw [hs.slow]
        obtain ⟨w, hw⟩ := hs.suffix
        rw [hw]
        refine ⟨this.1, ?_⟩
        rcases this.2 with h | h | ⟨h1, h2, h3⟩
        · exact .inl h
        · exact .inr (.inl h)
        · exact .inr (.inr ⟨h1, cut_before h2, h3⟩)
      | emit e =>
        have hs : Reach p.unlent (b :: rest) (.emit e) rest' := hg
        have := ih .control rest' (es ++ [e]) (by rcases hlen with h | h; · cases h
                                                  omega) (hp.emit (hs.tail tail))
        simp only
        rw [hs.slow]
        obtain ⟨w, _, hw⟩ := hs.suffix
        rw [hw]
        refine ⟨?_, ?_⟩
        · have := this.1
          simp only [after, Phase.unlent] at this ⊢
          rw [this]
        · simp only [after]
          rcases this.2 with h | h | ⟨h1, h2, h3⟩
          · exact .inl h
          · exact .inr (.inl h)
          · exact .inr (.inr ⟨h1, cut_before h2, h3⟩)

/-! ### Several buffers -/

/-- The same state, or the one in which the data is lost. -/
def Loses (q q0 : Phase) : Prop := q = q0 ∨ q = q0.lose

theorem lost_lost (c : Content) : c.lost.lost = c.lost := by cases c <;> rfl

theorem lose_lose (p : Phase) : p.lose.lose = p.lose := by
  cases p <;> simp only [Phase.lose, lost_lost]

theorem agrees_lost (id : SessionId) (hd : List Ext) (c : Content) (t : List Ext) (ht : t ≠ []) :
    Agrees ⟨id, hd, c.lost, t⟩ ⟨id, hd, c, t⟩ := by
  cases c with
  | data flags m d =>
    cases d with
    | none => exact .inl rfl
    | some d => exact .inr ⟨ht, flags, m, d, rfl, rfl⟩
  | _ => exact .inl rfl

/-- What a byte leads to when the data is lost and when it is not. -/
def LosesRes (r r0 : Res) : Prop :=
  r = r0 ∨ (∃ q q0, r = .next q ∧ r0 = .next q0 ∧ Loses q q0) ∨
    ∃ e e0, r = .emit e ∧ r0 = .emit e0 ∧ Agrees e e0

theorem loses_done (h : Head) (l0 : Bool) (c : Content) (exts : List Ext) (x : Ext) :
    LosesRes (trailerExtDone h false c.lost exts x) (trailerExtDone h l0 c exts x) := by
  unfold trailerExtDone
  simp only
  split
  · exact .inr (.inr ⟨_, _, rfl, rfl, agrees_lost _ _ _ _ (by simp)⟩)
  · exact .inr (.inl ⟨_, _, rfl, rfl, .inr rfl⟩)

theorem loses_step (q0 : Phase) (b : UInt8) : LosesRes (step q0.lose b) (step q0 b) := by
  cases q0 with
  | trailerTag h l c exts => exact .inr (.inl ⟨_, _, rfl, rfl, .inr rfl⟩)
  | trailerLen h l c exts tag tmp =>
    simp only [step, Phase.lose]
    unfold sdnvStep
    simp only
    split
    · exact .inl rfl
    split
    · split
      · exact .inl rfl
      · split
        · exact loses_done _ _ _ _ _
        · exact .inr (.inl ⟨_, _, rfl, rfl, .inr rfl⟩)
    · exact .inr (.inl ⟨_, _, rfl, rfl, .inr rfl⟩)
  | trailerValue h l c exts tag len got =>
    simp only [step, Phase.lose]
    split
    · exact loses_done _ _ _ _ _
    · exact .inr (.inl ⟨_, _, rfl, rfl, .inr rfl⟩)
  | _ => exact .inl rfl

theorem loses_slowStep {q q0 : Phase} (h : Loses q q0) (b : UInt8) : LosesRes (slowStep q b) (slowStep q0 b) := by
  rcases h with rfl | rfl
  · exact .inl rfl
  unfold slowStep
  rcases loses_step q0 b with h | ⟨q, q', h1, h2, h3⟩ | ⟨e, e', h1, h2, h3⟩
  · rw [h]; exact .inl rfl
  · rw [h1, h2]; exact .inr (.inl ⟨q, q', rfl, rfl, h3⟩)
  · rw [h1, h2]; exact .inr (.inr ⟨e, e', rfl, rfl, h3⟩)

theorem agrees_refl (es : List Event) : List.Forall₂ Agrees es es := by
  induction es with
  | nil => exact .nil
  | cons e es ih => exact .cons (.inl rfl) ih

theorem loses_slow (buf : Bytes) : ∀ {q q0 : Phase}, Loses q q0 →
    List.Forall₂ Agrees (slow q buf).1 (slow q0 buf).1 ∧
      (((slow q buf).2 = none ∧ (slow q0 buf).2 = none) ∨
        ∃ s s0, (slow q buf).2 = some s ∧ (slow q0 buf).2 = some s0 ∧ Loses s s0) := by
  induction buf with
  | nil => intro q q0 h; exact ⟨.nil, .inr ⟨q, q0, rfl, rfl, h⟩⟩
  | cons b rest ih =>
    intro q q0 h
    have refl : ∀ r, List.Forall₂ Agrees (after r rest).1 (after r rest).1 ∧
      (((after r rest).2 = none ∧ (after r rest).2 = none) ∨
        ∃ s s0, (after r rest).2 = some s ∧ (after r rest).2 = some s0 ∧ Loses s s0) := by
      intro r
      refine ⟨agrees_refl _, ?_⟩
      cases hn : (after r rest).2 with
      | none => exact .inl ⟨rfl, rfl⟩
      | some s => exact .inr ⟨s, s, rfl, rfl, .inl rfl⟩
    rw [slow_cons, slow_cons]
    rcases loses_slowStep h b with h | ⟨q, q', h1, h2, h3⟩ | ⟨e, e', h1, h2, h3⟩
    · rw [h]; exact refl _
    · rw [h1, h2]; exact ih h3
    · rw [h1, h2]
      have := ih (q := .control) (q0 := .control) (.inl rfl)
      exact ⟨.cons h3 this.1, this.2⟩

theorem slow_append (a b : Bytes) : ∀ (p : Phase), slow p (a ++ b) =
    match slow p a with
    | (es, none) => (es, none)
    | (es, some q) => (es ++ (slow q b).1, (slow q b).2) := by
  induction a with
  | nil => intro p; simp [slow]
  | cons c a ih =>
    intro p
    rw [List.cons_append, slow_cons, slow_cons]
    cases slowStep p c with
    | fail => rfl
    | content h => rfl
    | next q => exact ih q
    | emit e =>
      simp only [after]
      rw [ih .control]
      generalize slow .control a = r
      obtain ⟨es, _ | q⟩ := r <;> rfl

theorem pos_slow {stream : Bytes} (buf : Bytes) : ∀ {es es' : List Event} {p q : Phase} {rest : Bytes},
    Pos stream es p (buf ++ rest) → slow p buf = (es', some q) → Pos stream (es ++ es') q rest := by
  induction buf with
  | nil =>
    intro es es' p q rest hp hs
    simp only [slow, Prod.mk.injEq, Option.some.injEq] at hs
    obtain ⟨rfl, rfl⟩ := hs
    simpa using hp
  | cons b buf ih =>
    intro es es' p q rest hp hs
    rw [slow_cons] at hs
    cases h : slowStep p b with
    | fail => rw [h] at hs; simp [after] at hs
    | content _ => rw [h] at hs; simp [after] at hs
    | next s =>
      rw [h] at hs
      exact ih (hp.silent (.one h)) hs
    | emit e =>
      rw [h] at hs
      simp only [after, Prod.mk.injEq] at hs
      have := ih (es' := (slow .control buf).1) (hp.emit ⟨_, _, .refl _ _, h⟩) (Prod.ext rfl hs.2)
      rw [← hs.1]
      simpa using this

theorem pos_slow_fail {stream : Bytes} (buf : Bytes) : ∀ {es es' : List Event} {p : Phase} {rest : Bytes},
    Pos stream es p (buf ++ rest) → slow p buf = (es', none) →
    ∃ ws tail, stream = ws.flatten ++ tail ∧ List.Forall₂ Reports ws (es ++ es') := by
  induction buf with
  | nil => intro es es' p rest hp hs; simp [slow] at hs
  | cons b buf ih =>
    intro es es' p rest hp hs
    rw [slow_cons] at hs
    have stop : es' = [] → ∃ ws tail, stream = ws.flatten ++ tail ∧ List.Forall₂ Reports ws (es ++ es') := by
      rintro rfl
      obtain ⟨ws, w, h1, h2, -⟩ := hp
      exact ⟨ws, w ++ (b :: buf ++ rest), by rw [h1]; simp, by simpa using h2⟩
    cases h : slowStep p b with
    | fail =>
      rw [h] at hs
      simp only [after, Prod.mk.injEq] at hs
      exact stop hs.1.symm
    | content _ =>
      rw [h] at hs
      simp only [after, Prod.mk.injEq] at hs
      exact stop hs.1.symm
    | next s =>
      rw [h] at hs
      exact ih (hp.silent (.one h)) hs
    | emit e =>
      rw [h] at hs
      simp only [after, Prod.mk.injEq] at hs
      have := ih (es' := (slow .control buf).1) (hp.emit ⟨_, _, .refl _ _, h⟩) (Prod.ext rfl hs.2)
      rw [← hs.1]
      simpa using this

theorem enter_unlent (p : Phase) : p.enter.unlent = p.unlent ∨ p.enter.unlent = p.unlent.lose := by
  cases p with
  | trailerTag h l c exts => cases l; exacts [.inl rfl, .inr rfl]
  | trailerLen h l c exts tag tmp => cases l; exacts [.inl rfl, .inr rfl]
  | trailerValue h l c exts tag len got => cases l; exacts [.inl rfl, .inr rfl]
  | _ => exact .inl rfl

theorem loses_enter {p p0 : Phase} (h : Loses p.unlent p0) : Loses p.enter.unlent p0 := by
  rcases enter_unlent p with h1 | h1
  · rw [h1]; exact h
  · rw [h1]
    rcases h with h | h
    · exact .inr (by rw [h])
    · exact .inr (by rw [h, lose_lose])

theorem inTrailer_lost {w : Bytes} {h : Head} {c : Content} {exts : List Ext} (hh : InTrailer w h c exts) :
    InTrailer w h c.lost exts := by
  obtain ⟨w0, p, t, h1, h2, ⟨c', h3, h4⟩, h5⟩ := hh
  refine ⟨w0, p, t, h1, h2, ⟨c', h3, .inr ?_⟩, h5⟩
  rcases h4 with rfl | rfl
  · rfl
  · exact lost_lost _

theorem holds_lose {w : Bytes} {p : Phase} (h : Holds w p) : Holds w p.lose := by
  cases p with
  | trailerTag h' l c exts => exact inTrailer_lost h
  | trailerLen h' l c exts tag tmp =>
    obtain ⟨w1, h1, h2⟩ := h
    exact ⟨w1, h1, inTrailer_lost h2⟩
  | trailerValue h' l c exts tag len got =>
    obtain ⟨w1, q, h1, h2, h3⟩ := h
    exact ⟨w1, q, h1, inTrailer_lost h2, h3⟩
  | _ => exact h

theorem pos_enter {stream buf : Bytes} {es : List Event} {p : Phase} (h : Pos stream es p.unlent buf) :
    Pos stream es p.enter.unlent buf := by
  rcases enter_unlent p with h1 | h1
  · rw [h1]; exact h
  · rw [h1]
    obtain ⟨ws, w, h2, h3, h4⟩ := h
    exact ⟨ws, w, h2, h3, holds_lose h4⟩

theorem pos_start (stream : Bytes) : Pos stream [] .control stream := ⟨[], [], by simp, .nil, rfl⟩

/-- One call in the middle of a stream. -/
theorem feed_same {stream rest buf : Bytes} {es : List Event} {p : Phase} (hm : Modest stream)
    (hp : Pos stream es p.unlent (buf ++ rest)) : Same buf (feed p buf) (slow p.enter.unlent buf) := by
  exact loop_same stream rest hm _ _ _ es (Nat.le_refl _) (pos_enter hp)

/-- Several calls, compared with single steps over all bytes. -/
def SameAll (stream : Bytes) (f s : List Event × Option Phase) : Prop :=
  List.Forall₂ Agrees f.1 s.1 ∧
    ((∃ q q0, f.2 = some q ∧ s.2 = some q0 ∧ Loses q.unlent q0) ∨ (f.2 = none ∧ s.2 = none) ∨
      (f.2 = none ∧ CutAtTen stream ∧ ∃ q0, s.2 = some q0 ∧ ∀ b, slowStep q0 b = .fail))

theorem loses_doomed {q q0 : Phase} (h : Loses q q0) (hd : ∀ b, slowStep q b = .fail) (b : UInt8) :
    slowStep q0 b = .fail := by
  rcases loses_slowStep h b with h1 | ⟨a, c, h1, h2, _⟩ | ⟨a, c, h1, h2, _⟩
  · rw [← h1]; exact hd b
  · rw [hd b] at h1; cases h1
  · rw [hd b] at h1; cases h1

theorem forall2_append {α β : Type} {R : α → β → Prop} {as as' : List α} {bs bs' : List β}
    (h : List.Forall₂ R as bs) (h' : List.Forall₂ R as' bs') : List.Forall₂ R (as ++ as') (bs ++ bs') := by
  induction h with
  | nil => exact h'
  | cons h _ ih => exact .cons h ih

theorem feedAll_same {stream : Bytes} (hm : Modest stream) : ∀ (bufs : List Bytes) (es : List Event) (p p0 : Phase),
    Pos stream es p.unlent bufs.flatten → Loses p.unlent p0 →
    SameAll bufs.flatten (feedAll p bufs) (slow p0 bufs.flatten) := by
  intro bufs
  induction bufs with
  | nil =>
    intro es p p0 _ hl
    exact ⟨.nil, .inl ⟨p, p0, rfl, rfl, hl⟩⟩
  | cons buf bufs ih =>
    intro es p p0 hp hl
    rw [List.flatten_cons] at hp
    have h1 := feed_same hm hp
    have h2 := loses_slow buf (loses_enter hl)
    rw [List.flatten_cons, slow_append]
    generalize hf : feed p buf = f at h1
    obtain ⟨fs, fq⟩ := f
    generalize h0 : slow p0 buf = s0 at h2
    obtain ⟨ss, sq⟩ := s0
    have he : List.Forall₂ Agrees fs ss := by
      have := h2.1
      rw [← h1.1] at this
      exact this
    cases fq with
    | none =>
      simp only [feedAll, hf]
      rcases h1.2 with ⟨q, h, _⟩ | ⟨-, h⟩ | ⟨-, hc, q, h, hd⟩
      · cases h
      · rcases h2.2 with ⟨-, h'⟩ | ⟨s, s', h', _⟩
        · simp only at h'
          subst h'
          exact ⟨he, .inr (.inl ⟨rfl, rfl⟩)⟩
        · rw [h] at h'; cases h'
      · rcases h2.2 with ⟨h', -⟩ | ⟨s, s', h', h'', hls⟩
        · rw [h] at h'; cases h'
        · rw [h] at h'
          cases h'
          simp only at h''
          subst h''
          simp only
          cases hb : bufs.flatten with
          | nil =>
            refine ⟨by simpa [slow] using he, .inr (.inr ⟨rfl, by simpa using hc, s', by simp [slow], loses_doomed hls hd⟩)⟩
          | cons c cs =>
            rw [slow_cons, loses_doomed hls hd c]
            exact ⟨by simpa [after] using he, .inr (.inl ⟨rfl, rfl⟩)⟩
    | some q =>
      rcases h1.2 with ⟨q', h, hs⟩ | ⟨h, -⟩ | ⟨h, -⟩
      · cases h
        rcases h2.2 with ⟨h', -⟩ | ⟨s, s', h', h'', hls⟩
        · rw [hs] at h'; cases h'
        · rw [hs] at h'
          cases h'
          simp only at h''
          subst h''
          have hpos := pos_slow buf (pos_enter hp) (Prod.ext rfl hs)
          have := ih _ q s' hpos hls
          simp only [feedAll, hf]
          refine ⟨forall2_append he this.1, ?_⟩
          rcases this.2 with h | h | ⟨h1, h2, h3⟩
          · exact .inl h
          · exact .inr (.inl h)
          · exact .inr (.inr ⟨h1, cut_before h2, h3⟩)
      · cases h
      · cases h

theorem feedAll_pos {stream : Bytes} (hm : Modest stream) : ∀ (bufs : List Bytes) (es : List Event) (p : Phase),
    Pos stream es p.unlent bufs.flatten →
    (∀ es' q, feedAll p bufs = (es', some q) → Pos stream (es ++ es') q.unlent []) ∧
    (∀ es', feedAll p bufs = (es', none) →
      ∃ ws tail, stream = ws.flatten ++ tail ∧ List.Forall₂ Reports ws (es ++ es')) := by
  intro bufs
  induction bufs with
  | nil =>
    intro es p hp
    refine ⟨fun es' q h => ?_, fun es' h => ?_⟩
    · simp only [feedAll, Prod.mk.injEq, Option.some.injEq] at h
      obtain ⟨rfl, rfl⟩ := h
      simpa using hp
    · simp [feedAll] at h
  | cons buf bufs ih =>
    intro es p hp
    rw [List.flatten_cons] at hp
    have h1 := feed_same hm hp
    generalize hf : feed p buf = f at h1
    obtain ⟨fs, fq⟩ := f
    have hp' := pos_enter hp
    cases fq with
    | none =>
      refine ⟨fun es' q h => ?_, fun es' h => ?_⟩
      · simp [feedAll, hf] at h
      · simp only [feedAll, hf, Prod.mk.injEq, and_true] at h
        subst h
        rcases h1.2 with ⟨q, h, _⟩ | ⟨-, h⟩ | ⟨-, hc, q, h, hd⟩
        · cases h
        · have e : fs = (slow p.enter.unlent buf).1 := h1.1
          rw [e]
          exact pos_slow_fail buf hp' (Prod.ext rfl h)
        · have e : fs = (slow p.enter.unlent buf).1 := h1.1
          rw [e]
          obtain ⟨ws, w, h2, h3, -⟩ := pos_slow buf hp' (Prod.ext rfl h)
          exact ⟨ws, w ++ bufs.flatten, by rw [h2]; simp, h3⟩
    | some q =>
      rcases h1.2 with ⟨q', h, hs⟩ | ⟨h, -⟩ | ⟨h, -⟩
      · cases h
        have e : fs = (slow p.enter.unlent buf).1 := h1.1
        have hpos : Pos stream (es ++ fs) q.unlent bufs.flatten := by
          rw [e]
          exact pos_slow buf hp' (Prod.ext rfl hs)
        obtain ⟨i1, i2⟩ := ih _ q hpos
        refine ⟨fun es' q' h => ?_, fun es' h => ?_⟩
        · simp only [feedAll, hf, Prod.mk.injEq] at h
          have := i1 _ _ (Prod.ext rfl h.2)
          rw [← h.1]
          simpa using this
        · simp only [feedAll, hf, Prod.mk.injEq] at h
          have := i2 _ (Prod.ext rfl h.2)
          rw [← h.1]
          simpa using this
      · cases h
      · cases h

end Hdtn.LtpWire
