import Verif.TcpclV3.Complete

/-! Whatever is reported was sent: an invariant of the loop for all streams and chunks. -/

namespace Hdtn.TcpclV3

open Spec Hdtn.Sdnv Hdtn.Sdnv.Spec

variable {cfg : Cfg}

/-- The states after a contact header. -/
def isUp : Phase → Bool
  | .msg | .dataLen .. | .data .. | .ack .. | .length .. | .reason .. | .delay .. => true
  | _ => false

/-- The bytes `x` since the last message are what the state says. -/
def Holds (x : Bytes) : Phase → Prop
  | .sync1 => x = []
  | .sync2 => x = [0x64]
  | .sync3 => x = [0x64, 0x74]
  | .sync4 => x = [0x64, 0x74, 0x6e]
  | .version => x = [0x64, 0x74, 0x6e, 0x21]
  | .flags => x = [0x64, 0x74, 0x6e, 0x21, 3]
  | .keep1 f => x = [0x64, 0x74, 0x6e, 0x21, 3, f]
  | .keep2 f hi => x = [0x64, 0x74, 0x6e, 0x21, 3, f, hi]
  | .eidLen f k tmp => ∃ hi lo : UInt8, k = hi.toNat * 256 + lo.toNat ∧
    x = [0x64, 0x74, 0x6e, 0x21, 3, f, hi, lo] ++ tmp
  | .eid f k len got => ∃ (hi lo : UInt8) (p : Bytes), k = hi.toNat * 256 + lo.toNat ∧ IsSdnv64 p len ∧
    x = [0x64, 0x74, 0x6e, 0x21, 3, f, hi, lo] ++ (p ++ got)
  | .msg => x = []
  | .dataLen s e tmp => ∃ t : UInt8, typeOf t = 1 ∧ s = t.toNat.testBit 1 ∧ e = t.toNat.testBit 0 ∧ x = t :: tmp
  | .data s e len got => ∃ (t : UInt8) (p : Bytes), typeOf t = 1 ∧ s = t.toNat.testBit 1 ∧ e = t.toNat.testBit 0 ∧
    IsSdnv64 p len ∧ x = t :: (p ++ got)
  | .ack tmp => ∃ t : UInt8, typeOf t = 2 ∧ x = t :: tmp
  | .length tmp => ∃ t : UInt8, typeOf t = 6 ∧ x = t :: tmp
  | .reason d => ∃ t : UInt8, typeOf t = 5 ∧ t.toNat.testBit 1 = true ∧ t.toNat.testBit 0 = d ∧ x = [t]
  | .delay none tmp => ∃ t : UInt8, typeOf t = 5 ∧ t.toNat.testBit 1 = false ∧ t.toNat.testBit 0 = true ∧ x = t :: tmp
  | .delay (some r) tmp => ∃ t : UInt8, typeOf t = 5 ∧ t.toNat.testBit 1 = true ∧ t.toNat.testBit 0 = true ∧
    x = t :: r :: tmp
  | .thrown => x = []

/-- All bytes so far explain the events so far and the state. -/
def Inv (c : Bytes) (es : List Event) (p : Phase) : Prop :=
  ∃ w x, c = w ++ x ∧ Explains w es (isUp p) ∧ Holds x p

theorem Inv.drop {c : Bytes} {es : List Event} {p q : Phase} (h : Inv c es p) (y x : Bytes) (hq : isUp q = false)
    (hx : Holds x q) : Inv (c ++ y ++ x) es q := by
  obtain ⟨w, z, rfl, h1, h2⟩ := h
  refine ⟨w ++ z ++ y, x, rfl, ?_, hx⟩
  rw [hq, List.append_assoc]
  exact h1.drop

theorem Inv.lost {c : Bytes} {es : List Event} {p : Phase} (h : Inv c es p) (b : UInt8) (q : Phase)
    (hq : q = .sync1 ∨ q = .thrown) : Inv (c ++ [b]) (es ++ []) q := by
  have : isUp q = false ∧ Holds [] q := by rcases hq with rfl | rfl <;> exact ⟨rfl, rfl⟩
  simpa using h.drop [b] [] this.1 this.2

theorem Inv.resync {c : Bytes} {es : List Event} {p : Phase} (h : Inv c es p) (b : UInt8) :
    Inv (c ++ [b]) (es ++ []) (resync b) := by
  unfold TcpclV3.resync
  split
  · rename_i hb
    subst hb
    simpa using h.drop [] [0x64] (q := .sync2) rfl rfl
  · exact h.lost b _ (.inl rfl)

theorem inv_sdnv {c : Bytes} {es : List Event} {p : Phase} (h : Inv c es p) {tmp : Bytes} {b : UInt8}
    {ph : Bytes → Phase} {done : Nat → Phase × List Event} (hm : Inv (c ++ [b]) es (ph (tmp ++ [b])))
    (hd : ∀ v, IsSdnv64 (tmp ++ [b]) v → Inv (c ++ [b]) (es ++ (done v).2) (done v).1) :
    Inv (c ++ [b]) (es ++ (sdnvStep tmp b ph done).2) (sdnvStep tmp b ph done).1 := by
  rcases sdnvStep_cases tmp b ph done with e | e | ⟨v, h1, e⟩
  · rw [e]; exact h.lost b _ (.inl rfl)
  · rw [e]; simpa using hm
  · rw [e]; exact hd v h1

theorem inv_next {c w x : Bytes} {es : List Event} {q : Phase} {b : UInt8} (hc : c = w ++ x) (h1 : Explains w es (isUp q))
    (h2 : Holds (x ++ [b]) q) : Inv (c ++ [b]) (es ++ []) q :=
  ⟨w, x ++ [b], by rw [hc, List.append_assoc], by simpa using h1, h2⟩

theorem inv_message {c w x : Bytes} {es : List Event} {q : Phase} {b : UInt8} {e : Event} (hc : c = w ++ x)
    (h1 : Explains w es true) (h2 : IsMessage (x ++ [b]) e) (hq : isUp q = staysUp e) (hx : Holds [] q) :
    Inv (c ++ [b]) (es ++ [e]) q :=
  ⟨w ++ (x ++ [b]), [], by rw [hc]; simp, by rw [hq]; exact h1.message h2, hx⟩

theorem inv_typeByte {c : Bytes} {es : List Event} {b : UInt8} (h : Explains c es true) :
    Inv (c ++ [b]) (es ++ (typeByte b).2) (typeByte b).1 := by
  obtain ⟨f1, f2, f3, f4⟩ := flags_eq b
  have hc : c = c ++ [] := by simp
  unfold typeByte
  rw [f3, f1, f2, f4]
  split
  · rename_i ht
    exact inv_next hc h ⟨b, ht, rfl, rfl, rfl⟩
  · rename_i ht
    exact inv_next hc h ⟨b, ht, rfl⟩
  · rename_i ht
    exact inv_message hc h (.refusal b ht) rfl rfl
  · rename_i ht
    exact inv_message hc h (.keepAlive b ht) rfl rfl
  · rename_i ht
    split
    · rename_i ha
      exact inv_next hc h ⟨b, ht, ha, rfl, rfl⟩
    · rename_i ha
      simp only [Bool.not_eq_true] at ha
      split
      · rename_i hb
        exact inv_next hc h ⟨b, ht, ha, hb, rfl⟩
      · rename_i hb
        simp only [Bool.not_eq_true] at hb
        exact inv_message hc h (.shutdown b ht ha hb) rfl rfl
  · rename_i ht
    exact inv_next hc h ⟨b, ht, rfl⟩
  · rename_i h1 h2 h3 h4 h5 h6
    refine ⟨c ++ [b], [], by simp, ?_, rfl⟩
    simp only [List.append_nil]
    refine h.unknown ?_
    have g1 : b.toNat / 16 ≠ 1 := h1
    have g2 : b.toNat / 16 ≠ 2 := h2
    have g3 : b.toNat / 16 ≠ 3 := h3
    have g4 : b.toNat / 16 ≠ 4 := h4
    have g5 : b.toNat / 16 ≠ 5 := h5
    have g6 : b.toNat / 16 ≠ 6 := h6
    unfold typeOf
    omega

theorem inv_step {c : Bytes} {es : List Event} {p : Phase} (h : Inv c es p) (b : UInt8) :
    Inv (c ++ [b]) (es ++ (step cfg p b).2) (step cfg p b).1 := by
  have h0 := h
  obtain ⟨w, x, hc, h1, h2⟩ := h
  cases p
  case sync1 =>
    simp only [step]
    split
    · rename_i hb
      rw [h2] at hc
      exact inv_next hc h1 (by rw [hb]; rfl)
    · exact h0.lost b _ (.inl rfl)
  case sync2 =>
    simp only [step]
    split
    · rename_i hb
      exact inv_next hc h1 (by rw [show x = [0x64] from h2, hb]; rfl)
    · exact h0.resync b
  case sync3 =>
    simp only [step]
    split
    · rename_i hb
      exact inv_next hc h1 (by rw [show x = _ from h2, hb]; rfl)
    · exact h0.resync b
  case sync4 =>
    simp only [step]
    split
    · rename_i hb
      exact inv_next hc h1 (by rw [show x = _ from h2, hb]; rfl)
    · exact h0.resync b
  case version =>
    simp only [step]
    split
    · rename_i hb
      exact inv_next hc h1 (by rw [show x = _ from h2, hb]; rfl)
    · exact h0.resync b
  case flags => exact inv_next hc h1 (by rw [show x = _ from h2]; rfl)
  case keep1 f => exact inv_next hc h1 (by rw [show x = _ from h2]; rfl)
  case keep2 f hi => exact inv_next hc h1 ⟨hi, b, rfl, by rw [show x = _ from h2]; rfl⟩
  case eidLen f k tmp =>
    obtain ⟨hi, lo, hk, hx⟩ := h2
    refine inv_sdnv h0 ?_ ?_
    · simpa using inv_next (q := .eidLen f k (tmp ++ [b])) (b := b) hc h1 ⟨hi, lo, hk, by rw [hx]; simp⟩
    · intro v hv
      simp only
      split
      · exact h0.lost b _ (.inr rfl)
      · exact inv_next hc h1 ⟨hi, lo, _, hk, hv, by rw [hx]; simp⟩
  case eid f k len got =>
    obtain ⟨hi, lo, p, hk, hp, hx⟩ := h2
    simp only [step]
    split
    · rename_i hl
      refine ⟨w ++ (x ++ [b]), [], by rw [hc]; simp, ?_, rfl⟩
      refine h1.contact ?_
      rw [hx, hk]
      have := IsContact.mk f hi lo p (got ++ [b]) (by rw [hl]; exact hp) (by simp)
      simpa using this
    · exact inv_next hc h1 ⟨hi, lo, p, hk, hp, by rw [hx]; simp⟩
  case msg =>
    rw [show x = [] from h2, List.append_nil] at hc
    subst hc
    exact inv_typeByte h1
  case dataLen s e tmp =>
    obtain ⟨t, ht, hs, he, hx⟩ := h2
    refine inv_sdnv h0 ?_ ?_
    · simpa using inv_next (q := .dataLen s e (tmp ++ [b])) (b := b) hc h1 ⟨t, ht, hs, he, by rw [hx]; simp⟩
    · intro v hv
      simp only [startContents]
      split
      · exact h0.lost b _ (.inl rfl)
      · simp only
        split
        · exact h0.lost b _ (.inr rfl)
        · exact inv_next hc h1 ⟨t, _, ht, hs, he, hv, by rw [hx]; simp⟩
  case data s e len got =>
    obtain ⟨t, p, ht, hs, he, hp, hx⟩ := h2
    simp only [step]
    split
    · rename_i hl
      refine inv_message hc h1 ?_ rfl rfl
      have := IsMessage.data t p (got ++ [b]) ht (by rw [hl]; exact hp) (by simp)
      rw [hx, hs, he]
      simpa using this
    · exact inv_next hc h1 ⟨t, p, ht, hs, he, hp, by rw [hx]; simp⟩
  case ack tmp =>
    obtain ⟨t, ht, hx⟩ := h2
    refine inv_sdnv h0 ?_ ?_
    · simpa using inv_next (q := .ack (tmp ++ [b])) (b := b) hc h1 ⟨t, ht, by rw [hx]; simp⟩
    · intro v hv
      exact inv_message hc h1 (by rw [hx]; exact .ack t _ v ht hv) rfl rfl
  case length tmp =>
    obtain ⟨t, ht, hx⟩ := h2
    refine inv_sdnv h0 ?_ ?_
    · simpa using inv_next (q := .length (tmp ++ [b])) (b := b) hc h1 ⟨t, ht, by rw [hx]; simp⟩
    · intro v hv
      exact inv_message hc h1 (by rw [hx]; exact .length t _ v ht hv) rfl rfl
  case reason d =>
    obtain ⟨t, ht, ha, hb, hx⟩ := h2
    simp only [step]
    split
    · rename_i hd
      subst hd
      exact inv_next hc h1 ⟨t, ht, ha, hb, by rw [hx]; rfl⟩
    · rename_i hd
      simp only [Bool.not_eq_true] at hd
      subst hd
      exact inv_message hc h1 (by rw [hx]; exact .shutdownReason t b ht ha hb) rfl rfl
  case delay r tmp =>
    cases r with
    | none =>
      obtain ⟨t, ht, ha, hb, hx⟩ := h2
      refine inv_sdnv h0 ?_ ?_
      · simpa using inv_next (q := .delay none (tmp ++ [b])) (b := b) hc h1 ⟨t, ht, ha, hb, by rw [hx]; simp⟩
      · intro v hv
        exact inv_message hc h1 (by rw [hx]; exact .shutdownDelay t _ v ht ha hb hv) rfl rfl
    | some r =>
      obtain ⟨t, ht, ha, hb, hx⟩ := h2
      refine inv_sdnv h0 ?_ ?_
      · simpa using inv_next (q := .delay (some r) (tmp ++ [b])) (b := b) hc h1 ⟨t, ht, ha, hb, by rw [hx]; simp⟩
      · intro v hv
        exact inv_message hc h1 (by rw [hx]; exact .shutdownBoth t r _ v ht ha hb hv) rfl rfl
  case thrown => exact h0.lost b _ (.inr rfl)

theorem inv_slow {c : Bytes} {es : List Event} {p : Phase} (h : Inv c es p) (w : Bytes) :
    Inv (c ++ w) (es ++ (slow cfg p w).1) (slow cfg p w).2 := by
  induction w generalizing c es p with
  | nil => simpa [slow] using h
  | cons b bs ih =>
    have := ih (inv_step (cfg := cfg) h b)
    simpa [slow] using this

theorem inv_round {c : Bytes} {es : List Event} {p : Phase} (h : Inv c es p) (b : UInt8) (rest : Bytes) :
    ∃ w, rest = w ++ (round cfg p b rest).2 ∧
      Inv (c ++ b :: w) (es ++ (round cfg p b rest).1.2) (round cfg p b rest).1.1 := by
  obtain ⟨w, hw, hr⟩ := round_slow (cfg := cfg) p b rest
  rcases hr with hr | ⟨-, hr⟩
  · refine ⟨w, hw, ?_⟩
    have := inv_slow (cfg := cfg) h (b :: w)
    rw [hr] at this
    exact this
  · by_cases hm : p = .msg
    · subst hm
      by_cases hc : (b >>> 4).toNat = 1 ∧ 16 ≤ rest.length
      · cases hrd : readSdnv rest with
        | none =>
          have e : round cfg .msg b rest = ((.sync1, []), rest) := by
            simp only [round]; rw [if_pos hc, hrd]
          rw [e]
          exact ⟨[], rfl, h.lost b _ (.inl rfl)⟩
        | some x =>
          obtain ⟨len, rest'⟩ := x
          have e : round cfg .msg b rest = ((startContents cfg (startFlag b) (endFlag b) len, []), rest') := by
            simp only [round]; rw [if_pos hc, hrd]
          obtain ⟨q, h1, h2⟩ := (readSdnv_iff rest len rest').1 hrd
          rw [e]
          refine ⟨q, h1, ?_⟩
          simp only [startContents, List.append_nil]
          split
          · simpa using h.drop (b :: q) [] (q := .thrown) rfl rfl
          · obtain ⟨w', x, hc', h3, h4⟩ := h
            rw [show x = [] from h4, List.append_nil] at hc'
            subst hc'
            refine ⟨c, b :: q, rfl, h3, b, q, ?_, (flags_eq b).1, (flags_eq b).2.1, h2, by simp⟩
            unfold typeOf
            rw [← (flags_eq b).2.2.1, hc.1]
      · have e : round cfg .msg b rest = (step cfg .msg b, rest) := by
          simp only [round, if_neg hc, step]
        rw [e]
        exact ⟨[], rfl, inv_step (cfg := cfg) h b⟩
    · -- only the shortcut can go past a refusal
      cases p
      case msg => exact absurd rfl hm
      case data s e len got =>
        by_cases hl : (got ++ [b]).length = len
        · have e' : round cfg (.data s e len got) b rest = (step cfg (.data s e len got) b, rest) := by
            simp only [round]; rw [if_pos hl]
          rw [e']
          exact ⟨[], rfl, inv_step (cfg := cfg) h b⟩
        · have e' : round cfg (.data s e len got) b rest =
              ((.data s e len (got ++ [b] ++ rest.take (bulk len (got ++ [b]).length rest.length)), []),
                rest.drop (bulk len (got ++ [b]).length rest.length)) := by
            simp only [round]; rw [if_neg hl]
          rw [e']
          refine ⟨rest.take (bulk len (got ++ [b]).length rest.length), by simp, ?_⟩
          obtain ⟨w', x, hc', h3, t, q, h4, h5, h6, h7, h8⟩ := h
          refine ⟨w', x ++ b :: rest.take (bulk len (got ++ [b]).length rest.length), by rw [hc']; simp,
            by simp only [List.append_nil]; exact h3, t, q, h4, h5, h6, h7, by rw [h8]; simp⟩
      all_goals exact ⟨[], rfl, inv_step (cfg := cfg) h b⟩

theorem inv_loop : ∀ (n : Nat) (c : Bytes) (es : List Event) (p : Phase) (buf : Bytes), buf.length ≤ n → Inv c es p →
    Inv (c ++ buf) (es ++ (loop cfg n p buf).1) (loop cfg n p buf).2 := by
  intro n
  induction n with
  | zero =>
    intro c es p buf h hi
    have : buf = [] := List.length_eq_zero_iff.1 (by omega)
    subst this
    simpa [loop] using hi
  | succ n ih =>
    intro c es p buf h hi
    cases buf with
    | nil => simpa [loop] using hi
    | cons b rest =>
      obtain ⟨w, h1, h2⟩ := inv_round (cfg := cfg) hi b rest
      have hlen := round_length (cfg := cfg) p b rest
      simp only [List.length_cons] at h
      have h3 := ih _ _ _ (round cfg p b rest).2 (by omega) h2
      simp only [loop]
      have e : c ++ b :: rest = c ++ b :: w ++ (round cfg p b rest).2 := by
        rw [List.append_assoc, List.cons_append, ← h1]
      rw [e]
      simpa using h3

theorem inv_feedAll (bufs : List Bytes) : ∀ (c : Bytes) (es : List Event) (p : Phase), Inv c es p →
    Inv (c ++ bufs.flatten) (es ++ (feedAll cfg p bufs).1) (feedAll cfg p bufs).2 := by
  induction bufs with
  | nil => intro c es p h; simpa [feedAll] using h
  | cons buf bufs ih =>
    intro c es p h
    have h1 := inv_loop (cfg := cfg) buf.length c es p buf (Nat.le_refl _) h
    have h2 := ih _ _ _ h1
    simpa [feedAll, feed] using h2

theorem inv_start : Inv [] [] start := ⟨[], [], rfl, .nil, rfl⟩

/-! ### The limit -/

/-- Contents that are being read keep to the limit. -/
def Limited (cfg : Cfg) : Phase → Prop
  | .data _ _ len _ => len ≤ cfg.max
  | _ => True

/-- A reported data segment keeps to the limit. -/
def WithinLimit (cfg : Cfg) : Event → Prop
  | .data c _ _ => c.length ≤ cfg.max
  | _ => True

theorem limited_sdnv {tmp : Bytes} {b : UInt8} {ph : Bytes → Phase} {done : Nat → Phase × List Event}
    (hm : Limited cfg (ph (tmp ++ [b])))
    (hd : ∀ v, Limited cfg (done v).1 ∧ ∀ e ∈ (done v).2, WithinLimit cfg e) :
    Limited cfg (sdnvStep tmp b ph done).1 ∧ ∀ e ∈ (sdnvStep tmp b ph done).2, WithinLimit cfg e := by
  rcases sdnvStep_cases tmp b ph done with e | e | ⟨v, -, e⟩
  · rw [e]; exact ⟨trivial, by simp⟩
  · rw [e]; exact ⟨hm, by simp⟩
  · rw [e]; exact hd v

theorem limited_resync (b : UInt8) : Limited cfg (resync b) := by
  unfold resync; split <;> trivial

theorem limited_step {p : Phase} (h : Limited cfg p) (b : UInt8) :
    Limited cfg (step cfg p b).1 ∧ ∀ e ∈ (step cfg p b).2, WithinLimit cfg e := by
  cases p
  case sync1 => simp only [step]; split <;> exact ⟨trivial, by simp⟩
  case sync2 => simp only [step]; split <;> [exact ⟨trivial, by simp⟩; exact ⟨limited_resync b, by simp⟩]
  case sync3 => simp only [step]; split <;> [exact ⟨trivial, by simp⟩; exact ⟨limited_resync b, by simp⟩]
  case sync4 => simp only [step]; split <;> [exact ⟨trivial, by simp⟩; exact ⟨limited_resync b, by simp⟩]
  case version => simp only [step]; split <;> [exact ⟨trivial, by simp⟩; exact ⟨limited_resync b, by simp⟩]
  case flags => exact ⟨trivial, by simp [step]⟩
  case keep1 f => exact ⟨trivial, by simp [step]⟩
  case keep2 f hi => exact ⟨trivial, by simp [step]⟩
  case eidLen f k tmp =>
    refine limited_sdnv trivial fun v => ?_
    simp only
    split <;> exact ⟨trivial, by simp⟩
  case eid f k len got =>
    simp only [step]
    split
    · exact ⟨trivial, by simp [WithinLimit]⟩
    · exact ⟨trivial, by simp⟩
  case msg =>
    simp only [step, typeByte]
    split
    case h_5 =>
      split
      · exact ⟨trivial, by simp⟩
      · split
        · exact ⟨trivial, by simp⟩
        · exact ⟨trivial, by simp [WithinLimit]⟩
    all_goals exact ⟨trivial, by simp [WithinLimit]⟩
  case dataLen s e tmp =>
    refine limited_sdnv trivial fun v => ?_
    simp only [startContents]
    split
    · exact ⟨trivial, by simp⟩
    · rename_i hv
      simp only
      split
      · exact ⟨trivial, by simp⟩
      · exact ⟨by simp only [Limited]; omega, by simp⟩
  case data s e len got =>
    simp only [step]
    split
    · rename_i hl
      refine ⟨trivial, ?_⟩
      intro x hx
      simp only [List.mem_singleton] at hx
      subst hx
      have : len ≤ cfg.max := h
      simp only [WithinLimit]
      omega
    · exact ⟨h, by simp⟩
  case ack tmp => exact limited_sdnv trivial fun v => ⟨trivial, by simp [WithinLimit]⟩
  case length tmp => exact limited_sdnv trivial fun v => ⟨trivial, by simp [WithinLimit]⟩
  case reason d =>
    simp only [step]
    split
    · exact ⟨trivial, by simp⟩
    · exact ⟨trivial, by simp [WithinLimit]⟩
  case delay r tmp => exact limited_sdnv trivial fun v => ⟨trivial, by simp [WithinLimit]⟩
  case thrown => exact ⟨trivial, by simp [step]⟩

theorem limited_slow (w : Bytes) : ∀ {p : Phase}, Limited cfg p →
    Limited cfg (slow cfg p w).2 ∧ ∀ e ∈ (slow cfg p w).1, WithinLimit cfg e := by
  induction w with
  | nil => intro p h; exact ⟨h, by simp [slow]⟩
  | cons b bs ih =>
    intro p h
    obtain ⟨h1, h2⟩ := limited_step h b
    obtain ⟨h3, h4⟩ := ih h1
    refine ⟨h3, ?_⟩
    intro e he
    simp only [slow, List.mem_append] at he
    rcases he with he | he
    · exact h2 e he
    · exact h4 e he

end Hdtn.TcpclV3
