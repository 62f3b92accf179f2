import Verif.TcpclV3.Lemmas

/-! Conforming streams are read. -/

namespace Hdtn.TcpclV3

open Spec Hdtn.Sdnv Hdtn.Sdnv.Spec

variable {cfg : Cfg}

theorem flags_eq (b : UInt8) : startFlag b = b.toNat.testBit 1 ∧ endFlag b = b.toNat.testBit 0 ∧
    (b >>> 4).toNat = b.toNat / 16 ∧ (b &&& 0x0f).toNat = b.toNat % 16 := by
  have h : ∀ k < 256, startFlag (UInt8.ofNat k) = (UInt8.ofNat k).toNat.testBit 1 ∧
      endFlag (UInt8.ofNat k) = (UInt8.ofNat k).toNat.testBit 0 ∧
      (UInt8.ofNat k >>> 4).toNat = (UInt8.ofNat k).toNat / 16 ∧
      (UInt8.ofNat k &&& 0x0f).toNat = (UInt8.ofNat k).toNat % 16 := by decide +kernel
  simpa using h b.toNat b.toNat_lt

theorem goes_bytes {p : Bytes → Phase} {f : Bytes → Phase × List Event} {len : Nat}
    (hp : ∀ got b, step cfg (p got) b = if (got ++ [b]).length = len then f (got ++ [b]) else (p (got ++ [b]), []))
    (hr : ∀ got b, refuses cfg (p got) b = false) (d : Bytes) : ∀ got : Bytes, d ≠ [] → (got ++ d).length = len →
    Goes cfg (p got) d (f (got ++ d)).2 (f (got ++ d)).1 := by
  induction d with
  | nil => intro _ h; exact absurd rfl h
  | cons b bs ih =>
    intro got _ hl
    have h1 := hp got b
    by_cases hb : bs = []
    · subst hb
      rw [if_pos (by simpa using hl)] at h1
      exact Goes.one h1 (hr _ _)
    · rw [if_neg] at h1
      · have h2 := ih (got ++ [b]) hb (by simpa using hl)
        have h3 := Goes.cons h1 (hr _ _) h2
        simpa using h3
      · have : 0 < bs.length := List.length_pos_iff.2 hb
        simp only [List.length_append, List.length_cons, List.length_nil] at hl ⊢
        omega

/-- The state of a connection that is down or up. -/
def restState (up : Bool) : Phase := if up then .msg else .sync1

theorem goes_contact {w : Bytes} {e : Event} (h : IsContact w e) (hf : Fits cfg e) : Goes cfg .sync1 w [e] .msg := by
  obtain ⟨f, hi, lo, p, eid, h1, h2⟩ := h
  have hd : Goes cfg .sync1 [0x64, 0x74, 0x6e, 0x21, 3, f, hi, lo] [] (.eidLen f (hi.toNat * 256 + lo.toNat) []) := by
    constructor <;> simp [slow, clean, step, refuses]
  have hn := goes_number (cfg := cfg) (ph := .eidLen f (hi.toNat * 256 + lo.toNat))
    (done := fun len => (if cfg.room < len then .thrown else .eid f (hi.toNat * 256 + lo.toNat) len [], [])) (fun _ _ => rfl) (by simp) h1
    (.inl (by simp))
  have hroom : ¬ cfg.room < eid.length := by
    have : eid.length ≤ cfg.room := hf
    omega
  simp only [if_neg hroom] at hn
  have hb := goes_bytes (cfg := cfg) (p := .eid f (hi.toNat * 256 + lo.toNat) eid.length) (len := eid.length)
    (f := fun got => (.msg, [.contact f (hi.toNat * 256 + lo.toNat) got])) (fun _ _ => rfl) (fun _ _ => rfl) eid []
    h2 (by simp)
  exact hd.append (hn.append hb)

theorem goes_message {w : Bytes} {e : Event} (h : IsMessage w e) (hf : Fits cfg e) :
    Goes cfg .msg w [e] (restState (staysUp e)) := by
  cases h with
  | data t p contents ht h1 h2 =>
    obtain ⟨f1, f2, f3, f4⟩ := flags_eq t
    have ht' : (t >>> 4).toNat = 1 := by rw [f3]; exact ht
    have hd : Goes cfg .msg [t] [] (.dataLen (t.toNat.testBit 1) (t.toNat.testBit 0) []) := by
      refine Goes.one ?_ rfl
      simp only [step, typeByte, ht', f1, f2]
    have hm : ¬ cfg.max < contents.length := by have := hf.1; omega
    have hroom : ¬ cfg.room < contents.length := by have := hf.2; omega
    have hn := goes_number (cfg := cfg) (reads_dataLen (t.toNat.testBit 1) (t.toNat.testBit 0)) (by simp) h1
      (.inr (by simp [hm, startContents, hroom]))
    simp only [if_neg hm, startContents, if_neg hroom] at hn
    have hb := goes_bytes (cfg := cfg) (p := .data (t.toNat.testBit 1) (t.toNat.testBit 0) contents.length)
      (len := contents.length) (f := fun got => (.msg, [.data got (t.toNat.testBit 1) (t.toNat.testBit 0)]))
      (fun _ _ => rfl) (fun _ _ => rfl) contents [] h2 (by simp)
    exact hd.append (hn.append hb)
  | ack t p n ht h1 =>
    have ht' : (t >>> 4).toNat = 2 := by rw [(flags_eq t).2.2.1]; exact ht
    have hd : Goes cfg .msg [t] [] (.ack []) := Goes.one (by simp only [step, typeByte, ht']) rfl
    exact hd.append (goes_number (cfg := cfg) (ph := .ack) (done := fun n => (.msg, [.ack n])) (fun _ _ => rfl) (by simp) h1 (.inl (by simp)))
  | refusal t ht =>
    have ht' : (t >>> 4).toNat = 3 := by rw [(flags_eq t).2.2.1]; exact ht
    exact Goes.one (by simp only [step, typeByte, ht', (flags_eq t).2.2.2]; rfl) rfl
  | keepAlive t ht =>
    have ht' : (t >>> 4).toNat = 4 := by rw [(flags_eq t).2.2.1]; exact ht
    exact Goes.one (by simp only [step, typeByte, ht']; rfl) rfl
  | shutdown t ht ha hb =>
    have ht' : (t >>> 4).toNat = 5 := by rw [(flags_eq t).2.2.1]; exact ht
    exact Goes.one (by simp [step, typeByte, ht', (flags_eq t).1, (flags_eq t).2.1, ha, hb, restState, staysUp]) rfl
  | shutdownReason t r ht ha hb =>
    have ht' : (t >>> 4).toNat = 5 := by rw [(flags_eq t).2.2.1]; exact ht
    have hd : Goes cfg .msg [t] [] (.reason false) :=
      Goes.one (by simp only [step, typeByte, ht', (flags_eq t).1, (flags_eq t).2.1, ha, hb]; rfl) rfl
    exact hd.append (Goes.one rfl rfl)
  | shutdownDelay t p n ht ha hb h1 =>
    have ht' : (t >>> 4).toNat = 5 := by rw [(flags_eq t).2.2.1]; exact ht
    have hd : Goes cfg .msg [t] [] (.delay none []) :=
      Goes.one (by simp [step, typeByte, ht', (flags_eq t).1, (flags_eq t).2.1, ha, hb]) rfl
    exact hd.append (goes_number (cfg := cfg) (ph := .delay none)
      (done := fun n => (.sync1, [.shutdown none (some n)])) (fun _ _ => rfl) (by simp) h1 (.inl (by simp)))
  | shutdownBoth t r p n ht ha hb h1 =>
    have ht' : (t >>> 4).toNat = 5 := by rw [(flags_eq t).2.2.1]; exact ht
    have hd : Goes cfg .msg [t] [] (.reason true) :=
      Goes.one (by simp only [step, typeByte, ht', (flags_eq t).1, (flags_eq t).2.1, ha, hb]; rfl) rfl
    have hr : Goes cfg (.reason true) [r] [] (.delay (some r) []) := Goes.one rfl rfl
    exact hd.append (hr.append
      (goes_number (cfg := cfg) (ph := .delay (some r))
      (done := fun n => (.sync1, [.shutdown (some r) (some n)])) (fun _ _ => rfl) (by simp) h1 (.inl (by simp))))
  | length t p n ht h1 =>
    have ht' : (t >>> 4).toNat = 6 := by rw [(flags_eq t).2.2.1]; exact ht
    have hd : Goes cfg .msg [t] [] (.length []) := Goes.one (by simp only [step, typeByte, ht']) rfl
    exact hd.append (goes_number (cfg := cfg) (ph := .length) (done := fun n => (.msg, [.length n])) (fun _ _ => rfl) (by simp) h1 (.inl (by simp)))

theorem goes_conforms {up up' : Bool} {w : Bytes} {es : List Event} (h : Conforms up w es up')
    (hf : ∀ e ∈ es, Fits cfg e) : Goes cfg (restState up) w es (restState up') := by
  induction h with
  | nil => exact .nil _
  | @contact w ws e es up hc _ ih =>
    exact (goes_contact hc (hf e (by simp))).append (ih fun x hx => hf x (by simp [hx]))
  | @message w ws e es up hc _ ih =>
    exact (goes_message hc (hf e (by simp))).append (ih fun x hx => hf x (by simp [hx]))

/-! ### The generators -/

theorem header_facts (type : UInt8) (flags : UInt8) (ht : type.toNat < 16) (hf : flags.toNat < 16) :
    (header type flags).toNat = 16 * type.toNat + flags.toNat := by
  have h : ∀ a < 16, ∀ b < 16, (header (UInt8.ofNat a) (UInt8.ofNat b)).toNat = 16 * a + b := by decide +kernel
  have := h _ ht _ hf
  simpa using this

theorem twoFlags_facts (a b : Bool) : (twoFlags a b).toNat < 16 ∧ (twoFlags a b).toNat.testBit 1 = a ∧
    (twoFlags a b).toNat.testBit 0 = b := by
  cases a <;> cases b <;> decide

theorem header_two (type : UInt8) (ht : type.toNat < 16) (a b : Bool) :
    typeOf (header type (twoFlags a b)) = type.toNat ∧ (header type (twoFlags a b)).toNat.testBit 1 = a ∧
      (header type (twoFlags a b)).toNat.testBit 0 = b := by
  have h : ∀ k < 16, typeOf (header (UInt8.ofNat k) (twoFlags a b)) = k ∧
      (header (UInt8.ofNat k) (twoFlags a b)).toNat.testBit 1 = a ∧
      (header (UInt8.ofNat k) (twoFlags a b)).toNat.testBit 0 = b := by
    cases a <;> cases b <;> decide +kernel
  simpa using h _ ht

theorem isContact_gen (flags : UInt8) (k : Nat) (eid : Bytes) (hk : k < 2 ^ 16) (he : eid ≠ [])
    (hl : eid.length < 2 ^ 64) : IsContact (genContact flags k eid) (.contact flags k eid) := by
  have h := IsContact.mk flags (UInt8.ofNat (k % 2 ^ 16 / 256)) (UInt8.ofNat (k % 256)) _ eid (isSdnv64_encode _ hl) he
  have e : (UInt8.ofNat (k % 2 ^ 16 / 256)).toNat * 256 + (UInt8.ofNat (k % 256)).toNat = k := by
    simp only [UInt8.toNat_ofNat']
    omega
  rw [e] at h
  exact h

theorem isMessage_data (s e : Bool) (c : Bytes) (h0 : c ≠ []) (hl : c.length < 2 ^ 64) :
    IsMessage (genData s e c) (.data c s e) := by
  obtain ⟨h1, h2, h3⟩ := header_two 1 (by decide) s e
  have h := IsMessage.data _ _ c h1 (isSdnv64_encode _ hl) h0
  rw [h2, h3] at h
  exact h

theorem isMessage_ack (n : Nat) (hn : n < 2 ^ 64) : IsMessage (genAck n) (.ack n) :=
  .ack _ _ n (by decide) (isSdnv64_encode _ hn)

theorem isMessage_length (n : Nat) (hn : n < 2 ^ 64) : IsMessage (genLength n) (.length n) :=
  .length _ _ n (by decide) (isSdnv64_encode _ hn)

theorem isMessage_keepAlive : IsMessage genKeepAlive .keepAlive := .keepAlive _ (by decide)

theorem isMessage_refusal (c : UInt8) (hc : c.toNat < 16) : IsMessage (genRefusal c) (.refusal c.toNat) := by
  have h1 := header_facts 3 c (by decide) hc
  have h := IsMessage.refusal (header 3 c) (by
    unfold typeOf; rw [h1]; have : (3 : UInt8).toNat = 3 := by decide
    omega)
  have e : (header 3 c).toNat % 16 = c.toNat := by rw [h1]; omega
  rw [e] at h
  exact h

theorem isMessage_shutdown (r : Option UInt8) (d : Option Nat) (hd : ∀ n, d = some n → n < 2 ^ 64) :
    IsMessage (genShutdown r d) (.shutdown r d) := by
  obtain ⟨h1, h2, h3⟩ := header_two 5 (by decide) r.isSome d.isSome
  cases r with
  | none =>
    cases d with
    | none => exact .shutdown _ h1 h2 h3
    | some n => exact .shutdownDelay _ _ n h1 h2 h3 (isSdnv64_encode _ (hd n rfl))
  | some r =>
    cases d with
    | none => exact .shutdownReason _ r h1 h2 h3
    | some n => exact .shutdownBoth _ r _ n h1 h2 h3 (isSdnv64_encode _ (hd n rfl))

theorem conforms_generate (es : List Event) : ∀ up, Ordered up es → (∀ e ∈ es, Sendable e) →
    ∃ up', Conforms up (es.flatMap generate) es up' := by
  induction es with
  | nil => intro up _ _; exact ⟨up, .nil up⟩
  | cons e es ih =>
    intro up h hs
    obtain ⟨h1, h2⟩ := h
    obtain ⟨up', h3⟩ := ih _ h2 fun x hx => hs x (by simp [hx])
    have he := hs e (by simp)
    refine ⟨up', ?_⟩
    rw [List.flatMap_cons]
    cases e with
    | contact f k eid =>
      have : up = false := by simpa [opens] using h1
      subst this
      exact .contact (isContact_gen f k eid he.1 he.2.1 he.2.2) h3
    | data c s e =>
      have : up = true := by simpa [opens] using h1
      subst this
      exact .message (isMessage_data s e c he.1 he.2) h3
    | ack n =>
      have : up = true := by simpa [opens] using h1
      subst this
      exact .message (isMessage_ack n he) h3
    | refusal c =>
      have : up = true := by simpa [opens] using h1
      subst this
      have hc : c < 16 := he
      have h4 := isMessage_refusal (UInt8.ofNat c) (by simp only [UInt8.toNat_ofNat']; omega)
      have e : (UInt8.ofNat c).toNat = c := by simp only [UInt8.toNat_ofNat']; omega
      rw [e] at h4
      exact .message h4 h3
    | length n =>
      have : up = true := by simpa [opens] using h1
      subst this
      exact .message (isMessage_length n he) h3
    | keepAlive =>
      have : up = true := by simpa [opens] using h1
      subst this
      exact .message isMessage_keepAlive h3
    | shutdown r d =>
      have : up = true := by simpa [opens] using h1
      subst this
      exact .message (isMessage_shutdown r d he) h3

end Hdtn.TcpclV3
