import Verif.TcpclV3.Spec
import Verif.LtpWire.Lemmas

/-! The parser byte by byte, and the turns of the loop as sequences of its steps. -/

namespace Hdtn.TcpclV3

open Spec Hdtn.Sdnv Hdtn.Sdnv.Spec
open Hdtn.LtpWire (wellFormed_split first_low decode_whole)

/-- The parser byte by byte. -/
def slow (cfg : Cfg) : Phase → Bytes → List Event × Phase
  | p, [] => ([], p)
  | p, b :: rest => ((step cfg p b).2 ++ (slow cfg (step cfg p b).1 rest).1, (slow cfg (step cfg p b).1 rest).2)

/-- This byte ends a length of a data segment that is refused. -/
def refuses (cfg : Cfg) : Phase → UInt8 → Bool
  | .dataLen s e tmp, b => (step cfg (.dataLen s e tmp) b).1 == .sync1
  | _, _ => false

/-- No length of a data segment is refused. -/
def clean (cfg : Cfg) : Phase → Bytes → Bool
  | _, [] => true
  | p, b :: rest => !refuses cfg p b && clean cfg (step cfg p b).1 rest

variable {cfg : Cfg}

theorem slow_append (a b : Bytes) : ∀ p, slow cfg p (a ++ b) =
    ((slow cfg p a).1 ++ (slow cfg (slow cfg p a).2 b).1, (slow cfg (slow cfg p a).2 b).2) := by
  induction a with
  | nil => intro p; simp [slow]
  | cons c cs ih => intro p; simp [slow, ih]

theorem clean_append (a b : Bytes) : ∀ p, clean cfg p (a ++ b) = (clean cfg p a && clean cfg (slow cfg p a).2 b) := by
  induction a with
  | nil => intro p; simp [clean, slow]
  | cons c cs ih => intro p; simp [slow, clean, ih, Bool.and_assoc]

/-- The bytes lead from one state to another, with these events and without a refusal. -/
def Goes (cfg : Cfg) (p : Phase) (w : Bytes) (es : List Event) (q : Phase) : Prop :=
  slow cfg p w = (es, q) ∧ clean cfg p w = true

theorem Goes.nil (p : Phase) : Goes cfg p [] [] p := ⟨rfl, rfl⟩

theorem Goes.append {p q r : Phase} {a b : Bytes} {es fs : List Event} (h : Goes cfg p a es q)
    (h' : Goes cfg q b fs r) : Goes cfg p (a ++ b) (es ++ fs) r := by
  refine ⟨?_, ?_⟩
  · rw [slow_append, h.1]; simp only; rw [h'.1]
  · rw [clean_append, h.2, h.1]; simpa using h'.2

theorem Goes.cons {p q r : Phase} {b : UInt8} {w : Bytes} {es fs : List Event} (h : step cfg p b = (q, es))
    (hr : refuses cfg p b = false) (h' : Goes cfg q w fs r) : Goes cfg p (b :: w) (es ++ fs) r := by
  refine ⟨?_, ?_⟩
  · simp only [slow]; rw [h]; simp only; rw [h'.1]
  · simp only [clean]; rw [h, hr]; simpa using h'.2

theorem Goes.one {p q : Phase} {b : UInt8} {es : List Event} (h : step cfg p b = (q, es))
    (hr : refuses cfg p b = false) : Goes cfg p [b] es q := by
  simpa using Goes.cons h hr (.nil q)

/-! ### Numbers -/

variable {ph : Bytes → Phase} {done : Nat → Phase × List Event}

theorem sdnvStep_more {tmp : Bytes} {b : UInt8} (hl : tmp.length < 10) (hb : 128 ≤ b.toNat) :
    sdnvStep tmp b ph done = (ph (tmp ++ [b]), []) := by
  unfold sdnvStep
  simp only [List.length_append, List.length_cons, List.length_nil]
  rw [if_neg (by omega), if_neg (by omega)]

theorem sdnvStep_done {tmp : Bytes} {b : UInt8} {v : Nat} (h : IsSdnv64 (tmp ++ [b]) v) (hb : b.toNat < 128) :
    sdnvStep tmp b ph done = done v := by
  obtain ⟨h1, h2⟩ := (decode_whole _ _).2 h
  have := h.1
  unfold sdnvStep
  simp only [h1]
  rw [if_neg (by omega), if_pos hb, if_neg h2, if_neg (by simp)]

theorem sdnvStep_bad {tmp : Bytes} {b : UInt8} (h : ∀ v, ¬ IsSdnv64 (tmp ++ [b]) v) (hb : b.toNat < 128) :
    sdnvStep tmp b ph done = (.sync1, []) := by
  unfold sdnvStep
  simp only [hb, if_true]
  split
  · rfl
  · split
    · rfl
    · rw [if_pos]
      intro h2
      apply h (decodeU64Classic (tmp ++ [b])).1
      rw [← decode_whole]
      exact ⟨Prod.ext rfl h2, by simp⟩

theorem sdnvStep_full {tmp : Bytes} {b : UInt8} (h : tmp.length = 10) : sdnvStep tmp b ph done = (.sync1, []) := by
  unfold sdnvStep
  simp only [List.length_append, List.length_cons, List.length_nil]
  rw [if_pos (by omega)]

/-- What an SDNV step can lead to. -/
theorem sdnvStep_cases (tmp : Bytes) (b : UInt8) (ph : Bytes → Phase) (done : Nat → Phase × List Event) :
    sdnvStep tmp b ph done = (.sync1, []) ∨
    (sdnvStep tmp b ph done = (ph (tmp ++ [b]), [])) ∨
    ∃ v, IsSdnv64 (tmp ++ [b]) v ∧ sdnvStep tmp b ph done = done v := by
  unfold sdnvStep
  simp only
  split
  · exact .inl rfl
  · split
    · split
      · exact .inl rfl
      · split
        · exact .inl rfl
        · rename_i h1 h2
          refine .inr (.inr ⟨_, (decode_whole _ _).1 ⟨Prod.ext rfl ?_, by simp⟩, rfl⟩)
          simpa using h2
    · exact .inr (.inl rfl)

/-- The states `ph tmp` read a number that is handed to `done`. -/
def Reads (cfg : Cfg) (ph : Bytes → Phase) (done : Nat → Phase × List Event) : Prop :=
  ∀ tmp b, step cfg (ph tmp) b = sdnvStep tmp b ph done

theorem refuses_of_more {tmp : Bytes} {b : UInt8} (hr : Reads cfg ph done) (hs : ∀ t, ph t ≠ .sync1)
    (hl : tmp.length < 10) (hb : 128 ≤ b.toNat) : refuses cfg (ph tmp) b = false := by
  have h1 := hr tmp b
  rw [sdnvStep_more hl hb] at h1
  unfold refuses
  split
  · rename_i heq
    rw [← heq, h1]
    simpa using hs _
  · rfl

theorem goes_more (hr : Reads cfg ph done) (hs : ∀ t, ph t ≠ .sync1) (init : Bytes) : ∀ tmp : Bytes,
    (∀ b ∈ init, 128 ≤ b.toNat) → (tmp ++ init).length ≤ 10 → Goes cfg (ph tmp) init [] (ph (tmp ++ init)) := by
  induction init with
  | nil => intro tmp _ _; simpa using Goes.nil (ph tmp)
  | cons b bs ih =>
    intro tmp hb hl
    simp only [List.length_append, List.length_cons] at hl
    have h1 := ih (tmp ++ [b]) (fun x hx => hb x (List.mem_cons_of_mem _ hx))
      (by simp only [List.length_append, List.length_cons, List.length_nil]; omega)
    have h2 := Goes.cons (cfg := cfg) (p := ph tmp) (b := b) (es := [])
      (by rw [hr, sdnvStep_more (by omega) (hb b (by simp))])
      (refuses_of_more hr hs (by omega) (hb b (by simp))) h1
    simpa using h2

/-- A number is read. -/
theorem goes_number (hr : Reads cfg ph done) (hs : ∀ t, ph t ≠ .sync1) {p : Bytes} {v : Nat} (h : IsSdnv64 p v)
    (hd : (∀ s e t t', ph t ≠ .dataLen s e t') ∨ (done v).1 ≠ .sync1) :
    Goes cfg (ph []) p (done v).2 (done v).1 := by
  obtain ⟨init, last, rfl, h2, h3⟩ := wellFormed_split h.2.1
  have hl : init.length + 1 ≤ 10 := by simpa using h.1
  have h4 := goes_more hr hs init [] h2 (by simp; omega)
  have h5 : step cfg (ph init) last = ((done v).1, (done v).2) := by rw [hr, sdnvStep_done h h3]
  have h6 : refuses cfg (ph init) last = false := by
    unfold refuses
    split
    · rename_i s e tmp heq
      rcases hd with hd | hd
      · exact absurd heq (hd s e init tmp)
      · rw [← heq, h5]; simpa using hd
    · rfl
  simpa using h4.append (Goes.one h5 h6)

/-- Bytes that no number begins with. -/
theorem slow_malformed (hr : Reads cfg ph done) (hs : ∀ t, ph t ≠ .sync1) {bs : Bytes} (hl : 11 ≤ bs.length)
    (hm : ∀ p v rest, IsSdnv64 p v → bs ≠ p ++ rest) :
    ∃ init c rest, bs = init ++ c :: rest ∧ slow cfg (ph []) init = ([], ph init) ∧ step cfg (ph init) c = (.sync1, []) := by
  have long : ∀ init : Bytes, (∀ b ∈ init, 128 ≤ b.toNat) → 10 ≤ init.length → ∀ rest, 11 ≤ (init ++ rest).length →
      ∃ i c r, init ++ rest = i ++ c :: r ∧ slow cfg (ph []) i = ([], ph i) ∧ step cfg (ph i) c = (.sync1, []) := by
    intro init h1 h2 rest h0
    have h3 : (init.take 10).length = 10 := by rw [List.length_take]; omega
    have h4 : ∀ b ∈ init.take 10, 128 ≤ b.toNat := fun b hb => h1 b (List.mem_of_mem_take hb)
    have e : init ++ rest = init.take 10 ++ (init.drop 10 ++ rest) := by
      rw [← List.append_assoc, List.take_append_drop]
    cases hd : init.drop 10 ++ rest with
    | nil =>
      have := congrArg List.length hd
      simp only [List.length_append, List.length_drop, List.length_nil] at this h0
      omega
    | cons c cs =>
      refine ⟨init.take 10, c, cs, by rw [e, hd], ?_, ?_⟩
      · have := (goes_more hr hs (init.take 10) [] h4 (by simp [h3])).1
        simpa using this
      · rw [hr, sdnvStep_full h3]
  rcases first_low bs with h | ⟨init, last, rest, rfl, h2, h3⟩
  · simpa using long bs h (by omega) [] (by simpa using hl)
  · by_cases hi : 10 ≤ init.length
    · exact long init h2 hi _ hl
    · refine ⟨init, last, rest, rfl, ?_, ?_⟩
      · have := (goes_more hr hs init [] h2 (by simp; omega)).1
        simpa using this
      · rw [hr, sdnvStep_bad _ h3]
        intro v hv
        exact hm _ v rest hv (by simp)

/-! ### One turn of the loop -/

theorem reads_dataLen (s e : Bool) : Reads cfg (.dataLen s e) fun len =>
    if cfg.max < len then (.sync1, []) else (startContents cfg s e len, []) := fun _ _ => rfl

theorem slow_contents (s e : Bool) (len : Nat) (d : Bytes) : ∀ got : Bytes,
    (∀ k, 0 < k → k ≤ d.length → got.length + k ≠ len) →
    slow cfg (.data s e len got) d = ([], .data s e len (got ++ d)) := by
  induction d with
  | nil => intro got _; simp [slow]
  | cons b bs ih =>
    intro got h
    have h1 : step cfg (.data s e len got) b = (.data s e len (got ++ [b]), []) := by
      simp only [step]
      rw [if_neg]
      have := h 1 (by omega) (by simp)
      simpa using this
    simp only [slow, h1]
    rw [ih]
    · simp
    · intro k hk hk'
      have := h (k + 1) (by omega) (by simp; omega)
      simp only [List.length_append, List.length_cons, List.length_nil]
      omega

/-- A turn of the loop is a sequence of steps, unless a length is refused or would have been. -/
theorem round_slow (p : Phase) (b : UInt8) (rest : Bytes) :
    ∃ w, rest = w ++ (round cfg p b rest).2 ∧
      (slow cfg p (b :: w) = ((round cfg p b rest).1.2, (round cfg p b rest).1.1) ∨
        (16 ≤ rest.length ∧ clean cfg p (b :: rest) = false)) := by
  have plain : (round cfg p b rest) = (step cfg p b, rest) → ∃ w, rest = w ++ (round cfg p b rest).2 ∧
      (slow cfg p (b :: w) = ((round cfg p b rest).1.2, (round cfg p b rest).1.1) ∨
        (16 ≤ rest.length ∧ clean cfg p (b :: rest) = false)) := by
    intro h
    exact ⟨[], by rw [h]; rfl, .inl (by rw [h]; simp [slow])⟩
  cases p
  case msg =>
    by_cases hc : (b >>> 4).toNat = 1 ∧ 16 ≤ rest.length
    · have hb : step cfg .msg b = (.dataLen (startFlag b) (endFlag b) [], []) := by
        simp only [step, typeByte, hc.1]
      cases hrd : readSdnv rest with
      | none =>
        have e : round cfg .msg b rest = ((.sync1, []), rest) := by
          simp only [round]; rw [if_pos hc, hrd]
        refine ⟨[], by rw [e]; rfl, .inr ⟨hc.2, ?_⟩⟩
        obtain ⟨init, c, r, h1, h2, h3⟩ := slow_malformed (cfg := cfg) (reads_dataLen (startFlag b) (endFlag b))
          (by simp) (bs := rest) (by omega) (by
            intro p v r hp h
            rw [(readSdnv_iff rest v r).2 ⟨p, h, hp⟩] at hrd
            simp at hrd)
        simp only [clean, hb]
        rw [h1, clean_append, h2]
        simp only [clean, refuses, h3]
        simp
      | some x =>
        obtain ⟨len, rest'⟩ := x
        have e : round cfg .msg b rest = ((startContents cfg (startFlag b) (endFlag b) len, []), rest') := by
          simp only [round]; rw [if_pos hc, hrd]
        obtain ⟨q, h1, h2⟩ := (readSdnv_iff rest len rest').1 hrd
        refine ⟨q, by rw [e]; exact h1, ?_⟩
        by_cases hm : cfg.max < len
        · right
          refine ⟨hc.2, ?_⟩
          obtain ⟨init, last, rfl, h3, h4⟩ := wellFormed_split h2.2.1
          have hl : init.length + 1 ≤ 10 := by simpa using h2.1
          have h5 := (goes_more (cfg := cfg) (reads_dataLen (startFlag b) (endFlag b)) (by simp) init [] h3
            (by simp; omega)).1
          simp only [clean, hb]
          rw [h1, List.append_assoc, clean_append, h5]
          have h6 : step cfg (.dataLen (startFlag b) (endFlag b) init) last = (.sync1, []) := by
            simp only [step]; rw [sdnvStep_done h2 h4, if_pos hm]
          simp only [List.nil_append, List.cons_append, clean, refuses, h6]
          simp
        · left
          have h5 := (goes_number (cfg := cfg) (reads_dataLen (startFlag b) (endFlag b)) (by simp) h2 (.inr (by
            simp only [if_neg hm, startContents]
            split <;> simp))).1
          simp only [slow, hb, h5, e, if_neg hm]
          simp
    · exact plain (by simp only [round, if_neg hc, step])
  case data s e len got =>
    by_cases hl : (got ++ [b]).length = len
    · exact plain (by simp only [round]; rw [if_pos hl])
    · have e' : round cfg (.data s e len got) b rest =
          ((.data s e len (got ++ [b] ++ rest.take (bulk len (got ++ [b]).length rest.length)), []),
            rest.drop (bulk len (got ++ [b]).length rest.length)) := by
        simp only [round]; rw [if_neg hl]
      refine ⟨rest.take (bulk len (got ++ [b]).length rest.length), by rw [e']; simp, .inl ?_⟩
      have h1 := slow_contents (cfg := cfg) s e len (b :: rest.take (bulk len (got ++ [b]).length rest.length)) got
        (by
          intro k hk hk' h
          simp only [List.length_append, List.length_cons, List.length_nil, List.length_take, bulk] at hl hk'
          split at hk' <;> omega)
      rw [h1, e']
      simp
  all_goals exact plain rfl

theorem round_length (p : Phase) (b : UInt8) (rest : Bytes) : (round cfg p b rest).2.length ≤ rest.length := by
  obtain ⟨w, h, -⟩ := round_slow (cfg := cfg) p b rest
  have := congrArg List.length h
  simp only [List.length_append] at this
  omega

/-- The loop is a sequence of steps, unless a length is refused or would have been. -/
theorem loop_slow : ∀ (n : Nat) (p : Phase) (buf : Bytes), buf.length ≤ n →
    clean cfg p buf = true ∨ buf.length ≤ 16 → loop cfg n p buf = slow cfg p buf := by
  intro n
  induction n with
  | zero =>
    intro p buf h _
    have : buf = [] := List.length_eq_zero_iff.1 (by omega)
    subst this
    rfl
  | succ n ih =>
    intro p buf h hc
    cases buf with
    | nil => rfl
    | cons b rest =>
      obtain ⟨w, h1, h2⟩ := round_slow (cfg := cfg) p b rest
      simp only [List.length_cons] at h hc
      have h3 : slow cfg p (b :: w) = ((round cfg p b rest).1.2, (round cfg p b rest).1.1) := by
        rcases h2 with h2 | h2
        · exact h2
        · rcases hc with hc | hc
          · rw [h2.2] at hc; simp at hc
          · omega
      have hlen := round_length (cfg := cfg) p b rest
      have h4 : clean cfg (round cfg p b rest).1.1 (round cfg p b rest).2 = true ∨ (round cfg p b rest).2.length ≤ 16 := by
        rcases hc with hc | hc
        · left
          have e : b :: rest = (b :: w) ++ (round cfg p b rest).2 := by rw [List.cons_append, ← h1]
          rw [e, clean_append, h3] at hc
          simp only [Bool.and_eq_true] at hc
          exact hc.2
        · right; omega
      have e : slow cfg p (b :: rest) = slow cfg p ((b :: w) ++ (round cfg p b rest).2) := by
        rw [List.cons_append, ← h1]
      rw [e, slow_append, h3]
      simp only [loop]
      rw [ih _ _ (by omega) h4]

theorem feed_slow (p : Phase) (buf : Bytes) (h : clean cfg p buf = true ∨ buf.length ≤ 16) :
    feed cfg p buf = slow cfg p buf := loop_slow _ _ _ (Nat.le_refl _) h

theorem feedAll_slow (bufs : List Bytes) : ∀ (p : Phase),
    clean cfg p bufs.flatten = true ∨ (∀ b ∈ bufs, b.length ≤ 16) → feedAll cfg p bufs = slow cfg p bufs.flatten := by
  induction bufs with
  | nil => intro p _; rfl
  | cons buf bufs ih =>
    intro p h
    have h1 : feed cfg p buf = slow cfg p buf := by
      apply feed_slow
      rcases h with h | h
      · left
        rw [List.flatten_cons, clean_append] at h
        simp only [Bool.and_eq_true] at h
        exact h.1
      · exact .inr (h buf (by simp))
    simp only [feedAll, h1, List.flatten_cons, slow_append]
    rw [ih]
    rcases h with h | h
    · left
      rw [List.flatten_cons, clean_append] at h
      simp only [Bool.and_eq_true] at h
      exact h.2
    · exact .inr fun b hb => h b (by simp [hb])

theorem flatten_bytes (s : Bytes) : (s.map fun b => [b]).flatten = s := by
  induction s with
  | nil => rfl
  | cons b bs ih => simp [ih]

theorem bytewise_eq (p : Phase) (s : Bytes) : bytewise cfg p s = slow cfg p s := by
  unfold bytewise
  rw [feedAll_slow _ _ (.inr (by simp)), flatten_bytes]

theorem noRefusal_iff (s : Bytes) : ∀ p, NoRefusal cfg p s ↔ clean cfg p s = true := by
  intro p
  unfold NoRefusal
  simp only [bytewise_eq]
  constructor
  · intro h
    by_contra hc
    have : ∃ pre b post, s = pre ++ b :: post ∧ refuses cfg (slow cfg p pre).2 b = true := by
      clear h
      induction s generalizing p with
      | nil => simp [clean] at hc
      | cons c cs ih =>
        by_cases hr : refuses cfg p c = true
        · exact ⟨[], c, cs, rfl, by simpa [slow] using hr⟩
        · simp only [Bool.not_eq_true] at hr
          simp only [clean, hr] at hc
          obtain ⟨pre, b, post, h1, h2⟩ := ih _ (by simpa using hc)
          exact ⟨c :: pre, b, post, by rw [h1]; rfl, by simpa [slow] using h2⟩
    obtain ⟨pre, b, post, h1, h2⟩ := this
    unfold refuses at h2
    split at h2
    · rename_i s' e tmp heq
      refine h pre _ post s' e tmp h1 heq ?_
      rw [slow_append]
      simp only [slow]
      rw [heq]
      simpa using h2
    · simp at h2
  · intro h pre b post s' e tmp h1 h2 h3
    subst h1
    rw [clean_append] at h
    simp only [clean, Bool.and_eq_true] at h
    have := h.2.1
    rw [h2] at this
    rw [slow_append] at h3
    simp only [slow, h2] at h3
    simp [refuses, h3] at this

end Hdtn.TcpclV3
