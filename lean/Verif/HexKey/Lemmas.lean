import Verif.HexKey.Spec

namespace Hdtn.HexKey

open Hdtn.HexKey.Spec

theorem all_bytes (P : UInt8 → Prop) (h : ∀ n : Fin 256, P (UInt8.ofNat n.val)) (c : UInt8) : P c := by
  have := h ⟨c.toNat, c.toNat_lt⟩
  simpa using this

theorem digit_value (c : UInt8) : unhexDigit c = value c := by
  revert c
  exact all_bytes _ (by decide +kernel)

theorem value_lt (c : UInt8) (x : Nat) (h : value c = some x) : x < 16 := by
  have key : ∀ c : UInt8, (value c).all (· < 16) = true := all_bytes _ (by decide +kernel)
  have := key c
  rw [h] at this
  simpa using this

theorem digit_hex (n : Nat) (h : n < 16) : unhexDigit (hexDigit n) = some n := by
  have key : ∀ m : Fin 16, unhexDigit (hexDigit m.val) = some m.val := by decide +kernel
  exact key ⟨n, h⟩

theorem value_space (c : UInt8) (h : isSpace c = true) : value c = none := by
  have key : ∀ c : UInt8, isSpace c = true → value c = none := all_bytes _ (by decide +kernel)
  exact key c h

theorem isSpace_iff (c : UInt8) : isSpace c = true ↔ (c = 32 ∨ c = 9 ∨ c = 10 ∨ c = 11 ∨ c = 12 ∨ c = 13) := by
  revert c
  exact all_bytes _ (by decide +kernel)

theorem unhex_hex (bs : Bytes) : unhex (hex bs) = some bs := by
  induction bs with
  | nil => rfl
  | cons b bs ih =>
    have hb := b.toNat_lt
    simp only [hex, unhex, ih]
    rw [digit_hex _ (by omega), digit_hex _ (by omega)]
    simp only
    have : 16 * (b.toNat / 16) + b.toNat % 16 = b.toNat := by omega
    rw [this]
    simp

theorem represents_of_unhex : ∀ (s bs : Bytes), unhex s = some bs → Represents s bs
  | [], bs, h => by
    have := Option.some.inj h
    subst this
    exact .nil
  | [_], bs, h => by cases h
  | a :: b :: s, bs, h => by
    unfold unhex at h
    cases hx : unhexDigit a with
    | none => rw [hx] at h; simp at h
    | some x =>
      cases hy : unhexDigit b with
      | none => rw [hx, hy] at h; simp at h
      | some y =>
        cases hs : unhex s with
        | none => rw [hx, hy, hs] at h; simp at h
        | some l =>
          rw [hx, hy, hs] at h
          have := Option.some.inj h
          subst this
          rw [digit_value] at hx hy
          have h1 := value_lt a x hx
          have h2 := value_lt b y hy
          refine .cons hx hy ?_ (represents_of_unhex s l hs)
          rw [UInt8.toNat_ofNat']
          omega

theorem unhex_of_represents (s bs : Bytes) (h : Represents s bs) : unhex s = some bs := by
  induction h with
  | nil => rfl
  | cons hx hy hb _ ih =>
    unfold unhex
    rw [digit_value, digit_value, hx, hy, ih]
    simp only
    rw [← hb]
    simp

theorem represents_length (s bs : Bytes) (h : Represents s bs) : s.length = 2 * bs.length := by
  induction h with
  | nil => rfl
  | cons _ _ _ _ ih => simp only [List.length_cons, ih]; omega

theorem represents_digits (s bs : Bytes) (h : Represents s bs) : ∀ c ∈ s, (value c).isSome = true := by
  induction h with
  | nil => intro c hc; cases hc
  | cons hx hy _ _ ih =>
    intro c hc
    rcases List.mem_cons.mp hc with h1 | h1
    · rw [h1, hx]; rfl
    · rcases List.mem_cons.mp h1 with h2 | h2
      · rw [h2, hy]; rfl
      · exact ih c h2

theorem unhex_some : ∀ s : Bytes, s.length % 2 = 0 → (∀ c ∈ s, (value c).isSome = true) → ∃ bs, unhex s = some bs
  | [], _, _ => ⟨[], rfl⟩
  | [_], h, _ => by simp at h
  | a :: b :: s, h, hd => by
    have ha := hd a (by simp)
    have hb := hd b (by simp)
    obtain ⟨bs, hs⟩ := unhex_some s (by simp only [List.length_cons] at h; omega) (fun c hc => hd c (by simp [hc]))
    obtain ⟨x, hx⟩ := Option.isSome_iff_exists.mp ha
    obtain ⟨y, hy⟩ := Option.isSome_iff_exists.mp hb
    unfold unhex
    rw [digit_value, digit_value, hx, hy, hs]
    exact ⟨_, rfl⟩

/-! ### White space -/

theorem dropWhile_blank (a b : Bytes) (h : ∀ c ∈ a, isSpace c = true) : (a ++ b).dropWhile isSpace = b.dropWhile isSpace := by
  induction a with
  | nil => rfl
  | cons c a ih =>
    rw [List.cons_append, List.dropWhile_cons, if_pos (h c List.mem_cons_self)]
    exact ih fun d hd => h d (List.mem_cons_of_mem _ hd)

theorem dropWhile_solid (a b : Bytes) (ha : a ≠ []) (h : ∀ c ∈ a, isSpace c = false) : (a ++ b).dropWhile isSpace = a ++ b := by
  cases a with
  | nil => exact absurd rfl ha
  | cons c a => rw [List.cons_append, List.dropWhile_cons, if_neg (by rw [h c List.mem_cons_self]; decide)]

/-- White space around digits is removed. -/
theorem trim_eq (a m b : Bytes) (ha : ∀ c ∈ a, isSpace c = true) (hb : ∀ c ∈ b, isSpace c = true) (hm : m ≠ []) (h : ∀ c ∈ m, isSpace c = false) : trim (a ++ m ++ b) = m := by
  unfold trim
  rw [List.append_assoc, dropWhile_blank a _ ha, dropWhile_solid m b hm h, List.reverse_append, dropWhile_blank _ _ (fun c hc => hb c (List.mem_reverse.mp hc))]
  have h1 := dropWhile_solid m.reverse [] (by simpa using hm) (fun c hc => h c (List.mem_reverse.mp hc))
  rw [List.append_nil] at h1
  rw [h1, List.reverse_reverse]

/-- What is removed is white space. -/
theorem trim_split (s : Bytes) : ∃ a b, s = a ++ trim s ++ b ∧ (∀ c ∈ a, isSpace c = true) ∧ ∀ c ∈ b, isSpace c = true := by
  have hall : ∀ l : Bytes, ∀ c ∈ l.takeWhile isSpace, isSpace c = true := by
    intro l
    induction l with
    | nil => intro c hc; cases hc
    | cons d l ih =>
      intro c hc
      rw [List.takeWhile_cons] at hc
      split at hc
      · rename_i hd
        rcases List.mem_cons.mp hc with h1 | h1
        · rw [h1]; exact hd
        · exact ih c h1
      · cases hc
  refine ⟨s.takeWhile isSpace, ((s.dropWhile isSpace).reverse.takeWhile isSpace).reverse, ?_, hall s, fun c hc => hall _ c (List.mem_reverse.mp hc)⟩
  unfold trim
  rw [List.append_assoc, ← List.reverse_append, List.takeWhile_append_dropWhile, List.reverse_reverse, List.takeWhile_append_dropWhile]

end Hdtn.HexKey
