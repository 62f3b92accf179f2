import Verif.HexKey.Lemmas

/-!
C177: hexadecimal text and key files.
-/

namespace Hdtn.HexKey

open Hdtn.HexKey.Spec

/-- Bytes survive the conversion to text and back. -/
theorem C177_round_trip (bs : Bytes) : unhex (hex bs) = some bs := unhex_hex bs

/-- The text of bytes stands for them. -/
theorem C177_text (bs : Bytes) : Represents (hex bs) bs := represents_of_unhex _ _ (unhex_hex bs)

/-- The text of several buffers is that of their bytes. -/
theorem C177_parts (ps : List Bytes) : Represents (hexParts ps) ps.flatten := by
  have happ : ∀ a b : Bytes, hex (a ++ b) = hex a ++ hex b := by
    intro a b
    induction a with
    | nil => rfl
    | cons c a ih => simp [hex, ih]
  have : hexParts ps = hex ps.flatten := by
    induction ps with
    | nil => rfl
    | cons p ps ih => rw [hexParts, ih, List.flatten_cons, happ]
  rw [this]
  exact C177_text _

/-- Text is converted exactly to the bytes for which it stands, in upper or lower case. -/
theorem C177_exact (s bs : Bytes) : unhex s = some bs ↔ Represents s bs := ⟨represents_of_unhex s bs, unhex_of_represents s bs⟩

/-- Text is refused exactly if its length is odd or it has a character that is not a digit. -/
theorem C177_refused (s : Bytes) : unhex s = none ↔ s.length % 2 = 1 ∨ ∃ c ∈ s, value c = none := by
  constructor
  · intro h
    by_cases h1 : s.length % 2 = 1
    · exact Or.inl h1
    · right
      by_cases h2 : ∃ c ∈ s, value c = none
      · exact h2
      · obtain ⟨bs, hs⟩ := unhex_some s (by omega) (fun c hc => by
          cases hv : value c with
          | none => exact absurd ⟨c, hc, hv⟩ h2
          | some x => rfl)
        rw [hs] at h; cases h
  · intro h
    cases hs : unhex s with
    | none => rfl
    | some bs =>
      have hr := represents_of_unhex s bs hs
      rcases h with h | ⟨c, hc, hv⟩
      · have := represents_length s bs hr
        omega
      · have := represents_digits s bs hr c hc
        rw [hv] at this; cases this

/-- A key file gives this key exactly if it has the text of the key, with at least one byte, and around it only white space. -/
theorem C177_key (contents key : Bytes) :
    loadKey contents = some key ↔ key ≠ [] ∧ ∃ before text after, contents = before ++ text ++ after ∧ Blank before ∧ Blank after ∧ Represents text key := by
  constructor
  · intro h
    unfold loadKey at h
    cases hu : unhex (trim contents) with
    | none => rw [hu] at h; cases h
    | some k =>
      cases k with
      | nil => rw [hu] at h; cases h
      | cons x k =>
        rw [hu] at h
        have := Option.some.inj h
        subst this
        obtain ⟨a, b, h1, h2, h3⟩ := trim_split contents
        exact ⟨by simp, a, trim contents, b, h1, (fun c hc => (isSpace_iff c).mp (h2 c hc)), (fun c hc => (isSpace_iff c).mp (h3 c hc)), represents_of_unhex _ _ hu⟩
  · rintro ⟨hk, a, m, b, h1, h2, h3, h4⟩
    have hm : m ≠ [] := by
      intro hm
      have := represents_length m key h4
      rw [hm, List.length_nil] at this
      exact hk (List.length_eq_zero_iff.mp (by omega))
    have hns : ∀ c ∈ m, isSpace c = false := by
      intro c hc
      cases hsp : isSpace c with
      | false => rfl
      | true =>
        have := represents_digits m key h4 c hc
        rw [value_space c hsp] at this; cases this
    unfold loadKey
    rw [h1, trim_eq a m b (fun c hc => (isSpace_iff c).mpr (h2 c hc)) (fun c hc => (isSpace_iff c).mpr (h3 c hc)) hm hns, unhex_of_represents m key h4]
    cases key with
    | nil => exact absurd rfl hk
    | cons x k => rfl

/-- A file with " 1a2B" and the end of a line. -/
example : loadKey [32, 49, 97, 50, 66, 10] = some [0x1a, 0x2b] ∧ loadKey [49, 97, 50] = none ∧ loadKey [49, 32, 97, 50] = none ∧ loadKey [10] = none := by decide +kernel

example : hex [0x1a, 0xff] = [49, 65, 70, 70] := by decide +kernel

end Hdtn.HexKey
