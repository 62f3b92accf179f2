import Verif.Sdnv.Props

/-!
Reading one SDNV off a buffer and going on behind it, the pattern of every parser that is built on
`SdnvDecodeU64`.
-/

namespace Hdtn.Sdnv

open Spec

/-- The pattern "decode an SDNV; fail if `numBytes` is 0; advance the pointer and shrink the buffer
size", e.g. Cbhe.cpp:229-234: value and rest of the buffer. -/
def readSdnv (buf : Bytes) : Option (Nat × Bytes) :=
  let r := decodeU64Classic buf
  if r.2 = 0 then none else some (r.1, buf.drop r.2)

theorem readSdnv_iff (buf : Bytes) (v : Nat) (rest : Bytes) :
    readSdnv buf = some (v, rest) ↔ ∃ p, buf = p ++ rest ∧ IsSdnv64 p v := by
  unfold readSdnv
  constructor
  · intro h
    cases hd : decodeU64Classic buf with
    | mk w k =>
      rw [hd] at h
      simp only at h
      split at h
      · simp at h
      · rename_i hk
        injection h with h
        injection h with h1 h2
        subst h1
        obtain ⟨r, h3, h4, h5⟩ := (C02_decode64_success_iff buf w k).1 ⟨hd, hk⟩
        exact ⟨buf.take k, by rw [← h2, List.take_append_drop], h5⟩
  · rintro ⟨p, rfl, hp⟩
    have hne : p.length ≠ 0 := by
      intro h0
      have := hp.2.1
      rw [List.length_eq_zero_iff.1 h0] at this
      exact this
    obtain ⟨h1, h2⟩ := (C02_decode64_success_iff (p ++ rest) v p.length).2
      ⟨rest, by simp, by simp, by simpa using hp⟩
    simp [h1, hne]

theorem isSdnv64_encode (v : Nat) (hv : v < 2 ^ 64) : IsSdnv64 (encodeU64ClassicBufSize10 v) v := by
  obtain ⟨e, _, h2, _, _, _, h6, _⟩ := C01_sdnv64_round_trip v hv
  rw [h2]; exact h6

theorem readSdnv_encode (v : Nat) (hv : v < 2 ^ 64) (rest : Bytes) :
    readSdnv (encodeU64ClassicBufSize10 v ++ rest) = some (v, rest) :=
  (readSdnv_iff _ _ _).2 ⟨_, rfl, isSdnv64_encode v hv⟩

theorem isSdnv64_ne_nil {p : Bytes} {v : Nat} (h : IsSdnv64 p v) : p.length ≠ 0 := by
  intro h0
  have := h.2.1
  rw [List.length_eq_zero_iff.1 h0] at this
  exact this

theorem isSdnv64_det {p : Bytes} {v w : Nat} (h : IsSdnv64 p v) (h' : IsSdnv64 p w) : v = w :=
  h.2.2.1.symm.trans h'.2.2.1

theorem encodeClassic64_eq (v : Nat) (hv : v < 2 ^ 64) (n : Nat) :
    encodeU64Classic v n =
      if n < (encodeU64ClassicBufSize10 v).length then [] else encodeU64ClassicBufSize10 v := by
  obtain ⟨e, h1, h2, _⟩ := C01_sdnv64_round_trip v hv
  rw [h2]; exact h1 n

theorem numBytesRequired_eq (v : Nat) (hv : v < 2 ^ 64) :
    numBytesRequired v = some (encodeU64ClassicBufSize10 v).length := by
  obtain ⟨e, _, h2, _, _, _, _, h7, _⟩ := C01_sdnv64_round_trip v hv
  rw [h2]; exact h7

/-- The pattern "decode an array of `n` SDNVs; fail unless `n` were decoded; advance the pointer",
e.g. Bpv6CbhePrimaryBlock.cpp:128-131: the values and the rest of the buffer. -/
def readN (n : Nat) (buf : Bytes) : Option (List Nat × Bytes) :=
  let r := decodeArrayU64Classic n buf
  if r.values.length ≠ n then none else some (r.values, buf.drop r.numBytes)

theorem split_length {buf : Bytes} {vs : List Nat} {rest : Bytes} (h : Split buf vs rest) :
    ∃ p, buf = p ++ rest := by
  induction h with
  | nil rest => exact ⟨[], rfl⟩
  | @cons p v buf vs rest hp _ ih =>
    obtain ⟨q, rfl⟩ := ih
    exact ⟨p ++ q, by simp⟩

theorem readN_iff (n : Nat) (buf : Bytes) (vs : List Nat) (rest : Bytes) :
    readN n buf = some (vs, rest) ↔ vs.length = n ∧ Split buf vs rest := by
  unfold readN
  constructor
  · intro h
    rcases C04_array_decode_spec n buf with ⟨ws, used, r, h1, h2, h3, h4, _⟩ | ⟨ws, r, h1, h2, _⟩
    · rw [h1] at h
      simp only at h
      split at h
      · simp at h
      · rename_i hn
        push Not at hn
        simp only [Option.some.injEq, Prod.mk.injEq] at h
        obtain ⟨rfl, rfl⟩ := h
        refine ⟨hn, ?_⟩
        obtain ⟨p, hp⟩ := split_length h4
        have : buf.drop used = r := by
          have hl : used = p.length := by rw [hp] at h2; simp at h2; omega
          rw [hl, hp]; simp
        rwa [this]
    · rw [h1] at h
      simp only [List.length_nil] at h
      split at h
      · simp at h
      · omega
  · rintro ⟨rfl, h⟩
    obtain ⟨p, rfl⟩ := split_length h
    rw [C04_array_decode_complete vs _ rest h]
    simp

/-- Splits of two stretches put together. -/
theorem split_append {a b : Bytes} {vs ws : List Nat} {rest : Bytes} (h : Split a vs [])
    (h' : Split b ws rest) : Split (a ++ b) (vs ++ ws) rest := by
  generalize hn : ([] : Bytes) = n at h
  induction h with
  | nil r => subst hn; simpa using h'
  | cons hp _ ih => rw [List.append_assoc]; exact .cons hp (ih hn)

theorem split_encode (v : Nat) (hv : v < 2 ^ 64) : Split (encodeU64ClassicBufSize10 v) [v] [] := by
  have := Split.cons (isSdnv64_encode v hv) (.nil [])
  simpa using this

theorem split_rest {a : Bytes} {vs : List Nat} (h : Split a vs []) (rest : Bytes) :
    Split (a ++ rest) vs rest := by
  simpa using split_append h (.nil rest)

theorem split_cut {buf : Bytes} {vs : List Nat} {rest : Bytes} (h : Split buf vs rest) :
    ∃ p, buf = p ++ rest ∧ Split p vs [] := by
  induction h with
  | nil rest => exact ⟨[], rfl, .nil []⟩
  | @cons p v buf vs rest hp _ ih =>
    obtain ⟨q, rfl, hq⟩ := ih
    exact ⟨p ++ q, by simp, .cons hp hq⟩

theorem split_iff (buf : Bytes) (vs : List Nat) (rest : Bytes) :
    Split buf vs rest ↔ ∃ p, buf = p ++ rest ∧ Split p vs [] :=
  ⟨split_cut, fun ⟨_, h, h'⟩ => h ▸ split_rest h' rest⟩

theorem split_one (p : Bytes) (v : Nat) : Split p [v] [] ↔ IsSdnv64 p v := by
  constructor
  · intro h
    cases h with
    | cons hp h => cases h; simpa using hp
  · intro h; simpa using Split.cons h (.nil [])

theorem split_unappend {buf : Bytes} {vs ws : List Nat} {rest : Bytes}
    (h : Split buf (vs ++ ws) rest) : ∃ a b, buf = a ++ b ∧ Split a vs [] ∧ Split b ws rest := by
  induction vs generalizing buf with
  | nil => exact ⟨[], buf, rfl, .nil [], h⟩
  | cons v vs ih =>
    cases h with
    | @cons p _ b _ _ hp h =>
      obtain ⟨a, c, rfl, ha, hc⟩ := ih h
      exact ⟨p ++ a, c, by simp, .cons hp ha, hc⟩

theorem readSdnv_iff_split (buf : Bytes) (v : Nat) (rest : Bytes) :
    readSdnv buf = some (v, rest) ↔ Split buf [v] rest := by
  rw [readSdnv_iff, split_iff]
  simp only [split_one]

end Hdtn.Sdnv
