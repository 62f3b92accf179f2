import Verif.Cbhe.Model
import Verif.Cbhe.Spec

/-!
C34.
-/

namespace Hdtn.Cbhe

open Hdtn.HashMap16 Hdtn.Cbor Hdtn.Sdnv Spec Hdtn.Cbor.Spec Hdtn.Sdnv.Spec

theorem pair_iff (p : Bytes) (a b : Nat) :
    IsPair p a b ↔ ((∃ body, p = 0x82 :: body ∧ IsUints body [a, b]) ∨ IsIndefiniteArray p [a, b]) := by
  unfold IsPair IsIndefiniteArray
  constructor
  · rintro ⟨body, h | h, hb⟩
    · exact Or.inl ⟨body, h, hb⟩
    · exact Or.inr ⟨body, h, hb⟩
  · rintro (⟨body, h, hb⟩ | ⟨body, h, hb⟩)
    · exact ⟨body, Or.inl h, hb⟩
    · exact ⟨body, Or.inr h, hb⟩

theorem readTwo_iff (buf : Bytes) (a b : Nat) (rest : Bytes) :
    readTwo buf = some ((a, b), rest) ↔ ∃ p, buf = p ++ rest ∧ IsPair p a b := by
  unfold readTwo
  constructor
  · intro h
    cases hd : twoDeserialize buf with
    | none => rw [hd] at h; simp at h
    | some r =>
      obtain ⟨x, y, n⟩ := r
      rw [hd] at h
      simp only [Option.some.injEq, Prod.mk.injEq] at h
      obtain ⟨⟨rfl, rfl⟩, rfl⟩ := h
      obtain ⟨h1, h2⟩ := (C06_two_iff buf x y n).1 hd
      exact ⟨buf.take n, by simp, (pair_iff _ _ _).2 h2⟩
  · rintro ⟨p, rfl, hp⟩
    have := (C06_two_iff (p ++ rest) a b p.length).2
      ⟨by simp, by simpa using (pair_iff _ _ _).1 hp⟩
    simp [this]

theorem readItems_iff (uri ssp : UInt8) (r : Bytes) (e : Eid) (rest : Bytes) :
    readItems uri ssp r = some (e, rest) ↔
      ∃ items, uri :: ssp :: r = items ++ rest ∧ IsItems items e := by
  unfold readItems
  constructor
  · intro h
    split at h
    · rename_i hu
      split at h
      · simp at h
      · rename_i hs
        push Not at hs
        simp only [Option.some.injEq, Prod.mk.injEq] at h
        obtain ⟨rfl, rfl⟩ := h
        exact ⟨[1, 0], by simp [hu, hs], Or.inl ⟨rfl, rfl⟩⟩
    · split at h
      · rename_i hu
        split at h
        · simp at h
        · rename_i a b r1 h3
          simp only [Option.some.injEq, Prod.mk.injEq] at h
          obtain ⟨rfl, rfl⟩ := h
          obtain ⟨p, hp, hpair⟩ := (readTwo_iff _ _ _ _).1 h3
          exact ⟨2 :: p, by simp [hu, hp], Or.inr ⟨p, rfl, hpair⟩⟩
      · simp at h
  · rintro ⟨items, h, ⟨rfl, rfl⟩ | ⟨q, rfl, hq⟩⟩
    · simp only [List.cons_append, List.nil_append, List.cons.injEq] at h
      obtain ⟨rfl, rfl, rfl⟩ := h
      simp
    · simp only [List.cons_append, List.cons.injEq] at h
      obtain ⟨rfl, h⟩ := h
      have h1 := (readTwo_iff (q ++ rest) e.node e.service rest).2 ⟨q, rfl, hq⟩
      rw [h, h1]
      simp

theorem items_ne (p : Bytes) (e : Eid) (h : IsItems p e) : ∃ a b r, p = a :: b :: r := by
  rcases h with ⟨rfl, _⟩ | ⟨q, rfl, body, hb | hb, _⟩
  · exact ⟨_, _, _, rfl⟩
  · exact ⟨_, _, _, by rw [hb]⟩
  · exact ⟨_, _, _, by rw [hb]; rfl⟩

/-- C34, decoding in BPv7: it succeeds exactly when the buffer starts with an encoded endpoint, with
the rest of the buffer exactly what follows it. -/
theorem C34_bpv7_decode_iff (buf : Bytes) (e : Eid) (rest : Bytes) :
    read7 buf = some (e, rest) ↔ ∃ p, buf = p ++ rest ∧ IsEid7 p e := by
  constructor
  · intro h
    unfold read7 at h
    split at h
    · rename_i initial uri ssp r
      split at h
      · simp at h
      · rename_i hi
        have hi' : initial = 0x82 ∨ initial = 0x9f := by
          by_contra hn; push Not at hn; exact hi hn
        split at h
        · simp at h
        · rename_i e1 r1 h1
          obtain ⟨items, hit, his⟩ := (readItems_iff _ _ _ _ _).1 h1
          split at h
          · rename_i h9
            split at h
            · simp at h
            · rename_i stop r2
              split at h
              · simp at h
              · rename_i hs
                push Not at hs
                simp only [Option.some.injEq, Prod.mk.injEq] at h
                obtain ⟨rfl, rfl⟩ := h
                exact ⟨0x9f :: items ++ [0xff], by simp [h9, hit, hs], items, Or.inr rfl, his⟩
          · rename_i h9
            simp only [Option.some.injEq, Prod.mk.injEq] at h
            obtain ⟨rfl, rfl⟩ := h
            rcases hi' with hi' | hi'
            · exact ⟨0x82 :: items, by simp [hi', hit], items, Or.inl rfl, his⟩
            · exact absurd hi' h9
    · simp at h
  · rintro ⟨p, rfl, items, hp, hit⟩
    obtain ⟨uri, ssp, r', rfl⟩ := items_ne items e hit
    rcases hp with rfl | rfl
    · have h2 := (readItems_iff uri ssp (r' ++ rest) e rest).2 ⟨_, by simp, hit⟩
      simp only [List.cons_append, read7, h2]
      simp
    · have h2 := (readItems_iff uri ssp (r' ++ 0xff :: rest) e (0xff :: rest)).2 ⟨_, by simp, hit⟩
      simp only [List.cons_append, List.append_assoc, List.nil_append, read7, h2]
      simp

theorem uints_len {p : Bytes} {a b : Nat} (h : IsUints p [a, b]) : p.length ≤ 18 := by
  obtain ⟨p1, p2, rfl, h1, p3, p4, rfl, h2, h3⟩ := h
  have hu : ∀ {q : Bytes} {v : Nat}, IsUint q v → q.length ≤ 9 := by
    rintro q v ⟨x, r, rfl, ⟨_, rfl, _⟩ | ⟨k, hk, _, hl, _⟩⟩
    · simp
    · simp only [List.length_cons, hl]
      have : k ≤ 3 := by omega
      have : 2 ^ k ≤ 2 ^ 3 := Nat.pow_le_pow_right (by decide) this
      omega
  have := hu h1; have := hu h2
  simp only [IsUints] at h3
  simp only [List.length_append, h3, List.length_nil]; omega

/-- An encoded endpoint has at most 23 bytes: the number of bytes taken fits its 8-bit variable. -/
theorem C34_bpv7_length (p : Bytes) (e : Eid) (h : IsEid7 p e) : p.length ≤ 23 := by
  obtain ⟨items, hp, hit⟩ := h
  have : items.length ≤ 21 := by
    rcases hit with ⟨rfl, _⟩ | ⟨q, rfl, body, hb, hu⟩
    · simp
    · have := uints_len hu
      rcases hb with rfl | rfl
      · simp only [List.length_cons]; omega
      · simp only [List.length_cons, List.length_append, List.length_nil]; omega
  rcases hp with rfl | rfl
  · simp only [List.length_cons]; omega
  · simp only [List.length_cons, List.length_append, List.length_nil]; omega

theorem serialize7_isEid (e : Eid) (hn : e.node < 2 ^ 64) (hs : e.service < 2 ^ 64)
    (h0 : e.node = 0 → e.service = 0) : IsEid7 (serialize7 e) e := by
  unfold serialize7
  split
  · rename_i h
    refine ⟨[1, 0], Or.inl rfl, Or.inl ⟨rfl, ?_⟩⟩
    cases e; simp_all
  · refine ⟨_, Or.inl rfl, Or.inr ⟨_, rfl, _, Or.inl rfl, ?_⟩⟩
    exact ⟨_, _, rfl, isUint_encode _ hn, _, [], by simp, isUint_encode _ hs, rfl⟩

/-- C34 in BPv7: an endpoint with non-zero node number, or the null endpoint, is written with the
announced number of bytes and read back, with whatever follows left untouched. -/
theorem C34_bpv7_round_trip (e : Eid) (hn : e.node < 2 ^ 64) (hs : e.service < 2 ^ 64)
    (h0 : e.node = 0 → e.service = 0) :
    IsEid7 (serialize7 e) e ∧ size7 e = some (serialize7 e).length ∧
      ∀ rest, read7 (serialize7 e ++ rest) = some (e, rest) := by
  refine ⟨serialize7_isEid e hn hs h0, ?_, fun rest =>
    (C34_bpv7_decode_iff _ _ _).2 ⟨_, rfl, serialize7_isEid e hn hs h0⟩⟩
  unfold size7 serialize7
  by_cases h : e.node = 0
  · simp [h]
  · simp only [ne_eq, h, not_false_eq_true, if_true, if_false,
      (C06_two_round_trip e.node e.service hn hs).2.1, Option.map_some, List.length_cons]
    congr 1; omega

/-- Why C34 excludes node number 0 with a service number: in BPv7 it is written as the null
endpoint and its service number is lost. -/
theorem C34_bpv7_node_zero (service : Nat) (rest : Bytes) :
    read7 (serialize7 ⟨0, service⟩ ++ rest) = some (⟨0, 0⟩, rest) := by
  rw [show serialize7 ⟨0, service⟩ = serialize7 ⟨0, 0⟩ from rfl]
  exact (C34_bpv7_round_trip ⟨0, 0⟩ (by decide) (by decide) (fun _ => rfl)).2.2 rest

/-- C34, the bounded writer stays inside the buffer and writes the same when there is room. -/
theorem C34_bpv7_bounded (e : Eid) (bufferSize : Nat) :
    (serialize7Bounded e bufferSize).length ≤ bufferSize ∧
      ((serialize7 e).length ≤ bufferSize → serialize7Bounded e bufferSize = serialize7 e) := by
  have h2 := C06_two_bounded e.node e.service (bufferSize - 2)
  unfold serialize7Bounded serialize7
  by_cases hb : bufferSize < 3
  · rw [if_pos hb]
    refine ⟨by simp, fun h => ?_⟩
    split at h
    · simp only [List.length_cons, List.length_nil] at h; omega
    · simp only [List.length_cons, twoSerialize, List.length_append] at h
      have h3 : 0 < (encodeU64 e.node).length := by rw [Cbor.encode_length]; unfold encodingSizeClassic; split_ifs <;> omega
      omega
  · rw [if_neg hb]
    by_cases h : e.node = 0
    · simp only [h, if_true, List.length_cons, List.length_nil]
      exact ⟨by omega, fun _ => trivial⟩
    · simp only [h, if_false, List.length_cons]
      refine ⟨by omega, fun hl => ?_⟩
      rw [h2.2 (by omega)]

/-- C34, decoding in BPv6. -/
theorem C34_bpv6_decode_iff (buf : Bytes) (e : Eid) (rest : Bytes) :
    read6 buf = some (e, rest) ↔ ∃ p, buf = p ++ rest ∧ IsEid6 p e := by
  unfold read6
  simp only [Option.bind_eq_bind, Option.bind_eq_some_iff, Prod.exists, Option.pure_def,
    Option.some.injEq, Prod.mk.injEq]
  constructor
  · rintro ⟨a, r1, h1, b, r2, h2, rfl, rfl⟩
    obtain ⟨p1, rfl, i1⟩ := (readSdnv_iff _ _ _).1 h1
    obtain ⟨p2, rfl, i2⟩ := (readSdnv_iff _ _ _).1 h2
    exact ⟨p1 ++ (p2 ++ []), by simp, Split.cons i1 (Split.cons i2 (Split.nil []))⟩
  · rintro ⟨p, rfl, hp⟩
    unfold IsEid6 at hp
    cases hp with
    | cons i1 hp =>
      cases hp with
      | cons i2 hp =>
        cases hp
        refine ⟨_, _, (readSdnv_iff _ _ _).2 ⟨_, List.append_assoc _ _ _, i1⟩, _, _,
          (readSdnv_iff _ _ _).2 ⟨_, List.append_assoc _ _ _, i2⟩, ?_, by simp⟩
        cases e; rfl

/-- An endpoint in BPv6 form has at most 20 bytes. -/
theorem C34_bpv6_length (p : Bytes) (e : Eid) (h : IsEid6 p e) : p.length ≤ 20 := by
  unfold IsEid6 at h
  cases h with
  | cons i1 hp =>
    cases hp with
    | cons i2 hp =>
      cases hp
      have := i1.1; have := i2.1
      simp only [List.length_append, List.length_nil]; omega

/-- C34 in BPv6: every endpoint is written with the announced number of bytes and read back. -/
theorem C34_bpv6_round_trip (e : Eid) (hn : e.node < 2 ^ 64) (hs : e.service < 2 ^ 64) :
    IsEid6 (serialize6 e) e ∧ size6 e = some (serialize6 e).length ∧
      ∀ rest, read6 (serialize6 e ++ rest) = some (e, rest) := by
  have h : IsEid6 (serialize6 e) e := by
    have := Split.cons (isSdnv64_encode e.node hn) (Split.cons (isSdnv64_encode e.service hs) (Split.nil []))
    simpa [serialize6, IsEid6] using this
  refine ⟨h, ?_, fun rest => (C34_bpv6_decode_iff _ _ _).2 ⟨_, rfl, h⟩⟩
  simp [size6, numBytesRequired_eq _ hn, numBytesRequired_eq _ hs, serialize6]

/-- C34, the bounded writer stays inside the buffer and writes the same when there is room. -/
theorem C34_bpv6_bounded (e : Eid) (hn : e.node < 2 ^ 64) (hs : e.service < 2 ^ 64) (bufferSize : Nat) :
    (serialize6Bounded e bufferSize).length ≤ bufferSize ∧
      ((serialize6 e).length ≤ bufferSize → serialize6Bounded e bufferSize = serialize6 e) := by
  unfold serialize6Bounded serialize6
  simp only [encodeClassic64_eq _ hn, encodeClassic64_eq _ hs, List.length_append]
  constructor
  · by_cases h1 : bufferSize < (encodeU64ClassicBufSize10 e.node).length
    · simp only [if_pos h1, List.length_nil]
      split_ifs
      · simp
      · omega
    · simp only [if_neg h1]
      split_ifs
      · simp only [List.length_nil]; omega
      · omega
  · intro h
    rw [if_neg (by omega), if_neg (by omega)]

example : serialize7 ⟨1000, 2⟩ = [0x82, 2, 0x82, 25, 3, 232, 2] ∧ serialize7 ⟨0, 0⟩ = [0x82, 1, 0] ∧
    read7 [0x9f, 2, 0x9f, 25, 3, 232, 2, 0xff, 0xff, 7] = some (⟨1000, 2⟩, [7]) ∧
    read7 [0x82, 1, 1, 0, 0] = none ∧ read7 [0x9f, 1, 0, 0] = none ∧
    serialize6 ⟨1000, 2⟩ = [0x87, 0x68, 2] ∧ read6 [0x87, 0x68, 2, 9] = some (⟨1000, 2⟩, [9]) := by
  decide +kernel

end Hdtn.Cbhe
