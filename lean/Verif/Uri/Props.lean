import Verif.Uri.Model
import Verif.Uri.Spec

/-!
C53: ipn URIs.
-/

namespace Hdtn.Uri

open Spec

/-! ### Numerals -/

theorem value_append (a b : Bytes) : value (a ++ b) = value a * 10 ^ b.length + value b := by
  induction a with
  | nil => simp [value]
  | cons c cs ih =>
    simp only [List.cons_append, value, ih, List.length_append, pow_add]
    ring

theorem digit_ofNat (d : Nat) (h : d < 10) : (UInt8.ofNat (48 + d)).toNat = 48 + d := by
  rw [UInt8.toNat_ofNat']
  exact Nat.mod_eq_of_lt (by omega)

theorem decimal_spec (v : Nat) : IsDecimal (decimal v) v ∧ Shortest (decimal v) ∧
    (0 < v → 10 ^ ((decimal v).length - 1) ≤ v) ∧ v < 10 ^ (decimal v).length := by
  fun_induction decimal v with
  | case1 v h =>
    have := digit_ofNat v h
    refine ⟨⟨by simp, ?_, ?_⟩, ?_, ?_, by simpa using h⟩
    · intro c hc
      simp only [List.mem_singleton] at hc
      rw [hc, IsDigit]; omega
    · simp only [value, this, List.length_nil]; omega
    · intro c cs hc hcs
      simp only [List.cons.injEq] at hc
      exact absurd hc.2.symm hcs
    · intro hp; simp; omega
  | case2 v h ih =>
    obtain ⟨⟨h1, h2, h3⟩, h4, h5, h6⟩ := ih
    have hd := digit_ofNat (v % 10) (by omega)
    have hlen : 1 ≤ (decimal (v / 10)).length := by
      have := List.length_pos_iff.2 h1; omega
    refine ⟨⟨by simp, ?_, ?_⟩, ?_, ?_, ?_⟩
    · intro c hc
      rcases List.mem_append.1 hc with hc | hc
      · exact h2 c hc
      · simp only [List.mem_singleton] at hc
        rw [hc, IsDigit]; omega
    · rw [value_append, h3]
      simp only [value, hd, List.length_cons, List.length_nil]
      omega
    · intro c cs hc hcs
      cases hw : decimal (v / 10) with
      | nil => exact absurd hw h1
      | cons c' cs' =>
        rw [hw] at hc h2 h3
        simp only [List.cons_append, List.cons.injEq] at hc
        rw [← hc.1]
        by_cases hne : cs' = []
        · intro h0
          subst hne
          rw [h0] at h3
          simp [value] at h3
          omega
        · exact h4 c' cs' hw hne
    · intro _
      have := h5 (by omega)
      simp only [List.length_append, List.length_cons, List.length_nil, Nat.zero_add,
        Nat.add_sub_cancel]
      rw [show (decimal (v / 10)).length = (decimal (v / 10)).length - 1 + 1 by omega, pow_succ]
      omega
    · simp only [List.length_append, List.length_cons, List.length_nil, Nat.zero_add, pow_succ]
      omega

theorem digitsValue_iff (acc : Nat) (s : Bytes) (v : Nat) :
    digitsValue acc s = some v ↔
      (∀ c ∈ s, IsDigit c) ∧ v = acc * 10 ^ s.length + value s := by
  induction s generalizing acc with
  | nil => simp [digitsValue, value, eq_comm]
  | cons c cs ih =>
    rw [digitsValue]
    split
    · rename_i h
      rw [ih]
      simp only [List.forall_mem_cons, IsDigit, h, true_and, List.length_cons, value, and_self]
      rw [show (acc * 10 + (c.toNat - 48)) * 10 ^ cs.length + value cs =
        acc * 10 ^ (cs.length + 1) + ((c.toNat - 48) * 10 ^ cs.length + value cs) by ring]
    · rename_i h
      simp only [reduceCtorEq, List.forall_mem_cons, false_iff]
      rintro ⟨⟨h1, _⟩, _⟩
      exact h h1

theorem not_sign {s : Bytes} {v : Nat} (h : IsDecimal s v) : s.head? ≠ some 45 ∧ s.head? ≠ some 43 := by
  obtain ⟨h1, h2, _⟩ := h
  cases s with
  | nil => exact absurd rfl h1
  | cons c cs =>
    have := h2 c (by simp)
    simp only [List.head?_cons, ne_eq, Option.some.injEq]
    constructor <;> (rintro rfl; revert this; simp [IsDigit])

theorem castDigits_iff (neg : Bool) (d : Bytes) (v : Nat) : castDigits neg d = some v ↔
    ∃ w, IsDecimal d w ∧ w < 2 ^ 64 ∧ v = if neg then (2 ^ 64 - w) % 2 ^ 64 else w := by
  unfold castDigits
  cases d with
  | nil => simp [IsDecimal]
  | cons c cs =>
    cases hd : digitsValue 0 (c :: cs) with
    | none =>
      simp only [reduceCtorEq, false_iff]
      rintro ⟨w, ⟨_, h1, h2⟩, _⟩
      rw [(digitsValue_iff 0 (c :: cs) w).2 ⟨h1, by simp [h2]⟩] at hd
      simp at hd
    | some w =>
      obtain ⟨h1, h2⟩ := (digitsValue_iff 0 (c :: cs) w).1 hd
      simp only [Nat.zero_mul, Nat.zero_add] at h2
      simp only
      constructor
      · intro h
        split at h
        · simp at h
        · rename_i hlt
          simp only [Option.some.injEq] at h
          exact ⟨w, ⟨by simp, h1, h2.symm⟩, by omega, h.symm⟩
      · rintro ⟨w', ⟨_, _, h3⟩, h4, h5⟩
        obtain rfl : w' = w := by rw [h2, h3]
        rw [if_neg (by omega), h5]

theorem lexicalCast_iff (s : Bytes) (v : Nat) : lexicalCast s = some v ↔ IsSignedNumeral s v := by
  unfold lexicalCast IsSignedNumeral
  cases s with
  | nil =>
    simp only [reduceCtorEq, false_iff]
    rintro ⟨ds, w, ⟨h1, _⟩, _, ⟨h, _⟩ | ⟨h, _⟩ | ⟨h, _⟩⟩
    · exact h1 h.symm
    · simp at h
    · simp at h
  | cons c cs =>
    simp only
    by_cases h45 : c = 45
    · subst h45
      rw [if_pos rfl, castDigits_iff]
      simp only [if_true]
      constructor
      · rintro ⟨w, h1, h2, h3⟩
        exact ⟨cs, w, h1, h2, .inr (.inr ⟨rfl, h3⟩)⟩
      · rintro ⟨ds, w, h1, h2, ⟨h, _⟩ | ⟨h, _⟩ | ⟨h, h3⟩⟩
        · exact absurd (h ▸ rfl) (not_sign h1).1
        · exact absurd (List.cons.inj h).1 (by decide)
        · rw [(List.cons.inj h).2]; exact ⟨w, h1, h2, h3⟩
    · rw [if_neg h45]
      by_cases h43 : c = 43
      · subst h43
        rw [if_pos rfl, castDigits_iff]
        simp only [Bool.false_eq_true, if_false]
        constructor
        · rintro ⟨w, h1, h2, h3⟩
          exact ⟨cs, w, h1, h2, .inr (.inl ⟨rfl, h3⟩)⟩
        · rintro ⟨ds, w, h1, h2, ⟨h, _⟩ | ⟨h, h3⟩ | ⟨h, _⟩⟩
          · exact absurd (h ▸ rfl) (not_sign h1).2
          · rw [(List.cons.inj h).2]; exact ⟨w, h1, h2, h3⟩
          · exact absurd (List.cons.inj h).1 (by decide)
      · rw [if_neg h43, castDigits_iff]
        simp only [Bool.false_eq_true, if_false]
        constructor
        · rintro ⟨w, h1, h2, h3⟩
          exact ⟨c :: cs, w, h1, h2, .inl ⟨rfl, h3⟩⟩
        · rintro ⟨ds, w, h1, h2, ⟨h, h3⟩ | ⟨h, _⟩ | ⟨h, _⟩⟩
          · rw [h]; exact ⟨w, h1, h2, h3⟩
          · exact absurd (List.cons.inj h).1 h43
          · exact absurd (List.cons.inj h).1 h45

/-! ### Parsing -/

theorem takeWhile_dot (a b : Bytes) (x : UInt8) (ha : x ∉ a) :
    (a ++ [x] ++ b).takeWhile (· ≠ x) = a ∧ (a ++ [x] ++ b).drop (a.length + 1) = b := by
  constructor
  · rw [List.append_assoc, List.takeWhile_append_of_pos (by
      intro y hy; simp only [ne_eq, decide_eq_true_eq]; rintro rfl; exact ha hy)]
    simp
  · simp

theorem split_at (s : Bytes) (x : UInt8) (h : x ∈ s) :
    ∃ a b, s = a ++ [x] ++ b ∧ x ∉ a := by
  induction s with
  | nil => simp at h
  | cons c cs ih =>
    by_cases hc : c = x
    · exact ⟨[], cs, by simp [hc], by simp⟩
    · obtain ⟨a, b, h1, h2⟩ := ih (by
        rcases List.mem_cons.1 h with h | h
        · exact absurd h.symm hc
        · exact h)
      exact ⟨c :: a, b, by simp [h1], by simp [h2, Ne.symm hc]⟩

theorem signed_no {s : Bytes} {v : Nat} (h : IsSignedNumeral s v) (x : UInt8)
    (hx : ¬ IsDigit x) (h1 : x ≠ 43) (h2 : x ≠ 45) : x ∉ s ∧ s ≠ [] := by
  obtain ⟨ds, w, ⟨h3, h4, _⟩, _, ⟨rfl, _⟩ | ⟨rfl, _⟩ | ⟨rfl, _⟩⟩ := h
  · exact ⟨fun h => hx (h4 _ h), h3⟩
  · refine ⟨fun h => ?_, by simp⟩
    rcases List.mem_cons.1 h with h | h
    · exact h1 h
    · exact hx (h4 _ h)
  · refine ⟨fun h => ?_, by simp⟩
    rcases List.mem_cons.1 h with h | h
    · exact h2 h
    · exact hx (h4 _ h)

/-- What stands behind the dot: a numeral, or the star where a wildcard is asked for. -/
def _root_.Hdtn.Uri.Spec.IsService (wild : Bool) (s : Bytes) (r : Service) : Prop :=
  (wild = true ∧ s = [42] ∧ r = none) ∨ ∃ v, r = some v ∧ IsSignedNumeral s v

theorem parseSsp_iff (wild : Bool) (s : Bytes) (n : Nat) (r : Service) :
    parseSsp wild s = some (n, r) ↔
      ∃ a b, s = a ++ [46] ++ b ∧ IsSignedNumeral a n ∧ IsService wild b r := by
  have dot : ¬ IsDigit 46 := by simp [IsDigit]
  have star : ∀ v, ¬ IsSignedNumeral [42] v := by
    intro v h
    exact (signed_no h 42 (by simp [IsDigit]) (by decide) (by decide)).1 (by simp)
  unfold parseSsp
  constructor
  · intro h
    split at h
    · simp at h
    · rename_i hc
      push Not at hc
      obtain ⟨a, b, rfl, ha⟩ := split_at s 46 (List.count_pos_iff.1 (by omega))
      obtain ⟨e1, e2⟩ := takeWhile_dot a b 46 ha
      simp only [e1, e2] at h
      split at h
      · simp at h
      · split at h
        · simp at h
        · rename_i hl
          split at h
          · rename_i hw
            simp only [Option.some.injEq, Prod.mk.injEq] at h
            obtain ⟨rfl, rfl⟩ := h
            exact ⟨a, b, rfl, (lexicalCast_iff _ _).1 hl, .inl ⟨hw.1, hw.2, rfl⟩⟩
          · split at h
            · simp at h
            · rename_i hl'
              simp only [Option.some.injEq, Prod.mk.injEq] at h
              obtain ⟨rfl, rfl⟩ := h
              exact ⟨a, b, rfl, (lexicalCast_iff _ _).1 hl, .inr ⟨_, rfl, (lexicalCast_iff _ _).1 hl'⟩⟩
  · rintro ⟨a, b, rfl, ha, hb⟩
    obtain ⟨hna, ha0⟩ := signed_no ha 46 dot (by decide) (by decide)
    have hnb : 46 ∉ b ∧ b ≠ [] := by
      rcases hb with ⟨_, rfl, _⟩ | ⟨v, _, hb⟩
      · decide
      · exact signed_no hb 46 dot (by decide) (by decide)
    obtain ⟨e1, e2⟩ := takeWhile_dot a b 46 hna
    have hcount : (a ++ [46] ++ b).count 46 = 1 := by
      simp [List.count_append, List.count_eq_zero_of_not_mem hna, List.count_eq_zero_of_not_mem hnb.1]
    rw [if_neg (by simpa using hcount)]
    simp only [e1, e2, ha0, hnb.2, or_self, if_false, (lexicalCast_iff _ _).2 ha]
    rcases hb with ⟨hw, rfl, rfl⟩ | ⟨v, rfl, hb⟩
    · simp [hw]
    · have : b ≠ [42] := by rintro rfl; exact star v hb
      simp [this, (lexicalCast_iff _ _).2 hb]

theorem parseUri_iff (wild : Bool) (s : Bytes) (n : Nat) (r : Service) :
    parseUri wild s = some (n, r) ↔
      ∃ a b, s = ipn a b ∧ IsSignedNumeral a n ∧ IsService wild b r := by
  unfold parseUri ipn
  constructor
  · intro h
    split at h
    · simp at h
    · rename_i hc
      push Not at hc
      obtain ⟨a, b, h1, h2, h3⟩ := (parseSsp_iff _ _ _ _).1 h
      refine ⟨a, b, ?_, h2, h3⟩
      rw [← List.take_append_drop 4 s, hc.2, h1]
      simp
  · rintro ⟨a, b, rfl, ha, hb⟩
    have h1 : a.length ≠ 0 := by
      have := (signed_no ha 46 (by simp [IsDigit]) (by decide) (by decide)).2
      simpa using this
    have h2 : b.length ≠ 0 := by
      rcases hb with ⟨_, rfl, _⟩ | ⟨v, _, hb⟩
      · decide
      · have := (signed_no hb 46 (by simp [IsDigit]) (by decide) (by decide)).2
        simpa using this
    rw [if_neg]
    · exact (parseSsp_iff _ _ _ _).2 ⟨a, b, by simp, ha, hb⟩
    · simp; omega

/-- C53: the parser accepts exactly the texts `ipn:A.B` where `A` is a number below 2^64 and `B` is
another one, or a star if the caller asks for wildcards; and it returns those numbers. Numbers may
carry a sign. -/
theorem C53_parse_iff (wild : Bool) (text : Bytes) (node : Nat) (service : Service) :
    parseUri wild text = some (node, service) ↔
      ∃ a b, text = ipn a b ∧ IsSignedNumeral a node ∧
        ((∃ v, service = some v ∧ IsSignedNumeral b v) ∨
          (wild = true ∧ b = [42] ∧ service = none)) := by
  rw [parseUri_iff]
  constructor
  · rintro ⟨a, b, h1, h2, h3 | h3⟩
    · exact ⟨a, b, h1, h2, .inr h3⟩
    · exact ⟨a, b, h1, h2, .inl h3⟩
  · rintro ⟨a, b, h1, h2, h3 | h3⟩
    · exact ⟨a, b, h1, h2, .inr h3⟩
    · exact ⟨a, b, h1, h2, .inl h3⟩

theorem signed_decimal (v : Nat) (hv : v < 2 ^ 64) : IsSignedNumeral (decimal v) v :=
  ⟨_, v, (decimal_spec v).1, hv, .inl ⟨rfl, rfl⟩⟩

theorem decimal_no (v : Nat) (x : UInt8) (hx : ¬ IsDigit x) : x ∉ decimal v :=
  fun h => hx ((decimal_spec v).1.2.1 x h)

/-- C53: a URI written for an endpoint is `ipn:` and the two numbers in shortest decimal form, and
parses to that endpoint, whether or not wildcards are asked for. -/
theorem C53_round_trip (node service : Nat) (hn : node < 2 ^ 64) (hs : service < 2 ^ 64) :
    (∃ a b, getIpnUriString node service = ipn a b ∧ IsDecimal a node ∧ Shortest a ∧
      IsDecimal b service ∧ Shortest b) ∧
    (∀ wild, parseUri wild (getIpnUriString node service) = some (node, some service)) := by
  refine ⟨⟨_, _, rfl, (decimal_spec node).1, (decimal_spec node).2.1, (decimal_spec service).1,
    (decimal_spec service).2.1⟩, fun wild => ?_⟩
  exact (parseUri_iff _ _ _ _).2 ⟨_, _, rfl, signed_decimal node hn,
    .inr ⟨service, rfl, signed_decimal service hs⟩⟩

/-- C53: the wildcard form parses to the node where a wildcard is asked for, and is refused
elsewhere. -/
theorem C53_wildcard (node : Nat) (hn : node < 2 ^ 64) :
    parseUri true (getIpnUriStringAny node) = some (node, none) ∧
      parseUri false (getIpnUriStringAny node) = none := by
  have heq : getIpnUriStringAny node = ipn (decimal node) [42] := by
    simp [getIpnUriStringAny, ipn]
  constructor
  · exact (parseUri_iff _ _ _ _).2 ⟨_, _, heq, signed_decimal node hn, .inl ⟨rfl, rfl, rfl⟩⟩
  · cases h : parseUri false (getIpnUriStringAny node) with
    | none => rfl
    | some r =>
      exfalso
      obtain ⟨a, b, h1, h2, h3⟩ := (parseUri_iff false _ r.1 r.2).1 h
      rw [heq, ipn, ipn] at h1
      have d1 := decimal_no node 46 (by simp [IsDigit])
      have d2 := (signed_no h2 46 (by simp [IsDigit]) (by decide) (by decide)).1
      have h1' : decimal node ++ [46] ++ [42] = a ++ [46] ++ b := by simpa using h1
      have t1 := takeWhile_dot (decimal node) [42] 46 d1
      have t2 := takeWhile_dot a b 46 d2
      rw [h1'] at t1
      have : decimal node = a := t1.1.symm.trans t2.1
      have hb : b = [42] := by
        have e := t1.2
        rw [this, t2.2] at e
        exact e
      subst hb
      rcases h3 with ⟨h, _⟩ | ⟨v, _, h⟩
      · simp at h
      · exact (signed_no h 42 (by simp [IsDigit]) (by decide) (by decide)).1 (by simp)

/-! ### Lengths and null-terminated strings -/

theorem pow_mono_lt {a b : Nat} (h : 10 ^ a < 10 ^ b) : a < b :=
  (Nat.pow_lt_pow_iff_right (by norm_num)).1 h

theorem tables : ∀ m < 64, ∃ low < 20, minLengths[m]? = some low ∧ tenToThe[low]? = some (10 ^ low) ∧
    1 ≤ low ∧ 10 ^ (low - 1) ≤ 2 ^ m ∧ 2 ^ (m + 1) ≤ 10 ^ (low + 1) := by
  decide +kernel

/-- C53: the length function agrees with the number of digits that are written, for every number, and
reads no table outside its bounds. -/
theorem C53_uint_length (v : Nat) (hv : v < 2 ^ 64) :
    getStringLengthOfUint v = some (decimal v).length := by
  unfold getStringLengthOfUint
  obtain ⟨⟨h0, _⟩, _, h1, h2⟩ := decimal_spec v
  have hlen : 1 ≤ (decimal v).length := by
    have := List.length_pos_iff.2 h0; omega
  by_cases hv0 : v = 0
  · subst hv0; decide +kernel
  · simp only [hv0, if_false, Nat.add_zero]
    have h1 := h1 (by omega)
    have hm : Nat.log2 v < 64 := (Nat.log2_lt hv0).2 hv
    obtain ⟨low, _, e1, e2, e3, e5, e6⟩ := tables _ hm
    have l1 : 2 ^ Nat.log2 v ≤ v := Nat.log2_self_le hv0
    have l2 : v < 2 ^ (Nat.log2 v + 1) := Nat.lt_log2_self
    simp only [e1, e2, Option.bind_eq_bind, Option.bind_some, Option.pure_def, Option.some.injEq]
    have a1 : low - 1 < (decimal v).length := pow_mono_lt (by omega)
    have a2 : (decimal v).length - 1 < low + 1 := pow_mono_lt (by omega)
    split
    · rename_i h
      have : low < (decimal v).length := pow_mono_lt (by omega)
      omega
    · rename_i h
      have : (decimal v).length - 1 < low := pow_mono_lt (by omega)
      omega

/-- C53: the null-terminated writer stores the URI and a null character if the buffer has room for
both and stores nothing that counts otherwise; the announced length is exact; the reader takes the
string off the front of any buffer. -/
theorem C53_cstring (node service : Nat) (hn : node < 2 ^ 64) (hs : service < 2 ^ 64) :
    cstringLength node service = some ((getIpnUriString node service).length + 1) ∧
    (∀ size, writeIpnUriCstring node service size =
      if (getIpnUriString node service).length + 1 ≤ size then getIpnUriString node service ++ [0]
      else []) ∧
    (∀ rest wild, parseCstring wild (getIpnUriString node service ++ [0] ++ rest) =
      some ((node, some service), rest)) := by
  refine ⟨?_, ?_, ?_⟩
  · simp only [cstringLength, C53_uint_length _ hn, C53_uint_length _ hs, Option.bind_eq_bind,
      Option.bind_some, Option.pure_def, Option.some.injEq, getIpnUriString, List.length_append,
      List.length_cons, List.length_nil]
    omega
  · intro size
    simp only [writeIpnUriCstring]
    split_ifs <;> first | rfl | omega
  · intro rest wild
    have h0 : (0 : UInt8) ∉ getIpnUriString node service := by
      have hz : ¬ IsDigit 0 := by simp [IsDigit]
      simp [getIpnUriString, decimal_no _ _ hz]
    obtain ⟨t1, t2⟩ := takeWhile_dot (getIpnUriString node service) rest 0 h0
    unfold parseCstring
    rw [if_pos (by simp)]
    simp only [t1, t2, (C53_round_trip node service hn hs).2 wild]

/-- C53: what the null-terminated reader takes is the text up to the first null character. -/
theorem C53_cstring_iff (wild : Bool) (data : Bytes) (node : Nat) (service : Service) (rest : Bytes) :
    parseCstring wild data = some ((node, service), rest) ↔
      ∃ text, 0 ∉ text ∧ data = text ++ [0] ++ rest ∧ parseUri wild text = some (node, service) := by
  unfold parseCstring
  constructor
  · intro h
    split at h
    · rename_i h0
      obtain ⟨a, b, rfl, ha⟩ := split_at data 0 h0
      obtain ⟨t1, t2⟩ := takeWhile_dot a b 0 ha
      simp only [t1, t2] at h
      split at h
      · simp at h
      · rename_i r hr
        simp only [Option.some.injEq, Prod.mk.injEq] at h
        obtain ⟨rfl, rfl⟩ := h
        exact ⟨a, ha, rfl, hr⟩
    · simp at h
  · rintro ⟨text, h0, rfl, h⟩
    obtain ⟨t1, t2⟩ := takeWhile_dot text rest 0 h0
    rw [if_pos (by simp)]
    simp only [t1, t2, h]

/-- A negative number is taken for a large one: `ipn:-1.+7` is node 2^64 - 1, service 7. -/
theorem C53_signs_accepted :
    parseUri false [105, 112, 110, 58, 45, 49, 46, 43, 55] = some (2 ^ 64 - 1, some 7) := by
  decide +kernel

/-! Instances. -/

example : getIpnUriString 1234567890 (2 ^ 64 - 1) =
    "ipn:1234567890.18446744073709551615".toUTF8.toList := by decide +kernel
example : parseUri true "ipn:3.*".toUTF8.toList = some (3, none) := by decide +kernel
example : parseUri true "ipn:3".toUTF8.toList = none := by decide +kernel
example : parseUri true "ipn:18446744073709551616.1".toUTF8.toList = none := by decide +kernel
example : parseUri true "ipn:1.2.3".toUTF8.toList = none := by decide +kernel

end Hdtn.Uri
