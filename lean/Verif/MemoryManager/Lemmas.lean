import Verif.MemoryManager.Spec

namespace Hdtn.MemoryManager

/-! Words. -/

theorem testBit_clearBit (w b i : Nat) (hb : b < 64) (hw : w < 2 ^ 64) :
    (clearBit w b).testBit i = (w.testBit i && decide (i ≠ b)) := by
  have hlt : (2 : Nat) ^ b < 2 ^ 64 := Nat.pow_lt_pow_right (by decide) hb
  unfold clearBit
  rw [Nat.testBit_and, Nat.one_shiftLeft]
  have e : 2 ^ 64 - 1 - 2 ^ b = 2 ^ 64 - (2 ^ b + 1) := by omega
  rw [e, Nat.testBit_two_pow_sub_succ hlt, Nat.testBit_two_pow]
  by_cases hi : i < 64
  · simp only [hi, decide_true, Bool.true_and]
    by_cases hib : i = b
    · subst hib; simp
    · have : ¬ b = i := fun h => hib h.symm
      simp [hib, this]
  · have : w.testBit i = false := Nat.testBit_lt_two_pow
      (Nat.lt_of_lt_of_le hw (Nat.pow_le_pow_right (by decide) (by omega)))
    simp [this]

theorem testBit_setBit (w b i : Nat) : (setBit w b).testBit i = (w.testBit i || decide (i = b)) := by
  unfold setBit
  rw [Nat.testBit_or, Nat.one_shiftLeft, Nat.testBit_two_pow]
  by_cases hib : i = b
  · subst hib; simp
  · have : ¬ b = i := fun h => hib h.symm
    simp [hib, this]

theorem clearBit_lt (w b : Nat) (hw : w < 2 ^ 64) : clearBit w b < 2 ^ 64 :=
  Nat.lt_of_le_of_lt Nat.and_le_left hw

theorem setBit_lt (w b : Nat) (hb : b < 64) (hw : w < 2 ^ 64) : setBit w b < 2 ^ 64 := by
  unfold setBit
  rw [Nat.one_shiftLeft]
  exact Nat.or_lt_two_pow hw (Nat.pow_lt_pow_right (by decide) hb)

theorem ne_zero_iff (w : Nat) (hw : w < 2 ^ 64) : w ≠ 0 ↔ ∃ b, b < 64 ∧ w.testBit b = true := by
  constructor
  · intro h
    obtain ⟨b, hb⟩ := Nat.exists_testBit_of_ne_zero h
    refine ⟨b, ?_, hb⟩
    by_contra hge
    rw [Nat.testBit_lt_two_pow
      (Nat.lt_of_lt_of_le hw (Nat.pow_le_pow_right (by decide) (by omega)))] at hb
    simp at hb
  · rintro ⟨b, _, hb⟩ h
    rw [h] at hb; simp at hb

theorem and_bit_ne_zero (w b : Nat) : (w &&& 1 <<< b ≠ 0) ↔ w.testBit b = true := by
  rw [Nat.one_shiftLeft]
  constructor
  · intro h
    obtain ⟨i, hi⟩ := Nat.exists_testBit_of_ne_zero h
    rw [Nat.testBit_and, Nat.testBit_two_pow] at hi
    simp only [Bool.and_eq_true, decide_eq_true_eq] at hi
    rw [hi.2]; exact hi.1
  · intro h h0
    have := congrArg (fun n => n.testBit b) h0
    simp [Nat.testBit_and, Nat.testBit_two_pow_self, h] at this

theorem findLsb_spec (w : Nat) (hw : w < 2 ^ 64) (h0 : w ≠ 0) :
    ∃ b, findLsb w = some b ∧ b < 64 ∧ w.testBit b = true ∧ ∀ b' < b, w.testBit b' = false := by
  obtain ⟨b0, hb0, hb1⟩ := (ne_zero_iff w hw).1 h0
  unfold findLsb
  cases hf : (List.range 64).find? fun i => w.testBit i with
  | none =>
    rw [List.find?_eq_none] at hf
    exact absurd hb1 (hf b0 (List.mem_range.2 hb0))
  | some b =>
    have h1 := List.find?_some hf
    have h2 := List.mem_of_find?_eq_some hf
    refine ⟨b, rfl, List.mem_range.1 h2, h1, fun b' hb' => ?_⟩
    rw [List.find?_eq_some_iff_getElem] at hf
    obtain ⟨_, i, hi, hib, hall⟩ := hf
    rw [List.getElem_range] at hib
    subst hib
    have := hall b' hb'
    rw [List.getElem_range] at this
    simpa using this

theorem shl_or (seg b : Nat) (hb : b < 64) : (seg <<< 6) ||| b = 64 * seg + b := by
  rw [← Nat.shiftLeft_add_eq_or_of_lt (show b < 2 ^ 6 by omega), Nat.shiftLeft_eq]; omega

theorem shr6 (n : Nat) : n >>> 6 = n / 64 := by rw [Nat.shiftRight_eq_div_pow]

theorem and63 (n : Nat) : n &&& 63 = n % 64 := Nat.and_two_pow_sub_one_eq_mod n 6

/-! The tree. -/

/-- The bit for child `j` in row `h`. -/
def Fr (t : Tree) (h j : Nat) : Prop := (t.words h (j / 64)).testBit (j % 64) = true

/-- Rows have the sizes of the constructor and words are 64 bits. -/
structure Shape (t : Tree) : Prop where
  len : ∀ h, t.len h = t.max / 64 ^ (h + 1) + 1
  word : ∀ h i, t.words h i < 2 ^ 64

/-- The leaves say what is in use. -/
structure Leaf (t : Tree) (used : List Nat) : Prop where
  iff : ∀ id, id / 64 < t.len 0 → (Fr t 0 id ↔ id ∉ used)
  lt : ∀ id ∈ used, id < t.max

/-- Row `h + 1` says which words of row `h` are not full. -/
def Cons (t : Tree) (h : Nat) : Prop := ∀ j, j < t.len h → (Fr t (h + 1) j ↔ t.words h j ≠ 0)

structure Inv (t : Tree) (used : List Nat) : Prop where
  shape : Shape t
  leaf : Leaf t used
  cons : ∀ h < 5, Cons t h
  max : t.max < 64 ^ 6
  nodup : used.Nodup
  num : t.num = used.length

theorem word_eq (t : Tree) (h i : Nat) (hi : i < t.len h) : t.word h i = some (t.words h i) := by
  unfold Tree.word; rw [if_pos hi]

theorem words_set (t : Tree) (h i w h' i' : Nat) :
    (t.setWord h i w).words h' i' = if h' = h ∧ i' = i then w else t.words h' i' := rfl

theorem shape_set (t : Tree) (hs : Shape t) (h i w : Nat) (hw : w < 2 ^ 64) :
    Shape (t.setWord h i w) :=
  ⟨hs.len, fun h' i' => by rw [words_set]; split; exacts [hw, hs.word h' i']⟩

theorem div_lt_len (t : Tree) (hs : Shape t) (h j : Nat) (hj : j < t.len h) : j / 64 < t.len (h + 1) := by
  rw [hs.len] at *
  have : t.max / 64 ^ (h + 1 + 1) = t.max / 64 ^ (h + 1) / 64 := by
    rw [Nat.div_div_eq_div_mul, pow_succ]
  rw [this]
  have : j / 64 ≤ t.max / 64 ^ (h + 1) / 64 := Nat.div_le_div_right (by omega)
  omega

/-- A free leaf makes every word above it non-zero. -/
theorem free_up (t : Tree) (used : List Nat) (hs : Shape t) (hl : Leaf t used) (h : Nat)
    (hc : ∀ h' < h, Cons t h') (id : Nat) (hid : id / 64 < t.len 0) (hf : id ∉ used) :
    id / 64 ^ (h + 1) < t.len h ∧ t.words h (id / 64 ^ (h + 1)) ≠ 0 ∧ Fr t h (id / 64 ^ h) := by
  induction h with
  | zero =>
    have hfr := (hl.iff id hid).2 hf
    refine ⟨by simpa using hid, ?_, by simpa using hfr⟩
    rw [ne_zero_iff _ (hs.word _ _)]
    exact ⟨id % 64, by omega, by simpa [Fr] using hfr⟩
  | succ h ih =>
    obtain ⟨h1, h2, h3⟩ := ih fun h' hh => hc h' (by omega)
    have e : id / 64 ^ (h + 1 + 1) = id / 64 ^ (h + 1) / 64 := by
      rw [Nat.div_div_eq_div_mul, pow_succ]
    have hfr : Fr t (h + 1) (id / 64 ^ (h + 1)) := (hc h (by omega) _ h1).2 h2
    refine ⟨by rw [e]; exact div_lt_len t hs h _ h1, ?_, hfr⟩
    rw [ne_zero_iff _ (hs.word _ _), e]
    exact ⟨_, Nat.mod_lt _ (by decide), hfr⟩

theorem max_div (t : Tree) (hs : Shape t) : t.max / 64 < t.len 0 := by
  rw [hs.len]; simp

/-- The search and update below a word that is not full. -/
theorem getAndSet_spec (used : List Nat) (h : Nat) (t : Tree) (i : Nat) (hs : Shape t)
    (hl : Leaf t used) (hc : ∀ h' < h, Cons t h') (hi : i ≤ t.max / 64 ^ (h + 1))
    (hne : t.words h i ≠ 0) :
    ∃ t' id full, getAndSet h t i = some (t', id, full) ∧ Shape t' ∧ t'.max = t.max ∧
      t'.num = t.num ∧ t'.len = t.len ∧
      id ≤ t.max ∧ id / 64 ^ (h + 1) = i ∧ id ∉ used ∧
      (∀ id', id' / 64 < t.len 0 → id' ∉ used → id' / 64 ^ (h + 1) = i → id ≤ id') ∧
      (full = decide (t'.words h i = 0)) ∧
      (∀ h' i', (h' > h ∨ (h' = h ∧ i' ≠ i)) → t'.words h' i' = t.words h' i') ∧
      (∀ h' < h, Cons t' h') ∧
      (id < t.max → Leaf t' (id :: used)) ∧ (id = t.max → t'.words = t.words ∧ full = false) := by
  have hmaxfree : t.max ∉ used := fun hh => by have := hl.lt _ hh; omega
  induction h generalizing t i with
  | zero =>
    have hil : i < t.len 0 := by rw [hs.len]; omega
    obtain ⟨b, hb1, hb2, hb3, hb4⟩ := findLsb_spec _ (hs.word 0 i) hne
    have hdiv : (64 * i + b) / 64 = i := by omega
    have hmod : (64 * i + b) % 64 = b := by omega
    have hfree : 64 * i + b ∉ used := by
      rw [← hl.iff _ (by rw [hdiv]; exact hil), Fr, hdiv, hmod]; exact hb3
    have hmin : ∀ id', id' / 64 < t.len 0 → id' ∉ used → id' / 64 = i → 64 * i + b ≤ id' := by
      intro id' h1 h2 h3
      by_contra hlt
      have hfr := (hl.iff id' h1).2 h2
      rw [Fr, h3, hb4 (id' % 64) (by omega)] at hfr
      simp at hfr
    have hle : 64 * i + b ≤ t.max := by
      by_cases him : i = t.max / 64
      · exact hmin _ (max_div t hs) hmaxfree him.symm
      · have : i < t.max / 64 := by simp only [zero_add, pow_one] at hi; omega
        omega
    simp only [getAndSet, word_eq t 0 i hil, hb1, shl_or i b hb2]
    refine ⟨_, _, _, rfl, ?_, rfl, rfl, rfl, hle, by simpa using hdiv, hfree,
      fun id' h1 h2 h3 => hmin id' h1 h2 (by simpa using h3), ?_, ?_, by simp, ?_, ?_⟩
    · refine shape_set t hs _ _ _ ?_
      split
      · exact clearBit_lt _ _ (hs.word _ _)
      · exact hs.word _ _
    · simp only [words_set, and_self, if_true]
    · intro h' i' hh
      rw [words_set, if_neg]
      rintro ⟨rfl, rfl⟩
      rcases hh with hh | hh
      · omega
      · exact hh.2 rfl
    · intro hlt
      rw [if_pos hlt]
      refine ⟨fun id hid => ?_, fun id hid => ?_⟩
      · have hid' : id / 64 < t.len 0 := hid
        have hold := hl.iff id hid'
        rw [Fr, words_set]
        by_cases hii : id / 64 = i
        · rw [if_pos ⟨rfl, hii⟩, testBit_clearBit _ _ _ hb2 (hs.word _ _)]
          rw [Fr, hii] at hold
          simp only [Bool.and_eq_true, decide_eq_true_eq, hold, List.mem_cons, not_or]
          constructor
          · rintro ⟨g1, g2⟩; exact ⟨fun hh => g2 (by omega), g1⟩
          · rintro ⟨g1, g2⟩; exact ⟨g2, fun hh => g1 (by omega)⟩
        · rw [if_neg (fun hh => hii hh.2), ← Fr, hold, List.mem_cons, not_or]
          constructor
          · intro g; exact ⟨fun hh => hii (by omega), g⟩
          · exact fun g => g.2
      · rcases List.mem_cons.1 hid with rfl | hid
        · exact hlt
        · exact hl.lt id hid
    · intro heq
      have hnl : ¬ 64 * i + b < t.max := by omega
      rw [if_neg hnl]
      constructor
      · funext h' i'
        rw [words_set]; split
        · rename_i hh; rw [hh.1, hh.2]
        · rfl
      · simpa using hne
  | succ h ih =>
    have hil : i < t.len (h + 1) := by rw [hs.len]; omega
    obtain ⟨b, hb1, hb2, hb3, hb4⟩ := findLsb_spec _ (hs.word (h + 1) i) hne
    have hdiv : (64 * i + b) / 64 = i := by omega
    have hmod : (64 * i + b) % 64 = b := by omega
    have hpow : ∀ n : Nat, n / 64 ^ (h + 1 + 1) = n / 64 ^ (h + 1) / 64 := fun n => by
      rw [Nat.div_div_eq_div_mul, pow_succ]
    -- free leaves below this word lie at or after the child found
    have hchild : ∀ id', id' / 64 < t.len 0 → id' ∉ used → id' / 64 ^ (h + 1 + 1) = i →
        64 * i + b ≤ id' / 64 ^ (h + 1) := by
      intro id' h1 h2 h3
      have hfr := (free_up t used hs hl (h + 1) hc id' h1 h2).2.2
      rw [hpow] at h3
      by_contra hlt
      rw [Fr, h3, hb4 _ (by omega)] at hfr
      simp at hfr
    have hjle : 64 * i + b ≤ t.max / 64 ^ (h + 1) := by
      by_cases him : i = t.max / 64 ^ (h + 1 + 1)
      · exact hchild _ (max_div t hs) hmaxfree him.symm
      · rw [hpow] at him hi
        omega
    have hjlen : 64 * i + b < t.len h := by rw [hs.len]; omega
    have hjne : t.words h (64 * i + b) ≠ 0 := by
      rw [← hc h (by omega) _ hjlen, Fr, hdiv, hmod]; exact hb3
    obtain ⟨t1, id, full, hg, s1, m1, n1, l1, hle, hpre, hfree, hmin, hfull, hsame, hcons, hleaf, hend⟩ :=
      ih t (64 * i + b) hs hl (fun h' hh => hc h' (by omega)) hjle hjne hmaxfree
    simp only [getAndSet, word_eq t (h + 1) i hil, hb1, shl_or i b hb2, hg]
    have hw1 : t1.words (h + 1) i = t.words (h + 1) i := hsame (h + 1) i (Or.inl (by omega))
    set w' := (if full && decide (id < t.max) then clearBit (t.words (h + 1) i) b
      else t.words (h + 1) i) with hw'
    have hwlt : w' < 2 ^ 64 := by
      rw [hw']; split
      · exact clearBit_lt _ _ (hs.word _ _)
      · exact hs.word _ _
    refine ⟨_, _, _, rfl, shape_set t1 s1 _ _ _ hwlt, m1, n1, l1, hle, ?_, hfree, ?_, ?_, ?_, ?_, ?_, ?_⟩
    · rw [hpow, hpre, hdiv]
    · intro id' h1 h2 h3
      have hge := hchild id' h1 h2 h3
      by_cases heq : id' / 64 ^ (h + 1) = 64 * i + b
      · exact hmin id' h1 h2 heq
      · have hlt : id / 64 ^ (h + 1) < id' / 64 ^ (h + 1) := by omega
        exact Nat.le_of_lt (Nat.lt_of_div_lt_div hlt)
    · rw [words_set, if_pos ⟨rfl, rfl⟩]
    · intro h' i' hh
      rw [words_set, if_neg]
      · exact hsame h' i' (Or.inl (by omega))
      · rintro ⟨rfl, rfl⟩
        rcases hh with hh | hh
        · omega
        · exact hh.2 rfl
    · intro h' hh j hj
      by_cases hhe : h' = h
      · subst hhe
        have hj' : j < t.len h' := by rw [← l1]; exact hj
        have hold := hc h' (by omega) j hj'
        have hlow : (t1.setWord (h' + 1) i w').words h' j = t1.words h' j := by
          rw [words_set, if_neg (by omega)]
        rw [hlow, Fr, words_set]
        by_cases hji : j / 64 = i
        · rw [if_pos ⟨rfl, hji⟩]
          rw [Fr, hji] at hold
          by_cases hjb : j = 64 * i + b
          · have hjb' : j % 64 = b := by omega
            rw [hjb', hw', hjb]
            by_cases hlt : id < t.max
            · rw [hfull]
              by_cases hz : t1.words h' (64 * i + b) = 0
              · simp only [hz, decide_true, hlt, Bool.and_self, if_true]
                rw [testBit_clearBit _ _ _ hb2 (hs.word _ _)]
                simp
              · simp only [hz, decide_false, Bool.false_and, Bool.false_eq_true, if_false, hb3,
                  ne_eq, not_false_eq_true]
            · obtain ⟨e1, e2⟩ := hend (by omega)
              rw [e2]
              simp only [Bool.false_and, Bool.false_eq_true, if_false, hb3, true_iff, e1]
              exact hjne
          · have hsj : t1.words h' j = t.words h' j := hsame h' j (Or.inr ⟨rfl, hjb⟩)
            rw [hsj, ← hold, hw']
            split
            · rw [testBit_clearBit _ _ _ hb2 (hs.word _ _)]
              have : j % 64 ≠ b := by omega
              simp [this]
            · rfl
        · have hsj : t1.words h' j = t.words h' j :=
            hsame h' j (Or.inr ⟨rfl, fun hh => hji (by omega)⟩)
          rw [if_neg (fun hh => hji hh.2), hsame (h' + 1) (j / 64) (Or.inl (by omega)), hsj]
          exact hold
      · have hc1 := hcons h' (by omega) j hj
        rw [Fr, words_set, if_neg (by omega), words_set, if_neg (by omega)]
        exact hc1
    · intro hlt
      obtain ⟨g1, g2⟩ := hleaf hlt
      refine ⟨fun id' hid' => ?_, g2⟩
      have := g1 id' hid'
      rw [Fr, words_set, if_neg (by omega)]
      exact this
    · intro heq
      obtain ⟨e1, e2⟩ := hend heq
      have hww : w' = t.words (h + 1) i := by rw [hw', e2]; simp
      constructor
      · funext h' i'
        rw [words_set]; split
        · rename_i hh; rw [hh.1, hh.2, hww]
        · rw [e1]
      · rw [hww]; simpa using hne

theorem tree_eq (t t' : Tree) (h1 : t'.words = t.words) (h2 : t'.len = t.len) (h3 : t'.max = t.max)
    (h4 : t'.num = t.num) : t' = t := by
  cases t; cases t'; simp_all

theorem allocFirst_spec (t : Tree) (used : List Nat) (hi : Inv t used) :
    ∃ t', Inv t' (Op.allocFirst.spec t.max used).1 ∧ t'.max = t.max ∧
      (allocFirst t).map (fun r => (r.1, Answer.id r.2)) =
        some (t', (Op.allocFirst.spec t.max used).2) := by
  have hs := hi.shape
  have hl := hi.leaf
  have hmaxfree : t.max ∉ used := fun hh => by have := hl.lt _ hh; omega
  have hz : ∀ id, id ≤ t.max → id / 64 ^ (5 + 1) = 0 := fun id hid =>
    Nat.div_eq_of_lt (by have := hi.max; omega)
  have hroot := (free_up t used hs hl 5 (fun h' hh => hi.cons h' hh) t.max (max_div t hs) hmaxfree)
  rw [hz t.max (Nat.le_refl _)] at hroot
  obtain ⟨t', id, full, hg, s1, m1, n1, l1, hle, hpre, hfree, hmin, hfull, hsame, hcons, hleaf, hend⟩ :=
    getAndSet_spec used 5 t 0 hs hl (fun h' hh => hi.cons h' hh) (Nat.zero_le _) hroot.2.1
  unfold allocFirst
  rw [word_eq t 5 0 hroot.1]
  simp only [hroot.2.1, if_false, hg]
  have hmem : ∀ k, k ∈ freeIds t.max used ↔ k < t.max ∧ k ∉ used := by
    intro k; simp [freeIds]
  have hsorted : (freeIds t.max used).Pairwise (· < ·) :=
    List.Pairwise.filter _ List.pairwise_lt_range
  by_cases hge : id ≥ t.max
  · have heq : id = t.max := by omega
    obtain ⟨e1, e2⟩ := hend heq
    have htt : t' = t := tree_eq t t' e1 l1 m1 n1
    have hempty : freeIds t.max used = [] := by
      rw [List.eq_nil_iff_forall_not_mem]
      intro k hk
      obtain ⟨k1, k2⟩ := (hmem k).1 hk
      have hkl : k / 64 < t.len 0 := by
        have := max_div t hs
        have : k / 64 ≤ t.max / 64 := Nat.div_le_div_right (by omega)
        omega
      have := hmin k hkl k2 (by rw [hz k (by omega)])
      omega
    simp only [hge, if_true, Op.spec, hempty, htt]
    exact ⟨t, hi, rfl, rfl⟩
  · have hlt : id < t.max := by omega
    simp only [hge, if_false, Op.spec]
    cases hfr : freeIds t.max used with
    | nil =>
      have := (hmem id).2 ⟨hlt, hfree⟩
      rw [hfr] at this; simp at this
    | cons k rest =>
      have hk := (hmem k).1 (by rw [hfr]; simp)
      have hkid : k = id := by
        have hkl : k / 64 < t.len 0 := by
          have := max_div t hs
          have : k / 64 ≤ t.max / 64 := Nat.div_le_div_right (by omega)
          omega
        have h1 := hmin k hkl hk.2 (by rw [hz k (by omega)])
        have h2 := (hmem id).2 ⟨hlt, hfree⟩
        rw [hfr] at h2 hsorted
        rcases List.mem_cons.1 h2 with h2 | h2
        · exact h2.symm
        · have := (List.pairwise_cons.1 hsorted).1 id h2
          omega
      subst hkid
      simp only
      refine ⟨_, ?_, ?_, rfl⟩
      · obtain ⟨g1, g2⟩ := hleaf hlt
        constructor
        · exact ⟨s1.len, s1.word⟩
        · exact ⟨g1, fun x hx => by have := g2 x hx; exact this⟩
        · exact hcons
        · show t'.max < _; rw [m1]; exact hi.max
        · exact List.nodup_cons.2 ⟨hfree, hi.nodup⟩
        · show t'.num + 1 = _; rw [n1, hi.num]; rfl
      · exact m1

/-! Freeing: every row above is set on the way up. -/

theorem freeUp_spec (n h : Nat) (t : Tree) (j : Nat) (hs : Shape t) (hj : j < t.len h)
    (hne : t.words h j ≠ 0) (hn : n = 5 - h) (hh : h ≤ 5)
    (hc : ∀ h' < 5, h' ≠ h → Cons t h')
    (hck : h < 5 → ∀ j', j' < t.len h → j' ≠ j → (Fr t (h + 1) j' ↔ t.words h j' ≠ 0)) :
    ∃ t', freeUp n (h + 1) t j = some t' ∧ Shape t' ∧ t'.max = t.max ∧ t'.num = t.num ∧
      t'.len = t.len ∧ (∀ h' ≤ h, ∀ i, t'.words h' i = t.words h' i) ∧ (∀ h' < 5, Cons t' h') := by
  induction n generalizing h t j with
  | zero =>
    have : h = 5 := by omega
    subst this
    exact ⟨t, rfl, hs, rfl, rfl, rfl, fun _ _ _ => rfl, fun h' hh' => hc h' hh' (by omega)⟩
  | succ n ih =>
    have hlen := div_lt_len t hs h j hj
    simp only [freeUp, shr6, and63, word_eq t (h + 1) (j / 64) hlen]
    set w' := setBit (t.words (h + 1) (j / 64)) (j % 64) with hw'
    set t1 := t.setWord (h + 1) (j / 64) w' with ht1
    have hwlt : w' < 2 ^ 64 := setBit_lt _ _ (Nat.mod_lt _ (by decide)) (hs.word _ _)
    have s1 : Shape t1 := shape_set t hs _ _ _ hwlt
    have hw1 : t1.words (h + 1) (j / 64) = w' := by rw [ht1, words_set, if_pos ⟨rfl, rfl⟩]
    have hbit : ∀ j', Fr t1 (h + 1) j' ↔ (Fr t (h + 1) j' ∨ j' = j) := by
      intro j'
      rw [Fr, ht1, words_set]
      by_cases hd : j' / 64 = j / 64
      · rw [if_pos ⟨rfl, hd⟩, hw', testBit_setBit, Fr, hd]
        simp only [Bool.or_eq_true, decide_eq_true_eq]
        constructor
        · rintro (g | g)
          · exact Or.inl g
          · exact Or.inr (by omega)
        · rintro (g | g)
          · exact Or.inl g
          · exact Or.inr (by rw [g])
      · rw [if_neg (fun g => hd g.2), Fr]
        constructor
        · exact Or.inl
        · rintro (g | g)
          · exact g
          · exact absurd (by rw [g]) hd
    have hlow : ∀ h' i', h' ≠ h + 1 → t1.words h' i' = t.words h' i' := fun h' i' hne' => by
      rw [ht1, words_set, if_neg (fun g => hne' g.1)]
    obtain ⟨t', g1, g2, g3, g4, g5, g6, g7⟩ := ih (h + 1) t1 (j / 64) s1 (by exact hlen)
      (by
        rw [hw1, ne_zero_iff _ hwlt]
        refine ⟨j % 64, Nat.mod_lt _ (by decide), ?_⟩
        rw [hw', testBit_setBit]; simp)
      (by omega) (by omega)
      (by
        intro h' hh' hne'
        by_cases hhe : h' = h
        · subst hhe
          intro j' hj'
          rw [hbit j', hlow h' j' (by omega)]
          by_cases hjj : j' = j
          · subst hjj; simp [hne]
          · rw [← hck (by omega) j' hj' hjj]; simp [hjj]
        · intro j' hj'
          have := hc h' hh' hhe j' hj'
          rw [Fr, hlow _ _ (by omega), hlow _ _ (by omega)]
          exact this)
      (by
        intro hlt j' hj' hjj
        have := hc (h + 1) hlt (by omega) j' hj'
        rw [Fr, hlow _ _ (by omega), ← Fr, this, ht1, words_set, if_neg (fun g => hjj g.2)])
    refine ⟨t', g1, g2, g3, g4, g5, fun h' hh' i => ?_, g7⟩
    rw [g6 h' (by omega) i, hlow h' i (by omega)]

theorem freeId_spec (t : Tree) (used : List Nat) (hi : Inv t used) (id : Nat) :
    ∃ t', Inv t' ((Op.freeId id).spec t.max used).1 ∧ t'.max = t.max ∧
      (freeId t id).map (fun r => (r.1, Answer.flag r.2)) =
        some (t', ((Op.freeId id).spec t.max used).2) := by
  have hs := hi.shape
  have hl := hi.leaf
  unfold freeId
  by_cases hge : id ≥ t.max
  · have hnot : id ∉ used := fun hh => by have := hl.lt _ hh; omega
    simp only [hge, if_true, Op.spec, hnot, if_false]
    exact ⟨t, hi, rfl, rfl⟩
  · have hlt : id < t.max := by omega
    have hil : id / 64 < t.len 0 := by
      have := max_div t hs
      have : id / 64 ≤ t.max / 64 := Nat.div_le_div_right (by omega)
      omega
    simp only [hge, if_false, shr6, and63, word_eq t 0 _ hil]
    have hfr := hl.iff id hil
    by_cases hz : t.words 0 (id / 64) &&& 1 <<< (id % 64) = 0
    · have hnb : ¬ Fr t 0 id := fun g => (and_bit_ne_zero _ _).2 g hz
      have hin : id ∈ used := by
        by_contra hn; exact hnb (hfr.2 hn)
      rw [if_pos hz]
      simp only [Op.spec, hin, if_true]
      set w' := setBit (t.words 0 (id / 64)) (id % 64) with hw'
      set t1 := t.setWord 0 (id / 64) w' with ht1
      have hwlt : w' < 2 ^ 64 := setBit_lt _ _ (Nat.mod_lt _ (by decide)) (hs.word _ _)
      have s1 : Shape t1 := shape_set t hs _ _ _ hwlt
      have hlow : ∀ h' i', h' ≠ 0 → t1.words h' i' = t.words h' i' := fun h' i' hne' => by
        rw [ht1, words_set, if_neg (fun g => hne' g.1)]
      have hw1 : t1.words 0 (id / 64) = w' := by rw [ht1, words_set, if_pos ⟨rfl, rfl⟩]
      obtain ⟨t', g1, g2, g3, g4, g5, g6, g7⟩ := freeUp_spec 5 0 t1 (id / 64) s1 hil
        (by
          rw [hw1, ne_zero_iff _ hwlt]
          refine ⟨id % 64, Nat.mod_lt _ (by decide), ?_⟩
          rw [hw', testBit_setBit]; simp)
        rfl (by omega)
        (by
          intro h' hh' hne'
          intro j' hj'
          have := hi.cons h' hh' j' hj'
          rw [Fr, hlow _ _ (by omega), hlow _ _ hne']
          exact this)
        (by
          intro _ j' hj' hjj
          have := hi.cons 0 (by omega) j' hj'
          rw [Fr, hlow _ _ (by omega), ← Fr, this, ht1, words_set, if_neg (fun g => hjj g.2)])
      rw [g1]
      refine ⟨_, ?_, ?_, rfl⟩
      · constructor
        · exact ⟨g2.len, g2.word⟩
        · refine ⟨fun k hk => ?_, fun k hk => ?_⟩
          · have hk' : k / 64 < t.len 0 := by
              have hk2 : k / 64 < t'.len 0 := hk
              rw [g5] at hk2; exact hk2
            have hold := hl.iff k hk'
            show (t'.words 0 (k / 64)).testBit (k % 64) = true ↔ _
            rw [g6 0 (Nat.le_refl _), hi.nodup.mem_erase_iff, ht1, words_set]
            by_cases hd : k / 64 = id / 64
            · rw [if_pos ⟨rfl, hd⟩, hw', testBit_setBit]
              rw [Fr, hd] at hold
              simp only [Bool.or_eq_true, decide_eq_true_eq, hold]
              constructor
              · rintro (g | g) ⟨q1, q2⟩
                · exact g q2
                · exact q1 (by omega)
              · intro g
                by_cases hki : k = id
                · exact Or.inr (by rw [hki])
                · exact Or.inl fun hk => g ⟨hki, hk⟩
            · rw [if_neg (fun g => hd g.2)]
              rw [Fr] at hold
              rw [hold]
              have hki : k ≠ id := fun g => hd (by rw [g])
              simp [hki]
          · show k < t'.max
            rw [g3]; exact hl.lt k (List.mem_of_mem_erase hk)
        · exact g7
        · show t'.max < _; rw [g3]; exact hi.max
        · exact hi.nodup.erase id
        · show t'.num - 1 = _
          rw [g4, List.length_erase_of_mem hin]
          show t.num - 1 = _
          rw [hi.num]
      · exact g3
    · have hb : Fr t 0 id := (and_bit_ne_zero _ _).1 hz
      have hnot : id ∉ used := hfr.1 hb
      rw [if_neg hz]
      simp only [Op.spec, hnot, if_false]
      have hsame : setBit (t.words 0 (id / 64)) (id % 64) = t.words 0 (id / 64) := by
        apply Nat.eq_of_testBit_eq
        intro i
        rw [testBit_setBit]
        by_cases hi' : i = id % 64
        · subst hi'; rw [Fr] at hb; simp [hb]
        · simp [hi']
      have htt : t.setWord 0 (id / 64) (setBit (t.words 0 (id / 64)) (id % 64)) = t := by
        refine tree_eq _ _ ?_ rfl rfl rfl
        funext h' i'
        rw [words_set, hsame]
        split
        · rename_i g; rw [g.1, g.2]
        · rfl
      refine ⟨t, hi, rfl, ?_⟩
      rw [htt]; rfl

/-! Allocating a given identifier. -/

theorem allocUp_spec (n h : Nat) (t : Tree) (j : Nat) (hs : Shape t) (hj : j < t.len h)
    (hn : n = 5 - h) (hh : h ≤ 5) (full : Bool) (hfull : full = decide (t.words h j = 0))
    (hc : ∀ h' < 5, h' ≠ h → Cons t h')
    (hck : h < 5 → ∀ j', j' < t.len h → j' ≠ j → (Fr t (h + 1) j' ↔ t.words h j' ≠ 0))
    (hset : h < 5 → Fr t (h + 1) j) :
    ∃ t', allocUp n (h + 1) t j full = some t' ∧ Shape t' ∧ t'.max = t.max ∧ t'.num = t.num ∧
      t'.len = t.len ∧ (∀ h' ≤ h, ∀ i, t'.words h' i = t.words h' i) ∧ (∀ h' < 5, Cons t' h') := by
  induction n generalizing h t j full with
  | zero =>
    have : h = 5 := by omega
    subst this
    exact ⟨t, rfl, hs, rfl, rfl, rfl, fun _ _ _ => rfl, fun h' hh' => hc h' hh' (by omega)⟩
  | succ n ih =>
    have hlt5 : h < 5 := by omega
    by_cases hz : t.words h j = 0
    · have hft : full = true := by rw [hfull]; simp [hz]
      have hlen := div_lt_len t hs h j hj
      simp only [allocUp, hft, if_true, shr6, and63, word_eq t (h + 1) (j / 64) hlen]
      set w' := clearBit (t.words (h + 1) (j / 64)) (j % 64) with hw'
      set t1 := t.setWord (h + 1) (j / 64) w' with ht1
      have hwlt : w' < 2 ^ 64 := clearBit_lt _ _ (hs.word _ _)
      have s1 : Shape t1 := shape_set t hs _ _ _ hwlt
      have hw1 : t1.words (h + 1) (j / 64) = w' := by rw [ht1, words_set, if_pos ⟨rfl, rfl⟩]
      have hbit : ∀ j', Fr t1 (h + 1) j' ↔ (Fr t (h + 1) j' ∧ j' ≠ j) := by
        intro j'
        rw [Fr, ht1, words_set]
        by_cases hd : j' / 64 = j / 64
        · rw [if_pos ⟨rfl, hd⟩, hw', testBit_clearBit _ _ _ (Nat.mod_lt _ (by decide)) (hs.word _ _),
            Fr, hd]
          simp only [Bool.and_eq_true, decide_eq_true_eq]
          constructor
          · rintro ⟨g1, g2⟩; exact ⟨g1, fun g => g2 (by rw [g])⟩
          · rintro ⟨g1, g2⟩; exact ⟨g1, fun g => g2 (by omega)⟩
        · rw [if_neg (fun g => hd g.2), Fr]
          constructor
          · intro g; exact ⟨g, fun g' => hd (by rw [g'])⟩
          · exact fun g => g.1
      have hlow : ∀ h' i', h' ≠ h + 1 → t1.words h' i' = t.words h' i' := fun h' i' hne' => by
        rw [ht1, words_set, if_neg (fun g => hne' g.1)]
      obtain ⟨t', g1, g2, g3, g4, g5, g6, g7⟩ := ih (h + 1) t1 (j / 64) s1 (by exact hlen)
        (by omega) (by omega) (decide (w' = 0)) (by rw [hw1])
        (by
          intro h' hh' hne'
          by_cases hhe : h' = h
          · subst hhe
            intro j' hj'
            rw [hbit j', hlow h' j' (by omega)]
            by_cases hjj : j' = j
            · subst hjj; simp [hz]
            · rw [← hck (by omega) j' hj' hjj]; simp [hjj]
          · intro j' hj'
            have := hc h' hh' hhe j' hj'
            rw [Fr, hlow _ _ (by omega), hlow _ _ (by omega)]
            exact this)
        (by
          intro hlt j' hj' hjj
          have := hc (h + 1) hlt (by omega) j' hj'
          rw [Fr, hlow _ _ (by omega), ← Fr, this, ht1, words_set, if_neg (fun g => hjj g.2)])
        (by
          intro hlt
          have := hc (h + 1) hlt (by omega) (j / 64) hlen
          rw [Fr, hlow _ _ (by omega), ← Fr, this, ne_zero_iff _ (hs.word _ _)]
          exact ⟨j % 64, Nat.mod_lt _ (by decide), hset hlt5⟩)
      refine ⟨t', g1, g2, g3, g4, g5, fun h' hh' i => ?_, g7⟩
      rw [g6 h' (by omega) i, hlow h' i (by omega)]
    · have hff : full = false := by rw [hfull]; simp [hz]
      simp only [allocUp, hff, Bool.false_eq_true, if_false]
      refine ⟨t, rfl, hs, rfl, rfl, rfl, fun _ _ _ => rfl, fun h' hh' => ?_⟩
      by_cases hhe : h' = h
      · subst hhe
        intro j' hj'
        by_cases hjj : j' = j
        · subst hjj; simp [hz, hset hlt5]
        · exact hck hlt5 j' hj' hjj
      · exact hc h' hh' hhe

theorem allocId_spec (t : Tree) (used : List Nat) (hi : Inv t used) (id : Nat) :
    ∃ t', Inv t' ((Op.allocId id).spec t.max used).1 ∧ t'.max = t.max ∧
      (allocId t id).map (fun r => (r.1, Answer.flag r.2)) =
        some (t', ((Op.allocId id).spec t.max used).2) := by
  have hs := hi.shape
  have hl := hi.leaf
  unfold allocId
  by_cases hge : id ≥ t.max
  · have : ¬ id < t.max := by omega
    simp only [hge, if_true, Op.spec, this, false_and, if_false]
    exact ⟨t, hi, rfl, rfl⟩
  · have hlt : id < t.max := by omega
    have hil : id / 64 < t.len 0 := by
      have := max_div t hs
      have : id / 64 ≤ t.max / 64 := Nat.div_le_div_right (by omega)
      omega
    simp only [hge, if_false, shr6, and63, word_eq t 0 _ hil]
    have hfr := hl.iff id hil
    by_cases hz : t.words 0 (id / 64) &&& 1 <<< (id % 64) = 0
    · have hnb : ¬ Fr t 0 id := fun g => (and_bit_ne_zero _ _).2 g hz
      have hin : id ∈ used := by
        by_contra hn; exact hnb (hfr.2 hn)
      rw [if_neg (by simpa using hz)]
      simp only [Op.spec, hin, not_true_eq_false, and_false, if_false]
      have hsame : clearBit (t.words 0 (id / 64)) (id % 64) = t.words 0 (id / 64) := by
        apply Nat.eq_of_testBit_eq
        intro i
        rw [testBit_clearBit _ _ _ (Nat.mod_lt _ (by decide)) (hs.word _ _)]
        by_cases hi' : i = id % 64
        · subst hi'; rw [Fr] at hnb; simpa using hnb
        · simp [hi']
      have htt : t.setWord 0 (id / 64) (clearBit (t.words 0 (id / 64)) (id % 64)) = t := by
        refine tree_eq _ _ ?_ rfl rfl rfl
        funext h' i'
        rw [words_set, hsame]
        split
        · rename_i g; rw [g.1, g.2]
        · rfl
      refine ⟨t, hi, rfl, ?_⟩
      rw [htt]; rfl
    · have hb : Fr t 0 id := (and_bit_ne_zero _ _).1 hz
      have hnot : id ∉ used := hfr.1 hb
      rw [if_pos hz]
      simp only [Op.spec, hnot, hlt, not_false_eq_true, and_self, if_true]
      set w' := clearBit (t.words 0 (id / 64)) (id % 64) with hw'
      set t1 := t.setWord 0 (id / 64) w' with ht1
      have hwlt : w' < 2 ^ 64 := clearBit_lt _ _ (hs.word _ _)
      have s1 : Shape t1 := shape_set t hs _ _ _ hwlt
      have hlow : ∀ h' i', h' ≠ 0 → t1.words h' i' = t.words h' i' := fun h' i' hne' => by
        rw [ht1, words_set, if_neg (fun g => hne' g.1)]
      have hw1 : t1.words 0 (id / 64) = w' := by rw [ht1, words_set, if_pos ⟨rfl, rfl⟩]
      obtain ⟨t', g1, g2, g3, g4, g5, g6, g7⟩ := allocUp_spec 5 0 t1 (id / 64) s1 hil
        rfl (by omega) (decide (w' = 0)) (by rw [hw1])
        (by
          intro h' hh' hne'
          intro j' hj'
          have := hi.cons h' hh' j' hj'
          rw [Fr, hlow _ _ (by omega), hlow _ _ hne']
          exact this)
        (by
          intro _ j' hj' hjj
          have := hi.cons 0 (by omega) j' hj'
          rw [Fr, hlow _ _ (by omega), ← Fr, this, ht1, words_set, if_neg (fun g => hjj g.2)])
        (by
          intro _
          rw [Fr, hlow _ _ (by omega), ← Fr, hi.cons 0 (by omega) _ hil, ne_zero_iff _ (hs.word _ _)]
          exact ⟨id % 64, Nat.mod_lt _ (by decide), hb⟩)
      rw [g1]
      refine ⟨_, ?_, ?_, rfl⟩
      · constructor
        · exact ⟨g2.len, g2.word⟩
        · refine ⟨fun k hk => ?_, fun k hk => ?_⟩
          · have hk' : k / 64 < t.len 0 := by
              have hk2 : k / 64 < t'.len 0 := hk
              rw [g5] at hk2; exact hk2
            have hold := hl.iff k hk'
            show (t'.words 0 (k / 64)).testBit (k % 64) = true ↔ _
            rw [g6 0 (Nat.le_refl _), ht1, words_set, List.mem_cons, not_or]
            by_cases hd : k / 64 = id / 64
            · rw [if_pos ⟨rfl, hd⟩, hw', testBit_clearBit _ _ _ (Nat.mod_lt _ (by decide)) (hs.word _ _)]
              rw [Fr, hd] at hold
              simp only [Bool.and_eq_true, decide_eq_true_eq, hold]
              constructor
              · rintro ⟨q1, q2⟩; exact ⟨fun g => q2 (by rw [g]), q1⟩
              · rintro ⟨q1, q2⟩; exact ⟨q2, fun g => q1 (by omega)⟩
            · rw [if_neg (fun g => hd g.2)]
              rw [Fr] at hold
              rw [hold]
              have hki : k ≠ id := fun g => hd (by rw [g])
              simp [hki]
          · show k < t'.max
            rw [g3]
            rcases List.mem_cons.1 hk with rfl | hk
            · exact hlt
            · exact hl.lt k hk
        · exact g7
        · show t'.max < _; rw [g3]; exact hi.max
        · exact List.nodup_cons.2 ⟨hnot, hi.nodup⟩
        · show t'.num + 1 = _
          rw [g4]
          show t.num + 1 = _
          rw [hi.num]; rfl
      · exact g3

end Hdtn.MemoryManager
