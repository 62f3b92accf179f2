import Verif.CustodyId.Spec

/-!
C31.
-/

namespace Hdtn.CustodyId

open Hdtn.FragmentSet Hdtn.HashMap16

/-- Identifiers reserved and not yet handed out. -/
def Pending (s : State) (x : Nat) : Prop :=
  (s.next ≠ 2 ^ 64 - 1 ∧ x / 256 = s.next / 256) ∨
    ∃ src p, s.bySource src = some p ∧ p ≤ x ∧ x / 256 = p / 256

/-- `k` bounds the blocks marked. -/
structure Inv (s : State) (live : Nat → Prop) (k : Nat) : Prop where
  ids : Canonical s.ids
  blocks : Canonical s.blocks
  block : ∀ x, Covers s.ids x → Covers s.blocks (x / 256)
  bound : ∀ m, Covers s.blocks m → m < k
  inUse : ∀ x, live x → Covers s.ids x
  pending : ∀ x, Pending s x → Covers s.ids x ∧ ¬ live x
  apart : ∀ src p, s.bySource src = some p → s.next / 256 ≠ p / 256 ∧
    ∀ src' p', s.bySource src' = some p' → src ≠ src' → p / 256 ≠ p' / 256
  next : s.next = 2 ^ 64 - 1 ∨ s.next % 256 = 0

/-- The parts of the invariant left while a block is being reserved. -/
structure Mid (s : State) (live : Nat → Prop) (k : Nat) : Prop where
  ids : Canonical s.ids
  blocks : Canonical s.blocks
  block : ∀ x, Covers s.ids x → Covers s.blocks (x / 256)
  bound : ∀ m, Covers s.blocks m → m < k
  inUse : ∀ x, live x → Covers s.ids x
  pending : ∀ src p, s.bySource src = some p → ∀ x, p ≤ x → x / 256 = p / 256 →
    Covers s.ids x ∧ ¬ live x
  apart : ∀ src p, s.bySource src = some p →
    ∀ src' p', s.bySource src' = some p' → src ≠ src' → p / 256 ≠ p' / 256

theorem shr8 (n : Nat) : n >>> 8 = n / 256 := by rw [Nat.shiftRight_eq_div_pow]

theorem blockOf_eq (m : Nat) (h : m < 2 ^ 56) : blockOf m = ⟨256 * m, 256 * m + 255⟩ := by
  unfold blockOf
  rw [Nat.shiftLeft_eq]
  have h1 : m * 2 ^ 8 % U64 = 256 * m := by
    rw [Nat.mod_eq_of_lt (by show m * 2 ^ 8 < 2 ^ 64; omega)]; omega
  rw [h1, Nat.mod_eq_of_lt (by show _ < 2 ^ 64; omega)]

theorem chooseBlock_spec (l : List Frag) (hc : Canonical l) (k : Nat)
    (hb : ∀ m, Covers l m → m < k) : chooseBlock l ≤ k ∧ ¬ Covers l (chooseBlock l) := by
  cases l with
  | nil => exact ⟨Nat.zero_le _, covers_nil _⟩
  | cons f rest =>
    have hv := hc.valid (f := f) (by simp)
    have hp := (List.pairwise_cons.1 hc.2).1
    by_cases h0 : f.b = 0
    · have hm : (f.e + 1) % U64 = f.e + 1 := Nat.mod_eq_of_lt hv.2
      simp only [chooseBlock, h0, ne_eq, not_true_eq_false, if_false, hm]
      refine ⟨?_, ?_⟩
      · have := hb f.e ⟨f, by simp, hv.1, Nat.le_refl _⟩
        omega
      · rintro ⟨g, hg, hg1, hg2⟩
        rcases List.mem_cons.1 hg with rfl | hg
        · omega
        · have := hp g hg; omega
    · simp only [chooseBlock, h0, ne_eq, not_false_eq_true, if_true]
      refine ⟨Nat.zero_le _, ?_⟩
      rintro ⟨g, hg, hg1, hg2⟩
      rcases List.mem_cons.1 hg with rfl | hg
      · omega
      · have := hp g hg; omega

theorem reserve_spec (s : State) (live : Nat → Prop) (k : Nat) (h : Mid s live k)
    (hk : k < 2 ^ 56 - 1) : Inv (reserve s) live (k + 1) ∧ (reserve s).next ≠ 2 ^ 64 - 1 ∧
      (reserve s).bySource = s.bySource := by
  obtain ⟨hm, hnc⟩ := chooseBlock_spec s.blocks h.blocks k h.bound
  set m := chooseBlock s.blocks with hmdef
  have hbase : (m <<< 8) % U64 = 256 * m := by
    rw [Nat.shiftLeft_eq, Nat.mod_eq_of_lt (by show m * 2 ^ 8 < 2 ^ 64; omega)]; omega
  have hblk := blockOf_eq m (by omega)
  have hvb : (⟨m, m⟩ : Frag).Valid := ⟨Nat.le_refl _, by show m + 1 < 2 ^ 64; omega⟩
  have hvi : (⟨256 * m, 256 * m + 255⟩ : Frag).Valid :=
    ⟨by show 256 * m ≤ 256 * m + 255; omega, by show 256 * m + 255 + 1 < 2 ^ 64; omega⟩
  obtain ⟨b1, b2, _⟩ := C07_insert s.blocks ⟨m, m⟩ h.blocks hvb
  obtain ⟨i1, i2, _⟩ := C07_insert s.ids ⟨256 * m, 256 * m + 255⟩ h.ids hvi
  have hb2 : ∀ x, Covers (reserve s).blocks x ↔ Covers s.blocks x ∨ x = m := fun x => by
    show Covers (insertFragment s.blocks ⟨m, m⟩).1 x ↔ _
    rw [b2]; simp only [Frag.Has]
    constructor
    · rintro (h | h); exacts [Or.inl h, Or.inr (by omega)]
    · rintro (h | h); exacts [Or.inl h, Or.inr (by omega)]
  have hi2 : ∀ x, Covers (reserve s).ids x ↔ Covers s.ids x ∨ x / 256 = m := fun x => by
    show Covers (insertFragment s.ids (blockOf m)).1 x ↔ _
    rw [hblk, i2]; simp only [Frag.Has]
    constructor
    · rintro (h | h); exacts [Or.inl h, Or.inr (by omega)]
    · rintro (h | h); exacts [Or.inl h, Or.inr (by omega)]
  have hnext : (reserve s).next = 256 * m := hbase
  have hnew : ∀ x, x / 256 = m → ¬ Covers s.ids x := fun x hx hc => by
    have := h.block x hc; rw [hx] at this; exact hnc this
  refine ⟨⟨?_, b1, ?_, ?_, ?_, ?_, ?_, ?_⟩, by rw [hnext]; omega, rfl⟩
  · show Canonical (insertFragment s.ids (blockOf m)).1
    rw [hblk]; exact i1
  · intro x hx
    rw [hi2] at hx
    rw [hb2]
    rcases hx with hx | hx
    · exact Or.inl (h.block x hx)
    · exact Or.inr hx
  · intro x hx
    rw [hb2] at hx
    rcases hx with hx | hx
    · have := h.bound x hx; omega
    · omega
  · intro x hx; rw [hi2]; exact Or.inl (h.inUse x hx)
  · intro x hx
    rw [hi2]
    rcases hx with ⟨_, hx⟩ | ⟨src, p, h1, h2, h3⟩
    · rw [hnext] at hx
      have hxm : x / 256 = m := by omega
      exact ⟨Or.inr hxm, fun hl => hnew x hxm (h.inUse x hl)⟩
    · obtain ⟨q1, q2⟩ := h.pending src p h1 x h2 h3
      exact ⟨Or.inl q1, q2⟩
  · intro src p hp
    refine ⟨?_, fun src' p' hp' hne => h.apart src p hp src' p' hp' hne⟩
    rw [hnext]
    intro heq
    have hpm : p / 256 = m := by omega
    exact hnew p hpm (h.pending src p hp p (Nat.le_refl _) rfl).1
  · right; rw [hnext]; omega

theorem Inv.toMid {s : State} {live : Nat → Prop} {k : Nat} (h : Inv s live k) : Mid s live k :=
  ⟨h.ids, h.blocks, h.block, h.bound, h.inUse,
    fun src p hp x h1 h2 => h.pending x (Or.inr ⟨src, p, hp, h1, h2⟩),
    fun src p hp src' p' hp' hne => (h.apart src p hp).2 src' p' hp' hne⟩

theorem Inv.mono {s : State} {live : Nat → Prop} {k k' : Nat} (h : Inv s live k) (hk : k ≤ k') :
    Inv s live k' :=
  ⟨h.ids, h.blocks, h.block, fun m hm => Nat.lt_of_lt_of_le (h.bound m hm) hk, h.inUse, h.pending,
    h.apart, h.next⟩

theorem covered_lt (s : State) (live : Nat → Prop) (k : Nat) (h : Inv s live k) (x : Nat)
    (hx : Covers s.ids x) : x < 256 * k := by
  have := h.bound _ (h.block x hx); omega

theorem alloc_reserved (s : State) (live : Nat → Prop) (k : Nat) (src : Eid) (h : Inv s live k)
    (hk : k < 2 ^ 56 - 1) (hn : s.next ≠ 2 ^ 64 - 1) :
    Inv (alloc s src).1 (fun x => live x ∨ x = (alloc s src).2) (k + 1) ∧ ¬ live (alloc s src).2 ∧
      (alloc s src).1.next ≠ 2 ^ 64 - 1 := by
  have hmod : s.next % 256 = 0 := by
    rcases h.next with h | h
    · exact absurd h hn
    · exact h
  have hnpend : ∀ x, x / 256 = s.next / 256 → Covers s.ids x ∧ ¬ live x := fun x hx =>
    h.pending x (Or.inl ⟨hn, hx⟩)
  have hnlt := covered_lt s live k h s.next (hnpend _ rfl).1
  unfold alloc
  simp only [hn, if_false]
  cases hp : s.bySource src with
  | none =>
    have hn1 : (s.next + 1) % U64 = s.next + 1 := Nat.mod_eq_of_lt (by show _ < 2 ^ 64; omega)
    simp only [hn1]
    have hmid : Mid (setSource s src (s.next + 1)) (fun x => live x ∨ x = s.next) k := by
      refine ⟨h.ids, h.blocks, h.block, h.bound, ?_, ?_, ?_⟩
      · rintro x (hx | rfl)
        · exact h.inUse x hx
        · exact (hnpend _ rfl).1
      · intro src' p hp' x hx1 hx2
        by_cases he : src' = src
        · have : p = s.next + 1 := by simpa [setSource, he] using hp'.symm
          obtain ⟨q1, q2⟩ := hnpend x (by omega)
          exact ⟨q1, by rintro (g | g); exacts [q2 g, by omega]⟩
        · have hp2 : s.bySource src' = some p := by simpa [setSource, he] using hp'
          obtain ⟨q1, q2⟩ := h.pending x (Or.inr ⟨src', p, hp2, hx1, hx2⟩)
          refine ⟨q1, ?_⟩
          rintro (g | g)
          · exact q2 g
          · have := (h.apart src' p hp2).1
            rw [← g] at this; exact this hx2
      · intro s1 p1 h1 s2 p2 h2 hne
        by_cases e1 : s1 = src
        · have g1 : p1 = s.next + 1 := by simpa [setSource, e1] using h1.symm
          have e2 : s2 ≠ src := fun g => hne (by rw [e1, g])
          have h2' : s.bySource s2 = some p2 := by simpa [setSource, e2] using h2
          have := (h.apart s2 p2 h2').1
          omega
        · have h1' : s.bySource s1 = some p1 := by simpa [setSource, e1] using h1
          by_cases e2 : s2 = src
          · have g2 : p2 = s.next + 1 := by simpa [setSource, e2] using h2.symm
            have := (h.apart s1 p1 h1').1
            omega
          · have h2' : s.bySource s2 = some p2 := by simpa [setSource, e2] using h2
            exact (h.apart s1 p1 h1').2 s2 p2 h2' hne
    obtain ⟨r1, r2, _⟩ := reserve_spec _ _ k hmid hk
    exact ⟨r1, (hnpend _ rfl).2, r2⟩
  | some p =>
    obtain ⟨p1, p2⟩ := h.pending p (Or.inr ⟨src, p, hp, Nat.le_refl _, rfl⟩)
    have hplt := covered_lt s live k h p p1
    have hn1 : (p + 1) % U64 = p + 1 := Nat.mod_eq_of_lt (by show _ < 2 ^ 64; omega)
    have h255 : (p + 1) &&& 255 = (p + 1) % 256 := Nat.and_two_pow_sub_one_eq_mod (p + 1) 8
    obtain ⟨a1, a2⟩ := h.apart src p hp
    simp only [hn1, h255]
    by_cases hz : (p + 1) % 256 = 0
    · rw [if_pos hz]
      have hmid : Mid (setSource s src s.next) (fun x => live x ∨ x = p) k := by
        refine ⟨h.ids, h.blocks, h.block, h.bound, ?_, ?_, ?_⟩
        · rintro x (hx | rfl)
          · exact h.inUse x hx
          · exact p1
        · intro src' q hq x hx1 hx2
          by_cases he : src' = src
          · have : q = s.next := by simpa [setSource, he] using hq.symm
            obtain ⟨q1, q2⟩ := hnpend x (by omega)
            refine ⟨q1, ?_⟩
            rintro (g | g)
            · exact q2 g
            · apply a1; rw [← g, hx2, this]
          · have hq2 : s.bySource src' = some q := by simpa [setSource, he] using hq
            obtain ⟨q1, q2⟩ := h.pending x (Or.inr ⟨src', q, hq2, hx1, hx2⟩)
            refine ⟨q1, ?_⟩
            rintro (g | g)
            · exact q2 g
            · have := a2 src' q hq2 (fun e => he e.symm)
              rw [← g] at this; exact this hx2
        · intro s1 p1' h1 s2 p2' h2 hne
          by_cases e1 : s1 = src
          · have g1 : p1' = s.next := by simpa [setSource, e1] using h1.symm
            have e2 : s2 ≠ src := fun g => hne (by rw [e1, g])
            have h2' : s.bySource s2 = some p2' := by simpa [setSource, e2] using h2
            have := (h.apart s2 p2' h2').1
            omega
          · have h1' : s.bySource s1 = some p1' := by simpa [setSource, e1] using h1
            by_cases e2 : s2 = src
            · have g2 : p2' = s.next := by simpa [setSource, e2] using h2.symm
              have := (h.apart s1 p1' h1').1
              omega
            · have h2' : s.bySource s2 = some p2' := by simpa [setSource, e2] using h2
              exact (h.apart s1 p1' h1').2 s2 p2' h2' hne
      obtain ⟨r1, r2, _⟩ := reserve_spec _ _ k hmid hk
      exact ⟨r1, p2, r2⟩
    · rw [if_neg hz]
      refine ⟨?_, p2, hn⟩
      refine Inv.mono (k := k) ?_ (by omega)
      have hdiv : (p + 1) / 256 = p / 256 := by omega
      refine ⟨h.ids, h.blocks, h.block, h.bound, ?_, ?_, ?_, h.next⟩
      · rintro x (hx | rfl)
        · exact h.inUse x hx
        · exact p1
      · rintro x (⟨hx1, hx2⟩ | ⟨src', q, hq, hx1, hx2⟩)
        · obtain ⟨q1, q2⟩ := hnpend x hx2
          refine ⟨q1, ?_⟩
          rintro (g | g)
          · exact q2 g
          · have g' : x = p := g
            apply a1; rw [← g']; exact hx2.symm
        · by_cases he : src' = src
          · have : q = p + 1 := by simpa [setSource, he] using hq.symm
            obtain ⟨q1, q2⟩ := h.pending x (Or.inr ⟨src, p, hp, by omega, by omega⟩)
            refine ⟨q1, ?_⟩
            rintro (g | g)
            · exact q2 g
            · omega
          · have hq2 : s.bySource src' = some q := by simpa [setSource, he] using hq
            obtain ⟨q1, q2⟩ := h.pending x (Or.inr ⟨src', q, hq2, hx1, hx2⟩)
            refine ⟨q1, ?_⟩
            rintro (g | g)
            · exact q2 g
            · have := a2 src' q hq2 (fun e => he e.symm)
              have g' : x = p := g
              rw [← g'] at this; exact this hx2
      · intro s1 p1' h1
        by_cases e1 : s1 = src
        · have g1 : p1' = p + 1 := by simpa [setSource, e1] using h1.symm
          refine ⟨by rw [g1, hdiv]; exact a1, fun s2 p2' h2 hne => ?_⟩
          have e2 : s2 ≠ src := fun g => hne (by rw [e1, g])
          have h2' : s.bySource s2 = some p2' := by simpa [setSource, e2] using h2
          rw [g1, hdiv]
          exact a2 s2 p2' h2' (fun e => e2 e.symm)
        · have h1' : s.bySource s1 = some p1' := by simpa [setSource, e1] using h1
          refine ⟨(h.apart s1 p1' h1').1, fun s2 p2' h2 hne => ?_⟩
          by_cases e2 : s2 = src
          · have g2 : p2' = p + 1 := by simpa [setSource, e2] using h2.symm
            rw [g2, hdiv]
            exact fun e => a2 s1 p1' h1' (fun g => e1 g.symm) e.symm
          · have h2' : s.bySource s2 = some p2' := by simpa [setSource, e2] using h2
            exact (h.apart s1 p1' h1').2 s2 p2' h2' hne

/-- Before the first allocation no source has a block. -/
def Started (s : State) : Prop := s.next = 2 ^ 64 - 1 → ∀ src, s.bySource src = none

theorem alloc_spec (s : State) (live : Nat → Prop) (k : Nat) (src : Eid) (h : Inv s live k)
    (hk : k + 1 < 2 ^ 56 - 1) (hs : Started s) :
    Inv (alloc s src).1 (fun x => live x ∨ x = (alloc s src).2)
      (if s.next = 2 ^ 64 - 1 then k + 2 else k + 1) ∧
      ¬ live (alloc s src).2 ∧ (alloc s src).1.next ≠ 2 ^ 64 - 1 := by
  by_cases hn : s.next = 2 ^ 64 - 1
  · obtain ⟨r1, r2, r3⟩ := reserve_spec s live k h.toMid (by omega)
    have e : alloc s src = alloc (reserve s) src := by
      unfold alloc; simp only [hn, if_true, r2, if_false]
    rw [e, if_pos hn]
    exact alloc_reserved (reserve s) live (k + 1) src r1 hk r2
  · rw [if_neg hn]
    exact alloc_reserved s live k src h (by omega) hn

theorem freeBlock_spec (s : State) (live : Nat → Prop) (k m : Nat) (h : Inv s live k)
    (hm : m < 2 ^ 56) :
    Inv (freeBlock s m).1 live k ∧ (freeBlock s m).1.next = s.next ∧
      (freeBlock s m).1.bySource = s.bySource := by
  unfold freeBlock
  split
  · rename_i hc
    rw [Bool.and_eq_true, blockOf_eq m hm] at hc
    have hno := (C08_doesNotContain s.ids _ h.ids (by show 256 * m ≤ 256 * m + 255; omega)).1 hc.1
    obtain ⟨r1, r2, _⟩ := C09_remove_single s.blocks m h.blocks
    refine ⟨⟨h.ids, r1, ?_, ?_, h.inUse, h.pending, h.apart, h.next⟩, rfl, rfl⟩
    · intro x hx
      show Covers (removeFragment s.blocks ⟨m, m⟩).1 (x / 256)
      rw [r2]
      refine ⟨h.block x hx, fun e => hno x ⟨?_, ?_⟩ hx⟩
      · show 256 * m ≤ x; omega
      · show x ≤ 256 * m + 255; omega
    · intro x hx
      exact h.bound x ((r2 x).1 hx).1
  · exact ⟨h, rfl, rfl⟩

theorem freeBlocks_spec (n : Nat) (s : State) (live : Nat → Prop) (k m : Nat) (h : Inv s live k)
    (hm : m + n ≤ 2 ^ 56) :
    Inv (freeBlocks n s m).1 live k ∧ (freeBlocks n s m).1.next = s.next ∧
      (freeBlocks n s m).1.bySource = s.bySource := by
  induction n generalizing s m with
  | zero => exact ⟨h, rfl, rfl⟩
  | succ n ih =>
    obtain ⟨h1, h2, h3⟩ := freeBlock_spec s live k m h (by omega)
    obtain ⟨g1, g2, g3⟩ := ih (freeBlock s m).1 (m + 1) h1 (by omega)
    exact ⟨g1, g2.trans h2, g3.trans h3⟩

/-- Removing identifiers in use from the record. -/
theorem unmark_spec (s : State) (live : Nat → Prop) (k b e : Nat) (h : Inv s live k) (hbe : b ≤ e)
    (hl : ∀ x, b ≤ x → x ≤ e → live x) :
    Inv { s with ids := (removeFragment s.ids ⟨b, e⟩).1 } (fun x => live x ∧ ¬ (b ≤ x ∧ x ≤ e)) k := by
  have hna : ∀ f ∈ s.ids, f.e + 1 ≠ b := by
    intro f hf he
    obtain ⟨g, hg, hg1, hg2⟩ := h.inUse b (hl b (Nat.le_refl _) hbe)
    have hv := h.ids.valid hf
    rcases h.ids.apart hg hf with rfl | hh | hh
    · omega
    · have := hv.1; omega
    · omega
  obtain ⟨r1, r2, _⟩ := C09_remove_exact_partial s.ids ⟨b, e⟩ h.ids hbe hna
  refine ⟨r1, h.blocks, fun x hx => h.block x ((r2 x).1 hx).1, h.bound, ?_, ?_, h.apart, h.next⟩
  · rintro x ⟨hx1, hx2⟩
    exact (r2 x).2 ⟨h.inUse x hx1, hx2⟩
  · intro x hx
    obtain ⟨q1, q2⟩ := h.pending x hx
    exact ⟨(r2 x).2 ⟨q1, fun g => q2 (hl x g.1 g.2)⟩, fun g => q2 g.1⟩

theorem restore_spec (s : State) (live : Nat → Prop) (k b e r : Nat) (h : Inv s live k)
    (hs : Started s) (hn : s.next = 2 ^ 64 - 1) (hbe : b ≤ e) (he : e < 256 * r) (hk : r ≤ k)
    (hr : r < 2 ^ 56 - 1) :
    Inv (restore s b e) (fun x => live x ∨ (b ≤ x ∧ x ≤ e)) k := by
  have hvi : (⟨b, e⟩ : Frag).Valid := ⟨hbe, by show e + 1 < 2 ^ 64; omega⟩
  have hvb : (⟨b >>> 8, e >>> 8⟩ : Frag).Valid := by
    simp only [shr8]
    exact ⟨by show b / 256 ≤ e / 256; omega, by show e / 256 + 1 < 2 ^ 64; omega⟩
  obtain ⟨b1, b2, _⟩ := C07_insert s.blocks _ h.blocks hvb
  obtain ⟨i1, i2, _⟩ := C07_insert s.ids _ h.ids hvi
  have hnone := hs hn
  refine ⟨i1, b1, ?_, ?_, ?_, ?_, ?_, h.next⟩
  · intro x hx
    refine (b2 _).2 ?_
    rcases (i2 x).1 hx with g | g
    · exact Or.inl (h.block x g)
    · right
      simp only [Frag.Has, shr8] at g ⊢
      exact ⟨Nat.div_le_div_right g.1, Nat.div_le_div_right g.2⟩
  · intro m hm
    rcases (b2 m).1 hm with g | g
    · exact h.bound m g
    · simp only [Frag.Has, shr8] at g; omega
  · rintro x (hx | hx)
    · exact (i2 x).2 (Or.inl (h.inUse x hx))
    · exact (i2 x).2 (Or.inr hx)
  · rintro x (⟨hx, _⟩ | ⟨src, p, hp, _⟩)
    · exact absurd hn hx
    · have : s.bySource src = some p := hp
      rw [hnone src] at this; simp at this
  · intro src p hp
    have : s.bySource src = some p := hp
    rw [hnone src] at this; simp at this

theorem inv_new (k : Nat) : Inv State.new (fun _ => False) k :=
  ⟨canonical_nil, canonical_nil, fun x hx => absurd hx (covers_nil x),
    fun x hx => absurd hx (covers_nil x), fun _ hx => hx.elim, by
      rintro x (⟨hx, _⟩ | ⟨_, _, hp, _⟩)
      · exact absurd rfl hx
      · simp [State.new] at hp, fun _ _ hp => by simp [State.new] at hp, Or.inl rfl⟩

theorem inv_run (r : Nat) (ops : List Op) (st : State × (Nat → Prop)) (h : Run ops st)
    (hr : ∀ o ∈ ops, o.Below r) (hb : r + ops.length + 2 < 2 ^ 56) :
    Inv st.1 st.2 (if st.1.next = 2 ^ 64 - 1 then r + ops.length else r + ops.length + 1) ∧
      Started st.1 := by
  induction h with
  | nil => exact ⟨inv_new _, fun _ _ => rfl⟩
  | snoc ops op s s' h hs ih =>
    have hlen : (ops ++ [op]).length = ops.length + 1 := by simp
    rw [hlen] at hb ⊢
    obtain ⟨hi, hst⟩ := ih (fun o ho => hr o (by simp [ho])) (by omega)
    have hop := hr op (by simp)
    cases hs with
    | restore s live b e hbe hinit =>
      have hop : e < 256 * r := hop
      simp only at hi hst
      rw [if_pos hinit] at hi
      refine ⟨?_, hst⟩
      show Inv (restore s b e) _ (if (restore s b e).next = _ then _ else _)
      have hn' : (restore s b e).next = 2 ^ 64 - 1 := hinit
      rw [if_pos hn']
      exact (restore_spec s live _ b e r hi hst hinit hbe hop (by omega) (by omega)).mono (by omega)
    | alloc s live src =>
      simp only at hi hst
      obtain ⟨a1, a2, a3⟩ := alloc_spec s live _ src hi (by split <;> omega) hst
      refine ⟨?_, fun hh => absurd hh a3⟩
      simp only
      rw [if_neg a3]
      refine a1.mono ?_
      split <;> omega
    | free s live id hl =>
      simp only at hi hst
      have hu := unmark_spec s live _ id id hi (Nat.le_refl _) (fun x h1 h2 => by
        have : x = id := by omega
        rw [this]; exact hl)
      have hlt := covered_lt s live _ hi id (hi.inUse id hl)
      have hlt2 : id < 2 ^ 64 := by split at hlt <;> omega
      obtain ⟨f1, f2, f3⟩ := freeBlock_spec _ _ _ (id >>> 8) hu (by rw [shr8]; omega)
      have hnx : (free s id).1.next = s.next := f2
      refine ⟨?_, fun hh src => ?_⟩
      · simp only
        rw [hnx]
        have f1' : Inv (free s id).1 (fun x => live x ∧ ¬ (id ≤ x ∧ x ≤ id)) _ := f1
        have e : (fun x => live x ∧ ¬ (id ≤ x ∧ x ≤ id)) = fun x => live x ∧ x ≠ id := by
          funext x
          have : (¬ (id ≤ x ∧ x ≤ id)) ↔ x ≠ id := by omega
          rw [this]
        rw [e] at f1'
        refine f1'.mono ?_
        split <;> omega
      · have : (free s id).1.bySource = s.bySource := f3
        rw [this]; exact hst (hnx ▸ hh) src
    | freeRange s live b e hbe hl =>
      simp only at hi hst
      have hu := unmark_spec s live _ b e hi hbe hl
      have hlt := covered_lt s live _ hi e (hi.inUse e (hl e hbe (Nat.le_refl _)))
      have hlt2 : e < 2 ^ 64 := by split at hlt <;> omega
      obtain ⟨f1, f2, f3⟩ := freeBlocks_spec ((e >>> 8) + 1 - (b >>> 8)) _ _ _ (b >>> 8) hu
        (by simp only [shr8]; omega)
      have hnx : (freeRange s b e).1.next = s.next := f2
      refine ⟨?_, fun hh src => ?_⟩
      · simp only
        rw [hnx]
        have f1' : Inv (freeRange s b e).1 (fun x => live x ∧ ¬ (b ≤ x ∧ x ≤ e)) _ := f1
        refine f1'.mono ?_
        split <;> omega
      · have : (freeRange s b e).1.bySource = s.bySource := f3
        rw [this]; exact hst (hnx ▸ hh) src

/-- C31, the allocator: after any history of restores (before the first allocation), allocations
for any sources and frees of identifiers in use, one at a time or in ranges, the identifier handed
out next is not in use. The restored identifiers are below `256 * r`; identifiers run out only after
about 2^56 calls. Missing for the full property: the storage service does not tell the allocator
about restored bundles (`C31_restart_violated`), and frees what an aggregate custody signal lists
without checking that it is in use (`C31_foreign_free_violated`). -/
theorem C31_unique_partial (r : Nat) (ops : List Op) (s : State) (live : Nat → Prop)
    (h : Run ops (s, live)) (hr : ∀ o ∈ ops, o.Below r) (hb : r + ops.length + 3 < 2 ^ 56)
    (src : Eid) : ¬ live (alloc s src).2 := by
  obtain ⟨hi, hst⟩ := inv_run r ops _ h hr (by omega)
  exact (alloc_spec s live _ src hi (by simp only; split <;> omega) hst).2.1

/-- C31, the identifiers are 64-bit numbers: one handed out is below `256 * (r + calls + 2)`. -/
theorem C31_small (r : Nat) (ops : List Op) (s : State) (live : Nat → Prop) (h : Run ops (s, live))
    (hr : ∀ o ∈ ops, o.Below r) (hb : r + ops.length + 2 < 2 ^ 56) (x : Nat) (hx : live x) :
    x < 256 * (r + ops.length + 1) := by
  obtain ⟨hi, _⟩ := inv_run r ops _ h hr hb
  have := covered_lt s live _ hi x (hi.inUse x hx)
  simp only at this
  split at this <;> omega

/-- C31, after a restart: any bundle restored from disk with identifier 0 (the first one ever handed
out) has its identifier handed out again to the first bundle that arrives. -/
theorem C31_restart_violated (restored : List Nat) (src : Eid) (h : 0 ∈ restored) :
    (alloc (serviceStart restored) src).2 ∈ restored := by
  have : (alloc State.new src).2 = 0 := by rfl
  rw [serviceStart, this]; exact h

/-- The identifiers handed out for three sources and by how many blocks the free gave up, when a
range that was not handed out is freed in between. -/
def foreignFree : List Nat :=
  let a := alloc State.new ⟨1, 1⟩
  let f := freeRange a.1 0 255
  let b := alloc f.1 ⟨2, 1⟩
  let c := alloc b.1 ⟨3, 1⟩
  let a2 := alloc c.1 ⟨1, 1⟩
  let c2 := alloc a2.1 ⟨3, 1⟩
  [a.2, f.2, b.2, c.2, a2.2, c2.2]

/-- C31, with an aggregate custody signal that lists identifiers 0 to 255 when only 0 was handed out
(ZmqStorageInterface.cpp:514-516): identifier 1 is handed out twice, to sources 1 and 3, with no
free in between. -/
theorem C31_foreign_free_violated : foreignFree = [0, 1, 256, 0, 1, 1] := by decide +kernel

/-- The hypotheses are met: a restored bundle, two sources, a freed identifier. -/
example : ∃ s live, Run [.restore 2 4, .alloc ⟨1, 1⟩, .alloc ⟨1, 2⟩, .free 3] (s, live) ∧
    live 256 ∧ live 512 ∧ live 2 ∧ (alloc s ⟨1, 1⟩).2 = 257 := by
  have h0 := Run.nil
  have h1 := Run.snoc _ _ _ _ h0 (Step.restore _ _ 2 4 (by decide) rfl)
  have h2 := Run.snoc _ _ _ _ h1 (Step.alloc _ _ ⟨1, 1⟩)
  have h3 := Run.snoc _ _ _ _ h2 (Step.alloc _ _ ⟨1, 2⟩)
  have h4 := Run.snoc _ _ _ _ h3 (Step.free _ _ 3 (by
    left; left; right; decide))
  refine ⟨_, _, h4, ?_, ?_, ?_, ?_⟩
  · exact ⟨Or.inl (Or.inr (by decide +kernel)), by decide⟩
  · exact ⟨Or.inr (by decide +kernel), by decide⟩
  · exact ⟨Or.inl (Or.inl (Or.inr (by decide))), by decide⟩
  · decide +kernel

end Hdtn.CustodyId
