import Verif.LtpReport.Spec
import Verif.FragmentSet.Lemmas

namespace Hdtn.LtpReport
open Hdtn.FragmentSet

theorem add64_eq (a b : Nat) (h : a + b < 2 ^ 64) : add64 a b = a + b := Nat.mod_eq_of_lt h

theorem sub64_eq (a b : Nat) (ha : a < 2 ^ 64) (h : b ≤ a) : sub64 a b = a - b := by
  unfold sub64 U64
  rw [show a + 2 ^ 64 - b = (a - b) + 2 ^ 64 by omega, Nat.add_mod_right, Nat.mod_eq_of_lt (by omega)]

/-- The claims made from a tail of the received set are exactly the received bytes in scope. -/
theorem claimLoop_spec (lower upper : Nat) (hlu : lower < upper) (hu : upper < 2 ^ 64)
    (s : List Frag) (hs : Canonical s) (hge : ∀ f ∈ s, lower ≤ f.e + 1) :
    (∀ x, (∃ c ∈ claimLoop lower upper s, lower + c.offset ≤ x ∧ x < lower + c.offset + c.length) ↔
      Covers s x ∧ lower ≤ x ∧ x < upper) ∧
    (∀ c ∈ claimLoop lower upper s, 1 ≤ c.length ∧ lower + c.offset + c.length ≤ upper ∧
      ∃ f ∈ s, f.b ≤ lower + c.offset) ∧
    (claimLoop lower upper s).Pairwise fun c d => c.offset + c.length < d.offset := by
  induction s with
  | nil => simp [claimLoop, covers_nil]
  | cons f fs ih =>
    rw [canonical_cons] at hs
    obtain ⟨⟨hfv1, hfv2⟩, hap, hfs⟩ := hs
    have hf := hge f (by simp)
    obtain ⟨ih1, ih2, ih3⟩ := ih hfs fun g hg => hge g (by simp [hg])
    rw [claimLoop]
    have hlen : sub64 (add64 f.e 1) (max f.b lower) = f.e + 1 - max f.b lower := by
      rw [add64_eq _ _ hfv2, sub64_eq _ _ hfv2 (by omega)]
    simp only [hlen]
    split
    · rename_i hbreak
      refine ⟨fun x => ?_, by simp, by simp⟩
      simp only [List.not_mem_nil, false_and, exists_false, false_iff, not_and]
      rintro ⟨g, hg, hg1, hg2⟩ h1 h2
      rcases List.mem_cons.1 hg with rfl | hg'
      · omega
      · have := hap g hg'; omega
    · rename_i hnb
      split
      · rename_i hzero
        refine ⟨fun x => ?_, ?_, ih3⟩
        · rw [ih1 x, covers_cons]
          constructor
          · rintro ⟨h1, h2⟩; exact ⟨Or.inr h1, h2⟩
          · rintro ⟨h1 | h1, h2⟩
            · simp only [Frag.Has] at h1; omega
            · exact ⟨h1, h2⟩
        · intro c hc
          obtain ⟨a, b, g, hg, d⟩ := ih2 c hc
          exact ⟨a, b, g, by simp [hg], d⟩
      · rename_i hpos
        refine ⟨fun x => ?_, ?_, ?_⟩
        · simp only [List.mem_cons, exists_eq_or_imp]
          rw [ih1 x, covers_cons]
          simp only [Frag.Has]
          constructor
          · rintro (h | ⟨h1, h2⟩)
            · exact ⟨Or.inl (by omega), by omega⟩
            · exact ⟨Or.inr h1, h2⟩
          · rintro ⟨h1 | h1, h2⟩
            · exact Or.inl (by omega)
            · exact Or.inr ⟨h1, h2⟩
        · intro c hc
          rcases List.mem_cons.1 hc with rfl | hc'
          · refine ⟨by simp only; omega, by simp only; omega, f, by simp, by simp only; omega⟩
          · obtain ⟨a, b, g, hg, d⟩ := ih2 c hc'
            exact ⟨a, b, g, by simp [hg], d⟩
        · rw [List.pairwise_cons]
          refine ⟨fun d hd => ?_, ih3⟩
          obtain ⟨a, b, g, hg, e⟩ := ih2 d hd
          have := hap g hg
          simp only
          omega

theorem covers_drop (s : List Frag) (hs : Canonical s) (lower x : Nat) (hx : lower ≤ x) :
    Covers (s.dropWhile fun f => f.lt ⟨lower, lower⟩) x ↔ Covers s x := by
  have hsplit := lowerBound_split s ⟨lower, lower⟩
  have htake := takeWhile_lt s hs ⟨lower, lower⟩
  conv_rhs => rw [← hsplit, covers_append]
  constructor
  · exact Or.inr
  · rintro (⟨f, hf, h1, h2⟩ | h)
    · have := htake f hf
      simp only at this; omega
    · exact h

theorem canonical_drop (s : List Frag) (hs : Canonical s) (key : Frag) :
    Canonical (s.dropWhile fun f => f.lt key) := by
  have hsplit := lowerBound_split s key
  rw [← hsplit, canonical_append] at hs
  exact hs.2.1

/-! Splitting. -/

theorem nextLower_concat (l cur : Nat) (cs : List Claim) (c : Claim) :
    nextLower l cur (cs ++ [c]) = add64 (add64 l c.offset) c.length := by
  simp [nextLower]

theorem pairwise_cases {α} {R : α → α → Prop} {l : List α} (h : l.Pairwise R) {a b : α}
    (ha : a ∈ l) (hb : b ∈ l) : a = b ∨ R a b ∨ R b a := by
  induction l with
  | nil => simp at ha
  | cons c l ih =>
    rw [List.pairwise_cons] at h
    rcases List.mem_cons.1 ha with rfl | ha' <;> rcases List.mem_cons.1 hb with rfl | hb'
    · exact Or.inl rfl
    · exact Or.inr (Or.inl (h.1 b hb'))
    · exact Or.inr (Or.inr (h.1 a ha'))
    · exact ih h.2 ha' hb'

theorem pairwise_take {α} {R : α → α → Prop} {l : List α} (n : Nat) (h : l.Pairwise R) :
    (l.take n).Pairwise R := h.sublist (List.take_sublist _ _)

theorem pairwise_drop {α} {R : α → α → Prop} {l : List α} (n : Nat) (h : l.Pairwise R) :
    (l.drop n).Pairwise R := h.sublist (List.drop_sublist _ _)

theorem splitLoop_spec (max : Nat) (hmax : 0 < max) (l cur u : Nat) (claims : List Claim)
    (hu : u < 2 ^ 64) (hlc : l ≤ cur) (hcu : cur < 2 ^ 64) (hne : claims ≠ [])
    (hin : ∀ c ∈ claims, 1 ≤ c.length ∧ l + c.offset + c.length ≤ u ∧ cur ≤ l + c.offset)
    (hp : claims.Pairwise fun c d => c.offset + c.length < d.offset) :
    ∃ last, cur < last ∧ last ≤ u ∧
      Tiles cur last (splitLoop max hmax l cur claims) ∧
      (∀ r ∈ splitLoop max hmax l cur claims, r.WellFormed ∧ r.claims ≠ [] ∧
        r.claims.length ≤ max ∧ l ≤ r.lower) ∧
      (splitLoop max hmax l cur claims).flatMap (fun r => r.claims.map fun c =>
        (⟨r.lower + c.offset - l, c.length⟩ : Claim)) = claims := by
  induction hn : claims.length using Nat.strongRecOn generalizing cur claims with
  | ind n ih =>
    obtain ⟨c0, cs0, rfl⟩ := List.exists_cons_of_ne_nil hne
    rw [splitLoop]
    set claims := c0 :: cs0 with hclaims
    have hnow : claims.take max ≠ [] := by
      obtain ⟨m, rfl⟩ : ∃ m, max = m + 1 := ⟨max - 1, by omega⟩
      simp [hclaims]
    obtain ⟨ini, lastc, hil⟩ : ∃ ini lastc, claims.take max = ini ++ [lastc] :=
      ⟨_, _, (List.dropLast_concat_getLast hnow).symm⟩
    have hlmem : lastc ∈ claims := (List.take_sublist max claims).mem (by rw [hil]; simp)
    have hl := hin lastc hlmem
    have hnext : nextLower l cur (claims.take max) = l + lastc.offset + lastc.length := by
      rw [hil, nextLower_concat, add64_eq l _ (by omega), add64_eq _ _ (by omega)]
    have hmap : ((claims.take max).map fun c =>
        (⟨sub64 c.offset (sub64 cur l), c.length⟩ : Claim)) =
        (claims.take max).map fun c => ⟨c.offset - (cur - l), c.length⟩ := by
      apply List.map_congr_left
      intro c hc
      have := hin c ((List.take_sublist max claims).mem hc)
      rw [sub64_eq cur l hcu hlc, sub64_eq _ _ (by omega) (by omega)]
    simp only [hnext, hmap]
    have htp := pairwise_take max hp
    have hlast : ∀ c ∈ claims.take max, c.offset + c.length ≤ lastc.offset + lastc.length := by
      intro c hc
      rw [hil] at hc htp
      rcases List.mem_append.1 hc with h | h
      · have := (List.pairwise_append.1 htp).2.2 c h lastc (by simp)
        omega
      · simp at h; subst h; omega
    have hwf : Report.WellFormed ⟨cur, l + lastc.offset + lastc.length,
        (claims.take max).map fun c => ⟨c.offset - (cur - l), c.length⟩⟩ := by
      refine ⟨by simp only; omega, ?_, ?_⟩
      · intro c hc
        simp only [List.mem_map] at hc
        obtain ⟨d, hd, rfl⟩ := hc
        have h1 := hin d ((List.take_sublist max claims).mem hd)
        have h2 := hlast d hd
        simp only; omega
      · simp only [List.pairwise_map]
        refine List.Pairwise.imp_of_mem ?_ htp
        intro c d hc hd hcd
        have h1 := hin c ((List.take_sublist max claims).mem hc)
        have h2 := hin d ((List.take_sublist max claims).mem hd)
        omega
    have hback : ((claims.take max).map fun c =>
        (⟨c.offset - (cur - l), c.length⟩ : Claim)).map (fun c =>
          (⟨cur + c.offset - l, c.length⟩ : Claim)) = claims.take max := by
      rw [List.map_map]
      conv_rhs => rw [← List.map_id (claims.take max)]
      apply List.map_congr_left
      intro c hc
      have := hin c ((List.take_sublist max claims).mem hc)
      simp only [Function.comp, id]
      congr 1; omega
    by_cases hrest : claims.drop max = []
    · rw [hrest]
      have hall : claims.take max = claims := by
        have := List.take_append_drop max claims
        rwa [hrest, List.append_nil] at this
      rw [splitLoop]
      refine ⟨l + lastc.offset + lastc.length, by omega, by omega, ⟨rfl, rfl⟩, ?_, ?_⟩
      · intro r hr
        simp only [List.mem_singleton] at hr
        subst hr
        refine ⟨hwf, by simpa using hnow, by simp, hlc⟩
      · simp only [List.flatMap_cons, List.flatMap_nil, List.append_nil]
        rw [hback, hall]
    · have hlt : (claims.drop max).length < n := by
        rw [← hn, List.length_drop]; simp only [hclaims, List.length_cons]; omega
      have hsep : ∀ c ∈ claims.take max, ∀ d ∈ claims.drop max, c.offset + c.length < d.offset := by
        have : (claims.take max ++ claims.drop max).Pairwise
            fun c d => c.offset + c.length < d.offset := by rwa [List.take_append_drop]
        exact (List.pairwise_append.1 this).2.2
      obtain ⟨last, h1, h2, h3, h4, h5⟩ := ih _ hlt (l + lastc.offset + lastc.length)
        (claims.drop max) (by omega) (by omega) hrest (by
          intro c hc
          have h1 := hin c ((List.drop_sublist max claims).mem hc)
          have h2 := hsep lastc (by rw [hil]; simp) c hc
          exact ⟨h1.1, h1.2.1, by omega⟩) (pairwise_drop max hp) rfl
      refine ⟨last, by omega, h2, ?_, ?_, ?_⟩
      · cases hq : splitLoop max hmax l (l + lastc.offset + lastc.length) (claims.drop max) with
        | nil => rw [hq] at h3; exact h3.elim
        | cons r rs =>
          rw [hq] at h3
          exact ⟨rfl, h3⟩
      · intro r hr
        rcases List.mem_cons.1 hr with rfl | hr'
        · exact ⟨hwf, by simpa using hnow, by simp, hlc⟩
        · exact h4 r hr'
      · rw [List.flatMap_cons, h5]
        simp only [hback]
        exact List.take_append_drop max claims

theorem setLastUpper_concat (u : Nat) (ini : List Report) (q : Report) :
    setLastUpper u (ini ++ [q]) = .ok (ini ++ [{ q with upper := u }]) := by
  have : ∀ l : List Report, l ≠ [] → setLastUpper u l =
      .ok (l.dropLast ++ (l.getLast?.map fun r => { r with upper := u }).toList) := by
    intro l hl; cases l with
    | nil => exact absurd rfl hl
    | cons a l => rfl
  rw [this _ (by simp)]
  simp

theorem tiles_setLast (cur last u : Nat) (rs : List Report) (r : Report)
    (h : Tiles cur last (rs ++ [r])) : Tiles cur u (rs ++ [{ r with upper := u }]) ∧
      r.upper = last := by
  induction rs generalizing cur with
  | nil => exact ⟨⟨h.1, rfl⟩, h.2⟩
  | cons a rs ih =>
    have h' : a.lower = cur ∧ Tiles a.upper last (rs ++ [r]) := by
      cases rs <;> exact h
    obtain ⟨h1, h2⟩ := ih _ h'.2
    refine ⟨?_, h2⟩
    cases rs <;> exact ⟨h'.1, h1⟩

theorem tiles_lower (cur last : Nat) (rs : List Report) (h : Tiles cur last rs)
    (hwf : ∀ r ∈ rs, r.WellFormed) : ∀ r ∈ rs, cur ≤ r.lower := by
  induction rs generalizing cur with
  | nil => exact h.elim
  | cons a rs ih =>
    have ha := (hwf a (by simp)).1
    intro r hr
    cases rs with
    | nil => simp at hr; subst hr; exact h.1.ge
    | cons b rs =>
      rcases List.mem_cons.1 hr with rfl | hr'
      · exact h.1.ge
      · have := ih _ h.2 (fun r hr => hwf r (by simp [hr])) r hr'
        have h1 := h.1
        omega

theorem tiles_pairwise (cur last : Nat) (rs : List Report) (h : Tiles cur last rs)
    (hwf : ∀ r ∈ rs, r.WellFormed) : rs.Pairwise fun p q => p.upper ≤ q.lower := by
  induction rs generalizing cur with
  | nil => simp
  | cons a rs ih =>
    cases rs with
    | nil => simp
    | cons b rs =>
      rw [List.pairwise_cons]
      exact ⟨tiles_lower _ _ _ h.2 fun r hr => hwf r (by simp [hr]),
        ih _ h.2 fun r hr => hwf r (by simp [hr])⟩

/-- The indices claimed by a report, as ranges. -/
theorem addClaims_spec (lower : Nat) (cs : List Claim) (s : List Frag) (hs : Canonical s)
    (hc : ∀ c ∈ cs, 1 ≤ c.length ∧ lower + c.offset + c.length < 2 ^ 64) :
    Canonical (addClaims lower cs s).1 ∧
      (∀ x, Covers (addClaims lower cs s).1 x ↔ Covers s x ∨
        ∃ c ∈ cs, lower + c.offset ≤ x ∧ x < lower + c.offset + c.length) ∧
      ((addClaims lower cs s).2 = true ↔
        ∃ x, (∃ c ∈ cs, lower + c.offset ≤ x ∧ x < lower + c.offset + c.length) ∧ ¬ Covers s x) := by
  induction cs generalizing s with
  | nil => simp [addClaims, hs]
  | cons c cs ih =>
    have h0 := hc c (by simp)
    have hb : add64 lower c.offset = lower + c.offset := add64_eq _ _ (by omega)
    have he : sub64 (add64 (lower + c.offset) c.length) 1 = lower + c.offset + c.length - 1 := by
      rw [add64_eq _ _ (by omega), sub64_eq _ _ (by omega) (by omega)]
    have hi := insertLoop_spec s ⟨lower + c.offset, lower + c.offset + c.length - 1⟩ false hs
      (by simp only [Frag.Valid]; omega)
    rw [addClaims]
    simp only [hb, he]
    have hhas : ∀ x, Frag.Has ⟨lower + c.offset, lower + c.offset + c.length - 1⟩ x ↔
        lower + c.offset ≤ x ∧ x < lower + c.offset + c.length := by
      intro x; simp only [Frag.Has]; omega
    obtain ⟨i1, i2, i3⟩ := ih _ hi.1 fun d hd => hc d (by simp [hd])
    refine ⟨i1, fun x => ?_, ?_⟩
    · rw [insertFragment, i2 x, hi.2.1 x, hhas x]
      simp only [List.mem_cons, exists_eq_or_imp]
      exact or_assoc
    · rw [Bool.or_eq_true, insertFragment, i3, hi.2.2.1]
      simp only [List.mem_cons, exists_eq_or_imp, hhas, hi.2.1, Bool.false_eq_true, false_or]
      constructor
      · rintro (⟨x, h1, h2⟩ | ⟨x, h1, h2⟩)
        · exact ⟨x, Or.inl h1, h2⟩
        · exact ⟨x, Or.inr h1, fun h => h2 (Or.inl h)⟩
      · rintro ⟨x, h1 | h1, h2⟩
        · exact Or.inl ⟨x, h1, h2⟩
        · by_cases hx : lower + c.offset ≤ x ∧ x < lower + c.offset + c.length
          · exact Or.inl ⟨x, hx, h2⟩
          · exact Or.inr ⟨x, h1, fun h => h.elim h2 hx⟩

theorem needLoop_spec (lower upper : Nat) (hu : upper < 2 ^ 64) (cs : List Claim) (prev : Claim)
    (s : List Frag) (hs : Canonical s)
    (hc : ∀ c ∈ prev :: cs, 1 ≤ c.length ∧ lower + c.offset + c.length ≤ upper)
    (hp : (prev :: cs).Pairwise fun c d => c.offset + c.length < d.offset) :
    Canonical (needLoop lower upper prev cs s).1 ∧
      (∀ x, Covers (needLoop lower upper prev cs s).1 x ↔ Covers s x ∨
        (lower + prev.offset + prev.length ≤ x ∧ x < upper ∧
          ¬ ∃ c ∈ cs, lower + c.offset ≤ x ∧ x < lower + c.offset + c.length)) := by
  induction cs generalizing s prev with
  | nil =>
    have h0 := hc prev (by simp)
    have hb : add64 (add64 lower prev.offset) prev.length = lower + prev.offset + prev.length := by
      rw [add64_eq lower _ (by omega), add64_eq _ _ (by omega)]
    simp only [needLoop, hb, sub64_eq upper 1 hu (by omega)]
    split
    · have hi := insertLoop_spec s ⟨lower + prev.offset + prev.length, upper - 1⟩ false hs
        (by simp only [Frag.Valid]; omega)
      refine ⟨hi.1, fun x => ?_⟩
      rw [insertFragment, hi.2.1]
      simp only [Frag.Has, List.not_mem_nil, false_and, exists_false, not_false_eq_true, and_true]
      constructor <;> (rintro (h | h); exact Or.inl h; exact Or.inr (by omega))
    · refine ⟨hs, fun x => ?_⟩
      constructor
      · exact Or.inl
      · rintro (h | h)
        · exact h
        · omega
  | cons c cs ih =>
    have h0 := hc prev (by simp)
    have h1 := hc c (by simp)
    rw [List.pairwise_cons] at hp
    have h2 := hp.1 c (by simp)
    have hb : add64 (add64 lower prev.offset) prev.length = lower + prev.offset + prev.length := by
      rw [add64_eq lower _ (by omega), add64_eq _ _ (by omega)]
    have he : sub64 (add64 lower c.offset) 1 = lower + c.offset - 1 := by
      rw [add64_eq _ _ (by omega), sub64_eq _ _ (by omega) (by omega)]
    simp only [needLoop, hb, he]
    have hi := insertLoop_spec s ⟨lower + prev.offset + prev.length, lower + c.offset - 1⟩ false hs
        (by simp only [Frag.Valid]; omega)
    obtain ⟨i1, i2⟩ := ih c _ hi.1 (fun d hd => hc d (List.mem_cons_of_mem _ hd)) hp.2
    refine ⟨i1, fun x => ?_⟩
    rw [insertFragment, i2 x, hi.2.1 x]
    simp only [Frag.Has, List.mem_cons, exists_eq_or_imp, not_or]
    have hc2 : (∃ d ∈ cs, lower + d.offset ≤ x ∧ x < lower + d.offset + d.length) →
        lower + c.offset + c.length < x := by
      rintro ⟨d, hd, hx⟩
      have := (List.pairwise_cons.1 hp.2).1 d hd
      omega
    constructor
    · rintro ((h | h) | ⟨h3, h4, h5⟩)
      · exact Or.inl h
      · refine Or.inr ⟨h.1, by omega, by omega, fun h6 => ?_⟩
        have := hc2 h6; omega
      · exact Or.inr ⟨by omega, h4, by omega, h5⟩
    · rintro (h | ⟨h3, h4, h5, h6⟩)
      · exact Or.inl (Or.inl h)
      · by_cases hx : x < lower + c.offset
        · exact Or.inl (Or.inr (by omega))
        · exact Or.inr ⟨by omega, h4, h6⟩

theorem needLoop_flag (lower upper : Nat) (hu : upper < 2 ^ 64) (cs : List Claim) (prev : Claim)
    (s : List Frag) (hs : Canonical s)
    (hc : ∀ c ∈ prev :: cs, 1 ≤ c.length ∧ lower + c.offset + c.length ≤ upper)
    (hp : (prev :: cs).Pairwise fun c d => c.offset + c.length < d.offset) :
    (needLoop lower upper prev cs s).2 = true ↔
      ∃ x, Covers (needLoop lower upper prev cs s).1 x ∧ ¬ Covers s x := by
  induction cs generalizing s prev with
  | nil =>
    have h0 := hc prev (by simp)
    have hb : add64 (add64 lower prev.offset) prev.length = lower + prev.offset + prev.length := by
      rw [add64_eq lower _ (by omega), add64_eq _ _ (by omega)]
    simp only [needLoop, hb, sub64_eq upper 1 hu (by omega)]
    split
    · have hi := insertLoop_spec s ⟨lower + prev.offset + prev.length, upper - 1⟩ false hs
        (by simp only [Frag.Valid]; omega)
      rw [insertFragment, hi.2.2.1]
      constructor
      · rintro (h | ⟨x, h1, h2⟩)
        · simp at h
        · exact ⟨x, (hi.2.1 x).2 (Or.inr h1), h2⟩
      · rintro ⟨x, h1, h2⟩
        exact Or.inr ⟨x, ((hi.2.1 x).1 h1).resolve_left h2, h2⟩
    · simp
  | cons c cs ih =>
    have h0 := hc prev (by simp)
    have h1 := hc c (by simp)
    rw [List.pairwise_cons] at hp
    have h2 := hp.1 c (by simp)
    have hb : add64 (add64 lower prev.offset) prev.length = lower + prev.offset + prev.length := by
      rw [add64_eq lower _ (by omega), add64_eq _ _ (by omega)]
    have he : sub64 (add64 lower c.offset) 1 = lower + c.offset - 1 := by
      rw [add64_eq _ _ (by omega), sub64_eq _ _ (by omega) (by omega)]
    simp only [needLoop, hb, he]
    have hi := insertLoop_spec s ⟨lower + prev.offset + prev.length, lower + c.offset - 1⟩ false hs
        (by simp only [Frag.Valid]; omega)
    have hf := ih c _ hi.1 (fun d hd => hc d (List.mem_cons_of_mem _ hd)) hp.2
    have hcov := (needLoop_spec lower upper hu cs c _ hi.1
      (fun d hd => hc d (List.mem_cons_of_mem _ hd)) hp.2).2
    rw [Bool.or_eq_true, insertFragment, hf, hi.2.2.1]
    constructor
    · rintro ((h | ⟨x, h3, h4⟩) | ⟨x, h3, h4⟩)
      · simp at h
      · exact ⟨x, (hcov x).2 (Or.inl ((hi.2.1 x).2 (Or.inr h3))), h4⟩
      · exact ⟨x, h3, fun h => h4 ((hi.2.1 x).2 (Or.inl h))⟩
    · rintro ⟨x, h3, h4⟩
      by_cases hx : Covers (insertLoop s ⟨lower + prev.offset + prev.length, lower + c.offset - 1⟩ false).1 x
      · exact Or.inl (Or.inr ⟨x, ((hi.2.1 x).1 hx).resolve_left h4, h4⟩)
      · exact Or.inr ⟨x, h3, hx⟩

theorem covers_of_ne_nil (s : List Frag) (hs : Canonical s) (hne : s ≠ []) : ∃ x, Covers s x := by
  obtain ⟨f, fs, rfl⟩ := List.exists_cons_of_ne_nil hne
  exact ⟨f.b, f, by simp, Nat.le_refl _, (hs.valid (by simp : f ∈ f :: fs)).1⟩

end Hdtn.LtpReport
