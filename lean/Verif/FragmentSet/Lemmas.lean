import Verif.FragmentSet.Spec

namespace Hdtn.FragmentSet

theorem lt_iff (x y : Frag) (h : x.Valid) : x.lt y = true ↔ x.e + 1 < y.b := by
  unfold Frag.lt
  have h2 := h.2
  rw [Nat.mod_eq_of_lt h2]
  simp

theorem not_lt_iff (x y : Frag) (h : x.Valid) : x.lt y = false ↔ y.b ≤ x.e + 1 := by
  rw [← Bool.not_eq_true, lt_iff x y h]; omega

theorem covers_nil (x : Nat) : ¬ Covers [] x := by simp [Covers]

theorem covers_cons (f : Frag) (s : List Frag) (x : Nat) :
    Covers (f :: s) x ↔ f.Has x ∨ Covers s x := by simp [Covers]

theorem covers_append (s t : List Frag) (x : Nat) :
    Covers (s ++ t) x ↔ Covers s x ∨ Covers t x := by
  simp only [Covers, List.mem_append]
  constructor
  · rintro ⟨f, h | h, hx⟩
    · exact Or.inl ⟨f, h, hx⟩
    · exact Or.inr ⟨f, h, hx⟩
  · rintro (⟨f, h, hx⟩ | ⟨f, h, hx⟩)
    · exact ⟨f, Or.inl h, hx⟩
    · exact ⟨f, Or.inr h, hx⟩

theorem canonical_nil : Canonical [] := by simp [Canonical]

theorem canonical_cons (f : Frag) (s : List Frag) :
    Canonical (f :: s) ↔ f.Valid ∧ (∀ g ∈ s, f.e + 1 < g.b) ∧ Canonical s := by
  simp only [Canonical, List.mem_cons, forall_eq_or_imp, List.pairwise_cons]
  tauto

theorem canonical_append (s t : List Frag) :
    Canonical (s ++ t) ↔ Canonical s ∧ Canonical t ∧ ∀ f ∈ s, ∀ g ∈ t, f.e + 1 < g.b := by
  simp only [Canonical, List.mem_append, List.pairwise_append]
  constructor
  · rintro ⟨h1, h2, h3, h4⟩
    exact ⟨⟨fun f hf => h1 f (Or.inl hf), h2⟩, ⟨fun f hf => h1 f (Or.inr hf), h3⟩, h4⟩
  · rintro ⟨⟨h1, h2⟩, ⟨h3, h4⟩, h5⟩
    exact ⟨fun f hf => hf.elim (h1 f) (h3 f), h2, h4, h5⟩

theorem Canonical.valid {s : List Frag} (h : Canonical s) {f : Frag} (hf : f ∈ s) : f.Valid :=
  h.1 f hf

/-- Two different elements of a canonical list are apart. -/
theorem Canonical.apart {s : List Frag} (h : Canonical s) {f g : Frag} (hf : f ∈ s) (hg : g ∈ s) :
    f = g ∨ f.e + 1 < g.b ∨ g.e + 1 < f.b := by
  induction s with
  | nil => simp at hf
  | cons a s ih =>
    rw [canonical_cons] at h
    rcases List.mem_cons.1 hf with rfl | hf'
    · rcases List.mem_cons.1 hg with rfl | hg'
      · exact Or.inl rfl
      · exact Or.inr (Or.inl (h.2.1 g hg'))
    · rcases List.mem_cons.1 hg with rfl | hg'
      · exact Or.inr (Or.inr (h.2.1 f hf'))
      · exact ih h.2.2 hf' hg'

/-- A covered interval lies inside a single element. -/
theorem Canonical.covered_inside {s : List Frag} (h : Canonical s) (k : Frag) (hk : k.b ≤ k.e)
    (hc : ∀ x, k.Has x → Covers s x) : ∃ f ∈ s, f.b ≤ k.b ∧ k.e ≤ f.e := by
  obtain ⟨f, hf, hfb, hfe⟩ := hc k.b ⟨Nat.le_refl _, hk⟩
  refine ⟨f, hf, hfb, ?_⟩
  by_contra hlt
  obtain ⟨g, hg, hgb, hge⟩ := hc (f.e + 1) ⟨by omega, by omega⟩
  have hv := h.valid hg
  have hv2 := h.valid hf
  rcases h.apart hf hg with rfl | h1 | h1
  · omega
  · omega
  · omega

/-- Everything after the split point is beyond the key. -/
theorem dropWhile_beyond (s : List Frag) (h : Canonical s) (key : Frag) (hk : key.Valid) :
    ∀ f ∈ s.dropWhile (fun f => !(key.lt f)), key.e + 1 < f.b := by
  induction s with
  | nil => simp
  | cons a s ih =>
    rw [canonical_cons] at h
    intro f hf
    by_cases hlt : key.lt a = true
    · have ha := (lt_iff key a hk).1 hlt
      rw [List.dropWhile_cons_of_neg (by simp [hlt])] at hf
      rcases List.mem_cons.1 hf with rfl | hf
      · exact ha
      · have h1 := h.2.1 f hf
        have := h.1.1
        omega
    · rw [List.dropWhile_cons_of_pos (by simp [hlt])] at hf
      exact ih h.2.2 f hf

theorem mem_takeWhile_pred (p : Frag → Bool) (s : List Frag) (f : Frag) (h : f ∈ s.takeWhile p) :
    p f = true := by
  induction s with
  | nil => simp at h
  | cons a s ih =>
    by_cases ha : p a = true
    · rw [List.takeWhile_cons_of_pos ha] at h
      rcases List.mem_cons.1 h with rfl | h
      · exact ha
      · exact ih h
    · rw [List.takeWhile_cons_of_neg ha] at h
      simp at h

theorem takeWhile_not_beyond (s : List Frag) (key : Frag) (hk : key.Valid) :
    ∀ f ∈ s.takeWhile (fun f => !(key.lt f)), f.b ≤ key.e + 1 := by
  intro f hf
  have := mem_takeWhile_pred _ _ _ hf
  simp only [Bool.not_eq_true'] at this
  exact (not_lt_iff key f hk).1 this

theorem or_rearrange (A B C D : Prop) : ((A ∨ B) ∨ (C ∨ D)) ↔ (((A ∨ D) ∨ B) ∨ C) := by tauto

theorem insertLoop_spec (s : List Frag) (key : Frag) (m : Bool) (hs : Canonical s)
    (hk : key.Valid) :
    Canonical (insertLoop s key m).1 ∧
      (∀ x, Covers (insertLoop s key m).1 x ↔ Covers s x ∨ key.Has x) ∧
      ((insertLoop s key m).2 = true ↔ m = true ∨ ∃ x, key.Has x ∧ ¬ Covers s x) ∧
      ((insertLoop s key m).2 = false → (insertLoop s key m).1 = s) := by
  fun_induction insertLoop s key m with
  | case1 s key m pre hnone =>
    have hpre : s.takeWhile (fun f => !(key.lt f)) = [] := List.getLast?_eq_none_iff.1 hnone
    have hdrop : s.dropWhile (fun f => !(key.lt f)) = s := by
      have := List.takeWhile_append_dropWhile (p := fun f => !(key.lt f)) (l := s)
      rwa [hpre, List.nil_append] at this
    have hb := dropWhile_beyond s hs key hk
    rw [hdrop] at hb
    refine ⟨(canonical_cons _ _).2 ⟨hk, hb, hs⟩, ?_, ?_, by simp⟩
    · intro x; rw [covers_cons]; tauto
    · simp only [true_iff]
      right
      refine ⟨key.e, ⟨hk.1, Nat.le_refl _⟩, ?_⟩
      rintro ⟨f, hf, h1, h2⟩
      have := hb f hf
      omega
  | case2 s key m pre post j hlast hlt =>
    have hsplit : pre ++ post = s := List.takeWhile_append_dropWhile
    have hpj : pre.dropLast ++ [j] = pre := by
      have hne : pre ≠ [] := by rintro h0; simp [h0] at hlast
      rw [List.getLast?_eq_some_getLast hne] at hlast
      rw [← Option.some.inj hlast]
      exact List.dropLast_concat_getLast hne
    have hjmem : j ∈ s := by rw [← hsplit, ← hpj]; simp
    have hjv := hs.valid hjmem
    have hjl := (lt_iff j key hjv).1 hlt
    have hb : ∀ f ∈ post, key.e + 1 < f.b := dropWhile_beyond s hs key hk
    have hs' := hs
    rw [← hsplit, canonical_append] at hs'
    have hpre : ∀ f ∈ pre, f.e + 1 < key.b := by
      intro f hf
      rw [← hpj] at hf
      rcases List.mem_append.1 hf with hf | hf
      · have := hs'.1
        rw [← hpj, canonical_append] at this
        have := this.2.2 f hf j (by simp)
        have := hjv.1
        omega
      · simp at hf; subst hf; exact hjl
    refine ⟨?_, ?_, ?_, by simp⟩
    · rw [canonical_append, canonical_cons]
      refine ⟨hs'.1, ⟨hk, hb, hs'.2.1⟩, ?_⟩
      intro f hf g hg
      rcases List.mem_cons.1 hg with rfl | hg
      · exact hpre f hf
      · exact hs'.2.2 f hf g hg
    · intro x
      rw [← hsplit, covers_append, covers_cons, covers_append]; tauto
    · simp only [true_iff]
      right
      refine ⟨key.e, ⟨hk.1, Nat.le_refl _⟩, ?_⟩
      rintro ⟨f, hf, h1, h2⟩
      rw [← hsplit] at hf
      have hkb := hk.1
      rcases List.mem_append.1 hf with hf | hf
      · have := hpre f hf; omega
      · have := hb f hf; omega
  | case3 s key m pre j hlast hlt hin =>
    have hsplit : pre ++ s.dropWhile (fun f => !(key.lt f)) = s := List.takeWhile_append_dropWhile
    have hjmem : j ∈ s := by
      rw [← hsplit]; exact List.mem_append_left _ (List.mem_of_getLast? hlast)
    have hcov : ∀ x, key.Has x → Covers s x := fun x hx => ⟨j, hjmem, by
      have := hx.1; have := hx.2; constructor <;> omega⟩
    refine ⟨hs, fun x => ⟨Or.inl, fun h => h.elim id (hcov x)⟩, ?_, fun _ => rfl⟩
    constructor
    · exact Or.inl
    · rintro (h | ⟨x, h1, h2⟩)
      · exact h
      · exact absurd (hcov x h1) h2
  | case4 s key m pre post j hlast hlt hin ih =>
    have hsplit : pre ++ post = s := List.takeWhile_append_dropWhile
    have hpj : pre.dropLast ++ [j] = pre := by
      have hne : pre ≠ [] := by rintro h0; simp [h0] at hlast
      rw [List.getLast?_eq_some_getLast hne] at hlast
      rw [← Option.some.inj hlast]
      exact List.dropLast_concat_getLast hne
    have hjpre : j ∈ pre := List.mem_of_getLast? hlast
    have hjmem : j ∈ s := by rw [← hsplit]; exact List.mem_append_left _ hjpre
    have hjv := hs.valid hjmem
    have hjl := (not_lt_iff j key hjv).1 (by simpa using hlt)
    have hjb := takeWhile_not_beyond s key hk j hjpre
    have hs' := hs
    rw [← hsplit, canonical_append] at hs'
    have hs1 := hs'.1
    rw [← hpj, canonical_append] at hs1
    have hcan : Canonical (pre.dropLast ++ post) := by
      rw [canonical_append]
      exact ⟨hs1.1, hs'.2.1, fun f hf g hg => hs'.2.2 f (by rw [← hpj]; simp [hf]) g hg⟩
    have hkv : Frag.Valid ⟨min key.b j.b, max key.e j.e⟩ := by
      have := hjv.1; have := hjv.2; have := hk.1; have := hk.2
      constructor <;> simp only <;> omega
    obtain ⟨ih1, ih2, ih3, ih4⟩ := ih hcan hkv
    refine ⟨ih1, ?_, ?_, ?_⟩
    · intro x
      rw [ih2 x]
      rw [← hsplit, covers_append, covers_append]
      have hpc : Covers pre x ↔ Covers pre.dropLast x ∨ j.Has x := by
        conv_lhs => rw [← hpj]
        rw [covers_append, covers_cons]
        simp [covers_nil]
      rw [hpc]
      have hu : Frag.Has ⟨min key.b j.b, max key.e j.e⟩ x ↔ key.Has x ∨ j.Has x := by
        simp only [Frag.Has]
        have := hjv.1; have := hk.1
        omega
      rw [hu]
      exact or_rearrange _ _ _ _
    · rw [ih3]
      simp only [true_or, true_iff]
      right
      by_contra hno
      push Not at hno
      obtain ⟨f, hf, hfb, hfe⟩ := hs.covered_inside key hk.1 hno
      have := hk.1
      rcases hs.apart hf hjmem with rfl | h1 | h1
      · exact hin ⟨hfb, hfe⟩
      · omega
      · omega
    · intro hfalse
      have : (insertLoop (pre.dropLast ++ post) ⟨min key.b j.b, max key.e j.e⟩ true).2 = true :=
        ih3.2 (Or.inl rfl)
      rw [this] at hfalse
      simp at hfalse

/-- Canonical lists with the same coverage are equal. -/
theorem canonical_unique (s t : List Frag) (hs : Canonical s) (ht : Canonical t)
    (h : ∀ x, Covers s x ↔ Covers t x) : s = t := by
  induction s generalizing t with
  | nil =>
    cases t with
    | nil => rfl
    | cons g t =>
      have := (h g.b).2 ⟨g, by simp, Nat.le_refl _, (ht.valid (f := g) (by simp)).1⟩
      exact absurd this (covers_nil _)
  | cons f s ih =>
    cases t with
    | nil =>
      have := (h f.b).1 ⟨f, by simp, Nat.le_refl _, (hs.valid (f := f) (by simp)).1⟩
      exact absurd this (covers_nil _)
    | cons g t =>
      have hs0 := hs
      have ht0 := ht
      rw [canonical_cons] at hs ht
      obtain ⟨hf, hfs, hs⟩ := hs
      obtain ⟨hg, hgt, ht⟩ := ht
      have key : ∀ (f g : Frag) (s t : List Frag), Canonical (f :: s) → Canonical (g :: t) →
          (∀ x, Covers (f :: s) x → Covers (g :: t) x) → g.b ≤ f.b ∧ (f.b = g.b → f.e ≤ g.e) := by
        intro f g s t hcf hcg hsub
        have hfv := (canonical_cons f s).1 hcf
        have hgv := (canonical_cons g t).1 hcg
        have hin := hcg.covered_inside f hfv.1.1 (fun x hx => hsub x ⟨f, by simp, hx⟩)
        obtain ⟨k, hk, hkb, hke⟩ := hin
        rcases List.mem_cons.1 hk with rfl | hk
        · exact ⟨hkb, fun _ => hke⟩
        · have h1 := hgv.2.1 k hk
          have := hgv.1.1
          exact ⟨by omega, fun _ => by omega⟩
      have k1 := key f g s t hs0 ht0 (fun x => (h x).1)
      have k2 := key g f t s ht0 hs0 (fun x => (h x).2)
      have hb : f.b = g.b := by omega
      have he : f.e = g.e := by
        have := k1.2 hb; have := k2.2 hb.symm; omega
      have hfg : f = g := by cases f; cases g; simp_all
      subst hfg
      congr 1
      apply ih t hs ht
      intro x
      have hx := h x
      rw [covers_cons, covers_cons] at hx
      constructor
      · intro hc
        rcases hx.1 (Or.inr hc) with h1 | h1
        · obtain ⟨k, hk, hk1, hk2⟩ := hc
          have := hfs k hk
          have := h1.2
          omega
        · exact h1
      · intro hc
        rcases hx.2 (Or.inr hc) with h1 | h1
        · obtain ⟨k, hk, hk1, hk2⟩ := hc
          have := hgt k hk
          have := h1.2
          omega
        · exact h1

/-! ### Queries -/

/-- Everything from the lower bound on is not less than the key. -/
theorem dropWhile_ge (s : List Frag) (h : Canonical s) (key : Frag) :
    ∀ f ∈ s.dropWhile (fun f => f.lt key), key.b ≤ f.e + 1 := by
  induction s with
  | nil => simp
  | cons a s ih =>
    have hc := h
    rw [canonical_cons] at h
    intro f hf
    by_cases hlt : a.lt key = true
    · rw [List.dropWhile_cons_of_pos (by simp [hlt])] at hf
      exact ih h.2.2 f hf
    · have ha := (not_lt_iff a key h.1).1 (by simpa using hlt)
      rw [List.dropWhile_cons_of_neg (by simp [hlt])] at hf
      rcases List.mem_cons.1 hf with rfl | hf
      · exact ha
      · have h1 := h.2.1 f hf
        have := (hc.valid (f := f) (by simp [hf])).1
        have := h.1.1
        omega

theorem takeWhile_lt (s : List Frag) (h : Canonical s) (key : Frag) :
    ∀ f ∈ s.takeWhile (fun f => f.lt key), f.e + 1 < key.b := by
  intro f hf
  have h1 := mem_takeWhile_pred _ _ _ hf
  have h2 : f ∈ s := (List.takeWhile_sublist _).mem hf
  exact (lt_iff f key (h.valid h2)).1 h1

theorem lowerBound_split (s : List Frag) (key : Frag) :
    s.takeWhile (fun f => f.lt key) ++ s.dropWhile (fun f => f.lt key) = s :=
  List.takeWhile_append_dropWhile

theorem containsEntirely_iff (s : List Frag) (key : Frag) (hs : Canonical s) (hk : key.Valid) :
    containsEntirely s key = true ↔ ∀ x, key.Has x → Covers s x := by
  have hsplit := lowerBound_split s key
  have htake := takeWhile_lt s hs key
  have hdrop := dropWhile_ge s hs key
  unfold containsEntirely find
  constructor
  · intro h x hx
    revert h
    cases hd : s.dropWhile (fun f => f.lt key) with
    | nil => simp
    | cons f fs =>
      simp only
      by_cases hlt : key.lt f = true
      · simp [hlt]
      · simp only [hlt, Bool.false_eq_true, if_false, Bool.and_eq_true, decide_eq_true_eq]
        rintro ⟨h1, h2⟩
        refine ⟨f, ?_, ?_⟩
        · rw [← hsplit, hd]; simp
        · have := hx.1; have := hx.2; constructor <;> omega
  · intro h
    obtain ⟨f, hf, hfb, hfe⟩ := hs.covered_inside key hk.1 h
    have hkv := hk.1
    rw [← hsplit] at hf
    rcases List.mem_append.1 hf with hf | hf
    · have := htake f hf; omega
    · cases hd : s.dropWhile (fun f => f.lt key) with
      | nil => simp [hd] at hf
      | cons g gs =>
        have hgf : g = f := by
          rw [hd] at hf
          rcases List.mem_cons.1 hf with h1 | h1
          · exact h1.symm
          · have hgc : Canonical (g :: gs) := by
              rw [← hsplit, canonical_append, hd] at hs; exact hs.2.1
            have h2 := ((canonical_cons _ _).1 hgc).2.1 f h1
            have h3 := hdrop g (by rw [hd]; simp)
            omega
        subst hgf
        have hnl : key.lt g = false := by
          have : key.lt g = true ↔ key.e + 1 < g.b := lt_iff key g hk
          rw [← Bool.not_eq_true, this]; omega
        simp only [hnl, Bool.false_eq_true, if_false, Bool.and_eq_true, decide_eq_true_eq]
        exact ⟨hfb, hfe⟩

theorem doesNotContainEntirely_iff (s : List Frag) (key : Frag) (hs : Canonical s)
    (hk : key.b ≤ key.e) :
    doesNotContainEntirely s key = true ↔ ∀ x, key.Has x → ¬ Covers s x := by
  unfold doesNotContainEntirely
  induction s with
  | nil => simp [covers_nil]
  | cons a s ih =>
    have hc := hs
    rw [canonical_cons] at hs
    by_cases hlt : a.ltAbut key = true
    · rw [List.dropWhile_cons_of_pos (by simp [hlt]), ih hs.2.2]
      simp only [Frag.ltAbut, decide_eq_true_eq] at hlt
      constructor
      · rintro h x hx hcov
        rcases (covers_cons a s x).1 hcov with h1 | h1
        · have := h1.2; have := hx.1; omega
        · exact h x hx h1
      · intro h x hx hcov
        exact h x hx ((covers_cons a s x).2 (Or.inr hcov))
    · rw [List.dropWhile_cons_of_neg (by simp [hlt])]
      simp only [Frag.ltAbut, decide_eq_true_eq, Nat.not_lt] at hlt ⊢
      have hav := hs.1.1
      constructor
      · rintro h x hx ⟨f, hf, hf1, hf2⟩
        have := hx.2
        rcases List.mem_cons.1 hf with rfl | hf
        · omega
        · have := hs.2.1 f hf
          omega
      · intro h
        by_contra hno
        refine h (max key.b a.b) ⟨by omega, by omega⟩ ⟨a, by simp, by omega, by omega⟩

theorem haveOverlap_iff (s t : List Frag) (hs : Canonical s) (ht : Canonical t) :
    haveOverlap s t = true ↔ ∃ x, Covers s x ∧ Covers t x := by
  unfold haveOverlap
  rw [List.any_eq_true]
  constructor
  · rintro ⟨f, hf, h⟩
    have h2 : ¬ doesNotContainEntirely t f = true := by simpa using h
    rw [doesNotContainEntirely_iff t f ht (hs.valid hf).1] at h2
    push Not at h2
    obtain ⟨x, hx, hc⟩ := h2
    exact ⟨x, ⟨f, hf, hx⟩, hc⟩
  · rintro ⟨x, ⟨f, hf, hx⟩, hc⟩
    refine ⟨f, hf, ?_⟩
    have : ¬ doesNotContainEntirely t f = true := by
      rw [doesNotContainEntirely_iff t f ht (hs.valid hf).1]
      push Not
      exact ⟨x, hx, hc⟩
    simpa using this

theorem getOverlap_iff (k1 k2 : Frag) :
    (∀ o, k1.getOverlap k2 = some o → ∀ x, o.Has x ↔ k1.Has x ∧ k2.Has x) ∧
    (k1.b ≤ k1.e → k2.b ≤ k2.e →
      (k1.getOverlap k2 = none ↔ ¬ ∃ x, k1.Has x ∧ k2.Has x)) := by
  unfold Frag.getOverlap
  constructor
  · intro o ho x
    split at ho
    · cases ho
      simp only [Frag.Has]
      omega
    · simp at ho
  · intro h1 h2
    split
    · rename_i h
      simp only [reduceCtorEq, false_iff, not_not]
      exact ⟨max k1.b k2.b, by simp only [Frag.Has]; omega⟩
    · rename_i h
      simp only [true_iff]
      rintro ⟨x, hx, hy⟩
      simp only [Frag.Has] at hx hy
      omega

/-! ### Removal -/

theorem removeLoop_spec (db de : Nat) (hd : db ≤ de) (s : List Frag) (hs : Canonical s)
    (hge : ∀ f ∈ s, db ≤ f.e) :
    Canonical (removeLoop db de s).1 ∧
      (∀ x, Covers (removeLoop db de s).1 x ↔ Covers s x ∧ ¬ (db ≤ x ∧ x ≤ de)) ∧
      (∀ g ∈ (removeLoop db de s).1, ∃ f ∈ s, f.b ≤ g.b ∧ g.e ≤ f.e) ∧
      ((removeLoop db de s).2 = true ↔ ∃ x, Covers s x ∧ db ≤ x ∧ x ≤ de) := by
  induction s with
  | nil => simp [removeLoop, canonical_nil, covers_nil]
  | cons f s ih =>
    rw [canonical_cons] at hs
    obtain ⟨hv, hfs, hs⟩ := hs
    obtain ⟨ih1, ih2, ih3, ih4⟩ := ih hs (fun g hg => hge g (by simp [hg]))
    have hfe := hge f (by simp)
    have hfv := hv.1
    have hfv2 := hv.2
    -- elements kept from the tail stay beyond `f`
    have hbeyond : ∀ g ∈ (removeLoop db de s).1, f.e + 1 < g.b := by
      intro g hg
      obtain ⟨k, hk, h1, h2⟩ := ih3 g hg
      have := hfs k hk
      omega
    have htail : ∀ g ∈ (removeLoop db de s).1, ∃ k ∈ f :: s, k.b ≤ g.b ∧ g.e ≤ k.e := by
      intro g hg
      obtain ⟨k, hk, h⟩ := ih3 g hg
      exact ⟨k, by simp [hk], h⟩
    rw [removeLoop]
    by_cases c1 : db > f.e
    · omega
    rw [if_neg c1]
    by_cases c2 : de < f.b
    · rw [if_pos c2]
      refine ⟨(canonical_cons _ _).2 ⟨hv, hbeyond, ih1⟩, ?_, ?_, ?_⟩
      · intro x
        simp only [covers_cons, ih2 x, Frag.Has]
        constructor
        · rintro (h | h)
          · exact ⟨Or.inl h, by omega⟩
          · exact ⟨Or.inr h.1, h.2⟩
        · rintro ⟨h | h, h2⟩
          · exact Or.inl h
          · exact Or.inr ⟨h, h2⟩
      · intro g hg
        rcases List.mem_cons.1 hg with rfl | hg
        · exact ⟨g, by simp, by omega, by omega⟩
        · exact htail g hg
      · simp only
        rw [ih4]
        constructor
        · rintro ⟨x, h1, h2⟩
          exact ⟨x, (covers_cons _ _ _).2 (Or.inr h1), h2⟩
        · rintro ⟨x, h1, h2⟩
          rcases (covers_cons _ _ _).1 h1 with h3 | h3
          · have := h3.1; omega
          · exact ⟨x, h3, h2⟩
    rw [if_neg c2]
    have hmod : ∃ x, Covers (f :: s) x ∧ db ≤ x ∧ x ≤ de :=
      ⟨max db f.b, ⟨f, by simp, by omega, by omega⟩, by omega, by omega⟩
    by_cases c3 : db ≤ f.b ∧ de ≥ f.e
    · rw [if_pos c3]
      refine ⟨ih1, ?_, htail, by simpa using hmod⟩
      intro x
      simp only [covers_cons, ih2 x, Frag.Has]
      constructor
      · rintro h; exact ⟨Or.inr h.1, h.2⟩
      · rintro ⟨h | h, h2⟩
        · omega
        · exact ⟨h, h2⟩
    rw [if_neg c3]
    by_cases c4 : db > f.b ∧ de < f.e
    · rw [if_pos c4]
      refine ⟨?_, ?_, ?_, by simpa using hmod⟩
      · simp only [canonical_cons, List.mem_cons, forall_eq_or_imp]
        refine ⟨⟨by (try simp only); omega, by (try simp only); omega⟩, ⟨by (try simp only); omega, ?_⟩,
          ⟨by (try simp only); omega, by (try simp only); omega⟩, ?_, ih1⟩
        · intro g hg; have := hbeyond g hg; omega
        · intro g hg; have := hbeyond g hg; omega
      · intro x
        simp only [covers_cons, ih2 x, Frag.Has]
        constructor
        · rintro (h | h | h)
          · exact ⟨Or.inl (by omega), by omega⟩
          · exact ⟨Or.inl (by omega), by omega⟩
          · exact ⟨Or.inr h.1, h.2⟩
        · rintro ⟨h | h, h2⟩
          · by_cases hx : x < db
            · exact Or.inl (by omega)
            · exact Or.inr (Or.inl (by omega))
          · exact Or.inr (Or.inr ⟨h, h2⟩)
      · intro g hg
        rcases List.mem_cons.1 hg with rfl | hg
        · exact ⟨f, by simp, by simp, by (try simp only); omega⟩
        · rcases List.mem_cons.1 hg with rfl | hg
          · exact ⟨f, by simp, by (try simp only); omega, by simp⟩
          · exact htail g hg
    rw [if_neg c4]
    by_cases c5 : db ≤ f.b ∧ de ≥ f.b
    · rw [if_pos c5]
      refine ⟨?_, ?_, ?_, by simpa using hmod⟩
      · simp only [canonical_cons]
        exact ⟨⟨by (try simp only); omega, by (try simp only); omega⟩, hbeyond, ih1⟩
      · intro x
        simp only [covers_cons, ih2 x, Frag.Has]
        constructor
        · rintro (h | h)
          · exact ⟨Or.inl (by omega), by omega⟩
          · exact ⟨Or.inr h.1, h.2⟩
        · rintro ⟨h | h, h2⟩
          · exact Or.inl (by omega)
          · exact Or.inr ⟨h, h2⟩
      · intro g hg
        rcases List.mem_cons.1 hg with rfl | hg
        · exact ⟨f, by simp, by (try simp only); omega, by simp⟩
        · exact htail g hg
    rw [if_neg c5, if_pos (by omega)]
    refine ⟨?_, ?_, ?_, by simpa using hmod⟩
    · simp only [canonical_cons]
      refine ⟨⟨by (try simp only); omega, by (try simp only); omega⟩, ?_, ih1⟩
      intro g hg; have := hbeyond g hg; omega
    · intro x
      simp only [covers_cons, ih2 x, Frag.Has]
      constructor
      · rintro (h | h)
        · exact ⟨Or.inl (by omega), by omega⟩
        · exact ⟨Or.inr h.1, h.2⟩
      · rintro ⟨h | h, h2⟩
        · exact Or.inl (by omega)
        · exact Or.inr ⟨h, h2⟩
    · intro g hg
      rcases List.mem_cons.1 hg with rfl | hg
      · exact ⟨f, by simp, by simp, by (try simp only); omega⟩
      · exact htail g hg

/-- Removal is exact when no element ends right before the removed range. -/
theorem removeFragment_exact (s : List Frag) (key : Frag) (hs : Canonical s) (hk : key.b ≤ key.e)
    (hna : ∀ f ∈ s, f.e + 1 ≠ key.b) :
    Canonical (removeFragment s key).1 ∧
      (∀ x, Covers (removeFragment s key).1 x ↔ Covers s x ∧ ¬ key.Has x) ∧
      ((removeFragment s key).2 = true ↔ ∃ x, Covers s x ∧ key.Has x) := by
  have hsplit := lowerBound_split s key
  have htake := takeWhile_lt s hs key
  have hdrop := dropWhile_ge s hs key
  have hs' := hs
  rw [← hsplit, canonical_append] at hs'
  have hsub : ∀ f ∈ s.dropWhile (fun f => f.lt key), f ∈ s := by
    intro f hf; rw [← hsplit]; exact List.mem_append_right _ hf
  obtain ⟨r1, r2, r3, r4⟩ := removeLoop_spec key.b key.e hk _ hs'.2.1
    (fun f hf => by have := hdrop f hf; have := hna f (hsub f hf); omega)
  rw [removeFragment, if_neg (by omega)]
  refine ⟨?_, ?_, ?_⟩
  · rw [canonical_append]
    refine ⟨hs'.1, r1, ?_⟩
    intro f hf g hg
    obtain ⟨k, hk1, hk2, hk3⟩ := r3 g hg
    have := hs'.2.2 f hf k hk1
    omega
  · intro x
    simp only [covers_append, r2 x]
    conv_rhs => rw [← hsplit, covers_append]
    constructor
    · rintro (h | h)
      · refine ⟨Or.inl h, ?_⟩
        obtain ⟨f, hf, h1, h2⟩ := h
        have := htake f hf
        simp only [Frag.Has]; omega
      · exact ⟨Or.inr h.1, h.2⟩
    · rintro ⟨h | h, h2⟩
      · exact Or.inl h
      · exact Or.inr ⟨h, h2⟩
  · simp only
    rw [r4]
    constructor
    · rintro ⟨x, h1, h2⟩
      exact ⟨x, by rw [← hsplit, covers_append]; exact Or.inr h1, h2⟩
    · rintro ⟨x, h1, h2⟩
      rw [← hsplit, covers_append] at h1
      rcases h1 with ⟨f, hf, h3, h4⟩ | h1
      · have := htake f hf
        have := h2.1
        omega
      · exact ⟨x, h1, h2⟩

/-- Removal does nothing at all when an element ends right before the removed range. -/
theorem removeFragment_stuck (s : List Frag) (key : Frag) (hs : Canonical s)
    (f : Frag) (hf : f ∈ s) (hfe : f.e + 1 = key.b) : removeFragment s key = (s, false) := by
  have hsplit := lowerBound_split s key
  have htake := takeWhile_lt s hs key
  have hdrop := dropWhile_ge s hs key
  unfold removeFragment
  split
  · rfl
  · have hhead : ∃ fs, s.dropWhile (fun f => f.lt key) = f :: fs := by
      have hf' := hf
      rw [← hsplit] at hf'
      rcases List.mem_append.1 hf' with h | h
      · have := htake f h; omega
      · cases hd : s.dropWhile (fun f => f.lt key) with
        | nil => simp [hd] at h
        | cons g gs =>
          rw [hd] at h
          rcases List.mem_cons.1 h with rfl | h
          · exact ⟨gs, rfl⟩
          · have hgc : Canonical (g :: gs) := by
              rw [← hsplit, canonical_append, hd] at hs; exact hs.2.1
            have h2 := ((canonical_cons _ _).1 hgc).2.1 f h
            have h3 := hdrop g (by rw [hd]; simp)
            have h4 := ((canonical_cons _ _).1 hgc).2.2.valid h
            have := h4.1
            omega
    obtain ⟨fs, hfs⟩ := hhead
    have : removeLoop key.b key.e (f :: fs) = (f :: fs, false) := by
      rw [removeLoop, if_pos (by omega)]
    simp only [hfs, this]
    rw [← hfs, hsplit]

/-! ### Gaps -/

theorem insertFragment_nil (k : Frag) : insertFragment [] k = ([k], true) := by
  rw [insertFragment, insertLoop]; rfl

theorem boundsMinus_loop (bounds : Frag) (hb : bounds.Valid) (s : List Frag) (hs : Canonical s)
    (acc done : List Frag) (hdone : Canonical (done ++ s)) (hacc : Canonical acc)
    (hcov : ∀ x, Covers acc x ↔ bounds.Has x ∧ ¬ Covers done x) :
    Canonical (s.foldl (fun acc f => (removeFragment acc f).1) acc) ∧
      ∀ x, Covers (s.foldl (fun acc f => (removeFragment acc f).1) acc) x ↔
        bounds.Has x ∧ ¬ Covers (done ++ s) x := by
  induction s generalizing acc done with
  | nil => simpa using ⟨hacc, hcov⟩
  | cons f s ih =>
    have hs0 := hs
    rw [canonical_cons] at hs
    have hfv := hs.1
    have hfv1 := hs.1.1
    have hdone' : Canonical ((done ++ [f]) ++ s) := by simpa using hdone
    rw [canonical_append] at hdone
    -- an element of `acc` that ends right before `f` ends at the upper bound
    have hnext : Canonical (removeFragment acc f).1 ∧
        ∀ x, Covers (removeFragment acc f).1 x ↔ bounds.Has x ∧ ¬ Covers (done ++ [f]) x := by
      by_cases hab : ∃ g ∈ acc, g.e + 1 = f.b
      · obtain ⟨g, hg, hge⟩ := hab
        rw [removeFragment_stuck acc f hacc g hg hge]
        refine ⟨hacc, ?_⟩
        intro x
        rw [hcov x, covers_append, covers_cons]
        have hgv := hacc.valid hg
        have hgv1 := hgv.1
        have hg1 := (hcov g.e).1 ⟨g, hg, hgv.1, Nat.le_refl _⟩
        have hnf : ¬ Covers acc f.b := by
          rintro ⟨k, hk, hk1, hk2⟩
          rcases hacc.apart hk hg with rfl | h | h
          · omega
          · have := (hacc.valid hk).1; omega
          · omega
        have hbe : bounds.e < f.b := by
          by_contra hc
          apply hnf
          rw [hcov]
          refine ⟨⟨by have := hg1.1.1; omega, by omega⟩, ?_⟩
          rintro ⟨k, hk, hk1, hk2⟩
          have := hdone.2.2 k hk f (by simp)
          omega
        constructor
        · rintro ⟨h1, h2⟩
          refine ⟨h1, ?_⟩
          rintro (h | h | h)
          · exact h2 h
          · have := h1.2; have := h.1; omega
          · exact covers_nil _ h
        · rintro ⟨h1, h2⟩
          exact ⟨h1, fun h => h2 (Or.inl h)⟩
      · push Not at hab
        obtain ⟨r1, r2, _⟩ := removeFragment_exact acc f hacc hfv1 hab
        refine ⟨r1, ?_⟩
        intro x
        rw [r2 x, hcov x, covers_append, covers_cons]
        have := covers_nil x
        tauto
    have := ih hs.2.2 (removeFragment acc f).1 (done ++ [f]) hdone' hnext.1 hnext.2
    simpa using this

theorem boundsMinus_spec (bounds : Frag) (hb : bounds.Valid) (s : List Frag) (hs : Canonical s) :
    Canonical (boundsMinusFragments bounds s) ∧
      ∀ x, Covers (boundsMinusFragments bounds s) x ↔ bounds.Has x ∧ ¬ Covers s x := by
  rw [boundsMinusFragments, insertFragment_nil]
  have := boundsMinus_loop bounds hb s hs [bounds] [] (by simpa using hs)
    (by simp [Canonical, hb]) (by intro x; simp [covers_cons, covers_nil])
  simpa using this

end Hdtn.FragmentSet
