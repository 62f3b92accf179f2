import Verif.BundleView7.Lemmas

/-! Loading as a whole. -/

namespace Hdtn.BundleView7

open Hdtn.HashMap16 Hdtn.Bpv7Canonical Hdtn.Bpv7Canonical.Spec Hdtn.Bpv7Crc Hdtn.Bpv7Primary Hdtn.Bpv7Primary.Spec Hdtn.BpSec7
open Hdtn.BpSec7.Spec Spec

/-- What loading says of a block. -/
def Loaded (skip admin : Bool) (enc : List Nat) (b : BlockView) : Prop :=
  IsBlock skip b.raw b.block ∧ b.dirty = false ∧ b.deleted = false ∧
    (IsEncrypted enc b.block → b.body = .hidden) ∧ (¬ IsEncrypted enc b.block → IsBody admin b.block b.body)

theorem targetsOf_other {b : BlockView} (h : b.block.typeCode ≠ 12) : targetsOf b = [] := by
  unfold targetsOf
  split
  · rw [if_neg h]
  · rfl

theorem bcb_body {admin : Bool} {enc : List Nat} {b : BlockView} (h12 : b.block.typeCode = 12)
    (h : ¬ IsEncrypted enc b.block → IsBody admin b.block b.body) : ∃ a, b.body = .sec a ∧ TakenForAsb b.block.data a := by
  have hb := h (fun hn => hn.1 h12)
  cases hbody : b.body with
  | plain => rw [hbody] at hb; exact absurd (Or.inr h12) hb.2.2
  | ext x =>
    rw [hbody] at hb
    have := ext_type x
    rw [← hb.1, h12] at this
    simp [IsExtType] at this
  | sec a => rw [hbody] at hb; exact ⟨a, rfl, hb.2⟩
  | admin r => rw [hbody] at hb; have := hb.2.1; rw [h12] at this; simp at this
  | hidden => rw [hbody] at hb; exact hb.elim

theorem contents_sound (skip admin : Bool) (enc : List Nat) (is : List Item) : ∀ (vs : List BlockView),
    (∀ i ∈ is, i.old = []) → (∀ i ∈ is, IsBlock skip i.raw i.block ∧ (i.block.data ++ i.after).length < 2 ^ 64) →
    List.Forall₂ (fun i v => readContent admin enc i = .ok v) is vs →
    vs.map (·.block) = is.map (·.block) ∧ vs.map (·.raw) = is.map (·.raw) ∧ (∀ v ∈ vs, Loaded skip admin enc v) ∧
      ∀ ts, Targets is ts → allTargets vs = ts := by
  induction is with
  | nil =>
    intro vs _ _ h
    cases h
    exact ⟨rfl, rfl, by simp, fun ts h => by rw [Targets] at h; rw [h]; rfl⟩
  | cons i is ih =>
    intro vs ho hl h
    cases h with
    | @cons _ v _ ws hv hw =>
      obtain ⟨h1, h2, h3, h4⟩ := ih ws (fun j hj => ho j (by simp [hj])) (fun j hj => hl j (by simp [hj])) hw
      have hoi := ho i (by simp)
      obtain ⟨hbi, hli⟩ := hl i (by simp)
      obtain ⟨e1, e2, e3, e4, e5, e6⟩ := (readContent_iff admin enc i hoi hli v).1 hv
      refine ⟨by simp [e1, h1], by simp [e2, h2], ?_, ?_⟩
      · intro x hx
        rcases List.mem_cons.1 hx with rfl | hx
        · exact ⟨by rw [e1, e2]; exact hbi, e3, e4, e5, e6⟩
        · exact h3 x hx
      · rintro ts ⟨t, r, rfl, hT, ht1, ht2⟩
        rw [← h4 r hT]
        simp only [allTargets, List.map_cons, List.flatten_cons]
        congr 1
        by_cases h12 : i.block.typeCode = 12
        · obtain ⟨a, ha, rfl⟩ := ht1 h12
          obtain ⟨b, hb, hb2⟩ := bcb_body (by rw [e1]; exact h12) e6
          have : readSec i = .ok b := by
            unfold readSec
            rw [C75_read_fresh_iff _ hoi _ _ hli, ← e1]
            exact hb2
          rw [this] at ha
          simp only [Out.ok.injEq] at ha
          subst ha
          simp [targetsOf, hb, e1, h12]
        · rw [ht2 h12, targetsOf_other (by rwa [e1])]

theorem contents_complete (skip admin : Bool) (enc : List Nat) (pad : Bytes) (vs : List BlockView) :
    (∀ v ∈ vs, Loaded skip admin enc v) → ((vs.map fun x : BlockView => x.raw).flatten ++ [0xff] ++ pad).length < 2 ^ 64 →
    ∃ is, Items skip pad ⟨[], []⟩ ((vs.map fun x : BlockView => x.raw).flatten ++ [0xff]) is ∧ is.map (·.block) = vs.map (·.block) ∧
      List.Forall₂ (fun i v => readContent admin enc i = .ok v) is vs ∧ Targets is (allTargets vs) := by
  induction vs with
  | nil => intro _ _; exact ⟨[], rfl, rfl, List.Forall₂.nil, rfl⟩
  | cons v vs ih =>
    intro h hl
    simp only [List.map_cons, List.flatten_cons, List.append_assoc] at hl
    obtain ⟨is, hI, hb, hF, hT⟩ := ih (fun x hx => h x (by simp [hx])) (by
      simp only [List.length_append] at hl ⊢; omega)
    obtain ⟨hv1, hv2, hv3, hv4, hv5⟩ := h v (by simp)
    obtain ⟨after, hat⟩ := exists_item ⟨[], []⟩ pad ((vs.map fun x : BlockView => x.raw).flatten ++ [0xff]) hv1
    rw [bin_old_fresh] at hat
    have hlen : (v.block.data ++ after).length < 2 ^ 64 := by
      have := hat.length
      simp only [List.append_assoc] at this
      omega
    refine ⟨⟨v.block, v.raw, after, []⟩ :: is, ⟨_, by simp, hat, by rw [bin_use_fresh]; exact hI⟩, by simp [hb],
      List.Forall₂.cons ?_ hF, ?_⟩
    · rw [readContent_iff admin enc _ rfl hlen]
      exact ⟨rfl, rfl, hv2, hv3, hv4, hv5⟩
    · refine ⟨targetsOf v, allTargets vs, rfl, hT, fun h12 => ?_, fun h12 => targetsOf_other h12⟩
      obtain ⟨a, ha, ht⟩ := bcb_body h12 hv5
      refine ⟨a, ?_, ?_⟩
      · unfold readSec
        rw [C75_read_fresh_iff _ rfl _ _ hlen]
        exact ht
      · rw [targetsOf, ha]
        simp only
        rw [if_pos h12]

theorem load_iff (skip : Bool) (buf pad : Bytes) (v : View) (hl : (buf ++ pad).length < 2 ^ 64) :
    load ⟨[], []⟩ skip buf pad = .ok v ↔ IsViewOf skip v buf := by
  have hfree : ∀ (bs : List BlockView) (n : Nat),
      ((bs.map (·.block.number)).foldl reserve freeInit).testBit n = true ↔ n ≤ 63 ∧ Unused bs n := by
    intro bs n
    rw [(reserveAll_testBit _ freeInit n freeInit_lt).2, freeInit_testBit]
    simp only [Unused, List.mem_map, not_exists, not_and]
    constructor
    · rintro ⟨⟨h1, h2⟩, h3⟩; exact ⟨h2, h1, h3⟩
    · rintro ⟨h2, h1, h3⟩; exact ⟨⟨h1, h2⟩, h3⟩
  unfold load
  constructor
  · intro h
    simp only [obind_ok, ofOption_ok, Prod.exists] at h
    obtain ⟨p, raw, rest, hp, is, enc, hi, vs, hc, h⟩ := h
    obtain ⟨rfl, hprim, hfrag, hz1, hz2⟩ := (readPrimary_iff _ _ _ _).1 hp
    obtain ⟨hI, hP, ts, hT, he, hd⟩ := (readItems_iff skip pad _ _ _ _ _ _ List.nodup_nil (by omega)).1 hi
    rw [List.nil_append] at he
    subst he
    have hIb := hI.isBlock
    have hlen : (rest ++ pad).length < 2 ^ 64 := by
      simp only [List.length_append, List.length_cons] at hl ⊢; omega
    obtain ⟨e1, e2, e3, e4⟩ := contents_sound skip (isAdmin p) enc is vs hI.fresh
      (fun i hi => ⟨(hIb i hi).1, by have := (hIb i hi).2; omega⟩) ((readContents_iff _ _ _ _).1 hc)
    simp only [Out.ok.injEq] at h
    subst h
    refine ⟨?_, hprim, hfrag, hz1, hz2, rfl, ?_, (e4 _ hT).symm, hd, e3, ?_, rfl⟩
    · simp only
      rw [e2, hI.buf]
      simp
    · simp only; rw [e1]; exact hP
    · intro n
      simp only
      have : is.map (·.block.number) = vs.map (·.block.number) := by
        have := congrArg (List.map Canonical.number) e1
        simpa [List.map_map, Function.comp_def] using this.symm
      rw [this]
      exact hfree vs n
  · rintro ⟨hbuf, hprim, hfrag, hz1, hz2, hdirty, hP, henc, hd, hb, hfr, hren⟩
    obtain ⟨p, raw, dirty, vs, free, enc, ren⟩ := v
    simp only at *
    subst hdirty hren
    have hlen : ((vs.map fun x : BlockView => x.raw).flatten ++ [0xff] ++ pad).length < 2 ^ 64 := by
      rw [hbuf] at hl
      simp only [List.length_append, List.length_cons] at hl ⊢; omega
    obtain ⟨is, hI, hbl, hF, hT⟩ := contents_complete skip (isAdmin p) enc pad vs hb hlen
    simp only [obind_ok, ofOption_ok, Prod.exists]
    refine ⟨p, raw, (vs.map fun x : BlockView => x.raw).flatten ++ [0xff], (readPrimary_iff _ _ _ _).2
      ⟨by rw [hbuf]; simp, hprim, hfrag, hz1, hz2⟩, is, enc, ?_, vs, (readContents_iff _ _ _ _).2 hF, ?_⟩
    · rw [readItems_iff skip pad _ _ _ _ _ _ List.nodup_nil (by omega)]
      exact ⟨hI, by rw [hbl]; exact hP, _, hT, by rw [← henc]; rfl, hd⟩
    · congr 1
      have e : is.map (·.block.number) = vs.map (·.block.number) := by
        have := congrArg (List.map Canonical.number) hbl
        simpa [List.map_map, Function.comp_def] using this
      rw [e]
      congr 1
      apply Nat.eq_of_testBit_eq
      intro n
      have h1 := hfree vs n
      have h2 := hfr n
      rw [Bool.eq_iff_iff, h1, h2]

/-! ### Recycled objects -/

/-- Two items for the same block. -/
def SameItem (i j : Item) : Prop := i.block = j.block ∧ i.raw = j.raw ∧ i.after = j.after

theorem readSec_same {i j : Item} (h : SameItem i j) (hl : (i.block.data ++ i.after).length < 2 ^ 64) {a : Asb}
    (ha : readSec i = .ok a) : ∃ b, readSec j = .ok b ∧ b.targets = a.targets ∧ content a = content b := by
  obtain ⟨h1, h2, h3⟩ := h
  obtain ⟨w, hw, rfl⟩ := (readSec_ok i a hl).1 ha
  refine ⟨_, (readSec_ok j _ (by rwa [← h1, ← h3])).2 ⟨w, by rw [← h1]; exact hw, rfl⟩, rfl, ?_⟩
  unfold content
  simp only
  split_ifs <;> rfl

theorem readItem_same (skip : Bool) (b1 b2 : Bin) (pad buf : Bytes) {i : Item} {rest : Bytes}
    (h : readItem skip b1 pad buf = some (i, rest)) :
    ∃ j, readItem skip b2 pad buf = some (j, rest) ∧ SameItem i j := by
  unfold readItem at h ⊢
  simp only [Option.bind_eq_bind, Option.bind_eq_some_iff, Option.pure_def, Option.some.injEq, Prod.mk.injEq, Prod.exists] at h ⊢
  obtain ⟨c, r, hr, k, hk, rfl, rfl⟩ := h
  exact ⟨_, ⟨c, r, hr, k, hk, rfl, rfl⟩, rfl, rfl, rfl⟩

theorem readTargets_same {i j : Item} (h : SameItem i j) (hl : (i.block.data ++ i.after).length < 2 ^ 64) (enc e : List Nat)
    (ht : readTargets i enc = .ok e) : readTargets j enc = .ok e := by
  unfold readTargets at *
  rw [← h.1]
  split_ifs at ht ⊢
  · obtain ⟨a, ha, h2⟩ := obind_ok.1 ht
    obtain ⟨b, hb, ht, _⟩ := readSec_same h hl ha
    rw [obind_ok]
    exact ⟨b, hb, by rw [ht]; exact h2⟩
  · exact ht

theorem item_length {skip : Bool} {bin : Bin} {pad buf rest : Bytes} {i : Item} (h : readItem skip bin pad buf = some (i, rest)) :
    (i.block.data ++ i.after).length ≤ (buf ++ pad).length ∧ rest.length ≤ buf.length := by
  obtain ⟨rfl, hat⟩ := (readItem_iff _ _ _ _ _ _).1 h
  exact ⟨hat.length, by simp⟩

theorem readItems_same (skip : Bool) (pad : Bytes) (fuel : Nat) : ∀ (b1 b2 : Bin) (enc : List Nat) (buf : Bytes)
    (is : List Item) (e : List Nat), (buf ++ pad).length < 2 ^ 64 → readItems skip pad fuel b1 enc buf = .ok (is, e) →
    ∃ js, readItems skip pad fuel b2 enc buf = .ok (js, e) ∧ List.Forall₂ SameItem is js ∧
      ∀ i ∈ is, (i.block.data ++ i.after).length < 2 ^ 64 := by
  induction fuel with
  | zero => intro _ _ _ _ _ _ _ h; simp [readItems] at h
  | succ fuel ih =>
    intro b1 b2 enc buf is e hl h
    rw [readItems] at h
    split at h
    · simp at h
    rename_i i rest hi
    obtain ⟨j, hj, hs⟩ := readItem_same skip b1 b2 pad buf hi
    obtain ⟨hli, hlr⟩ := item_length hi
    obtain ⟨e1, he1, h⟩ := obind_ok.1 h
    have he2 := readTargets_same hs (by omega) enc e1 he1
    rw [readItems, hj]
    simp only
    rw [he2]
    simp only [Out.bind]
    rw [← hs.1]
    split_ifs at h ⊢
    · simp only [Out.ok.injEq, Prod.mk.injEq] at h ⊢
      obtain ⟨rfl, rfl⟩ := h
      exact ⟨[j], ⟨rfl, rfl⟩, List.Forall₂.cons hs List.Forall₂.nil, by
        intro x hx; rw [List.mem_singleton] at hx; subst hx; omega⟩
    · obtain ⟨⟨ks, e2⟩, hk, h⟩ := obind_ok.1 h
      simp only [Out.ok.injEq, Prod.mk.injEq] at h
      obtain ⟨rfl, rfl⟩ := h
      obtain ⟨js, hjs, hF, hL⟩ := ih _ (b2.use i.block.typeCode) _ _ _ _ (by
        simp only [List.length_append] at hl ⊢; omega) hk
      refine ⟨j :: js, by rw [hjs], List.Forall₂.cons hs hF, ?_⟩
      intro x hx
      rcases List.mem_cons.1 hx with rfl | hx
      · omega
      · exact hL x hx

/-- The same block with the same content. -/
def SameView (v w : BlockView) : Prop :=
  v.block = w.block ∧ v.raw = w.raw ∧ v.dirty = w.dirty ∧ v.deleted = w.deleted ∧ SameContent v.body w.body

theorem sameContent_refl (b : Body) : SameContent b b := by
  cases b <;> simp [SameContent]

theorem readContent_same (admin : Bool) (enc : List Nat) {i j : Item} (h : SameItem i j)
    (hl : (i.block.data ++ i.after).length < 2 ^ 64) {v : BlockView} (hv : readContent admin enc i = .ok v) :
    ∃ w, readContent admin enc j = .ok w ∧ SameView v w := by
  unfold readContent at *
  rw [← h.1, ← h.2.1]
  split_ifs at hv ⊢ with hc
  · simp only [Out.ok.injEq] at hv
    subst hv
    exact ⟨_, rfl, rfl, rfl, rfl, rfl, sameContent_refl _⟩
  · obtain ⟨b, hb, hv⟩ := obind_ok.1 hv
    simp only [Out.ok.injEq] at hv
    subst hv
    simp only [readBody] at hb ⊢
    rw [← h.1]
    split_ifs at hb ⊢
    · rw [hb]; exact ⟨_, rfl, rfl, rfl, rfl, rfl, sameContent_refl _⟩
    · obtain ⟨a, ha, hb⟩ := obind_ok.1 hb
      simp only [Out.ok.injEq] at hb
      subst hb
      obtain ⟨a', ha', _, hc⟩ := readSec_same h hl ha
      rw [ha']
      exact ⟨_, rfl, rfl, rfl, rfl, rfl, hc⟩
    · rw [hb]; exact ⟨_, rfl, rfl, rfl, rfl, rfl, sameContent_refl _⟩
    · rw [hb]; exact ⟨_, rfl, rfl, rfl, rfl, rfl, sameContent_refl _⟩

theorem readContents_same (admin : Bool) (enc : List Nat) {is js : List Item} (h : List.Forall₂ SameItem is js) : ∀ {vs},
    (∀ i ∈ is, (i.block.data ++ i.after).length < 2 ^ 64) → readContents admin enc is = .ok vs →
    ∃ ws, readContents admin enc js = .ok ws ∧ List.Forall₂ SameView vs ws := by
  induction h with
  | nil =>
    intro vs _ h
    simp only [readContents, Out.ok.injEq] at h
    subst h
    exact ⟨[], rfl, List.Forall₂.nil⟩
  | @cons i j is js hij _ ih =>
    intro vs hl h
    rw [readContents] at h
    simp only [obind_ok, Out.ok.injEq] at h
    obtain ⟨v, hv, vs', hvs, rfl⟩ := h
    obtain ⟨w, hw, hs⟩ := readContent_same admin enc hij (hl i (by simp)) hv
    obtain ⟨ws, hws, hF⟩ := ih (fun x hx => hl x (by simp [hx])) hvs
    refine ⟨w :: ws, ?_, List.Forall₂.cons hs hF⟩
    rw [readContents, hw]
    simp only [Out.bind, hws]

theorem load_same (b1 b2 : Bin) (skip : Bool) (buf pad : Bytes) (hl : (buf ++ pad).length < 2 ^ 64) (v : View)
    (h : load b1 skip buf pad = .ok v) :
    ∃ bs, load b2 skip buf pad = .ok { v with blocks := bs } ∧ List.Forall₂ SameView v.blocks bs := by
  unfold load at *
  simp only [obind_ok, ofOption_ok, Prod.exists] at h
  obtain ⟨p, raw, rest, hp, is, enc, hi, vs, hc, h⟩ := h
  have hlr : (rest ++ pad).length < 2 ^ 64 := by
    obtain ⟨rfl, _⟩ := (readPrimary_iff _ _ _ _).1 hp
    simp only [List.length_append, List.length_cons] at hl ⊢; omega
  obtain ⟨js, hj, hF, hL⟩ := readItems_same skip pad _ b1 b2 _ _ _ _ hlr hi
  obtain ⟨ws, hw, hS⟩ := readContents_same (isAdmin p) enc hF hL hc
  simp only [Out.ok.injEq] at h
  subst h
  refine ⟨ws, ?_, hS⟩
  simp only [obind_ok, ofOption_ok, Prod.exists]
  refine ⟨p, raw, rest, hp, js, enc, hj, ws, hw, ?_⟩
  have : js.map (·.block.number) = is.map (·.block.number) := by
    clear hi hL hc hj hw hS
    induction hF with
    | nil => rfl
    | cons h _ ih => simp [h.1, ih]
  rw [this]

/-! ### Faults -/

theorem readItem_typeCode {skip : Bool} {bin : Bin} {pad buf rest : Bytes} {i : Item}
    (h : readItem skip bin pad buf = some (i, rest)) : ∃ raw, buf = raw ++ rest ∧ IsBlock skip raw i.block := by
  obtain ⟨rfl, hat⟩ := (readItem_iff _ _ _ _ _ _).1 h
  exact ⟨_, rfl, hat.1⟩

theorem readItems_safe (skip : Bool) (pad : Bytes) (fuel : Nat) : ∀ (bin : Bin) (enc : List Nat) (buf : Bytes),
    (∀ pre raw post c, buf = pre ++ (raw ++ post) → IsBlock skip raw c → ¬ IsSecType c.typeCode) →
    readItems skip pad fuel bin enc buf ≠ .fault ∧
    ∀ is e, readItems skip pad fuel bin enc buf = .ok (is, e) → ∀ i ∈ is, ¬ IsSecType i.block.typeCode := by
  induction fuel with
  | zero => intro _ _ _ _; simp [readItems]
  | succ fuel ih =>
    intro bin enc buf h
    rw [readItems]
    split
    · simp
    rename_i i rest hi
    obtain ⟨raw, rfl, hb⟩ := readItem_typeCode hi
    have hns := h [] raw rest i.block (by simp) hb
    have ht : readTargets i enc = .ok enc := by
      unfold readTargets
      rw [if_neg (fun h12 => hns (Or.inr h12))]
    rw [ht]
    simp only [Out.bind]
    obtain ⟨ih1, ih2⟩ := ih (bin.use i.block.typeCode) enc rest (fun pre r post c he => h (raw ++ pre) r post c (by rw [he]; simp))
    split_ifs
    · simp
    · constructor
      · simp
      · intro is e he
        simp only [Out.ok.injEq, Prod.mk.injEq] at he
        obtain ⟨rfl, rfl⟩ := he
        intro x hx
        rw [List.mem_singleton] at hx
        subst hx
        exact hns
    · simp
    · simp
    · constructor
      · show (readItems skip pad fuel (bin.use i.block.typeCode) enc rest).bind _ ≠ .fault
        rw [ne_eq, obind_fault]
        rintro (hf | ⟨⟨a, b⟩, _, hf⟩)
        · exact ih1 hf
        · simp at hf
      · intro is e he
        obtain ⟨⟨ks, e2⟩, hk, he⟩ := obind_ok.1 he
        simp only [Out.ok.injEq, Prod.mk.injEq] at he
        obtain ⟨rfl, rfl⟩ := he
        intro x hx
        rcases List.mem_cons.1 hx with rfl | hx
        · exact hns
        · exact ih2 ks e2 hk x hx

theorem readContents_safe (admin : Bool) (enc : List Nat) (is : List Item) (h : ∀ i ∈ is, ¬ IsSecType i.block.typeCode) :
    readContents admin enc is ≠ .fault := by
  induction is with
  | nil => simp [readContents]
  | cons i is ih =>
    rw [readContents, ne_eq, obind_fault]
    rintro (hf | ⟨a, _, hf⟩)
    · unfold readContent at hf
      split_ifs at hf
      rw [obind_fault] at hf
      rcases hf with hf | ⟨a, _, hf⟩
      · simp only [readBody] at hf
        have hi := h i (by simp)
        split_ifs at hf with h1 h2
        · rw [obind_fault] at hf
          rcases hf with hf | ⟨_, _, hf⟩
          · exact ofOption_fault hf
          · simp at hf
        · exact hi h2
        · rw [obind_fault] at hf
          rcases hf with hf | ⟨_, _, hf⟩
          · exact ofOption_fault hf
          · simp at hf
      · simp at hf
    · rw [obind_fault] at hf
      rcases hf with hf | ⟨_, _, hf⟩
      · exact ih (fun x hx => h x (by simp [hx])) hf
      · simp at hf

theorem load_safe (bin : Bin) (skip : Bool) (buf pad : Bytes)
    (h : ∀ pre raw post c, buf = pre ++ (raw ++ post) → IsBlock skip raw c → ¬ IsSecType c.typeCode) :
    load bin skip buf pad ≠ .fault := by
  unfold load
  rw [ne_eq, obind_fault]
  rintro (hf | ⟨⟨p, raw, rest⟩, hp, hf⟩)
  · exact ofOption_fault hf
  rw [ofOption_ok] at hp
  obtain ⟨rfl, _⟩ := (readPrimary_iff _ _ _ _).1 hp
  obtain ⟨h1, h2⟩ := readItems_safe skip pad (rest.length + 1) bin [] rest
    (fun pre r post c he => h (0x9f :: (raw ++ pre)) r post c (by rw [he]; simp))
  simp only [obind_fault] at hf
  rcases hf with hf | ⟨⟨is, e⟩, hi, hf⟩
  · exact h1 hf
  · rcases hf with hf | ⟨_, _, hf⟩
    · exact readContents_safe _ _ _ (h2 is e hi) hf
    · simp at hf

end Hdtn.BundleView7
