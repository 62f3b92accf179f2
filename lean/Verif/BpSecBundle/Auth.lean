import Verif.BpSecBundle.Open

/-! What a decryption without errors says about the bundle. -/

namespace Hdtn.BpSecBundle

open Hdtn.HashMap16 Hdtn.Cbor Hdtn.Cbor.Spec Hdtn.Bpv7Crc Hdtn.Bpv7Canonical Hdtn.Bpv7Canonical.Spec Hdtn.BpSec7
open Hdtn.BundleView7 Hdtn.BundleView7.Spec Spec

theorem admit_some {s s' : Loop} {expected : Nat} {t : UInt8} (h : s.admit expected t = some s') :
    s' = { s with mask := addType s.mask t } ∧ (t.toNat ≤ 63 → expected.testBit t.toNat = true) := by
  unfold Loop.admit at h
  unfold addType
  split_ifs at h with h1 h2
  · rw [if_pos h1]
    exact ⟨by simpa using h.symm, fun _ => h2⟩
  · rw [if_neg h1]
    exact ⟨by simpa using h.symm, fun h' => absurd h' h1⟩

theorem withDataCrc_number (b : BlockView) (d : Bytes) : (withDataCrc b d).block.number = b.block.number := by
  unfold withDataCrc recompute
  simp only
  split_ifs <;> rfl

/-- The target that was decrypted and read again. -/
def openB (C : Crypto) (key iv : Bytes) (x : BlockView) (body : Body) : BlockView :=
  { withDataCrc x (C.ctr key iv x.block.data) with body := body }

/-- The check of a target that ended without an error. -/
structure Checked (C : Crypto) (expected : Nat) (o : Opening) (primary : Bytes) (x : BlockView) (tag : Bytes) : Prop where
  admitted : x.block.typeCode.toNat ≤ 63 → expected.testBit x.block.typeCode.toNat = true
  size : isAesKey o.key = true
  iv : o.iv ≠ []
  long : 16 ≤ tag.length
  same : ∃ h, part o.scope 1 (headerOf x) = .ok h ∧ tag.take 16 = C.tag o.key o.iv (aadOf o.scope primary h o.header) x.block.data

theorem openTarget_clean {C : Crypto} {verifyOnly : Bool} {expected : Nat} {o : Opening} {pad : Bytes} {self st t : Nat} {tag : Bytes}
    {s s' : Loop} (h : openTarget C verifyOnly expected o pad self st t tag s = .ok s') (he : s'.errors = []) :
    s.errors = [] ∧ ∃ i x, View.indexOf s.view t = some i ∧ s.view.blocks[i]? = some x ∧
      Checked C expected o s.view.primaryRaw x tag ∧ s'.mask = addType s.mask x.block.typeCode ∧
      (verifyOnly = true → s'.view = s.view) ∧
      (verifyOnly = false → i ≠ self ∧ ∃ body, s'.view.primaryRaw = s.view.primaryRaw ∧
        s'.view.blocks = s.view.blocks.set i (openB C o.key o.iv x body)) := by
  unfold openTarget at h
  split at h
  · simp only [Loop.error, Out.ok.injEq] at h
    rw [← h] at he
    simp at he
  rename_i i hi
  split at h
  · simp at h
  rename_i x hx
  split at h
  · simp only [Loop.error, Out.ok.injEq] at h
    rw [← h] at he
    simp at he
  rename_i s1 hs1
  obtain ⟨rfl, hadm⟩ := admit_some hs1
  cases hp : part o.scope 1 (headerOf x) with
  | fail => rw [hp] at h; simp [Out.bind] at h
  | fault => rw [hp] at h; simp [Out.bind] at h
  | ok hd =>
  rw [hp] at h
  simp only [Out.bind] at h
  unfold gcmDecrypt at h
  by_cases hk : isAesKey o.key = true ∧ o.iv ≠ []
  swap
  · rw [if_neg hk] at h
    simp only [Bool.false_eq_true, if_false, Bool.not_false, if_true, Loop.error] at h
    split_ifs at h <;> (simp only [Out.ok.injEq] at h; rw [← h] at he; simp at he)
  rw [if_pos hk] at h
  by_cases hl : tag.length < 16
  · rw [if_pos hl] at h; simp at h
  rw [if_neg hl] at h
  simp only at h
  by_cases hc : tag.take 16 = C.tag o.key o.iv (aadOf o.scope s.view.primaryRaw hd o.header) x.block.data
  swap
  · simp only [hc, decide_false, Bool.false_eq_true, if_false, Bool.not_false, if_true, Loop.error] at h
    split_ifs at h <;> (simp only [Out.ok.injEq] at h; rw [← h] at he; simp at he)
  have hck : Checked C expected o s.view.primaryRaw x tag := ⟨hadm, hk.1, hk.2, by omega, hd, hp, hc⟩
  simp only [hc, decide_true, if_true, Bool.not_true, Bool.false_eq_true, if_false] at h
  cases verifyOnly with
  | true =>
    simp only [if_true, Out.ok.injEq] at h
    subst h
    exact ⟨he, i, x, hi, hx, hck, rfl, fun _ => rfl, fun h => by simp at h⟩
  | false =>
    simp only [Bool.false_eq_true, if_false] at h
    by_cases hself : i = self
    · rw [if_pos hself] at h; simp at h
    rw [if_neg hself] at h
    split at h
    · simp at h
    · simp only [Loop.error, Out.ok.injEq] at h
      rw [← h] at he
      simp at he
    · rename_i body hbody
      simp only [Out.ok.injEq] at h
      subst h
      refine ⟨he, i, x, hi, hx, hck, rfl, fun h => by simp at h, fun _ => ⟨hself, body, rfl, ?_⟩⟩
      simp [View.store, openB]

theorem indexOf_congr {v w : View} (h : v.blocks.map (·.block.number) = w.blocks.map (·.block.number)) (t : Nat) :
    View.indexOf v t = View.indexOf w t := by
  have : ∀ l : List BlockView, l.findIdx? (fun b => decide (b.block.number = t)) = (l.map (·.block.number)).findIdx? fun n => decide (n = t) := by
    intro l
    rw [List.findIdx?_map]
    rfl
  unfold View.indexOf
  rw [this, this, h]

theorem indexOf_get {v : View} {t i : Nat} (h : View.indexOf v t = some i) : ∃ x, v.blocks[i]? = some x ∧ x.block.number = t ∧ v.byNumber t = some x := by
  have h' : v.blocks.findIdx? (fun b => decide (b.block.number = t)) = some i := h
  obtain ⟨hi, h1, h2⟩ := List.findIdx?_eq_some_iff_getElem.1 h'
  refine ⟨v.blocks[i], List.getElem?_eq_getElem hi, by simpa using h1, ?_⟩
  unfold View.byNumber
  exact List.find?_eq_some_iff_getElem.2 ⟨h1, i, hi, rfl, fun j hj => by simpa using h2 j hj⟩

/-- The view `v` is the view `w` after some of its targets were decrypted. -/
structure After (C : Crypto) (o : Opening) (w v : View) (done : List Nat) : Prop where
  primary : v.primaryRaw = w.primaryRaw
  numbers : v.blocks.map (·.block.number) = w.blocks.map (·.block.number)
  other : ∀ (i : Nat) x, w.blocks[i]? = some x → ¬ (x.block.number ∈ done ∧ View.indexOf w x.block.number = some i) → v.blocks[i]? = some x
  target : ∀ (i : Nat) x, w.blocks[i]? = some x → x.block.number ∈ done → View.indexOf w x.block.number = some i →
    ∃ body, v.blocks[i]? = some (openB C o.key o.iv x body)

theorem set_numbers {bs : List BlockView} {i : Nat} {x y : BlockView} (h : bs[i]? = some x) (hn : y.block.number = x.block.number) :
    (bs.set i y).map (·.block.number) = bs.map (·.block.number) := by
  refine List.ext_getElem? fun j => ?_
  rw [List.getElem?_map, List.getElem?_map, List.getElem?_set]
  split_ifs with h1 h2
  · subst h1; rw [h]; simp [hn]
  · subst h1; rw [h]; rw [List.getElem?_eq_none (by omega)] at h; simp at h
  · rfl

theorem openLoop_errors {C : Crypto} {verifyOnly : Bool} {expected : Nat} {o : Opening} {pad : Bytes} {self : Nat} :
    ∀ (work : List (Nat × Bytes)) (st : Nat) (s s' : Loop),
      openLoop C verifyOnly expected o pad self st work s = .ok s' → s'.errors = [] → s.errors = [] := by
  intro work
  induction work with
  | nil =>
    intro st s s' h he
    simp only [openLoop, Out.ok.injEq] at h
    rw [h]
    exact he
  | cons p work ih =>
    obtain ⟨t, tag⟩ := p
    intro st s s' h he
    simp only [openLoop] at h
    cases ho : openTarget C verifyOnly expected o pad self st t tag s with
    | fail => rw [ho] at h; simp [Out.bind] at h
    | fault => rw [ho] at h; simp [Out.bind] at h
    | ok s1 =>
      rw [ho] at h
      simp only [Out.bind] at h
      exact (openTarget_clean ho (ih _ _ _ h he)).1

theorem openLoop_clean {C : Crypto} {verifyOnly : Bool} {expected : Nat} {o : Opening} {pad : Bytes} {self : Nat} {w : View} :
    ∀ (work : List (Nat × Bytes)) (st : Nat) (s s' : Loop) (done : List Nat),
      (if verifyOnly then s.view = w else After C o w s.view done) →
      ((done ++ work.map (·.1)).Nodup) →
      openLoop C verifyOnly expected o pad self st work s = .ok s' → s'.errors = [] →
      s.errors = [] ∧
      (if verifyOnly then s'.view = w else After C o w s'.view (done ++ work.map (·.1)) ∧
        ∀ p ∈ work, View.indexOf w p.1 ≠ some self) ∧
      ∃ xs : List BlockView, List.Forall₂ (fun p x => w.byNumber p.1 = some x ∧ Checked C expected o w.primaryRaw x p.2) work xs ∧
        s'.mask = (xs.map (·.block.typeCode)).foldl addType s.mask := by
  intro work
  induction work with
  | nil =>
    intro st s s' done hs hn h he
    simp only [openLoop, Out.ok.injEq] at h
    subst h
    refine ⟨he, ?_, [], .nil, rfl⟩
    cases verifyOnly with
    | true => simpa using hs
    | false => simpa using hs
  | cons p work ih =>
    obtain ⟨t, tag⟩ := p
    intro st s s' done hs hn h he
    simp only [openLoop] at h
    cases ho : openTarget C verifyOnly expected o pad self st t tag s with
    | fail => rw [ho] at h; simp [Out.bind] at h
    | fault => rw [ho] at h; simp [Out.bind] at h
    | ok s1 =>
    rw [ho] at h
    simp only [Out.bind] at h
    have hn1 : ((done ++ [t]) ++ work.map (·.1)).Nodup := by simpa using hn
    have htd : t ∉ done := by
      intro hd
      have := List.nodup_append.1 hn
      exact this.2.2 t hd t (by simp) rfl
    obtain ⟨he0, i, x, hi, hx, hck, hm, hv1, hv2⟩ := openTarget_clean ho (openLoop_errors _ _ _ _ h he)
    cases verifyOnly with
    | true =>
      simp only [if_true] at hs ih ⊢
      have hw1 : s1.view = w := (hv1 rfl).trans hs
      obtain ⟨_, g2, xs, g3, g4⟩ := ih _ _ _ (done ++ [t]) hw1 hn1 h he
      rw [hs] at hi hx hck
      obtain ⟨x', q1, q2, q3⟩ := indexOf_get hi
      rw [hx] at q1
      simp only [Option.some.injEq] at q1
      subst q1
      exact ⟨he0, g2, x :: xs, .cons ⟨q3, hck⟩ g3, by rw [g4, hm]; rfl⟩
    | false =>
      simp only [Bool.false_eq_true, if_false] at hs ih ⊢
      obtain ⟨hself, body, hpr, hbl⟩ := hv2 rfl
      rw [indexOf_congr hs.numbers] at hi
      obtain ⟨x', q1, q2, q3⟩ := indexOf_get hi
      have hxx := hs.other i x' q1 (fun hh => htd (q2 ▸ hh.1))
      rw [hx] at hxx
      simp only [Option.some.injEq] at hxx
      subst hxx
      rw [hs.primary] at hck
      have hnum : (openB C o.key o.iv x body).block.number = x.block.number := withDataCrc_number _ _
      have hA : After C o w s1.view (done ++ [t]) := by
        refine ⟨hpr.trans hs.primary, ?_, ?_, ?_⟩
        · rw [hbl, set_numbers hx hnum]
          exact hs.numbers
        · intro j y hy hnot
          have hji : i ≠ j := by
            rintro rfl
            rw [hy] at q1
            simp only [Option.some.injEq] at q1
            subst q1
            exact hnot ⟨by simp [q2], q2 ▸ hi⟩
          rw [hbl, List.getElem?_set_ne hji]
          exact hs.other j y hy (fun hh => hnot ⟨by simp [hh.1], hh.2⟩)
        · intro j y hy hin hix
          by_cases hji : i = j
          · subst hji
            rw [hy] at q1
            simp only [Option.some.injEq] at q1
            subst q1
            refine ⟨body, ?_⟩
            rw [hbl, List.getElem?_set_self (List.getElem?_eq_some_iff.1 hx).1]
          · rw [hbl, List.getElem?_set_ne hji]
            refine hs.target j y hy ?_ hix
            rcases List.mem_append.1 hin with h1 | h1
            · exact h1
            · simp only [List.mem_singleton] at h1
              rw [h1, hi] at hix
              exact absurd (Option.some.inj hix) hji
      obtain ⟨_, g2, xs, g3, g4⟩ := ih _ _ _ (done ++ [t]) hA hn1 h he
      refine ⟨he0, ⟨by simpa using g2.1, ?_⟩, x :: xs, .cons ⟨q3, hck⟩ g3, by rw [g4, hm]; rfl⟩
      intro p hp
      rcases List.mem_cons.1 hp with rfl | hp
      · show View.indexOf w t ≠ some self
        rw [hi]
        simpa using hself
      · exact g2.2 p hp

/-- The key is the unwrapped one, or if there is none the given one. -/
def KeyFrom (C : Crypto) (wrapped kek key : Option Bytes) (k : Bytes) : Prop :=
  (∃ w x, wrapped = some w ∧ kek = some x ∧ C.unwrap x w = some k) ∨ (wrapped = none ∧ key = some k)

theorem chooseKey_good {C : Crypto} {wrapped kek key : Option Bytes} {k : Bytes} (hk : chooseKey C wrapped kek key = .ok (.good k)) :
    KeyFrom C wrapped kek key k := by
  unfold chooseKey at hk
  cases wrapped with
  | some w =>
    cases kek with
    | none => simp at hk
    | some kek =>
      simp only at hk
      refine Or.inl ⟨w, kek, rfl, rfl, ?_⟩
      unfold unwrapKey at hk
      split at hk
      · simp at hk
      · simp at hk
      · rename_i k' hu
        simp only [Out.ok.injEq, Check.good.injEq] at hk
        subst hk
        split_ifs at hu
        split at hu
        · simp at hu
        · rename_i k2 hk2
          split_ifs at hu
          simp only [Out.ok.injEq] at hu
          rw [hk2, hu]
  | none =>
    cases key with
    | none => simp at hk
    | some x =>
      simp only [Out.ok.injEq, Check.good.injEq] at hk
      exact Or.inr ⟨rfl, by rw [hk]⟩

/-- The checks before the loop. -/
theorem openingOf_good {C : Crypto} {P : OpenParams} {b : BlockView} {o : Opening} (h : openingOf C P b = .ok (.good o)) :
    ∃ a tags, b.body = .sec a ∧ a.targets ≠ [] ∧ tags = allResults a.results 1 ∧ tags.length = a.targets.length ∧
      o.work = a.targets.zip tags ∧ getBytes a.params 1 = some o.iv ∧ o.iv.length = P.ivLength ∧ o.scope = P.scope ∧
      part o.scope 2 (headerOf b) = .ok o.header ∧
      KeyFrom C (getBytes a.params 3) P.kek P.key o.key := by
  unfold openingOf at h
  split at h
  swap
  · simp at h
  rename_i a ha
  simp only at h
  split at h
  · simp at h
  rename_i h1
  split at h
  · simp at h
  rename_i h2
  split at h
  · simp at h
  rename_i iv hiv
  split at h
  · simp at h
  rename_i h3
  split at h
  · simp at h
  rename_i h4
  cases hp : part (getScope a.params 4) 2 (headerOf b) with
  | fail => rw [hp] at h; simp [Out.bind] at h
  | fault => rw [hp] at h; simp [Out.bind] at h
  | ok hd =>
  rw [hp] at h
  simp only [Out.bind] at h
  cases hk : chooseKey C (getBytes a.params 3) P.kek P.key with
  | fail => rw [hk] at h; simp at h
  | fault => rw [hk] at h; simp at h
  | ok k =>
  rw [hk] at h
  simp only at h
  cases k with
  | bad c => simp at h
  | good key =>
  simp only at h
  split at h
  · simp at h
  rename_i h5
  split at h
  · simp at h
  rename_i h6
  simp only [Out.ok.injEq, Check.good.injEq] at h
  subst h
  push Not at h3 h4 h5
  exact ⟨a, _, ha, h6, rfl, h5, rfl, hiv, h3, h4, hp, chooseKey_good hk⟩

end Hdtn.BpSecBundle
