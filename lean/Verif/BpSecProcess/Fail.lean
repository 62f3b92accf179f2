import Verif.BpSecProcess.Near

/-! The failure events. -/

namespace Hdtn.BpSecProcess

open Hdtn.HashMap16 Hdtn.Bpv7Canonical Hdtn.BpSec7 Hdtn.BundleView7 Hdtn.BundleView7.Spec Hdtn.BpSecBundle Spec

/-! ### Lists without some positions -/

theorem erase_without_aux {α : Type} (ks : List Nat) : ∀ (l : List α) (n k : Nat), (∀ x ∈ ks, n + k < x) →
    (((l.zipIdx n).filter fun p => decide (p.2 ∉ ks)).map (·.1)).eraseIdx k =
      (((l.zipIdx n).filter fun p => decide (p.2 ∉ (n + k) :: ks)).map (·.1)) ∧
    (((l.zipIdx n).filter fun p => decide (p.2 ∉ ks)).map (·.1))[k]? = l[k]? := by
  intro l
  induction l with
  | nil => intro n k _; simp
  | cons x l ih =>
    intro n k hk
    have hn : n ∉ ks := fun h => by have := hk n h; omega
    rw [List.zipIdx_cons]
    cases k with
    | zero =>
      have h2 : (l.zipIdx (n + 1)).filter (fun p => decide (p.2 ∉ (n + 0) :: ks)) =
          (l.zipIdx (n + 1)).filter (fun p => decide (p.2 ∉ ks)) := by
        refine List.filter_congr fun p hp => ?_
        have := List.le_snd_of_mem_zipIdx hp
        have : p.2 ≠ n := by omega
        simp [this]
      rw [List.filter_cons_of_pos (by simpa using hn), List.filter_cons_of_neg (by simp), h2]
      exact ⟨by simp, by simp⟩
    | succ k =>
      have := ih (n + 1) k (fun y hy => by have := hk y hy; omega)
      rw [List.filter_cons_of_pos (by simpa using hn), List.filter_cons_of_pos (by simp [hn])]
      simp only [List.map_cons, List.eraseIdx_cons_succ, List.getElem?_cons_succ]
      rw [this.1, this.2, show n + 1 + k = n + (k + 1) by omega]
      exact ⟨rfl, rfl⟩

theorem erase_without {α : Type} {ks : List Nat} {k : Nat} (l : List α) (hk : ∀ x ∈ ks, k < x) :
    (without ks l).eraseIdx k = without (k :: ks) l := by
  have := (erase_without_aux ks l 0 k (by simpa using hk)).1
  simpa [without] using this

theorem get_without {α : Type} {ks : List Nat} {k : Nat} (l : List α) (hk : ∀ x ∈ ks, k < x) : (without ks l)[k]? = l[k]? := by
  have := (erase_without_aux ks l 0 k (by simpa using hk)).2
  simpa [without] using this

theorem without_nil {α : Type} (l : List α) : without [] l = l := by
  unfold without
  simp

theorem without_length {α β : Type} (ks : List Nat) : ∀ (l : List α) (m : List β) (n : Nat), l.length = m.length →
    ((l.zipIdx n).filter fun p => decide (p.2 ∉ ks)).length = ((m.zipIdx n).filter fun p => decide (p.2 ∉ ks)).length := by
  intro l
  induction l with
  | nil =>
    intro m n h
    rw [List.length_eq_zero_iff.1 (by simpa using h.symm : m.length = 0)]
    rfl
  | cons x l ih =>
    intro m n h
    cases m with
    | nil => simp at h
    | cons y m =>
      have := ih m (n + 1) (by simpa using h)
      rw [List.zipIdx_cons, List.zipIdx_cons, List.filter_cons, List.filter_cons]
      simp only
      split_ifs
      · simpa using this
      · exact this

theorem without_lengths {a : Asb} (ks : List Nat) (h : a.targets.length = a.results.length) :
    (withoutOps ks a).targets.length = (withoutOps ks a).results.length := by
  simp only [withoutOps, without, List.length_map]
  exact without_length ks _ _ 0 h

/-! ### The state between two errors -/

theorem isFirst_congr {bs cs : List BlockView} (h : cs.map (·.block.number) = bs.map (·.block.number)) (ns : List Nat) (i : Nat) :
    IsFirst cs ns i → IsFirst bs ns i := by
  rintro ⟨b, hb, hm, hj⟩
  have get : ∀ j : Nat, (cs[j]?).map (fun b : BlockView => b.block.number) = (bs[j]?).map (fun b : BlockView => b.block.number) := by
    intro j
    have := congrArg (fun l : List Nat => l[j]?) h
    simpa using this
  have hi := get i
  rw [hb] at hi
  cases hb' : bs[i]? with
  | none => rw [hb'] at hi; simp at hi
  | some b' =>
    rw [hb'] at hi
    simp only [Option.map_some, Option.some.injEq] at hi
    refine ⟨b', hb', hi ▸ hm, fun j hji c hc => ?_⟩
    have hj' := get j
    rw [hc] at hj'
    cases hc' : cs[j]? with
    | none => rw [hc'] at hj'; simp at hj'
    | some c' =>
      rw [hc'] at hj'
      simp only [Option.map_some, Option.some.injEq] at hj'
      rw [← hj', ← hi]
      exact hj j hji c' hc'

theorem isFirst_indexOf {v : View} {n i : Nat} : View.indexOf v n = some i ↔ IsFirst v.blocks [n] i := by
  constructor
  · intro h
    have h' : v.blocks.findIdx? (fun b => decide (b.block.number = n)) = some i := h
    obtain ⟨hi, h1, h2⟩ := List.findIdx?_eq_some_iff_getElem.1 h'
    refine ⟨v.blocks[i], List.getElem?_eq_getElem hi, by simpa using h1, fun j hj c hc => ?_⟩
    obtain ⟨_, hc⟩ := List.getElem?_eq_some_iff.1 hc
    subst hc
    have := h2 j hj
    simp only [decide_eq_true_eq] at h1 this
    rw [h1]
    exact this
  · rintro ⟨b, hb, hm, hj⟩
    obtain ⟨hi, rfl⟩ := List.getElem?_eq_some_iff.1 hb
    simp only [List.mem_singleton] at hm
    refine List.findIdx?_eq_some_iff_getElem.2 ⟨hi, by simpa using hm, fun j hji => ?_⟩
    have := hj j hji _ (List.getElem?_eq_getElem (by omega))
    rw [hm] at this
    simpa using this

/-- The view `v` is `w` without the operations `ks` of the security block at `self` and with the blocks of the numbers
`ns` marked. -/
structure Handled (pos : Nat) (a : Asb) (ks ns : List Nat) (w v : View) : Prop where
  same : v = { w with blocks := v.blocks }
  length : v.blocks.length = w.blocks.length
  other : ∀ (i : Nat) x, i ≠ pos → w.blocks[i]? = some x → ∃ y, v.blocks[i]? = some y ∧ y = { x with deleted := y.deleted } ∧
    (y.deleted = true ↔ x.deleted = true ∨ IsFirst w.blocks ns i)
  here : ∀ x, w.blocks[pos]? = some x → ∃ y, v.blocks[pos]? = some y ∧
    y = { x with body := .sec (withoutOps ks a), dirty := y.dirty, deleted := y.deleted } ∧
    (y.dirty = true ↔ x.dirty = true ∨ ks ≠ []) ∧
    (y.deleted = true ↔ x.deleted = true ∨ IsFirst w.blocks ns pos ∨ (ks ≠ [] ∧ (withoutOps ks a).targets = []))

theorem Handled.numbers {self : Nat} {a : Asb} {ks ns : List Nat} {w v : View} (h : Handled self a ks ns w v) :
    v.blocks.map (·.block.number) = w.blocks.map (·.block.number) := by
  refine List.ext_getElem? fun i => ?_
  rw [List.getElem?_map, List.getElem?_map]
  cases hx : w.blocks[i]? with
  | none =>
    have : v.blocks[i]? = none := by
      rw [List.getElem?_eq_none_iff] at hx ⊢
      rw [h.length]; exact hx
    rw [this]
  | some x =>
    by_cases hi : i = self
    · subst hi
      obtain ⟨y, y1, y2, _⟩ := h.here x hx
      rw [y1, y2]
      rfl
    · obtain ⟨y, y1, y2, _⟩ := h.other i x hi hx
      rw [y1, y2]
      rfl

theorem handled_nil {self : Nat} {a : Asb} {w : View} (hb : ∀ x, w.blocks[self]? = some x → x.body = .sec a) : Handled self a [] [] w w := by
  have hno : ∀ i, ¬ IsFirst w.blocks [] i := by rintro i ⟨b, _, h, _⟩; simp at h
  refine ⟨rfl, rfl, fun i x _ hx => ⟨x, hx, rfl, by simp [hno]⟩, fun x hx => ⟨x, hx, ?_, by simp, by simp [hno]⟩⟩
  have : withoutOps [] a = a := by simp [withoutOps, without_nil]
  rw [this, ← hb x hx]

/-- Marking one more block. -/
theorem handled_mark {self : Nat} {a : Asb} {ks ns : List Nat} {w v : View} (h : Handled self a ks ns w v) (n : Nat) :
    Handled self a ks (n :: ns) w (removeTarget v n) := by
  have hix : ∀ i, View.indexOf v n = some i ↔ IsFirst w.blocks [n] i := fun i => by
    rw [indexOf_congr h.numbers n]
    exact isFirst_indexOf
  have hcons : ∀ i, IsFirst w.blocks (n :: ns) i ↔ IsFirst w.blocks [n] i ∨ IsFirst w.blocks ns i := by
    intro i
    constructor
    · rintro ⟨b, hb, hm, hj⟩
      rcases List.mem_cons.1 hm with hm | hm
      · exact Or.inl ⟨b, hb, by simp [hm], hj⟩
      · exact Or.inr ⟨b, hb, hm, hj⟩
    · rintro (⟨b, hb, hm, hj⟩ | ⟨b, hb, hm, hj⟩)
      · exact ⟨b, hb, by simp at hm; simp [hm], hj⟩
      · exact ⟨b, hb, List.mem_cons_of_mem _ hm, hj⟩
  have hget : ∀ (i : Nat) y, v.blocks[i]? = some y → ∃ z, (removeTarget v n).blocks[i]? = some z ∧ z = { y with deleted := z.deleted } ∧
      (z.deleted = true ↔ y.deleted = true ∨ IsFirst w.blocks [n] i) := by
    intro i y hy
    unfold removeTarget
    cases hi : View.indexOf v n with
    | none => exact ⟨y, hy, rfl, by rw [← hix, hi]; simp⟩
    | some j =>
      by_cases hji : j = i
      · subst hji
        refine ⟨{ y with deleted := true }, ?_, rfl, ?_⟩
        · simp [View.setDeleted, List.getElem?_modify, hy]
        · simp [(hix j).1 hi]
      · refine ⟨y, ?_, rfl, ?_⟩
        · simp [View.setDeleted, List.getElem?_modify, hy, hji]
        · rw [← hix, hi]
          simp [hji]
  refine ⟨?_, ?_, fun i x hi hx => ?_, fun x hx => ?_⟩
  · have : removeTarget v n = { v with blocks := (removeTarget v n).blocks } := by
      unfold removeTarget
      split <;> rfl
    rw [this, h.same]
  · rw [← h.length]
    unfold removeTarget
    split
    · rfl
    · simp [View.setDeleted]
  · obtain ⟨y, y1, y2, y3⟩ := h.other i x hi hx
    obtain ⟨z, z1, z2, z3⟩ := hget i y y1
    refine ⟨z, z1, by rw [z2, y2], ?_⟩
    rw [z3, y3, hcons, or_assoc, or_comm (a := IsFirst w.blocks ns i)]
  · obtain ⟨y, y1, y2, y3, y4⟩ := h.here x hx
    obtain ⟨z, z1, z2, z3⟩ := hget self y y1
    refine ⟨z, z1, by rw [z2, y2], by rw [z2]; exact y3, ?_⟩
    rw [z3, y4, hcons]
    constructor
    · rintro ((h | h | h) | h)
      · exact Or.inl h
      · exact Or.inr (Or.inl (Or.inr h))
      · exact Or.inr (Or.inr h)
      · exact Or.inr (Or.inl (Or.inl h))
    · rintro (h | (h | h) | h)
      · exact Or.inl (Or.inl h)
      · exact Or.inr h
      · exact Or.inl (Or.inr (Or.inl h))
      · exact Or.inl (Or.inr (Or.inr h))

/-- Taking out one more operation, in front of the others. -/
theorem handled_erase {self : Nat} {a : Asb} {ks ns : List Nat} {w v : View} (h : Handled self a ks ns w v) {k : Nat} {x : BlockView}
    (hx : w.blocks[self]? = some x) (hk : ∀ m ∈ ks, k < m) (hl : a.targets.length = a.results.length) (hlt : k < a.targets.length) :
    ∃ v', removeSop v self (some k) = some v' ∧ Handled self a (k :: ks) ns w v' := by
  obtain ⟨y, y1, y2, y3, y4⟩ := h.here x hx
  have hyb : y.body = .sec (withoutOps ks a) := by rw [y2]
  have hlt' : ¬ (withoutOps ks a).targets.length ≤ k := by
    intro hle
    have := get_without (k := k) a.targets hk
    rw [List.getElem?_eq_none (by exact hle), List.getElem?_eq_getElem hlt] at this
    simp at this
  have hself : self < v.blocks.length := (List.getElem?_eq_some_iff.1 y1).1
  have hw : withoutOps (k :: ks) a =
      { withoutOps ks a with targets := (withoutOps ks a).targets.eraseIdx k, results := (withoutOps ks a).results.eraseIdx k } := by
    simp only [withoutOps]
    rw [erase_without a.targets hk, erase_without a.results hk]
  have hr : removeSop v self (some k) = some { v with
      blocks := v.blocks.set self (
        { y with body := .sec (withoutOps (k :: ks) a), dirty := true,
                 deleted := y.deleted || (withoutOps (k :: ks) a).targets.isEmpty } : BlockView) } := by
    unfold removeSop
    rw [y1]
    simp only [hyb]
    rw [if_neg (by rw [without_lengths ks hl]; simp), if_neg hlt', hw]
  refine ⟨_, hr, ?_, by simpa using h.length, fun i z hi hz => ?_, fun z hz => ?_⟩
  · rw [h.same]
  · obtain ⟨u, u1, u2⟩ := h.other i z hi hz
    exact ⟨u, by rw [List.getElem?_set_ne (Ne.symm hi)]; exact u1, u2⟩
  · rw [hx] at hz
    simp only [Option.some.injEq] at hz
    subst hz
    refine ⟨_, List.getElem?_set_self hself, by rw [y2], by simp, ?_⟩
    simp only [Bool.or_eq_true, List.isEmpty_iff, y4, ne_eq, reduceCtorEq, not_false_eq_true, true_and]
    constructor
    · rintro ((h | h | h) | h)
      · exact Or.inl h
      · exact Or.inr (Or.inl h)
      · refine Or.inr (Or.inr ?_)
        rw [hw]
        simp only
        rw [h.2]
        rfl
      · exact Or.inr (Or.inr h)
    · rintro (h | h | h)
      · exact Or.inl (Or.inl h)
      · exact Or.inl (Or.inr (Or.inl h))
      · exact Or.inr h

/-! ### The table -/

theorem testBit_sop (m : Nat) : m.testBit bitRemoveSop = true ↔ RemovesOperation m := by
  simp [bitRemoveSop, RemovesOperation, Nat.testBit_zero]

theorem testBit_target (m : Nat) : m.testBit bitRemoveTarget = true ↔ RemovesBlock m := by
  simp [bitRemoveTarget, RemovesBlock, Nat.testBit_eq_decide_div_mod_eq]

theorem testBit_fail (m : Nat) : m.testBit bitFail = true ↔ StopsBundle m := by
  simp [bitFail, StopsBundle, Nat.testBit_eq_decide_div_mod_eq]

theorem meansPayload_iff (n : Nat) : meansPayload n = true ↔ n = 1 ∨ n = 2 ^ 64 - 1 := by
  unfold meansPayload allOfThem
  exact decide_eq_true_iff

theorem actions_eq (s : EventSet) (acceptor : Bool) (c : Code) : s.actions acceptor c = actionsFor s acceptor c := by
  cases c <;> rfl

theorem numberOf_eq {self : Nat} {a : Asb} {ks ns : List Nat} {w v : View} (h : Handled self a ks ns w v) {k t : Nat} {x : BlockView}
    (hx : w.blocks[self]? = some x) (hk : ∀ m ∈ ks, k < m) (ht : a.targets[k]? = some t) : numberOf v self (some k) = .ok t := by
  obtain ⟨y, y1, y2, _⟩ := h.here x hx
  unfold numberOf
  rw [y1]
  have hyb : y.body = .sec (withoutOps ks a) := by rw [y2]
  simp only [hyb]
  have := get_without (k := k) a.targets hk
  rw [ht] at this
  simp only [withoutOps]
  rw [this]

/-- One error. -/
theorem fail_one {acceptor integrity : Bool} {s : EventSet} {self : Nat} {a : Asb} {ks ns : List Nat} {w v : View}
    (h : Handled self a ks ns w v) {k t : Nat} {c : Code} {x : BlockView}
    (hx : w.blocks[self]? = some x) (hk : ∀ m ∈ ks, k < m) (ht : a.targets[k]? = some t)
    (hl : TakenOut s acceptor c → a.targets.length = a.results.length) :
    (Dropped s acceptor integrity t c →
      (if acceptor then failAcceptor integrity s self ⟨c, some k⟩ v else failVerifier s self ⟨c, some k⟩ v) = .ok .drop) ∧
    (¬ Dropped s acceptor integrity t c → ∃ ks' ns' v',
      (if acceptor then failAcceptor integrity s self ⟨c, some k⟩ v else failVerifier s self ⟨c, some k⟩ v) = .ok (.keep v') ∧
      Handled self a ks' ns' w v' ∧
      (∀ m, m ∈ ks' ↔ m ∈ ks ∨ (m = k ∧ TakenOut s acceptor c)) ∧
      (∀ n, n ∈ ns' ↔ n ∈ ns ∨ (n = t ∧ TargetRemoved s acceptor integrity c))) := by
  have hlt : k < a.targets.length := (List.getElem?_eq_some_iff.1 ht).1
  have hnum := numberOf_eq h hx hk ht
  cases acceptor with
  | true =>
    have htk : TakenOut s true c := Or.inl rfl
    obtain ⟨v1, hr1, hh1⟩ := handled_erase h hx hk (hl htk) hlt
    have hm1 := handled_mark hh1 t
    simp only [if_true]
    unfold failAcceptor
    simp only [hnum, Out.bind, hr1, Option.map_some, actions_eq]
    cases integrity with
    | true =>
      simp only [Bool.not_true, Bool.false_and, Bool.false_eq_true, if_false, if_true]
      cases ha : actionsFor s true c with
      | none => exact ⟨fun _ => rfl, fun hn => absurd (Or.inr (Or.inl ha)) hn⟩
      | some mask =>
        simp only [hr1]
        by_cases hf : StopsBundle mask
        · rw [if_pos ((testBit_fail mask).2 hf)]
          exact ⟨fun _ => rfl, fun hn => absurd (Or.inr (Or.inr ⟨mask, ha, Or.inl hf⟩)) hn⟩
        rw [if_neg (fun hb => hf ((testBit_fail mask).1 hb))]
        by_cases hb : RemovesBlock mask
        · rw [if_pos ((testBit_target mask).2 hb)]
          by_cases hp : t = 1 ∨ t = 2 ^ 64 - 1
          · rw [if_pos ((meansPayload_iff t).2 hp)]
            exact ⟨fun _ => rfl, fun hn => absurd (Or.inr (Or.inr ⟨mask, ha, Or.inr ⟨hb, hp⟩⟩)) hn⟩
          · rw [if_neg (fun h => hp ((meansPayload_iff t).1 h))]
            refine ⟨fun hd => ?_, fun _ => ⟨k :: ks, t :: ns, _, rfl, hm1, fun m => ?_, fun n => ?_⟩⟩
            · rcases hd with ⟨_, h, _⟩ | h | ⟨m, h, h'⟩
              · simp at h
              · rw [ha] at h; simp at h
              · rw [ha] at h
                simp only [Option.some.injEq] at h
                subst h
                rcases h' with h' | h'
                · exact absurd h' hf
                · exact absurd h'.2 hp
            · simp [htk, or_comm]
            · have : TargetRemoved s true true c := Or.inr ⟨mask, ha, hb⟩
              simp [this, or_comm]
        · rw [if_neg (fun h => hb ((testBit_target mask).1 h))]
          refine ⟨fun hd => ?_, fun _ => ⟨k :: ks, ns, _, rfl, hh1, fun m => ?_, fun n => ?_⟩⟩
          · rcases hd with ⟨_, h, _⟩ | h | ⟨m, h, h'⟩
            · simp at h
            · rw [ha] at h; simp at h
            · rw [ha] at h
              simp only [Option.some.injEq] at h
              subst h
              rcases h' with h' | h'
              · exact absurd h' hf
              · exact absurd h'.1 hb
          · simp [htk, or_comm]
          · have : ¬ TargetRemoved s true true c := by
              rintro (⟨_, h⟩ | ⟨m, h, h'⟩)
              · simp at h
              · rw [ha] at h
                simp only [Option.some.injEq] at h
                subst h
                exact hb h'
            simp [this]
    | false =>
      have htr : TargetRemoved s true false c := Or.inl ⟨rfl, rfl⟩
      simp only [Bool.not_false, Bool.true_and, Bool.false_eq_true, if_false]
      by_cases hp : t = 1 ∨ t = 2 ^ 64 - 1
      · rw [if_pos ((meansPayload_iff t).2 hp)]
        exact ⟨fun _ => rfl, fun hn => absurd (Or.inl ⟨rfl, rfl, hp⟩) hn⟩
      rw [if_neg (fun h => hp ((meansPayload_iff t).1 h))]
      cases ha : actionsFor s true c with
      | none => exact ⟨fun _ => rfl, fun hn => absurd (Or.inr (Or.inl ha)) hn⟩
      | some mask =>
        simp only [hr1]
        by_cases hf : StopsBundle mask
        · rw [if_pos ((testBit_fail mask).2 hf)]
          exact ⟨fun _ => rfl, fun hn => absurd (Or.inr (Or.inr ⟨mask, ha, Or.inl hf⟩)) hn⟩
        rw [if_neg (fun hb => hf ((testBit_fail mask).1 hb))]
        have hdn : ¬ Dropped s true false t c := by
          rintro (⟨_, _, h⟩ | h | ⟨m, h, h'⟩)
          · exact hp h
          · rw [ha] at h; simp at h
          · rw [ha] at h
            simp only [Option.some.injEq] at h
            subst h
            rcases h' with h' | h'
            · exact hf h'
            · exact hp h'.2
        refine ⟨fun hd => absurd hd hdn, fun _ => ⟨k :: ks, t :: ns, _, ?_, hm1, fun m => by simp [htk, or_comm], fun n => by simp [htr, or_comm]⟩⟩
        rw [if_neg (fun h => hp ((meansPayload_iff t).1 h))]
        split_ifs <;> rfl
  | false =>
    simp only [Bool.false_eq_true, if_false]
    unfold failVerifier
    simp only [hnum, Out.bind, actions_eq]
    cases ha : actionsFor s false c with
    | none => exact ⟨fun _ => rfl, fun hn => absurd (Or.inr (Or.inl ha)) hn⟩
    | some mask =>
      simp only
      have htk : TakenOut s false c ↔ RemovesOperation mask := by
        constructor
        · rintro (h | ⟨m, h, h'⟩)
          · simp at h
          · rw [ha] at h
            simp only [Option.some.injEq] at h
            rw [h]; exact h'
        · intro h
          exact Or.inr ⟨mask, ha, h⟩
      have htr : TargetRemoved s false integrity c ↔ RemovesBlock mask := by
        constructor
        · rintro (⟨h, _⟩ | ⟨m, h, h'⟩)
          · simp at h
          · rw [ha] at h
            simp only [Option.some.injEq] at h
            rw [h]; exact h'
        · intro h
          exact Or.inr ⟨mask, ha, h⟩
      have hdr : Dropped s false integrity t c ↔ StopsBundle mask ∨ (RemovesBlock mask ∧ (t = 1 ∨ t = 2 ^ 64 - 1)) := by
        constructor
        · rintro (⟨h, _⟩ | h | ⟨m, h, h'⟩)
          · simp at h
          · rw [ha] at h; simp at h
          · rw [ha] at h
            simp only [Option.some.injEq] at h
            rw [h]; exact h'
        · intro h
          exact Or.inr (Or.inr ⟨mask, ha, h⟩)
      have hstep : ∃ ks' v2, (if mask.testBit bitRemoveSop then removeSop v self (some k) else some v) = some v2 ∧
          Handled self a ks' ns w v2 ∧ (∀ m, m ∈ ks' ↔ m ∈ ks ∨ (m = k ∧ RemovesOperation mask)) := by
        by_cases ho : RemovesOperation mask
        · obtain ⟨v1, hr1, hh1⟩ := handled_erase h hx hk (hl (htk.2 ho)) hlt
          rw [if_pos ((testBit_sop mask).2 ho)]
          exact ⟨k :: ks, v1, hr1, hh1, fun m => by simp [ho, or_comm]⟩
        · rw [if_neg (fun h => ho ((testBit_sop mask).1 h))]
          exact ⟨ks, v, rfl, h, fun m => by simp [ho]⟩
      obtain ⟨ks', v2, e2, h2, m2⟩ := hstep
      rw [e2]
      simp only
      rw [hdr]
      by_cases hf : StopsBundle mask
      · rw [if_pos ((testBit_fail mask).2 hf)]
        exact ⟨fun _ => rfl, fun hn => absurd (Or.inl hf) hn⟩
      rw [if_neg (fun hb => hf ((testBit_fail mask).1 hb))]
      by_cases hb : RemovesBlock mask
      · rw [if_pos ((testBit_target mask).2 hb)]
        by_cases hp : t = 1 ∨ t = 2 ^ 64 - 1
        · rw [if_pos ((meansPayload_iff t).2 hp)]
          exact ⟨fun _ => rfl, fun hn => absurd (Or.inr ⟨hb, hp⟩) hn⟩
        · rw [if_neg (fun h => hp ((meansPayload_iff t).1 h))]
          refine ⟨fun hd => ?_, fun _ => ⟨ks', t :: ns, _, rfl, handled_mark h2 t, fun m => by rw [m2, htk], fun n => by simp [htr, hb, or_comm]⟩⟩
          rcases hd with h' | h'
          · exact absurd h' hf
          · exact absurd h'.2 hp
      · rw [if_neg (fun h => hb ((testBit_target mask).1 h))]
        refine ⟨fun hd => ?_, fun _ => ⟨ks', ns, _, rfl, h2, fun m => by rw [m2, htk], fun n => by simp [htr, hb]⟩⟩
        rcases hd with h' | h'
        · exact absurd h' hf
        · exact absurd h'.1 hb

/-- Errors at single targets, the last target first. -/
def Descending : List Err → Prop
  | [] => True
  | e :: es => (∃ k, e.target = some k ∧ ∀ f ∈ es, ∃ m, f.target = some m ∧ m < k) ∧ Descending es

theorem fail_all_aux {acceptor integrity : Bool} {s : EventSet} {self : Nat} {a : Asb} {w : View} {x : BlockView}
    (hx : w.blocks[self]? = some x) :
    ∀ (es : List Err) (ks ns : List Nat) (v : View), Handled self a ks ns w v → Descending es →
      (∀ e ∈ es, ∀ k, e.target = some k → k < a.targets.length ∧ ∀ m ∈ ks, k < m) →
      (∀ e ∈ es, TakenOut s acceptor e.code → a.targets.length = a.results.length) →
      ((∃ e ∈ es, ∃ k t, e.target = some k ∧ a.targets[k]? = some t ∧ Dropped s acceptor integrity t e.code) ∧
        fail acceptor integrity s self es v = .ok .drop) ∨
      ((∀ e ∈ es, ∀ k t, e.target = some k → a.targets[k]? = some t → ¬ Dropped s acceptor integrity t e.code) ∧
        ∃ ks' ns' v', fail acceptor integrity s self es v = .ok (.keep v') ∧ Handled self a ks' ns' w v' ∧
          (∀ m, m ∈ ks' ↔ m ∈ ks ∨ ∃ e ∈ es, e.target = some m ∧ TakenOut s acceptor e.code) ∧
          (∀ n, n ∈ ns' ↔ n ∈ ns ∨ ∃ e ∈ es, ∃ k, e.target = some k ∧ a.targets[k]? = some n ∧ TargetRemoved s acceptor integrity e.code)) := by
  intro es
  induction es with
  | nil =>
    intro ks ns v h _ _ _
    exact Or.inr ⟨by simp, ks, ns, v, rfl, h, by simp, by simp⟩
  | cons e es ih =>
    intro ks ns v h hd hks hl
    obtain ⟨⟨k, hk, hlow⟩, hd'⟩ := hd
    obtain ⟨hlt, hgt⟩ := hks e (by simp) k hk
    have ht : a.targets[k]? = some a.targets[k] := List.getElem?_eq_getElem hlt
    generalize a.targets[k] = t at ht
    obtain ⟨c, tg⟩ := e
    simp only at hk
    subst hk
    obtain ⟨f1, f2⟩ := fail_one (acceptor := acceptor) (integrity := integrity) (s := s) (c := c) h hx hgt ht
      (hl ⟨c, some k⟩ List.mem_cons_self)
    by_cases hdr : Dropped s acceptor integrity t c
    · refine Or.inl ⟨⟨⟨c, some k⟩, List.mem_cons_self, k, t, rfl, ht, hdr⟩, ?_⟩
      unfold fail
      rw [f1 hdr]
      rfl
    · obtain ⟨ks1, ns1, v1, e1, h1, m1, n1⟩ := f2 hdr
      have hks1 : ∀ e ∈ es, ∀ j, e.target = some j → j < a.targets.length ∧ ∀ m ∈ ks1, j < m := by
        intro e he j hj
        obtain ⟨m, hm, hmk⟩ := hlow e he
        rw [hj] at hm
        simp only [Option.some.injEq] at hm
        subst hm
        refine ⟨by omega, fun m hm => ?_⟩
        rcases (m1 m).1 hm with hm | ⟨rfl, _⟩
        · exact (hks e (List.mem_cons_of_mem _ he) j hj).2 m hm
        · exact hmk
      have hrun : fail acceptor integrity s self (⟨c, some k⟩ :: es) v = fail acceptor integrity s self es v1 := by
        conv_lhs => unfold fail
        rw [e1]
        rfl
      rw [hrun]
      rcases ih ks1 ns1 v1 h1 hd' hks1 (fun e he => hl e (List.mem_cons_of_mem _ he)) with ⟨⟨e, he, j, u, q⟩, hr⟩ | ⟨q, ks2, ns2, v2, e2, h2, m2, n2⟩
      · exact Or.inl ⟨⟨e, List.mem_cons_of_mem _ he, j, u, q⟩, hr⟩
      · refine Or.inr ⟨?_, ks2, ns2, v2, e2, h2, fun m => ?_, fun n => ?_⟩
        · intro e he j u hj hu
          rcases List.mem_cons.1 he with rfl | he
          · simp only [Option.some.injEq] at hj
            subst hj
            rw [ht] at hu
            simp only [Option.some.injEq] at hu
            subst hu
            exact hdr
          · exact q e he j u hj hu
        · rw [m2, m1, or_assoc]
          refine or_congr_right ?_
          constructor
          · rintro (⟨rfl, h⟩ | ⟨e, he, h⟩)
            · exact ⟨_, List.mem_cons_self, rfl, h⟩
            · exact ⟨e, List.mem_cons_of_mem _ he, h⟩
          · rintro ⟨e, he, h, h'⟩
            rcases List.mem_cons.1 he with rfl | he
            · exact Or.inl ⟨(Option.some.inj h).symm, h'⟩
            · exact Or.inr ⟨e, he, h, h'⟩
        · rw [n2, n1, or_assoc]
          refine or_congr_right ?_
          constructor
          · rintro (⟨rfl, h⟩ | ⟨e, he, h⟩)
            · exact ⟨_, List.mem_cons_self, k, rfl, ht, h⟩
            · exact ⟨e, List.mem_cons_of_mem _ he, h⟩
          · rintro ⟨e, he, j, h, hj, h'⟩
            rcases List.mem_cons.1 he with rfl | he
            · simp only [Option.some.injEq] at h
              subst h
              rw [ht] at hj
              exact Or.inl ⟨(Option.some.inj hj).symm, h'⟩
            · exact Or.inr ⟨e, he, j, h, hj, h'⟩

/-- No operation is taken out of a block with fewer or more results than targets: the bundle is dropped. -/
theorem fail_lengths {acceptor integrity : Bool} {s : EventSet} {self : Nat} {a : Asb} {w : View} {x : BlockView}
    (hx : w.blocks[self]? = some x) (hl : a.targets.length ≠ a.results.length) :
    ∀ (es : List Err) (ns : List Nat) (v v' : View), Handled self a [] ns w v → Descending es →
      (∀ e ∈ es, ∀ k, e.target = some k → k < a.targets.length) →
      fail acceptor integrity s self es v = .ok (.keep v') → ∀ e ∈ es, ¬ TakenOut s acceptor e.code := by
  intro es
  induction es with
  | nil => intro ns v v' _ _ _ _ e he; simp at he
  | cons e es ih =>
    intro ns v v' h hd hks hf
    obtain ⟨⟨k, hk, hlow⟩, hd'⟩ := hd
    have hlt := hks e (by simp) k hk
    have ht : a.targets[k]? = some a.targets[k] := List.getElem?_eq_getElem hlt
    generalize a.targets[k] = t at ht
    obtain ⟨c, tg⟩ := e
    simp only at hk
    subst hk
    have hno : ¬ TakenOut s acceptor c := by
      intro htk
      have hnum := numberOf_eq h hx (by simp) ht
      have hrem : removeSop v self (some k) = none := by
        obtain ⟨y, y1, y2, _⟩ := h.here x hx
        have hyb : y.body = .sec a := by
          rw [y2]
          simp [withoutOps, without_nil]
        unfold removeSop
        rw [y1]
        simp only [hyb]
        rw [if_pos hl]
      unfold fail at hf
      cases acceptor with
      | true =>
        simp only [if_true] at hf
        unfold failAcceptor at hf
        simp only [hnum, Out.bind, hrem] at hf
        cases integrity with
        | true =>
          simp only [Bool.not_true, Bool.false_and, Bool.false_eq_true, if_false, if_true] at hf
          cases ha : s.actions true c <;> rw [ha] at hf <;> simp [hrem] at hf
        | false =>
          simp only [Bool.not_false, Bool.true_and, Bool.false_eq_true, if_false, Option.map_none] at hf
          by_cases hp : meansPayload t = true
          · rw [if_pos hp] at hf; simp at hf
          · rw [if_neg hp] at hf; simp at hf
      | false =>
        simp only [Bool.false_eq_true, if_false] at hf
        unfold failVerifier at hf
        simp only [hnum, Out.bind, hrem, actions_eq] at hf
        rcases htk with h | ⟨m, hm, ho⟩
        · simp at h
        · rw [hm] at hf
          simp only at hf
          rw [if_pos ((testBit_sop m).2 ho)] at hf
          simp at hf
    have hone := fail_one (acceptor := acceptor) (integrity := integrity) (s := s) (c := c) h hx (by simp) ht (fun h => absurd h hno)
    unfold fail at hf
    by_cases hdr : Dropped s acceptor integrity t c
    · rw [hone.1 hdr] at hf
      simp [Out.bind] at hf
    · obtain ⟨ks', ns', v1, e1, h1, m1, _⟩ := hone.2 hdr
      have hnil : ks' = [] := List.eq_nil_iff_forall_not_mem.2 fun m hm => by
        rcases (m1 m).1 hm with h | h
        · simp at h
        · exact hno h.2
      subst hnil
      rw [e1] at hf
      simp only [Out.bind] at hf
      intro e he
      rcases List.mem_cons.1 he with rfl | he
      · exact hno
      · exact ih ns' v1 v' h1 hd' (fun e he => hks e (List.mem_cons_of_mem _ he)) hf e he

end Hdtn.BpSecProcess
