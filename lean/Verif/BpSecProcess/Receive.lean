import Verif.BpSecProcess.Rounds

/-! The loops over the security blocks of a received bundle. -/

namespace Hdtn.BpSecProcess

open Hdtn.HashMap16 Hdtn.Bpv7Canonical Hdtn.BpSec7 Hdtn.BundleView7 Hdtn.BundleView7.Spec Hdtn.BpSecBundle Spec

/-! ### What stays -/

/-- The bytes of the blocks are the same. -/
def Same (v w : View) : Prop := w.blocks.map (fun b => (b.block, b.raw)) = v.blocks.map (fun b => (b.block, b.raw))

theorem Same.get {v w : View} (h : Same v w) {i : Nat} {x : BlockView} (hx : v.blocks[i]? = some x) :
    ∃ y, w.blocks[i]? = some y ∧ y.block = x.block ∧ y.raw = x.raw := by
  have := congrArg (fun l : List (Canonical × Bytes) => l[i]?) h
  simp only [List.getElem?_map, hx, Option.map_some] at this
  cases hy : w.blocks[i]? with
  | none => rw [hy] at this; simp at this
  | some y =>
    rw [hy] at this
    simp only [Option.map_some, Option.some.injEq, Prod.mk.injEq] at this
    exact ⟨y, rfl, this⟩

theorem same_modify {v : View} {i : Nat} {f : BlockView → BlockView} (hf : ∀ b, (f b).block = b.block ∧ (f b).raw = b.raw) :
    Same v { v with blocks := v.blocks.modify i f } := by
  refine List.ext_getElem? fun j => ?_
  simp only [List.getElem?_map, List.getElem?_modify]
  cases v.blocks[j]? with
  | none => rfl
  | some x =>
    by_cases hj : i = j <;> simp [hj, hf]

theorem same_set {v : View} {i : Nat} {x y : BlockView} (hx : v.blocks[i]? = some x) (h : y.block = x.block ∧ y.raw = x.raw) :
    Same v { v with blocks := v.blocks.set i y } := by
  have hi := (List.getElem?_eq_some_iff.1 hx).1
  refine List.ext_getElem? fun j => ?_
  simp only [List.getElem?_map]
  by_cases hj : i = j
  · subst hj
    rw [hx, List.getElem?_set_self hi]
    simp [h]
  · rw [List.getElem?_set_ne hj]

theorem removeSop_keeps {v v' : View} {self : Nat} {target : Option Nat} {b : BlockView} (hb : v.blocks[self]? = some b)
    (hs : IsSecType b.block.typeCode) (h : removeSop v self target = some v') : Near (fun k => k = self) v v' ∧ Same v v' := by
  cases target with
  | none =>
    simp only [removeSop, Option.some.injEq] at h
    subst h
    exact ⟨(near_setDeleted v self).mono (fun _ h => h.elim), same_modify fun _ => ⟨rfl, rfl⟩⟩
  | some k =>
    unfold removeSop at h
    rw [hb] at h
    simp only at h
    split at h
    · rename_i a ha
      split at h
      · simp at h
      split at h
      · simp at h
      simp only [Option.some.injEq] at h
      subst h
      exact ⟨near_set (r := v.rendered) hb rfl rfl (fun hn _ => absurd hs hn), same_set hb ⟨rfl, rfl⟩⟩
    · simp at h

theorem removeTarget_keeps (v : View) (n : Nat) : Near (fun _ => False) v (removeTarget v n) ∧ Same v (removeTarget v n) := by
  refine ⟨near_removeTarget v n, ?_⟩
  unfold removeTarget
  split
  · rfl
  · exact same_modify fun _ => ⟨rfl, rfl⟩

/-- What stays when errors are handled. -/
def Keeps (self : Nat) (v v' : View) : Prop := Near (fun k => k = self) v v' ∧ Same v v'

theorem Keeps.refl (self : Nat) (v : View) : Keeps self v v := ⟨.refl _ _, rfl⟩

theorem Keeps.trans {self : Nat} {u v w : View} (h : Keeps self u v) (g : Keeps self v w) : Keeps self u w :=
  ⟨h.1.trans g.1, g.2.trans h.2⟩

theorem Keeps.sec {self : Nat} {v v' : View} (h : Keeps self v v') {b : BlockView} (hb : v.blocks[self]? = some b)
    (hs : IsSecType b.block.typeCode) : ∃ b', v'.blocks[self]? = some b' ∧ IsSecType b'.block.typeCode := by
  obtain ⟨y, y1, y2, _⟩ := h.2.get hb
  exact ⟨y, y1, by rw [y2]; exact hs⟩

theorem keeps_removeTarget (self : Nat) (v : View) (n : Nat) : Keeps self v (removeTarget v n) :=
  ⟨(removeTarget_keeps v n).1.mono (fun _ h => h.elim), (removeTarget_keeps v n).2⟩

theorem failAcceptor_keeps {integrity : Bool} {s : EventSet} {self : Nat} {e : Err} {v v' : View} {b : BlockView}
    (hb : v.blocks[self]? = some b) (hs : IsSecType b.block.typeCode) (h : failAcceptor integrity s self e v = .ok (.keep v')) :
    Keeps self v v' := by
  unfold failAcceptor at h
  cases hn : numberOf v self e.target with
  | fail => rw [hn] at h; simp [Out.bind] at h
  | fault => rw [hn] at h; simp [Out.bind] at h
  | ok number =>
  rw [hn] at h
  simp only [Out.bind] at h
  split at h
  · simp at h
  split at h
  · simp at h
  rename_i v1 h1
  split at h
  · simp at h
  rename_i mask hm
  split at h
  · simp at h
  rename_i v2 h2
  have k1 : Keeps self v v1 := by
    split at h1
    · simp only [Option.some.injEq] at h1
      subst h1
      exact .refl _ _
    · simp only [Option.map_eq_some_iff] at h1
      obtain ⟨u, h1, rfl⟩ := h1
      exact Keeps.trans (removeSop_keeps hb hs h1) (keeps_removeTarget _ _ _)
  have k2 : Keeps self v1 v2 := by
    split at h2
    · obtain ⟨b', hb', hs'⟩ := k1.sec hb hs
      exact removeSop_keeps hb' hs' h2
    · simp only [Option.some.injEq] at h2
      subst h2
      exact .refl _ _
  refine k1.trans (k2.trans ?_)
  split at h
  · simp at h
  split at h
  · split at h
    · simp at h
    · simp only [Out.ok.injEq, Verdict.keep.injEq] at h
      subst h
      split
      · exact keeps_removeTarget _ _ _
      · exact .refl _ _
  · simp only [Out.ok.injEq, Verdict.keep.injEq] at h
    subst h
    exact .refl _ _

theorem failVerifier_keeps {s : EventSet} {self : Nat} {e : Err} {v v' : View} {b : BlockView}
    (hb : v.blocks[self]? = some b) (hs : IsSecType b.block.typeCode) (h : failVerifier s self e v = .ok (.keep v')) :
    Keeps self v v' := by
  unfold failVerifier at h
  cases hn : numberOf v self e.target with
  | fail => rw [hn] at h; simp [Out.bind] at h
  | fault => rw [hn] at h; simp [Out.bind] at h
  | ok number =>
  rw [hn] at h
  simp only [Out.bind] at h
  split at h
  · simp at h
  rename_i mask hm
  split at h
  · simp at h
  rename_i v1 h1
  have k1 : Keeps self v v1 := by
    split at h1
    · exact removeSop_keeps hb hs h1
    · simp only [Option.some.injEq] at h1
      subst h1
      exact .refl _ _
  refine k1.trans ?_
  split at h
  · simp at h
  split at h
  · split at h
    · simp at h
    · simp only [Out.ok.injEq, Verdict.keep.injEq] at h
      subst h
      exact keeps_removeTarget _ _ _
  · simp only [Out.ok.injEq, Verdict.keep.injEq] at h
    subst h
    exact .refl _ _

theorem fail_keeps {acceptor integrity : Bool} {s : EventSet} {self : Nat} : ∀ (es : List Err) (v v' : View) (b : BlockView),
    v.blocks[self]? = some b → IsSecType b.block.typeCode → fail acceptor integrity s self es v = .ok (.keep v') → Keeps self v v' := by
  intro es
  induction es with
  | nil =>
    intro v v' b _ _ h
    simp only [fail, Out.ok.injEq, Verdict.keep.injEq] at h
    subst h
    exact .refl _ _
  | cons e es ih =>
    intro v v' b hb hs h
    unfold fail at h
    cases hr : (if acceptor then failAcceptor integrity s self e v else failVerifier s self e v) with
    | fail => rw [hr] at h; simp [Out.bind] at h
    | fault => rw [hr] at h; simp [Out.bind] at h
    | ok r =>
    rw [hr] at h
    simp only [Out.bind] at h
    cases r with
    | drop => simp at h
    | keep v1 =>
      simp only at h
      have k1 : Keeps self v v1 := by
        split at hr
        · exact failAcceptor_keeps hb hs hr
        · exact failVerifier_keeps hb hs hr
      obtain ⟨b', hb', hs'⟩ := k1.sec hb hs
      exact k1.trans (ih v1 v' b' hb' hs' h)

theorem failMissing_keeps {integrity : Bool} {mask self : Nat} {a : Asb} {v v' : View} (h : failMissing integrity mask a v = .keep v') :
    Keeps self v v' := by
  unfold failMissing at h
  split at h
  · simp at h
  split at h
  · simp at h
  split at h
  · split at h
    · simp at h
    · simp only [Verdict.keep.injEq] at h
      subst h
      have : ∀ (ts : List Nat) (u : View), Keeps self u (ts.foldl removeTarget u) := by
        intro ts
        induction ts with
        | nil => intro u; exact .refl _ _
        | cons t ts ih => intro u; exact (keeps_removeTarget self u t).trans (ih _)
      exact this _ _
  · simp only [Verdict.keep.injEq] at h
    subst h
    exact .refl _ _

/-! ### The confidentiality blocks -/

theorem settle_sec {ghost : Nat → Asb} {i : Nat} {v : View} {b : BlockView} (hb : v.blocks[i]? = some b) (hp : b.body ≠ .plain) :
    settle ghost i v = v := by
  have : v.blocks.modify i (fun b => if b.body = .plain then { b with body := .sec (ghost i) } else b) = v.blocks := by
    refine List.ext_getElem? fun j => ?_
    rw [List.getElem?_modify]
    by_cases hj : i = j
    · subst hj
      rw [hb]
      simp [hp]
    · simp [hj]
  unfold settle
  rw [this]

theorem not_sec_of_index {v : View} {t i : Nat} {b : BlockView} (hb : v.blocks[i]? = some b) (h : View.indexOf v t = some i) :
    b.block.number = t := by
  obtain ⟨x, hx, hn, _⟩ := indexOf_get h
  rw [hb] at hx
  simp only [Option.some.injEq] at hx
  rw [hx]; exact hn

theorem stepBcb_near {E : Env} {ghost : Nat → Asb} {pad : Bytes} {i : Nat} {v v' : View} {b : BlockView} {a : Asb}
    (hb : v.blocks[i]? = some b) (hty : b.block.typeCode = 12) (ha : b.body = .sec a) (hn : a.targets.Nodup)
    (h : stepBcb E ghost pad i v = .ok (.keep v')) :
    Near (fun k => k = i ∨ ∃ t ∈ a.targets, View.indexOf v t = some k) v v' := by
  have hsec : IsSecType b.block.typeCode := by rw [hty]; exact Or.inr rfl
  unfold stepBcb at h
  rw [settle_sec hb (by rw [ha]; simp)] at h
  simp only [hb] at h
  have hopen : ∀ (acceptor : Bool) (p : BpSecPolicy.Policy), openBy E pad acceptor p i v = .ok (.keep v') →
      Near (fun k => k = i ∨ ∃ t ∈ a.targets, View.indexOf v t = some k) v v' := by
    intro acceptor p h
    unfold openBy at h
    split at h
    · simp only [Out.ok.injEq, Verdict.keep.injEq] at h
      subst h
      exact .refl _ _
    cases hd : decrypt E.crypto (!acceptor) (openParams p) pad i v with
    | fail => rw [hd] at h; simp [Out.bind] at h
    | fault => rw [hd] at h; simp [Out.bind] at h
    | ok r =>
    obtain ⟨errs, v1⟩ := r
    rw [hd] at h
    simp only [Out.bind] at h
    obtain ⟨n1, _⟩ := decrypt_any hb ha hty hn hd
    have n1' : Near (fun k => k = i ∨ ∃ t ∈ a.targets, View.indexOf v t = some k) v v1 := n1.mono fun k hk => Or.inr hk.2
    split at h
    · simp only [Out.ok.injEq, Verdict.keep.injEq] at h
      subst h
      exact n1'
    split at h
    · simp at h
    obtain ⟨y, y1, _, y3, _⟩ := n1.block i b hb
    exact n1'.trans ((fail_keeps _ _ _ _ y1 (by rw [y3]; exact hsec) h).1.mono fun k hk => Or.inl hk)
  split at h
  · simp only [Out.ok.injEq] at h
    exact (failMissing_keeps (self := i) h).1.mono fun k hk => Or.inl hk
  · simp only [Out.ok.injEq, Verdict.keep.injEq] at h
    subst h
    exact .refl _ _
  · exact hopen _ _ h
  · exact hopen _ _ h

/-- An acceptor of a confidentiality block, when the bundle goes on: each target passed, or is not the payload block and
its block is marked. -/
theorem stepBcb_acceptor {E : Env} {ghost : Nat → Asb} {pad : Bytes} {i : Nat} {v v' : View} {b : BlockView} {a : Asb} {p : BpSecPolicy.Policy}
    (hb : v.blocks[i]? = some b) (hty : b.block.typeCode = 12) (ha : b.body = .sec a) (hn : a.targets.Nodup)
    (hself : b.block.number ∉ a.targets)
    (hs : E.search v.primary a.source = .acceptor p) (hd : p.doBcb = true)
    (h : stepBcb E ghost pad i v = .ok (.keep v')) :
    ∃ o, openingOf E.crypto (openParams p) b = .ok (.good o) ∧ ∀ (k : Nat) t, a.targets[k]? = some t →
      (∃ tag, (allResults a.results 1)[k]? = some tag ∧ Passed E.crypto false (openParams p).mask o v v' t tag) ∨
      (t ≠ 1 ∧ t ≠ 2 ^ 64 - 1 ∧ ∀ (j : Nat) x, View.indexOf v t = some j → v.blocks[j]? = some x → ¬ IsSecType x.block.typeCode →
        ∃ y, v'.blocks[j]? = some y ∧ y.deleted = true) := by
  have hsec : IsSecType b.block.typeCode := by rw [hty]; exact Or.inr rfl
  unfold stepBcb at h
  rw [settle_sec hb (by rw [ha]; simp)] at h
  simp only [hb, asbOf, ha, hs] at h
  unfold openBy at h
  rw [if_neg (by simp [hd])] at h
  cases hdec : decrypt E.crypto (!true) (openParams p) pad i v with
  | fail => rw [hdec] at h; simp [Out.bind] at h
  | fault => rw [hdec] at h; simp [Out.bind] at h
  | ok r =>
  obtain ⟨errs, v1⟩ := r
  rw [hdec] at h
  simp only [Out.bind] at h
  obtain ⟨n1, r1⟩ := decrypt_any hb ha hty hn hdec
  have hlen : ∀ o, openingOf E.crypto (openParams p) b = .ok (.good o) → (allResults a.results 1).length = a.targets.length := by
    intro o ho
    obtain ⟨a', tags, ha', _, rfl, hl, _⟩ := openingOf_good ho
    rw [ha] at ha'
    simp only [Body.sec.injEq] at ha'
    subst ha'
    exact hl
  have htag : ∀ o, openingOf E.crypto (openParams p) b = .ok (.good o) → ∀ (k : Nat) t, a.targets[k]? = some t →
      ∃ tag, (allResults a.results 1)[k]? = some tag := by
    intro o ho k t hk
    have := (List.getElem?_eq_some_iff.1 hk).1
    exact ⟨_, List.getElem?_eq_getElem (by rw [hlen o ho]; exact this)⟩
  by_cases he : errs = []
  · rw [if_pos he] at h
    simp only [Out.ok.injEq, Verdict.keep.injEq] at h
    subst h
    rcases r1 with ⟨c, r1⟩ | ⟨o, ho, _, _, r⟩
    · rw [he] at r1; simp at r1
    · refine ⟨o, ho, fun k t hk => Or.inl ?_⟩
      obtain ⟨tag, htg⟩ := htag o ho k t hk
      rcases r k t tag hk htg with ⟨e, hm, _⟩ | hp
      · rw [he] at hm; simp at hm
      · exact ⟨tag, htg, hp⟩
  rw [if_neg he] at h
  split at h
  · simp at h
  rename_i s hev
  rcases r1 with ⟨c, r1⟩ | ⟨o, ho, hdesc, hlt, r⟩
  · subst r1
    simp [fail, failAcceptor, numberOf, Out.bind, meansPayload] at h
  refine ⟨o, ho, fun k t hk => ?_⟩
  -- the block itself is as it was
  obtain ⟨y, y1, yn, yt, y4, _⟩ := n1.block i b hb
  obtain ⟨d, rfl⟩ := y4 (by
    rintro ⟨_, t, ht, hti⟩
    exact hself (not_sec_of_index hb hti ▸ ht))
  have hab : ∀ x, v1.blocks[i]? = some x → x.body = .sec a := by
    intro x hx
    rw [y1] at hx
    simp only [Option.some.injEq] at hx
    rw [← hx]
    exact ha
  have hkeeps := fail_keeps _ _ _ _ y1 hsec h
  have hlt' : ∀ e ∈ errs, ∀ m, e.target = some m → m < a.targets.length := by
    intro f hf m hfm
    obtain ⟨m', h1, h2⟩ := hlt f hf
    rw [hfm] at h1
    simp only [Option.some.injEq] at h1
    omega
  have hl : ∀ e ∈ errs, TakenOut s true e.code → a.targets.length = a.results.length := by
    intro e hm htk
    by_contra hne
    exact fail_lengths y1 hne errs [] v1 v' (handled_nil hab) hdesc hlt' h e hm htk
  obtain ⟨tag, htg⟩ := htag o ho k t hk
  rcases r k t tag hk htg with ⟨e, hm, hek⟩ | ⟨j, x, q1, q2, q3, q4⟩
  · right
    rcases fail_all_aux (acceptor := true) (integrity := false) (s := s) y1 errs [] [] v1 (handled_nil hab) hdesc
        (fun f hf m hfm => ⟨hlt' f hf m hfm, by simp⟩) hl with ⟨_, hdrop⟩ | ⟨hnd, ks, ns, v2, hfail, hH, _, hns⟩
    · rw [hdrop] at h; simp at h
    · rw [hfail] at h
      simp only [Out.ok.injEq, Verdict.keep.injEq] at h
      subst h
      have hnot := hnd e hm k t hek hk
      have h1 : ¬ (t = 1 ∨ t = 2 ^ 64 - 1) := fun h => hnot (Or.inl ⟨rfl, rfl, h⟩)
      push Not at h1
      refine ⟨h1.1, h1.2, fun j x hj hx hnsec => ?_⟩
      obtain ⟨x1, x1e, _⟩ := n1.block j x hx
      have hji : j ≠ i := by
        rintro rfl
        rw [hb] at hx
        simp only [Option.some.injEq] at hx
        subst hx
        exact hnsec hsec
      obtain ⟨z, z1, _, z3⟩ := hH.other j x1 hji x1e
      refine ⟨z, z1, z3.2 (Or.inr ?_)⟩
      have hix : View.indexOf v1 t = some j := by rw [n1.indexOf]; exact hj
      obtain ⟨b', e1, e2, e3⟩ := isFirst_indexOf.1 hix
      refine ⟨b', e1, ?_, e3⟩
      simp only [List.mem_singleton] at e2
      rw [e2]
      exact (hns t).2 (Or.inr ⟨e, hm, k, hek, hk, Or.inl ⟨rfl, rfl⟩⟩)
  · left
    refine ⟨tag, htg, j, x, q1, q2, q3, fun hv => ?_⟩
    obtain ⟨z, z1, z2⟩ := q4 hv
    obtain ⟨u, u1, u2, _⟩ := hkeeps.2.get z1
    exact ⟨u, u1, u2.trans z2⟩

/-! ### The loop over them -/

theorem steps_cons {f : Nat → View → Out Verdict} {i : Nat} {is : List Nat} {v v' : View} (h : steps f (i :: is) v = .ok (.keep v')) :
    ∃ v1, f i v = .ok (.keep v1) ∧ steps f is v1 = .ok (.keep v') := by
  unfold steps at h
  cases hf : f i v with
  | fail => rw [hf] at h; simp [Out.bind] at h
  | fault => rw [hf] at h; simp [Out.bind] at h
  | ok r =>
    rw [hf] at h
    simp only [Out.bind] at h
    cases r with
    | drop => simp at h
    | keep v1 => exact ⟨v1, rfl, h⟩

theorem steps_append {f : Nat → View → Out Verdict} : ∀ (is js : List Nat) (v v' : View), steps f (is ++ js) v = .ok (.keep v') →
    ∃ v1, steps f is v = .ok (.keep v1) ∧ steps f js v1 = .ok (.keep v') := by
  intro is
  induction is with
  | nil => intro js v v' h; exact ⟨v, rfl, h⟩
  | cons i is ih =>
    intro js v v' h
    rw [List.cons_append] at h
    obtain ⟨v1, h1, h2⟩ := steps_cons h
    obtain ⟨v2, h3, h4⟩ := ih js v1 v' h2
    refine ⟨v2, ?_, h4⟩
    unfold steps
    rw [h1]
    exact h3

/-- What is needed of the confidentiality blocks: they can be read, name no block twice, and are not encrypted themselves. -/
structure Flat (v : View) : Prop where
  read : ∀ (i : Nat) b, v.blocks[i]? = some b → b.block.typeCode = 12 → ∃ a, b.body = .sec a ∧ a.targets.Nodup
  plain : ∀ (i j : Nat) b c a, v.blocks[i]? = some b → b.block.typeCode = 12 → v.blocks[j]? = some c → c.block.typeCode = 12 →
    c.body = .sec a → b.block.number ∉ a.targets
  apart : ∀ (i j : Nat) b c a d, i ≠ j → v.blocks[i]? = some b → b.block.typeCode = 12 → v.blocks[j]? = some c → c.block.typeCode = 12 →
    b.body = .sec a → c.body = .sec d → ∀ t ∈ a.targets, t ∉ d.targets

/-- The positions that the round for the block at `i` may change. -/
def Reach (v : View) (i k : Nat) : Prop :=
  k = i ∨ ∃ b a t, v.blocks[i]? = some b ∧ b.body = .sec a ∧ t ∈ a.targets ∧ View.indexOf v t = some k

theorem reach_bcb {v : View} (hF : Flat v) {i j : Nat} {b c : BlockView} (hb : v.blocks[i]? = some b) (hbt : b.block.typeCode = 12)
    (hc : v.blocks[j]? = some c) (hct : c.block.typeCode = 12) (hij : i ≠ j) : ¬ Reach v j i := by
  rintro (h | ⟨c', a, t, hc', ha, ht, hi⟩)
  · exact hij h
  · rw [hc] at hc'
    simp only [Option.some.injEq] at hc'
    subst hc'
    exact hF.plain i j b c a hb hbt hc hct ha (not_sec_of_index hb hi ▸ ht)

theorem bcbLoop_near {E : Env} {ghost : Nat → Asb} {pad : Bytes} {w : View} (hF : Flat w) :
    ∀ (is done : List Nat) (v v' : View),
      (∀ i ∈ done ++ is, ∃ b, w.blocks[i]? = some b ∧ b.block.typeCode = 12) → (done ++ is).Nodup →
      Near (fun k => ∃ i ∈ done, Reach w i k) w v → steps (stepBcb E ghost pad) is v = .ok (.keep v') →
      Near (fun k => ∃ i ∈ is, Reach w i k) v v' := by
  intro is
  induction is with
  | nil =>
    intro done v v' _ _ _ h
    simp only [steps, Out.ok.injEq, Verdict.keep.injEq] at h
    subst h
    exact .refl _ _
  | cons i is ih =>
    intro done v v' ht hn hnear h
    obtain ⟨v1, h1, h2⟩ := steps_cons h
    obtain ⟨b, hb, hbt⟩ := ht i (by simp)
    obtain ⟨a, ha, hna⟩ := hF.read i b hb hbt
    obtain ⟨y, y1, yn, yt, y4, _⟩ := hnear.block i b hb
    obtain ⟨d, rfl⟩ := y4 (by
      rintro ⟨j, hj, hr⟩
      obtain ⟨c, hc, hct⟩ := ht j (by simp [hj])
      have hij : i ≠ j := fun he => (List.nodup_append.1 hn).2.2 j hj i List.mem_cons_self he.symm
      exact reach_bcb hF hb hbt hc hct hij hr)
    have n1 : Near (fun k => Reach w i k) v v1 := by
      refine (stepBcb_near y1 hbt ha hna h1).mono ?_
      rintro k (hk | ⟨t, ht, hk⟩)
      · exact Or.inl hk
      · rw [hnear.indexOf] at hk
        exact Or.inr ⟨b, a, t, hb, ha, ht, hk⟩
    have n2 := ih (done ++ [i]) v1 v' (by simpa using ht) (by simpa using hn)
      (Near.trans (hnear.mono fun k ⟨j, hj, hr⟩ => ⟨j, List.mem_append_left _ hj, hr⟩)
        (n1.mono fun k hr => ⟨i, by simp, hr⟩)) h2
    exact Near.trans (n1.mono fun k hr => ⟨i, by simp, hr⟩) (n2.mono fun k ⟨j, hj, hr⟩ => ⟨j, List.mem_cons_of_mem _ hj, hr⟩)

theorem positions_spec {v : View} {t : UInt8} {i : Nat} : i ∈ positions v t ↔ ∃ b, v.blocks[i]? = some b ∧ b.block.typeCode = t := by
  unfold positions
  simp only [List.mem_filter, List.mem_range]
  constructor
  · rintro ⟨_, h⟩
    cases hb : v.blocks[i]? with
    | none => rw [hb] at h; simp at h
    | some b =>
      rw [hb] at h
      exact ⟨b, rfl, by simpa using h⟩
  · rintro ⟨b, hb, ht⟩
    refine ⟨(List.getElem?_eq_some_iff.1 hb).1, ?_⟩
    rw [hb]
    simpa using ht

theorem positions_nodup (v : View) (t : UInt8) : (positions v t).Nodup := List.Nodup.filter _ List.nodup_range

theorem positions_congr {v w : View} (h : w.blocks.map (·.block.typeCode) = v.blocks.map (·.block.typeCode)) (t : UInt8) :
    positions w t = positions v t := by
  have hl : w.blocks.length = v.blocks.length := by simpa using congrArg List.length h
  unfold positions
  rw [hl]
  refine List.filter_congr fun i _ => ?_
  have := congrArg (fun l : List UInt8 => l[i]?) h
  simp only [List.getElem?_map] at this
  cases hw : w.blocks[i]? with
  | none =>
    rw [hw] at this
    cases hv : v.blocks[i]? with
    | none => rfl
    | some y => rw [hv] at this; simp at this
  | some x =>
    rw [hw] at this
    cases hv : v.blocks[i]? with
    | none => rw [hv] at this; simp at this
    | some y =>
      rw [hv] at this
      simp only [Option.map_some, Option.some.injEq] at this
      simp [this]

/-! ### The integrity blocks -/

theorem setDeleted_keeps {self : Nat} {v : View} (d : Bool) {b : BlockView} (hb : v.blocks[self]? = some b)
    (hs : IsSecType b.block.typeCode) : Keeps self v (View.setDeleted v self d) := by
  refine ⟨(near_setDeleted_sec d fun x hx => ?_).mono fun _ h => h.elim, same_modify fun _ => ⟨rfl, rfl⟩⟩
  rw [hb] at hx
  simp only [Option.some.injEq] at hx
  rw [← hx]; exact hs

theorem settle_keeps {ghost : Nat → Asb} {i : Nat} {v : View} {b : BlockView} (hb : v.blocks[i]? = some b)
    (hs : IsSecType b.block.typeCode) : Keeps i v (settle ghost i v) := by
  have hm : settle ghost i v = { v with blocks := v.blocks.set i (if b.body = .plain then { b with body := .sec (ghost i) } else b) } := by
    unfold settle
    congr 1
    refine List.ext_getElem? fun j => ?_
    rw [List.getElem?_modify]
    by_cases hj : i = j
    · subst hj
      rw [hb, List.getElem?_set_self (List.getElem?_eq_some_iff.1 hb).1]
      simp
    · rw [List.getElem?_set_ne hj]
      simp [hj]
  rw [hm]
  refine ⟨near_set (r := v.rendered) hb ?_ ?_ (fun hn _ => absurd hs hn), same_set hb ?_⟩
  · split <;> rfl
  · split <;> rfl
  · split <;> exact ⟨rfl, rfl⟩

theorem stepBib_keeps {E : Env} {ghost : Nat → Asb} {i : Nat} {v v' : View} {b : BlockView}
    (hb : v.blocks[i]? = some b) (hty : b.block.typeCode = 11) (h : stepBib E ghost i v = .ok (.keep v')) : Keeps i v v' := by
  have hsec : IsSecType b.block.typeCode := by rw [hty]; exact Or.inl rfl
  have k0 := settle_keeps (ghost := ghost) hb hsec
  unfold stepBib at h
  obtain ⟨b1, hb1, hs1⟩ := k0.sec hb hsec
  simp only [hb1] at h
  refine k0.trans ?_
  have hver : ∀ (acceptor : Bool) (p : BpSecPolicy.Policy), verifyBy E acceptor p i (settle ghost i v) = .ok (.keep v') →
      Keeps i (settle ghost i v) v' := by
    intro acceptor p h
    unfold verifyBy at h
    split at h
    · simp only [Out.ok.injEq, Verdict.keep.injEq] at h
      subst h
      exact .refl _ _
    cases hd : verify E.crypto acceptor (verifyParams p) i (settle ghost i v) with
    | fail => rw [hd] at h; simp [Out.bind] at h
    | fault => rw [hd] at h; simp [Out.bind] at h
    | ok r =>
    obtain ⟨errs, v1⟩ := r
    rw [hd] at h
    simp only [Out.bind] at h
    obtain ⟨n1, _⟩ := verify_any hb1 hd
    have n1' : Keeps i (settle ghost i v) v1 := by
      rcases n1 with rfl | ⟨_, rfl⟩
      · exact .refl _ _
      · exact setDeleted_keeps _ hb1 hs1
    split at h
    · simp only [Out.ok.injEq, Verdict.keep.injEq] at h
      subst h
      exact n1'
    split at h
    · simp at h
    obtain ⟨b2, hb2, hs2⟩ := n1'.sec hb1 hs1
    exact n1'.trans (fail_keeps _ _ _ _ hb2 hs2 h)
  split at h
  · simp only [Out.ok.injEq] at h
    exact failMissing_keeps h
  · simp only [Out.ok.injEq, Verdict.keep.injEq] at h
    subst h
    exact .refl _ _
  · exact hver _ _ h
  · exact hver _ _ h

theorem bibLoop_keeps {E : Env} {ghost : Nat → Asb} : ∀ (is : List Nat) (v v' : View),
    (∀ i ∈ is, ∃ b, v.blocks[i]? = some b ∧ b.block.typeCode = 11) → steps (stepBib E ghost) is v = .ok (.keep v') →
    Near (fun k => k ∈ is) v v' ∧ Same v v' := by
  intro is
  induction is with
  | nil =>
    intro v v' _ h
    simp only [steps, Out.ok.injEq, Verdict.keep.injEq] at h
    subst h
    exact ⟨.refl _ _, rfl⟩
  | cons i is ih =>
    intro v v' ht h
    obtain ⟨v1, h1, h2⟩ := steps_cons h
    obtain ⟨b, hb, hbt⟩ := ht i List.mem_cons_self
    have k1 := stepBib_keeps hb hbt h1
    obtain ⟨n2, s2⟩ := ih v1 v' (by
      intro j hj
      obtain ⟨c, hc, hct⟩ := ht j (List.mem_cons_of_mem _ hj)
      obtain ⟨c', hc', e, _⟩ := k1.2.get hc
      exact ⟨c', hc', by rw [e]; exact hct⟩) h2
    exact ⟨Near.trans (k1.1.mono fun k hk => by simp [hk]) (n2.mono fun k hk => List.mem_cons_of_mem _ hk), s2.trans k1.2⟩

/-! ### The bundle -/

theorem receive_keep {E : Env} {ghost : Nat → Asb} {pad : Bytes} {v v' : View} (h : receive E ghost pad v = .ok (.keep v')) :
    ∃ u, steps (stepBcb E ghost pad) (positions v 12) v = .ok (.keep u) ∧ steps (stepBib E ghost) (positions u 11) u = .ok (.keep v') := by
  unfold receive at h
  cases hf : steps (stepBcb E ghost pad) (positions v 12) v with
  | fail => rw [hf] at h; simp [Out.bind] at h
  | fault => rw [hf] at h; simp [Out.bind] at h
  | ok r =>
    rw [hf] at h
    simp only [Out.bind] at h
    cases r with
    | drop => simp at h
    | keep u => exact ⟨u, rfl, h⟩

/-- At an acceptor of the confidentiality block at `i` of the received bundle. -/
theorem receive_acceptor {E : Env} {ghost : Nat → Asb} {pad : Bytes} {w v' : View} (hF : Flat w)
    (h : receive E ghost pad w = .ok (.keep v')) {i : Nat} {b : BlockView} {a : Asb} {p : BpSecPolicy.Policy}
    (hb : w.blocks[i]? = some b) (hty : b.block.typeCode = 12) (ha : b.body = .sec a)
    (hs : E.search w.primary a.source = .acceptor p) (hd : p.doBcb = true) :
    ∃ o, openingOf E.crypto (openParams p) b = .ok (.good o) ∧ ∀ (k : Nat) t, a.targets[k]? = some t →
      (∃ tag, (allResults a.results 1)[k]? = some tag ∧ Passed E.crypto false (openParams p).mask o w v' t tag) ∨
      (t ≠ 1 ∧ t ≠ 2 ^ 64 - 1 ∧ ∀ (j : Nat) x, View.indexOf w t = some j → w.blocks[j]? = some x → ¬ IsSecType x.block.typeCode →
        ∃ y, v'.blocks[j]? = some y ∧ y.deleted = true) := by
  obtain ⟨u, h1, h2⟩ := receive_keep h
  have hi : i ∈ positions w 12 := positions_spec.2 ⟨b, hb, hty⟩
  obtain ⟨pre, post, hpp⟩ := List.append_of_mem hi
  have hnd := positions_nodup w 12
  have hall : ∀ j ∈ positions w 12, ∃ c, w.blocks[j]? = some c ∧ c.block.typeCode = 12 := fun j hj => positions_spec.1 hj
  rw [hpp] at h1 hnd hall
  obtain ⟨v1, q1, q2⟩ := steps_append _ _ _ _ h1
  obtain ⟨v2, q3, q4⟩ := steps_cons q2
  have hnp := List.nodup_append.1 hnd
  have n1 := bcbLoop_near hF pre [] w v1 (fun j hj => hall j (by simp at hj; simp [hj])) (by simpa using hnp.1)
    (.refl _ _) q1
  obtain ⟨y, y1, yn, yt, y4, _⟩ := n1.block i b hb
  obtain ⟨d, rfl⟩ := y4 (by
    rintro ⟨j, hj, hr⟩
    obtain ⟨c, hc, hct⟩ := hall j (by simp [hj])
    have hij : i ≠ j := fun he => hnp.2.2 j hj i List.mem_cons_self he.symm
    exact reach_bcb hF hb hty hc hct hij hr)
  obtain ⟨a', ha', hna⟩ := hF.read i b hb hty
  rw [ha] at ha'
  simp only [Body.sec.injEq] at ha'
  subst ha'
  have hself := hF.plain i i b b a hb hty hb hty ha
  have nstep := stepBcb_near y1 hty ha hna q3
  have n2 : Near (fun k => ∃ j ∈ pre ++ [i], Reach w j k) w v2 := by
    refine Near.trans (n1.mono fun k ⟨j, hj, hr⟩ => ⟨j, List.mem_append_left _ hj, hr⟩) (nstep.mono ?_)
    rintro k (hk | ⟨t, ht, hk⟩)
    · exact ⟨i, by simp, Or.inl hk⟩
    · rw [n1.indexOf] at hk
      exact ⟨i, by simp, Or.inr ⟨b, a, t, hb, ha, ht, hk⟩⟩
  have n3 := bcbLoop_near hF post (pre ++ [i]) v2 u (fun j hj => hall j (by simpa using hj)) (by simpa using hnd) n2 q4
  have nu : Near (fun _ => True) w u := (n2.mono fun _ _ => trivial).trans (n3.mono fun _ _ => trivial)
  obtain ⟨nb, sb⟩ := bibLoop_keeps _ _ _ (fun j hj => positions_spec.1 hj) h2
  obtain ⟨o, ho, hres⟩ := stepBcb_acceptor (b := { b with deleted := d }) y1 hty ha hna hself (by rw [n1.primary]; exact hs) hd q3
  refine ⟨o, ho, fun k t hk => ?_⟩
  have htm : t ∈ a.targets := List.mem_of_getElem? hk
  -- the targets of this block are not touched by the others
  have hfree : ∀ (j : Nat), View.indexOf w t = some j → ∀ m ∈ pre ++ post, ¬ Reach w m j := by
    intro j hj m hm hr
    have hm' : m ∈ pre ++ i :: post := by
      rcases List.mem_append.1 hm with hm | hm
      · simp [hm]
      · simp [hm]
    obtain ⟨c, hc, hct⟩ := hall m hm'
    have hmi : m ≠ i := by
      rintro rfl
      rcases List.mem_append.1 hm with hm | hm
      · exact hnp.2.2 m hm m List.mem_cons_self rfl
      · have := hnp.2.1
        rw [List.nodup_cons] at this
        exact this.1 hm
    obtain ⟨x, hx, hxn, _⟩ := indexOf_get hj
    rcases hr with hjm | ⟨c', a', t', hc', ha', ht', hk'⟩
    · subst hjm
      rw [hc] at hx
      simp only [Option.some.injEq] at hx
      subst hx
      exact hF.plain j i c b a hc hct hb hty ha (hxn ▸ htm)
    · rw [hc] at hc'
      simp only [Option.some.injEq] at hc'
      subst hc'
      have := not_sec_of_index hx hk'
      rw [hxn] at this
      subst this
      exact hF.apart i m b c a a' (Ne.symm hmi) hb hty hc hct ha ha' t htm ht'
  rcases hres k t hk with ⟨tag, htg, j, x, e1, e2, e3, e4⟩ | ⟨t1, t2, hdel⟩
  · left
    rw [n1.indexOf] at e1
    obtain ⟨x0, hx0, _⟩ := indexOf_get e1
    obtain ⟨z, z1, _, _, z4, _⟩ := n1.block j x0 hx0
    rw [e2] at z1
    simp only [Option.some.injEq] at z1
    subst z1
    obtain ⟨d', rfl⟩ := z4 (by
      rintro ⟨m, hm, hr⟩
      exact hfree j e1 m (List.mem_append_left _ hm) hr)
    rw [n1.primaryRaw] at e3
    refine ⟨tag, htg, j, x0, e1, hx0, checked_deleted e3, fun _ => ?_⟩
    obtain ⟨y', g1, g2⟩ := e4 rfl
    obtain ⟨u', u1, _, _, u4, _⟩ := n3.block j y' g1
    obtain ⟨d'', rfl⟩ := u4 (by
      rintro ⟨m, hm, hr⟩
      exact hfree j e1 m (List.mem_append_right _ hm) hr)
    obtain ⟨f, f1, f2, _⟩ := sb.get u1
    exact ⟨f, f1, f2.trans g2⟩
  · right
    refine ⟨t1, t2, fun j x hj hx hns => ?_⟩
    obtain ⟨z, z1, _, zt, _, _⟩ := n1.block j x hx
    obtain ⟨y', g1, g2⟩ := hdel j z (by rw [n1.indexOf]; exact hj) z1 (by rw [zt]; exact hns)
    obtain ⟨f0, f0e, f0n, f0t, _⟩ := nstep.block j z z1
    rw [g1] at f0e
    simp only [Option.some.injEq] at f0e
    subst f0e
    obtain ⟨f1, f1e, _, f1t, _, f1d⟩ := n3.block j y' g1
    have h1 := f1d (by rw [f0t, zt]; exact hns) g2
    obtain ⟨f2, f2e, _, f2t, _, f2d⟩ := nb.block j f1 f1e
    exact ⟨f2, f2e, f2d (by rw [f1t, f0t, zt]; exact hns) h1⟩

end Hdtn.BpSecProcess
