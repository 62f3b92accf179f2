import Verif.BpSecProcess.Fail
import Verif.BpSecBundle.Props

/-! What a round over the targets of a security block says about each of them. -/

namespace Hdtn.BpSecProcess

open Hdtn.HashMap16 Hdtn.Bpv7Canonical Hdtn.BpSec7 Hdtn.BundleView7 Hdtn.BundleView7.Spec Hdtn.BpSecBundle Spec

theorem near_setDeleted_sec {v : View} {i : Nat} (d : Bool) (h : ∀ x, v.blocks[i]? = some x → IsSecType x.block.typeCode) :
    Near (fun _ => False) v (View.setDeleted v i d) := by
  refine ⟨rfl, rfl, by simp [View.setDeleted], fun j x hx => ?_⟩
  by_cases hj : i = j
  · subst hj
    refine ⟨{ x with deleted := d }, ?_, rfl, rfl, fun _ => ⟨d, rfl⟩, fun hs _ => absurd (h x hx) hs⟩
    simp [View.setDeleted, List.getElem?_modify, hx]
  · refine ⟨x, ?_, rfl, rfl, fun _ => ⟨x.deleted, rfl⟩, fun _ h => h⟩
    simp [View.setDeleted, List.getElem?_modify, hx, hj]

theorem store_blocks (v : View) (i : Nat) (b : BlockView) : (View.store v i b).blocks = v.blocks.set i b := rfl

/-! ### Decryption -/

/-- The target passed the check and, unless it is only verified, was decrypted. -/
def Passed (C : Crypto) (verifyOnly : Bool) (expected : Nat) (o : Opening) (w v : View) (t : Nat) (tag : Bytes) : Prop :=
  ∃ i x, View.indexOf w t = some i ∧ w.blocks[i]? = some x ∧ Checked C expected o w.primaryRaw x tag ∧
    (verifyOnly = false → ∃ y, v.blocks[i]? = some y ∧ y.block = (withDataCrc x (C.ctr o.key o.iv x.block.data)).block)

theorem openTarget_any {C : Crypto} {verifyOnly : Bool} {expected : Nat} {o : Opening} {pad : Bytes} {self st t : Nat} {tag : Bytes}
    {s s' : Loop} (h : openTarget C verifyOnly expected o pad self st t tag s = .ok s') :
    Near (fun k => verifyOnly = false ∧ View.indexOf s.view t = some k) s.view s'.view ∧
    ((s'.errors = s.errors ∧ Passed C verifyOnly expected o s.view s'.view t tag) ∨ ∃ c, s'.errors = ⟨c, some st⟩ :: s.errors) := by
  unfold openTarget at h
  split at h
  · simp only [Loop.error, Out.ok.injEq] at h
    subst h
    exact ⟨.refl _ _, Or.inr ⟨_, rfl⟩⟩
  rename_i i hi
  split at h
  · simp at h
  rename_i x hx
  split at h
  · simp only [Loop.error, Out.ok.injEq] at h
    subst h
    exact ⟨.refl _ _, Or.inr ⟨_, rfl⟩⟩
  rename_i s1 hs1
  obtain ⟨rfl, hadm⟩ := admit_some hs1
  cases hp : part o.scope 1 (headerOf x) with
  | fail => rw [hp] at h; simp [Out.bind] at h
  | fault => rw [hp] at h; simp [Out.bind] at h
  | ok hd =>
  rw [hp] at h
  simp only [Out.bind] at h
  have hbad : ∀ text : Bytes, verifyOnly = false →
      Near (fun k => verifyOnly = false ∧ View.indexOf s.view t = some k) s.view (View.store s.view i (withData x text)) := by
    intro text hv
    refine Near.mono (near_set (r := _) (y := withData x text) hx rfl rfl (fun _ h => h)) ?_
    rintro k rfl
    exact ⟨hv, hi⟩
  unfold gcmDecrypt at h
  by_cases hk : isAesKey o.key = true ∧ o.iv ≠ []
  swap
  · rw [if_neg hk] at h
    simp only [Bool.false_eq_true, if_false, Bool.not_false, if_true, Loop.error] at h
    cases verifyOnly with
    | true =>
      simp only [if_true, Out.ok.injEq] at h
      subst h
      exact ⟨.refl _ _, Or.inr ⟨_, rfl⟩⟩
    | false =>
      simp only [Bool.false_eq_true, if_false, Out.ok.injEq] at h
      subst h
      exact ⟨hbad _ rfl, Or.inr ⟨_, rfl⟩⟩
  rw [if_pos hk] at h
  by_cases hl : tag.length < 16
  · rw [if_pos hl] at h; simp at h
  rw [if_neg hl] at h
  simp only at h
  by_cases hc : tag.take 16 = C.tag o.key o.iv (aadOf o.scope s.view.primaryRaw hd o.header) x.block.data
  swap
  · simp only [hc, decide_false, Bool.false_eq_true, if_false, Bool.not_false, if_true, Loop.error] at h
    cases verifyOnly with
    | true =>
      simp only [if_true, Out.ok.injEq] at h
      subst h
      exact ⟨.refl _ _, Or.inr ⟨_, rfl⟩⟩
    | false =>
      simp only [Bool.false_eq_true, if_false, Out.ok.injEq] at h
      subst h
      exact ⟨hbad _ rfl, Or.inr ⟨_, rfl⟩⟩
  have hck : Checked C expected o s.view.primaryRaw x tag := ⟨hadm, hk.1, hk.2, by omega, hd, hp, hc⟩
  simp only [hc, decide_true, if_true, Bool.not_true, Bool.false_eq_true, if_false] at h
  cases verifyOnly with
  | true =>
    simp only [if_true, Out.ok.injEq] at h
    subst h
    exact ⟨.refl _ _, Or.inl ⟨rfl, i, x, hi, hx, hck, fun h => by simp at h⟩⟩
  | false =>
    simp only [Bool.false_eq_true, if_false] at h
    by_cases hself : i = self
    · rw [if_pos hself] at h; simp at h
    rw [if_neg hself] at h
    have hf := withDataCrc_fields x (C.ctr o.key o.iv x.block.data)
    have hnear : ∀ (body : Body) (r : Bytes), Near (fun k => false = false ∧ View.indexOf s.view t = some k) s.view
        { s.view with blocks := s.view.blocks.set i { withDataCrc x (C.ctr o.key o.iv x.block.data) with body := body }, rendered := r } := by
      intro body r
      refine Near.mono (near_set hx hf.2.1 hf.1 (fun _ h => h)) ?_
      rintro k rfl
      exact ⟨rfl, hi⟩
    have hstore : ∀ (b c : BlockView), View.store (View.store s.view i b) i c =
        { s.view with blocks := s.view.blocks.set i c,
                      rendered := (View.store (View.store s.view i b) i c).rendered } := by
      intro b c
      simp [View.store]
    split at h
    · simp at h
    · simp only [Loop.error, Out.ok.injEq] at h
      subst h
      refine ⟨?_, Or.inr ⟨_, rfl⟩⟩
      simp only
      rw [hstore]
      exact (hnear _ _).mono fun k hk => ⟨trivial, hk.2⟩
    · rename_i body hbody
      simp only [Out.ok.injEq] at h
      subst h
      refine ⟨?_, Or.inl ⟨rfl, i, x, hi, hx, hck, fun _ => ⟨{ withDataCrc x (C.ctr o.key o.iv x.block.data) with body := body }, ?_, rfl⟩⟩⟩
      · simp only
        rw [hstore]
        exact (hnear _ _).mono fun k hk => ⟨trivial, hk.2⟩
      · simp only
        rw [hstore]
        exact List.getElem?_set_self (List.getElem?_eq_some_iff.1 hx).1

theorem headerOf_deleted (x : BlockView) (d : Bool) : headerOf { x with deleted := d } = headerOf x := rfl

theorem checked_deleted {C : Crypto} {expected : Nat} {o : Opening} {p : Bytes} {x : BlockView} {d : Bool} {tag : Bytes}
    (h : Checked C expected o p { x with deleted := d } tag) : Checked C expected o p x tag :=
  ⟨h.admitted, h.size, h.iv, h.long, h.same⟩

theorem openLoop_any {C : Crypto} {verifyOnly : Bool} {expected : Nat} {o : Opening} {pad : Bytes} {self : Nat} {w : View} :
    ∀ (work : List (Nat × Bytes)) (st : Nat) (s s' : Loop) (done : List Nat),
      Near (fun k => verifyOnly = false ∧ ∃ t ∈ done, View.indexOf w t = some k) w s.view →
      (done ++ work.map (·.1)).Nodup →
      openLoop C verifyOnly expected o pad self st work s = .ok s' →
      Near (fun k => verifyOnly = false ∧ ∃ t ∈ work.map (·.1), View.indexOf w t = some k) s.view s'.view ∧
      (∃ es, s'.errors = es ++ s.errors ∧ Descending es ∧ ∀ e ∈ es, ∃ k, e.target = some k ∧ st ≤ k ∧ k < st + work.length) ∧
      ∀ (k : Nat) t tag, work[k]? = some (t, tag) →
        (∃ e ∈ s'.errors, e.target = some (st + k)) ∨ Passed C verifyOnly expected o w s'.view t tag := by
  intro work
  induction work with
  | nil =>
    intro st s s' done hs hn h
    simp only [openLoop, Out.ok.injEq] at h
    subst h
    exact ⟨.refl _ _, ⟨[], rfl, trivial, by simp⟩, by simp⟩
  | cons p work ih =>
    obtain ⟨t, tag⟩ := p
    intro st s s' done hs hn h
    simp only [openLoop] at h
    cases ho : openTarget C verifyOnly expected o pad self st t tag s with
    | fail => rw [ho] at h; simp [Out.bind] at h
    | fault => rw [ho] at h; simp [Out.bind] at h
    | ok s1 =>
    rw [ho] at h
    simp only [Out.bind] at h
    have hn1 : ((done ++ [t]) ++ work.map (·.1)).Nodup := by simpa using hn
    have htd : t ∉ done := by
      intro hd
      exact (List.nodup_append.1 hn).2.2 t hd t (by simp) rfl
    have htw : t ∉ work.map (·.1) := by
      have := (List.nodup_append.1 hn).2.1
      simp only [List.map_cons, List.nodup_cons] at this
      exact this.1
    obtain ⟨n1, r1⟩ := openTarget_any ho
    have n1' : Near (fun k => verifyOnly = false ∧ View.indexOf w t = some k) s.view s1.view :=
      n1.mono (fun k hk => ⟨hk.1, by rw [← hs.indexOf]; exact hk.2⟩)
    have hs1 : Near (fun k => verifyOnly = false ∧ ∃ u ∈ done ++ [t], View.indexOf w u = some k) w s1.view := by
      refine Near.trans (hs.mono ?_) (n1'.mono ?_)
      · rintro k ⟨hv, u, hu, hk⟩
        exact ⟨hv, u, List.mem_append_left _ hu, hk⟩
      · rintro k ⟨hv, hk⟩
        exact ⟨hv, t, by simp, hk⟩
    obtain ⟨n2, ⟨es, e1, e2, e3⟩, r2⟩ := ih (st + 1) s1 s' (done ++ [t]) hs1 hn1 h
    refine ⟨Near.trans (n1'.mono ?_) (n2.mono ?_), ?_, ?_⟩
    · rintro k ⟨hv, hk⟩
      exact ⟨hv, t, by simp, hk⟩
    · rintro k ⟨hv, u, hu, hk⟩
      exact ⟨hv, u, List.mem_cons_of_mem _ hu, hk⟩
    · rcases r1 with ⟨r1, _⟩ | ⟨c, r1⟩
      · refine ⟨es, by rw [e1, r1], e2, fun e he => ?_⟩
        obtain ⟨k, k1, k2, k3⟩ := e3 e he
        exact ⟨k, k1, by omega, by simp only [List.length_cons]; omega⟩
      · refine ⟨es ++ [⟨c, some st⟩], by rw [e1, r1]; simp, ?_, ?_⟩
        · have : ∀ l : List Err, Descending l → (∀ e ∈ l, ∃ k, e.target = some k ∧ st < k) → Descending (l ++ [⟨c, some st⟩]) := by
            intro l
            induction l with
            | nil => intro _ _; exact ⟨⟨st, rfl, by simp⟩, trivial⟩
            | cons e l ihl =>
              rintro ⟨⟨k, k1, k2⟩, hd⟩ hl
              refine ⟨⟨k, k1, fun f hf => ?_⟩, ihl hd (fun f hf => hl f (List.mem_cons_of_mem _ hf))⟩
              rcases List.mem_append.1 hf with hf | hf
              · exact k2 f hf
              · simp only [List.mem_singleton] at hf
                subst hf
                obtain ⟨k', q1, q2⟩ := hl e List.mem_cons_self
                rw [k1] at q1
                simp only [Option.some.injEq] at q1
                exact ⟨st, rfl, by omega⟩
          refine this es e2 (fun e he => ?_)
          obtain ⟨k, k1, k2, k3⟩ := e3 e he
          exact ⟨k, k1, by omega⟩
        · intro e he
          rcases List.mem_append.1 he with he | he
          · obtain ⟨k, k1, k2, k3⟩ := e3 e he
            exact ⟨k, k1, by omega, by simp only [List.length_cons]; omega⟩
          · simp only [List.mem_singleton] at he
            subst he
            exact ⟨st, rfl, by omega, by simp only [List.length_cons]; omega⟩
    · intro k u tg hk
      cases k with
      | succ k =>
        rw [List.getElem?_cons_succ] at hk
        rcases r2 k u tg hk with ⟨e, he, hek⟩ | hpass
        · exact Or.inl ⟨e, he, by rw [hek]; congr 1; omega⟩
        · exact Or.inr hpass
      | zero =>
        simp only [List.getElem?_cons_zero, Option.some.injEq, Prod.mk.injEq] at hk
        obtain ⟨rfl, rfl⟩ := hk
        rcases r1 with ⟨_, i, x, hi, hx, hck, hdec⟩ | ⟨c, r1⟩
        · right
          rw [hs.indexOf] at hi
          obtain ⟨x0, hx0, hxn, _⟩ := indexOf_get hi
          obtain ⟨y, y1, _, _, y4, _⟩ := hs.block i x0 hx0
          rw [hx] at y1
          simp only [Option.some.injEq] at y1
          subst y1
          obtain ⟨d, rfl⟩ := y4 (by
            rintro ⟨_, u, hu, huk⟩
            obtain ⟨x1, hx1, hx1n, _⟩ := indexOf_get huk
            rw [hx0] at hx1
            simp only [Option.some.injEq] at hx1
            subst hx1
            rw [hxn] at hx1n
            exact htd (hx1n ▸ hu))
          rw [hs.primaryRaw] at hck
          refine ⟨i, x0, hi, hx0, checked_deleted hck, fun hv => ?_⟩
          obtain ⟨y, y1, y2⟩ := hdec hv
          obtain ⟨z, z1, _, _, z4, _⟩ := n2.block i y y1
          obtain ⟨d', rfl⟩ := z4 (by
            rintro ⟨_, u, hu, huk⟩
            obtain ⟨x1, hx1, hx1n, _⟩ := indexOf_get huk
            rw [hx0] at hx1
            simp only [Option.some.injEq] at hx1
            subst hx1
            rw [hxn] at hx1n
            exact htw (hx1n ▸ hu))
          exact ⟨_, z1, y2⟩
        · left
          refine ⟨⟨c, some st⟩, ?_, rfl⟩
          rw [e1, r1]
          simp

/-- A decryption: an error for the block as a whole, or each target has an error or passed. -/
theorem decrypt_any {C : Crypto} {verifyOnly : Bool} {P : OpenParams} {pad : Bytes} {self : Nat} {w w' : View} {errs : List Err}
    {sec : BlockView} {a : Asb} (hsec : w.blocks[self]? = some sec) (ha : sec.body = .sec a) (hty : sec.block.typeCode = 12)
    (hn : a.targets.Nodup) (h : decrypt C verifyOnly P pad self w = .ok (errs, w')) :
    Near (fun k => verifyOnly = false ∧ ∃ t ∈ a.targets, View.indexOf w t = some k) w w' ∧
    ((∃ c, errs = [⟨c, none⟩]) ∨
     ∃ o, openingOf C P sec = .ok (.good o) ∧ Descending errs ∧
      (∀ e ∈ errs, ∃ k, e.target = some k ∧ k < a.targets.length) ∧
      ∀ (k : Nat) t tag, a.targets[k]? = some t → (allResults a.results 1)[k]? = some tag →
        (∃ e ∈ errs, e.target = some k) ∨ Passed C verifyOnly P.mask o w w' t tag) := by
  unfold decrypt at h
  rw [hsec] at h
  simp only at h
  cases ho : openingOf C P sec with
  | fail => rw [ho] at h; simp [Out.bind] at h
  | fault => rw [ho] at h; simp [Out.bind] at h
  | ok k =>
  rw [ho] at h
  simp only [Out.bind] at h
  cases k with
  | bad c =>
    simp only [Out.ok.injEq, Prod.mk.injEq] at h
    obtain ⟨rfl, rfl⟩ := h
    exact ⟨.refl _ _, Or.inl ⟨c, rfl⟩⟩
  | good o =>
  simp only at h
  obtain ⟨a', tags, ha', ht, rfl, hl, hwork, _⟩ := openingOf_good ho
  rw [ha] at ha'
  simp only [Body.sec.injEq] at ha'
  subst ha'
  cases hloop : openLoop C verifyOnly P.mask o pad self 0 o.work ⟨w, [], 0⟩ with
  | fail => rw [hloop] at h; simp at h
  | fault => rw [hloop] at h; simp at h
  | ok s =>
  rw [hloop] at h
  simp only [Out.ok.injEq] at h
  have hfst : o.work.map (·.1) = a.targets := by
    rw [hwork, List.map_fst_zip (by omega)]
  obtain ⟨n1, ⟨es, e1, e2, e3⟩, r⟩ := openLoop_any (w := w) o.work 0 ⟨w, [], 0⟩ s []
    (.refl _ _) (by rw [List.nil_append, hfst]; exact hn) hloop
  simp only [List.append_nil] at e1
  rw [hfst] at n1
  simp only at n1
  have hlen : o.work.length = a.targets.length := by rw [← hfst]; simp
  have hsv : ∀ x, s.view.blocks[self]? = some x → IsSecType x.block.typeCode := by
    intro x hx
    obtain ⟨y, y1, _, y3, _⟩ := n1.block self sec hsec
    rw [hx] at y1
    simp only [Option.some.injEq] at y1
    subst y1
    rw [y3, hty]
    exact Or.inr rfl
  have hitem : ∀ (v' : View), (∀ (i : Nat) y, s.view.blocks[i]? = some y → ∃ z, v'.blocks[i]? = some z ∧ z.block = y.block) →
      ∀ (k : Nat) t tag, a.targets[k]? = some t → (allResults a.results 1)[k]? = some tag →
        (∃ e ∈ s.errors, e.target = some k) ∨ Passed C verifyOnly P.mask o w v' t tag := by
    intro v' hv' k t tag h1 h2
    have hw : o.work[k]? = some (t, tag) := by
      rw [hwork, List.getElem?_zip_eq_some]
      exact ⟨h1, h2⟩
    rcases r k t tag hw with ⟨e, he, hek⟩ | ⟨i, x, q1, q2, q3, q4⟩
    · exact Or.inl ⟨e, he, by rw [hek]; congr 1; omega⟩
    · refine Or.inr ⟨i, x, q1, q2, q3, fun hv => ?_⟩
      obtain ⟨y, y1, y2⟩ := q4 hv
      obtain ⟨z, z1, z2⟩ := hv' i y y1
      exact ⟨z, z1, z2.trans y2⟩
  unfold finish at h
  by_cases hes : s.errors = []
  · rw [if_pos hes] at h
    by_cases hm : s.mask ≠ P.mask
    · rw [if_pos hm] at h
      simp only [Prod.mk.injEq] at h
      obtain ⟨rfl, rfl⟩ := h
      exact ⟨n1, Or.inl ⟨_, rfl⟩⟩
    · rw [if_neg hm] at h
      simp only [Prod.mk.injEq] at h
      obtain ⟨rfl, rfl⟩ := h
      refine ⟨n1.trans (Near.mono (near_setDeleted_sec _ hsv) (fun _ h => h.elim)), Or.inr ⟨o, rfl, trivial, by simp, ?_⟩⟩
      have := hitem (View.setDeleted s.view self (!verifyOnly)) (by
        intro i y hy
        obtain ⟨z, z1, _, _, z4, _⟩ := (near_setDeleted_sec (!verifyOnly) hsv).block i y hy
        obtain ⟨d, rfl⟩ := z4 id
        exact ⟨_, z1, rfl⟩)
      rw [hes] at this
      exact this
  · rw [if_neg hes] at h
    simp only [Prod.mk.injEq] at h
    obtain ⟨rfl, rfl⟩ := h
    refine ⟨n1, Or.inr ⟨o, rfl, e1 ▸ e2, fun e he => ?_, hitem s.view (fun i y hy => ⟨y, hy, rfl⟩)⟩⟩
    obtain ⟨k, k1, _, k3⟩ := e3 e (e1 ▸ he)
    exact ⟨k, k1, by omega⟩

/-! ### Verification -/

theorem verifyTarget_any {C : Crypto} {expected : Nat} {g : Verifying} {st t : Nat} {hm : Bytes} {s s' : Loop}
    (h : verifyTarget C expected g st t hm s = .ok s') :
    s'.view = s.view ∧ ((s'.errors = s.errors ∧ ∃ x, MacOk C expected g s.view t hm x) ∨ ∃ c, s'.errors = ⟨c, some st⟩ :: s.errors) := by
  by_cases he : s'.errors = s.errors
  · unfold verifyTarget at h
    have hcmp : ∀ (s1 : Loop) ippt, (compareHmac C g st ippt hm s1).errors = s1.errors →
        C.hmac g.variant g.key ippt = hm ∧ compareHmac C g st ippt hm s1 = s1 := by
      intro s1 ippt h1
      unfold compareHmac at h1 ⊢
      by_cases he : C.hmac g.variant g.key ippt = hm
      · exact ⟨he, if_pos he⟩
      · rw [if_neg he] at h1
        simp [Loop.error] at h1
    by_cases h0 : t = 0
    · rw [if_pos h0] at h
      split at h
      · simp only [Loop.error, Out.ok.injEq] at h
        rw [← h] at he; simp at he
      · rename_i s1 hs1
        obtain ⟨rfl, hadm⟩ := admit_some hs1
        simp only [Out.ok.injEq] at h
        subst h
        obtain ⟨c1, c2⟩ := hcmp _ _ he
        rw [c2]
        exact ⟨rfl, Or.inl ⟨rfl, none, fun _ => rfl, fun h => absurd h0 h, hadm, fun _ => c1⟩⟩
    · rw [if_neg h0] at h
      split at h
      · simp only [Loop.error, Out.ok.injEq] at h
        rw [← h] at he; simp at he
      · rename_i b hb
        by_cases hh : b.body = .hidden
        · rw [if_pos hh] at h
          simp only [Loop.error, Out.ok.injEq] at h
          rw [← h] at he; simp at he
        rw [if_neg hh] at h
        cases hi : ipptBlock g.scope s.view.primaryRaw g.header b with
        | fail => rw [hi] at h; simp [Out.bind] at h
        | fault => rw [hi] at h; simp [Out.bind] at h
        | ok ippt =>
        rw [hi] at h
        simp only [Out.bind] at h
        split at h
        · simp only [Loop.error, Out.ok.injEq] at h
          rw [← h] at he; simp at he
        · rename_i s1 hs1
          obtain ⟨rfl, hadm⟩ := admit_some hs1
          simp only [Out.ok.injEq] at h
          subst h
          obtain ⟨c1, c2⟩ := hcmp _ _ he
          rw [c2]
          refine ⟨rfl, Or.inl ⟨rfl, some b, fun h => absurd h h0, fun _ => ⟨b, rfl, hb, hh⟩, hadm, fun hbk => ?_⟩⟩
          rw [ipptBlock_ok (hbk b rfl)] at hi
          simp only [Out.ok.injEq] at hi
          rw [← hi] at c1
          exact c1
  · unfold verifyTarget at h
    have hcmp : ∀ (s1 : Loop) ippt, (compareHmac C g st ippt hm s1).view = s1.view ∧
        ((compareHmac C g st ippt hm s1).errors = s1.errors ∨ ∃ c, (compareHmac C g st ippt hm s1).errors = ⟨c, some st⟩ :: s1.errors) := by
      intro s1 ippt
      unfold compareHmac
      split_ifs
      · exact ⟨rfl, Or.inl rfl⟩
      · exact ⟨rfl, Or.inr ⟨_, rfl⟩⟩
    by_cases h0 : t = 0
    · rw [if_pos h0] at h
      split at h
      · simp only [Loop.error, Out.ok.injEq] at h
        subst h
        exact ⟨rfl, Or.inr ⟨_, rfl⟩⟩
      · rename_i s1 hs1
        obtain ⟨rfl, hadm⟩ := admit_some hs1
        simp only [Out.ok.injEq] at h
        subst h
        obtain ⟨c1, c2⟩ := hcmp { s with mask := addType s.mask 0 } (ipptPrimary g.scope s.view.primaryRaw g.header)
        exact ⟨c1, Or.inr (c2.resolve_left he)⟩
    · rw [if_neg h0] at h
      split at h
      · simp only [Loop.error, Out.ok.injEq] at h
        subst h
        exact ⟨rfl, Or.inr ⟨_, rfl⟩⟩
      · rename_i b hb
        by_cases hh : b.body = .hidden
        · rw [if_pos hh] at h
          simp only [Loop.error, Out.ok.injEq] at h
          subst h
          exact ⟨rfl, Or.inr ⟨_, rfl⟩⟩
        rw [if_neg hh] at h
        cases hi : ipptBlock g.scope s.view.primaryRaw g.header b with
        | fail => rw [hi] at h; simp [Out.bind] at h
        | fault => rw [hi] at h; simp [Out.bind] at h
        | ok ippt =>
        rw [hi] at h
        simp only [Out.bind] at h
        split at h
        · simp only [Loop.error, Out.ok.injEq] at h
          subst h
          exact ⟨rfl, Or.inr ⟨_, rfl⟩⟩
        · rename_i s1 hs1
          obtain ⟨rfl, hadm⟩ := admit_some hs1
          simp only [Out.ok.injEq] at h
          subst h
          obtain ⟨c1, c2⟩ := hcmp { s with mask := addType s.mask b.block.typeCode } ippt
          exact ⟨c1, Or.inr (c2.resolve_left he)⟩

theorem descending_snoc {c : Code} {st : Nat} : ∀ l : List Err, Descending l → (∀ e ∈ l, ∃ k, e.target = some k ∧ st < k) →
    Descending (l ++ [⟨c, some st⟩]) := by
  intro l
  induction l with
  | nil => intro _ _; exact ⟨⟨st, rfl, by simp⟩, trivial⟩
  | cons e l ihl =>
    rintro ⟨⟨k, k1, k2⟩, hd⟩ hl
    refine ⟨⟨k, k1, fun f hf => ?_⟩, ihl hd (fun f hf => hl f (List.mem_cons_of_mem _ hf))⟩
    rcases List.mem_append.1 hf with hf | hf
    · exact k2 f hf
    · simp only [List.mem_singleton] at hf
      subst hf
      obtain ⟨k', q1, q2⟩ := hl e List.mem_cons_self
      rw [k1] at q1
      simp only [Option.some.injEq] at q1
      exact ⟨st, rfl, by omega⟩

theorem verifyLoop_any {C : Crypto} {expected : Nat} {g : Verifying} : ∀ (work : List (Nat × Bytes)) (st : Nat) (s s' : Loop),
    verifyLoop C expected g st work s = .ok s' →
    s'.view = s.view ∧
    (∃ es, s'.errors = es ++ s.errors ∧ Descending es ∧ ∀ e ∈ es, ∃ k, e.target = some k ∧ st ≤ k ∧ k < st + work.length) ∧
    ∀ (k : Nat) t m, work[k]? = some (t, m) →
      (∃ e ∈ s'.errors, e.target = some (st + k)) ∨ ∃ x, MacOk C expected g s.view t m x := by
  intro work
  induction work with
  | nil =>
    intro st s s' h
    simp only [verifyLoop, Out.ok.injEq] at h
    subst h
    exact ⟨rfl, ⟨[], rfl, trivial, by simp⟩, by simp⟩
  | cons p work ih =>
    obtain ⟨t, m⟩ := p
    intro st s s' h
    simp only [verifyLoop] at h
    cases ho : verifyTarget C expected g st t m s with
    | fail => rw [ho] at h; simp [Out.bind] at h
    | fault => rw [ho] at h; simp [Out.bind] at h
    | ok s1 =>
    rw [ho] at h
    simp only [Out.bind] at h
    obtain ⟨n1, r1⟩ := verifyTarget_any ho
    obtain ⟨n2, ⟨es, e1, e2, e3⟩, r2⟩ := ih (st + 1) s1 s' h
    refine ⟨n2.trans n1, ?_, ?_⟩
    · rcases r1 with ⟨r1, _⟩ | ⟨c, r1⟩
      · refine ⟨es, by rw [e1, r1], e2, fun e he => ?_⟩
        obtain ⟨k, k1, k2, k3⟩ := e3 e he
        exact ⟨k, k1, by omega, by simp only [List.length_cons]; omega⟩
      · refine ⟨es ++ [⟨c, some st⟩], by rw [e1, r1]; simp, descending_snoc es e2 (fun e he => ?_), ?_⟩
        · obtain ⟨k, k1, k2, k3⟩ := e3 e he
          exact ⟨k, k1, by omega⟩
        · intro e he
          rcases List.mem_append.1 he with he | he
          · obtain ⟨k, k1, k2, k3⟩ := e3 e he
            exact ⟨k, k1, by omega, by simp only [List.length_cons]; omega⟩
          · simp only [List.mem_singleton] at he
            subst he
            exact ⟨st, rfl, by omega, by simp only [List.length_cons]; omega⟩
    · intro k u tg hk
      cases k with
      | succ k =>
        rw [List.getElem?_cons_succ] at hk
        rcases r2 k u tg hk with ⟨e, he, hek⟩ | hpass
        · exact Or.inl ⟨e, he, by rw [hek]; congr 1; omega⟩
        · rw [n1] at hpass
          exact Or.inr hpass
      | zero =>
        simp only [List.getElem?_cons_zero, Option.some.injEq, Prod.mk.injEq] at hk
        obtain ⟨rfl, rfl⟩ := hk
        rcases r1 with ⟨_, hx⟩ | ⟨c, r1⟩
        · exact Or.inr hx
        · left
          refine ⟨⟨c, some st⟩, ?_, rfl⟩
          rw [e1, r1]
          simp

/-- A verification: an error for the block as a whole, or each target has an error or passed; nothing but the mark of the
block is changed. -/
theorem verify_any {C : Crypto} {accept : Bool} {P : VerifyParams} {self : Nat} {w w' : View} {errs : List Err}
    {sec : BlockView} (hsec : w.blocks[self]? = some sec) (h : verify C accept P self w = .ok (errs, w')) :
    (w' = w ∨ (errs = [] ∧ w' = View.setDeleted w self accept)) ∧
    ((∃ c, errs = [⟨c, none⟩]) ∨
     ∃ g a, verifyingOf C P sec = .ok (.good g) ∧ sec.body = .sec a ∧ Descending errs ∧
      (∀ e ∈ errs, ∃ k, e.target = some k ∧ k < a.targets.length) ∧
      ∀ (k : Nat) t m, a.targets[k]? = some t → (allResults a.results 1)[k]? = some m →
        (∃ e ∈ errs, e.target = some k) ∨ ∃ x, MacOk C P.mask g w t m x) := by
  unfold verify at h
  rw [hsec] at h
  simp only at h
  cases ho : verifyingOf C P sec with
  | fail => rw [ho] at h; simp [Out.bind] at h
  | fault => rw [ho] at h; simp [Out.bind] at h
  | ok k =>
  rw [ho] at h
  simp only [Out.bind] at h
  cases k with
  | bad c =>
    simp only [Out.ok.injEq, Prod.mk.injEq] at h
    obtain ⟨rfl, rfl⟩ := h
    exact ⟨Or.inl rfl, Or.inl ⟨c, rfl⟩⟩
  | good g =>
  simp only at h
  obtain ⟨a, macs, ha, ht, rfl, hl, hwork, _⟩ := verifyingOf_good ho
  cases hloop : verifyLoop C P.mask g 0 g.work ⟨w, [], 0⟩ with
  | fail => rw [hloop] at h; simp at h
  | fault => rw [hloop] at h; simp at h
  | ok s =>
  rw [hloop] at h
  simp only [Out.ok.injEq] at h
  obtain ⟨n1, ⟨es, e1, e2, e3⟩, r⟩ := verifyLoop_any g.work 0 ⟨w, [], 0⟩ s hloop
  simp only [List.append_nil] at e1
  simp only at n1
  have hlen : g.work.length = a.targets.length := by
    rw [hwork, List.length_zip]; omega
  have hitem : ∀ (k : Nat) t m, a.targets[k]? = some t → (allResults a.results 1)[k]? = some m →
      (∃ e ∈ s.errors, e.target = some k) ∨ ∃ x, MacOk C P.mask g w t m x := by
    intro k t m h1 h2
    have hw : g.work[k]? = some (t, m) := by
      rw [hwork, List.getElem?_zip_eq_some]
      exact ⟨h1, h2⟩
    rcases r k t m hw with ⟨e, he, hek⟩ | hx
    · exact Or.inl ⟨e, he, by rw [hek]; congr 1; omega⟩
    · exact Or.inr hx
  unfold finish at h
  by_cases hes : s.errors = []
  · rw [if_pos hes] at h
    by_cases hm : s.mask ≠ P.mask
    · rw [if_pos hm] at h
      simp only [Prod.mk.injEq] at h
      obtain ⟨rfl, rfl⟩ := h
      exact ⟨Or.inl n1, Or.inl ⟨_, rfl⟩⟩
    · rw [if_neg hm] at h
      simp only [Prod.mk.injEq] at h
      obtain ⟨rfl, rfl⟩ := h
      refine ⟨Or.inr ⟨rfl, by rw [n1]⟩, Or.inr ⟨g, a, rfl, ha, trivial, by simp, ?_⟩⟩
      rw [hes] at hitem
      exact hitem
  · rw [if_neg hes] at h
    simp only [Prod.mk.injEq] at h
    obtain ⟨rfl, rfl⟩ := h
    refine ⟨Or.inl n1, Or.inr ⟨g, a, rfl, ha, e1 ▸ e2, fun e he => ?_, hitem⟩⟩
    obtain ⟨k, k1, _, k3⟩ := e3 e (e1 ▸ he)
    exact ⟨k, k1, by omega⟩

end Hdtn.BpSecProcess
