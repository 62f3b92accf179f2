import Verif.BpSecProcess.Receive

/-! The integrity blocks of a received bundle. -/

namespace Hdtn.BpSecProcess

open Hdtn.HashMap16 Hdtn.Bpv7Canonical Hdtn.BpSec7 Hdtn.BundleView7 Hdtn.BundleView7.Spec Hdtn.BpSecBundle Spec

/-- The policy that applies to a security block, at an acceptor or a verifier. -/
def Applies (E : Env) (v : View) (a : Asb) (acceptor : Bool) (p : BpSecPolicy.Policy) : Prop :=
  E.search v.primary a.source = if acceptor then .acceptor p else .verifier p

/-- An error for the block as a whole. -/
theorem fail_whole {acceptor : Bool} {s : EventSet} {self : Nat} {c : Code} {v v' : View}
    (h : fail acceptor true s self [⟨c, none⟩] v = .ok (.keep v')) : ¬ Dropped s acceptor true (2 ^ 64 - 1) c := by
  unfold fail at h
  cases acceptor with
  | true =>
    simp only [if_true] at h
    unfold failAcceptor at h
    simp only [numberOf, Out.bind, removeSop, actions_eq, Bool.not_true, Bool.false_and, Bool.false_eq_true, if_false, if_true] at h
    rintro (⟨_, h', _⟩ | h' | ⟨m, h', hm⟩)
    · simp at h'
    · rw [h'] at h; simp at h
    · rw [h'] at h
      simp only at h
      rcases hm with hm | hm
      · rw [if_pos ((testBit_fail m).2 hm)] at h; simp at h
      · by_cases hf : m.testBit bitFail = true
        · rw [if_pos hf] at h; simp at h
        · rw [if_neg hf, if_pos ((testBit_target m).2 hm.1), if_pos ((meansPayload_iff allOfThem).2 (Or.inr rfl))] at h
          simp at h
  | false =>
    simp only [Bool.false_eq_true, if_false] at h
    unfold failVerifier at h
    simp only [numberOf, Out.bind, removeSop, actions_eq] at h
    rintro (⟨h', _⟩ | h' | ⟨m, h', hm⟩)
    · simp at h'
    · rw [h'] at h; simp at h
    · rw [h'] at h
      simp only at h
      have : ∃ v1, (if m.testBit bitRemoveSop = true then some (View.setDeleted v self true) else some v) = some v1 := by
        split_ifs
        · exact ⟨_, rfl⟩
        · exact ⟨_, rfl⟩
      obtain ⟨v1, e⟩ := this
      rw [e] at h
      simp only at h
      rcases hm with hm | hm
      · rw [if_pos ((testBit_fail m).2 hm)] at h; simp at h
      · by_cases hf : m.testBit bitFail = true
        · rw [if_pos hf] at h; simp at h
        · rw [if_neg hf, if_pos ((testBit_target m).2 hm.1), if_pos ((meansPayload_iff allOfThem).2 (Or.inr rfl))] at h
          simp at h

/-- What happened at a target for which there was an error: the event set does not stop the bundle, and if it has the
block removed the block is marked. -/
def Tolerated (E : Env) (p : BpSecPolicy.Policy) (acceptor : Bool) (v v' : View) (t : Nat) : Prop :=
  ∃ s c, E.events p.bib.events = some s ∧ ¬ Dropped s acceptor true t c ∧
    (TargetRemoved s acceptor true c → ∀ (j : Nat) x, View.indexOf v t = some j → v.blocks[j]? = some x →
      ¬ IsSecType x.block.typeCode → ∃ y, v'.blocks[j]? = some y ∧ y.deleted = true)

theorem stepBib_policy {E : Env} {ghost : Nat → Asb} {i : Nat} {v v' : View} {b : BlockView} {a : Asb} {acceptor : Bool}
    {p : BpSecPolicy.Policy} (hb : v.blocks[i]? = some b) (hty : b.block.typeCode = 11) (ha : b.body = .sec a)
    (hs : Applies E v a acceptor p) (hd : p.doBib = true) (h : stepBib E ghost i v = .ok (.keep v')) :
    (∃ s c, E.events p.bib.events = some s ∧ ¬ Dropped s acceptor true (2 ^ 64 - 1) c) ∨
    ∃ g, verifyingOf E.crypto (verifyParams p) b = .ok (.good g) ∧ ∀ (k : Nat) t, a.targets[k]? = some t →
      (∃ m x, (allResults a.results 1)[k]? = some m ∧ MacOk E.crypto (verifyParams p).mask g v t m x) ∨
      Tolerated E p acceptor v v' t := by
  have hsec : IsSecType b.block.typeCode := by rw [hty]; exact Or.inl rfl
  unfold stepBib at h
  rw [settle_sec hb (by rw [ha]; simp)] at h
  simp only [hb, asbOf, ha] at h
  have hv : verifyBy E acceptor p i v = .ok (.keep v') := by
    unfold Applies at hs
    rw [hs] at h
    cases acceptor <;> exact h
  unfold verifyBy at hv
  rw [if_neg (by simp [hd])] at hv
  cases hver : verify E.crypto acceptor (verifyParams p) i v with
  | fail => rw [hver] at hv; simp [Out.bind] at hv
  | fault => rw [hver] at hv; simp [Out.bind] at hv
  | ok r =>
  obtain ⟨errs, v1⟩ := r
  rw [hver] at hv
  simp only [Out.bind] at hv
  obtain ⟨n1, r1⟩ := verify_any hb hver
  have htag : ∀ g, verifyingOf E.crypto (verifyParams p) b = .ok (.good g) → ∀ (k : Nat) t, a.targets[k]? = some t →
      ∃ m, (allResults a.results 1)[k]? = some m := by
    intro g hg k t hk
    obtain ⟨a', tags, ha', _, rfl, hl, _⟩ := verifyingOf_good hg
    rw [ha] at ha'
    simp only [Body.sec.injEq] at ha'
    subst ha'
    have := (List.getElem?_eq_some_iff.1 hk).1
    exact ⟨_, List.getElem?_eq_getElem (by rw [hl]; exact this)⟩
  by_cases he : errs = []
  · right
    rcases r1 with ⟨c, r1⟩ | ⟨g, a', hg, ha', _, _, r⟩
    · rw [he] at r1; simp at r1
    · rw [ha] at ha'
      simp only [Body.sec.injEq] at ha'
      subst ha'
      refine ⟨g, hg, fun k t hk => Or.inl ?_⟩
      obtain ⟨m, hm⟩ := htag g hg k t hk
      rcases r k t m hk hm with ⟨e, hme, _⟩ | ⟨x, hx⟩
      · rw [he] at hme; simp at hme
      · exact ⟨m, x, hm, hx⟩
  rw [if_neg he] at hv
  split at hv
  · simp at hv
  rename_i s hev
  have hv1 : v1 = v := by
    rcases n1 with h | ⟨h, _⟩
    · exact h
    · exact absurd h he
  subst hv1
  rcases r1 with ⟨c, r1⟩ | ⟨g, a', hg, ha', hdesc, hlt, r⟩
  · subst r1
    exact Or.inl ⟨s, c, hev, fail_whole hv⟩
  rw [ha] at ha'
  simp only [Body.sec.injEq] at ha'
  subst ha'
  right
  refine ⟨g, hg, fun k t hk => ?_⟩
  obtain ⟨m, hm⟩ := htag g hg k t hk
  rcases r k t m hk hm with ⟨e, hme, hek⟩ | ⟨x, hx⟩
  swap
  · exact Or.inl ⟨m, x, hm, hx⟩
  right
  have hab : ∀ x, v1.blocks[i]? = some x → x.body = .sec a := by
    intro x hx
    rw [hb] at hx
    simp only [Option.some.injEq] at hx
    rw [← hx]
    exact ha
  have hlt' : ∀ e ∈ errs, ∀ m, e.target = some m → m < a.targets.length := by
    intro f hf m hfm
    obtain ⟨m', h1, h2⟩ := hlt f hf
    rw [hfm] at h1
    simp only [Option.some.injEq] at h1
    omega
  have hl : ∀ e ∈ errs, TakenOut s acceptor e.code → a.targets.length = a.results.length := by
    intro e hm htk
    by_contra hne
    exact fail_lengths hb hne errs [] v1 v' (handled_nil hab) hdesc hlt' hv e hm htk
  rcases fail_all_aux (acceptor := acceptor) (integrity := true) (s := s) hb errs [] [] v1 (handled_nil hab) hdesc
      (fun f hf m hfm => ⟨hlt' f hf m hfm, by simp⟩) hl with ⟨_, hdrop⟩ | ⟨hnd, ks, ns, v2, hfail, hH, _, hns⟩
  · rw [hdrop] at hv; simp at hv
  · rw [hfail] at hv
    simp only [Out.ok.injEq, Verdict.keep.injEq] at hv
    subst hv
    refine ⟨s, e.code, hev, hnd e hme k t hek hk, fun htr j x hj hx hnsec => ?_⟩
    have hji : j ≠ i := by
      rintro rfl
      rw [hb] at hx
      simp only [Option.some.injEq] at hx
      subst hx
      exact hnsec hsec
    obtain ⟨z, z1, _, z3⟩ := hH.other j x hji hx
    refine ⟨z, z1, z3.2 (Or.inr ?_)⟩
    obtain ⟨b', e1, e2, e3⟩ := isFirst_indexOf.1 hj
    refine ⟨b', e1, ?_, e3⟩
    simp only [List.mem_singleton] at e2
    rw [e2]
    exact (hns t).2 (Or.inr ⟨e, hme, k, hek, hk, htr⟩)

theorem mac_congr {C : Crypto} {variant : Nat} {key : Bytes} {scope : Nat} {primary security : Bytes} {x y : BlockView}
    (h : y.block = x.block ∧ y.raw = x.raw) :
    mac C variant key scope primary security (some y) = mac C variant key scope primary security (some x) := by
  obtain ⟨b1, b2, b3, b4, b5⟩ := x
  obtain ⟨c1, c2, c3, c4, c5⟩ := y
  simp only at h
  obtain ⟨rfl, rfl⟩ := h
  rfl

/-- A target of an integrity block passed: its HMAC, of the block in the view that is passed on, is the one in the
security block. -/
def Right (C : Crypto) (g : Verifying) (v : View) (t : Nat) (m : Bytes) : Prop :=
  (t = 0 → mac C g.variant g.key g.scope v.primaryRaw g.header none = m) ∧
  (t ≠ 0 → ∃ y, v.byNumber t = some y ∧
    (IsBlock false y.raw y.block → mac C g.variant g.key g.scope v.primaryRaw g.header (some y) = m))

theorem right_of_macOk {C : Crypto} {expected : Nat} {g : Verifying} {v v' : View} {t : Nat} {m : Bytes} {x : Option BlockView}
    (hraw : v'.primaryRaw = v.primaryRaw) (hn : v'.blocks.map (·.block.number) = v.blocks.map (·.block.number)) (hs : Same v v')
    (h : MacOk C expected g v t m x) : Right C g v' t m := by
  obtain ⟨h1, h2, _, h4⟩ := h
  refine ⟨fun h0 => ?_, fun h0 => ?_⟩
  · have hx := h1 h0
    subst hx
    rw [hraw]
    exact h4 (fun b h => by simp at h)
  · obtain ⟨b, rfl, hb, _⟩ := h2 h0
    have hb' : ∃ i, View.indexOf v t = some i ∧ v.blocks[i]? = some b := by
      have h5 : v.blocks.find? (fun b => decide (b.block.number = t)) = some b := hb
      obtain ⟨q1, i, hi, rfl, q2⟩ := List.find?_eq_some_iff_getElem.1 h5
      exact ⟨i, List.findIdx?_eq_some_iff_getElem.2 ⟨hi, q1, fun j hj => by simpa using q2 j hj⟩, List.getElem?_eq_getElem hi⟩
    obtain ⟨i, hi, hbi⟩ := hb'
    obtain ⟨y, y1, y2⟩ := hs.get hbi
    have hi' : View.indexOf v' t = some i := by rw [indexOf_congr hn]; exact hi
    obtain ⟨z, z1, _, z3⟩ := indexOf_get hi'
    rw [y1] at z1
    simp only [Option.some.injEq] at z1
    subst z1
    refine ⟨y, z3, fun hblk => ?_⟩
    rw [mac_congr y2, hraw]
    refine h4 (fun b' hb' => ?_)
    simp only [Option.some.injEq] at hb'
    subst hb'
    rw [← y2.1, ← y2.2]
    exact hblk

/-- A received bundle with an integrity block at `i` that is not encrypted and for which there is a policy. -/
theorem receive_bib {E : Env} {ghost : Nat → Asb} {pad : Bytes} {w v' : View} (hF : Flat w)
    (h : receive E ghost pad w = .ok (.keep v')) {i : Nat} {b : BlockView} {a : Asb} {acceptor : Bool} {p : BpSecPolicy.Policy}
    (hb : w.blocks[i]? = some b) (hty : b.block.typeCode = 11) (ha : b.body = .sec a)
    (hplain : ∀ (j : Nat) c d, w.blocks[j]? = some c → c.block.typeCode = 12 → c.body = .sec d → b.block.number ∉ d.targets)
    (hs : Applies E w a acceptor p) (hd : p.doBib = true) :
    (∃ s c, E.events p.bib.events = some s ∧ ¬ Dropped s acceptor true (2 ^ 64 - 1) c) ∨
    ∃ g, verifyingOf E.crypto (verifyParams p) b = .ok (.good g) ∧ ∀ (k : Nat) t, a.targets[k]? = some t →
      (∃ m, (allResults a.results 1)[k]? = some m ∧ Right E.crypto g v' t m) ∨ Tolerated E p acceptor w v' t := by
  obtain ⟨u, h1, h2⟩ := receive_keep h
  have nu : Near (fun k => ∃ j ∈ positions w 12, Reach w j k) w u :=
    bcbLoop_near hF _ [] w u (fun j hj => positions_spec.1 (by simpa using hj)) (by simpa using positions_nodup w 12) (.refl _ _) h1
  have hreach : ¬ ∃ j ∈ positions w 12, Reach w j i := by
    rintro ⟨j, hj, hr⟩
    obtain ⟨c, hc, hct⟩ := positions_spec.1 hj
    rcases hr with rfl | ⟨c', d, t, hc', hd', ht, hi⟩
    · rw [hb] at hc
      simp only [Option.some.injEq] at hc
      subst hc
      rw [hty] at hct
      simp at hct
    · rw [hc] at hc'
      simp only [Option.some.injEq] at hc'
      subst hc'
      exact hplain j c d hc hct hd' (not_sec_of_index hb hi ▸ ht)
  obtain ⟨y, y1, _, yt, y4, _⟩ := nu.block i b hb
  obtain ⟨d1, rfl⟩ := y4 hreach
  have hi : i ∈ positions u 11 := positions_spec.2 ⟨_, y1, hty⟩
  obtain ⟨pre, post, hpp⟩ := List.append_of_mem hi
  have hnd := positions_nodup u 11
  have hall : ∀ j ∈ positions u 11, ∃ c, u.blocks[j]? = some c ∧ c.block.typeCode = 11 := fun j hj => positions_spec.1 hj
  rw [hpp] at h2 hnd hall
  obtain ⟨v1, q1, q2⟩ := steps_append _ _ _ _ h2
  obtain ⟨v2, q3, q4⟩ := steps_cons q2
  have hnp := List.nodup_append.1 hnd
  obtain ⟨n1, s1⟩ := bibLoop_keeps pre u v1 (fun j hj => hall j (List.mem_append_left _ hj)) q1
  obtain ⟨z, z1, _, _, z4, _⟩ := n1.block i _ y1
  obtain ⟨d2, rfl⟩ := z4 (fun hm => hnp.2.2 i hm i List.mem_cons_self rfl)
  have k2 := stepBib_keeps z1 hty q3
  obtain ⟨n3, s3⟩ := bibLoop_keeps post v2 v' (fun j hj => by
    obtain ⟨c, hc, hct⟩ := hall j (List.mem_append_right _ (List.mem_cons_of_mem _ hj))
    obtain ⟨c1, e1, e2, _⟩ := s1.get hc
    obtain ⟨c2, f1, f2, _⟩ := k2.2.get e1
    exact ⟨c2, f1, by rw [f2, e2]; exact hct⟩) q4
  have hs1 : Applies E v1 a acceptor p := by
    unfold Applies at hs ⊢
    rw [n1.primary, nu.primary]
    exact hs
  rcases stepBib_policy (b := { b with deleted := d2 }) z1 hty ha hs1 hd q3 with hw | ⟨g, hg, hres⟩
  · exact Or.inl hw
  right
  refine ⟨g, hg, fun k t hk => ?_⟩
  rcases hres k t hk with ⟨m, x, hm, hx⟩ | ⟨s, c, e1, e2, e3⟩
  · left
    refine ⟨m, hm, right_of_macOk ?_ ?_ ?_ hx⟩
    · rw [n3.primaryRaw, k2.1.primaryRaw]
    · rw [n3.numbers, k2.1.numbers]
    · exact s3.trans k2.2
  · right
    refine ⟨s, c, e1, e2, fun htr j x hj hx hns => ?_⟩
    have hj1 : View.indexOf v1 t = some j := by rw [n1.indexOf, nu.indexOf]; exact hj
    obtain ⟨x1, x1e, _, x1t, _⟩ := nu.block j x hx
    obtain ⟨x2, x2e, _, x2t, _⟩ := n1.block j x1 x1e
    obtain ⟨x3, x3e, x3d⟩ := e3 htr j x2 hj1 x2e (by rw [x2t, x1t]; exact hns)
    obtain ⟨x3', x3e', x3t, _⟩ := k2.2.get x2e
    rw [x3e] at x3e'
    simp only [Option.some.injEq] at x3e'
    subst x3e'
    obtain ⟨x4, x4e, _, _, _, x4d⟩ := n3.block j x3 x3e
    exact ⟨x4, x4e, x4d (by rw [x3t, x2t, x1t]; exact hns) x3d⟩

end Hdtn.BpSecProcess
