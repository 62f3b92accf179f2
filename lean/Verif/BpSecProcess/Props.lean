import Verif.BpSecProcess.Bib
import Verif.BpSecPolicy.Props

/-! C95 and C96: what the policies do with received bundles. -/

namespace Hdtn.BpSecProcess

open Hdtn.HashMap16 Hdtn.Bpv7Canonical Hdtn.Bpv7Canonical.Spec Hdtn.BpSec7 Hdtn.BundleView7 Hdtn.BundleView7.Spec Hdtn.BpSecBundle
open Hdtn.BpSecBundle.Spec Spec
open Hdtn.BpSecPolicy (Policy Manager Rule uri roleSource roleVerifier roleAcceptor)

/-! ### The confidentiality blocks of a bundle that was loaded -/

theorem targets_encrypted {v : View} {buf : Bytes} (hv : IsViewOf false v buf) {c : BlockView} {a : Asb} (hc : c ∈ v.blocks)
    (ht : c.block.typeCode = 12) (ha : c.body = .sec a) {t : Nat} (h : t ∈ a.targets) : t ∈ v.encrypted := by
  rw [hv.2.2.2.2.2.2.2.1]
  unfold allTargets
  refine List.mem_flatten.2 ⟨targetsOf c, List.mem_map_of_mem hc, ?_⟩
  simp [targetsOf, ht, ha, h]

theorem flat_of_view {v : View} {buf : Bytes} (hv : IsViewOf false v buf)
    (hnest : ∀ b ∈ v.blocks, b.block.typeCode = 12 → b.block.number ∉ v.encrypted) : Flat v := by
  refine ⟨fun i b hb ht => ?_, fun i j b c a hb ht hc hct ha hm => ?_, fun i j b c a d hij hb ht hc hct ha hd t hta htd => ?_⟩
  · have hbm := List.mem_of_getElem? hb
    have hbody := (hv.2.2.2.2.2.2.2.2.2.1 b hbm).2.2.2.2 (fun he => he.1 ht)
    cases hbb : b.body with
    | sec a => exact ⟨a, rfl, loaded_targets hv hbm ht hbb⟩
    | admin r => rw [hbb] at hbody; have := hbody.2.1; rw [ht] at this; simp at this
    | ext x =>
      rw [hbb] at hbody
      have := hbody.1
      rw [ht] at this
      cases x <;> simp [Ext.typeCode] at this
    | plain => rw [hbb] at hbody; exact absurd (Or.inr ht) hbody.2.2
    | hidden => rw [hbb] at hbody; exact hbody.elim
  · exact hnest b (List.mem_of_getElem? hb) ht (targets_encrypted hv (List.mem_of_getElem? hc) hct ha hm)
  · have h1 := hv.2.2.2.2.2.2.2.1
    have h2 := hv.2.2.2.2.2.2.2.2.1
    rw [h1] at h2
    unfold allTargets at h2
    have h3 := List.pairwise_iff_getElem.1 (List.nodup_flatten.1 h2).2
    obtain ⟨hi, rfl⟩ := List.getElem?_eq_some_iff.1 hb
    obtain ⟨hj, rfl⟩ := List.getElem?_eq_some_iff.1 hc
    have g1 : targetsOf v.blocks[i] = a.targets := by simp [targetsOf, ht, ha]
    have g2 : targetsOf v.blocks[j] = d.targets := by simp [targetsOf, hct, hd]
    rcases Nat.lt_or_gt_of_ne hij with h | h
    · have := h3 i j (by simpa using hi) (by simpa using hj) h
      simp only [List.getElem_map, g1, g2] at this
      exact this hta htd
    · have := h3 j i (by simpa using hj) (by simpa using hi) h
      simp only [List.getElem_map, g1, g2] at this
      exact this htd hta

theorem search_acceptor {E : Env} {v : View} {source : HashMap16.Eid} {p : Policy}
    (h : E.manager.find ⟨source, v.primary.source, v.primary.dest, roleAcceptor⟩ = some p) : E.search v.primary source = .acceptor p := by
  unfold Env.search
  rw [h]

/-- The policy of a security source for the endpoints of a bundle: the one as acceptor, or, elsewhere than at the
destination, the one as verifier. -/
def AppliesTo (E : Env) (v : View) (source : HashMap16.Eid) (acceptor : Bool) (p : Policy) : Prop :=
  (acceptor = true ∧ E.manager.find ⟨source, v.primary.source, v.primary.dest, roleAcceptor⟩ = some p) ∨
  (acceptor = false ∧ E.manager.find ⟨source, v.primary.source, v.primary.dest, roleAcceptor⟩ = none ∧
    v.primary.dest.node ≠ E.node ∧ E.manager.find ⟨source, v.primary.source, v.primary.dest, roleVerifier⟩ = some p)

theorem search_appliesTo {E : Env} {v : View} {source : HashMap16.Eid} {acceptor : Bool} {p : Policy}
    (h : AppliesTo E v source acceptor p) : E.search v.primary source = if acceptor then .acceptor p else .verifier p := by
  unfold Env.search
  rcases h with ⟨rfl, h⟩ | ⟨rfl, h1, h2, h3⟩
  · rw [h]; rfl
  · rw [h1, h3]
    simp [h2]

/-! ## C95: a bundle with encrypted blocks at an acceptor -/

/-- C95, an acceptor of a confidentiality block, when the bundle goes on: the initialization vector and the key are
the right ones, and each target was authenticated as it was received and is decrypted, or is not the payload block and its
block is marked for deletion. The confidentiality blocks themselves are not encrypted, which RFC 9172 demands. -/
theorem C95_acceptor_partial (E : Env) (ghost : Nat → Asb) (pad : Bytes) (v : View) (buf : Bytes) (hv : IsViewOf false v buf)
    (hnest : ∀ b ∈ v.blocks, b.block.typeCode = 12 → b.block.number ∉ v.encrypted)
    (v' : View) (h : receive E ghost pad v = .ok (.keep v'))
    (i : Nat) (sec : BlockView) (a : Asb) (hsec : v.blocks[i]? = some sec) (hty : sec.block.typeCode = 12) (ha : sec.body = .sec a)
    (p : Policy) (hp : E.manager.find ⟨a.source, v.primary.source, v.primary.dest, roleAcceptor⟩ = some p) (hd : p.doBcb = true) :
    ∃ (iv key : Bytes) (tags : List Bytes), a.params.find? (·.id = 1) = some ⟨1, .bytes iv⟩ ∧
      iv.length = (if p.bcb.short then 12 else 16) ∧
      ((∃ wrapped, a.params.find? (·.id = 3) = some ⟨3, .bytes wrapped⟩ ∧ E.crypto.unwrap p.bcb.kek wrapped = some key) ∨
        p.bcb.key = key) ∧
      tags = a.results.filterMap (fun r => match r with | ⟨1, .bytes x⟩ => some x | _ => none) ∧
      ∀ (k : Nat) t, a.targets[k]? = some t →
        (∃ (j : Nat) (x y : BlockView) (tag : Bytes), IsFirst v.blocks [t] j ∧ v.blocks[j]? = some x ∧ tags[k]? = some tag ∧
          16 ≤ tag.length ∧ (key.length = 16 ∨ key.length = 32) ∧
          (ShortHeader x.raw x.block → ShortHeader sec.raw sec.block → ∃ aad,
            IsAad p.bcb.scope v.primaryRaw (header x.block) (header sec.block) aad ∧ tag.take 16 = E.crypto.tag key iv aad x.block.data) ∧
          v'.blocks[j]? = some y ∧ y.block.typeCode = x.block.typeCode ∧ y.block.number = x.block.number ∧
          y.block.flags = x.block.flags ∧ y.block.data = E.crypto.ctr key iv x.block.data) ∨
        (t ≠ 1 ∧ ∀ (j : Nat) x, IsFirst v.blocks [t] j → v.blocks[j]? = some x → ¬ IsSecType x.block.typeCode →
          ∃ y, v'.blocks[j]? = some y ∧ y.deleted = true) := by
  obtain ⟨o, ho, hres⟩ := receive_acceptor (flat_of_view hv hnest) h hsec hty ha (search_acceptor hp) hd
  obtain ⟨a', tags, g1, g2, g3, g4, g5, g6, g7, g8, g9, g10⟩ := openingOf_good ho
  rw [ha] at g1
  simp only [Body.sec.injEq] at g1
  subst g1
  have hblk : ∀ b ∈ v.blocks, IsBlock false b.raw b.block := fun b hb => (isView_clean hv b hb).1
  have hsm : sec ∈ v.blocks := List.mem_of_getElem? hsec
  rw [headerOf_ok (hblk sec hsm), part_ok] at g9
  simp only [Out.ok.injEq] at g9
  refine ⟨o.iv, o.key, tags, getBytes_some g6, g7, ?_, by rw [g3]; exact allResults_eq _, fun k t hk => ?_⟩
  · have hne : ∀ (x y : Bytes), keyOf x = some y → x = y := by
      intro x y hxy
      unfold keyOf at hxy
      split_ifs at hxy
      exact Option.some.inj hxy
    rcases g10 with ⟨wr, kek, hw, k1, k2⟩ | ⟨_, k1⟩
    · exact Or.inl ⟨wr, getBytes_some hw, by rw [hne p.bcb.kek kek k1]; exact k2⟩
    · exact Or.inr (hne _ _ k1)
  rcases hres k t hk with ⟨tag, htg, j, x, e1, e2, e3, e4⟩ | ⟨t1, _, hdel⟩
  · left
    obtain ⟨y, y1, y2⟩ := e4 rfl
    have hf := withDataCrc_fields x (E.crypto.ctr o.key o.iv x.block.data)
    refine ⟨j, x, y, tag, isFirst_indexOf.1 e1, e2, by rw [g3]; exact htg, e3.long, by simpa [isAesKey] using e3.size, fun s1 s2 => ?_,
      y1, by rw [y2]; exact hf.1, by rw [y2]; exact hf.2.1, by rw [y2]; exact hf.2.2.1, by rw [y2]; exact hf.2.2.2.2⟩
    obtain ⟨hdr', q1, q2⟩ := e3.same
    have hxm : x ∈ v.blocks := List.mem_of_getElem? e2
    rw [headerOf_ok (hblk x hxm), part_ok] at q1
    simp only [Out.ok.injEq] at q1
    refine ⟨_, aadOf_isAad _ _ _ _, ?_⟩
    rw [q2, ← q1, ← g9, aadOf_part, aadOf_part2, hdr_short (hblk x hxm) s1, hdr_short (hblk sec hsm) s2, g8]
    rfl
  · right
    exact ⟨t1, fun j x hj hx hns => hdel j x (isFirst_indexOf.2 hj) hx hns⟩

/-- C95, the payload: if an acceptor passes on a bundle whose payload block is encrypted, the payload was authenticated
and is decrypted. -/
theorem C95_payload_partial (E : Env) (ghost : Nat → Asb) (pad : Bytes) (v : View) (buf : Bytes) (hv : IsViewOf false v buf)
    (hnest : ∀ b ∈ v.blocks, b.block.typeCode = 12 → b.block.number ∉ v.encrypted)
    (v' : View) (h : receive E ghost pad v = .ok (.keep v'))
    (i : Nat) (sec : BlockView) (a : Asb) (hsec : v.blocks[i]? = some sec) (hty : sec.block.typeCode = 12) (ha : sec.body = .sec a)
    (p : Policy) (hp : E.manager.find ⟨a.source, v.primary.source, v.primary.dest, roleAcceptor⟩ = some p) (hd : p.doBcb = true)
    (k : Nat) (hk : a.targets[k]? = some 1) :
    ∃ (iv key tag : Bytes) (j : Nat) (x y : BlockView), IsFirst v.blocks [1] j ∧ v.blocks[j]? = some x ∧ v'.blocks[j]? = some y ∧
      y.block.data = E.crypto.ctr key iv x.block.data ∧ a.params.find? (·.id = 1) = some ⟨1, .bytes iv⟩ ∧
      ((∃ wrapped, a.params.find? (·.id = 3) = some ⟨3, .bytes wrapped⟩ ∧ E.crypto.unwrap p.bcb.kek wrapped = some key) ∨
        p.bcb.key = key) ∧
      (ShortHeader x.raw x.block → ShortHeader sec.raw sec.block → ∃ aad,
        IsAad p.bcb.scope v.primaryRaw (header x.block) (header sec.block) aad ∧ tag.take 16 = E.crypto.tag key iv aad x.block.data) := by
  obtain ⟨iv, key, tags, h1, _, h3, _, h5⟩ := C95_acceptor_partial E ghost pad v buf hv hnest v' h i sec a hsec hty ha p hp hd
  rcases h5 k 1 hk with ⟨j, x, y, tag, q1, q2, _, _, _, q3, q4, _, _, _, q5⟩ | ⟨hne, _⟩
  · exact ⟨iv, key, tag, j, x, y, q1, q2, q4, q5, h1, h3, q3⟩
  · exact absurd rfl hne

/-- C95, the other blocks: a block that is not encrypted and is no confidentiality block goes on with the bytes it has;
if it is no integrity block either, all that can change is that it is marked for deletion. The primary block stays. -/
theorem C95_untouched (E : Env) (ghost : Nat → Asb) (pad : Bytes) (v : View) (buf : Bytes) (hv : IsViewOf false v buf)
    (hnest : ∀ b ∈ v.blocks, b.block.typeCode = 12 → b.block.number ∉ v.encrypted)
    (v' : View) (h : receive E ghost pad v = .ok (.keep v')) :
    v'.primary = v.primary ∧ v'.primaryRaw = v.primaryRaw ∧ v'.blocks.length = v.blocks.length ∧
    ∀ (j : Nat) x, v.blocks[j]? = some x → ∃ y, v'.blocks[j]? = some y ∧ y.block.number = x.block.number ∧
      y.block.typeCode = x.block.typeCode ∧
      (x.block.number ∉ v.encrypted → x.block.typeCode ≠ 12 → y.block = x.block ∧ y.raw = x.raw ∧
        (x.block.typeCode ≠ 11 → ∃ d, y = { x with deleted := d })) := by
  have hF := flat_of_view hv hnest
  obtain ⟨u, h1, h2⟩ := receive_keep h
  have nu := bcbLoop_near hF _ [] v u (fun j hj => positions_spec.1 (by simpa using hj))
    (by simpa using positions_nodup v 12) (.refl _ _) h1
  have nb := bibLoop_keeps _ _ _ (fun j hj => positions_spec.1 hj) h2
  refine ⟨nb.1.primary.trans nu.primary, nb.1.primaryRaw.trans nu.primaryRaw, nb.1.length.trans nu.length, fun j x hx => ?_⟩
  obtain ⟨y, y1, y2, y3, y4, _⟩ := nu.block j x hx
  obtain ⟨z, z1, z2, z3, z4, _⟩ := nb.1.block j y y1
  refine ⟨z, z1, z2.trans y2, z3.trans y3, fun hne h12 => ?_⟩
  have hT : ¬ ∃ i ∈ positions v 12, Reach v i j := by
    rintro ⟨i, hi, hr⟩
    obtain ⟨b, hb, hbt⟩ := positions_spec.1 hi
    rcases hr with rfl | ⟨b', a, t, hb', ha, ht, hij⟩
    · rw [hx] at hb
      simp only [Option.some.injEq] at hb
      exact h12 (by rw [hb]; exact hbt)
    · rw [hb] at hb'
      simp only [Option.some.injEq] at hb'
      subst hb'
      obtain ⟨x', hx', hxn, _⟩ := isFirst_indexOf.1 hij
      rw [hx] at hx'
      simp only [Option.some.injEq] at hx'
      subst hx'
      simp only [List.mem_cons, List.not_mem_nil, or_false] at hxn
      exact hne (by rw [hxn]; exact targets_encrypted hv (List.mem_of_getElem? hb) hbt ha ht)
  obtain ⟨d, rfl⟩ := y4 hT
  obtain ⟨z', w1, w2, w3⟩ := nb.2.get y1
  rw [z1] at w1
  simp only [Option.some.injEq] at w1
  subst w1
  refine ⟨w2, w3, fun h11 => ?_⟩
  obtain ⟨e, rfl⟩ := z4 (fun hm => by
    obtain ⟨c, hc, hct⟩ := positions_spec.1 hm
    rw [y1] at hc
    simp only [Option.some.injEq] at hc
    exact h11 (by rw [← hct, ← hc]))
  exact ⟨e, rfl⟩

/-- The positions of no blocks. -/
theorem positions_nil {v : View} {t : UInt8} (h : ∀ b ∈ v.blocks, b.block.typeCode ≠ t) : positions v t = [] := by
  refine List.eq_nil_iff_forall_not_mem.2 fun i hi => ?_
  obtain ⟨b, hb, ht⟩ := positions_spec.1 hi
  exact h b (List.mem_of_getElem? hb) ht

/-- C95, a bundle without security blocks is passed on as it is. -/
theorem C95_plain (E : Env) (ghost : Nat → Asb) (pad : Bytes) (v : View) (h : ∀ b ∈ v.blocks, ¬ IsSecType b.block.typeCode) :
    receive E ghost pad v = .ok (.keep v) := by
  unfold receive
  rw [positions_nil (t := 12) (fun b hb ht => h b hb (Or.inr ht))]
  simp only [steps, Out.bind]
  rw [positions_nil (t := 11) (fun b hb ht => h b hb (Or.inl ht))]
  rfl

theorem steps_same {f : Nat → View → Out Verdict} {v : View} : ∀ (is : List Nat), (∀ i ∈ is, f i v = .ok (.keep v)) →
    steps f is v = .ok (.keep v) := by
  intro is
  induction is with
  | nil => intro _; rfl
  | cons i is ih =>
    intro h
    unfold steps
    rw [h i List.mem_cons_self]
    exact ih fun j hj => h j (List.mem_cons_of_mem _ hj)

/-- C95, a forwarder without a policy for the endpoints of a bundle passes it on as it is, security blocks and all. -/
theorem C95_forwarder (E : Env) (ghost : Nat → Asb) (pad : Bytes) (v : View) (buf : Bytes) (hv : IsViewOf false v buf)
    (hdest : v.primary.dest.node ≠ E.node)
    (hno : ∀ source role, E.manager.find ⟨source, v.primary.source, v.primary.dest, role⟩ = none) :
    receive E ghost pad v = .ok (.keep v) := by
  have hsearch : ∀ s, E.search v.primary s = .nothing := by
    intro s
    unfold Env.search
    rw [hno, hno]
    simp [hdest]
  have hplain : ∀ (i : Nat) b, v.blocks[i]? = some b → IsSecType b.block.typeCode → b.body ≠ .plain := by
    intro i b hb hs he
    have hc := hv.2.2.2.2.2.2.2.2.2.1 b (List.mem_of_getElem? hb)
    by_cases hen : IsEncrypted v.encrypted b.block
    · have := hc.2.2.2.1 hen
      rw [he] at this
      simp at this
    · have := hc.2.2.2.2 hen
      rw [he] at this
      exact this.2.2 hs
  unfold receive
  have h1 : steps (stepBcb E ghost pad) (positions v 12) v = .ok (.keep v) := by
    refine steps_same _ fun i hi => ?_
    obtain ⟨b, hb, ht⟩ := positions_spec.1 hi
    unfold stepBcb
    rw [settle_sec hb (hplain i b hb (Or.inr ht))]
    simp only [hb, hsearch]
  have h2 : steps (stepBib E ghost) (positions v 11) v = .ok (.keep v) := by
    refine steps_same _ fun i hi => ?_
    obtain ⟨b, hb, ht⟩ := positions_spec.1 hi
    unfold stepBib
    rw [settle_sec hb (hplain i b hb (Or.inl ht))]
    simp only [hb, hsearch]
  rw [h1]
  exact h2

/-! ## C96: failed operations -/

/-- C96, errors at single targets, the last one first, in a security block with as many results as targets. The bundle is
dropped exactly if one of the errors demands it. Otherwise nothing changes except this: the operations that are to be
taken out are, the block is written anew if there are any, and is marked if none are left; and the blocks that are to be
removed are marked. -/
theorem C96_actions (acceptor integrity : Bool) (s : EventSet) (i : Nat) (es : List Err) (v : View) (b : BlockView) (a : Asb)
    (hb : v.blocks[i]? = some b) (ha : b.body = .sec a) (hl : a.targets.length = a.results.length)
    (hd : es.Pairwise fun e f => ∃ k m, e.target = some k ∧ f.target = some m ∧ m < k)
    (hr : ∀ e ∈ es, ∃ k, e.target = some k ∧ k < a.targets.length) :
    (fail acceptor integrity s i es v = .ok .drop ↔
      ∃ e ∈ es, ∃ k t, e.target = some k ∧ a.targets[k]? = some t ∧ Dropped s acceptor integrity t e.code) ∧
    (fail acceptor integrity s i es v ≠ .ok .drop → ∃ (ops removed : List Nat) (v' : View),
      fail acceptor integrity s i es v = .ok (.keep v') ∧
      (∀ k, k ∈ ops ↔ ∃ e ∈ es, e.target = some k ∧ TakenOut s acceptor e.code) ∧
      (∀ n, n ∈ removed ↔ ∃ e ∈ es, ∃ k, e.target = some k ∧ a.targets[k]? = some n ∧ TargetRemoved s acceptor integrity e.code) ∧
      v' = { v with blocks := v'.blocks } ∧ v'.blocks.length = v.blocks.length ∧
      (∀ (j : Nat) x, j ≠ i → v.blocks[j]? = some x → ∃ d, v'.blocks[j]? = some { x with deleted := d } ∧
        (d = true ↔ x.deleted = true ∨ IsFirst v.blocks removed j)) ∧
      (∃ d m, v'.blocks[i]? = some { b with body := .sec (withoutOps ops a), dirty := m, deleted := d } ∧
        (m = true ↔ b.dirty = true ∨ ops ≠ []) ∧
        (d = true ↔ b.deleted = true ∨ IsFirst v.blocks removed i ∨ (ops ≠ [] ∧ (withoutOps ops a).targets = [])))) := by
  have hdesc : ∀ es : List Err, (es.Pairwise fun e f => ∃ k m, e.target = some k ∧ f.target = some m ∧ m < k) →
      (∀ e ∈ es, ∃ k, e.target = some k ∧ k < a.targets.length) → Descending es := by
    intro es
    induction es with
    | nil => intro _ _; trivial
    | cons e es ih =>
      intro h1 h2
      rw [List.pairwise_cons] at h1
      refine ⟨?_, ih h1.2 fun f hf => h2 f (List.mem_cons_of_mem _ hf)⟩
      obtain ⟨k, hk, _⟩ := h2 e List.mem_cons_self
      refine ⟨k, hk, fun f hf => ?_⟩
      obtain ⟨k', m, q1, q2, q3⟩ := h1.1 f hf
      rw [hk] at q1
      simp only [Option.some.injEq] at q1
      exact ⟨m, q2, by omega⟩
  have hr' : ∀ e ∈ es, ∀ k, e.target = some k → k < a.targets.length ∧ ∀ m ∈ ([] : List Nat), k < m := by
    intro e he k hk
    obtain ⟨k', h1, h2⟩ := hr e he
    rw [hk] at h1
    simp only [Option.some.injEq] at h1
    exact ⟨by omega, by simp⟩
  have hab : ∀ x, v.blocks[i]? = some x → x.body = .sec a := by
    intro x hx
    rw [hb] at hx
    simp only [Option.some.injEq] at hx
    rw [← hx]
    exact ha
  rcases fail_all_aux (acceptor := acceptor) (integrity := integrity) (s := s) hb es [] [] v (handled_nil hab) (hdesc es hd hr)
      hr' (fun _ _ _ => hl) with ⟨h1, h2⟩ | ⟨h1, ks, ns, v', h2, hH, hks, hns⟩
  · exact ⟨⟨fun _ => h1, fun _ => h2⟩, fun h => absurd h2 h⟩
  · refine ⟨⟨fun h => by rw [h2] at h; simp at h, ?_⟩, fun _ => ⟨ks, ns, v', h2, by simpa using hks, by simpa using hns, hH.same,
      hH.length, fun j x hj hx => ?_, ?_⟩⟩
    · rintro ⟨e, he, k, t, q1, q2, q3⟩
      exact absurd q3 (h1 e he k t q1 q2)
    · obtain ⟨y, y1, y2, y3⟩ := hH.other j x hj hx
      exact ⟨y.deleted, by rw [y1, ← y2], y3⟩
    · obtain ⟨y, y1, y2, y3, y4⟩ := hH.here b hb
      exact ⟨y.deleted, y.dirty, by rw [y1, ← y2], y3, y4⟩

/-- The plaintext of a target of an integrity block in a view. -/
def IsText (scope : Nat) (v : View) (sec : BlockView) (t : Nat) (text : Bytes) : Prop :=
  (t = 0 ∧ IsIpptPrimary scope v.primaryRaw (header sec.block) text) ∨
  (t ≠ 0 ∧ ∃ y, v.blocks.find? (·.block.number = t) = some y ∧ IsIppt scope v.primaryRaw (header sec.block) y.block text)

/-- The bytes of the target are a block with its members in the shortest form. -/
def IsShort (v : View) (t : Nat) : Prop :=
  ∀ y, v.blocks.find? (·.block.number = t) = some y → IsBlock false y.raw y.block ∧ ShortHeader y.raw y.block ∧ ShortData y.raw y.block

/-- C96, integrity: a received bundle with an integrity block that is not encrypted, at a node with a policy as its
acceptor or verifier, when it goes on. If the event set of the policy has the bundle dropped for either error, the HMAC of
each target is right, as the target is in the bundle that is passed on. In general there is for a target with another HMAC
an event that does not have the bundle dropped, and whose block is marked if the event says so. -/
theorem C96_integrity_partial (E : Env) (ghost : Nat → Asb) (pad : Bytes) (v : View) (buf : Bytes) (hv : IsViewOf false v buf)
    (hnest : ∀ b ∈ v.blocks, b.block.typeCode = 12 → b.block.number ∉ v.encrypted) (hlen : v.primaryRaw.length < 2 ^ 64)
    (v' : View) (h : receive E ghost pad v = .ok (.keep v'))
    (i : Nat) (sec : BlockView) (a : Asb) (hsec : v.blocks[i]? = some sec) (hty : sec.block.typeCode = 11) (ha : sec.body = .sec a)
    (hplain : sec.block.number ∉ v.encrypted) (hshort : ShortHeader sec.raw sec.block)
    (p : Policy) (acceptor : Bool)
    (hp : AppliesTo E v a.source acceptor p) (hd : p.doBib = true) :
    (∃ s c, E.events p.bib.events = some s ∧ ¬ Dropped s acceptor true (2 ^ 64 - 1) c) ∨
    ∃ (key : Bytes) (macs : List Bytes),
      ((∃ wrapped, a.params.find? (·.id = 2) = some ⟨2, .bytes wrapped⟩ ∧ E.crypto.unwrap p.bib.kek wrapped = some key) ∨
        p.bib.key = key) ∧
      macs = a.results.filterMap (fun r => match r with | ⟨1, .bytes x⟩ => some x | _ => none) ∧
      ∀ (k : Nat) t, a.targets[k]? = some t →
        ((t ≠ 0 → IsShort v' t) → ∃ text, IsText p.bib.scope v' sec t text ∧
          macs[k]? = some (E.crypto.hmac p.bib.variant key text)) ∨
        (∃ s c, E.events p.bib.events = some s ∧ ¬ Dropped s acceptor true t c ∧
          (TargetRemoved s acceptor true c → ∀ (j : Nat) x, IsFirst v.blocks [t] j → v.blocks[j]? = some x →
            ¬ IsSecType x.block.typeCode → ∃ y, v'.blocks[j]? = some y ∧ y.deleted = true)) := by
  have hblk : ∀ b ∈ v.blocks, IsBlock false b.raw b.block := fun b hb => (isView_clean hv b hb).1
  have hsm : sec ∈ v.blocks := List.mem_of_getElem? hsec
  have hraw : v'.primaryRaw = v.primaryRaw := by
    obtain ⟨u, h1, h2⟩ := receive_keep h
    have nu := bcbLoop_near (flat_of_view hv hnest) _ [] v u (fun j hj => positions_spec.1 (by simpa using hj))
      (by simpa using positions_nodup v 12) (.refl _ _) h1
    rw [(bibLoop_keeps _ _ _ (fun j hj => positions_spec.1 hj) h2).1.primaryRaw, nu.primaryRaw]
  rcases receive_bib (flat_of_view hv hnest) h hsec hty ha
      (fun j c d hc hct hdd hm => hplain (targets_encrypted hv (List.mem_of_getElem? hc) hct hdd hm)) (search_appliesTo hp) hd with hw | ⟨g, hg, hres⟩
  · exact Or.inl hw
  right
  obtain ⟨a', macs, g1, g2, g3, g4, g5, g7, g8, g9, g10⟩ := verifyingOf_good hg
  rw [ha] at g1
  simp only [Body.sec.injEq] at g1
  subst g1
  rw [headerOf_ok (hblk sec hsm), part_ok] at g9
  simp only [Out.ok.injEq] at g9
  have hmac : ∀ x : Option BlockView,
      mac E.crypto g.variant g.key g.scope v'.primaryRaw g.header x = mac E.crypto p.bib.variant g.key p.bib.scope v'.primaryRaw (header sec.block) x := by
    intro x
    rw [← g9, mac_part, hdr_short (hblk sec hsm) hshort, g7, g8]
    rfl
  refine ⟨g.key, macs, ?_, by rw [g3]; exact allResults_eq _, fun k t hk => ?_⟩
  · have hne : ∀ (x y : Bytes), keyOf x = some y → x = y := by
      intro x y hxy
      unfold keyOf at hxy
      split_ifs at hxy
      exact Option.some.inj hxy
    rcases g10 with ⟨wr, kek, hw, k1, k2⟩ | ⟨_, k1⟩
    · exact Or.inl ⟨wr, getBytes_some hw, by rw [hne p.bib.kek kek k1]; exact k2⟩
    · exact Or.inr (hne _ _ k1)
  rcases hres k t hk with ⟨m, hm, hR⟩ | ⟨s, c, e1, e2, e3⟩
  · left
    intro hcond
    rw [g3, hm]
    by_cases h0 : t = 0
    · refine ⟨_, Or.inl ⟨h0, ipptPrimary_spec _ _ _ (by rw [hraw]; exact hlen)⟩, ?_⟩
      have := hR.1 h0
      rw [hmac] at this
      rw [← this]
      rfl
    · obtain ⟨y, y1, y2⟩ := hR.2 h0
      obtain ⟨b1, b2, b3⟩ := hcond h0 y y1
      refine ⟨_, Or.inr ⟨h0, y, y1, ipptOf_spec b1 b2 b3 _ _ _⟩, ?_⟩
      have := y2 b1
      rw [hmac] at this
      rw [← this]
      rfl
  · right
    exact ⟨s, c, e1, e2, fun htr j x hj hx hns => e3 htr j x (isFirst_indexOf.2 hj) hx hns⟩

/-- C96, integrity, strictly: if the event set has the bundle dropped for either error and the bundle goes on, the HMAC of
every target of the integrity block is right. -/
theorem C96_strict_partial (E : Env) (ghost : Nat → Asb) (pad : Bytes) (v : View) (buf : Bytes) (hv : IsViewOf false v buf)
    (hnest : ∀ b ∈ v.blocks, b.block.typeCode = 12 → b.block.number ∉ v.encrypted) (hlen : v.primaryRaw.length < 2 ^ 64)
    (v' : View) (h : receive E ghost pad v = .ok (.keep v'))
    (i : Nat) (sec : BlockView) (a : Asb) (hsec : v.blocks[i]? = some sec) (hty : sec.block.typeCode = 11) (ha : sec.body = .sec a)
    (hplain : sec.block.number ∉ v.encrypted) (hshort : ShortHeader sec.raw sec.block)
    (p : Policy) (acceptor : Bool) (hp : AppliesTo E v a.source acceptor p) (hd : p.doBib = true)
    (s : EventSet) (hs : E.events p.bib.events = some s) (hstop : ∀ c m, actionsFor s acceptor c = some m → StopsBundle m) :
    ∃ (key : Bytes) (macs : List Bytes),
      ((∃ wrapped, a.params.find? (·.id = 2) = some ⟨2, .bytes wrapped⟩ ∧ E.crypto.unwrap p.bib.kek wrapped = some key) ∨
        p.bib.key = key) ∧
      macs = a.results.filterMap (fun r => match r with | ⟨1, .bytes x⟩ => some x | _ => none) ∧
      ∀ (k : Nat) t, a.targets[k]? = some t →
        (t = 0 → ∃ text, IsIpptPrimary p.bib.scope v.primaryRaw (header sec.block) text ∧
          macs[k]? = some (E.crypto.hmac p.bib.variant key text)) ∧
        (t ≠ 0 → ∀ x, v.blocks.find? (·.block.number = t) = some x → t ∉ v.encrypted → x.block.typeCode ≠ 12 →
          ShortHeader x.raw x.block → ShortData x.raw x.block → ∃ text, IsIppt p.bib.scope v.primaryRaw (header sec.block) x.block text ∧
            macs[k]? = some (E.crypto.hmac p.bib.variant key text)) := by
  have hdrop : ∀ n c, Dropped s acceptor true n c := by
    intro n c
    unfold Dropped
    cases hm : actionsFor s acceptor c with
    | none => exact Or.inr (Or.inl rfl)
    | some m => exact Or.inr (Or.inr ⟨m, rfl, Or.inl (hstop c m hm)⟩)
  obtain ⟨_, hraw, hl, hblk⟩ := C95_untouched E ghost pad v buf hv hnest v' h
  rcases C96_integrity_partial E ghost pad v buf hv hnest hlen v' h i sec a hsec hty ha hplain hshort p acceptor hp hd with
    ⟨s', c, h1, h2⟩ | ⟨key, macs, h1, h2, h3⟩
  · rw [hs] at h1
    simp only [Option.some.injEq] at h1
    subst h1
    exact absurd (hdrop _ _) h2
  refine ⟨key, macs, h1, h2, fun k t hk => ?_⟩
  rcases h3 k t hk with g | ⟨s', c, g1, g2, _⟩
  · refine ⟨fun h0 => ?_, fun h0 x hx hne h12 s1 s2 => ?_⟩
    · obtain ⟨text, q1 | q1, q2⟩ := g (fun h => absurd h0 h)
      · rw [← hraw]
        exact ⟨text, q1.2, q2⟩
      · exact absurd h0 q1.1
    · have hfind : ∃ d, v'.blocks.find? (·.block.number = t) = some d ∧ d.block = x.block ∧ d.raw = x.raw := by
        obtain ⟨e1, j, hj, e2, e3⟩ := List.find?_eq_some_iff_getElem.1 hx
        have hxj : v.blocks[j]? = some x := by rw [List.getElem?_eq_getElem hj, e2]
        simp only [decide_eq_true_eq] at e1
        obtain ⟨y, y1, _, _, y2⟩ := hblk j x hxj
        obtain ⟨y3, y4, _⟩ := y2 (by rw [e1]; exact hne) h12
        refine ⟨y, List.find?_eq_some_iff_getElem.2 ⟨by rw [y3]; simpa using e1, j, by rw [hl]; exact hj, ?_, fun l hlj => ?_⟩, y3, y4⟩
        · obtain ⟨_, q⟩ := List.getElem?_eq_some_iff.1 y1
          exact q
        · obtain ⟨z, z1, z2, _, _⟩ := hblk l v.blocks[l] (List.getElem?_eq_getElem (by omega))
          obtain ⟨_, q⟩ := List.getElem?_eq_some_iff.1 z1
          have := e3 l hlj
          simp only [Bool.not_eq_true', decide_eq_false_iff_not] at this ⊢
          rw [q, z2]
          exact this
      obtain ⟨d, d1, d2, d3⟩ := hfind
      have hx' := (isView_clean hv x (List.mem_of_find?_eq_some hx)).1
      obtain ⟨text, q1 | ⟨_, y, q1, q3⟩, q2⟩ := g (fun _ y hy => by
        rw [d1] at hy
        simp only [Option.some.injEq] at hy
        subst hy
        rw [d2, d3]
        exact ⟨hx', s1, s2⟩)
      · exact absurd q1.1 h0
      · rw [d1] at q1
        simp only [Option.some.injEq] at q1
        subst q1
        rw [hraw, d2] at q3
        exact ⟨text, q3, q2⟩
  · rw [hs] at g1
    simp only [Option.some.injEq] at g1
    subst g1
    exact absurd (hdrop _ _) g2

/-! ### Examples -/

/-- A rule for the confidentiality of blocks of these types, with a key. -/
def sampleBcb (role : Fin 3) (targets : List Nat) : Rule :=
  ⟨some role, some .confidentiality, uri "ipn:2.1", [uri "ipn:*.*"], [uri "ipn:*.*"], targets, 1,
    [.aes 128, .ivSize 12, .scope 7, .key (some (List.replicate 16 5))]⟩

/-- A rule for the integrity of blocks of these types. -/
def sampleBib (role : Fin 3) (targets : List Nat) : Rule :=
  ⟨some role, some .integrity, uri "ipn:2.1", [uri "ipn:*.*"], [uri "ipn:*.*"], targets, 1,
    [.sha 256, .scope 7, .key (some [1, 2, 3])]⟩

/-- A node with these rules and these actions for every event. -/
def envOf (rules : List Rule) (mask : Option Nat) (node : Nat) : Env :=
  ⟨toy, (Manager.init.load rules).1, fun _ => some ⟨mask, mask, mask, mask⟩, 0, node⟩

/-- Members of an object that was not used before. -/
def unused : Nat → Asb := fun _ => ⟨[], 0, 0, ⟨0, 0⟩, [], []⟩

/-- What a source with these rules makes of the sample. -/
def sentBy (rules : List Rule) : Bytes :=
  match findAndSend (envOf rules none 2) ⟨2, 1⟩ ⟨⟨1, 0⟩, ⟨1, 0⟩⟩ sampleView 256 with
  | .ok (v, _) => v.rendered
  | _ => []

def loaded (bytes : Bytes) : Option View :=
  match load ⟨[], []⟩ false bytes [] with
  | .ok w => some w
  | _ => none

theorem loaded_isView {bytes : Bytes} {w : View} (h : loaded bytes = some w) (hl : bytes.length < 1000) : IsViewOf false w bytes := by
  unfold loaded at h
  split at h
  · rename_i w' hw
    simp only [Option.some.injEq] at h
    subst h
    refine (C77_load_iff false _ [] _ ?_).1 hw
    simp only [List.append_nil]
    omega
  · simp at h

/-- A bundle that arrives at a node with these rules. -/
def arrives (E : Env) (bytes : Bytes) : Option (View × View) :=
  match loaded bytes with
  | none => none
  | some w =>
    match receive E unused [] w with
    | .ok (.keep v) => some (w, v)
    | _ => none

theorem arrives_spec {E : Env} {bytes : Bytes} {w v : View} (h : arrives E bytes = some (w, v)) (hl : bytes.length < 1000) :
    IsViewOf false w bytes ∧ receive E unused [] w = .ok (.keep v) := by
  unfold arrives at h
  split at h
  · simp at h
  · rename_i x hx
    split at h
    · rename_i y hy
      simp only [Option.some.injEq, Prod.mk.injEq] at h
      obtain ⟨rfl, rfl⟩ := h
      exact ⟨loaded_isView hx hl, hy⟩
    · simp at h

/-- The first block is a security block of this type, with these targets, from this source. -/
def firstIs (w : View) (t : UInt8) (targets : List Nat) (source : HashMap16.Eid) : Bool :=
  match w.blocks with
  | b :: _ => b.block.typeCode == t && (match b.body with | .sec a => a.targets == targets && a.source == source | _ => false)
  | [] => false

theorem firstIs_spec {w : View} {t : UInt8} {targets : List Nat} {source : HashMap16.Eid} (h : firstIs w t targets source = true) :
    ∃ b a, w.blocks[0]? = some b ∧ b.block.typeCode = t ∧ b.body = .sec a ∧ a.targets = targets ∧ a.source = source := by
  unfold firstIs at h
  split at h
  · rename_i b bs hb
    simp only [Bool.and_eq_true, beq_iff_eq] at h
    obtain ⟨h1, h2⟩ := h
    split at h2
    · rename_i a ha
      simp only [Bool.and_eq_true, beq_iff_eq] at h2
      exact ⟨b, a, by simp [hb], h1, ha, h2.1, h2.2⟩
    · simp at h2
  · simp at h

/-- The data of the blocks and their marks. -/
def marks (v : View) : List (UInt8 × Bytes × Bool) := v.blocks.map fun b => (b.block.typeCode, b.block.data, b.deleted)

/-- The bundle age block and the payload block are encrypted by one node and decrypted by another; the hypotheses of
`C95_acceptor_partial` and `C95_payload_partial` hold. -/
example : ∃ (w v' : View) (sec : BlockView) (a : Asb) (p : Policy),
    IsViewOf false w (sentBy [sampleBcb 0 [7, 1]]) ∧
    (∀ b ∈ w.blocks, b.block.typeCode = 12 → b.block.number ∉ w.encrypted) ∧
    receive (envOf [sampleBcb 2 [7, 1]] (some 8) 2) unused [] w = .ok (.keep v') ∧
    w.blocks[0]? = some sec ∧ sec.block.typeCode = 12 ∧ sec.body = .sec a ∧
    (envOf [sampleBcb 2 [7, 1]] (some 8) 2).manager.find ⟨a.source, w.primary.source, w.primary.dest, roleAcceptor⟩ = some p ∧
    p.doBcb = true ∧ a.targets = [2, 1] ∧ (marks v').tail = [(7, [5], false), (1, [9, 8], false)] := by
  have hc : (match arrives (envOf [sampleBcb 2 [7, 1]] (some 8) 2) (sentBy [sampleBcb 0 [7, 1]]) with
      | some (w, v) => w.blocks.all (fun b => decide (b.block.typeCode = 12 → b.block.number ∉ w.encrypted)) &&
          firstIs w 12 [2, 1] ⟨2, 1⟩ && (match (envOf [sampleBcb 2 [7, 1]] (some 8) 2).manager.find
            ⟨⟨2, 1⟩, w.primary.source, w.primary.dest, roleAcceptor⟩ with | some p => p.doBcb | none => false) &&
          (marks v).tail == [(7, [5], false), (1, [9, 8], false)]
      | none => false) = true := by decide +kernel
  split at hc
  · rename_i w v hw
    simp only [Bool.and_eq_true, List.all_eq_true, decide_eq_true_eq, beq_iff_eq] at hc
    obtain ⟨⟨⟨c1, c2⟩, c3⟩, c4⟩ := hc
    obtain ⟨h1, h2⟩ := arrives_spec hw (by decide +kernel)
    obtain ⟨b, a, b1, b2, b3, b4, b5⟩ := firstIs_spec c2
    split at c3
    · rename_i p hp
      exact ⟨w, v, b, a, p, h1, c1, h2, b1, b2, b3, by rw [b5]; exact hp, c3, b4, c4⟩
    · simp at c3
  · simp at hc

/-- The hypotheses of `C95_forwarder`. -/
example : ∃ w : View, IsViewOf false w (sentBy [sampleBcb 0 [7, 1]]) ∧ w.primary.dest.node ≠ (envOf [] none 5).node ∧
    (∀ source role, (envOf [] none 5).manager.find ⟨source, w.primary.source, w.primary.dest, role⟩ = none) ∧
    firstIs w 12 [2, 1] ⟨2, 1⟩ = true := by
  have hc : (match loaded (sentBy [sampleBcb 0 [7, 1]]) with
      | some w => decide (w.primary.dest.node ≠ 5) && firstIs w 12 [2, 1] ⟨2, 1⟩
      | none => false) = true := by decide +kernel
  split at hc
  · rename_i w hw
    simp only [Bool.and_eq_true, decide_eq_true_eq] at hc
    refine ⟨w, loaded_isView hw (by decide +kernel), hc.1, fun source role => ?_, hc.2⟩
    simp only [envOf, Manager.load, Manager.init, BpSecPolicy.Manager.find, List.getElem?_nil]
    split <;> rfl
  · simp at hc

/-- The hypotheses of `C95_plain`. -/
example : ∀ b ∈ sampleView.blocks, ¬ IsSecType b.block.typeCode := by
  intro b hb
  simp only [sampleView, List.mem_cons, List.not_mem_nil, or_false] at hb
  rcases hb with rfl | rfl <;> simp [IsSecType, ageBlock, payloadBlock]

/-- The bundle age block and the payload block are signed by one node and verified by another; the hypotheses of
`C96_integrity_partial` and `C96_strict_partial` hold. -/
example : ∃ (w v' : View) (sec : BlockView) (a : Asb) (p : Policy),
    IsViewOf false w (sentBy [sampleBib 0 [7, 1]]) ∧
    (∀ b ∈ w.blocks, b.block.typeCode = 12 → b.block.number ∉ w.encrypted) ∧ w.primaryRaw.length < 2 ^ 64 ∧
    receive (envOf [sampleBib 1 [7, 1]] (some 8) 5) unused [] w = .ok (.keep v') ∧
    w.blocks[0]? = some sec ∧ sec.block.typeCode = 11 ∧ sec.body = .sec a ∧ sec.block.number ∉ w.encrypted ∧
    ShortHeader sec.raw sec.block ∧ AppliesTo (envOf [sampleBib 1 [7, 1]] (some 8) 5) w a.source false p ∧ p.doBib = true ∧
    (∀ c m, actionsFor ⟨some 8, some 8, some 8, some 8⟩ false c = some m → StopsBundle m) ∧ a.targets = [2, 1] := by
  have hc : (match arrives (envOf [sampleBib 1 [7, 1]] (some 8) 5) (sentBy [sampleBib 0 [7, 1]]) with
      | some (w, _) => w.blocks.all (fun b => decide (b.block.typeCode ≠ 12)) && w.encrypted == [] &&
          decide (w.primaryRaw.length < 2 ^ 64) && w.primary.dest.node == 2 && firstIs w 11 [2, 1] ⟨2, 1⟩ &&
          (match w.blocks with
            | b :: _ => b.raw == b.raw.headD 0 :: (header b.block ++ b.raw.drop (1 + (header b.block).length))
            | [] => false) &&
          (envOf [sampleBib 1 [7, 1]] (some 8) 5).manager.find ⟨⟨2, 1⟩, w.primary.source, w.primary.dest, roleAcceptor⟩ == none &&
          (match (envOf [sampleBib 1 [7, 1]] (some 8) 5).manager.find
            ⟨⟨2, 1⟩, w.primary.source, w.primary.dest, roleVerifier⟩ with | some p => p.doBib | none => false)
      | none => false) = true := by decide +kernel
  split at hc
  · rename_i w v hw
    simp only [Bool.and_eq_true, List.all_eq_true, decide_eq_true_eq, beq_iff_eq] at hc
    obtain ⟨⟨⟨⟨⟨⟨⟨c1, c2⟩, c3⟩, c4⟩, c5⟩, c6⟩, c7⟩, c8⟩ := hc
    obtain ⟨h1, h2⟩ := arrives_spec hw (by decide +kernel)
    obtain ⟨b, a, b1, b2, b3, b4, b5⟩ := firstIs_spec c5
    split at c8
    · rename_i p hp
      refine ⟨w, v, b, a, p, h1, fun x hx hx2 => absurd hx2 (c1 x hx), c3, h2, b1, b2, b3, by rw [c2]; simp, ?_,
        Or.inr ⟨rfl, by rw [b5]; exact c7, by rw [c4]; decide, by rw [b5]; exact hp⟩, c8, ?_, b4⟩
      · cases hb : w.blocks with
        | nil => rw [hb] at b1; simp at b1
        | cons x xs =>
          rw [hb] at b1 c6
          simp only [List.getElem?_cons_zero, Option.some.injEq] at b1
          subst b1
          simp only [beq_iff_eq] at c6
          exact ⟨_, _, c6⟩
      · intro c m hm
        cases c <;> simp only [actionsFor, Bool.false_eq_true, if_false, Option.some.injEq] at hm <;> subst hm <;> exact (rfl : 8 / 8 % 2 = 1)
    · simp at c8
  · simp at hc

/-- A security block with three targets. -/
def threeOps : View :=
  { sampleView with blocks := ⟨⟨11, 3, 1, 0, [], 0, 0⟩, .sec ⟨[2, 1, 0], 1, 1, ⟨2, 1⟩, [], [⟨1, .bytes [5]⟩, ⟨1, .bytes [6]⟩, ⟨1, .bytes [7]⟩]⟩,
    [], false, false⟩ :: sampleView.blocks }

/-- The hypotheses of `C96_actions`, and what comes of it. -/
example : (∃ b a, threeOps.blocks[0]? = some b ∧ b.body = .sec a ∧ a.targets.length = a.results.length ∧
      ([⟨.corrupted, some 2⟩, ⟨.corrupted, some 0⟩] : List Err).Pairwise
        (fun e f => ∃ k m, e.target = some k ∧ f.target = some m ∧ m < k) ∧
      ∀ e ∈ ([⟨.corrupted, some 2⟩, ⟨.corrupted, some 0⟩] : List Err), ∃ k, e.target = some k ∧ k < a.targets.length) ∧
    (match fail true true ⟨some 2, none, none, none⟩ 0 [⟨.corrupted, some 2⟩, ⟨.corrupted, some 0⟩] threeOps with
      | .ok (.keep v) => firstIs v 11 [1] ⟨2, 1⟩ && (marks v).map (·.2.2) == [false, true, false]
      | _ => false) = true :=
  ⟨⟨_, _, rfl, rfl, rfl, by simp, by simp⟩, by decide +kernel⟩

/-! ### What is not so -/

/-- C95, violated: a policy that asks for the confidentiality of the payload is no requirement. A bundle that arrives at its
acceptor without any security block goes on. -/
theorem C95_required_violated : ∃ (E : Env) (p : Policy),
    E.manager.find ⟨⟨2, 1⟩, sampleView.primary.source, sampleView.primary.dest, roleAcceptor⟩ = some p ∧
    p.doBcb = true ∧ 1 ∈ p.bcb.targets ∧ sampleView.primary.dest.node = E.node ∧
    ∀ ghost pad, receive E ghost pad sampleView = .ok (.keep sampleView) := by
  have hc : (match (envOf [sampleBcb 2 [7, 1]] (some 8) 2).manager.find
      ⟨⟨2, 1⟩, sampleView.primary.source, sampleView.primary.dest, roleAcceptor⟩ with
      | some p => p.doBcb && decide (1 ∈ p.bcb.targets)
      | none => false) = true := by decide +kernel
  split at hc
  · rename_i p hp
    simp only [Bool.and_eq_true, decide_eq_true_eq] at hc
    refine ⟨_, p, hp, hc.1, hc.2, rfl, fun ghost pad => C95_plain _ _ _ _ ?_⟩
    intro b hb
    simp only [sampleView, List.mem_cons, List.not_mem_nil, or_false] at hb
    rcases hb with rfl | rfl <;> simp [IsSecType, ageBlock, payloadBlock]
  · simp at hc

/-- C95, violated: at the destination of a bundle, whose payload is encrypted, with a policy for the integrity only, the
bundle goes on, the payload as it came. Without any policy it would be dropped. -/
theorem C95_integrity_only_violated : ∃ (E : Env) (w : View), IsViewOf false w (sentBy [sampleBcb 0 [7, 1]]) ∧ 1 ∈ w.encrypted ∧
    w.primary.dest.node = E.node ∧ (∃ s, ∀ n, E.events n = some s ∧ ∀ a c m, actionsFor s a c = some m → StopsBundle m) ∧
    receive E unused [] w = .ok (.keep w) ∧
    receive { E with manager := Manager.init } unused [] w = .ok .drop := by
  have hc : (match loaded (sentBy [sampleBcb 0 [7, 1]]) with
      | some w => decide (1 ∈ w.encrypted) && decide (w.primary.dest.node = 2) &&
        decide (receive (envOf [sampleBib 2 [7, 1]] (some 8) 2) unused [] w = .ok (.keep w)) &&
        decide (receive { envOf [sampleBib 2 [7, 1]] (some 8) 2 with manager := Manager.init } unused [] w = .ok .drop)
      | none => false) = true := by decide +kernel
  split at hc
  · rename_i w hw
    simp only [Bool.and_eq_true, decide_eq_true_eq] at hc
    refine ⟨_, w, loaded_isView hw (by decide +kernel), hc.1.1.1, hc.1.1.2, ⟨⟨some 8, some 8, some 8, some 8⟩, fun n => ⟨rfl, ?_⟩⟩, hc.1.2, hc.2⟩
    intro a c m hm
    cases a <;> cases c <;> simp only [actionsFor, if_true, Bool.false_eq_true, if_false, Option.some.injEq] at hm <;> subst hm <;> exact (rfl : 8 / 8 % 2 = 1)
  · simp at hc

/-- The bundle with another byte in the bundle age block. -/
def tampered : Bytes := (sentBy [sampleBcb 0 [7, 1]]).set ((sentBy [sampleBcb 0 [7, 1]]).length - 10) 99

/-- C95, violated: an acceptor that cannot decrypt one of the targets takes the operations on the others out of no list. The
bundle goes on with the payload in the clear and a confidentiality block that names it as encrypted. -/
theorem C95_half_decrypted_violated : ∃ (w v : View) (sec : BlockView) (a : Asb), IsViewOf false w tampered ∧
    receive (envOf [sampleBcb 2 [7, 1]] (some 0) 2) unused [] w = .ok (.keep v) ∧
    v.blocks[0]? = some sec ∧ sec.block.typeCode = 12 ∧ sec.body = .sec a ∧ a.targets = [1] ∧ sec.deleted = false ∧
    ∃ y, v.blocks[2]? = some y ∧ y.block.number = 1 ∧ y.block.data = payloadBlock.block.data ∧ y.deleted = false := by
  have hc : (match arrives (envOf [sampleBcb 2 [7, 1]] (some 0) 2) tampered with
      | some (_, v) => firstIs v 12 [1] ⟨2, 1⟩ && (v.blocks.map (·.deleted))[0]? == some false &&
          (v.blocks.map fun b => (b.block.number, b.block.data, b.deleted))[2]? == some (1, [9, 8], false)
      | none => false) = true := by decide +kernel
  split at hc
  · rename_i w v hw
    simp only [Bool.and_eq_true, beq_iff_eq] at hc
    obtain ⟨⟨c1, c2⟩, c3⟩ := hc
    obtain ⟨h1, h2⟩ := arrives_spec hw (by decide +kernel)
    obtain ⟨b, a, b1, b2, b3, b4, _⟩ := firstIs_spec c1
    rw [List.getElem?_map, b1] at c2
    simp only [Option.map_some, Option.some.injEq] at c2
    rw [List.getElem?_map] at c3
    cases hy : v.blocks[2]? with
    | none => rw [hy] at c3; simp at c3
    | some y =>
      rw [hy] at c3
      simp only [Option.map_some, Option.some.injEq, Prod.mk.injEq] at c3
      exact ⟨w, v, b, a, h1, h2, b1, b2, b3, b4, c2, y, hy, c3.1, c3.2.1, c3.2.2⟩
  · simp at hc

/-- A bundle with an integrity block for the primary block, made with another key. -/
def forged : Bytes :=
  match sign toy ⟨7, 5, 1, ⟨2, 1⟩, [0], none, some [1]⟩ sampleView 256 with
  | .ok (v, _) => v.rendered
  | _ => []

/-- C96, violated: the HMAC of the primary block is wrong, and the policy says that the target is removed. The bundle goes on
with the primary block and all other blocks; only the integrity block is removed. -/
theorem C96_primary_violated : ∃ (w v : View) (p : Policy), IsViewOf false w forged ∧
    AppliesTo (envOf [sampleBib 2 [0]] (some 2) 2) w ⟨2, 1⟩ true p ∧ p.doBib = true ∧
    TargetRemoved ⟨some 2, some 2, some 2, some 2⟩ true true .corrupted ∧ firstIs w 11 [0] ⟨2, 1⟩ = true ∧
    receive (envOf [sampleBib 2 [0]] (some 2) 2) unused [] w = .ok (.keep v) ∧ v.primaryRaw = w.primaryRaw ∧
    v.blocks.map (·.deleted) = [true, false, false] := by
  have hc : (match arrives (envOf [sampleBib 2 [0]] (some 2) 2) forged with
      | some (w, v) => firstIs w 11 [0] ⟨2, 1⟩ && v.primaryRaw == w.primaryRaw && v.blocks.map (·.deleted) == [true, false, false] &&
          (match (envOf [sampleBib 2 [0]] (some 2) 2).manager.find
            ⟨⟨2, 1⟩, w.primary.source, w.primary.dest, roleAcceptor⟩ with | some p => p.doBib | none => false)
      | none => false) = true := by decide +kernel
  split at hc
  · rename_i w v hw
    simp only [Bool.and_eq_true, beq_iff_eq] at hc
    obtain ⟨⟨⟨c1, c2⟩, c3⟩, c4⟩ := hc
    obtain ⟨h1, h2⟩ := arrives_spec hw (by decide +kernel)
    split at c4
    · rename_i p hp
      exact ⟨w, v, p, h1, Or.inl ⟨rfl, hp⟩, c4, Or.inr ⟨2, rfl, (rfl : 2 / 2 % 2 = 1)⟩, c1, h2, c2, c3⟩
    · simp at c4
  · simp at hc

/-- C96, violated: at a verifier for whom the integrity block is encrypted, the outcome depends on a bundle that was
processed before: the security source is the one of the block that was last in the same object. -/
theorem C96_stale_violated : ∃ (w : View) (ghost : Nat → Asb),
    IsViewOf false w (sentBy [sampleBib 0 [1], sampleBcb 0 [1, 11]]) ∧
    receive (envOf [sampleBib 1 [1]] (some 8) 5) unused [] w = .ok (.keep w) ∧
    receive (envOf [sampleBib 1 [1]] (some 8) 5) ghost [] w = .ok .drop := by
  have hc : (match loaded (sentBy [sampleBib 0 [1], sampleBcb 0 [1, 11]]) with
      | some w => decide (receive (envOf [sampleBib 1 [1]] (some 8) 5) unused [] w = .ok (.keep w)) &&
        decide (receive (envOf [sampleBib 1 [1]] (some 8) 5) (fun _ => ⟨[1], 1, 1, ⟨2, 1⟩, [], []⟩) [] w = .ok .drop)
      | none => false) = true := by decide +kernel
  split at hc
  · rename_i w hw
    simp only [Bool.and_eq_true, decide_eq_true_eq] at hc
    exact ⟨w, _, loaded_isView hw (by decide +kernel), hc.1, hc.2⟩
  · simp at hc

end Hdtn.BpSecProcess
