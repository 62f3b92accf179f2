import Verif.BpSecProcess.Outgoing
import Verif.BpSecProcess.Props

/-! C97: what the policies do with bundles that are sent. -/

namespace Hdtn.BpSecProcess

open Hdtn.HashMap16 Hdtn.Bpv7Canonical Hdtn.Bpv7Canonical.Spec Hdtn.BpSec7 Hdtn.BundleView7 Hdtn.BundleView7.Spec Hdtn.BpSecBundle
open Hdtn.BpSecBundle.Spec Spec
open Hdtn.BpSecPolicy (Policy Manager Rule uri roleSource roleVerifier roleAcceptor typeBib)

/-- C97, part 1: without a policy as security source for the endpoints of a bundle, it is sent as it is. -/
theorem C97_no_policy (E : Env) (source : HashMap16.Eid) (g : Iv.Gen) (v : View) (room : Nat)
    (h : E.manager.find ⟨source, v.primary.source, v.primary.dest, roleSource⟩ = none) :
    findAndSend E source g v room = .ok (v, room, g) := by
  unfold findAndSend
  rw [h]

/-- C97, part 2: with a policy, what is sent is a bundle that every receiver can load, and it is the given one with the
integrity block that the policy asks for, and the encrypted blocks and the confidentiality block that it asks for. The
initialization vector is the next one; it is used up, and none is if nothing is encrypted. Not shown: that sending
succeeds (it does not if there is no room). -/
theorem C97_sent_partial (E : Env) (hC : Lawful E.crypto) (v : View) (buf : Bytes) (hv : IsViewOf false v buf) (hu : Unprotected v)
    (hlen : buf.length < 2 ^ 61) (source : HashMap16.Eid) (p : Policy)
    (hp : E.manager.find ⟨source, v.primary.source, v.primary.dest, roleSource⟩ = some p)
    (hm : p.doBib = true → MaySign source v p.bib) (hm' : p.doBcb = true → MaySeal source v p.doBib p.bcb)
    (g g' : Iv.Gen) (room left : Nat) (v' : View) (h : findAndSend E source g v room = .ok (v', left, g')) :
    (∃ w, (∀ pad, (v'.rendered ++ pad).length < 2 ^ 64 → load ⟨[], []⟩ false v'.rendered pad = .ok w) ∧
      IsProtected E.crypto p source (g.next p.bcb.short).2 v w) ∧
    (p.doBcb = true → g' = (g.next p.bcb.short).1) ∧ (p.doBcb = false → g' = g) := by
  unfold findAndSend at h
  rw [hp] at h
  obtain ⟨h1, -, w, h2, h3, -⟩ := send_full hC hv hu hlen hm hm' h
  refine ⟨⟨w, fun pad hpad => (C77_load_iff false _ pad w hpad).2 h2, h3⟩, fun hb => ?_, fun hb => ?_⟩ <;> simp [h1, hb]

/-- C97, part 3: a node that has the same policy as acceptor, and whose library can do what the sender's does, loads what
was sent, keeps it, and gets the bundle that was given to the sender, byte for byte. It is required that every type that
the policy asks for occurs in the bundle (see `C97_absent_type_violated`). -/
theorem C97_end_to_end_partial (E : Env) (hC : Lawful E.crypto) (v : View) (buf : Bytes) (hv : IsViewOf false v buf)
    (hu : Unprotected v) (hlen : buf.length < 2 ^ 61) (source : HashMap16.Eid) (p : Policy)
    (hp : E.manager.find ⟨source, v.primary.source, v.primary.dest, roleSource⟩ = some p)
    (hm : p.doBib = true → MaySign source v p.bib) (hm' : p.doBcb = true → MaySeal source v p.doBib p.bcb)
    (ht : p.doBib = true → AllThere v false p.bib.targets) (ht' : p.doBcb = true → AllThere v p.doBib p.bcb.targets)
    (g g' : Iv.Gen) (room left : Nat) (v' : View) (h : findAndSend E source g v room = .ok (v', left, g'))
    (F : Env) (hF : F.crypto = E.crypto) (q : Policy) (hq : Agree p q)
    (hq' : F.manager.find ⟨source, v.primary.source, v.primary.dest, roleAcceptor⟩ = some q)
    (ghost : Nat → Asb) (pad : Bytes) (hpad : (v'.rendered ++ pad).length < 2 ^ 64) :
    ∃ w w' u : View, load ⟨[], []⟩ false v'.rendered pad = .ok w ∧ receive F ghost pad w = .ok (.keep w') ∧
      (∀ mem : Bytes, buf.length ≤ mem.length → w'.render mem = .ok u) ∧
      (∀ room, ∃ room', renderHere room w' = .ok (u, room')) ∧
      u.rendered = buf ∧ u.blocks = v.blocks ∧ u.primary = v.primary := by
  unfold findAndSend at h
  rw [hp] at h
  obtain ⟨-, h1, w, h2, h3, h4⟩ := send_full hC hv hu hlen hm hm' h
  obtain ⟨del, k1, k2, k3⟩ := h4 F ghost pad q hF hq ht ht' (search_acceptor hq') hpad
  have hsize : (layout v.primaryRaw (del ++ v.blocks)).length < 2 ^ 62 := by
    have hbuf : buf = layout v.primaryRaw v.blocks := by
      have h := isView_layout hv
      rw [hv.2.2.2.2.2.2.2.2.2.2.2] at h
      exact h
    have e : (layout v.primaryRaw (del ++ v.blocks)).length = (raws del).length + buf.length := by
      rw [hbuf]
      unfold layout raws
      simp only [List.map_append, List.flatten_append, List.length_append, List.length_cons, List.length_nil]
      omega
    rw [e, k3]
    omega
  obtain ⟨u, r1, r2, r3, r4, r5⟩ := render_without_all hv (w := w) h3.2.1 h3.1 h2.2.2.2.2.2.1 (fun s hs => (k2 s hs).1) hsize
  exact ⟨w, _, u, (C77_load_iff false _ pad w hpad).2 h2, k1, r4, fun room => ⟨_, r5 room⟩, r1, r2, r3⟩

theorem sign_ok_has {C : Crypto} {P : SignParams} {v : View} {room : Nat} {r : View × Nat} (h : sign C P v room = .ok r) :
    P.key ≠ none ∧ P.targets ≠ [] := by
  unfold sign at h
  split at h
  · simp at h
  · split at h
    · simp at h
    · rename_i key hk
      refine ⟨by rw [hk]; simp, fun ht => ?_⟩
      simp only [if_pos ht] at h
      cases h1 : wrapIf C P.kek key <;> rw [h1] at h <;> simp only [Out.bind] at h <;> try simp at h
      rename_i wr
      cases h2 : ofOption (bibParams P.variant wr P.scope) <;> rw [h2] at h <;> simp at h

theorem encrypt_ok_has {C : Crypto} {P : SealParams} {v : View} {room : Nat} {r : View × Nat} (h : encrypt C P v room = .ok r) :
    P.key ≠ none ∧ P.targets ≠ [] := by
  unfold encrypt at h
  split at h
  · simp at h
  · rename_i key hk
    refine ⟨by rw [hk]; simp, fun ht => ?_⟩
    simp only [if_pos ht] at h
    cases h1 : wrapIf C P.kek key <;> rw [h1] at h <;> simp only [Out.bind] at h <;> try simp at h
    rename_i wr
    cases h2 : ofOption (bcbParams P.iv P.variant wr P.scope) <;> rw [h2] at h <;> simp at h

theorem numbersOf_nil {v : View} {types : List Nat} (h : ∀ t ∈ types, ∀ b ∈ v.blocks, b.block.typeCode ≠ UInt8.ofNat t) :
    numbersOf v types = [] := by
  unfold numbersOf View.byType
  refine List.flatMap_eq_nil_iff.2 fun t ht => ?_
  rw [List.map_eq_nil_iff, List.filter_eq_nil_iff]
  exact fun b hb => by simp [h t ht b hb]

theorem sealTargets_nil {v : View} {types : List Nat} (h : ∀ t ∈ types, t ≠ 11 ∧ ∀ b ∈ v.blocks, b.block.typeCode ≠ UInt8.ofNat t) :
    sealTargets v types = [] := by
  unfold sealTargets View.byType
  refine List.flatMap_eq_nil_iff.2 fun t ht => ?_
  rw [if_neg (show t ≠ typeBib from (h t ht).1), List.map_eq_nil_iff, List.filter_eq_nil_iff]
  exact fun b hb => by simp [(h t ht).2 b hb]

/-- C97, part 4: a bundle is never sent unprotected because there is nothing to protect or no key: if the policy asks for
an integrity or a confidentiality block, and no block of the bundle has one of its types, or it has no key, sending
fails. -/
theorem C97_nothing_to_protect (E : Env) (source : HashMap16.Eid) (g : Iv.Gen) (v : View) (room : Nat) (p : Policy)
    (hp : E.manager.find ⟨source, v.primary.source, v.primary.dest, roleSource⟩ = some p)
    (h : (p.doBib = true ∧ ((∀ t ∈ p.bib.targets, ∀ b ∈ v.blocks, b.block.typeCode ≠ UInt8.ofNat t) ∨ p.bib.key = [])) ∨
      (p.doBcb = true ∧
        ((∀ t ∈ p.bcb.targets, t ≠ 11 ∧ ∀ b ∈ v.blocks, b.block.typeCode ≠ UInt8.ofNat t) ∨ p.bcb.key = []))) :
    ∀ r, findAndSend E source g v room ≠ .ok r := by
  intro r hr
  unfold findAndSend at hr
  rw [hp] at hr
  simp only [send] at hr
  cases h1 : signStep E.crypto p source v room with
  | fail => rw [h1] at hr; simp [Out.bind] at hr
  | fault => rw [h1] at hr; simp [Out.bind] at hr
  | ok x =>
    obtain ⟨v1, room1, n⟩ := x
    rw [h1] at hr
    simp only [Out.bind] at hr
    rcases h with ⟨hb, h⟩ | ⟨hb, h⟩
    · unfold signStep at h1
      rw [if_pos hb] at h1
      cases h2 : sign E.crypto (signParams p source (numbersOf v p.bib.targets)) v room with
      | fail => rw [h2] at h1; simp [Out.bind] at h1
      | fault => rw [h2] at h1; simp [Out.bind] at h1
      | ok y =>
        obtain ⟨k1, k2⟩ := sign_ok_has h2
        rcases h with h | h
        · exact k2 (numbersOf_nil h)
        · exact k1 (by simp [signParams, keyOf, h])
    · rw [if_pos hb, if_pos hb] at hr
      cases h2 : encrypt E.crypto (sealParams p source ((sealTargets v p.bcb.targets).map fun t => t.getD n) (g.next p.bcb.short).2) v1 room1 with
      | fail => rw [h2] at hr; simp [Out.bind] at hr
      | fault => rw [h2] at hr; simp [Out.bind] at hr
      | ok y =>
        obtain ⟨k1, k2⟩ := encrypt_ok_has h2
        rcases h with h | h
        · exact k2 (by simp [sealParams, sealTargets_nil h])
        · exact k1 (by simp [sealParams, keyOf, h])

/-! ### Examples -/

example : (envOf [sampleBib 2 [7, 1]] none 2).manager.find
    ⟨⟨2, 1⟩, sampleView.primary.source, sampleView.primary.dest, roleSource⟩ = none := by
  decide +kernel

theorem sample_unprotected : Unprotected sampleView := by
  constructor <;> decide +kernel

/-- The policy that the two rules make. -/
def samplePolicy : Policy :=
  ⟨true, true, false, false, ⟨5, 7, 0, [7, 1], [], [1, 2, 3], 1⟩, ⟨1, true, 7, 0, [1, 11], [], List.replicate 16 5, 1⟩⟩

theorem sample_maySign : MaySign ⟨2, 1⟩ sampleView samplePolicy.bib := by
  refine ⟨by decide, fun h => absurd rfl h, by decide, by decide, by decide, by unfold IsSource; decide, by decide, by decide, ?_⟩
  decide +kernel

theorem sample_maySeal : MaySeal ⟨2, 1⟩ sampleView true samplePolicy.bcb := by
  refine ⟨by decide, fun h => absurd rfl h, by decide, by decide, by decide, by unfold IsSource; decide, by decide, by decide,
    fun _ => rfl, Or.inl (by decide)⟩

theorem sample_allThere : AllThere sampleView false [7, 1] ∧ AllThere sampleView true [1, 11] := by
  unfold AllThere
  decide +kernel

/-- C97, parts 2 and 3 on the sample, an age block and a payload block: both are signed, and the payload and the integrity
block are encrypted; the acceptor gets the sample. -/
example : ∃ (E F : Env) (g : Iv.Gen) (v' : View) (left : Nat) (g' : Iv.Gen), Lawful E.crypto ∧ F.crypto = E.crypto ∧
    E.manager.find ⟨⟨2, 1⟩, sampleView.primary.source, sampleView.primary.dest, roleSource⟩ = some samplePolicy ∧
    F.manager.find ⟨⟨2, 1⟩, sampleView.primary.source, sampleView.primary.dest, roleAcceptor⟩ = some samplePolicy ∧
    findAndSend E ⟨2, 1⟩ g sampleView 256 = .ok (v', left, g') ∧ samplePolicy.doBib = true ∧ samplePolicy.doBcb = true ∧
    Agree samplePolicy samplePolicy ∧ (v'.rendered ++ []).length < 2 ^ 64 ∧
    (loaded v'.rendered).map (fun w => w.blocks.map (·.block.typeCode)) = some [12, 11, 7, 1] := by
  have h : (match findAndSend (envOf [sampleBib 0 [7, 1], sampleBcb 0 [1, 11]] none 2) ⟨2, 1⟩ ⟨⟨1, 0⟩, ⟨1, 0⟩⟩ sampleView 256 with
    | .ok (x, _) => decide (x.rendered.length < 1000) && ((loaded x.rendered).map fun w => w.blocks.map (·.block.typeCode)) == some [12, 11, 7, 1]
    | _ => false) = true := by decide +kernel
  split at h
  · rename_i x y hx
    simp only [Bool.and_eq_true, decide_eq_true_eq, beq_iff_eq] at h
    refine ⟨envOf [sampleBib 0 [7, 1], sampleBcb 0 [1, 11]] none 2, envOf [sampleBib 2 [7, 1], sampleBcb 2 [1, 11]] (some 8) 2, _, _, _, _,
      toy_lawful, rfl, by decide +kernel, by decide +kernel, hx, rfl, rfl, ⟨rfl, rfl, by simp, by simp⟩, ?_, h.2⟩
    simp only [List.append_nil]
    omega
  · simp at h

/-! ### Disagreements -/

/-- The sample as sent with the rules of a source, as it is loaded, and what a node with the rules of an acceptor makes of
it. -/
def travels (E F : Env) : Option (View × Nat × Iv.Gen × View × Out Verdict) :=
  match findAndSend E ⟨2, 1⟩ ⟨⟨1, 0⟩, ⟨1, 0⟩⟩ sampleView 256 with
  | .ok (v', left, g') => if v'.rendered.length < 1000 then (loaded v'.rendered).map fun w => (v', left, g', w, receive F unused [] w) else none
  | _ => none

theorem travels_spec {E F : Env} {v' w : View} {left : Nat} {g' : Iv.Gen} {o : Out Verdict} (h : travels E F = some (v', left, g', w, o)) :
    findAndSend E ⟨2, 1⟩ ⟨⟨1, 0⟩, ⟨1, 0⟩⟩ sampleView 256 = .ok (v', left, g') ∧ IsViewOf false w v'.rendered ∧ receive F unused [] w = o := by
  unfold travels at h
  split at h
  · rename_i x y z hx
    split at h
    · rename_i hl
      cases hw : loaded x.rendered with
      | none => rw [hw] at h; simp at h
      | some u =>
        rw [hw] at h
        simp only [Option.map_some, Option.some.injEq, Prod.mk.injEq] at h
        obtain ⟨rfl, rfl, rfl, rfl, h⟩ := h
        exact ⟨hx, loaded_isView hw hl, h⟩
    · simp at h
  · simp at h

/-- A policy asks for the confidentiality of hop count blocks and payload blocks. A bundle without a hop count block is sent
with its payload encrypted, and a node with the same policy as acceptor drops it. -/
theorem C97_absent_type_violated : ∃ (E F : Env) (p : Policy) (v' w : View) (left : Nat) (g g' : Iv.Gen),
    E.manager.find ⟨⟨2, 1⟩, sampleView.primary.source, sampleView.primary.dest, roleSource⟩ = some p ∧
    F.manager.find ⟨⟨2, 1⟩, sampleView.primary.source, sampleView.primary.dest, roleAcceptor⟩ = some p ∧ F.crypto = E.crypto ∧
    Unprotected sampleView ∧ MaySeal ⟨2, 1⟩ sampleView p.doBib p.bcb ∧ p.doBib = false ∧ p.doBcb = true ∧
    findAndSend E ⟨2, 1⟩ g sampleView 256 = .ok (v', left, g') ∧
    IsViewOf false w v'.rendered ∧ receive F unused [] w = .ok .drop := by
  have hp : (envOf [sampleBcb 0 [10, 1]] none 2).manager.find ⟨⟨2, 1⟩, sampleView.primary.source, sampleView.primary.dest, roleSource⟩ =
      some ⟨false, true, false, false, ⟨6, 7, 0, [], [], [], 0⟩, ⟨1, true, 7, 0, [10, 1], [], List.replicate 16 5, 1⟩⟩ := by
    decide +kernel
  have hq : (envOf [sampleBcb 2 [10, 1]] (some 8) 2).manager.find ⟨⟨2, 1⟩, sampleView.primary.source, sampleView.primary.dest, roleAcceptor⟩ =
      some ⟨false, true, false, false, ⟨6, 7, 0, [], [], [], 0⟩, ⟨1, true, 7, 0, [10, 1], [], List.replicate 16 5, 1⟩⟩ := by
    decide +kernel
  have hc : (match travels (envOf [sampleBcb 0 [10, 1]] none 2) (envOf [sampleBcb 2 [10, 1]] (some 8) 2) with
      | some (_, _, _, _, o) => decide (o = .ok .drop)
      | none => false) = true := by decide +kernel
  split at hc
  · rename_i v' left g' w o ht
    simp only [decide_eq_true_eq] at hc
    obtain ⟨h1, h2, h3⟩ := travels_spec ht
    refine ⟨_, _, _, v', w, left, _, g', hp, hq, rfl, sample_unprotected, ?_, rfl, rfl, h1, h2, h3.trans hc⟩
    exact ⟨by decide, fun h => absurd rfl h, by decide, by decide, by decide, by unfold IsSource; decide, by decide, by decide,
      fun h => absurd h (by decide), Or.inr (by decide +kernel)⟩
  · simp at hc

/-- A policy asks for the integrity of the primary block and of payload blocks. A bundle is sent with an integrity block for
the payload only, and a node with the same policy as acceptor drops it. -/
theorem C97_primary_violated : ∃ (E F : Env) (p : Policy) (v' w : View) (left : Nat) (g g' : Iv.Gen),
    E.manager.find ⟨⟨2, 1⟩, sampleView.primary.source, sampleView.primary.dest, roleSource⟩ = some p ∧
    F.manager.find ⟨⟨2, 1⟩, sampleView.primary.source, sampleView.primary.dest, roleAcceptor⟩ = some p ∧ F.crypto = E.crypto ∧
    Unprotected sampleView ∧ MaySign ⟨2, 1⟩ sampleView p.bib ∧ p.doBib = true ∧ 0 ∈ p.bib.targets ∧
    findAndSend E ⟨2, 1⟩ g sampleView 256 = .ok (v', left, g') ∧ IsViewOf false w v'.rendered ∧
    (∃ b a, w.blocks[0]? = some b ∧ b.block.typeCode = 11 ∧ b.body = .sec a ∧ a.targets = [1] ∧ a.source = ⟨2, 1⟩) ∧
    receive F unused [] w = .ok .drop := by
  have hp : (envOf [sampleBib 0 [0, 1]] none 2).manager.find ⟨⟨2, 1⟩, sampleView.primary.source, sampleView.primary.dest, roleSource⟩ =
      some ⟨true, false, false, false, ⟨5, 7, 0, [0, 1], [], [1, 2, 3], 1⟩, ⟨3, true, 7, 0, [], [], [], 0⟩⟩ := by
    decide +kernel
  have hq : (envOf [sampleBib 2 [0, 1]] (some 8) 2).manager.find ⟨⟨2, 1⟩, sampleView.primary.source, sampleView.primary.dest, roleAcceptor⟩ =
      some ⟨true, false, false, false, ⟨5, 7, 0, [0, 1], [], [1, 2, 3], 1⟩, ⟨3, true, 7, 0, [], [], [], 0⟩⟩ := by
    decide +kernel
  have hc : (match travels (envOf [sampleBib 0 [0, 1]] none 2) (envOf [sampleBib 2 [0, 1]] (some 8) 2) with
      | some (_, _, _, w, o) => decide (o = .ok .drop) && firstIs w 11 [1] ⟨2, 1⟩
      | none => false) = true := by decide +kernel
  split at hc
  · rename_i v' left g' w o ht
    simp only [Bool.and_eq_true, decide_eq_true_eq] at hc
    obtain ⟨h1, h2, h3⟩ := travels_spec ht
    refine ⟨_, _, _, v', w, left, _, g', hp, hq, rfl, sample_unprotected, ?_, rfl, by decide, h1, h2, firstIs_spec hc.2, h3.trans hc.1⟩
    exact ⟨by decide, fun h => absurd rfl h, by decide, by decide, by decide, by unfold IsSource; decide, by decide, by decide,
      by decide +kernel⟩
  · simp at hc

/-- A rule for confidentiality with a key encryption key. -/
def sampleKek (role : Fin 3) (targets : List Nat) : Rule :=
  ⟨some role, some .confidentiality, uri "ipn:2.1", [uri "ipn:*.*"], [uri "ipn:*.*"], targets, 1,
    [.aes 128, .ivSize 12, .scope 7, .kek (some (List.replicate 16 5))]⟩

/-- A source may be given a key encryption key instead of a key, and its rule is accepted; no bundle is ever sent by it. -/
theorem C97_kek_violated : ∃ (E : Env) (p : Policy),
    E.manager.find ⟨⟨2, 1⟩, sampleView.primary.source, sampleView.primary.dest, roleSource⟩ = some p ∧ p.doBcb = true ∧
    p.bcb.kek.length = 16 ∧ ∀ g room r, findAndSend E ⟨2, 1⟩ g sampleView room ≠ .ok r := by
  have hp : (envOf [sampleKek 0 [1]] none 2).manager.find ⟨⟨2, 1⟩, sampleView.primary.source, sampleView.primary.dest, roleSource⟩ =
      some ⟨false, true, false, false, ⟨6, 7, 0, [], [], [], 0⟩, ⟨1, true, 7, 0, [1], List.replicate 16 5, [], 1⟩⟩ := by
    decide +kernel
  exact ⟨_, _, hp, rfl, by decide, fun g room => C97_nothing_to_protect _ _ _ _ _ _ hp (Or.inr ⟨rfl, Or.inr rfl⟩)⟩

/-- C97, part 4: the hypotheses are met by a policy for hop count blocks, and the sample, which has none. -/
example : ∃ p : Policy, (envOf [sampleBib 0 [10]] none 2).manager.find
      ⟨⟨2, 1⟩, sampleView.primary.source, sampleView.primary.dest, roleSource⟩ = some p ∧ p.doBib = true ∧
    ∀ t ∈ p.bib.targets, ∀ b ∈ sampleView.blocks, b.block.typeCode ≠ UInt8.ofNat t :=
  ⟨⟨true, false, false, false, ⟨5, 7, 0, [10], [], [1, 2, 3], 1⟩, ⟨3, true, 7, 0, [], [], [], 0⟩⟩, by decide +kernel, rfl, by decide +kernel⟩

end Hdtn.BpSecProcess
