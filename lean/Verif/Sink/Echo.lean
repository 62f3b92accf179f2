import Verif.Sink.Props

/-!
C132 and C133: the echo service of a sink, and bundles of version 7.
-/

namespace Hdtn.Sink

open Hdtn.HashMap16 Hdtn.Sink.Spec
open Hdtn.CustodyManager.Spec (EidFits)
open Hdtn.BundleView6.Spec (OneByteFlags)

/-! ## C132: version 6 -/

theorem turned_back {buf : Bytes} {v : BundleView6.View} {echo : Eid} (he : EidFits echo) (hl : BundleView6.load buf = some v)
    (ho : ∀ b ∈ v.blocks, OneByteFlags b.raw b.block) (hw : v.primary.flags.testBit 0 = false) :
    ∃ out w, (turnBack6 echo v).renderMax (buf.length + 500) = .done out w ∧ Returned6 echo v out := by
  obtain ⟨h1, h2, h3, h4, h5⟩ := (BundleView6.C56_load_iff _ _).1 hl
  have hnf : ¬ Bpv6Primary.Spec.IsFragment v.primary := by
    rw [← Bpv6Primary.isFragment_iff]
    unfold Bpv6Primary.Primary.isFragment
    rw [hw]
    simp
  have hin : Bpv6Primary.Spec.InRange (turnBack6 echo v).primary := by
    obtain ⟨⟨body, _, hs⟩, _⟩ := h2
    have hlt := CustodyManager.split_lt hs
    refine ⟨hlt _ (by simp [turnBack6]), fun x hx => ?_⟩
    have hm : x = echo.node ∨ x = echo.service ∨ x ∈ Bpv6Primary.Spec.tailFields v.primary := by
      unfold Bpv6Primary.Spec.tailFields at hx ⊢
      have hf : Bpv6Primary.Spec.IsFragment (turnBack6 echo v).primary = Bpv6Primary.Spec.IsFragment v.primary := rfl
      rw [List.mem_append] at hx ⊢
      rcases hx with hx | hx
      · simp only [List.mem_cons, List.not_mem_nil, or_false, turnBack6] at hx ⊢
        rcases hx with h | h | h | h | h | h | h | h | h | h | h | h <;> simp [h]
      · exact .inr (.inr (.inr hx))
    rcases hm with rfl | rfl | hm
    · exact he.1
    · exact he.2
    · exact hlt x (by simp [hm])
  have h0 : (turnBack6 echo v).primary.fragmentOffset = 0 ∧ (turnBack6 echo v).primary.totalAduLength = 0 := h2.2 hnf
  obtain ⟨o, ho1, ho2⟩ := Bpv6Primary.C38_whole_bundle_never_refused _ hin (by exact hnf)
  obtain ⟨pout, p, p1, p2, p3, p4⟩ := BundleView6.primary_done (turnBack6 echo v) (by
    unfold BundleView6.Spec.PrimaryReady
    rw [if_pos (show (turnBack6 echo v).primaryDirty = true from rfl)]
    exact ⟨hin, by rw [ho1]; rfl, fun _ => h0⟩)
  have hfil : ((turnBack6 echo v).blocks.filter fun b => !b.deleted) = v.blocks := by
    show v.blocks.filter (fun b => !b.deleted) = v.blocks
    rw [List.filter_eq_self]
    intro b hb
    rw [(h4 b hb).2.2.2]
    rfl
  have hbl := BundleView6.renderBlocks_same v.blocks (.inr h5) fun b hb => ⟨ho b hb, (h4 b hb).2.2.1⟩
  have hren : (turnBack6 echo v).render = some (pout ++ (v.blocks.map (·.raw)).flatten, ⟨p, pout, false, v.blocks⟩) := by
    simp only [BundleView6.View.render, p1, hfil, hbl, Option.bind_eq_bind, Option.bind_some, Option.pure_def]
  have hplen : pout.length ≤ 139 := by
    have hflags : (Sdnv.encodeU64ClassicBufSize10 (turnBack6 echo v).primary.flags).length ≤ 10 := Bpv6Primary.encode_len _ hin.1
    unfold BundleView6.renderPrimary at p1
    rw [if_pos (show (turnBack6 echo v).primaryDirty = true from rfl), Bpv6Primary.serialize_eq] at p1
    by_cases hlong : (Bpv6Primary.tailBytes (turnBack6 echo v).primary).length > 127
    · rw [if_pos hlong] at p1
      simp at p1
    · rw [if_neg hlong] at p1
      simp only [Option.some.injEq, Prod.mk.injEq] at p1
      rw [← p1.1]
      simp only [List.length_cons, List.length_append, List.length_nil]
      omega
  refine ⟨_, _, CustodyManager.renderMax_done hren ?_, ⟨p, pout, false, v.blocks⟩, ?_, rfl, ?_⟩
  · rw [h1, List.length_append, List.length_append]
    omega
  · rw [BundleView6.C56_load_iff]
    refine ⟨rfl, p2, rfl, fun b hb => ?_, h5⟩
    have : p.flags = v.primary.flags := by rw [p3]; rfl
    rw [this]
    exact h4 b hb
  · exact p3

/-- C132: a bundle to the echo service of the sink is sent back to its source, once; all its blocks are as they were, and its source is the echo service.
Nothing else changes. (Missing: fragments, and blocks whose flags need more than one byte.) -/
theorem C132_echo_partial (C : Cfg) (hcan : C.canSend = true) (he : EidFits C.echo) (s : Sink) (hroom : s.queue.length ≤ 2000) (buf : Bytes)
    (v : BundleView6.View) (hl : BundleView6.load buf = some v) (ho : ∀ b ∈ v.blocks, OneByteFlags b.raw b.block)
    (hw : v.primary.flags.testBit 0 = false) (hf : ForEcho C v.primary) (now : Nat) (t : AdminRecord6.DtnTime) :
    ∃ out, Returned6 C.echo v out ∧
      s.receive6 C buf now t = (({ s with queue := s.queue ++ [(v.primary.source, out)] } : Sink), .echoed) := by
  obtain ⟨out, w, h1, h2⟩ := turned_back he hl ho hw
  refine ⟨out, h2, ?_⟩
  unfold Sink.receive6
  rw [hl]
  dsimp only
  unfold Sink.view6
  rw [if_pos ((isEcho6_iff _ _).2 hf), if_neg (by simp [hcan]), h1]
  dsimp only
  unfold Sink.forward
  rw [if_neg (by omega)]

/-- C132: a sink that cannot send answers to nobody. -/
theorem C132_cannot_send (C : Cfg) (hcan : C.canSend = false) (s : Sink) (buf : Bytes) (v : BundleView6.View) (hl : BundleView6.load buf = some v)
    (hf : ForEcho C v.primary) (now : Nat) (t : AdminRecord6.DtnTime) : s.receive6 C buf now t = (s, .refused) := by
  unfold Sink.receive6
  rw [hl]
  dsimp only
  unfold Sink.view6
  rw [if_pos ((isEcho6_iff _ _).2 hf), if_pos (by simp [hcan])]

/-- A bundle from 2.2047 to the echo service of the sample, 1.2047. -/
def ping : Bytes := [6, 16, 14, 1, 143, 127, 2, 143, 127, 0, 0, 0, 0, 9, 1, 60, 0, 1, 8, 2, 7, 8]

example : (∃ v, BundleView6.load ping = some v ∧ (∀ b ∈ v.blocks, OneByteFlags b.raw b.block) ∧ v.primary.flags.testBit 0 = false ∧
    isEcho6 sample v.primary = true) ∧
    (((Sink.start true ⟨1, 1⟩).receive6 sample ping 5 ⟨5, 0⟩).1.queue) =
      [(⟨2, 2047⟩, [6, 16, 14, 2, 143, 127, 1, 143, 127, 0, 0, 0, 0, 9, 1, 60, 0, 1, 8, 2, 7, 8])] := by
  refine ⟨⟨(BundleView6.load ping).get (by decide +kernel), ?_⟩, by decide +kernel⟩
  unfold OneByteFlags
  decide +kernel

/-- The bundle `buf` is answered with `out` at a sink, whatever its state is, as long as there is room in its queue. -/
def Answers (C : Cfg) (buf out : Bytes) : Prop :=
  ∀ (s : Sink) now t, s.queue.length ≤ 2000 → ∃ dest, s.receive6 C buf now t = (({ s with queue := s.queue ++ [(dest, out)] } : Sink), .echoed)

/-- Violated: a bundle ends its way at some time. Two echo services that get a bundle of one to the other send it to and fro without end; nothing counts
its hops, and its lifetime is not looked at. -/
theorem C132_forever_violated (C : Bool → Cfg) (hcan : ∀ i, (C i).canSend = true) (he : ∀ i, EidFits (C i).echo) (buf : Bytes) (v : BundleView6.View)
    (hl : BundleView6.load buf = some v) (ho : ∀ b ∈ v.blocks, OneByteFlags b.raw b.block) (hw : v.primary.flags.testBit 0 = false)
    (hf : ForEcho (C false) v.primary) (hsrc : v.primary.source = (C true).echo) :
    ∃ f : Nat → Bytes, f 0 = buf ∧ ∀ k, Answers (C (k % 2 == 1)) (f k) (f (k + 1)) := by
  let P : Nat → Bytes → Prop := fun k b => ∃ u, BundleView6.load b = some u ∧ (∀ c ∈ u.blocks, OneByteFlags c.raw c.block) ∧
    u.primary.flags.testBit 0 = false ∧ ForEcho (C (k % 2 == 1)) u.primary ∧ u.primary.source = (C ((k + 1) % 2 == 1)).echo
  have hstep : ∀ k b, P k b → ∃ b', P (k + 1) b' ∧ Answers (C (k % 2 == 1)) b b' := by
    rintro k b ⟨u, u1, u2, u3, u4, u5⟩
    obtain ⟨out, w, h1, w', h2, h3, h4⟩ := turned_back (he (k % 2 == 1)) u1 u2 u3
    refine ⟨out, ⟨w', h2, by rw [h3]; exact u2, by rw [h4]; exact u3, ⟨by rw [h4]; exact u4.1, by rw [h4]; exact u5⟩, ?_⟩, ?_⟩
    · rw [h4]
      have : (k + 1 + 1) % 2 = k % 2 := by omega
      rw [this]
    · intro s now t hs
      refine ⟨u.primary.source, ?_⟩
      unfold Sink.receive6
      rw [u1]
      dsimp only
      unfold Sink.view6
      rw [if_pos ((isEcho6_iff _ _).2 u4), if_neg (by simp [hcan]), h1]
      dsimp only
      unfold Sink.forward
      rw [if_neg (by omega)]
  choose! g hg1 hg2 using hstep
  let f : Nat → Bytes := fun n => Nat.rec buf (fun k b => g k b) n
  have hP : ∀ k, P k (f k) := by
    intro k
    induction k with
    | zero => exact ⟨v, hl, ho, hw, hf, hsrc⟩
    | succ k ih => exact hg1 k _ ih
  exact ⟨f, rfl, fun k => hg2 k _ (hP k)⟩

/-- The bundle `ping` is such a bundle. -/
example : ∃ C : Bool → Cfg, ∃ v, (∀ i, (C i).canSend = true) ∧ BundleView6.load ping = some v ∧ isEcho6 (C false) v.primary = true ∧
    v.primary.source = (C true).echo :=
  ⟨fun i => ⟨⟨if i then 2 else 1, 1⟩, ⟨if i then 2 else 1, 2047⟩, true⟩, (BundleView6.load ping).get (by decide +kernel), by decide, by decide +kernel,
    by decide +kernel, by decide +kernel⟩

/-- Violated: source and creation time tell bundles apart. Answers to two bundles from different sources that were created at the same time have the same
identity, although they go to different places. -/
theorem C132_identity_violated (C : Cfg) (hcan : C.canSend = true) (he : EidFits C.echo) (s s' : Sink) (hroom : s.queue.length ≤ 2000)
    (hroom' : s'.queue.length ≤ 2000) (buf buf' : Bytes) (v v' : BundleView6.View) (hl : BundleView6.load buf = some v)
    (hl' : BundleView6.load buf' = some v') (ho : ∀ b ∈ v.blocks, OneByteFlags b.raw b.block) (ho' : ∀ b ∈ v'.blocks, OneByteFlags b.raw b.block)
    (hw : v.primary.flags.testBit 0 = false) (hw' : v'.primary.flags.testBit 0 = false) (hf : ForEcho C v.primary) (hf' : ForEcho C v'.primary)
    (hsame : v.primary.creationSeconds = v'.primary.creationSeconds ∧ v.primary.creationSequence = v'.primary.creationSequence)
    (hdiff : v.primary.source ≠ v'.primary.source) (now now' : Nat) (t t' : AdminRecord6.DtnTime) :
    ∃ out out' w w', (s.receive6 C buf now t).1.queue = s.queue ++ [(v.primary.source, out)] ∧
      (s'.receive6 C buf' now' t').1.queue = s'.queue ++ [(v'.primary.source, out')] ∧
      BundleView6.load out = some w ∧ BundleView6.load out' = some w' ∧ identity w.primary = identity w'.primary ∧ w.primary.dest ≠ w'.primary.dest := by
  obtain ⟨out, ⟨w, a1, _, a2⟩, a3⟩ := C132_echo_partial C hcan he s hroom buf v hl ho hw hf now t
  obtain ⟨out', ⟨w', b1, _, b2⟩, b3⟩ := C132_echo_partial C hcan he s' hroom' buf' v' hl' ho' hw' hf' now' t'
  refine ⟨out, out', w, w', by rw [a3], by rw [b3], a1, b1, ?_, ?_⟩
  · unfold identity
    rw [a2, b2]
    simp [hsame]
  · rw [a2, b2]
    exact hdiff

/-! ## C133: version 7 -/

open Hdtn.BundleView7 (View BlockView)
open Hdtn.BundleView7.Spec (IsViewOf)
open Hdtn.Ingress7 (setPrevious countHop turnBack changed change stage_plain edited forward_full mem_byType)
open Hdtn.Ingress7.Spec (Open MayPass BlocksForwarded)

/-- The only payload of a bundle is in its last block. -/
theorem payload_last {v : View} {buf : Bytes} (hv : IsViewOf false v buf) :
    ∃ init last, v.blocks = init ++ [last] ∧ last.block.typeCode = 1 ∧ v.byType 1 = [last] := by
  obtain ⟨init, last, h1, h2, h3⟩ := Ingress7.last_block hv
  refine ⟨init, last, h1, h2, ?_⟩
  unfold View.byType
  rw [h1, List.filter_append]
  have : (init.filter fun b => b.block.typeCode = 1) = [] := by
    rw [List.filter_eq_nil_iff]
    intro b hb
    obtain ⟨i, l, e, _, _, e3⟩ := hv.2.2.2.2.2.2.1
    rw [h1, List.map_append] at e
    have e := List.append_inj_left' e rfl
    simpa using e3 b.block (by rw [← e]; exact List.mem_map_of_mem hb)
  rw [this, List.nil_append]
  simp [h2]

theorem priority_fine {v : View} {buf : Bytes} (hv : IsViewOf false v buf) (h : PriorityFine v) (u : View) (hu : u.byType 13 = v.byType 13) (ghost : Nat) :
    priorityOk ghost u = true := by
  unfold priorityOk
  rw [hu]
  have hlen : (v.byType 13).length ≤ 1 := h.1
  cases hl : v.byType 13 with
  | nil => rfl
  | cons b bs =>
    have : bs = [] := by
      rw [hl] at hlen
      simpa using hlen
    subst this
    obtain ⟨hb, ht⟩ := mem_byType.1 (hl ▸ List.mem_cons_self : b ∈ v.byType 13)
    obtain ⟨h1, h2⟩ := h.2 b hb ht
    have hbody := (hv.2.2.2.2.2.2.2.2.2.1 b hb).2.2.2.2 (fun he => h1 he.2)
    cases hbb : b.body with
    | ext x =>
      rw [hbb] at hbody
      have hx := hbody.1
      rw [ht] at hx
      cases x with
      | priority p => simpa [hbb] using h2 p hbb
      | hopCount l c => simp [Bpv7Canonical.Ext.typeCode] at hx
      | previousNode e => simp [Bpv7Canonical.Ext.typeCode] at hx
      | bundleAge e => simp [Bpv7Canonical.Ext.typeCode] at hx
    | plain => rw [hbb] at hbody; exact absurd (Or.inr (Or.inr (Or.inr ht))) hbody.2.1
    | sec a => rw [hbb] at hbody; have := hbody.1; rw [ht] at this; simp [BundleView7.Spec.IsSecType] at this
    | admin r => rw [hbb] at hbody; have := hbody.2.1; rw [ht] at this; simp at this
    | hidden => rw [hbb] at hbody; exact hbody.elim

theorem changed_byType (me : Eid) (v u : View) (hu : u.blocks = changed me v) (t : UInt8) (h6 : t ≠ 6) (h10 : t ≠ 10) : u.byType t = v.byType t := by
  unfold View.byType
  rw [hu]
  unfold changed
  rw [List.filter_append]
  have h1 : ((if v.byType 6 = [] then [Ingress7.newPrevious me v.nextFree] else []).filter fun b => b.block.typeCode = t) = [] := by
    rw [List.filter_eq_nil_iff]
    intro b hb
    split_ifs at hb
    · simp only [List.mem_singleton] at hb
      subst hb
      simp [Ingress7.newPrevious, BundleView7.newBlock, h6.symm]
    · simp at hb
  rw [h1, List.nil_append]
  generalize v.blocks = L
  induction L with
  | nil => rfl
  | cons b L ih =>
    rw [List.map_cons, List.filter_cons, List.filter_cons, (Ingress7.change_block me b).1, ih]
    split_ifs with ht
    · simp only [decide_eq_true_eq] at ht
      rw [Ingress7.change_other (by rw [ht]; exact h6) (by rw [ht]; exact h10)]
    · rfl

/-- Counting the hop of a bundle that may pass leaves all other blocks alone. -/
theorem counted {v : View} {buf : Bytes} (hv : IsViewOf false v buf) (ho : Open v) (hm : MayPass v) (ghost : Nat × Nat) :
    ∃ u, countHop ghost v = some u ∧ ∀ t, t ≠ 10 → u.byType t = v.byType t := by
  unfold countHop
  have h10 : (v.byType 10).length ≤ 1 := hm.2.1
  cases hl : v.byType 10 with
  | nil => exact ⟨v, rfl, fun _ _ => rfl⟩
  | cons b bs =>
    have : bs = [] := by
      rw [hl] at h10
      simpa using h10
    subst this
    obtain ⟨hb, ht⟩ := mem_byType.1 (hl ▸ List.mem_cons_self : b ∈ v.byType 10)
    obtain ⟨l, c, hbody, hlt, hct⟩ := Ingress7.hop_body hv ho hb ht
    obtain ⟨hc1, hc2⟩ := hm.2.2 b hb l c hbody
    simp only [hbody]
    rw [Nat.mod_eq_of_lt (by omega), if_neg (by omega)]
    refine ⟨_, rfl, fun t htt => ?_⟩
    unfold View.byType
    rw [Ingress7.setBody_blocks]
    generalize v.blocks = L
    induction L with
    | nil => rfl
    | cons b L ih =>
      rw [List.map_cons, List.filter_cons, List.filter_cons, ih]
      by_cases hb : b.block.typeCode = 10
      · simp [hb, htt.symm]
      · simp [hb]

/-- C133: a bundle of version 7 for this endpoint is given to the application: the data of its last block. (Missing: bundles whose security blocks are
changed on the way, or whose previous node, hop count or priority block is encrypted.) -/
theorem C133_delivered_partial (C : Cfg) (hne : C.me ≠ C.echo) (E : BpSecProcess.Env) (asb : Nat → BpSec7.Asb) (hop : Nat × Nat) (prio : Nat)
    (pad mem : Bytes) (v : View) (buf : Bytes) (hv : IsViewOf false v buf) (hl : buf.length < 2 ^ 61) (ho : Open v) (hm : MayPass v) (hp : PriorityFine v)
    (hd : v.primary.dest = C.me) (hr : BpSecProcess.receive E asb pad v = .ok (.keep v)) :
    ∃ init last, v.blocks = init ++ [last] ∧ last.block.typeCode = 1 ∧
      receive7 C E asb hop prio pad mem v = .ok (.payload last.block.data) := by
  obtain ⟨init, last, h1, h2, h3⟩ := payload_last hv
  refine ⟨init, last, h1, h2, ?_⟩
  have hde : v.primary.dest ≠ C.echo := by rw [hd]; exact hne
  have key : ∃ u, (previous C v).bind (countHop hop) = some u ∧ u.byType 13 = v.byType 13 ∧ u.byType 1 = v.byType 1 := by
    unfold previous
    cases h6 : v.byType 6 with
    | nil =>
      dsimp only
      rw [if_neg hde]
      obtain ⟨u, u1, u2⟩ := counted hv ho hm hop
      exact ⟨u, u1, u2 13 (by decide), u2 1 (by decide)⟩
    | cons b bs =>
      dsimp only
      have he := edited hv ho hm (stage_plain hv ho hl) C.echo hop
      exact ⟨_, he, changed_byType C.echo v _ rfl 13 (by decide) (by decide), changed_byType C.echo v _ rfl 1 (by decide) (by decide)⟩
  obtain ⟨u, k1, k2, k3⟩ := key
  obtain ⟨v1, hv1, hv2⟩ := Option.bind_eq_some_iff.1 k1
  unfold receive7
  rw [hr]
  simp only [BpSec7.Out.bind]
  unfold view7
  rw [if_neg (fun h => hde h.1), if_neg (fun h => h.2 hd), hv1]
  dsimp only
  rw [hv2]
  dsimp only
  rw [priority_fine hv hp u k2, k3, h3, if_neg hde]
  simp

/-- C133: a bundle of version 7 that is neither for this endpoint nor for the echo service is refused, and so is one for the echo service if the sink
cannot send. -/
theorem C133_others (C : Cfg) (hop : Nat × Nat) (prio : Nat) (mem : Bytes) (v : View)
    (h : v.primary.dest ≠ C.me ∧ v.primary.dest ≠ C.echo ∨ v.primary.dest = C.echo ∧ C.canSend = false) : view7 C hop prio mem v = .ok .refused := by
  unfold view7
  rcases h with ⟨h1, h2⟩ | h
  · rw [if_neg (fun h => h2 h.1), if_pos ⟨h2, h1⟩]
  · rw [if_pos h]

/-- C133: a bundle whose security blocks do not hold is refused. -/
theorem C133_insecure (C : Cfg) (E : BpSecProcess.Env) (asb : Nat → BpSec7.Asb) (hop : Nat × Nat) (prio : Nat) (pad mem : Bytes) (v : View)
    (h : BpSecProcess.receive E asb pad v = .ok .drop) : receive7 C E asb hop prio pad mem v = .ok .refused := by
  unfold receive7
  rw [h]
  rfl

/-- C133: a bundle that has passed more nodes than its hop count allows, or more than 255, is neither delivered nor sent back. -/
theorem C133_hops (C : Cfg) (hop : Nat × Nat) (prio : Nat) (mem : Bytes) (v : View) (b : BlockView) (limit count : Nat) (hb : v.byType 10 = [b])
    (hc : b.body = .ext (.hopCount limit count)) (hfit : count + 1 < 2 ^ 64) (h : limit < count + 1 ∨ 255 < count + 1) :
    view7 C hop prio mem v = .ok .refused := by
  have hcount : ∀ u : View, u.byType 10 = [b] → countHop hop u = none := by
    intro u hu
    unfold countHop
    rw [hu]
    simp only [hc]
    rw [Nat.mod_eq_of_lt hfit, if_pos h]
  have hprev : ∀ u, previous C v = some u → u.byType 10 = [b] := by
    intro u hu
    have hset : ∀ u, setPrevious C.echo v = some u → u.byType 10 = v.byType 10 := by
      intro u hu
      unfold setPrevious at hu
      split at hu
      · simp only [Option.some.injEq] at hu
        subst hu
        simp [View.byType, View.prepend, BundleView7.newBlock]
      · simp only [Option.some.injEq] at hu
        subst hu
        unfold View.byType
        rw [Ingress7.setBody_blocks]
        generalize v.blocks = L
        induction L with
        | nil => rfl
        | cons c L ih =>
          rw [List.map_cons, List.filter_cons, List.filter_cons, ih]
          by_cases hc : c.block.typeCode = 6
          · simp [hc]
          · simp [hc]
      · simp at hu
    unfold previous at hu
    split at hu
    · split_ifs at hu
      · rw [hset u hu, hb]
      · simp only [Option.some.injEq] at hu
        rw [← hu, hb]
    · rw [hset u hu, hb]
  unfold view7
  by_cases c1 : v.primary.dest = C.echo ∧ C.canSend = false
  · rw [if_pos c1]
  · rw [if_neg c1]
    by_cases c2 : v.primary.dest ≠ C.echo ∧ v.primary.dest ≠ C.me
    · rw [if_pos c2]
    rw [if_neg c2]
    cases hpv : previous C v with
    | none => rfl
    | some u =>
      dsimp only
      rw [hcount u (hprev u hpv)]

/-- C133: a bundle of version 7 to the echo service goes back to its source, with the echo service as its source and as its previous node, and one more
hop. All else is as it was, up to the CRC of the primary block. (Missing: what is missing above.) -/
theorem C133_echo_partial (C : Cfg) (hcan : C.canSend = true) (hecho : Proper C.echo) (E : BpSecProcess.Env) (asb : Nat → BpSec7.Asb)
    (hop : Nat × Nat) (prio : Nat) (pad mem : Bytes) (v : View) (buf : Bytes) (hv : IsViewOf false v buf) (hl : buf.length < 2 ^ 61)
    (hmem : mem.length = buf.length + 500) (ho : Open v) (hm : MayPass v) (hp : PriorityFine v) (hd : v.primary.dest = C.echo)
    (hproper : (v.primary.source.node = 0 → v.primary.source.service = 0) ∧ (v.primary.reportTo.node = 0 → v.primary.reportTo.service = 0))
    (hr : BpSecProcess.receive E asb pad v = .ok (.keep v)) :
    ∃ (out : Bytes) (w : View), receive7 C E asb hop prio pad mem v = .ok (.echo v.primary.source out) ∧
      (∀ pad', (out ++ pad').length < 2 ^ 64 → BundleView7.load ⟨[], []⟩ false out pad' = .ok w) ∧
      w.primary = { v.primary with dest := v.primary.source, source := C.echo, crc16 := w.primary.crc16, crc32 := w.primary.crc32 } ∧
      BlocksForwarded C.echo v w := by
  have hs := stage_plain hv ho hl
  have he := edited hv ho hm hs C.echo hop
  obtain ⟨v1, hv1, hv2⟩ := Option.bind_eq_some_iff.1 he
  have hprev : previous C v = some v1 := by
    unfold previous
    split
    · rw [if_pos hd, hv1]
    · exact hv1
  have hprim : Bpv7Primary.Spec.InRange { v.primary with dest := v.primary.source, source := C.echo } ∧
      (v.primary.crcType = 0 ∨ v.primary.crcType = 1 ∨ v.primary.crcType = 2) := by
    obtain ⟨head, flags, dest, source, reportTo, creation, lifetime, frag, crc, _, _, h1, h2, h3, h4, h5, h6, _, _, h7⟩ := hv.2.1
    obtain ⟨body, _, p1, q1, _, c1, p2, q2, _, c2, _⟩ := h5
    refine ⟨⟨Cbor.isUint_lt h1, Cbor.isUint_lt c1, Cbor.isUint_lt c2, Cbor.isUint_lt h6, by rw [hv.2.2.2.1]; decide, by rw [hv.2.2.2.2.1]; decide, ?_⟩, ?_⟩
    · intro e he
      simp only [List.mem_cons, List.not_mem_nil, or_false] at he
      rcases he with rfl | rfl | rfl
      · exact ⟨(Ingress7.eid_fits h3).1, (Ingress7.eid_fits h3).2, hproper.1⟩
      · exact hecho
      · exact ⟨(Ingress7.eid_fits h4).1, (Ingress7.eid_fits h4).2, hproper.2⟩
    · rcases h7 with ⟨h, _⟩ | ⟨h, _⟩ | ⟨h, _⟩
      · exact Or.inl h
      · exact Or.inr (Or.inl h)
      · exact Or.inr (Or.inr h)
  obtain ⟨u', w, left, r1, r2, r3, r4, r5, r6, r7, r8⟩ := forward_full (x := turnBack C.echo { v with
      blocks := changed C.echo v
      free := if v.byType 6 = [] then BundleView7.reserve v.free v.nextFree else v.free }) hv ho hm hs hecho rfl
    ⟨hv.2.2.1, hv.2.2.2.1, hv.2.2.2.2.1, fun h => by simp [turnBack] at h, fun _ => hprim⟩ rfl (fun h => by simp [turnBack] at h) rfl
  refine ⟨u'.rendered, w, ?_, fun pad' hp' => (BundleView7.C77_load_iff false _ pad' w hp').2 r2, r3.1, r6⟩
  unfold receive7
  rw [hr]
  simp only [BpSec7.Out.bind]
  unfold view7
  rw [if_neg (fun h => by simp [hcan] at h), if_neg (fun h => h.1 hd), hprev]
  dsimp only
  rw [hv2]
  dsimp only
  rw [priority_fine hv hp _ (changed_byType C.echo v _ rfl 13 (by decide) (by decide)), if_pos hd, r7 mem (by
    have : (turnBack C.echo { v with
      blocks := changed C.echo v
      free := if v.byType 6 = [] then BundleView7.reserve v.free v.nextFree else v.free }).rendered = buf := hv.2.2.2.2.2.2.2.2.2.2.2
    rw [this] at r8
    omega)]
  simp

/-- The sink of a node, without any security policy. -/
def at7 (C : Cfg) (bytes : Bytes) : Option (View × BpSec7.Out Outcome7) :=
  (BpSecProcess.loaded bytes).map fun v =>
    (v, receive7 C (BpSecProcess.envOf [] none C.me.node) BpSecProcess.unused (0, 0) 0 [] (List.replicate (bytes.length + 500) 0) v)

/-- What `PriorityFine` asks, in a form that can be computed. -/
def priorityFine (v : View) : Bool :=
  decide ((v.blocks.filter fun b => b.block.typeCode = 13).length ≤ 1) && v.blocks.all fun b =>
    b.block.typeCode ≠ 13 || (decide (b.block.number ∉ v.encrypted) && match b.body with | .ext (.priority p) => decide (p ≤ 2) | _ => true)

theorem priorityFine_spec {v : View} (h : priorityFine v = true) : PriorityFine v := by
  unfold priorityFine at h
  simp only [Bool.and_eq_true, decide_eq_true_eq, List.all_eq_true, Bool.or_eq_true] at h
  refine ⟨h.1, fun b hb ht => ?_⟩
  rcases h.2 b hb with hn | ⟨h1, h2⟩
  · exact absurd ht hn
  · refine ⟨h1, fun p hp => ?_⟩
    rw [hp] at h2
    simpa using h2

/-- The hypotheses of `C133_delivered_partial`: a bundle with a hop count block and a priority block for ipn:9.4. -/
example : ∃ (C : Cfg) (v : View) (buf : Bytes), C.me ≠ C.echo ∧ IsViewOf false v buf ∧ buf.length < 2 ^ 61 ∧ Open v ∧ MayPass v ∧ PriorityFine v ∧
    v.primary.dest = C.me ∧ (∀ E asb pad, BpSecProcess.receive E asb pad v = .ok (.keep v)) ∧ (∃ b ∈ v.blocks, b.block.typeCode = 13) ∧
    (at7 C buf).map (·.2) = some (.ok (.payload [0x68, 0x69])) := by
  have h : (match BpSecProcess.loaded (Ingress7.sampleTo 9 4 (Ingress7.sampleHop ++ [0x85, 13, 3, 0, 0, 0x41, 2])) with
      | some v => Ingress7.fine v && priorityFine v && v.primary.dest == ⟨9, 4⟩ && v.blocks.any (fun b => b.block.typeCode == 13) &&
          (at7 ⟨⟨9, 4⟩, ⟨9, 17⟩, true⟩ (Ingress7.sampleTo 9 4 (Ingress7.sampleHop ++ [0x85, 13, 3, 0, 0, 0x41, 2]))).map (·.2) ==
            some (.ok (.payload [0x68, 0x69]))
      | none => false) = true := by decide +kernel
  split at h
  · rename_i v hv
    simp only [Bool.and_eq_true, beq_iff_eq, List.any_eq_true] at h
    have hv := BpSecProcess.loaded_isView hv (by decide)
    obtain ⟨f1, f2, f3, _⟩ := Ingress7.fine_spec hv h.1.1.1.1
    exact ⟨_, v, _, by decide, hv, by decide, f2, f1, priorityFine_spec h.1.1.1.2, h.1.1.2, fun E asb pad => BpSecProcess.C95_plain E asb pad v f3, h.1.2, h.2⟩
  · cases h

/-- The hypotheses of `C133_hops`. -/
example : (match BpSecProcess.loaded (Ingress7.sampleTo 9 4 [0x85, 10, 2, 0, 0, 0x43, 0x82, 20, 20]) with
    | some v => (v.byType 10).map (·.body) == [.ext (.hopCount 20 20)]
    | none => false) = true := by decide +kernel

/-- The hypotheses of `C133_echo_partial`. -/
example : ∃ (C : Cfg) (v : View) (buf out : Bytes), C.canSend = true ∧ Proper C.echo ∧ IsViewOf false v buf ∧ buf.length < 2 ^ 61 ∧ Open v ∧ MayPass v ∧
    PriorityFine v ∧ v.primary.dest = C.echo ∧ (v.primary.source.node = 0 → v.primary.source.service = 0) ∧
    (v.primary.reportTo.node = 0 → v.primary.reportTo.service = 0) ∧ (∀ E asb pad, BpSecProcess.receive E asb pad v = .ok (.keep v)) ∧
    (at7 C buf).map (·.2) = some (.ok (.echo ⟨1, 1⟩ out)) := by
  have h : (match BpSecProcess.loaded (Ingress7.sampleTo 9 17 Ingress7.sampleHop) with
      | some v => Ingress7.fine v && priorityFine v && v.primary.dest == ⟨9, 17⟩ && v.primary.source == ⟨1, 1⟩ && v.primary.reportTo == ⟨1, 1⟩ &&
          (at7 ⟨⟨9, 4⟩, ⟨9, 17⟩, true⟩ (Ingress7.sampleTo 9 17 Ingress7.sampleHop)).map (·.2) ==
            some (.ok (.echo ⟨1, 1⟩ (0x9f :: [0x88, 7, 0, 0, 0x82, 2, 0x82, 1, 1, 0x82, 2, 0x82, 9, 17, 0x82, 2, 0x82, 1, 1, 0x82, 0, 0, 10] ++
              [0x86, 6, 3, 16, 2, 0x45, 0x82, 2, 0x82, 9, 17, 0x44, 211, 247, 104, 238] ++ [0x85, 10, 2, 0, 0, 0x43, 0x82, 20, 4] ++
                [0x85, 1, 1, 0, 0, 0x42, 0x68, 0x69, 0xff])))
      | none => false) = true := by decide +kernel
  split at h
  · rename_i v hv
    simp only [Bool.and_eq_true, beq_iff_eq] at h
    have hv := BpSecProcess.loaded_isView hv (by decide)
    obtain ⟨f1, f2, f3, _⟩ := Ingress7.fine_spec hv h.1.1.1.1.1
    exact ⟨_, v, _, _, rfl, ⟨by decide, by decide, by decide⟩, hv, by decide, f2, f1, priorityFine_spec h.1.1.1.1.2, h.1.1.1.2, by rw [h.1.1.2]; decide,
      by rw [h.1.2]; decide, fun E asb pad => BpSecProcess.C95_plain E asb pad v f3, h.2⟩
  · cases h

/-- What a sink sends back. -/
def back7 (C : Cfg) (bytes : Bytes) : Option Bytes :=
  match at7 C bytes with
  | some (_, .ok (.echo _ out)) => some out
  | _ => none

/-- Violated: a bundle ends its way at some time. A bundle without a hop count block, from one echo service to another, is sent to and fro without end; its
lifetime is not looked at. -/
theorem C133_forever_violated : ∃ (C : Bool → Cfg) (f : Nat → Bytes), ∀ k, back7 (C (k % 2 == 1)) (f k) = some (f (k + 1)) := by
  let C : Bool → Cfg := fun i => if i then ⟨⟨1, 4⟩, ⟨1, 1⟩, true⟩ else ⟨⟨2, 4⟩, ⟨2, 17⟩, true⟩
  have h : (match back7 (C false) (Ingress7.sampleTo 2 17 []) with
      | some b1 =>
        match back7 (C true) b1 with
        | some b2 => back7 (C false) b2 == some b1
        | none => false
      | none => false) = true := by decide +kernel
  split at h
  · rename_i b1 h1
    split at h
    · rename_i b2 h2
      have h3 : back7 (C false) b2 = some b1 := by simpa using h
      refine ⟨C, fun k => if k % 2 = 1 then b1 else b2, fun k => ?_⟩
      rcases Nat.mod_two_eq_zero_or_one k with hk | hk
      · have : (k + 1) % 2 = 1 := by omega
        simp only [hk, this]
        exact h3
      · have : (k + 1) % 2 = 0 := by omega
        simp only [hk, this]
        exact h2
    · cases h
  · cases h

end Hdtn.Sink
