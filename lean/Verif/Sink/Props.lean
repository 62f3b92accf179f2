import Verif.Sink.Lemmas

/-!
C129-C134: what a sink of bundles does with what it receives.
-/

namespace Hdtn.Sink

open Hdtn.HashMap16 Hdtn.Sink.Spec
open Hdtn.CustodyManager.Spec (EidFits TimeFits Malformed Reached ValidCteb IsAdminBundle PrimaryFits signalFor aggregateFor)
open Hdtn.FragmentSet (Covers)
open Hdtn.Bpv6Fragment.Spec (Payload Whole WrittenAs Foreign)

/-! ## C129: payloads -/

/-- A sink with endpoint 1.1 and echo service 1.2047. -/
def sample : Cfg := ⟨⟨1, 1⟩, ⟨1, 2047⟩, true⟩

/-- A bundle from 2.1 to 1.1, with 2.1 as its custodian, which asks for custody; its payload is 7, 8. -/
def asked : Bytes := [6, 24, 12, 1, 1, 2, 1, 0, 0, 2, 1, 9, 1, 60, 0, 1, 8, 2, 7, 8]

/-- The same with a custody block of number 5 that names 2.1. -/
def askedBlock : Bytes := [6, 24, 12, 1, 1, 2, 1, 0, 0, 2, 1, 9, 1, 60, 0, 10, 0, 8, 5] ++ "ipn:2.1".toUTF8.toList ++ [1, 8, 2, 7, 8]

theorem reached_start (aware : Bool) (me : Eid) : Reached aware me (Sink.start aware me).custody := by
  refine ⟨[], by simp, ?_, rfl⟩
  intro before hb
  rw [List.prefix_nil] at hb
  subst hb
  exact Nat.zero_le _

/-- C129: the application gets a payload exactly if the bundle is for this endpoint and has a single payload block, which holds that payload; and if
custody, where it is asked for and can be signalled, could be taken. (Missing: fragments, which are in C130; a sink with the endpoint of its own echo
service; and a custody manager that has lost track, because it did not send its aggregates in time.) -/
theorem C129_delivered_partial (C : Cfg) (aware : Bool) (hme : EidFits C.me) (hne : C.me ≠ C.echo) (s : Sink) (hs : Reached aware C.me s.custody)
    (hid : s.nextId < 2 ^ 64) (buf : Bytes) (v : BundleView6.View) (hl : BundleView6.load buf = some v)
    (hw : v.primary.flags.testBit 0 = false) (hx : ∀ x, ValidCteb v x → x + 1 < 2 ^ 64) (now : Nat) (hnow : now < 2 ^ 64)
    (t : AdminRecord6.DtnTime) (ht : TimeFits t) (p : Bytes) :
    (s.receive6 C buf now t).2 = .payload p ↔
      v.primary.dest = C.me ∧ Payload v p ∧ ¬ (C.canSend = true ∧ WantsCustody v.primary ∧ Malformed aware v) := by
  obtain ⟨k1, k2⟩ := take_settled hme hs hid hl hx hnow ht
  unfold Sink.receive6
  rw [hl]
  dsimp only
  unfold Sink.view6
  by_cases he : isEcho6 C v.primary = true
  · rw [if_pos he]
    have hd : v.primary.dest ≠ C.me := by rw [((isEcho6_iff _ _).1 he).2]; exact hne.symm
    refine ⟨fun h => ?_, fun h => absurd h.1 hd⟩
    exfalso
    by_cases hcs : C.canSend = true
    · rw [if_neg (by simp [hcs])] at h
      split at h <;> simp at h
    · rw [if_pos (by simpa using hcs)] at h
      simp at h
  rw [if_neg he]
  by_cases hd : v.primary.dest = C.me
  swap
  · rw [if_pos hd]
    simp [hd]
  rw [if_neg (by simpa using hd)]
  by_cases hm : C.canSend = true ∧ WantsCustody v.primary ∧ Malformed aware v
  · have := k1 hm
    cases h : s.takeCustody C v now t with
    | mk s' r =>
      rw [h] at this
      dsimp only at this
      subst this
      simp [hm]
  · obtain ⟨s', v', h⟩ := k2 hm
    rw [h]
    dsimp only
    obtain ⟨o1, o2⟩ := take_ok h
    unfold Sink.deliver
    rw [if_neg (by rw [o2]; unfold Bpv6Primary.Primary.isFragment; rw [hw]; simp)]
    dsimp only
    rw [payloadOf_iff, payload_iff, payload_iff, o1]
    simp only [hd, hm, true_and, not_false_eq_true, and_true]

/-- The hypotheses hold for the sample, and its payload is delivered. -/
example : EidFits sample.me ∧ sample.me ≠ sample.echo ∧ (∃ v, BundleView6.load asked = some v ∧ v.primary.flags.testBit 0 = false ∧ v.byType 10 = [] ∧
    v.primary.dest = sample.me ∧ asksCustody v.primary = true) ∧
    ((Sink.start true ⟨1, 1⟩).receive6 sample asked 5 ⟨5, 0⟩).2 = .payload [7, 8] := by
  refine ⟨⟨by decide, by decide⟩, by decide, ⟨(BundleView6.load asked).get (by decide +kernel), ?_⟩, by decide +kernel⟩
  decide +kernel

/-- C129: any bundle is refused that no view can be made of, or that is for somebody else. -/
theorem C129_others (C : Cfg) (s : Sink) (buf : Bytes) (now : Nat) (t : AdminRecord6.DtnTime)
    (h : ∀ v, BundleView6.load buf = some v → v.primary.dest ≠ C.me ∧ ¬ ForEcho C v.primary) :
    s.receive6 C buf now t = (s, .refused) := by
  unfold Sink.receive6
  cases hl : BundleView6.load buf with
  | none => rfl
  | some v =>
    obtain ⟨h1, h2⟩ := h v hl
    dsimp only
    unfold Sink.view6
    rw [if_neg (fun h => h2 ((isEcho6_iff _ _).1 h)), if_pos h1]

/-- Violated: an administrative record is for the node, not for the application (RFC 5050, section 5.11); but the application gets each one that is sent
to its endpoint, custody signals and all others, and nothing is done about them. -/
theorem C129_administrative_violated (C : Cfg) (hne : C.me ≠ C.echo) (s : Sink) (out : Bytes) (source : Eid) (priority seconds sequence : Nat)
    (hp : priority < 4) (r : AdminRecord6.Record) (h : IsAdminBundle out source C.me priority seconds sequence r) (now : Nat) (t : AdminRecord6.DtnTime) :
    ∃ d, AdminRecord6.read d = some r ∧ s.receive6 C out now t = (s, .payload d) := by
  obtain ⟨v, b, h1, h2, h3, h4, _, h6, _, _, h9⟩ := h
  obtain ⟨_, _, _, g4, _⟩ := (BundleView6.C56_load_iff _ _).1 h1
  have hb := (g4 b (by rw [h2]; simp)).2.1
  rw [h4] at hb
  refine ⟨b.block.data, hb.2.2, ?_⟩
  have hbits : v.primary.flags.testBit 3 = false ∧ v.primary.flags.testBit 0 = false := by
    rw [h9]
    have : ∀ k < 4, (k * 128 + 16 + 4 + 2).testBit 3 = false ∧ (k * 128 + 16 + 4 + 2).testBit 0 = false := by decide
    exact this priority hp
  unfold Sink.receive6
  rw [h1]
  dsimp only
  unfold Sink.view6
  rw [if_neg (fun he => hne (h6 ▸ ((isEcho6_iff _ _).1 he).2)), if_neg (by simpa using h6), take_plain (fun hc => by
    have := hc.2.2
    rw [hbits.1] at this
    simp at this)]
  dsimp only
  unfold Sink.deliver
  rw [if_neg (by unfold Bpv6Primary.Primary.isFragment; rw [hbits.2]; simp)]
  rw [show payloadOf v = .payload b.block.data from (payloadOf_iff _ _).2 ((payload_iff _ _).2 ⟨b, by
    unfold BundleView6.View.byType
    rw [h2]
    simp [h3], rfl⟩)]

/-- Such a record: a custody signal from 2.1 to 1.1. -/
example : ∃ out, IsAdminBundle out ⟨2, 1⟩ sample.me 0 5 0 (signalFor ⟨24, 12, ⟨2, 1⟩, ⟨1, 1⟩, ⟨0, 0⟩, ⟨1, 1⟩, 9, 1, 60, 0, 0⟩ 2 0 ⟨5, 0⟩) := by
  obtain ⟨d, hd, hl⟩ := CustodyManager.signal_sound ⟨24, 12, ⟨2, 1⟩, ⟨1, 1⟩, ⟨0, 0⟩, ⟨1, 1⟩, 9, 1, 60, 0, 0⟩
    ⟨by decide, ⟨by decide, by decide⟩, ⟨by decide, by decide⟩, ⟨by decide, by decide⟩, ⟨by decide, by decide⟩, by decide, by decide, by decide, by decide,
      by decide⟩ 2 (by decide) 0 ⟨5, 0⟩ ⟨by decide, by decide⟩
  obtain ⟨out, _, _, h, _⟩ := CustodyManager.admin_rendered ⟨2, 1⟩ ⟨1, 1⟩ ⟨by decide, by decide⟩ ⟨by decide, by decide⟩ 0 5 0 (by decide) (by decide) _ d hd
    (by omega)
  exact ⟨out, h⟩

/-! ## C130: fragments -/

/-- C130: a bundle that comes in fragments is given to the application once its last fragment has come, in whatever order they come, however often, and
whatever else is received; before that nothing is. (Missing: bundles that ask for custody at a sink that can signal; and what is assembled must fit into
1024 bytes more than the payload.) -/
theorem C130_fragments_partial (C : Cfg) (hne : C.me ≠ C.echo) (v : BundleView6.View) (pre : List BundleView6.BlockView)
    (pb : BundleView6.BlockView) (post : List BundleView6.BlockView) (adu : Bytes) (hw : Whole v pre pb post adu) (sz : Nat) (hsz : 0 < sz)
    (hlt : sz < adu.length) (hn : adu.length < 2 ^ 63) (renderedSize : Nat) (fs : List (BundleView6.View × BundleView6.Rendered))
    (hfs : Bpv6Fragment.fragment v renderedSize sz = some fs) (hd : v.primary.dest = C.me)
    (hc : C.canSend = true → ¬ WantsCustody v.primary)
    (s : Sink) (hs : s.frags (Bpv6Fragment.idOf v.primary) = ⟨[], []⟩) (ops : List Op)
    (hrec : ∀ d ∈ inputs ops, (∃ f ∈ fs, WrittenAs f.1 d) ∨ Foreign v.primary d)
    (hmiss : ∃ f ∈ fs, ∀ d ∈ inputs ops, ¬ WrittenAs f.1 d) (d : Bytes) (hdf : ∃ f ∈ fs, WrittenAs f.1 d) (now : Nat) (t : AdminRecord6.DtnTime) :
    ((∃ f ∈ fs, ¬ WrittenAs f.1 d ∧ ∀ e ∈ inputs ops, ¬ WrittenAs f.1 e) → ((s.run C ops).receive6 C d now t).2 = .kept) ∧
    ((∀ f ∈ fs, WrittenAs f.1 d ∨ ∃ e ∈ inputs ops, WrittenAs f.1 e) →
      ((s.run C ops).receive6 C d now t).1.frags (Bpv6Fragment.idOf v.primary) = ⟨[], []⟩ ∧
      ∃ (whole w : BundleView6.View) (out : Bytes), whole.render = some (out, w) ∧
        w.primary = { v.primary with blockLength := w.primary.blockLength } ∧
        (out.length ≤ adu.length + 1024 → ((s.run C ops).receive6 C d now t).2 = .payload adu)) := by
  -- every fragment passes
  have hpass : ∀ e, (∃ f ∈ fs, WrittenAs f.1 e) → ∃ w, BundleView6.load e = some w ∧ w.primary.dest = C.me ∧ ¬ ForEcho C w.primary ∧
      w.primary.flags.testBit 0 = true ∧ ¬ (C.canSend = true ∧ WantsCustody w.primary) := by
    rintro e ⟨f, hf, w, hr⟩
    obtain ⟨fs1, e1, g1⟩ := Bpv6Fragment.C39_fragments_on_the_wire_partial v pre pb post adu hw sz hsz hlt hn renderedSize
    obtain ⟨fs2, e2, _, _, _, g2⟩ := Bpv6Fragment.C39_fragments_tile_partial v pre pb post adu hw sz hsz hlt hn renderedSize
    rw [hfs, Option.some.injEq] at e1 e2
    subst e1
    subst e2
    obtain ⟨out, w', r1, r2, r3, _⟩ := g1 f hf
    rw [hr] at r1
    simp only [Option.some.injEq, Prod.mk.injEq] at r1
    obtain ⟨rfl, rfl⟩ := r1
    obtain ⟨i, hi, rfl⟩ := List.getElem_of_mem hf
    obtain ⟨_, _, _, q, _⟩ := g2 i hi
    rw [q] at r3
    have hwd : w.primary.dest = C.me := by rw [r3]; exact hd
    have hfl : w.primary.flags = v.primary.flags ||| 1 := by rw [r3]
    refine ⟨w, r2, hwd, ?_, ?_, ?_⟩
    · rintro ⟨_, h⟩
      exact hne (hwd.symm.trans h)
    · rw [hfl, Nat.testBit_or]
      simp
    · rintro ⟨h1, h2, h3⟩
      rw [hfl, Nat.testBit_or] at h2 h3
      have o4 : (1 : Nat).testBit 4 = false := by decide
      have o3 : (1 : Nat).testBit 3 = false := by decide
      rw [o4, Bool.or_false] at h2
      rw [o3, Bool.or_false] at h3
      exact hc h1 ⟨h2, h3⟩
  obtain ⟨l, l1, l2, l3⟩ := run_frags C ops s
  have hsame : ∀ f ∈ fs, (∃ e ∈ inputs ops, WrittenAs f.1 e) ↔ ∃ e ∈ l, WrittenAs f.1 e := by
    intro f hf
    constructor
    · rintro ⟨e, he, hwr⟩
      exact ⟨e, l2 e he (hpass e ⟨f, hf, hwr⟩), hwr⟩
    · rintro ⟨e, he, hwr⟩
      exact ⟨e, l1 e he, hwr⟩
  obtain ⟨k1, k2⟩ := Bpv6Fragment.C39_manager_restores_partial v pre pb post adu hw sz hsz hlt hn renderedSize fs hfs s.frags hs l
    (fun e he => hrec e (l1 e he))
    (by
      obtain ⟨f, hf, h⟩ := hmiss
      exact ⟨f, hf, fun e he => h e (l1 e he)⟩) d hdf
  rw [← l3] at k1 k2
  -- the last step
  have hlast : (s.run C ops).receive6 C d now t = (({ s.run C ops with frags := ((s.run C ops).frags.add d).2 } : Sink),
      match ((s.run C ops).frags.add d).1 with
      | .error => .refused
      | .overflow => .undefined
      | .stored => .kept
      | .complete .refused => .refused
      | .complete (.bundle _ (.done _ w)) => payloadOf w
      | .complete _ => .undefined) := by
    obtain ⟨w, w1, w2, w3, w4, w5⟩ := hpass d hdf
    unfold Sink.receive6
    rw [w1]
    dsimp only
    unfold Sink.view6
    rw [if_neg (fun h => w3 ((isEcho6_iff _ _).1 h)), if_neg (by simpa using w2), take_plain w5]
    dsimp only
    unfold Sink.deliver
    rw [if_pos (by exact w4)]
    dsimp only
    split <;> simp_all
  rw [hlast]
  dsimp only
  constructor
  · rintro ⟨f, hf, h1, h2⟩
    rw [k1 ⟨f, hf, h1, fun e he => h2 e (l1 e he)⟩]
  · intro hall
    obtain ⟨j1, b, out, w', j2, j3, j4, j5, j6, j7⟩ := k2 (fun f hf => (hall f hf).imp_right (hsame f hf).1)
    refine ⟨j1, b, w', out, j3, j5, fun hout => ?_⟩
    rw [j2, j7 hout]
    dsimp only
    rw [payloadOf_iff]
    rw [hw.blocks] at j6
    obtain ⟨l1', rest, g3, g1, g2⟩ := forall2_split j6
    obtain ⟨pb', post', g4, g5, rfl⟩ := List.forall₂_cons_left_iff.1 g2
    have htypes : ∀ {xs ys : List BundleView6.BlockView}, List.Forall₂ Bpv6Fragment.Spec.Restored xs ys →
        (∀ b ∈ xs, b.block.typeCode ≠ 1) → ∀ c ∈ ys, c.block.typeCode ≠ 1 := by
      intro xs ys h
      induction h with
      | nil => simp
      | cons hab _ ih =>
        intro hx c hcm
        rcases List.mem_cons.1 hcm with rfl | hcm
        · rw [hab.1]; exact hx _ (by simp)
        · exact ih (fun b hb => hx b (by simp [hb])) c hcm
    refine ⟨l1', pb', post', g3, by rw [g4.1]; exact hw.payloadType, by rw [g4.2.2.2 hw.payloadBody]; exact hw.payload, fun c hcm => ?_⟩
    rcases List.mem_append.1 hcm with hcm | hcm
    · exact htypes g1 (fun b hb => (hw.others b (by simp [hb])).1) c hcm
    · exact htypes g5 (fun b hb => (hw.others b (by simp [hb])).1) c hcm

/-- Two fragments in the wrong order, with a bundle of somebody else between them. -/
example : let f (offset : UInt8) (d : Bytes) : Bytes := [6, 17, 14, 1, 1, 2, 1, 0, 0, 2, 1, 9, 1, 60, 0, offset, 4, 1, 8, 2] ++ d
    let s := (Sink.start true ⟨1, 1⟩).receive6 sample (f 2 [8, 9]) 5 ⟨5, 0⟩
    let s' := s.1.receive6 sample asked 6 ⟨6, 0⟩
    s.2 = .kept ∧ s'.2 = .payload [7, 8] ∧ (s'.1.receive6 sample (f 0 [6, 7]) 7 ⟨7, 0⟩).2 = .payload [6, 7, 8, 9] := by
  decide +kernel

/-! ## C131: custody -/

theorem receive_taken {C : Cfg} {s : Sink} {buf : Bytes} {v : BundleView6.View} {now : Nat} {t : AdminRecord6.DtnTime}
    (hl : BundleView6.load buf = some v) (hne : C.me ≠ C.echo) (hd : v.primary.dest = C.me) {s' : Sink} {v' : BundleView6.View}
    (h : s.takeCustody C v now t = (s', .ok v')) :
    (s.receive6 C buf now t).1.queue = s'.queue ∧ (s.receive6 C buf now t).1.custody = s'.custody := by
  unfold Sink.receive6
  rw [hl]
  dsimp only
  unfold Sink.view6
  rw [if_neg (fun he => hne (hd.symm.trans ((isEcho6_iff _ _).1 he).2)), if_neg (by simpa using hd), h]
  dsimp only
  unfold Sink.deliver
  split_ifs
  · dsimp only
    split <;> exact ⟨rfl, rfl⟩
  · exact ⟨rfl, rfl⟩

/-- C131: a bundle that asks for custody, and has no valid custody block or meets a sink that does not know these blocks, is acknowledged at once: one
signal goes to its custodian, and nothing else. (Missing: a queue with more than 2000 bundles, see below; what is missing in C129.) -/
theorem C131_signalled_partial (C : Cfg) (aware : Bool) (hme : EidFits C.me) (hne : C.me ≠ C.echo) (hcan : C.canSend = true) (s : Sink)
    (hs : Reached aware C.me s.custody) (hid : s.nextId < 2 ^ 64) (hroom : s.queue.length ≤ 2000) (buf : Bytes) (v : BundleView6.View)
    (hl : BundleView6.load buf = some v) (hx : ∀ x, ValidCteb v x → x + 1 < 2 ^ 64) (hd : v.primary.dest = C.me) (hwant : WantsCustody v.primary)
    (hm : ¬ Malformed aware v) (hc : ¬ (aware = true ∧ ∃ x, ValidCteb v x)) (now : Nat) (hnow : now < 2 ^ 64) (t : AdminRecord6.DtnTime)
    (ht : TimeFits t) :
    ∃ (out d : Bytes) (q : Nat), Payload v d ∧ (s.receive6 C buf now t).1.queue = s.queue ++ [(v.primary.custodian, out)] ∧
      IsAdminBundle out C.me v.primary.custodian (v.primary.flags / 128 % 4) now q (signalFor v.primary d.length 0 t) ∧
      ∀ c j, (s.receive6 C buf now t).1.custody.pending c j = s.custody.pending c j := by
  have hfit : (CustodyManager.Spec.Op.process v true s.nextId 0 now t).Fits := ⟨(fits_of_load hl).1, (fits_of_load hl).2, hid, hx, hnow, ht⟩
  obtain ⟨v', out, w, m', b, q, hb, hp, ha, hpend⟩ := CustodyManager.C66_signals aware C.me hme s.custody hs v hm hc true s.nextId 0 now t hfit
  have htake : s.takeCustody C v now t =
      ((({ s with nextId := (s.nextId + 1) % U64, custody := m' } : Sink).forward v.primary.custodian out), .ok v') := by
    unfold Sink.takeCustody
    rw [if_pos (by rw [Bool.and_eq_true, asksCustody_iff]; exact ⟨hcan, hwant⟩)]
    dsimp only
    rw [hp]
    dsimp only
    rw [signal_dest hp]
  obtain ⟨r1, r2⟩ := receive_taken hl hne hd htake
  refine ⟨out, b.block.data, q, (payload_iff _ _).2 ⟨b, hb, rfl⟩, ?_, by simpa using ha, ?_⟩
  · rw [r1, forward_room (by exact hroom)]
  · intro c j
    rw [r2, (forward_same _ _ _).2.1]
    exact hpend c j

/-- The sample is acknowledged at once. -/
example : (((Sink.start true ⟨1, 1⟩).receive6 sample asked 5 ⟨5, 0⟩).1.queue.map (·.1)) = [⟨2, 1⟩] := by
  decide +kernel

/-- C131: with a valid custody block, at a sink that knows them, nothing is sent yet; the number of the block is pending for its custodian, with success
as the outcome, and nothing else is new. -/
theorem C131_pending_partial (C : Cfg) (aware : Bool) (hme : EidFits C.me) (hne : C.me ≠ C.echo) (hcan : C.canSend = true) (s : Sink)
    (hs : Reached aware C.me s.custody) (hid : s.nextId < 2 ^ 64) (buf : Bytes) (v : BundleView6.View)
    (hl : BundleView6.load buf = some v) (hd : v.primary.dest = C.me) (hwant : WantsCustody v.primary) (d : Bytes) (hpay : Payload v d)
    (ha : aware = true) (x : Nat) (hx : ValidCteb v x) (hx' : x + 1 < 2 ^ 64) (now : Nat) (hnow : now < 2 ^ 64) (t : AdminRecord6.DtnTime) (ht : TimeFits t) :
    (s.receive6 C buf now t).1.queue = s.queue ∧
      ∀ c j y, Covers ((s.receive6 C buf now t).1.custody.pending c j) y ↔
        Covers (s.custody.pending c j) y ∨ c = v.primary.custodian ∧ j = 0 ∧ y = x := by
  have hfit : (CustodyManager.Spec.Op.process v true s.nextId 0 now t).Fits := ⟨(fits_of_load hl).1, (fits_of_load hl).2, hid, fun y hy => by
    rw [(CustodyManager.hasCteb_unique hy hx).1]
    exact hx', hnow, ht⟩
  obtain ⟨b, hb, _⟩ := (payload_iff _ _).1 hpay
  obtain ⟨v', m', hp, hpend⟩ := CustodyManager.C66_defers aware C.me hme s.custody hs v (by rw [hb]; rfl) ha x hx true s.nextId 0 now t hfit
  have htake : s.takeCustody C v now t = (({ s with nextId := (s.nextId + 1) % U64, custody := m' } : Sink), .ok v') := by
    unfold Sink.takeCustody
    rw [if_pos (by rw [Bool.and_eq_true, asksCustody_iff]; exact ⟨hcan, hwant⟩)]
    dsimp only
    rw [hp]
  obtain ⟨r1, r2⟩ := receive_taken hl hne hd htake
  refine ⟨r1, fun c j y => ?_⟩
  rw [r2]
  simpa using hpend c j y

/-- With the block the number 5 is pending, and sent later. -/
example : let s := (Sink.start true ⟨1, 1⟩).receive6 sample askedBlock 5 ⟨5, 0⟩
    s.2 = .payload [7, 8] ∧ s.1.queue = [] ∧ s.1.custody.pending ⟨2, 1⟩ 0 = [⟨5, 5⟩] ∧
      ((s.1.sendAcs fun _ => 9).queue.map (·.1)) = [⟨2, 1⟩] ∧ (s.1.sendAcs fun _ => 9).custody.pending ⟨2, 1⟩ 0 = [] := by
  decide +kernel

/-- C131: when the timer expires, every pending number is sent to its custodian, in one signal for each custodian and outcome, and none is pending any
more. (Missing: a queue that gets longer than 2000.) -/
theorem C131_sent_partial (C : Cfg) (aware : Bool) (hme : EidFits C.me) (s : Sink) (hs : Reached aware C.me s.custody) (clock : Nat → Nat)
    (hclock : ∀ k, clock k < 2 ^ 64) (hroom : s.queue.length + (CustodyManager.generateAll s.custody clock).2.1.length ≤ 2001) :
    (∀ c j, (s.sendAcs clock).custody.pending c j = []) ∧
    ∃ added, (s.sendAcs clock).queue = s.queue ++ added ∧
      (∀ c j x, Covers (s.custody.pending c j) x → ∃ (out : Bytes) (n q : Nat), (c, out) ∈ added ∧
        IsAdminBundle out C.me c 0 (clock n) q (aggregateFor j (s.custody.pending c j))) ∧
      ∀ a ∈ added, ∃ (j : Fin 7) (n q x : Nat), Covers (s.custody.pending a.1 j) x ∧
        IsAdminBundle a.2 C.me a.1 0 (clock n) q (aggregateFor j (s.custody.pending a.1 j)) := by
  obtain ⟨f1, _, f3, f4, f5⟩ := CustodyManager.C67_flush aware C.me hme s.custody hs clock hclock
  obtain ⟨added, a1, a2, a3⟩ := sendEach_queue (CustodyManager.generateAll s.custody clock).2.1
    ({ s with custody := (CustodyManager.generateAll s.custody clock).2.2 } : Sink) hroom (by
      rintro ⟨c, i, r⟩ hx
      obtain ⟨out, w, _, _, rfl, _⟩ := f4 c i r hx
      exact ⟨out, w, rfl, acs_dest hx⟩)
  have hsend : s.sendAcs clock = (CustodyManager.generateAll s.custody clock).2.1.foldl Sink.sendOne
      ({ s with custody := (CustodyManager.generateAll s.custody clock).2.2 } : Sink) := by
    unfold Sink.sendAcs
    dsimp only
    rw [if_pos f1]
  rw [hsend]
  refine ⟨fun c j => by rw [a3]; exact f5 c j, added, a1, ?_, ?_⟩
  · intro c j x hx
    obtain ⟨⟨c', j', r⟩, hm, he⟩ := List.mem_map.1 ((f3 c j).2 ⟨x, hx⟩)
    simp only [Prod.mk.injEq] at he
    obtain ⟨rfl, rfl⟩ := he
    obtain ⟨out, w, n, q, rfl, hadm⟩ := f4 _ _ _ hm
    obtain ⟨a, ha, h1, w', h2⟩ := forall2_mem a2 hm
    simp only [BundleView6.Rendered.done.injEq] at h2
    refine ⟨out, n, q, ?_, hadm⟩
    rw [h2.1, ← show a.1 = c' from h1]
    exact ha
  · intro a ha
    obtain ⟨⟨c, j, r⟩, hm, h1, w', h2⟩ := forall2_mem a2.flip ha
    dsimp only at h1 h2
    obtain ⟨out, w, n, q, rfl, hadm⟩ := f4 _ _ _ hm
    obtain ⟨x, hx⟩ := (f3 c j).1 (List.mem_map.2 ⟨_, hm, rfl⟩)
    simp only [BundleView6.Rendered.done.injEq] at h2
    refine ⟨j, n, q, x, by rw [h1]; exact hx, ?_⟩
    rw [h1, ← h2.1]
    exact hadm

/-- Violated: with more than 2000 bundles in the queue the signal is dropped; the application gets the payload, nothing is pending, and the custodian
is not told: it keeps the bundle and sends it again. -/
theorem C131_dropped_violated (C : Cfg) (aware : Bool) (hme : EidFits C.me) (hne : C.me ≠ C.echo) (hcan : C.canSend = true) (s : Sink)
    (hs : Reached aware C.me s.custody) (hid : s.nextId < 2 ^ 64) (hfull : 2000 < s.queue.length) (buf : Bytes) (v : BundleView6.View)
    (hl : BundleView6.load buf = some v) (hx : ∀ x, ValidCteb v x → x + 1 < 2 ^ 64) (hd : v.primary.dest = C.me) (hwant : WantsCustody v.primary)
    (hw : v.primary.flags.testBit 0 = false) (hm : ¬ Malformed aware v) (hc : ¬ (aware = true ∧ ∃ x, ValidCteb v x)) (now : Nat) (hnow : now < 2 ^ 64)
    (t : AdminRecord6.DtnTime) (ht : TimeFits t) :
    (∃ d, (s.receive6 C buf now t).2 = .payload d) ∧ (s.receive6 C buf now t).1.queue = s.queue ∧
      ∀ c j, (s.receive6 C buf now t).1.custody.pending c j = s.custody.pending c j := by
  have hfit : (CustodyManager.Spec.Op.process v true s.nextId 0 now t).Fits := ⟨(fits_of_load hl).1, (fits_of_load hl).2, hid, hx, hnow, ht⟩
  obtain ⟨v', out, w, m', b, q, hb, hp, ha, hpend⟩ := CustodyManager.C66_signals aware C.me hme s.custody hs v hm hc true s.nextId 0 now t hfit
  have htake : s.takeCustody C v now t = (({ s with nextId := (s.nextId + 1) % U64, custody := m' } : Sink), .ok v') := by
    unfold Sink.takeCustody
    rw [if_pos (by rw [Bool.and_eq_true, asksCustody_iff]; exact ⟨hcan, hwant⟩)]
    dsimp only
    rw [hp]
    dsimp only
    unfold Sink.forward
    rw [if_pos (by exact hfull)]
  obtain ⟨r1, r2⟩ := receive_taken hl hne hd htake
  refine ⟨⟨b.block.data, (C129_delivered_partial C aware hme hne s hs hid buf v hl hw hx now hnow t ht _).2
    ⟨hd, (payload_iff _ _).2 ⟨b, hb, rfl⟩, fun h => hm h.2.2⟩⟩, r1, fun c j => ?_⟩
  rw [r2]
  exact hpend c j

/-- A fragment from 2.1 to 1.1, with 2.1 as its custodian, which asks for custody. -/
def asking (offset total : UInt8) (data : Bytes) : Bytes :=
  [6, 25, 14, 1, 1, 2, 1, 0, 0, 2, 1, 9, 1, 60, 0, offset, total, 1, 8, UInt8.ofNat data.length] ++ data

/-- Violated: whoever has accepted custody must not lose the bundle. Of two fragments that do not fit together custody is taken, and two signals are sent;
then both are thrown away, although one of them may be a good one. The application gets nothing. -/
theorem C131_lost_violated :
    let s := (Sink.start true ⟨1, 1⟩).receive6 sample (asking 0 100 [1, 2, 3, 4]) 5 ⟨5, 0⟩
    let s' := s.1.receive6 sample (asking 10 4 [5, 6]) 6 ⟨6, 0⟩
    s.2 = .kept ∧ s'.2 = .refused ∧ s'.1.queue.map (·.1) = [⟨2, 1⟩, ⟨2, 1⟩] ∧
      s'.1.frags ⟨⟨2, 1⟩, 9, 1⟩ = ⟨[], []⟩ := by
  decide +kernel

/-- C131: nobody is told about a bundle that does not ask for custody, nor by a sink that cannot send. -/
theorem C131_not_asked (C : Cfg) (hne : C.me ≠ C.echo) (s : Sink) (buf : Bytes) (v : BundleView6.View) (hl : BundleView6.load buf = some v)
    (hd : v.primary.dest = C.me) (h : ¬ (C.canSend = true ∧ WantsCustody v.primary)) (now : Nat) (t : AdminRecord6.DtnTime) :
    (s.receive6 C buf now t).1.queue = s.queue ∧ (s.receive6 C buf now t).1.custody = s.custody :=
  receive_taken hl hne hd (take_plain h)

end Hdtn.Sink
