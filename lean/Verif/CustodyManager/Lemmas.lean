import Verif.BundleView6.Props
import Verif.HashMap16.Props
import Verif.Uri.Props
import Verif.CustodyManager.Spec

namespace Hdtn.CustodyManager

open Hdtn.HashMap16 Hdtn.FragmentSet Hdtn.Sdnv Hdtn.BundleView6 Hdtn.BundleView6.Spec
open Hdtn.CustodyManager.Spec
open Hdtn.AdminRecord6 (DtnTime CustodySignal StatusReport Content Record rowBytes)
open Hdtn.Bpv6Primary (Primary)

/-! ### Numbers -/

theorem statusByte_eq (i : Fin 7) : statusByte i = status i := by
  revert i; decide

theorem and_mask (f : Nat) : f &&& (3 <<< 7) = (f / 128 % 4) <<< 7 := by
  have h4 : f / 128 % 4 = (f >>> 7) &&& 3 := by
    rw [show (3 : Nat) = 2 ^ 2 - 1 from rfl, Nat.and_two_pow_sub_one_eq_mod, Nat.shiftRight_eq_div_pow]
  rw [h4]
  apply Nat.eq_of_testBit_eq
  intro i
  simp only [Nat.testBit_and, Nat.testBit_shiftLeft, Nat.testBit_shiftRight]
  by_cases h : 7 ≤ i
  · simp only [h, decide_true, Bool.true_and]
    rw [show 7 + (i - 7) = i by omega]
  · simp [h]

theorem adminFlags_eq (f : Nat) : adminFlags f = f / 128 % 4 * 128 + 16 + 4 + 2 := by
  have h22 : (16 ||| 4 ||| 2 : Nat) = 22 := by decide
  unfold adminFlags
  rw [and_mask, h22, ← Nat.shiftLeft_add_eq_or_of_lt (by decide), Nat.shiftLeft_eq]

theorem decimal_length (v : Nat) (hv : v < 2 ^ 64) : 1 ≤ (Uri.decimal v).length ∧
    (Uri.decimal v).length ≤ 20 := by
  obtain ⟨⟨h0, _⟩, _, h1, _⟩ := Uri.decimal_spec v
  refine ⟨List.length_pos_iff.2 h0, ?_⟩
  by_cases hz : v = 0
  · subst hz; decide +kernel
  · have h2 := h1 (by omega)
    by_contra hc
    have : 10 ^ 20 ≤ 10 ^ ((Uri.decimal v).length - 1) := Nat.pow_le_pow_right (by omega) (by omega)
    omega

theorem uri_length (e : Eid) (h : EidFits e) : 7 ≤ (Uri.getIpnUriString e.node e.service).length ∧
    (Uri.getIpnUriString e.node e.service).length ≤ 45 := by
  have h1 := decimal_length _ h.1
  have h2 := decimal_length _ h.2
  simp only [Uri.getIpnUriString, List.length_append, List.length_cons, List.length_nil]
  omega

/-! ### Generated bundles -/

/-- A record that can be written and read back. -/
def Sound (r : Record) (d : Bytes) : Prop :=
  r.data = some d ∧ r.size = some d.length ∧ AdminRecord6.read d = some r

theorem rowBytes_ge (xs : List AdminRecord6.Num) (h : AdminRecord6.Spec.InRange xs) :
    xs.length ≤ (rowBytes xs).length := by
  have hr := AdminRecord6.row_rowBytes xs h
  generalize rowBytes xs = p at hr
  clear h
  induction hr with
  | nil => simp
  | @cons p q x xs h1 _ ih =>
    have : 1 ≤ p.length := by
      cases x with
      | u64 v =>
        have := isSdnv64_ne_nil h1
        omega
      | u32 v =>
        rcases p with _ | _
        · exact absurd h1.2.1 (by simp [Sdnv.Spec.WellFormed])
        · simp
    simp only [List.length_cons, List.length_append]
    omega

theorem signal_sound (p : Primary) (hp : PrimaryFits p) (n : Nat) (hn : n < 2 ^ 64) (i : Fin 7)
    (time : DtnTime) (ht : TimeFits time) :
    ∃ d, Sound (signalFor p n i time) d ∧ d.length ≤ 120 := by
  obtain ⟨_, _, hs, _, _, hc1, hc2, _, ho, _⟩ := hp
  obtain ⟨u1, u2⟩ := uri_length p.source hs
  have he : AdminRecord6.Spec.EidOk (Uri.getIpnUriString p.source.node p.source.service) :=
    ⟨by omega, by omega⟩
  generalize hc : (⟨status i, p.flags.testBit 0, if p.flags.testBit 0 then p.fragmentOffset else 0,
      if p.flags.testBit 0 then n else 0, time, p.creationSeconds, p.creationSequence,
      Uri.getIpnUriString p.source.node p.source.service⟩ : CustodySignal) = c
  have hr : AdminRecord6.Spec.InRange (AdminRecord6.Spec.custodyFields c) := by
    subst hc
    obtain ⟨t1, t2⟩ := ht
    cases hb : p.flags.testBit 0 <;>
      simp [AdminRecord6.Spec.custodyFields, AdminRecord6.Spec.opt, AdminRecord6.Spec.time,
        AdminRecord6.Spec.InRange] <;> omega
  have hnorm : AdminRecord6.Spec.CustodyNormal c := by
    subst hc
    intro h
    simp only at h ⊢
    simp [h]
  have hce : c.eid = Uri.getIpnUriString p.source.node p.source.service := by subst hc; rfl
  rw [← hce] at he u2
  obtain ⟨d, _, d1, d2, d3, _⟩ := AdminRecord6.C55_custody_round_trip c hr hnorm he 0 (by omega)
  have hfr : c.isFragment = p.flags.testBit 0 := by subst hc; rfl
  rw [hfr] at d1 d2 d3
  have hrec : signalFor p n i time = ⟨2, p.flags.testBit 0, some (.custody c)⟩ := by
    subst hc; rfl
  refine ⟨d, by rw [hrec]; exact ⟨d1, d2, d3⟩, ?_⟩
  have hr' : AdminRecord6.Spec.InRange c.nums := hr
  have hlen : c.nums.length ≤ 6 := AdminRecord6.custodyFields_length c
  have hb := AdminRecord6.rowBytes_length _ hr'
  have he1 := Bpv6Primary.encode_len c.eid.length (by omega)
  simp only [Record.size, Content.size, AdminRecord6.numsSize_eq _ hr',
    numBytesRequired_eq c.eid.length (by omega), Option.bind_eq_bind, Option.bind_some,
    Option.pure_def, Option.some.injEq] at d2
  omega

theorem deletion_sound (p : Primary) (hp : PrimaryFits p) (n : Nat) (hn : n < 2 ^ 64)
    (time : DtnTime) (ht : TimeFits time) :
    ∃ d, Sound (deletionFor p n time) d ∧ d.length ≤ 200 := by
  obtain ⟨_, _, hs, _, _, hc1, hc2, _, ho, _⟩ := hp
  obtain ⟨u1, u2⟩ := uri_length p.source hs
  have he : AdminRecord6.Spec.EidOk (Uri.getIpnUriString p.source.node p.source.service) :=
    ⟨by omega, by omega⟩
  generalize hc : ({ flags := 16, reason := 1, isFragment := p.flags.testBit 0
                     fragmentOffset := if p.flags.testBit 0 then p.fragmentOffset else 0
                     fragmentLength := if p.flags.testBit 0 then n else 0
                     received := ⟨0, 0⟩, custody := ⟨0, 0⟩, forwarded := ⟨0, 0⟩, delivered := ⟨0, 0⟩
                     deleted := time
                     creationSeconds := p.creationSeconds, creationSequence := p.creationSequence
                     eid := Uri.getIpnUriString p.source.node p.source.service } : StatusReport) = c
  have f0 : ¬ AdminRecord6.Spec.Flag 16 0 := by decide
  have f1 : ¬ AdminRecord6.Spec.Flag 16 1 := by decide
  have f2 : ¬ AdminRecord6.Spec.Flag 16 2 := by decide
  have f3 : ¬ AdminRecord6.Spec.Flag 16 3 := by decide
  have f4 : AdminRecord6.Spec.Flag 16 4 := by decide
  have hr : AdminRecord6.Spec.InRange (AdminRecord6.Spec.statusFields c) := by
    subst hc
    obtain ⟨t1, t2⟩ := ht
    cases hb : p.flags.testBit 0 <;>
      simp [AdminRecord6.Spec.statusFields, AdminRecord6.Spec.opt, AdminRecord6.Spec.time, f0, f1, f2, f3,
        f4, AdminRecord6.Spec.InRange] <;> omega
  have hnorm : AdminRecord6.Spec.StatusNormal c := by
    subst hc
    refine ⟨?_, fun _ => rfl, fun _ => rfl, fun _ => rfl, fun _ => rfl, fun h => absurd f4 h⟩
    intro h
    simp only at h ⊢
    simp [h]
  have hce : c.eid = Uri.getIpnUriString p.source.node p.source.service := by subst hc; rfl
  rw [← hce] at he u2
  obtain ⟨d, _, d1, d2, d3, _⟩ := AdminRecord6.C55_status_round_trip c hr hnorm he 0 (by omega)
  have hfr : c.isFragment = p.flags.testBit 0 := by subst hc; rfl
  rw [hfr] at d1 d2 d3
  have hrec : deletionFor p n time = ⟨1, p.flags.testBit 0, some (.status c)⟩ := by
    subst hc; rfl
  refine ⟨d, by rw [hrec]; exact ⟨d1, d2, d3⟩, ?_⟩
  have hlen := AdminRecord6.statusFields_length c
  rw [← AdminRecord6.nums_status] at hr hlen
  have hb := AdminRecord6.rowBytes_length _ hr
  have he1 := Bpv6Primary.encode_len c.eid.length (by omega)
  simp only [Record.size, Content.size, AdminRecord6.numsSize_eq _ hr,
    numBytesRequired_eq c.eid.length (by omega), Option.bind_eq_bind, Option.bind_some,
    Option.pure_def, Option.some.injEq] at d2
  omega

theorem fillNums_length (prev : Nat) (fills : List Frag) :
    (AdminRecord6.fillNums prev fills).length = 2 * fills.length := by
  induction fills generalizing prev with
  | nil => rfl
  | cons f fs ih => simp only [AdminRecord6.fillNums, List.length_cons, ih]; omega

theorem aggregate_sound (i : Fin 7) (fills : List Frag) (hc : Canonical fills) (hne : fills ≠ []) :
    ∃ d, Sound (aggregateFor i fills) d ∧ d.length ≤ 2 + 20 * fills.length ∧
      2 + 2 * fills.length ≤ d.length := by
  obtain ⟨s, p, ps, h1, h2, h3, h4, _, _, h7⟩ :=
    AdminRecord6.C41_round_trip (status i) fills hne hc.1
  have hs : s = fills := by
    have hu := C07_insert_is_union fills hc.1
    rw [h1] at hu
    exact canonical_unique _ _ hu.1 hc fun x => by rw [hu.2]; rfl
  subst hs
  obtain ⟨_, _, _, hr⟩ := AdminRecord6.fills_pairs 0 s hc fun _ _ => Nat.zero_le _
  have hb := AdminRecord6.rowBytes_length _ hr
  have hg := rowBytes_ge _ hr
  have hl := fillNums_length 0 s
  have h4' := h4
  simp only [Record.size, Content.size, AdminRecord6.numsSize_eq _ hr, Option.bind_eq_bind,
    Option.bind_some, Option.pure_def, Option.some.injEq] at h4'
  refine ⟨0x40 :: status i :: p, ⟨h3, ?_, h7⟩, ?_, ?_⟩
  · rw [aggregateFor, h4, Option.some.injEq]; simp only [List.length_cons]; omega
  · simp only [List.length_cons]; omega
  · simp only [List.length_cons]; omega

/-- A generated bundle on the wire, and its size. -/
theorem admin_rendered (source dest : Eid) (hs : EidFits source) (hd : EidFits dest) (f now seq : Nat)
    (hnow : now < 2 ^ 64) (hseq : seq < 2 ^ 64) (r : Record) (d : Bytes) (hr : Sound r d)
    (hlen : d.length < 2 ^ 64) :
    ∃ out v, (adminView (adminPrimary (adminFlags f) source dest (now, seq)) r).render = some (out, v) ∧
      IsAdminBundle out source dest (f / 128 % 4) now seq r ∧ d.length ≤ out.length ∧
      out.length ≤ 144 + d.length := by
  obtain ⟨r1, r2, r3⟩ := hr
  generalize hp : adminPrimary (adminFlags f) source dest (now, seq) = p
  have hflags : p.flags = f / 128 % 4 * 128 + 16 + 4 + 2 := by
    subst hp; exact adminFlags_eq f
  have hnf : ¬ Bpv6Primary.Spec.IsFragment p := by
    unfold Bpv6Primary.Spec.IsFragment; omega
  have htail : Bpv6Primary.Spec.tailFields p = [dest.node, dest.service, source.node, source.service, 0, 0,
      0, 0, now, seq, 1000, 0] := by
    unfold Bpv6Primary.Spec.tailFields
    rw [if_neg hnf]
    subst hp; rfl
  have hin : Bpv6Primary.Spec.InRange p := by
    refine ⟨by omega, ?_⟩
    rw [htail]
    obtain ⟨s1, s2⟩ := hs
    obtain ⟨d1, d2⟩ := hd
    intro v hv
    simp only [List.mem_cons, List.not_mem_nil, or_false] at hv
    omega
  have htl : (Bpv6Primary.tailBytes p).length ≤ 120 := by
    have := Bpv6Primary.encodeAll_len _ hin.2
    rw [Bpv6Primary.tailBytes_eq]
    rw [htail] at this ⊢
    simpa using this
  have hfl := Bpv6Primary.encode_len p.flags hin.1
  have hpsize := Bpv6Primary.size_eq p hin
  rw [if_neg (by omega)] at hpsize
  have hser : (Bpv6Primary.serialize p).1.isSome = true := by
    rw [Bpv6Primary.serialize_eq, if_neg (by omega)]; rfl
  have hadm : p.flags.testBit 1 = true := by
    rw [Nat.testBit_eq_decide_div_mod_eq, decide_eq_true_eq, hflags]
    omega
  have hready : PrimaryReady (adminView p r) := by
    unfold PrimaryReady adminView
    rw [if_pos rfl]
    refine ⟨hin, hser, fun _ => ?_⟩
    subst hp; exact ⟨rfl, rfl⟩
  obtain ⟨out, v', h1, h2, h3, h4, h5⟩ := C56_render_reload (adminView p r) hready
    ⟨newBlock 1 0 [] (.admin r), by simp [adminView], rfl⟩
    (by
      intro b hb _
      simp only [adminView, List.mem_singleton] at hb
      subst hb
      unfold Ready
      rw [if_pos (show (newBlock 1 0 [] (Body.admin r)).dirty = true from rfl)]
      exact ⟨by simp [newBlock], rfl, hadm, d, r1, r2, hlen, r3⟩)
  have hblocks : (adminView p r).blocks.filter (fun b => !b.deleted) = [newBlock 1 0 [] (.admin r)] := rfl
  rw [hblocks] at h5
  obtain ⟨b', hb', hsame⟩ : ∃ b', v'.blocks = [b'] ∧ SameBlock (newBlock 1 0 [] (.admin r)) b' := by
    match hvb : v'.blocks, h5 with
    | [b'], .cons hh .nil => exact ⟨b', rfl, hh⟩
  refine ⟨out, v', h1, ⟨v', b', h3, hb', hsame.1, hsame.2.1, ?_⟩, ?_⟩
  · have hvp : v'.primary = { p with blockLength := v'.primary.blockLength } := h4
    have e1 : p.source = source := by subst hp; rfl
    have e2 : p.dest = dest := by subst hp; rfl
    have e3 : p.creationSeconds = now := by subst hp; rfl
    have e4 : p.creationSequence = seq := by subst hp; rfl
    rw [hvp]
    exact ⟨e1, e2, e3, e4, hflags⟩
  · have hd10 := Bpv6Primary.encode_len d.length hlen
    have hz := Bpv6Primary.encode_len 0 (by omega)
    have hne : ¬ 2 + (encodeU64ClassicBufSize10 p.flags).length + (Bpv6Primary.tailBytes p).length = 0 := by
      omega
    have hps : primarySize (adminView p r) =
        some (2 + (encodeU64ClassicBufSize10 p.flags).length + (Bpv6Primary.tailBytes p).length) := by
      simp only [primarySize, adminView, if_true, hpsize]
      rw [if_neg hne]
    have h0 : numBytesRequired 0 = some 1 := by decide +kernel
    have hbs : blocksSize (adminView p r).blocks =
        some (1 + 1 + (encodeU64ClassicBufSize10 d.length).length + d.length) := by
      simp only [adminView, blocksSize, BlockView.size, newBlock, bodySize, r2,
        Bpv6Canonical.serializationSize, h0, numBytesRequired_eq _ hlen, Option.bind_eq_bind,
        Option.bind_some, Option.pure_def, Bool.false_eq_true, if_false, if_true]
      have hl1 := isSdnv64_ne_nil (isSdnv64_encode _ hlen)
      rw [if_neg (by omega)]
      simp
    simp only [View.size, hps, hbs, Option.bind_eq_bind, Option.bind_some, Option.pure_def,
      Option.some.injEq] at h2
    omega

end Hdtn.CustodyManager
