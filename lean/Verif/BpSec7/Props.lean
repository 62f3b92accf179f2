import Verif.BpSec7.Fault

/-!
Properties C75 (security blocks: reading and writing) and C76 (access to security parameters and results).
-/

namespace Hdtn.BpSec7

open Hdtn.HashMap16 Hdtn.Cbor Hdtn.Cbor.Spec Hdtn.Cbhe Hdtn.Cbhe.Spec Hdtn.Bpv7Canonical Hdtn.Bpv7Canonical.Spec
  Hdtn.AdminRecord7 Hdtn.AdminRecord7.Spec Spec

/-! ### Reading -/

/-- C75, reading: whatever follows the data of a block in memory, reading succeeds exactly on the data described by
`TakenForAsb`, with the members they give; but parameters that are not in the data are those that the block object
held before. -/
theorem C75_read_iff (old : Asb) (data rest : Bytes) (hl : (data ++ rest).length < 2 ^ 64) (a : Asb) :
    read old data rest = .ok a ↔
      ∃ w, TakenForAsb data w ∧ a = { w with params := if w.flags % 2 = 1 then w.params else old.params } :=
  read_iff old data rest a hl

/-- C75, reading into a fresh block object, or one that never held parameters. -/
theorem C75_read_fresh_iff (old : Asb) (ho : old.params = []) (data rest : Bytes)
    (hl : (data ++ rest).length < 2 ^ 64) (a : Asb) : read old data rest = .ok a ↔ TakenForAsb data a := by
  rw [C75_read_iff old data rest hl]
  have key : ∀ w, TakenForAsb data w →
      { w with params := if w.flags % 2 = 1 then w.params else old.params } = w := by
    rintro w ⟨_, _, _, _, _, _, _, h | h, _⟩
    · rw [if_pos h.1]
    · rw [if_neg (by omega), ho, ← h.2.2]
  constructor
  · rintro ⟨w, hw, rfl⟩
    rw [key w hw]; exact hw
  · intro h
    exact ⟨a, h, (key a h).symm⟩

/-- The integrity block over block 1 of RFC 9173 A.1, with a short result. -/
def sampleData : Bytes :=
  [0x81, 1, 1, 1, 0x82, 2, 0x82, 2, 1, 0x82, 0x82, 1, 7, 0x82, 3, 0, 0x81, 0x81, 0x82, 1, 0x42, 0x3b, 0xdc]

/-- Its content. -/
def sample : Asb :=
  ⟨[1], 1, 1, ⟨2, 1⟩, [⟨1, .uint 7⟩, ⟨3, .uint 0⟩], [⟨1, .bytes [0x3b, 0xdc]⟩]⟩

example : read Asb.zero sampleData [0xff] = .ok sample := by decide +kernel

theorem assigned_low {isParam : Bool} {context id : Nat} {v : Value} (h : Assigned isParam context id v) :
    Assigned isParam (context % 2 ^ 32) (id % 2 ^ 32) v ∧ context < 2 ^ 32 ∧ id < 2 ^ 32 := by
  unfold Assigned at h
  split at h
  all_goals first
    | exact h.elim
    | (rcases h with rfl | rfl <;> exact ⟨by simp [Assigned], by decide, by decide⟩)

theorem each_one {P : Bytes → Pair → Prop} {Q : Bytes → List Pair → Prop} {p : Bytes} {results : List (List Pair)}
    (h : Each Q p results)
    (hq : ∀ rs ∈ results, ∀ q, Q q rs → ∃ r, rs = [r] ∧ P q r) :
    Each P p results.flatten ∧ results.flatten.length = results.length := by
  induction results generalizing p with
  | nil => exact ⟨h, rfl⟩
  | cons rs l ih =>
    obtain ⟨q, r, rfl, h1, h2⟩ := h
    obtain ⟨x, rfl, hx⟩ := hq rs (by simp) q h1
    obtain ⟨h3, h4⟩ := ih h2 fun rs hrs => hq rs (by simp [hrs])
    refine ⟨⟨q, r, rfl, hx, h3⟩, ?_⟩
    simp only [List.flatten_cons, List.length_append, List.length_cons, List.length_nil, h4]
    omega

theorem each_mem {α : Type} {P Q : Bytes → α → Prop} {p : Bytes} {l : List α} (h : Each P p l)
    (hq : ∀ x ∈ l, ∀ q, P q x → Q q x) : Each Q p l := by
  induction l generalizing p with
  | nil => exact h
  | cons x l ih =>
    obtain ⟨q, r, rfl, h1, h2⟩ := h
    exact ⟨q, r, rfl, hq x (by simp) q h1, ih h2 fun y hy => hq y (by simp [hy])⟩

theorem taken_of_isAsb {p : Bytes} {a : Asb} {results : List (List Pair)} (h : IsAsbWith IsOneResult p a results)
    (hf : a.flags ≤ 0x1f) (ht : a.targets.length ≤ 1000) (hp : a.params.length ≤ 1000) : TakenForAsb p a := by
  obtain ⟨⟨p1, p2, p3, p4, p5, p6, rfl, h1, h2, h3, h4, h5, h6⟩, _, _, hlen, hres, hap, har⟩ := h
  refine ⟨p1 ++ (p2 ++ p3), p4, p5, p6, by simp, ⟨p1, p2, p3, rfl, (taken_targets _ _).2 (Or.inl ⟨h1, ht⟩), h2, h3, hf⟩, h4,
    ?_, ?_⟩
  · rcases h5 with ⟨hfl, hh, body, rfl, hhead, heach⟩ | h5
    · refine Or.inl ⟨hfl, Or.inl ⟨⟨hh, body, rfl, hhead, each_mem heach fun x hx q hq => ⟨hq, (assigned_low (hap x hx)).1⟩⟩, hp⟩⟩
    · exact Or.inr h5
  · obtain ⟨hh, body, rfl, hhead, heach⟩ := h6
    obtain ⟨e1, e2⟩ := each_one (P := TakenForResult a.context) heach (by
      rintro rs hrs q ⟨q', r, rfl, rfl, hr⟩
      exact ⟨r, rfl, q', rfl, hr, (assigned_low (har _ hrs r (by simp))).1⟩)
    rw [← hres] at e1 e2
    exact Or.inl ⟨⟨hh, body, rfl, by rw [e2]; exact hhead, e1⟩, by omega⟩

/-- C75, conforming blocks: a block of RFC 9172 and RFC 9173 that has one result for each target, at most 1000 targets
and parameters, and no flag above 0x1f is read to its content. Missing: several results of a target, indefinite arrays
and longer heads, which the reader refuses. -/
theorem C75_conforming_partial (old a : Asb) (data rest : Bytes) (results : List (List Pair))
    (hl : (data ++ rest).length < 2 ^ 64) (h : IsAsbWith IsOneResult data a results)
    (hf : a.flags ≤ 0x1f) (ht : a.targets.length ≤ 1000) (hp : a.params.length ≤ 1000) :
    ∃ b, read old data rest = .ok b ∧ content b = a := by
  refine ⟨_, (C75_read_iff old data rest hl _).2 ⟨a, taken_of_isAsb h hf ht hp, rfl⟩, ?_⟩
  obtain ⟨⟨_, _, _, _, _, _, _, _, _, _, _, h5, _⟩, _⟩ := h
  rcases h5 with h5 | h5
  · simp only [content, if_pos h5.1]
  · simp only [content, if_neg (show ¬ a.flags % 2 = 1 by omega), ← h5.2.2]

/-- What is written for a block that RFC 9172 and RFC 9173 allow. -/
theorem isAsb_bytes (a : Asb) (ha : AllInRange a) (h0 : a.targets ≠ []) (hnd : a.targets.Nodup)
    (hlen : a.results.length = a.targets.length) (hp : ∀ x ∈ a.params, Assigned true a.context x.id x.value)
    (hr : ∀ x ∈ a.results, Assigned false a.context x.id x.value) :
    IsAsbWith IsOneResult (asbBytes a) (content a) (a.results.map fun r => [r]) := by
  obtain ⟨⟨ht, hc, hf, hn, hs, h00⟩, hip, hiq, hl1, hl2, hl3⟩ := ha
  have hres : IsArrayOf IsOneResult (vecBytes true a.results) (a.results.map fun r => [r]) := by
    refine ⟨_, _, rfl, by rw [List.length_map]; exact markArray_head _ hl3, ?_⟩
    have := each_map (P := IsOneResult) (f := fun l => (l.map (pairBytes true)).flatten) (a.results.map fun r => [r])
      (by
        intro l hlm
        obtain ⟨r, hr, rfl⟩ := List.mem_map.1 hlm
        exact ⟨pairBytes false r, r, by simp [pairBytes], rfl, isIdValue_bytes r (hiq r hr)⟩)
    simpa [Function.comp_def] using this
  have hflat : a.results = (a.results.map fun r => [r]).flatten := by
    induction a.results with
    | nil => rfl
    | cons x l ih => simp only [List.map_cons, List.flatten_cons, List.singleton_append, ← ih]
  have hass : ∀ rs ∈ a.results.map (fun r => [r]), ∀ x ∈ rs, Assigned false a.context x.id x.value := by
    intro rs hrs x hx
    obtain ⟨r, hr', rfl⟩ := List.mem_map.1 hrs
    rw [List.mem_singleton] at hx
    subst hx
    exact hr x hr'
  have h1 := (C06_array_round_trip a.targets ht hl1).1
  have h4 := serialize7_isEid a.source hn hs h00
  by_cases hfl : a.flags % 2 = 1
  · have hh : a.hasParams = true := by simp [Asb.hasParams, hfl]
    rw [content, if_pos hfl]
    refine ⟨⟨arraySerialize a.targets, encodeU64 a.context, encodeU64 a.flags, serialize7 a.source, vecBytes false a.params,
      vecBytes true a.results, by simp [asbBytes, hh], h1, isUint_encode _ hc, isUint_encode _ (by omega), h4,
      Or.inl ⟨hfl, isArrayOf_vec false a.params hl2 fun x hx => isIdValue_bytes x (hip x hx)⟩, hres⟩, h0, hnd,
      by simpa using hlen, hflat, hp, hass⟩
  · have hh : a.hasParams = false := by simp [Asb.hasParams, hfl]
    rw [content, if_neg hfl]
    refine ⟨⟨arraySerialize a.targets, encodeU64 a.context, encodeU64 a.flags, serialize7 a.source, [],
      vecBytes true a.results, by simp [asbBytes, hh], h1, isUint_encode _ hc, isUint_encode _ (show a.flags < _ by omega), h4,
      Or.inr ⟨by simp only; omega, rfl, rfl⟩, hres⟩, h0, hnd, by simpa using hlen, hflat, by simp, hass⟩

theorem sample_inRange : AllInRange sample := by
  simp [AllInRange, Spec.InRange, PairInRange, sample]

example : IsAsbWith IsOneResult sampleData sample [[⟨1, .bytes [0x3b, 0xdc]⟩]] := by
  have := isAsb_bytes sample sample_inRange (by decide) (by decide) rfl (by simp [sample, Assigned])
    (by simp [sample, Assigned])
  rw [show asbBytes sample = sampleData by decide +kernel] at this
  exact this

/-- C75, memory: if the source of the block lies inside its data, and the byte behind the data is not 0x81, nothing
outside the memory is read, whatever the rest of the data. Missing: the other cases, where it happens. -/
theorem C75_no_fault_partial (old : Asb) (front source body : Bytes) (w : Asb) (e : Eid) (b : UInt8) (t : Bytes)
    (hb : b ≠ 0x81) (hf : TakenForFront front w) (he : IsEid7 source e)
    (hl : (front ++ (source ++ body) ++ b :: t).length < 2 ^ 64) :
    read old (front ++ (source ++ body)) (b :: t) ≠ .fault :=
  read_safe old front source body w e b t hb hf he hl

theorem front_small (t1 t2 c f : Nat) (h1 : t1 < 24) (h2 : t2 < 24) (hc : c < 24) (hf : f < 24) (a : Asb) :
    TakenForFront [0x82, UInt8.ofNat t1, UInt8.ofNat t2, UInt8.ofNat c, UInt8.ofNat f]
      { a with targets := [t1, t2], context := c, flags := f } :=
  ⟨[0x82, UInt8.ofNat t1, UInt8.ofNat t2], [UInt8.ofNat c], [UInt8.ofNat f], rfl,
    Or.inl ⟨⟨[0x82], [UInt8.ofNat t1, UInt8.ofNat t2], rfl, markArray_head 2 (by decide), [UInt8.ofNat t1], [UInt8.ofNat t2], rfl,
      isUint_small _ h1, [UInt8.ofNat t2], [], rfl, isUint_small _ h2, rfl⟩, by simp⟩,
    isUint_small c hc, isUint_small f hf, by simp only; omega⟩

theorem eid_small (a b : Nat) (ha : a < 24) (hb : b < 24) :
    IsEid7 [0x82, 2, 0x82, UInt8.ofNat a, UInt8.ofNat b] ⟨a, b⟩ := by
  exact ⟨_, Or.inl rfl, Or.inr ⟨_, rfl, _, Or.inl rfl, [_], [_], rfl, isUint_small a ha, [_], [], rfl,
    isUint_small b hb, rfl⟩⟩

/-- C75, memory, violated: the source is read with the size of the whole block as its limit, so it may lie behind the
block. The number of bytes left then wraps around, and a result may announce more bytes than there are. -/
theorem C75_overread_violated (old : Asb) (front source head more : Bytes) (w : Asb) (e : Eid) (n : Nat)
    (hf : TakenForFront front w) (hp : w.flags % 2 = 0) (hx : w.context % 2 ^ 32 = 1 ∨ w.context % 2 ^ 32 = 2)
    (he : IsEid7 source e) (hlen : source.length ≤ front.length) (hh : IsStringHead head n) (hm : more.length < n)
    (hl : (front ++ (source ++ 0x81 :: 0x81 :: 0x82 :: 1 :: (head ++ more))).length + n < 2 ^ 63) :
    read old front (source ++ 0x81 :: 0x81 :: 0x82 :: 1 :: (head ++ more)) = .fault :=
  read_fault old front source head more w e n hf hp hx he hlen hh hm hl

/-- Such a block, in memory that ends before the 255 bytes that the result announces. -/
example (old : Asb) (more : Bytes) (hm : more.length < 255) :
    read old [0x82, 1, 2, 1, 0] ([0x82, 2, 0x82, 1, 1] ++ 0x81 :: 0x81 :: 0x82 :: 1 :: ([0x58, 0xff] ++ more)) = .fault := by
  refine C75_overread_violated old _ _ _ _ _ _ 255 (front_small 1 2 1 0 (by decide) (by decide) (by decide) (by decide) old)
    rfl (Or.inl rfl) (eid_small 1 1 (by decide) (by decide)) (Nat.le_refl _)
    ⟨0x58, [0xff], rfl, 0x18, rfl, 0x18, [0xff], rfl, Or.inr ⟨0, by decide, rfl, rfl, rfl⟩⟩ hm ?_
  simp only [List.length_append, List.length_cons, List.length_nil]
  omega

/-- C75, memory, violated: the byte 0x81 of a result is read without a look at the bytes left. -/
theorem C75_one_past_violated (old : Asb) (front source : Bytes) (w : Asb) (e : Eid) (hf : TakenForFront front w)
    (hp : w.flags % 2 = 0) (he : IsEid7 source e) (hl : (front ++ (source ++ [0x81])).length < 2 ^ 64) :
    read old (front ++ (source ++ [0x81])) [] = .fault :=
  read_fault_end old front source w e hf hp he hl

example (old : Asb) : read old [0x82, 1, 2, 1, 0, 0x82, 2, 0x82, 1, 1, 0x81] [] = .fault :=
  C75_one_past_violated old [0x82, 1, 2, 1, 0] [0x82, 2, 0x82, 1, 1] _ _
    (front_small 1 2 1 0 (by decide) (by decide) (by decide) (by decide) old) rfl
    (eid_small 1 1 (by decide) (by decide)) (by simp only [List.length_append, List.length_cons, List.length_nil]; omega)

/-- C75, violated: a block without parameters, read into an object that was used for another block, has that block's
parameters (here the variant of the SHA), although its flags say that there are none. -/
theorem C75_stale_violated :
    read Asb.zero [0x81, 1, 1, 0, 0x82, 2, 0x82, 2, 1, 0x81, 0x81, 0x82, 1, 0x41, 9] [0xff] =
      .ok ⟨[1], 1, 0, ⟨2, 1⟩, [], [⟨1, .bytes [9]⟩]⟩ ∧
    (∃ a, read sample [0x81, 1, 1, 0, 0x82, 2, 0x82, 2, 1, 0x81, 0x81, 0x82, 1, 0x41, 9] [0xff] = .ok a ∧
      a.hasParams = false ∧ getUint a.params 1 = some 7) := by
  exact ⟨by decide +kernel, ⟨[1], 1, 0, ⟨2, 1⟩, sample.params, [⟨1, .bytes [9]⟩]⟩, by decide +kernel, by decide, by decide⟩

/-- A security block with two results of its target. -/
def twoResults : Bytes := [0x81, 1, 1, 0, 0x82, 2, 0x82, 2, 1, 0x81, 0x82, 0x82, 1, 0x41, 9, 0x82, 1, 0x41, 8]

theorem isIdValue_small (id x : Nat) (h : id < 24) : IsIdValue [0x82, UInt8.ofNat id, 0x41, UInt8.ofNat x] ⟨id, .bytes [UInt8.ofNat x]⟩ :=
  ⟨[UInt8.ofNat id], [0x41, UInt8.ofNat x], Or.inl rfl, isUint_small id h, [0x41], rfl, 0x41, [], rfl, 1, rfl, isUint_small 1 (by decide)⟩

/-- C75, violated: a security block with two results of a target (allowed by RFC 9172 section 3.6) is refused. -/
theorem C75_two_results_violated :
    IsAsb twoResults ⟨[1], 1, 0, ⟨2, 1⟩, [], [⟨1, .bytes [9]⟩, ⟨1, .bytes [8]⟩]⟩ [[⟨1, .bytes [9]⟩, ⟨1, .bytes [8]⟩]] ∧
    ∀ old, read old twoResults [0xff] = .fail := by
  refine ⟨⟨⟨[0x81, 1], [1], [0], [0x82, 2, 0x82, 2, 1], [], [0x81, 0x82, 0x82, 1, 0x41, 9, 0x82, 1, 0x41, 8], rfl,
    ⟨[0x81], [1], rfl, isArrayHead_81, [1], [], rfl, isUint_small 1 (by decide), rfl⟩, isUint_small 1 (by decide),
    isUint_small 0 (by decide), eid_small 2 1 (by decide) (by decide), Or.inr ⟨rfl, rfl, rfl⟩, [0x81], _, rfl, isArrayHead_81, _, [],
    rfl, ⟨[0x82], _, rfl, markArray_head 2 (by decide), _, _, rfl, isIdValue_small 1 9 (by decide), _, [], rfl,
      isIdValue_small 1 8 (by decide), rfl⟩, rfl⟩, by decide, by decide, rfl, rfl, by simp, ?_⟩, fun old => by rfl⟩
  intro rs hrs x hx
  rw [List.mem_singleton] at hrs
  subst hrs
  simp only [List.mem_cons, List.not_mem_nil, or_false] at hx
  rcases hx with rfl | rfl <;> rfl

/-- C75, violated: nothing relates the results to the targets. A block with two targets, one of them twice, and no
result is read. -/
theorem C75_results_violated :
    read Asb.zero [0x82, 1, 1, 1, 0, 0x82, 2, 0x82, 2, 1, 0x80] [0xff] = .ok ⟨[1, 1], 1, 0, ⟨2, 1⟩, [], []⟩ := by
  decide +kernel

/-- C75, violated: an unknown security context, 2^32 + 1, is taken for context 1. -/
theorem C75_context_violated :
    read Asb.zero [0x81, 1, 0x1b, 0, 0, 0, 1, 0, 0, 0, 1, 0, 0x82, 2, 0x82, 2, 1, 0x81, 0x81, 0x82, 1, 0x41, 9] [0xff] =
      .ok ⟨[1], 2 ^ 32 + 1, 0, ⟨2, 1⟩, [], [⟨1, .bytes [9]⟩]⟩ ∧
    ¬ Assigned false (2 ^ 32 + 1) 1 (.bytes [9]) := by
  refine ⟨by decide +kernel, ?_⟩
  simp [Assigned]

/-- C75, violated: a reserved flag, which a reader is to ignore, makes the reader refuse the block. -/
theorem C75_flag_violated (old : Asb) :
    read old [0x81, 1, 1, 0x18, 0x20, 0x82, 2, 0x82, 2, 1, 0x81, 0x81, 0x82, 1, 0x41, 9] [0xff] = .fail := by
  rfl

/-! ### Writing -/

theorem asb_taken (a : Asb) (hr : InRange a) (hip : ∀ x ∈ a.params, PairInRange x)
    (hir : ∀ x ∈ a.results, PairInRange x) (hlt : a.targets.length ≤ 1000) (hlp : a.params.length ≤ 1000)
    (hlr : a.results.length ≤ 1000) (hf : a.flags ≤ 0x1f)
    (hp : ∀ x ∈ a.params, Assigned true a.context x.id x.value)
    (hs : ∀ x ∈ a.results, Assigned false a.context x.id x.value) : TakenForAsb (asbBytes a) (content a) := by
  have hfront := front_bytes a hr hlt hf
  have hres : TakenForArray (TakenForResult a.context) (vecBytes true a.results) a.results :=
    Or.inl ⟨isArrayOf_vec true a.results (by omega) fun x hx =>
      ⟨pairBytes false x, by simp [pairBytes], isIdValue_bytes x (hir x hx), (assigned_low (hs x hx)).1⟩, hlr⟩
  have h4 := serialize7_isEid a.source hr.2.2.2.1 hr.2.2.2.2.1 hr.2.2.2.2.2
  by_cases hfl : a.flags % 2 = 1
  · have hh : a.hasParams = true := by simp [Asb.hasParams, hfl]
    rw [content, if_pos hfl]
    exact ⟨_, _, _, _, by simp only [asbBytes, hh, if_true, List.append_nil, List.append_assoc], hfront, h4,
      Or.inl ⟨hfl, Or.inl ⟨isArrayOf_vec false a.params (by omega) fun x hx =>
        ⟨isIdValue_bytes x (hip x hx), (assigned_low (hp x hx)).1⟩, hlp⟩⟩, hres⟩
  · have hh : a.hasParams = false := by simp [Asb.hasParams, hfl]
    rw [content, if_neg hfl]
    exact ⟨_, _, [], _, by simp only [asbBytes, hh, Bool.false_eq_true, if_false, List.append_nil, List.nil_append,
      List.append_assoc], hfront, h4, Or.inr ⟨by simp only; omega, rfl, rfl⟩, hres⟩

/-- C75, round trip: whatever the output memory held, a block whose parameters and results are assigned by RFC 9173 is
written as a canonical block of the announced size; the block is read back, and its data are read back to the content
of the block. If every target has its result, the data are the security block of RFC 9172. Missing: more than 1000
targets, parameters or results and flags above 0x1f, which are written but not read. -/
theorem C75_round_trip_partial (a : Asb) (hr : InRange a) (hip : ∀ x ∈ a.params, PairInRange x)
    (hir : ∀ x ∈ a.results, PairInRange x) (hlt : a.targets.length ≤ 1000) (hlp : a.params.length ≤ 1000)
    (hlr : a.results.length ≤ 1000) (hf : a.flags ≤ 0x1f)
    (hp : ∀ x ∈ a.params, Assigned true a.context x.id x.value)
    (hs : ∀ x ∈ a.results, Assigned false a.context x.id x.value)
    (typeCode : UInt8) (number flags : Nat) (hn : number < 2 ^ 64) (hfl : flags < 2 ^ 64) (t : UInt8)
    (ht : t = 0 ∨ t = 1 ∨ t = 2) (mem : Bytes) (hm : ∀ n, a.size = some n → n ≤ mem.length)
    (hm64 : mem.length < 2 ^ 64) :
    ∃ bs c, a.serialize typeCode number flags t mem = some (bs, c) ∧ IsCanonical [] bs c ∧
      serializationSize c = some bs.length ∧ a.size = some c.data.length ∧
      c.typeCode = typeCode ∧ c.number = number ∧ c.flags = flags ∧ c.crcType = t ∧
      (∀ rest, Bpv7Canonical.read false (bs ++ rest) = some (c, rest)) ∧
      (∀ old rest, (c.data ++ rest).length < 2 ^ 64 → ∃ b, read old c.data rest = .ok b ∧ content b = content a) ∧
      (a.targets ≠ [] → a.targets.Nodup → a.results.length = a.targets.length →
        IsAsb c.data (content a) (a.results.map fun r => [r])) := by
  have ha : AllInRange a := ⟨hr, hip, hir, by omega, by omega, by omega⟩
  have hsz := asb_size a ha
  have hle := hm _ hsz
  obtain ⟨bs, c16, c32, hser, hcan, hcs⟩ := serializeWith_spec typeCode number flags hn hfl t ht (asbBytes a).length
    (asbBytes a) mem rfl (by omega) hle
  have htaken := asb_taken a hr hip hir hlt hlp hlr hf hp hs
  refine ⟨bs, _, ?_, hcan, hcs, hsz, rfl, rfl, rfl, rfl, fun rest => ?_, fun old rest hl => ?_, fun h0 hnd hlen => ?_⟩
  · simp only [Asb.serialize, hsz, asb_write a ha _ (Nat.le_refl _), Option.bind_eq_bind, Option.bind_some, hser]
  · exact (C37_decode_iff _ _ _).2 ⟨[], bs, rfl, Or.inl rfl, hcan⟩
  · refine ⟨_, (C75_read_iff old _ rest hl _).2 ⟨content a, htaken, rfl⟩, ?_⟩
    by_cases hfl : a.flags % 2 = 1
    · simp only [content, if_pos hfl]
    · simp only [content, if_neg hfl]
  · obtain ⟨⟨p1, p2, p3, p4, p5, p6, h1, h2, h3, h4, h5, h6, hh, body, h7, h8, h9⟩, hrest⟩ :=
      isAsb_bytes a ha h0 hnd hlen hp hs
    exact ⟨⟨p1, p2, p3, p4, p5, p6, h1, h2, h3, h4, h5, h6, hh, body, h7, h8, each_mem h9 (by
      rintro rs _ q ⟨q', r, rfl, rfl, hr⟩
      exact ⟨[0x81], q', rfl, isArrayHead_81, q', [], by simp, hr, rfl⟩)⟩, hrest⟩

example : AllInRange sample ∧ sample.flags ≤ 0x1f ∧ (∀ x ∈ sample.params, Assigned true sample.context x.id x.value) ∧
    (∀ x ∈ sample.results, Assigned false sample.context x.id x.value) ∧ sample.size = some 23 :=
  ⟨sample_inRange, by decide, by simp [sample, Assigned], by simp [sample, Assigned], by decide⟩

/-! ### Comparison -/

/-- C75, comparison: two blocks are equal exactly when their contents are. -/
theorem C75_equal (a b : Asb) : a.isEqual b = true ↔ content a = content b := by
  obtain ⟨t1, c1, f1, s1, p1, r1⟩ := a
  obtain ⟨t2, c2, f2, s2, p2, r2⟩ := b
  simp only [Asb.isEqual, Asb.hasParams, content, Bool.and_eq_true, decide_eq_true_eq]
  by_cases hf : f1 = f2
  · subst hf
    by_cases h : f1 % 2 = 1 <;> simp [h, and_assoc]
  · constructor
    · rintro ⟨⟨⟨⟨⟨_, _⟩, h⟩, _⟩, _⟩, _⟩
      exact absurd h hf
    · intro h
      have := congrArg Asb.flags h
      simp only [apply_ite Asb.flags, ite_self] at this
      exact absurd this hf

example : sample.isEqual { sample with params := [] } = false ∧
    ({ sample with flags := 0 } : Asb).isEqual { sample with flags := 0, params := [] } = true := by decide

/-! ### Parameters and results -/

theorem find_replace_same (id : Nat) (v : Value) (ps : List Pair) (h : ∃ p, ps.find? (·.id = id) = some p) :
    (replace id v ps).find? (·.id = id) = some ⟨id, v⟩ := by
  induction ps with
  | nil => obtain ⟨p, hp⟩ := h; simp at hp
  | cons p ps ih =>
    by_cases hp : p.id = id
    · simp [replace, hp]
    · rw [replace, if_neg hp]
      simp only [List.find?_cons, hp, decide_false] at h ⊢
      exact ih h

theorem find_replace_other (id j : Nat) (hj : j ≠ id) (v : Value) (ps : List Pair) :
    (replace id v ps).find? (·.id = j) = ps.find? (·.id = j) := by
  induction ps with
  | nil => rfl
  | cons p ps ih =>
    by_cases hp : p.id = id
    · simp [replace, hp, hj.symm]
    · simp only [replace, if_neg hp, List.find?_cons, ih]

theorem replace_ids (id : Nat) (v : Value) (ps : List Pair) : (replace id v ps).map (·.id) = ps.map (·.id) := by
  induction ps with
  | nil => rfl
  | cons p ps ih =>
    by_cases hp : p.id = id
    · simp [replace, hp]
    · simp [replace, if_neg hp, ih]

/-- What an update of the parameters does to them. -/
theorem update_spec (ps : List Pair) (id : Nat) (v : Value) (qs : List Pair)
    (h : qs = replace id v ps ∧ (∃ p, ps.find? (·.id = id) = some p) ∨
      qs = ps ++ [⟨id, v⟩] ∧ ps.find? (·.id = id) = none) :
    qs.find? (·.id = id) = some ⟨id, v⟩ ∧ (∀ j, j ≠ id → qs.find? (·.id = j) = ps.find? (·.id = j)) ∧
      ((ps.map (·.id)).Nodup → (qs.map (·.id)).Nodup) := by
  rcases h with ⟨rfl, h⟩ | ⟨rfl, h⟩
  · exact ⟨find_replace_same id v ps h, fun j hj => find_replace_other id j hj v ps, fun hn => by rwa [replace_ids]⟩
  · refine ⟨by simp [List.find?_append, h], fun j hj => by simp [List.find?_append, hj.symm], fun hn => ?_⟩
    rw [List.map_append, List.nodup_append]
    refine ⟨hn, by simp, ?_⟩
    rintro a ha b hb rfl
    obtain ⟨p, hp, rfl⟩ := List.mem_map.1 ha
    simp only [List.map_cons, List.map_nil, List.mem_singleton] at hb
    have := List.find?_eq_none.1 h p hp
    simp [hb] at this

/-- C76: setting a numeric parameter fails exactly when the parameter holds a byte string; afterwards the parameter has
the value, every other parameter is as before, and no parameter is there twice that was not before. -/
theorem C76_set_uint (ps : List Pair) (id v : Nat) :
    (setUint ps id v = none ↔ ∃ b, getBytes ps id = some b) ∧
    (∀ qs, setUint ps id v = some qs → getUint qs id = some v ∧ getBytes qs id = none ∧
      (∀ j, j ≠ id → getUint qs j = getUint ps j ∧ getBytes qs j = getBytes ps j) ∧
      ((ps.map (·.id)).Nodup → (qs.map (·.id)).Nodup)) := by
  constructor
  · unfold setUint getBytes
    rcases h : ps.find? (·.id = id) with _ | ⟨i, x | x⟩ <;> simp [h]
  · intro qs hq
    obtain ⟨h1, h2, h3⟩ := update_spec ps id (.uint v) qs (by
      unfold setUint at hq
      rcases h : ps.find? (·.id = id) with _ | ⟨i, x | x⟩ <;> rw [h] at hq <;> simp at hq
      · exact Or.inr ⟨hq.symm, h⟩
      · exact Or.inl ⟨hq.symm, _, h⟩)
    exact ⟨by simp [getUint, h1], by simp [getBytes, h1], fun j hj => by simp [getUint, getBytes, h2 j hj], h3⟩

/-- C76: setting a byte string parameter fails exactly when the parameter holds a number; afterwards the parameter has
the value, every other parameter is as before, and no parameter is there twice that was not before. -/
theorem C76_set_bytes (ps : List Pair) (id : Nat) (b : Bytes) :
    (setBytes ps id b = none ↔ ∃ v, getUint ps id = some v) ∧
    (∀ qs, setBytes ps id b = some qs → getBytes qs id = some b ∧ getUint qs id = none ∧
      (∀ j, j ≠ id → getUint qs j = getUint ps j ∧ getBytes qs j = getBytes ps j) ∧
      ((ps.map (·.id)).Nodup → (qs.map (·.id)).Nodup)) := by
  constructor
  · unfold setBytes getUint
    rcases h : ps.find? (·.id = id) with _ | ⟨i, x | x⟩ <;> simp [h]
  · intro qs hq
    obtain ⟨h1, h2, h3⟩ := update_spec ps id (.bytes b) qs (by
      unfold setBytes at hq
      rcases h : ps.find? (·.id = id) with _ | ⟨i, x | x⟩ <;> rw [h] at hq <;> simp at hq
      · exact Or.inr ⟨hq.symm, h⟩
      · exact Or.inl ⟨hq.symm, _, h⟩)
    exact ⟨by simp [getBytes, h1], by simp [getUint, h1], fun j hj => by simp [getUint, getBytes, h2 j hj], h3⟩

example : setUint sample.params 1 5 = some [⟨1, .uint 5⟩, ⟨3, .uint 0⟩] ∧
    setBytes sample.params 2 [1] = some [⟨1, .uint 7⟩, ⟨3, .uint 0⟩, ⟨2, .bytes [1]⟩] ∧
    setBytes sample.params 1 [1] = none := by decide

/-- The values that the parameters of a block have, by identifier: the first pair with the identifier counts. -/
def IsFirst (ps : List Pair) (id : Nat) (v : Value) : Prop :=
  ∃ before behind, ps = before ++ ⟨id, v⟩ :: behind ∧ ∀ p ∈ before, p.id ≠ id

theorem find_iff (ps : List Pair) (id : Nat) (v : Value) : ps.find? (·.id = id) = some ⟨id, v⟩ ↔ IsFirst ps id v := by
  rw [List.find?_eq_some_iff_append]
  simp [IsFirst]

theorem find_id {ps : List Pair} {id : Nat} {p : Pair} (h : ps.find? (·.id = id) = some p) : p.id = id := by
  simpa using List.find?_some h

/-- C76: a numeric parameter is found exactly when the first parameter with its identifier is a number, which is
returned; likewise for byte strings. -/
theorem C76_get (ps : List Pair) (id : Nat) :
    (∀ v, getUint ps id = some v ↔ IsFirst ps id (.uint v)) ∧
    (∀ b, getBytes ps id = some b ↔ IsFirst ps id (.bytes b)) := by
  refine ⟨fun v => ?_, fun b => ?_⟩
  all_goals
    rw [← find_iff]
    simp only [getUint, getBytes]
    rcases h : ps.find? (·.id = id) with _ | ⟨i, x | x⟩
    · simp [h]
    · have := find_id h
      simp only at this
      simp [h, this]
    · have := find_id h
      simp only at this
      simp [h, this]

/-- C76: the scope flags are 7 (all of them) if the block does not have them. -/
theorem C76_scope (ps : List Pair) (id : Nat) :
    (∀ v, IsFirst ps id (.uint v) → getScope ps id = v) ∧ ((∀ v, ¬ IsFirst ps id (.uint v)) → getScope ps id = 7) := by
  refine ⟨fun v h => ?_, fun h => ?_⟩
  · rw [getScope, ((C76_get ps id).1 v).2 h]; rfl
  · rw [getScope]
    rcases hg : getUint ps id with _ | v
    · rfl
    · exact absurd (((C76_get ps id).1 v).1 hg) (h v)

example : getScope sample.params 3 = 0 ∧ getScope [] 3 = 7 ∧ IsFirst sample.params 3 (.uint 0) :=
  ⟨by decide, by decide, [⟨1, .uint 7⟩], [], rfl, by simp⟩

/-- C76: an appended result comes behind the results with the same identifier; the others are not touched. -/
theorem C76_results (rs : List Pair) (id : Nat) (b : Bytes) :
    allResults (appendResult rs id b) id = allResults rs id ++ [b] ∧
    (∀ j, j ≠ id → allResults (appendResult rs id b) j = allResults rs j) ∧
    (∀ x, x ∈ allResults rs id ↔ (⟨id, .bytes x⟩ : Pair) ∈ rs) := by
  refine ⟨by simp [allResults, appendResult], fun j hj => by simp [allResults, appendResult, hj.symm], fun x => ?_⟩
  simp only [allResults, List.mem_filterMap]
  constructor
  · rintro ⟨⟨i, v⟩, hp, h⟩
    by_cases hi : i = id
    · subst hi
      rw [if_pos rfl] at h
      cases v with
      | uint n => simp at h
      | bytes y => simp only [Option.some.injEq] at h; subst h; exact hp
    · rw [if_neg hi] at h; simp at h
  · intro h
    exact ⟨_, h, by simp⟩

example : allResults (appendResult sample.results 1 [5]) 1 = [[0x3b, 0xdc], [5]] := by decide

/-- C76: the flag for the parameters is set and cleared, and the other flags and members are as before. -/
theorem C76_flag (a : Asb) (h : a.flags < 2 ^ 8) :
    a.setParams.hasParams = true ∧ a.clearParams.hasParams = false ∧
    a.setParams.flags / 2 = a.flags / 2 ∧ a.clearParams.flags / 2 = a.flags / 2 ∧
    { a.setParams with flags := a.flags } = a ∧ { a.clearParams with flags := a.flags } = a := by
  have key : ∀ f < 2 ^ 8, (f ||| 1) % 2 = 1 ∧ (f &&& 0xfe) % 2 = 0 ∧ (f ||| 1) / 2 = f / 2 ∧ (f &&& 0xfe) / 2 = f / 2 := by
    decide +kernel
  obtain ⟨h1, h2, h3, h4⟩ := key a.flags h
  exact ⟨by simp [Asb.hasParams, Asb.setParams, h1], by simp [Asb.hasParams, Asb.clearParams, h2], h3, h4, rfl, rfl⟩

example : sample.flags < 2 ^ 8 := by decide

end Hdtn.BpSec7
