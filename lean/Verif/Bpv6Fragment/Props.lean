import Verif.Bpv6Fragment.Spec
import Verif.BundleView6.Props
import Verif.FragmentSet.Props
import Mathlib.Data.List.Induction

/-! C39, C40: fragmentation and reassembly of BPv6 bundles. -/

namespace Hdtn.Bpv6Fragment

open Hdtn.BundleView6 Hdtn.BundleView6.Spec Hdtn.Bpv6Canonical.Spec Hdtn.Bpv6Primary
open Hdtn.FragmentSet Spec

/-! ### The payload -/

theorem byType_payload {v : View} {d : Bytes} (h : Payload v d) :
    ∃ b, v.byType 1 = [b] ∧ b.block.data = d := by
  obtain ⟨pre, b, post, h1, h2, h3, h4⟩ := h
  refine ⟨b, ?_, h3⟩
  have hf : ∀ l : List BlockView, (∀ c ∈ l, c.block.typeCode ≠ 1) →
      (l.filter fun b => decide (b.block.typeCode = 1)) = [] := by
    intro l hl
    exact List.filter_eq_nil_iff.2 fun c hc => by simpa using hl c hc
  rw [View.byType, h1, List.filter_append, List.filter_cons_of_pos (by simpa using h2),
    hf pre fun c hc => h4 c (by simp [hc]), hf post fun c hc => h4 c (by simp [hc])]
  rfl

theorem payload_unique {v : View} {d d' : Bytes} (h : Payload v d) (h' : Payload v d') : d = d' := by
  obtain ⟨b, h1, h2⟩ := byType_payload h
  obtain ⟨b', h1', h2'⟩ := byType_payload h'
  rw [h1] at h1'
  simp only [List.cons.injEq, and_true] at h1'
  rw [← h2, ← h2', h1']

theorem payloadSize_payload {v : View} {d : Bytes} (h : Payload v d) : v.payloadSize = some d.length := by
  obtain ⟨b, h1, h2⟩ := byType_payload h
  simp [View.payloadSize, h1, h2]

/-- Storing a slice of `adu` where it belongs keeps the bytes that are right already. -/
theorem store_slice (adu cur front d back : Bytes) (ha : adu = front ++ d ++ back)
    (hc : cur.length = adu.length) :
    let new := cur.take front.length ++ d ++ cur.drop (front.length + d.length)
    new.length = adu.length ∧
      ∀ x, (cur[x]? = adu[x]? ∨ (front.length ≤ x ∧ x < front.length + d.length)) →
        new[x]? = adu[x]? := by
  have hlen : adu.length = front.length + d.length + back.length := by
    rw [ha]; simp only [List.length_append]
  refine ⟨by simp; omega, ?_⟩
  intro x hx
  have h1 : (cur.take front.length).length = front.length := by simp; omega
  by_cases hx1 : x < front.length
  · rw [List.append_assoc, List.getElem?_append_left (by omega), List.getElem?_take, if_pos hx1]
    rcases hx with hx | hx
    · exact hx
    · omega
  · by_cases hx2 : x < front.length + d.length
    · rw [List.getElem?_append_left (by simp; omega), List.getElem?_append_right (by omega), h1, ha,
        List.getElem?_append_left (by simp; omega), List.getElem?_append_right (by omega)]
    · rw [List.getElem?_append_right (by simp; omega), List.getElem?_drop]
      rcases hx with hx | hx
      · rw [← hx]
        congr 1
        simp
        omega
      · omega

/-- The range of a fragment. -/
theorem piece_facts {adu : Bytes} {id : Id} {v : View} (hv : IsPiece adu id v) (hn : adu.length < 2 ^ 64) :
    ∃ b, v.byType 1 = [b] ∧ Payload v b.block.data ∧
      b.block.data ≠ [] ∧ v.primary.fragmentOffset + b.block.data.length ≤ adu.length ∧
      (v.primary.fragmentOffset + b.block.data.length + 2 ^ 64 - 1) % 2 ^ 64 =
        v.primary.fragmentOffset + b.block.data.length - 1 ∧
      ∃ front back, adu = front ++ b.block.data ++ back ∧ v.primary.fragmentOffset = front.length := by
  obtain ⟨d, hp, hne, front, back, ha, ho⟩ := hv.data
  obtain ⟨b, hb, rfl⟩ := byType_payload hp
  have : 0 < b.block.data.length := List.length_pos_iff.2 hne
  have hlen : adu.length = front.length + b.block.data.length + back.length := by
    rw [ha]; simp only [List.length_append]
  refine ⟨b, hb, hp, hne, by omega, by omega, front, back, ha, ho⟩

theorem assembleLoop_pieces (adu : Bytes) (id : Id) (hn : adu.length + 1 < 2 ^ 64) (fs : List View) :
    ∀ (set : List Frag) (cur : Bytes), Canonical set → cur.length = adu.length →
    (∀ x, Covers set x → cur[x]? = adu[x]?) → (∀ x, Covers set x → x < adu.length) →
    (∀ v ∈ fs, IsPiece adu id v) →
    ∃ set' cur', Canonical set' ∧ cur'.length = adu.length ∧
      (∀ x, Covers set' x → cur'[x]? = adu[x]?) ∧ (∀ x, Covers set' x → x < adu.length) ∧
      (∀ x, Covers set' x ↔ Covers set x ∨ Covered fs x) ∧
      assembleLoop adu.length set cur fs =
        if set'.length ≠ 1 ∨ (find set' ⟨0, adu.length⟩).isNone then .refused else .done cur' := by
  induction fs with
  | nil =>
    intro set cur h1 h2 h3 h3' _
    exact ⟨set, cur, h1, h2, h3, h3', fun x => by simp [Covered], rfl⟩
  | cons f fs ih =>
    intro set cur h1 h2 h3 h3' hv
    obtain ⟨b, hb, hp, hne, hle, hend, front, back, ha, ho⟩ := piece_facts (hv f (by simp)) (by omega)
    have hpos : 0 < b.block.data.length := List.length_pos_iff.2 hne
    have hkv : Frag.Valid ⟨f.primary.fragmentOffset,
        f.primary.fragmentOffset + b.block.data.length - 1⟩ := ⟨by simp only; omega, by simp only; omega⟩
    obtain ⟨c1, c2, _, _⟩ := C07_insert set _ h1 hkv
    obtain ⟨s1, s2⟩ := store_slice adu cur front b.block.data back ha h2
    rw [← ho] at s1 s2
    obtain ⟨set', cur', r1, r2, r3, r3', r4, r5⟩ := ih _ _ c1 s1
      (by
        intro x hx
        apply s2
        rcases (c2 x).1 hx with hx | hx
        · exact .inl (h3 x hx)
        · refine .inr ⟨hx.1, ?_⟩
          have := hx.2
          simp only at this
          omega)
      (by
        intro x hx
        rcases (c2 x).1 hx with hx | hx
        · exact h3' x hx
        · have := hx.2
          simp only at this
          omega)
      (fun v hv' => hv v (by simp [hv']))
    refine ⟨set', cur', r1, r2, r3, r3', ?_, ?_⟩
    · intro x
      rw [r4, c2, or_assoc]
      have hcov : Covered (f :: fs) x ↔
          Frag.Has ⟨f.primary.fragmentOffset, f.primary.fragmentOffset + b.block.data.length - 1⟩ x ∨
            Covered fs x := by
        constructor
        · rintro ⟨v, hvm, d, hd, hd1, hd2⟩
          simp only [List.mem_cons] at hvm
          rcases hvm with rfl | hvm
          · have := payload_unique hd hp
            subst this
            exact .inl ⟨hd1, by simp only; omega⟩
          · exact .inr ⟨v, hvm, d, hd, hd1, hd2⟩
        · rintro (h | ⟨v, hvm, rest⟩)
          · refine ⟨f, by simp, _, hp, h.1, ?_⟩
            have := h.2
            simp only at this
            omega
          · exact ⟨v, by simp [hvm], rest⟩
      rw [hcov]
    · rw [assembleLoop, hb]
      simp only
      rw [hend, if_neg (by rw [Nat.mod_eq_of_lt (by omega)]; omega), if_neg (by omega)]
      exact r5

theorem find_touching (f : Frag) (n : Nat) (h : f.b ≤ n) (hn : n + 1 < 2 ^ 64) :
    find [f] ⟨0, n⟩ = some f := by
  have h1 : f.lt ⟨0, n⟩ = false := by simp [Frag.lt]
  have h2 : Frag.lt ⟨0, n⟩ f = false := by
    simp only [Frag.lt, U64, decide_eq_false_iff_not]
    rw [Nat.mod_eq_of_lt (by omega)]
    omega
  simp [find, h1, h2]

/-- C39: from fragments of an application data unit that together carry all of its bytes, in any order
and number, the payload is restored. -/
theorem C39_payload_restored (adu : Bytes) (id : Id) (hn : adu.length + 1 < 2 ^ 64) (fs : List View)
    (hv : ∀ v ∈ fs, IsPiece adu id v) (hne : adu ≠ []) (hall : ∀ x < adu.length, Covered fs x) :
    assemblePayload fs = .done adu := by
  have hpos : 0 < adu.length := List.length_pos_iff.2 hne
  cases hfs : fs with
  | nil =>
    obtain ⟨v, hm, _⟩ := hall 0 hpos
    rw [hfs] at hm; simp at hm
  | cons f rest =>
    have ht : f.primary.totalAduLength = adu.length := (hv f (by simp [hfs])).total
    obtain ⟨set', cur', r1, r2, r3, r3', r4, r5⟩ := assembleLoop_pieces adu id hn fs []
      (List.replicate adu.length 0) canonical_nil (by simp) (fun x hx => absurd hx (covers_nil x))
      (fun x hx => absurd hx (covers_nil x)) hv
    have hset : set' = [⟨0, adu.length - 1⟩] := by
      apply canonical_unique _ _ r1
      · refine ⟨fun g hg => ?_, by simp⟩
        simp only [List.mem_singleton] at hg
        subst hg
        exact ⟨by simp, by simp only; omega⟩
      · intro x
        constructor
        · intro hx
          have := r3' x hx
          exact ⟨⟨0, adu.length - 1⟩, by simp, ⟨by simp, by simp only; omega⟩⟩
        · rintro ⟨g, hg, hx⟩
          simp only [List.mem_singleton] at hg
          subst hg
          have := hx.2
          simp only at this
          exact (r4 x).2 (.inr (hall x (by omega)))
    have hcur : cur' = adu := by
      apply List.ext_getElem?
      intro x
      by_cases hx : x < adu.length
      · exact r3 x ((r4 x).2 (.inr (hall x hx)))
      · rw [List.getElem?_eq_none (by omega), List.getElem?_eq_none (by omega)]
    rw [hset, find_touching _ _ (by simp) hn] at r5
    rw [assemblePayload, ht, ← hfs, r5, hcur]
    simp

/-- C40, what the check amounts to: a list of fragments of one application data unit is accepted
exactly if the bytes that they carry are one range, whether or not this range is everything. -/
theorem C40_accepted_iff_partial (adu : Bytes) (id : Id) (hn : adu.length + 1 < 2 ^ 64) (fs : List View)
    (hv : ∀ v ∈ fs, IsPiece adu id v) (hne : fs ≠ []) :
    (∃ out, assemblePayload fs = .done out) ↔
      ∃ a b, ∀ x, Covered fs x ↔ a ≤ x ∧ x ≤ b := by
  cases hfs : fs with
  | nil => exact absurd hfs hne
  | cons f rest =>
    rw [← hfs]
    have ht : f.primary.totalAduLength = adu.length := (hv f (by simp [hfs])).total
    obtain ⟨set', cur', r1, r2, r3, r3', r4, r5⟩ := assembleLoop_pieces adu id hn fs []
      (List.replicate adu.length 0) canonical_nil (by simp) (fun x hx => absurd hx (covers_nil x))
      (fun x hx => absurd hx (covers_nil x)) hv
    have hcov : ∀ x, Covers set' x ↔ Covered fs x := fun x => by
      rw [r4]; simp [covers_nil]
    have hap : assemblePayload fs =
        if set'.length ≠ 1 ∨ (find set' ⟨0, adu.length⟩).isNone then .refused else .done cur' := by
      rw [hfs, assemblePayload, ht, ← hfs]; exact r5
    rw [hap]
    constructor
    · rintro ⟨out, h⟩
      split at h
      · simp at h
      · rename_i hc
        simp only [not_or, ne_eq, Decidable.not_not] at hc
        obtain ⟨g, hg⟩ := List.length_eq_one_iff.1 hc.1
        refine ⟨g.b, g.e, fun x => ?_⟩
        rw [← hcov, hg]
        simp [Covers, Frag.Has]
    · rintro ⟨a, b, hab⟩
      obtain ⟨bk, _, hp, hne', hle, _⟩ := piece_facts (hv f (by simp [hfs])) (by omega)
      have hpos : 0 < bk.block.data.length := List.length_pos_iff.2 hne'
      have h0 : Covered fs f.primary.fragmentOffset := ⟨f, by simp [hfs], _, hp, by omega, by omega⟩
      have hb0 := (hab _).1 h0
      have hblt : b < adu.length := r3' b ((hcov b).2 ((hab b).2 ⟨by omega, by omega⟩))
      have hset : set' = [⟨a, b⟩] := by
        apply canonical_unique _ _ r1
        · refine ⟨fun g hg => ?_, by simp⟩
          simp only [List.mem_singleton] at hg
          subst hg
          exact ⟨by simp only; omega, by simp only; omega⟩
        · intro x
          rw [hcov, hab]
          simp [Covers, Frag.Has]
      rw [hset, find_touching _ _ (by simp only; omega) hn]
      exact ⟨cur', by simp⟩

/-! ### Fragmenting -/

/-- A block as `AppendBlock` copies it. -/
def copied (b : BlockView) : BlockView := ⟨b.block, b.body, b.raw, true, false⟩

theorem appendBlock_eq (b : BlockView) (h1 : IsBlock b.raw b.block) (h2 : IsBody false b.block b.body) :
    appendBlock b = some (copied b) := by
  have := (readBlock_iff false b.raw ⟨b.block, b.body, b.raw, false, false⟩ []).2
    ⟨by simp, h1, h2, rfl, rfl⟩
  rw [appendBlock, this]
  rfl

theorem fragmentBlocks_other (isFirst isLast before : Bool) (start stop : Nat) (l tail : List BlockView)
    (hl : ∀ b ∈ l, b.block.typeCode ≠ 1 ∧ IsBlock b.raw b.block ∧ IsBody false b.block b.body) :
    fragmentBlocks isFirst isLast start stop before (l ++ tail) =
      (fragmentBlocks isFirst isLast start stop before tail).map fun r =>
        (l.filter fun b => Replicated b || (if before then isFirst else isLast)).map copied ++ r := by
  induction l with
  | nil => simp
  | cons b l ih =>
    obtain ⟨b1, b2, b3⟩ := hl b (by simp)
    have ih' := ih fun c hc => hl c (by simp [hc])
    rw [List.cons_append, fragmentBlocks, if_neg b1, appendBlock_eq b b2 b3, ih']
    have hcond : (mustReplicate b || (isFirst && before) || (isLast && !before)) =
        (Replicated b || (if before then isFirst else isLast)) := by
      cases before <;> simp [mustReplicate, Replicated]
    rw [hcond]
    cases hc : (Replicated b || (if before then isFirst else isLast)) with
    | true =>
      rw [if_pos rfl, List.filter_cons_of_pos (by simpa using hc)]
      cases fragmentBlocks isFirst isLast start stop before tail <;> simp
    | false =>
      rw [if_neg (by simp), List.filter_cons_of_neg (by simp [hc])]

/-- The view of fragment `i` of `k`, spelt out. -/
def pieceView (v : View) (pre : List BlockView) (pb : BlockView) (post : List BlockView) (adu : Bytes)
    (sz k i : Nat) : View :=
  ⟨copyPrimaryFragment v.primary (i * sz) adu.length, [], true,
    ((pre.filter fun b => Replicated b || decide (i = 0)).map copied) ++
      payloadBlock pb (slice adu sz i) ::
        ((post.filter fun b => Replicated b || decide (i + 1 = k)).map copied)⟩

theorem fragmentAt_eq (v : View) (pre : List BlockView) (pb : BlockView) (post : List BlockView)
    (adu : Bytes) (hw : Whole v pre pb post adu) (sz : Nat) (hsz : 0 < sz) (hn : adu.length < 2 ^ 63)
    (hlt : sz < adu.length) (k i : Nat) (hk : 0 < k) (hi : i * sz < adu.length) :
    fragmentAt v 0 adu.length adu.length sz k i = some (pieceView v pre pb post adu sz k i) := by
  have ho : ∀ b ∈ pre ++ post, b.block.typeCode ≠ 1 ∧ IsBlock b.raw b.block ∧
      IsBody false b.block b.body := fun b hb => by
    obtain ⟨a, b, c, _⟩ := hw.others b hb; exact ⟨a, b, c⟩
  have hp := fragmentBlocks_other (i = 0) (i = k - 1) true (i * sz)
    (min ((i * sz + sz) % 2 ^ 64) adu.length) pre (pb :: post) fun b hb => ho b (by simp [hb])
  have hq := fragmentBlocks_other (i = 0) (i = k - 1) false (i * sz)
    (min ((i * sz + sz) % 2 ^ 64) adu.length) post [] fun b hb => ho b (by simp [hb])
  rw [List.append_nil] at hq
  have hlast : ∀ b : BlockView, (Replicated b || decide (i = k - 1)) = (Replicated b || decide (i + 1 = k)) := by
    intro b
    congr 1
    rw [decide_eq_decide]
    omega
  have hslice : (pb.block.data.drop (i * sz)).take (min ((i * sz + sz) % 2 ^ 64) adu.length - i * sz) =
      slice adu sz i := by
    rw [hw.payload, slice, Nat.mod_eq_of_lt (by omega)]
    by_cases h : i * sz + sz ≤ adu.length
    · rw [Nat.min_eq_left h]
      congr 1
      omega
    · rw [Nat.min_eq_right (by omega)]
      rw [List.take_of_length_le (by simp), List.take_of_length_le (by simp; omega)]
  simp only [fragmentAt, hw.blocks, hp, fragmentBlocks, if_pos hw.payloadType, hq, Option.bind_eq_bind,
    Option.bind_some, Option.map_some, Option.pure_def, Bool.false_eq_true, if_true, if_false,
    List.append_nil, hslice, pieceView, hlast, Nat.zero_add]
  rw [Nat.mod_eq_of_lt (a := i * sz) (by omega)]

theorem fragmentLoop_eq (v : View) (pre : List BlockView) (pb : BlockView) (post : List BlockView)
    (adu : Bytes) (hw : Whole v pre pb post adu) (sz : Nat) (hsz : 0 < sz) (hn : adu.length < 2 ^ 63)
    (hlt : sz < adu.length) (k : Nat) (hk : 0 < k) (is : List Nat) (his : ∀ i ∈ is, i * sz < adu.length) :
    fragmentLoop v 0 adu.length adu.length sz k is = some (is.map (pieceView v pre pb post adu sz k)) := by
  induction is with
  | nil => rfl
  | cons i is ih =>
    rw [fragmentLoop, fragmentAt_eq v pre pb post adu hw sz hsz hn hlt k i hk (his i (by simp)),
      ih fun j hj => his j (by simp [hj])]
    rfl

theorem payload_of_whole {v : View} {pre : List BlockView} {pb : BlockView} {post : List BlockView}
    {adu : Bytes} (hw : Whole v pre pb post adu) : Payload v adu :=
  ⟨pre, pb, post, hw.blocks, hw.payloadType, hw.payload, fun c hc => (hw.others c hc).1⟩

theorem num_bounds (n sz : Nat) (hsz : 0 < sz) (hn : n < 2 ^ 63) (hlt : sz < n) :
    0 < calcNumFragments n sz ∧ (calcNumFragments n sz - 1) * sz < n ∧ n ≤ calcNumFragments n sz * sz := by
  unfold calcNumFragments
  rw [Nat.mod_eq_of_lt (by omega)]
  have h1 := Nat.div_add_mod (n + (sz - 1)) sz
  have h2 := Nat.mod_lt (n + (sz - 1)) hsz
  generalize (n + (sz - 1)) / sz = q at h1
  generalize (n + (sz - 1)) % sz = r at h1 h2
  rw [Nat.mul_comm] at h1
  have hq : 0 < q := by
    rcases Nat.eq_zero_or_pos q with h | h
    · rw [h, Nat.zero_mul] at h1; omega
    · exact h
  refine ⟨hq, ?_, by omega⟩
  rw [Nat.sub_mul]
  omega

theorem fragment_eq (v : View) (pre : List BlockView) (pb : BlockView) (post : List BlockView)
    (adu : Bytes) (hw : Whole v pre pb post adu) (sz : Nat) (hsz : 0 < sz) (hn : adu.length < 2 ^ 63)
    (hlt : sz < adu.length) (n : Nat) :
    fragment v n sz = some ((List.range (calcNumFragments adu.length sz)).map fun i =>
      (pieceView v pre pb post adu sz (calcNumFragments adu.length sz) i,
        (pieceView v pre pb post adu sz (calcNumFragments adu.length sz) i).renderMax n)) := by
  obtain ⟨k1, k2, k3⟩ := num_bounds adu.length sz hsz hn hlt
  have hfr : v.primary.isFragment = false := hw.notFragment
  unfold fragment
  rw [if_neg (by omega), if_neg (by simp [hw.allowed]), payloadSize_payload (payload_of_whole hw)]
  simp only [hfr, Bool.false_eq_true, if_false]
  rw [if_neg (by omega), fragmentLoop_eq v pre pb post adu hw sz hsz hn hlt _ k1]
  · simp
  · intro i hi
    rw [List.mem_range] at hi
    refine Nat.lt_of_le_of_lt (Nat.mul_le_mul_right sz ?_) k2
    omega

theorem slices_flatten (adu : Bytes) (sz k : Nat) (hk : adu.length ≤ k * sz) :
    ((List.range k).map (slice adu sz)).flatten = adu := by
  have : ∀ j, ((List.range j).map (slice adu sz)).flatten = adu.take (j * sz) := by
    intro j
    induction j with
    | zero => simp
    | succ j ih =>
      rw [List.range_succ, List.map_append, List.flatten_append, ih]
      simp only [List.map_cons, List.map_nil, List.flatten_cons, List.flatten_nil, List.append_nil, slice]
      rw [Nat.succ_mul, List.take_add]
  rw [this, List.take_of_length_le hk]

/-- C39: fragmenting a bundle with payload size `adu.length` for a smaller size `sz` gives as many
fragments as needed. Fragment `i` has the primary block of the bundle with the fragment flag, the
offset `i * sz` and the total length; its payload are the up to `sz` bytes from that offset, so that
the payloads in order are the payload of the bundle; and it has the blocks that belong in it. Missing here and below: blocks whose flags
need several bytes (originals that are fragments themselves: Again.lean); for administrative records the claim is false
(`C39_admin_fragment_refused`). -/
theorem C39_fragments_tile_partial (v : View) (pre : List BlockView) (pb : BlockView) (post : List BlockView)
    (adu : Bytes) (hw : Whole v pre pb post adu) (sz : Nat) (hsz : 0 < sz) (hlt : sz < adu.length)
    (hn : adu.length < 2 ^ 63) (renderedSize : Nat) :
    ∃ fs, fragment v renderedSize sz = some fs ∧ (fs.length - 1) * sz < adu.length ∧
      adu.length ≤ fs.length * sz ∧
      ((List.range fs.length).map (slice adu sz)).flatten = adu ∧
      ∀ i (hi : i < fs.length),
        Payload fs[i].1 (slice adu sz i) ∧ (slice adu sz i).length ≤ sz ∧ slice adu sz i ≠ [] ∧
        fs[i].1.primary = { v.primary with
          flags := v.primary.flags ||| 1, fragmentOffset := i * sz, totalAduLength := adu.length } ∧
        fs[i].1.blocks.map (fun b => (b.block.typeCode, b.body)) = contents pre pb post fs.length i := by
  obtain ⟨k1, k2, k3⟩ := num_bounds adu.length sz hsz hn hlt
  refine ⟨_, fragment_eq v pre pb post adu hw sz hsz hn hlt renderedSize, ?_⟩
  simp only [List.length_map, List.length_range]
  refine ⟨k2, k3, slices_flatten adu sz _ k3, ?_⟩
  intro i hi
  simp only [List.getElem_map, List.getElem_range]
  have hlt' : i * sz < adu.length := by
    refine Nat.lt_of_le_of_lt (Nat.mul_le_mul_right sz ?_) k2
    omega
  refine ⟨⟨_, _, _, rfl, hw.payloadType, rfl, ?_⟩, by simp [slice], ?_, rfl, ?_⟩
  · intro c hc
    simp only [List.mem_append, List.mem_map, List.mem_filter] at hc
    rcases hc with ⟨b, ⟨hb, _⟩, rfl⟩ | ⟨b, ⟨hb, _⟩, rfl⟩
    · exact (hw.others b (by simp [hb])).1
    · exact (hw.others b (by simp [hb])).1
  · intro h0
    have := congrArg List.length h0
    simp [slice] at this
    omega
  · simp only [pieceView, contents, List.map_append, List.map_cons, List.map_map, payloadBlock,
      hw.payloadBody, Function.comp_def, copied]

/-- C39: a bundle is not fragmented if its flags forbid it, or for a size of zero, or if its payload is
no larger than the size asked for. -/
theorem C39_not_fragmented (v : View) (d : Bytes) (hp : Payload v d) (renderedSize sz : Nat)
    (h : v.primary.flags.testBit 2 = true ∨ sz = 0 ∨ d.length ≤ sz) : fragment v renderedSize sz = none := by
  unfold fragment
  by_cases h0 : sz = 0
  · rw [if_pos h0]
  rw [if_neg h0]
  cases hb : v.primary.flags.testBit 2 with
  | true => rw [if_pos rfl]
  | false =>
    rw [if_neg (by simp), payloadSize_payload hp]
    simp only
    rw [if_pos]
    rcases h with h | h | h
    · rw [hb] at h; simp at h
    · exact absurd h h0
    · exact h

/-- Fragmenting for the size of the payload. -/
example : ∃ v d, Payload v d ∧ d.length = 5 ∧ fragment v 100 5 = none :=
  ⟨⟨⟨16, 12, ⟨1, 1⟩, ⟨2, 1⟩, ⟨0, 0⟩, ⟨0, 0⟩, 9, 1, 60, 0, 0⟩, [], true,
    [⟨⟨1, 8, [1, 2, 3, 4, 5]⟩, .plain, [1, 8, 5, 1, 2, 3, 4, 5], false, false⟩]⟩, [1, 2, 3, 4, 5],
    ⟨[], _, [], rfl, rfl, rfl, by simp⟩, rfl, by decide +kernel⟩

/-! ### Fragments on the wire -/

/-- What is known about the view `w` of a fragment that was rendered and loaded. -/
structure Arrived (v : View) (pre : List BlockView) (pb : BlockView) (post : List BlockView) (adu : Bytes)
    (sz k i : Nat) (out : Bytes) (w : View) : Prop where
  wire : load out = some w
  primary : w.primary = { v.primary with
    flags := v.primary.flags ||| 1, blockLength := w.primary.blockLength, fragmentOffset := i * sz,
    totalAduLength := adu.length }
  blocks : List.Forall₂ SameBlock (pieceView v pre pb post adu sz k i).blocks w.blocks

theorem or_one_testBit (f i : Nat) : (f ||| 1).testBit i = (f.testBit i || decide (i = 0)) := by
  have h1 : (1 : Nat).testBit i = decide (i = 0) := by
    have := @Nat.testBit_two_pow 0 i
    rw [show (2 : Nat) ^ 0 = 1 from rfl] at this
    rw [this]; simp [eq_comm]
  rw [Nat.testBit_or, h1]

theorem pieceView_arrives (v : View) (pre : List BlockView) (pb : BlockView) (post : List BlockView)
    (adu : Bytes) (hw : Whole v pre pb post adu) (sz : Nat) (hn : adu.length < 2 ^ 63) (k i : Nat)
    (hi : i * sz < adu.length) :
    ∃ out w, (pieceView v pre pb post adu sz k i).render = some (out, w) ∧
      (pieceView v pre pb post adu sz k i).size = some out.length ∧
      Arrived v pre pb post adu sz k i out w := by
  have hadm : (pieceView v pre pb post adu sz k i).primary.flags.testBit 1 = false := by
    simp only [pieceView, copyPrimaryFragment, or_one_testBit, hw.notAdmin]
    rfl
  have hmem : ∀ b ∈ (pieceView v pre pb post adu sz k i).blocks,
      b.deleted = false ∧ Ready false b := by
    intro b hb
    simp only [pieceView, List.mem_append, List.mem_cons, List.mem_map, List.mem_filter] at hb
    rcases hb with ⟨c, ⟨hc, _⟩, rfl⟩ | rfl | ⟨c, ⟨hc, _⟩, rfl⟩
    · exact ⟨rfl, (hw.others c (by simp [hc])).2.2.2.1⟩
    · refine ⟨rfl, ?_⟩
      have := hw.payloadFlags
      refine ⟨?_, ?_, by simp, ?_⟩
      · simp only [payloadBlock]; omega
      · simp only [payloadBlock, slice, List.length_take, List.length_drop]; omega
      · simp only [payloadBlock, hw.payloadType, IsExtType]; decide
    · exact ⟨rfl, (hw.others c (by simp [hc])).2.2.2.1⟩
  obtain ⟨f1, f2⟩ := hw.fits _ hi
  obtain ⟨out, w, r1, r2, r3, r4, r5⟩ := C56_render_reload (pieceView v pre pb post adu sz k i)
    (by
      refine ⟨f1, f2, ?_⟩
      intro hnf
      exfalso
      apply hnf
      show (v.primary.flags ||| 1) % 2 = 1
      simp)
    ⟨payloadBlock pb (slice adu sz i), by simp [pieceView], rfl⟩
    (fun b hb _ => by rw [hadm]; exact (hmem b hb).2)
  refine ⟨out, w, r1, r2, r3, r4, ?_⟩
  rwa [List.filter_eq_self.2 fun b hb => by simp [(hmem b hb).1]] at r5

/-- C39: each fragment can be written, provided the buffer is large enough; what is written loads as a
bundle with the offset, total length and payload of the fragment and the blocks that belong in it. -/
theorem C39_fragments_on_the_wire_partial (v : View) (pre : List BlockView) (pb : BlockView)
    (post : List BlockView) (adu : Bytes) (hw : Whole v pre pb post adu) (sz : Nat) (hsz : 0 < sz)
    (hlt : sz < adu.length) (hn : adu.length < 2 ^ 63) (renderedSize : Nat) :
    ∃ fs, fragment v renderedSize sz = some fs ∧ ∀ f ∈ fs, ∃ out w,
      f.1.render = some (out, w) ∧ load out = some w ∧
      w.primary = { f.1.primary with blockLength := w.primary.blockLength } ∧
      List.Forall₂ SameBlock f.1.blocks w.blocks ∧
      f.2 = if out.length > renderedSize then .overflow else .done out w := by
  obtain ⟨k1, k2, k3⟩ := num_bounds adu.length sz hsz hn hlt
  refine ⟨_, fragment_eq v pre pb post adu hw sz hsz hn hlt renderedSize, ?_⟩
  intro f hf
  obtain ⟨i, hi, rfl⟩ := List.mem_map.1 hf
  rw [List.mem_range] at hi
  obtain ⟨out, w, r1, _, r3⟩ := pieceView_arrives v pre pb post adu hw sz hn
    (calcNumFragments adu.length sz) i (Nat.lt_of_le_of_lt (Nat.mul_le_mul_right sz (by omega)) k2)
  refine ⟨out, w, r1, r3.wire, r3.primary, r3.blocks, ?_⟩
  simp only [View.renderMax, r1]

theorem forall₂_split {R : BlockView → BlockView → Prop} {a b : List BlockView} {x : BlockView}
    {ws : List BlockView} (h : List.Forall₂ R (a ++ x :: b) ws) :
    ∃ a' y b', ws = a' ++ y :: b' ∧ List.Forall₂ R a a' ∧ R x y ∧ List.Forall₂ R b b' := by
  induction a generalizing ws with
  | nil =>
    cases h with
    | cons h1 h2 => exact ⟨[], _, _, rfl, .nil, h1, h2⟩
  | cons c a ih =>
    cases h with
    | cons h1 h2 =>
      obtain ⟨a', y, b', rfl, i1, i2, i3⟩ := ih h2
      exact ⟨_ :: a', y, b', rfl, .cons h1 i1, i2, i3⟩

theorem forall₂_mem {R : BlockView → BlockView → Prop} {a ws : List BlockView}
    (h : List.Forall₂ R a ws) : ∀ w ∈ ws, ∃ b ∈ a, R b w := by
  induction h with
  | nil => simp
  | cons h1 _ ih =>
    intro w hw
    simp only [List.mem_cons] at hw
    rcases hw with rfl | hw
    · exact ⟨_, by simp, h1⟩
    · obtain ⟨b, hb, hr⟩ := ih w hw
      exact ⟨b, by simp [hb], hr⟩

/-- The blocks of an arrived fragment. -/
theorem arrived_blocks {v : View} {pre : List BlockView} {pb : BlockView} {post : List BlockView}
    {adu : Bytes} (hw : Whole v pre pb post adu) {sz k i : Nat} {out : Bytes} {w : View}
    (h : Arrived v pre pb post adu sz k i out w) :
    ∃ a y b, w.blocks = a ++ y :: b ∧
      List.Forall₂ SameBlock ((pre.filter fun b => Replicated b || decide (i = 0)).map copied) a ∧
      List.Forall₂ SameBlock ((post.filter fun b => Replicated b || decide (i + 1 = k)).map copied) b ∧
      y.block.typeCode = 1 ∧ y.block.data = slice adu sz i ∧
      SameBlock (payloadBlock pb (slice adu sz i)) y ∧ (∀ c ∈ a ++ b, c.block.typeCode ≠ 1) := by
  obtain ⟨a, y, b, hb, f1, f2, f3⟩ := forall₂_split (h.blocks)
  refine ⟨a, y, b, hb, f1, f3, ?_, ?_, f2, ?_⟩
  · exact f2.1.trans hw.payloadType
  · exact f2.2.2.2.2.1 (.inr rfl)
  · intro c hc
    simp only [List.mem_append] at hc
    rcases hc with hc | hc
    · obtain ⟨d, hd, hr⟩ := forall₂_mem f1 c hc
      obtain ⟨e, he, rfl⟩ := List.mem_map.1 hd
      rw [hr.1]
      exact (hw.others e (by simp [(List.mem_filter.1 he).1])).1
    · obtain ⟨d, hd, hr⟩ := forall₂_mem f3 c hc
      obtain ⟨e, he, rfl⟩ := List.mem_map.1 hd
      rw [hr.1]
      exact (hw.others e (by simp [(List.mem_filter.1 he).1])).1

theorem slice_parts (adu : Bytes) (sz i : Nat) (hi : i * sz < adu.length) (hsz : 0 < sz) :
    slice adu sz i ≠ [] ∧ adu = adu.take (i * sz) ++ slice adu sz i ++ (adu.drop (i * sz)).drop sz ∧
      (adu.take (i * sz)).length = i * sz := by
  refine ⟨?_, ?_, by simp; omega⟩
  · intro h0
    have := congrArg List.length h0
    simp [slice] at this
    omega
  · rw [slice, List.append_assoc, List.take_append_drop, List.take_append_drop]

theorem arrived_payload {v : View} {pre : List BlockView} {pb : BlockView} {post : List BlockView}
    {adu : Bytes} (hw : Whole v pre pb post adu) {sz k i : Nat} {out : Bytes} {w : View}
    (h : Arrived v pre pb post adu sz k i out w) : Payload w (slice adu sz i) := by
  obtain ⟨a, y, b, h1, _, _, h2, h3, _, h4⟩ := arrived_blocks hw h
  exact ⟨a, y, b, h1, h2, h3, h4⟩

theorem arrived_piece {v : View} {pre : List BlockView} {pb : BlockView} {post : List BlockView}
    {adu : Bytes} (hw : Whole v pre pb post adu) {sz k i : Nat} (hsz : 0 < sz) (hi : i * sz < adu.length)
    {out : Bytes} {w : View} (h : Arrived v pre pb post adu sz k i out w) :
    IsPiece adu (idOf v.primary) w := by
  obtain ⟨s1, s2, s3⟩ := slice_parts adu sz i hi hsz
  refine ⟨?_, ?_, ?_, slice adu sz i, arrived_payload hw h, s1, _, _, s2, ?_⟩
  · rw [h.primary]; rfl
  · rw [h.primary]
    simp only [or_one_testBit]
    simp
  · rw [h.primary]
  · rw [s3, h.primary]

/-! ### Reassembly of a bundle -/

theorem startBlocks_eq (adu : Bytes) (a b : List BlockView) (y : BlockView) (hy : y.block.typeCode = 1)
    (ha : ∀ c ∈ a, c.block.typeCode ≠ 1 ∧ IsBlock c.raw c.block ∧ IsBody false c.block c.body) :
    startBlocks adu (a ++ y :: b) = some (a.map copied ++ [payloadBlock y adu]) := by
  induction a with
  | nil => simp [startBlocks, hy]
  | cons c a ih =>
    obtain ⟨c1, c2, c3⟩ := ha c (by simp)
    rw [List.cons_append, startBlocks, if_neg c1, appendBlock_eq c c2 c3,
      ih fun d hd => ha d (by simp [hd])]
    rfl

theorem endBlocks_true (b : List BlockView)
    (hb : ∀ c ∈ b, IsBlock c.raw c.block ∧ IsBody false c.block c.body) :
    endBlocks true b = some (b.map copied) := by
  induction b with
  | nil => rfl
  | cons c b ih =>
    obtain ⟨c2, c3⟩ := hb c (by simp)
    rw [endBlocks, appendBlock_eq c c2 c3, ih fun d hd => hb d (by simp [hd])]
    rfl

theorem endBlocks_eq (a b : List BlockView) (y : BlockView) (hy : y.block.typeCode = 1)
    (ha : ∀ c ∈ a, c.block.typeCode ≠ 1)
    (hb : ∀ c ∈ b, IsBlock c.raw c.block ∧ IsBody false c.block c.body) :
    endBlocks false (a ++ y :: b) = some (b.map copied) := by
  induction a with
  | nil =>
    rw [List.nil_append, endBlocks, hy]
    exact endBlocks_true b hb
  | cons c a ih =>
    rw [List.cons_append, endBlocks, decide_eq_false (ha c (by simp))]
    exact ih fun d hd => ha d (by simp [hd])

theorem firstMin_spec (f : View) (fs : List View) :
    firstMin f fs ∈ f :: fs ∧
      ∀ g ∈ f :: fs, (firstMin f fs).primary.fragmentOffset ≤ g.primary.fragmentOffset := by
  induction fs generalizing f with
  | nil => simp [firstMin]
  | cons g fs ih =>
    rw [firstMin]
    split
    · rename_i h
      obtain ⟨h1, h2⟩ := ih g
      refine ⟨by simp only [List.mem_cons] at h1 ⊢; exact .inr h1, ?_⟩
      intro x hx
      simp only [List.mem_cons] at hx
      rcases hx with rfl | rfl | hx
      · have := h2 g (by simp); omega
      · exact h2 _ (by simp)
      · exact h2 x (by simp [hx])
    · rename_i h
      obtain ⟨h1, h2⟩ := ih f
      refine ⟨by simp only [List.mem_cons] at h1 ⊢; rcases h1 with h1 | h1 <;> simp [h1], ?_⟩
      intro x hx
      simp only [List.mem_cons] at hx
      rcases hx with rfl | rfl | hx
      · exact h2 _ (by simp)
      · have := h2 f (by simp); omega
      · exact h2 x (by simp [hx])

theorem lastMax_spec (f : View) (fs : List View) :
    lastMax f fs ∈ f :: fs ∧
      ∀ g ∈ f :: fs, g.primary.fragmentOffset ≤ (lastMax f fs).primary.fragmentOffset := by
  induction fs generalizing f with
  | nil => simp [lastMax]
  | cons g fs ih =>
    rw [lastMax]
    split
    · rename_i h
      obtain ⟨h1, h2⟩ := ih f
      refine ⟨by simp only [List.mem_cons] at h1 ⊢; rcases h1 with h1 | h1 <;> simp [h1], ?_⟩
      intro x hx
      simp only [List.mem_cons] at hx
      rcases hx with rfl | rfl | hx
      · exact h2 _ (by simp)
      · have := h2 f (by simp); omega
      · exact h2 x (by simp [hx])
    · rename_i h
      obtain ⟨h1, h2⟩ := ih g
      refine ⟨by simp only [List.mem_cons] at h1 ⊢; exact .inr h1, ?_⟩
      intro x hx
      simp only [List.mem_cons] at hx
      rcases hx with rfl | rfl | hx
      · have := h2 g (by simp); omega
      · exact h2 _ (by simp)
      · exact h2 x (by simp [hx])

theorem writable_congr {b b' : Bpv6Canonical.Block} {body : Body} (ht : b'.typeCode = b.typeCode)
    (hf : b'.flags < 2 ^ 64) (hd : body = .plain → b'.data = b.data) (h : Writable false b body) :
    Writable false b' body := by
  cases body with
  | plain => exact ⟨hf, by rw [hd rfl]; exact h.2.1, by simp, by rw [ht]; exact h.2.2.2⟩
  | ext x => exact ⟨hf, by rw [ht]; exact h.2.1, h.2.2.1, h.2.2.2⟩
  | admin r => exact absurd h.2.2.1 (by simp)

/-- A block rendered from a copy of `b` keeps small flags small. -/
theorem same_flags {v w : BlockView} (h : SameBlock v w) (hf : v.block.flags ≤ 127) :
    w.block.flags ≤ 127 := by
  have : w.block.flags < 2 ^ 7 := by
    apply Nat.lt_pow_two_of_testBit
    intro i hi
    by_contra hc
    simp only [Bool.not_eq_false] at hc
    rcases h.2.2.2.1 i (by omega) hc with h1 | ⟨_, ⟨_, h1⟩ | ⟨_, h1⟩⟩
    · rw [Nat.testBit_lt_two_pow (Nat.lt_of_lt_of_le (show v.block.flags < 2 ^ 7 by omega)
        (Nat.pow_le_pow_right (by omega) hi))] at h1
      simp at h1
    · omega
    · omega
  omega

theorem restored_of_same {b w : BlockView} (h : SameBlock (copied b) w) : Restored b (copied w) :=
  ⟨h.1, h.2.1, h.2.2.1, fun hb => h.2.2.2.2.1 (.inr hb)⟩

theorem forall₂_restored {a ws : List BlockView} (h : List.Forall₂ SameBlock (a.map copied) ws) :
    List.Forall₂ Restored a (ws.map copied) := by
  induction a generalizing ws with
  | nil => cases h; exact .nil
  | cons b a ih =>
    cases h with
    | cons h1 h2 => exact .cons (restored_of_same h1) (ih h2)

theorem forall₂_append {R : BlockView → BlockView → Prop} {a b c d : List BlockView}
    (h : List.Forall₂ R a b) (h' : List.Forall₂ R c d) : List.Forall₂ R (a ++ c) (b ++ d) := by
  induction h with
  | nil => exact h'
  | cons h1 _ ih => exact .cons h1 ih

theorem restored_same {a b c : List BlockView} (h : List.Forall₂ Restored a b)
    (h' : List.Forall₂ SameBlock b c) : List.Forall₂ Restored a c := by
  induction h generalizing c with
  | nil => cases h'; exact .nil
  | cons h1 _ ih =>
    cases h' with
    | cons g1 g2 =>
      refine .cons ⟨g1.1.trans h1.1, g1.2.1.trans h1.2.1, fun i hi hb => g1.2.2.1 i hi (h1.2.2.1 i hi hb),
        fun hp => ?_⟩ (ih g2)
      exact (g1.2.2.2.2.1 (.inr (h1.2.1.trans hp))).trans (h1.2.2.2 hp)

theorem clear_or_one (f : Nat) (h : f.testBit 0 = false) : (f ||| 1) ^^^ ((f ||| 1) &&& 1) = f := by
  apply Nat.eq_of_testBit_eq
  intro i
  have h1 : (1 : Nat).testBit i = decide (i = 0) := by
    have := @Nat.testBit_two_pow 0 i
    rw [show (2 : Nat) ^ 0 = 1 from rfl] at this
    rw [this]; simp [eq_comm]
  rw [Nat.testBit_xor, Nat.testBit_and, or_one_testBit, h1]
  by_cases hi : i = 0
  · subst hi; simp [h]
  · simp [hi]

/-- Reassembly, for views of arrived fragments. -/
theorem assemble_arrived (v : View) (pre : List BlockView) (pb : BlockView)
    (post : List BlockView) (adu : Bytes) (hw : Whole v pre pb post adu) (sz : Nat) (hsz : 0 < sz)
    (hlt : sz < adu.length) (hn : adu.length < 2 ^ 63) (ws : List View)
    (hws : ∀ w ∈ ws, ∃ i out, i < calcNumFragments adu.length sz ∧
      Arrived v pre pb post adu sz (calcNumFragments adu.length sz) i out w)
    (hall : ∀ i < calcNumFragments adu.length sz, ∃ w ∈ ws, ∃ out,
      Arrived v pre pb post adu sz (calcNumFragments adu.length sz) i out w) :
    ∃ b out w', assemble ws = .bundle b (b.renderMax (adu.length + 1024)) ∧
      b.render = some (out, w') ∧ load out = some w' ∧
      w'.primary = { v.primary with blockLength := w'.primary.blockLength } ∧
      List.Forall₂ Restored v.blocks w'.blocks := by
  obtain ⟨k1, k2, k3⟩ := num_bounds adu.length sz hsz hn hlt
  generalize hk : calcNumFragments adu.length sz = k at *
  have hoff : ∀ i < k, i * sz < adu.length := fun i hi =>
    Nat.lt_of_le_of_lt (Nat.mul_le_mul_right sz (by omega)) k2
  have hpiece : ∀ w ∈ ws, IsPiece adu (idOf v.primary) w := by
    intro w hwm
    obtain ⟨i, out, hi, ha⟩ := hws w hwm
    exact arrived_piece hw hsz (hoff i hi) ha
  have hcov : ∀ x < adu.length, Covered ws x := by
    intro x hx
    have hq : x / sz < k := by
      rw [Nat.div_lt_iff_lt_mul hsz]; omega
    obtain ⟨w, hwm, out, ha⟩ := hall _ hq
    have hd := Nat.div_add_mod x sz
    have hm := Nat.mod_lt x hsz
    rw [Nat.mul_comm] at hd
    refine ⟨w, hwm, _, arrived_payload hw ha, ?_⟩
    rw [ha.primary]
    simp only [slice, List.length_take, List.length_drop]
    omega
  have hadu : adu ≠ [] := by intro h; rw [h] at hlt; simp at hlt
  have hpay := C39_payload_restored adu _ (by omega) ws hpiece hadu hcov
  match hwse : ws, hpay with
  | f :: fs, hpay =>
    have hval : validate (f :: fs) = true := by
      simp only [validate, List.all_eq_true, Bool.and_eq_true, decide_eq_true_eq]
      intro g hg
      exact ⟨(hpiece g hg).id.trans (hpiece f (by simp)).id.symm, (hpiece g hg).flag⟩
    obtain ⟨m1, m2⟩ := firstMin_spec f fs
    obtain ⟨l1, l2⟩ := lastMax_spec f fs
    generalize hF : firstMin f fs = F at *
    generalize hL : lastMax f fs = L at *
    -- the first fragment
    obtain ⟨i, outF, hi, aF⟩ := hws F m1
    have hi0 : i = 0 := by
      obtain ⟨w, hwm, out, ha⟩ := hall 0 k1
      have := m2 w hwm
      rw [aF.primary, ha.primary] at this
      simp only [Nat.zero_mul, Nat.le_zero] at this
      rcases Nat.mul_eq_zero.1 this with h | h
      · exact h
      · omega
    subst hi0
    -- the last fragment
    obtain ⟨j, outL, hj, aL⟩ := hws L l1
    have hjk : j + 1 = k := by
      obtain ⟨w, hwm, out, ha⟩ := hall (k - 1) (by omega)
      have := l2 w hwm
      rw [aL.primary, ha.primary] at this
      simp only at this
      have h1 : k - 1 ≤ j := Nat.le_of_mul_le_mul_right this hsz
      omega
    obtain ⟨a, y, b, b1, b2, b3, b4, b5, b6, b7⟩ := arrived_blocks hw aF
    obtain ⟨a', y', b', c1, c2, c3, c4, c5, c6, c7⟩ := arrived_blocks hw aL
    have hrepl : (pre.filter fun b => Replicated b || decide (0 = 0)) = pre :=
      List.filter_eq_self.2 fun _ _ => by simp
    have hrepl' : (post.filter fun b => Replicated b || decide (j + 1 = k)) = post :=
      List.filter_eq_self.2 fun _ _ => by simp [hjk]
    rw [hrepl] at b2
    rw [hrepl'] at c3
    have vF := ((C56_load_iff _ _).1 aF.wire).2.2.2.1
    have vL := ((C56_load_iff _ _).1 aL.wire).2.2.2.1
    have nadm : ∀ {i : Nat} {o : Bytes} {x : View}, Arrived v pre pb post adu sz k i o x →
        x.primary.flags.testBit 1 = false := by
      intro i o x hx
      rw [hx.primary]
      simp only [or_one_testBit, hw.notAdmin]
      rfl
    rw [nadm aF] at vF
    rw [nadm aL] at vL
    rw [b1] at vF
    rw [c1] at vL
    have hstart := startBlocks_eq adu a b y b4 fun c hc =>
      ⟨b7 c (by simp [hc]), (vF c (by simp [hc])).1, (vF c (by simp [hc])).2.1⟩
    have hend := endBlocks_eq a' b' y' c4 (fun c hc => c7 c (by simp [hc]))
      fun c hc => ⟨(vL c (by simp [hc])).1, (vL c (by simp [hc])).2.1⟩
    -- the bundle
    have hprim : copyPrimaryNoFragment F.primary =
        { v.primary with blockLength := F.primary.blockLength } := by
      rw [aF.primary]
      simp only [copyPrimaryNoFragment, clear_or_one _ hw.notFragment]
      obtain ⟨n1, n2⟩ := hw.noOffset
      rw [n1, n2]
    have hres : List.Forall₂ Restored v.blocks
        ((a.map copied ++ [payloadBlock y adu]) ++ b'.map copied) := by
      rw [hw.blocks, List.append_assoc, List.singleton_append]
      refine forall₂_append (forall₂_restored b2) (.cons ⟨?_, ?_, ?_, ?_⟩ (forall₂_restored c3))
      · rw [hw.payloadType]; exact b4
      · rw [hw.payloadBody]; rfl
      · exact b6.2.2.1
      · intro _; rw [hw.payload]; rfl
    have hready : ∀ c ∈ (a.map copied ++ [payloadBlock y adu]) ++ b'.map copied,
        c.deleted = false ∧ Ready false c := by
      have key : ∀ {l l' : List BlockView} (c : BlockView), (∀ b ∈ l, b ∈ pre ++ post) →
          List.Forall₂ SameBlock (l.map copied) l' → c ∈ l'.map copied →
          c.deleted = false ∧ Ready false c := by
        intro l l' c hl hf hc
        obtain ⟨d, hd, rfl⟩ := List.mem_map.1 hc
        obtain ⟨e, he, hr⟩ := forall₂_mem hf d hd
        obtain ⟨g, hg, rfl⟩ := List.mem_map.1 he
        obtain ⟨o1, o2, o3, o4, o5⟩ := hw.others g (hl g hg)
        have hfl := same_flags hr o5
        refine ⟨rfl, ?_⟩
        show Writable false d.block d.body
        have hbody : d.body = g.body := hr.2.1
        rw [hbody]
        exact writable_congr hr.1 (by omega) (fun hp => hr.2.2.2.2.1 (.inr hp)) o4
      intro c hc
      simp only [List.mem_append, List.mem_singleton] at hc
      rcases hc with (hc | rfl) | hc
      · exact key c (fun b hb => by simp [hb]) b2 hc
      · refine ⟨rfl, ?_⟩
        have hfl := same_flags b6 (show (payloadBlock pb (slice adu sz 0)).block.flags ≤ 127 from
          hw.payloadFlags)
        refine ⟨?_, ?_, by simp, ?_⟩
        · simp only [payloadBlock]; omega
        · simp only [payloadBlock]; omega
        · simp only [payloadBlock, b4, IsExtType]; decide
      · exact key c (fun b hb => by simp [hb]) c3 hc
    have hInR := (hw.fits 0 (by omega)).1
    have hnf : ¬ Hdtn.Bpv6Primary.Spec.IsFragment v.primary := by
      intro h
      have := hw.notFragment
      rw [Nat.testBit_zero] at this
      simp only [decide_eq_false_iff_not] at this
      exact this h
    have hInR' : Hdtn.Bpv6Primary.Spec.InRange { v.primary with blockLength := F.primary.blockLength } := by
      obtain ⟨q1, q2⟩ := hInR
      refine ⟨?_, ?_⟩
      · refine Nat.lt_of_le_of_lt ?_ q1
        simp only [copyPrimaryFragment]
        exact Nat.left_le_or
      · intro x hx
        have hnf' : ¬ Hdtn.Bpv6Primary.Spec.IsFragment
            { v.primary with blockLength := F.primary.blockLength } := hnf
        simp only [Hdtn.Bpv6Primary.Spec.tailFields, if_neg hnf', List.append_nil] at hx
        refine q2 x ?_
        simp only [Hdtn.Bpv6Primary.Spec.tailFields, copyPrimaryFragment]
        exact List.mem_append_left _ hx
    obtain ⟨out, w', r1, r2, r3, r4, r5⟩ := C56_render_reload
      ⟨copyPrimaryNoFragment F.primary, [], true, (a.map copied ++ [payloadBlock y adu]) ++ b'.map copied⟩
      (by
        rw [hprim]
        refine ⟨hInR', ?_, ?_⟩
        · obtain ⟨o, ho, _⟩ := C38_whole_bundle_never_refused
            { v.primary with blockLength := F.primary.blockLength } hInR' hnf
          simp only [ho, Option.isSome_some]
        · intro _; exact hw.noOffset)
      ⟨payloadBlock y adu, by simp, rfl⟩
      (fun c hc _ => by
        have : (copyPrimaryNoFragment F.primary).flags.testBit 1 = false := by
          rw [hprim]; exact hw.notAdmin
        rw [this]
        exact (hready c hc).2)
    refine ⟨_, out, w', ?_, r1, r3, ?_, ?_⟩
    · unfold assemble
      rw [hval, hpay]
      simp only [Bool.true_eq_false, if_false, hF, hL, b1, c1, hstart, hend]
    · rw [r4]
      simp only [hprim]
    · rw [List.filter_eq_self.2 fun c hc => by simp [(hready c hc).1]] at r5
      exact restored_same hres r5

/-- C39: any list of views of rendered fragments, in any order and with repetitions, in which every
fragment occurs, is assembled to a bundle; written and loaded, it has the primary block and the blocks
of the original (`Restored`), the payload included. The output fits if it does not exceed the payload by
more than 1024 bytes. -/
theorem C39_bundle_restored_partial (v : View) (pre : List BlockView) (pb : BlockView)
    (post : List BlockView) (adu : Bytes) (hw : Whole v pre pb post adu) (sz : Nat) (hsz : 0 < sz)
    (hlt : sz < adu.length) (hn : adu.length < 2 ^ 63) (renderedSize : Nat) :
    ∃ fs, fragment v renderedSize sz = some fs ∧ ∀ ws : List View,
      (∀ w ∈ ws, ∃ f ∈ fs, ∃ out, f.1.render = some (out, w)) →
      (∀ f ∈ fs, ∃ w ∈ ws, ∃ out, f.1.render = some (out, w)) →
      ∃ b out w', assemble ws = .bundle b (b.renderMax (adu.length + 1024)) ∧
        b.render = some (out, w') ∧ load out = some w' ∧
        w'.primary = { v.primary with blockLength := w'.primary.blockLength } ∧
        List.Forall₂ Restored v.blocks w'.blocks ∧
        (out.length ≤ adu.length + 1024 → b.renderMax (adu.length + 1024) = .done out w') := by
  obtain ⟨k1, k2, k3⟩ := num_bounds adu.length sz hsz hn hlt
  have harr : ∀ i < calcNumFragments adu.length sz, ∀ out w,
      (pieceView v pre pb post adu sz (calcNumFragments adu.length sz) i).render = some (out, w) →
      Arrived v pre pb post adu sz (calcNumFragments adu.length sz) i out w := by
    intro i hi out w hr
    obtain ⟨out', w', r1, _, r3⟩ := pieceView_arrives v pre pb post adu hw sz hn
      (calcNumFragments adu.length sz) i (Nat.lt_of_le_of_lt (Nat.mul_le_mul_right sz (by omega)) k2)
    rw [r1] at hr
    simp only [Option.some.injEq, Prod.mk.injEq] at hr
    obtain ⟨rfl, rfl⟩ := hr
    exact r3
  refine ⟨_, fragment_eq v pre pb post adu hw sz hsz hn hlt renderedSize, fun ws h1 h2 => ?_⟩
  obtain ⟨b, out, w', a1, a2, a3, a4, a5⟩ := assemble_arrived v pre pb post adu hw sz hsz hlt hn ws
    (by
      intro w hwm
      obtain ⟨f, hf, out, hr⟩ := h1 w hwm
      obtain ⟨i, hi, rfl⟩ := List.mem_map.1 hf
      rw [List.mem_range] at hi
      exact ⟨i, out, hi, harr i hi out w hr⟩)
    (by
      intro i hi
      obtain ⟨w, hwm, out, hr⟩ := h2 _ (List.mem_map.2 ⟨i, List.mem_range.2 hi, rfl⟩)
      exact ⟨w, hwm, out, harr i hi out w hr⟩)
  refine ⟨b, out, w', a1, a2, a3, a4, a5, fun hle => ?_⟩
  simp only [View.renderMax, a2, if_neg (Nat.not_lt.2 hle)]

/-- C40: fragments of different bundles, and bundles that are no fragments, are never assembled. -/
theorem C40_mixed_refused (fs : List View) (f g : View) (hf : f ∈ fs) (hg : g ∈ fs)
    (h : ¬ SameBundle f.primary g.primary ∨ f.primary.flags.testBit 0 = false) :
    assemble fs = .refused := by
  have hv : validate fs = false := by
    rw [Bool.eq_false_iff]
    intro hv
    cases fs with
    | nil => simp at hf
    | cons a fs =>
      simp only [validate, List.all_eq_true, Bool.and_eq_true, decide_eq_true_eq] at hv
      rcases h with h | h
      · have h1 := (hv f hf).1
        have h2 := (hv g hg).1
        rw [← h2] at h1
        simp only [idOf, Id.mk.injEq] at h1
        exact h h1
      · rw [(hv f hf).2] at h
        simp at h
  simp only [assemble, hv, if_true]

/-! ### The fragment manager -/

theorem idOf_iff (p q : Primary) : idOf p = idOf q ↔ SameBundle p q := by
  simp [idOf, SameBundle]

theorem add_sound (m : Manager) (d : Bytes) (w : View) (hd : Sound d w) (hm : Holds m (idOf w.primary)) :
    ∃ set, Canonical set ∧
      (∀ x, Covers set x ↔ Covered ((m (idOf w.primary)).bundles ++ [w]) x) ∧
      ((∀ x < w.primary.totalAduLength, Covered ((m (idOf w.primary)).bundles ++ [w]) x) →
        m.add d = (.complete (assemble ((m (idOf w.primary)).bundles ++ [w])),
          Function.update m (idOf w.primary) ⟨[], []⟩)) ∧
      (¬ (∀ x < w.primary.totalAduLength, Covered ((m (idOf w.primary)).bundles ++ [w]) x) →
        m.add d = (.stored, Function.update m (idOf w.primary)
          ⟨(m (idOf w.primary)).bundles ++ [w], set⟩)) := by
  obtain ⟨h1, h2, h3, h4, h5, data, hp, hne, hlt⟩ := hd
  have hpos : 0 < data.length := List.length_pos_iff.2 hne
  obtain ⟨v1, v2, v3, v4, v5⟩ := (C56_load_iff _ _).1 h1
  have hread : Bpv6Primary.read d = some (w.primary, (w.blocks.map (·.raw)).flatten) :=
    (Bpv6Primary.C38_decode_iff _ _ _).2 ⟨_, v1, v2⟩
  have hadd : addBundle d = .ok w data.length := by
    have := (C56_render_unchanged d w h1 h2 (d.length + 1024) (by omega)).1
    simp only [addBundle, h1, payloadSize_payload hp, this]
  have hfrag : w.primary.isFragment = true := by rw [Primary.isFragment, h3]
  obtain ⟨_, m1, m2⟩ := hm
  have hend : (w.primary.fragmentOffset + data.length + 2 ^ 64 - 1) % 2 ^ 64 =
      w.primary.fragmentOffset + data.length - 1 := by omega
  have htot : (w.primary.totalAduLength + 2 ^ 64 - 1) % 2 ^ 64 = w.primary.totalAduLength - 1 := by omega
  obtain ⟨c1, c2, _, _⟩ := C07_insert _ ⟨w.primary.fragmentOffset,
    w.primary.fragmentOffset + data.length - 1⟩ m1 ⟨by simp only; omega, by simp only; omega⟩
  have hcov : ∀ x, Covers (insertFragment (m (idOf w.primary)).set ⟨w.primary.fragmentOffset,
      w.primary.fragmentOffset + data.length - 1⟩).1 x ↔
      Covered ((m (idOf w.primary)).bundles ++ [w]) x := by
    intro x
    rw [c2, m2]
    constructor
    · rintro (⟨g, hg, rest⟩ | hx)
      · exact ⟨g, by simp [hg], rest⟩
      · refine ⟨w, by simp, data, hp, hx.1, ?_⟩
        have := hx.2
        simp only at this
        omega
    · rintro ⟨g, hg, e, he, he1, he2⟩
      simp only [List.mem_append, List.mem_singleton] at hg
      rcases hg with hg | rfl
      · exact .inl ⟨g, hg, e, he, he1, he2⟩
      · have := payload_unique he hp
        subst this
        exact .inr ⟨he1, by simp only; omega⟩
  have hce := C08_containsEntirely _ ⟨0, w.primary.totalAduLength - 1⟩ c1 ⟨by simp, by simp only; omega⟩
  have hiff : (∀ x, Frag.Has ⟨0, w.primary.totalAduLength - 1⟩ x →
      Covers (insertFragment (m (idOf w.primary)).set ⟨w.primary.fragmentOffset,
      w.primary.fragmentOffset + data.length - 1⟩).1 x) ↔
      ∀ x < w.primary.totalAduLength, Covered ((m (idOf w.primary)).bundles ++ [w]) x := by
    constructor
    · intro h x hx
      exact (hcov x).1 (h x ⟨by simp, by simp only; omega⟩)
    · intro h x hx
      refine (hcov x).2 (h x ?_)
      have := hx.2
      simp only at this
      omega
  rw [hiff] at hce
  refine ⟨_, c1, hcov, ?_, ?_⟩
  · intro h
    simp only [Manager.add, hread, hfrag, hadd, hend, htot, hce.2 h, Bool.true_eq_false, if_false]
  · intro h
    have hf : containsEntirely (insertFragment (m (idOf w.primary)).set ⟨w.primary.fragmentOffset,
        w.primary.fragmentOffset + data.length - 1⟩).1 ⟨0, w.primary.totalAduLength - 1⟩ = false := by
      rw [Bool.eq_false_iff]
      exact fun hc => h (hce.1 hc)
    simp only [Manager.add, hread, hfrag, hadd, hend, htot, hf, Bool.true_eq_false, if_false, if_true]

/-- C40: for sound fragments, the manager assembles as soon as every byte of the unit, whose length is
the one that the newest fragment gives, is carried by a fragment it holds, and not before. It never
mixes fragments of different bundles, and forgets those that it assembled. The full claim, for all input,
is false: see `C40_empty_fragment_completes` and the theorems behind it. -/
theorem C40_manager_partial (m : Manager) (d : Bytes) (w : View) (hd : Sound d w)
    (hm : ∀ id, Holds m id) :
    (∀ g ∈ (m (idOf w.primary)).bundles, SameBundle g.primary w.primary) ∧
    (((∀ x < w.primary.totalAduLength, Covered ((m (idOf w.primary)).bundles ++ [w]) x) ∧
        (m.add d).1 = .complete (assemble ((m (idOf w.primary)).bundles ++ [w])) ∧
        (m.add d).2 (idOf w.primary) = ⟨[], []⟩) ∨
      (∃ x < w.primary.totalAduLength, ¬ Covered ((m (idOf w.primary)).bundles ++ [w]) x) ∧
        (m.add d).1 = .stored ∧
        ((m.add d).2 (idOf w.primary)).bundles = (m (idOf w.primary)).bundles ++ [w]) ∧
      (∀ p, ¬ SameBundle p w.primary → (m.add d).2 (idOf p) = m (idOf p)) ∧
      ∀ id, Holds (m.add d).2 id := by
  refine ⟨fun g hg => (idOf_iff _ _).1 ((hm _).1 g hg), ?_⟩
  obtain ⟨set, s1, s2, s3, s4⟩ := add_sound m d w hd (hm _)
  by_cases h : ∀ x < w.primary.totalAduLength, Covered ((m (idOf w.primary)).bundles ++ [w]) x
  · rw [s3 h]
    refine ⟨.inl ⟨h, rfl, by simp⟩, fun p hp => by
      rw [← idOf_iff] at hp; simp [hp], fun id => ?_⟩
    by_cases hid : id = idOf w.primary
    · subst hid
      refine ⟨by simp, by simp [canonical_nil], fun x => ?_⟩
      simp [covers_nil, Covered]
    · have := hm id
      simpa [Holds, hid] using this
  · rw [s4 h]
    refine ⟨.inr ⟨?_, rfl, by simp⟩, fun p hp => by
      rw [← idOf_iff] at hp; simp [hp], fun id => ?_⟩
    · push Not at h
      exact h
    · by_cases hid : id = idOf w.primary
      · subst hid
        refine ⟨?_, by simpa using s1, fun x => by simpa using s2 x⟩
        have := (hm (idOf w.primary)).1
        simp only [Function.update_self, List.mem_append, List.mem_singleton]
        rintro g (hg | rfl)
        · exact this g hg
        · rfl
      · have := hm id
        simpa [Holds, hid] using this

theorem holds_empty (id : Id) : Holds Manager.empty id :=
  ⟨by simp [Manager.empty], canonical_nil, fun x => by simp [Manager.empty, covers_nil, Covered]⟩

theorem update_ite (m : Manager) (i j : Id) (h : j ≠ i) (c : Bool) (x y : Added) (a b : Info) :
    (if c = false then (x, Function.update m i a) else (y, Function.update m i b)).2 j = m j := by
  cases c <;> simp [h]

theorem add_foreign (m : Manager) (q : Primary) (d : Bytes) (h : Foreign q d) :
    (m.add d).2 (idOf q) = m (idOf q) := by
  cases hr : Bpv6Primary.read d with
  | none => simp only [Manager.add, hr]
  | some pr =>
    obtain ⟨p, rest⟩ := pr
    have hne : idOf p ≠ idOf q := fun hc => h p rest hr ((idOf_iff _ _).1 hc)
    cases hf : p.isFragment with
    | false => simp only [Manager.add, hr, hf, if_true]
    | true =>
      cases ha : addBundle d with
      | bad => simp only [Manager.add, hr, hf, ha, Bool.true_eq_false, if_false]
      | overflow => simp only [Manager.add, hr, hf, ha, Bool.true_eq_false, if_false]
      | ok v n =>
        simp only [Manager.add, hr, hf, ha, Bool.true_eq_false, if_false]
        exact update_ite m _ _ hne.symm _ _ _ _ _

theorem arrived_sound {v : View} {pre : List BlockView} {pb : BlockView} {post : List BlockView}
    {adu : Bytes} (hw : Whole v pre pb post adu) {sz k i : Nat} (hsz : 0 < sz) (hn : adu.length < 2 ^ 63)
    (hi : i * sz < adu.length) {out : Bytes} {w : View} (h : Arrived v pre pb post adu sz k i out w) :
    Sound out w := by
  have hp := arrived_piece hw hsz hi h
  obtain ⟨b, _, hpay, hne, hle, _, _⟩ := piece_facts hp (by omega)
  refine ⟨h.wire, ?_, hp.flag, by rw [hp.total]; omega, by rw [hp.total]; omega,
    _, hpay, hne, by omega⟩
  intro c hc
  obtain ⟨e, he, hs⟩ := forall₂_mem h.blocks c hc
  have hprop : e.dirty = true ∧ e.block.flags ≤ 127 := by
    simp only [pieceView, List.mem_append, List.mem_cons, List.mem_map, List.mem_filter] at he
    rcases he with ⟨g, ⟨hg, _⟩, rfl⟩ | rfl | ⟨g, ⟨hg, _⟩, rfl⟩
    · exact ⟨rfl, (hw.others g (by simp [hg])).2.2.2.2⟩
    · exact ⟨rfl, hw.payloadFlags⟩
    · exact ⟨rfl, (hw.others g (by simp [hg])).2.2.2.2⟩
  have hfl := same_flags hs hprop.2
  refine ⟨hfl, ?_⟩
  rw [hs.2.2.2.2.2 hprop.1]
  simp [Bpv6Canonical.serialize, Bpv6Canonical.flagBytes, hfl]

/-- C39: fragments that reach the manager as bytes, in any order, repeated, and mixed with any other
input, are kept until the last one missing arrives, and then the bundle is assembled. -/
theorem C39_manager_restores_partial (v : View) (pre : List BlockView) (pb : BlockView)
    (post : List BlockView) (adu : Bytes) (hw : Whole v pre pb post adu) (sz : Nat) (hsz : 0 < sz)
    (hlt : sz < adu.length) (hn : adu.length < 2 ^ 63) (renderedSize : Nat)
    (fs : List (View × Rendered)) (hfs : fragment v renderedSize sz = some fs)
    (m : Manager) (hm : m (idOf v.primary) = ⟨[], []⟩) (received : List Bytes)
    (hrec : ∀ d ∈ received, (∃ f ∈ fs, WrittenAs f.1 d) ∨ Foreign v.primary d)
    (hmiss : ∃ f ∈ fs, ∀ d ∈ received, ¬ WrittenAs f.1 d)
    (d : Bytes) (hd : ∃ f ∈ fs, WrittenAs f.1 d) :
    let m' := received.foldl (fun m d => (m.add d).2) m
    ((∃ f ∈ fs, ¬ WrittenAs f.1 d ∧ ∀ e ∈ received, ¬ WrittenAs f.1 e) → (m'.add d).1 = .stored) ∧
      ((∀ f ∈ fs, WrittenAs f.1 d ∨ ∃ e ∈ received, WrittenAs f.1 e) →
        (m'.add d).2 (idOf v.primary) = ⟨[], []⟩ ∧
        ∃ b out w', (m'.add d).1 = .complete (.bundle b (b.renderMax (adu.length + 1024))) ∧
          b.render = some (out, w') ∧ load out = some w' ∧
          w'.primary = { v.primary with blockLength := w'.primary.blockLength } ∧
          List.Forall₂ Restored v.blocks w'.blocks ∧
          (out.length ≤ adu.length + 1024 → b.renderMax (adu.length + 1024) = .done out w')) := by
  obtain ⟨k1, k2, k3⟩ := num_bounds adu.length sz hsz hn hlt
  rw [fragment_eq v pre pb post adu hw sz hsz hn hlt renderedSize] at hfs
  simp only [Option.some.injEq] at hfs
  subst hfs
  generalize hk : calcNumFragments adu.length sz = k at *
  have hoff : ∀ i < k, i * sz < adu.length := fun i hi =>
    Nat.lt_of_le_of_lt (Nat.mul_le_mul_right sz (by omega)) k2
  -- fragments by index
  have hex : ∀ {P : View → Prop}, (∃ f ∈ (List.range k).map fun i =>
      (pieceView v pre pb post adu sz k i, (pieceView v pre pb post adu sz k i).renderMax renderedSize),
      P f.1) ↔ ∃ i < k, P (pieceView v pre pb post adu sz k i) := by
    intro P
    constructor
    · rintro ⟨f, hf, hP⟩
      obtain ⟨i, hi, rfl⟩ := List.mem_map.1 hf
      exact ⟨i, List.mem_range.1 hi, hP⟩
    · rintro ⟨i, hi, hP⟩
      exact ⟨_, List.mem_map.2 ⟨i, List.mem_range.2 hi, rfl⟩, hP⟩
  have harr : ∀ i < k, ∀ out w, (pieceView v pre pb post adu sz k i).render = some (out, w) →
      Arrived v pre pb post adu sz k i out w := by
    intro i hi out w hr
    obtain ⟨out', w', r1, _, r3⟩ := pieceView_arrives v pre pb post adu hw sz hn k i (hoff i hi)
    rw [r1] at hr
    simp only [Option.some.injEq, Prod.mk.injEq] at hr
    obtain ⟨rfl, rfl⟩ := hr
    exact r3
  have hid : ∀ {i out w}, Arrived v pre pb post adu sz k i out w → idOf w.primary = idOf v.primary := by
    intro i out w h
    rw [h.primary]; rfl
  have htotal : ∀ {i out w}, Arrived v pre pb post adu sz k i out w →
      w.primary.totalAduLength = adu.length := by
    intro i out w h
    rw [h.primary]
  -- what the manager holds
  let Inv : Manager → List Bytes → Prop := fun m msgs =>
    Holds m (idOf v.primary) ∧
      (∀ w ∈ (m (idOf v.primary)).bundles, ∃ i < k, ∃ e ∈ msgs,
        (pieceView v pre pb post adu sz k i).render = some (e, w)) ∧
      ∀ i < k, ∀ e ∈ msgs, ∀ w, (pieceView v pre pb post adu sz k i).render = some (e, w) →
        w ∈ (m (idOf v.primary)).bundles
  -- one more fragment
  have hstep : ∀ (m : Manager) (msgs : List Bytes), Inv m msgs → ∀ i < k, ∀ e w,
      (pieceView v pre pb post adu sz k i).render = some (e, w) →
      ((∃ j < k, ∀ e' ∈ msgs ++ [e], ¬ WrittenAs (pieceView v pre pb post adu sz k j) e') →
        (m.add e).1 = .stored ∧ Inv (m.add e).2 (msgs ++ [e])) ∧
      ((∀ j < k, ∃ e' ∈ msgs ++ [e], WrittenAs (pieceView v pre pb post adu sz k j) e') →
        (m.add e).2 (idOf v.primary) = ⟨[], []⟩ ∧
        ∃ b out w', (m.add e).1 = .complete (.bundle b (b.renderMax (adu.length + 1024))) ∧
          b.render = some (out, w') ∧ load out = some w' ∧
          w'.primary = { v.primary with blockLength := w'.primary.blockLength } ∧
          List.Forall₂ Restored v.blocks w'.blocks) := by
    intro m msgs ⟨i1, i2, i3⟩ i hi e w hr
    have ha := harr i hi e w hr
    have hsound := arrived_sound hw hsz hn (hoff i hi) ha
    obtain ⟨set, s1, s2, s3, s4⟩ := add_sound m e w hsound (by rw [hid ha]; exact i1)
    rw [hid ha, htotal ha] at s3 s4
    rw [hid ha] at s2
    have hmem : ∀ w' ∈ (m (idOf v.primary)).bundles ++ [w], ∃ j < k, ∃ e' ∈ msgs ++ [e],
        (pieceView v pre pb post adu sz k j).render = some (e', w') := by
      intro w' hw'
      simp only [List.mem_append, List.mem_singleton] at hw'
      rcases hw' with hw' | rfl
      · obtain ⟨j, hj, e', he', hre⟩ := i2 w' hw'
        exact ⟨j, hj, e', by simp [he'], hre⟩
      · exact ⟨i, hi, e, by simp, hr⟩
    have hmem' : ∀ j < k, ∀ e' ∈ msgs ++ [e], ∀ w',
        (pieceView v pre pb post adu sz k j).render = some (e', w') →
        w' ∈ (m (idOf v.primary)).bundles ++ [w] := by
      intro j hj e' he' w' hr'
      simp only [List.mem_append, List.mem_singleton] at he'
      rcases he' with he' | rfl
      · exact List.mem_append_left _ (i3 j hj e' he' w' hr')
      · have a1 := (harr j hj _ _ hr').wire
        rw [ha.wire] at a1
        simp only [Option.some.injEq] at a1
        simp [a1]
    constructor
    · rintro ⟨j, hj, hno⟩
      have hnot : ¬ ∀ x < adu.length, Covered ((m (idOf v.primary)).bundles ++ [w]) x := by
        intro hc
        obtain ⟨w', hw', data, hp, hx1, hx2⟩ := hc (j * sz) (hoff j hj)
        obtain ⟨j', hj', e', he', hre⟩ := hmem w' hw'
        have ha' := harr j' hj' e' w' hre
        have := payload_unique hp (arrived_payload hw ha')
        subst this
        rw [ha'.primary] at hx1 hx2
        simp only [slice, List.length_take, List.length_drop] at hx1 hx2
        have h1 : j' ≤ j := Nat.le_of_mul_le_mul_right hx1 hsz
        have h2 : j < j' + 1 := by
          apply Nat.lt_of_mul_lt_mul_right (a := sz)
          rw [Nat.add_mul]
          omega
        have : j = j' := by omega
        subst this
        exact hno e' he' ⟨w', hre⟩
      rw [s4 hnot]
      refine ⟨rfl, ⟨?_, by simpa using s1, fun x => by simpa using s2 x⟩, ?_, ?_⟩
      · simp only [Function.update_self, List.mem_append, List.mem_singleton]
        rintro g (hg | rfl)
        · exact i1.1 g hg
        · exact hid ha
      · simpa using hmem
      · simpa using hmem'
    · intro hall
      obtain ⟨b, out, w', a1, a2, a3, a4, a5⟩ := assemble_arrived v pre pb post adu hw sz hsz hlt hn
        ((m (idOf v.primary)).bundles ++ [w])
        (by
          intro w' hw'
          obtain ⟨j, hj, e', he', hre⟩ := hmem w' hw'
          rw [hk]
          exact ⟨j, e', hj, harr j hj e' w' hre⟩)
        (by
          rw [hk]
          intro j hj
          obtain ⟨e', he', w', hre⟩ := hall j hj
          exact ⟨w', hmem' j hj e' he' w' hre, e', harr j hj e' w' hre⟩)
      have hcov : ∀ x < adu.length, Covered ((m (idOf v.primary)).bundles ++ [w]) x := by
        intro x hx
        have hq : x / sz < k := by
          rw [Nat.div_lt_iff_lt_mul hsz]; omega
        obtain ⟨e', he', w', hre⟩ := hall _ hq
        have ha' := harr _ hq e' w' hre
        have hd := Nat.div_add_mod x sz
        have hmo := Nat.mod_lt x hsz
        rw [Nat.mul_comm] at hd
        refine ⟨w', hmem' _ hq e' he' w' hre, _, arrived_payload hw ha', ?_⟩
        rw [ha'.primary]
        simp only [slice, List.length_take, List.length_drop]
        omega
      rw [s3 hcov]
      exact ⟨by simp, b, out, w', by rw [a1], a2, a3, a4, a5⟩
  -- all that was received
  have hrun : ∀ msgs : List Bytes, (∀ d ∈ msgs, (∃ i < k, WrittenAs (pieceView v pre pb post adu sz k i) d) ∨
      Foreign v.primary d) →
      (∃ j < k, ∀ e ∈ msgs, ¬ WrittenAs (pieceView v pre pb post adu sz k j) e) →
      Inv (msgs.foldl (fun m d => (m.add d).2) m) msgs := by
    intro msgs
    induction msgs using List.reverseRecOn with
    | nil =>
      intro _ _
      refine ⟨?_, ?_, ?_⟩
      · simp only [List.foldl_nil, Holds, hm]
        exact ⟨by simp, canonical_nil, fun x => by simp [covers_nil, Covered]⟩
      · simp [hm]
      · simp
    | append_singleton msgs e ih =>
      intro h1 h2
      obtain ⟨j, hj, hno⟩ := h2
      have hI := ih (fun d hd => h1 d (by simp [hd])) ⟨j, hj, fun e he => hno e (by simp [he])⟩
      rw [List.foldl_append, List.foldl_cons, List.foldl_nil]
      rcases h1 e (by simp) with ⟨i, hi, w, hr⟩ | hf
      · exact ((hstep _ _ hI i hi e w hr).1 ⟨j, hj, hno⟩).2
      · obtain ⟨i1, i2, i3⟩ := hI
        refine ⟨?_, ?_, ?_⟩
        · rw [Holds, add_foreign _ _ _ hf]; exact i1
        · rw [add_foreign _ _ _ hf]
          intro w hw
          obtain ⟨i, hi, e', he', hr⟩ := i2 w hw
          exact ⟨i, hi, e', by simp [he'], hr⟩
        · rw [add_foreign _ _ _ hf]
          intro i hi e' he' w hr
          simp only [List.mem_append, List.mem_singleton] at he'
          rcases he' with he' | rfl
          · exact i3 i hi e' he' w hr
          · exfalso
            have ha := harr i hi _ _ hr
            obtain ⟨v1, v2, _⟩ := (C56_load_iff _ _).1 ha.wire
            exact hf _ _ ((Bpv6Primary.C38_decode_iff _ _ _).2 ⟨_, v1, v2⟩) ((idOf_iff _ _).1 (hid ha))
  have hI := hrun received
    (fun d hd => (hrec d hd).imp (fun h => (hex (P := fun f => WrittenAs f d)).1 h) id)
    ((hex (P := fun f => ∀ e ∈ received, ¬ WrittenAs f e)).1 hmiss)
  obtain ⟨i, hi, w, hr⟩ := (hex (P := fun f => WrittenAs f d)).1 hd
  obtain ⟨t1, t2⟩ := hstep _ _ hI i hi d w hr
  intro m'
  refine ⟨?_, ?_⟩
  · intro h
    obtain ⟨j, hj, n1, n2⟩ := (hex (P := fun f => ¬ WrittenAs f d ∧ ∀ e ∈ received, ¬ WrittenAs f e)).1 h
    refine (t1 ⟨j, hj, fun e he => ?_⟩).1
    simp only [List.mem_append, List.mem_singleton] at he
    rcases he with he | rfl
    · exact n2 e he
    · exact n1
  · intro h
    obtain ⟨r1, b, out, w', r2, r3, r4, r5, r6⟩ := t2 (by
      intro j hj
      rcases h _ (List.mem_map.2 ⟨j, List.mem_range.2 hj, rfl⟩) with h | ⟨e, he, h⟩
      · exact ⟨d, by simp, h⟩
      · exact ⟨e, by simp [he], h⟩)
    refine ⟨r1, b, out, w', r2, r3, r4, r5, r6, fun hle => ?_⟩
    simp only [View.renderMax, r3, if_neg (Nat.not_lt.2 hle)]

/-! ### Counterexamples and instances -/

/-- A bundle with three bytes of payload between a previous-hop and an age block. -/
def whole : Bytes :=
  [6, 16, 12, 1, 1, 2, 1, 0, 0, 0, 0, 9, 1, 60, 0] ++ [5, 16, 8, 105, 112, 110, 0, 50, 46, 51, 0] ++
    [1, 0, 3, 104, 105, 33] ++ [20, 9, 2, 130, 44]

def wholeHop : BlockView :=
  ⟨⟨5, 16, [105, 112, 110, 0, 50, 46, 51, 0]⟩, .ext (.previousHop ⟨2, 3⟩),
    [5, 16, 8, 105, 112, 110, 0, 50, 46, 51, 0], false, false⟩

def wholePayload : BlockView := ⟨⟨1, 0, [104, 105, 33]⟩, .plain, [1, 0, 3, 104, 105, 33], false, false⟩

def wholeAge : BlockView := ⟨⟨20, 9, [130, 44]⟩, .ext (.age 300), [20, 9, 2, 130, 44], false, false⟩

def wholeView : View :=
  ⟨⟨16, 12, ⟨1, 1⟩, ⟨2, 1⟩, ⟨0, 0⟩, ⟨0, 0⟩, 9, 1, 60, 0, 0⟩,
    [6, 16, 12, 1, 1, 2, 1, 0, 0, 0, 0, 9, 1, 60, 0], false, [wholeHop, wholePayload, wholeAge]⟩

theorem wholeView_load : load whole = some wholeView := by decide +kernel

/-- The hypotheses of the theorems about fragments hold of this bundle. -/
theorem wholeView_whole : Whole wholeView [wholeHop] wholePayload [wholeAge] [104, 105, 33] := by
  have hl := ((C56_load_iff whole wholeView).1 wholeView_load).2.2.2.1
  refine ⟨rfl, rfl, rfl, by decide, rfl, ?_, by decide, by decide, by decide, ⟨rfl, rfl⟩, ?_⟩
  · intro b hb
    simp only [List.cons_append, List.nil_append, List.mem_cons, List.not_mem_nil, or_false] at hb
    rcases hb with rfl | rfl
    · have := hl wholeHop (by simp [wholeView])
      refine ⟨by decide, this.1, this.2.1, ⟨by decide, rfl, ⟨by decide, by decide⟩, ?_⟩, by decide⟩
      intro d h1 _
      have : d.length = 8 := by
        have h2 : (Bpv6Canonical.Ext.previousHop ⟨2, 3⟩).size = some 8 := by decide +kernel
        rw [h2] at h1
        simpa using h1.symm
      exact ⟨by omega, by show d.length ≤ 45; omega⟩
    · have := hl wholeAge (by simp [wholeView])
      refine ⟨by decide, this.1, this.2.1,
        ⟨by decide, rfl, by show (300 : Nat) < 2 ^ 64; omega, ?_⟩, by decide⟩
      intro d h1 _
      have : d.length = 2 := by
        have h2 : (Bpv6Canonical.Ext.age 300).size = some 2 := by decide +kernel
        rw [h2] at h1
        simpa using h1.symm
      exact ⟨by omega, trivial⟩
  · intro offset ho
    simp only [List.length_cons, List.length_nil] at ho
    have h3 : offset = 0 ∨ offset = 1 ∨ offset = 2 := by omega
    rcases h3 with rfl | rfl | rfl
    all_goals
      refine ⟨⟨by decide, ?_⟩, by decide +kernel⟩
      decide +kernel

/-- Fragments of two bytes: the first carries the previous-hop block, both carry the age block, which
is marked for replication. Together with their reassembly. -/
example : (fragment wholeView 100 2).map (fun fs => fs.map fun f =>
      (f.1.primary.fragmentOffset, f.1.blocks.map fun b => (b.block.typeCode, b.block.data.length))) =
    some [(0, [(5, 8), (1, 2), (20, 2)]), (2, [(1, 1), (20, 2)])] := by decide +kernel

/-- C39: the buffer for a fragment has the size of the original; a fragment that carries almost all of a
small payload needs more, because its primary block has two more fields, and is written past the end. -/
theorem C39_fragment_overflows_buffer :
    (fragment wholeView whole.length 2).map (fun fs => fs.map fun f =>
      (f.1.size, match f.2 with | .overflow => true | _ => false)) =
      some [(some 38, true), (some 26, false)] ∧ whole.length = 37 := by decide +kernel

/-- The bytes of a fragment of another bundle: one payload block, at `offset` of three bytes. -/
def piece (offset : Bytes) (data : Bytes) : Bytes :=
  [6, 17, UInt8.ofNat (13 + offset.length), 1, 1, 2, 1, 0, 0, 0, 0, 9, 1, 60, 0] ++ offset ++ [3] ++
    [1, 8, UInt8.ofNat data.length] ++ data

/-- The payload of the bundle that an `add` assembled. -/
def assembledPayload : Added → Option Bytes
  | .complete (.bundle v _) => (v.byType 1).head?.map fun b => b.block.data
  | _ => none

/-- C40: `Assemble` takes one fragment with the first of three bytes for the whole. -/
theorem C40_incomplete_accepted :
    ∃ w, load (piece [0] [104]) = some w ∧ w.primary.totalAduLength = 3 ∧
      assemblePayload [w] = .done [104, 0, 0] := by
  refine ⟨⟨⟨17, 14, ⟨1, 1⟩, ⟨2, 1⟩, ⟨0, 0⟩, ⟨0, 0⟩, 9, 1, 60, 0, 3⟩,
    [6, 17, 14, 1, 1, 2, 1, 0, 0, 0, 0, 9, 1, 60, 0, 0, 3], false,
    [⟨⟨1, 8, [104]⟩, .plain, [1, 8, 1, 104], false, false⟩]⟩, ?_, rfl, ?_⟩ <;> decide +kernel

/-- C40: a single fragment without payload, at offset 0, makes the manager deliver a payload of zeros. -/
theorem C40_empty_fragment_completes :
    assembledPayload (Manager.empty.add (piece [0] [])).1 = some [0, 0, 0] := by decide +kernel

/-- C40: a fragment whose offset and size add up to more than 2^64 is kept, and the next fragment
makes the manager copy its payload outside of the buffer. -/
theorem C40_offset_wraps :
    ((Manager.empty.add (piece [129, 255, 255, 255, 255, 255, 255, 255, 255, 127] [1, 2, 3])).1 =
      .stored) ∧
    (((Manager.empty.add (piece [129, 255, 255, 255, 255, 255, 255, 255, 255, 127] [1, 2, 3])).2.add
      (piece [0] [1, 2, 3])).1 = .complete .undefined) := by decide +kernel

/-- Fragments in the wrong order, with one repeated; the manager delivers with the last. -/
example :
    let m1 := (Manager.empty.add (piece [2] [33])).2
    let m2 := (m1.add (piece [2] [33])).2
    let m3 := (m2.add whole).2
    assembledPayload (m3.add (piece [0] [104, 105])).1 = some [104, 105, 33] := by decide +kernel

/-- The hypotheses of `C40_manager_partial` hold of such a fragment. -/
example : ∃ w, Sound (piece [0] [104, 105]) w := by
  refine ⟨⟨⟨17, 14, ⟨1, 1⟩, ⟨2, 1⟩, ⟨0, 0⟩, ⟨0, 0⟩, 9, 1, 60, 0, 3⟩,
    [6, 17, 14, 1, 1, 2, 1, 0, 0, 0, 0, 9, 1, 60, 0, 0, 3], false,
    [⟨⟨1, 8, [104, 105]⟩, .plain, [1, 8, 2, 104, 105], false, false⟩]⟩, by decide +kernel, ?_,
    by decide, by decide, by decide, [104, 105], ⟨[], _, [], rfl, rfl, rfl, by simp⟩, by decide, by decide⟩
  intro b hb
  simp only [List.mem_singleton] at hb
  subst hb
  exact ⟨by decide, by decide⟩

/-- A bundle with an aggregate custody signal as payload. -/
def adminWhole : Bytes :=
  [6, 18, 12, 1, 1, 2, 1, 0, 0, 0, 0, 9, 1, 60, 0] ++
    [1, 8, 9, 0x40, 0x81, 1, 2, 5, 3, 0x82, 0x23, 11]

/-- C39: the fragments of a bundle with an administrative record are written, but a receiver takes the
slice of the record for a record and refuses it. -/
theorem C39_admin_fragment_refused :
    ((load adminWhole).bind fun v => (fragment v 100 5).map fun fs => fs.map fun f =>
      f.1.render.map fun r => (r.1.length, (load r.1).isSome)) =
      some [some (25, false), some (24, false)] := by decide +kernel

end Hdtn.Bpv6Fragment
