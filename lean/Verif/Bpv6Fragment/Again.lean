import Verif.Bpv6Fragment.Props

/-! C39: fragments that are fragmented again, to any depth. -/

namespace Hdtn.Bpv6Fragment

open Hdtn.BundleView6 Hdtn.BundleView6.Spec Hdtn.Bpv6Canonical.Spec Hdtn.Bpv6Primary
open Hdtn.FragmentSet Spec

/-- A bundle or fragment with data `d`, which is at `base` in a unit of `total` bytes, that can be fragmented. -/
structure Part (v : View) (pre : List BlockView) (pb : BlockView) (post : List BlockView) (d : Bytes) (base total : Nat) : Prop where
  blocks : v.blocks = pre ++ pb :: post
  payloadType : pb.block.typeCode = 1
  payloadBody : pb.body = .plain
  payloadFlags : pb.block.flags ≤ 127
  payload : pb.block.data = d
  others : ∀ b ∈ pre ++ post, b.block.typeCode ≠ 1 ∧ IsBlock b.raw b.block ∧
    IsBody false b.block b.body ∧ Writable false b.block b.body ∧ b.block.flags ≤ 127
  notAdmin : v.primary.flags.testBit 1 = false
  allowed : v.primary.flags.testBit 2 = false
  origin : (v.primary.isFragment = false ∧ base = 0 ∧ total = d.length) ∨
    (v.primary.isFragment = true ∧ base = v.primary.fragmentOffset ∧ total = v.primary.totalAduLength)
  within : base + d.length ≤ total
  small : total < 2 ^ 63
  fits : ∀ offset < total, Hdtn.Bpv6Primary.Spec.InRange (copyPrimaryFragment v.primary offset total) ∧
    (serialize (copyPrimaryFragment v.primary offset total)).1.isSome = true

theorem part_of_whole {v : View} {pre : List BlockView} {pb : BlockView} {post : List BlockView} {adu : Bytes}
    (hw : Whole v pre pb post adu) (hn : adu.length < 2 ^ 63) : Part v pre pb post adu 0 adu.length :=
  ⟨hw.blocks, hw.payloadType, hw.payloadBody, hw.payloadFlags, hw.payload, hw.others, hw.notAdmin, hw.allowed,
    Or.inl ⟨hw.notFragment, rfl, rfl⟩, by omega, hn, hw.fits⟩

theorem payload_of_part {v : View} {pre : List BlockView} {pb : BlockView} {post : List BlockView} {d : Bytes} {base total : Nat}
    (hw : Part v pre pb post d base total) : Payload v d :=
  ⟨pre, pb, post, hw.blocks, hw.payloadType, hw.payload, fun c hc => (hw.others c hc).1⟩

/-- Fragment `i` of `k`. -/
def partView (v : View) (pre : List BlockView) (pb : BlockView) (post : List BlockView) (d : Bytes) (base total sz k i : Nat) : View :=
  ⟨copyPrimaryFragment v.primary (base + i * sz) total, [], true,
    ((pre.filter fun b => Replicated b || decide (i = 0)).map copied) ++
      payloadBlock pb (slice d sz i) :: ((post.filter fun b => Replicated b || decide (i + 1 = k)).map copied)⟩

theorem fragmentAt_part {v : View} {pre : List BlockView} {pb : BlockView} {post : List BlockView} {d : Bytes} {base total : Nat}
    (hw : Part v pre pb post d base total) (sz : Nat) (hsz : 0 < sz) (hlt : sz < d.length) (k i : Nat) (hk : 0 < k)
    (hi : i * sz < d.length) :
    fragmentAt v base total d.length sz k i = some (partView v pre pb post d base total sz k i) := by
  have hin := hw.within
  have hsm := hw.small
  have ho : ∀ b ∈ pre ++ post, b.block.typeCode ≠ 1 ∧ IsBlock b.raw b.block ∧
      IsBody false b.block b.body := fun b hb => by
    obtain ⟨a, b, c, _⟩ := hw.others b hb; exact ⟨a, b, c⟩
  have hp := fragmentBlocks_other (i = 0) (i = k - 1) true (i * sz)
    (min ((i * sz + sz) % 2 ^ 64) d.length) pre (pb :: post) fun b hb => ho b (by simp [hb])
  have hq := fragmentBlocks_other (i = 0) (i = k - 1) false (i * sz)
    (min ((i * sz + sz) % 2 ^ 64) d.length) post [] fun b hb => ho b (by simp [hb])
  rw [List.append_nil] at hq
  have hlast : ∀ b : BlockView, (Replicated b || decide (i = k - 1)) = (Replicated b || decide (i + 1 = k)) := by
    intro b
    congr 1
    rw [decide_eq_decide]
    omega
  have hslice : (pb.block.data.drop (i * sz)).take (min ((i * sz + sz) % 2 ^ 64) d.length - i * sz) =
      slice d sz i := by
    rw [hw.payload, slice, Nat.mod_eq_of_lt (by omega)]
    by_cases h : i * sz + sz ≤ d.length
    · rw [Nat.min_eq_left h]
      congr 1
      omega
    · rw [Nat.min_eq_right (by omega)]
      rw [List.take_of_length_le (by simp), List.take_of_length_le (by simp; omega)]
  simp only [fragmentAt, hw.blocks, hp, fragmentBlocks, if_pos hw.payloadType, hq, Option.bind_eq_bind,
    Option.bind_some, Option.map_some, Option.pure_def, Bool.false_eq_true, if_true, if_false,
    List.append_nil, hslice, partView, hlast]
  rw [Nat.mod_eq_of_lt (a := base + i * sz) (by omega)]

theorem fragmentLoop_part {v : View} {pre : List BlockView} {pb : BlockView} {post : List BlockView} {d : Bytes} {base total : Nat}
    (hw : Part v pre pb post d base total) (sz : Nat) (hsz : 0 < sz) (hlt : sz < d.length) (k : Nat) (hk : 0 < k) (is : List Nat)
    (his : ∀ i ∈ is, i * sz < d.length) :
    fragmentLoop v base total d.length sz k is = some (is.map (partView v pre pb post d base total sz k)) := by
  induction is with
  | nil => rfl
  | cons i is ih =>
    rw [fragmentLoop, fragmentAt_part hw sz hsz hlt k i hk (his i (by simp)), ih fun j hj => his j (by simp [hj])]
    rfl

theorem fragment_part {v : View} {pre : List BlockView} {pb : BlockView} {post : List BlockView} {d : Bytes} {base total : Nat}
    (hw : Part v pre pb post d base total) (sz : Nat) (hsz : 0 < sz) (hlt : sz < d.length) (n : Nat) :
    fragment v n sz = some ((List.range (calcNumFragments d.length sz)).map fun i =>
      (partView v pre pb post d base total sz (calcNumFragments d.length sz) i,
        (partView v pre pb post d base total sz (calcNumFragments d.length sz) i).renderMax n)) := by
  have hin := hw.within
  have hsm := hw.small
  obtain ⟨k1, k2, k3⟩ := num_bounds d.length sz hsz (by omega) hlt
  have his : ∀ i ∈ List.range (calcNumFragments d.length sz), i * sz < d.length := by
    intro i hi
    rw [List.mem_range] at hi
    refine Nat.lt_of_le_of_lt (Nat.mul_le_mul_right sz ?_) k2
    omega
  unfold fragment
  rw [if_neg (by omega), if_neg (by simp [hw.allowed]), payloadSize_payload (payload_of_part hw)]
  simp only
  rw [if_neg (by omega)]
  rcases hw.origin with ⟨h1, h2, h3⟩ | ⟨h1, h2, h3⟩
  · simp only [h1, Bool.false_eq_true, if_false]
    have := fragmentLoop_part hw sz hsz hlt _ k1 _ his
    rw [h2, h3] at this
    rw [this]
    simp [h2, h3]
  · simp only [h1, if_true]
    have := fragmentLoop_part hw sz hsz hlt _ k1 _ his
    rw [h2, h3] at this
    rw [this]
    simp [h2, h3]

/-- If there are fragments, the size was right. -/
theorem fragment_sizes {v : View} {pre : List BlockView} {pb : BlockView} {post : List BlockView} {d : Bytes} {base total : Nat}
    (hw : Part v pre pb post d base total) {n sz : Nat} {fs : List (View × Rendered)} (h : fragment v n sz = some fs) :
    0 < sz ∧ sz < d.length := by
  refine ⟨?_, ?_⟩
  · by_contra q
    have := C39_not_fragmented v d (payload_of_part hw) n sz (Or.inr (Or.inl (by omega)))
    rw [h] at this
    simp at this
  · by_contra q
    have := C39_not_fragmented v d (payload_of_part hw) n sz (Or.inr (Or.inr (by omega)))
    rw [h] at this
    simp at this

theorem part_renders {v : View} {pre : List BlockView} {pb : BlockView} {post : List BlockView} {d : Bytes} {base total : Nat}
    (hw : Part v pre pb post d base total) (sz k i : Nat) (hi : i * sz < d.length) :
    ∃ out w, (partView v pre pb post d base total sz k i).render = some (out, w) ∧ load out = some w ∧
      w.primary = { v.primary with
        flags := v.primary.flags ||| 1, blockLength := w.primary.blockLength, fragmentOffset := base + i * sz, totalAduLength := total } ∧
      List.Forall₂ SameBlock (partView v pre pb post d base total sz k i).blocks w.blocks := by
  have hin := hw.within
  have hsm := hw.small
  have hadm : (partView v pre pb post d base total sz k i).primary.flags.testBit 1 = false := by
    simp only [partView, copyPrimaryFragment, or_one_testBit, hw.notAdmin]
    rfl
  have hmem : ∀ b ∈ (partView v pre pb post d base total sz k i).blocks, b.deleted = false ∧ Ready false b := by
    intro b hb
    simp only [partView, List.mem_append, List.mem_cons, List.mem_map, List.mem_filter] at hb
    rcases hb with ⟨c, ⟨hc, _⟩, rfl⟩ | rfl | ⟨c, ⟨hc, _⟩, rfl⟩
    · exact ⟨rfl, (hw.others c (by simp [hc])).2.2.2.1⟩
    · refine ⟨rfl, ?_⟩
      have := hw.payloadFlags
      refine ⟨?_, ?_, by simp, ?_⟩
      · simp only [payloadBlock]; omega
      · simp only [payloadBlock, slice, List.length_take, List.length_drop]; omega
      · simp only [payloadBlock, hw.payloadType, IsExtType]; decide
    · exact ⟨rfl, (hw.others c (by simp [hc])).2.2.2.1⟩
  obtain ⟨f1, f2⟩ := hw.fits (base + i * sz) (by omega)
  obtain ⟨out, w, r1, r2, r3, r4, r5⟩ := C56_render_reload (partView v pre pb post d base total sz k i)
    (by
      refine ⟨f1, f2, ?_⟩
      intro hnf
      exfalso
      apply hnf
      show (v.primary.flags ||| 1) % 2 = 1
      simp)
    ⟨payloadBlock pb (slice d sz i), by simp [partView], rfl⟩
    (fun b hb _ => by rw [hadm]; exact (hmem b hb).2)
  refine ⟨out, w, r1, r3, r4, ?_⟩
  rwa [List.filter_eq_self.2 fun b hb => by simp [(hmem b hb).1]] at r5

/-- What arrives can be fragmented again. -/
theorem part_again {v : View} {pre : List BlockView} {pb : BlockView} {post : List BlockView} {d : Bytes} {base total : Nat}
    (hw : Part v pre pb post d base total) (sz k i : Nat) (hi : i * sz < d.length) {out : Bytes} {w : View} (hl : load out = some w)
    (hp : w.primary = { v.primary with
        flags := v.primary.flags ||| 1, blockLength := w.primary.blockLength, fragmentOffset := base + i * sz, totalAduLength := total })
    (hb : List.Forall₂ SameBlock (partView v pre pb post d base total sz k i).blocks w.blocks) :
    ∃ pre' pb' post', Part w pre' pb' post' (slice d sz i) (base + i * sz) total := by
  have hin := hw.within
  obtain ⟨a, y, b, h0, f1, f2, f3⟩ := forall₂_split hb
  have hna : w.primary.flags.testBit 1 = false := by
    rw [hp]; simp only [or_one_testBit, hw.notAdmin]; rfl
  have hv := ((C56_load_iff _ _).1 hl).2.2.2.1
  rw [hna] at hv
  have key : ∀ {l l' : List BlockView}, (∀ b ∈ l, b ∈ pre ++ post) → (∀ c ∈ l', c ∈ w.blocks) →
      List.Forall₂ SameBlock (l.map copied) l' → ∀ c ∈ l', c.block.typeCode ≠ 1 ∧ IsBlock c.raw c.block ∧
    IsBody false c.block c.body ∧ Writable false c.block c.body ∧ c.block.flags ≤ 127 := by
    intro l l' hl hl' hf c hc
    obtain ⟨e, he, hr⟩ := forall₂_mem hf c hc
    obtain ⟨g, hg, rfl⟩ := List.mem_map.1 he
    obtain ⟨o1, o2, o3, o4, o5⟩ := hw.others g (hl g hg)
    have hfl := same_flags hr o5
    have hbody : c.body = g.body := hr.2.1
    refine ⟨by rw [hr.1]; exact o1, (hv c (hl' c hc)).1, (hv c (hl' c hc)).2.1, ?_, hfl⟩
    rw [hbody]
    exact writable_congr hr.1 (by omega) (fun hp => hr.2.2.2.2.1 (.inr hp)) o4
  have hcopy : ∀ offset, copyPrimaryFragment w.primary offset total =
      { copyPrimaryFragment v.primary offset total with blockLength := w.primary.blockLength } := by
    intro offset
    rw [hp]
    simp [copyPrimaryFragment, Nat.or_assoc]
  refine ⟨a, y, b, h0, f2.1.trans hw.payloadType, f2.2.1, same_flags f2 hw.payloadFlags, f2.2.2.2.2.1 (.inr rfl), ?_, hna, ?_, ?_, ?_,
    hw.small, ?_⟩
  · intro c hc
    simp only [List.mem_append] at hc
    rcases hc with hc | hc
    · exact key (l := pre.filter fun b => Replicated b || decide (i = 0)) (fun b hb => by simp [(List.mem_filter.1 hb).1])
        (fun c hc => by rw [h0]; simp [hc]) f1 c hc
    · exact key (l := post.filter fun b => Replicated b || decide (i + 1 = k)) (fun b hb => by simp [(List.mem_filter.1 hb).1])
        (fun c hc => by rw [h0]; simp [hc]) f3 c hc
  · rw [hp]; simp only [or_one_testBit, hw.allowed]; rfl
  · refine Or.inr ⟨?_, by rw [hp], by rw [hp]⟩
    rw [hp]
    show (v.primary.flags ||| 1).testBit 0 = true
    rw [or_one_testBit]; simp
  · simp only [slice, List.length_take, List.length_drop]; omega
  · intro offset ho
    rw [hcopy]
    exact hw.fits offset ho

/-- What arrives of a bundle or fragment. -/
theorem arrives_part {v : View} {pre : List BlockView} {pb : BlockView} {post : List BlockView} {d : Bytes} {base total : Nat}
    (hw : Part v pre pb post d base total) {w : View} (h : ArrivesFrom v w) :
    ∃ sz i, 0 < sz ∧ i * sz < d.length ∧
      w.primary = { v.primary with
        flags := v.primary.flags ||| 1, blockLength := w.primary.blockLength, fragmentOffset := base + i * sz, totalAduLength := total } ∧
      ∃ pre' pb' post', Part w pre' pb' post' (slice d sz i) (base + i * sz) total := by
  obtain ⟨n, sz, fs, f, out, w', h1, h2, h3, h4⟩ := h
  obtain ⟨hsz, hlt⟩ := fragment_sizes hw h1
  have hin := hw.within
  have hsm := hw.small
  obtain ⟨k1, k2, k3⟩ := num_bounds d.length sz hsz (by omega) hlt
  rw [fragment_part hw sz hsz hlt n] at h1
  injection h1 with h1
  subst h1
  obtain ⟨i, hi, rfl⟩ := List.mem_map.1 h2
  rw [List.mem_range] at hi
  have hi' : i * sz < d.length := Nat.lt_of_le_of_lt (Nat.mul_le_mul_right sz (by omega)) k2
  obtain ⟨out', w'', r1, r2, r3, r4⟩ := part_renders hw sz (calcNumFragments d.length sz) i hi'
  rw [r1] at h3
  injection h3 with h3
  injection h3 with h3 h5
  subst h3
  rw [r2] at h4
  injection h4 with h4
  subst h4
  exact ⟨sz, i, hsz, hi', r3, part_again hw sz _ i hi' r2 r3 r4⟩

/-- Fragments of any depth are parts of the unit. -/
theorem deep_part {v : View} {pre : List BlockView} {pb : BlockView} {post : List BlockView} {adu : Bytes}
    (hw : Whole v pre pb post adu) (hn : adu.length < 2 ^ 63) {w : View} (h : FragmentOf v w) :
    (∃ pre' pb' post' d front back, Part w pre' pb' post' d front.length adu.length ∧ d ≠ [] ∧ adu = front ++ d ++ back) ∧
    w.primary = { v.primary with
        flags := v.primary.flags ||| 1, blockLength := w.primary.blockLength, fragmentOffset := w.primary.fragmentOffset,
        totalAduLength := adu.length } := by
  induction h with
  | first h =>
    obtain ⟨sz, i, hsz, hi, hp, pre', pb', post', hq⟩ := arrives_part (part_of_whole hw hn) h
    obtain ⟨s1, s2, s3⟩ := slice_parts adu sz i hi hsz
    refine ⟨⟨pre', pb', post', _, adu.take (i * sz), _, ?_, s1, s2⟩, ?_⟩
    · rw [s3]; simpa using hq
    · rw [hp]
  | again h1 h2 ih =>
    obtain ⟨⟨pre', pb', post', d, front, back, hq, hne, hadu⟩, hpu⟩ := ih
    obtain ⟨sz, i, hsz, hi, hp, pre'', pb'', post'', hq'⟩ := arrives_part hq h2
    obtain ⟨s1, s2, s3⟩ := slice_parts d sz i hi hsz
    refine ⟨⟨pre'', pb'', post'', _, front ++ d.take (i * sz), (d.drop (i * sz)).drop sz ++ back, ?_, s1, ?_⟩, ?_⟩
    · rw [List.length_append, s3]; exact hq'
    · conv_lhs => rw [hadu, s2]
      simp only [List.append_assoc]
    · rw [hp, hpu]
      simp [Nat.or_assoc]

/-- C39: fragments of a bundle, fragments of fragments, and so on, which have been on the wire each time, are pieces of its payload with the offset
in it, and have its primary block with the fragment flag, the offset and the length of the whole. -/
theorem C39_any_depth_partial (v : View) (pre : List BlockView) (pb : BlockView) (post : List BlockView) (adu : Bytes)
    (hw : Whole v pre pb post adu) (hn : adu.length < 2 ^ 63) (w : View) (h : FragmentOf v w) :
    IsPiece adu (idOf v.primary) w ∧
    w.primary = { v.primary with
        flags := v.primary.flags ||| 1, blockLength := w.primary.blockLength, fragmentOffset := w.primary.fragmentOffset,
        totalAduLength := adu.length } := by
  obtain ⟨⟨pre', pb', post', d, front, back, hq, hne, hadu⟩, hp⟩ := deep_part hw hn h
  have hflag : w.primary.flags.testBit 0 = true := by rw [hp]; simp only [or_one_testBit]; simp
  refine ⟨⟨?_, hflag, by rw [hp], d, payload_of_part hq, hne, front, back, hadu, ?_⟩, hp⟩
  · rw [hp]; rfl
  · rcases hq.origin with ⟨h1, -, -⟩ | ⟨-, h2, -⟩
    · rw [show w.primary.isFragment = w.primary.flags.testBit 0 from rfl, hflag] at h1
      exact Bool.noConfusion h1
    · exact h2.symm

/-- C39: a fragment with payload `d`, of any depth, can be fragmented for each smaller size. Each fragment can be written and loaded again; it has at
most so many bytes, at the offset that they have in the whole; and what arrives is together what the fragment had. -/
theorem C39_again_partial (v : View) (pre : List BlockView) (pb : BlockView) (post : List BlockView) (adu : Bytes)
    (hw : Whole v pre pb post adu) (hn : adu.length < 2 ^ 63) (u : View) (h : FragmentOf v u) (d : Bytes) (hd : Payload u d) (sz : Nat)
    (hsz : 0 < sz) (hlt : sz < d.length) (n : Nat) :
    ∃ fs, fragment u n sz = some fs ∧ ((List.range fs.length).map (slice d sz)).flatten = d ∧
      ∀ i (hi : i < fs.length), ∃ out w, fs[i].1.render = some (out, w) ∧ load out = some w ∧ FragmentOf v w ∧
        Payload w (slice d sz i) ∧ (slice d sz i).length ≤ sz ∧ w.primary.fragmentOffset = u.primary.fragmentOffset + i * sz := by
  obtain ⟨⟨pre', pb', post', d', front, back, hq, hne, hadu⟩, hp⟩ := deep_part hw hn h
  have hdd : d' = d := payload_unique (payload_of_part hq) hd
  subst hdd
  have hin := hq.within
  have hsm := hq.small
  obtain ⟨k1, k2, k3⟩ := num_bounds d'.length sz hsz (by omega) hlt
  refine ⟨_, fragment_part hq sz hsz hlt n, ?_⟩
  simp only [List.length_map, List.length_range]
  refine ⟨slices_flatten d' sz _ k3, ?_⟩
  intro i hi
  simp only [List.getElem_map, List.getElem_range]
  have hi' : i * sz < d'.length := Nat.lt_of_le_of_lt (Nat.mul_le_mul_right sz (by omega)) k2
  obtain ⟨out, w, r1, r2, r3, r4⟩ := part_renders hq sz (calcNumFragments d'.length sz) i hi'
  obtain ⟨pre'', pb'', post'', hq'⟩ := part_again hq sz (calcNumFragments d'.length sz) i hi' r2 r3 r4
  refine ⟨out, w, r1, r2, FragmentOf.again h ⟨n, sz, _, _, out, w, fragment_part hq sz hsz hlt n, List.mem_map.2 ⟨i, List.mem_range.2 hi, rfl⟩,
    r1, r2⟩, payload_of_part hq', by simp [slice], ?_⟩
  have hflag : u.primary.flags.testBit 0 = true := by rw [hp]; simp only [or_one_testBit]; simp
  rw [r3]
  rcases hq.origin with ⟨h1, -, -⟩ | ⟨-, h2, -⟩
  · rw [show u.primary.isFragment = u.primary.flags.testBit 0 from rfl, hflag] at h1
    exact Bool.noConfusion h1
  · simp only [h2]

/-- C39: from fragments of any depths, made in any ways, that together carry all bytes of the payload, in any order and with repetitions, the payload is
restored. -/
theorem C39_deep_payload_restored_partial (v : View) (pre : List BlockView) (pb : BlockView) (post : List BlockView) (adu : Bytes)
    (hw : Whole v pre pb post adu) (hn : adu.length < 2 ^ 63) (hne : adu ≠ []) (ws : List View) (h : ∀ w ∈ ws, FragmentOf v w)
    (hall : ∀ x < adu.length, Covered ws x) : assemblePayload ws = .done adu :=
  C39_payload_restored adu (idOf v.primary) (by omega) ws (fun w hm => (C39_any_depth_partial v pre pb post adu hw hn w (h w hm)).1) hne hall

/-- Fragments of the fragment with the first two bytes of a bundle. -/
example : ∃ u w d, ArrivesFrom wholeView u ∧ ArrivesFrom u w ∧ FragmentOf wholeView w ∧ Payload w d ∧ d = [105] ∧ w.primary.fragmentOffset = 1 := by
  have hw := wholeView_whole
  obtain ⟨out, u, r1, r2, r3, r4⟩ := part_renders (part_of_whole hw (by simp)) 2 2 0 (by simp)
  obtain ⟨pre', pb', post', hq⟩ := part_again (part_of_whole hw (by simp)) 2 2 0 (by simp) r2 r3 r4
  have hu : ArrivesFrom wholeView u := ⟨100, 2, _, _, out, u, fragment_part (part_of_whole hw (by simp)) 2 (by simp) (by simp) 100,
    List.mem_map.2 ⟨0, by decide, rfl⟩, r1, r2⟩
  obtain ⟨out', w, q1, q2, q3, q4⟩ := part_renders hq 1 2 1 (by decide)
  obtain ⟨_, _, _, hq'⟩ := part_again hq 1 2 1 (by decide) q2 q3 q4
  have hv : ArrivesFrom u w := ⟨100, 1, _, _, out', w, fragment_part hq 1 (by simp) (by decide) 100,
    List.mem_map.2 ⟨1, by decide, rfl⟩, q1, q2⟩
  exact ⟨u, w, _, hu, hv, .again (.first hu) hv, payload_of_part hq', by decide, by rw [q3]⟩

/-- A bundle with six bytes of payload and a block of a type of its own behind it. -/
def tailed : Bytes :=
  [6, 16, 12, 1, 1, 2, 1, 0, 0, 0, 0, 9, 1, 60, 0] ++ [1, 0, 6, 1, 2, 3, 4, 5, 6] ++ [99, 8, 1, 7]

/-- The bytes of fragment `i` of this bundle, for size `sz`. -/
def tailedPiece (sz i : Nat) : Option Bytes := do
  let v ← load tailed
  let fs ← fragment v 100 sz
  let f ← fs[i]?
  let (out, _) ← f.1.render
  return out

/-- The types of the blocks of the bundle that an `add` assembled, and the payload. -/
def assembledBlocks : Added → Option (List (UInt8 × Bytes))
  | .complete (.bundle v _) => some (v.blocks.map fun b => (b.block.typeCode, b.block.data))
  | _ => none

/-- Three fragments are given to the manager. -/
def assembled3 (a b c : Option Bytes) : Option (List (UInt8 × Bytes)) := do
  let a ← a
  let b ← b
  let c ← c
  assembledBlocks (((Manager.empty.add a).2.add b).2.add c).1

/-- C39: the block behind the payload is restored when the fragments are of one size, but not when a fragment of the same bundle for another size
comes between them: that one has the largest offset, and is taken for the last. The payload is right, and the block is lost. -/
theorem C39_overlap_violated :
    assembled3 (tailedPiece 3 0) (tailedPiece 3 0) (tailedPiece 3 1) = some [(1, [1, 2, 3, 4, 5, 6]), (99, [7])] ∧
    assembled3 (tailedPiece 3 0) (tailedPiece 1 4) (tailedPiece 3 1) = some [(1, [1, 2, 3, 4, 5, 6])] := by decide +kernel

end Hdtn.Bpv6Fragment
