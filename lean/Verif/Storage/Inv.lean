import Verif.Storage.Lemmas

/-!
The invariant of the store, and its preservation by everything but a restart.
-/

namespace Hdtn.Storage

open Hdtn.Catalog Hdtn.HashMap16

/-- A bundle in the store. -/
structure Rec where
  id : Nat
  p : Primary
  ps : Nat
  mask : Option Eid
  data : Bytes
  segs : List Nat

/-- Its catalog entry. -/
def Rec.entry (r : Rec) : Entry := entryOf r.p r.data.length r.ps r.segs r.mask

/-- The numbers of a bundle are in range and it starts with its primary block. -/
structure Rec.Ok (cfg : Cfg) (r : Rec) : Prop where
  len : r.segs.length = cfg.segsFor r.data.length
  ne : r.data ≠ []
  prio : r.p.priority < 3
  id : r.id < 2 ^ 64
  ps : r.ps < 2 ^ 64
  size : r.data.length < 2 ^ 64 - 1
  starts : Starts cfg r.data r.p
  lt : ∀ x ∈ r.segs, x < cfg.maxSegments

/-- The block is the one of segment `i` of the bundle. -/
def Rec.Block (cfg : Cfg) (r : Rec) (i : Nat) (b : Bytes) : Prop :=
  b.length = cfg.segSize ∧ ∃ junk, b = (pushHeader cfg r.entry r.id i).bytes cfg ++
    (r.data.drop (i * cfg.perSeg)).take (chunkSize cfg r.data.length r.segs.length i) ++ junk

/-- The segments of the bundle being written. -/
def Main.pend : Main → List Nat
  | .pushing e _ _ _ _ => e.segments
  | _ => []

/-- The first of them, once it is written. -/
def Main.head : Main → Option Nat
  | .pushing e _ _ _ i => if i = 0 then none else e.segments[0]?
  | _ => none

/-- The reads under way: those from the next segment to use up to the next to ask for. -/
structure Window (cfg : Cfg) (s : State) (segs : List Nat) : Prop where
  le : s.sess.next ≤ s.sess.nextCache
  len : s.sess.nextCache ≤ segs.length
  fifty : s.sess.nextCache - s.sess.next ≤ 50
  slots : ∀ k seg, s.sess.next ≤ k → k < s.sess.nextCache → segs[k]? = some seg →
    (s.ready (k % 50) = true ∧ s.image cfg seg = some (s.cache (k % 50))) ∨
    (s.ready (k % 50) = false ∧ Job.read seg (k % 50) ∈ s.queues (seg % cfg.disks))
  jobs : ∀ d seg slot, Job.read seg slot ∈ s.queues d →
    ∃ k, s.sess.next ≤ k ∧ k < s.sess.nextCache ∧ segs[k]? = some seg ∧ slot = k % 50 ∧ s.ready slot = false
  once : ∀ d, ((s.queues d).filter Job.isRead).Nodup

/-- What holds in the middle of a call. -/
def MainOk (cfg : Cfg) (s : State) (recs : List Rec) (H : Nat) : Prop :=
  match s.main with
  | .idle => ∀ d, ∀ j ∈ s.queues d, j.isRead = false
  | .pushing e p id data i =>
    (∀ d, ∀ j ∈ s.queues d, j.isRead = false) ∧ s.cat.entry id = none ∧
    ∃ ps mask, e = Entry.init p data.length ps e.segments mask ∧
      Rec.Ok cfg ⟨id, p, ps, mask, data, e.segments⟩ ∧ i < e.segments.length ∧
      (∀ j seg, j < i → e.segments[j]? = some seg → ∃ b, s.image cfg seg = some b ∧
        Rec.Block cfg ⟨id, p, ps, mask, data, e.segments⟩ j b) ∧
      ∃ l k, e.segments.drop i = l ++ List.range' H k ∧ ∀ x ∈ l, x < H
  | .reading first id e count i buf got =>
    ∃ r ∈ recs, r.id = id ∧ e = r.entry ∧ count = r.segs.length ∧ i < count ∧
      buf.length = r.data.length ∧ buf.take (i * cfg.perSeg) = r.data.take (i * cfg.perSeg) ∧
      got = i * cfg.perSeg ∧ s.sess.next = i ∧ (first = true → count = 1) ∧ Window cfg s r.segs

/-- The invariant: the bundles in the store, the segments leaked to duplicates, and the number of
segments written so far. -/
structure Inv (cfg : Cfg) (s : State) (outs : List Out) (recs : List Rec) (leaked : List Nat) (H : Nat) :
    Prop where
  disk : DiskInv cfg s H
  reach : Reachable (s.cat, s.taken)
  entries : ∀ id e, s.cat.entry id = some e ↔ ∃ r ∈ recs, r.id = id ∧ e = r.entry
  distinct : (recs.map Rec.id).Nodup
  ok : ∀ r ∈ recs, r.Ok cfg
  content : ∀ id d, contentOf outs id = some d ↔ ∃ r ∈ recs, r.id = id ∧ r.data = d
  used : ∃ used, MemoryManager.Inv s.tree used ∧
    used.Perm (recs.flatMap Rec.segs ++ leaked ++ s.main.pend)
  max : s.tree.max = cfg.maxSegments
  below : ∀ x ∈ recs.flatMap Rec.segs ++ leaked, x < H
  blocks : ∀ r ∈ recs, ∀ i seg, r.segs[i]? = some seg → ∃ b, s.image cfg seg = some b ∧ r.Block cfg i b
  nonHead : ∀ seg b, s.image cfg seg = some b → (∀ r ∈ recs, r.segs[0]? ≠ some seg) → seg ∉ leaked →
    s.main.head ≠ some seg → fromLe (b.take 8) = U64 - 1
  leak : (∀ id, Out.duplicate id ∉ outs) → leaked = []
  idx : s.sess.readIdx = s.sess.next % 50 ∧ s.sess.writeIdx = s.sess.nextCache % 50
  main : MainOk cfg s recs H

theorem contentOf_append (outs o : List Out) : contentOf (outs ++ o) = o.foldl contentStep (contentOf outs) := by
  simp [contentOf, List.foldl_append]

theorem rec_unique {recs : List Rec} (h : (recs.map Rec.id).Nodup) {r r' : Rec} (h1 : r ∈ recs)
    (h2 : r' ∈ recs) (he : r.id = r'.id) : r = r' := List.inj_on_of_nodup_map h h1 h2 he

theorem inv_init (cfg : Cfg) (hv : cfg.Valid) : Inv cfg (init cfg) [] [] [] 0 where
  disk := ⟨fun seg => by simp [State.image, readBlock, State.later, init, flush],
    fun d j hj => by simp [init] at hj, fun d => ⟨[], [], rfl, by simp, by simp⟩, Nat.zero_le _⟩
  reach := Reachable.empty
  entries := fun id e => by simp [init, Catalog.entry, Catalog.empty, get_empty]
  distinct := by simp
  ok := by simp
  content := fun id d => by simp [contentOf]
  used := ⟨[], MemoryManager.inv_new _ hv.max64, by simp [init, Main.pend]⟩
  max := rfl
  below := by simp
  blocks := by simp
  nonHead := fun seg b h => by simp [State.image, readBlock, State.later, init, flush] at h
  leak := fun _ => rfl
  idx := ⟨rfl, rfl⟩
  main := by simp [MainOk, init]

/-- A step that changes neither the queues, the files nor the allocator. -/
theorem Inv.congr {cfg : Cfg} {s s' : State} {outs : List Out} {recs : List Rec} {leaked : List Nat} {H : Nat}
    {o : List Out} (h : Inv cfg s outs recs leaked H) (hq : s'.queues = s.queues) (hf : s'.files = s.files)
    (hpend : s'.main.pend = s.main.pend) (hhead : s'.main.head = s.main.head) (ht : s'.tree = s.tree)
    (hcat : Reachable (s'.cat, s'.taken)) (hent : ∀ k, s'.cat.entry k = s.cat.entry k)
    (hidx : s'.sess.readIdx = s'.sess.next % 50 ∧ s'.sess.writeIdx = s'.sess.nextCache % 50)
    (ho : ∀ m, o.foldl contentStep m = m) (hm : MainOk cfg s' recs H) :
    Inv cfg s' (outs ++ o) recs leaked H := by
  have hl : s'.later cfg = s.later cfg := by funext d; simp [State.later, hq, hf]
  have himg : s'.image cfg = s.image cfg := by funext d; simp [State.image, hl]
  refine ⟨⟨?_, ?_, ?_, h.disk.bound⟩, hcat, ?_, h.distinct, h.ok, ?_, ?_, ?_, h.below, ?_, ?_, ?_, hidx, hm⟩
  · rw [himg]; exact h.disk.len
  · rw [hq]; exact h.disk.jobs
  · rw [hq]; exact h.disk.shape
  · intro id e; rw [hent]; exact h.entries id e
  · rw [contentOf_append, ho]; exact h.content
  · rw [ht, hpend]; exact h.used
  · rw [ht]; exact h.max
  · rw [himg]; exact h.blocks
  · rw [himg, hhead]; exact h.nonHead
  · intro hd; exact h.leak fun id hid => hd id (by simp [hid])

/-- No call is going on: no reads are waiting. -/
theorem Inv.noReads {cfg : Cfg} {s : State} {outs : List Out} {recs : List Rec} {leaked : List Nat} {H : Nat}
    (h : Inv cfg s outs recs leaked H) (hi : s.main = .idle) : ∀ d, ∀ j ∈ s.queues d, j.isRead = false := by
  have := h.main
  unfold MainOk at this
  rw [hi] at this
  exact this

theorem inv_tick {cfg : Cfg} {s s' : State} {outs : List Out} {recs : List Rec} {leaked : List Nat} {H d : Nat}
    (h : Inv cfg s outs recs leaked H) (hs : tick cfg s d = some s') : Inv cfg s' outs recs leaked H := by
  obtain ⟨himg, hdisk, htree, hcat, hsess, hmain, htaken, hjob, hother⟩ := tick_disk h.disk hs
  have himg' : s'.image cfg = s.image cfg := funext himg
  have hsub : ∀ d' j, j ∈ s'.queues d' → j ∈ s.queues d' := by
    intro d' j hj
    by_cases hd : d' = d
    · subst hd
      rcases hjob with ⟨seg, b, hq, _⟩ | ⟨⟨seg, slot, hq, _⟩, _⟩ <;> rw [hq] <;> simp [hj]
    · rw [hother d' hd] at hj; exact hj
  refine ⟨hdisk, by rw [hcat, htaken]; exact h.reach, by rw [hcat]; exact h.entries, h.distinct, h.ok,
    h.content, by rw [htree, hmain]; exact h.used, by rw [htree]; exact h.max, h.below,
    by rw [himg']; exact h.blocks, by rw [himg', hmain]; exact h.nonHead, h.leak,
    by rw [hsess]; exact h.idx, ?_⟩
  have hm := h.main
  unfold MainOk at hm ⊢
  rw [hmain]
  split at hm
  · exact fun d' j hj => hm d' j (hsub d' j hj)
  · rw [himg', hcat]
    exact ⟨fun d' j hj => hm.1 d' j (hsub d' j hj), hm.2⟩
  · obtain ⟨r, hr, h1, h2, h3, h4, h5, h6, h7, h8, h9, hw⟩ := hm
    refine ⟨r, hr, h1, h2, h3, h4, h5, h6, h7, by rw [hsess]; exact h8, h9, ?_⟩
    rcases hjob with ⟨seg, b, hq, hc, hrd⟩ | ⟨⟨seg, slot, hq, hrd, hc⟩, hread⟩
    · refine ⟨by rw [hsess]; exact hw.le, by rw [hsess]; exact hw.len, by rw [hsess]; exact hw.fifty, ?_, ?_, ?_⟩
      · intro k sg hk1 hk2 hk3
        rw [hsess] at hk1 hk2
        rw [hrd, hc, himg']
        rcases hw.slots k sg hk1 hk2 hk3 with hh | ⟨hh, hj⟩
        · exact Or.inl hh
        · refine Or.inr ⟨hh, ?_⟩
          by_cases hd : sg % cfg.disks = d
          · rw [hd] at hj ⊢
            rw [hq] at hj
            simpa using hj
          · rw [hother _ hd]; exact hj
      · intro d' sg sl hj
        rw [hsess, hrd]
        exact hw.jobs d' sg sl (hsub d' _ hj)
      · intro d'
        by_cases hd : d' = d
        · subst hd
          have := hw.once d'
          rw [hq] at this
          simpa [Job.isRead] using this
        · rw [hother d' hd]; exact hw.once d'
    · have hjq : Job.read seg slot ∈ s.queues d := by rw [hq]; simp
      obtain ⟨k0, hk1, hk2, hk3, hk4, hk5⟩ := hw.jobs d seg slot hjq
      have honce := hw.once d
      rw [hq] at honce
      simp only [List.filter_cons, Job.isRead, if_true, List.nodup_cons] at honce
      have huniq : ∀ k sg, s.sess.next ≤ k → k < s.sess.nextCache → r.segs[k]? = some sg → k % 50 = slot →
          k = k0 := by
        intro k sg a1 a2 _ a3
        have := hw.fifty
        rw [hk4] at a3
        omega
      have hnotin : ∀ d', Job.read seg slot ∉ s'.queues d' := by
        intro d' hj
        by_cases hd : d' = d
        · subst hd
          exact honce.1 (by simp [hj, Job.isRead])
        · rw [hother d' hd] at hj
          have e1 := (h.disk.jobs d' _ hj).2
          have e2 := (h.disk.jobs d _ hjq).2
          simp only [Job.seg] at e1 e2
          exact hd (e1.symm.trans e2)
      refine ⟨by rw [hsess]; exact hw.le, by rw [hsess]; exact hw.len, by rw [hsess]; exact hw.fifty, ?_, ?_, ?_⟩
      · intro k sg a1 a2 a3
        rw [hsess] at a1 a2
        rw [himg', hrd]
        by_cases hks : k % 50 = slot
        · left
          have hkk := huniq k sg a1 a2 a3 hks
          subst hkk
          rw [a3] at hk3
          simp only [Option.some.injEq] at hk3
          subst hk3
          have hlt : sg < H := h.below sg (by
            simp only [List.mem_append, List.mem_flatMap]
            exact Or.inl ⟨r, hr, List.mem_of_getElem? a3⟩)
          have hsome := (h.disk.len sg).2 hlt
          rw [Option.isSome_iff_exists] at hsome
          obtain ⟨b, hb⟩ := hsome
          have := hread sg slot hq b hb
          rw [hks, this]
          exact ⟨by simp, hb⟩
        · simp only [if_neg hks]
          rw [hc _ hks]
          rcases hw.slots k sg a1 a2 a3 with hh | ⟨hh, hj⟩
          · exact Or.inl hh
          · refine Or.inr ⟨hh, ?_⟩
            by_cases hd : sg % cfg.disks = d
            · rw [hd] at hj ⊢
              rw [hq] at hj
              simp only [List.mem_cons, Job.read.injEq] at hj
              rcases hj with ⟨_, hj⟩ | hj
              · exact absurd hj hks
              · exact hj
            · rw [hother _ hd]; exact hj
      · intro d' sg sl hj
        obtain ⟨k, b1, b2, b3, b4, b5⟩ := hw.jobs d' sg sl (hsub d' _ hj)
        rw [hsess, hrd]
        refine ⟨k, b1, b2, b3, b4, ?_⟩
        simp only
        rw [if_neg, b5]
        intro hsl
        have hkk := huniq k sg b1 b2 b3 (by rw [← b4]; exact hsl)
        subst hkk
        rw [b3] at hk3
        simp only [Option.some.injEq] at hk3
        subst hk3
        subst hsl
        exact hnotin d' hj
      · intro d'
        by_cases hd : d' = d
        · subst hd; exact honce.2
        · rw [hother d' hd]; exact hw.once d'

end Hdtn.Storage
