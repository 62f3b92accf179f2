import Verif.Storage.Inv

/-!
Preservation of the invariant by the calls.
-/

namespace Hdtn.Storage

open Hdtn.Catalog Hdtn.HashMap16

/-! The catalog: removing from the waiting bundles first, and then the bundle. -/

theorem forgetUuid_fst (c : Catalog) (e : Entry) (id n m : Nat) :
    (c.forgetUuid e id false n).1 = (c.forgetUuid e id false m).1 := by
  unfold Catalog.forgetUuid
  repeat' split
  all_goals simp_all
  all_goals
    generalize Table.remove UuidNoFrag.lt UuidNoFrag.hash c.uuidsNoFrag _ = r
    cases r <;> rfl

theorem remove_two {c : Catalog} {fl ids : List Nat} (h : Catalog.Inv c fl ids) (id : Nat) (e : Entry)
    (he : c.entry id = some e) (hf : id ∉ fl) : ∃ c1 c' n n', c.removeAwaiting e id = some (c1, true) ∧
      c1.remove id false = some (c', true, n) ∧ c.remove id true = some (c', true, n') := by
  have hr := remove_spec natLt_strict c.entries h.good.t3 id
  have h3 : c.entries.get natLt hashU64 id = some e := he
  cases hrem : c.entries.remove natLt hashU64 id with
  | none =>
    have := hr.1
    rw [hrem, h3] at this; simp at this
  | some r =>
    obtain ⟨v, t⟩ := r
    have := hr.1
    rw [hrem, h3] at this
    simp only [Option.map_some, Option.some.injEq] at this
    subst this
    obtain ⟨hp, henc⟩ := h.entryGood id v he
    have hin : id ∈ c.waiting v.dest v.priority v.expiration := h.flElse id v he hf
    set c1 := c.setExpirations v.dest v.priority
      (newMap (c.prioritiesOf v.dest v.priority) v.expiration
        ((c.waiting v.dest v.priority v.expiration).erase id)) with hc1
    have hrm1 : c1.entries.remove natLt hashU64 id = some (v, t) := hrem
    set cz : Catalog := { c with entries := t
                                 numBundles := c.numBundles - 1
                                 numBytes := c.numBytes - v.bundleSize
                                 totalErases := c.totalErases + 1
                                 totalBytesErased := c.totalBytesErased + v.bundleSize } with hcz
    set c2 : Catalog := { c1 with entries := t
                                  numBundles := c1.numBundles - 1
                                  numBytes := c1.numBytes - v.bundleSize
                                  totalErases := c1.totalErases + 1
                                  totalBytesErased := c1.totalBytesErased + v.bundleSize } with hc2
    have hinz : id ∈ cz.waiting v.dest v.priority v.expiration := hin
    have heq : cz.setExpirations v.dest v.priority
      (newMap (cz.prioritiesOf v.dest v.priority) v.expiration
        ((cz.waiting v.dest v.priority v.expiration).erase id)) = c2 := rfl
    obtain ⟨t1, t2, n1, f1, -⟩ := forgetUuid_spec h c2 rfl rfl id v he 1
    obtain ⟨t1', t2', n2, f2, -⟩ := forgetUuid_spec h c2 rfl rfl id v he 2
    have hsame := forgetUuid_fst c2 v id 1 2
    rw [f1, f2] at hsame
    refine ⟨c1, { c2 with uuids := t1, uuidsNoFrag := t2 }, n1, n2, removeAwaiting_eq c v id hp hin, ?_, ?_⟩
    · unfold Catalog.remove
      rw [hrm1]
      simp only [Bool.false_eq_true, if_false]
      rw [← hc2, f1]
      simp
    · unfold Catalog.remove
      rw [hrem]
      simp only [if_true]
      rw [← hcz, removeAwaiting_eq cz v id hp hinz, heq]
      simp only [Bool.not_true, if_true]
      rw [f2]
      simp only [Bool.not_false] at hsame ⊢
      rw [hsame]

/-! The allocator. -/

theorem freeIds_split (max H : Nat) (used : List Nat) (hH : H ≤ max) (h : ∀ x ∈ used, x < H) :
    MemoryManager.freeIds max used =
      (List.range H).filter (fun id => decide (id ∉ used)) ++ List.range' H (max - H) := by
  unfold MemoryManager.freeIds
  have : List.range max = List.range H ++ List.range' H (max - H) := by
    have := @List.range'_append_1 0 H (max - H)
    rw [Nat.zero_add, Nat.add_sub_cancel' hH] at this
    rw [List.range_eq_range', List.range_eq_range', this]
  rw [this, List.filter_append]
  congr 1
  rw [List.filter_eq_self]
  intro a ha
  rw [List.mem_range'_1] at ha
  simp only [decide_eq_true_eq]
  intro hu
  have := h a hu
  omega

theorem take_range' (H m n : Nat) : (List.range' H m).take n = List.range' H (min n m) := by
  induction m generalizing H n with
  | zero => simp
  | succ m ih =>
    cases n with
    | zero => simp
    | succ n => rw [List.range'_succ, List.take_succ_cons, ih, Nat.succ_min_succ, List.range'_succ]

theorem take_split (max H n : Nat) (used : List Nat) (hH : H ≤ max) (h : ∀ x ∈ used, x < H) :
    ∃ l k, (MemoryManager.freeIds max used).take n = l ++ List.range' H k ∧ ∀ x ∈ l, x < H := by
  rw [freeIds_split max H used hH h, List.take_append, take_range']
  refine ⟨_, _, rfl, fun x hx => ?_⟩
  have := List.mem_of_mem_take hx
  simp only [List.mem_filter, List.mem_range] at this
  exact this.1

theorem alloc_cases {t : MemoryManager.Tree} {used : List Nat} (hi : MemoryManager.Inv t used) (n : Nat) :
    ∃ t', t'.max = t.max ∧
      ((n ≤ (MemoryManager.freeIds t.max used).length ∧
        MemoryManager.allocSegments t n = some (t', (MemoryManager.freeIds t.max used).take n, true) ∧
        MemoryManager.Inv t' (((MemoryManager.freeIds t.max used).take n).reverse ++ used)) ∨
       ((MemoryManager.freeIds t.max used).length < n ∧
        MemoryManager.allocSegments t n = some (t', [], false) ∧ MemoryManager.Inv t' used)) := by
  obtain ⟨t', h1, h2, h3⟩ := MemoryManager.op_spec t used hi (.allocSegments n)
  refine ⟨t', h3, ?_⟩
  simp only [MemoryManager.Op.run, MemoryManager.Op.spec] at h1 h2
  by_cases hn : n ≤ (MemoryManager.freeIds t.max used).length
  · left
    rw [if_pos hn] at h1 h2
    refine ⟨hn, ?_, h2⟩
    cases ha : MemoryManager.allocSegments t n with
    | none => rw [ha] at h1; simp at h1
    | some r => rw [ha] at h1; simp at h1; obtain ⟨a, b, c⟩ := r; simp at h1; simp [h1]
  · right
    rw [if_neg hn] at h1 h2
    refine ⟨by omega, ?_, h2⟩
    cases ha : MemoryManager.allocSegments t n with
    | none => rw [ha] at h1; simp at h1
    | some r => rw [ha] at h1; simp at h1; obtain ⟨a, b, c⟩ := r; simp at h1; simp [h1]

theorem specFree_perm (segs rest used : List Nat) (h : used.Perm (segs ++ rest)) :
    (MemoryManager.specFree used segs).2 = true ∧ (MemoryManager.specFree used segs).1.Perm rest := by
  induction segs generalizing used with
  | nil => exact ⟨rfl, h⟩
  | cons x segs ih =>
    have hx : x ∈ used := h.mem_iff.2 (by simp)
    have h' : (used.erase x).Perm (segs ++ rest) := by
      have := h.erase x
      simpa using this
    obtain ⟨h1, h2⟩ := ih _ h'
    exact ⟨by simp [MemoryManager.specFree, hx, h1], by simpa [MemoryManager.specFree] using h2⟩

/-! Segments belong to one bundle only. -/

theorem Inv.nodup {cfg : Cfg} {s : State} {outs : List Out} {recs : List Rec} {leaked : List Nat} {H : Nat}
    (h : Inv cfg s outs recs leaked H) : (recs.flatMap Rec.segs ++ leaked ++ s.main.pend).Nodup := by
  obtain ⟨used, h1, h2⟩ := h.used
  exact h2.nodup_iff.1 h1.nodup

theorem Inv.disjoint {cfg : Cfg} {s : State} {outs : List Out} {recs : List Rec} {leaked : List Nat} {H : Nat}
    (h : Inv cfg s outs recs leaked H) {r r' : Rec} (hr : r ∈ recs) (hr' : r' ∈ recs) {x : Nat}
    (hx : x ∈ r.segs) (hx' : x ∈ r'.segs) : r = r' := by
  have hn := h.nodup
  rw [List.append_assoc, List.nodup_append] at hn
  have hp := (List.nodup_flatMap.1 hn.1).2
  by_contra hne
  have : Std.Symm (Function.onFun List.Disjoint Rec.segs) := ⟨fun a b hab x h1 h2 => hab h2 h1⟩
  have := List.Pairwise.forall hp hr hr' hne
  exact this hx hx'

theorem Inv.segsNodup {cfg : Cfg} {s : State} {outs : List Out} {recs : List Rec} {leaked : List Nat} {H : Nat}
    (h : Inv cfg s outs recs leaked H) {r : Rec} (hr : r ∈ recs) : r.segs.Nodup := by
  have hn := h.nodup
  rw [List.append_assoc, List.nodup_append] at hn
  exact (List.nodup_flatMap.1 hn.1).1 r hr

theorem Inv.pendFresh {cfg : Cfg} {s : State} {outs : List Out} {recs : List Rec} {leaked : List Nat} {H : Nat}
    (h : Inv cfg s outs recs leaked H) {x : Nat} (hx : x ∈ s.main.pend) :
    (∀ r ∈ recs, x ∉ r.segs) ∧ x ∉ leaked := by
  have hn := h.nodup
  rw [List.nodup_append] at hn
  refine ⟨fun r hr hxr => hn.2.2 x ?_ x hx rfl, fun hl => hn.2.2 x ?_ x hx rfl⟩
  · simp only [List.mem_append, List.mem_flatMap]; exact Or.inl ⟨r, hr, hxr⟩
  · simp [hl]

theorem Inv.rec_of {cfg : Cfg} {s : State} {outs : List Out} {recs : List Rec} {leaked : List Nat} {H : Nat}
    (h : Inv cfg s outs recs leaked H) {id : Nat} {e : Entry} (he : s.cat.entry id = some e) :
    ∃ r ∈ recs, r.id = id ∧ e = r.entry ∧ r.Ok cfg ∧ contentOf outs id = some r.data ∧ r.data.length ≠ 0 := by
  obtain ⟨r, hr, h1, h2⟩ := (h.entries id e).1 he
  have hok := h.ok r hr
  refine ⟨r, hr, h1, h2, hok, (h.content id r.data).2 ⟨r, hr, h1, rfl⟩, ?_⟩
  have := hok.ne
  simpa using this

/-! Taking and giving back. -/

theorem inv_take {cfg : Cfg} {s s' : State} {outs o : List Out} {recs : List Rec} {leaked : List Nat} {H : Nat}
    (h : Inv cfg s outs recs leaked H) (hi : s.main = .idle) (sel : Selection)
    (hs : take s sel = some (s', o)) :
    Inv cfg s' (outs ++ o) recs leaked H ∧ ∀ x ∈ o, x.Right cfg (contentOf outs) := by
  obtain ⟨ids, hc⟩ := inv_reachable _ h.reach
  have hm : ∀ s2 : State, s2.main = s.main → s2.queues = s.queues → MainOk cfg s2 recs H := by
    intro s2 h1 h2
    unfold MainOk
    rw [h1, hi, h2]
    exact h.noReads hi
  unfold take at hs
  split at hs
  · simp at hs
  · rename_i hp
    simp only [Option.some.injEq, Prod.mk.injEq] at hs
    obtain ⟨rfl, rfl⟩ := hs
    exact ⟨h.congr rfl rfl rfl rfl rfl h.reach (fun _ => rfl) h.idx (fun _ => rfl) (hm _ rfl rfl),
      by simp [Out.Right]⟩
  · rename_i id c hp
    simp only [Option.some.injEq, Prod.mk.injEq] at hs
    obtain ⟨rfl, rfl⟩ := hs
    rcases pop_spec s.cat hc.good.wf sel with ⟨h1, _⟩ | ⟨d, p, x, id', rest, _, _, _, _, _, h1⟩
    · rw [h1] at hp; simp at hp
    · have hp' := hp
      rw [h1] at hp
      simp only [Pop.taken.injEq] at hp
      refine ⟨h.congr rfl rfl rfl rfl rfl (.step _ _ _ h.reach (.take _ _ _ sel id none hp'))
        (fun k => by rw [← hp.2.2]; rfl) h.idx (fun _ => rfl) (hm _ rfl rfl), by simp [Out.Right]⟩
  · rename_i id e c hp
    simp only [Option.some.injEq, Prod.mk.injEq] at hs
    obtain ⟨rfl, rfl⟩ := hs
    rcases pop_spec s.cat hc.good.wf sel with ⟨h1, _⟩ | ⟨d, p, x, id', rest, _, _, _, _, _, h1⟩
    · rw [h1] at hp; simp at hp
    · have hp' := hp
      rw [h1] at hp
      simp only [Pop.taken.injEq] at hp
      refine ⟨h.congr rfl rfl rfl rfl rfl (.step _ _ _ h.reach (.take _ _ _ sel id (some e) hp'))
        (fun k => by rw [← hp.2.2]; rfl) ⟨rfl, rfl⟩ (fun _ => rfl) (hm _ rfl rfl), ?_⟩
      obtain ⟨hp1, hp2, hp3⟩ := hp
      rw [hp1] at hp2
      obtain ⟨r, hr, a1, a2, a3, a4, _⟩ := h.rec_of hp2
      intro x hx
      simp only [List.mem_singleton] at hx
      subst hx
      exact ⟨r.data, a4, by rw [a2]; rfl⟩

theorem inv_giveBack {cfg : Cfg} {s s' : State} {outs o : List Out} {recs : List Rec} {leaked : List Nat} {H : Nat}
    (h : Inv cfg s outs recs leaked H) (hi : s.main = .idle) (id : Nat) (ha : id ∈ s.taken)
    (hs : giveBack s id = some (s', o)) :
    Inv cfg s' (outs ++ o) recs leaked H ∧ ∀ x ∈ o, x.Right cfg (contentOf outs) := by
  obtain ⟨ids, hc⟩ := inv_reachable _ h.reach
  unfold giveBack at hs
  split at hs
  · rename_i hn
    have := hc.flKnown id ha
    simp only [hn] at this
    simp at this
  · rename_i e he
    obtain ⟨hp, henc⟩ := hc.entryGood id e he
    obtain ⟨c', h1, _, _, ds, hds⟩ := giveBack_spec s.cat hc.good.wf e id hp henc
    rw [h1] at hs
    simp only [Option.some.injEq, Prod.mk.injEq] at hs
    obtain ⟨rfl, rfl⟩ := hs
    obtain ⟨r, hr, a1, a2, a3, a4, _⟩ := h.rec_of he
    refine ⟨h.congr rfl rfl rfl rfl rfl (.step _ _ _ h.reach (.giveBack _ _ _ id e true ha he h1))
      (fun k => by rw [hds]; rfl) h.idx (fun _ => rfl) ?_, ?_⟩
    · unfold MainOk
      simp only [hi]
      exact h.noReads hi
    · intro x hx
      simp only [List.mem_singleton] at hx
      subst hx
      exact ⟨rfl, by rw [a4]; rfl⟩

/-! Storing. -/

theorem inv_store {cfg : Cfg} (hv : cfg.Valid) {s s' : State} {outs o : List Out} {recs : List Rec}
    {leaked : List Nat} {H : Nat} (h : Inv cfg s outs recs leaked H) (hi : s.main = .idle) (p : Primary)
    (data : Bytes) (ps : Nat) (mask : Option Eid) (id : Nat) (h1 : s.cat.entry id = none)
    (h2 : p.priority < 3) (h3 : id < 2 ^ 64) (h4 : ps < 2 ^ 64) (h5 : data.length < 2 ^ 64 - 1)
    (h6 : Starts cfg data p) (hs : store cfg s p data ps mask id = some (s', o)) :
    Inv cfg s' (outs ++ o) recs leaked H ∧ ∀ x ∈ o, x.Right cfg (contentOf outs) := by
  obtain ⟨used, hu, hperm⟩ := h.used
  have hpend : s.main.pend = [] := by rw [hi]; rfl
  have hhead : s.main.head = none := by rw [hi]; rfl
  rw [hpend, List.append_nil] at hperm
  have hidle : MainOk cfg { s with main := .idle } recs H := by
    unfold MainOk
    exact h.noReads hi
  have key : ∀ (t' : MemoryManager.Tree) (m : Main) (o : List Out) (used' : List Nat), t'.max = s.tree.max →
      MemoryManager.Inv t' used' → used'.Perm (recs.flatMap Rec.segs ++ leaked ++ m.pend) → m.head = none →
      (∀ m, o.foldl contentStep m = m) → MainOk cfg { s with tree := t', main := m } recs H →
      Inv cfg { s with tree := t', main := m } (outs ++ o) recs leaked H := by
    intro t' m o used' e1 e2 e3 e4 e5 e6
    exact ⟨⟨h.disk.len, h.disk.jobs, h.disk.shape, h.disk.bound⟩, h.reach, h.entries, h.distinct, h.ok,
      by rw [contentOf_append, e5]; exact h.content, ⟨used', e2, e3⟩, e1.trans h.max, h.below, h.blocks,
      fun seg b hb hr hl _ => h.nonHead seg b hb hr hl (by rw [hhead]; simp),
      fun hd => h.leak fun id hid => hd id (by simp [hid]), h.idx, e6⟩
  obtain ⟨t', hmax, hc⟩ := alloc_cases hu (cfg.segsFor data.length)
  unfold store at hs
  rcases hc with ⟨hn, ha, hinv⟩ | ⟨hn, ha, hinv⟩
  · rw [ha] at hs
    simp only [Bool.true_and, decide_eq_true_eq] at hs
    split at hs
    · rename_i hn0
      simp only [Option.some.injEq, Prod.mk.injEq] at hs
      obtain ⟨rfl, rfl⟩ := hs
      set segs := (MemoryManager.freeIds s.tree.max used).take (cfg.segsFor data.length) with hsegs
      have hlen : segs.length = cfg.segsFor data.length := by rw [hsegs, List.length_take]; omega
      refine ⟨key t' _ [] _ hmax hinv ?_ ?_ (fun _ => rfl) ?_, by simp⟩
      · refine (List.perm_append_comm).trans ?_
        exact List.Perm.append hperm (List.reverse_perm _)
      · simp [Main.head]
      · unfold MainOk
        refine ⟨h.noReads hi, h1, ps, mask, rfl, ?_, ?_, ?_, ?_⟩
        · refine ⟨hlen, fun hd => ?_, h2, h3, h4, h5, h6, fun x hx => ?_⟩
          · have hd' : data = [] := hd
            rw [hd'] at hn0
            exact hn0 ((segsFor_spec hv 0).2.2.1 rfl)
          · have := List.mem_of_mem_take hx
            rw [MemoryManager.mem_freeIds, h.max] at this
            exact this.1
        · show 0 < segs.length
          omega
        · intro j seg hj; omega
        · simp only [List.drop_zero]
          have hH : H ≤ s.tree.max := by rw [h.max]; exact h.disk.bound
          exact take_split _ _ _ used hH fun x hx => h.below x (hperm.mem_iff.1 hx)
    · rename_i hn0
      simp only [ne_eq, Decidable.not_not] at hn0
      simp only [Option.some.injEq, Prod.mk.injEq] at hs
      obtain ⟨rfl, rfl⟩ := hs
      have := key t' .idle [.refused id] used hmax (by simpa [hn0] using hinv)
        (by simpa [Main.pend] using hperm) rfl (fun _ => rfl) hidle
      rw [← hi] at this
      exact ⟨this, by simp [Out.Right]⟩
  · rw [ha] at hs
    simp only [Bool.false_and, Bool.false_eq_true, if_false, Option.some.injEq, Prod.mk.injEq] at hs
    obtain ⟨rfl, rfl⟩ := hs
    have := key t' .idle [.refused id] used hmax hinv (by simpa [Main.pend] using hperm) rfl (fun _ => rfl) hidle
    rw [← hi] at this
    exact ⟨this, by simp [Out.Right]⟩

theorem bytes_size {cfg : Cfg} (hd : Header) (hs : hd.size < 2 ^ 64) (rest : Bytes) :
    fromLe ((hd.bytes cfg ++ rest).take 8) = hd.size := by
  have a1 : (hd.bytes cfg ++ rest).take 8 = le 8 hd.size := by
    unfold Header.bytes
    simp only [List.append_assoc]
    rw [List.take_left' (by simp)]
  rw [a1, fromLe_le _ _ (by norm_num; exact hs)]

/-- What a turn of the loop of a store does to the disks and the bundles. -/
structure Pushed (cfg : Cfg) (s s' : State) (o : List Out) (recs recs' : List Rec) (H H' : Nat) (e : Entry)
    (data : Bytes) (id i seg : Nat) (b : Bytes) : Prop where
  here : e.segments[i]? = some seg
  queues : s'.queues = fun d => if d = seg % cfg.disks then s.queues d ++ [.write seg b] else s.queues d
  files : s'.files = s.files
  le : seg ≤ H
  next : H' = if seg = H then H + 1 else H
  out : (i + 1 = e.segments.length ∧ o = [.stored id data] ∧ s'.main = .idle ∧ ∃ r, recs' = r :: recs ∧
      r.id = id ∧ r.data = data ∧ r.segs = e.segments ∧ r.Block cfg i b) ∨
    o = [.duplicate id] ∨
    (i + 1 ≠ e.segments.length ∧ o = [])

theorem inv_push {cfg : Cfg} (hv : cfg.Valid) {s s' : State} {outs o : List Out} {recs : List Rec}
    {leaked : List Nat} {H : Nat} (h : Inv cfg s outs recs leaked H) (junk : Bytes)
    (hs : push cfg s junk = some (s', o)) :
    ∃ recs' leaked' H', Inv cfg s' (outs ++ o) recs' leaked' H' ∧ (∀ x ∈ o, x.Right cfg (contentOf outs)) ∧
      ∃ e p id data i seg b, s.main = .pushing e p id data i ∧
        Pushed cfg s s' o recs recs' H H' e data id i seg b := by
  have hmain := h.main
  unfold MainOk at hmain
  unfold push at hs
  split at hs
  · rename_i e p id data i hm
    rw [hm] at hmain
    obtain ⟨hnr, hfresh, ps, mask, he, hok, hi, hdone, l, k, hdrop, hl⟩ := hmain
    have hpend : s.main.pend = e.segments := by rw [hm]; rfl
    obtain ⟨used, hu, hperm⟩ := h.used
    rw [hpend] at hperm
    have hseg : e.segments[i]? = some e.segments[i] := List.getElem?_eq_getElem hi
    rw [hseg] at hs
    simp only at hs
    generalize hsv : e.segments[i] = seg at hs hseg
    have hmem : seg ∈ e.segments := List.mem_of_getElem? hseg
    have hpm : seg ∈ s.main.pend := by rw [hpend]; exact hmem
    obtain ⟨hf1, hf2⟩ := h.pendFresh hpm
    have hsn : e.segments.Nodup := by
      have := h.nodup
      rw [List.nodup_append] at this
      rw [← hpend]; exact this.2.1
    have hlt : seg < cfg.maxSegments := hok.lt seg hmem
    have hdc : e.segments.drop i = seg :: e.segments.drop (i + 1) := by
      rw [← hsv]; exact List.drop_eq_getElem_cons hi
    have hsegH : seg ≤ H ∧ ∃ l' k', e.segments.drop (i + 1) = l' ++ List.range' (if seg = H then H + 1 else H) k' ∧
        ∀ x ∈ l', x < (if seg = H then H + 1 else H) := by
      rw [hdc] at hdrop
      cases l with
      | nil =>
        cases k with
        | zero => simp at hdrop
        | succ k =>
          rw [List.nil_append, List.range'_succ] at hdrop
          simp only [List.cons.injEq] at hdrop
          exact ⟨by omega, [], k, by rw [if_pos hdrop.1, hdrop.2, List.nil_append], by simp⟩
      | cons y l =>
        simp only [List.cons_append, List.cons.injEq] at hdrop
        have := hl y (by simp)
        have hne : ¬ seg = H := by omega
        exact ⟨by omega, l, k, by rw [if_neg hne]; exact hdrop.2,
          fun x hx => by rw [if_neg hne]; exact hl x (by simp [hx])⟩
    obtain ⟨hsegH, l', k', hdrop', hl'⟩ := hsegH
    split at hs
    · simp at hs
    · rename_i hguard
      push Not at hguard
      set r : Rec := ⟨id, p, ps, mask, data, e.segments⟩ with hr
      have hph : ∀ j, pushHeader cfg e id j = pushHeader cfg r.entry r.id j := fun j => by
        rw [he]; rfl
      set block := (pushHeader cfg e id i).bytes cfg ++
        (data.drop (i * cfg.perSeg)).take (chunkSize cfg data.length e.segments.length i) ++ junk with hblock
      have hB : r.Block cfg i block := ⟨hguard.2, junk, by rw [hblock, hph]⟩
      have hes : e.bundleSize = data.length := by rw [he]; rfl
      have hsz : (pushHeader cfg e id i).size < 2 ^ 64 := by
        have := hok.size
        simp only [pushHeader, hes, U64]
        split
        · show data.length < 2 ^ 64
          have h' : data.length < 2 ^ 64 - 1 := this
          omega
        · norm_num
      have hbs : fromLe (block.take 8) = (pushHeader cfg e id i).size := by
        rw [hblock, List.append_assoc]; exact bytes_size _ hsz _
      cases henq : s.enqueue cfg seg (.write seg block) with
      | none => rw [henq] at hs; simp at hs
      | some s1 =>
        rw [henq] at hs
        simp only at hs
        obtain ⟨hs1, himg, hdisk, hnr'⟩ := enqueue_write hv h.disk seg block hsegH hlt hnr henq
        have hcat1 : s1.cat = s.cat := by rw [hs1]
        have htree1 : s1.tree = s.tree := by rw [hs1]
        have htaken1 : s1.taken = s.taken := by rw [hs1]
        have hsess1 : s1.sess = s.sess := by rw [hs1]
        have hfiles1 : s1.files = s.files := by rw [hs1]
        have hq1 := enqueue_queues henq
        generalize hH' : (if seg = H then H + 1 else H) = H' at hdisk hdrop' hl'
        have hHle : H ≤ H' ∧ seg < H' := by subst hH'; split <;> omega
        have hblocks : ∀ r' ∈ recs, ∀ j sg, r'.segs[j]? = some sg →
            ∃ b, s1.image cfg sg = some b ∧ r'.Block cfg j b := by
          intro r' hr' j sg hj
          obtain ⟨b, hb, hb'⟩ := h.blocks r' hr' j sg hj
          refine ⟨b, ?_, hb'⟩
          rw [himg, if_neg, hb]
          intro hh
          exact hf1 r' hr' (hh ▸ List.mem_of_getElem? hj)
        have hmine : ∀ j sg, j < i + 1 → e.segments[j]? = some sg → ∃ b, s1.image cfg sg = some b ∧
            r.Block cfg j b := by
          intro j sg hj hg
          by_cases hji : j = i
          · subst hji
            rw [hseg] at hg
            simp only [Option.some.injEq] at hg
            subst hg
            exact ⟨block, by rw [himg, if_pos rfl], hB⟩
          · obtain ⟨b, hb, hb'⟩ := hdone j sg (by omega) hg
            refine ⟨b, ?_, hb'⟩
            rw [himg, if_neg, hb]
            intro hh
            subst hh
            have := (List.nodup_iff_injective_get.1 hsn)
            have hjl : j < e.segments.length := by
              rw [List.getElem?_eq_some_iff] at hg; exact hg.1
            exact hji (hsn.getElem_inj_iff.1 (show e.segments[j] = e.segments[i] by
              rw [hsv]; rw [List.getElem?_eq_some_iff] at hg; exact hg.2))
        have hnon : ∀ sg b, s1.image cfg sg = some b → (∀ r' ∈ recs, r'.segs[0]? ≠ some sg) → sg ∉ leaked →
            e.segments[0]? ≠ some sg → fromLe (b.take 8) = U64 - 1 := by
          intro sg b hb hr' hlk hne
          rw [himg] at hb
          by_cases hsg : sg = seg
          · rw [if_pos hsg] at hb
            simp only [Option.some.injEq] at hb
            subst hb
            rw [hbs]
            have : i ≠ 0 := by
              intro h0
              subst h0
              rw [hsg] at hne
              exact hne hseg
            simp [pushHeader, this]
          · rw [if_neg hsg] at hb
            refine h.nonHead sg b hb hr' hlk ?_
            rw [hm]
            simp only [Main.head]
            split
            · simp
            · exact hne
        split at hs
        · rename_i hlast
          have hst := store_spec s1.cat (by
            obtain ⟨ids, hc⟩ := inv_reachable _ h.reach
            rw [hcat1]; exact hc.good) p data.length ps e.segments mask id false (by rw [hcat1]; exact hfresh) hok.prio
          rw [← he] at hst
          simp only [Bool.false_eq_true, if_false] at hst
          have hbelow : ∀ x ∈ e.segments, x < H' := by
            intro x hx
            obtain ⟨j, hj, hjx⟩ := List.getElem_of_mem hx
            obtain ⟨b, hb, _⟩ := hmine j x (by omega) (by rw [List.getElem?_eq_getElem hj, hjx])
            exact (hdisk.len x).1 (by rw [hb]; rfl)
          rcases hst with ⟨hst, hdup⟩ | ⟨hnd, c', hst, _, _, hent, _⟩
          · rw [hst] at hs
            simp only [Option.some.injEq, Prod.mk.injEq] at hs
            obtain ⟨rfl, rfl⟩ := hs
            refine ⟨recs, leaked ++ e.segments, H', ?_, by simp [Out.Right], e, p, id, data, i, seg, block, hm,
              hseg, hq1, hfiles1, hsegH, hH'.symm, Or.inr (Or.inl rfl)⟩
            refine ⟨⟨hdisk.len, hdisk.jobs, hdisk.shape, hdisk.bound⟩, by
              show Reachable (s1.cat, s1.taken)
              rw [hcat1, htaken1]; exact h.reach, by
              show ∀ id e, s1.cat.entry id = some e ↔ _
              rw [hcat1]; exact h.entries, h.distinct, h.ok,
              by rw [contentOf_append]; exact h.content, ⟨used, by
              show MemoryManager.Inv s1.tree used
              rw [htree1]; exact hu, by simpa [Main.pend] using hperm⟩, by
              show s1.tree.max = _
              rw [htree1]; exact h.max, ?_, hblocks, ?_, ?_, by
              show s1.sess.readIdx = _ ∧ _
              rw [hsess1]; exact h.idx, ?_⟩
            · intro x hx
              rw [← List.append_assoc, List.mem_append] at hx
              rcases hx with hx | hx
              · have := h.below x hx; omega
              · exact hbelow x hx
            · intro sg b hb hr' hlk _
              simp only [List.mem_append, not_or] at hlk
              exact hnon sg b hb hr' hlk.1 fun h0 => hlk.2 (List.mem_of_getElem? h0)
            · intro hd
              exact absurd (show Out.duplicate id ∈ outs ++ [Out.duplicate id] by simp) (hd id)
            · unfold MainOk; exact hnr'
          · rw [hst] at hs
            simp only [Option.some.injEq, Prod.mk.injEq] at hs
            obtain ⟨rfl, rfl⟩ := hs
            have hnew : ∀ r' ∈ recs, r'.id ≠ id := by
              intro r' hr' hid
              have := (h.entries id r'.entry).2 ⟨r', hr', hid, rfl⟩
              rw [hfresh] at this; simp at this
            have hempty : contentOf outs id = none := by
              cases hc : contentOf outs id with
              | none => rfl
              | some d =>
                obtain ⟨r', hr', hid, _⟩ := (h.content id d).1 hc
                exact absurd hid (hnew r' hr')
            refine ⟨r :: recs, leaked, H', ?_, ?_, e, p, id, data, i, seg, block, hm, hseg, hq1, hfiles1, hsegH,
              hH'.symm, Or.inl ⟨hlast, rfl, rfl, r, rfl, rfl, rfl, rfl, hB⟩⟩
            · refine ⟨⟨hdisk.len, hdisk.jobs, hdisk.shape, hdisk.bound⟩, ?_, ?_, ?_, ?_, ?_, ⟨used, by
                show MemoryManager.Inv s1.tree used
                rw [htree1]; exact hu, ?_⟩, by
                show s1.tree.max = _
                rw [htree1]; exact h.max, ?_, ?_, ?_, ?_, by
                show s1.sess.readIdx = _ ∧ _
                rw [hsess1]; exact h.idx, ?_⟩
              · show Reachable (c', s1.taken)
                rw [htaken1]
                refine .step _ _ _ h.reach (.store s.cat c' s.taken p data.length ps e.segments mask id false true
                  hfresh hok.prio ?_)
                rw [← he, ← hcat1]; exact hst
              · intro id' e'
                show c'.entry id' = some e' ↔ _
                rw [hent, hcat1]
                by_cases hid : id' = id
                · subst hid
                  simp only [if_true, Option.some.injEq, List.mem_cons, exists_eq_or_imp]
                  constructor
                  · intro hh; exact Or.inl ⟨rfl, hh.symm⟩
                  · rintro (⟨_, hh⟩ | ⟨r', hr', hid', _⟩)
                    · exact hh.symm
                    · exact absurd hid' (hnew r' hr')
                · rw [if_neg hid, h.entries]
                  simp only [List.mem_cons, exists_eq_or_imp]
                  constructor
                  · exact Or.inr
                  · rintro (⟨hh, _⟩ | hh)
                    · exact absurd hh.symm hid
                    · exact hh
              · simp only [List.map_cons, List.nodup_cons]
                refine ⟨?_, h.distinct⟩
                rw [List.mem_map]
                rintro ⟨r', hr', hid⟩
                exact hnew r' hr' hid
              · intro r' hr'
                rcases List.mem_cons.1 hr' with rfl | hr'
                · exact hok
                · exact h.ok r' hr'
              · intro id' d
                rw [contentOf_append]
                simp only [List.foldl_cons, List.foldl_nil, contentStep]
                by_cases hid : id' = id
                · subst hid
                  simp only [if_true, Option.some.injEq, List.mem_cons, exists_eq_or_imp]
                  constructor
                  · intro hh; exact Or.inl ⟨rfl, hh⟩
                  · rintro (⟨_, hh⟩ | ⟨r', hr', hid', _⟩)
                    · exact hh
                    · exact absurd hid' (hnew r' hr')
                · rw [if_neg hid, h.content]
                  simp only [List.mem_cons, exists_eq_or_imp]
                  constructor
                  · exact Or.inr
                  · rintro (⟨hh, _⟩ | hh)
                    · exact absurd hh.symm hid
                    · exact hh
              · simp only [Main.pend, List.append_nil, List.flatMap_cons, List.append_assoc]
                refine hperm.trans ?_
                show List.Perm _ (e.segments ++ (recs.flatMap Rec.segs ++ leaked))
                exact List.perm_append_comm
              · intro x hx
                simp only [List.flatMap_cons, List.append_assoc, List.mem_append] at hx
                rcases hx with hx | hx
                · exact hbelow x hx
                · have := h.below x (by simpa using hx); omega
              · intro r' hr' j sg hj
                rcases List.mem_cons.1 hr' with rfl | hr'
                · refine hmine j sg ?_ hj
                  have : j < e.segments.length := by
                    have hj' : e.segments[j]? = some sg := hj
                    rw [List.getElem?_eq_some_iff] at hj'; exact hj'.1
                  omega
                · exact hblocks r' hr' j sg hj
              · intro sg b hb hr' hlk _
                exact hnon sg b hb (fun r' hh => hr' r' (by simp [hh])) hlk (hr' r (by simp))
              · intro hd; exact h.leak fun id hid => hd id (by simp [hid])
              · unfold MainOk; exact hnr'
            · intro x hx
              simp only [List.mem_singleton] at hx
              subst hx
              exact ⟨hok.ne, hempty⟩
        · rename_i hlast
          simp only [Option.some.injEq, Prod.mk.injEq] at hs
          obtain ⟨rfl, rfl⟩ := hs
          refine ⟨recs, leaked, H', ?_, by simp, e, p, id, data, i, seg, block, hm, hseg, hq1, hfiles1, hsegH,
            hH'.symm, Or.inr (Or.inr ⟨hlast, rfl⟩)⟩
          refine ⟨⟨hdisk.len, hdisk.jobs, hdisk.shape, hdisk.bound⟩, by
            show Reachable (s1.cat, s1.taken)
            rw [hcat1, htaken1]; exact h.reach, by
            show ∀ id e, s1.cat.entry id = some e ↔ _
            rw [hcat1]; exact h.entries, h.distinct, h.ok,
            by rw [contentOf_append]; exact h.content, ⟨used, by
            show MemoryManager.Inv s1.tree used
            rw [htree1]; exact hu, by simpa [Main.pend] using hperm⟩, by
            show s1.tree.max = _
            rw [htree1]; exact h.max, ?_, hblocks, ?_, ?_, by
            show s1.sess.readIdx = _ ∧ _
            rw [hsess1]; exact h.idx, ?_⟩
          · intro x hx; have := h.below x hx; omega
          · intro sg b hb hr' hlk hne
            refine hnon sg b hb hr' hlk ?_
            simpa [Main.head] using hne
          · intro hd; exact h.leak fun id hid => hd id (by simp [hid])
          · unfold MainOk
            refine ⟨hnr', ?_, ps, mask, he, hok, by omega, hmine, l', k', hdrop', hl'⟩
            show s1.cat.entry id = none
            rw [hcat1]; exact hfresh
  · simp at hs

/-! Reading. -/

theorem inv_readAll {cfg : Cfg} (hv : cfg.Valid) {s s' : State} {outs o : List Out} {recs : List Rec}
    {leaked : List Nat} {H : Nat} (h : Inv cfg s outs recs leaked H) (hi : s.main = .idle)
    (ha : s.sess.next = 0 ∧ s.sess.nextCache = 0) (hs : readAll s = some (s', o)) :
    Inv cfg s' (outs ++ o) recs leaked H ∧ ∀ x ∈ o, x.Right cfg (contentOf outs) := by
  unfold readAll at hs
  split at hs
  · simp at hs
  · rename_i id hid
    split at hs
    · simp at hs
    · rename_i e he
      obtain ⟨r, hr, a1, a2, a3, a4, a5⟩ := h.rec_of he
      have hlen : e.segments.length = cfg.segsFor r.data.length := by rw [a2]; exact a3.len
      have hpos := (segsFor_spec hv r.data.length).2.1 (by omega)
      rw [if_neg (by omega)] at hs
      simp only [Option.some.injEq, Prod.mk.injEq] at hs
      obtain ⟨rfl, rfl⟩ := hs
      refine ⟨?_, by simp⟩
      refine h.congr rfl rfl (by rw [hi]; rfl) (by rw [hi]; rfl) rfl h.reach (fun _ => rfl) h.idx (fun _ => rfl) ?_
      unfold MainOk
      refine ⟨r, hr, a1, a2, by rw [a2]; rfl, by omega, by rw [a2]; simp [Rec.entry, entryOf, Entry.init],
        by simp, by simp, ha.1, by simp, ?_⟩
      refine ⟨by simp [ha.1], by simp [ha.2], by simp [ha.1, ha.2], ?_, ?_, ?_⟩
      · intro k seg h1 h2; simp only [ha.2] at h2; omega
      · intro d seg slot hj; have := h.noReads hi d _ hj; simp [Job.isRead] at this
      · intro d
        have : (s.queues d).filter Job.isRead = [] := by
          rw [List.filter_eq_nil_iff]; intro j hj; simp [h.noReads hi d j hj]
        simp only [this]; exact List.nodup_nil

theorem inv_readFirst {cfg : Cfg} (hv : cfg.Valid) {s s' : State} {outs o : List Out} {recs : List Rec}
    {leaked : List Nat} {H : Nat} (h : Inv cfg s outs recs leaked H) (hi : s.main = .idle) (id : Nat)
    (ha : ∀ e, s.cat.entry id = some e → e.segments.length ≤ 1) (hs : readFirst cfg s id = some (s', o)) :
    Inv cfg s' (outs ++ o) recs leaked H ∧ ∀ x ∈ o, x.Right cfg (contentOf outs) := by
  have hidle : ∀ s2 : State, s2.main = s.main → s2.queues = s.queues → MainOk cfg s2 recs H := by
    intro s2 h1 h2
    unfold MainOk
    rw [h1, hi, h2]
    exact h.noReads hi
  unfold readFirst at hs
  split at hs
  · rename_i he
    simp only [Option.some.injEq, Prod.mk.injEq] at hs
    obtain ⟨rfl, rfl⟩ := hs
    refine ⟨h.congr rfl rfl rfl rfl rfl h.reach (fun _ => rfl) h.idx (fun _ => rfl) (hidle _ rfl rfl), ?_⟩
    intro x hx
    simp only [List.mem_singleton] at hx
    subst hx
    refine Or.inl ⟨?_, rfl, rfl⟩
    cases hc : contentOf outs id with
    | none => rfl
    | some d =>
      obtain ⟨r, hr, h1, h2⟩ := (h.content id d).1 hc
      have := (h.entries id r.entry).2 ⟨r, hr, h1, rfl⟩
      rw [he] at this; simp at this
  · rename_i e he
    obtain ⟨r, hr, a1, a2, a3, a4, a5⟩ := h.rec_of he
    have hlen : e.segments.length = cfg.segsFor r.data.length := by rw [a2]; exact a3.len
    have hpos := (segsFor_spec hv r.data.length).2.1 (by omega)
    have hone := ha e he
    have h1 : cfg.segsFor r.data.length = 1 := by omega
    have hle := (segsFor_spec hv r.data.length).1
    rw [h1] at hle
    rw [if_neg (by omega)] at hs
    simp only [Option.some.injEq, Prod.mk.injEq] at hs
    obtain ⟨rfl, rfl⟩ := hs
    have hbs : e.bundleSize = r.data.length := by rw [a2]; rfl
    have hrl : r.segs.length = 1 := by rw [a3.len]; exact h1
    refine ⟨?_, by simp⟩
    refine h.congr rfl rfl (by rw [hi]; rfl) (by rw [hi]; rfl) rfl h.reach (fun _ => rfl) ⟨rfl, rfl⟩ (fun _ => rfl) ?_
    unfold MainOk
    refine ⟨r, hr, a1, a2, hrl.symm, by omega, by rw [List.length_replicate, hbs]; omega,
      by simp, by simp, rfl, by simp, ?_⟩
    refine ⟨by simp, by simp, by simp, ?_, ?_, ?_⟩
    · intro k seg h1 h2; simp only at h2; omega
    · intro d seg slot hj; have := h.noReads hi d _ hj; simp [Job.isRead] at this
    · intro d
      have : (s.queues d).filter Job.isRead = [] := by
        rw [List.filter_eq_nil_iff]; intro j hj; simp [h.noReads hi d j hj]
      simp only [this]; exact List.nodup_nil

theorem inv_cacheNext {cfg : Cfg} {s s' : State} {outs o : List Out} {recs : List Rec}
    {leaked : List Nat} {H : Nat} (h : Inv cfg s outs recs leaked H) (hs : cacheNext cfg s = some (s', o)) :
    Inv cfg s' (outs ++ o) recs leaked H ∧ ∀ x ∈ o, x.Right cfg (contentOf outs) := by
  have hmain := h.main
  unfold MainOk at hmain
  unfold cacheNext at hs
  split at hs
  · rename_i first id e count i buf got hm
    rw [hm] at hmain
    obtain ⟨r, hr, b1, b2, b3, b4, b5, b6, b7, b8, b9, hw⟩ := hmain
    split at hs
    · rename_i hah
      simp only [ahead, Bool.and_eq_true, decide_eq_true_eq] at hah
      split at hs
      · simp at hs
      · rename_i seg hseg
        have hes : e.segments = r.segs := by rw [b2]; rfl
        rw [hes] at hseg hah
        cases henq : s.enqueue cfg seg (.read seg s.sess.writeIdx) with
        | none => rw [henq] at hs; simp at hs
        | some s1 =>
          rw [henq] at hs
          simp only [Option.some.injEq, Prod.mk.injEq] at hs
          obtain ⟨rfl, rfl⟩ := hs
          obtain ⟨hs1, himg, hdisk⟩ := enqueue_read h.disk seg s.sess.writeIdx
            ((h.ok r hr).lt seg (List.mem_of_getElem? hseg)) henq
          have hidx := h.idx
          have hq1 : s1.queues = fun d => if d = seg % cfg.disks then s.queues d ++ [Job.read seg s.sess.writeIdx]
            else s.queues d := by rw [hs1]
          have himg' : s1.image cfg = s.image cfg := funext himg
          refine ⟨?_, by simp⟩
          refine ⟨⟨hdisk.len, hdisk.jobs, hdisk.shape, hdisk.bound⟩, by
            show Reachable (s1.cat, s1.taken)
            rw [hs1]; exact h.reach, by
            show ∀ id e, s1.cat.entry id = some e ↔ _
            rw [hs1]; exact h.entries, h.distinct, h.ok,
            by rw [contentOf_append]; exact h.content, by
            show ∃ used, MemoryManager.Inv s1.tree used ∧ used.Perm (_ ++ s1.main.pend)
            rw [hs1]; exact h.used, by
            show s1.tree.max = _
            rw [hs1]; exact h.max, h.below, by
            show ∀ r ∈ recs, ∀ i seg, _ → ∃ b, s1.image cfg seg = some b ∧ _
            rw [himg']; exact h.blocks, by
            show ∀ seg b, s1.image cfg seg = some b → _ → _ → s1.main.head ≠ some seg → _
            rw [himg', hs1]; exact h.nonHead,
            fun hd => h.leak fun id hid => hd id (by simp [hid]), ⟨hidx.1, ?_⟩, ?_⟩
          · show (s.sess.writeIdx + 1) % 50 = (s.sess.nextCache + 1) % 50
            rw [hidx.2]; omega
          · have hm1 : s1.main = s.main := by rw [hs1]
            unfold MainOk
            simp only [hm1, hm]
            refine ⟨r, hr, b1, b2, b3, b4, b5, b6, b7, b8, b9, ?_⟩
            have hw1 := hw.le
            have hw2 := hw.fifty
            refine ⟨by simp only; omega, by simp only; omega, by simp only; omega, ?_, ?_, ?_⟩
            · intro k sg k1 k2 k3
              simp only at k1 k2 ⊢
              show (_ ∧ s1.image cfg sg = some (s1.cache (k % 50))) ∨ (_ ∧ _ ∈ s1.queues _)
              have hc1 : s1.cache = s.cache := by rw [hs1]
              rw [himg', hc1, hq1, hidx.2]
              by_cases hk : k = s.sess.nextCache
              · subst hk
                rw [hseg] at k3
                simp only [Option.some.injEq] at k3
                subst k3
                right
                simp
              · have hne : ¬ k % 50 = s.sess.nextCache % 50 := by omega
                rw [if_neg hne]
                rcases hw.slots k sg k1 (by omega) k3 with hh | ⟨hh, hj⟩
                · exact Or.inl hh
                · refine Or.inr ⟨hh, ?_⟩
                  simp only
                  split
                  · exact List.mem_append_left _ hj
                  · exact hj
            · intro d sg slot hj
              have hj' : Job.read sg slot ∈ s1.queues d := hj
              rw [hq1] at hj'
              simp only at hj' ⊢
              have hold : Job.read sg slot ∈ s.queues d → ∃ k, s.sess.next ≤ k ∧ k < s.sess.nextCache + 1 ∧
                  r.segs[k]? = some sg ∧ slot = k % 50 ∧
                  (if slot = s.sess.writeIdx then false else s.ready slot) = false := by
                intro hj
                obtain ⟨k, c1, c2, c3, c4, c5⟩ := hw.jobs d sg slot hj
                exact ⟨k, c1, by omega, c3, c4, by rw [c5]; simp⟩
              split at hj'
              · rcases List.mem_append.1 hj' with hj' | hj'
                · exact hold hj'
                · simp only [List.mem_singleton, Job.read.injEq] at hj'
                  obtain ⟨rfl, rfl⟩ := hj'
                  exact ⟨s.sess.nextCache, hw1, by omega, hseg, hidx.2, by simp⟩
              · exact hold hj'
            · intro d
              show ((s1.queues d).filter Job.isRead).Nodup
              rw [hq1]
              simp only
              split
              · rw [List.filter_append, List.nodup_append]
                refine ⟨hw.once d, List.Nodup.filter _ (List.nodup_singleton _), ?_⟩
                intro a ha b hb hab
                subst hab
                simp only [List.mem_filter, List.mem_singleton] at ha hb
                rw [hb.1] at ha
                obtain ⟨k, c1, c2, c3, c4, c5⟩ := hw.jobs d _ _ ha.1
                rw [hidx.2] at c4
                omega
              · exact hw.once d
    · simp at hs
  · simp at hs

theorem overlay_spec (buf data : Bytes) (off n : Nat) (h1 : buf.length = data.length)
    (h2 : off + n ≤ data.length) (h3 : buf.take off = data.take off) :
    (overlay buf off ((data.drop off).take n)).length = data.length ∧
    (overlay buf off ((data.drop off).take n)).take (off + n) = data.take (off + n) := by
  have hl : ((data.drop off).take n).length = n := by simp; omega
  unfold overlay
  rw [hl, h3]
  have he : data.take off ++ (data.drop off).take n = data.take (off + n) := by
    rw [List.take_add]
  rw [he]
  constructor
  · simp; omega
  · rw [List.take_append_of_le_length (by simp; omega), List.take_take]
    simp

/-- The header of a block of a bundle, and its part of the bundle. -/
theorem Rec.Block.read {cfg : Cfg} (hv : cfg.Valid) {r : Rec} (hok : r.Ok cfg) {i : Nat} {b : Bytes}
    (hb : r.Block cfg i b) (hi : i < r.segs.length) :
    Header.read cfg b = pushHeader cfg r.entry r.id i ∧
    ((pushHeader cfg r.entry r.id i).next = cfg.last ↔ i + 1 = r.segs.length) ∧
    (b.drop cfg.reserved).take (chunkSize cfg r.data.length r.segs.length i) =
      (r.data.drop (i * cfg.perSeg)).take (chunkSize cfg r.data.length r.segs.length i) ∧
    (pushHeader cfg r.entry r.id i).Fits cfg := by
  obtain ⟨hlen, junk, hb⟩ := hb
  have hseg : r.entry.segments = r.segs := rfl
  have hnext : ∀ n, r.segs[i + 1]? = some n → n < cfg.maxSegments := fun n hn =>
    hok.lt n (List.mem_of_getElem? hn)
  have hml := hv.max_lt_last
  have hll := hv.last_lt
  have hfits : (pushHeader cfg r.entry r.id i).Fits cfg := by
    have h1 := hok.size
    have h2 := hok.ps
    refine ⟨?_, hok.id, ?_, ?_⟩
    · simp only [pushHeader, U64]
      split
      · show r.data.length < 2 ^ 64
        omega
      · norm_num
    · simp only [pushHeader, U64]
      split
      · exact h2
      · norm_num
    · simp only [pushHeader, hseg]
      split
      · rename_i n hn
        have := hnext n hn
        omega
      · exact hll
  refine ⟨?_, ?_, ?_, hfits⟩
  · rw [hb, List.append_assoc]; exact read_bytes cfg _ hfits _
  · simp only [pushHeader, hseg]
    constructor
    · intro hh
      split at hh
      · rename_i n hn
        have := hnext n hn
        omega
      · rename_i hn
        rw [List.getElem?_eq_none_iff] at hn
        omega
    · intro hh
      rw [List.getElem?_eq_none (by omega)]
  · have hfit := (chunk_fits hv r.data.length i (by rw [← hok.len]; exact hi)).1
    rw [← hok.len] at hfit
    rw [hb, List.append_assoc, List.drop_left' (by simp), List.take_left' (by simp; omega)]

theorem inv_consume {cfg : Cfg} (hv : cfg.Valid) {s s' : State} {outs o : List Out} {recs : List Rec}
    {leaked : List Nat} {H : Nat} (h : Inv cfg s outs recs leaked H) (hs : consume cfg s = some (s', o)) :
    Inv cfg s' (outs ++ o) recs leaked H ∧ ∀ x ∈ o, x.Right cfg (contentOf outs) := by
  have hmain := h.main
  unfold MainOk at hmain
  unfold consume at hs
  split at hs
  · rename_i first id e count i buf got hm
    rw [hm] at hmain
    obtain ⟨r, hr, b1, b2, b3, b4, b5, b6, b7, b8, b9, hw⟩ := hmain
    have hes : e.segments = r.segs := by rw [b2]; rfl
    have hbs : e.bundleSize = r.data.length := by rw [b2]; rfl
    have hok := h.ok r hr
    split at hs
    · simp at hs
    · rename_i hg
      simp only [ahead, Bool.or_eq_true, Bool.and_eq_true, decide_eq_true_eq, Bool.not_eq_true', not_or,
        not_and, Bool.not_eq_false] at hg
      obtain ⟨⟨hg1, hg2⟩, hg3⟩ := hg
      rw [hes] at hg1 hg3
      have hw1 := hw.le
      have hw2 := hw.fifty
      have hw3 := hw.len
      have hlt : s.sess.next < s.sess.nextCache := by
        by_contra hh
        have : s.sess.nextCache - s.sess.next < 50 := by omega
        have := hg1 this
        omega
      have hi : i < r.segs.length := by omega
      have hseg : r.segs[i]? = some r.segs[i] := List.getElem?_eq_getElem hi
      have hready : s.ready (i % 50) = true := by rw [← b8, ← h.idx.1]; exact hg2
      have hcache : s.image cfg r.segs[i] = some (s.cache (i % 50)) := by
        rcases hw.slots i r.segs[i] (by omega) (by omega) hseg with hh | hh
        · exact hh.2
        · rw [hready] at hh; simp at hh
      obtain ⟨b, hb, hB⟩ := h.blocks r hr i _ hseg
      rw [hcache] at hb
      simp only [Option.some.injEq] at hb
      rw [hb] at hcache
      obtain ⟨c1, c2, c3, _⟩ := hB.read hv hok hi
      have hri : s.sess.readIdx = i % 50 := by rw [h.idx.1, b8]
      rw [hri, hb] at hs
      simp only [c1] at hs
      have hsize : (if (pushHeader cfg r.entry r.id i).next = cfg.last ∧ e.bundleSize % cfg.perSeg ≠ 0 then
          e.bundleSize % cfg.perSeg else cfg.perSeg) = chunkSize cfg r.data.length r.segs.length i := by
        unfold chunkSize
        rw [hbs]
        simp only [c2]
      rw [hsize, c3] at hs
      have hfit := chunk_fits hv r.data.length i (by rw [← hok.len]; exact hi)
      rw [← hok.len] at hfit
      rw [if_neg (by omega)] at hs
      obtain ⟨o1, o2⟩ := overlay_spec buf r.data (i * cfg.perSeg) (chunkSize cfg r.data.length r.segs.length i) b5
        hfit.1 b6
      have hidx : (s.sess.readIdx + 1) % 50 = (s.sess.next + 1) % 50 := by rw [h.idx.1]; omega
      split at hs
      · rename_i hlast
        have hend : i * cfg.perSeg + chunkSize cfg r.data.length r.segs.length i = r.data.length := by
          have := chunkSize_last hv r.data.length i (by
            have := hok.ne
            have h0 : r.data.length ≠ 0 := by simpa using this
            omega) (by rw [← hok.len]; omega)
          rw [← hok.len] at this
          exact this
        rw [hend, List.take_length] at o2
        have o2' : overlay buf (i * cfg.perSeg)
            ((r.data.drop (i * cfg.perSeg)).take (chunkSize cfg r.data.length r.segs.length i)) = r.data := by
          exact (List.take_of_length_le (Nat.le_of_eq o1)).symm.trans o2
        rw [o2', b7, hend, b5] at hs
        simp only [decide_true, Option.some.injEq, Prod.mk.injEq] at hs
        obtain ⟨rfl, rfl⟩ := hs
        have hcont : contentOf outs id = some r.data := (h.content id r.data).2 ⟨r, hr, b1, rfl⟩
        refine ⟨h.congr rfl rfl (by rw [hm]; rfl) (by rw [hm]; rfl) rfl h.reach (fun _ => rfl) ⟨?_, h.idx.2⟩ ?_ ?_,
          ?_⟩
        · show (i % 50 + 1) % 50 = (s.sess.next + 1) % 50
          rw [← hri]; exact hidx
        · intro m; cases first <;> rfl
        · unfold MainOk
          intro d j hj
          cases j with
          | write => rfl
          | read sg slot =>
            obtain ⟨k, k1, k2, k3, k4, k5⟩ := hw.jobs d sg slot hj
            have : k = i := by omega
            subst this
            rw [k4, hready] at k5
            simp at k5
        · intro x hx
          simp only [List.mem_singleton] at hx
          subst hx
          cases first with
          | false => exact ⟨rfl, hcont⟩
          | true =>
            have hc1 := b9 rfl
            have h1 : cfg.segsFor r.data.length = 1 := by rw [← hok.len]; omega
            have hle := (segsFor_spec hv r.data.length).1
            rw [h1] at hle
            exact Or.inr ⟨rfl, r.data, hcont, (List.take_of_length_le (by omega)).symm⟩
      · rename_i hlast
        simp only [Option.some.injEq, Prod.mk.injEq] at hs
        obtain ⟨rfl, rfl⟩ := hs
        have hmid : chunkSize cfg r.data.length r.segs.length i = cfg.perSeg := chunkSize_mid _ _ _ (by omega)
        rw [hmid] at o1 o2
        have hmul : (i + 1) * cfg.perSeg = i * cfg.perSeg + cfg.perSeg := by rw [Nat.add_mul, Nat.one_mul]
        refine ⟨h.congr rfl rfl (by rw [hm]; rfl) (by rw [hm]; rfl) rfl h.reach (fun _ => rfl) ⟨?_, h.idx.2⟩
          (fun _ => rfl) ?_, by simp⟩
        · show (i % 50 + 1) % 50 = (s.sess.next + 1) % 50
          rw [← hri]; exact hidx
        · unfold MainOk
          simp only [hmid]
          refine ⟨r, hr, b1, b2, b3, by omega, o1, by rw [hmul]; exact o2, by rw [b7, hmul], by omega, b9, ?_⟩
          refine ⟨by simp only; omega, hw3, by simp only; omega, ?_, ?_, hw.once⟩
          · intro k sg k1 k2 k3
            exact hw.slots k sg (by simp only at k1; omega) k2 k3
          · intro d sg slot hj
            obtain ⟨k, k1, k2, k3, k4, k5⟩ := hw.jobs d sg slot hj
            refine ⟨k, ?_, k2, k3, k4, k5⟩
            simp only
            by_contra hh
            have : k = i := by omega
            subst this
            rw [k4, hready] at k5
            simp at k5
  · simp at hs

/-! Removing. -/

theorem inv_remove {cfg : Cfg} (hv : cfg.Valid) {s s' : State} {outs o : List Out} {recs : List Rec}
    {leaked : List Nat} {H : Nat} (h : Inv cfg s outs recs leaked H) (hi : s.main = .idle) (id : Nat)
    (awaiting : Bool) (junk : Bytes) (hk : (s.cat.entry id).isSome = true) (ha : awaiting = true ↔ id ∉ s.taken)
    (hs : remove cfg s id awaiting junk = some (s', o)) :
    ∃ recs', Inv cfg s' (outs ++ o) recs' leaked H ∧ (∀ x ∈ o, x.Right cfg (contentOf outs)) ∧
      ∃ as r bs seg b, recs = as ++ r :: bs ∧ recs' = as ++ bs ∧ r.id = id ∧ r.segs[0]? = some seg ∧
        fromLe (b.take 8) = U64 - 1 ∧ s'.files = s.files ∧ s'.main = s.main ∧ o = [.removed id true] ∧
        s'.queues = fun d => if d = seg % cfg.disks then s.queues d ++ [.write seg b] else s.queues d := by
  obtain ⟨ids, hc⟩ := inv_reachable _ h.reach
  rw [Option.isSome_iff_exists] at hk
  obtain ⟨e, he⟩ := hk
  obtain ⟨r, hr, a1, a2, a3, a4, a5⟩ := h.rec_of he
  have hes : e.segments = r.segs := by rw [a2]; rfl
  have hpos := (segsFor_spec hv r.data.length).2.1 (by omega)
  have hlen : 0 < r.segs.length := by rw [a3.len]; exact hpos
  have hseg : r.segs[0]? = some r.segs[0] := List.getElem?_eq_getElem hlen
  have hsm : r.segs[0] ∈ r.segs := List.getElem_mem hlen
  generalize r.segs[0] = seg at hseg hsm
  -- the catalog
  obtain ⟨c0, n0, hrem0, _, _, hent0, _⟩ := remove_catalog_spec hc id e he
  have hcat : ∃ c1 n, (if awaiting then (s.cat.removeAwaiting e id).map (·.1) else some s.cat) = some c1 ∧
      c1.remove id false = some (c0, true, n) := by
    cases awaiting with
    | false =>
      simp only [Bool.false_eq_true, false_iff, not_not] at ha
      refine ⟨s.cat, n0, rfl, ?_⟩
      simpa [ha] using hrem0
    | true =>
      simp only [true_iff] at ha
      obtain ⟨c1, c', n, n', e1, e2, e3⟩ := remove_two hc id e he ha
      simp only [ha, not_false_eq_true, decide_true] at hrem0
      rw [e3] at hrem0
      simp only [Option.some.injEq, Prod.mk.injEq, true_and] at hrem0
      refine ⟨c1, n, by simp [e1], ?_⟩
      rw [← hrem0.1]; exact e2
  obtain ⟨c1, n, hc1, hc2⟩ := hcat
  -- the allocator
  obtain ⟨as, bs, hsplit⟩ := List.append_of_mem hr
  obtain ⟨used, hu, hperm⟩ := h.used
  have hpend : s.main.pend = [] := by rw [hi]; rfl
  rw [hpend, List.append_nil] at hperm
  have hperm' : used.Perm (r.segs ++ ((as ++ bs).flatMap Rec.segs ++ leaked)) := by
    refine hperm.trans ?_
    rw [hsplit]
    simp only [List.flatMap_append, List.flatMap_cons, List.append_assoc]
    rw [← List.append_assoc, ← List.append_assoc r.segs]
    exact List.Perm.append_right _ List.perm_append_comm
  obtain ⟨f1, f2⟩ := specFree_perm _ _ _ hperm'
  obtain ⟨t', g1, g2, g3⟩ := MemoryManager.freeSegments_spec r.segs s.tree used hu
  rw [f1] at g1
  unfold remove at hs
  simp only [he, hes, hc1, hseg] at hs
  split at hs
  · simp at hs
  · rename_i hbl
    simp only [ne_eq, Decidable.not_not] at hbl
    set block := le 8 (U64 - 1) ++ junk with hblock
    cases henq : s.enqueue cfg seg (.write seg block) with
    | none => rw [henq] at hs; simp at hs
    | some s1 =>
      rw [henq, g1, hc2] at hs
      simp only [Bool.and_self, Option.some.injEq, Prod.mk.injEq] at hs
      obtain ⟨rfl, rfl⟩ := hs
      have hsegH : seg < H := h.below seg (by
        simp only [List.mem_append, List.mem_flatMap]; exact Or.inl ⟨r, hr, hsm⟩)
      obtain ⟨hs1, himg, hdisk, hnr'⟩ := enqueue_write hv h.disk seg block (by omega) (a3.lt seg hsm)
        (h.noReads hi) henq
      rw [if_neg (by omega)] at hdisk
      have hsub : ∀ r' ∈ as ++ bs, r' ∈ recs ∧ r'.id ≠ id := by
        intro r' hr'
        have hin : r' ∈ recs := by
          rw [hsplit]; simp only [List.mem_append, List.mem_cons] at hr' ⊢; rcases hr' with hh | hh
          · exact Or.inl hh
          · exact Or.inr (Or.inr hh)
        refine ⟨hin, fun hid => ?_⟩
        have hd := h.distinct
        rw [hsplit] at hd
        simp only [List.map_append, List.map_cons] at hd
        rw [List.nodup_middle, List.nodup_cons] at hd
        refine hd.1 ?_
        rw [← List.map_append, List.mem_map]
        exact ⟨r', hr', by rw [hid, a1]⟩
      have hsup : ∀ r' ∈ recs, r'.id ≠ id → r' ∈ as ++ bs := by
        intro r' hr' hne
        rw [hsplit] at hr'
        simp only [List.mem_append, List.mem_cons] at hr' ⊢
        rcases hr' with hh | hh | hh
        · exact Or.inl hh
        · rw [hh] at hne; exact absurd a1 hne
        · exact Or.inr hh
      have hbsz : fromLe (block.take 8) = U64 - 1 := by
        rw [hblock, List.take_left' (by simp), fromLe_le _ _ (by norm_num [U64])]
      refine ⟨as ++ bs, ?_, ?_, as, r, bs, seg, block, hsplit, rfl, a1, hseg, hbsz, by rw [hs1], by rw [hs1], rfl,
        by have hq1 := enqueue_queues henq; exact hq1⟩
      · refine ⟨⟨hdisk.len, hdisk.jobs, hdisk.shape, hdisk.bound⟩, ?_, ?_, ?_, ?_, ?_, ⟨_, g2, ?_⟩,
          g3.trans h.max, ?_, ?_, ?_, ?_, ?_, ?_⟩
        · exact .step _ _ _ h.reach (.remove _ _ _ id true n0 (by rw [he]; rfl) hrem0)
        · intro k e'
          show c0.entry k = some e' ↔ _
          rw [hent0]
          by_cases hki : k = id
          · rw [if_pos hki]
            subst hki
            simp only [reduceCtorEq, false_iff, not_exists, not_and]
            intro r' hr' hid
            exact absurd hid (hsub r' hr').2
          · rw [if_neg hki, h.entries]
            constructor
            · rintro ⟨r', h1, h2, h3⟩
              exact ⟨r', hsup r' h1 (by rw [h2]; exact hki), h2, h3⟩
            · rintro ⟨r', h1, h2, h3⟩
              exact ⟨r', (hsub r' h1).1, h2, h3⟩
        · have hd := h.distinct
          rw [hsplit] at hd
          simp only [List.map_append, List.map_cons] at hd
          rw [List.nodup_middle, List.nodup_cons] at hd
          simpa using hd.2
        · exact fun r' hr' => h.ok r' (hsub r' hr').1
        · intro k d
          rw [contentOf_append]
          simp only [List.foldl_cons, List.foldl_nil, contentStep]
          by_cases hki : k = id
          · rw [if_pos hki]
            subst hki
            simp only [reduceCtorEq, false_iff, not_exists, not_and]
            intro r' hr' hid
            exact absurd hid (hsub r' hr').2
          · rw [if_neg hki, h.content]
            constructor
            · rintro ⟨r', h1, h2, h3⟩
              exact ⟨r', hsup r' h1 (by rw [h2]; exact hki), h2, h3⟩
            · rintro ⟨r', h1, h2, h3⟩
              exact ⟨r', (hsub r' h1).1, h2, h3⟩
        · show List.Perm _ (_ ++ s1.main.pend)
          have : s1.main = .idle := by rw [hs1]; exact hi
          rw [this]
          simpa [Main.pend] using f2
        · intro x hx
          refine h.below x ?_
          rw [hsplit]
          simp only [List.flatMap_append, List.flatMap_cons, List.mem_append] at hx ⊢
          rcases hx with (hx | hx) | hx
          · exact Or.inl (Or.inl hx)
          · exact Or.inl (Or.inr (Or.inr hx))
          · exact Or.inr hx
        · intro r' hr' j sg hj
          obtain ⟨b, hb, hb'⟩ := h.blocks r' (hsub r' hr').1 j sg hj
          refine ⟨b, ?_, hb'⟩
          show s1.image cfg sg = some b
          rw [himg, if_neg, hb]
          intro hh
          subst hh
          have := h.disjoint (hsub r' hr').1 hr (List.mem_of_getElem? hj) hsm
          subst this
          exact (hsub r' hr').2 a1
        · intro sg b hb hh hlk _
          have hb' : s1.image cfg sg = some b := hb
          rw [himg] at hb'
          by_cases hsg : sg = seg
          · rw [if_pos hsg] at hb'
            simp only [Option.some.injEq] at hb'
            rw [← hb', hblock, List.take_left' (by simp), fromLe_le _ _ (by norm_num [U64])]
          · rw [if_neg hsg] at hb'
            refine h.nonHead sg b hb' ?_ hlk (by rw [hi]; simp [Main.head])
            intro r' hr' h0
            by_cases hid : r'.id = id
            · have := rec_unique h.distinct hr' hr (by rw [hid, a1])
              subst this
              rw [hseg] at h0
              simp only [Option.some.injEq] at h0
              exact hsg h0.symm
            · exact hh r' (hsup r' hr' hid) h0
        · intro hd; exact h.leak fun id hid => hd id (by simp [hid])
        · exact h.idx
        · unfold MainOk
          have : s1.main = .idle := by rw [hs1]; exact hi
          simp only [this]
          exact hnr'
      · intro x hx
        simp only [List.mem_singleton] at hx
        subst hx
        exact ⟨rfl, by rw [a4]; rfl⟩

end Hdtn.Storage
