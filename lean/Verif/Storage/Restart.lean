import Verif.Storage.Steps

/-!
`RestoreFromDisk` on files in good order.
-/

namespace Hdtn.Storage

open Hdtn.Catalog Hdtn.HashMap16

/-- What is lost in a restart: a replaced destination. -/
def Rec.unmask (r : Rec) : Rec := { r with mask := none }

/-- Files in good order: the bundles in them, and the number of segments written so far. -/
structure Files (cfg : Cfg) (files : Nat → List Bytes) (recs : List Rec) (H : Nat) : Prop where
  ok : ∀ r ∈ recs, r.Ok cfg
  distinct : (recs.map Rec.id).Nodup
  segs : (recs.flatMap Rec.segs).Nodup
  keys : ∀ r ∈ recs, ∀ r' ∈ recs, keyOf r.p r.ps ≠ .null → keyOf r.p r.ps = keyOf r'.p r'.ps → r = r'
  blocks : ∀ r ∈ recs, ∀ i seg, r.segs[i]? = some seg → ∃ b, readBlock cfg files seg = some b ∧ r.Block cfg i b
  nonHead : ∀ seg b, readBlock cfg files seg = some b → (∀ r ∈ recs, r.segs[0]? ≠ some seg) →
    fromLe (b.take 8) = U64 - 1
  len : ∀ seg, (readBlock cfg files seg).isSome = true ↔ seg < H

theorem allocId_fresh {t : MemoryManager.Tree} {used : List Nat} (hi : MemoryManager.Inv t used) (x : Nat)
    (h1 : x < t.max) (h2 : x ∉ used) : ∃ t', MemoryManager.allocId t x = some (t', true) ∧
      MemoryManager.Inv t' (x :: used) ∧ t'.max = t.max := by
  obtain ⟨t', g1, g2, g3⟩ := MemoryManager.allocId_spec t used hi x
  simp only [MemoryManager.Op.spec, h1, h2, not_false_eq_true, and_self, if_true] at g1 g3
  refine ⟨t', ?_, g1, g2⟩
  cases ha : MemoryManager.allocId t x with
  | none => rw [ha] at g3; simp at g3
  | some q =>
    obtain ⟨a, b⟩ := q
    rw [ha] at g3
    simp at g3
    rw [g3.1, g3.2]

theorem chain_spec {cfg : Cfg} (hv : cfg.Valid) {files : Nat → List Bytes} {r : Rec} (hok : r.Ok cfg)
    (hb : ∀ i seg, r.segs[i]? = some seg → ∃ b, readBlock cfg files seg = some b ∧ r.Block cfg i b)
    (hn : r.segs.Nodup) : ∀ k i t used seg, i + k = r.segs.length → r.segs[i]? = some seg →
      MemoryManager.Inv t used → t.max = cfg.maxSegments → (∀ x ∈ r.segs.drop i, x ∉ used) →
      ∃ t' used', chain cfg files r.id k t seg (r.segs.take i) = some (t', some r.segs) ∧
        MemoryManager.Inv t' used' ∧ used'.Perm (r.segs.drop i ++ used) ∧ t'.max = cfg.maxSegments := by
  intro k
  induction k with
  | zero =>
    intro i t used seg h1 h2
    rw [List.getElem?_eq_none (by omega)] at h2; simp at h2
  | succ k ih =>
    intro i t used seg h1 h2 hi hmax hfree
    have hil : i < r.segs.length := by omega
    have hdc : r.segs.drop i = seg :: r.segs.drop (i + 1) := by
      rw [List.drop_eq_getElem_cons hil]
      rw [List.getElem?_eq_getElem hil] at h2
      simp only [Option.some.injEq] at h2
      rw [h2]
    obtain ⟨b, hb1, hB⟩ := hb i seg h2
    obtain ⟨c1, c2, _, _⟩ := hB.read hv hok hil
    have hsl : seg < cfg.maxSegments := hok.lt seg (List.mem_of_getElem? h2)
    have hsf : seg ∉ used := hfree seg (by rw [hdc]; simp)
    obtain ⟨t1, a1, a2, a3⟩ := allocId_fresh hi seg (by rw [hmax]; exact hsl) hsf
    have htake : r.segs.take i ++ [seg] = r.segs.take (i + 1) := by
      rw [List.take_succ, h2]; rfl
    unfold chain
    have hcust : (pushHeader cfg r.entry r.id i).custody = r.id := rfl
    simp only [hb1, c1, hcust, ne_eq, not_true_eq_false, if_false,
      MemoryManager.isFree_spec t used hi seg, hmax, hsl, hsf, not_false_eq_true, and_self, decide_true, a1]
    by_cases hk : k = 0
    · subst hk
      have hlast : (pushHeader cfg r.entry r.id i).next = cfg.last := c2.2 (by omega)
      simp only [if_true, hlast, not_true_eq_false, if_false]
      refine ⟨t1, seg :: used, ?_, a2, ?_, a3.trans hmax⟩
      · rw [htake, List.take_of_length_le (by omega)]
      · rw [hdc, List.drop_of_length_le (by omega)]
        exact List.Perm.refl _
    · have hnl : ¬ (pushHeader cfg r.entry r.id i).next = cfg.last := fun hh => by
        have := c2.1 hh
        omega
      have hnext : r.segs[i + 1]? = some (pushHeader cfg r.entry r.id i).next := by
        have hl : i + 1 < r.segs.length := by omega
        have hr : r.entry.segments = r.segs := rfl
        simp only [pushHeader, hr]
        rw [List.getElem?_eq_getElem hl]
      simp only [if_neg hk, if_neg hnl]
      obtain ⟨t', used', e1, e2, e3, e4⟩ := ih (i + 1) t1 (seg :: used) _ (by omega) hnext a2 (a3.trans hmax) (by
        intro x hx hxu
        rcases List.mem_cons.1 hxu with hxs | hxu
        · subst hxs
          have hnd : (r.segs.drop i).Nodup := (List.drop_sublist i r.segs).nodup hn
          rw [hdc, List.nodup_cons] at hnd
          exact hnd.1 hx
        · exact hfree x (by rw [hdc]; simp [hx]) hxu)
      rw [htake]
      refine ⟨t', used', e1, e2, e3.trans ?_, e4⟩
      rw [hdc]
      exact List.perm_middle

/-- The part of a bundle in its first segment. -/
theorem Rec.Ok.parse {cfg : Cfg} (hv : cfg.Valid) {r : Rec} (hok : r.Ok cfg) {b : Bytes} (hB : r.Block cfg 0 b)
    : cfg.parse (b.drop cfg.reserved) = some r.p := by
  obtain ⟨hlen, junk, hb⟩ := hB
  have hne : r.data.length ≠ 0 := by have := hok.ne; simpa using this
  have hpos := (segsFor_spec hv r.data.length).2.1 (by omega)
  have hle := (segsFor_spec hv r.data.length).1
  have hc : r.data.take (chunkSize cfg r.data.length r.segs.length 0) = r.data.take cfg.perSeg := by
    by_cases h1 : 0 + 1 = r.segs.length
    · have := chunkSize_last hv r.data.length 0 (by omega) (by rw [← hok.len]; exact h1)
      rw [← hok.len] at this
      rw [← hok.len, ← h1] at hle
      rw [List.take_of_length_le (by omega), List.take_of_length_le (by omega)]
    · rw [chunkSize_mid _ _ _ h1]
  simp only [Nat.zero_mul, List.drop_zero] at hb
  rw [hc] at hb
  have hd : b.drop cfg.reserved = r.data.take cfg.perSeg ++ junk := by
    rw [hb, List.append_assoc, List.drop_left' (by simp)]
  rw [hd]
  refine hok.starts junk ?_
  rw [← hd, List.length_drop, hlen]
  have := hv.reserved_perSeg
  omega

/-- What has been restored when the scan is at segment `id`. -/
structure Scan (cfg : Cfg) (recs : List Rec) (id : Nat) (t : MemoryManager.Tree) (c : Catalog) (D : List Rec) :
    Prop where
  sub : ∀ r, r ∈ D ↔ r ∈ recs ∧ ∃ x < id, r.segs[0]? = some x
  nodup : D.Nodup
  used : ∃ used, MemoryManager.Inv t used ∧ used.Perm (D.flatMap Rec.segs)
  max : t.max = cfg.maxSegments
  reach : Reachable (c, [])
  entries : ∀ k e, c.entry k = some e ↔ ∃ r ∈ D, r.id = k ∧ e = r.unmask.entry

theorem Files.disjoint {cfg : Cfg} {files : Nat → List Bytes} {recs : List Rec} {H : Nat}
    (h : Files cfg files recs H) {r r' : Rec} (hr : r ∈ recs) (hr' : r' ∈ recs) {x : Nat}
    (hx : x ∈ r.segs) (hx' : x ∈ r'.segs) : r = r' := by
  have hp := (List.nodup_flatMap.1 h.segs).2
  by_contra hne
  have : Std.Symm (Function.onFun List.Disjoint Rec.segs) := ⟨fun a b hab x h1 h2 => hab h2 h1⟩
  have := List.Pairwise.forall hp hr hr' hne
  exact this hx hx'

theorem scan_spec {cfg : Cfg} (hv : cfg.Valid) {files : Nat → List Bytes} {recs : List Rec} {H : Nat}
    (hf : Files cfg files recs H) (hbd : H < cfg.maxSegments) : ∀ f id t c D, f + id = cfg.maxSegments → id ≤ H →
      Scan cfg recs id t c D → ∃ t' c' D' id', Scan cfg recs id' t' c' D' ∧ H ≤ id' ∧
        scan cfg files f id t c D.length (D.map fun r => r.data.length).sum (D.map fun r => r.segs.length).sum =
          .done t' c' D'.length (D'.map fun r => r.data.length).sum (D'.map fun r => r.segs.length).sum := by
  intro f
  induction f with
  | zero => intro id t c D h1 h2; omega
  | succ f ih =>
    intro id t c D h1 h2 hs
    obtain ⟨used, hu, hperm⟩ := hs.used
    have hlen0 : ∀ r ∈ recs, 0 < r.segs.length := by
      intro r hr
      have hok := hf.ok r hr
      have hne : r.data.length ≠ 0 := by have := hok.ne; simpa using this
      rw [hok.len]
      exact (segsFor_spec hv r.data.length).2.1 (by omega)
    have hskip : (∀ r ∈ recs, r.segs[0]? ≠ some id) → Scan cfg recs (id + 1) t c D := by
      intro hno
      refine ⟨fun r => ?_, hs.nodup, hs.used, hs.max, hs.reach, hs.entries⟩
      rw [hs.sub]
      constructor
      · rintro ⟨a, x, b, c⟩; exact ⟨a, x, by omega, c⟩
      · rintro ⟨a, x, b, c⟩
        refine ⟨a, x, ?_, c⟩
        by_contra hh
        have : x = id := by omega
        subst this
        exact hno r a c
    have hidle : (id : Nat) ≤ H → id = H ∨ id < H := by omega
    unfold scan
    rw [MemoryManager.isFree_spec t used hu id, hs.max]
    by_cases hiu : id ∈ used
    · have hno : ∀ r ∈ recs, r.segs[0]? ≠ some id := by
        intro r hr h0
        have := hperm.mem_iff.1 hiu
        rw [List.mem_flatMap] at this
        obtain ⟨r', hr', hx⟩ := this
        obtain ⟨hr'', x, hx1, hx2⟩ := (hs.sub r').1 hr'
        have := hf.disjoint hr hr'' (List.mem_of_getElem? h0) hx
        subst this
        rw [h0] at hx2
        simp only [Option.some.injEq] at hx2
        omega
      have hlt : id < H := by
        have := hperm.mem_iff.1 hiu
        rw [List.mem_flatMap] at this
        obtain ⟨r', hr', hx⟩ := this
        obtain ⟨i, hi, hix⟩ := List.getElem_of_mem hx
        obtain ⟨b, hb, _⟩ := hf.blocks r' ((hs.sub r').1 hr').1 i id (by rw [List.getElem?_eq_getElem hi, hix])
        exact (hf.len id).1 (by rw [hb]; rfl)
      simp only [hiu, not_true_eq_false, and_false, decide_false]
      exact ih (id + 1) t c D (by omega) (by omega) (hskip hno)
    · have hlt : id < cfg.maxSegments := by omega
      simp only [hiu, not_false_eq_true, hlt, and_self, decide_true]
      rcases hidle h2 with hH | hH
      · have hnone : readBlock cfg files id = none := by
          have := (hf.len id).not.2 (by omega)
          cases hr : readBlock cfg files id with
          | none => rfl
          | some b => rw [hr] at this; simp at this
        rw [hnone]
        exact ⟨t, c, D, id, hs, by omega, rfl⟩
      · have hsome := (hf.len id).2 hH
        rw [Option.isSome_iff_exists] at hsome
        obtain ⟨b, hb⟩ := hsome
        rw [hb]
        simp only
        by_cases hhd : ∃ r ∈ recs, r.segs[0]? = some id
        · obtain ⟨r, hr, h0⟩ := hhd
          have hok := hf.ok r hr
          obtain ⟨b', hb', hB⟩ := hf.blocks r hr 0 id h0
          rw [hb] at hb'
          simp only [Option.some.injEq] at hb'
          subst hb'
          have hl0 := hlen0 r hr
          obtain ⟨c1, _, _, _⟩ := hB.read hv hok hl0
          have hpz : (pushHeader cfg r.entry r.id 0).size = r.data.length := rfl
          have hpc : (pushHeader cfg r.entry r.id 0).custody = r.id := rfl
          have hpp : (pushHeader cfg r.entry r.id 0).payload = r.ps := rfl
          have hsz := hok.size
          have hneq : ¬ r.data.length = U64 - 1 := by
            unfold U64
            intro hh
            omega
          rw [c1, hpz, hpc, hpp]
          rw [if_neg hneq, hok.parse hv hB]
          simp only
          have hrD : r ∉ D := by
            intro hh
            obtain ⟨_, x, hx1, hx2⟩ := (hs.sub r).1 hh
            rw [h0] at hx2
            simp only [Option.some.injEq] at hx2
            omega
          have hsn : r.segs.Nodup := (List.nodup_flatMap.1 hf.segs).1 r hr
          obtain ⟨t', used', e1, e2, e3, e4⟩ := chain_spec hv hok (hf.blocks r hr) hsn r.segs.length 0 t used id
            (by omega) h0 hu hs.max (by
              intro x hx hxu
              rw [List.drop_zero] at hx
              have := hperm.mem_iff.1 hxu
              rw [List.mem_flatMap] at this
              obtain ⟨r', hr', hx'⟩ := this
              have := hf.disjoint hr ((hs.sub r').1 hr').1 hx hx'
              subst this
              exact hrD hr')
          rw [List.take_zero] at e1
          rw [← hok.len, e1]
          simp only
          obtain ⟨ids, hc⟩ := inv_reachable _ hs.reach
          have hfresh : c.entry r.id = none := by
            cases he : c.entry r.id with
            | none => rfl
            | some e =>
              obtain ⟨r', hr', hid, _⟩ := (hs.entries r.id e).1 he
              have := rec_unique hf.distinct ((hs.sub r').1 hr').1 hr hid
              subst this
              exact absurd hr' hrD
          have hst := store_spec c hc.good r.p r.data.length r.ps r.segs none r.id false hfresh hok.prio
          simp only [Bool.false_eq_true, if_false] at hst
          have hnd : ¬ c.duplicate r.p r.ps := by
            rintro ⟨hcu, hh⟩
            have hkey : ∀ r' ∈ D, keyOf r.p r.ps ≠ .null → keyOf r.p r.ps ≠ keyOf r'.p r'.ps := by
              intro r' hr' h1 h2
              have := hf.keys r hr r' ((hs.sub r').1 hr').1 h1 h2
              subst this
              exact hrD hr'
            rcases hh with ⟨hfr, hh⟩ | ⟨hfr, hh⟩
            · rw [Option.isSome_iff_exists] at hh
              obtain ⟨k, hk⟩ := hh
              obtain ⟨e, he, hkp⟩ := (hc.uuid _ k).1 hk
              obtain ⟨r', hr', _, hee⟩ := (hs.entries k e).1 he
              have hkr : keyOf r.p r.ps = .frag (r.p.uuid r.ps) := by simp [keyOf, hcu, hfr]
              refine hkey r' hr' (by rw [hkr]; simp) ?_
              rw [hkr, ← hkp, hee]; rfl
            · rw [Option.isSome_iff_exists] at hh
              obtain ⟨k, hk⟩ := hh
              obtain ⟨e, he, hkp⟩ := (hc.uuidNoFrag _ k).1 hk
              obtain ⟨r', hr', _, hee⟩ := (hs.entries k e).1 he
              have hkr : keyOf r.p r.ps = .noFrag r.p.uuidNoFrag := by simp [keyOf, hcu, hfr]
              refine hkey r' hr' (by rw [hkr]; simp) ?_
              rw [hkr, ← hkp, hee]; rfl
          rcases hst with ⟨_, hdup⟩ | ⟨_, c', hst, _, _, hent, _⟩
          · exact absurd hdup hnd
          · rw [hst]
            simp only
            have hnew : Scan cfg recs (id + 1) t' c' (r :: D) := by
              refine ⟨fun r' => ?_, List.nodup_cons.2 ⟨hrD, hs.nodup⟩, ⟨used', e2, ?_⟩, e4, ?_, ?_⟩
              · rw [List.mem_cons, hs.sub]
                constructor
                · rintro (rfl | ⟨a, x, b, c⟩)
                  · exact ⟨hr, id, by omega, h0⟩
                  · exact ⟨a, x, by omega, c⟩
                · rintro ⟨a, x, b, c⟩
                  by_cases hxi : x = id
                  · subst hxi
                    exact Or.inl (hf.disjoint a hr (List.mem_of_getElem? c) (List.mem_of_getElem? h0))
                  · exact Or.inr ⟨a, x, by omega, c⟩
              · rw [List.drop_zero] at e3
                rw [List.flatMap_cons]
                exact e3.trans (List.Perm.append_left _ hperm)
              · exact .step _ _ _ hs.reach (.store c c' [] r.p r.data.length r.ps r.segs none r.id false true hfresh
                  hok.prio hst)
              · intro k e
                rw [hent]
                by_cases hki : k = r.id
                · rw [if_pos hki]
                  simp only [Option.some.injEq, List.mem_cons, exists_eq_or_imp]
                  constructor
                  · intro hh; exact Or.inl ⟨hki.symm, hh.symm⟩
                  · rintro (⟨_, hh⟩ | ⟨r', hr', hid', _⟩)
                    · exact hh.symm
                    · exfalso
                      have := rec_unique hf.distinct ((hs.sub r').1 hr').1 hr (hid'.trans hki)
                      subst this
                      exact hrD hr'
                · rw [if_neg hki, hs.entries]
                  simp only [List.mem_cons, exists_eq_or_imp]
                  constructor
                  · exact Or.inr
                  · rintro (⟨hh, _⟩ | hh)
                    · exact absurd hh.symm hki
                    · exact hh
            have := ih (id + 1) t' c' (r :: D) (by omega) (by omega) hnew
            simp only [List.length_cons, List.map_cons, List.sum_cons] at this
            rw [Nat.add_comm r.data.length, Nat.add_comm r.segs.length] at this
            exact this
        · push Not at hhd
          have hz := hf.nonHead id b hb hhd
          have : (Header.read cfg b).size = U64 - 1 := hz
          rw [if_pos this]
          exact ih (id + 1) t c D (by omega) (by omega) (hskip hhd)

theorem restore_spec {cfg : Cfg} (hv : cfg.Valid) {files : Nat → List Bytes} {recs : List Rec} {H : Nat}
    (hf : Files cfg files recs H) (hbd : H < cfg.maxSegments) : ∃ t c D id, Scan cfg recs id t c D ∧ D.Perm recs ∧
      restore cfg files = .done t c D.length (D.map fun r => r.data.length).sum (D.map fun r => r.segs.length).sum := by
  obtain ⟨t, c, D, id, hs, hH, he⟩ := scan_spec hv hf hbd cfg.maxSegments 0 (MemoryManager.Tree.new cfg.maxSegments)
    Catalog.empty [] (by omega) (Nat.zero_le _)
    ⟨fun r => by simp, List.nodup_nil, ⟨[], MemoryManager.inv_new _ hv.max64, by simp⟩, rfl, Reachable.empty,
      fun k e => by simp [Catalog.entry, Catalog.empty, get_empty]⟩
  refine ⟨t, c, D, id, hs, ?_, he⟩
  rw [List.perm_ext_iff_of_nodup hs.nodup (List.Nodup.of_map _ hf.distinct)]
  intro r
  rw [hs.sub]
  constructor
  · exact fun hh => hh.1
  · intro hr
    have hok := hf.ok r hr
    have hne : r.data.length ≠ 0 := by have := hok.ne; simpa using this
    have hl : 0 < r.segs.length := by
      rw [hok.len]
      exact (segsFor_spec hv r.data.length).2.1 (by omega)
    have h0 : r.segs[0]? = some r.segs[0] := List.getElem?_eq_getElem hl
    obtain ⟨b, hb, _⟩ := hf.blocks r hr 0 _ h0
    have := (hf.len r.segs[0]).1 (by rw [hb]; rfl)
    exact ⟨hr, _, by omega, h0⟩

theorem drained_queues {cfg : Cfg} (hv : cfg.Valid) {s : State} {H : Nat} (hd : DiskInv cfg s H)
    (h : s.drained cfg = true) : ∀ d, s.queues d = [] := by
  intro d
  unfold State.drained at h
  rw [List.all_eq_true] at h
  by_cases hdd : d < cfg.disks
  · simpa using h d (by simp [hdd])
  · cases hq : s.queues d with
    | nil => rfl
    | cons j q =>
      have := (hd.jobs d j (by rw [hq]; simp)).2
      have hv' := hv.disks
      have := Nat.mod_lt j.seg (show 0 < cfg.disks by omega)
      omega

theorem Inv.keys {cfg : Cfg} {s : State} {outs : List Out} {recs : List Rec} {leaked : List Nat} {H : Nat}
    (h : Inv cfg s outs recs leaked H) : ∀ r ∈ recs, ∀ r' ∈ recs, keyOf r.p r.ps ≠ .null →
      keyOf r.p r.ps = keyOf r'.p r'.ps → r = r' := by
  obtain ⟨ids, hc⟩ := inv_reachable _ h.reach
  intro r hr r' hr' hn hk
  have e1 := (h.entries r.id r.entry).2 ⟨r, hr, rfl, rfl⟩
  have e2 := (h.entries r'.id r'.entry).2 ⟨r', hr', rfl, rfl⟩
  refine rec_unique h.distinct hr hr' ?_
  cases hkey : keyOf r.p r.ps with
  | null => exact absurd hkey hn
  | frag u =>
    have h1 := (hc.uuid u r.id).2 ⟨_, e1, hkey⟩
    have h2 := (hc.uuid u r'.id).2 ⟨_, e2, hk.symm.trans hkey⟩
    rw [h1] at h2
    simpa using h2
  | noFrag u =>
    have h1 := (hc.uuidNoFrag u r.id).2 ⟨_, e1, hkey⟩
    have h2 := (hc.uuidNoFrag u r'.id).2 ⟨_, e2, hk.symm.trans hkey⟩
    rw [h1] at h2
    simpa using h2

theorem Inv.files {cfg : Cfg} (hv : cfg.Valid) {s : State} {outs : List Out} {recs : List Rec}
    {leaked : List Nat} {H : Nat} (h : Inv cfg s outs recs leaked H) (hi : s.main = .idle)
    (hd : s.drained cfg = true) (hdup : ∀ id, Out.duplicate id ∉ outs)
    (hroom : ∃ seg < cfg.maxSegments, readBlock cfg s.files seg = none) : Files cfg s.files recs H ∧ H < cfg.maxSegments := by
  have hq := drained_queues hv h.disk hd
  have himg : ∀ x, s.image cfg x = readBlock cfg s.files x := by
    intro x
    unfold State.image readBlock State.later
    rw [hq]; rfl
  have hleak := h.leak hdup
  refine ⟨⟨h.ok, h.distinct, ?_, ?_, ?_, ?_, ?_⟩, ?_⟩
  · have := h.nodup
    rw [List.append_assoc, List.nodup_append] at this
    exact this.1
  · exact h.keys
  · intro r hr i seg hs
    rw [← himg]; exact h.blocks r hr i seg hs
  · intro seg b hb hn
    rw [← himg] at hb
    exact h.nonHead seg b hb hn (by rw [hleak]; simp) (by rw [hi]; simp [Main.head])
  · intro seg; rw [← himg]; exact h.disk.len seg
  · obtain ⟨seg, h1, h2⟩ := hroom
    rw [← himg] at h2
    have := (h.disk.len seg).not.1 (by rw [h2]; simp)
    omega

/-- The state after a restart on files in good order. -/
theorem inv_of_files {cfg : Cfg} (hv : cfg.Valid) {files : Nat → List Bytes} {outs : List Out}
    {recs : List Rec} {H : Nat} (hf : Files cfg files recs H) (hbd : H < cfg.maxSegments)
    (hc : ∀ id d, contentOf outs id = some d ↔ ∃ r ∈ recs, r.id = id ∧ r.data = d) :
    ∃ s n b k recs', reboot cfg files = some (s, [.restored n b k]) ∧
      Inv cfg s (outs ++ [.restored n b k]) recs' [] H ∧
      (Out.restored n b k).Right cfg (contentOf outs) ∧ s.main = .idle ∧ s.taken = [] ∧ s.files = files ∧
      recs'.Perm (recs.map Rec.unmask) := by
  obtain ⟨t, c, D, id, hs, hperm, he⟩ := restore_spec hv hf hbd
  have hmem : ∀ r, r ∈ D ↔ r ∈ recs := fun r => hperm.mem_iff
  unfold reboot
  rw [he]
  refine ⟨_, _, _, _, D.map Rec.unmask, rfl, ?_, ?_, rfl, rfl, rfl, hperm.map _⟩
  · have hl : ∀ x, State.image cfg { init cfg with tree := t, cat := c, files := files } x =
        readBlock cfg files x := fun x => rfl
    have hflat : (D.map Rec.unmask).flatMap Rec.segs = D.flatMap Rec.segs := by
      rw [List.flatMap_map]; rfl
    have hblk : ∀ (r : Rec) i b, r.unmask.Block cfg i b ↔ r.Block cfg i b := fun _ _ _ => Iff.rfl
    refine ⟨⟨?_, ?_, ?_, Nat.le_of_lt hbd⟩, hs.reach, ?_, ?_, ?_, ?_, ?_, hs.max, ?_, ?_, ?_, fun _ => rfl,
      ⟨rfl, rfl⟩, ?_⟩
    · intro x; rw [hl]; exact hf.len x
    · intro d j hj; simp [init] at hj
    · intro d; exact ⟨[], [], rfl, by simp, by simp⟩
    · intro k e
      refine (hs.entries k e).trans ?_
      simp only [List.mem_map]
      constructor
      · rintro ⟨r, h1, h2, h3⟩; exact ⟨r.unmask, ⟨r, h1, rfl⟩, h2, h3⟩
      · rintro ⟨r', ⟨r, h1, rfl⟩, h2, h3⟩; exact ⟨r, h1, h2, h3⟩
    · rw [List.map_map]
      have : (Rec.id ∘ Rec.unmask) = Rec.id := rfl
      rw [this]
      exact (hperm.map Rec.id).nodup_iff.2 hf.distinct
    · intro r hr
      rw [List.mem_map] at hr
      obtain ⟨r', h1, rfl⟩ := hr
      have hok := hf.ok r' ((hmem r').1 h1)
      exact ⟨hok.len, hok.ne, hok.prio, hok.id, hok.ps, hok.size, hok.starts, hok.lt⟩
    · intro k d
      rw [contentOf_append]
      refine (hc k d).trans ?_
      simp only [List.mem_map]
      constructor
      · rintro ⟨r, h1, h2, h3⟩; exact ⟨r.unmask, ⟨r, (hmem r).2 h1, rfl⟩, h2, h3⟩
      · rintro ⟨r', ⟨r, h1, rfl⟩, h2, h3⟩; exact ⟨r, (hmem r).1 h1, h2, h3⟩
    · obtain ⟨used, h1, h2⟩ := hs.used
      refine ⟨used, h1, ?_⟩
      rw [hflat]
      simpa [Main.pend, init] using h2
    · intro x hx
      rw [hflat, List.append_nil, List.mem_flatMap] at hx
      obtain ⟨r, hr, hx⟩ := hx
      obtain ⟨i, hi, hix⟩ := List.getElem_of_mem hx
      obtain ⟨b, hb, _⟩ := hf.blocks r ((hmem r).1 hr) i x (by rw [List.getElem?_eq_getElem hi, hix])
      exact (hf.len x).1 (by rw [hb]; rfl)
    · intro r hr i seg hseg
      rw [List.mem_map] at hr
      obtain ⟨r', h1, rfl⟩ := hr
      exact hf.blocks r' ((hmem r').1 h1) i seg hseg
    · intro seg b hb hn _ _
      refine hf.nonHead seg b hb fun r hr => ?_
      exact hn r.unmask (List.mem_map.2 ⟨r, (hmem r).2 hr, rfl⟩)
    · unfold MainOk; intro d j hj; simp [init] at hj
  · refine ⟨D.map fun r => (r.id, r.data), ?_, ?_, by simp, ?_, ?_⟩
    · rw [List.map_map]
      exact (hperm.map Rec.id).nodup_iff.2 hf.distinct
    · intro k d
      rw [hc, List.mem_map]
      constructor
      · rintro ⟨r, h1, h2, h3⟩; exact ⟨r, (hmem r).2 h1, by rw [h2, h3]⟩
      · rintro ⟨r, h1, h2⟩
        simp only [Prod.mk.injEq] at h2
        exact ⟨r, (hmem r).1 h1, h2.1, h2.2⟩
    · rw [List.map_map]; rfl
    · rw [List.map_map]
      congr 1
      refine List.map_congr_left fun r hr => ?_
      exact (hf.ok r ((hmem r).1 hr)).len

/-- The state and the answers are related by the invariant, whatever the history. -/
theorem inv_step {cfg : Cfg} (hv : cfg.Valid) {s s' : State} {outs o : List Out} {recs : List Rec}
    {leaked : List Nat} {H : Nat} (h : Inv cfg s outs recs leaked H) (a : Act) (ha : Allowed cfg s outs a)
    (hs : step cfg s a = some (s', o)) :
    ∃ recs' leaked' H', Inv cfg s' (outs ++ o) recs' leaked' H' ∧ ∀ x ∈ o, x.Right cfg (contentOf outs) := by
  have hidle : s.isIdle = true → s.main = .idle := by
    unfold State.isIdle
    cases s.main <;> simp
  cases a with
  | tick d =>
    simp only [step, Option.map_eq_some_iff, Prod.mk.injEq] at hs
    obtain ⟨s1, h1, rfl, rfl⟩ := hs
    exact ⟨recs, leaked, H, by simpa using inv_tick h h1, by simp⟩
  | store p data ps mask id =>
    simp only [step] at hs
    split at hs
    · rename_i hi
      obtain ⟨a1, a2, a3, a4, a5, a6⟩ := ha
      exact ⟨recs, leaked, H, inv_store hv h (hidle hi) p data ps mask id a1 a2 a3 a4 a5 a6 hs⟩
    · simp at hs
  | push junk =>
    obtain ⟨recs', leaked', H', h1, h2, _⟩ := inv_push hv h junk hs
    exact ⟨recs', leaked', H', h1, h2⟩
  | take sel =>
    simp only [step] at hs
    split at hs
    · rename_i hi; exact ⟨recs, leaked, H, inv_take h (hidle hi) sel hs⟩
    · simp at hs
  | giveBack id =>
    simp only [step] at hs
    split at hs
    · rename_i hi; exact ⟨recs, leaked, H, inv_giveBack h (hidle hi) id ha hs⟩
    · simp at hs
  | readAll =>
    simp only [step] at hs
    split at hs
    · rename_i hi; exact ⟨recs, leaked, H, inv_readAll hv h (hidle hi) ha hs⟩
    · simp at hs
  | readFirst id =>
    simp only [step] at hs
    split at hs
    · rename_i hi; exact ⟨recs, leaked, H, inv_readFirst hv h (hidle hi) id ha hs⟩
    · simp at hs
  | cacheNext => exact ⟨recs, leaked, H, inv_cacheNext h hs⟩
  | consume => exact ⟨recs, leaked, H, inv_consume hv h hs⟩
  | remove id awaiting junk =>
    simp only [step] at hs
    split at hs
    · rename_i hi
      obtain ⟨recs', h1, h2, _⟩ := inv_remove hv h (hidle hi) id awaiting junk ha.1 ha.2 hs
      exact ⟨recs', leaked, H, h1, h2⟩
    · simp at hs
  | restart =>
    simp only [step] at hs
    split at hs
    · rename_i hi
      simp only [Bool.and_eq_true] at hi
      obtain ⟨hf, hbd⟩ := h.files hv (hidle hi.1) hi.2 ha.1 ha.2
      obtain ⟨s1, n, b, k, recs', h1, h2, h3, _⟩ := inv_of_files hv hf hbd h.content
      rw [h1] at hs
      simp only [Option.some.injEq, Prod.mk.injEq] at hs
      obtain ⟨rfl, rfl⟩ := hs
      exact ⟨recs', [], H, h2, by simpa using h3⟩
    · simp at hs
  | crash => exact absurd ha (by simp [Allowed])

theorem inv_runs {cfg : Cfg} (hv : cfg.Valid) {P : Act → Prop} {s0 s : State} {outs0 outs : List Out}
    (h : Runs cfg P s0 outs0 s outs) (h0 : ∃ recs leaked H, Inv cfg s0 outs0 recs leaked H) :
    ∃ recs leaked H, Inv cfg s outs recs leaked H := by
  induction h with
  | refl => exact h0
  | step s s' outs o a _ _ ha hs ih =>
    obtain ⟨recs, leaked, H, hinv⟩ := ih
    obtain ⟨recs', leaked', H', h1, _⟩ := inv_step hv hinv a ha hs
    exact ⟨recs', leaked', H', h1⟩

theorem inv_reaches {cfg : Cfg} (hv : cfg.Valid) {s : State} {outs : List Out} (h : Reaches cfg s outs) :
    ∃ recs leaked H, Inv cfg s outs recs leaked H := inv_runs hv h ⟨[], [], 0, inv_init cfg hv⟩

end Hdtn.Storage
