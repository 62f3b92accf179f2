import Verif.Catalog.Lemmas

namespace Hdtn.Catalog

open Hdtn.HashMap16

/-- The maps and the three tables are in order. -/
structure Good (c : Catalog) : Prop where
  wf : c.WF
  t1 : c.uuids.WF Uuid.lt Uuid.hash
  t2 : c.uuidsNoFrag.WF UuidNoFrag.lt UuidNoFrag.hash
  t3 : c.entries.WF natLt hashU64

theorem empty_good : Good Catalog.empty :=
  ⟨Catalog.empty_wf, HashMap16.empty_wf, HashMap16.empty_wf, HashMap16.empty_wf⟩

theorem wf_congr {c c' : Catalog} (hw : c.WF) (h : c'.dests = c.dests) : c'.WF := by
  have : c'.prioritiesOf = c.prioritiesOf := by funext d; unfold Catalog.prioritiesOf; rw [h]
  exact ⟨by rw [h]; exact hw.dsorted, by rw [this]; exact hw.sorted, by rw [this]; exact hw.good⟩

theorem waiting_congr {c c' : Catalog} (h : c'.dests = c.dests) : c'.waiting = c.waiting := by
  funext d p x; unfold Catalog.waiting; rw [h]

/-- The key remembered for a bundle in custody. -/
def keyOf (p : Primary) (payloadSize : Nat) : KeyPtr :=
  if p.custody then if p.fragment then .frag (p.uuid payloadSize) else .noFrag p.uuidNoFrag else .null

/-- The bundle is in custody and its identifier is already registered. -/
def Catalog.duplicate (c : Catalog) (p : Primary) (payloadSize : Nat) : Prop :=
  p.custody = true ∧
    ((p.fragment = true ∧ (c.idOfUuid (p.uuid payloadSize)).isSome = true) ∨
     (p.fragment = false ∧ (c.idOfUuidNoFrag p.uuidNoFrag).isSome = true))

theorem registerUuid_spec (c : Catalog) (hg : Good c) (e : Entry) (p : Primary) (id : Nat) :
    (c.registerUuid e p id = none ∧ c.duplicate p e.payloadSize) ∨
    (¬ c.duplicate p e.payloadSize ∧ ∃ t1 t2, c.registerUuid e p id =
        some ({ c with uuids := t1, uuidsNoFrag := t2 },
          if p.custody then { e with keyPtr := keyOf p e.payloadSize } else e) ∧
      t1.WF Uuid.lt Uuid.hash ∧ t2.WF UuidNoFrag.lt UuidNoFrag.hash ∧
      (∀ u, t1.get Uuid.lt Uuid.hash u =
        if keyOf p e.payloadSize = .frag u then some id else c.idOfUuid u) ∧
      (∀ u, t2.get UuidNoFrag.lt UuidNoFrag.hash u =
        if keyOf p e.payloadSize = .noFrag u then some id else c.idOfUuidNoFrag u)) := by
  unfold Catalog.registerUuid Catalog.duplicate keyOf
  cases hc : p.custody with
  | false =>
    right
    refine ⟨by simp, c.uuids, c.uuidsNoFrag, by simp, hg.t1, hg.t2, ?_, ?_⟩
    · intro u; simp [Catalog.idOfUuid]
    · intro u; simp [Catalog.idOfUuidNoFrag]
  | true =>
    cases hf : p.fragment with
    | true =>
      simp only [if_true]
      have hi := insert_spec Uuid.lt_strict c.uuids hg.t1 (p.uuid e.payloadSize) id
      cases hins : c.uuids.insert Uuid.lt Uuid.hash (p.uuid e.payloadSize) id with
      | none =>
        left
        exact ⟨rfl, trivial, Or.inl ⟨trivial, hi.1.1 hins⟩⟩
      | some t =>
        right
        obtain ⟨g1, g2⟩ := hi.2 t hins
        refine ⟨?_, t, c.uuidsNoFrag, rfl, g1, hg.t2, ?_, ?_⟩
        · rintro ⟨_, ⟨_, h⟩ | ⟨h, _⟩⟩
          · have := hi.1.2 h
            rw [hins] at this; simp at this
          · simp at h
        · intro u
          rw [g2 u]
          by_cases hu : u = p.uuid e.payloadSize
          · simp [hu]
          · have h2 : ¬ p.uuid e.payloadSize = u := fun h => hu h.symm
            simp [hu, h2, Catalog.idOfUuid]
        · intro u; simp [Catalog.idOfUuidNoFrag]
    | false =>
      simp only [if_true, Bool.false_eq_true, if_false]
      have hi := insert_spec UuidNoFrag.lt_strict c.uuidsNoFrag hg.t2 p.uuidNoFrag id
      cases hins : c.uuidsNoFrag.insert UuidNoFrag.lt UuidNoFrag.hash p.uuidNoFrag id with
      | none =>
        left
        exact ⟨rfl, trivial, Or.inr ⟨trivial, hi.1.1 hins⟩⟩
      | some t =>
        right
        obtain ⟨g1, g2⟩ := hi.2 t hins
        refine ⟨?_, c.uuids, t, rfl, hg.t1, g1, ?_, ?_⟩
        · rintro ⟨_, ⟨h, _⟩ | ⟨_, h⟩⟩
          · simp at h
          · have := hi.1.2 h
            rw [hins] at this; simp at this
        · intro u; simp [Catalog.idOfUuid]
        · intro u
          rw [g2 u]
          by_cases hu : u = p.uuidNoFrag
          · simp [hu]
          · have h2 : ¬ p.uuidNoFrag = u := fun h => hu h.symm
            simp [hu, h2, Catalog.idOfUuidNoFrag]

/-- The entry made for a bundle, with its key. -/
def entryOf (p : Primary) (bs ps : Nat) (segs : List Nat) (mask : Option Eid) : Entry :=
  { Entry.init p bs ps segs mask with keyPtr := keyOf p ps }

theorem store_spec (c : Catalog) (hg : Good c) (p : Primary) (bs ps : Nat) (segs : List Nat)
    (mask : Option Eid) (id : Nat) (toFront : Bool) (hfresh : c.entry id = none)
    (hp : p.priority < 3) :
    (c.store (Entry.init p bs ps segs mask) p id (if toFront then .filo else .fifo) =
        some (c, false) ∧ c.duplicate p ps) ∨
    (¬ c.duplicate p ps ∧ ∃ c',
      c.store (Entry.init p bs ps segs mask) p id (if toFront then .filo else .fifo) =
        some (c', true) ∧ Good c' ∧
      (let e := entryOf p bs ps segs mask
       let w := c.waiting e.dest e.priority e.expiration
       c'.waiting = updQueue c.waiting e.dest e.priority e.expiration
          (if toFront then id :: w else w ++ [id]) ∧
       (∀ k, c'.entry k = if k = id then some e else c.entry k) ∧
       (∀ u, c'.idOfUuid u = if e.keyPtr = .frag u then some id else c.idOfUuid u) ∧
       (∀ u, c'.idOfUuidNoFrag u = if e.keyPtr = .noFrag u then some id else c.idOfUuidNoFrag u) ∧
       c'.numBundles = c.numBundles + 1 ∧ c'.numBytes = c.numBytes + bs ∧
       c'.totalWrites = c.totalWrites + 1 ∧ c'.totalBytesWritten = c.totalBytesWritten + bs ∧
       c'.totalErases = c.totalErases ∧ c'.totalBytesErased = c.totalBytesErased)) := by
  unfold Catalog.store
  rcases registerUuid_spec c hg (Entry.init p bs ps segs mask) p id with
    ⟨h1, h2⟩ | ⟨hnd, t1, t2, h1, g1, g2, g3, g4⟩
  · left; rw [h1]; exact ⟨rfl, h2⟩
  · right
    refine ⟨hnd, ?_⟩
    rw [h1]
    have hent : (if p.custody then { Entry.init p bs ps segs mask with
          keyPtr := keyOf p (Entry.init p bs ps segs mask).payloadSize }
        else Entry.init p bs ps segs mask) = entryOf p bs ps segs mask := by
      unfold entryOf
      cases hc : p.custody with
      | true => rfl
      | false => simp only [keyOf, hc]; rfl
    rw [hent]
    set e := entryOf p bs ps segs mask with he
    simp only
    have hpe : e.priority = p.priority := encode_priority p (by omega)
    have hpr : e.priority < 3 := by omega
    have hxe : e.expiration < 2 ^ 64 - 1 := expiration_lt e (encode_lt p (by omega))
    set c1 : Catalog := { c with uuids := t1, uuidsNoFrag := t2 } with hc1
    have hw1 : c1.WF := wf_congr hg.wf rfl
    have hwait1 : c1.waiting = c.waiting := waiting_congr rfl
    have hadd : ∀ q, (q = if toFront then id :: c.waiting e.dest e.priority e.expiration
          else c.waiting e.dest e.priority e.expiration ++ [id]) →
        c1.addAwaiting e id (if toFront then .filo else .fifo) = some (c1.setExpirations e.dest
          e.priority (newMap (c1.prioritiesOf e.dest e.priority) e.expiration q), true) := by
      intro q hq
      subst hq
      rw [← hwait1]
      cases toFront with
      | true => exact addAwaiting_filo c1 e id hpr
      | false => exact addAwaiting_fifo c1 e id hpr
    rw [hadd _ rfl]
    simp only
    set q := (if toFront then id :: c.waiting e.dest e.priority e.expiration
          else c.waiting e.dest e.priority e.expiration ++ [id]) with hq
    obtain ⟨s1, s2⟩ := set_newMap c1 hw1 e.dest e.priority e.expiration q hxe hpr
    set c2 := c1.setExpirations e.dest e.priority
      (newMap (c1.prioritiesOf e.dest e.priority) e.expiration q) with hc2
    have hi := insert_spec natLt_strict c2.entries hg.t3 id e
    cases hins : c2.entries.insert natLt hashU64 id e with
    | none =>
      have h3 := hi.1.1 hins
      have h4 : c.entry id = c2.entries.get natLt hashU64 id := rfl
      rw [← h4, hfresh] at h3
      simp at h3
    | some t =>
      obtain ⟨i1, i2⟩ := hi.2 t hins
      refine ⟨_, rfl, ⟨wf_congr s1 rfl, g1, g2, i1⟩, ?_, i2, g3, g4, rfl, rfl, rfl, rfl, rfl, rfl⟩
      exact (waiting_congr (c := c2) rfl).trans (s2.trans (by rw [hwait1]))

/-! The invariant. -/

/-- Size in bytes of a known bundle. -/
def Catalog.sizeOf (c : Catalog) (id : Nat) : Nat :=
  match c.entry id with
  | some e => e.bundleSize
  | none => 0

structure Inv (c : Catalog) (fl ids : List Nat) : Prop where
  good : Good c
  idsNodup : ids.Nodup
  known : ∀ id, (c.entry id).isSome = true ↔ id ∈ ids
  entryGood : ∀ id e, c.entry id = some e → e.priority < 3 ∧ e.enc < 2 ^ 64
  place : ∀ d p x id, id ∈ c.waiting d p x →
    ∃ e, c.entry id = some e ∧ e.dest = d ∧ e.priority = p ∧ e.expiration = x
  once : ∀ d p x, (c.waiting d p x).Nodup
  flNodup : fl.Nodup
  flKnown : ∀ id ∈ fl, (c.entry id).isSome = true
  flNot : ∀ id ∈ fl, ∀ d p x, id ∉ c.waiting d p x
  flElse : ∀ id e, c.entry id = some e → id ∉ fl → id ∈ c.waiting e.dest e.priority e.expiration
  count : c.numBundles = ids.length
  bytes : c.numBytes = (ids.map c.sizeOf).sum
  countTotal : c.totalWrites = c.totalErases + c.numBundles
  bytesTotal : c.totalBytesWritten = c.totalBytesErased + c.numBytes
  uuid : ∀ u id, c.idOfUuid u = some id ↔ ∃ e, c.entry id = some e ∧ e.keyPtr = .frag u
  uuidNoFrag : ∀ u id, c.idOfUuidNoFrag u = some id ↔
    ∃ e, c.entry id = some e ∧ e.keyPtr = .noFrag u
  bits : ∀ id e, c.entry id = some e →
    (e.custodyFrag = true ↔ ∃ u, e.keyPtr = .frag u) ∧
    (e.custodyNoFrag = true ↔ ∃ u, e.keyPtr = .noFrag u)

theorem inv_empty : Inv Catalog.empty [] [] where
  good := empty_good
  idsNodup := List.nodup_nil
  known := fun id => by simp [Catalog.entry, Catalog.empty, get_empty]
  entryGood := fun id e h => absurd h (by simp [Catalog.entry, Catalog.empty, get_empty])
  place := fun d p x id h => absurd h (by simp [Catalog.waiting, Catalog.empty, OrdMap.lookup])
  once := fun d p x => by simp [Catalog.waiting, Catalog.empty, OrdMap.lookup]
  flNodup := List.nodup_nil
  flKnown := by simp
  flNot := by simp
  flElse := fun id e h => absurd h (by simp [Catalog.entry, Catalog.empty, get_empty])
  count := rfl
  bytes := rfl
  countTotal := rfl
  bytesTotal := rfl
  uuid := fun u id => by simp [Catalog.idOfUuid, Catalog.entry, Catalog.empty, get_empty]
  uuidNoFrag := fun u id => by simp [Catalog.idOfUuidNoFrag, Catalog.entry, Catalog.empty, get_empty]
  bits := fun id e h => absurd h (by simp [Catalog.entry, Catalog.empty, get_empty])

theorem entryOf_bits (p : Primary) (bs ps : Nat) (segs : List Nat) (mask : Option Eid)
    (hp : p.priority < 4) :
    ((entryOf p bs ps segs mask).custodyFrag = true ↔
      ∃ u, (entryOf p bs ps segs mask).keyPtr = .frag u) ∧
    ((entryOf p bs ps segs mask).custodyNoFrag = true ↔
      ∃ u, (entryOf p bs ps segs mask).keyPtr = .noFrag u) := by
  have hb := encode_bits p hp
  have h1 : (entryOf p bs ps segs mask).custodyFrag = (p.custody && p.fragment) := hb.1
  have h2 : (entryOf p bs ps segs mask).custodyNoFrag = (p.custody && !p.fragment) := hb.2
  have h3 : (entryOf p bs ps segs mask).keyPtr = keyOf p ps := rfl
  rw [h1, h2, h3]
  unfold keyOf
  cases p.custody <;> cases p.fragment <;> simp

theorem sum_map_congr (ids : List Nat) (f g : Nat → Nat) (h : ∀ i ∈ ids, f i = g i) :
    (ids.map f).sum = (ids.map g).sum := by
  rw [List.map_congr_left h]

theorem inv_store {c : Catalog} {fl ids : List Nat} (h : Inv c fl ids) (p : Primary) (bs ps : Nat)
    (segs : List Nat) (mask : Option Eid) (id : Nat) (toFront : Bool) (hfresh : c.entry id = none)
    (hp : p.priority < 3) (c' : Catalog) (ok : Bool)
    (hs : c.store (Entry.init p bs ps segs mask) p id (if toFront then .filo else .fifo) =
      some (c', ok)) : ∃ ids', Inv c' fl ids' := by
  rcases store_spec c h.good p bs ps segs mask id toFront hfresh hp with
    ⟨h1, _⟩ | ⟨hnd, c2, h1, hgood, hw, he, hu, hun, n1, n2, n3, n4, n5, n6⟩
  · rw [h1] at hs
    simp only [Option.some.injEq, Prod.mk.injEq] at hs
    exact ⟨ids, hs.1 ▸ h⟩
  · rw [h1] at hs
    simp only [Option.some.injEq, Prod.mk.injEq] at hs
    obtain ⟨rfl, _⟩ := hs
    set e := entryOf p bs ps segs mask with hee
    have hnotin : id ∉ ids := by
      rw [← h.known id, hfresh]; simp
    have hnfl : id ∉ fl := fun hf => by
      have := h.flKnown id hf; rw [hfresh] at this; simp at this
    have hnw : ∀ d p x, id ∉ c.waiting d p x := by
      intro d p x hin
      obtain ⟨e', he', _⟩ := h.place d p x id hin
      rw [hfresh] at he'; simp at he'
    have hold : ∀ k, k ≠ id → c2.entry k = c.entry k := fun k hk => by rw [he k, if_neg hk]
    have hnew : c2.entry id = some e := by rw [he id, if_pos rfl]
    have hmem : ∀ d p x k, k ∈ c2.waiting d p x ↔
        (k ∈ c.waiting d p x ∨ (k = id ∧ d = e.dest ∧ p = e.priority ∧ x = e.expiration)) := by
      intro d p x k
      rw [hw]; unfold updQueue
      by_cases hd : d = e.dest ∧ p = e.priority ∧ x = e.expiration
      · rw [if_pos hd]
        obtain ⟨rfl, rfl, rfl⟩ := hd
        cases toFront <;> simp [or_comm]
      · rw [if_neg hd]; simp only [hd, and_false, or_false]
    refine ⟨id :: ids, ?_⟩
    constructor
    · exact hgood
    · exact List.nodup_cons.2 ⟨hnotin, h.idsNodup⟩
    · intro k
      by_cases hk : k = id
      · subst hk; simp [hnew]
      · rw [hold k hk, h.known k, List.mem_cons]; simp [hk]
    · intro k e' hk
      by_cases hki : k = id
      · subst hki; rw [hnew] at hk
        simp only [Option.some.injEq] at hk
        subst hk
        exact ⟨lt_of_eq_of_lt (encode_priority p (by omega)) hp, encode_lt p (by omega)⟩
      · rw [hold k hki] at hk; exact h.entryGood k e' hk
    · intro d p' x k hk
      rcases (hmem d p' x k).1 hk with hk | ⟨rfl, rfl, rfl, rfl⟩
      · have hki : k ≠ id := fun hh => hnw d p' x (hh ▸ hk)
        rw [hold k hki]; exact h.place d p' x k hk
      · exact ⟨e, hnew, rfl, rfl, rfl⟩
    · intro d p' x
      rw [hw]; unfold updQueue
      split
      · cases toFront with
        | true => exact List.nodup_cons.2 ⟨hnw _ _ _, h.once _ _ _⟩
        | false =>
          simp only [Bool.false_eq_true, if_false]
          rw [List.nodup_append]
          refine ⟨h.once _ _ _, by simp, fun a ha b hb hab => ?_⟩
          rw [List.mem_singleton] at hb
          exact hnw _ _ _ (hb ▸ hab ▸ ha)
      · exact h.once _ _ _
    · exact h.flNodup
    · intro k hk
      rw [hold k (fun hh => hnfl (hh ▸ hk))]; exact h.flKnown k hk
    · intro k hk d p' x hin
      rcases (hmem d p' x k).1 hin with hin | ⟨rfl, _⟩
      · exact h.flNot k hk d p' x hin
      · exact hnfl hk
    · intro k e' hk hkf
      by_cases hki : k = id
      · subst hki
        rw [hnew] at hk
        simp only [Option.some.injEq] at hk
        subst hk
        exact (hmem _ _ _ _).2 (Or.inr ⟨rfl, rfl, rfl, rfl⟩)
      · rw [hold k hki] at hk
        exact (hmem _ _ _ _).2 (Or.inl (h.flElse k e' hk hkf))
    · rw [n1, h.count]; rfl
    · have hsz : c2.sizeOf id = bs := by unfold Catalog.sizeOf; rw [hnew]; rfl
      rw [n2, h.bytes, List.map_cons, List.sum_cons, hsz,
        sum_map_congr ids c2.sizeOf c.sizeOf (fun i hi => by
          unfold Catalog.sizeOf; rw [hold i (fun hh => hnotin (hh ▸ hi))])]
      omega
    · rw [n3, n5, n1, h.countTotal]; omega
    · rw [n4, n6, n2, h.bytesTotal]; omega
    · intro u k
      rw [hu u]
      by_cases hk : k = id
      · subst hk
        rw [hnew]
        by_cases hkey : e.keyPtr = .frag u
        · simp [hkey]
        · simp only [hkey, if_false, Option.some.injEq, exists_eq_left', iff_false]
          intro hh
          obtain ⟨e', he', _⟩ := (h.uuid u k).1 hh
          rw [hfresh] at he'; simp at he'
      · rw [hold k hk, ← h.uuid u k]
        by_cases hkey : e.keyPtr = .frag u
        · rw [if_pos hkey]
          have hnone : c.idOfUuid u = none := by
            cases hcu : c.idOfUuid u with
            | none => rfl
            | some k' =>
              exfalso
              apply hnd
              have hk1 : keyOf p ps = .frag u := hkey
              unfold keyOf at hk1
              split at hk1
              · rename_i hcust
                split at hk1
                · rename_i hfrag
                  simp only [KeyPtr.frag.injEq] at hk1
                  exact ⟨hcust, Or.inl ⟨hfrag, by rw [hk1, hcu]; rfl⟩⟩
                · simp at hk1
              · simp at hk1
          rw [hnone]; simp only [Option.some.injEq, reduceCtorEq, iff_false]
          exact fun hh => hk hh.symm
        · rw [if_neg hkey]
    · intro u k
      rw [hun u]
      by_cases hk : k = id
      · subst hk
        rw [hnew]
        by_cases hkey : e.keyPtr = .noFrag u
        · simp [hkey]
        · simp only [hkey, if_false, Option.some.injEq, exists_eq_left', iff_false]
          intro hh
          obtain ⟨e', he', _⟩ := (h.uuidNoFrag u k).1 hh
          rw [hfresh] at he'; simp at he'
      · rw [hold k hk, ← h.uuidNoFrag u k]
        by_cases hkey : e.keyPtr = .noFrag u
        · rw [if_pos hkey]
          have hnone : c.idOfUuidNoFrag u = none := by
            cases hcu : c.idOfUuidNoFrag u with
            | none => rfl
            | some k' =>
              exfalso
              apply hnd
              have hk1 : keyOf p ps = .noFrag u := hkey
              unfold keyOf at hk1
              split at hk1
              · rename_i hcust
                split at hk1
                · simp at hk1
                · rename_i hfrag
                  simp only [KeyPtr.noFrag.injEq] at hk1
                  exact ⟨hcust, Or.inr ⟨by simpa using hfrag, by rw [hk1, hcu]; rfl⟩⟩
              · simp at hk1
          rw [hnone]; simp only [Option.some.injEq, reduceCtorEq, iff_false]
          exact fun hh => hk hh.symm
        · rw [if_neg hkey]
    · intro k e' hk
      by_cases hki : k = id
      · subst hki; rw [hnew] at hk
        simp only [Option.some.injEq] at hk
        subst hk
        exact entryOf_bits p bs ps segs mask (by omega)
      · rw [hold k hki] at hk; exact h.bits k e' hk

/-- Taking. -/
theorem pop_spec (c : Catalog) (h : c.WF) (sel : Selection) :
    (c.pop (c.select sel) = .nothing ∧
      ∀ d p x, sel.Accepts d → c.waiting d p x = []) ∨
    ∃ d p x id rest, sel.Accepts d ∧ p < 3 ∧ x < 2 ^ 64 - 1 ∧ c.waiting d p x = id :: rest ∧
      (∀ d' p' x', sel.Accepts d' → c.waiting d' p' x' ≠ [] → p' < p ∨ (p' = p ∧ x ≤ x')) ∧
      c.pop (c.select sel) = .taken id (c.entry id)
        (c.setExpirations d p (newMap (c.prioritiesOf d p) x rest)) := by
  have hin : ∀ d p x, c.waiting d p x ≠ [] → p < 3 ∧ x < 2 ^ 64 - 1 := by
    intro d p x hne
    have hm := (h.mem_iff hne).2 rfl
    have := h.good d p x _ hm
    exact ⟨this.2.2, this.2.1⟩
  have hsel : ∀ d p x, sel.Accepts d → c.waiting d p x ≠ [] → d ∈ c.select sel := by
    intro d p x ha hne
    rw [mem_select c h]
    refine ⟨ha, ?_⟩
    by_contra hs
    exact hne (waiting_absent c d p x (by simpa using hs))
  rcases popLoop_spec c h (c.select sel) [2, 1, 0] with
    ⟨h1, h2⟩ | ⟨pre, p, post, d, x, id, rest, h1, h2, h3, h4, h5, h6⟩
  · left
    refine ⟨h1, fun d p x ha => ?_⟩
    by_contra hne
    have hp := (hin d p x hne).1
    exact hne (h2 p (by simp; omega) d (hsel d p x ha hne) x)
  · right
    have hne : c.waiting d p x ≠ [] := by rw [h4]; simp
    refine ⟨d, p, x, id, rest, ((mem_select c h sel d).1 h2).1, (hin d p x hne).1,
      (hin d p x hne).2, h4, fun d' p' x' ha hne' => ?_, h6⟩
    have hp' := (hin d' p' x' hne').1
    have hd' := hsel d' p' x' ha hne'
    have hpre : p' ∉ pre := fun hh => hne' (h3 p' hh d' hd' x')
    by_cases hpp : p' = p
    · right
      subst hpp
      exact ⟨rfl, h5 d' hd' x' hne'⟩
    · left
      rcases pre with _ | ⟨a, _ | ⟨b, _ | ⟨c', pre⟩⟩⟩ <;>
        simp only [List.nil_append, List.cons_append, List.cons.injEq] at h1 <;>
        simp only [List.mem_cons, List.not_mem_nil, or_false, not_or] at hpre
      · omega
      · omega
      · omega
      · exact absurd h1.2.2.2 (by simp)

theorem inv_take {c : Catalog} {fl ids : List Nat} (h : Inv c fl ids) (sel : Selection) (id : Nat)
    (e : Option Entry) (c' : Catalog) (hs : c.pop (c.select sel) = .taken id e c') :
    Inv c' (id :: fl) ids := by
  rcases pop_spec c h.good.wf sel with ⟨h1, _⟩ | ⟨d, p, x, id', rest, ha, hp, hx, hw, _, h1⟩
  · rw [h1] at hs; simp at hs
  · rw [h1] at hs
    simp only [Pop.taken.injEq] at hs
    obtain ⟨rfl, rfl, rfl⟩ := hs
    obtain ⟨s1, s2⟩ := set_newMap c h.good.wf d p x rest hx hp
    set c2 := c.setExpirations d p (newMap (c.prioritiesOf d p) x rest) with hc2
    have hent : c2.entry = c.entry := rfl
    have hin : id' ∈ c.waiting d p x := by rw [hw]; simp
    have hnd := h.once d p x
    rw [hw, List.nodup_cons] at hnd
    obtain ⟨e0, he0, hd0, hp0, hx0⟩ := h.place d p x id' hin
    have hmem : ∀ d' p' x' k, k ∈ c2.waiting d' p' x' ↔ (k ∈ c.waiting d' p' x' ∧ k ≠ id') := by
      intro d' p' x' k
      rw [s2]; unfold updQueue
      split
      · rename_i hh
        obtain ⟨rfl, rfl, rfl⟩ := hh
        rw [hw, List.mem_cons]
        constructor
        · intro hk; exact ⟨Or.inr hk, fun hki => hnd.1 (hki ▸ hk)⟩
        · rintro ⟨hk | hk, hki⟩
          · exact absurd hk hki
          · exact hk
      · rename_i hh
        constructor
        · intro hk
          refine ⟨hk, fun hki => hh ?_⟩
          obtain ⟨e1, he1, hd1, hp1, hx1⟩ := h.place d' p' x' k hk
          rw [hki, he0] at he1
          simp only [Option.some.injEq] at he1
          subst he1
          exact ⟨hd1.symm.trans hd0, hp1.symm.trans hp0, hx1.symm.trans hx0⟩
        · exact fun hk => hk.1
    constructor
    · exact ⟨s1, h.good.t1, h.good.t2, h.good.t3⟩
    · exact h.idsNodup
    · exact h.known
    · exact h.entryGood
    · intro d' p' x' k hk
      exact h.place d' p' x' k ((hmem d' p' x' k).1 hk).1
    · intro d' p' x'
      rw [s2]; unfold updQueue
      split
      · exact hnd.2
      · exact h.once d' p' x'
    · exact List.nodup_cons.2 ⟨fun hf => h.flNot id' hf d p x hin, h.flNodup⟩
    · intro k hk
      rcases List.mem_cons.1 hk with rfl | hk
      · rw [hent, he0]; rfl
      · exact h.flKnown k hk
    · intro k hk d' p' x' hkw
      have := (hmem d' p' x' k).1 hkw
      rcases List.mem_cons.1 hk with rfl | hk
      · exact this.2 rfl
      · exact h.flNot k hk d' p' x' this.1
    · intro k e' hk hkf
      simp only [List.mem_cons, not_or] at hkf
      exact (hmem _ _ _ _).2 ⟨h.flElse k e' hk hkf.2, hkf.1⟩
    · exact h.count
    · exact h.bytes
    · exact h.countTotal
    · exact h.bytesTotal
    · exact h.uuid
    · exact h.uuidNoFrag
    · exact h.bits

theorem giveBack_spec (c : Catalog) (hw : c.WF) (e : Entry) (id : Nat) (hp : e.priority < 3)
    (he : e.enc < 2 ^ 64) : ∃ c', c.giveBack e id = some (c', true) ∧ c'.WF ∧
      c'.waiting = updQueue c.waiting e.dest e.priority e.expiration
        (id :: c.waiting e.dest e.priority e.expiration) ∧
      ∃ ds, c' = { c with dests := ds } := by
  obtain ⟨s1, s2⟩ := set_newMap c hw e.dest e.priority e.expiration
    (id :: c.waiting e.dest e.priority e.expiration) (expiration_lt e he) hp
  exact ⟨_, addAwaiting_filo c e id hp, s1, s2, _, rfl⟩

theorem inv_giveBack {c : Catalog} {fl ids : List Nat} (h : Inv c fl ids) (id : Nat) (e : Entry)
    (ok : Bool) (c' : Catalog) (hid : id ∈ fl) (he : c.entry id = some e)
    (hs : c.giveBack e id = some (c', ok)) : Inv c' (fl.erase id) ids := by
  obtain ⟨hp, henc⟩ := h.entryGood id e he
  obtain ⟨c2, h1, s1, s2, ds, hds⟩ := giveBack_spec c h.good.wf e id hp henc
  rw [h1] at hs
  simp only [Option.some.injEq, Prod.mk.injEq] at hs
  obtain ⟨rfl, _⟩ := hs
  have hnw := h.flNot id hid
  have hmem : ∀ d p x k, k ∈ c2.waiting d p x ↔
      (k ∈ c.waiting d p x ∨ (k = id ∧ d = e.dest ∧ p = e.priority ∧ x = e.expiration)) := by
    intro d p x k
    rw [s2]; unfold updQueue
    by_cases hd : d = e.dest ∧ p = e.priority ∧ x = e.expiration
    · rw [if_pos hd]
      obtain ⟨rfl, rfl, rfl⟩ := hd
      simp [or_comm]
    · rw [if_neg hd]; simp only [hd, and_false, or_false]
  have hwait := s2
  subst hds
  constructor
  · exact ⟨s1, h.good.t1, h.good.t2, h.good.t3⟩
  · exact h.idsNodup
  · exact h.known
  · exact h.entryGood
  · intro d p x k hk
    rcases (hmem d p x k).1 hk with hk | ⟨rfl, rfl, rfl, rfl⟩
    · exact h.place d p x k hk
    · exact ⟨e, he, rfl, rfl, rfl⟩
  · intro d p x
    rw [hwait]; unfold updQueue
    split
    · exact List.nodup_cons.2 ⟨hnw _ _ _, h.once _ _ _⟩
    · exact h.once d p x
  · exact h.flNodup.erase id
  · intro k hk; exact h.flKnown k (List.mem_of_mem_erase hk)
  · intro k hk d p x hkw
    have hk' := (h.flNodup.mem_erase_iff).1 hk
    rcases (hmem d p x k).1 hkw with hkw | ⟨rfl, _⟩
    · exact h.flNot k hk'.2 d p x hkw
    · exact hk'.1 rfl
  · intro k e' hk hkf
    rw [h.flNodup.mem_erase_iff] at hkf
    refine (hmem _ _ _ _).2 ?_
    by_cases hki : k = id
    · subst hki
      have hk2 : c.entry k = some e' := hk
      rw [he] at hk2
      simp only [Option.some.injEq] at hk2
      subst hk2
      exact Or.inr ⟨rfl, rfl, rfl, rfl⟩
    · exact Or.inl (h.flElse k e' hk fun hf => hkf ⟨hki, hf⟩)
  · exact h.count
  · exact h.bytes
  · exact h.countTotal
  · exact h.bytesTotal
  · exact h.uuid
  · exact h.uuidNoFrag
  · exact h.bits

/-! Removal. -/

theorem forgetUuid_spec {c : Catalog} {fl ids : List Nat} (h : Inv c fl ids) (c1 : Catalog)
    (h1 : c1.uuids = c.uuids) (h2 : c1.uuidsNoFrag = c.uuidsNoFrag) (id : Nat) (e : Entry)
    (he : c.entry id = some e) (n : Nat) : ∃ t1 t2 n',
      c1.forgetUuid e id false n = ({ c1 with uuids := t1, uuidsNoFrag := t2 }, false, n') ∧
      t1.WF Uuid.lt Uuid.hash ∧ t2.WF UuidNoFrag.lt UuidNoFrag.hash ∧
      (∀ u, t1.get Uuid.lt Uuid.hash u = if e.keyPtr = .frag u then none else c.idOfUuid u) ∧
      (∀ u, t2.get UuidNoFrag.lt UuidNoFrag.hash u =
        if e.keyPtr = .noFrag u then none else c.idOfUuidNoFrag u) := by
  obtain ⟨b1, b2⟩ := h.bits id e he
  unfold Catalog.forgetUuid
  cases hk : e.keyPtr with
  | null =>
    have n1 : e.custodyFrag = false := by
      rw [Bool.eq_false_iff]; intro hh; obtain ⟨u, hu⟩ := b1.1 hh; rw [hk] at hu; simp at hu
    have n2 : e.custodyNoFrag = false := by
      rw [Bool.eq_false_iff]; intro hh; obtain ⟨u, hu⟩ := b2.1 hh; rw [hk] at hu; simp at hu
    refine ⟨c1.uuids, c1.uuidsNoFrag, n, ?_, ?_, ?_, ?_, ?_⟩
    · simp [n1, n2]
    · rw [h1]; exact h.good.t1
    · rw [h2]; exact h.good.t2
    · intro u; simp [h1, Catalog.idOfUuid]
    · intro u; simp [h2, Catalog.idOfUuidNoFrag]
  | frag u =>
    have n1 : e.custodyFrag = true := b1.2 ⟨u, hk⟩
    have n2 : e.custodyNoFrag = false := by
      rw [Bool.eq_false_iff]; intro hh; obtain ⟨u, hu⟩ := b2.1 hh; rw [hk] at hu; simp at hu
    have hreg : c.idOfUuid u = some id := (h.uuid u id).2 ⟨e, he, hk⟩
    have hr := remove_spec Uuid.lt_strict c.uuids h.good.t1 u
    cases hrem : c.uuids.remove Uuid.lt Uuid.hash u with
    | none =>
      have := hr.1
      rw [hrem] at this
      have h3 : c.uuids.get Uuid.lt Uuid.hash u = some id := hreg
      rw [h3] at this; simp at this
    | some r =>
      obtain ⟨v, t⟩ := r
      have := hr.1
      rw [hrem] at this
      have h3 : c.uuids.get Uuid.lt Uuid.hash u = some id := hreg
      rw [h3] at this
      simp only [Option.map_some, Option.some.injEq] at this
      subst this
      obtain ⟨g1, g2⟩ := hr.2 _ _ hrem
      refine ⟨t, c1.uuidsNoFrag, n + 1, ?_, g1, ?_, ?_, ?_⟩
      · simp [n1, n2, h1, hrem]
      · rw [h2]; exact h.good.t2
      · intro u'
        rw [g2 u']
        by_cases huu : u' = u
        · simp [huu]
        · have : ¬ u = u' := fun hh => huu hh.symm
          simp [huu, this, Catalog.idOfUuid]
      · intro u'; simp [h2, Catalog.idOfUuidNoFrag]
  | noFrag u =>
    have n1 : e.custodyNoFrag = true := b2.2 ⟨u, hk⟩
    have n2 : e.custodyFrag = false := by
      rw [Bool.eq_false_iff]; intro hh; obtain ⟨u, hu⟩ := b1.1 hh; rw [hk] at hu; simp at hu
    have hreg : c.idOfUuidNoFrag u = some id := (h.uuidNoFrag u id).2 ⟨e, he, hk⟩
    have hr := remove_spec UuidNoFrag.lt_strict c.uuidsNoFrag h.good.t2 u
    cases hrem : c.uuidsNoFrag.remove UuidNoFrag.lt UuidNoFrag.hash u with
    | none =>
      have := hr.1
      rw [hrem] at this
      have h3 : c.uuidsNoFrag.get UuidNoFrag.lt UuidNoFrag.hash u = some id := hreg
      rw [h3] at this; simp at this
    | some r =>
      obtain ⟨v, t⟩ := r
      have := hr.1
      rw [hrem] at this
      have h3 : c.uuidsNoFrag.get UuidNoFrag.lt UuidNoFrag.hash u = some id := hreg
      rw [h3] at this
      simp only [Option.map_some, Option.some.injEq] at this
      subst this
      obtain ⟨g1, g2⟩ := hr.2 _ _ hrem
      refine ⟨c1.uuids, t, n + 1, ?_, ?_, g1, ?_, ?_⟩
      · simp [n1, n2, h2, hrem]
      · rw [h1]; exact h.good.t1
      · intro u'; simp [h1, Catalog.idOfUuid]
      · intro u'
        rw [g2 u']
        by_cases huu : u' = u
        · simp [huu]
        · have : ¬ u = u' := fun hh => huu hh.symm
          simp [huu, this, Catalog.idOfUuidNoFrag]

theorem remove_catalog_spec {c : Catalog} {fl ids : List Nat} (h : Inv c fl ids) (id : Nat) (e : Entry)
    (he : c.entry id = some e) : ∃ c' n,
      c.remove id (decide (id ∉ fl)) = some (c', true, n) ∧ Good c' ∧
      c'.waiting = (if id ∈ fl then c.waiting else
        updQueue c.waiting e.dest e.priority e.expiration
          ((c.waiting e.dest e.priority e.expiration).erase id)) ∧
      (∀ k, c'.entry k = if k = id then none else c.entry k) ∧
      (∀ u, c'.idOfUuid u = if e.keyPtr = .frag u then none else c.idOfUuid u) ∧
      (∀ u, c'.idOfUuidNoFrag u = if e.keyPtr = .noFrag u then none else c.idOfUuidNoFrag u) ∧
      c'.numBundles = c.numBundles - 1 ∧ c'.numBytes = c.numBytes - e.bundleSize ∧
      c'.totalWrites = c.totalWrites ∧ c'.totalBytesWritten = c.totalBytesWritten ∧
      c'.totalErases = c.totalErases + 1 ∧
      c'.totalBytesErased = c.totalBytesErased + e.bundleSize := by
  unfold Catalog.remove
  have hr := remove_spec natLt_strict c.entries h.good.t3 id
  have h3 : c.entries.get natLt hashU64 id = some e := he
  cases hrem : c.entries.remove natLt hashU64 id with
  | none =>
    have := hr.1
    rw [hrem, h3] at this; simp at this
  | some r =>
    obtain ⟨v, t⟩ := r
    have := hr.1
    rw [hrem, h3] at this
    simp only [Option.map_some, Option.some.injEq] at this
    subst this
    obtain ⟨g1, g2⟩ := hr.2 _ _ hrem
    simp only
    set c1 : Catalog := { c with entries := t
                                 numBundles := c.numBundles - 1
                                 numBytes := c.numBytes - v.bundleSize
                                 totalErases := c.totalErases + 1
                                 totalBytesErased := c.totalBytesErased + v.bundleSize } with hc1
    have hw1 : c1.WF := wf_congr h.good.wf rfl
    have hwait1 : c1.waiting = c.waiting := waiting_congr rfl
    obtain ⟨hp, henc⟩ := h.entryGood id v he
    by_cases hf : id ∈ fl
    · simp only [hf, not_true_eq_false, decide_false, Bool.false_eq_true, if_false, if_true]
      obtain ⟨t1, t2, n', f1, f2, f3, f4, f5⟩ := forgetUuid_spec h c1 rfl rfl id v he 1
      rw [f1]
      exact ⟨_, n', rfl, ⟨wf_congr hw1 rfl, f2, f3, g1⟩, waiting_congr rfl, g2, f4, f5, rfl, rfl, rfl,
        rfl, rfl, rfl⟩
    · simp only [hf, not_false_eq_true, decide_true, if_true, if_false]
      have hin : id ∈ c1.waiting v.dest v.priority v.expiration := by
        rw [hwait1]; exact h.flElse id v he hf
      rw [removeAwaiting_eq c1 v id hp hin]
      simp only [Bool.not_true, if_true]
      obtain ⟨s1, s2⟩ := set_newMap c1 hw1 v.dest v.priority v.expiration
        ((c1.waiting v.dest v.priority v.expiration).erase id) (expiration_lt v henc) hp
      set c2 := c1.setExpirations v.dest v.priority
        (newMap (c1.prioritiesOf v.dest v.priority) v.expiration
          ((c1.waiting v.dest v.priority v.expiration).erase id)) with hc2
      obtain ⟨t1, t2, n', f1, f2, f3, f4, f5⟩ := forgetUuid_spec h c2 rfl rfl id v he 2
      rw [f1]
      refine ⟨_, n', rfl, ⟨wf_congr s1 rfl, f2, f3, g1⟩, ?_, g2, f4, f5, rfl, rfl, rfl,
        rfl, rfl, rfl⟩
      exact (waiting_congr (c := c2) rfl).trans (s2.trans (by rw [hwait1]))

theorem inv_remove {c : Catalog} {fl ids : List Nat} (h : Inv c fl ids) (id : Nat) (ok : Bool)
    (n : Nat) (c' : Catalog) (hid : (c.entry id).isSome = true)
    (hs : c.remove id (decide (id ∉ fl)) = some (c', ok, n)) :
    Inv c' (fl.erase id) (ids.erase id) := by
  rw [Option.isSome_iff_exists] at hid
  obtain ⟨e, he⟩ := hid
  obtain ⟨c2, n2, h1, hg, hw, hent, hu, hun, n1, n2', n3, n4, n5, n6⟩ := remove_catalog_spec h id e he
  rw [h1] at hs
  simp only [Option.some.injEq, Prod.mk.injEq] at hs
  obtain ⟨rfl, _, _⟩ := hs
  have hin : id ∈ ids := (h.known id).1 (by rw [he]; rfl)
  have hmem : ∀ d p x k, k ∈ c2.waiting d p x ↔ (k ∈ c.waiting d p x ∧ k ≠ id) := by
    intro d p x k
    rw [hw]
    by_cases hf : id ∈ fl
    · rw [if_pos hf]
      constructor
      · intro hk; exact ⟨hk, fun hki => h.flNot id hf d p x (hki ▸ hk)⟩
      · exact fun hk => hk.1
    · rw [if_neg hf]; unfold updQueue
      split
      · rename_i hd
        obtain ⟨rfl, rfl, rfl⟩ := hd
        rw [(h.once _ _ _).mem_erase_iff, and_comm]
      · rename_i hd
        constructor
        · intro hk
          refine ⟨hk, fun hki => hd ?_⟩
          obtain ⟨e1, he1, hd1, hp1, hx1⟩ := h.place d p x k hk
          rw [hki, he] at he1
          simp only [Option.some.injEq] at he1
          subst he1
          exact ⟨hd1.symm, hp1.symm, hx1.symm⟩
        · exact fun hk => hk.1
  have hold : ∀ k, k ≠ id → c2.entry k = c.entry k := fun k hk => by rw [hent k, if_neg hk]
  have hgone : c2.entry id = none := by rw [hent id, if_pos rfl]
  have hback : ∀ k e', c2.entry k = some e' → k ≠ id ∧ c.entry k = some e' := by
    intro k e' hk
    have hki : k ≠ id := fun hh => by rw [hh, hgone] at hk; simp at hk
    exact ⟨hki, by rw [← hold k hki]; exact hk⟩
  have hperm := List.perm_cons_erase hin
  have hsum : (ids.map c.sizeOf).sum = e.bundleSize + ((ids.erase id).map c2.sizeOf).sum := by
    have h2 : ((ids.erase id).map c2.sizeOf).sum = ((ids.erase id).map c.sizeOf).sum :=
      sum_map_congr _ _ _ fun i hi => by
        have := (h.idsNodup.mem_erase_iff).1 hi
        unfold Catalog.sizeOf; rw [hold i this.1]
    have h3 : c.sizeOf id = e.bundleSize := by unfold Catalog.sizeOf; rw [he]
    rw [h2, ← h3, ← List.sum_cons, ← List.map_cons]
    exact (hperm.map c.sizeOf).sum_nat
  have hlen : ids.length = (ids.erase id).length + 1 := by
    rw [hperm.length_eq]; rfl
  constructor
  · exact hg
  · exact h.idsNodup.erase id
  · intro k
    rw [h.idsNodup.mem_erase_iff]
    by_cases hk : k = id
    · subst hk; simp [hgone]
    · rw [hold k hk, h.known k]; simp [hk]
  · intro k e' hk
    exact h.entryGood k e' (hback k e' hk).2
  · intro d p x k hk
    obtain ⟨hk1, hk2⟩ := (hmem d p x k).1 hk
    rw [hold k hk2]; exact h.place d p x k hk1
  · intro d p x
    rw [hw]
    split
    · exact h.once d p x
    · unfold updQueue; split
      · exact (h.once _ _ _).erase id
      · exact h.once d p x
  · exact h.flNodup.erase id
  · intro k hk
    have := (h.flNodup.mem_erase_iff).1 hk
    rw [hold k this.1]; exact h.flKnown k this.2
  · intro k hk d p x hkw
    exact h.flNot k (List.mem_of_mem_erase hk) d p x ((hmem d p x k).1 hkw).1
  · intro k e' hk hkf
    obtain ⟨hki, hk'⟩ := hback k e' hk
    refine (hmem _ _ _ _).2 ⟨h.flElse k e' hk' fun hf => hkf ?_, hki⟩
    exact (h.flNodup.mem_erase_iff).2 ⟨hki, hf⟩
  · rw [n1, h.count]; omega
  · rw [n2', h.bytes, hsum]; omega
  · rw [n3, n5, n1, h.countTotal, h.count]; omega
  · rw [n4, n6, n2', h.bytesTotal, h.bytes, hsum]; omega
  · intro u k
    rw [hu u]
    by_cases hk : k = id
    · subst hk
      rw [hgone]
      split
      · simp
      · rename_i hkey
        simp only [reduceCtorEq, false_and, exists_false, iff_false]
        intro hh
        obtain ⟨e', he', hk'⟩ := (h.uuid u k).1 hh
        rw [he] at he'
        simp only [Option.some.injEq] at he'
        subst he'
        exact hkey hk'
    · rw [hold k hk, ← h.uuid u k]
      split
      · rename_i hkey
        have := (h.uuid u id).2 ⟨e, he, hkey⟩
        rw [this]
        simp only [reduceCtorEq, Option.some.injEq, false_iff]
        exact fun hh => hk hh.symm
      · rfl
  · intro u k
    rw [hun u]
    by_cases hk : k = id
    · subst hk
      rw [hgone]
      split
      · simp
      · rename_i hkey
        simp only [reduceCtorEq, false_and, exists_false, iff_false]
        intro hh
        obtain ⟨e', he', hk'⟩ := (h.uuidNoFrag u k).1 hh
        rw [he] at he'
        simp only [Option.some.injEq] at he'
        subst he'
        exact hkey hk'
    · rw [hold k hk, ← h.uuidNoFrag u k]
      split
      · rename_i hkey
        have := (h.uuidNoFrag u id).2 ⟨e, he, hkey⟩
        rw [this]
        simp only [reduceCtorEq, Option.some.injEq, false_iff]
        exact fun hh => hk hh.symm
      · rfl
  · intro k e' hk
    exact h.bits k e' (hback k e' hk).2

theorem inv_reachable (s : Catalog × List Nat) (h : Reachable s) : ∃ ids, Inv s.1 s.2 ids := by
  induction h with
  | empty => exact ⟨[], inv_empty⟩
  | step s s' op _ hs ih =>
    obtain ⟨ids, ih⟩ := ih
    cases hs with
    | store c c' fl p bs ps segs mask id toFront ok hfresh hprio h =>
      exact inv_store ih p bs ps segs mask id toFront hfresh hprio c' ok h
    | take c c' fl sel id e h => exact ⟨ids, inv_take ih sel id e c' h⟩
    | takeNothing c fl sel h => exact ⟨ids, ih⟩
    | giveBack c c' fl id e ok hid he h => exact ⟨ids, inv_giveBack ih id e ok c' hid he h⟩
    | remove c c' fl id ok n hid h => exact ⟨_, inv_remove ih id ok n c' hid h⟩

end Hdtn.Catalog
