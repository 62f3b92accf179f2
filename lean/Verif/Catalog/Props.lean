import Verif.Catalog.Inv

/-!
Properties C25 (order of sending), C26 (conservation) and C27 (expired bundles) of the storage
catalog.
-/

namespace Hdtn.Catalog

open Hdtn.HashMap16

/-- C25: in any catalog reached by a history, taking a bundle for a selection of destinations
yields nothing exactly when nothing waits for an accepted destination; otherwise it yields the first
waiting bundle of an accepted destination, with the highest priority and, for that priority, the
earliest expiration present; its entry carries that destination, priority and expiration; and it
alone leaves the waiting bundles. -/
theorem C25_take_order (s : Catalog × List Nat) (h : Reachable s) (sel : Selection) :
    s.1.pop (s.1.select sel) ≠ .undefined ∧
    (s.1.pop (s.1.select sel) = .nothing ↔ ∀ d p x, sel.Accepts d → s.1.waiting d p x = []) ∧
    ∀ id e c', s.1.pop (s.1.select sel) = .taken id e c' →
      ∃ d p x rest ent, sel.Accepts d ∧ s.1.waiting d p x = id :: rest ∧
        (∀ d' p' x', sel.Accepts d' → s.1.waiting d' p' x' ≠ [] → p' < p ∨ (p' = p ∧ x ≤ x')) ∧
        e = some ent ∧ s.1.entry id = some ent ∧
        ent.dest = d ∧ ent.priority = p ∧ ent.expiration = x ∧
        c'.waiting = updQueue s.1.waiting d p x rest ∧
        (∀ k, c'.entry k = s.1.entry k) ∧ (∀ u, c'.idOfUuid u = s.1.idOfUuid u) ∧
        (∀ u, c'.idOfUuidNoFrag u = s.1.idOfUuidNoFrag u) ∧
        c'.numBundles = s.1.numBundles ∧ c'.numBytes = s.1.numBytes := by
  obtain ⟨ids, hi⟩ := inv_reachable s h
  rcases pop_spec s.1 hi.good.wf sel with ⟨h1, h2⟩ | ⟨d, p, x, id, rest, ha, hp, hx, hw, hbest, h1⟩
  · rw [h1]
    exact ⟨by simp, ⟨fun _ => h2, fun _ => rfl⟩, fun id e c' hh => by simp at hh⟩
  · rw [h1]
    refine ⟨by simp, ⟨fun hh => by simp at hh, fun hh => ?_⟩, fun id' e c' hh => ?_⟩
    · rw [hh d p x ha] at hw; simp at hw
    · simp only [Pop.taken.injEq] at hh
      obtain ⟨rfl, rfl, rfl⟩ := hh
      obtain ⟨ent, e1, e2, e3, e4⟩ := hi.place d p x id (by rw [hw]; simp)
      exact ⟨d, p, x, rest, ent, ha, hw, hbest, e1, e1, e2, e3, e4,
        (set_newMap s.1 hi.good.wf d p x rest hx hp).2, fun _ => rfl, fun _ => rfl, fun _ => rfl,
        rfl, rfl⟩

/-- C26: in any catalog reached by a history, every known bundle is either taken or waiting under
its own destination, priority and expiration, and nothing else is; never both, never twice. -/
theorem C26_conservation (s : Catalog × List Nat) (h : Reachable s) :
    (∀ id, (s.1.entry id).isSome = true ↔ (id ∈ s.2 ∨ ∃ d p x, id ∈ s.1.waiting d p x)) ∧
    (∀ id ∈ s.2, ∀ d p x, id ∉ s.1.waiting d p x) ∧
    s.2.Nodup ∧ (∀ d p x, (s.1.waiting d p x).Nodup) ∧
    (∀ d p x id, id ∈ s.1.waiting d p x →
      ∃ e, s.1.entry id = some e ∧ e.dest = d ∧ e.priority = p ∧ e.expiration = x) := by
  obtain ⟨ids, hi⟩ := inv_reachable s h
  refine ⟨fun id => ⟨fun hk => ?_, ?_⟩, hi.flNot, hi.flNodup, hi.once, hi.place⟩
  · rw [Option.isSome_iff_exists] at hk
    obtain ⟨e, he⟩ := hk
    by_cases hf : id ∈ s.2
    · exact Or.inl hf
    · exact Or.inr ⟨_, _, _, hi.flElse id e he hf⟩
  · rintro (hf | ⟨d, p, x, hw⟩)
    · exact hi.flKnown id hf
    · obtain ⟨e, he, _⟩ := hi.place d p x id hw
      rw [he]; rfl

/-- C26, counters: the known bundles are a list without repetitions; its length and the sum of the
bundle sizes in it are the reported counters, and the lifetime totals differ by them. -/
theorem C26_counters (s : Catalog × List Nat) (h : Reachable s) :
    ∃ ids : List Nat, ids.Nodup ∧ (∀ id, (s.1.entry id).isSome = true ↔ id ∈ ids) ∧
      s.1.numBundles = ids.length ∧ s.1.numBytes = (ids.map s.1.sizeOf).sum ∧
      s.1.totalWrites = s.1.totalErases + s.1.numBundles ∧
      s.1.totalBytesWritten = s.1.totalBytesErased + s.1.numBytes := by
  obtain ⟨ids, hi⟩ := inv_reachable s h
  exact ⟨ids, hi.idsNodup, hi.known, hi.count, hi.bytes, hi.countTotal, hi.bytesTotal⟩

/-- C26, identifiers: a bundle identifier leads to a custody identifier exactly when that bundle is
known and is the one registered under it. -/
theorem C26_identifiers (s : Catalog × List Nat) (h : Reachable s) :
    (∀ u id, s.1.idOfUuid u = some id ↔ ∃ e, s.1.entry id = some e ∧ e.keyPtr = .frag u) ∧
    (∀ u id, s.1.idOfUuidNoFrag u = some id ↔
      ∃ e, s.1.entry id = some e ∧ e.keyPtr = .noFrag u) := by
  obtain ⟨ids, hi⟩ := inv_reachable s h
  exact ⟨hi.uuid, hi.uuidNoFrag⟩

/-- C26, storing: a custody bundle whose identifier is already registered is refused and changes
nothing; any other bundle is accepted, becomes known with its size, segments and class, and joins
its queue at the end, or at the front if asked; nothing else changes. -/
theorem C26_store (s : Catalog × List Nat) (h : Reachable s) (p : Primary) (bs ps : Nat)
    (segs : List Nat) (mask : Option Eid) (id : Nat) (toFront : Bool)
    (hfresh : s.1.entry id = none) (hp : p.priority < 3) :
    (s.1.duplicate p ps →
      s.1.store (Entry.init p bs ps segs mask) p id (if toFront then .filo else .fifo) =
        some (s.1, false)) ∧
    (¬ s.1.duplicate p ps → ∃ c' e,
      s.1.store (Entry.init p bs ps segs mask) p id (if toFront then .filo else .fifo) =
        some (c', true) ∧
      e.bundleSize = bs ∧ e.payloadSize = ps ∧ e.segments = segs ∧ e.dest = mask.getD p.dest ∧
      e.priority = p.priority ∧ e.expiration = p.expiration % 2 ^ 60 ∧
      (∀ k, c'.entry k = if k = id then some e else s.1.entry k) ∧
      c'.waiting = updQueue s.1.waiting e.dest e.priority e.expiration
        (if toFront then id :: s.1.waiting e.dest e.priority e.expiration
         else s.1.waiting e.dest e.priority e.expiration ++ [id]) ∧
      (p.custody = true → p.fragment = true → c'.idOfUuid (p.uuid ps) = some id) ∧
      (p.custody = true → p.fragment = false → c'.idOfUuidNoFrag p.uuidNoFrag = some id)) := by
  obtain ⟨ids, hi⟩ := inv_reachable s h
  rcases store_spec s.1 hi.good p bs ps segs mask id toFront hfresh hp with
    ⟨h1, hd⟩ | ⟨hnd, c2, h1, _, hw, he, hu, hun, _⟩
  · exact ⟨fun _ => h1, fun hh => absurd hd hh⟩
  · refine ⟨fun hh => absurd hh hnd, fun _ =>
      ⟨c2, entryOf p bs ps segs mask, h1, rfl, rfl, rfl, ?_, encode_priority p (by omega),
        encode_expiration p (by omega), he, hw, fun h1 h2 => ?_, fun h1 h2 => ?_⟩⟩
    · cases mask <;> rfl
    · rw [hu, if_pos (by simp [entryOf, keyOf, h1, h2])]
    · rw [hun, if_pos (by simp [entryOf, keyOf, h1, h2])]

/-- C26, returning: a taken bundle goes back to the head of its own queue, and only that changes. -/
theorem C26_give_back (s : Catalog × List Nat) (h : Reachable s) (id : Nat) (hid : id ∈ s.2) :
    ∃ e c', s.1.entry id = some e ∧ s.1.giveBack e id = some (c', true) ∧
      c'.waiting = updQueue s.1.waiting e.dest e.priority e.expiration
        (id :: s.1.waiting e.dest e.priority e.expiration) ∧
      (∀ k, c'.entry k = s.1.entry k) ∧ c'.numBundles = s.1.numBundles := by
  obtain ⟨ids, hi⟩ := inv_reachable s h
  have hk := hi.flKnown id hid
  rw [Option.isSome_iff_exists] at hk
  obtain ⟨e, he⟩ := hk
  obtain ⟨hp, henc⟩ := hi.entryGood id e he
  obtain ⟨c2, h1, _, h3, ds, rfl⟩ := giveBack_spec s.1 hi.good.wf e id hp henc
  exact ⟨e, _, he, h1, h3, fun _ => rfl, rfl⟩

/-- C26, removing: a known bundle, taken or waiting, is removed with success; it is then unknown,
waits nowhere and its bundle identifier is free again; the others stay as they were. -/
theorem C26_remove (s : Catalog × List Nat) (h : Reachable s) (id : Nat) (e : Entry)
    (he : s.1.entry id = some e) :
    ∃ c' n, s.1.remove id (decide (id ∉ s.2)) = some (c', true, n) ∧
      (∀ k, c'.entry k = if k = id then none else s.1.entry k) ∧
      (∀ d p x, id ∉ c'.waiting d p x ∧ c'.waiting d p x = (s.1.waiting d p x).erase id) ∧
      (∀ u, e.keyPtr = .frag u → c'.idOfUuid u = none) ∧
      (∀ u, e.keyPtr = .noFrag u → c'.idOfUuidNoFrag u = none) ∧
      c'.numBundles + 1 = s.1.numBundles ∧ c'.numBytes + e.bundleSize = s.1.numBytes := by
  obtain ⟨ids, hi⟩ := inv_reachable s h
  obtain ⟨c2, n, h1, _, hw, hent, hu, hun, n1, n2, _⟩ := remove_catalog_spec hi id e he
  have hi2 := inv_remove hi id true n c2 (by rw [he]; rfl) h1
  refine ⟨c2, n, h1, hent, fun d p x => ⟨fun hin => ?_, ?_⟩, fun u hk => ?_, fun u hk => ?_, ?_, ?_⟩
  · obtain ⟨e', he', _⟩ := hi2.place d p x id hin
    rw [hent id, if_pos rfl] at he'; simp at he'
  · rw [hw]
    by_cases hf : id ∈ s.2
    · rw [if_pos hf, List.erase_of_not_mem (hi.flNot id hf d p x)]
    · rw [if_neg hf]; unfold updQueue
      split
      · rename_i hd; obtain ⟨rfl, rfl, rfl⟩ := hd; rfl
      · rename_i hd
        rw [List.erase_of_not_mem]
        intro hin
        obtain ⟨e', he', d1, p1, x1⟩ := hi.place d p x id hin
        rw [he] at he'
        simp only [Option.some.injEq] at he'
        subst he'
        exact hd ⟨d1.symm, p1.symm, x1.symm⟩
  · rw [hu, if_pos hk]
  · rw [hun, if_pos hk]
  · have hin := (hi.known id).1 (by rw [he]; rfl)
    have := List.length_pos_of_mem hin
    rw [n1, hi.count]; omega
  · have h1 := hi.bytes
    have h2 := hi2.bytes
    have hin := (hi.known id).1 (by rw [he]; rfl)
    have hsum := ((List.perm_cons_erase hin).map s.1.sizeOf).sum_nat
    rw [List.map_cons, List.sum_cons] at hsum
    have h3 : s.1.sizeOf id = e.bundleSize := by unfold Catalog.sizeOf; rw [he]
    omega

/-! C27. -/

/-- The loop body of `pushIds`. -/
def pushOne (max : Nat) (st : List Nat × Bool) (id : Nat) : List Nat × Bool :=
  if st.2 then st
  else (st.1 ++ [id], decide (max ≠ 0) && decide ((st.1 ++ [id]).length ≥ max))

theorem foldl_foldl {α β : Type} (f : α → List Nat) (g : β → Nat → β) (st : β) (l : List α) :
    l.foldl (fun st x => (f x).foldl g st) st = (l.flatMap f).foldl g st := by
  induction l generalizing st with
  | nil => rfl
  | cons a l ih => simp only [List.foldl_cons, List.flatMap_cons, List.foldl_append, ih]

theorem pushOne_fold_zero (l acc : List Nat) : l.foldl (pushOne 0) (acc, false) = (acc ++ l, false) := by
  induction l generalizing acc with
  | nil => simp
  | cons a l ih =>
    rw [List.foldl_cons]
    have : pushOne 0 (acc, false) a = (acc ++ [a], false) := by simp [pushOne]
    rw [this, ih]; simp

theorem pushOne_done (max : Nat) (l acc : List Nat) :
    l.foldl (pushOne max) (acc, true) = (acc, true) := by
  induction l with
  | nil => rfl
  | cons a l ih => rw [List.foldl_cons]; exact ih

theorem pushOne_fold (max : Nat) (l acc : List Nat) (h : acc.length < max) :
    (l.foldl (pushOne max) (acc, false)).1 = acc ++ l.take (max - acc.length) := by
  induction l generalizing acc with
  | nil => simp
  | cons a l ih =>
    rw [List.foldl_cons]
    have h0 : max ≠ 0 := by omega
    by_cases hm : acc.length + 1 ≥ max
    · have : pushOne max (acc, false) a = (acc ++ [a], true) := by simp [pushOne, h0, hm]
      rw [this, pushOne_done]
      have : max - acc.length = 1 := by omega
      rw [this]; simp
    · have : pushOne max (acc, false) a = (acc ++ [a], false) := by simp [pushOne, h0]; omega
      rw [this, ih (acc ++ [a]) (by simp; omega)]
      have : max - acc.length = (max - (acc ++ [a]).length) + 1 := by simp; omega
      rw [this, List.take_succ_cons]; simp

/-- All expired bundles in the order the code meets them. -/
def Catalog.expiredFlat (c : Catalog) (expiry : Nat) : List Nat :=
  [0, 1, 2].flatMap fun p => c.dests.flatMap fun d =>
    ((d.2 p).takeWhile fun x => x.1 ≤ expiry).flatMap fun x => x.2

theorem expiredIds_eq (c : Catalog) (expiry max : Nat) :
    c.expiredIds expiry max = if max = 0 then c.expiredFlat expiry else (c.expiredFlat expiry).take max := by
  have h : c.expiredIds expiry max = ((c.expiredFlat expiry).foldl (pushOne max) ([], false)).1 := by
    unfold Catalog.expiredIds Catalog.expiredFlat
    have h1 : ∀ (d : Eid × Priorities) (p : Nat) st,
        ((d.2 p).takeWhile fun x => x.1 ≤ expiry).foldl (fun st x => pushIds max st x.2) st =
        (((d.2 p).takeWhile fun x => x.1 ≤ expiry).flatMap fun x => x.2).foldl (pushOne max) st :=
      fun d p st => foldl_foldl (fun x : Nat × List Nat => x.2) (pushOne max) st _
    simp only [h1]
    have h2 : ∀ (p : Nat) st, c.dests.foldl (fun st d =>
          (((d.2 p).takeWhile fun x => x.1 ≤ expiry).flatMap fun x => x.2).foldl (pushOne max) st) st =
        (c.dests.flatMap fun d =>
          ((d.2 p).takeWhile fun x => x.1 ≤ expiry).flatMap fun x => x.2).foldl (pushOne max) st :=
      fun p st => foldl_foldl (fun d : Eid × Priorities =>
        ((d.2 p).takeWhile fun x => x.1 ≤ expiry).flatMap fun x => x.2) (pushOne max) st _
    simp only [h2]
    rw [foldl_foldl]
  rw [h]
  split
  · rename_i h0; subst h0; rw [pushOne_fold_zero]; rfl
  · rename_i h0; rw [pushOne_fold max _ [] (by simp; omega)]; simp

theorem mem_takeWhile_le {m : Expirations} (h : OrdMap.Sorted natLt m) (t x : Nat) (q : List Nat) :
    (x, q) ∈ m.takeWhile (fun y => y.1 ≤ t) ↔ (x, q) ∈ m ∧ x ≤ t := by
  induction m with
  | nil => simp
  | cons a m ih =>
    rw [OrdMap.sorted_cons] at h
    by_cases ha : a.1 ≤ t
    · rw [List.takeWhile_cons_of_pos (by simpa using ha), List.mem_cons, List.mem_cons, ih h.2]
      constructor
      · rintro (rfl | h1)
        · exact ⟨Or.inl rfl, ha⟩
        · exact ⟨Or.inr h1.1, h1.2⟩
      · rintro ⟨rfl | h1, h2⟩
        · exact Or.inl rfl
        · exact Or.inr ⟨h1, h2⟩
    · rw [List.takeWhile_cons_of_neg (by simpa using ha)]
      simp only [List.not_mem_nil, false_iff, not_and, List.mem_cons]
      rintro (rfl | h1)
      · exact ha
      · have := h.1 _ h1
        simp only [natLt, decide_eq_true_eq] at this
        omega

theorem priorities_of_mem {c : Catalog} (h : c.WF) {d : Eid} {a : Priorities} (hm : (d, a) ∈ c.dests) :
    c.prioritiesOf d = a := by
  unfold Catalog.prioritiesOf
  rw [(OrdMap.mem_iff Eid.lt_strict h.dsorted).1 hm]

theorem mem_expiredFlat (c : Catalog) (h : c.WF) (expiry id : Nat) :
    id ∈ c.expiredFlat expiry ↔ ∃ d p x, x ≤ expiry ∧ id ∈ c.waiting d p x := by
  unfold Catalog.expiredFlat
  simp only [List.mem_flatMap]
  constructor
  · rintro ⟨p, _, ⟨d, a⟩, hd, ⟨x, q⟩, hx, hid⟩
    have hp := priorities_of_mem h hd
    simp only at hx hid
    rw [← hp, mem_takeWhile_le (h.sorted d p)] at hx
    have hq := (h.good d p x q hx.1).1
    refine ⟨d, p, x, hx.2, ?_⟩
    rw [(h.mem_iff hq).1 hx.1]; exact hid
  · rintro ⟨d, p, x, hx, hid⟩
    have hne : c.waiting d p x ≠ [] := List.ne_nil_of_mem hid
    have hm := (h.mem_iff hne).2 rfl
    have hp := (h.good d p x _ hm).2.2
    have hs : (OrdMap.lookup c.dests d).isSome = true := by
      by_contra hs
      exact hne (waiting_absent c d p x (by simpa using hs))
    rw [Option.isSome_iff_exists] at hs
    obtain ⟨a, ha⟩ := hs
    have hmem := OrdMap.lookup_some_mem ha
    refine ⟨p, by simp; omega, (d, a), hmem, (x, c.waiting d p x), ?_, hid⟩
    have hpa := priorities_of_mem h hmem
    simp only
    rw [← hpa, mem_takeWhile_le (h.sorted d p)]
    exact ⟨hm, hx⟩

/-- Lists that say of each member where it came from are disjoint. -/
theorem nodup_flatMap_of {α β : Type} (l : List α) (f : α → List Nat) (key : α → β)
    (hkeys : l.Pairwise fun a b => key a ≠ key b) (hn : ∀ a ∈ l, (f a).Nodup) (loc : Nat → β)
    (hloc : ∀ a ∈ l, ∀ i ∈ f a, loc i = key a) : (l.flatMap f).Nodup := by
  induction l with
  | nil => simp
  | cons a l ih =>
    rw [List.pairwise_cons] at hkeys
    rw [List.flatMap_cons, List.nodup_append]
    refine ⟨hn a (by simp), ih hkeys.2 (fun b hb => hn b (by simp [hb]))
      (fun b hb => hloc b (by simp [hb])), fun i hi j hj hij => ?_⟩
    obtain ⟨b, hb, hjb⟩ := List.mem_flatMap.1 hj
    subst hij
    exact hkeys.1 b hb ((hloc a (by simp) i hi).symm.trans (hloc b (by simp [hb]) i hjb))

theorem nodup_expiredFlat {c : Catalog} {fl ids : List Nat} (h : Inv c fl ids) (expiry : Nat) :
    (c.expiredFlat expiry).Nodup := by
  have hw := h.good.wf
  have hin : ∀ p, ∀ d ∈ c.dests, ∀ y ∈ (d.2 p).takeWhile (fun x => x.1 ≤ expiry), ∀ i ∈ y.2,
      ∃ e, c.entry i = some e ∧ e.dest = d.1 ∧ e.priority = p ∧ e.expiration = y.1 := by
    rintro p ⟨d, a⟩ hd ⟨x, q⟩ hy i hi
    have hp := priorities_of_mem hw hd
    simp only at hy hi ⊢
    rw [← hp, mem_takeWhile_le (hw.sorted d p)] at hy
    have hq := (hw.good d p x q hy.1).1
    exact h.place d p x i (by rw [(hw.mem_iff hq).1 hy.1]; exact hi)
  have hlt : ∀ {a b : Nat}, natLt a b = true → a ≠ b := fun {a b} hh => natLt_strict.ne hh
  refine nodup_flatMap_of _ _ (fun p => p) (by decide) (fun p _ => ?_)
    (fun i => match c.entry i with | some e => e.priority | none => 0) (fun p _ i hi => ?_)
  · refine nodup_flatMap_of _ _ (fun d => d.1) ?_ (fun d hd => ?_)
      (fun i => match c.entry i with | some e => e.dest | none => ⟨0, 0⟩) (fun d hd i hi => ?_)
    · exact hw.dsorted.imp fun hh => Eid.lt_strict.ne hh
    · refine nodup_flatMap_of _ _ (fun x => x.1) ?_ (fun y hy => ?_)
        (fun i => match c.entry i with | some e => e.expiration | none => 0) (fun y hy i hi => ?_)
      · have hs : OrdMap.Sorted natLt (d.2 p) := by
          have := hw.sorted d.1 p
          rwa [priorities_of_mem hw (d := d.1) (a := d.2) hd] at this
        exact (List.Pairwise.sublist (List.takeWhile_sublist _) hs).imp fun hh => hlt hh
      · obtain ⟨x, q⟩ := y
        have hs := hw.sorted d.1 p
        rw [← priorities_of_mem hw (d := d.1) (a := d.2) hd, mem_takeWhile_le hs] at hy
        have hq := (hw.good d.1 p x q hy.1).1
        have := h.once d.1 p x
        rwa [(hw.mem_iff hq).1 hy.1] at this
      · obtain ⟨e, he, _, _, h3⟩ := hin p d hd y hy i hi
        simp only [he, h3]
    · obtain ⟨y, hy, hiy⟩ := List.mem_flatMap.1 hi
      obtain ⟨e, he, h1, _, _⟩ := hin p d hd y hy i hiy
      simp only [he, h1]
  · obtain ⟨d, hd, hid⟩ := List.mem_flatMap.1 hi
    obtain ⟨y, hy, hiy⟩ := List.mem_flatMap.1 hid
    obtain ⟨e, he, _, h2, _⟩ := hin p d hd y hy i hiy
    simp only [he, h2]

/-- C27: in any catalog reached by a history, asking for expired bundles without a limit returns
each waiting bundle whose expiration is at or before the time, once, and no other; with a limit it
returns the first ones of that list, up to the limit. -/
theorem C27_expired (s : Catalog × List Nat) (h : Reachable s) (expiry : Nat) :
    (s.1.expiredIds expiry 0).Nodup ∧
    (∀ id, id ∈ s.1.expiredIds expiry 0 ↔ ∃ d p x, x ≤ expiry ∧ id ∈ s.1.waiting d p x) ∧
    ∀ max, max ≠ 0 → s.1.expiredIds expiry max = (s.1.expiredIds expiry 0).take max := by
  obtain ⟨ids, hi⟩ := inv_reachable s h
  simp only [expiredIds_eq, if_true]
  exact ⟨nodup_expiredFlat hi expiry, mem_expiredFlat s.1 hi.good.wf expiry,
    fun max hm => by rw [if_neg hm]⟩

/-- C27 in terms of entries: a bundle is reported exactly when it is known, not taken, and its entry
has expired. -/
theorem C27_expired_entries (s : Catalog × List Nat) (h : Reachable s) (expiry id : Nat) :
    id ∈ s.1.expiredIds expiry 0 ↔
      id ∉ s.2 ∧ ∃ e, s.1.entry id = some e ∧ e.expiration ≤ expiry := by
  obtain ⟨ids, hi⟩ := inv_reachable s h
  rw [(C27_expired s h expiry).2.1 id]
  constructor
  · rintro ⟨d, p, x, hx, hw⟩
    obtain ⟨e, he, _, _, h3⟩ := hi.place d p x id hw
    exact ⟨fun hf => hi.flNot id hf d p x hw, e, he, by omega⟩
  · rintro ⟨hf, e, he, hx⟩
    exact ⟨_, _, _, hx, hi.flElse id e he hf⟩

/-! A history that meets the hypotheses: three bundles stored, one taken, one removed. -/

/-- A bundle for the example. -/
def exP (custody : Bool) (seq prio exp : Nat) (dest : Eid) : Primary :=
  ⟨custody, false, 100, seq, ⟨1, 1⟩, 0, dest, prio, exp, seq⟩

/-- The catalog after storing three bundles. -/
def ex3 : Option Catalog := do
  let (c, _) ← Catalog.empty.store (Entry.init (exP true 1 1 50 ⟨7, 1⟩) 10 5 [] none)
    (exP true 1 1 50 ⟨7, 1⟩) 1 .fifo
  let (c, _) ← c.store (Entry.init (exP false 2 2 90 ⟨7, 2⟩) 20 5 [] none)
    (exP false 2 2 90 ⟨7, 2⟩) 2 .fifo
  let (c, _) ← c.store (Entry.init (exP false 3 2 80 ⟨8, 1⟩) 30 5 [] none)
    (exP false 3 2 80 ⟨8, 1⟩) 3 .fifo
  pure c

/-- The identifier taken. -/
def Pop.id? : Pop → Option Nat
  | .taken id _ _ => some id
  | _ => none

example : ex3.map (fun c => (c.numBundles, c.numBytes, [c.expiredIds 80 0, c.expiredIds 80 1])) =
    some (3, 60, [[1, 3], [1]]) := by decide +kernel

example : ex3.map (fun c => [(c.pop (c.select (.nodes [7, 8]))).id?,
      (c.pop (c.select (.nodes [7]))).id?, (c.pop (c.select (.eids [⟨7, 1⟩]))).id?,
      (c.pop (c.select (.wildcard [(⟨9, 0⟩, true)]))).id?]) =
    some [some 3, some 2, some 1, none] := by decide +kernel

/-- The catalog after storing one bundle. -/
def ex1 : Catalog :=
  match Catalog.empty.store (Entry.init (exP true 1 1 50 ⟨7, 1⟩) 10 5 [] none)
    (exP true 1 1 50 ⟨7, 1⟩) 1 .fifo with
  | some (c, _) => c
  | none => Catalog.empty

/-- The catalog after taking it. -/
def ex2 : Catalog :=
  match ex1.pop (ex1.select (.nodes [7])) with
  | .taken _ _ c => c
  | _ => Catalog.empty

example : Reachable (ex2, [1]) ∧ ex2.numBundles = 1 ∧
    ex2.idOfUuidNoFrag ⟨100, 1, ⟨1, 1⟩⟩ = some 1 ∧ ex2.waiting ⟨7, 1⟩ 1 50 = [] := by
  have h1 : Step (Catalog.empty, []) _ (ex1, []) :=
    Step.store Catalog.empty ex1 [] (exP true 1 1 50 ⟨7, 1⟩) 10 5 [] none 1 false true rfl
      (by decide) rfl
  have h2 : Step (ex1, []) _ (ex2, [1]) := Step.take ex1 ex2 [] (.nodes [7]) 1 (ex1.entry 1) rfl
  exact ⟨.step _ _ _ (.step _ _ _ .empty h1) h2, by decide +kernel, by decide +kernel,
    by decide +kernel⟩

end Hdtn.Catalog
