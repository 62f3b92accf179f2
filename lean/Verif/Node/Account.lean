import Verif.Node.Fixed

/-!
What became of the bundles, and what is left when nothing is under way.
-/

namespace Hdtn.Node

theorem givenBack_count (es : List EgressToStorage) (b : Bundle) :
    (es.filterMap fun
    | .failed _ b => some b
    | .ack a => if a.hdr.cut && a.error != .noErrors then some a.hdr.bundle else none
    | .capabilities _ => none).count b = es.countP (·.carries b) := by
  induction es with
  | nil => rfl
  | cons m es ih =>
    cases m with
    | ack a =>
      rw [List.countP_cons, esc_ack, ← ih, List.filterMap_cons]
      cases h : (a.hdr.cut && a.error != .noErrors) <;> simp [h, List.count_cons]
    | failed i b' =>
      rw [List.countP_cons, esc_failed, ← ih, List.filterMap_cons]
      simp [List.count_cons]
    | capabilities r =>
      rw [List.countP_cons, ← ih, List.filterMap_cons]
      simp [EgressToStorage.carries]

theorem copies_eq (C : Config) (s : State) (b : Bundle) : copies s C.outducts b = s.ingress.threads.countP (·.bundle == b)
    + s.ie.countP (·.bundle == b) + s.is.countP (·.bundle == b) + queued C s.storage b
    + s.se.countP (fun m => m.cut && m.bundle == b)
    + s.flights.countP (fun f => f.hdr.bundle == b && (!f.fromStorage || f.hdr.cut)) + s.es.countP (·.carries b)
    + s.storage.disk.countP (·.bundle == b) := by
  have h : (givenBack s).countP (· == b) = s.es.countP (·.carries b) := givenBack_count s.es b
  simp only [copies, queued, List.count, h, List.countP_map, List.countP_filter, Function.comp_def]
  have hse : s.se.countP (fun m => m.bundle == b && m.cut) = s.se.countP (fun m => m.cut && m.bundle == b) := by
    congr 1; funext m; rw [Bool.and_comm]
  omega

/-- The bundles from the disk that egress has. -/
def fromDisk (s : State) : List (Nat × Bundle) :=
  (s.se.filter (!·.cut)).map ToEgress.pair ++ (s.flights.filter (fun f => f.fromStorage && !f.hdr.cut)).map (·.hdr.pair)

/-- The bundles from the disk that egress gives an answer for. -/
def answered' (s : State) : List (Nat × Bundle) :=
  s.es.filterMap fun
    | .ack a => if a.hdr.cut then none else some a.hdr.pair
    | _ => none

/-- The bundles that are on the disk and were given to egress. -/
def given (s : State) : List (Nat × Bundle) :=
  (s.storage.disk.filter (·.status == .given)).map fun e => (e.cid, e.bundle)

theorem answered'_count (es : List EgressToStorage) (x : Nat × Bundle) : (es.filterMap fun
    | .ack a => if a.hdr.cut then none else some a.hdr.pair
    | _ => none).count x = es.countP (·.answersDisk x) := by
  induction es with
  | nil => rfl
  | cons m es ih =>
    cases m with
    | ack a =>
      rw [List.countP_cons, esd_ack, ← ih, List.filterMap_cons]
      have hp : (a.hdr.pair == x) = (a.hdr.id == x.1 && a.hdr.bundle == x.2) := rfl
      cases h : a.hdr.cut
      · simp only [h, Bool.false_eq_true, if_false, List.count_cons, hp, Bool.not_false, Bool.and_true]
      · simp [h]
    | failed i b' =>
      rw [List.countP_cons, ← ih, List.filterMap_cons]
      simp [EgressToStorage.answersDisk]
    | capabilities r =>
      rw [List.countP_cons, ← ih, List.filterMap_cons]
      simp [EgressToStorage.answersDisk]

theorem given_perm {C s} (h : Inv C s) : (fromDisk s ++ answered' s).Perm (given s) := by
  rw [List.perm_iff_count]
  intro x
  have a := h.i6 x
  have e0 : (answered' s).count x = s.es.countP (·.answersDisk x) := answered'_count s.es x
  simp only [List.count_append, e0, fromDisk, given, count_filter_map]
  have e1 : s.se.countP (fun m => m.pair == x && !m.cut) = s.se.countP (diskMsg x) := rfl
  have e2 : s.flights.countP (fun f => f.hdr.pair == x && (f.fromStorage && !f.hdr.cut))
      = s.flights.countP (fun f => diskMsg x f.hdr && f.fromStorage) := by
    congr 1; funext f
    have : diskMsg x f.hdr = (f.hdr.pair == x && !f.hdr.cut) := rfl
    rw [this]
    cases (f.hdr.pair == x) <;> cases f.fromStorage <;> cases f.hdr.cut <;> rfl
  have e3 : s.storage.disk.countP (fun e => ((e.cid, e.bundle) == x) && e.status == .given) = s.storage.disk.countP (givenAs x) := rfl
  omega

theorem finishes_le (es : List EgressToStorage) (b : Bundle) : es.countP (·.finishes b) ≤ (es.filterMap fun
    | .ack a => if a.hdr.cut then none else some a.hdr.pair
    | _ => none).countP (·.2 == b) := by
  induction es with
  | nil => exact Nat.le_refl _
  | cons m es ih =>
    cases m with
    | ack a =>
      rw [List.countP_cons, esf_ack, List.filterMap_cons]
      cases h : a.hdr.cut
      · simp only [h, Bool.false_eq_true, if_false, List.countP_cons, Bool.not_false, Bool.true_and]
        cases hb : a.hdr.bundle == b
        · simp only [Bool.and_false, Bool.false_and, Bool.false_eq_true, if_false]
          have : (a.hdr.pair.2 == b) = false := hb
          simp only [this, Bool.false_eq_true, if_false]
          exact ih
        · have : (a.hdr.pair.2 == b) = true := hb
          simp only [this, if_true]
          split <;> omega
      · simp only [h, if_true, Bool.not_true, Bool.false_and, Bool.false_eq_true, if_false, Nat.add_zero]
        exact ih
    | failed i b' =>
      rw [List.countP_cons, List.filterMap_cons]
      simpa [EgressToStorage.finishes] using ih
    | capabilities r =>
      rw [List.countP_cons, List.filterMap_cons]
      simpa [EgressToStorage.finishes] using ih

/-- The bundles that egress has from the disk, or has answered for, are on the disk. -/
theorem onDisk {C s} (h : Inv C s) (b : Bundle) :
    (fromDisk s).countP (·.2 == b) + s.es.countP (·.finishes b) ≤ s.storage.disk.countP (·.bundle == b) := by
  have hp := (given_perm h).countP_eq (fun x => x.2 == b)
  rw [List.countP_append] at hp
  have h1 := finishes_le s.es b
  have h2 : (given s).countP (fun x => x.2 == b) ≤ s.storage.disk.countP (·.bundle == b) := by
    simp only [given, List.countP_map, List.countP_filter]
    refine countP_le_of ?_
    intro e _ he
    simp only [Function.comp, Bool.and_eq_true] at he
    exact he.1
  have h3 : (answered' s).countP (fun x => x.2 == b) = (s.es.filterMap fun
    | .ack a => if a.hdr.cut then none else some a.hdr.pair
    | _ => none).countP (·.2 == b) := rfl
  omega

/-- What became of a bundle that went its way: it was released if it asked for custody, and delivered if not. -/
theorem account {C s} (h : Inv C s) (b : Bundle) :
    s.accepted.count b ≤ s.lost.count b + s.expired.count b + (if b.custody then s.released.count b else s.delivered.count b)
      + copies s C.outducts b ∧
    s.lost.count b + s.expired.count b + (if b.custody then s.released.count b else s.delivered.count b) ≤ s.accepted.count b := by
  have h7 := h.i7 b
  have hd := onDisk h b
  have hc := copies_eq C s b
  generalize (if b.custody then s.released.count b else s.delivered.count b) = d at *
  omega

/-- What is held was accepted. -/
theorem held_accepted {C s} (h : Inv C s) (b : Bundle) (hc : 0 < copies s C.outducts b - s.es.countP (·.finishes b)) : b ∈ s.accepted := by
  have h7 := h.i7 b
  have hc' := copies_eq C s b
  rw [← List.count_pos_iff]
  omega

theorem flight_accepted {C s f} (h : Inv C s) (hf : f ∈ s.flights) : f.hdr.bundle ∈ s.accepted := by
  refine held_accepted h _ ?_
  rw [copies_eq]
  have hd := onDisk h f.hdr.bundle
  by_cases hs : (!f.fromStorage || f.hdr.cut) = true
  · have : 0 < s.flights.countP (fun g => g.hdr.bundle == f.hdr.bundle && (!g.fromStorage || g.hdr.cut)) :=
      countP_pos_of_mem hf (by simp only [beq_self_eq_true, Bool.true_and]; exact hs)
    omega
  · have : 0 < (fromDisk s).countP (·.2 == f.hdr.bundle) := by
      refine countP_pos_of_mem (a := f.hdr.pair) ?_ (by simp [ToEgress.pair])
      refine List.mem_append_right _ (List.mem_map.2 ⟨f, List.mem_filter.2 ⟨hf, ?_⟩, rfl⟩)
      revert hs
      cases f.fromStorage <;> cases f.hdr.cut <;> simp
    omega

theorem list_nil {α : Type} [BEq α] [LawfulBEq α] {l : List α} (h : ∀ x, l.count x = 0) : l = [] := by
  refine List.eq_nil_iff_forall_not_mem.2 ?_
  intro a ha
  exact absurd (List.count_pos_iff.2 ha) (by rw [h a]; omega)

/-- When nothing is under way, nothing is reserved but what is stuck. -/
theorem quiet_empty {C s} (h : Inv C s) (q : Quiet s) :
    (∀ i, (s.ingress.sets i).egress = [] ∧ (s.ingress.sets i).egressBytes = 0) ∧
    (s.stuck = [] → ∀ i, (s.ingress.sets i).storage = [] ∧ (s.ingress.sets i).storageBytes = 0) ∧
    (s.ingress.single.storage = [] ∧ s.ingress.single.storageBytes = 0) ∧
    (∀ i, (s.storage.infos i).cut = [] ∧ (s.storage.infos i).opened = [] ∧ (s.storage.infos i).bytes = 0) ∧
    (∀ e ∈ s.storage.disk, e.status ≠ .given) := by
  have h4 : ∀ i, (s.storage.infos i).cut = [] := fun i => list_nil fun x => by
    have := h.i4 i x
    simpa only [q.se, q.flights, q.es, List.count_nil, List.countP_nil] using this
  have h5 : ∀ i, (s.storage.infos i).opened = [] := fun i => list_nil fun x => by
    have := h.i5 i x
    simpa only [q.se, q.flights, q.es, List.count_nil, List.countP_nil] using this
  have h1 : ∀ i, (s.ingress.sets i).egress = [] := fun i => list_nil fun x => by
    have := h.i1 i x
    simpa only [q.threads, q.ie, q.flights, q.ei, List.count_nil, List.countP_nil] using this
  have h3 : s.ingress.single.storage = [] := list_nil fun x => by
    have := h.i3 x
    simpa only [q.threads, q.is, q.si, List.count_nil, List.countP_nil] using this
  refine ⟨fun i => ⟨h1 i, ?_⟩, fun hs i => ?_, ⟨h3, ?_⟩, fun i => ⟨h4 i, h5 i, ?_⟩, ?_⟩
  · rw [(h.ing.sets i).eBytes, h1 i]; rfl
  · have h2 : (s.ingress.sets i).storage = [] := list_nil fun x => by
      have := h.i2 i x
      simpa only [q.threads, q.is, q.si, q.queues, h4, hs, List.count_nil, List.countP_nil] using this
    exact ⟨h2, by rw [(h.ing.sets i).sBytes, h2]; rfl⟩
  · rw [h.ing.single.sBytes, h3]; rfl
  · rw [h.st.bytes i, h4 i, h5 i]; rfl
  · intro e he hg
    have := (given_perm h).length_eq
    have h0 : fromDisk s ++ answered' s = [] := by simp [fromDisk, answered', q.se, q.flights, q.es]
    rw [h0, List.length_nil] at this
    have hm : (e.cid, e.bundle) ∈ given s := List.mem_map.2 ⟨e, List.mem_filter.2 ⟨he, by simp [hg]⟩, rfl⟩
    rw [List.eq_nil_of_length_eq_zero this.symm] at hm
    cases hm

/-- What is reserved for the disk is what has no answer. -/
theorem single_eq {C s} (h : Inv C s) : s.ingress.single.storage.length = (unanswered s).length ∧
    s.ingress.single.storageBytes = bytes (unanswered s) := by
  have hp : ((s.ingress.threads.filter (·.place == .store)).map Thread.pair ++ (s.is.filter (·.outduct == none)).map ToStorage.pair
      ++ (s.si.filter (·.outduct == none)).map (fun a => (a.id, a.bundle))).Perm s.ingress.single.storage := by
    rw [List.perm_iff_count]
    intro x
    have a := h.i3 x
    simp only [List.count_append, count_filter_map]
    have e1 : s.ingress.threads.countP (fun t => t.pair == x && t.place == .store) = s.ingress.threads.count ⟨x.2, x.1, .store⟩ := by
      refine List.countP_congr ?_
      intro t _
      rw [thread_beq]
      simp only [Bool.and_eq_true, beq_iff_eq, Thread.pair, Prod.ext_iff, decide_eq_true_eq]
      tauto
    have e2 : s.is.countP (fun m => m.pair == x && m.outduct == none) = s.is.count (toS none x) := by
      refine List.countP_congr ?_
      intro m hm
      have hd := h.isOk m hm
      simp only [Bool.and_eq_true, beq_iff_eq, ToStorage.pair, Prod.ext_iff, toS]
      cases m with
      | mk b id o d =>
        simp only [ToStorage.mk.injEq, Option.isSome_none] at hd ⊢
        constructor
        · rintro ⟨⟨h1, h2⟩, h3⟩
          subst h3
          exact ⟨h2, h1, rfl, hd⟩
        · rintro ⟨h1, h2, h3, _⟩
          exact ⟨⟨h2, h1⟩, h3⟩
    have e3 : s.si.countP (fun a => ((a.id, a.bundle) == x) && a.outduct == none) = s.si.countP (ackOf none x) := by
      refine List.countP_congr ?_
      intro m _
      simp only [Bool.and_eq_true, beq_iff_eq, Prod.ext_iff, ackOf]
      tauto
    omega
  have hu : (unanswered s) = ((s.ingress.threads.filter (·.place == .store)).map Thread.pair ++ (s.is.filter (·.outduct == none)).map ToStorage.pair
      ++ (s.si.filter (·.outduct == none)).map (fun a => (a.id, a.bundle))).map (·.2) := by
    simp only [unanswered, onTheWayToDisk, List.map_append, List.map_map]
    rfl
  have hl := hp.map (·.2)
  rw [← hu] at hl
  refine ⟨?_, ?_⟩
  · have := hl.length_eq; rw [List.length_map] at this; exact this.symm
  · rw [h.ing.single.sBytes]
    have := (hl.map (·.size)).sum_nat
    rw [List.map_map] at this
    exact this.symm

end Hdtn.Node
