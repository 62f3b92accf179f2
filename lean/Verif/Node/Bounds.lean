import Verif.Node.InvAll
import Mathlib.Data.List.Perm.Subperm

/-!
How much there is in the places that the reservations are for.
-/

namespace Hdtn.Node

/-- The weight of bundles together. -/
def weight (w : Bundle → Nat) (l : List Bundle) : Nat := (l.map w).sum

theorem weight_append (w : Bundle → Nat) (a b : List Bundle) : weight w (a ++ b) = weight w a + weight w b := by
  simp [weight]

theorem weight_one (l : List Bundle) : weight (fun _ => 1) l = l.length := by
  induction l with
  | nil => rfl
  | cons a l ih => simp only [weight, List.map_cons, List.sum_cons, List.length_cons] at ih ⊢; omega

theorem weight_size (l : List Bundle) : weight (·.size) l = bytes l := rfl

theorem sublist_sum {l m : List Nat} (h : l.Sublist m) : l.sum ≤ m.sum := by
  induction h with
  | slnil => simp
  | cons a _ ih => simp only [List.sum_cons]; omega
  | cons_cons a _ ih => simp only [List.sum_cons]; omega

theorem weight_le (w : Bundle → Nat) {l m : List (Nat × Bundle)} (h : ∀ x, l.count x ≤ m.count x) :
    weight w (l.map (·.2)) ≤ weight w (m.map (·.2)) := by
  have hs : l.Subperm m := List.subperm_ext_iff.2 (fun x _ => h x)
  obtain ⟨k, hp, hk⟩ := hs
  have h1 : weight w (k.map (·.2)) = weight w (l.map (·.2)) := ((hp.map _).map _).sum_nat
  rw [← h1]
  exact sublist_sum ((hk.map _).map _)

theorem count_filter_map {α : Type} (l : List α) (p : α → Bool) (f : α → Nat × Bundle) (x : Nat × Bundle) :
    ((l.filter p).map f).count x = l.countP (fun a => (f a == x) && p a) := by
  rw [List.count, List.countP_map, List.countP_filter]
  rfl

/-- The id and the bundle. -/
def ToEgress.pair (m : ToEgress) : Nat × Bundle := (m.id, m.bundle)
def ToStorage.pair (m : ToStorage) : Nat × Bundle := (m.id, m.bundle)
def Thread.pair (t : Thread) : Nat × Bundle := (t.id, t.bundle)

/-- What is reserved in the half of ingress. -/
def half1 (s : State) (i : Nat) : List (Nat × Bundle) :=
  (s.ingress.threads.filter (·.place == .egress i)).map Thread.pair ++ (s.ie.filter (·.outduct == i)).map ToEgress.pair
    ++ (s.flights.filter (fun f => f.hdr.outduct == i && !f.fromStorage)).map (·.hdr.pair)

/-- What is reserved for cutting through storage. -/
def half2 (s : State) (i : Nat) : List (Nat × Bundle) :=
  (s.ingress.threads.filter (·.place == .cut i)).map Thread.pair ++ (s.is.filter (·.outduct == some i)).map ToStorage.pair
    ++ (s.storage.infos i).queue.map ToStorage.pair

/-- What was cut through storage and is at egress. -/
def half3 (s : State) (i : Nat) : List (Nat × Bundle) :=
  (s.se.filter (fun m => m.outduct == i && m.cut)).map ToEgress.pair
    ++ (s.flights.filter (fun f => f.hdr.outduct == i && f.fromStorage && f.hdr.cut)).map (·.hdr.pair)

/-- What was read from the disk and is at egress. -/
def half4 (s : State) (i : Nat) : List (Nat × Bundle) :=
  (s.se.filter (fun m => m.outduct == i && !m.cut)).map ToEgress.pair
    ++ (s.flights.filter (fun f => f.hdr.outduct == i && f.fromStorage && !f.hdr.cut)).map (·.hdr.pair)

theorem countP_le_of {α : Type} {l : List α} {p q : α → Bool} (h : ∀ a ∈ l, p a = true → q a = true) : l.countP p ≤ l.countP q :=
  List.countP_mono_left h

theorem half1_le {C s} (h : Inv C s) (i : Nat) (x : Nat × Bundle) : (half1 s i).count x ≤ (s.ingress.sets i).egress.count x := by
  have a := h.i1 i x
  simp only [half1, List.count_append, count_filter_map]
  have e1 : s.ingress.threads.countP (fun t => t.pair == x && t.place == .egress i) ≤ s.ingress.threads.count ⟨x.2, x.1, .egress i⟩ := by
    refine countP_le_of ?_
    intro t _ ht
    simp only [Bool.and_eq_true, beq_iff_eq, Thread.pair] at ht
    rw [thread_beq]
    simp [ht.2, ht.1]
  have e2 : s.ie.countP (fun m => m.pair == x && m.outduct == i) ≤ s.ie.count (hdr i x false) := by
    refine countP_le_of ?_
    intro m hm ht
    simp only [Bool.and_eq_true, beq_iff_eq, ToEgress.pair] at ht
    rw [hdr_beq]
    simp [ht.2, ht.1, h.ieCut m hm]
  have e3 : s.flights.countP (fun f => f.hdr.pair == x && (f.hdr.outduct == i && !f.fromStorage))
      ≤ s.flights.countP (fun f => f.hdr == hdr i x false && !f.fromStorage) := by
    refine countP_le_of ?_
    intro f hf ht
    simp only [Bool.and_eq_true, beq_iff_eq, ToEgress.pair, Bool.not_eq_true'] at ht
    rw [hdr_beq]
    simp [ht.2.1, ht.1, ht.2.2, h.flCut f hf ht.2.2]
  omega

theorem half2_le {C s} (h : Inv C s) (i : Nat) (x : Nat × Bundle) :
    (half2 s i).count x + (s.storage.infos i).cut.count x ≤ (s.ingress.sets i).storage.count x := by
  have a := h.i2 i x
  simp only [half2, List.count_append, count_filter_map]
  have e1 : s.ingress.threads.countP (fun t => t.pair == x && t.place == .cut i) ≤ s.ingress.threads.count ⟨x.2, x.1, .cut i⟩ := by
    refine countP_le_of ?_
    intro t _ ht
    simp only [Bool.and_eq_true, beq_iff_eq, Thread.pair] at ht
    rw [thread_beq]
    simp [ht.2, ht.1]
  have e2 : s.is.countP (fun m => m.pair == x && m.outduct == some i) ≤ s.is.count (toS (some i) x) := by
    refine countP_le_of ?_
    intro m hm ht
    simp only [Bool.and_eq_true, beq_iff_eq, ToStorage.pair] at ht
    have hd := h.isOk m hm
    rw [beq_iff_eq]
    cases m
    simp only [ht.2, Option.isSome_some] at hd ht ⊢
    rw [hd, ← ht.1, ht.2]
    rfl
  have e3 : ((s.storage.infos i).queue.map ToStorage.pair).count x ≤ (s.storage.infos i).queue.count (toS (some i) x) := by
    rw [List.count, List.countP_map]
    refine countP_le_of ?_
    intro m hm ht
    simp only [Function.comp, beq_iff_eq, ToStorage.pair] at ht
    obtain ⟨h1, h2⟩ := h.st.queue i m hm
    rw [beq_iff_eq]
    cases m
    simp only at h1 h2 ht ⊢
    rw [h1, h2, ← ht]
    rfl
  omega

theorem half3_le {C s} (h : Inv C s) (i : Nat) (x : Nat × Bundle) : (half3 s i).count x ≤ (s.storage.infos i).cut.count x := by
  have a := h.i4 i x
  simp only [half3, List.count_append, count_filter_map]
  have e2 : s.se.countP (fun m => m.pair == x && (m.outduct == i && m.cut)) ≤ s.se.count (hdr i x true) := by
    refine countP_le_of ?_
    intro m hm ht
    simp only [Bool.and_eq_true, beq_iff_eq, ToEgress.pair] at ht
    rw [hdr_beq]
    simp [ht.2, ht.1]
  have e3 : s.flights.countP (fun f => f.hdr.pair == x && (f.hdr.outduct == i && f.fromStorage && f.hdr.cut))
      ≤ s.flights.countP (fun f => f.hdr == hdr i x true && f.fromStorage) := by
    refine countP_le_of ?_
    intro f hf ht
    simp only [Bool.and_eq_true, beq_iff_eq, ToEgress.pair] at ht
    rw [hdr_beq]
    simp [ht.2.1, ht.1, ht.2.2]
  omega

theorem half4_le {C s} (h : Inv C s) (i : Nat) (x : Nat × Bundle) : (half4 s i).count x ≤ (s.storage.infos i).opened.count x := by
  have a := h.i5 i x
  simp only [half4, List.count_append, count_filter_map]
  have e2 : s.se.countP (fun m => m.pair == x && (m.outduct == i && !m.cut)) ≤ s.se.count (hdr i x false) := by
    refine countP_le_of ?_
    intro m hm ht
    simp only [Bool.and_eq_true, beq_iff_eq, ToEgress.pair, Bool.not_eq_true'] at ht
    rw [hdr_beq]
    simp [ht.2, ht.1]
  have e3 : s.flights.countP (fun f => f.hdr.pair == x && (f.hdr.outduct == i && f.fromStorage && !f.hdr.cut))
      ≤ s.flights.countP (fun f => f.hdr == hdr i x false && f.fromStorage) := by
    refine countP_le_of ?_
    intro f hf ht
    simp only [Bool.and_eq_true, beq_iff_eq, ToEgress.pair, Bool.not_eq_true'] at ht
    rw [hdr_beq]
    simp [ht.2.1, ht.1, ht.2.2]
  omega

theorem weight_filter {α : Type} (w : Bundle → Nat) (l : List α) (p : α → Bool) (f : α → Bundle) :
    weight w ((l.filter p).map f) = (l.map (fun a => if p a then w (f a) else 0)).sum := by
  induction l with
  | nil => rfl
  | cons a l ih =>
    by_cases ha : p a = true
    · simp only [weight, List.filter_cons, ha, if_true, List.map_cons, List.sum_cons] at ih ⊢
      omega
    · simp only [weight, List.filter_cons, ha, if_false, List.map_cons, List.sum_cons, Bool.false_eq_true] at ih ⊢
      omega

theorem sum_map_add {α : Type} (l : List α) (f g h : α → Nat) (e : ∀ a, h a = f a + g a) :
    (l.map h).sum = (l.map f).sum + (l.map g).sum := by
  induction l with
  | nil => rfl
  | cons a l ih => simp only [List.map_cons, List.sum_cons, ih, e a]; omega

/-- What is at egress, by where it comes from. -/
theorem atEgress_weight (w : Bundle → Nat) (s : State) (i : Nat) :
    weight w (atEgress s i) + weight w ((s.ingress.threads.filter (·.place == .egress i)).map (·.bundle))
      = weight w ((half1 s i).map (·.2)) + weight w ((half3 s i).map (·.2)) + weight w ((half4 s i).map (·.2)) := by
  have hs : weight w ((s.se.filter (·.outduct == i)).map (·.bundle))
      = weight w ((s.se.filter (fun m => m.outduct == i && m.cut)).map (·.bundle))
        + weight w ((s.se.filter (fun m => m.outduct == i && !m.cut)).map (·.bundle)) := by
    rw [weight_filter, weight_filter, weight_filter]
    refine sum_map_add _ _ _ _ ?_
    intro m
    cases m.cut <;> cases (m.outduct == i) <;> simp
  have hf : weight w ((s.flights.filter (·.hdr.outduct == i)).map (·.hdr.bundle))
      = weight w ((s.flights.filter (fun f => f.hdr.outduct == i && !f.fromStorage)).map (·.hdr.bundle))
        + weight w ((s.flights.filter (fun f => f.hdr.outduct == i && f.fromStorage && f.hdr.cut)).map (·.hdr.bundle))
        + weight w ((s.flights.filter (fun f => f.hdr.outduct == i && f.fromStorage && !f.hdr.cut)).map (·.hdr.bundle)) := by
    rw [weight_filter, weight_filter, weight_filter, weight_filter]
    rw [← sum_map_add s.flights _ _ (fun f => (if (f.hdr.outduct == i && !f.fromStorage) = true then w f.hdr.bundle else 0)
      + (if (f.hdr.outduct == i && f.fromStorage && f.hdr.cut) = true then w f.hdr.bundle else 0)) (fun _ => rfl)]
    refine sum_map_add _ _ _ _ ?_
    intro f
    cases f.hdr.cut <;> cases f.fromStorage <;> cases (f.hdr.outduct == i) <;> simp
  have e1 : weight w (atEgress s i) = weight w ((s.ie.filter (·.outduct == i)).map (·.bundle))
      + weight w ((s.se.filter (·.outduct == i)).map (·.bundle)) + weight w ((s.flights.filter (·.hdr.outduct == i)).map (·.hdr.bundle)) := by
    simp only [atEgress, List.filter_append, List.map_append, weight_append, List.filter_map, List.map_map]
    rfl
  rw [e1, hs, hf]
  simp only [half1, half3, half4, List.map_append, weight_append, List.map_map]
  have : ∀ (l : List ToEgress), l.map ((·.2) ∘ ToEgress.pair) = l.map (·.bundle) := fun l => rfl
  have : ∀ (l : List Thread), l.map ((·.2) ∘ Thread.pair) = l.map (·.bundle) := fun l => rfl
  simp only [*]
  have : ∀ (l : List Flight), l.map ((·.2) ∘ (fun f : Flight => f.hdr.pair)) = l.map (·.hdr.bundle) := fun l => rfl
  simp only [*]
  omega

theorem map_weight_one (m : Map) : weight (fun _ => 1) (m.map (·.2)) = m.length := by rw [weight_one]; simp
theorem map_weight_size (m : Map) : weight (·.size) (m.map (·.2)) = m.bytes := by
  simp only [weight, Map.bytes, List.map_map]; rfl

/-- The bundles at egress for an outduct. -/
theorem atEgress_bound {C s} (h : Inv C s) (i : Nat) :
    (atEgress s i).length ≤ C.maxBundles i ∧ bytes (atEgress s i) ≤ C.maxBytes i := by
  have key : ∀ w, weight w (atEgress s i) ≤ weight w ((s.ingress.sets i).egress.map (·.2))
      + weight w ((s.storage.infos i).opened.map (·.2)) + weight w ((s.storage.infos i).cut.map (·.2)) := by
    intro w
    have e := atEgress_weight w s i
    have h1 := weight_le w (half1_le h i)
    have h3 := weight_le w (half3_le h i)
    have h4 := weight_le w (half4_le h i)
    omega
  have hset := (h.ing.sets i).eLimit
  have hst := h.st.limit i
  have hsb := h.st.limitBytes i
  have hb := h.st.bytes i
  have heb := (h.ing.sets i).eBytes
  constructor
  · have := key (fun _ => 1)
    rw [weight_one, map_weight_one, map_weight_one, map_weight_one] at this
    omega
  · have := key (·.size)
    rw [map_weight_size, map_weight_size, map_weight_size, weight_size] at this
    omega

/-- All the bundles in memory for an outduct. -/
theorem memory_bound {C s} (h : Inv C s) (i : Nat) :
    (atIngress s i ++ cutWaiting s i ++ atEgress s i).length ≤ 3 * (C.maxBundles i / 2) ∧
      bytes (atIngress s i ++ cutWaiting s i ++ atEgress s i) ≤ 3 * (C.maxBytes i / 2) := by
  have key : ∀ w, weight w (atIngress s i ++ cutWaiting s i ++ atEgress s i) ≤ weight w ((s.ingress.sets i).egress.map (·.2))
      + weight w ((s.ingress.sets i).storage.map (·.2)) + weight w ((s.storage.infos i).opened.map (·.2)) := by
    intro w
    have e := atEgress_weight w s i
    have h1 := weight_le w (half1_le h i)
    have h23 := weight_le w (l := half2 s i ++ half3 s i) (m := (s.ingress.sets i).storage) (by
      intro x
      have a := half2_le h i x
      have b := half3_le h i x
      rw [List.count_append]
      omega)
    have h4 := weight_le w (half4_le h i)
    rw [List.map_append, weight_append] at h23
    have e2 : weight w (atIngress s i) = weight w ((s.ingress.threads.filter (·.place == .egress i)).map (·.bundle))
        + weight w ((s.ingress.threads.filter (·.place == .cut i)).map (·.bundle)) := by
      rw [atIngress, weight_filter, weight_filter, weight_filter]
      refine sum_map_add _ _ _ _ ?_
      intro t
      by_cases h1 : t.place = .egress i
      · simp [h1]
      · by_cases h2 : t.place = .cut i
        · simp [h2]
        · simp [h1, h2]
    have e3 : weight w ((half2 s i).map (·.2)) = weight w ((s.ingress.threads.filter (·.place == .cut i)).map (·.bundle)) + weight w (cutWaiting s i) := by
      simp only [half2, cutWaiting, List.map_append, weight_append, List.map_map]
      have a : ∀ (l : List Thread), l.map ((·.2) ∘ Thread.pair) = l.map (·.bundle) := fun l => rfl
      have b : ∀ (l : List ToStorage), l.map ((·.2) ∘ ToStorage.pair) = l.map (·.bundle) := fun l => rfl
      simp only [a, b]
      omega
    rw [weight_append, weight_append]
    omega
  have he := (h.ing.sets i).eLimit
  have hs := (h.ing.sets i).sLimit
  have hst := h.st.limit i
  have hsb := h.st.limitBytes i
  have hb := h.st.bytes i
  have heb := (h.ing.sets i).eBytes
  have hsb' := (h.ing.sets i).sBytes
  constructor
  · have := key (fun _ => 1)
    rw [weight_one, map_weight_one, map_weight_one, map_weight_one] at this
    omega
  · have := key (·.size)
    rw [map_weight_size, map_weight_size, map_weight_size, weight_size] at this
    omega

/-- The way to the disk. -/
theorem disk_bound {C s} (h : Inv C s) : (onTheWayToDisk s).length ≤ 5 ∧ bytes (onTheWayToDisk s) ≤ C.maxBundleSize := by
  have key : ∀ w, weight w (onTheWayToDisk s) ≤ weight w (s.ingress.single.storage.map (·.2)) := by
    intro w
    have h1 := weight_le w (l := (s.ingress.threads.filter (·.place == .store)).map Thread.pair ++ (s.is.filter (·.outduct == none)).map ToStorage.pair)
      (m := s.ingress.single.storage) (by
        intro x
        have a := h.i3 x
        simp only [List.count_append, count_filter_map]
        have e1 : s.ingress.threads.countP (fun t => t.pair == x && t.place == .store) ≤ s.ingress.threads.count ⟨x.2, x.1, .store⟩ := by
          refine countP_le_of ?_
          intro t _ ht
          simp only [Bool.and_eq_true, beq_iff_eq, Thread.pair] at ht
          rw [thread_beq]
          simp [ht.2, ht.1]
        have e2 : s.is.countP (fun m => m.pair == x && m.outduct == none) ≤ s.is.count (toS none x) := by
          refine countP_le_of ?_
          intro m hm ht
          simp only [Bool.and_eq_true, beq_iff_eq, ToStorage.pair] at ht
          have hd := h.isOk m hm
          rw [beq_iff_eq]
          cases m
          simp only [ht.2, Option.isSome_none] at hd ht ⊢
          rw [hd, ← ht.1, ht.2]
          rfl
        omega)
    rw [List.map_append, weight_append, List.map_map, List.map_map] at h1
    rw [onTheWayToDisk, weight_append]
    exact h1
  have hs := h.ing.single.sLimit
  have hb := h.ing.single.sBytes
  constructor
  · have := key (fun _ => 1)
    rw [weight_one, map_weight_one] at this
    omega
  · have := key (·.size)
    rw [map_weight_size, weight_size] at this
    omega

end Hdtn.Node
