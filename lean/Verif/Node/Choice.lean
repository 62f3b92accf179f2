import Verif.Node.Loss

/-!
What is reserved, said in terms of where the bundles are; the choice of the way.
-/

namespace Hdtn.Node

theorem pairs_weight {l m : List (Nat × Bundle)} (h : l.Perm m) : l.length = m.length ∧ bytes (l.map (·.2)) = bytes (m.map (·.2)) :=
  ⟨h.length_eq, (((h.map _).map _)).sum_nat⟩

/-- The answers of egress to ingress. -/
def eiPairs (i : Nat) (ei : List EgressToIngress) : List (Nat × Bundle) :=
  ei.filterMap fun
    | .ack a => if a.hdr.outduct == i then some a.hdr.pair else none
    | .capabilities _ => none

theorem eiPairs_snd (i : Nat) (ei : List EgressToIngress) : (eiPairs i ei).map (·.2) = ei.filterMap fun
    | .ack a => if a.hdr.outduct == i then some a.hdr.bundle else none
    | .capabilities _ => none := by
  induction ei with
  | nil => rfl
  | cons m l ih =>
    unfold eiPairs at ih ⊢
    cases m with
    | ack a =>
      rw [List.filterMap_cons, List.filterMap_cons, ← ih]
      cases h : a.hdr.outduct == i <;> simp [h, ToEgress.pair]
    | capabilities r => rw [List.filterMap_cons, List.filterMap_cons, ← ih]

theorem eiPairs_count (i : Nat) (x : Nat × Bundle) {ei : List EgressToIngress} (hc : ∀ a, .ack a ∈ ei → a.hdr.cut = false) :
    (eiPairs i ei).count x = ei.countP (·.answers (hdr i x false)) := by
  induction ei with
  | nil => rfl
  | cons m l ih =>
    have ih := ih (fun a ha => hc a (List.mem_cons_of_mem _ ha))
    unfold eiPairs at ih ⊢
    cases m with
    | ack a =>
      have hcut := hc a List.mem_cons_self
      rw [List.filterMap_cons, List.countP_cons, eia_ack, ← ih, hdr_beq, hcut]
      have hp : (a.hdr.pair == x) = (a.hdr.id == x.1 && a.hdr.bundle == x.2) := rfl
      cases h : a.hdr.outduct == i
      · have : ¬ (a.hdr.outduct = i) := by simpa using h
        simp [this]
      · have : a.hdr.outduct = i := by simpa using h
        simp only [this, beq_self_eq_true, if_true, List.count_cons, hp]
        simp [Prod.ext_iff]
    | capabilities r =>
      rw [List.filterMap_cons, List.countP_cons, ← ih]
      simp [EgressToIngress.answers]

theorem direct_eq {C s} (h : Inv C s) (i : Nat) : (s.ingress.sets i).egress.length = (direct s i).length ∧
    (s.ingress.sets i).egressBytes = bytes (direct s i) := by
  have hp : ((s.ingress.threads.filter (·.place == .egress i)).map Thread.pair ++ (s.ie.filter (·.outduct == i)).map ToEgress.pair
      ++ (s.flights.filter (fun f => !f.fromStorage && f.hdr.outduct == i)).map (·.hdr.pair) ++ eiPairs i s.ei).Perm
      (s.ingress.sets i).egress := by
    rw [List.perm_iff_count]
    intro x
    have a := h.i1 i x
    simp only [List.count_append, count_filter_map, eiPairs_count i x h.eiCut]
    have e1 : s.ingress.threads.countP (fun t => t.pair == x && t.place == .egress i) = s.ingress.threads.count ⟨x.2, x.1, .egress i⟩ := by
      refine List.countP_congr ?_
      intro t _
      rw [thread_beq]
      simp only [Bool.and_eq_true, beq_iff_eq, Thread.pair, Prod.ext_iff, decide_eq_true_eq]
      tauto
    have e2 : s.ie.countP (fun m => m.pair == x && m.outduct == i) = s.ie.count (hdr i x false) := by
      refine List.countP_congr ?_
      intro m hm
      rw [hdr_beq]
      simp only [h.ieCut m hm, Bool.and_eq_true, beq_iff_eq, ToEgress.pair, Prod.ext_iff, decide_eq_true_eq]
      tauto
    have e3 : s.flights.countP (fun f => f.hdr.pair == x && (!f.fromStorage && f.hdr.outduct == i))
        = s.flights.countP (fun f => f.hdr == hdr i x false && !f.fromStorage) := by
      refine List.countP_congr ?_
      intro f hf
      rw [hdr_beq]
      have := h.flCut f hf
      simp only [Bool.and_eq_true, beq_iff_eq, ToEgress.pair, Prod.ext_iff, Bool.not_eq_true', decide_eq_true_eq]
      constructor
      · rintro ⟨⟨h1, h2⟩, h3, h4⟩
        simp [this h3, h1, h2, h3, h4]
      · rintro ⟨h1, h2⟩
        simp [this h2] at h1
        simp [h1, h2]
    omega
  have hu : direct s i = ((s.ingress.threads.filter (·.place == .egress i)).map Thread.pair ++ (s.ie.filter (·.outduct == i)).map ToEgress.pair
      ++ (s.flights.filter (fun f => !f.fromStorage && f.hdr.outduct == i)).map (·.hdr.pair) ++ eiPairs i s.ei).map (·.2) := by
    simp only [direct, List.map_append, List.map_map, eiPairs_snd]
    rfl
  obtain ⟨h1, h2⟩ := pairs_weight hp
  rw [← hu] at h2
  refine ⟨?_, ?_⟩
  · rw [hu, List.length_map, h1]
  · rw [(h.ing.sets i).eBytes, h2, bytes, List.map_map]; rfl

/-- The answers of egress to storage about bundles that were cut through. -/
def esPairs (i : Nat) (es : List EgressToStorage) : List (Nat × Bundle) :=
  es.filterMap fun
    | .ack a => if a.hdr.cut && a.hdr.outduct == i then some a.hdr.pair else none
    | _ => none

theorem esPairs_snd (i : Nat) (es : List EgressToStorage) : (esPairs i es).map (·.2) = es.filterMap fun
    | .ack a => if a.hdr.cut && a.hdr.outduct == i then some a.hdr.bundle else none
    | _ => none := by
  induction es with
  | nil => rfl
  | cons m l ih =>
    unfold esPairs at ih ⊢
    cases m with
    | ack a =>
      rw [List.filterMap_cons, List.filterMap_cons, ← ih]
      cases h : (a.hdr.cut && a.hdr.outduct == i) <;> simp [h, ToEgress.pair]
    | capabilities r => rw [List.filterMap_cons, List.filterMap_cons, ← ih]
    | failed j b => rw [List.filterMap_cons, List.filterMap_cons, ← ih]

theorem esPairs_count (i : Nat) (x : Nat × Bundle) (es : List EgressToStorage) :
    (esPairs i es).count x = es.countP (·.answers (hdr i x true)) := by
  induction es with
  | nil => rfl
  | cons m l ih =>
    unfold esPairs at ih ⊢
    cases m with
    | ack a =>
      rw [List.filterMap_cons, List.countP_cons, esa_ack, ← ih, hdr_beq]
      have hp : (a.hdr.pair == x) = (a.hdr.id == x.1 && a.hdr.bundle == x.2) := rfl
      cases hc : a.hdr.cut
      · simp [hc]
      · cases h : a.hdr.outduct == i
        · have : ¬ (a.hdr.outduct = i) := by simpa using h
          simp [this]
        · have : a.hdr.outduct = i := by simpa using h
          simp only [hc, this, Bool.true_and, beq_self_eq_true, if_true, List.count_cons, hp]
          simp [Prod.ext_iff]
    | capabilities r =>
      rw [List.filterMap_cons, List.countP_cons, ← ih]
      simp [EgressToStorage.answers]
    | failed j b =>
      rw [List.filterMap_cons, List.countP_cons, ← ih]
      simp [EgressToStorage.answers]

theorem cutThrough_eq {C s} (h : Inv C s) (i : Nat) : (s.ingress.sets i).storage.length = (cutThrough s i).length ∧
    (s.ingress.sets i).storageBytes = bytes (cutThrough s i) := by
  have hp : ((s.ingress.threads.filter (·.place == .cut i)).map Thread.pair ++ ((s.is.filter (·.outduct == some i)).map ToStorage.pair
      ++ (s.storage.infos i).queue.map ToStorage.pair) ++ (s.se.filter (fun m => m.cut && m.outduct == i)).map ToEgress.pair
      ++ (s.flights.filter (fun f => f.fromStorage && f.hdr.cut && f.hdr.outduct == i)).map (·.hdr.pair) ++ esPairs i s.es
      ++ (s.si.filter (·.outduct == some i)).map (fun a => (a.id, a.bundle)) ++ (s.stuck.filter (·.1 == i)).map (·.2)).Perm
      (s.ingress.sets i).storage := by
    rw [List.perm_iff_count]
    intro x
    have a := h.i2 i x
    have a' := h.i4 i x
    simp only [List.count_append, count_filter_map, esPairs_count]
    have e1 : s.ingress.threads.countP (fun t => t.pair == x && t.place == .cut i) = s.ingress.threads.count ⟨x.2, x.1, .cut i⟩ := by
      refine List.countP_congr ?_
      intro t _
      rw [thread_beq]
      simp only [Bool.and_eq_true, beq_iff_eq, Thread.pair, Prod.ext_iff, decide_eq_true_eq]
      tauto
    have e2 : s.is.countP (fun m => m.pair == x && m.outduct == some i) = s.is.count (toS (some i) x) := by
      refine List.countP_congr ?_
      intro m hm
      have hd := h.isOk m hm
      simp only [Bool.and_eq_true, beq_iff_eq, ToStorage.pair, Prod.ext_iff, toS]
      cases m with
      | mk b id o d =>
        simp only [ToStorage.mk.injEq, Option.isSome_some] at hd ⊢
        constructor
        · rintro ⟨⟨h1, h2⟩, h3⟩
          subst h3
          exact ⟨h2, h1, rfl, hd⟩
        · rintro ⟨h1, h2, h3, _⟩
          exact ⟨⟨h2, h1⟩, h3⟩
    have e2' : ((s.storage.infos i).queue.map ToStorage.pair).count x = (s.storage.infos i).queue.count (toS (some i) x) := by
      rw [List.count, List.countP_map]
      refine List.countP_congr ?_
      intro m hm
      obtain ⟨h1, h2⟩ := h.st.queue i m hm
      simp only [Function.comp, beq_iff_eq, ToStorage.pair, Prod.ext_iff, toS]
      cases m with
      | mk b id o d =>
        simp only [ToStorage.mk.injEq, Option.isSome_some] at h1 h2 ⊢
        tauto
    have e3 : s.se.countP (fun m => m.pair == x && (m.cut && m.outduct == i)) = s.se.count (hdr i x true) := by
      refine List.countP_congr ?_
      intro m _
      rw [hdr_beq]
      simp only [Bool.and_eq_true, beq_iff_eq, ToEgress.pair, Prod.ext_iff, decide_eq_true_eq]
      tauto
    have e4 : s.flights.countP (fun f => f.hdr.pair == x && (f.fromStorage && f.hdr.cut && f.hdr.outduct == i))
        = s.flights.countP (fun f => f.hdr == hdr i x true && f.fromStorage) := by
      refine List.countP_congr ?_
      intro f _
      rw [hdr_beq]
      simp only [Bool.and_eq_true, beq_iff_eq, ToEgress.pair, Prod.ext_iff, decide_eq_true_eq]
      tauto
    have e5 : s.si.countP (fun a => ((a.id, a.bundle) == x) && a.outduct == some i) = s.si.countP (ackOf (some i) x) := by
      refine List.countP_congr ?_
      intro m _
      simp only [Bool.and_eq_true, beq_iff_eq, Prod.ext_iff, ackOf]
      tauto
    have e6 : s.stuck.countP (fun a => (a.2 == x) && a.1 == i) = s.stuck.count (i, x.1, x.2) := by
      refine List.countP_congr ?_
      intro m _
      simp only [Bool.and_eq_true, beq_iff_eq, Prod.ext_iff]
      tauto
    omega
  have hu : cutThrough s i = ((s.ingress.threads.filter (·.place == .cut i)).map Thread.pair ++ ((s.is.filter (·.outduct == some i)).map ToStorage.pair
      ++ (s.storage.infos i).queue.map ToStorage.pair) ++ (s.se.filter (fun m => m.cut && m.outduct == i)).map ToEgress.pair
      ++ (s.flights.filter (fun f => f.fromStorage && f.hdr.cut && f.hdr.outduct == i)).map (·.hdr.pair) ++ esPairs i s.es
      ++ (s.si.filter (·.outduct == some i)).map (fun a => (a.id, a.bundle)) ++ (s.stuck.filter (·.1 == i)).map (·.2)).map (·.2) := by
    simp only [cutThrough, cutWaiting, List.map_append, List.map_map, esPairs_snd]
    rfl
  obtain ⟨h1, h2⟩ := pairs_weight hp
  rw [← hu] at h2
  refine ⟨?_, ?_⟩
  · rw [hu, List.length_map, h1]
  · rw [(h.ing.sets i).sBytes, h2, bytes, List.map_map]; rfl

/-- The result of `arrive`. -/
theorem arrive_path {C s b g lost} (h : Inv C s) (ha : s.ingress.arrive C b = .ok (g, lost)) :
    g.threads = s.ingress.threads ++ ((path C s b).map fun p => (⟨b, s.ingress.nextId, p⟩ : Thread)).toList ∧
    lost = if (path C s b).isNone then [b] else [] := by
  obtain ⟨u1, u2⟩ := single_eq h
  obtain ⟨dsk, hdsk⟩ : ∃ dsk, dsk = (if (unanswered s).length < 5 ∧ bytes (unanswered s) + b.size ≤ C.maxBundleSize then some Place.store else none) :=
    ⟨_, rfl⟩
  have hdisk : ∀ g' lost, (match Ingress.toDisk C { s.ingress with nextId := s.ingress.nextId + 1 } s.ingress.nextId b with
      | some g => Res.ok (g, [])
      | none => .ok ({ s.ingress with nextId := s.ingress.nextId + 1 }, [b])) = .ok (g', lost) →
      g'.threads = s.ingress.threads ++ (dsk.map fun p => (⟨b, s.ingress.nextId, p⟩ : Thread)).toList ∧
      lost = if dsk.isNone then [b] else [] := by
    intro g' lost hd
    by_cases hroom : (unanswered s).length < 5 ∧ bytes (unanswered s) + b.size ≤ C.maxBundleSize
    · rw [if_pos hroom] at hdsk
      subst hdsk
      have hr : hasRoom s.ingress.single.storage s.ingress.single.storageBytes 10 (C.maxBundleSize * 2) b.size = true := by
        simp only [hasRoom, Bool.and_eq_true, decide_eq_true_eq, u1, u2]; omega
      simp only [Ingress.toDisk, AckSet.reserve, Bool.false_and, Bool.false_eq_true, if_false, Bool.true_and, hr, if_true,
        Option.map_some, Res.ok.injEq, Prod.mk.injEq] at hd
      obtain ⟨rfl, rfl⟩ := hd
      simp
    · rw [if_neg hroom] at hdsk
      subst hdsk
      have hr : hasRoom s.ingress.single.storage s.ingress.single.storageBytes 10 (C.maxBundleSize * 2) b.size = false := by
        rw [← Bool.not_eq_true]
        simp only [hasRoom, Bool.and_eq_true, decide_eq_true_eq, u1, u2]; omega
      simp only [Ingress.toDisk, AckSet.reserve, Bool.false_and, Bool.false_eq_true, if_false, Bool.true_and, hr,
        Option.map_none, Res.ok.injEq, Prod.mk.injEq] at hd
      obtain ⟨rfl, rfl⟩ := hd
      simp
  unfold Ingress.arrive at ha
  simp only at ha
  obtain ⟨pth, hpth⟩ : ∃ pth, path C s b = pth := ⟨_, rfl⟩
  rw [hpth]
  unfold path at hpth
  simp only [← hdsk] at hpth
  split at ha
  · rename_i hn
    rw [hn] at hpth
    subst hpth
    exact hdisk _ _ ha
  · rename_i i hi
    rw [hi] at hpth
    simp only at hpth
    split at ha
    · by_cases hup : (s.ingress.sets i).up = false ∨ b.custody = true
      · rw [if_pos hup] at hpth
        rw [if_neg (by rcases hup with h | h <;> simp [h])] at ha
        subst hpth
        exact hdisk _ _ ha
      · rw [if_neg hup] at hpth
        rw [if_pos (by simpa [not_or] using hup)] at ha
        obtain ⟨d1, d2⟩ := direct_eq h i
        obtain ⟨c1, c2⟩ := cutThrough_eq h i
        have hd : hasRoom (s.ingress.sets i).egress (s.ingress.sets i).egressBytes (C.maxBundles i) (C.maxBytes i) b.size
            = fits (direct s i) (C.maxBundles i) (C.maxBytes i) b := by simp only [hasRoom, fits, d1, d2]
        have hc : hasRoom (s.ingress.sets i).storage (s.ingress.sets i).storageBytes (C.maxBundles i) (C.maxBytes i) b.size
            = fits (cutThrough s i) (C.maxBundles i) (C.maxBytes i) b := by simp only [hasRoom, fits, c1, c2]
        by_cases he : C.enforcePriority = false ∧ fits (direct s i) (C.maxBundles i) (C.maxBytes i) b = true
        · rw [if_pos he] at hpth
          simp only [AckSet.reserve, he.1, Bool.not_false, Bool.true_and, hd, he.2, if_true, Res.ok.injEq, Prod.mk.injEq] at ha
          obtain ⟨rfl, rfl⟩ := ha
          simp [← hpth]
        · rw [if_neg he] at hpth
          have he' : (!C.enforcePriority && fits (direct s i) (C.maxBundles i) (C.maxBytes i) b) = false := by
            rw [← Bool.not_eq_true]; simpa using he
          by_cases hf : fits (cutThrough s i) (C.maxBundles i) (C.maxBytes i) b = true
          · rw [if_pos hf] at hpth
            simp only [AckSet.reserve, hd, he', Bool.false_eq_true, if_false, Bool.true_and, hc, hf, if_true, Res.ok.injEq,
              Prod.mk.injEq] at ha
            obtain ⟨rfl, rfl⟩ := ha
            simp [← hpth]
          · rw [if_neg hf] at hpth
            simp only [AckSet.reserve, hd, he', Bool.false_eq_true, if_false, Bool.true_and, hc, hf] at ha
            subst hpth
            exact hdisk _ _ ha
    · simp at ha

end Hdtn.Node
