import Verif.Node.Inv

/-!
The steps of ingress keep the account.
-/

namespace Hdtn.Node

theorem thread_beq (t : Thread) (x : Nat × Bundle) (p : Place) :
    (t == (⟨x.2, x.1, p⟩ : Thread)) = (decide (t.place = p) && ((t.id, t.bundle) == x)) := by
  rw [Bool.eq_iff_iff]
  simp only [beq_iff_eq, Bool.and_eq_true, decide_eq_true_eq]
  constructor
  · rintro rfl; exact ⟨rfl, rfl⟩
  · rintro ⟨rfl, rfl⟩; rfl

theorem hdr_beq (h : ToEgress) (i : Nat) (x : Nat × Bundle) (c : Bool) :
    (h == hdr i x c) = (decide (h.outduct = i) && decide (h.cut = c) && ((h.id, h.bundle) == x)) := by
  rw [Bool.eq_iff_iff]
  simp only [beq_iff_eq, Bool.and_eq_true, decide_eq_true_eq]
  constructor
  · rintro rfl; exact ⟨⟨rfl, rfl⟩, rfl⟩
  · rintro ⟨⟨rfl, rfl⟩, rfl⟩; rfl

theorem ackOf_beq (a : StorageAck) (o : Option Nat) (x : Nat × Bundle) :
    ackOf o x a = (decide (a.outduct = o) && ((a.id, a.bundle) == x)) := by
  rw [Bool.eq_iff_iff, ackOf_iff]
  simp only [beq_iff_eq, Bool.and_eq_true, decide_eq_true_eq]
  constructor
  · rintro ⟨rfl, rfl⟩; exact ⟨rfl, rfl⟩
  · rintro ⟨rfl, rfl⟩; exact ⟨rfl, rfl⟩

theorem toS_beq (o' : Option Nat) (y : Nat × Bundle) (o : Option Nat) (x : Nat × Bundle) :
    (toS o' y == toS o x) = (decide (o' = o) && (y == x)) := by
  rw [Bool.eq_iff_iff]
  simp only [beq_iff_eq, Bool.and_eq_true, decide_eq_true_eq, toS_inj]

theorem remove_count' {m : Map} {id b} (hk : m.Keys) (h : (id, b) ∈ m) (x : Nat × Bundle) :
    (m.remove id).count x + ((id, b) == x).toNat = m.count x := by
  have := remove_count hk h x
  by_cases hx : x = (id, b)
  · rw [if_pos hx] at this
    have : ((id, b) == x) = true := by rw [hx]; simp
    rw [this]
    simpa using ‹_›
  · rw [if_neg hx] at this
    have h' : ((id, b) == x) = false := by
      rw [beq_eq_false_iff_ne]; exact fun h => hx h.symm
    rw [h']
    simpa using this

/-! ### Reservations -/

theorem SetOk.mono {mb my n n' s} (h : SetOk mb my n s) (hn : n ≤ n') : SetOk mb my n' s :=
  ⟨h.eKeys, h.sKeys, h.eBytes, h.sBytes, h.eLimit, h.sLimit, fun x hx => Nat.lt_of_lt_of_le (h.eIds x hx) hn,
    fun x hx => Nat.lt_of_lt_of_le (h.sIds x hx) hn⟩

theorem SetOk.withUp {mb my n s} (h : SetOk mb my n s) (u : Bool) : SetOk mb my n { s with up := u } :=
  ⟨h.eKeys, h.sKeys, h.eBytes, h.sBytes, h.eLimit, h.sLimit, h.eIds, h.sIds⟩

theorem popEgress_eq {s : AckSet} (hk : s.egress.Keys) {id b} (hm : (id, b) ∈ s.egress) :
    s.popEgress id = { s with egress := s.egress.remove id, egressBytes := s.egressBytes - b.size } := by
  unfold AckSet.popEgress
  rw [lookup_of_mem hk hm]

theorem popStorage_eq {s : AckSet} (hk : s.storage.Keys) {id b} (hm : (id, b) ∈ s.storage) :
    s.popStorage id = { s with storage := s.storage.remove id, storageBytes := s.storageBytes - b.size } := by
  unfold AckSet.popStorage
  rw [lookup_of_mem hk hm]

theorem SetOk.popEgress {mb my n s} (h : SetOk mb my n s) {id b} (hm : (id, b) ∈ s.egress) : SetOk mb my n (s.popEgress id) := by
  rw [popEgress_eq h.eKeys hm]
  have h1 := remove_length h.eKeys hm
  have h2 := remove_bytes h.eKeys hm
  have h3 := h.eBytes
  have h4 := h.eLimit
  refine ⟨keys_remove h.eKeys _, h.sKeys, ?_, h.sBytes, ?_, h.sLimit, fun x hx => h.eIds x (remove_mem hx), h.sIds⟩
  · simp only; omega
  · simp only; omega

theorem SetOk.popStorage {mb my n s} (h : SetOk mb my n s) {id b} (hm : (id, b) ∈ s.storage) : SetOk mb my n (s.popStorage id) := by
  rw [popStorage_eq h.sKeys hm]
  have h1 := remove_length h.sKeys hm
  have h2 := remove_bytes h.sKeys hm
  have h3 := h.sBytes
  have h4 := h.sLimit
  refine ⟨h.eKeys, keys_remove h.sKeys _, h.eBytes, ?_, h.eLimit, ?_, h.eIds, fun x hx => h.sIds x (remove_mem hx)⟩
  · simp only; omega
  · simp only; omega

/-- What a reservation does. -/
theorem reserve_some {mb my n s ce cs id b p s'} (h : AckSet.reserve s mb my ce cs id b = some (p, s')) (hs : SetOk mb my n s)
    (he : ∀ b, (id, b) ∉ s.egress) (hst : ∀ b, (id, b) ∉ s.storage) (hid : id < n) :
    SetOk mb my n s' ∧ s'.up = s.up ∧
    ((p = .egress ∧ ce = true ∧ s'.egress = s.egress ++ [(id, b)] ∧ s'.storage = s.storage) ∨
     (p = .storage ∧ cs = true ∧ s'.egress = s.egress ∧ s'.storage = s.storage ++ [(id, b)])) := by
  have hle := lookup_none.2 he
  have hls := lookup_none.2 hst
  unfold AckSet.reserve at h
  split at h
  · rename_i hc
    simp only [Bool.and_eq_true, hasRoom, decide_eq_true_eq] at hc
    simp only [Option.some.injEq, Prod.mk.injEq] at h
    obtain ⟨rfl, rfl⟩ := h
    rw [emplace_new hle]
    refine ⟨⟨keys_append hs.eKeys hle b, hs.sKeys, ?_, hs.sBytes, ?_, hs.sLimit, ?_, hs.sIds⟩, rfl, Or.inl ⟨rfl, hc.1, rfl, rfl⟩⟩
    · have := hs.eBytes
      simp only [bytes_append]; omega
    · simp only [List.length_append, List.length_cons, List.length_nil]; omega
    · intro x hx
      rcases List.mem_append.1 hx with hx | hx
      · exact hs.eIds x hx
      · rw [List.mem_singleton] at hx; subst hx; exact hid
  · split at h
    · rename_i hc
      simp only [Bool.and_eq_true, hasRoom, decide_eq_true_eq] at hc
      simp only [Option.some.injEq, Prod.mk.injEq] at h
      obtain ⟨rfl, rfl⟩ := h
      rw [emplace_new hls]
      refine ⟨⟨hs.eKeys, keys_append hs.sKeys hls b, hs.eBytes, ?_, hs.eLimit, ?_, hs.eIds, ?_⟩, rfl, Or.inr ⟨rfl, hc.1, rfl, rfl⟩⟩
      · have := hs.sBytes
        simp only [bytes_append]; omega
      · simp only [List.length_append, List.length_cons, List.length_nil]; omega
      · intro x hx
        rcases List.mem_append.1 hx with hx | hx
        · exact hs.sIds x hx
        · rw [List.mem_singleton] at hx; subst hx; exact hid
    · exact absurd h (by simp)

/-! ### Ingress -/

theorem setSet_self (g : Ingress) (i : Nat) (s : AckSet) : (g.setSet i s).sets i = s := by simp [Ingress.setSet]

theorem setSet_other (g : Ingress) {i j : Nat} (s : AckSet) (h : j ≠ i) : (g.setSet i s).sets j = g.sets j := by
  simp [Ingress.setSet, h]

theorem IngOk.setSet {C g i s} (h : IngOk C g) (hi : i < C.outducts)
    (hs : SetOk (C.maxBundles i) (C.maxBytes i) g.nextId s)
    (hp : ∀ x, x ∈ s.egress ∨ x ∈ s.storage → x.2.custody = false) : IngOk C (g.setSet i s) := by
  refine ⟨?_, h.single, ?_, ?_, h.tnd, h.tids, h.tsep, h.routes⟩ <;> intro j
  · by_cases hj : j = i
    · subst hj; rw [setSet_self]; exact hs
    · rw [setSet_other _ _ hj]; exact h.sets j
  · intro hc
    rw [setSet_other _ _ (by omega)]; exact h.out j hc
  · intro x
    by_cases hj : j = i
    · subst hj; rw [setSet_self]; exact hp x
    · rw [setSet_other _ _ hj]; exact h.plain j x

theorem IngOk.fewer {C g} (h : IngOk C g) (k : Nat) : IngOk C { g with threads := g.threads.eraseIdx k } := by
  refine ⟨h.sets, h.single, h.out, h.plain, ?_, ?_, ?_, h.routes⟩
  · exact h.tnd.sublist ((List.eraseIdx_sublist _ _).map _)
  · exact fun t ht => h.tids t (List.mem_of_mem_eraseIdx ht)
  · exact fun t ht => h.tsep t (List.mem_of_mem_eraseIdx ht)

theorem IngOk.next {C g} (h : IngOk C g) : IngOk C { g with nextId := g.nextId + 1 } :=
  ⟨fun i => (h.sets i).mono (Nat.le_succ _), h.single.mono (Nat.le_succ _), h.out, h.plain, h.tnd,
    fun t ht => Nat.lt_succ_of_lt (h.tids t ht), h.tsep, h.routes⟩

theorem IngOk.more {C g} (h : IngOk C g) {t : Thread} (hid : t.id < g.nextId) (hn : t.id ∉ g.threads.map (·.id))
    (hsep : ∀ i, t.place = .egress i → ∀ b, (t.id, b) ∉ g.single.storage) : IngOk C { g with threads := g.threads ++ [t] } := by
  refine ⟨h.sets, h.single, h.out, h.plain, ?_, ?_, ?_, h.routes⟩
  · simp only [List.map_append, List.map_cons, List.map_nil]
    rw [List.nodup_append]
    refine ⟨h.tnd, by simp, ?_⟩
    intro a ha c hc
    simp only [List.mem_singleton] at hc
    subst hc
    intro heq
    exact hn (heq ▸ ha)
  · intro t' ht'
    rcases List.mem_append.1 ht' with ht' | ht'
    · exact h.tids t' ht'
    · rw [List.mem_singleton] at ht'; subst ht'; exact hid
  · intro t' ht'
    rcases List.mem_append.1 ht' with ht' | ht'
    · exact h.tsep t' ht'
    · rw [List.mem_singleton] at ht'; subst ht'; exact hsep

/-- What the way to the disk does to ingress. -/
theorem toDisk_ok {C g id b g'} (h : Ingress.toDisk C g id b = some g') (hg : IngOk C g) (hid : id < g.nextId)
    (hn : id ∉ g.threads.map (·.id)) (hsingle : ∀ b, (id, b) ∉ g.single.storage) (hsingle' : ∀ b, (id, b) ∉ g.single.egress) :
    IngOk C g' ∧ g'.sets = g.sets ∧ g'.single.storage = g.single.storage ++ [(id, b)] ∧
    g'.threads = g.threads ++ [⟨b, id, .store⟩] := by
  unfold Ingress.toDisk at h
  simp only [Option.map_eq_some_iff] at h
  obtain ⟨⟨p, s⟩, hr, rfl⟩ := h
  obtain ⟨h1, h2, h3⟩ := reserve_some hr hg.single hsingle' hsingle hid
  rcases h3 with ⟨_, hc, _⟩ | ⟨_, _, _, hst⟩
  · exact absurd hc (by simp)
  · refine ⟨?_, rfl, hst, rfl⟩
    have : IngOk C { g with single := s } := by
      refine ⟨hg.sets, h1, hg.out, hg.plain, hg.tnd, hg.tids, ?_, hg.routes⟩
      intro t ht i hp b' hb'
      rw [hst] at hb'
      rcases List.mem_append.1 hb' with hb' | hb'
      · exact hg.tsep t ht i hp b' hb'
      · simp only [List.mem_singleton, Prod.mk.injEq] at hb'
        exact hn (List.mem_map.2 ⟨t, ht, hb'.1⟩)
    exact this.more hid hn (fun i hp => by simp at hp)

/-- There are no reservations for egress in the set for the disk. -/
def SingleOk (g : Ingress) : Prop := g.single.egress = []

/-- Another ingress, with the rest of the state as it was. -/
theorem inv_ingress {C s} (h : Inv C s) {g : Ingress} {ie is ei si accepted lost}
    (h1 : ∀ i x, (g.sets i).egress.count x + s.ingress.threads.count ⟨x.2, x.1, .egress i⟩ + s.ie.count (hdr i x false)
      + s.ei.countP (·.answers (hdr i x false)) = (s.ingress.sets i).egress.count x + g.threads.count ⟨x.2, x.1, .egress i⟩
      + ie.count (hdr i x false) + ei.countP (·.answers (hdr i x false)))
    (h2 : ∀ i x, (g.sets i).storage.count x + s.ingress.threads.count ⟨x.2, x.1, .cut i⟩ + s.is.count (toS (some i) x)
      + s.si.countP (ackOf (some i) x) = (s.ingress.sets i).storage.count x + g.threads.count ⟨x.2, x.1, .cut i⟩
      + is.count (toS (some i) x) + si.countP (ackOf (some i) x))
    (h3 : ∀ x, g.single.storage.count x + s.ingress.threads.count ⟨x.2, x.1, .store⟩ + s.is.count (toS none x)
      + s.si.countP (ackOf none x) = s.ingress.single.storage.count x + g.threads.count ⟨x.2, x.1, .store⟩
      + is.count (toS none x) + si.countP (ackOf none x))
    (h7 : ∀ b, accepted.count b + s.lost.count b + s.ingress.threads.countP (·.bundle == b) + s.ie.countP (·.bundle == b)
      + s.is.countP (·.bundle == b) = s.accepted.count b + lost.count b + g.threads.countP (·.bundle == b)
      + ie.countP (·.bundle == b) + is.countP (·.bundle == b))
    (hg : IngOk C g) (hr : ∀ r, .capabilities r ∈ ei → RoutesOk C r) (hie : ∀ m ∈ ie, m.cut = false)
    (hei : ∀ a, .ack a ∈ ei → a.hdr.cut = false) (his : ∀ m ∈ is, m.dontStore = m.outduct.isSome) :
    Inv C { s with ingress := g, ie := ie, is := is, ei := ei, si := si, accepted := accepted, lost := lost } where
  i1 i x := by have a := h.i1 i x; have b := h1 i x; simp only; omega
  i2 i x := by have a := h.i2 i x; have b := h2 i x; simp only; omega
  i3 x := by have a := h.i3 x; have b := h3 x; simp only; omega
  i4 := h.i4
  i5 := h.i5
  i6 := h.i6
  i7 b := by have a := h.i7 b; have c := h7 b; simp only; omega
  st := h.st
  ing := hg
  routes := h.routes
  eiRoutes := hr
  ieCut := hie
  eiCut := hei
  flCut := h.flCut
  isOk := his
  ready := h.ready
  failed := h.failed

/-- A bundle comes in. -/
theorem inv_arrive {C s b g lost} (h : Inv C s) (hs : SingleOk s.ingress) (ha : s.ingress.arrive C b = .ok (g, lost)) :
    Inv C { s with ingress := g, accepted := s.accepted ++ [b], lost := s.lost ++ lost } ∧ SingleOk g := by
  have hg := h.ing.next
  have hnew : ∀ i, (∀ b, (s.ingress.nextId, b) ∉ (s.ingress.sets i).egress) ∧ ∀ b, (s.ingress.nextId, b) ∉ (s.ingress.sets i).storage := by
    intro i
    exact ⟨fun b hb => Nat.lt_irrefl _ ((h.ing.sets i).eIds _ hb), fun b hb => Nat.lt_irrefl _ ((h.ing.sets i).sIds _ hb)⟩
  have hnewS : ∀ b, (s.ingress.nextId, b) ∉ s.ingress.single.storage := fun b hb => Nat.lt_irrefl _ (h.ing.single.sIds _ hb)
  have hnewE : ∀ b, (s.ingress.nextId, b) ∉ s.ingress.single.egress := fun b hb => Nat.lt_irrefl _ (h.ing.single.eIds _ hb)
  have hnt : s.ingress.nextId ∉ s.ingress.threads.map (·.id) := by
    intro hm
    obtain ⟨t, ht, he⟩ := List.mem_map.1 hm
    exact Nat.lt_irrefl _ (he ▸ h.ing.tids t ht)
  -- the way to the disk
  have hdisk : ∀ {r}, (match Ingress.toDisk C { s.ingress with nextId := s.ingress.nextId + 1 } s.ingress.nextId b with
      | some g => Res.ok (g, ([] : List Bundle))
      | none => .ok ({ s.ingress with nextId := s.ingress.nextId + 1 }, [b])) = .ok r →
      Inv C { s with ingress := r.1, accepted := s.accepted ++ [b], lost := s.lost ++ r.2 } ∧ SingleOk r.1 := by
    intro r hr
    split at hr
    · rename_i g' hd
      simp only [Res.ok.injEq] at hr
      subst hr
      obtain ⟨d1, d2, d3, d4⟩ := toDisk_ok hd hg (Nat.lt_succ_self _) hnt hnewS hnewE
      refine ⟨?_, ?_⟩
      · refine inv_ingress h ?_ ?_ ?_ ?_ d1 h.eiRoutes h.ieCut h.eiCut h.isOk
        · intro i x
          rw [d2, d4]
          simp only [List.count_append, count_one, thread_beq, reduceCtorEq, decide_false, Bool.false_and, Bool.toNat_false]
          omega
        · intro i x
          rw [d2, d4]
          simp only [List.count_append, count_one, thread_beq, reduceCtorEq, decide_false, Bool.false_and, Bool.toNat_false]
          omega
        · intro x
          rw [d3, d4]
          simp only [List.count_append, count_one, thread_beq, decide_true, Bool.true_and]
          omega
        · intro b'
          rw [d4]
          simp only [List.count_append, List.countP_append, countP_one, count_one, List.count_nil]
          omega
      · unfold Ingress.toDisk at hd
        simp only [Option.map_eq_some_iff] at hd
        obtain ⟨⟨p, s₁⟩, hr, rfl⟩ := hd
        obtain ⟨_, _, h3⟩ := reserve_some hr hg.single hnewE hnewS (Nat.lt_succ_self _)
        rcases h3 with ⟨_, hc, _⟩ | ⟨_, _, hst, _⟩
        · exact absurd hc (by simp)
        · show s₁.egress = []
          rw [hst]; exact hs
    · simp only [Res.ok.injEq] at hr
      subst hr
      refine ⟨?_, hs⟩
      refine inv_ingress h ?_ ?_ ?_ ?_ hg h.eiRoutes h.ieCut h.eiCut h.isOk
      · intro i x; simp only
      · intro i x; simp only
      · intro x; simp only
      · intro b'; simp only [List.count_append]; omega
  unfold Ingress.arrive at ha
  simp only at ha
  split at ha
  · exact hdisk ha
  · rename_i i hi
    split at ha
    · rename_i hlt
      split at ha
      · rename_i hup
        simp only [Bool.and_eq_true, Bool.not_eq_true'] at hup
        split at ha
        · rename_i s' hr
          simp only [Res.ok.injEq, Prod.mk.injEq] at ha
          obtain ⟨rfl, rfl⟩ := ha
          obtain ⟨h1, h2, h3⟩ := reserve_some hr (hg.sets i) (hnew i).1 (hnew i).2 (Nat.lt_succ_self _)
          rcases h3 with ⟨_, _, e1, e2⟩ | ⟨hc, _⟩
          · have hplain : ∀ x, x ∈ s'.egress ∨ x ∈ s'.storage → x.2.custody = false := by
              intro x hx
              rw [e1, e2] at hx
              rcases hx with hx | hx
              · rcases List.mem_append.1 hx with hx | hx
                · exact h.ing.plain i x (Or.inl hx)
                · rw [List.mem_singleton] at hx; subst hx; exact hup.2
              · exact h.ing.plain i x (Or.inr hx)
            refine ⟨?_, hs⟩
            refine inv_ingress h ?_ ?_ ?_ ?_ ((hg.setSet hlt h1 hplain).more (Nat.lt_succ_self _) hnt (fun _ _ => hnewS))
              h.eiRoutes h.ieCut h.eiCut h.isOk
            · intro j x
              simp only [List.count_append, count_one, thread_beq, Place.egress.injEq]
              by_cases hj : j = i
              · subst hj
                rw [setSet_self, e1]
                simp only [List.count_append, count_one, decide_true, Bool.true_and]
                omega
              · rw [setSet_other _ _ hj, decide_eq_false (fun hc => hj hc.symm)]
                simp only [Bool.false_and, Bool.toNat_false]
                omega
            · intro j x
              simp only [List.count_append, count_one, thread_beq, reduceCtorEq, decide_false, Bool.false_and, Bool.toNat_false]
              by_cases hj : j = i
              · subst hj; rw [setSet_self, e2]; omega
              · rw [setSet_other _ _ hj]; dsimp only; omega
            · intro x
              simp only [List.count_append, count_one, thread_beq, reduceCtorEq, decide_false, Bool.false_and, Bool.toNat_false]
              show s.ingress.single.storage.count x + _ + _ + _ = _
              omega
            · intro b'
              simp only [List.count_append, List.countP_append, countP_one, count_one, List.count_nil]
              omega
          · exact absurd hc (by simp)
        · rename_i s' hr
          simp only [Res.ok.injEq, Prod.mk.injEq] at ha
          obtain ⟨rfl, rfl⟩ := ha
          obtain ⟨h1, h2, h3⟩ := reserve_some hr (hg.sets i) (hnew i).1 (hnew i).2 (Nat.lt_succ_self _)
          rcases h3 with ⟨hc, _⟩ | ⟨_, _, e1, e2⟩
          · exact absurd hc (by simp)
          · have hplain : ∀ x, x ∈ s'.egress ∨ x ∈ s'.storage → x.2.custody = false := by
              intro x hx
              rw [e1, e2] at hx
              rcases hx with hx | hx
              · exact h.ing.plain i x (Or.inl hx)
              · rcases List.mem_append.1 hx with hx | hx
                · exact h.ing.plain i x (Or.inr hx)
                · rw [List.mem_singleton] at hx; subst hx; exact hup.2
            refine ⟨?_, hs⟩
            refine inv_ingress h ?_ ?_ ?_ ?_ ((hg.setSet hlt h1 hplain).more (Nat.lt_succ_self _) hnt (fun _ _ => hnewS))
              h.eiRoutes h.ieCut h.eiCut h.isOk
            · intro j x
              simp only [List.count_append, count_one, thread_beq, reduceCtorEq, decide_false, Bool.false_and, Bool.toNat_false]
              by_cases hj : j = i
              · subst hj; rw [setSet_self, e1]; omega
              · rw [setSet_other _ _ hj]; dsimp only; omega
            · intro j x
              simp only [List.count_append, count_one, thread_beq, Place.cut.injEq]
              by_cases hj : j = i
              · subst hj
                rw [setSet_self, e2]
                simp only [List.count_append, count_one, decide_true, Bool.true_and]
                omega
              · rw [setSet_other _ _ hj, decide_eq_false (fun hc => hj hc.symm)]
                simp only [Bool.false_and, Bool.toNat_false]
                omega
            · intro x
              simp only [List.count_append, count_one, thread_beq, reduceCtorEq, decide_false, Bool.false_and, Bool.toNat_false]
              show s.ingress.single.storage.count x + _ + _ + _ = _
              omega
            · intro b'
              simp only [List.count_append, List.countP_append, countP_one, count_one, List.count_nil]
              omega
        · exact hdisk ha
      · exact hdisk ha
    · exact absurd ha (by simp)

/-- No bundle makes ingress look at an outduct that does not exist. -/
theorem arrive_no_fault {C s b} (h : Inv C s) : s.ingress.arrive C b ≠ .fault := by
  unfold Ingress.arrive
  simp only
  intro hc
  split at hc
  · split at hc <;> simp at hc
  · rename_i i hi
    rw [if_pos (h.ing.routes _ _ hi)] at hc
    split at hc
    · split at hc
      · simp at hc
      · simp at hc
      · split at hc <;> simp at hc
    · split at hc <;> simp at hc

end Hdtn.Node
