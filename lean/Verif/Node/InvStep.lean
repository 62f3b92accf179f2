import Verif.Node.InvIngress
import Mathlib.Data.List.Nodup

/-!
Every step of the node keeps the account, and never leaves the bounds of a vector.
-/

namespace Hdtn.Node

/-- The account, and no reservations for egress in the set for the disk. -/
structure Full (C : Config) (s : State) : Prop where
  inv : Inv C s
  single : SingleOk s.ingress

/-- The reservation of a thread. -/
theorem thread_egress {C s} {t : Thread} {i : Nat} (h : Inv C s) (ht : t ∈ s.ingress.threads) (hp : t.place = .egress i) :
    (t.id, t.bundle) ∈ (s.ingress.sets i).egress := by
  have a := h.i1 i (t.id, t.bundle)
  have : t = ⟨t.bundle, t.id, .egress i⟩ := by cases t; simp only at hp; rw [hp]
  have := List.count_pos_iff.2 (this ▸ ht)
  exact List.count_pos_iff.1 (by simp only at *; omega)

theorem thread_cut {C s} {t : Thread} {i : Nat} (h : Inv C s) (ht : t ∈ s.ingress.threads) (hp : t.place = .cut i) :
    (t.id, t.bundle) ∈ (s.ingress.sets i).storage := by
  have a := h.i2 i (t.id, t.bundle)
  have : t = ⟨t.bundle, t.id, .cut i⟩ := by cases t; simp only at hp; rw [hp]
  have := List.count_pos_iff.2 (this ▸ ht)
  exact List.count_pos_iff.1 (by simp only at *; omega)

theorem thread_store {C s} {t : Thread} (h : Inv C s) (ht : t ∈ s.ingress.threads) (hp : t.place = .store) :
    (t.id, t.bundle) ∈ s.ingress.single.storage := by
  have a := h.i3 (t.id, t.bundle)
  have : t = ⟨t.bundle, t.id, .store⟩ := by cases t; simp only at hp; rw [hp]
  have := List.count_pos_iff.2 (this ▸ ht)
  exact List.count_pos_iff.1 (by simp only at *; omega)

theorem erased_id {l : List Thread} (hn : (l.map (·.id)).Nodup) {k : Nat} {t : Thread} (h : l[k]? = some t) :
    t.id ∉ (l.eraseIdx k).map (·.id) := by
  obtain ⟨hk, rfl⟩ := List.getElem?_eq_some_iff.1 h
  have hp := (List.getElem_cons_eraseIdx_perm hk).map (·.id)
  have := hp.nodup_iff.2 hn
  simp only [List.map_cons, List.nodup_cons] at this
  exact this.1

/-- A thread of ingress sends its bundle on. -/
theorem full_push {C s k ok} {t : Thread} (h : Full C s) (ht : s.ingress.threads[k]? = some t) :
    Full C (s.push C t (s.ingress.threads.eraseIdx k) ok) := by
  obtain ⟨h, hsg⟩ := h
  have hm : t ∈ s.ingress.threads := List.mem_of_getElem? ht
  have hc := fun x => eraseIdx_count ht x
  have hcP := fun (b : Bundle) => eraseIdx_countP ht (·.bundle == b)
  have hfew := h.ing.fewer k
  have hid := h.ing.tids t hm
  simp only [count_one, countP_one] at hc hcP
  unfold State.push
  cases hp : t.place with
  | egress i =>
    have hres := thread_egress h hm hp
    have hi := set_range h (Or.inl hres)
    cases ok with
    | true =>
      simp only [if_true]
      refine ⟨?_, hsg⟩
      refine inv_ingress h ?_ ?_ ?_ ?_ hfew h.eiRoutes ?_ h.eiCut h.isOk
      · intro j x
        have a := hc ⟨x.2, x.1, .egress j⟩
        simp only [thread_beq, hp, Place.egress.injEq] at a
        simp only [List.count_append, count_one, hdr_beq, decide_true, Bool.and_true]
        omega
      · intro j x
        have a := hc ⟨x.2, x.1, .cut j⟩
        simp only [thread_beq, hp, reduceCtorEq, decide_false, Bool.false_and, Bool.toNat_false] at a
        dsimp only; omega
      · intro x
        have a := hc ⟨x.2, x.1, .store⟩
        simp only [thread_beq, hp, reduceCtorEq, decide_false, Bool.false_and, Bool.toNat_false] at a
        dsimp only; omega
      · intro b
        have a := hcP b
        simp only [List.countP_append, countP_one]
        omega
      · intro m hm'
        rcases List.mem_append.1 hm' with hm' | hm'
        · exact h.ieCut m hm'
        · rw [List.mem_singleton] at hm'; subst hm'; rfl
    | false =>
      simp only [Bool.false_eq_true, if_false]
      have hset := h.ing.sets i
      have hpop := popEgress_eq hset.eKeys hres
      have hg₁ : IngOk C (Ingress.setSet { s.ingress with threads := s.ingress.threads.eraseIdx k } i ((s.ingress.sets i).popEgress t.id)) := by
        refine hfew.setSet hi (hset.popEgress hres) ?_
        intro x hx
        rw [hpop] at hx
        rcases hx with hx | hx
        · exact h.ing.plain i x (Or.inl (remove_mem hx))
        · exact h.ing.plain i x (Or.inr hx)
      have hnid := erased_id h.ing.tnd ht
      have hns := h.ing.tsep t hm i hp
      have e1 : ∀ (threads : List Thread) (j : Nat) (x : Nat × Bundle),
          threads.count ⟨x.2, x.1, .egress j⟩ = (s.ingress.threads.eraseIdx k).count ⟨x.2, x.1, .egress j⟩ →
          ((Ingress.setSet { s.ingress with threads := s.ingress.threads.eraseIdx k } i ((s.ingress.sets i).popEgress t.id)).sets j).egress.count x
            + s.ingress.threads.count ⟨x.2, x.1, .egress j⟩ = (s.ingress.sets j).egress.count x + threads.count ⟨x.2, x.1, .egress j⟩ := by
        intro threads j x hth
        have a := hc ⟨x.2, x.1, .egress j⟩
        simp only [thread_beq, hp, Place.egress.injEq] at a
        by_cases hj : j = i
        · subst hj
          rw [setSet_self, hpop]
          have := remove_count' hset.eKeys hres x
          simp only [decide_true, Bool.true_and] at a
          simp only
          omega
        · rw [setSet_other _ _ hj]
          rw [decide_eq_false (fun hc => hj hc.symm)] at a
          simp only [Bool.false_and, Bool.toNat_false] at a
          simp only
          omega
      have e2 : ∀ (j : Nat), ((Ingress.setSet { s.ingress with threads := s.ingress.threads.eraseIdx k } i ((s.ingress.sets i).popEgress t.id)).sets j).storage
          = (s.ingress.sets j).storage := by
        intro j
        by_cases hj : j = i
        · subst hj; rw [setSet_self, hpop]
        · rw [setSet_other _ _ hj]
      split
      · rename_i g' hd
        obtain ⟨d1, d2, d3, d4⟩ := toDisk_ok hd hg₁ hid hnid hns (by
          intro b hb
          have : s.ingress.single.egress = [] := hsg
          rw [show (Ingress.setSet { s.ingress with threads := s.ingress.threads.eraseIdx k } i ((s.ingress.sets i).popEgress t.id)).single.egress
            = s.ingress.single.egress from rfl, this] at hb
          cases hb)
        refine ⟨?_, ?_⟩
        · refine inv_ingress h ?_ ?_ ?_ ?_ d1 h.eiRoutes h.ieCut h.eiCut h.isOk
          · intro j x
            have a := e1 g'.threads j x (by
              rw [d4]
              simp [List.count_append, List.count_cons, Ingress.setSet])
            rw [d2]
            simp only at a ⊢
            omega
          · intro j x
            have a := hc ⟨x.2, x.1, .cut j⟩
            simp only [thread_beq, hp, reduceCtorEq, decide_false, Bool.false_and, Bool.toNat_false] at a
            rw [d2, d4, e2]
            simp only [Ingress.setSet, List.count_append, count_one, thread_beq, reduceCtorEq, decide_false, Bool.false_and, Bool.toNat_false]
            omega
          · intro x
            have a := hc ⟨x.2, x.1, .store⟩
            simp only [thread_beq, hp, reduceCtorEq, decide_false, Bool.false_and, Bool.toNat_false] at a
            rw [d3, d4]
            simp only [Ingress.setSet, List.count_append, count_one, thread_beq, decide_true, Bool.true_and]
            omega
          · intro b
            have a := hcP b
            rw [d4]
            simp only [Ingress.setSet, List.countP_append, countP_one]
            omega
        · unfold Ingress.toDisk at hd
          simp only [Option.map_eq_some_iff] at hd
          obtain ⟨⟨p, s₁⟩, hr, rfl⟩ := hd
          obtain ⟨_, _, h3⟩ := reserve_some hr hg₁.single (by
            intro b hb
            have : s.ingress.single.egress = [] := hsg
            rw [show (Ingress.setSet { s.ingress with threads := s.ingress.threads.eraseIdx k } i ((s.ingress.sets i).popEgress t.id)).single.egress
              = s.ingress.single.egress from rfl, this] at hb
            cases hb) hns hid
          rcases h3 with ⟨_, hc, _⟩ | ⟨_, _, hst, _⟩
          · exact absurd hc (by simp)
          · show s₁.egress = []
            rw [hst]; exact hsg
      · refine ⟨?_, hsg⟩
        refine inv_ingress h ?_ ?_ ?_ ?_ hg₁ h.eiRoutes h.ieCut h.eiCut h.isOk
        · intro j x
          have a := e1 (s.ingress.threads.eraseIdx k) j x rfl
          simp only [show (Ingress.setSet { s.ingress with threads := s.ingress.threads.eraseIdx k } i ((s.ingress.sets i).popEgress t.id)).threads
            = s.ingress.threads.eraseIdx k from rfl]
          simp only at a ⊢
          omega
        · intro j x
          have a := hc ⟨x.2, x.1, .cut j⟩
          simp only [thread_beq, hp, reduceCtorEq, decide_false, Bool.false_and, Bool.toNat_false] at a
          rw [e2]
          simp only [Ingress.setSet]
          omega
        · intro x
          have a := hc ⟨x.2, x.1, .store⟩
          simp only [thread_beq, hp, reduceCtorEq, decide_false, Bool.false_and, Bool.toNat_false] at a
          simp only [Ingress.setSet]
          omega
        · intro b
          have a := hcP b
          simp only [Ingress.setSet, List.count_append, count_one]
          omega
  | cut i =>
    have hres := thread_cut h hm hp
    have hi := set_range h (Or.inr hres)
    cases ok with
    | true =>
      simp only [if_true]
      refine ⟨?_, hsg⟩
      refine inv_ingress h ?_ ?_ ?_ ?_ hfew h.eiRoutes h.ieCut h.eiCut ?_
      · intro j x
        have a := hc ⟨x.2, x.1, .egress j⟩
        simp only [thread_beq, hp, reduceCtorEq, decide_false, Bool.false_and, Bool.toNat_false] at a
        dsimp only; omega
      · intro j x
        have a := hc ⟨x.2, x.1, .cut j⟩
        simp only [thread_beq, hp, Place.cut.injEq] at a
        have e := toS_beq (some i) (t.id, t.bundle) (some j) x
        simp only [Option.some.injEq] at e
        simp only [List.count_append, count_one]
        rw [show (⟨t.bundle, t.id, some i, true⟩ : ToStorage) = toS (some i) (t.id, t.bundle) from rfl, e]
        omega
      · intro x
        have a := hc ⟨x.2, x.1, .store⟩
        simp only [thread_beq, hp, reduceCtorEq, decide_false, Bool.false_and, Bool.toNat_false] at a
        simp only [List.count_append, count_one]
        rw [show (⟨t.bundle, t.id, some i, true⟩ : ToStorage) = toS (some i) (t.id, t.bundle) from rfl, toS_beq]
        simp only [reduceCtorEq, decide_false, Bool.false_and, Bool.toNat_false]
        omega
      · intro b
        have a := hcP b
        simp only [List.countP_append, countP_one]
        omega
      · intro m hm'
        rcases List.mem_append.1 hm' with hm' | hm'
        · exact h.isOk m hm'
        · rw [List.mem_singleton] at hm'; subst hm'; rfl
    | false =>
      simp only [Bool.false_eq_true, if_false]
      have hset := h.ing.sets i
      have hpop := popStorage_eq hset.sKeys hres
      have hg₁ : IngOk C (Ingress.setSet { s.ingress with threads := s.ingress.threads.eraseIdx k } i ((s.ingress.sets i).popStorage t.id)) := by
        refine hfew.setSet hi (hset.popStorage hres) ?_
        intro x hx
        rw [hpop] at hx
        rcases hx with hx | hx
        · exact h.ing.plain i x (Or.inl hx)
        · exact h.ing.plain i x (Or.inr (remove_mem hx))
      refine ⟨?_, hsg⟩
      refine inv_ingress h ?_ ?_ ?_ ?_ hg₁ h.eiRoutes h.ieCut h.eiCut h.isOk
      · intro j x
        have a := hc ⟨x.2, x.1, .egress j⟩
        simp only [thread_beq, hp, reduceCtorEq, decide_false, Bool.false_and, Bool.toNat_false] at a
        by_cases hj : j = i
        · subst hj; rw [setSet_self, hpop]; simp only [Ingress.setSet]; omega
        · rw [setSet_other _ _ hj]; simp only [Ingress.setSet]; omega
      · intro j x
        have a := hc ⟨x.2, x.1, .cut j⟩
        simp only [thread_beq, hp, Place.cut.injEq] at a
        by_cases hj : j = i
        · subst hj
          rw [setSet_self, hpop]
          have := remove_count' hset.sKeys hres x
          simp only [decide_true, Bool.true_and] at a
          simp only [Ingress.setSet]
          omega
        · rw [setSet_other _ _ hj]
          rw [decide_eq_false (fun hc => hj hc.symm)] at a
          simp only [Bool.false_and, Bool.toNat_false] at a
          simp only [Ingress.setSet]
          omega
      · intro x
        have a := hc ⟨x.2, x.1, .store⟩
        simp only [thread_beq, hp, reduceCtorEq, decide_false, Bool.false_and, Bool.toNat_false] at a
        simp only [Ingress.setSet]
        omega
      · intro b
        have a := hcP b
        simp only [Ingress.setSet, List.count_append, count_one]
        omega
  | store =>
    have hres := thread_store h hm hp
    cases ok with
    | true =>
      simp only [if_true]
      refine ⟨?_, hsg⟩
      refine inv_ingress h ?_ ?_ ?_ ?_ hfew h.eiRoutes h.ieCut h.eiCut ?_
      · intro j x
        have a := hc ⟨x.2, x.1, .egress j⟩
        simp only [thread_beq, hp, reduceCtorEq, decide_false, Bool.false_and, Bool.toNat_false] at a
        dsimp only; omega
      · intro j x
        have a := hc ⟨x.2, x.1, .cut j⟩
        simp only [thread_beq, hp, reduceCtorEq, decide_false, Bool.false_and, Bool.toNat_false] at a
        simp only [List.count_append, count_one]
        rw [show (⟨t.bundle, t.id, none, false⟩ : ToStorage) = toS none (t.id, t.bundle) from rfl, toS_beq]
        simp only [reduceCtorEq, decide_false, Bool.false_and, Bool.toNat_false]
        omega
      · intro x
        have a := hc ⟨x.2, x.1, .store⟩
        simp only [thread_beq, hp, decide_true, Bool.true_and] at a
        simp only [List.count_append, count_one]
        rw [show (⟨t.bundle, t.id, none, false⟩ : ToStorage) = toS none (t.id, t.bundle) from rfl, toS_beq]
        simp only [decide_true, Bool.true_and]
        omega
      · intro b
        have a := hcP b
        simp only [List.countP_append, countP_one]
        omega
      · intro m hm'
        rcases List.mem_append.1 hm' with hm' | hm'
        · exact h.isOk m hm'
        · rw [List.mem_singleton] at hm'; subst hm'; rfl
    | false =>
      simp only [Bool.false_eq_true, if_false]
      have hset := h.ing.single
      have hpop := popStorage_eq hset.sKeys hres
      have hg₁ : IngOk C { s.ingress with threads := s.ingress.threads.eraseIdx k, single := s.ingress.single.popStorage t.id } := by
        refine ⟨hfew.sets, hset.popStorage hres, hfew.out, hfew.plain, hfew.tnd, hfew.tids, ?_, hfew.routes⟩
        intro t' ht' i' hp' b hb
        rw [hpop] at hb
        exact hfew.tsep t' ht' i' hp' b (remove_mem hb)
      refine ⟨?_, ?_⟩
      · refine inv_ingress h ?_ ?_ ?_ ?_ hg₁ h.eiRoutes h.ieCut h.eiCut h.isOk
        · intro j x
          have a := hc ⟨x.2, x.1, .egress j⟩
          simp only [thread_beq, hp, reduceCtorEq, decide_false, Bool.false_and, Bool.toNat_false] at a
          dsimp only; omega
        · intro j x
          have a := hc ⟨x.2, x.1, .cut j⟩
          simp only [thread_beq, hp, reduceCtorEq, decide_false, Bool.false_and, Bool.toNat_false] at a
          dsimp only; omega
        · intro x
          have a := hc ⟨x.2, x.1, .store⟩
          have := remove_count' hset.sKeys hres x
          simp only [thread_beq, hp, decide_true, Bool.true_and] at a
          rw [hpop]
          dsimp only; omega
        · intro b
          have a := hcP b
          simp only [List.count_append, count_one]
          omega
      · show (s.ingress.single.popStorage t.id).egress = []
        rw [hpop]; exact hsg

/-! ### Acknowledgements -/

theorem ei_set {C s} {a : EgressAck} (h : Inv C s) (ha : .ack a ∈ s.ei) :
    (a.hdr.id, a.hdr.bundle) ∈ (s.ingress.sets a.hdr.outduct).egress := by
  have c := h.i1 a.hdr.outduct (a.hdr.id, a.hdr.bundle)
  have hc := h.eiCut a ha
  have : 0 < s.ei.countP (·.answers (hdr a.hdr.outduct (a.hdr.id, a.hdr.bundle) false)) := by
    refine countP_pos_of_mem ha ?_
    rw [eia_ack, hdr_cut hc]
    simp
  exact List.count_pos_iff.1 (by omega)

theorem full_egressAck {C s a rest} (h : Full C s) (he : s.ei = .ack a :: rest) :
    ∃ g, s.ingress.egressAck C a = .ok g ∧ Full C { s with ingress := g, ei := rest } := by
  obtain ⟨h, hsg⟩ := h
  have hmem : .ack a ∈ s.ei := by rw [he]; exact List.mem_cons_self
  have hres := ei_set h hmem
  have hi := set_range h (Or.inl hres)
  have hcut := h.eiCut a hmem
  unfold Ingress.egressAck
  simp only
  rw [if_pos hi]
  refine ⟨_, rfl, ?_, hsg⟩
  obtain ⟨s₁, hs₁⟩ : ∃ s₁, s₁ = (if a.error = .linkDown then { s.ingress.sets a.hdr.outduct with up := false } else s.ingress.sets a.hdr.outduct) := ⟨_, rfl⟩
  rw [← hs₁]
  have hok : SetOk (C.maxBundles a.hdr.outduct) (C.maxBytes a.hdr.outduct) s.ingress.nextId s₁ ∧
      s₁.egress = (s.ingress.sets a.hdr.outduct).egress ∧ s₁.storage = (s.ingress.sets a.hdr.outduct).storage := by
    rw [hs₁]
    split
    · exact ⟨(h.ing.sets _).withUp _, rfl, rfl⟩
    · exact ⟨h.ing.sets _, rfl, rfl⟩
  obtain ⟨hset, e1, e2⟩ := hok
  have hres₁ : (a.hdr.id, a.hdr.bundle) ∈ s₁.egress := by rw [e1]; exact hres
  have hpop := popEgress_eq hset.eKeys hres₁
  refine inv_ingress h ?_ ?_ ?_ ?_ (h.ing.setSet hi (hset.popEgress hres₁) ?_) ?_ h.ieCut ?_ h.isOk
  · intro j x
    rw [he]
    rw [show (EgressToIngress.ack a :: rest) = [.ack a] ++ rest from rfl, List.countP_append, countP_one, eia_ack, hdr_beq, hcut]
    simp only [Ingress.setSet]
    by_cases hj : j = a.hdr.outduct
    · subst hj
      have := remove_count' hset.eKeys hres₁ x
      rw [if_pos rfl, hpop]
      rw [e1] at this ⊢
      simp only [decide_true, Bool.true_and]
      omega
    · rw [if_neg hj, decide_eq_false (fun hc => hj hc.symm)]
      simp only [Bool.false_and, Bool.toNat_false]
      omega
  · intro j x
    simp only [Ingress.setSet]
    by_cases hj : j = a.hdr.outduct
    · subst hj; rw [if_pos rfl, hpop, e2]
    · rw [if_neg hj]
  · intro x; simp only [Ingress.setSet]
  · intro b; simp only [Ingress.setSet]
  · intro x hx
    rw [hpop] at hx
    rcases hx with hx | hx
    · exact h.ing.plain _ x (Or.inl (by rw [← e1]; exact remove_mem hx))
    · exact h.ing.plain _ x (Or.inr (by rw [← e2]; exact hx))
  · exact fun r hr => h.eiRoutes r (by rw [he]; exact List.mem_cons_of_mem _ hr)
  · exact fun a' ha' => h.eiCut a' (by rw [he]; exact List.mem_cons_of_mem _ ha')

theorem full_ingressCapabilities {C s r rest} (h : Full C s) (he : s.ei = .capabilities r :: rest) :
    Full C { s with ingress := { s.ingress with routes := r, ready := true }, ei := rest } := by
  obtain ⟨h, hsg⟩ := h
  have hr := h.eiRoutes r (by rw [he]; exact List.mem_cons_self)
  refine ⟨?_, hsg⟩
  refine inv_ingress h ?_ ?_ ?_ ?_ ?_ ?_ h.ieCut ?_ h.isOk
  · intro j x
    rw [he]
    rw [show (EgressToIngress.capabilities r :: rest) = [.capabilities r] ++ rest from rfl, List.countP_append, countP_one]
    simp only [EgressToIngress.answers, Bool.toNat_false]
    omega
  · intro j x; simp only
  · intro x; simp only
  · intro b; simp only
  · exact ⟨h.ing.sets, h.ing.single, h.ing.out, h.ing.plain, h.ing.tnd, h.ing.tids, h.ing.tsep, hr⟩
  · exact fun r hr => h.eiRoutes r (by rw [he]; exact List.mem_cons_of_mem _ hr)
  · exact fun a' ha' => h.eiCut a' (by rw [he]; exact List.mem_cons_of_mem _ ha')

theorem full_storageAck {C s a rest} (h : Full C s) (he : s.si = a :: rest) :
    ∃ g, s.ingress.storageAck C a = .ok g ∧ Full C { s with ingress := g, si := rest } := by
  obtain ⟨h, hsg⟩ := h
  have hcount : ∀ o x, s.si.countP (ackOf o x) = (decide (a.outduct = o) && ((a.id, a.bundle) == x)).toNat + rest.countP (ackOf o x) := by
    intro o x
    rw [he, show (a :: rest) = [a] ++ rest from rfl, List.countP_append, countP_one, ackOf_beq]
  unfold Ingress.storageAck
  cases ho : a.outduct with
  | none =>
    simp only
    rw [ho] at hcount
    have hres : (a.id, a.bundle) ∈ s.ingress.single.storage := by
      have c := h.i3 (a.id, a.bundle)
      have d := hcount none (a.id, a.bundle)
      simp only [decide_true, Bool.true_and, beq_self_eq_true, Bool.toNat_true] at d
      exact List.count_pos_iff.1 (by omega)
    have hset := h.ing.single
    have hpop := popStorage_eq hset.sKeys hres
    refine ⟨_, rfl, ?_, ?_⟩
    · refine inv_ingress h ?_ ?_ ?_ ?_ ?_ h.eiRoutes h.ieCut h.eiCut h.isOk
      · intro j x; simp only
      · intro j x
        have d := hcount (some j) x
        simp only [reduceCtorEq, decide_false, Bool.false_and, Bool.toNat_false] at d
        dsimp only; omega
      · intro x
        have d := hcount none x
        have := remove_count' hset.sKeys hres x
        simp only [decide_true, Bool.true_and] at d
        rw [hpop]
        dsimp only; omega
      · intro b; simp only
      · refine ⟨h.ing.sets, hset.popStorage hres, h.ing.out, h.ing.plain, h.ing.tnd, h.ing.tids, ?_, h.ing.routes⟩
        intro t' ht' i' hp' b hb
        rw [hpop] at hb
        exact h.ing.tsep t' ht' i' hp' b (remove_mem hb)
    · show (s.ingress.single.popStorage a.id).egress = []
      rw [hpop]; exact hsg
  | some i =>
    simp only
    rw [ho] at hcount
    have hres : (a.id, a.bundle) ∈ (s.ingress.sets i).storage := by
      have c := h.i2 i (a.id, a.bundle)
      have d := hcount (some i) (a.id, a.bundle)
      simp only [decide_true, Bool.true_and, beq_self_eq_true, Bool.toNat_true] at d
      exact List.count_pos_iff.1 (by omega)
    have hi := set_range h (Or.inr hres)
    rw [if_pos hi]
    refine ⟨_, rfl, ?_, hsg⟩
    obtain ⟨s₁, hs₁⟩ : ∃ s₁, s₁ = (if a.error = true then { s.ingress.sets i with up := false } else s.ingress.sets i) := ⟨_, rfl⟩
    rw [← hs₁]
    have hok : SetOk (C.maxBundles i) (C.maxBytes i) s.ingress.nextId s₁ ∧
        s₁.egress = (s.ingress.sets i).egress ∧ s₁.storage = (s.ingress.sets i).storage := by
      rw [hs₁]
      split
      · exact ⟨(h.ing.sets _).withUp _, rfl, rfl⟩
      · exact ⟨h.ing.sets _, rfl, rfl⟩
    obtain ⟨hset, e1, e2⟩ := hok
    have hres₁ : (a.id, a.bundle) ∈ s₁.storage := by rw [e2]; exact hres
    have hpop := popStorage_eq hset.sKeys hres₁
    refine inv_ingress h ?_ ?_ ?_ ?_ (h.ing.setSet hi (hset.popStorage hres₁) ?_) h.eiRoutes h.ieCut h.eiCut h.isOk
    · intro j x
      simp only [Ingress.setSet]
      by_cases hj : j = i
      · subst hj; rw [if_pos rfl, hpop, e1]
      · rw [if_neg hj]
    · intro j x
      have d := hcount (some j) x
      simp only [Ingress.setSet]
      by_cases hj : j = i
      · subst hj
        have := remove_count' hset.sKeys hres₁ x
        rw [if_pos rfl, hpop]
        rw [e2] at this ⊢
        simp only [decide_true, Bool.true_and] at d ⊢
        omega
      · rw [if_neg hj]
        rw [decide_eq_false (fun hc => hj (Option.some.inj hc).symm)] at d
        simp only [Bool.false_and, Bool.toNat_false] at d
        omega
    · intro x
      have d := hcount none x
      simp only [reduceCtorEq, decide_false, Bool.false_and, Bool.toNat_false] at d
      simp only [Ingress.setSet]; omega
    · intro b; simp only [Ingress.setSet]
    · intro x hx
      rw [hpop] at hx
      rcases hx with hx | hx
      · exact h.ing.plain _ x (Or.inl (by rw [← e1]; exact hx))
      · exact h.ing.plain _ x (Or.inr (by rw [← e2]; exact remove_mem hx))

theorem full_linkIngress {C s i up} (h : Full C s) : Full C { s with ingress := s.ingress.link C i up } := by
  obtain ⟨h, hsg⟩ := h
  unfold Ingress.link
  split
  · rename_i hi
    refine ⟨?_, hsg⟩
    have e : ∀ j, ((s.ingress.setSet i { s.ingress.sets i with up := up }).sets j).egress = (s.ingress.sets j).egress ∧
        ((s.ingress.setSet i { s.ingress.sets i with up := up }).sets j).storage = (s.ingress.sets j).storage := by
      intro j
      by_cases hj : j = i
      · subst hj; rw [setSet_self]; exact ⟨rfl, rfl⟩
      · rw [setSet_other _ _ hj]; exact ⟨rfl, rfl⟩
    refine inv_ingress h ?_ ?_ ?_ ?_ (h.ing.setSet hi ((h.ing.sets i).withUp _) (h.ing.plain i)) h.eiRoutes h.ieCut h.eiCut h.isOk
    · intro j x; rw [(e j).1]; rfl
    · intro j x; rw [(e j).2]; rfl
    · intro x; rfl
    · intro b; rfl
  · exact ⟨h, hsg⟩

/-! ### The router, and what storage does on its own -/

theorem full_reroute {C s} {r : Routes} (h : Full C s) (hr : RoutesOk C r) :
    Full C { s with routes := r, ei := s.ei ++ [.capabilities r], es := s.es ++ [.capabilities r] } := by
  obtain ⟨h, hsg⟩ := h
  refine ⟨?_, hsg⟩
  constructor
  · intro i x; have := h.i1 i x; simpa [EgressToIngress.answers, List.countP_append] using this
  · exact h.i2
  · exact h.i3
  · intro i x; have := h.i4 i x; simpa [EgressToStorage.answers, List.countP_append] using this
  · intro i x; have := h.i5 i x; simpa [EgressToStorage.answers, List.countP_append] using this
  · intro x; have := h.i6 x; simpa [EgressToStorage.answersDisk, List.countP_append] using this
  · intro b
    have a := h.i7 b
    simp only [List.countP_append, countP_one, EgressToStorage.finishes, EgressToStorage.carries, Bool.toNat_false] at a ⊢
    omega
  · exact h.st
  · exact h.ing
  · exact hr
  · intro r' hr'
    rcases List.mem_append.1 hr' with hr' | hr'
    · exact h.eiRoutes r' hr'
    · simp only [List.mem_singleton, EgressToIngress.capabilities.injEq] at hr'
      subst hr'; exact hr
  · exact h.ieCut
  · intro a ha
    rcases List.mem_append.1 ha with ha | ha
    · exact h.eiCut a ha
    · simp at ha
  · exact h.flCut
  · exact h.isOk
  · exact ready_append h _
  · intro i b hb
    rcases List.mem_append.1 hb with hb | hb
    · exact h.failed i b hb
    · simp at hb

/-- Another disk, and bundles that are done with. -/
theorem full_disk {C s} (h : Full C s) {d : List Entry} {expired released : List Bundle} (hd : (d.map (·.cid)).Nodup)
    (h6 : ∀ x, d.countP (givenAs x) = s.storage.disk.countP (givenAs x))
    (h7 : ∀ b, expired.count b + (if b.custody then released.count b else s.delivered.count b) + d.countP (·.bundle == b)
      = s.expired.count b + (if b.custody then s.released.count b else s.delivered.count b) + s.storage.disk.countP (·.bundle == b)) :
    Full C { s with storage := { s.storage with disk := d }, expired := expired, released := released } := by
  obtain ⟨h, hsg⟩ := h
  refine ⟨⟨h.i1, h.i2, h.i3, h.i4, h.i5, ?_, ?_, h.st.setDisk hd, h.ing, h.routes, h.eiRoutes, h.ieCut, h.eiCut, h.flCut,
    h.isOk, h.ready, h.failed⟩, hsg⟩
  · intro x; have := h.i6 x; have := h6 x; simp only; omega
  · intro b
    have a := h.i7 b
    have c := h7 b
    simp only [queued_disk]
    omega

theorem find_entry {d : List Entry} {p : Entry → Bool} {cid : Nat} {e : Entry}
    (h : d.find? (fun e => e.cid == cid && p e) = some e) : e ∈ d ∧ e.cid = cid ∧ p e = true := by
  have h1 := List.mem_of_find?_eq_some h
  have h2 := List.find?_some h
  simp only [Bool.and_eq_true, beq_iff_eq] at h2
  exact ⟨h1, h2.1, h2.2⟩

/-! ### All steps -/

theorem eraseIdx_last {α : Type} (l : List α) (a : α) : (l ++ [a]).eraseIdx l.length = l := by
  rw [List.eraseIdx_append_of_length_le (Nat.le_refl _)]
  simp

theorem full_forward_ingress {C s m rest moved} (h : Full C s) (hie : s.ie = m :: rest) :
    Full C ({ s with ie := rest }.forward m false moved) := by
  have key : ∀ err : AckError, err ≠ .noErrors → Inv C ({ s with ie := rest }.onFailed m false err) := by
    intro err he
    have hf := inv_fly_ingress h.inv hie 0
    have := inv_unsent (k := s.flights.length) (f := ⟨m, false, 0⟩) hf (by simp) he
    simp only [eraseIdx_last] at this
    exact this
  unfold State.forward
  simp only
  split
  · exact ⟨key _ (by simp), h.single⟩
  · split
    · exact ⟨inv_fly_ingress h.inv hie _, h.single⟩
    · exact ⟨key _ (by simp), h.single⟩

theorem full_forward_storage {C s m rest moved} (h : Full C s) (hse : s.se = m :: rest) :
    Full C ({ s with se := rest }.forward m true moved) := by
  have key : ∀ err : AckError, err ≠ .noErrors → Inv C ({ s with se := rest }.onFailed m true err) := by
    intro err he
    have hf := inv_fly_storage h.inv hse 0
    have := inv_unsent (k := s.flights.length) (f := ⟨m, true, 0⟩) hf (by simp) he
    simp only [eraseIdx_last] at this
    exact this
  unfold State.forward
  simp only
  split
  · exact ⟨key _ (by simp), h.single⟩
  · split
    · exact ⟨inv_fly_storage h.inv hse _, h.single⟩
    · exact ⟨key _ (by simp), h.single⟩

/-- What storage knows of the first message from egress. -/
theorem answered {C s m rest} (h : Inv C s) (he : s.es = m :: rest) : Answered C s.storage m := by
  have hm : m ∈ s.es := by rw [he]; exact List.mem_cons_self
  cases m with
  | capabilities r => trivial
  | failed i b => exact h.failed i b hm
  | ack a =>
    have hcut : a.hdr.cut = true → (a.hdr.id, a.hdr.bundle) ∈ (s.storage.infos a.hdr.outduct).cut := by
      intro hc
      have c := h.i4 a.hdr.outduct (a.hdr.id, a.hdr.bundle)
      have : 0 < s.es.countP (·.answers (hdr a.hdr.outduct (a.hdr.id, a.hdr.bundle) true)) := by
        refine countP_pos_of_mem hm ?_
        rw [esa_ack, hdr_cut hc]
        simp
      exact List.count_pos_iff.1 (by omega)
    have hopen : a.hdr.cut = false → (a.hdr.id, a.hdr.bundle) ∈ (s.storage.infos a.hdr.outduct).opened := by
      intro hc
      have c := h.i5 a.hdr.outduct (a.hdr.id, a.hdr.bundle)
      have : 0 < s.es.countP (·.answers (hdr a.hdr.outduct (a.hdr.id, a.hdr.bundle) false)) := by
        refine countP_pos_of_mem hm ?_
        rw [esa_ack, hdr_cut hc]
        simp
      exact List.count_pos_iff.1 (by omega)
    refine ⟨?_, ?_, hcut, fun hc => ⟨hopen hc, ?_⟩⟩
    · rcases h.ready with h' | ⟨r, es, h'⟩
      · exact h'
      · rw [he] at h'; simp at h'
    · by_contra hn
      obtain ⟨_, h2, h3⟩ := h.st.out a.hdr.outduct (by omega)
      cases hc : a.hdr.cut with
      | true => have := hcut hc; rw [h2] at this; cases this
      | false => have := hopen hc; rw [h3] at this; cases this
    · have c := h.i6 (a.hdr.id, a.hdr.bundle)
      have : 0 < s.es.countP (·.answersDisk (a.hdr.id, a.hdr.bundle)) := by
        refine countP_pos_of_mem hm ?_
        rw [esd_ack, hc]
        simp
      have hp : 0 < s.storage.disk.countP (givenAs (a.hdr.id, a.hdr.bundle)) := by omega
      obtain ⟨e, he, hg⟩ := List.countP_pos_iff.1 hp
      simp only [givenAs, Bool.and_eq_true, beq_iff_eq] at hg
      have : e = ⟨a.hdr.id, a.hdr.bundle, .given⟩ := by
        cases e; simp only at hg; rw [hg.1.1, hg.1.2, hg.2]
      rw [← this]; exact he

/-- Storage sends nothing that it has sent already. -/
theorem fresh {C s} (h : Inv C s) : Fresh C s.storage where
  cut i q hq := by
    rw [lookup_none]
    intro b hb
    have hq0 := h.st.queue i q hq
    have hk := (h.ing.sets i).sKeys
    have a1 := h.i2 i (q.id, q.bundle)
    have a2 := h.i2 i (q.id, b)
    have c1 : 0 < (s.storage.infos i).queue.count (toS (some i) (q.id, q.bundle)) := by
      rw [← toS_of hq0]; exact List.count_pos_iff.2 hq
    have c2 : 0 < (s.storage.infos i).cut.count (q.id, b) := List.count_pos_iff.2 hb
    have m1 : (q.id, q.bundle) ∈ (s.ingress.sets i).storage := List.count_pos_iff.1 (by omega)
    have m2 : (q.id, b) ∈ (s.ingress.sets i).storage := List.count_pos_iff.1 (by omega)
    have hb : q.bundle = b := keys_unique hk m1 m2
    subst hb
    have hnd : (s.ingress.sets i).storage.Nodup := List.Nodup.of_map _ hk
    have := List.nodup_iff_count_le_one.1 hnd (q.id, q.bundle)
    omega
  disk i t ht hst := by
    rw [lookup_none]
    intro b hb
    have a := h.i5 i (t.cid, b)
    have c := h.i6 (t.cid, b)
    have p := List.count_pos_iff.2 hb
    have e1 : s.se.count (hdr i (t.cid, b) false) ≤ s.se.countP (diskMsg (t.cid, b)) := by
      refine List.countP_mono_left ?_
      intro m _ hm
      rw [hdr_beq] at hm
      simp only [Bool.and_eq_true, decide_eq_true_eq, beq_iff_eq, Prod.mk.injEq] at hm
      simp [diskMsg, hm.1.2, hm.2.1, hm.2.2]
    have e2 : s.flights.countP (fun f => f.hdr == hdr i (t.cid, b) false && f.fromStorage)
        ≤ s.flights.countP (fun f => diskMsg (t.cid, b) f.hdr && f.fromStorage) := by
      refine List.countP_mono_left ?_
      intro f _ hf
      rw [hdr_beq] at hf
      simp only [Bool.and_eq_true, decide_eq_true_eq, beq_iff_eq, Prod.mk.injEq] at hf
      simp [diskMsg, hf.1.1.2, hf.1.2.1, hf.1.2.2, hf.2]
    have e3 : s.es.countP (·.answers (hdr i (t.cid, b) false)) ≤ s.es.countP (·.answersDisk (t.cid, b)) := by
      refine List.countP_mono_left ?_
      intro m _ hm
      cases m with
      | ack a =>
        rw [esa_ack, hdr_beq] at hm
        simp only [Bool.and_eq_true, decide_eq_true_eq, beq_iff_eq, Prod.mk.injEq] at hm
        simp [esd_ack, hm.1.2, hm.2.1, hm.2.2]
      | failed i b => simp [EgressToStorage.answers] at hm
      | capabilities r => simp [EgressToStorage.answers] at hm
    have hp : 0 < s.storage.disk.countP (givenAs (t.cid, b)) := by omega
    obtain ⟨e, he, hg⟩ := List.countP_pos_iff.1 hp
    simp only [givenAs, Bool.and_eq_true, beq_iff_eq] at hg
    have := mem_unique h.st.cids he ht hg.1.1
    subst this
    rw [hst] at hg
    simp at hg

end Hdtn.Node
