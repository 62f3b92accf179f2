import Verif.Node.Sending

/-!
The links as ingress and storage know them, and the order in which storage sends.
-/

namespace Hdtn.Node

/-! ### Links -/

theorem popEgress_up {s : AckSet} {id} : (s.popEgress id).up = s.up := by
  unfold AckSet.popEgress
  split <;> rfl

theorem popStorage_up {s : AckSet} {id} : (s.popStorage id).up = s.up := by
  unfold AckSet.popStorage
  split <;> rfl

theorem setSet_up {g : Ingress} {i j : Nat} {a : AckSet} : ((g.setSet i a).sets j).up = if j = i then a.up else (g.sets j).up := by
  unfold Ingress.setSet
  dsimp only
  split <;> rfl

theorem egressAck_up {C : Config} {g g' : Ingress} {a} (h : g.egressAck C a = .ok g') (j : Nat) :
    (g'.sets j).up = if j = a.hdr.outduct ∧ a.error = .linkDown then false else (g.sets j).up := by
  unfold Ingress.egressAck at h
  simp only at h
  split at h
  · simp only [Res.ok.injEq] at h
    subst h
    rw [setSet_up, popEgress_up]
    by_cases hj : j = a.hdr.outduct
    · subst hj
      by_cases he : a.error = .linkDown <;> simp [he]
    · simp [hj]
  · simp at h

theorem storageAck_up {C : Config} {g g' : Ingress} {a} (h : g.storageAck C a = .ok g') (j : Nat) :
    (g'.sets j).up = if a.outduct = some j ∧ a.error = true then false else (g.sets j).up := by
  unfold Ingress.storageAck at h
  split at h
  · rename_i ho
    simp only [Res.ok.injEq] at h
    subst h
    simp [ho]
  · rename_i i ho
    simp only at h
    split at h
    · simp only [Res.ok.injEq] at h
      subst h
      rw [setSet_up, popStorage_up, ho]
      by_cases hj : j = i
      · subst hj
        cases a.error <;> simp
      · have : ¬ (i = j) := fun h => hj h.symm
        simp [hj, this]
    · simp at h

theorem setLinkDown_up {st : Storage} {i ws st' e} (h : st.setLinkDown i ws = .ok (st', e)) (j : Nat) :
    (st'.infos j).up = if j = i then false else (st.infos j).up := by
  unfold Storage.setLinkDown at h
  simp only at h
  split at h
  · obtain ⟨h1, _, _⟩ := dump_infos h
    rw [h1]
    by_cases hj : j = i
    · subst hj; rw [setInfo_self]; simp
    · rw [setInfo_other _ _ hj]; simp [hj]
  · rename_i hu
    split at h
    · simp only [Res.ok.injEq, Prod.mk.injEq] at h
      obtain ⟨rfl, _⟩ := h
      by_cases hj : j = i
      · subst hj; simpa using hu
      · simp [hj]
    · simp at h

theorem setInfo_up {st : Storage} {i j : Nat} {o : Info} (h : o.up = (st.infos i).up) : ((st.setInfo i o).infos j).up = (st.infos j).up := by
  by_cases hj : j = i
  · subst hj; rw [setInfo_self, h]
  · rw [setInfo_other _ _ hj]

theorem downIf_up {st : Storage} {p : Prop} [Decidable p] {i ws st' e}
    (h : (if p then st.setLinkDown i ws else Res.ok (st, {})) = .ok (st', e)) (j : Nat) :
    (st'.infos j).up = if j = i ∧ p then false else (st.infos j).up := by
  split at h
  · rename_i hp
    rw [setLinkDown_up h j]
    simp [hp]
  · rename_i hp
    simp only [Res.ok.injEq, Prod.mk.injEq] at h
    obtain ⟨rfl, _⟩ := h
    simp [hp]

theorem ack_up {C : Config} {st : Storage} {a w ws st' e} (h : st.fromEgress C (.ack a) w ws = .ok (st', e)) (hr : st.ready = true)
    (hk : if a.hdr.cut then ((st.infos a.hdr.outduct).cut.lookup a.hdr.id).isSome
      else ((st.infos a.hdr.outduct).opened.lookup a.hdr.id).isSome) (j : Nat) :
    (st'.infos j).up = if j = a.hdr.outduct ∧ a.error = .linkDown then false else (st.infos j).up := by
  unfold Storage.fromEgress at h
  simp only [hr, if_true] at h
  split at h
  · cases hc : a.hdr.cut with
    | true =>
      rw [hc] at h hk
      simp only [if_true] at h hk
      unfold Storage.cutAck at h
      simp only at h
      split at h
      · rename_i hn; rw [hn] at hk; simp at hk
      · split at h
        · rename_i he
          simp only [Res.ok.injEq, Prod.mk.injEq] at h
          obtain ⟨rfl, _⟩ := h
          rw [setInfo_up (by rfl)]
          simp [he]
        · split at h
          · rename_i st₁ lost hw
            obtain ⟨g1, _⟩ := write_infos hw
            split at h
            · rename_i st₂ e₂ hd
              simp only [Res.ok.injEq, Prod.mk.injEq] at h
              obtain ⟨rfl, _⟩ := h
              rw [setInfo_up (by rfl), downIf_up hd j, g1]
            · simp at h
            · simp at h
          · simp at h
          · simp at h
    | false =>
      rw [hc] at h hk
      simp only [Bool.false_eq_true, if_false] at h hk
      unfold Storage.diskAck at h
      simp only at h
      split at h
      · rename_i hn; rw [hn] at hk; simp at hk
      · split at h
        · rename_i he
          simp only [Res.ok.injEq, Prod.mk.injEq] at h
          obtain ⟨rfl, _⟩ := h
          rw [setInfo_up (by rfl)]
          simp [he]
        · split at h
          · rename_i st₂ e₂ hd
            simp only [Res.ok.injEq, Prod.mk.injEq] at h
            obtain ⟨rfl, _⟩ := h
            rw [setInfo_up (by rfl)]
            exact downIf_up hd j
          · simp at h
          · simp at h
  · simp at h

/-- Storage knows the bundles that egress answers for. -/
theorem ack_known {C s a rest} (h : Inv C s) (he : s.es = .ack a :: rest) :
    (if a.hdr.cut then ((s.storage.infos a.hdr.outduct).cut.lookup a.hdr.id).isSome
      else ((s.storage.infos a.hdr.outduct).opened.lookup a.hdr.id).isSome) = true := by
  have hsome : ∀ {m : Map} {x : Nat × Bundle}, 0 < m.count x → (m.lookup x.1).isSome = true := by
    intro m x hx
    rw [Option.isSome_iff_ne_none]
    intro hn
    exact lookup_none.1 hn x.2 (List.count_pos_iff.1 hx)
  have hin : EgressToStorage.ack a ∈ s.es := by rw [he]; exact List.mem_cons_self
  cases hc : a.hdr.cut with
  | true =>
    have a4 := h.i4 a.hdr.outduct (a.hdr.id, a.hdr.bundle)
    have : 0 < s.es.countP (·.answers (hdr a.hdr.outduct (a.hdr.id, a.hdr.bundle) true)) :=
      countP_pos_of_mem hin (by rw [esa_ack, hdr_cut hc]; simp)
    simp only [if_true]
    exact hsome (x := (a.hdr.id, a.hdr.bundle)) (by omega)
  | false =>
    have a5 := h.i5 a.hdr.outduct (a.hdr.id, a.hdr.bundle)
    have : 0 < s.es.countP (·.answers (hdr a.hdr.outduct (a.hdr.id, a.hdr.bundle) false)) :=
      countP_pos_of_mem hin (by rw [esa_ack, hdr_cut hc]; simp)
    simp only [Bool.false_eq_true, if_false]
    exact hsome (x := (a.hdr.id, a.hdr.bundle)) (by omega)

theorem write_disk {st : Storage} {cid b st' lost} (h : st.write (some cid) b = .ok (st', lost)) :
    st'.disk = st.disk ++ [⟨cid, b, .awaiting⟩] := by
  unfold Storage.write at h
  simp only at h
  split at h
  · simp at h
  · simp only [Res.ok.injEq, Prod.mk.injEq] at h
    obtain ⟨rfl, _⟩ := h
    rfl

theorem dump_written {i ws qs} : ∀ {st : Storage} {st' e}, st.dump i ws qs = .ok (st', e) → none ∉ ws →
    st'.disk.map (·.bundle) = st.disk.map (·.bundle) ++ qs.map (·.bundle) := by
  induction ws generalizing qs with
  | nil =>
    intro st st' e h _
    cases qs with
    | nil => simp only [Storage.dump, Res.ok.injEq, Prod.mk.injEq] at h; obtain ⟨rfl, rfl⟩ := h; simp
    | cons q qs => simp [Storage.dump] at h
  | cons w ws ih =>
    intro st st' e h hn
    rw [List.mem_cons, not_or] at hn
    cases qs with
    | nil => simp [Storage.dump] at h
    | cons q qs =>
      cases w with
      | none => exact absurd rfl hn.1
      | some cid =>
        simp only [Storage.dump] at h
        split at h
        · rename_i st₁ lost hw
          split at h
          · rename_i st₂ e₂ hd
            simp only [Res.ok.injEq, Prod.mk.injEq] at h
            obtain ⟨rfl, rfl⟩ := h
            rw [ih hd hn.2, write_disk hw]
            simp
          · simp at h
          · simp at h
        · simp at h
        · simp at h

theorem setLinkDown_written {st : Storage} {i ws st' e} (h : st.setLinkDown i ws = .ok (st', e)) (hn : none ∉ ws)
    (hu : (st.infos i).up = true) : (st'.infos i).queue = [] ∧ st'.disk.map (·.bundle) = st.disk.map (·.bundle) ++ (st.infos i).queue.map (·.bundle) := by
  unfold Storage.setLinkDown at h
  simp only [hu, if_true] at h
  have hw := dump_written h hn
  refine ⟨?_, hw⟩
  obtain ⟨h1, _, _⟩ := dump_infos h
  rw [h1, setInfo_self]

/-- What storage sends goes to links that it takes to be up. -/
theorem release_up {C : Config} {st : Storage} {i top ok w st' e} (h : st.release C i top ok w = .ok (st', e)) :
    (st.infos i).up = true ∧ i < C.outducts := by
  unfold Storage.release at h
  generalize st.room C i = room at h
  simp only at h
  split at h
  · rename_i hc
    exact ⟨hc.2.2.1, hc.1⟩
  · simp at h

/-! ### The order -/

theorem sendDisk_what {st : Storage} {i top room ok} : ∀ m ∈ (st.sendDisk i top room ok).2.toEgress,
    ∃ t, top = some t ∧ m.bundle = t.bundle ∧ m.cut = false := by
  unfold Storage.sendDisk
  split
  · intro m hm; simp at hm
  · rename_i t
    split
    · intro m hm; simp at hm
    · intro m hm
      simp only [List.mem_singleton] at hm
      subst hm
      exact ⟨t, rfl, rfl, rfl⟩

theorem sendCut_what {st : Storage} {i ok} : ∀ m ∈ (st.sendCut i ok).2.toEgress,
    ∃ q, (st.infos i).queue.head? = some q ∧ m.bundle = q.bundle ∧ m.cut = true := by
  unfold Storage.sendCut
  simp only
  split
  · intro m hm; simp at hm
  · rename_i q rest hq
    split
    · intro m hm; simp at hm
    · split
      · intro m hm
        simp only [List.mem_singleton] at hm
        subst hm
        exact ⟨q, by rw [hq]; rfl, rfl, rfl⟩
      · intro m hm
        simp only [List.mem_singleton] at hm
        subst hm
        exact ⟨q, by rw [hq]; rfl, rfl, rfl⟩

theorem prioritySend_order {st : Storage} {i top room ok w st' e} (h : st.prioritySend i top room ok w = .ok (st', e)) :
    ∀ m ∈ e.toEgress, (∀ t, top = some t → t.bundle.priority ≤ m.bundle.priority) ∧
      (∀ q, (st.infos i).queue.head? = some q → q.bundle.priority ≤ m.bundle.priority) := by
  unfold Storage.prioritySend at h
  simp only at h
  split at h
  · rename_i hq
    simp only [Res.ok.injEq] at h
    intro m hm
    have he : e = (st.sendDisk i top room ok).2 := by rw [h]
    rw [he] at hm
    obtain ⟨t, ht, hb, _⟩ := sendDisk_what m hm
    refine ⟨fun t' ht' => ?_, fun q hq' => by rw [hq] at hq'; simp at hq'⟩
    rw [ht] at ht'
    cases ht'
    rw [hb]
  · rename_i q rest hq
    split at h
    · split at h
      · simp only [Res.ok.injEq] at h
        intro m hm
        have he : e = (st.sendCut i ok).2 := by rw [h]
        rw [he] at hm
        obtain ⟨q', hq', hb, _⟩ := sendCut_what m hm
        refine ⟨fun t ht => by simp at ht, fun q'' hq'' => ?_⟩
        rw [hq'] at hq''
        cases hq''
        rw [hb]
      · simp only [Res.ok.injEq, Prod.mk.injEq] at h; obtain ⟨rfl, rfl⟩ := h
        intro m hm; simp at hm
    · rename_i t
      obtain ⟨fq, hfq⟩ : ∃ fq, fq = (if q.bundle.priority = t.bundle.priority then
        decide (q.bundle.size ≤ room) && (st.infos i).tryCut else decide (q.bundle.priority > t.bundle.priority)) := ⟨_, rfl⟩
      rw [← hfq] at h
      obtain ⟨st₁, hst₁⟩ : ∃ st₁, st₁ = (if q.bundle.priority = t.bundle.priority ∧ decide (q.bundle.size ≤ room) = true then
        st.setInfo i { st.infos i with tryCut := !(st.infos i).tryCut } else st) := ⟨_, rfl⟩
      rw [← hst₁] at h
      have hq₁ : (st₁.infos i).queue = (st.infos i).queue := by
        rw [hst₁]
        split
        · rw [setInfo_self]
        · rfl
      have hpri : (fq = true → t.bundle.priority ≤ q.bundle.priority) ∧ (fq = false → q.bundle.priority ≤ t.bundle.priority) := by
        rw [hfq]
        by_cases hp : q.bundle.priority = t.bundle.priority
        · exact ⟨fun _ => by omega, fun _ => by omega⟩
        · rw [if_neg hp]
          refine ⟨fun h => ?_, fun h => ?_⟩
          · have := of_decide_eq_true h; omega
          · have := of_decide_eq_false h; omega
      cases fq with
      | true =>
        simp only [if_true] at h
        split at h
        · simp only [Res.ok.injEq] at h
          intro m hm
          have he : e = (st₁.sendCut i ok).2 := by rw [h]
          rw [he] at hm
          obtain ⟨q', hq', hb, _⟩ := sendCut_what m hm
          rw [hq₁, hq, List.head?_cons] at hq'
          cases hq'
          refine ⟨fun t' ht' => ?_, fun q'' hq'' => ?_⟩
          · cases ht'
            rw [hb]
            exact hpri.1 rfl
          · rw [hq, List.head?_cons] at hq''
            cases hq''
            rw [hb]
        · simp only [Res.ok.injEq, Prod.mk.injEq] at h; obtain ⟨rfl, rfl⟩ := h
          intro m hm; simp at hm
      | false =>
        simp only [Bool.false_eq_true, if_false] at h
        split at h
        · rename_i st₂ e₂ hd
          simp only [Res.ok.injEq, Prod.mk.injEq] at h; obtain ⟨rfl, rfl⟩ := h
          obtain ⟨c1, _⟩ := storeFront_calm hd
          intro m hm
          rw [effect_and_toEgress, c1.egress, List.append_nil] at hm
          obtain ⟨t', ht', hb, _⟩ := sendDisk_what m hm
          cases ht'
          refine ⟨fun t' ht' => ?_, fun q'' hq'' => ?_⟩
          · cases ht'
            rw [hb]
          · rw [hq, List.head?_cons] at hq''
            cases hq''
            rw [hb]
            exact hpri.2 rfl
        · simp at h
        · simp at h

theorem sendCut_one {st : Storage} {i q rest} (hq : (st.infos i).queue = q :: rest) : ∃ m, (st.sendCut i true).2.toEgress = [m] := by
  unfold Storage.sendCut
  simp only [hq, Bool.not_true, Bool.false_eq_true, if_false]
  split <;> exact ⟨_, rfl⟩

theorem sendDisk_one {st : Storage} {i t room} (hr : t.bundle.size ≤ room) : ∃ m, (st.sendDisk i (some t) room true).2.toEgress = [m] := by
  unfold Storage.sendDisk
  simp only
  rw [if_neg (by simp; omega)]
  exact ⟨_, rfl⟩

theorem storeFront_none {st : Storage} {i w st' e} (h : st.storeFront i w = .ok (st', e)) : e.toEgress = [] := by
  unfold Storage.storeFront at h
  split at h
  · simp at h
  · split at h
    · simp only [Res.ok.injEq, Prod.mk.injEq] at h
      rw [← h.2]
    · simp at h
    · simp at h

theorem prioritySend_one {st : Storage} {i top room w st' e} (h : st.prioritySend i top room true w = .ok (st', e))
    (hw : top.isSome ∨ (st.infos i).queue ≠ []) (ht : ∀ t, top = some t → t.bundle.size ≤ room)
    (hq : ∀ q, (st.infos i).queue.head? = some q → q.bundle.size ≤ room) : ∃ m, e.toEgress = [m] := by
  unfold Storage.prioritySend at h
  cases hqs : (st.infos i).queue with
  | nil =>
    simp only [hqs, Res.ok.injEq] at h
    cases top with
    | none => simp [hqs] at hw
    | some t =>
      obtain ⟨m, hm⟩ := sendDisk_one (st := st) (i := i) (ht t rfl)
      rw [h] at hm
      exact ⟨m, hm⟩
  | cons q rest =>
    have hsmall : q.bundle.size ≤ room := hq q (by rw [hqs]; rfl)
    simp only [hqs, hsmall, decide_true, Bool.true_and, and_true, if_true] at h
    cases top with
    | none =>
      simp only [Res.ok.injEq] at h
      obtain ⟨m, hm⟩ := sendCut_one hqs
      rw [h] at hm
      exact ⟨m, hm⟩
    | some t =>
      simp only at h
      obtain ⟨st₁, h₁⟩ : ∃ st₁, st₁ = (if q.bundle.priority = t.bundle.priority then
        st.setInfo i { st.infos i with tryCut := !(st.infos i).tryCut } else st) := ⟨_, rfl⟩
      simp only [← hqs] at h
      rw [← h₁] at h
      have hq₁ : (st₁.infos i).queue = q :: rest := by
        rw [h₁]
        split
        · rw [setInfo_self]; exact hqs
        · exact hqs
      obtain ⟨fq, hfq⟩ : ∃ fq, fq = (if q.bundle.priority = t.bundle.priority then (st.infos i).tryCut
        else decide (q.bundle.priority > t.bundle.priority)) := ⟨_, rfl⟩
      rw [← hfq] at h
      cases fq
      rotate_left
      · simp only [if_true, Res.ok.injEq] at h
        obtain ⟨m, hm⟩ := sendCut_one hq₁
        rw [h] at hm
        exact ⟨m, hm⟩
      · simp only [Bool.false_eq_true, if_false] at h
        split at h
        · rename_i st₂ e₂ h₂
          simp only [Res.ok.injEq, Prod.mk.injEq] at h
          obtain ⟨m, hm⟩ := sendDisk_one (st := st₁) (i := i) (ht t rfl)
          refine ⟨m, ?_⟩
          rw [← h.2, effect_and_toEgress, hm, storeFront_none h₂]
          rfl
        · simp at h
        · simp at h

theorem release_order {C : Config} {st : Storage} {i top ok w st' e} (hp : C.enforcePriority = true)
    (h : st.release C i top ok w = .ok (st', e)) :
    ∀ m ∈ e.toEgress, (∀ t, top = some t → t.bundle.priority ≤ m.bundle.priority) ∧
      (∀ q, (st.infos i).queue.head? = some q → q.bundle.priority ≤ m.bundle.priority) := by
  unfold Storage.release at h
  generalize st.room C i = room at h
  simp only [hp, if_true] at h
  split at h
  · split at h
    · exact prioritySend_order h
    · simp only [Res.ok.injEq, Prod.mk.injEq] at h; obtain ⟨rfl, rfl⟩ := h
      intro m hm; simp at hm
  · simp at h

/-! ### In turns -/

theorem defaultSend_cut {st : Storage} {i top room q rest} (ht : (st.infos i).tryCut = true) (hq : (st.infos i).queue = q :: rest)
    (hr : q.bundle.size ≤ room) : (st.defaultSend i top room true).2.toEgress = [⟨q.bundle, q.id, i, true⟩] := by
  unfold Storage.defaultSend
  simp only [ht, hq, hr, decide_true, Bool.and_self, if_true]
  unfold Storage.sendCut
  simp only [hq, Bool.not_true, Bool.false_eq_true, if_false]
  split <;> rfl

theorem defaultSend_disk {st : Storage} {i t room} (ht : (st.infos i).tryCut = false) (hr : t.bundle.size ≤ room) :
    (st.defaultSend i (some t) room true).2.toEgress = [⟨t.bundle, t.cid, i, false⟩] := by
  unfold Storage.defaultSend
  simp only [ht, Bool.false_and, Bool.false_eq_true, if_false]
  unfold Storage.sendDisk
  simp only
  rw [if_neg (by simp; omega)]

theorem defaultSend_turn {st : Storage} {i top room ok} : ((st.defaultSend i top room ok).1.infos i).tryCut = !(st.infos i).tryCut := by
  unfold Storage.defaultSend
  simp only
  rw [setInfo_self]

theorem defaultSend_other {st : Storage} {i top room ok j} (hj : j ≠ i) : (st.defaultSend i top room ok).1.infos j = st.infos j := by
  unfold Storage.defaultSend
  simp only
  rw [setInfo_other _ _ hj]
  have any : ∀ c : Bool, (if c = true then st.sendCut i ok else st.sendDisk i top room ok).1.infos j = st.infos j := by
    intro c
    cases c
    · simp only [Bool.false_eq_true, if_false]
      unfold Storage.sendDisk
      split
      · rfl
      · split
        · rfl
        · simp only
          split
          · rfl
          · rw [setInfo_other _ _ hj]
    · simp only [if_true]
      unfold Storage.sendCut
      simp only
      split
      · rfl
      · split
        · rw [setInfo_other _ _ hj]
        · split <;> rw [setInfo_other _ _ hj]
  exact any _

theorem setInfo_try {st : Storage} {i j : Nat} {o : Info} (h : o.tryCut = (st.infos i).tryCut) :
    ((st.setInfo i o).infos j).tryCut = (st.infos j).tryCut := by
  by_cases hj : j = i
  · subst hj; rw [setInfo_self, h]
  · rw [setInfo_other _ _ hj]

theorem setLinkDown_try {st : Storage} {i ws st' e} (h : st.setLinkDown i ws = .ok (st', e)) (j : Nat) :
    (st'.infos j).tryCut = (st.infos j).tryCut := by
  unfold Storage.setLinkDown at h
  simp only at h
  split at h
  · obtain ⟨h1, _, _⟩ := dump_infos h
    rw [h1]
    exact setInfo_try (by rfl)
  · split at h
    · simp only [Res.ok.injEq, Prod.mk.injEq] at h
      obtain ⟨rfl, _⟩ := h
      rfl
    · simp at h

theorem downIf_try {st : Storage} {p : Prop} [Decidable p] {i ws st' e}
    (h : (if p then st.setLinkDown i ws else Res.ok (st, {})) = .ok (st', e)) (j : Nat) : (st'.infos j).tryCut = (st.infos j).tryCut := by
  split at h
  · exact setLinkDown_try h j
  · simp only [Res.ok.injEq, Prod.mk.injEq] at h
    obtain ⟨rfl, _⟩ := h
    rfl

theorem fromIngress_try {C : Config} {st : Storage} {m w st' e} (h : st.fromIngress C m w = .ok (st', e)) (j : Nat) :
    (st'.infos j).tryCut = (st.infos j).tryCut := by
  unfold Storage.fromIngress at h
  simp only at h
  have hstore : (match st.write w m.bundle with
    | .ok (st, lost) => Res.ok (st, ({ toIngress := [⟨m.id, m.outduct, false, m.bundle⟩], lost := lost } : Effect))
    | .disabled => .disabled
    | .fault => .fault) = .ok (st', e) → (st'.infos j).tryCut = (st.infos j).tryCut := by
    intro h
    split at h
    · rename_i st₁ lost hw
      simp only [Res.ok.injEq, Prod.mk.injEq] at h
      obtain ⟨rfl, rfl⟩ := h
      rw [(write_infos hw).1]
    · simp at h
    · simp at h
  split at h
  · exact hstore h
  · generalize (m.dontStore && _ && _) = c at h
    cases c with
    | false => exact hstore h
    | true =>
      simp only [if_true, Res.ok.injEq, Prod.mk.injEq] at h
      obtain ⟨rfl, rfl⟩ := h
      exact setInfo_try (by rfl)

theorem cutAck_try {st : Storage} {a w ws st' e} (h : st.cutAck a w ws = .ok (st', e)) (j : Nat) :
    (st'.infos j).tryCut = (st.infos j).tryCut := by
  unfold Storage.cutAck at h
  simp only at h
  split at h
  · simp only [Res.ok.injEq, Prod.mk.injEq] at h; obtain ⟨rfl, rfl⟩ := h; rfl
  · split at h
    · simp only [Res.ok.injEq, Prod.mk.injEq] at h
      obtain ⟨rfl, rfl⟩ := h
      exact setInfo_try (by rfl)
    · split at h
      · rename_i st₁ lost hw
        split at h
        · rename_i st₂ e₂ hd
          simp only [Res.ok.injEq, Prod.mk.injEq] at h
          obtain ⟨rfl, rfl⟩ := h
          rw [setInfo_try (by rfl), downIf_try hd j, (write_infos hw).1]
        · simp at h
        · simp at h
      · simp at h
      · simp at h

theorem diskAck_try {st : Storage} {a ws st' e} (h : st.diskAck a ws = .ok (st', e)) (j : Nat) :
    (st'.infos j).tryCut = (st.infos j).tryCut := by
  unfold Storage.diskAck at h
  simp only at h
  split at h
  · simp only [Res.ok.injEq, Prod.mk.injEq] at h; obtain ⟨rfl, rfl⟩ := h; rfl
  · split at h
    · simp only [Res.ok.injEq, Prod.mk.injEq] at h
      obtain ⟨rfl, rfl⟩ := h
      rw [setInfo_try (by rfl)]
    · split at h
      · rename_i st₂ e₂ hd
        simp only [Res.ok.injEq, Prod.mk.injEq] at h
        obtain ⟨rfl, rfl⟩ := h
        rw [setInfo_try (by rfl)]
        exact downIf_try hd j
      · simp at h
      · simp at h

theorem applyEarly_try (C : Config) (early : List (Nat × Bool)) (infos : Nat → Info) (i : Nat) :
    (applyEarly C early infos i).tryCut = (infos i).tryCut := by
  unfold applyEarly
  induction early generalizing infos with
  | nil => rfl
  | cons p l ih =>
    rw [List.foldl_cons, ih]
    split
    · dsimp only
      split
      · rename_i h; rw [h]
      · rfl
    · rfl

theorem fromEgress_try {C : Config} {st : Storage} {m w ws st' e} (h : st.fromEgress C m w ws = .ok (st', e)) (j : Nat) :
    (st'.infos j).tryCut = (st.infos j).tryCut := by
  unfold Storage.fromEgress at h
  cases m with
  | ack a =>
    simp only at h
    split at h
    · split at h
      · split at h
        · exact cutAck_try h j
        · exact diskAck_try h j
      · simp at h
    · simp only [Res.ok.injEq, Prod.mk.injEq] at h; obtain ⟨rfl, rfl⟩ := h; rfl
  | failed i b =>
    simp only at h
    split at h
    · rename_i st₁ lost hw
      split at h
      · split at h
        · split at h
          · rename_i st₂ e₂ hd
            simp only [Res.ok.injEq, Prod.mk.injEq] at h
            obtain ⟨rfl, rfl⟩ := h
            rw [setLinkDown_try hd j, (write_infos hw).1]
          · simp at h
          · simp at h
        · simp at h
      · simp only [Res.ok.injEq, Prod.mk.injEq] at h
        obtain ⟨rfl, rfl⟩ := h
        rw [(write_infos hw).1]
    · simp at h
    · simp at h
  | capabilities r =>
    simp only [Res.ok.injEq, Prod.mk.injEq] at h
    obtain ⟨rfl, rfl⟩ := h
    exact applyEarly_try C st.early st.infos j

theorem link_try {C : Config} {st : Storage} {i up ws st' e} (h : st.link C i up ws = .ok (st', e)) (j : Nat) :
    (st'.infos j).tryCut = (st.infos j).tryCut := by
  unfold Storage.link at h
  split at h
  · split at h
    · split at h
      · simp only [Res.ok.injEq, Prod.mk.injEq] at h
        obtain ⟨rfl, rfl⟩ := h
        exact setInfo_try (by rfl)
      · exact setLinkDown_try h j
    · simp only [Res.ok.injEq, Prod.mk.injEq] at h; obtain ⟨rfl, rfl⟩ := h; rfl
  · simp only [Res.ok.injEq, Prod.mk.injEq] at h; obtain ⟨rfl, rfl⟩ := h; rfl

theorem release_other {C : Config} {st : Storage} {i top ok w st' e j} (hp : C.enforcePriority = false)
    (h : st.release C i top ok w = .ok (st', e)) (hj : j ≠ i) : (st'.infos j).tryCut = (st.infos j).tryCut := by
  unfold Storage.release at h
  generalize st.room C i = room at h
  simp only [hp, Bool.false_eq_true, if_false] at h
  split at h
  · split at h
    · simp only [Res.ok.injEq] at h
      have := defaultSend_other (st := st) (top := top) (room := room) (ok := ok) hj
      rw [h] at this
      rw [this]
    · simp only [Res.ok.injEq, Prod.mk.injEq] at h; obtain ⟨rfl, rfl⟩ := h
      rfl
  · simp at h

theorem forward_storage (s : State) (h : ToEgress) (fs moved : Bool) : (s.forward h fs moved).storage = s.storage := by
  unfold State.forward State.onFailed
  split
  · split <;> rfl
  · split
    · rfl
    · split <;> rfl

theorem push_storage {C s t l ok} : (State.push C s t l ok).storage = s.storage := by
  unfold State.push
  simp only
  split
  · split
    · rfl
    · split <;> rfl
  · split <;> rfl
  · split <;> rfl

/-- Only a look at link `i` changes whose turn it is there. -/
theorem step_try {C s s' a i} (hp : C.enforcePriority = false) (hs : step C s a = .ok s')
    (ha : ∀ top ok w, a ≠ .release i top ok w) : (s'.storage.infos i).tryCut = (s.storage.infos i).tryCut := by
  cases a with
  | arrive b =>
    simp only [step] at hs
    split at hs
    · split at hs
      · simp only [Res.ok.injEq] at hs
        subst hs
        rfl
      · simp at hs
      · simp at hs
    · simp at hs
  | push k ok =>
    simp only [step] at hs
    split at hs
    · simp at hs
    · simp only [Res.ok.injEq] at hs
      subst hs
      rw [push_storage]
  | egressFromIngress moved =>
    simp only [step] at hs
    split at hs
    · simp at hs
    · simp only [Res.ok.injEq] at hs
      subst hs
      rw [forward_storage]
  | egressFromStorage moved =>
    simp only [step] at hs
    split at hs
    · simp at hs
    · simp only [Res.ok.injEq] at hs
      subst hs
      rw [forward_storage]
  | sent k =>
    simp only [step] at hs
    split at hs
    · simp at hs
    · simp only [Res.ok.injEq] at hs
      subst hs
      unfold State.onSuccess; split <;> rfl
  | unsent k =>
    simp only [step] at hs
    split at hs
    · simp at hs
    · simp only [Res.ok.injEq] at hs
      subst hs
      unfold State.onFailed; split <;> rfl
  | ingressFromEgress =>
    simp only [step] at hs
    split at hs
    · simp at hs
    · split at hs
      · simp only [Res.ok.injEq] at hs
        subst hs
        rfl
      · simp at hs
      · simp at hs
    · simp only [Res.ok.injEq] at hs
      subst hs
      rfl
  | ingressFromStorage =>
    simp only [step] at hs
    split at hs
    · simp at hs
    · split at hs
      · simp only [Res.ok.injEq] at hs
        subst hs
        rfl
      · simp at hs
      · simp at hs
  | storageFromIngress w =>
    simp only [step] at hs
    split at hs
    · simp at hs
    · obtain ⟨st, e, h1, rfl⟩ := after_ok hs
      exact fromIngress_try h1 i
  | storageFromEgress w ws =>
    simp only [step] at hs
    split at hs
    · simp at hs
    · obtain ⟨st, e, h1, rfl⟩ := after_ok hs
      exact fromEgress_try h1 i
  | linkIngress j up =>
    simp only [step, Res.ok.injEq] at hs
    subst hs
    rfl
  | linkStorage j up ws =>
    obtain ⟨st, e, h1, rfl⟩ := after_ok hs
    exact link_try h1 i
  | reroute node o =>
    simp only [step] at hs
    split at hs
    · simp only [Res.ok.injEq] at hs; subst hs; rfl
    · simp at hs
  | release j top ok w =>
    obtain ⟨st, e, h1, rfl⟩ := after_ok hs
    exact release_other hp h1 (fun h => ha top ok w (by rw [h]))
  | expire cid =>
    simp only [step] at hs
    split at hs
    · simp at hs
    · simp only [Res.ok.injEq] at hs; subst hs; rfl
  | timeout cid =>
    simp only [step] at hs
    split at hs
    · simp at hs
    · simp only [Res.ok.injEq] at hs; subst hs; rfl
  | custodySignal cid =>
    simp only [step] at hs
    split at hs
    · simp at hs
    · split at hs
      · simp only [Res.ok.injEq] at hs; subst hs; rfl
      · simp at hs

theorem run_try {C as i} (hp : C.enforcePriority = false) : ∀ {s s'}, (∀ a ∈ as, ∀ top ok w, a ≠ .release i top ok w) →
    run C s as = .ok s' → (s'.storage.infos i).tryCut = (s.storage.infos i).tryCut := by
  induction as with
  | nil => intro s s' _ hr; simp only [run, Res.ok.injEq] at hr; subst hr; rfl
  | cons a as ih =>
    intro s s' h hr
    simp only [run] at hr
    split at hr
    · rename_i s₁ h₁
      rw [ih (fun a' h' => h a' (List.mem_cons_of_mem _ h')) hr, step_try hp h₁ (h a List.mem_cons_self)]
    · simp at hr
    · simp at hr

end Hdtn.Node
