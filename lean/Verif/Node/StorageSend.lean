import Verif.Node.StorageSteps

/-!
Messages from egress, and what storage sends, keep the account of bundles and reservations.
-/

namespace Hdtn.Node

theorem applyEarly_same (C : Config) : ∀ (early : List (Nat × Bool)) (infos : Nat → Info) (j : Nat),
    ((applyEarly C early infos) j).queue = (infos j).queue ∧ ((applyEarly C early infos) j).cut = (infos j).cut ∧
    ((applyEarly C early infos) j).opened = (infos j).opened ∧ ((applyEarly C early infos) j).bytes = (infos j).bytes
  | [], _, _ => ⟨rfl, rfl, rfl, rfl⟩
  | p :: early, infos, j => by
    have ih := applyEarly_same C early (if p.1 < C.outducts then
      fun j => if j = p.1 then { infos p.1 with up := p.2 } else infos j else infos) j
    have h : ∀ j, ((if p.1 < C.outducts then
      fun j => if j = p.1 then { infos p.1 with up := p.2 } else infos j else infos) j).queue = (infos j).queue ∧
      ((if p.1 < C.outducts then
      fun j => if j = p.1 then { infos p.1 with up := p.2 } else infos j else infos) j).cut = (infos j).cut ∧
      ((if p.1 < C.outducts then
      fun j => if j = p.1 then { infos p.1 with up := p.2 } else infos j else infos) j).opened = (infos j).opened ∧
      ((if p.1 < C.outducts then
      fun j => if j = p.1 then { infos p.1 with up := p.2 } else infos j else infos) j).bytes = (infos j).bytes := by
      intro j
      by_cases h1 : p.1 < C.outducts
      · rw [if_pos h1]
        by_cases h2 : j = p.1
        · subst h2; simp
        · simp [h2]
      · rw [if_neg h1]; exact ⟨rfl, rfl, rfl, rfl⟩
    have hj := h j
    refine ⟨?_, ?_, ?_, ?_⟩
    · exact ih.1.trans hj.1
    · exact ih.2.1.trans hj.2.1
    · exact ih.2.2.1.trans hj.2.2.1
    · exact ih.2.2.2.trans hj.2.2.2

/-- What storage must know of a message from egress: the bundle that it answers is one that storage has sent. -/
def Answered (C : Config) (st : Storage) (m : EgressToStorage) : Prop :=
  match m with
  | .ack a => st.ready = true ∧ a.hdr.outduct < C.outducts ∧
      (a.hdr.cut = true → (a.hdr.id, a.hdr.bundle) ∈ (st.infos a.hdr.outduct).cut) ∧
      (a.hdr.cut = false → (a.hdr.id, a.hdr.bundle) ∈ (st.infos a.hdr.outduct).opened ∧
        ⟨a.hdr.id, a.hdr.bundle, .given⟩ ∈ st.disk)
  | .failed i _ => i < C.outducts
  | .capabilities _ => True

theorem fromEgress_ok {C st m w ws st' e} (h : Storage.fromEgress C st m w ws = .ok (st', e)) (hs : StOk C st)
    (ha : Answered C st m) :
    Local C st st' e [] [m] ∧ StOk C st' ∧ (st.ready = true → st'.ready = true) ∧
      (st'.routes = match m with | .capabilities r => r | _ => st.routes) := by
  cases m with
  | ack a =>
    obtain ⟨h1, h2, h3, h4⟩ := ha
    simp only [Storage.fromEgress, h1, if_true, h2] at h
    split at h
    · rename_i hc
      obtain ⟨l, s, r, rt, _⟩ := cutAck_ok h hs h2 hc (h3 hc)
      exact ⟨l, s, fun hr => by rw [r, hr], rt⟩
    · rename_i hc
      have hc : a.hdr.cut = false := by simpa using hc
      obtain ⟨l, s, r, rt, _⟩ := diskAck_ok h hs h2 hc (h4 hc).1 (h4 hc).2
      exact ⟨l, s, fun hr => by rw [r, hr], rt⟩
  | failed i b =>
    simp only [Storage.fromEgress] at h
    split at h
    · rename_i st₁ lost hw
      obtain ⟨l₁, s₁, _, r₁, rt₁, _⟩ := write_ok hw hs
      have l₁ : Local C st st₁ { lost := lost } [] [.failed i b] :=
        l₁.consumed (fun x => rfl) (fun x => rfl) (fun b => rfl)
      split at h
      · rw [if_pos (show i < C.outducts from ha)] at h
        split at h
        · rename_i st₂ e₂ hd
          simp only [Res.ok.injEq, Prod.mk.injEq] at h
          obtain ⟨rfl, rfl⟩ := h
          obtain ⟨l₂, s₂, _, r₂, rt₂, _⟩ := setLinkDown_ok hd s₁ ha
          refine ⟨?_, s₂, fun hr => by rw [r₂, r₁, hr], by rw [rt₂, rt₁]⟩
          simpa [Effect.and] using l₁.trans l₂
        · exact absurd h (by simp)
        · exact absurd h (by simp)
      · simp only [Res.ok.injEq, Prod.mk.injEq] at h
        obtain ⟨rfl, rfl⟩ := h
        exact ⟨l₁, s₁, fun hr => by rw [r₁, hr], rt₁⟩
    · exact absurd h (by simp)
    · exact absurd h (by simp)
  | capabilities r =>
    simp only [Storage.fromEgress, Res.ok.injEq, Prod.mk.injEq] at h
    obtain ⟨rfl, rfl⟩ := h
    have hsame := applyEarly_same C st.early st.infos
    refine ⟨?_, ?_, fun _ => rfl, rfl⟩
    · have : Local C st ({ st with routes := r, ready := true, early := [], infos := applyEarly C st.early st.infos }) {} [] [] :=
        .same (fun i => (hsame i).1) (fun i => (hsame i).2.1) (fun i => (hsame i).2.2.1) rfl
      exact this.consumed (fun x => rfl) (fun x => rfl) (fun b => rfl)
    · exact hs.same (fun i => (hsame i).1) (fun i => (hsame i).2.1) (fun i => (hsame i).2.2.1) (fun i => (hsame i).2.2.2) rfl

theorem fromEgress_ready {C : Config} {st : Storage} {r w ws st' e} (h : Storage.fromEgress C st (.capabilities r) w ws = .ok (st', e)) :
    st'.ready = true := by
  simp only [Storage.fromEgress, Res.ok.injEq, Prod.mk.injEq] at h
  obtain ⟨rfl, rfl⟩ := h
  rfl

theorem link_ok {C st i up ws st' e} (h : Storage.link C st i up ws = .ok (st', e)) (hs : StOk C st) :
    Local C st st' e [] [] ∧ StOk C st' ∧ st'.ready = st.ready ∧ st'.routes = st.routes := by
  unfold Storage.link at h
  split at h
  · split at h
    · rename_i hi
      split at h
      · simp only [Res.ok.injEq, Prod.mk.injEq] at h
        obtain ⟨rfl, rfl⟩ := h
        have hsame : ∀ j, ((st.setInfo i { st.infos i with up := true }).infos j).queue = (st.infos j).queue ∧
            ((st.setInfo i { st.infos i with up := true }).infos j).cut = (st.infos j).cut ∧
            ((st.setInfo i { st.infos i with up := true }).infos j).opened = (st.infos j).opened ∧
            ((st.setInfo i { st.infos i with up := true }).infos j).bytes = (st.infos j).bytes := by
          intro j
          by_cases hj : j = i
          · subst hj; rw [setInfo_self]; exact ⟨rfl, rfl, rfl, rfl⟩
          · rw [setInfo_other _ _ hj]; exact ⟨rfl, rfl, rfl, rfl⟩
        exact ⟨.same (fun i => (hsame i).1) (fun i => (hsame i).2.1) (fun i => (hsame i).2.2.1) rfl,
          hs.same (fun i => (hsame i).1) (fun i => (hsame i).2.1) (fun i => (hsame i).2.2.1) (fun i => (hsame i).2.2.2) rfl, rfl, rfl⟩
      · obtain ⟨l, s, _, r, rt, _⟩ := setLinkDown_ok h hs hi
        exact ⟨l, s, r, rt⟩
    · simp only [Res.ok.injEq, Prod.mk.injEq] at h
      obtain ⟨rfl, rfl⟩ := h
      exact ⟨.refl _ _, hs, rfl, rfl⟩
  · simp only [Res.ok.injEq, Prod.mk.injEq] at h
    obtain ⟨rfl, rfl⟩ := h
    exact ⟨.same (fun _ => rfl) (fun _ => rfl) (fun _ => rfl) rfl,
      hs.same (fun _ => rfl) (fun _ => rfl) (fun _ => rfl) (fun _ => rfl) rfl, rfl, rfl⟩

/-! ### Sending -/

/-- The room that is left. -/
theorem room_eq {C : Config} {st : Storage} (hs : StOk C st) (hC : ∀ i, C.maxBytes i < 2 ^ 64) (i : Nat) :
    st.room C i = C.maxBytes i / 2 - (st.infos i).bytes := by
  have h1 := hs.limitBytes i
  have h2 := hC i
  unfold Storage.room
  rw [show C.maxBytes i / 2 + 2 ^ 64 - (st.infos i).bytes = (C.maxBytes i / 2 - (st.infos i).bytes) + 2 ^ 64 by omega,
    Nat.add_mod_right]
  exact Nat.mod_eq_of_lt (by omega)

theorem sendCut_ok {C st i ok st' e} (h : Storage.sendCut st i ok = (st', e)) (hs : StOk C st) (hi : i < C.outducts)
    (hroom : (st.infos i).opened.length + (st.infos i).cut.length < C.maxBundles i / 2)
    (hsize : ∀ q ∈ (st.infos i).queue.head?, (st.infos i).bytes + q.bundle.size ≤ C.maxBytes i / 2)
    (hnew : ∀ q ∈ (st.infos i).queue, (st.infos i).cut.lookup q.id = none) :
    Local C st st' e [] [] ∧ StOk C st' ∧ st'.ready = st.ready ∧ st'.routes = st.routes := by
  unfold Storage.sendCut at h
  simp only at h
  split at h
  · simp only [Prod.mk.injEq] at h
    obtain ⟨rfl, rfl⟩ := h
    exact ⟨.refl _ _, hs, rfl, rfl⟩
  · rename_i q rest hq
    have hq0 := hs.queue i q (by rw [hq]; exact List.mem_cons_self)
    have hrest : ∀ m ∈ rest, m.outduct = some i ∧ m.dontStore = true := by
      intro m hm; exact hs.queue i m (by rw [hq]; exact List.mem_cons_of_mem _ hm)
    split at h
    · simp only [Prod.mk.injEq] at h
      obtain ⟨rfl, rfl⟩ := h
      refine ⟨?_, hs.setInfo hi hrest (hs.cutKeys i) (hs.openKeys i) (hs.bytes i) (hs.limit i) (hs.limitBytes i), rfl, rfl⟩
      refine Local.setInfo (d := st.disk) hi ?_ ?_ ?_ ?_ ?_ ?_ ?_ ?_ ?_
      · intro x
        have e1 := if_toS hq0 (some i) x
        have e2 : (if i = i ∧ q.id = x.1 ∧ q.bundle = x.2 then 1 else 0) = if some i = some i ∧ x = (q.id, q.bundle) then 1 else 0 := by
          refine if_congr ?_ rfl rfl
          constructor
          · rintro ⟨_, h1, h2⟩; exact ⟨rfl, Prod.ext h1.symm h2.symm⟩
          · rintro ⟨_, rfl⟩; exact ⟨rfl, rfl, rfl⟩
        rw [hq]
        simp only [List.count_cons, List.count_nil, List.countP_nil, beq_iff_eq, Prod.mk.injEq, true_and] at e1 e2 ⊢
        omega
      · intro j hj x
        have : ¬ i = j := fun h => hj h.symm
        simp [List.count_cons, this]
      · intro x; simp
      · intro x; simp
      · intro j hj x; simp
      · intro x; simp
      · intro j hj x; simp
      · intro x; simp
      · intro b
        rw [hq]
        simp [List.countP_cons, List.count_cons]
        omega
    · have hl : (st.infos i).cut.lookup q.id = none := hnew q (by rw [hq]; exact List.mem_cons_self)
      rw [hl, if_neg (by simp), emplace_new hl] at h
      simp only [Prod.mk.injEq] at h
      obtain ⟨rfl, rfl⟩ := h
      have hsz := hsize q (by rw [hq]; rfl)
      refine ⟨?_, hs.setInfo hi hrest (keys_append (hs.cutKeys i) hl _) (hs.openKeys i) ?_ ?_ hsz, rfl, rfl⟩
      · refine Local.setInfo (d := st.disk) hi ?_ ?_ ?_ ?_ ?_ ?_ ?_ ?_ ?_
        · intro x
          have e1 := if_toS hq0 (some i) x
          have e2 : (if (q.id, q.bundle) = x then 1 else 0) = if some i = some i ∧ x = (q.id, q.bundle) then 1 else 0 := by
            refine if_congr ?_ rfl rfl
            constructor
            · intro h; exact ⟨rfl, h.symm⟩
            · intro h; exact h.2.symm
          rw [hq]
          simp only [List.count_append, List.count_cons, List.count_nil, List.countP_nil, beq_iff_eq]
          omega
        · intro j hj x; simp
        · intro x; simp
        · intro x
          have e : (if (⟨q.bundle, q.id, i, true⟩ : ToEgress) = hdr i x true then 1 else 0) = if (q.id, q.bundle) = x then 1 else 0 := by
            refine if_congr ?_ rfl rfl
            rw [show (⟨q.bundle, q.id, i, true⟩ : ToEgress) = hdr i (q.id, q.bundle) true from rfl, hdr_inj]
            simp
          simp only [List.count_append, List.count_cons, List.count_nil, List.countP_nil, beq_iff_eq]
          omega
        · intro j hj x
          have : ¬ (⟨q.bundle, q.id, i, true⟩ : ToEgress) = hdr j x true := by
            intro h; exact hj (congrArg ToEgress.outduct h).symm
          simp [List.count_cons, this]
        · intro x
          have : ¬ (⟨q.bundle, q.id, i, true⟩ : ToEgress) = hdr i x false := by
            intro h; have := congrArg ToEgress.cut h; simp [hdr] at this
          simp [List.count_cons, this]
        · intro j hj x
          have : ¬ (⟨q.bundle, q.id, i, true⟩ : ToEgress) = hdr j x false := by
            intro h; exact hj (congrArg ToEgress.outduct h).symm
          simp [List.count_cons, this]
        · intro x; simp [diskMsg]
        · intro b
          rw [hq]
          simp [List.countP_cons]
      · have := hs.bytes i
        simp only [bytes_append]; omega
      · simp only [List.length_append, List.length_cons, List.length_nil]; omega

theorem sendDisk_ok {C st i top room ok st' e} (h : Storage.sendDisk st i top room ok = (st', e)) (hs : StOk C st)
    (hi : i < C.outducts)
    (hlen : (st.infos i).opened.length + (st.infos i).cut.length < C.maxBundles i / 2)
    (hroom : (st.infos i).bytes + room ≤ C.maxBytes i / 2)
    (htop : ∀ t, top = some t → t ∈ st.disk ∧ t.status = .awaiting)
    (hnew : ∀ t ∈ st.disk, t.status = .awaiting → (st.infos i).opened.lookup t.cid = none) :
    Local C st st' e [] [] ∧ StOk C st' ∧ st'.ready = st.ready ∧ st'.routes = st.routes ∧
      (∀ j, (st'.infos j).queue = (st.infos j).queue ∧ (st'.infos j).up = (st.infos j).up) := by
  unfold Storage.sendDisk at h
  split at h
  · simp only [Prod.mk.injEq] at h
    obtain ⟨rfl, rfl⟩ := h
    exact ⟨.refl _ _, hs, rfl, rfl, fun _ => ⟨rfl, rfl⟩⟩
  · rename_i t
    obtain ⟨ht, hst⟩ := htop t rfl
    split at h
    · simp only [Prod.mk.injEq] at h
      obtain ⟨rfl, rfl⟩ := h
      exact ⟨.refl _ _, hs, rfl, rfl, fun _ => ⟨rfl, rfl⟩⟩
    · rename_i hn
      push Not at hn
      have hl := hnew t ht hst
      simp only [hl] at h
      rw [if_neg (by simp), emplace_new hl] at h
      simp only [Prod.mk.injEq] at h
      obtain ⟨rfl, rfl⟩ := h
      have hte : t = ⟨t.cid, t.bundle, .awaiting⟩ := by cases t; simp only at hst; rw [hst]
      refine ⟨?_, ?_, rfl, rfl, ?_⟩
      · refine Local.setInfo (d := setStatus st.disk t.cid .given) hi ?_ ?_ ?_ ?_ ?_ ?_ ?_ ?_ ?_
        · intro x; simp
        · intro j hj x; simp
        · intro x; simp
        · intro x
          have : ¬ (⟨t.bundle, t.cid, i, false⟩ : ToEgress) = hdr i x true := by
            intro h; have := congrArg ToEgress.cut h; simp [hdr] at this
          simp [List.count_cons, this]
        · intro j hj x
          have : ¬ (⟨t.bundle, t.cid, i, false⟩ : ToEgress) = hdr j x true := by
            intro h; exact hj (congrArg ToEgress.outduct h).symm
          simp [List.count_cons, this]
        · intro x
          have e : (if (⟨t.bundle, t.cid, i, false⟩ : ToEgress) = hdr i x false then 1 else 0) = if (t.cid, t.bundle) = x then 1 else 0 := by
            refine if_congr ?_ rfl rfl
            rw [show (⟨t.bundle, t.cid, i, false⟩ : ToEgress) = hdr i (t.cid, t.bundle) false from rfl, hdr_inj]
            simp
          simp only [List.count_append, List.count_cons, List.count_nil, List.countP_nil, beq_iff_eq]
          omega
        · intro j hj x
          have : ¬ (⟨t.bundle, t.cid, i, false⟩ : ToEgress) = hdr j x false := by
            intro h; exact hj (congrArg ToEgress.outduct h).symm
          simp [List.count_cons, this]
        · intro x
          have a := setStatus_countP hs.cids ht .given (givenAs x)
          have e0 : givenAs x t = false := by rw [hte]; simp [givenAs]
          rw [e0] at a
          have e1 : (if givenAs x { t with status := .given } = true then 1 else 0) = (if diskMsg x ⟨t.bundle, t.cid, i, false⟩ = true then 1 else 0) := by
            simp [givenAs, diskMsg]
          simp only [List.countP_cons, List.countP_nil]
          simp only [Bool.false_eq_true, if_false] at a
          omega
        · intro b
          have a := setStatus_countP hs.cids ht .given (·.bundle == b)
          simp only at a
          simp [List.countP_cons]
          omega
      · have h1 := hs.bytes i
        refine (hs.setDisk (d := setStatus st.disk t.cid .given) ?_).setInfo hi (hs.queue i) (hs.cutKeys i) (keys_append (hs.openKeys i) hl _) ?_ ?_ ?_
        · rw [setStatus_cids]; exact hs.cids
        · simp only [bytes_append]; omega
        · simp only [List.length_append, List.length_cons, List.length_nil]; omega
        · simp only; omega
      · intro j
        by_cases hj : j = i
        · subst hj; rw [setInfo_self]; exact ⟨rfl, rfl⟩
        · rw [setInfo_other _ _ hj]; exact ⟨rfl, rfl⟩

theorem storeFront_ok {C st i w st' e} (h : Storage.storeFront st i w = .ok (st', e)) (hs : StOk C st) (hi : i < C.outducts) :
    Local C st st' e [] [] ∧ StOk C st' ∧ st'.ready = st.ready ∧ st'.routes = st.routes := by
  unfold Storage.storeFront at h
  split at h
  · exact absurd h (by simp)
  · rename_i q rest hq
    have hq0 := hs.queue i q (by rw [hq]; exact List.mem_cons_self)
    have hrest : ∀ m ∈ rest, m.outduct = some i ∧ m.dontStore = true := by
      intro m hm; exact hs.queue i m (by rw [hq]; exact List.mem_cons_of_mem _ hm)
    split at h
    · rename_i st₁ lost hw
      simp only [Res.ok.injEq, Prod.mk.injEq] at h
      obtain ⟨rfl, rfl⟩ := h
      obtain ⟨l₁, s₁, i₁, r₁, rt₁, _⟩ := write_ok hw hs
      refine ⟨?_, s₁.setInfo hi hrest (s₁.cutKeys i) (s₁.openKeys i) (s₁.bytes i) (s₁.limit i) (s₁.limitBytes i), r₁, rt₁⟩
      constructor
      · intro j x
        have a := l₁.l2 j x
        rw [i₁] at a
        by_cases hj : j = i
        · subst hj
          have e1 := if_toS hq0 (some j) x
          rw [setInfo_self, i₁]
          rw [hq] at a ⊢
          simp only [List.countP_cons, ackOf_iff, List.count_cons, hq0.1, beq_iff_eq, List.countP_nil, List.count_nil, true_and] at a e1 ⊢
          omega
        · have : ¬ (some j = some i) := fun h => hj (Option.some.inj h)
          rw [setInfo_other _ _ hj, i₁]
          simp [ackOf_iff, hq0.1, this]
      · intro x
        simp [ackOf_iff, hq0.1]
      · intro j x
        have a := l₁.l4 j x
        by_cases hj : j = i
        · subst hj; rw [setInfo_self]; simpa [EgressToStorage.answers] using a
        · rw [setInfo_other _ _ hj]; simpa [EgressToStorage.answers] using a
      · intro j x
        have a := l₁.l5 j x
        by_cases hj : j = i
        · subst hj; rw [setInfo_self]; simpa [EgressToStorage.answers] using a
        · rw [setInfo_other _ _ hj]; simpa [EgressToStorage.answers] using a
      · intro x
        have a := l₁.l6 x
        show st₁.disk.countP (givenAs x) + _ = _
        simpa [EgressToStorage.answersDisk] using a
      · intro b
        have a := l₁.l7 b
        have c := queued_setInfo (C := C) (st := st₁) hi { st₁.infos i with queue := rest } b
        have hd : (st₁.setInfo i { st₁.infos i with queue := rest }).disk = st₁.disk := rfl
        rw [hd]
        have hqi : (st₁.infos i).queue = q :: rest := by rw [i₁]; exact hq
        rw [hqi] at c
        simp only [List.countP_cons, List.countP_nil, EgressToStorage.carries, EgressToStorage.finishes] at a c ⊢
        simp at a c ⊢
        omega
    · exact absurd h (by simp)
    · exact absurd h (by simp)

theorem flag_same {st : Storage} {i : Nat} {b : Bool} (j : Nat) :
    ((st.setInfo i { st.infos i with tryCut := b }).infos j).queue = (st.infos j).queue ∧
    ((st.setInfo i { st.infos i with tryCut := b }).infos j).cut = (st.infos j).cut ∧
    ((st.setInfo i { st.infos i with tryCut := b }).infos j).opened = (st.infos j).opened ∧
    ((st.setInfo i { st.infos i with tryCut := b }).infos j).bytes = (st.infos j).bytes := by
  by_cases hj : j = i
  · subst hj; rw [setInfo_self]; exact ⟨rfl, rfl, rfl, rfl⟩
  · rw [setInfo_other _ _ hj]; exact ⟨rfl, rfl, rfl, rfl⟩

theorem flag_local {C st i b} : Local C st (st.setInfo i { st.infos i with tryCut := b }) {} [] [] :=
  .same (fun j => (flag_same j).1) (fun j => (flag_same j).2.1) (fun j => (flag_same j).2.2.1) rfl

theorem flag_ok {C st i b} (hs : StOk C st) : StOk C (st.setInfo i { st.infos i with tryCut := b }) :=
  hs.same (fun j => (flag_same j).1) (fun j => (flag_same j).2.1) (fun j => (flag_same j).2.2.1) (fun j => (flag_same j).2.2.2) rfl

theorem Local.nil {C st st' e} (h : Local C st st' (Effect.and {} e) ([] ++ []) ([] ++ [])) : Local C st st' e [] [] := by
  simpa [Effect.and] using h

theorem Local.nil' {C st st' e} (h : Local C st st' (Effect.and e {}) ([] ++ []) ([] ++ [])) : Local C st st' e [] [] := by
  simpa [Effect.and] using h

/-- Storage sends nothing that it has sent already. -/
structure Fresh (C : Config) (st : Storage) : Prop where
  cut : ∀ i, ∀ q ∈ (st.infos i).queue, (st.infos i).cut.lookup q.id = none
  disk : ∀ i, ∀ t ∈ st.disk, t.status = .awaiting → (st.infos i).opened.lookup t.cid = none

theorem prioritySend_ok {C st i top room ok w st' e} (h : Storage.prioritySend st i top room ok w = .ok (st', e)) (hs : StOk C st) (hi : i < C.outducts)
    (hlen : (st.infos i).opened.length + (st.infos i).cut.length < C.maxBundles i / 2)
    (hroom : (st.infos i).bytes + room ≤ C.maxBytes i / 2)
    (htop' : ∀ t, top = some t → t ∈ st.disk ∧ t.status = .awaiting) (hf : Fresh C st) :
    Local C st st' e [] [] ∧ StOk C st' ∧ st'.ready = st.ready ∧ st'.routes = st.routes := by
  unfold Storage.prioritySend at h
  simp only at h
  split at h
  · simp only [Res.ok.injEq] at h
    obtain ⟨l, s, r, rt, _⟩ := sendDisk_ok h hs hi hlen (by omega) htop' (hf.disk i)
    exact ⟨l, s, r, rt⟩
  · rename_i q rest hq
    have hsz : q.bundle.size ≤ room → ∀ q ∈ (st.infos i).queue.head?, (st.infos i).bytes + q.bundle.size ≤ C.maxBytes i / 2 := by
      intro hle q' hq'
      rw [hq] at hq'
      simp only [List.head?_cons, Option.mem_def, Option.some.injEq] at hq'
      subst hq'
      omega
    split at h
    · split at h
      · rename_i hsm
        simp only [Res.ok.injEq] at h
        exact sendCut_ok h hs hi hlen (hsz (by simpa using hsm)) (hf.cut i)
      · simp only [Res.ok.injEq, Prod.mk.injEq] at h
        obtain ⟨rfl, rfl⟩ := h
        exact ⟨.refl _ _, hs, rfl, rfl⟩
    · rename_i t
      -- the state after the flag
      obtain ⟨st₁, hst₁⟩ : ∃ st₁, st₁ = (if q.bundle.priority = t.bundle.priority ∧ decide (q.bundle.size ≤ room) = true
        then st.setInfo i { st.infos i with tryCut := !(st.infos i).tryCut } else st) := ⟨_, rfl⟩
      rw [← hst₁] at h
      have hprop : Local C st st₁ {} [] [] ∧ StOk C st₁ ∧ st₁.ready = st.ready ∧ st₁.routes = st.routes ∧
          (∀ j, (st₁.infos j).queue = (st.infos j).queue ∧ (st₁.infos j).cut = (st.infos j).cut ∧
            (st₁.infos j).opened = (st.infos j).opened ∧ (st₁.infos j).bytes = (st.infos j).bytes) ∧ st₁.disk = st.disk := by
        rw [hst₁]
        split
        · exact ⟨flag_local, flag_ok hs, rfl, rfl, flag_same, rfl⟩
        · exact ⟨.refl _ _, hs, rfl, rfl, fun _ => ⟨rfl, rfl, rfl, rfl⟩, rfl⟩
      obtain ⟨l₁, s₁, r₁, rt₁, same, sd⟩ := hprop
      obtain ⟨q₁, c₁, o₁, b₁⟩ := same i
      have hlen₁ : (st₁.infos i).opened.length + (st₁.infos i).cut.length < C.maxBundles i / 2 := by rw [o₁, c₁]; exact hlen
      obtain ⟨fq, hfq⟩ : ∃ fq, fq = (if q.bundle.priority = t.bundle.priority
        then decide (q.bundle.size ≤ room) && (st.infos i).tryCut
        else decide (q.bundle.priority > t.bundle.priority)) := ⟨_, rfl⟩
      rw [← hfq] at h
      cases fq with
      | true =>
        rw [if_pos rfl] at h
        split at h
        · rename_i hsm
          simp only [Res.ok.injEq] at h
          obtain ⟨l, s, r, rt⟩ := sendCut_ok h s₁ hi hlen₁
            (by rw [q₁, b₁]; exact hsz (by simpa using hsm)) (by rw [q₁, c₁]; exact hf.cut i)
          exact ⟨(l₁.trans l).nil, s, r.trans r₁, rt.trans rt₁⟩
        · simp only [Res.ok.injEq, Prod.mk.injEq] at h
          obtain ⟨rfl, rfl⟩ := h
          exact ⟨l₁, s₁, r₁, rt₁⟩
      | false =>
        rw [if_neg (by simp)] at h
        cases hsd : Storage.sendDisk st₁ i (some t) (room) ok with
        | mk st₂ e₂ =>
          rw [hsd] at h
          simp only at h
          obtain ⟨l₂, s₂, r₂, rt₂, _⟩ := sendDisk_ok hsd s₁ hi hlen₁ (by rw [b₁]; omega) (by rw [sd]; exact htop')
            (by rw [sd, o₁]; exact hf.disk i)
          split at h
          · rename_i st₃ e₃ hst
            simp only [Res.ok.injEq, Prod.mk.injEq] at h
            obtain ⟨rfl, rfl⟩ := h
            obtain ⟨l₃, s₃, r₃, rt₃⟩ := storeFront_ok hst s₂ hi
            refine ⟨(l₁.trans ?_).nil, s₃, by rw [r₃, r₂, r₁], by rw [rt₃, rt₂, rt₁]⟩
            simpa using l₂.trans l₃
          · exact absurd h (by simp)
          · exact absurd h (by simp)


theorem defaultSend_ok {C st i top room ok st' e} (h : Storage.defaultSend st i top room ok = (st', e)) (hs : StOk C st) (hi : i < C.outducts)
    (hlen : (st.infos i).opened.length + (st.infos i).cut.length < C.maxBundles i / 2)
    (hroom : (st.infos i).bytes + room ≤ C.maxBytes i / 2)
    (htop' : ∀ t, top = some t → t ∈ st.disk ∧ t.status = .awaiting) (hf : Fresh C st) :
    Local C st st' e [] [] ∧ StOk C st' ∧ st'.ready = st.ready ∧ st'.routes = st.routes := by
  unfold Storage.defaultSend at h
  simp only at h
  have hsend : ∀ st₁ e₁, (if ((st.infos i).tryCut && match (st.infos i).queue with
      | [] => false
      | q :: _ => decide (q.bundle.size ≤ room)) = true
      then st.sendCut i ok else st.sendDisk i top (room) ok) = (st₁, e₁) →
      Local C st st₁ e₁ [] [] ∧ StOk C st₁ ∧ st₁.ready = st.ready ∧ st₁.routes = st.routes := by
    intro st₁ e₁ h₁
    by_cases hcond : ((st.infos i).tryCut && match (st.infos i).queue with
      | [] => false
      | q :: _ => decide (q.bundle.size ≤ room)) = true
    · rw [if_pos hcond] at h₁
      refine sendCut_ok h₁ hs hi hlen ?_ (hf.cut i)
      intro q hq
      simp only [Bool.and_eq_true] at hcond
      have := hcond.2
      split at this
      · exact absurd this (by simp)
      · rename_i q' rest hq'
        rw [hq'] at hq
        simp only [List.head?_cons, Option.mem_def, Option.some.injEq] at hq
        subst hq
        have : q'.bundle.size ≤ room := by simpa using this
        omega
    · rw [if_neg hcond] at h₁
      obtain ⟨l, s, r, rt, _⟩ := sendDisk_ok h₁ hs hi hlen (by omega) htop' (hf.disk i)
      exact ⟨l, s, r, rt⟩
  generalize (if ((st.infos i).tryCut && match (st.infos i).queue with
      | [] => false
      | q :: _ => decide (q.bundle.size ≤ room)) = true
      then st.sendCut i ok else st.sendDisk i top (room) ok) = p at h hsend
  obtain ⟨st₁, e₁⟩ := p
  obtain ⟨l, s, r, rt⟩ := hsend st₁ e₁ rfl
  simp only [Prod.mk.injEq] at h
  obtain ⟨rfl, rfl⟩ := h
  exact ⟨(l.trans flag_local).nil', flag_ok s, r, rt⟩


theorem release_ok {C st i top ok w st' e} (h : Storage.release C st i top ok w = .ok (st', e)) (hs : StOk C st)
    (hC : ∀ i, C.maxBytes i < 2 ^ 64) (hf : Fresh C st) :
    Local C st st' e [] [] ∧ StOk C st' ∧ st'.ready = st.ready ∧ st'.routes = st.routes := by
  have hreq := room_eq hs hC i
  unfold Storage.release at h
  generalize st.room C i = room at h hreq
  simp only at h
  split at h
  · rename_i hc
    obtain ⟨hi, hr, hu, htop⟩ := hc
    have htop' : ∀ t, top = some t → t ∈ st.disk ∧ t.status = .awaiting := by
      rintro t rfl
      simp only [Storage.isTop, Bool.and_eq_true, List.contains_iff_mem, beq_iff_eq] at htop
      exact ⟨htop.1.1, htop.1.2⟩
    have hlb := hs.limitBytes i
    split at h
    · rename_i hlen
      split at h
      · exact prioritySend_ok h hs hi hlen (by omega) htop' hf
      · simp only [Res.ok.injEq] at h
        exact defaultSend_ok h hs hi hlen (by omega) htop' hf
    · simp only [Res.ok.injEq, Prod.mk.injEq] at h
      obtain ⟨rfl, rfl⟩ := h
      exact ⟨.refl _ _, hs, rfl, rfl⟩
  · exact absurd h (by simp)

end Hdtn.Node
