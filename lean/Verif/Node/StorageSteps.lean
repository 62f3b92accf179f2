import Verif.Node.StorageLemmas

/-!
Every step of storage keeps the account of bundles and reservations.
-/

namespace Hdtn.Node

theorem StOk.setInfo {C : Config} {st : Storage} (hs : StOk C st) {i : Nat} {o : Info} (hi : i < C.outducts)
    (hq : ∀ m ∈ o.queue, m.outduct = some i ∧ m.dontStore = true) (hc : o.cut.Keys) (ho : o.opened.Keys)
    (hb : o.bytes = o.opened.bytes + o.cut.bytes) (hl : o.opened.length + o.cut.length ≤ C.maxBundles i / 2)
    (hlb : o.bytes ≤ C.maxBytes i / 2) : StOk C (st.setInfo i o) := by
  refine ⟨?_, hs.cids, ?_, ?_, ?_, ?_, ?_, ?_⟩ <;> intro j
  · intro m
    by_cases hj : j = i
    · subst hj; rw [setInfo_self]; exact hq m
    · rw [setInfo_other _ _ hj]; exact hs.queue j m
  all_goals
    by_cases hj : j = i
    · subst hj; rw [setInfo_self]
      first
      | (intro hc; omega)
      | assumption
    · rw [setInfo_other _ _ hj]
      first
      | exact hs.out j
      | exact hs.cutKeys j
      | exact hs.openKeys j
      | exact hs.bytes j
      | exact hs.limit j
      | exact hs.limitBytes j

theorem StOk.setDisk {C : Config} {st : Storage} (hs : StOk C st) {d : List Entry} (hd : (d.map (·.cid)).Nodup) :
    StOk C { st with disk := d } :=
  ⟨hs.queue, hd, hs.out, hs.cutKeys, hs.openKeys, hs.bytes, hs.limit, hs.limitBytes⟩

/-- A step that changes the information on one outduct, and the disk. -/
theorem Local.setInfo {C : Config} {st : Storage} {d : List Entry} {i : Nat} {o : Info} {e : Effect} {cI : List ToStorage}
    {cE : List EgressToStorage} (hi : i < C.outducts)
    (h2 : ∀ x, o.queue.count (toS (some i) x) + o.cut.count x + e.toIngress.countP (ackOf (some i) x) + e.stuck.count (i, x.1, x.2)
      = (st.infos i).queue.count (toS (some i) x) + (st.infos i).cut.count x + cI.count (toS (some i) x))
    (h2' : ∀ j, j ≠ i → ∀ x, e.toIngress.countP (ackOf (some j) x) + e.stuck.count (j, x.1, x.2) = cI.count (toS (some j) x))
    (h3 : ∀ x, e.toIngress.countP (ackOf none x) = cI.count (toS none x))
    (h4 : ∀ x, o.cut.count x + cE.countP (·.answers (hdr i x true)) = (st.infos i).cut.count x + e.toEgress.count (hdr i x true))
    (h4' : ∀ j, j ≠ i → ∀ x, cE.countP (·.answers (hdr j x true)) = e.toEgress.count (hdr j x true))
    (h5 : ∀ x, o.opened.count x + cE.countP (·.answers (hdr i x false))
      = (st.infos i).opened.count x + e.toEgress.count (hdr i x false))
    (h5' : ∀ j, j ≠ i → ∀ x, cE.countP (·.answers (hdr j x false)) = e.toEgress.count (hdr j x false))
    (h6 : ∀ x, d.countP (givenAs x) + cE.countP (·.answersDisk x) = st.disk.countP (givenAs x) + e.toEgress.countP (diskMsg x))
    (h7 : ∀ b, e.lost.count b + o.queue.countP (·.bundle == b) + e.toEgress.countP (fun m => m.cut && m.bundle == b)
      + d.countP (·.bundle == b) + cE.countP (·.finishes b)
      = (st.infos i).queue.countP (·.bundle == b) + st.disk.countP (·.bundle == b) + cI.countP (·.bundle == b)
        + cE.countP (·.carries b)) :
    Local C st (Storage.setInfo { st with disk := d } i o) e cI cE where
  l2 j x := by
    by_cases hj : j = i
    · subst hj; rw [setInfo_self]; exact h2 x
    · rw [setInfo_other _ _ hj]
      have := h2' j hj x
      show (st.infos j).queue.count (toS (some j) x) + (st.infos j).cut.count x + _ + _ = _
      omega
  l3 := h3
  l4 j x := by
    by_cases hj : j = i
    · subst hj; rw [setInfo_self]; exact h4 x
    · rw [setInfo_other _ _ hj, h4' j hj x]
  l5 j x := by
    by_cases hj : j = i
    · subst hj; rw [setInfo_self]; exact h5 x
    · rw [setInfo_other _ _ hj, h5' j hj x]
  l6 := h6
  l7 b := by
    have a := h7 b
    have c := queued_setInfo (C := C) (st := { st with disk := d }) hi o b
    have hq : queued C { st with disk := d } b = queued C st b := rfl
    rw [hq] at c
    simp only at c
    have hd : (Storage.setInfo { st with disk := d } i o).disk = d := rfl
    rw [hd]
    omega

/-- Other messages that count the same. -/
theorem Local.consumed {C st st' e cI cE cE'} (h : Local C st st' e cI cE)
    (h1 : ∀ x, cE'.countP (·.answers x) = cE.countP (·.answers x))
    (h2 : ∀ x, cE'.countP (·.answersDisk x) = cE.countP (·.answersDisk x))
    (h3 : ∀ b, cE'.countP (·.carries b) + cE.countP (·.finishes b) = cE.countP (·.carries b) + cE'.countP (·.finishes b)) :
    Local C st st' e cI cE' where
  l2 := h.l2
  l3 := h.l3
  l4 i x := by rw [h1]; exact h.l4 i x
  l5 i x := by rw [h1]; exact h.l5 i x
  l6 x := by rw [h2]; exact h.l6 x
  l7 b := by have := h3 b; have := h.l7 b; omega

/-! ### The disk -/

theorem mem_unique {d : List Entry} (hn : (d.map (·.cid)).Nodup) {e f : Entry} (he : e ∈ d) (hf : f ∈ d) (h : e.cid = f.cid) : e = f := by
  induction d with
  | nil => cases he
  | cons g d ih =>
    simp only [List.map_cons, List.nodup_cons, List.mem_map, not_exists, not_and] at hn
    rcases List.mem_cons.1 he with h1 | h1 <;> rcases List.mem_cons.1 hf with h2 | h2
    · rw [h1, h2]
    · subst h1; exact absurd h.symm (hn.1 f h2)
    · subst h2; exact absurd h (hn.1 e h1)
    · exact ih hn.2 h1 h2

theorem erase_perm : ∀ {d : List Entry}, (d.map (·.cid)).Nodup → ∀ {e : Entry}, e ∈ d → List.Perm d (e :: erase d e.cid)
  | [], _, _, h => by cases h
  | f :: d, hn, e, h => by
    simp only [List.map_cons, List.nodup_cons] at hn
    have hkeep : ∀ {c : Nat} {d : List Entry}, c ∉ d.map (·.cid) → erase d c = d := by
      intro c d hc
      refine List.filter_eq_self.2 ?_
      intro g hg
      simp only [bne_iff_ne, ne_eq]
      intro h
      exact hc (List.mem_map.2 ⟨g, hg, h⟩)
    rcases List.mem_cons.1 h with h | h
    · subst h
      have : erase (e :: d) e.cid = d := by
        have := hkeep hn.1
        simp only [erase, List.filter_cons, bne_self_eq_false] at this ⊢
        exact this
      rw [this]
    · have hne : f.cid ≠ e.cid := by
        intro hc
        exact hn.1 (List.mem_map.2 ⟨e, h, hc.symm⟩)
      have : erase (f :: d) e.cid = f :: erase d e.cid := by
        simp [erase, hne]
      rw [this]
      exact ((erase_perm hn.2 h).cons f).trans (List.Perm.swap _ _ _)

theorem setStatus_perm : ∀ {d : List Entry}, (d.map (·.cid)).Nodup → ∀ {e : Entry}, e ∈ d → ∀ s,
    List.Perm (setStatus d e.cid s) ({ e with status := s } :: erase d e.cid)
  | [], _, _, h, _ => by cases h
  | f :: d, hn, e, h, s => by
    simp only [List.map_cons, List.nodup_cons] at hn
    rcases List.mem_cons.1 h with h | h
    · subst h
      have h1 : setStatus d e.cid s = d := by
        conv => rhs; rw [← List.map_id d]
        refine List.map_congr_left ?_
        intro g hg
        rw [if_neg]
        · rfl
        · intro hc; exact hn.1 (List.mem_map.2 ⟨g, hg, hc⟩)
      have h2 : erase d e.cid = d := by
        refine List.filter_eq_self.2 ?_
        intro g hg
        simp only [bne_iff_ne, ne_eq]
        intro h
        exact hn.1 (List.mem_map.2 ⟨g, hg, h⟩)
      have h3 : setStatus (e :: d) e.cid s = { e with status := s } :: setStatus d e.cid s := by simp [setStatus]
      have h4 : erase (e :: d) e.cid = erase d e.cid := by simp [erase]
      rw [h3, h4, h1, h2]
    · have hne : f.cid ≠ e.cid := by
        intro hc
        exact hn.1 (List.mem_map.2 ⟨e, h, hc.symm⟩)
      have h3 : setStatus (f :: d) e.cid s = f :: setStatus d e.cid s := by simp [setStatus, hne]
      have h4 : erase (f :: d) e.cid = f :: erase d e.cid := by simp [erase, hne]
      rw [h3, h4]
      exact ((setStatus_perm hn.2 h s).cons f).trans (List.Perm.swap _ _ _)

theorem setStatus_cids (d : List Entry) (c : Nat) (s : Status) : (setStatus d c s).map (·.cid) = d.map (·.cid) := by
  simp only [setStatus, List.map_map]
  refine List.map_congr_left ?_
  intro e _
  simp only [Function.comp]
  split <;> rfl

theorem erase_cids {d : List Entry} (h : (d.map (·.cid)).Nodup) (c : Nat) : ((erase d c).map (·.cid)).Nodup :=
  h.sublist (List.filter_sublist.map _)

theorem erase_countP {d : List Entry} (hn : (d.map (·.cid)).Nodup) {e : Entry} (he : e ∈ d) (p : Entry → Bool) :
    (erase d e.cid).countP p + (if p e = true then 1 else 0) = d.countP p := by
  rw [(erase_perm hn he).countP_eq p, List.countP_cons]

theorem setStatus_countP {d : List Entry} (hn : (d.map (·.cid)).Nodup) {e : Entry} (he : e ∈ d) (s : Status) (p : Entry → Bool) :
    (setStatus d e.cid s).countP p + (if p e = true then 1 else 0) = d.countP p + (if p { e with status := s } = true then 1 else 0) := by
  rw [(erase_perm hn he).countP_eq p, (setStatus_perm hn he s).countP_eq p, List.countP_cons, List.countP_cons]
  omega

/-! ### Messages from ingress -/

theorem fromIngress_ok {C st m w st' e} (h : Storage.fromIngress C st m w = .ok (st', e)) (hs : StOk C st)
    (hm : m.dontStore = m.outduct.isSome) :
    Local C st st' e [m] [] ∧ StOk C st' ∧ st'.ready = st.ready ∧ st'.routes = st.routes ∧ st'.early = st.early := by
  have hm' : ∀ o x, (if m = toS o x then 1 else 0) = if o = m.outduct ∧ x = (m.id, m.bundle) then 1 else 0 := by
    intro o x
    refine if_congr ?_ rfl rfl
    constructor
    · rintro rfl; exact ⟨rfl, rfl⟩
    · rintro ⟨rfl, rfl⟩
      cases m
      simp only at hm
      simp [toS, hm]
  have key : ∀ {r}, (match Storage.write st w m.bundle with
      | .ok (st, lost) => Res.ok (st, ({ toIngress := [⟨m.id, m.outduct, false, m.bundle⟩], lost := lost } : Effect))
      | .disabled => .disabled
      | .fault => .fault) = Res.ok r → Local C st r.1 r.2 [m] [] ∧ StOk C r.1 ∧ r.1.ready = st.ready ∧ r.1.routes = st.routes ∧ r.1.early = st.early := by
    intro r hr
    split at hr
    · rename_i st₁ lost hw
      simp only [Res.ok.injEq] at hr
      subst hr
      obtain ⟨l, s, _, hr1, hr2, hr3⟩ := write_ok hw hs
      refine ⟨?_, s, hr1, hr2, hr3⟩
      constructor
      · intro j x
        have a := l.l2 j x
        have := hm' (some j) x
        simp only [List.countP_cons, ackOf_iff, List.count_cons, beq_iff_eq, List.countP_nil, List.count_nil] at a ⊢
        omega
      · intro x
        have := hm' none x
        simp only [List.countP_cons, ackOf_iff, List.count_cons, beq_iff_eq, List.countP_nil, List.count_nil]
        omega
      · intro j x
        have a := l.l4 j x
        simpa [EgressToStorage.answers] using a
      · intro j x
        have a := l.l5 j x
        simpa [EgressToStorage.answers] using a
      · intro x
        have a := l.l6 x
        simpa [EgressToStorage.answersDisk] using a
      · intro b
        have a := l.l7 b
        simp only [List.countP_cons, List.countP_nil, EgressToStorage.carries, EgressToStorage.finishes] at a ⊢
        simp at a ⊢
        omega
    · exact absurd hr (by simp)
    · exact absurd hr (by simp)
  unfold Storage.fromIngress at h
  simp only at h
  split at h
  · exact key h
  · rename_i i hi
    by_cases hc : (m.dontStore && decide (i < if st.ready then C.outducts else 0) && (st.infos i).up) = true
    · rw [if_pos hc] at h
      simp only [Bool.and_eq_true, decide_eq_true_eq] at hc
      simp only [Res.ok.injEq, Prod.mk.injEq] at h
      obtain ⟨rfl, rfl⟩ := h
      have hio : i < C.outducts := by
        have := hc.1.2
        split at this
        · exact this
        · omega
      refine ⟨?_, ?_, rfl, rfl, rfl⟩
      · refine Local.setInfo (d := st.disk) hio ?_ ?_ ?_ ?_ ?_ ?_ ?_ ?_ ?_
        · intro x
          simp only [List.count_append, List.countP_nil, List.count_nil]
          omega
        · intro j hj x
          have := hm' (some j) x
          rw [hi] at this
          rw [if_neg (show ¬ (some j = some i ∧ x = (m.id, m.bundle)) from fun h => hj (Option.some.inj h.1))] at this
          simp only [List.count_cons, beq_iff_eq, List.countP_nil, List.count_nil]
          omega
        · intro x
          have := hm' none x
          rw [hi] at this
          simp only [List.count_cons, beq_iff_eq, List.countP_nil, List.count_nil]
          simp at this
          simp [this]
        all_goals intros; simp
        omega
      · refine hs.setInfo hio ?_ (hs.cutKeys i) (hs.openKeys i) (hs.bytes i) (hs.limit i) (hs.limitBytes i)
        intro m' hm''
        rcases List.mem_append.1 hm'' with hm'' | hm''
        · exact hs.queue i m' hm''
        · rw [List.mem_singleton] at hm''
          subst hm''
          exact ⟨hi, hc.1.1⟩
    · rw [if_neg hc] at h
      exact key h

/-! ### Messages from egress -/

theorem doneCut_ok {C : Config} {st : Storage} {h : ToEgress} {err : Bool} (hs : StOk C st) (hi : h.outduct < C.outducts)
    (hcut : h.cut = true) (hm : (h.id, h.bundle) ∈ (st.infos h.outduct).cut) :
    Local C st (st.setInfo h.outduct { st.infos h.outduct with
      cut := (st.infos h.outduct).cut.remove h.id, bytes := (st.infos h.outduct).bytes - h.bundle.size })
      { toIngress := [⟨h.id, some h.outduct, err, h.bundle⟩] } [] [.ack ⟨h, .noErrors⟩] ∧
    StOk C (st.setInfo h.outduct { st.infos h.outduct with
      cut := (st.infos h.outduct).cut.remove h.id, bytes := (st.infos h.outduct).bytes - h.bundle.size }) := by
  have hk := hs.cutKeys h.outduct
  constructor
  · refine Local.setInfo (d := st.disk) hi ?_ ?_ ?_ ?_ ?_ ?_ ?_ ?_ ?_
    · intro x
      have := remove_count hk hm x
      simp only [List.countP_cons, ackOf_iff, List.countP_nil, List.count_nil, true_and]
      omega
    · intro j hj x
      simp [ackOf_iff, hj]
    · intro x
      simp [ackOf_iff]
    · intro x
      have := remove_count hk hm x
      have e : (if h = hdr h.outduct x true then 1 else 0) = if x = (h.id, h.bundle) then 1 else 0 := by
        refine if_congr ?_ rfl rfl
        constructor
        · intro hc
          have h1 := congrArg ToEgress.id hc
          have h2 := congrArg ToEgress.bundle hc
          exact Prod.ext h1.symm h2.symm
        · rintro rfl
          cases h
          simp only at hcut
          simp [hdr, hcut]
      simp only [List.countP_cons, EgressToStorage.answers, beq_iff_eq, List.countP_nil, List.count_nil]
      omega
    · intro j hj x
      have : ¬ h = hdr j x true := by
        intro hc
        have := congrArg ToEgress.outduct hc
        exact hj this.symm
      simp [EgressToStorage.answers, this]
    · intro x
      have : ¬ h = hdr h.outduct x false := by
        intro hc
        have := congrArg ToEgress.cut hc
        rw [hcut] at this
        simp [hdr] at this
      simp [EgressToStorage.answers, this]
    · intro j hj x
      have : ¬ h = hdr j x false := by
        intro hc
        have := congrArg ToEgress.outduct hc
        exact hj this.symm
      simp [EgressToStorage.answers, this]
    · intro x
      simp [EgressToStorage.answersDisk, hcut]
    · intro b
      simp [EgressToStorage.finishes, EgressToStorage.carries, hcut]
  · have h1 := remove_length hk hm
    have h2 := remove_bytes hk hm
    have h3 := hs.bytes h.outduct
    have h4 := hs.limit h.outduct
    have h5 := hs.limitBytes h.outduct
    refine hs.setInfo hi (hs.queue _) (keys_remove hk _) (hs.openKeys _) ?_ ?_ ?_ <;> simp only <;> omega

theorem cutAck_ok {C st a w ws st' e} (h : Storage.cutAck st a w ws = .ok (st', e)) (hs : StOk C st)
    (hi : a.hdr.outduct < C.outducts) (hcut : a.hdr.cut = true)
    (hm : (a.hdr.id, a.hdr.bundle) ∈ (st.infos a.hdr.outduct).cut) :
    Local C st st' e [] [.ack a] ∧ StOk C st' ∧ st'.ready = st.ready ∧ st'.routes = st.routes ∧ st'.early = st.early := by
  unfold Storage.cutAck at h
  simp only [lookup_of_mem (hs.cutKeys _) hm] at h
  split at h
  · rename_i he
    simp only [Res.ok.injEq, Prod.mk.injEq] at h
    obtain ⟨rfl, rfl⟩ := h
    obtain ⟨l, s⟩ := doneCut_ok (err := false) hs hi hcut hm
    have : a = ⟨a.hdr, .noErrors⟩ := by cases a; simp only at he; rw [he]
    rw [this]
    exact ⟨l, s, rfl, rfl, rfl⟩
  · rename_i he
    split at h
    · rename_i st₁ lost hw
      obtain ⟨l₁, s₁, i₁, r₁, rt₁, ea₁⟩ := write_ok hw hs
      split at h
      · rename_i st₂ e₂ hd
        simp only [Res.ok.injEq, Prod.mk.injEq] at h
        obtain ⟨rfl, rfl⟩ := h
        have hd' : Local C st₁ st₂ e₂ [] [] ∧ StOk C st₂ ∧ (∀ j, (st₂.infos j).cut = (st₁.infos j).cut) ∧
            st₂.ready = st₁.ready ∧ st₂.routes = st₁.routes ∧ st₂.early = st₁.early := by
          split at hd
          · obtain ⟨l, s, hsame, r, rt, ea, _⟩ := setLinkDown_ok hd s₁ hi
            exact ⟨l, s, fun j => (hsame j).2.1, r, rt, ea⟩
          · simp only [Res.ok.injEq, Prod.mk.injEq] at hd
            obtain ⟨rfl, rfl⟩ := hd
            exact ⟨Local.refl _ _, s₁, fun _ => rfl, rfl, rfl, rfl⟩
        obtain ⟨l₂, s₂, hc₂, r₂, rt₂, ea₂⟩ := hd'
        have hm₂ : (a.hdr.id, a.hdr.bundle) ∈ (st₂.infos a.hdr.outduct).cut := by rw [hc₂, i₁]; exact hm
        obtain ⟨l₃, s₃⟩ := doneCut_ok (err := true) s₂ hi hcut hm₂
        refine ⟨?_, s₃, by rw [← r₁, ← r₂]; rfl, by rw [← rt₁, ← rt₂]; rfl, by rw [← ea₁, ← ea₂]; rfl⟩
        have := ((l₁.trans l₂).trans l₃).consumed (cE' := [.ack a]) ?_ ?_ ?_
        · simpa [Effect.and] using this
        · intro x
          simp [EgressToStorage.answers, List.countP_cons]
        · intro x
          simp [EgressToStorage.answersDisk, List.countP_cons]
        · intro b
          simp [EgressToStorage.carries, EgressToStorage.finishes, List.countP_cons, hcut, he]
      · exact absurd h (by simp)
      · exact absurd h (by simp)
    · exact absurd h (by simp)
    · exact absurd h (by simp)

theorem doneDisk_ok {C : Config} {st : Storage} {h : ToEgress} {d : List Entry} {err : AckError} (hs : StOk C st)
    (hi : h.outduct < C.outducts) (hcut : h.cut = false) (hm : (h.id, h.bundle) ∈ (st.infos h.outduct).opened)
    (hdk : (d.map (·.cid)).Nodup)
    (hd1 : ∀ x, d.countP (givenAs x) + (if x = (h.id, h.bundle) then 1 else 0) = st.disk.countP (givenAs x))
    (hd2 : ∀ b, d.countP (·.bundle == b) + (EgressToStorage.ack ⟨h, err⟩ :: []).countP (·.finishes b) = st.disk.countP (·.bundle == b)) :
    Local C st (Storage.setInfo { st with disk := d } h.outduct { st.infos h.outduct with
      opened := (st.infos h.outduct).opened.remove h.id, bytes := (st.infos h.outduct).bytes - h.bundle.size })
      { } [] [.ack ⟨h, err⟩] ∧
    StOk C (Storage.setInfo { st with disk := d } h.outduct { st.infos h.outduct with
      opened := (st.infos h.outduct).opened.remove h.id, bytes := (st.infos h.outduct).bytes - h.bundle.size }) := by
  have hk := hs.openKeys h.outduct
  constructor
  · refine Local.setInfo (d := d) hi ?_ ?_ ?_ ?_ ?_ ?_ ?_ ?_ ?_
    · intro x; simp
    · intro j hj x; simp
    · intro x; simp
    · intro x
      have : ¬ h = hdr h.outduct x true := by
        intro hc
        have := congrArg ToEgress.cut hc
        rw [hcut] at this
        simp [hdr] at this
      simp [EgressToStorage.answers, this]
    · intro j hj x
      have : ¬ h = hdr j x true := by
        intro hc
        have := congrArg ToEgress.outduct hc
        exact hj this.symm
      simp [EgressToStorage.answers, this]
    · intro x
      have := remove_count hk hm x
      have e : (if h = hdr h.outduct x false then 1 else 0) = if x = (h.id, h.bundle) then 1 else 0 := by
        refine if_congr ?_ rfl rfl
        constructor
        · intro hc
          have h1 := congrArg ToEgress.id hc
          have h2 := congrArg ToEgress.bundle hc
          exact Prod.ext h1.symm h2.symm
        · rintro rfl
          cases h
          simp only at hcut
          simp [hdr, hcut]
      simp only [List.countP_cons, EgressToStorage.answers, beq_iff_eq, List.countP_nil, List.count_nil]
      omega
    · intro j hj x
      have : ¬ h = hdr j x false := by
        intro hc
        have := congrArg ToEgress.outduct hc
        exact hj this.symm
      simp [EgressToStorage.answers, this]
    · intro x
      have := hd1 x
      have e : (if h.id = x.1 ∧ h.bundle = x.2 then 1 else 0) = if x = (h.id, h.bundle) then 1 else 0 := by
        refine if_congr ?_ rfl rfl
        constructor
        · rintro ⟨h1, h2⟩; exact Prod.ext h1.symm h2.symm
        · rintro rfl; exact ⟨rfl, rfl⟩
      simp [EgressToStorage.answersDisk, hcut, List.countP_cons]
      omega
    · intro b
      have := hd2 b
      simp only [List.count_nil, List.countP_nil, List.countP_cons, EgressToStorage.carries, hcut] at this ⊢
      simp at this ⊢
      omega
  · have h1 := remove_length hk hm
    have h2 := remove_bytes hk hm
    have h3 := hs.bytes h.outduct
    have h4 := hs.limit h.outduct
    have h5 := hs.limitBytes h.outduct
    refine (hs.setDisk hdk).setInfo hi (hs.queue _) (hs.cutKeys _) (keys_remove hk _) ?_ ?_ ?_ <;> simp only <;> omega

theorem dump_disk {i : Nat} : ∀ {ws qs st st' e}, Storage.dump st i ws qs = .ok (st', e) → ∃ d, st'.disk = st.disk ++ d := by
  intro ws
  induction ws with
  | nil =>
    intro qs st st' e h
    cases qs with
    | nil =>
      simp only [Storage.dump, Res.ok.injEq, Prod.mk.injEq] at h
      obtain ⟨rfl, rfl⟩ := h
      exact ⟨[], by simp⟩
    | cons q qs => simp [Storage.dump] at h
  | cons w ws ih =>
    intro qs st st' e h
    cases qs with
    | nil => simp [Storage.dump] at h
    | cons q qs =>
      simp only [Storage.dump] at h
      split at h
      · rename_i st₁ lost hw
        split at h
        · rename_i st₂ e₂ hd
          simp only [Res.ok.injEq, Prod.mk.injEq] at h
          obtain ⟨rfl, rfl⟩ := h
          obtain ⟨d, hd⟩ := ih hd
          unfold Storage.write at hw
          split at hw
          · simp only [Res.ok.injEq, Prod.mk.injEq] at hw
            obtain ⟨rfl, rfl⟩ := hw
            exact ⟨d, hd⟩
          · split at hw
            · exact absurd hw (by simp)
            · simp only [Res.ok.injEq, Prod.mk.injEq] at hw
              obtain ⟨rfl, rfl⟩ := hw
              rename_i cid _ _
              exact ⟨⟨cid, q.bundle, .awaiting⟩ :: d, by rw [hd]; simp⟩
        · exact absurd h (by simp)
        · exact absurd h (by simp)
      · exact absurd h (by simp)
      · exact absurd h (by simp)

theorem setLinkDown_disk {st : Storage} {i : Nat} {ws st' e} (h : Storage.setLinkDown st i ws = .ok (st', e)) :
    ∃ d, st'.disk = st.disk ++ d := by
  unfold Storage.setLinkDown at h
  simp only at h
  split at h
  · obtain ⟨d, hd⟩ := dump_disk h
    exact ⟨d, hd⟩
  · split at h
    · simp only [Res.ok.injEq, Prod.mk.injEq] at h
      obtain ⟨rfl, rfl⟩ := h
      exact ⟨[], by simp⟩
    · exact absurd h (by simp)

theorem given_pair (c : Nat) (b : Bundle) (x : Nat × Bundle) :
    (if givenAs x ⟨c, b, .given⟩ = true then 1 else 0) = if x = (c, b) then 1 else 0 := by
  refine if_congr ?_ rfl rfl
  simp only [givenAs, Bool.and_eq_true, beq_iff_eq, and_true]
  constructor
  · rintro ⟨h1, h2⟩; exact Prod.ext h1.symm h2.symm
  · rintro rfl; exact ⟨rfl, rfl⟩

theorem diskAck_ok {C st a ws st' e} (h : Storage.diskAck st a ws = .ok (st', e)) (hs : StOk C st)
    (hi : a.hdr.outduct < C.outducts) (hcut : a.hdr.cut = false)
    (hm : (a.hdr.id, a.hdr.bundle) ∈ (st.infos a.hdr.outduct).opened)
    (hg : ⟨a.hdr.id, a.hdr.bundle, .given⟩ ∈ st.disk) :
    Local C st st' e [] [.ack a] ∧ StOk C st' ∧ st'.ready = st.ready ∧ st'.routes = st.routes ∧ st'.early = st.early := by
  unfold Storage.diskAck at h
  simp only [lookup_of_mem (hs.openKeys _) hm] at h
  split at h
  · rename_i he
    simp only [Res.ok.injEq, Prod.mk.injEq] at h
    obtain ⟨rfl, rfl⟩ := h
    have ha : a = ⟨a.hdr, .noErrors⟩ := by cases a; simp only at he; rw [he]
    rw [ha]
    have := doneDisk_ok (err := .noErrors)
      (d := if a.hdr.bundle.custody then setStatus st.disk a.hdr.id .sent else erase st.disk a.hdr.id) hs hi hcut hm ?_ ?_ ?_
    · exact ⟨this.1, this.2, rfl, rfl, rfl⟩
    · split
      · rw [setStatus_cids]; exact hs.cids
      · exact erase_cids hs.cids _
    · intro x
      have h0 := given_pair a.hdr.id a.hdr.bundle x
      split
      · have := setStatus_countP hs.cids hg .sent (givenAs x)
        simp only [givenAs] at this h0 ⊢
        simp at this h0 ⊢
        omega
      · have := erase_countP hs.cids hg (givenAs x)
        simp only at this
        omega
    · intro b
      split
      · rename_i hcus
        have := setStatus_countP hs.cids hg .sent (·.bundle == b)
        simp only at this
        simp only [List.countP_cons, List.countP_nil, EgressToStorage.finishes, hcut]
        have : ¬ (a.hdr.bundle = b ∧ b.custody = false) := by
          rintro ⟨rfl, h⟩; rw [hcus] at h; simp at h
        simp [this]
        omega
      · rename_i hcus
        have := erase_countP hs.cids hg (·.bundle == b)
        simp only [List.countP_cons, List.countP_nil, EgressToStorage.finishes, hcut]
        have e : (if a.hdr.bundle = b ∧ b.custody = false then 1 else 0) = if a.hdr.bundle = b then 1 else 0 := by
          refine if_congr ?_ rfl rfl
          constructor
          · exact fun h => h.1
          · rintro rfl; exact ⟨rfl, by simpa using hcus⟩
        simp at this ⊢
        omega
  · rename_i he
    split at h
    · rename_i st₂ e₂ hd
      simp only [Res.ok.injEq, Prod.mk.injEq] at h
      obtain ⟨rfl, rfl⟩ := h
      have hd' : Local C st st₂ e₂ [] [] ∧ StOk C st₂ ∧ (∀ j, (st₂.infos j).opened = (st.infos j).opened) ∧
          st₂.ready = st.ready ∧ st₂.routes = st.routes ∧ st₂.early = st.early ∧ ∃ d, st₂.disk = st.disk ++ d := by
        split at hd
        · obtain ⟨l, s, hsame, r, rt, ea, _⟩ := setLinkDown_ok hd hs hi
          exact ⟨l, s, fun j => (hsame j).1, r, rt, ea, setLinkDown_disk hd⟩
        · simp only [Res.ok.injEq, Prod.mk.injEq] at hd
          obtain ⟨rfl, rfl⟩ := hd
          exact ⟨Local.refl _ _, hs, fun _ => rfl, rfl, rfl, rfl, [], by simp⟩
      obtain ⟨l₂, s₂, ho₂, r₂, rt₂, ea₂, d₂, hd₂⟩ := hd'
      have hm₂ : (a.hdr.id, a.hdr.bundle) ∈ (st₂.infos a.hdr.outduct).opened := by rw [ho₂]; exact hm
      have hg₂ : ⟨a.hdr.id, a.hdr.bundle, .given⟩ ∈ st₂.disk := by rw [hd₂]; exact List.mem_append_left _ hg
      have := doneDisk_ok (err := a.error) (d := setStatus st₂.disk a.hdr.id .awaiting) s₂ hi hcut hm₂ ?_ ?_ ?_
      · refine ⟨?_, this.2, r₂, rt₂, ea₂⟩
        have := l₂.trans this.1
        simpa [Effect.and] using this
      · rw [setStatus_cids]; exact s₂.cids
      · intro x
        have h0 := given_pair a.hdr.id a.hdr.bundle x
        have := setStatus_countP s₂.cids hg₂ .awaiting (givenAs x)
        simp only [givenAs] at this h0 ⊢
        simp at this h0 ⊢
        omega
      · intro b
        have := setStatus_countP s₂.cids hg₂ .awaiting (·.bundle == b)
        simp only at this
        simp [List.countP_cons, EgressToStorage.finishes, he]
        omega
    · exact absurd h (by simp)
    · exact absurd h (by simp)

end Hdtn.Node
