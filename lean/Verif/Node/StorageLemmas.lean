import Verif.Node.MapLemmas

/-!
What the steps of storage do to the bundles and the reservations, by counting.
-/

namespace Hdtn.Node

/-- The message to egress about `x`, an id and a bundle. -/
def hdr (i : Nat) (x : Nat × Bundle) (cut : Bool) : ToEgress := ⟨x.2, x.1, i, cut⟩

/-- The message to storage about `x`. -/
def toS (o : Option Nat) (x : Nat × Bundle) : ToStorage := ⟨x.2, x.1, o, o.isSome⟩

/-- The acknowledgement of storage is about `x`. -/
def ackOf (o : Option Nat) (x : Nat × Bundle) (a : StorageAck) : Bool :=
  a.id == x.1 && a.outduct == o && a.bundle == x.2

/-- The message is the answer to `h`. -/
def EgressToStorage.answers (h : ToEgress) : EgressToStorage → Bool
  | .ack a => a.hdr == h
  | _ => false

/-- The message is the answer to bundle `x` that was read from the disk. -/
def EgressToStorage.answersDisk (x : Nat × Bundle) : EgressToStorage → Bool
  | .ack a => a.hdr.id == x.1 && a.hdr.bundle == x.2 && !a.hdr.cut
  | _ => false

/-- The bundle is in the message. -/
def EgressToStorage.carries (b : Bundle) : EgressToStorage → Bool
  | .ack a => a.hdr.cut && a.error != .noErrors && a.hdr.bundle == b
  | .failed _ b' => b' == b
  | .capabilities _ => false

/-- The message says that the bundle, read from the disk, was sent and is to be deleted. -/
def EgressToStorage.finishes (b : Bundle) : EgressToStorage → Bool
  | .ack a => !a.hdr.cut && a.error == .noErrors && a.hdr.bundle == b && !b.custody
  | _ => false

/-- The bundle is on the disk and was given to egress. -/
def givenAs (x : Nat × Bundle) (e : Entry) : Bool := e.cid == x.1 && e.bundle == x.2 && e.status == .given

/-- The message is about bundle `x`, read from the disk. -/
def diskMsg (x : Nat × Bundle) (m : ToEgress) : Bool := m.id == x.1 && m.bundle == x.2 && !m.cut

/-- How often a bundle is in the cut-through queues of the outducts. -/
def queued (C : Config) (st : Storage) (b : Bundle) : Nat :=
  ((List.range C.outducts).map fun i => (st.infos i).queue.countP (·.bundle == b)).sum

/-- What a step of storage does that takes the messages `cI` from ingress and `cE` from egress. -/
structure Local (C : Config) (st st' : Storage) (e : Effect) (cI : List ToStorage) (cE : List EgressToStorage) : Prop where
  l2 : ∀ i x, (st'.infos i).queue.count (toS (some i) x) + (st'.infos i).cut.count x + e.toIngress.countP (ackOf (some i) x)
    + e.stuck.count (i, x.1, x.2)
    = (st.infos i).queue.count (toS (some i) x) + (st.infos i).cut.count x + cI.count (toS (some i) x)
  l3 : ∀ x, e.toIngress.countP (ackOf none x) = cI.count (toS none x)
  l4 : ∀ i x, (st'.infos i).cut.count x + cE.countP (·.answers (hdr i x true))
    = (st.infos i).cut.count x + e.toEgress.count (hdr i x true)
  l5 : ∀ i x, (st'.infos i).opened.count x + cE.countP (·.answers (hdr i x false))
    = (st.infos i).opened.count x + e.toEgress.count (hdr i x false)
  l6 : ∀ x, st'.disk.countP (givenAs x) + cE.countP (·.answersDisk x)
    = st.disk.countP (givenAs x) + e.toEgress.countP (diskMsg x)
  l7 : ∀ b, e.lost.count b + queued C st' b + e.toEgress.countP (fun m => m.cut && m.bundle == b)
    + st'.disk.countP (·.bundle == b) + cE.countP (·.finishes b)
    = queued C st b + st.disk.countP (·.bundle == b) + cI.countP (·.bundle == b) + cE.countP (·.carries b)

/-- What holds of the storage alone. -/
structure StOk (C : Config) (st : Storage) : Prop where
  queue : ∀ i m, m ∈ (st.infos i).queue → m.outduct = some i ∧ m.dontStore = true
  cids : (st.disk.map (·.cid)).Nodup
  out : ∀ i, C.outducts ≤ i → (st.infos i).queue = [] ∧ (st.infos i).cut = [] ∧ (st.infos i).opened = []
  cutKeys : ∀ i, (st.infos i).cut.Keys
  openKeys : ∀ i, (st.infos i).opened.Keys
  bytes : ∀ i, (st.infos i).bytes = (st.infos i).opened.bytes + (st.infos i).cut.bytes
  limit : ∀ i, (st.infos i).opened.length + (st.infos i).cut.length ≤ C.maxBundles i / 2
  limitBytes : ∀ i, (st.infos i).bytes ≤ C.maxBytes i / 2

theorem effect_and_toEgress (a b : Effect) : (a.and b).toEgress = a.toEgress ++ b.toEgress := rfl
theorem effect_and_toIngress (a b : Effect) : (a.and b).toIngress = a.toIngress ++ b.toIngress := rfl
theorem effect_and_lost (a b : Effect) : (a.and b).lost = a.lost ++ b.lost := rfl
theorem effect_and_stuck (a b : Effect) : (a.and b).stuck = a.stuck ++ b.stuck := rfl

theorem Local.trans {C st st' st'' e e' cI cI' cE cE'} (h : Local C st st' e cI cE) (h' : Local C st' st'' e' cI' cE') :
    Local C st st'' (e.and e') (cI ++ cI') (cE ++ cE') where
  l2 i x := by
    have := h.l2 i x; have := h'.l2 i x
    simp only [effect_and_toIngress, effect_and_stuck, List.countP_append, List.count_append]; omega
  l3 x := by
    have := h.l3 x; have := h'.l3 x
    simp only [effect_and_toIngress, List.countP_append, List.count_append]; omega
  l4 i x := by
    have := h.l4 i x; have := h'.l4 i x
    simp only [effect_and_toEgress, List.countP_append, List.count_append]; omega
  l5 i x := by
    have := h.l5 i x; have := h'.l5 i x
    simp only [effect_and_toEgress, List.countP_append, List.count_append]; omega
  l6 x := by
    have := h.l6 x; have := h'.l6 x
    simp only [effect_and_toEgress, List.countP_append]; omega
  l7 b := by
    have := h.l7 b; have := h'.l7 b
    simp only [effect_and_toEgress, effect_and_lost, List.countP_append, List.count_append]; omega

/-- Nothing happens. -/
theorem Local.refl (C st) : Local C st st {} [] [] := by
  constructor <;> intros <;> simp

/-- Steps that change flags only. -/
theorem Local.same {C st st'} (hq : ∀ i, (st'.infos i).queue = (st.infos i).queue)
    (hc : ∀ i, (st'.infos i).cut = (st.infos i).cut) (ho : ∀ i, (st'.infos i).opened = (st.infos i).opened)
    (hd : st'.disk = st.disk) : Local C st st' {} [] [] := by
  constructor <;> intros <;> simp [hq, hc, ho, hd, queued]

theorem StOk.same {C st st'} (h : StOk C st) (hq : ∀ i, (st'.infos i).queue = (st.infos i).queue)
    (hc : ∀ i, (st'.infos i).cut = (st.infos i).cut) (ho : ∀ i, (st'.infos i).opened = (st.infos i).opened)
    (hb : ∀ i, (st'.infos i).bytes = (st.infos i).bytes) (hd : st'.disk = st.disk) : StOk C st' := by
  constructor
  · intro i m; rw [hq]; exact h.queue i m
  · rw [hd]; exact h.cids
  · intro i; rw [hq, hc, ho]; exact h.out i
  · intro i; rw [hc]; exact h.cutKeys i
  · intro i; rw [ho]; exact h.openKeys i
  · intro i; rw [hc, ho, hb]; exact h.bytes i
  · intro i; rw [hc, ho]; exact h.limit i
  · intro i; rw [hb]; exact h.limitBytes i

theorem setInfo_self (st : Storage) (i : Nat) (o : Info) : (st.setInfo i o).infos i = o := by
  simp [Storage.setInfo]

theorem setInfo_other (st : Storage) {i j : Nat} (o : Info) (h : j ≠ i) : (st.setInfo i o).infos j = st.infos j := by
  simp [Storage.setInfo, h]

theorem sum_update (f g : Nat → Nat) (i : Nat) (h : ∀ j, j ≠ i → f j = g j) :
    ∀ n, i < n → ((List.range n).map f).sum + g i = ((List.range n).map g).sum + f i
  | 0, hn => by omega
  | n + 1, hn => by
    simp only [List.range_succ, List.map_append, List.map_cons, List.map_nil, List.sum_append, List.sum_cons, List.sum_nil]
    by_cases hi : i = n
    · subst hi
      have : ∀ m, m ≤ i → ((List.range m).map f).sum = ((List.range m).map g).sum := by
        intro m hm
        congr 1
        refine List.map_congr_left ?_
        intro j hj
        have := List.mem_range.1 hj
        exact h j (by omega)
      rw [this i (Nat.le_refl _)]; omega
    · have := sum_update f g i h n (by omega)
      have := h n (fun hc => hi hc.symm)
      omega

theorem queued_setInfo {C : Config} {st : Storage} {i : Nat} (hi : i < C.outducts) (o : Info) (b : Bundle) :
    queued C (st.setInfo i o) b + (st.infos i).queue.countP (·.bundle == b)
      = queued C st b + o.queue.countP (·.bundle == b) := by
  have := sum_update (fun j => ((st.setInfo i o).infos j).queue.countP (·.bundle == b))
    (fun j => (st.infos j).queue.countP (·.bundle == b)) i (fun j hj => by simp only [setInfo_other st o hj]) C.outducts hi
  simp only [setInfo_self] at this
  exact this

theorem queued_disk (C : Config) (st : Storage) (d : List Entry) (b : Bundle) :
    queued C { st with disk := d } b = queued C st b := rfl

theorem write_ok {C st w b st' lost} (h : Storage.write st w b = .ok (st', lost)) (hs : StOk C st) :
    Local C st st' { lost := lost } [] [.failed 0 b] ∧ StOk C st' ∧ st'.infos = st.infos ∧ st'.ready = st.ready
      ∧ st'.routes = st.routes ∧ st'.early = st.early := by
  unfold Storage.write at h
  cases w with
  | none =>
    simp only [Res.ok.injEq, Prod.mk.injEq] at h
    obtain ⟨rfl, rfl⟩ := h
    refine ⟨?_, hs, rfl, rfl, rfl, rfl⟩
    constructor <;> intros <;> simp [EgressToStorage.answers, EgressToStorage.answersDisk, EgressToStorage.finishes,
      EgressToStorage.carries, List.countP_cons, List.count_cons]
    omega
  | some cid =>
    simp only at h
    split at h
    · exact absurd h (by simp)
    · rename_i hn
      simp only [Res.ok.injEq, Prod.mk.injEq] at h
      obtain ⟨rfl, rfl⟩ := h
      refine ⟨?_, ?_, rfl, rfl, rfl, rfl⟩
      · constructor <;> intros <;> simp [EgressToStorage.answers, EgressToStorage.answersDisk, EgressToStorage.finishes,
          EgressToStorage.carries, List.countP_cons, List.count_cons, givenAs, queued_disk]
        omega
      · refine ⟨hs.queue, ?_, hs.out, hs.cutKeys, hs.openKeys, hs.bytes, hs.limit, hs.limitBytes⟩
        simp only [List.map_append, List.map_cons, List.map_nil]
        rw [List.nodup_append]
        refine ⟨hs.cids, by simp, ?_⟩
        intro a ha c hc
        simp only [List.mem_singleton] at hc
        subst hc
        simp only [List.mem_map] at ha
        obtain ⟨e, he, rfl⟩ := ha
        intro hc
        refine hn ?_
        simp only [List.any_eq_true, beq_iff_eq]
        exact ⟨e, he, hc⟩

/-- The queue as messages about ids and bundles. -/
theorem toS_of {m : ToStorage} {i : Nat} (h : m.outduct = some i ∧ m.dontStore = true) :
    m = toS (some i) (m.id, m.bundle) := by
  cases m
  simp only at h
  simp [toS, h.1, h.2]

theorem toS_inj {o o' : Option Nat} {x y : Nat × Bundle} : toS o x = toS o' y ↔ o = o' ∧ x = y := by
  constructor
  · intro h
    simp only [toS, ToStorage.mk.injEq] at h
    exact ⟨h.2.2.1, Prod.ext h.2.1 h.1⟩
  · rintro ⟨rfl, rfl⟩; rfl

theorem hdr_inj {i j : Nat} {x y : Nat × Bundle} {c d : Bool} : hdr i x c = hdr j y d ↔ i = j ∧ x = y ∧ c = d := by
  constructor
  · intro h
    simp only [hdr, ToEgress.mk.injEq] at h
    exact ⟨h.2.2.1, Prod.ext h.2.1 h.1, h.2.2.2⟩
  · rintro ⟨rfl, rfl, rfl⟩; rfl

theorem ackOf_iff {o : Option Nat} {x : Nat × Bundle} {a : StorageAck} :
    ackOf o x a = true ↔ o = a.outduct ∧ x = (a.id, a.bundle) := by
  simp only [ackOf, Bool.and_eq_true, beq_iff_eq]
  constructor
  · rintro ⟨⟨h1, h2⟩, h3⟩; exact ⟨h2.symm, Prod.ext h1.symm h3.symm⟩
  · rintro ⟨h1, rfl⟩; exact ⟨⟨rfl, h1.symm⟩, rfl⟩

theorem if_toS {m : ToStorage} {i : Nat} (h : m.outduct = some i ∧ m.dontStore = true) (o : Option Nat) (x : Nat × Bundle) :
    (if m = toS o x then 1 else 0) = if o = some i ∧ x = (m.id, m.bundle) then 1 else 0 := by
  refine if_congr ?_ rfl rfl
  constructor
  · rintro rfl; exact ⟨h.1, rfl⟩
  · rintro ⟨rfl, rfl⟩; exact toS_of h

theorem dump_ok {C : Config} {i : Nat} : ∀ {ws qs st st' e}, Storage.dump st i ws qs = .ok (st', e) → StOk C st →
    (∀ m ∈ qs, m.outduct = some i ∧ m.dontStore = true) →
    Local C st st' e qs [] ∧ StOk C st' ∧ st'.infos = st.infos ∧ st'.ready = st.ready
      ∧ st'.routes = st.routes ∧ st'.early = st.early := by
  intro ws
  induction ws with
  | nil =>
    intro qs st st' e h hs hq
    cases qs with
    | nil =>
      simp only [Storage.dump, Res.ok.injEq, Prod.mk.injEq] at h
      obtain ⟨rfl, rfl⟩ := h
      exact ⟨Local.refl C st, hs, rfl, rfl, rfl, rfl⟩
    | cons q qs => simp [Storage.dump] at h
  | cons w ws ih =>
    intro qs st st' e h hs hq
    cases qs with
    | nil => simp [Storage.dump] at h
    | cons q qs =>
      simp only [Storage.dump] at h
      split at h
      · rename_i st₁ lost hw
        split at h
        · rename_i st₂ e₂ hd
          simp only [Res.ok.injEq, Prod.mk.injEq] at h
          obtain ⟨rfl, rfl⟩ := h
          obtain ⟨l₁, s₁, i₁, r₁, rt₁, ea₁⟩ := write_ok hw hs
          obtain ⟨l₂, s₂, i₂, r₂, rt₂, ea₂⟩ := ih hd s₁ (fun m hm => hq m (List.mem_cons_of_mem _ hm))
          refine ⟨?_, s₂, by rw [i₂, i₁], by rw [r₂, r₁], by rw [rt₂, rt₁], by rw [ea₂, ea₁]⟩
          have hq0 := hq q List.mem_cons_self
          constructor
          · intro j x
            have a := l₁.l2 j x
            have b := l₂.l2 j x
            simp only [List.countP_cons, ackOf_iff, List.count_cons, hq0.1, beq_iff_eq, List.countP_nil, List.count_nil] at a b ⊢
            have e := if_toS hq0 (some j) x
            omega
          · intro x
            have a := l₁.l3 x
            have b := l₂.l3 x
            simp only [List.countP_cons, ackOf_iff, List.count_cons, hq0.1, beq_iff_eq, List.countP_nil, List.count_nil] at a b ⊢
            have e := if_toS hq0 none x
            omega
          · intro j x
            have a := l₁.l4 j x
            have b := l₂.l4 j x
            simp [EgressToStorage.answers] at a b ⊢
            omega
          · intro j x
            have a := l₁.l5 j x
            have b := l₂.l5 j x
            simp [EgressToStorage.answers] at a b ⊢
            omega
          · intro x
            have a := l₁.l6 x
            have b := l₂.l6 x
            simp [EgressToStorage.answersDisk] at a b ⊢
            omega
          · intro b'
            have a := l₁.l7 b'
            have b := l₂.l7 b'
            simp only [List.count_append, List.countP_cons, List.countP_nil, List.count_nil, EgressToStorage.finishes,
              EgressToStorage.carries] at a b ⊢
            simp at a b ⊢
            omega
        · exact absurd h (by simp)
        · exact absurd h (by simp)
      · exact absurd h (by simp)
      · exact absurd h (by simp)

theorem setLinkDown_ok {C st i ws st' e} (h : Storage.setLinkDown st i ws = .ok (st', e)) (hs : StOk C st)
    (hi : i < C.outducts) :
    Local C st st' e [] [] ∧ StOk C st' ∧ (∀ j, (st'.infos j).opened = (st.infos j).opened
      ∧ (st'.infos j).cut = (st.infos j).cut ∧ (st'.infos j).bytes = (st.infos j).bytes) ∧ st'.ready = st.ready
      ∧ st'.routes = st.routes ∧ st'.early = st.early
      ∧ (∀ j, (st'.infos j).up = if j = i then false else (st.infos j).up) := by
  unfold Storage.setLinkDown at h
  simp only at h
  split at h
  · rename_i hu
    have hs₁ : StOk C (st.setInfo i { st.infos i with up := false, queue := [] }) := by
      refine ⟨?_, hs.cids, ?_, ?_, ?_, ?_, ?_, ?_⟩ <;> intro j
      · intro m
        by_cases hj : j = i
        · subst hj; rw [setInfo_self]; simp
        · rw [setInfo_other _ _ hj]; exact hs.queue j m
      all_goals
        by_cases hj : j = i
        · subst hj; rw [setInfo_self]
          first
          | (intro hc; omega)
          | exact hs.cutKeys j
          | exact hs.openKeys j
          | exact hs.bytes j
          | exact hs.limit j
          | exact hs.limitBytes j
        · rw [setInfo_other _ _ hj]
          first
          | exact hs.out j
          | exact hs.cutKeys j
          | exact hs.openKeys j
          | exact hs.bytes j
          | exact hs.limit j
          | exact hs.limitBytes j
    obtain ⟨l, s, hin, hr, hrt, hea⟩ := dump_ok h hs₁ (hs.queue i)
    refine ⟨?_, s, ?_, hr, hrt, hea, ?_⟩
    · constructor
      · intro j x
        have := l.l2 j x
        rw [hin] at this ⊢
        by_cases hj : j = i
        · subst hj
          rw [setInfo_self] at this ⊢
          simp only [List.count_nil] at this ⊢
          omega
        · rw [setInfo_other _ _ hj] at this ⊢
          have h0 : (st.infos i).queue.count (toS (some j) x) = 0 := by
            rw [List.count_eq_zero]
            intro hm
            have := (hs.queue i _ hm).1
            simp only [toS, Option.some.injEq] at this
            exact hj this
          simp only [List.count_nil] at this ⊢
          omega
      · intro x
        have := l.l3 x
        have h0 : (st.infos i).queue.count (toS none x) = 0 := by
          rw [List.count_eq_zero]
          intro hm
          have := (hs.queue i _ hm).1
          simp [toS] at this
        simp only [List.count_nil] at this ⊢
        omega
      · intro j x
        have := l.l4 j x
        by_cases hj : j = i
        · subst hj; rw [setInfo_self] at this; exact this
        · rw [setInfo_other _ _ hj] at this; exact this
      · intro j x
        have := l.l5 j x
        by_cases hj : j = i
        · subst hj; rw [setInfo_self] at this; exact this
        · rw [setInfo_other _ _ hj] at this; exact this
      · intro x; exact l.l6 x
      · intro b
        have a := l.l7 b
        have c := queued_setInfo (C := C) (st := st) hi { st.infos i with up := false, queue := [] } b
        simp only [List.countP_nil] at a c ⊢
        have hd : (st.setInfo i { st.infos i with up := false, queue := [] }).disk = st.disk := rfl
        rw [hd] at a
        omega
    · intro j
      rw [hin]
      by_cases hj : j = i
      · subst hj; rw [setInfo_self]; exact ⟨rfl, rfl, rfl⟩
      · rw [setInfo_other _ _ hj]; exact ⟨rfl, rfl, rfl⟩
    · intro j
      rw [hin]
      by_cases hj : j = i
      · subst hj; rw [setInfo_self, if_pos rfl]
      · rw [setInfo_other _ _ hj, if_neg hj]
  · rename_i hu
    split at h
    · simp only [Res.ok.injEq, Prod.mk.injEq] at h
      obtain ⟨rfl, rfl⟩ := h
      refine ⟨Local.refl C st, hs, fun _ => ⟨rfl, rfl, rfl⟩, rfl, rfl, rfl, ?_⟩
      intro j
      split
      · rename_i hj; subst hj; simpa using hu
      · rfl
    · exact absurd h (by simp)

end Hdtn.Node
