import Verif.Node.Bounds

/-!
As long as there is no new route, all bundles go to the outduct that they were sent to egress for.
-/

namespace Hdtn.Node

/-- A step of storage that sends nothing to egress and puts nothing into the cut-through queues. -/
structure Calm (st st' : Storage) (e : Effect) : Prop where
  queue : ∀ i, ∀ m ∈ (st'.infos i).queue, m ∈ (st.infos i).queue
  egress : e.toEgress = []

theorem write_infos {st : Storage} {w b st' lost} (h : st.write w b = .ok (st', lost)) : st'.infos = st.infos ∧ st'.routes = st.routes := by
  unfold Storage.write at h
  split at h
  · simp only [Res.ok.injEq, Prod.mk.injEq] at h; obtain ⟨rfl, _⟩ := h; exact ⟨rfl, rfl⟩
  · split at h
    · simp at h
    · simp only [Res.ok.injEq, Prod.mk.injEq] at h; obtain ⟨rfl, _⟩ := h; exact ⟨rfl, rfl⟩

theorem dump_infos {i ws qs} : ∀ {st : Storage} {st' e}, st.dump i ws qs = .ok (st', e) →
    st'.infos = st.infos ∧ st'.routes = st.routes ∧ e.toEgress = [] := by
  induction ws generalizing qs with
  | nil =>
    intro st st' e h
    cases qs with
    | nil => simp only [Storage.dump, Res.ok.injEq, Prod.mk.injEq] at h; obtain ⟨rfl, rfl⟩ := h; exact ⟨rfl, rfl, rfl⟩
    | cons q qs => simp [Storage.dump] at h
  | cons w ws ih =>
    intro st st' e h
    cases qs with
    | nil => simp [Storage.dump] at h
    | cons q qs =>
      simp only [Storage.dump] at h
      split at h
      · rename_i st₁ lost hw
        split at h
        · rename_i st₂ e₂ hd
          simp only [Res.ok.injEq, Prod.mk.injEq] at h
          obtain ⟨rfl, rfl⟩ := h
          obtain ⟨h1, h2, h3⟩ := ih hd
          obtain ⟨g1, g2⟩ := write_infos hw
          exact ⟨h1.trans g1, h2.trans g2, h3⟩
        · simp at h
        · simp at h
      · simp at h
      · simp at h

theorem setInfo_queue {st : Storage} {i : Nat} {o : Info} (h : ∀ m ∈ o.queue, m ∈ (st.infos i).queue) :
    ∀ j, ∀ m ∈ ((st.setInfo i o).infos j).queue, m ∈ (st.infos j).queue := by
  intro j m hm
  by_cases hj : j = i
  · subst hj; rw [setInfo_self] at hm; exact h m hm
  · rwa [setInfo_other _ _ hj] at hm

theorem setLinkDown_calm {st : Storage} {i ws st' e} (h : st.setLinkDown i ws = .ok (st', e)) :
    Calm st st' e ∧ st'.routes = st.routes := by
  unfold Storage.setLinkDown at h
  simp only at h
  split at h
  · obtain ⟨h1, h2, h3⟩ := dump_infos h
    refine ⟨⟨?_, h3⟩, h2⟩
    rw [h1]
    exact setInfo_queue (by intro m hm; cases hm)
  · split at h
    · simp only [Res.ok.injEq, Prod.mk.injEq] at h; obtain ⟨rfl, rfl⟩ := h; exact ⟨⟨fun _ _ hm => hm, rfl⟩, rfl⟩
    · simp at h

theorem downIf_calm {st : Storage} {p : Prop} [Decidable p] {i ws st' e}
    (h : (if p then st.setLinkDown i ws else Res.ok (st, {})) = .ok (st', e)) : Calm st st' e ∧ st'.routes = st.routes := by
  split at h
  · exact setLinkDown_calm h
  · simp only [Res.ok.injEq, Prod.mk.injEq] at h; obtain ⟨rfl, rfl⟩ := h; exact ⟨⟨fun _ _ hm => hm, rfl⟩, rfl⟩

theorem fromIngress_calm {C : Config} {st : Storage} {m w st' e} (h : st.fromIngress C m w = .ok (st', e)) :
    e.toEgress = [] ∧ st'.routes = st.routes ∧
      (∀ j, ∀ q ∈ (st'.infos j).queue, q ∈ (st.infos j).queue ∨ (q = m ∧ m.outduct = some j)) := by
  unfold Storage.fromIngress at h
  simp only at h
  have hstore : (match st.write w m.bundle with
    | .ok (st, lost) => Res.ok (st, ({ toIngress := [⟨m.id, m.outduct, false, m.bundle⟩], lost := lost } : Effect))
    | .disabled => .disabled
    | .fault => .fault) = .ok (st', e) → e.toEgress = [] ∧ st'.routes = st.routes ∧
      (∀ j, ∀ q ∈ (st'.infos j).queue, q ∈ (st.infos j).queue ∨ (q = m ∧ m.outduct = some j)) := by
    intro h
    split at h
    · rename_i st₁ lost hw
      simp only [Res.ok.injEq, Prod.mk.injEq] at h
      obtain ⟨rfl, rfl⟩ := h
      obtain ⟨g1, g2⟩ := write_infos hw
      exact ⟨rfl, g2, fun j q hq => Or.inl (by rw [g1] at hq; exact hq)⟩
    · simp at h
    · simp at h
  split at h
  · exact hstore h
  · rename_i i hi
    generalize (m.dontStore && _ && _) = c at h
    cases c with
    | false => exact hstore h
    | true =>
      simp only [if_true, Res.ok.injEq, Prod.mk.injEq] at h
      obtain ⟨rfl, rfl⟩ := h
      refine ⟨rfl, rfl, ?_⟩
      intro j q hq
      by_cases hj : j = i
      · subst hj
        rw [setInfo_self] at hq
        rcases List.mem_append.1 hq with hq | hq
        · exact Or.inl hq
        · rw [List.mem_singleton] at hq; exact Or.inr ⟨hq, hi⟩
      · rw [setInfo_other _ _ hj] at hq; exact Or.inl hq

theorem cutAck_calm {st : Storage} {a w ws st' e} (h : st.cutAck a w ws = .ok (st', e)) : Calm st st' e ∧ st'.routes = st.routes := by
  unfold Storage.cutAck at h
  simp only at h
  split at h
  · simp only [Res.ok.injEq, Prod.mk.injEq] at h; obtain ⟨rfl, rfl⟩ := h; exact ⟨⟨fun _ _ hm => hm, rfl⟩, rfl⟩
  · split at h
    · simp only [Res.ok.injEq, Prod.mk.injEq] at h
      obtain ⟨rfl, rfl⟩ := h
      exact ⟨⟨setInfo_queue (by intro m hm; exact hm), rfl⟩, rfl⟩
    · split at h
      · rename_i st₁ lost hw
        obtain ⟨g1, g2⟩ := write_infos hw
        split at h
        · rename_i st₂ e₂ hd
          obtain ⟨d1, d2⟩ := downIf_calm hd
          simp only [Res.ok.injEq, Prod.mk.injEq] at h
          obtain ⟨rfl, rfl⟩ := h
          refine ⟨⟨?_, d1.egress⟩, d2.trans g2⟩
          intro j m hm
          have := d1.queue j m (setInfo_queue (by intro m hm; exact hm) j m hm)
          rwa [g1] at this
        · simp at h
        · simp at h
      · simp at h
      · simp at h

theorem diskAck_calm {st : Storage} {a ws st' e} (h : st.diskAck a ws = .ok (st', e)) : Calm st st' e ∧ st'.routes = st.routes := by
  unfold Storage.diskAck at h
  simp only at h
  split at h
  · simp only [Res.ok.injEq, Prod.mk.injEq] at h; obtain ⟨rfl, rfl⟩ := h; exact ⟨⟨fun _ _ hm => hm, rfl⟩, rfl⟩
  · split at h
    · simp only [Res.ok.injEq, Prod.mk.injEq] at h
      obtain ⟨rfl, rfl⟩ := h
      refine ⟨⟨?_, rfl⟩, rfl⟩
      exact fun j m hm => setInfo_queue (st := { st with disk := _ }) (by intro m hm; exact hm) j m hm
    · split at h
      · rename_i st₂ e₂ hd
        obtain ⟨d1, d2⟩ := downIf_calm hd
        simp only [Res.ok.injEq, Prod.mk.injEq] at h
        obtain ⟨rfl, rfl⟩ := h
        refine ⟨⟨?_, d1.egress⟩, d2⟩
        intro j m hm
        exact d1.queue j m (setInfo_queue (st := { st₂ with disk := _ }) (by intro m hm; exact hm) j m hm)
      · simp at h
      · simp at h

theorem applyEarly_queue (C : Config) (early : List (Nat × Bool)) (infos : Nat → Info) (i : Nat) :
    (applyEarly C early infos i).queue = (infos i).queue := by
  unfold applyEarly
  induction early generalizing infos with
  | nil => rfl
  | cons p l ih =>
    rw [List.foldl_cons, ih]
    split
    · dsimp only
      split
      · rename_i h; rw [h]
      · rfl
    · rfl

theorem fromEgress_calm {C : Config} {st : Storage} {m w ws st' e} (h : st.fromEgress C m w ws = .ok (st', e)) :
    Calm st st' e ∧ (st'.routes = match m with | .capabilities r => r | _ => st.routes) := by
  unfold Storage.fromEgress at h
  cases m with
  | ack a =>
    simp only at h
    split at h
    · split at h
      · split at h
        · exact cutAck_calm h
        · exact diskAck_calm h
      · simp at h
    · simp only [Res.ok.injEq, Prod.mk.injEq] at h; obtain ⟨rfl, rfl⟩ := h; exact ⟨⟨fun _ _ hm => hm, rfl⟩, rfl⟩
  | failed i b =>
    simp only at h
    split at h
    · rename_i st₁ lost hw
      obtain ⟨g1, g2⟩ := write_infos hw
      split at h
      · split at h
        · split at h
          · rename_i st₂ e₂ hd
            obtain ⟨d1, d2⟩ := setLinkDown_calm hd
            simp only [Res.ok.injEq, Prod.mk.injEq] at h
            obtain ⟨rfl, rfl⟩ := h
            refine ⟨⟨?_, d1.egress⟩, d2.trans g2⟩
            intro j m hm
            have := d1.queue j m hm
            rwa [g1] at this
          · simp at h
          · simp at h
        · simp at h
      · simp only [Res.ok.injEq, Prod.mk.injEq] at h
        obtain ⟨rfl, rfl⟩ := h
        exact ⟨⟨fun j m hm => by rwa [g1] at hm, rfl⟩, g2⟩
    · simp at h
    · simp at h
  | capabilities r =>
    simp only [Res.ok.injEq, Prod.mk.injEq] at h
    obtain ⟨rfl, rfl⟩ := h
    exact ⟨⟨fun j m hm => by simpa [applyEarly_queue] using hm, rfl⟩, rfl⟩

theorem link_calm {C : Config} {st : Storage} {i up ws st' e} (h : st.link C i up ws = .ok (st', e)) : Calm st st' e ∧ st'.routes = st.routes := by
  unfold Storage.link at h
  split at h
  · split at h
    · split at h
      · simp only [Res.ok.injEq, Prod.mk.injEq] at h
        obtain ⟨rfl, rfl⟩ := h
        exact ⟨⟨setInfo_queue (by intro m hm; exact hm), rfl⟩, rfl⟩
      · exact setLinkDown_calm h
    · simp only [Res.ok.injEq, Prod.mk.injEq] at h; obtain ⟨rfl, rfl⟩ := h; exact ⟨⟨fun _ _ hm => hm, rfl⟩, rfl⟩
  · simp only [Res.ok.injEq, Prod.mk.injEq] at h; obtain ⟨rfl, rfl⟩ := h; exact ⟨⟨fun _ _ hm => hm, rfl⟩, rfl⟩

/-- A step of storage that sends only what was in the queue for `i`, or is on the disk and goes to `i`. -/
structure Sends (i : Nat) (st st' : Storage) (e : Effect) : Prop where
  queue : ∀ j, ∀ m ∈ (st'.infos j).queue, m ∈ (st.infos j).queue
  egress : ∀ m ∈ e.toEgress, m.outduct = i ∧ ((∃ q ∈ (st.infos i).queue, q.bundle = m.bundle) ∨ st.routes m.bundle.node = some i)
  routes : st'.routes = st.routes

theorem sendCut_sends {st : Storage} {i ok} : Sends i st (st.sendCut i ok).1 (st.sendCut i ok).2 := by
  unfold Storage.sendCut
  simp only
  split
  · exact ⟨fun _ _ hm => hm, fun m hm => by simp at hm, rfl⟩
  · rename_i q rest hq
    have hrest : ∀ m ∈ rest, m ∈ (st.infos i).queue := fun m hm => by rw [hq]; exact List.mem_cons_of_mem _ hm
    have hin : q ∈ (st.infos i).queue := by rw [hq]; exact List.mem_cons_self
    split
    · exact ⟨setInfo_queue hrest, fun m hm => by simp at hm, rfl⟩
    · split
      · refine ⟨setInfo_queue hrest, ?_, rfl⟩
        intro m hm
        rw [List.mem_singleton] at hm; subst hm
        exact ⟨rfl, Or.inl ⟨q, hin, rfl⟩⟩
      · refine ⟨setInfo_queue hrest, ?_, rfl⟩
        intro m hm
        rw [List.mem_singleton] at hm; subst hm
        exact ⟨rfl, Or.inl ⟨q, hin, rfl⟩⟩

theorem sendDisk_sends {st : Storage} {i top room ok} (ht : ∀ e, top = some e → st.routes e.bundle.node = some i) :
    Sends i st (st.sendDisk i top room ok).1 (st.sendDisk i top room ok).2 := by
  unfold Storage.sendDisk
  split
  · exact ⟨fun _ _ hm => hm, fun m hm => by simp at hm, rfl⟩
  · rename_i e
    split
    · exact ⟨fun _ _ hm => hm, fun m hm => by simp at hm, rfl⟩
    · refine ⟨?_, ?_, ?_⟩
      · intro j m hm
        simp only at hm
        split at hm
        · exact hm
        · exact setInfo_queue (st := st) (by intro m hm; exact hm) j m hm
      · intro m hm
        simp only [List.mem_singleton] at hm; subst hm
        exact ⟨rfl, Or.inr (ht e rfl)⟩
      · simp only; split <;> rfl

theorem Sends.trans {i st st₁ st₂ e₁ e₂} (a : Sends i st st₁ e₁) (b : Calm st₁ st₂ e₂) (hr : st₂.routes = st₁.routes) :
    Sends i st st₂ (e₁.and e₂) where
  queue j m hm := a.queue j m (b.queue j m hm)
  egress m hm := by
    rw [effect_and_toEgress, b.egress, List.append_nil] at hm
    exact a.egress m hm
  routes := hr.trans a.routes

theorem storeFront_calm {st : Storage} {i w st' e} (h : st.storeFront i w = .ok (st', e)) : Calm st st' e ∧ st'.routes = st.routes := by
  unfold Storage.storeFront at h
  split at h
  · simp at h
  · rename_i q rest hq
    split at h
    · rename_i st₁ lost hw
      obtain ⟨g1, g2⟩ := write_infos hw
      simp only [Res.ok.injEq, Prod.mk.injEq] at h
      obtain ⟨rfl, rfl⟩ := h
      refine ⟨⟨?_, rfl⟩, g2⟩
      intro j m hm
      have := setInfo_queue (st := st₁) (i := i) (o := { st₁.infos i with queue := rest })
        (fun m hm => by rw [g1, hq]; exact List.mem_cons_of_mem _ hm) j m hm
      rwa [g1] at this
    · simp at h
    · simp at h

theorem prioritySend_sends {st : Storage} {i top room ok w st' e} (ht : ∀ e, top = some e → st.routes e.bundle.node = some i)
    (h : st.prioritySend i top room ok w = .ok (st', e)) : Sends i st st' e := by
  unfold Storage.prioritySend at h
  simp only at h
  split at h
  · simp only [Res.ok.injEq] at h
    have := sendDisk_sends (st := st) (i := i) (room := room) (ok := ok) ht
    rw [h] at this; exact this
  · rename_i q rest hq
    split at h
    · split at h
      · simp only [Res.ok.injEq] at h
        have := sendCut_sends (st := st) (i := i) (ok := ok)
        rw [h] at this; exact this
      · simp only [Res.ok.injEq, Prod.mk.injEq] at h; obtain ⟨rfl, rfl⟩ := h
        exact ⟨fun _ _ hm => hm, fun m hm => by simp at hm, rfl⟩
    · rename_i t
      obtain ⟨fq, hfq⟩ : ∃ fq, fq = (if q.bundle.priority = t.bundle.priority then
        decide (q.bundle.size ≤ room) && (st.infos i).tryCut else decide (q.bundle.priority > t.bundle.priority)) := ⟨_, rfl⟩
      rw [← hfq] at h
      obtain ⟨st₁, hst₁⟩ : ∃ st₁, st₁ = (if q.bundle.priority = t.bundle.priority ∧ decide (q.bundle.size ≤ room) = true then
        st.setInfo i { st.infos i with tryCut := !(st.infos i).tryCut } else st) := ⟨_, rfl⟩
      rw [← hst₁] at h
      have hq₁ : ∀ j, (st₁.infos j).queue = (st.infos j).queue := by
        intro j
        rw [hst₁]
        split
        · by_cases hj : j = i
          · subst hj; rw [setInfo_self]
          · rw [setInfo_other _ _ hj]
        · rfl
      have hr₁ : st₁.routes = st.routes := by rw [hst₁]; split <;> rfl
      have hconv : ∀ {st₂ e₂}, Sends i st₁ st₂ e₂ → Sends i st st₂ e₂ := by
        intro st₂ e₂ hs
        refine ⟨?_, ?_, hs.routes.trans hr₁⟩
        · intro j m hm; have := hs.queue j m hm; rwa [hq₁] at this
        · intro m hm; have := hs.egress m hm; rw [hq₁, hr₁] at this; exact this
      cases fq with
      | true =>
        simp only [if_true] at h
        split at h
        · simp only [Res.ok.injEq] at h
          have := sendCut_sends (st := st₁) (i := i) (ok := ok)
          rw [h] at this; exact hconv this
        · simp only [Res.ok.injEq, Prod.mk.injEq] at h; obtain ⟨rfl, rfl⟩ := h
          exact hconv ⟨fun _ _ hm => hm, fun m hm => by simp at hm, rfl⟩
      | false =>
        simp only [Bool.false_eq_true, if_false] at h
        split at h
        · rename_i st₂ e₂ hd
          simp only [Res.ok.injEq, Prod.mk.injEq] at h; obtain ⟨rfl, rfl⟩ := h
          obtain ⟨c1, c2⟩ := storeFront_calm hd
          exact hconv ((sendDisk_sends (by rw [hr₁]; exact ht)).trans c1 c2)
        · simp at h
        · simp at h

theorem defaultSend_sends {st : Storage} {i top room ok} (ht : ∀ e, top = some e → st.routes e.bundle.node = some i) :
    Sends i st (st.defaultSend i top room ok).1 (st.defaultSend i top room ok).2 := by
  unfold Storage.defaultSend
  simp only
  have any : ∀ c : Bool, Sends i st (if c = true then st.sendCut i ok else st.sendDisk i top room ok).1
      (if c = true then st.sendCut i ok else st.sendDisk i top room ok).2 := by
    intro c
    cases c
    · exact sendDisk_sends ht
    · exact sendCut_sends
  have key := any ((st.infos i).tryCut && match (st.infos i).queue with
      | [] => false
      | q :: _ => decide (q.bundle.size ≤ room))
  refine ⟨?_, key.egress, key.routes⟩
  intro j m hm
  exact key.queue j m (setInfo_queue (by intro m hm; exact hm) j m hm)

theorem release_sends {C : Config} {st : Storage} {i top ok w st' e} (h : st.release C i top ok w = .ok (st', e)) : Sends i st st' e := by
  unfold Storage.release at h
  generalize st.room C i = room at h
  simp only at h
  split at h
  · rename_i hc
    obtain ⟨_, _, _, htop⟩ := hc
    have ht : ∀ e, top = some e → st.routes e.bundle.node = some i := by
      intro e he
      rw [he] at htop
      simp only [Storage.isTop, Bool.and_eq_true, beq_iff_eq] at htop
      exact htop.2
    split at h
    · split at h
      · exact prioritySend_sends ht h
      · simp only [Res.ok.injEq] at h
        have := defaultSend_sends (st := st) (i := i) (room := room) (ok := ok) ht
        rw [h] at this; exact this
    · simp only [Res.ok.injEq, Prod.mk.injEq] at h; obtain ⟨rfl, rfl⟩ := h
      exact ⟨fun _ _ hm => hm, fun m hm => by simp at hm, rfl⟩
  · simp at h

/-- Everything goes where `r` says. -/
structure Straight (r : Routes) (s : State) : Prop where
  routes : s.routes = r
  ing : ∀ n i, s.ingress.routes n = some i → r n = some i
  st : ∀ n i, s.storage.routes n = some i → r n = some i
  ei : ∀ r', .capabilities r' ∈ s.ei → r' = r
  es : ∀ r', .capabilities r' ∈ s.es → r' = r
  threads : ∀ t ∈ s.ingress.threads, ∀ i, t.place = .egress i ∨ t.place = .cut i → r t.bundle.node = some i
  ie : ∀ m ∈ s.ie, r m.bundle.node = some m.outduct
  is : ∀ m ∈ s.is, ∀ i, m.outduct = some i → r m.bundle.node = some i
  queue : ∀ i, ∀ m ∈ (s.storage.infos i).queue, r m.bundle.node = some i
  se : ∀ m ∈ s.se, r m.bundle.node = some m.outduct
  flights : ∀ f ∈ s.flights, f.outduct = f.hdr.outduct

theorem straight_start (r : Routes) : Straight r (start r) := by
  constructor <;> simp [start, Info.empty]

theorem straight_calm {r s is es st e} (h : Straight r s) (hi : ∀ m ∈ is, m ∈ s.is) (he : ∀ m ∈ es, m ∈ s.es) (hc : Calm s.storage st e)
    (hr : st.routes = s.storage.routes ∨ st.routes = r) : Straight r (State.after { s with is := is, es := es } st e) := by
  refine ⟨h.routes, h.ing, ?_, h.ei, fun r' hr' => h.es r' (he _ hr'), h.threads, h.ie, fun m hm => h.is m (hi m hm), ?_, ?_, h.flights⟩
  · rcases hr with hr | hr
    · show ∀ n i, st.routes n = some i → _
      rw [hr]; exact h.st
    · show ∀ n i, st.routes n = some i → _
      rw [hr]; exact fun _ _ h => h
  · exact fun i m hm => h.queue i m (hc.queue i m hm)
  · simp only [State.after, hc.egress, List.append_nil]; exact h.se

theorem arrive_straight {C : Config} {g : Ingress} {b g' lost} {r : Routes} (h : g.arrive C b = .ok (g', lost))
    (hr : ∀ n i, g.routes n = some i → r n = some i)
    (ht : ∀ t ∈ g.threads, ∀ i, t.place = .egress i ∨ t.place = .cut i → r t.bundle.node = some i) :
    g'.routes = g.routes ∧ ∀ t ∈ g'.threads, ∀ i, t.place = .egress i ∨ t.place = .cut i → r t.bundle.node = some i := by
  have hadd : ∀ (t : Thread), (∀ i, t.place = .egress i ∨ t.place = .cut i → r t.bundle.node = some i) →
      ∀ t' ∈ g.threads ++ [t], ∀ i, t'.place = .egress i ∨ t'.place = .cut i → r t'.bundle.node = some i := by
    intro t hp t' ht'
    rcases List.mem_append.1 ht' with ht' | ht'
    · exact ht t' ht'
    · rw [List.mem_singleton] at ht'; subst ht'; exact hp
  have hdisk : ∀ g' lost, (match Ingress.toDisk C { g with nextId := g.nextId + 1 } g.nextId b with
      | some g => Res.ok (g, [])
      | none => .ok ({ g with nextId := g.nextId + 1 }, [b])) = .ok (g', lost) → g'.routes = g.routes ∧
      ∀ t ∈ g'.threads, ∀ i, t.place = .egress i ∨ t.place = .cut i → r t.bundle.node = some i := by
    intro g' lost hd
    split at hd
    · rename_i g₁ h₁
      simp only [Res.ok.injEq, Prod.mk.injEq] at hd; obtain ⟨rfl, rfl⟩ := hd
      simp only [Ingress.toDisk, Option.map_eq_some_iff] at h₁
      obtain ⟨⟨p, s⟩, _, rfl⟩ := h₁
      exact ⟨rfl, hadd _ (by intro i hi; simp at hi)⟩
    · simp only [Res.ok.injEq, Prod.mk.injEq] at hd; obtain ⟨rfl, rfl⟩ := hd
      exact ⟨rfl, ht⟩
  unfold Ingress.arrive at h
  simp only at h
  split at h
  · exact hdisk _ _ h
  · rename_i i hi
    split at h
    · split at h
      · split at h
        · simp only [Res.ok.injEq, Prod.mk.injEq] at h; obtain ⟨rfl, rfl⟩ := h
          refine ⟨rfl, hadd _ ?_⟩
          intro j hj
          simp only [Place.egress.injEq, reduceCtorEq, or_false] at hj
          subst hj; exact hr _ _ hi
        · simp only [Res.ok.injEq, Prod.mk.injEq] at h; obtain ⟨rfl, rfl⟩ := h
          refine ⟨rfl, hadd _ ?_⟩
          intro j hj
          simp only [Place.cut.injEq, reduceCtorEq, false_or] at hj
          subst hj; exact hr _ _ hi
        · exact hdisk _ _ h
      · exact hdisk _ _ h
    · simp at h

theorem push_straight {r C s t k ok} (h : Straight r s) (ht : s.ingress.threads[k]? = some t) :
    Straight r (s.push C t (s.ingress.threads.eraseIdx k) ok) := by
  have hm := List.mem_of_getElem? ht
  have hsub : ∀ t' ∈ s.ingress.threads.eraseIdx k, t' ∈ s.ingress.threads := fun t' h => List.mem_of_mem_eraseIdx h
  have hthreads : ∀ t' ∈ s.ingress.threads.eraseIdx k, ∀ i, t'.place = .egress i ∨ t'.place = .cut i → r t'.bundle.node = some i :=
    fun t' h' => h.threads t' (hsub t' h')
  unfold State.push
  simp only
  split
  · rename_i i hp
    split
    · refine ⟨h.routes, h.ing, h.st, h.ei, h.es, hthreads, ?_, h.is, h.queue, h.se, h.flights⟩
      intro m hm'
      rcases List.mem_append.1 hm' with hm' | hm'
      · exact h.ie m hm'
      · rw [List.mem_singleton] at hm'; subst hm'; exact h.threads t hm i (Or.inl hp)
    · split
      · rename_i g hd
        simp only [Ingress.toDisk, Option.map_eq_some_iff] at hd
        obtain ⟨⟨p, s₁⟩, _, rfl⟩ := hd
        refine ⟨h.routes, h.ing, h.st, h.ei, h.es, ?_, h.ie, h.is, h.queue, h.se, h.flights⟩
        intro t' ht' j hj
        rcases List.mem_append.1 ht' with ht' | ht'
        · exact hthreads t' ht' j hj
        · rw [List.mem_singleton] at ht'; subst ht'; simp at hj
      · exact ⟨h.routes, h.ing, h.st, h.ei, h.es, hthreads, h.ie, h.is, h.queue, h.se, h.flights⟩
  · rename_i i hp
    split
    · refine ⟨h.routes, h.ing, h.st, h.ei, h.es, hthreads, h.ie, ?_, h.queue, h.se, h.flights⟩
      intro m hm' j hj
      rcases List.mem_append.1 hm' with hm' | hm'
      · exact h.is m hm' j hj
      · rw [List.mem_singleton] at hm'; subst hm'
        simp only [Option.some.injEq] at hj; subst hj
        exact h.threads t hm i (Or.inr hp)
    · exact ⟨h.routes, h.ing, h.st, h.ei, h.es, hthreads, h.ie, h.is, h.queue, h.se, h.flights⟩
  · split
    · refine ⟨h.routes, h.ing, h.st, h.ei, h.es, hthreads, h.ie, ?_, h.queue, h.se, h.flights⟩
      intro m hm' j hj
      rcases List.mem_append.1 hm' with hm' | hm'
      · exact h.is m hm' j hj
      · rw [List.mem_singleton] at hm'; subst hm'; simp at hj
    · exact ⟨h.routes, h.ing, h.st, h.ei, h.es, hthreads, h.ie, h.is, h.queue, h.se, h.flights⟩

theorem onFailed_straight {r s m fs err} (h : Straight r s) : Straight r (s.onFailed m fs err) := by
  have hes : ∀ (x : EgressToStorage), (∀ r', x ≠ .capabilities r') → ∀ r', .capabilities r' ∈ s.es ++ [x] → r' = r := by
    intro x hx r' hr'
    rcases List.mem_append.1 hr' with hr' | hr'
    · exact h.es r' hr'
    · rw [List.mem_singleton] at hr'; exact absurd hr'.symm (hx r')
  have hei : ∀ (x : EgressToIngress), (∀ r', x ≠ .capabilities r') → ∀ r', .capabilities r' ∈ s.ei ++ [x] → r' = r := by
    intro x hx r' hr'
    rcases List.mem_append.1 hr' with hr' | hr'
    · exact h.ei r' hr'
    · rw [List.mem_singleton] at hr'; exact absurd hr'.symm (hx r')
  unfold State.onFailed
  split
  · exact ⟨h.routes, h.ing, h.st, h.ei, hes _ (by simp), h.threads, h.ie, h.is, h.queue, h.se, h.flights⟩
  · exact ⟨h.routes, h.ing, h.st, hei _ (by simp), hes _ (by simp), h.threads, h.ie, h.is, h.queue, h.se, h.flights⟩

theorem onSuccess_straight {r s m fs} (h : Straight r s) : Straight r (s.onSuccess m fs) := by
  have hes : ∀ (x : EgressToStorage), (∀ r', x ≠ .capabilities r') → ∀ r', .capabilities r' ∈ s.es ++ [x] → r' = r := by
    intro x hx r' hr'
    rcases List.mem_append.1 hr' with hr' | hr'
    · exact h.es r' hr'
    · rw [List.mem_singleton] at hr'; exact absurd hr'.symm (hx r')
  have hei : ∀ (x : EgressToIngress), (∀ r', x ≠ .capabilities r') → ∀ r', .capabilities r' ∈ s.ei ++ [x] → r' = r := by
    intro x hx r' hr'
    rcases List.mem_append.1 hr' with hr' | hr'
    · exact h.ei r' hr'
    · rw [List.mem_singleton] at hr'; exact absurd hr'.symm (hx r')
  unfold State.onSuccess
  split
  · exact ⟨h.routes, h.ing, h.st, h.ei, hes _ (by simp), h.threads, h.ie, h.is, h.queue, h.se, h.flights⟩
  · exact ⟨h.routes, h.ing, h.st, hei _ (by simp), h.es, h.threads, h.ie, h.is, h.queue, h.se, h.flights⟩

theorem forward_straight {r s m fs moved} (h : Straight r s) (hm : r m.bundle.node = some m.outduct) : Straight r (s.forward m fs moved) := by
  unfold State.forward
  split
  · exact onFailed_straight h
  · rename_i o ho
    split
    · refine ⟨h.routes, h.ing, h.st, h.ei, h.es, h.threads, h.ie, h.is, h.queue, h.se, ?_⟩
      intro f hf
      rcases List.mem_append.1 hf with hf | hf
      · exact h.flights f hf
      · rw [List.mem_singleton] at hf; subst hf
        rw [h.routes, hm] at ho
        exact (Option.some.inj ho).symm
    · exact onFailed_straight h

theorem step_straight {r C s s' a} (h : Straight r s) (hk : a.keepsRoutes = true) (hs : step C s a = .ok s') : Straight r s' := by
  cases a with
  | arrive b =>
    simp only [step] at hs
    split at hs
    · split at hs
      · rename_i g lost ha
        simp only [Res.ok.injEq] at hs
        subst hs
        obtain ⟨h1, h2⟩ := arrive_straight ha h.ing h.threads
        exact ⟨h.routes, by simp only [h1]; exact h.ing, h.st, h.ei, h.es, h2, h.ie, h.is, h.queue, h.se, h.flights⟩
      · simp at hs
      · simp at hs
    · simp at hs
  | push k ok =>
    simp only [step] at hs
    split at hs
    · simp at hs
    · rename_i t ht
      simp only [Res.ok.injEq] at hs
      subst hs
      exact push_straight h ht
  | egressFromIngress moved =>
    simp only [step] at hs
    split at hs
    · simp at hs
    · rename_i m rest he
      simp only [Res.ok.injEq] at hs
      subst hs
      refine forward_straight (s := { s with ie := rest })
        ⟨h.routes, h.ing, h.st, h.ei, h.es, h.threads, ?_, h.is, h.queue, h.se, h.flights⟩ (h.ie m (by rw [he]; exact List.mem_cons_self))
      exact fun m' hm' => h.ie m' (by rw [he]; exact List.mem_cons_of_mem _ hm')
  | egressFromStorage moved =>
    simp only [step] at hs
    split at hs
    · simp at hs
    · rename_i m rest he
      simp only [Res.ok.injEq] at hs
      subst hs
      refine forward_straight (s := { s with se := rest })
        ⟨h.routes, h.ing, h.st, h.ei, h.es, h.threads, h.ie, h.is, h.queue, ?_, h.flights⟩ (h.se m (by rw [he]; exact List.mem_cons_self))
      exact fun m' hm' => h.se m' (by rw [he]; exact List.mem_cons_of_mem _ hm')
  | sent k =>
    simp only [step] at hs
    split at hs
    · simp at hs
    · simp only [Res.ok.injEq] at hs
      subst hs
      refine onSuccess_straight (s := { s with flights := s.flights.eraseIdx k })
        ⟨h.routes, h.ing, h.st, h.ei, h.es, h.threads, h.ie, h.is, h.queue, h.se, ?_⟩
      exact fun f hf => h.flights f (List.mem_of_mem_eraseIdx hf)
  | unsent k =>
    simp only [step] at hs
    split at hs
    · simp at hs
    · simp only [Res.ok.injEq] at hs
      subst hs
      refine onFailed_straight (s := { s with flights := s.flights.eraseIdx k })
        ⟨h.routes, h.ing, h.st, h.ei, h.es, h.threads, h.ie, h.is, h.queue, h.se, ?_⟩
      exact fun f hf => h.flights f (List.mem_of_mem_eraseIdx hf)
  | ingressFromEgress =>
    simp only [step] at hs
    split at hs
    · simp at hs
    · rename_i a rest he
      have hei : ∀ r', .capabilities r' ∈ rest → r' = r := fun r' hr' => h.ei r' (by rw [he]; exact List.mem_cons_of_mem _ hr')
      split at hs
      · rename_i g hg
        simp only [Res.ok.injEq] at hs
        subst hs
        unfold Ingress.egressAck at hg
        simp only at hg
        split at hg
        · simp only [Res.ok.injEq] at hg
          subst hg
          exact ⟨h.routes, h.ing, h.st, hei, h.es, h.threads, h.ie, h.is, h.queue, h.se, h.flights⟩
        · simp at hg
      · simp at hs
      · simp at hs
    · rename_i r' rest he
      have hei : ∀ r', .capabilities r' ∈ rest → r' = r := fun r' hr' => h.ei r' (by rw [he]; exact List.mem_cons_of_mem _ hr')
      have hr' := h.ei r' (by rw [he]; exact List.mem_cons_self)
      simp only [Res.ok.injEq] at hs
      subst hs
      exact ⟨h.routes, by subst hr'; exact fun _ _ h => h, h.st, hei, h.es, h.threads, h.ie, h.is, h.queue, h.se, h.flights⟩
  | ingressFromStorage =>
    simp only [step] at hs
    split at hs
    · simp at hs
    · rename_i a rest he
      split at hs
      · rename_i g hg
        simp only [Res.ok.injEq] at hs
        subst hs
        unfold Ingress.storageAck at hg
        split at hg
        · simp only [Res.ok.injEq] at hg
          subst hg
          exact ⟨h.routes, h.ing, h.st, h.ei, h.es, h.threads, h.ie, h.is, h.queue, h.se, h.flights⟩
        · simp only at hg
          split at hg
          · simp only [Res.ok.injEq] at hg
            subst hg
            exact ⟨h.routes, h.ing, h.st, h.ei, h.es, h.threads, h.ie, h.is, h.queue, h.se, h.flights⟩
          · simp at hg
      · simp at hs
      · simp at hs
  | storageFromIngress w =>
    simp only [step] at hs
    split at hs
    · simp at hs
    · rename_i m rest he
      obtain ⟨st, e, h1, rfl⟩ := after_ok hs
      obtain ⟨c1, c2, c3⟩ := fromIngress_calm h1
      refine ⟨h.routes, h.ing, ?_, h.ei, h.es, h.threads, h.ie, ?_, ?_, ?_, h.flights⟩
      · show ∀ n i, st.routes n = some i → _
        rw [c2]; exact h.st
      · exact fun m' hm' => h.is m' (by rw [he]; exact List.mem_cons_of_mem _ hm')
      · intro i q hq
        rcases c3 i q hq with hq | ⟨rfl, hm⟩
        · exact h.queue i q hq
        · exact h.is q (by rw [he]; exact List.mem_cons_self) i hm
      · simp only [State.after, c1, List.append_nil]; exact h.se
  | storageFromEgress w ws =>
    simp only [step] at hs
    split at hs
    · simp at hs
    · rename_i m rest he
      obtain ⟨st, e, h1, rfl⟩ := after_ok hs
      obtain ⟨c1, c2⟩ := fromEgress_calm h1
      refine straight_calm (s := s) (is := s.is) (es := rest) h (fun _ h => h)
        (fun m' hm' => by rw [he]; exact List.mem_cons_of_mem _ hm') c1 ?_
      cases m with
      | ack a => exact Or.inl c2
      | failed i b => exact Or.inl c2
      | capabilities r' =>
        simp only at c2
        exact Or.inr (c2.trans (h.es r' (by rw [he]; exact List.mem_cons_self)))
  | linkIngress i up =>
    simp only [step, Res.ok.injEq] at hs
    subst hs
    unfold Ingress.link
    split
    · exact ⟨h.routes, h.ing, h.st, h.ei, h.es, h.threads, h.ie, h.is, h.queue, h.se, h.flights⟩
    · exact h
  | linkStorage i up ws =>
    obtain ⟨st, e, h1, rfl⟩ := after_ok hs
    obtain ⟨c1, c2⟩ := link_calm h1
    exact straight_calm (s := s) (is := s.is) (es := s.es) h (fun _ h => h) (fun _ h => h) c1 (Or.inl c2)
  | reroute node o => simp [Act.keepsRoutes] at hk
  | release i top ok w =>
    obtain ⟨st, e, h1, rfl⟩ := after_ok hs
    have hsend := release_sends h1
    refine ⟨h.routes, h.ing, ?_, h.ei, h.es, h.threads, h.ie, h.is, ?_, ?_, h.flights⟩
    · show ∀ n i, st.routes n = some i → _
      rw [hsend.routes]; exact h.st
    · exact fun j m hm => h.queue j m (hsend.queue j m hm)
    · intro m hm
      rcases List.mem_append.1 hm with hm | hm
      · exact h.se m hm
      · obtain ⟨h1, h2⟩ := hsend.egress m hm
        rw [h1]
        rcases h2 with ⟨q, hq, hb⟩ | h2
        · rw [← hb]; exact h.queue i q hq
        · exact h.st _ _ h2
  | expire cid =>
    simp only [step] at hs
    split at hs
    · simp at hs
    · simp only [Res.ok.injEq] at hs
      subst hs
      exact ⟨h.routes, h.ing, h.st, h.ei, h.es, h.threads, h.ie, h.is, h.queue, h.se, h.flights⟩
  | timeout cid =>
    simp only [step] at hs
    split at hs
    · simp at hs
    · simp only [Res.ok.injEq] at hs
      subst hs
      exact ⟨h.routes, h.ing, h.st, h.ei, h.es, h.threads, h.ie, h.is, h.queue, h.se, h.flights⟩
  | custodySignal cid =>
    simp only [step] at hs
    split at hs
    · simp at hs
    · split at hs
      · simp only [Res.ok.injEq] at hs
        subst hs
        exact ⟨h.routes, h.ing, h.st, h.ei, h.es, h.threads, h.ie, h.is, h.queue, h.se, h.flights⟩
      · simp at hs

theorem run_straight {r C as s s'} (h : Straight r s) (hk : ∀ a ∈ as, Act.keepsRoutes a = true) (hr : run C s as = .ok s') : Straight r s' := by
  induction as generalizing s with
  | nil => simp only [run, Res.ok.injEq] at hr; subst hr; exact h
  | cons a as ih =>
    simp only [run] at hr
    split at hr
    · rename_i s₁ h₁
      exact ih (step_straight h (hk a List.mem_cons_self) h₁) (fun a' h' => hk a' (List.mem_cons_of_mem _ h')) hr
    · simp at hr
    · simp at hr

/-- The bundles in an outduct are among those at egress for it. -/
theorem inOutduct_bound {r C s} (h : Inv C s) (hs : Straight r s) (i : Nat) :
    (inOutduct s i).length ≤ C.maxBundles i ∧ bytes (inOutduct s i) ≤ C.maxBytes i := by
  have hb := atEgress_bound h i
  have hfil : s.flights.filter (·.outduct == i) = s.flights.filter (·.hdr.outduct == i) := by
    refine List.filter_congr ?_
    intro f hf
    rw [hs.flights f hf]
  have hsub : (inOutduct s i).Sublist (atEgress s i) := by
    simp only [inOutduct, atEgress, List.filter_append, List.map_append, List.filter_map, List.map_map, hfil]
    exact List.sublist_append_right _ _
  exact ⟨Nat.le_trans hsub.length_le hb.1, Nat.le_trans (sublist_sum (hsub.map _)) hb.2⟩

end Hdtn.Node
