import Verif.Node.Account

/-!
When bundles are lost, and when a reservation gets stuck.
-/

namespace Hdtn.Node

theorem write_lost {st : Storage} {w b st' lost} (h : st.write w b = .ok (st', lost)) (hw : w ≠ none) : lost = [] := by
  unfold Storage.write at h
  split at h
  · exact absurd rfl hw
  · split at h
    · simp at h
    · simp only [Res.ok.injEq, Prod.mk.injEq] at h; exact h.2.symm

theorem dump_loss {i ws qs} : ∀ {st : Storage} {st' e}, st.dump i ws qs = .ok (st', e) → (none ∉ ws → e.lost = []) ∧ e.stuck = [] := by
  induction ws generalizing qs with
  | nil =>
    intro st st' e h
    cases qs with
    | nil => simp only [Storage.dump, Res.ok.injEq, Prod.mk.injEq] at h; obtain ⟨rfl, rfl⟩ := h; exact ⟨fun _ => rfl, rfl⟩
    | cons q qs => simp [Storage.dump] at h
  | cons w ws ih =>
    intro st st' e h
    cases qs with
    | nil => simp [Storage.dump] at h
    | cons q qs =>
      simp only [Storage.dump] at h
      split at h
      · rename_i st₁ lost hw
        split at h
        · rename_i st₂ e₂ hd
          simp only [Res.ok.injEq, Prod.mk.injEq] at h
          obtain ⟨rfl, rfl⟩ := h
          obtain ⟨h1, h2⟩ := ih hd
          refine ⟨?_, h2⟩
          intro hn
          rw [List.mem_cons, not_or] at hn
          simp only [write_lost hw (Ne.symm hn.1), h1 hn.2, List.append_nil]
        · simp at h
        · simp at h
      · simp at h
      · simp at h

theorem setLinkDown_loss {st : Storage} {i ws st' e} (h : st.setLinkDown i ws = .ok (st', e)) : (none ∉ ws → e.lost = []) ∧ e.stuck = [] := by
  unfold Storage.setLinkDown at h
  simp only at h
  split at h
  · exact dump_loss h
  · split at h
    · simp only [Res.ok.injEq, Prod.mk.injEq] at h; obtain ⟨rfl, rfl⟩ := h; exact ⟨fun _ => rfl, rfl⟩
    · simp at h

theorem downIf_loss {st : Storage} {p : Prop} [Decidable p] {i ws st' e}
    (h : (if p then st.setLinkDown i ws else Res.ok (st, {})) = .ok (st', e)) : (none ∉ ws → e.lost = []) ∧ e.stuck = [] := by
  split at h
  · exact setLinkDown_loss h
  · simp only [Res.ok.injEq, Prod.mk.injEq] at h; obtain ⟨rfl, rfl⟩ := h; exact ⟨fun _ => rfl, rfl⟩

theorem fromIngress_loss {C : Config} {st : Storage} {m w st' e} (h : st.fromIngress C m w = .ok (st', e)) :
    (w ≠ none → e.lost = []) ∧ e.stuck = [] := by
  unfold Storage.fromIngress at h
  simp only at h
  have hstore : (match st.write w m.bundle with
    | .ok (st, lost) => Res.ok (st, ({ toIngress := [⟨m.id, m.outduct, false, m.bundle⟩], lost := lost } : Effect))
    | .disabled => .disabled
    | .fault => .fault) = .ok (st', e) → (w ≠ none → e.lost = []) ∧ e.stuck = [] := by
    intro h
    split at h
    · rename_i st₁ lost hw
      simp only [Res.ok.injEq, Prod.mk.injEq] at h
      obtain ⟨rfl, rfl⟩ := h
      exact ⟨fun hn => write_lost hw hn, rfl⟩
    · simp at h
    · simp at h
  split at h
  · exact hstore h
  · generalize (m.dontStore && _ && _) = c at h
    cases c with
    | false => exact hstore h
    | true =>
      simp only [if_true, Res.ok.injEq, Prod.mk.injEq] at h
      obtain ⟨rfl, rfl⟩ := h
      exact ⟨fun _ => rfl, rfl⟩

theorem cutAck_loss {st : Storage} {a w ws st' e} (h : st.cutAck a w ws = .ok (st', e)) :
    (w ≠ none → none ∉ ws → e.lost = []) ∧ e.stuck = [] := by
  unfold Storage.cutAck at h
  simp only at h
  split at h
  · simp only [Res.ok.injEq, Prod.mk.injEq] at h; obtain ⟨rfl, rfl⟩ := h; exact ⟨fun _ _ => rfl, rfl⟩
  · split at h
    · simp only [Res.ok.injEq, Prod.mk.injEq] at h
      obtain ⟨rfl, rfl⟩ := h
      exact ⟨fun _ _ => rfl, rfl⟩
    · split at h
      · rename_i st₁ lost hw
        split at h
        · rename_i st₂ e₂ hd
          obtain ⟨d1, d2⟩ := downIf_loss hd
          simp only [Res.ok.injEq, Prod.mk.injEq] at h
          obtain ⟨rfl, rfl⟩ := h
          refine ⟨fun hn hns => ?_, d2⟩
          simp only [write_lost hw hn, d1 hns, List.append_nil]
        · simp at h
        · simp at h
      · simp at h
      · simp at h

theorem diskAck_loss {st : Storage} {a ws st' e} (h : st.diskAck a ws = .ok (st', e)) : (none ∉ ws → e.lost = []) ∧ e.stuck = [] := by
  unfold Storage.diskAck at h
  simp only at h
  split at h
  · simp only [Res.ok.injEq, Prod.mk.injEq] at h; obtain ⟨rfl, rfl⟩ := h; exact ⟨fun _ => rfl, rfl⟩
  · split at h
    · simp only [Res.ok.injEq, Prod.mk.injEq] at h
      obtain ⟨rfl, rfl⟩ := h
      exact ⟨fun _ => rfl, rfl⟩
    · split at h
      · rename_i st₂ e₂ hd
        have := downIf_loss hd
        simp only [Res.ok.injEq, Prod.mk.injEq] at h
        obtain ⟨rfl, rfl⟩ := h
        exact this
      · simp at h
      · simp at h

theorem fromEgress_loss {C : Config} {st : Storage} {m w ws st' e} (h : st.fromEgress C m w ws = .ok (st', e)) :
    (w ≠ none → none ∉ ws → e.lost = []) ∧ e.stuck = [] := by
  unfold Storage.fromEgress at h
  cases m with
  | ack a =>
    simp only at h
    split at h
    · split at h
      · split at h
        · exact cutAck_loss h
        · exact ⟨fun _ => (diskAck_loss h).1, (diskAck_loss h).2⟩
      · simp at h
    · simp only [Res.ok.injEq, Prod.mk.injEq] at h; obtain ⟨rfl, rfl⟩ := h; exact ⟨fun _ _ => rfl, rfl⟩
  | failed i b =>
    simp only at h
    split at h
    · rename_i st₁ lost hw
      split at h
      · split at h
        · split at h
          · rename_i st₂ e₂ hd
            obtain ⟨d1, d2⟩ := setLinkDown_loss hd
            simp only [Res.ok.injEq, Prod.mk.injEq] at h
            obtain ⟨rfl, rfl⟩ := h
            refine ⟨fun hn hns => ?_, d2⟩
            simp only [write_lost hw hn, d1 hns, List.append_nil]
          · simp at h
          · simp at h
        · simp at h
      · simp only [Res.ok.injEq, Prod.mk.injEq] at h
        obtain ⟨rfl, rfl⟩ := h
        exact ⟨fun hn _ => write_lost hw hn, rfl⟩
    · simp at h
    · simp at h
  | capabilities r =>
    simp only [Res.ok.injEq, Prod.mk.injEq] at h
    obtain ⟨rfl, rfl⟩ := h
    exact ⟨fun _ _ => rfl, rfl⟩

theorem link_loss {C : Config} {st : Storage} {i up ws st' e} (h : st.link C i up ws = .ok (st', e)) :
    (none ∉ ws → e.lost = []) ∧ e.stuck = [] := by
  unfold Storage.link at h
  split at h
  · split at h
    · split at h
      · simp only [Res.ok.injEq, Prod.mk.injEq] at h
        obtain ⟨rfl, rfl⟩ := h
        exact ⟨fun _ => rfl, rfl⟩
      · exact setLinkDown_loss h
    · simp only [Res.ok.injEq, Prod.mk.injEq] at h; obtain ⟨rfl, rfl⟩ := h; exact ⟨fun _ => rfl, rfl⟩
  · simp only [Res.ok.injEq, Prod.mk.injEq] at h; obtain ⟨rfl, rfl⟩ := h; exact ⟨fun _ => rfl, rfl⟩

theorem sendCut_loss {st : Storage} {i} (hf : ∀ q ∈ (st.infos i).queue, (st.infos i).cut.lookup q.id = none) :
    (st.sendCut i true).2.lost = [] ∧ (st.sendCut i true).2.stuck = [] := by
  unfold Storage.sendCut
  simp only
  split
  · exact ⟨rfl, rfl⟩
  · rename_i q rest hq
    have := hf q (by rw [hq]; exact List.mem_cons_self)
    rw [this]
    exact ⟨rfl, rfl⟩

theorem sendDisk_loss {st : Storage} {i top room ok} : (st.sendDisk i top room ok).2.lost = [] ∧ (st.sendDisk i top room ok).2.stuck = [] := by
  unfold Storage.sendDisk
  split
  · exact ⟨rfl, rfl⟩
  · split <;> exact ⟨rfl, rfl⟩

theorem sendDisk_infos_cut {st : Storage} {i top room ok j} : ((st.sendDisk i top room ok).1.infos j).queue = (st.infos j).queue := by
  unfold Storage.sendDisk
  split
  · rfl
  · split
    · rfl
    · simp only
      split
      · rfl
      · by_cases hj : j = i
        · subst hj; rw [setInfo_self]
        · rw [setInfo_other _ _ hj]

theorem storeFront_loss {st : Storage} {i w st' e} (h : st.storeFront i w = .ok (st', e)) : (w ≠ none → e.lost = []) ∧ e.stuck = [] := by
  unfold Storage.storeFront at h
  split at h
  · simp at h
  · split at h
    · rename_i st₁ lost hw
      simp only [Res.ok.injEq, Prod.mk.injEq] at h
      obtain ⟨rfl, rfl⟩ := h
      exact ⟨fun hn => write_lost hw hn, rfl⟩
    · simp at h
    · simp at h

theorem prioritySend_loss {st : Storage} {i top room w st' e} (h : st.prioritySend i top room true w = .ok (st', e))
    (hf : ∀ q ∈ (st.infos i).queue, (st.infos i).cut.lookup q.id = none) : (w ≠ none → e.lost = []) ∧ e.stuck = [] := by
  unfold Storage.prioritySend at h
  simp only at h
  split at h
  · simp only [Res.ok.injEq] at h
    have := sendDisk_loss (st := st) (i := i) (top := top) (room := room) (ok := true)
    rw [h] at this; exact ⟨fun _ => this.1, this.2⟩
  · rename_i q rest hq
    split at h
    · split at h
      · simp only [Res.ok.injEq] at h
        have := sendCut_loss hf
        rw [h] at this; exact ⟨fun _ => this.1, this.2⟩
      · simp only [Res.ok.injEq, Prod.mk.injEq] at h; obtain ⟨rfl, rfl⟩ := h; exact ⟨fun _ => rfl, rfl⟩
    · rename_i t
      obtain ⟨fq, hfq⟩ : ∃ fq, fq = (if q.bundle.priority = t.bundle.priority then
        decide (q.bundle.size ≤ room) && (st.infos i).tryCut else decide (q.bundle.priority > t.bundle.priority)) := ⟨_, rfl⟩
      rw [← hfq] at h
      obtain ⟨st₁, hst₁⟩ : ∃ st₁, st₁ = (if q.bundle.priority = t.bundle.priority ∧ decide (q.bundle.size ≤ room) = true then
        st.setInfo i { st.infos i with tryCut := !(st.infos i).tryCut } else st) := ⟨_, rfl⟩
      rw [← hst₁] at h
      have hf₁ : ∀ q ∈ (st₁.infos i).queue, (st₁.infos i).cut.lookup q.id = none := by
        rw [hst₁]
        split
        · rw [setInfo_self]; exact hf
        · exact hf
      cases fq with
      | true =>
        simp only [if_true] at h
        split at h
        · simp only [Res.ok.injEq] at h
          have := sendCut_loss hf₁
          rw [h] at this; exact ⟨fun _ => this.1, this.2⟩
        · simp only [Res.ok.injEq, Prod.mk.injEq] at h; obtain ⟨rfl, rfl⟩ := h; exact ⟨fun _ => rfl, rfl⟩
      | false =>
        simp only [Bool.false_eq_true, if_false] at h
        split at h
        · rename_i st₂ e₂ hd
          simp only [Res.ok.injEq, Prod.mk.injEq] at h; obtain ⟨rfl, rfl⟩ := h
          obtain ⟨c1, c2⟩ := storeFront_loss hd
          have := sendDisk_loss (st := st₁) (i := i) (top := some t) (room := room) (ok := true)
          rw [effect_and_lost, effect_and_stuck, this.1, this.2, c2]
          exact ⟨fun hn => c1 hn, rfl⟩
        · simp at h
        · simp at h

theorem defaultSend_loss {st : Storage} {i top room}
    (hf : ∀ q ∈ (st.infos i).queue, (st.infos i).cut.lookup q.id = none) :
    (st.defaultSend i top room true).2.lost = [] ∧ (st.defaultSend i top room true).2.stuck = [] := by
  have any : ∀ c : Bool, (if c = true then st.sendCut i true else st.sendDisk i top room true).2.lost = [] ∧
      (if c = true then st.sendCut i true else st.sendDisk i top room true).2.stuck = [] := by
    intro c
    cases c
    · exact sendDisk_loss
    · exact sendCut_loss hf
  have key := any ((st.infos i).tryCut && match (st.infos i).queue with
    | [] => false
    | q :: _ => decide (q.bundle.size ≤ room))
  exact key

theorem release_loss {C : Config} {st : Storage} {i top w st' e} (h : st.release C i top true w = .ok (st', e))
    (hf : ∀ q ∈ (st.infos i).queue, (st.infos i).cut.lookup q.id = none) : (w ≠ none → e.lost = []) ∧ e.stuck = [] := by
  unfold Storage.release at h
  generalize st.room C i = room at h
  simp only at h
  split at h
  · split at h
    · split at h
      · exact prioritySend_loss h hf
      · simp only [Res.ok.injEq] at h
        have := defaultSend_loss (top := top) (room := room) hf
        rw [h] at this
        exact ⟨fun _ => this.1, this.2⟩
    · simp only [Res.ok.injEq, Prod.mk.injEq] at h; obtain ⟨rfl, rfl⟩ := h; exact ⟨fun _ => rfl, rfl⟩
  · simp at h

theorem keys_count {m : Map} (hk : m.Keys) (x : Nat × Bundle) : m.count x ≤ 1 :=
  List.nodup_iff_count_le_one.1 (List.Nodup.of_map _ hk) x

/-- A bundle in the queue is not also at egress. -/
theorem queue_fresh {C s} (h : Inv C s) (i : Nat) : ∀ q ∈ (s.storage.infos i).queue, (s.storage.infos i).cut.lookup q.id = none := by
  intro q hq
  cases hl : (s.storage.infos i).cut.lookup q.id with
  | none => rfl
  | some b =>
    exfalso
    have hb : (q.id, b) ∈ (s.storage.infos i).cut := lookup_mem hl
    have hq' : q = toS (some i) (q.id, q.bundle) := by
      obtain ⟨h1, h2⟩ := h.st.queue i q hq
      cases q
      simp only at h1 h2
      rw [h1, h2]
      rfl
    have c1 : 0 < (s.storage.infos i).queue.count (toS (some i) (q.id, q.bundle)) := by
      rw [← hq']; exact List.count_pos_iff.2 hq
    have c2 : 0 < (s.storage.infos i).cut.count (q.id, b) := List.count_pos_iff.2 hb
    have a1 := h.i2 i (q.id, q.bundle)
    have a2 := h.i2 i (q.id, b)
    have m1 : (q.id, q.bundle) ∈ (s.ingress.sets i).storage := List.count_pos_iff.1 (by omega)
    have m2 : (q.id, b) ∈ (s.ingress.sets i).storage := List.count_pos_iff.1 (by omega)
    have he := keys_unique (h.ing.sets i).sKeys m1 m2
    subst he
    have := keys_count (h.ing.sets i).sKeys (q.id, q.bundle)
    omega

theorem after_lost {s : State} {st e} (h : e.lost = []) : (s.after st e).lost = s.lost := by
  simp [State.after, h]

theorem after_stuck {s : State} {st e} (h : e.stuck = []) : (s.after st e).stuck = s.stuck := by
  simp [State.after, h]

theorem toDisk_room {C : Config} {g : Ingress} {id b} (h : g.toDisk C id b = none) :
    5 ≤ g.single.storage.length ∨ C.maxBundleSize < g.single.storageBytes + b.size := by
  simp only [Ingress.toDisk, Option.map_eq_none_iff, AckSet.reserve, hasRoom, Bool.false_and, Bool.false_eq_true, if_false,
    Bool.true_and, Bool.and_eq_true, decide_eq_true_eq] at h
  split at h
  · simp at h
  · omega

theorem arrive_lost {C : Config} {g : Ingress} {b g' lost} (h : g.arrive C b = .ok (g', lost)) :
    lost = [] ∨ (lost = [b] ∧ (5 ≤ g.single.storage.length ∨ C.maxBundleSize < g.single.storageBytes + b.size)) := by
  have hdisk : ∀ g' lost, (match Ingress.toDisk C { g with nextId := g.nextId + 1 } g.nextId b with
      | some g => Res.ok (g, [])
      | none => .ok ({ g with nextId := g.nextId + 1 }, [b])) = .ok (g', lost) →
      lost = [] ∨ (lost = [b] ∧ (5 ≤ g.single.storage.length ∨ C.maxBundleSize < g.single.storageBytes + b.size)) := by
    intro g' lost hd
    split at hd
    · simp only [Res.ok.injEq, Prod.mk.injEq] at hd
      exact Or.inl hd.2.symm
    · rename_i hn
      simp only [Res.ok.injEq, Prod.mk.injEq] at hd
      exact Or.inr ⟨hd.2.symm, toDisk_room (g := { g with nextId := g.nextId + 1 }) hn⟩
  unfold Ingress.arrive at h
  simp only at h
  split at h
  · exact hdisk _ _ h
  · split at h
    · split at h
      · split at h
        · simp only [Res.ok.injEq, Prod.mk.injEq] at h; exact Or.inl h.2.symm
        · simp only [Res.ok.injEq, Prod.mk.injEq] at h; exact Or.inl h.2.symm
        · exact hdisk _ _ h
      · exact hdisk _ _ h
    · simp at h

theorem forward_lost (s : State) (h : ToEgress) (fs moved : Bool) :
    (s.forward h fs moved).lost = s.lost ∧ (s.forward h fs moved).stuck = s.stuck ∧ (s.forward h fs moved).accepted = s.accepted ∧
      (s.forward h fs moved).delivered = s.delivered := by
  unfold State.forward State.onFailed
  split
  · split <;> exact ⟨rfl, rfl, rfl, rfl⟩
  · split
    · exact ⟨rfl, rfl, rfl, rfl⟩
    · split <;> exact ⟨rfl, rfl, rfl, rfl⟩

theorem onFailed_lost (s : State) (h : ToEgress) (fs : Bool) (e : AckError) :
    (s.onFailed h fs e).lost = s.lost ∧ (s.onFailed h fs e).stuck = s.stuck ∧ (s.onFailed h fs e).accepted = s.accepted ∧
      (s.onFailed h fs e).delivered = s.delivered := by
  unfold State.onFailed
  split <;> exact ⟨rfl, rfl, rfl, rfl⟩

theorem onSuccess_lost (s : State) (h : ToEgress) (fs : Bool) :
    (s.onSuccess h fs).lost = s.lost ∧ (s.onSuccess h fs).stuck = s.stuck ∧ (s.onSuccess h fs).accepted = s.accepted ∧
      (s.onSuccess h fs).delivered = s.delivered ++ [h.bundle] := by
  unfold State.onSuccess
  split <;> exact ⟨rfl, rfl, rfl, rfl⟩

theorem push_lost {C s t l} : (State.push C s t l true).lost = s.lost := by
  unfold State.push
  simp only [if_true]
  split <;> rfl

theorem push_same {C s t l ok} : (State.push C s t l ok).stuck = s.stuck ∧ (State.push C s t l ok).accepted = s.accepted ∧
    (State.push C s t l ok).delivered = s.delivered := by
  unfold State.push
  simp only
  split
  · split
    · exact ⟨rfl, rfl, rfl⟩
    · split <;> exact ⟨rfl, rfl, rfl⟩
  · split <;> exact ⟨rfl, rfl, rfl⟩
  · split <;> exact ⟨rfl, rfl, rfl⟩

/-- Bundles are lost, and reservations get stuck, only when something goes wrong. -/
theorem step_lost {C s s' a} (h : Inv C s) (hs : step C s a = .ok s') (hf : ¬ Fails C s a) : s'.lost = s.lost ∧ s'.stuck = s.stuck := by
  cases a with
  | arrive b =>
    simp only [step] at hs
    split at hs
    · split at hs
      · rename_i g lost ha
        simp only [Res.ok.injEq] at hs
        subst hs
        have h0 := single_eq h
        simp only [Fails, ← h0.1, ← h0.2] at hf
        rcases arrive_lost ha with rfl | ⟨_, hr⟩
        · simp
        · exact absurd hr hf
      · simp at hs
      · simp at hs
    · simp at hs
  | push k ok =>
    simp only [step] at hs
    split at hs
    · simp at hs
    · simp only [Res.ok.injEq] at hs
      subst hs
      simp only [Fails, Bool.not_eq_false] at hf
      subst hf
      exact ⟨push_lost, push_same.1⟩
  | egressFromIngress moved =>
    simp only [step] at hs
    split at hs
    · simp at hs
    · simp only [Res.ok.injEq] at hs
      subst hs
      have := forward_lost { s with ie := ‹_› } ‹_› false moved
      exact ⟨this.1, this.2.1⟩
  | egressFromStorage moved =>
    simp only [step] at hs
    split at hs
    · simp at hs
    · simp only [Res.ok.injEq] at hs
      subst hs
      have := forward_lost { s with se := ‹_› } ‹_› true moved
      exact ⟨this.1, this.2.1⟩
  | sent k =>
    simp only [step] at hs
    split at hs
    · simp at hs
    · rename_i f hk
      simp only [Res.ok.injEq] at hs
      subst hs
      have := onSuccess_lost { s with flights := s.flights.eraseIdx k } f.hdr f.fromStorage
      exact ⟨this.1, this.2.1⟩
  | unsent k =>
    simp only [step] at hs
    split at hs
    · simp at hs
    · rename_i f hk
      simp only [Res.ok.injEq] at hs
      subst hs
      have := onFailed_lost { s with flights := s.flights.eraseIdx k } f.hdr f.fromStorage .linkDown
      exact ⟨this.1, this.2.1⟩
  | ingressFromEgress =>
    simp only [step] at hs
    split at hs
    · simp at hs
    · split at hs
      · simp only [Res.ok.injEq] at hs; subst hs; exact ⟨rfl, rfl⟩
      · simp at hs
      · simp at hs
    · simp only [Res.ok.injEq] at hs; subst hs; exact ⟨rfl, rfl⟩
  | ingressFromStorage =>
    simp only [step] at hs
    split at hs
    · simp at hs
    · split at hs
      · simp only [Res.ok.injEq] at hs; subst hs; exact ⟨rfl, rfl⟩
      · simp at hs
      · simp at hs
  | storageFromIngress w =>
    simp only [step] at hs
    split at hs
    · simp at hs
    · obtain ⟨st, e, h1, rfl⟩ := after_ok hs
      have := fromIngress_loss h1
      exact ⟨after_lost (this.1 hf), after_stuck this.2⟩
  | storageFromEgress w ws =>
    simp only [step] at hs
    split at hs
    · simp at hs
    · obtain ⟨st, e, h1, rfl⟩ := after_ok hs
      have := fromEgress_loss h1
      simp only [Fails, not_or] at hf
      exact ⟨after_lost (this.1 hf.1 hf.2), after_stuck this.2⟩
  | linkIngress i up =>
    simp only [step, Res.ok.injEq] at hs
    subst hs
    exact ⟨rfl, rfl⟩
  | linkStorage i up ws =>
    obtain ⟨st, e, h1, rfl⟩ := after_ok hs
    have := link_loss h1
    exact ⟨after_lost (this.1 hf), after_stuck this.2⟩
  | reroute node o =>
    simp only [step] at hs
    split at hs
    · simp only [Res.ok.injEq] at hs; subst hs; exact ⟨rfl, rfl⟩
    · simp at hs
  | release i top ok w =>
    obtain ⟨st, e, h1, rfl⟩ := after_ok hs
    simp only [Fails, not_or, Bool.not_eq_false] at hf
    obtain ⟨rfl, hw⟩ := hf
    have := release_loss h1 (queue_fresh h i)
    exact ⟨after_lost (this.1 hw), after_stuck this.2⟩
  | expire cid =>
    simp only [step] at hs
    split at hs
    · simp at hs
    · simp only [Res.ok.injEq] at hs; subst hs; exact ⟨rfl, rfl⟩
  | timeout cid =>
    simp only [step] at hs
    split at hs
    · simp at hs
    · simp only [Res.ok.injEq] at hs; subst hs; exact ⟨rfl, rfl⟩
  | custodySignal cid =>
    simp only [step] at hs
    split at hs
    · simp at hs
    · split at hs
      · simp only [Res.ok.injEq] at hs; subst hs; exact ⟨rfl, rfl⟩
      · simp at hs

theorem run_lost {C as} (hC : C.Ok) : ∀ {s s'}, Full C s → SoundRun C s as → run C s as = .ok s' → s'.lost = s.lost ∧ s'.stuck = s.stuck := by
  induction as with
  | nil => intro s s' _ _ hr; simp only [run, Res.ok.injEq] at hr; subst hr; exact ⟨rfl, rfl⟩
  | cons a as ih =>
    intro s s' h hf hr
    simp only [run] at hr
    split at hr
    · rename_i s₁ h₁
      obtain ⟨e1, e2⟩ := step_lost h.inv h₁ hf.1
      obtain ⟨g1, g2⟩ := ih (step_full hC h h₁) (hf.2 _ h₁) hr
      exact ⟨g1.trans e1, g2.trans e2⟩
    · simp at hr
    · simp at hr

/-- What is stuck stays so; what was accepted stays so; what is delivered was accepted. -/
theorem step_grows {C s s' a} (h : Inv C s) (hs : step C s a = .ok s') : (∀ x ∈ s.stuck, x ∈ s'.stuck) ∧
    (∀ b ∈ s.accepted, b ∈ s'.accepted) ∧ (∀ b ∈ s'.delivered, b ∈ s.delivered ∨ b ∈ s.accepted) := by
  have hafter : ∀ {s₀ : State} {st e}, s₀.stuck = s.stuck → s₀.accepted = s.accepted → s₀.delivered = s.delivered →
      (∀ x ∈ s.stuck, x ∈ (s₀.after st e).stuck) ∧ (∀ b ∈ s.accepted, b ∈ (s₀.after st e).accepted) ∧
      (∀ b ∈ (s₀.after st e).delivered, b ∈ s.delivered ∨ b ∈ s.accepted) := by
    intro s₀ st e h1 h2 h3
    refine ⟨fun x hx => ?_, fun b hb => ?_, fun b hb => ?_⟩
    · simp only [State.after, h1]; exact List.mem_append_left _ hx
    · simp only [State.after, h2]; exact hb
    · simp only [State.after, h3] at hb; exact Or.inl hb
  have hsame : ∀ {s' : State}, s'.stuck = s.stuck → s'.accepted = s.accepted → s'.delivered = s.delivered →
      (∀ x ∈ s.stuck, x ∈ s'.stuck) ∧ (∀ b ∈ s.accepted, b ∈ s'.accepted) ∧ (∀ b ∈ s'.delivered, b ∈ s.delivered ∨ b ∈ s.accepted) := by
    intro s' h1 h2 h3
    rw [h1, h2, h3]
    exact ⟨fun _ h => h, fun _ h => h, fun _ h => Or.inl h⟩
  cases a with
  | arrive b =>
    simp only [step] at hs
    split at hs
    · split at hs
      · simp only [Res.ok.injEq] at hs
        subst hs
        exact ⟨fun _ h => h, fun _ h => List.mem_append_left _ h, fun _ h => Or.inl h⟩
      · simp at hs
      · simp at hs
    · simp at hs
  | push k ok =>
    simp only [step] at hs
    split at hs
    · simp at hs
    · simp only [Res.ok.injEq] at hs
      subst hs
      exact hsame push_same.1 push_same.2.1 push_same.2.2
  | egressFromIngress moved =>
    simp only [step] at hs
    split at hs
    · simp at hs
    · simp only [Res.ok.injEq] at hs
      subst hs
      have := forward_lost { s with ie := ‹_› } ‹_› false moved
      exact hsame this.2.1 this.2.2.1 this.2.2.2
  | egressFromStorage moved =>
    simp only [step] at hs
    split at hs
    · simp at hs
    · simp only [Res.ok.injEq] at hs
      subst hs
      have := forward_lost { s with se := ‹_› } ‹_› true moved
      exact hsame this.2.1 this.2.2.1 this.2.2.2
  | sent k =>
    simp only [step] at hs
    split at hs
    · simp at hs
    · rename_i f hk
      simp only [Res.ok.injEq] at hs
      subst hs
      obtain ⟨_, h2, h3, h4⟩ := onSuccess_lost { s with flights := s.flights.eraseIdx k } f.hdr f.fromStorage
      rw [h2, h3, h4]
      refine ⟨fun _ h => h, fun _ h => h, fun b hb => ?_⟩
      rcases List.mem_append.1 hb with hb | hb
      · exact Or.inl hb
      · rw [List.mem_singleton] at hb; subst hb
        exact Or.inr (flight_accepted h (List.mem_of_getElem? hk))
  | unsent k =>
    simp only [step] at hs
    split at hs
    · simp at hs
    · rename_i f hk
      simp only [Res.ok.injEq] at hs
      subst hs
      have := onFailed_lost { s with flights := s.flights.eraseIdx k } f.hdr f.fromStorage .linkDown
      exact hsame this.2.1 this.2.2.1 this.2.2.2
  | ingressFromEgress =>
    simp only [step] at hs
    split at hs
    · simp at hs
    · split at hs
      · simp only [Res.ok.injEq] at hs; subst hs; exact hsame rfl rfl rfl
      · simp at hs
      · simp at hs
    · simp only [Res.ok.injEq] at hs; subst hs; exact hsame rfl rfl rfl
  | ingressFromStorage =>
    simp only [step] at hs
    split at hs
    · simp at hs
    · split at hs
      · simp only [Res.ok.injEq] at hs; subst hs; exact hsame rfl rfl rfl
      · simp at hs
      · simp at hs
  | storageFromIngress w =>
    simp only [step] at hs
    split at hs
    · simp at hs
    · obtain ⟨st, e, h1, rfl⟩ := after_ok hs
      exact hafter rfl rfl rfl
  | storageFromEgress w ws =>
    simp only [step] at hs
    split at hs
    · simp at hs
    · obtain ⟨st, e, h1, rfl⟩ := after_ok hs
      exact hafter rfl rfl rfl
  | linkIngress i up =>
    simp only [step, Res.ok.injEq] at hs
    subst hs
    exact hsame rfl rfl rfl
  | linkStorage i up ws =>
    obtain ⟨st, e, h1, rfl⟩ := after_ok hs
    exact hafter rfl rfl rfl
  | reroute node o =>
    simp only [step] at hs
    split at hs
    · simp only [Res.ok.injEq] at hs; subst hs; exact hsame rfl rfl rfl
    · simp at hs
  | release i top ok w =>
    obtain ⟨st, e, h1, rfl⟩ := after_ok hs
    exact hafter rfl rfl rfl
  | expire cid =>
    simp only [step] at hs
    split at hs
    · simp at hs
    · simp only [Res.ok.injEq] at hs; subst hs; exact hsame rfl rfl rfl
  | timeout cid =>
    simp only [step] at hs
    split at hs
    · simp at hs
    · simp only [Res.ok.injEq] at hs; subst hs; exact hsame rfl rfl rfl
  | custodySignal cid =>
    simp only [step] at hs
    split at hs
    · simp at hs
    · split at hs
      · simp only [Res.ok.injEq] at hs; subst hs; exact hsame rfl rfl rfl
      · simp at hs

theorem run_grows {C as} (hC : C.Ok) : ∀ {s s'}, Full C s → run C s as = .ok s' → (∀ b ∈ s.delivered, b ∈ s.accepted) →
    (∀ x ∈ s.stuck, x ∈ s'.stuck) ∧ (∀ b ∈ s'.delivered, b ∈ s'.accepted) := by
  induction as with
  | nil => intro s s' _ hr hd; simp only [run, Res.ok.injEq] at hr; subst hr; exact ⟨fun _ h => h, hd⟩
  | cons a as ih =>
    intro s s' h hr hd
    simp only [run] at hr
    split at hr
    · rename_i s₁ h₁
      obtain ⟨e1, e2, e3⟩ := step_grows h.inv h₁
      obtain ⟨g1, g2⟩ := ih (step_full hC h h₁) hr (fun b hb => (e3 b hb).elim (fun h => e2 b (hd b h)) (e2 b))
      exact ⟨fun x hx => g1 x (e1 x hx), g2⟩
    · simp at hr
    · simp at hr

theorem run_append {C as bs s} : run C s (as ++ bs) = match run C s as with
    | .ok s' => run C s' bs
    | .disabled => .disabled
    | .fault => .fault := by
  induction as generalizing s with
  | nil => rfl
  | cons a as ih =>
    simp only [List.cons_append, run]
    split
    · exact ih
    · rfl
    · rfl

/-- What is stuck at storage is reserved at ingress. -/
theorem stuck_reserved {C s} (h : Inv C s) {i id b} (hx : (i, id, b) ∈ s.stuck) : (id, b) ∈ (s.ingress.sets i).storage := by
  have a := h.i2 i (id, b)
  have : 0 < s.stuck.count (i, id, b) := List.count_pos_iff.2 hx
  exact List.count_pos_iff.1 (by simp only at a; omega)

end Hdtn.Node
