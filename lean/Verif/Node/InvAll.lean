import Verif.Node.InvStep

/-!
The account holds in every state that can be reached.
-/

namespace Hdtn.Node

theorem write_no_fault (st : Storage) (w : Option Nat) (b : Bundle) : st.write w b ≠ .fault := by
  unfold Storage.write
  split
  · simp
  · split <;> simp

theorem dump_no_fault (i : Nat) (ws : List (Option Nat)) (qs : List ToStorage) (st : Storage) : st.dump i ws qs ≠ .fault := by
  induction ws generalizing st qs with
  | nil => cases qs <;> simp [Storage.dump]
  | cons w ws ih =>
    cases qs with
    | nil => simp [Storage.dump]
    | cons q qs =>
      simp only [Storage.dump]
      split
      · rename_i st₁ lost _
        split
        · simp
        · simp
        · rename_i hf; exact fun _ => ih _ _ hf
      · simp
      · rename_i hf; exact fun _ => write_no_fault _ _ _ hf

theorem setLinkDown_no_fault (st : Storage) (i : Nat) (ws : List (Option Nat)) : st.setLinkDown i ws ≠ .fault := by
  unfold Storage.setLinkDown
  simp only
  split
  · exact dump_no_fault _ _ _ _
  · split <;> simp

theorem downIf_no_fault (st : Storage) (p : Prop) [Decidable p] (i : Nat) (ws : List (Option Nat)) :
    (if p then st.setLinkDown i ws else Res.ok (st, {})) ≠ .fault := by
  split
  · exact setLinkDown_no_fault _ _ _
  · simp

theorem fromIngress_no_fault (C : Config) (st : Storage) (m : ToStorage) (w : Option Nat) : st.fromIngress C m w ≠ .fault := by
  unfold Storage.fromIngress
  simp only
  have : (match st.write w m.bundle with
    | .ok (st, lost) => Res.ok (st, ({ toIngress := [⟨m.id, m.outduct, false, m.bundle⟩], lost := lost } : Effect))
    | .disabled => .disabled
    | .fault => .fault) ≠ .fault := by
    split
    · simp
    · simp
    · rename_i hf; exact fun _ => write_no_fault _ _ _ hf
  split
  · exact this
  · generalize (m.dontStore && _ && _) = c
    cases c
    · exact this
    · simp

theorem cutAck_no_fault (st : Storage) (a : EgressAck) (w : Option Nat) (ws : List (Option Nat)) : st.cutAck a w ws ≠ .fault := by
  unfold Storage.cutAck
  simp only
  split
  · simp
  · split
    · simp
    · split
      · split
        · simp
        · simp
        · rename_i hf; exact fun _ => downIf_no_fault _ _ _ _ hf
      · simp
      · rename_i hf; exact fun _ => write_no_fault _ _ _ hf

theorem diskAck_no_fault (st : Storage) (a : EgressAck) (ws : List (Option Nat)) : st.diskAck a ws ≠ .fault := by
  unfold Storage.diskAck
  simp only
  split
  · simp
  · split
    · simp
    · split
      · simp
      · simp
      · rename_i hf; exact fun _ => downIf_no_fault _ _ _ _ hf

theorem fromEgress_no_fault {C : Config} {st : Storage} {m : EgressToStorage} (w : Option Nat) (ws : List (Option Nat)) (h : Answered C st m) :
    st.fromEgress C m w ws ≠ .fault := by
  unfold Storage.fromEgress
  cases m with
  | ack a =>
    simp only [Answered] at h
    simp only [h.1, h.2.1, if_true]
    split
    · exact cutAck_no_fault _ _ _ _
    · exact diskAck_no_fault _ _ _
  | failed i b =>
    simp only [Answered] at h
    simp only [h, if_true]
    split
    · split
      · split
        · simp
        · simp
        · rename_i hf; exact fun _ => setLinkDown_no_fault _ _ _ hf
      · simp
    · simp
    · rename_i hf; exact fun _ => write_no_fault _ _ _ hf
  | capabilities r => simp

theorem link_no_fault (C : Config) (st : Storage) (i : Nat) (up : Bool) (ws : List (Option Nat)) : st.link C i up ws ≠ .fault := by
  unfold Storage.link
  split
  · split
    · split
      · simp
      · exact setLinkDown_no_fault _ _ _
    · simp
  · simp

theorem storeFront_no_fault (st : Storage) (i : Nat) (w : Option Nat) : st.storeFront i w ≠ .fault := by
  unfold Storage.storeFront
  split
  · simp
  · split
    · simp
    · simp
    · rename_i hf; exact fun _ => write_no_fault _ _ _ hf

theorem prioritySend_no_fault (st : Storage) (i : Nat) (top : Option Entry) (room : Nat) (ok : Bool) (w : Option Nat) :
    st.prioritySend i top room ok w ≠ .fault := by
  unfold Storage.prioritySend
  simp only
  split
  · simp
  · split
    · split <;> simp
    · rename_i q _ _ _ e
      obtain ⟨fq, hfq⟩ : ∃ fq, fq = (if q.bundle.priority = e.bundle.priority then
        decide (q.bundle.size ≤ room) && (st.infos i).tryCut else decide (q.bundle.priority > e.bundle.priority)) := ⟨_, rfl⟩
      rw [← hfq]
      obtain ⟨st₁, hst₁⟩ : ∃ st₁, st₁ = (if q.bundle.priority = e.bundle.priority ∧ decide (q.bundle.size ≤ room) = true then
        st.setInfo i { st.infos i with tryCut := !(st.infos i).tryCut } else st) := ⟨_, rfl⟩
      rw [← hst₁]
      cases fq with
      | true =>
        simp only [if_true]
        by_cases hs : q.bundle.size ≤ room <;> simp [hs]
      | false =>
        simp only [Bool.false_eq_true, if_false]
        split
        · simp
        · simp
        · rename_i hf; exact fun _ => storeFront_no_fault _ _ _ hf

theorem release_no_fault (C : Config) (st : Storage) (i : Nat) (top : Option Entry) (ok : Bool) (w : Option Nat) :
    st.release C i top ok w ≠ .fault := by
  unfold Storage.release
  generalize st.room C i = room
  simp only
  split
  · split
    · split
      · exact prioritySend_no_fault _ _ _ _ _ _
      · simp
    · simp
  · simp

theorem after_fault {s : State} {r : Res (Storage × Effect)} (h : r.after s = .fault) : r = .fault := by
  cases r with
  | ok p => cases p; simp [Res.after] at h
  | disabled => simp [Res.after] at h
  | fault => rfl

theorem after_ok {s s' : State} {r : Res (Storage × Effect)} (h : r.after s = .ok s') :
    ∃ st e, r = .ok (st, e) ∧ s' = s.after st e := by
  cases r with
  | ok p => cases p; simp only [Res.after, Res.ok.injEq] at h; exact ⟨_, _, rfl, h.symm⟩
  | disabled => simp [Res.after] at h
  | fault => simp [Res.after] at h

theorem full_erase {C s cid} {e : Entry} {expired released : List Bundle} (h : Full C s) (he : e ∈ s.storage.disk) (hc : e.cid = cid)
    (hg : e.status ≠ .given)
    (h7 : ∀ b, expired.count b + (if b.custody then released.count b else s.delivered.count b)
      = s.expired.count b + (if b.custody then s.released.count b else s.delivered.count b) + (e.bundle == b).toNat) :
    Full C { s with storage := { s.storage with disk := erase s.storage.disk cid }, expired := expired, released := released } := by
  subst hc
  have hcount := fun p => erase_countP h.inv.st.cids he p
  refine full_disk h (erase_cids h.inv.st.cids _) ?_ ?_
  · intro x
    have := hcount (givenAs x)
    have hz : givenAs x e = false := by
      simp only [givenAs, Bool.and_eq_false_iff, beq_eq_false_iff_ne]
      exact Or.inr hg
    rw [hz] at this
    simpa using this
  · intro b
    have h1 := hcount (·.bundle == b)
    have h2 := h7 b
    cases hb : (e.bundle == b) <;> rw [hb] at h1 h2 <;>
      simp only [if_true, Bool.false_eq_true, if_false, Bool.toNat_true, Bool.toNat_false] at h1 h2 <;> omega

theorem full_start {C r} (hr : RoutesOk C r) : Full C (start r) := by
  refine ⟨?_, rfl⟩
  constructor
  · intro i x; simp [start, AckSet.empty, EgressToIngress.answers]
  · intro i x; simp [start, AckSet.empty, Info.empty]
  · intro x; simp [start, AckSet.empty]
  · intro i x; simp [start, Info.empty, EgressToStorage.answers]
  · intro i x; simp [start, Info.empty, EgressToStorage.answers]
  · intro x; simp [start, EgressToStorage.answersDisk]
  · intro b; simp [start, Info.empty, EgressToStorage.finishes, EgressToStorage.carries, queued]
  · constructor <;> simp [start, Info.empty, Map.Keys, Map.bytes]
  · constructor <;> simp [start, AckSet.empty, RoutesOk]
    · intro i; constructor <;> simp [Map.Keys, Map.bytes]
    · constructor <;> simp [Map.Keys, Map.bytes]
  · exact hr
  · intro r' hr'; simp only [start, List.mem_singleton, EgressToIngress.capabilities.injEq] at hr'; subst hr'; exact hr
  · intro m hm; simp [start] at hm
  · intro a ha; simp [start] at ha
  · intro f hf; simp [start] at hf
  · intro m hm; simp [start] at hm
  · exact Or.inr ⟨r, [], rfl⟩
  · intro i b hb; simp [start] at hb

/-- One step. -/
theorem step_no_fault {C s} (h : Full C s) (a : Act) : step C s a ≠ .fault := by
  cases a with
  | arrive b =>
    simp only [step]
    split
    · split
      · simp
      · simp
      · rename_i hf; exact fun _ => arrive_no_fault h.inv hf
    · simp
  | push k ok => simp only [step]; split <;> simp
  | egressFromIngress moved => simp only [step]; split <;> simp
  | egressFromStorage moved => simp only [step]; split <;> simp
  | sent k => simp only [step]; split <;> simp
  | unsent k => simp only [step]; split <;> simp
  | ingressFromEgress =>
    simp only [step]
    split
    · simp
    · rename_i a rest he
      obtain ⟨g, hg, _⟩ := full_egressAck h he
      rw [hg]; simp
    · simp
  | ingressFromStorage =>
    simp only [step]
    split
    · simp
    · rename_i a rest he
      obtain ⟨g, hg, _⟩ := full_storageAck h he
      rw [hg]; simp
  | storageFromIngress w =>
    simp only [step]
    split
    · simp
    · exact fun hf => fromIngress_no_fault _ _ _ _ (after_fault hf)
  | storageFromEgress w ws =>
    simp only [step]
    split
    · simp
    · rename_i m rest he
      exact fun hf => fromEgress_no_fault _ _ (answered h.inv he) (after_fault hf)
  | linkIngress i up => simp [step]
  | linkStorage i up ws => exact fun hf => link_no_fault _ _ _ _ _ (after_fault hf)
  | reroute node o =>
    simp only [step]
    split <;> simp
  | release i top ok w => exact fun hf => release_no_fault _ _ _ _ _ _ (after_fault hf)
  | expire cid => simp only [step]; split <;> simp
  | timeout cid => simp only [step]; split <;> simp
  | custodySignal cid =>
    simp only [step]
    split
    · simp
    · split <;> simp

theorem step_full {C s s' a} (hC : C.Ok) (h : Full C s) (hs : step C s a = .ok s') : Full C s' := by
  cases a with
  | arrive b =>
    simp only [step] at hs
    split at hs
    · split at hs
      · rename_i g lost ha
        simp only [Res.ok.injEq] at hs
        subst hs
        obtain ⟨h1, h2⟩ := inv_arrive h.inv h.single ha
        exact ⟨h1, h2⟩
      · simp at hs
      · simp at hs
    · simp at hs
  | push k ok =>
    simp only [step] at hs
    split at hs
    · simp at hs
    · rename_i t ht
      simp only [Res.ok.injEq] at hs
      subst hs
      exact full_push h ht
  | egressFromIngress moved =>
    simp only [step] at hs
    split at hs
    · simp at hs
    · rename_i m rest he
      simp only [Res.ok.injEq] at hs
      subst hs
      exact full_forward_ingress h he
  | egressFromStorage moved =>
    simp only [step] at hs
    split at hs
    · simp at hs
    · rename_i m rest he
      simp only [Res.ok.injEq] at hs
      subst hs
      exact full_forward_storage h he
  | sent k =>
    simp only [step] at hs
    split at hs
    · simp at hs
    · rename_i f hf
      simp only [Res.ok.injEq] at hs
      subst hs
      refine ⟨inv_sent h.inv hf, ?_⟩
      unfold State.onSuccess; split <;> exact h.single
  | unsent k =>
    simp only [step] at hs
    split at hs
    · simp at hs
    · rename_i f hf
      simp only [Res.ok.injEq] at hs
      subst hs
      refine ⟨inv_unsent h.inv hf (by simp), ?_⟩
      unfold State.onFailed; split <;> exact h.single
  | ingressFromEgress =>
    simp only [step] at hs
    split at hs
    · simp at hs
    · rename_i a rest he
      obtain ⟨g, hg, hf⟩ := full_egressAck h he
      rw [hg] at hs
      simp only [Res.ok.injEq] at hs
      subst hs
      exact hf
    · rename_i r rest he
      simp only [Res.ok.injEq] at hs
      subst hs
      exact full_ingressCapabilities h he
  | ingressFromStorage =>
    simp only [step] at hs
    split at hs
    · simp at hs
    · rename_i a rest he
      obtain ⟨g, hg, hf⟩ := full_storageAck h he
      rw [hg] at hs
      simp only [Res.ok.injEq] at hs
      subst hs
      exact hf
  | storageFromIngress w =>
    simp only [step] at hs
    split at hs
    · simp at hs
    · rename_i m rest he
      obtain ⟨st, e, h1, rfl⟩ := after_ok hs
      obtain ⟨l, ok, hr, _⟩ := fromIngress_ok h1 h.inv.st (h.inv.isOk m (by rw [he]; exact List.mem_cons_self))
      refine ⟨inv_after (cI := [m]) (cE := []) (is' := rest) (es' := s.es) h.inv he rfl l ok ?_, h.single⟩
      rw [hr]; exact h.inv.ready
  | storageFromEgress w ws =>
    simp only [step] at hs
    split at hs
    · simp at hs
    · rename_i m rest he
      obtain ⟨st, e, h1, rfl⟩ := after_ok hs
      obtain ⟨l, ok, hr, _⟩ := fromEgress_ok h1 h.inv.st (answered h.inv he)
      refine ⟨inv_after (cI := []) (cE := [m]) (is' := s.is) (es' := rest) h.inv rfl he l ok ?_, h.single⟩
      left
      rcases h.inv.ready with h' | ⟨r, es, h'⟩
      · exact hr h'
      · rw [he] at h'
        simp only [List.cons.injEq] at h'
        rw [h'.1] at h1
        exact fromEgress_ready h1
  | linkIngress i up =>
    simp only [step, Res.ok.injEq] at hs
    subst hs
    exact full_linkIngress h
  | linkStorage i up ws =>
    obtain ⟨st, e, h1, rfl⟩ := after_ok hs
    obtain ⟨l, ok, hr, _⟩ := link_ok h1 h.inv.st
    refine ⟨inv_after (cI := []) (cE := []) (is' := s.is) (es' := s.es) h.inv rfl rfl l ok ?_, h.single⟩
    rw [hr]; exact h.inv.ready
  | reroute node o =>
    simp only [step] at hs
    split at hs
    · rename_i hc
      simp only [Res.ok.injEq] at hs
      subst hs
      refine full_reroute h ?_
      intro n i hn
      dsimp only at hn
      split at hn
      · subst hn
        simpa using hc
      · exact h.inv.routes n i hn
    · simp at hs
  | release i top ok w =>
    obtain ⟨st, e, h1, rfl⟩ := after_ok hs
    obtain ⟨l, ok, hr, _⟩ := release_ok h1 h.inv.st hC (fresh h.inv)
    refine ⟨inv_after (cI := []) (cE := []) (is' := s.is) (es' := s.es) h.inv rfl rfl l ok ?_, h.single⟩
    rw [hr]; exact h.inv.ready
  | expire cid =>
    simp only [step] at hs
    split at hs
    · simp at hs
    · rename_i e he
      obtain ⟨h1, h2, h3⟩ := find_entry he
      simp only [Res.ok.injEq] at hs
      subst hs
      refine full_erase (released := s.released) h h1 h2 (by simp only [beq_iff_eq] at h3; rw [h3]; simp) ?_
      intro b
      simp only [List.count_append, count_one]
      omega
  | timeout cid =>
    simp only [step] at hs
    split at hs
    · simp at hs
    · rename_i e he
      obtain ⟨h1, h2, h3⟩ := find_entry he
      simp only [Res.ok.injEq] at hs
      subst hs h2
      simp only [beq_iff_eq] at h3
      have hcount := fun p => setStatus_countP h.inv.st.cids h1 .awaiting p
      refine full_disk (expired := s.expired) (released := s.released) h (by rw [setStatus_cids]; exact h.inv.st.cids) ?_ ?_
      · intro x
        have := hcount (givenAs x)
        simpa [givenAs, h3] using this
      · intro b
        have := hcount (·.bundle == b)
        simp only at this
        omega
  | custodySignal cid =>
    simp only [step] at hs
    split at hs
    · simp at hs
    · rename_i e he
      obtain ⟨h1, h2, h3⟩ := find_entry he
      split at hs
      · rename_i hcu
        simp only [Res.ok.injEq] at hs
        subst hs
        refine full_erase (expired := s.expired) h h1 h2 (by simpa using h3) ?_
        intro b
        cases hb : b.custody with
        | true => simp only [List.count_append, count_one, if_true]; omega
        | false =>
          have : (e.bundle == b) = false := by
            rw [beq_eq_false_iff_ne]; rintro rfl; rw [hcu] at hb; cases hb
          simp [this]
      · simp at hs

/-- Every state that can be reached. -/
theorem run_full {C} (hC : C.Ok) {as : List Act} {s s' : State} (h : Full C s) (hr : run C s as = .ok s') : Full C s' := by
  induction as generalizing s with
  | nil => simp only [run, Res.ok.injEq] at hr; subst hr; exact h
  | cons a as ih =>
    simp only [run] at hr
    split at hr
    · rename_i s₁ h₁; exact ih (step_full hC h h₁) hr
    · simp at hr
    · simp at hr

theorem run_no_fault {C} (hC : C.Ok) {as : List Act} {s : State} (h : Full C s) : run C s as ≠ .fault := by
  induction as generalizing s with
  | nil => simp [run]
  | cons a as ih =>
    simp only [run]
    split
    · rename_i s₁ h₁; exact ih (step_full hC h h₁)
    · simp
    · rename_i hf; exact fun _ => step_no_fault h a hf

end Hdtn.Node
