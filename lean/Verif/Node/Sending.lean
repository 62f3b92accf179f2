import Verif.Node.Choice

/-!
The paths when priority is enforced, the links, the order in which storage sends.
-/

namespace Hdtn.Node

/-! ### All through storage -/

theorem popEgress_egress {s : AckSet} {id} (h : s.egress = []) : (s.popEgress id).egress = [] := by
  unfold AckSet.popEgress
  split
  · exact h
  · simp only [h]; rfl

theorem popStorage_egress {s : AckSet} {id} : (s.popStorage id).egress = s.egress := by
  unfold AckSet.popStorage
  split <;> rfl

theorem setSet_egress {g : Ingress} {i : Nat} {a : AckSet} (hg : ∀ j, (g.sets j).egress = []) (ha : a.egress = []) :
    ∀ j, ((g.setSet i a).sets j).egress = [] := by
  intro j
  unfold Ingress.setSet
  dsimp only
  split
  · exact ha
  · exact hg j

theorem toDisk_sets {C : Config} {g g' : Ingress} {id b} (h : g.toDisk C id b = some g') : g'.sets = g.sets := by
  simp only [Ingress.toDisk, Option.map_eq_some_iff] at h
  obtain ⟨⟨_, _⟩, _, rfl⟩ := h
  rfl

theorem arrive_egress {C : Config} {g : Ingress} {b g' lost} (he : C.enforcePriority = true) (hg : ∀ j, (g.sets j).egress = [])
    (h : g.arrive C b = .ok (g', lost)) : ∀ j, (g'.sets j).egress = [] := by
  have hdisk : ∀ g' lost, (match Ingress.toDisk C { g with nextId := g.nextId + 1 } g.nextId b with
      | some g => Res.ok (g, [])
      | none => .ok ({ g with nextId := g.nextId + 1 }, [b])) = .ok (g', lost) → ∀ j, (g'.sets j).egress = [] := by
    intro g' lost hd
    split at hd
    · rename_i g₁ h₁
      simp only [Res.ok.injEq, Prod.mk.injEq] at hd; obtain ⟨rfl, _⟩ := hd
      rw [toDisk_sets h₁]; exact hg
    · simp only [Res.ok.injEq, Prod.mk.injEq] at hd; obtain ⟨rfl, _⟩ := hd
      exact hg
  unfold Ingress.arrive at h
  simp only at h
  split at h
  · exact hdisk _ _ h
  · rename_i i hi
    split at h
    · split at h
      · rw [he] at h
        split at h
        · rename_i s hr
          simp [AckSet.reserve] at hr
        · rename_i s hr
          simp only [Res.ok.injEq, Prod.mk.injEq] at h; obtain ⟨rfl, _⟩ := h
          have : s.egress = [] := by
            simp only [AckSet.reserve, Bool.not_true, Bool.false_and, Bool.false_eq_true, if_false] at hr
            split at hr
            · simp only [Option.some.injEq, Prod.mk.injEq] at hr
              rw [← hr.2]; exact hg i
            · simp at hr
          exact setSet_egress (g := { g with nextId := g.nextId + 1 }) hg this
        · exact hdisk _ _ h
      · exact hdisk _ _ h
    · simp at h

theorem push_egress {C s t l ok} (hg : ∀ j, (s.ingress.sets j).egress = []) : ∀ j, ((State.push C s t l ok).ingress.sets j).egress = [] := by
  have hg' : ∀ j, ((({ s.ingress with threads := l } : Ingress)).sets j).egress = [] := hg
  unfold State.push
  simp only
  split
  · rename_i i _
    split
    · exact hg
    · have h1 := setSet_egress (i := i) hg' (popEgress_egress (id := t.id) (hg i))
      split
      · rename_i g hd
        dsimp only
        rw [toDisk_sets hd]; exact h1
      · exact h1
  · rename_i i _
    split
    · exact hg
    · exact setSet_egress (i := i) hg' (popStorage_egress (id := t.id) |>.trans (hg i))
  · split
    · exact hg
    · exact hg

theorem forward_ingress (s : State) (h : ToEgress) (fs moved : Bool) : (s.forward h fs moved).ingress = s.ingress := by
  unfold State.forward State.onFailed
  split
  · split <;> rfl
  · split
    · rfl
    · split <;> rfl

theorem onFailed_ingress (s : State) (h : ToEgress) (fs : Bool) (e : AckError) : (s.onFailed h fs e).ingress = s.ingress := by
  unfold State.onFailed; split <;> rfl

theorem onSuccess_ingress (s : State) (h : ToEgress) (fs : Bool) : (s.onSuccess h fs).ingress = s.ingress := by
  unfold State.onSuccess; split <;> rfl

theorem step_via {C s s' a} (he : C.enforcePriority = true) (h : ∀ j, (s.ingress.sets j).egress = []) (hs : step C s a = .ok s') :
    ∀ j, (s'.ingress.sets j).egress = [] := by
  cases a with
  | arrive b =>
    simp only [step] at hs
    split at hs
    · split at hs
      · rename_i g lost ha
        simp only [Res.ok.injEq] at hs
        subst hs
        exact arrive_egress he h ha
      · simp at hs
      · simp at hs
    · simp at hs
  | push k ok =>
    simp only [step] at hs
    split at hs
    · simp at hs
    · simp only [Res.ok.injEq] at hs
      subst hs
      exact push_egress h
  | egressFromIngress moved =>
    simp only [step] at hs
    split at hs
    · simp at hs
    · simp only [Res.ok.injEq] at hs
      subst hs
      rw [forward_ingress]; exact h
  | egressFromStorage moved =>
    simp only [step] at hs
    split at hs
    · simp at hs
    · simp only [Res.ok.injEq] at hs
      subst hs
      rw [forward_ingress]; exact h
  | sent k =>
    simp only [step] at hs
    split at hs
    · simp at hs
    · simp only [Res.ok.injEq] at hs
      subst hs
      rw [onSuccess_ingress]; exact h
  | unsent k =>
    simp only [step] at hs
    split at hs
    · simp at hs
    · simp only [Res.ok.injEq] at hs
      subst hs
      rw [onFailed_ingress]; exact h
  | ingressFromEgress =>
    simp only [step] at hs
    split at hs
    · simp at hs
    · split at hs
      · rename_i g hg
        simp only [Res.ok.injEq] at hs
        subst hs
        unfold Ingress.egressAck at hg
        simp only at hg
        split at hg
        · simp only [Res.ok.injEq] at hg
          subst hg
          refine setSet_egress h (popEgress_egress ?_)
          split
          · exact h _
          · exact h _
        · simp at hg
      · simp at hs
      · simp at hs
    · simp only [Res.ok.injEq] at hs
      subst hs
      exact h
  | ingressFromStorage =>
    simp only [step] at hs
    split at hs
    · simp at hs
    · split at hs
      · rename_i g hg
        simp only [Res.ok.injEq] at hs
        subst hs
        unfold Ingress.storageAck at hg
        split at hg
        · simp only [Res.ok.injEq] at hg
          subst hg
          exact h
        · simp only at hg
          split at hg
          · simp only [Res.ok.injEq] at hg
            subst hg
            refine setSet_egress h ?_
            rw [popStorage_egress]
            split
            · exact h _
            · exact h _
          · simp at hg
      · simp at hs
      · simp at hs
  | storageFromIngress w =>
    simp only [step] at hs
    split at hs
    · simp at hs
    · obtain ⟨st, e, h1, rfl⟩ := after_ok hs
      exact h
  | storageFromEgress w ws =>
    simp only [step] at hs
    split at hs
    · simp at hs
    · obtain ⟨st, e, h1, rfl⟩ := after_ok hs
      exact h
  | linkIngress i up =>
    simp only [step, Res.ok.injEq] at hs
    subst hs
    dsimp only
    unfold Ingress.link
    split
    · exact setSet_egress h (h i)
    · exact h
  | linkStorage i up ws =>
    obtain ⟨st, e, h1, rfl⟩ := after_ok hs
    exact h
  | reroute node o =>
    simp only [step] at hs
    split at hs
    · simp only [Res.ok.injEq] at hs; subst hs; exact h
    · simp at hs
  | release i top ok w =>
    obtain ⟨st, e, h1, rfl⟩ := after_ok hs
    exact h
  | expire cid =>
    simp only [step] at hs
    split at hs
    · simp at hs
    · simp only [Res.ok.injEq] at hs; subst hs; exact h
  | timeout cid =>
    simp only [step] at hs
    split at hs
    · simp at hs
    · simp only [Res.ok.injEq] at hs; subst hs; exact h
  | custodySignal cid =>
    simp only [step] at hs
    split at hs
    · simp at hs
    · split at hs
      · simp only [Res.ok.injEq] at hs; subst hs; exact h
      · simp at hs

theorem run_via {C as} (he : C.enforcePriority = true) : ∀ {s s'}, (∀ j, (s.ingress.sets j).egress = []) → run C s as = .ok s' →
    ∀ j, (s'.ingress.sets j).egress = [] := by
  induction as with
  | nil => intro s s' h hr; simp only [run, Res.ok.injEq] at hr; subst hr; exact h
  | cons a as ih =>
    intro s s' h hr
    simp only [run] at hr
    split at hr
    · rename_i s₁ h₁
      exact ih (step_via he h h₁) hr
    · simp at hr
    · simp at hr

theorem via_empty {C s} (h : Inv C s) (hv : ∀ j, (s.ingress.sets j).egress = []) :
    (∀ t ∈ s.ingress.threads, ∀ i, t.place ≠ .egress i) ∧ s.ie = [] ∧ ∀ f ∈ s.flights, f.fromStorage = true := by
  refine ⟨?_, ?_, ?_⟩
  · intro t ht i hp
    have a := h.i1 i (t.id, t.bundle)
    rw [hv i, List.count_nil] at a
    have : 0 < s.ingress.threads.count ⟨t.bundle, t.id, .egress i⟩ := List.count_pos_iff.2 (by
      rw [show (⟨t.bundle, t.id, .egress i⟩ : Thread) = t by rw [← hp]]; exact ht)
    simp only at a
    omega
  · refine List.eq_nil_iff_forall_not_mem.2 ?_
    intro m hm
    have a := h.i1 m.outduct (m.id, m.bundle)
    rw [hv, List.count_nil] at a
    have : 0 < s.ie.count (hdr m.outduct (m.id, m.bundle) false) := List.count_pos_iff.2 (by
      rw [hdr_cut (h.ieCut m hm)]; exact hm)
    omega
  · intro f hf
    by_contra hs
    rw [Bool.not_eq_true] at hs
    have a := h.i1 f.hdr.outduct (f.hdr.id, f.hdr.bundle)
    rw [hv, List.count_nil] at a
    have : 0 < s.flights.countP (fun g => g.hdr == hdr f.hdr.outduct (f.hdr.id, f.hdr.bundle) false && !g.fromStorage) := by
      refine countP_pos_of_mem hf ?_
      rw [hdr_cut (h.flCut f hf hs), hs]
      simp
    omega

/-! ### Custody -/

theorem plain_direct {C s} (h : Inv C s) :
    (∀ t ∈ s.ingress.threads, t.place ≠ .store → t.bundle.custody = false) ∧ (∀ m ∈ s.ie, m.bundle.custody = false) ∧
    (∀ m ∈ s.is, m.outduct ≠ none → m.bundle.custody = false) ∧ (∀ i, ∀ m ∈ (s.storage.infos i).queue, m.bundle.custody = false) ∧
    (∀ m ∈ s.se, m.cut = true → m.bundle.custody = false) ∧
    (∀ f ∈ s.flights, f.fromStorage = false ∨ f.hdr.cut = true → f.hdr.bundle.custody = false) := by
  have he : ∀ i x, 0 < (s.ingress.sets i).egress.count x → x.2.custody = false :=
    fun i x hx => h.ing.plain i x (Or.inl (List.count_pos_iff.1 hx))
  have hs : ∀ i x, 0 < (s.ingress.sets i).storage.count x → x.2.custody = false :=
    fun i x hx => h.ing.plain i x (Or.inr (List.count_pos_iff.1 hx))
  have hc : ∀ i x, 0 < (s.storage.infos i).cut.count x → x.2.custody = false := by
    intro i x hx
    have a := h.i2 i x
    exact hs i x (by omega)
  refine ⟨?_, ?_, ?_, ?_, ?_, ?_⟩
  · intro t ht hp
    cases hpl : t.place with
    | store => exact absurd hpl hp
    | egress i =>
      have a := h.i1 i (t.id, t.bundle)
      have : 0 < s.ingress.threads.count ⟨t.bundle, t.id, .egress i⟩ := List.count_pos_iff.2 (by
        rw [show (⟨t.bundle, t.id, .egress i⟩ : Thread) = t by rw [← hpl]]; exact ht)
      exact he i (t.id, t.bundle) (by simp only at a; omega)
    | cut i =>
      have a := h.i2 i (t.id, t.bundle)
      have : 0 < s.ingress.threads.count ⟨t.bundle, t.id, .cut i⟩ := List.count_pos_iff.2 (by
        rw [show (⟨t.bundle, t.id, .cut i⟩ : Thread) = t by rw [← hpl]]; exact ht)
      exact hs i (t.id, t.bundle) (by simp only at a; omega)
  · intro m hm
    have a := h.i1 m.outduct (m.id, m.bundle)
    have : 0 < s.ie.count (hdr m.outduct (m.id, m.bundle) false) := List.count_pos_iff.2 (by
      rw [hdr_cut (h.ieCut m hm)]; exact hm)
    exact he m.outduct (m.id, m.bundle) (by omega)
  · intro m hm ho
    cases hmo : m.outduct with
    | none => exact absurd hmo ho
    | some i =>
      have a := h.i2 i (m.id, m.bundle)
      have hd := h.isOk m hm
      have : 0 < s.is.count (toS (some i) (m.id, m.bundle)) := List.count_pos_iff.2 (by
        rw [show toS (some i) (m.id, m.bundle) = m by
          cases m; simp only at hmo hd; subst hmo; simp only [Option.isSome_some] at hd; subst hd; rfl]
        exact hm)
      exact hs i (m.id, m.bundle) (by omega)
  · intro i m hm
    have a := h.i2 i (m.id, m.bundle)
    obtain ⟨h1, h2⟩ := h.st.queue i m hm
    have : 0 < (s.storage.infos i).queue.count (toS (some i) (m.id, m.bundle)) := List.count_pos_iff.2 (by
      rw [show toS (some i) (m.id, m.bundle) = m by
        cases m; simp only at h1 h2; subst h1; subst h2; rfl]
      exact hm)
    exact hs i (m.id, m.bundle) (by omega)
  · intro m hm hcut
    have a := h.i4 m.outduct (m.id, m.bundle)
    have : 0 < s.se.count (hdr m.outduct (m.id, m.bundle) true) := List.count_pos_iff.2 (by rw [hdr_cut hcut]; exact hm)
    exact hc m.outduct (m.id, m.bundle) (by omega)
  · intro f hf hor
    by_cases hfs : f.fromStorage = false
    · have a := h.i1 f.hdr.outduct (f.hdr.id, f.hdr.bundle)
      have : 0 < s.flights.countP (fun g => g.hdr == hdr f.hdr.outduct (f.hdr.id, f.hdr.bundle) false && !g.fromStorage) := by
        refine countP_pos_of_mem hf ?_
        rw [hdr_cut (h.flCut f hf hfs), hfs]
        simp
      exact he f.hdr.outduct (f.hdr.id, f.hdr.bundle) (by omega)
    · rw [Bool.not_eq_false] at hfs
      have hcut : f.hdr.cut = true := hor.resolve_left (by rw [hfs]; simp)
      have a := h.i4 f.hdr.outduct (f.hdr.id, f.hdr.bundle)
      have : 0 < s.flights.countP (fun g => g.hdr == hdr f.hdr.outduct (f.hdr.id, f.hdr.bundle) true && g.fromStorage) := by
        refine countP_pos_of_mem hf ?_
        rw [hdr_cut hcut, hfs]
        simp
      exact hc f.hdr.outduct (f.hdr.id, f.hdr.bundle) (by omega)

end Hdtn.Node
