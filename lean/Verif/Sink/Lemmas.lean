import Verif.Sink.Spec
import Verif.CustodyManager.Props
import Verif.Bpv6Fragment.Props
import Verif.Ingress7.Props

/-!
Lemmas about the sink.
-/

namespace Hdtn.Sink

open Hdtn.HashMap16 Hdtn.Sink.Spec
open Hdtn.CustodyManager.Spec (EidFits TimeFits Malformed Reached ValidCteb IsAdminBundle PrimaryFits)

/-! ### Bundles of version 6 -/

theorem payload_iff (v : BundleView6.View) (d : Bytes) :
    Bpv6Fragment.Spec.Payload v d ↔ ∃ b, v.byType 1 = [b] ∧ b.block.data = d := by
  unfold Bpv6Fragment.Spec.Payload BundleView6.View.byType
  constructor
  · rintro ⟨pre, b, post, h1, h2, h3, h4⟩
    refine ⟨b, ?_, h3⟩
    rw [h1, List.filter_eq_cons_iff]
    refine ⟨pre, post, rfl, fun x hx => by simpa using h4 x (by simp [hx]), by simpa using h2, ?_⟩
    rw [List.filter_eq_nil_iff]
    exact fun x hx => by simpa using h4 x (by simp [hx])
  · rintro ⟨b, h1, h2⟩
    obtain ⟨pre, post, e, e1, e2, e3⟩ := List.filter_eq_cons_iff.1 h1
    rw [List.filter_eq_nil_iff] at e3
    refine ⟨pre, b, post, e, by simpa using e2, h2, fun c hc => ?_⟩
    rcases List.mem_append.1 hc with hc | hc
    · simpa using e1 c hc
    · simpa using e3 c hc

theorem payloadOf_iff (v : BundleView6.View) (d : Bytes) :
    payloadOf v = .payload d ↔ Bpv6Fragment.Spec.Payload v d := by
  rw [payload_iff]
  unfold payloadOf
  split
  · rename_i b h
    simp [h]
  · rename_i h
    simp only [reduceCtorEq, false_iff]
    rintro ⟨b, hb, _⟩
    exact h b hb

theorem asksCustody_iff (p : Bpv6Primary.Primary) : asksCustody p = true ↔ WantsCustody p := by
  unfold asksCustody WantsCustody
  simp

theorem isEcho6_iff (C : Cfg) (p : Bpv6Primary.Primary) : isEcho6 C p = true ↔ ForEcho C p := by
  unfold isEcho6 ForEcho
  simp

theorem forward_same (s : Sink) (e : Eid) (b : Bytes) :
    (s.forward e b).frags = s.frags ∧ (s.forward e b).custody = s.custody ∧ (s.forward e b).nextId = s.nextId := by
  unfold Sink.forward
  split_ifs <;> simp

theorem take_plain {C : Cfg} {s : Sink} {v : BundleView6.View} {now : Nat} {t : AdminRecord6.DtnTime}
    (h : ¬ (C.canSend = true ∧ WantsCustody v.primary)) : s.takeCustody C v now t = (s, .ok v) := by
  unfold Sink.takeCustody
  rw [if_neg]
  rw [Bool.and_eq_true, asksCustody_iff]
  exact h

theorem take_frags (C : Cfg) (s : Sink) (v : BundleView6.View) (now : Nat) (t : AdminRecord6.DtnTime) :
    (s.takeCustody C v now t).1.frags = s.frags := by
  unfold Sink.takeCustody
  split_ifs
  · dsimp only
    split
    all_goals first | rfl | exact (forward_same _ _ _).1
  · rfl

theorem take_ok {C : Cfg} {s s' : Sink} {v v' : BundleView6.View} {now : Nat} {t : AdminRecord6.DtnTime}
    (h : s.takeCustody C v now t = (s', .ok v')) : v'.byType 1 = v.byType 1 ∧ v'.primary.isFragment = v.primary.isFragment := by
  by_cases hc : C.canSend = true ∧ WantsCustody v.primary
  swap
  · rw [take_plain hc] at h
    simp only [Prod.mk.injEq, Except.ok.injEq] at h
    rw [h.2]
    exact ⟨rfl, rfl⟩
  have key : ∃ r m, CustodyManager.process s.custody v true s.nextId 0 now t = some (v', r, m) := by
    unfold Sink.takeCustody at h
    rw [if_pos (by rw [Bool.and_eq_true, asksCustody_iff]; exact hc)] at h
    dsimp only at h
    split at h
    all_goals simp only [Prod.mk.injEq, reduceCtorEq, and_false, Except.ok.injEq] at h
    · rename_i e
      rw [e, h.2]
      exact ⟨_, _, rfl⟩
    · rename_i e
      rw [e, h.2]
      exact ⟨_, _, rfl⟩
  obtain ⟨r, m, hk⟩ := key
  obtain ⟨u1, u4, _⟩ := CustodyManager.C66_accepted _ _ _ _ _ _ _ _ _ hk
  refine ⟨?_, by rw [u1]; rfl⟩
  have e : ∀ u : BundleView6.View, u.byType 1 =
      (u.blocks.filter fun b => b.block.typeCode ≠ 10).filter fun b => b.block.typeCode = 1 := by
    intro u
    unfold BundleView6.View.byType
    rw [List.filter_filter]
    apply List.filter_congr
    intro b _
    by_cases hb : b.block.typeCode = 1 <;> simp [hb]
  rw [e, e, u4]

theorem fits_of_load {buf : Bytes} {v : BundleView6.View} (hl : BundleView6.load buf = some v) :
    PrimaryFits v.primary ∧ ∀ b ∈ v.blocks, b.block.data.length < 2 ^ 64 := by
  obtain ⟨_, h2, _, h4, _⟩ := (BundleView6.C56_load_iff _ _).1 hl
  refine ⟨?_, ?_⟩
  · obtain ⟨⟨body, _, hs⟩, h0⟩ := h2
    have hlt := CustodyManager.split_lt hs
    have hm : ∀ x ∈ Bpv6Primary.Spec.tailFields v.primary, x < 2 ^ 64 := fun x hx => hlt x (by simp [hx])
    have hfr : v.primary.fragmentOffset < 2 ^ 64 ∧ v.primary.totalAduLength < 2 ^ 64 := by
      by_cases hf : Bpv6Primary.Spec.IsFragment v.primary
      · exact ⟨hm _ (by simp [Bpv6Primary.Spec.tailFields, hf]), hm _ (by simp [Bpv6Primary.Spec.tailFields, hf])⟩
      · rw [(h0 hf).1, (h0 hf).2]
        exact ⟨by decide, by decide⟩
    refine ⟨hlt _ (by simp), ⟨?_, ?_⟩, ⟨?_, ?_⟩, ⟨?_, ?_⟩, ⟨?_, ?_⟩, ?_, ?_, ?_, hfr⟩
    all_goals exact hm _ (by simp [Bpv6Primary.Spec.tailFields])
  · intro b hb
    obtain ⟨q, _, hq⟩ := (h4 b hb).1
    exact CustodyManager.split_lt hq _ (by simp)

/-- Custody is taken of every bundle that asks for it, unless it is malformed. -/
theorem take_settled {aware : Bool} {C : Cfg} (hme : EidFits C.me) {s : Sink} (hs : Reached aware C.me s.custody)
    (hid : s.nextId < 2 ^ 64) {buf : Bytes} {v : BundleView6.View} (hl : BundleView6.load buf = some v)
    (hx : ∀ x, ValidCteb v x → x + 1 < 2 ^ 64) {now : Nat} (hnow : now < 2 ^ 64) {t : AdminRecord6.DtnTime} (ht : TimeFits t) :
    (C.canSend = true ∧ WantsCustody v.primary ∧ Malformed aware v → (s.takeCustody C v now t).2 = .error .refused) ∧
    (¬ (C.canSend = true ∧ WantsCustody v.primary ∧ Malformed aware v) → ∃ s' v', s.takeCustody C v now t = (s', .ok v')) := by
  have haw : s.custody.aware = aware := (CustodyManager.reached_inv hs hme).2.2
  have hfit : (CustodyManager.Spec.Op.process v true s.nextId 0 now t).Fits :=
    ⟨(fits_of_load hl).1, (fits_of_load hl).2, hid, hx, hnow, ht⟩
  constructor
  · rintro ⟨h1, h2, h3⟩
    unfold Sink.takeCustody
    rw [if_pos (by rw [Bool.and_eq_true, asksCustody_iff]; exact ⟨h1, h2⟩)]
    dsimp only
    rw [(CustodyManager.C66_rejects_iff s.custody v true s.nextId 0 now t).2 (by rw [haw]; exact h3)]
  · intro h
    by_cases hc : C.canSend = true ∧ WantsCustody v.primary
    swap
    · exact ⟨_, _, take_plain hc⟩
    have hm : ¬ Malformed aware v := fun hm => h ⟨hc.1, hc.2, hm⟩
    unfold Sink.takeCustody
    rw [if_pos (by rw [Bool.and_eq_true, asksCustody_iff]; exact hc)]
    dsimp only
    by_cases hv : aware = true ∧ ∃ x, ValidCteb v x
    · obtain ⟨ha, x, hxv⟩ := hv
      obtain ⟨v', m', hp, _⟩ := CustodyManager.C66_defers aware C.me hme s.custody hs v (CustodyManager.malformed_payload hm) ha x hxv true s.nextId 0
        now t hfit
      rw [hp]
      exact ⟨_, _, rfl⟩
    · obtain ⟨v', out, w, m', b, q, _, hp, _⟩ := CustodyManager.C66_signals aware C.me hme s.custody hs v hm hv true s.nextId 0 now t hfit
      rw [hp]
      exact ⟨_, _, rfl⟩

/-- What becomes of the fragments that the sink keeps: it adds bundles that were received, and all fragments for it of which custody is not asked. -/
theorem run_frags (C : Cfg) (ops : List Op) (s : Sink) :
    ∃ l : List Bytes, (∀ d ∈ l, d ∈ inputs ops) ∧
      (∀ d ∈ inputs ops, (∃ w, BundleView6.load d = some w ∧ w.primary.dest = C.me ∧ ¬ ForEcho C w.primary ∧
        w.primary.flags.testBit 0 = true ∧ ¬ (C.canSend = true ∧ WantsCustody w.primary)) → d ∈ l) ∧
      (s.run C ops).frags = l.foldl (fun m d => (m.add d).2) s.frags := by
  induction ops generalizing s with
  | nil => exact ⟨[], by simp [inputs], by simp [inputs], rfl⟩
  | cons op ops ih =>
    have hrun : s.run C (op :: ops) = (s.step C op).run C ops := rfl
    obtain ⟨l, l1, l2, l3⟩ := ih (s.step C op)
    cases op with
    | timer clock =>
      refine ⟨l, l1, l2, ?_⟩
      rw [hrun, l3]
      have : (s.step C (.timer clock)).frags = s.frags := by
        show (s.sendAcs clock).frags = s.frags
        have hf : ∀ (L : List (Eid × Fin 7 × BundleView6.Rendered)) (s : Sink), (L.foldl Sink.sendOne s).frags = s.frags := by
          intro L
          induction L with
          | nil => intro s; rfl
          | cons x L ihL =>
            intro s
            rw [List.foldl_cons, ihL]
            unfold Sink.sendOne
            split
            · exact (forward_same _ _ _).1
            · rfl
        unfold Sink.sendAcs
        dsimp only
        split_ifs
        · rw [hf]
        · rfl
      rw [this]
    | bundle buf now t =>
      have hin : inputs (.bundle buf now t :: ops) = buf :: inputs ops := rfl
      have key : (s.step C (.bundle buf now t)).frags = s.frags ∧ ¬ (∃ w, BundleView6.load buf = some w ∧ w.primary.dest = C.me ∧
          ¬ ForEcho C w.primary ∧ w.primary.flags.testBit 0 = true ∧ ¬ (C.canSend = true ∧ WantsCustody w.primary)) ∨
          (s.step C (.bundle buf now t)).frags = (s.frags.add buf).2 := by
        show (s.receive6 C buf now t).1.frags = s.frags ∧ _ ∨ (s.receive6 C buf now t).1.frags = _
        unfold Sink.receive6
        cases hl : BundleView6.load buf with
        | none => exact .inl ⟨rfl, by simp⟩
        | some v =>
          dsimp only
          unfold Sink.view6
          by_cases h1 : isEcho6 C v.primary = true
          · rw [if_pos h1]
            left
            refine ⟨?_, ?_⟩
            · split_ifs
              · rfl
              · split
                all_goals first | rfl | exact (forward_same _ _ _).1
            · rintro ⟨w, hw, _, hne, _⟩
              simp only [Option.some.injEq] at hw
              subst hw
              exact hne ((isEcho6_iff _ _).1 h1)
          · rw [if_neg h1]
            by_cases h2 : v.primary.dest = C.me
            swap
            · rw [if_pos h2]
              left
              refine ⟨rfl, ?_⟩
              rintro ⟨w, hw, hd, _⟩
              simp only [Option.some.injEq] at hw
              subst hw
              exact h2 hd
            · rw [if_neg (by simpa using h2)]
              have hfr := take_frags C s v now t
              cases ht : s.takeCustody C v now t with
              | mk s' r =>
                rw [ht] at hfr
                dsimp only at hfr
                cases r with
                | error o =>
                  left
                  refine ⟨hfr, ?_⟩
                  rintro ⟨w, hw, _, _, _, hc⟩
                  simp only [Option.some.injEq] at hw
                  subst hw
                  rw [take_plain hc] at ht
                  simp at ht
                | ok v' =>
                  dsimp only
                  obtain ⟨_, hfv⟩ := take_ok ht
                  unfold Sink.deliver
                  by_cases hf : v'.primary.isFragment = true
                  · rw [if_pos hf]
                    right
                    rw [hfr]
                    dsimp only
                    split <;> rfl
                  · rw [if_neg hf]
                    left
                    refine ⟨hfr, ?_⟩
                    rintro ⟨w, hw, _, _, hb, _⟩
                    simp only [Option.some.injEq] at hw
                    subst hw
                    rw [hfv] at hf
                    exact hf hb
      rcases key with ⟨hk, hno⟩ | hk
      · refine ⟨l, fun d hd => by rw [hin]; exact List.mem_cons_of_mem _ (l1 d hd), ?_, by rw [hrun, l3, hk]⟩
        intro d hd hw
        rw [hin] at hd
        rcases List.mem_cons.1 hd with rfl | hd
        · exact absurd hw hno
        · exact l2 d hd hw
      · refine ⟨buf :: l, ?_, ?_, by rw [hrun, l3, hk]; rfl⟩
        · intro d hd
          rw [hin]
          rcases List.mem_cons.1 hd with rfl | hd
          · exact List.mem_cons_self
          · exact List.mem_cons_of_mem _ (l1 d hd)
        · intro d hd hw
          rw [hin] at hd
          rcases List.mem_cons.1 hd with rfl | hd
          · exact List.mem_cons_self
          · exact List.mem_cons_of_mem _ (l2 d hd hw)

/-- A rendered bundle goes where the view says. -/
theorem render_dest {v w : BundleView6.View} {out : Bytes} (h : v.render = some (out, w)) : w.primary.dest = v.primary.dest := by
  unfold BundleView6.View.render at h
  simp only [Option.bind_eq_bind, Option.bind_eq_some_iff, Prod.exists, Option.pure_def, Option.some.injEq, Prod.mk.injEq] at h
  obtain ⟨pOut, p, hp, o, bs, _, _, rfl⟩ := h
  unfold BundleView6.renderPrimary at hp
  split_ifs at hp with hd
  · rw [Bpv6Primary.serialize_eq] at hp
    split at hp
    · rename_i e
      simp only [Prod.mk.injEq] at e
      simp only [Option.some.injEq, Prod.mk.injEq] at hp
      rw [← hp.2, ← e.2]
    · simp at hp
  · simp only [Option.some.injEq, Prod.mk.injEq] at hp
    rw [← hp.2]

theorem renderMax_dest {v w : BundleView6.View} {out : Bytes} {n : Nat} (h : v.renderMax n = .done out w) :
    w.primary.dest = v.primary.dest := by
  unfold BundleView6.View.renderMax at h
  split at h
  · simp at h
  · rename_i hr
    split_ifs at h
    simp only [BundleView6.Rendered.done.injEq] at h
    rw [← h.2]
    exact render_dest hr

theorem signal_dest {m m' : CustodyManager.Mgr} {v v' w : BundleView6.View} {id now : Nat} {i : Fin 7} {t : AdminRecord6.DtnTime}
    {out : Bytes} {accept : Bool} (h : CustodyManager.process m v accept id i now t = some (v', some (.done out w), m')) :
    w.primary.dest = v.primary.custodian := by
  have hone : ∀ (p : Bpv6Primary.Primary) n j, (CustodyManager.generateSignal m p n j now t).1 = .done out w → w.primary.dest = p.custodian :=
    fun p n j hg => renderMax_dest hg
  have hinfo : ∀ info, CustodyManager.getInfo m v = some info → info.primary = v.primary := by
    intro info hi
    unfold CustodyManager.getInfo at hi
    split at hi
    · simp at hi
    · split_ifs at hi
      · split at hi
        · simp at hi
        · simp only [Option.some.injEq] at hi; rw [← hi]
        · simp only [Option.some.injEq] at hi; rw [← hi]
      · simp only [Option.some.injEq] at hi; rw [← hi]
  unfold CustodyManager.process at h
  split at h
  · simp at h
  · rename_i info hi
    split at h
    · simp at h
    · simp only [Option.some.injEq, Prod.mk.injEq] at h
      obtain ⟨_, hg⟩ := h
      rw [← hinfo info hi]
      unfold CustodyManager.generateCustodySignal at hg
      dsimp only at hg
      split_ifs at hg
      · split at hg
        · simp at hg
        · simp only [Prod.mk.injEq, Option.some.injEq] at hg
          exact hone _ _ _ hg.1
      · split at hg
        · simp at hg
        · simp only [Prod.mk.injEq, Option.some.injEq] at hg
          exact hone _ _ _ hg.1
      · simp only [Prod.mk.injEq, Option.some.injEq] at hg
        exact hone _ _ _ hg.1
      · simp only [Prod.mk.injEq, Option.some.injEq] at hg
        exact hone _ _ _ hg.1

theorem acs_dest {m : CustodyManager.Mgr} {clock : Nat → Nat} {c : Eid} {i : Fin 7} {out : Bytes} {w : BundleView6.View}
    (h : (c, i, .done out w) ∈ (CustodyManager.generateAll m clock).2.1) : w.primary.dest = c := by
  have hone : ∀ (m : CustodyManager.Mgr) c i now out w m', CustodyManager.generateOne m c i false now = some (.done out w, m') →
      w.primary.dest = c := by
    intro m c i now out w m' hg
    unfold CustodyManager.generateOne at hg
    split at hg
    · simp at hg
    · rename_i r m'' hacs
      simp only [Option.some.injEq, Prod.mk.injEq] at hg
      unfold CustodyManager.generateAcs at hacs
      split_ifs at hacs
      simp only [Option.some.injEq, Prod.mk.injEq] at hacs
      exact renderMax_dest (hacs.1.trans hg.1)
  unfold CustodyManager.generateAll at h
  generalize (0 : Nat) = k at h
  generalize ({ m with largest := k } : CustodyManager.Mgr) = m0 at h
  revert h
  generalize (m.acs.flatMap fun e => (List.finRange 7).map fun i => (e.1, i)) = L
  induction L generalizing k m0 with
  | nil => intro h; simp [CustodyManager.generateEach] at h
  | cons x L ih =>
    obtain ⟨c', i'⟩ := x
    intro h
    rw [CustodyManager.generateEach] at h
    split at h
    · exact ih _ _ h
    · rename_i o v m' hg
      simp only [List.mem_cons, Prod.mk.injEq, BundleView6.Rendered.done.injEq] at h
      rcases h with ⟨rfl, _, rfl, rfl⟩ | h
      · exact hone _ _ _ _ _ _ _ hg
      · exact ih _ _ h
    · rename_i x m' hno hg
      simp only [List.mem_singleton, Prod.mk.injEq] at h
      obtain ⟨_, _, rfl⟩ := h
      exact (hno out w rfl).elim

theorem forall2_split {α β : Type} {R : α → β → Prop} {pre xs : List α} {ys : List β} (h : List.Forall₂ R (pre ++ xs) ys) :
    ∃ a b, ys = a ++ b ∧ List.Forall₂ R pre a ∧ List.Forall₂ R xs b := by
  induction pre generalizing ys with
  | nil => exact ⟨[], ys, rfl, .nil, h⟩
  | cons x pre ih =>
    cases h with
    | cons h1 h2 =>
      obtain ⟨a, b, rfl, ha, hb⟩ := ih h2
      exact ⟨_ :: a, b, rfl, .cons h1 ha, hb⟩

theorem forall2_mem {α β : Type} {R : α → β → Prop} {xs : List α} {ys : List β} (h : List.Forall₂ R xs ys) {x : α} (hx : x ∈ xs) :
    ∃ y ∈ ys, R x y := by
  induction h with
  | nil => simp at hx
  | cons h1 _ ih =>
    rcases List.mem_cons.1 hx with rfl | hx
    · exact ⟨_, by simp, h1⟩
    · obtain ⟨y, hy, hr⟩ := ih hx
      exact ⟨y, by simp [hy], hr⟩

/-- Room in the queue: everything that is sent goes there, in order. -/
theorem forward_room {s : Sink} {e : Eid} {b : Bytes} (h : s.queue.length ≤ 2000) : (s.forward e b).queue = s.queue ++ [(e, b)] := by
  unfold Sink.forward
  rw [if_neg (by omega)]

theorem sendEach_queue (L : List (Eid × Fin 7 × BundleView6.Rendered)) (s : Sink) (h : s.queue.length + L.length ≤ 2001)
    (hL : ∀ x ∈ L, ∃ out w, x.2.2 = .done out w ∧ w.primary.dest = x.1) :
    ∃ added, (L.foldl Sink.sendOne s).queue = s.queue ++ added ∧
      List.Forall₂ (fun x a => a.1 = x.1 ∧ ∃ w, x.2.2 = .done a.2 w) L added ∧ (L.foldl Sink.sendOne s).custody = s.custody := by
  induction L generalizing s with
  | nil => exact ⟨[], by simp, .nil, rfl⟩
  | cons x L ih =>
    obtain ⟨out, w, h1, h2⟩ := hL x (by simp)
    rw [List.length_cons] at h
    have hs : s.sendOne x = s.forward x.1 out := by
      unfold Sink.sendOne
      rw [h1, ← h2]
    have hq := forward_room (s := s) (e := x.1) (b := out) (by omega)
    obtain ⟨added, a1, a2, a3⟩ := ih (s.sendOne x) (by rw [hs, hq, List.length_append, List.length_singleton]; omega)
      (fun y hy => hL y (by simp [hy]))
    refine ⟨(x.1, out) :: added, ?_, .cons ⟨rfl, w, h1⟩ a2, ?_⟩
    · rw [List.foldl_cons, a1, hs, hq, List.append_assoc]
      rfl
    · rw [List.foldl_cons, a3, hs, (forward_same _ _ _).2.1]

end Hdtn.Sink
