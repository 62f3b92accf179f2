import Mathlib.Data.List.Induction
import Verif.CustodyManager.Process

namespace Hdtn.CustodyManager

open Hdtn.FragmentSet hiding Op
open Hdtn.HashMap16 Hdtn.Sdnv Hdtn.BundleView6 Hdtn.BundleView6.Spec
open Hdtn.CustodyManager.Spec
open Hdtn.AdminRecord6 (DtnTime CustodySignal StatusReport Content Record)
open Hdtn.Bpv6Primary (Primary)

theorem isAdmin_unique {out : Bytes} {s s' d d' : Eid} {p p' t t' q q' : Nat} {r r' : Record}
    (h : IsAdminBundle out s d p t q r) (h' : IsAdminBundle out s' d' p' t' q' r') :
    s = s' ∧ d = d' ∧ t = t' ∧ q = q' ∧ r = r' := by
  obtain ⟨v, b, h1, h2, _, h4, h5, h6, h7, h8, _⟩ := h
  obtain ⟨v', b', h1', h2', _, h4', h5', h6', h7', h8', _⟩ := h'
  rw [h1, Option.some.injEq] at h1'
  subst h1'
  rw [h2] at h2'
  simp only [List.cons.injEq, and_true] at h2'
  subst h2'
  rw [h4] at h4'
  simp only [Body.admin.injEq] at h4'
  exact ⟨by rw [← h5, h5'], by rw [← h6, h6'], by rw [← h7, h7'], by rw [← h8, h8'], h4'⟩

theorem aggregateFor_inj {i j : Fin 7} {a b : List Frag} (h : aggregateFor i a = aggregateFor j b) : a = b := by
  unfold aggregateFor at h
  simp only [Record.mk.injEq, Option.some.injEq, Content.aggregate.injEq, true_and] at h
  exact h.2

theorem carries_append (me : Eid) (a b : List Out) (c : Eid) (j : Fin 7) (x : Nat) :
    Carries me (a ++ b) c j x ↔ Carries me a c j x ∨ Carries me b c j x := by
  unfold Carries
  constructor
  · rintro ⟨o, w, s, q, f, h1, h2⟩
    rcases List.mem_append.1 h1 with h1 | h1
    · exact .inl ⟨o, w, s, q, f, h1, h2⟩
    · exact .inr ⟨o, w, s, q, f, h1, h2⟩
  · rintro (⟨o, w, s, q, f, h1, h2⟩ | ⟨o, w, s, q, f, h1, h2⟩)
    · exact ⟨o, w, s, q, f, List.mem_append_left _ h1, h2⟩
    · exact ⟨o, w, s, q, f, List.mem_append_right _ h1, h2⟩

theorem carries_nil (me c : Eid) (j : Fin 7) (x : Nat) : ¬ Carries me [] c j x := by
  rintro ⟨_, _, _, _, _, h, _⟩
  simp at h

theorem covers_ne_nil {s : List Frag} {x : Nat} (h : Covers s x) : s ≠ [] := by
  rintro rfl
  exact covers_nil _ h

/-- What one call does. -/
structure StepOk (m : Mgr) (op : Op) : Prop where
  inv : Inv (step m op).1
  me : (step m op).1.me = m.me
  aware : (step m op).1.aware = m.aware
  sent : ∀ o ∈ (step m op).2, ∃ out w dest priority seconds sequence r, o.rendered = .done out w ∧
    IsAdminBundle out m.me dest priority seconds sequence r ∧ op.Shows seconds ∧
    (op.Ticking → sequence = 0)
  acs : ∀ c j r, Out.acs c j r ∈ (step m op).2 → ∃ out w seconds sequence fills, r = .done out w ∧
    Canonical fills ∧ IsAdminBundle out m.me c 0 seconds sequence (aggregateFor j fills)
  owed : ∀ c j x, Covers ((step m op).1.pending c j) x ∨ Carries m.me (step m op).2 c j x ↔
    Covers (m.pending c j) x ∨ Owes m.aware op c j x

theorem step_ok {m : Mgr} (h : Inv m) (hme : EidFits m.me) (hl : m.largest ≤ 101) (op : Op) (hf : op.Fits) :
    StepOk m op := by
  cases op with
  | process v accept id i now time =>
    obtain ⟨f1, f2, f3, f4, f5, f6⟩ := hf
    by_cases hm : Malformed m.aware v
    · have hs : step m (.process v accept id i now time) = (m, []) := by
        simp only [step, (process_none_iff m v accept id i now time).2 hm]
      refine ⟨by rw [hs]; exact h, by rw [hs], by rw [hs], by rw [hs]; simp, by rw [hs]; simp, ?_⟩
      intro c j x
      rw [hs]
      simp only [carries_nil, or_false]
      refine ⟨.inl, ?_⟩
      rintro (h1 | ⟨h1, h2, h3, _⟩)
      · exact h1
      · rcases hm with hm | ⟨_, _, hm⟩
        · exact absurd h2 hm
        · exact absurd ⟨_, _, h3⟩ hm
    · by_cases hv : m.aware = true ∧ ∃ x, ValidCteb v x
      · obtain ⟨ha, y, hy⟩ := hv
        obtain ⟨v', _, hp⟩ := process_valid (malformed_payload hm) ha hy accept id i now time
        have hs : step m (.process v accept id i now time) =
            (aggregate m v.primary.custodian (if accept = true then 0 else i) y, []) := by
          simp only [step, hp]
        obtain ⟨a1, a2, a3⟩ := inv_aggregate h v.primary.custodian f1.2.2.2.2.1
          (if accept = true then 0 else i) y (f4 y hy)
        refine ⟨by rw [hs]; exact a1, by rw [hs]; rfl, by rw [hs]; rfl, by rw [hs]; simp,
          by rw [hs]; simp, ?_⟩
        intro c j x
        rw [hs]
        simp only [carries_nil, or_false]
        by_cases hcj : c = v.primary.custodian ∧ j = if accept = true then 0 else i
        · obtain ⟨rfl, rfl⟩ := hcj
          rw [a2]
          refine or_congr Iff.rfl ⟨?_, ?_⟩
          · rintro rfl
            exact ⟨ha, malformed_payload hm, hy, rfl, rfl⟩
          · rintro ⟨_, _, h3, _, _⟩
            exact (hasCteb_unique h3 hy).1
        · rw [a3 c j hcj]
          refine ⟨.inl, ?_⟩
          rintro (h1 | ⟨_, _, _, h4, h5⟩)
          · exact h1
          · exact absurd ⟨h4, h5⟩ hcj
      · obtain ⟨v', n, _, hn, hp⟩ := process_invalid hm hv accept id i now time
        have hn64 : n < 2 ^ 64 := by
          obtain ⟨b, hb, hb'⟩ := payloadSize_some (malformed_payload hm)
          rw [hn, Option.some.injEq] at hb'
          have : b ∈ v.byType 1 := by rw [hb]; simp
          rw [hb']
          exact f2 b (List.mem_filter.1 this).1
        obtain ⟨out, w, g1, g2⟩ := signal_done h hme v.primary f1 n hn64 (if accept = true then 0 else i) now
          f5 time f6
        have hs : step m (.process v accept id i now time) = ((stamp m now).2, [.signal (.done out w)]) := by
          simp only [step, hp, g1]
        refine ⟨by rw [hs]; exact h.stamp now, by rw [hs]; rfl, by rw [hs]; rfl, ?_, by rw [hs]; simp, ?_⟩
        · rw [hs]
          intro o ho
          simp only [List.mem_singleton] at ho
          subst ho
          exact ⟨out, w, _, _, _, _, _, rfl, g2, rfl, (stamp_seq h now).2.2⟩
        · intro c j x
          rw [hs]
          have hc : ¬ Carries m.me [Out.signal (.done out w)] c j x := by
            rintro ⟨_, _, _, _, _, h1, _⟩
            simp at h1
          simp only [hc, or_false]
          show Covers (m.pending c j) x ↔ _
          refine ⟨.inl, ?_⟩
          rintro (h1 | ⟨h1, _, h3, _⟩)
          · exact h1
          · exact absurd ⟨h1, _, h3⟩ hv
  | flush clock =>
    obtain ⟨i1, i2, i3, i4, i5, i6, i7, i8, i9⟩ := all_done h hme hl clock hf
    refine ⟨i2, i3, i4, ?_, ?_, ?_⟩
    · intro o ho
      simp only [step, List.mem_map] at ho
      obtain ⟨x, hx, rfl⟩ := ho
      obtain ⟨out, w, n, q, a1, a2, a3, a4⟩ := i8 x hx
      refine ⟨out, w, _, _, _, q, _, a1, a4, ⟨n, rfl⟩, a3⟩
    · intro c j r ho
      simp only [step, List.mem_map, Out.acs.injEq] at ho
      obtain ⟨x, hx, rfl, rfl, rfl⟩ := ho
      obtain ⟨out, w, n, q, a1, a2, a3, a4⟩ := i8 x hx
      exact ⟨out, w, _, _, _, a1, h.canonical _ _, a4⟩
    · intro c j x
      have hz : ¬ Covers ((step m (.flush clock)).1.pending c j) x := by
        show ¬ Covers ((generateAll m clock).2.2.pending c j) x
        rw [i9]
        exact covers_nil x
      simp only [hz, false_or, Owes, or_false]
      constructor
      · rintro ⟨out, w, s, q, f, g1, g2, g3⟩
        simp only [step, List.mem_map] at g1
        obtain ⟨y, hy, hyo⟩ := g1
        obtain ⟨y1, y2, y3⟩ := y
        simp only [Out.acs.injEq] at hyo
        obtain ⟨rfl, rfl, rfl⟩ := hyo
        obtain ⟨out', w', n, q', a1, a2, a3, a4⟩ := i8 _ hy
        simp only [Rendered.done.injEq] at a1
        obtain ⟨rfl, rfl⟩ := a1
        rw [← aggregateFor_inj (isAdmin_unique g2 a4).2.2.2.2]
        exact g3
      · intro hc
        have := (i7 c j).2 (covers_ne_nil hc)
        obtain ⟨y, hy, hyo⟩ := List.mem_map.1 this
        obtain ⟨y1, y2, y3⟩ := y
        simp only [Prod.mk.injEq] at hyo
        obtain ⟨rfl, rfl⟩ := hyo
        obtain ⟨out', w', n, q', a1, a2, a3, a4⟩ := i8 _ hy
        simp only at a1
        subst a1
        refine ⟨out', w', _, _, _, ?_, a4, hc⟩
        simp only [step, List.mem_map]
        exact ⟨_, hy, rfl⟩
  | one c i b now =>
    obtain ⟨f1, f2⟩ := hf
    by_cases he : m.pending c i = []
    · have hs : step m (.one c i b now) = (m, []) := by
        simp only [step, one_none he]
      refine ⟨by rw [hs]; exact h, by rw [hs], by rw [hs], by rw [hs]; simp, by rw [hs]; simp, ?_⟩
      intro c j x
      rw [hs]
      simp only [carries_nil, or_false, Owes]
    · obtain ⟨out, w, g1, g2⟩ := one_done h hme c f1 i he (Nat.le_trans (h.bounded c i) hl) b now f2
      have hs : step m (.one c i b now) =
          (if b then (stamp m now).2 else (stamp m now).2.setPending c i [], [.acs c i (.done out w)]) := by
        simp only [step, g1]
      refine ⟨by rw [hs]; exact inv_one h c f1 i b now, by rw [hs]; cases b <;> rfl,
        by rw [hs]; cases b <;> rfl, ?_, ?_, ?_⟩
      · rw [hs]
        intro o ho
        simp only [List.mem_singleton] at ho
        subst ho
        exact ⟨out, w, _, _, _, _, _, rfl, g2, rfl, (stamp_seq h now).2.2⟩
      · rw [hs]
        intro c' j r ho
        simp only [List.mem_singleton, Out.acs.injEq] at ho
        obtain ⟨rfl, rfl, rfl⟩ := ho
        exact ⟨out, w, _, _, _, rfl, h.canonical _ _, g2⟩
      · intro c' j x
        rw [hs]
        simp only [Owes, or_false]
        have hcar : Carries m.me [.acs c i (.done out w)] c' j x ↔
            c' = c ∧ j = i ∧ Covers (m.pending c i) x := by
          constructor
          · rintro ⟨o, w', s, q, f, k1, k2, k3⟩
            simp only [List.mem_singleton, Out.acs.injEq, Rendered.done.injEq] at k1
            obtain ⟨rfl, rfl, rfl, rfl⟩ := k1
            refine ⟨rfl, rfl, ?_⟩
            rw [← aggregateFor_inj (isAdmin_unique k2 g2).2.2.2.2]
            exact k3
          · rintro ⟨rfl, rfl, k3⟩
            exact ⟨out, w, _, _, _, by simp, g2, k3⟩
        rw [hcar]
        cases b
        · simp only [Bool.false_eq_true, if_false, pending_setPending]
          by_cases hcj : c' = c ∧ j = i
          · obtain ⟨rfl, rfl⟩ := hcj
            simp [covers_nil]
          · rw [if_neg hcj, pending_stamp]
            refine ⟨?_, .inl⟩
            rintro (k | ⟨k1, k2, _⟩)
            · exact k
            · exact absurd ⟨k1, k2⟩ hcj
        · simp only [if_true, pending_stamp]
          refine ⟨?_, .inl⟩
          rintro (k | ⟨rfl, rfl, k⟩)
          · exact k
          · exact k
  | report p n now time =>
    obtain ⟨f1, f2, f3, f4⟩ := hf
    obtain ⟨out, w, g1, g2⟩ := report_done h hme p f1 n f2 now f3 time f4
    have hs : step m (.report p n now time) = ((stamp m now).2, [.report (.done out w)]) := by
      simp only [step, g1]
      rfl
    refine ⟨by rw [hs]; exact h.stamp now, by rw [hs]; rfl, by rw [hs]; rfl, ?_, by rw [hs]; simp, ?_⟩
    · rw [hs]
      intro o ho
      simp only [List.mem_singleton] at ho
      subst ho
      exact ⟨out, w, _, _, _, _, _, rfl, g2, rfl, (stamp_seq h now).2.2⟩
    · intro c j x
      rw [hs]
      have hc : ¬ Carries m.me [Out.report (.done out w)] c j x := by
        rintro ⟨_, _, _, _, _, h1, _⟩
        simp at h1
      simp only [hc, or_false, Owes]
      exact Iff.rfl

/-! ### Histories -/

theorem below_cons {n : Nat} {m : Mgr} {op : Op} {ops : List Op} (h : Below n m (op :: ops)) :
    m.largest ≤ n ∧ Below n (step m op).1 ops := by
  refine ⟨h [] (List.nil_prefix), ?_⟩
  intro before hb
  exact h (op :: before) ((List.cons_prefix_cons).2 ⟨rfl, hb⟩)

theorem run_ok : ∀ (ops : List Op) (m : Mgr), Inv m → EidFits m.me → Below 101 m ops →
    (∀ op ∈ ops, op.Fits) →
    Inv (run m ops).1 ∧ (run m ops).1.me = m.me ∧ (run m ops).1.aware = m.aware ∧
      (∀ o ∈ (run m ops).2, ∃ op ∈ ops, ∃ out w dest priority seconds sequence r, o.rendered = .done out w ∧
        IsAdminBundle out m.me dest priority seconds sequence r ∧ op.Shows seconds ∧
        (op.Ticking → sequence = 0)) ∧
      (∀ c j r, Out.acs c j r ∈ (run m ops).2 → ∃ out w seconds sequence fills, r = .done out w ∧
        Canonical fills ∧ IsAdminBundle out m.me c 0 seconds sequence (aggregateFor j fills)) ∧
      (∀ c j x, Covers ((run m ops).1.pending c j) x ∨ Carries m.me (run m ops).2 c j x ↔
        Covers (m.pending c j) x ∨ ∃ op ∈ ops, Owes m.aware op c j x) := by
  intro ops
  induction ops with
  | nil =>
    intro m h1 h2 h3 h4
    refine ⟨h1, rfl, rfl, by simp [run], by simp [run], ?_⟩
    intro c j x
    simp [run, carries_nil]
  | cons op ops ih =>
    intro m h1 h2 h3 h4
    obtain ⟨hl, hb⟩ := below_cons h3
    have hs := step_ok h1 h2 hl op (h4 op (by simp))
    obtain ⟨i1, i2, i3, i4, i4', i5⟩ := ih (step m op).1 hs.inv (by rw [hs.me]; exact h2) hb
      (fun o ho => h4 o (by simp [ho]))
    rw [hs.me, hs.aware] at *
    refine ⟨i1, i2, i3, ?_, ?_, ?_⟩
    · intro o ho
      rcases List.mem_append.1 (show o ∈ (step m op).2 ++ (run (step m op).1 ops).2 from ho) with ho | ho
      · obtain ⟨out, w, d, p, s, q, r, a⟩ := hs.sent o ho
        exact ⟨op, by simp, out, w, d, p, s, q, r, a⟩
      · obtain ⟨op', ho', a⟩ := i4 o ho
        exact ⟨op', by simp [ho'], a⟩
    · intro c j r ho
      rcases List.mem_append.1 (show Out.acs c j r ∈ (step m op).2 ++ (run (step m op).1 ops).2 from ho) with
        ho | ho
      · exact hs.acs c j r ho
      · exact i4' c j r ho
    · intro c j x
      show Covers ((run (step m op).1 ops).1.pending c j) x ∨
        Carries m.me ((step m op).2 ++ (run (step m op).1 ops).2) c j x ↔ _
      rw [carries_append]
      have e1 := i5 c j x
      have e2 := hs.owed c j x
      simp only [List.mem_cons, exists_eq_or_imp]
      constructor
      · rintro (k | k | k)
        · rcases e1.1 (.inl k) with k | k
          · rcases e2.1 (.inl k) with k | k
            · exact .inl k
            · exact .inr (.inl k)
          · exact .inr (.inr k)
        · rcases e2.1 (.inr k) with k | k
          · exact .inl k
          · exact .inr (.inl k)
        · rcases e1.1 (.inr k) with k | k
          · rcases e2.1 (.inl k) with k | k
            · exact .inl k
            · exact .inr (.inl k)
          · exact .inr (.inr k)
      · rintro (k | k | k)
        · rcases e2.2 (.inl k) with k | k
          · rcases e1.2 (.inl k) with k | k
            · exact .inl k
            · exact .inr (.inr k)
          · exact .inr (.inl k)
        · rcases e2.2 (.inr k) with k | k
          · rcases e1.2 (.inl k) with k | k
            · exact .inl k
            · exact .inr (.inr k)
          · exact .inr (.inl k)
        · rcases e1.2 (.inr k) with k | k
          · exact .inl k
          · exact .inr (.inr k)

theorem run_append (m : Mgr) (a b : List Op) :
    run m (a ++ b) = ((run (run m a).1 b).1, (run m a).2 ++ (run (run m a).1 b).2) := by
  induction a generalizing m with
  | nil => rfl
  | cons op a ih =>
    rw [List.cons_append, run, ih, run, List.append_assoc]

theorem insertLoop_length : ∀ (n : Nat) (s : List Frag) (key : Frag) (b : Bool), s.length = n →
    (FragmentSet.insertLoop s key b).1.length ≤ s.length + 1 := by
  intro n
  induction n using Nat.strongRecOn with
  | _ n ih =>
    intro s key b hn
    have h3 : (s.takeWhile (fun f => !(key.lt f)) ++ s.dropWhile fun f => !(key.lt f)).length = s.length := by
      rw [List.takeWhile_append_dropWhile]
    rw [FragmentSet.insertLoop]
    split
    · simp
    · rename_i j hj
      have hpos : 0 < (s.takeWhile fun f => !(key.lt f)).length := by
        rcases hp : s.takeWhile (fun f => !(key.lt f)) with _ | _
        · rw [hp] at hj; simp at hj
        · simp
      split
      · simp only [List.length_append, List.length_cons] at h3 ⊢
        omega
      · split
        · simp
        · simp only [List.length_append] at h3
          have hlt : ((s.takeWhile fun f => !(key.lt f)).dropLast ++
              s.dropWhile fun f => !(key.lt f)).length < n := by
            simp only [List.length_append, List.length_dropLast]
            omega
          have := ih _ hlt _ ⟨min key.b j.b, max key.e j.e⟩ true rfl
          omega

/-- The running maximum grows by at most one per call, and is reset when everything is sent. -/
theorem step_largest {m : Mgr} (h : Inv m) (hme : EidFits m.me) (hl : m.largest ≤ 101) (op : Op)
    (hf : op.Fits) :
    (step m op).1.largest ≤ m.largest + 1 ∧ ((∃ clock, op = .flush clock) → (step m op).1.largest = 0) := by
  cases op with
  | process v accept id i now time =>
    refine ⟨?_, by rintro ⟨_, h⟩; simp at h⟩
    by_cases hm : Malformed m.aware v
    · simp only [step, (process_none_iff m v accept id i now time).2 hm]
      omega
    · by_cases hv : m.aware = true ∧ ∃ x, ValidCteb v x
      · obtain ⟨ha, y, hy⟩ := hv
        obtain ⟨v', _, hp⟩ := process_valid (malformed_payload hm) ha hy accept id i now time
        simp only [step, hp]
        have h1 := insertLoop_length _ (m.pending v.primary.custodian (if accept = true then 0 else i)) ⟨y, y⟩
          false rfl
        have h2 := h.bounded v.primary.custodian (if accept = true then 0 else i)
        show max (FragmentSet.insertLoop _ _ _).1.length m.largest ≤ _
        omega
      · obtain ⟨v', n, _, hn, hp⟩ := process_invalid hm hv accept id i now time
        simp only [step, hp]
        exact Nat.le_succ _
  | flush clock =>
    obtain ⟨_, _, _, _, i5, _⟩ := all_done h hme hl clock hf
    have : (step m (.flush clock)).1.largest = 0 := i5
    exact ⟨by omega, fun _ => this⟩
  | one c i b now =>
    refine ⟨?_, by rintro ⟨_, h⟩; simp at h⟩
    by_cases he : m.pending c i = []
    · simp only [step, one_none he]; omega
    · obtain ⟨out, w, g1, _⟩ := one_done h hme c hf.1 i he (Nat.le_trans (h.bounded c i) hl) b now hf.2
      simp only [step, g1]
      cases b <;> exact Nat.le_succ _
  | report p n now time => exact ⟨Nat.le_succ _, by rintro ⟨_, h⟩; simp at h⟩

theorem below_of_prefix {n : Nat} {m : Mgr} {a b : List Op} (h : Below n m b) (hab : a <+: b) :
    Below n m a := fun before hb => h before (hb.trans hab)

/-- A caller that sends everything as soon as the maximum exceeds `n` keeps it below `n + 1`. -/
theorem sendsAbove_below {n : Nat} (hn : n ≤ 100) (m : Mgr) (h : Inv m) (hme : EidFits m.me)
    (h0 : m.largest ≤ n + 1) (ops : List Op) (hf : ∀ op ∈ ops, op.Fits) (hs : SendsAbove n m ops) :
    Below (n + 1) m ops := by
  induction ops using List.reverseRecOn with
  | nil =>
    intro before hb
    have : before = [] := List.prefix_nil.1 hb
    subst this
    exact h0
  | append_singleton ops op ih =>
    have hbelow : Below (n + 1) m ops := ih (fun o ho => hf o (by simp [ho]))
      (fun before o hb => hs before o (hb.trans (List.prefix_append _ _)))
    intro before hb
    rcases List.prefix_concat_iff.1 hb with rfl | hb
    · have hb101 : Below 101 m ops := fun b hb => Nat.le_trans (hbelow b hb) (by omega)
      obtain ⟨i1, i2, _⟩ := run_ok ops m h hme hb101 (fun o ho => hf o (by simp [ho]))
      have hl := hbelow ops (List.prefix_refl _)
      obtain ⟨g1, g2⟩ := step_largest i1 (by rw [i2]; exact hme) (by omega) op (hf op (by simp))
      rw [run_append]
      show (step (run m ops).1 op).1.largest ≤ _
      by_cases hgt : n < (run m ops).1.largest
      · rw [g2 (hs ops op (List.prefix_refl _) hgt)]
        omega
      · omega
    · exact hbelow before hb

/-! ### Arrival -/

theorem releases_status (i : Fin 7) : releases (status i) = decide (i = 0 ∨ i = 1) := by
  revert i; decide

theorem admin_arrives {out : Bytes} {source dest : Eid} {p s q : Nat} {r : Record}
    (h : IsAdminBundle out source dest p s q r) (hp : p < 4) :
    ∃ v b, load out = some v ∧ isAdminFor v.primary dest = true ∧ v.byType 1 = [b] ∧ b.body = .admin r := by
  obtain ⟨v, b, h1, h2, h3, h4, h5, h6, h7, h8, h9⟩ := h
  refine ⟨v, b, h1, ?_, ?_, h4⟩
  · unfold isAdminFor
    have : ∀ p < 4, ((p * 128 + 16 + 4 + 2) &&& (16 ||| 2) == (16 ||| 2)) = true ∧
        (p * 128 + 16 + 4 + 2).testBit 0 = false := by decide
    rw [isFragment_bit, h9, (this p hp).1, (this p hp).2, h6]
    simp
  · unfold View.byType
    rw [h2]
    simp [h3]

end Hdtn.CustodyManager
