import Mathlib.Tactic.SplitIfs
import Verif.LtpSource.Spec

/-!
Lemmas for the bundle source over LTP.
-/

namespace Hdtn.LtpSource

open Spec

theorem filter_out {l : List (Nat × Nat)} {n : Nat} (h : (l.map Prod.fst).Nodup) (hn : n ∈ l.map Prod.fst) :
    (l.filter fun x => x.1 ≠ n).length + 1 = l.length := by
  induction l with
  | nil => simp at hn
  | cons a l ih =>
    rw [List.map_cons, List.nodup_cons] at h
    by_cases ha : a.1 = n
    · have : l.filter (fun x => x.1 ≠ n) = l := by
        rw [List.filter_eq_self]
        intro x hx
        simp only [decide_eq_true_eq]
        intro hc
        exact h.1 (by rw [ha, ← hc]; exact List.mem_map_of_mem hx)
      rw [List.filter_cons, if_neg (by simp [ha]), this]; rfl
    · rw [List.filter_cons, if_pos (by simp [ha]), List.length_cons, List.length_cons]
      have hn' : n ∈ l.map Prod.fst := by
        rw [List.map_cons, List.mem_cons] at hn
        exact hn.resolve_left (fun hc => ha hc.symm)
      rw [ih h.2 hn']

theorem map_filter_out (l : List (Nat × Nat)) (n : Nat) :
    (l.filter fun x => x.1 ≠ n).map Prod.fst = (l.map Prod.fst).filter fun x => x ≠ n := by
  rw [List.filter_map]; rfl

/-- One if the request was posted and is not counted. -/
def Pc.h : Pc → Nat
  | .handed _ => 1
  | _ => 0

/-- One if the call has incremented `m_startingCount` for a request that is not posted. -/
def Pc.a : Pc → Nat
  | .asked .. => 1
  | .admitted _ => 1
  | _ => 0

/-- One if the call will post a request. -/
def Pc.m : Pc → Nat
  | .admitted _ => 1
  | _ => 0

def Pc.b : Pc → Nat
  | .handed n => n
  | _ => 0

def one (b : Bool) : Nat := if b then 1 else 0

/-- What holds in all histories. -/
structure Inv (s : Src) : Prop where
  same : s.active = s.sessions.map Prod.fst
  nodup : (s.sessions.map Prod.fst).Nodup
  count : (s.sent + s.pc.h) % U64 = (s.acked + s.failed + s.posted.length + s.sessions.length + s.lost.length) % U64
  bytes : s.bytes % U64 = (accepted s).sum % U64
  sent : s.sent % U64 = (accepted s).length % U64

theorem accepted_append (s : Src) (r : Nat × Bool) (s' : Src) (h : s'.results = s.results ++ [r]) :
    accepted s' = accepted s ++ (if r.2 then [r.1] else []) := by
  unfold accepted
  rw [h, List.filterMap_append]
  cases r with
  | mk a b => cases b <;> rfl

theorem Inv.of {s s' : Src} (h : Inv s) (h1 : s'.active = s'.sessions.map Prod.fst) (h2 : (s'.sessions.map Prod.fst).Nodup)
    (h3 : (s'.sent + s'.pc.h) % U64 = (s'.acked + s'.failed + s'.posted.length + s'.sessions.length + s'.lost.length) % U64)
    (hb : s'.bytes = s.bytes) (hs : s'.sent = s.sent) (hr : s'.results = s.results) : Inv s' := by
  have ha : accepted s' = accepted s := by unfold accepted; rw [hr]
  exact ⟨h1, h2, h3, by rw [hb, ha]; exact h.bytes, by rw [hs, ha]; exact h.sent⟩

theorem inv_call {s : Src} (h : Inv s) (size : Nat) (ready : Bool) : Inv (s.call size ready) := by
  unfold Src.call
  cases hp : s.pc with
  | idle =>
    simp only
    split_ifs with hr
    · refine h.of h.same h.nodup ?_ rfl rfl rfl
      have := h.count
      rw [hp] at this
      exact this
    · have hc := h.count
      rw [hp] at hc
      refine ⟨h.same, h.nodup, hc, ?_, ?_⟩
      · rw [accepted_append s (size, false) _ rfl]; simpa using h.bytes
      · rw [accepted_append s (size, false) _ rfl]; simpa using h.sent
  | asked => exact h
  | admitted => exact h
  | handed => exact h

theorem inv_next {s : Src} (h : Inv s) : Inv s.next := by
  unfold Src.next
  have hc := h.count
  cases hp : s.pc with
  | idle => exact h
  | asked size old =>
    rw [hp] at hc
    simp only
    split_ifs with hl
    · refine ⟨h.same, h.nodup, hc, ?_, ?_⟩
      · rw [accepted_append s (size, false) _ rfl]; simpa using h.bytes
      · rw [accepted_append s (size, false) _ rfl]; simpa using h.sent
    · exact h.of h.same h.nodup hc rfl rfl rfl
  | admitted size =>
    rw [hp] at hc
    refine h.of h.same h.nodup ?_ rfl rfl rfl
    simp only [Pc.h, List.length_append, List.length_singleton] at hc ⊢
    unfold U64 at hc ⊢
    omega
  | handed size =>
    rw [hp] at hc
    refine ⟨h.same, h.nodup, ?_, ?_, ?_⟩
    · simp only [Pc.h] at hc ⊢
      unfold U64 at hc ⊢
      omega
    · rw [accepted_append s (size, true) _ rfl]
      have := h.bytes
      simp only [if_true, List.sum_append, List.sum_singleton] at this ⊢
      unfold U64 at this ⊢
      omega
    · rw [accepted_append s (size, true) _ rfl]
      have := h.sent
      simp only [if_true, List.length_append, List.length_singleton] at this ⊢
      unfold U64 at this ⊢
      omega

theorem inv_start {s : Src} (h : Inv s) (n : Nat) : Inv (s.start n) := by
  unfold Src.start
  by_cases hc : s.releasing = true ∨ n ∈ s.sessions.map Prod.fst
  · rw [if_pos hc]; exact h
  rw [if_neg hc]
  have hn : n ∉ s.sessions.map Prod.fst := fun h => hc (.inr h)
  cases hp : s.posted with
  | nil => exact h
  | cons b bs =>
    simp only
    rw [if_neg (by rw [h.same]; exact hn)]
    refine h.of (by simp [h.same]) ?_ ?_ rfl rfl rfl
    · simp only [List.map_append, List.map_cons, List.map_nil]
      rw [List.nodup_append]
      refine ⟨h.nodup, by simp, ?_⟩
      intro a ha b' hb' hab
      rw [List.mem_singleton] at hb'
      subst hb'; subst hab
      exact hn ha
    · have := h.count
      rw [hp] at this
      simp only [List.length_append, List.length_cons, List.length_nil] at this ⊢
      unfold U64 at this ⊢
      omega

theorem inv_drop {s : Src} (h : Inv s) : Inv s.drop := by
  unfold Src.drop
  split_ifs
  · exact h
  · cases hp : s.posted with
    | nil => exact h
    | cons b bs =>
      refine h.of h.same h.nodup ?_ rfl rfl rfl
      have := h.count
      rw [hp] at this
      simp only [List.length_append, List.length_cons, List.length_nil] at this ⊢
      unfold U64 at this ⊢
      omega

/-- A session that ends, and what is counted. -/
theorem end_eq {s : Src} (h : Inv s) (n : Nat) :
    (s.complete n = s ∧ (s.releasing = true ∨ n ∉ s.sessions.map Prod.fst) ∨
      s.releasing = false ∧ n ∈ s.sessions.map Prod.fst ∧ s.complete n = { s with
        sessions := s.sessions.filter fun x => x.1 ≠ n
        active := s.active.filter fun x => x ≠ n
        acked := (s.acked + 1) % U64 }) ∧
    (s.cancel n = s ∧ (s.releasing = true ∨ n ∉ s.sessions.map Prod.fst) ∨
      s.releasing = false ∧ n ∈ s.sessions.map Prod.fst ∧ s.cancel n = { s with
        sessions := s.sessions.filter fun x => x.1 ≠ n
        active := s.active.filter fun x => x ≠ n
        failed := (s.failed + 1) % U64 }) := by
  unfold Src.complete Src.cancel
  by_cases hc : s.releasing = true ∨ n ∉ s.sessions.map Prod.fst
  · rw [if_pos hc, if_pos hc]; exact ⟨.inl ⟨rfl, hc⟩, .inl ⟨rfl, hc⟩⟩
  · rw [if_neg hc, if_neg hc]
    have h1 : s.releasing = false := by
      cases hr : s.releasing with
      | false => rfl
      | true => exact absurd (.inl hr) hc
    have h2 : n ∈ s.sessions.map Prod.fst := by
      by_contra hn
      exact hc (.inr hn)
    have h3 : n ∈ s.active := by rw [h.same]; exact h2
    simp only
    rw [if_pos h3, if_pos h3]
    exact ⟨.inr ⟨h1, h2, rfl⟩, .inr ⟨h1, h2, rfl⟩⟩

theorem inv_complete {s : Src} (h : Inv s) (n : Nat) : Inv (s.complete n) := by
  rcases (end_eq h n).1 with ⟨h1, -⟩ | ⟨-, h2, h3⟩
  · rw [h1]; exact h
  · rw [h3]
    refine h.of ?_ ?_ ?_ rfl rfl rfl
    · simp only; rw [map_filter_out, h.same]
    · simp only; rw [map_filter_out]; exact h.nodup.filter _
    · have := h.count
      have hf := filter_out h.nodup h2
      simp only at this ⊢
      unfold U64 at this ⊢
      omega

theorem inv_cancel {s : Src} (h : Inv s) (n : Nat) : Inv (s.cancel n) := by
  rcases (end_eq h n).2 with ⟨h1, -⟩ | ⟨-, h2, h3⟩
  · rw [h1]; exact h
  · rw [h3]
    refine h.of ?_ ?_ ?_ rfl rfl rfl
    · simp only; rw [map_filter_out, h.same]
    · simp only; rw [map_filter_out]; exact h.nodup.filter _
    · have := h.count
      have hf := filter_out h.nodup h2
      simp only at this ⊢
      unfold U64 at this ⊢
      omega

theorem inv_step {s : Src} (h : Inv s) (a : Act) : Inv (s.step a) := by
  cases a with
  | call size ready => exact inv_call h size ready
  | next => exact inv_next h
  | start n => exact inv_start h n
  | release =>
    simp only [Src.step]; unfold Src.release
    generalize dec s.starting = k
    split_ifs
    · exact h.of h.same h.nodup h.count rfl rfl rfl
    · exact h
  | drop => exact inv_drop h
  | foreign =>
    simp only [Src.step]; unfold Src.foreign
    generalize dec s.starting = k
    split_ifs
    · exact h
    · exact h.of h.same h.nodup h.count rfl rfl rfl
  | complete n => exact inv_complete h n
  | cancel n => exact inv_cancel h n

theorem inv_run (as : List Act) : ∀ {s : Src}, Inv s → Inv (s.run as) := by
  induction as with
  | nil => intro s h; exact h
  | cons a as ih => intro s h; exact ih (inv_step h a)

theorem inv_init (limit : Nat) : Inv { limit := limit } :=
  ⟨rfl, by simp, rfl, rfl, rfl⟩

/-- What holds as long as the engine starts no sessions to receive. -/
structure Lim (s : Src) : Prop where
  starting : s.starting = s.posted.length + s.lost.length + one s.releasing + s.pc.a
  bound : s.posted.length + s.sessions.length + s.lost.length + s.pc.m ≤ s.limit + 1
  old : ∀ size old, s.pc = .asked size old → s.posted.length + s.lost.length + one s.releasing ≤ old

theorem dec_succ {n : Nat} (h : n + 1 < U32) : dec (n + 1) = n := by
  unfold dec; unfold U32 at h ⊢; omega

theorem one_le (b : Bool) : one b ≤ 1 := by unfold one; split_ifs <;> omega

theorem step_limit (s : Src) (a : Act) : (s.step a).limit = s.limit := by
  cases a <;> simp only [Src.step]
  · unfold Src.call; split
    · split_ifs <;> rfl
    · rfl
  · unfold Src.next; split
    · rfl
    · split_ifs <;> rfl
    · rfl
    · rfl
  · unfold Src.start
    split
    · rfl
    · split <;> rfl
  · unfold Src.release; split_ifs <;> rfl
  · unfold Src.drop
    split_ifs
    · rfl
    · split <;> rfl
  · unfold Src.foreign; split_ifs <;> rfl
  · unfold Src.complete; simp only; split_ifs <;> rfl
  · unfold Src.cancel; simp only; split_ifs <;> rfl

theorem run_limit (as : List Act) : ∀ s : Src, (s.run as).limit = s.limit := by
  induction as with
  | nil => intro s; rfl
  | cons a as ih => intro s; exact (ih (s.step a)).trans (step_limit s a)

theorem lim_step {s : Src} (hi : Inv s) (h : Lim s) (hl : s.limit + 4 < U32) (a : Act) (ha : a ≠ .foreign) : Lim (s.step a) := by
  have h1 := h.starting
  have h2 := h.bound
  have h3 := one_le s.releasing
  cases a with
  | foreign => exact absurd rfl ha
  | call size ready =>
    simp only [Src.step]; unfold Src.call
    cases hp : s.pc with
    | idle =>
      rw [hp] at h1 h2
      simp only [Pc.a, Pc.m] at h1 h2
      simp only
      split_ifs with hr
      · refine ⟨?_, h2, ?_⟩
        · simp only [Pc.a]
          rw [Nat.mod_eq_of_lt (by omega), h1]
        · intro size' old' ho
          cases ho
          simp only; omega
      · refine ⟨?_, ?_, ?_⟩
        · simp only [hp, Pc.a]; exact h1
        · simp only [hp, Pc.m]; exact h2
        · intro size' old' ho
          simp only [hp] at ho; cases ho
    | asked => exact h
    | admitted => exact h
    | handed => exact h
  | next =>
    simp only [Src.step]; unfold Src.next
    cases hp : s.pc with
    | idle => exact h
    | asked size old =>
      have h4 := h.old size old hp
      rw [hp] at h1 h2
      simp only [Pc.a, Pc.m] at h1 h2
      simp only
      split_ifs with hc
      · refine ⟨?_, h2, fun _ _ ho => (nomatch ho)⟩
        simp only [Pc.a]
        rw [h1, dec_succ (by omega)]; rfl
      · refine ⟨h1, ?_, fun _ _ ho => (nomatch ho)⟩
        have : s.active.length = s.sessions.length := by rw [hi.same, List.length_map]
        simp only [Pc.m]; omega
    | admitted size =>
      rw [hp] at h1 h2
      simp only [Pc.a, Pc.m] at h1 h2
      refine ⟨?_, ?_, fun _ _ ho => (nomatch ho)⟩
      · simp only [Pc.a, List.length_append, List.length_singleton]; omega
      · simp only [Pc.m, List.length_append, List.length_singleton]; omega
    | handed size =>
      rw [hp] at h1 h2
      exact ⟨h1, h2, fun _ _ ho => (nomatch ho)⟩
  | start n =>
    simp only [Src.step]; unfold Src.start
    by_cases hc : s.releasing = true ∨ n ∈ s.sessions.map Prod.fst
    · rw [if_pos hc]; exact h
    rw [if_neg hc]
    have hr : s.releasing = false := by
      cases hr : s.releasing with
      | false => rfl
      | true => exact absurd (.inl hr) hc
    cases hp : s.posted with
    | nil => exact h
    | cons b bs =>
      rw [hp, hr] at h1
      rw [hp] at h2
      simp only [List.length_cons, one, Bool.false_eq_true, if_false] at h1 h2
      refine ⟨?_, ?_, ?_⟩
      · simp only [one, if_true]; omega
      · simp only [List.length_append, List.length_singleton]; omega
      · intro size old ho
        have := h.old size old ho
        rw [hp, hr] at this
        simp only [List.length_cons, one, Bool.false_eq_true, if_false, if_true] at this ⊢
        omega
  | release =>
    simp only [Src.step]; unfold Src.release
    split_ifs with hr
    · rw [hr] at h1
      simp only [one, if_true] at h1
      refine ⟨?_, h2, ?_⟩
      · have : s.starting = (s.posted.length + s.lost.length + s.pc.a) + 1 := by omega
        have ha : s.pc.a ≤ 1 := by cases s.pc <;> simp [Pc.a]
        simp only [one, Bool.false_eq_true, if_false]
        rw [this, dec_succ (by omega)]; omega
      · intro size old ho
        have := h.old size old ho
        simp only [one, Bool.false_eq_true, if_false]
        omega
    · exact h
  | drop =>
    simp only [Src.step]; unfold Src.drop
    split_ifs with hr
    · exact h
    · cases hp : s.posted with
      | nil => exact h
      | cons b bs =>
        rw [hp] at h1 h2
        simp only [List.length_cons] at h1 h2
        refine ⟨?_, ?_, ?_⟩
        · simp only [List.length_append, List.length_singleton]; omega
        · simp only [List.length_append, List.length_singleton]; omega
        · intro size old ho
          have := h.old size old ho
          rw [hp] at this
          simp only [List.length_append, List.length_cons, List.length_nil] at this ⊢
          omega
  | complete n =>
    simp only [Src.step]
    rcases (end_eq hi n).1 with ⟨h5, -⟩ | ⟨-, h5, h6⟩
    · rw [h5]; exact h
    · rw [h6]
      have := filter_out hi.nodup h5
      exact ⟨h1, by simp only; omega, h.old⟩
  | cancel n =>
    simp only [Src.step]
    rcases (end_eq hi n).2 with ⟨h5, -⟩ | ⟨-, h5, h6⟩
    · rw [h5]; exact h
    · rw [h6]
      have := filter_out hi.nodup h5
      exact ⟨h1, by simp only; omega, h.old⟩

theorem lim_run (as : List Act) : ∀ {s : Src}, Inv s → Lim s → s.limit + 4 < U32 → NoForeign as → Lim (s.run as) := by
  induction as with
  | nil => intro s _ h _ _; exact h
  | cons a as ih =>
    intro s hi h hl hn
    refine ih (inv_step hi a) (lim_step hi h hl a ?_) (by rw [step_limit]; exact hl) (fun hc => hn (List.mem_cons_of_mem _ hc))
    rintro rfl
    exact hn List.mem_cons_self

theorem lim_init (limit : Nat) : Lim { limit := limit } :=
  ⟨rfl, Nat.zero_le _, fun _ _ ho => (nomatch ho)⟩

end Hdtn.LtpSource
