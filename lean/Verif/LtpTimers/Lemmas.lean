import Verif.LtpTimers.Spec
import Mathlib.Data.List.Induction
import Mathlib.Data.List.Nodup

/-!
The reachable states as a sequence of small steps, and their invariants.
-/

namespace Hdtn.LtpTimers
variable {α : Type} [DecidableEq α]

/-! ### Histories -/

theorem run_append (zero : α) (es fs : List (Event α)) : ∀ st,
    run zero st (es ++ fs) = (do
      let (st, out) ← run zero st es
      let (st, outs) ← run zero st fs
      pure (st, out ++ outs)) := by
  induction es with
  | nil => intro st; cases h : run zero st fs <;> simp [run, h]
  | cons e es ih =>
    intro st
    simp only [List.cons_append, run]
    cases h : step zero st e with
    | none => simp
    | some p =>
      simp only [Option.bind_eq_bind, Option.bind_some, ih]
      cases h2 : run zero p.1 es with
      | none => simp
      | some q =>
        simp only [Option.bind_some, Option.pure_def]
        cases h3 : run zero q.1 fs <;> simp

theorem run_snoc_inv {zero : α} {st st' : State α} {es : List (Event α)} {e : Event α}
    {effs : List (Eff α)} (h : run zero st (es ++ [e]) = some (st', effs)) :
    ∃ mid out outs, run zero st es = some (mid, out) ∧ step zero mid e = some (st', outs) ∧
      effs = out ++ outs := by
  rw [run_append] at h
  simp only [Option.bind_eq_bind, Option.bind_eq_some_iff, Prod.exists, Option.pure_def,
    Option.some.injEq, Prod.mk.injEq, run] at h
  obtain ⟨mid, out, h1, s2, o2, ⟨s3, o3, h3, s4, o4, ⟨rfl, rfl⟩, rfl, rfl⟩, rfl, rfl⟩ := h
  exact ⟨mid, out, o3, h1, h3, by simp⟩

theorem run_append_some {zero : α} {st mid st' : State α} {es fs : List (Event α)}
    {out outs : List (Eff α)}
    (h1 : run zero st es = some (mid, out)) (h2 : run zero mid fs = some (st', outs)) :
    run zero st (es ++ fs) = some (st', out ++ outs) := by
  rw [run_append]
  simp [h1, h2]

/-! ### Small steps -/

/-- The states reached from the initial one by small steps, with what was seen. `P` restricts the changes
of the duration, `U` the ids of started timers. -/
inductive Reach (zero : α) (rtt : Int) (P : Bool → Bool → Prop) (U : α → Prop) :
    State α → List (Eff α) → Prop where
  | init : Reach zero rtt P U (.init zero rtt) []
  | tick {st effs} (d : Nat) (h : Reach zero rtt P U st effs) :
      Reach zero rtt P U { st with now := st.now + d } effs
  | start {st effs} (id : α) (hu : U id) (h : Reach zero rtt P U st effs) :
      Reach zero rtt P U (start st id).1 (effs ++ (start st id).2)
  | delete {st effs} (id : α) (h : Reach zero rtt P U st effs) :
      Reach zero rtt P U (delete zero st id).1 (effs ++ (delete zero st id).2)
  | fire {st effs} (d : Int) (h : Reach zero rtt P U st effs) (hw : st.wait = some (.armed d))
      (hd : d ≤ st.now) (ha : st.active ≠ zero) (hr : running st st.active = true) :
      Reach zero rtt P U
        { st with active := zero, timers := st.timers.filter (fun p => p.1 ≠ st.active) }
        (effs ++ [.fired st.active st.now])
  | rearm {st effs} (h : Reach zero rtt P U st effs) : Reach zero rtt P U (rearm st) effs
  | setRtt {st effs} (r : Int) (update late : Bool) (hp : P update late)
      (hl : late = true → due st = true) (h : Reach zero rtt P U st effs) :
      Reach zero rtt P U
        (if update then adjust { st with rtt := r } (r - st.rtt) late else { st with rtt := r }) effs

/-- The basic invariant. -/
structure Inv (zero : α) (st : State α) : Prop where
  nodup : (st.timers.map Prod.fst).Nodup
  idle : st.wait = none → st.timers = []
  head : st.active ≠ zero → ∃ e rest, st.timers = (st.active, e) :: rest

theorem running_iff (st : State α) (id : α) : running st id = true ↔ id ∈ st.timers.map Prod.fst := by
  simp [running]

theorem filter_head {l rest : List (α × Int)} {a id : α} {e : Int} (h : l = (a, e) :: rest)
    (hne : a ≠ id) : l.filter (fun p => p.1 ≠ id) = (a, e) :: rest.filter (fun p => p.1 ≠ id) := by
  subst h
  simp [hne]

theorem nodup_filter {l : List (α × Int)} (h : (l.map Prod.fst).Nodup) (f : α × Int → Bool) :
    ((l.filter f).map Prod.fst).Nodup :=
  List.Nodup.sublist (List.Sublist.map _ List.filter_sublist) h

theorem inv_start {zero : α} {st : State α} (h : Inv zero st) (id : α) : Inv zero (start st id).1 := by
  unfold start
  split
  · exact h
  · rename_i hr
    rw [running_iff] at hr
    have hn : ((st.timers ++ [(id, st.now + st.rtt)]).map Prod.fst).Nodup := by
      rw [List.map_append, List.nodup_append]
      refine ⟨h.nodup, by simp, ?_⟩
      intro a ha b hb
      simp at hb
      subst hb
      exact fun hab => hr (hab ▸ ha)
    simp only
    split
    · rename_i hw
      refine ⟨hn, fun hc => by simp at hc, fun _ => ?_⟩
      simp [h.idle hw]
    · rename_i w hw
      refine ⟨hn, fun hc => by simp only at hc hw; rw [hw] at hc; simp at hc, fun ha => ?_⟩
      obtain ⟨e, rest, he⟩ := h.head ha
      exact ⟨e, rest ++ [(id, st.now + st.rtt)], by simp [he]⟩

theorem inv_delete {zero : α} {st : State α} (h : Inv zero st) (id : α) :
    Inv zero (delete zero st id).1 := by
  unfold delete
  split
  · simp only
    have hn := nodup_filter h.nodup (fun p => p.1 ≠ id)
    have hi : st.wait = none → st.timers.filter (fun p => p.1 ≠ id) = [] := fun hw => by
      simp [h.idle hw]
    split
    · exact ⟨hn, hi, fun hc => by simp at hc⟩
    · rename_i hc
      refine ⟨hn, hi, fun ha => ?_⟩
      obtain ⟨e, rest, he⟩ := h.head ha
      have hne : st.active ≠ id := by
        intro heq
        exact hc ⟨fun hw => by rw [h.idle hw] at he; simp at he, heq⟩
      exact ⟨e, _, filter_head he hne⟩
  · exact h

theorem inv_rearm {zero : α} {st : State α} (h : Inv zero st) : Inv zero (rearm st) := by
  unfold rearm
  split
  · rename_i ht
    refine ⟨h.nodup, fun _ => ht, fun ha => ?_⟩
    obtain ⟨e, rest, he⟩ := h.head ha
    rw [ht] at he
    simp at he
  · rename_i id e rest ht
    exact ⟨h.nodup, fun hc => by simp at hc, fun _ => ⟨e, rest, ht⟩⟩

theorem Reach.inv {zero : α} {rtt : Int} {P : Bool → Bool → Prop} {U : α → Prop} {st : State α}
    {effs : List (Eff α)} (h : Reach zero rtt P U st effs) : Inv zero st := by
  induction h with
  | init => exact ⟨by simp [State.init], by simp [State.init], by simp [State.init]⟩
  | tick d _ ih => exact ⟨ih.nodup, ih.idle, ih.head⟩
  | start id _ _ ih => exact inv_start ih id
  | delete id _ ih => exact inv_delete ih id
  | fire d _ hw _ _ _ ih =>
    exact ⟨nodup_filter ih.nodup _, fun hc => by simp only at hc; rw [hw] at hc; simp at hc,
      fun hc => by simp at hc⟩
  | rearm _ ih => exact inv_rearm ih
  | @setRtt st effs r update late _ _ _ ih =>
    split
    · unfold adjust
      simp only
      split
      · exact ⟨ih.nodup, ih.idle, ih.head⟩
      · refine ⟨?_, fun hc => by simp at hc, fun ha => ?_⟩
        · have := ih.nodup
          rw [List.map_map]
          exact this
        · obtain ⟨e, rest, he⟩ := ih.head ha
          exact ⟨e + (r - st.rtt), rest.map (fun p => (p.1, p.2 + (r - st.rtt))), by simp [he]⟩
    · exact ⟨ih.nodup, ih.idle, ih.head⟩

/-! ### From histories to small steps -/

theorem reach_ops {zero : α} {rtt : Int} {P : Bool → Bool → Prop} {U : α → Prop} (os : List (Op α)) :
    ∀ {st : State α} {effs : List (Eff α)}, (∀ o ∈ os, ∀ id, usesOp id o → U id) →
    Reach zero rtt P U st effs → Reach zero rtt P U (doOps zero st os).1 (effs ++ (doOps zero st os).2) := by
  induction os with
  | nil => intro st effs _ h; simpa [doOps] using h
  | cons o os ih =>
    intro st effs hu h
    simp only [doOps]
    rw [← List.append_assoc]
    refine ih (fun o ho => hu o (List.mem_cons_of_mem _ ho)) ?_
    cases o with
    | start id => exact .start id (hu _ List.mem_cons_self id rfl) h
    | delete id => exact .delete id h

theorem doOps_now (zero : α) (os : List (Op α)) : ∀ st : State α, (doOps zero st os).1.now = st.now := by
  induction os with
  | nil => intro st; rfl
  | cons o os ih =>
    intro st
    simp only [doOps]
    rw [ih]
    cases o with
    | start id =>
      simp only [doOp, start]
      split
      · rfl
      · split <;> rfl
    | delete id =>
      simp only [doOp, delete]
      split
      · split <;> rfl
      · rfl

theorem reach_step {zero : α} {rtt : Int} {P : Bool → Bool → Prop} {U : α → Prop} {st st' : State α}
    {effs out : List (Eff α)} {e : Event α} (h : Reach zero rtt P U st effs)
    (hP : ∀ r update late, e = .setRtt r update late → P update late)
    (hU : ∀ id, Uses id [e] → U id) (hs : step zero st e = some (st', out)) :
    Reach zero rtt P U st' (effs ++ out) := by
  cases e with
  | tick d =>
    simp only [step, Option.some.injEq, Prod.mk.injEq] at hs
    obtain ⟨rfl, rfl⟩ := hs
    rw [List.append_nil]
    exact .tick d h
  | op o =>
    simp only [step, Option.some.injEq] at hs
    cases o with
    | start id =>
      have := Reach.start id (hU id (.inl ⟨_, List.mem_singleton.2 rfl, rfl⟩)) h
      simp only [doOp] at hs
      rw [hs] at this
      exact this
    | delete id =>
      have := Reach.delete id h
      simp only [doOp] at hs
      rw [hs] at this
      exact this
  | setRtt r update late =>
    simp only [step] at hs
    split at hs
    · simp at hs
    · rename_i hl
      simp only [Option.some.injEq, Prod.mk.injEq] at hs
      obtain ⟨rfl, rfl⟩ := hs
      rw [List.append_nil]
      exact .setRtt r update late (hP r update late rfl) (by simpa using hl) h
  | handler inner =>
    simp only [step] at hs
    split at hs
    · simp at hs
    · simp only [Option.some.injEq, Prod.mk.injEq] at hs
      obtain ⟨rfl, rfl⟩ := hs
      rw [List.append_nil]
      exact .rearm h
    · rename_i d hw
      split at hs
      · rename_i hd
        simp only [Option.some.injEq] at hs
        unfold expire at hs
        split at hs
        · rename_i ha
          simp only at hs
          have hrun : running st st.active = true := by
            obtain ⟨e, rest, he⟩ := h.inv.head ha
            rw [running_iff, he]
            simp
          rw [if_pos hrun] at hs
          simp only [Prod.mk.injEq] at hs
          obtain ⟨rfl, rfl⟩ := hs
          have h1 := Reach.fire d h hw hd ha hrun
          have h2 := reach_ops inner
            (fun o ho id hid => hU id (.inr ⟨inner, List.mem_singleton.2 rfl, o, ho, hid⟩)) h1
          rw [List.append_assoc] at h2
          rw [doOps_now]
          exact .rearm h2
        · simp only [Prod.mk.injEq] at hs
          obtain ⟨rfl, rfl⟩ := hs
          rw [List.append_nil]
          exact .rearm h
      · simp at hs

theorem reach_run {zero : α} {rtt : Int} {P : Bool → Bool → Prop} {U : α → Prop} (evs : List (Event α)) :
    ∀ {st : State α} {effs : List (Eff α)},
    (∀ r update late, Event.setRtt r update late ∈ evs → P update late) → (∀ id, Uses id evs → U id) →
    run zero (.init zero rtt) evs = some (st, effs) → Reach zero rtt P U st effs := by
  induction evs using List.reverseRecOn with
  | nil =>
    intro st effs _ _ h
    simp only [run, Option.some.injEq, Prod.mk.injEq] at h
    obtain ⟨rfl, rfl⟩ := h
    exact .init
  | append_singleton es e ih =>
    intro st effs hP hU h
    obtain ⟨mid, out, outs, h1, h2, rfl⟩ := run_snoc_inv h
    refine reach_step (ih (fun r u l hm => hP r u l (List.mem_append_left _ hm)) (fun id hid => hU id ?_) h1)
      (fun r u l he => hP r u l (by rw [he]; simp)) (fun id hid => hU id ?_) h2
    · rcases hid with ⟨o, ho, hu⟩ | ⟨inner, hi, hu⟩
      · exact .inl ⟨o, List.mem_append_left _ ho, hu⟩
      · exact .inr ⟨inner, List.mem_append_left _ hi, hu⟩
    · rcases hid with ⟨o, ho, hu⟩ | ⟨inner, hi, hu⟩
      · exact .inl ⟨o, List.mem_append_right _ ho, hu⟩
      · exact .inr ⟨inner, List.mem_append_right _ hi, hu⟩

/-! ### Counting -/

theorem countP_filter_ne (l : List (α × Int)) (id x : α) :
    (l.filter (fun p => p.1 ≠ id)).countP (fun p => decide (p.1 = x)) =
      if x = id then 0 else l.countP (fun p => decide (p.1 = x)) := by
  rw [List.countP_filter]
  split
  · rename_i h
    subst h
    exact List.countP_eq_zero.2 (by simp)
  · rename_i h
    congr 1
    funext p
    by_cases hp : p.1 = x
    · simp [hp, h]
    · simp [hp]

theorem pending_one {st : State α} (hn : (st.timers.map Prod.fst).Nodup) {id : α}
    (hr : running st id = true) : pending id st = 1 := by
  rw [running_iff] at hr
  have h1 : (st.timers.map Prod.fst).count id = 1 :=
    List.count_eq_one_of_mem hn hr
  rw [List.count, List.countP_map] at h1
  rw [pending, ← h1]
  congr 1

theorem Reach.count {zero : α} {rtt : Int} {P : Bool → Bool → Prop} {U : α → Prop} {st : State α}
    {effs : List (Eff α)} (h : Reach zero rtt P U st effs) (x : α) :
    starts x effs = deletes x effs + fires x effs + pending x st := by
  induction h with
  | init => simp [starts, deletes, fires, pending, State.init]
  | tick d _ ih => exact ih
  | @start st effs id _ h ih =>
    unfold LtpTimers.start
    split
    · simpa using ih
    · simp only
      have hp : st.timers.countP (fun p => decide (p.1 = x)) = pending x st := rfl
      split <;>
      · simp only [starts, deletes, fires, pending, List.countP_append, List.countP_cons,
          List.countP_nil] at ih ⊢
        by_cases hx : id = x <;> simp [hx] <;> omega
  | @delete st effs id h ih =>
    unfold LtpTimers.delete
    split
    · rename_i hr
      have h1 := pending_one h.inv.nodup hr
      simp only
      have key : starts x (effs ++ [Eff.deleted id]) = deletes x (effs ++ [Eff.deleted id]) +
          fires x (effs ++ [Eff.deleted id]) +
          (st.timers.filter (fun p => p.1 ≠ id)).countP (fun p => decide (p.1 = x)) := by
        rw [countP_filter_ne]
        by_cases hx : x = id
        · subst hx
          rw [if_pos rfl]
          simp only [starts, deletes, fires, List.countP_append, List.countP_cons,
            List.countP_nil] at ih ⊢
          simp at ih ⊢
          omega
        · rw [if_neg hx]
          have hx' : ¬ id = x := fun h => hx h.symm
          simp only [starts, deletes, fires, pending, List.countP_append, List.countP_cons,
            List.countP_nil] at ih ⊢
          simp [hx'] at ih ⊢
          omega
      split <;> exact key
    · simpa using ih
  | @fire st effs d h hw hd ha hr ih =>
    have h1 := pending_one h.inv.nodup hr
    simp only [pending]
    rw [countP_filter_ne]
    by_cases hx : x = st.active
    · subst hx
      rw [if_pos rfl]
      simp only [starts, deletes, fires, List.countP_append, List.countP_cons, List.countP_nil] at ih ⊢
      simp at ih ⊢
      omega
    · rw [if_neg hx]
      have hx' : ¬ st.active = x := fun h => hx h.symm
      simp only [starts, deletes, fires, pending, List.countP_append, List.countP_cons,
        List.countP_nil] at ih ⊢
      simp [hx'] at ih ⊢
      omega
  | @rearm st effs _ ih =>
    have : pending x (LtpTimers.rearm st) = pending x st := by
      unfold LtpTimers.rearm
      split <;> rfl
    rw [this]
    exact ih
  | @setRtt st effs r update late _ _ _ ih =>
    have : pending x (if update then adjust { st with rtt := r } (r - st.rtt) late
        else { st with rtt := r }) = pending x st := by
      split
      · unfold adjust
        simp only
        split
        · rfl
        · simp only [pending, List.countP_map]
          rfl
      · rfl
    rw [this]
    exact ih

theorem Reach.defined {zero : α} {rtt : Int} {P : Bool → Bool → Prop} {U : α → Prop} {st : State α}
    {effs : List (Eff α)} (h : Reach zero rtt P U st effs) : Eff.undefined ∉ effs := by
  induction h with
  | init => simp
  | tick d _ ih => exact ih
  | @start st effs id _ h ih =>
    rw [List.mem_append]
    rintro (hc | hc)
    · exact ih hc
    · unfold LtpTimers.start at hc
      split at hc
      · simp at hc
      · simp only at hc; split at hc <;> simp at hc
  | @delete st effs id h ih =>
    rw [List.mem_append]
    rintro (hc | hc)
    · exact ih hc
    · unfold LtpTimers.delete at hc
      split at hc
      · simp only at hc; split at hc <;> simp at hc
      · simp at hc
  | fire d _ _ _ _ _ ih => simpa using ih
  | rearm _ ih => exact ih
  | setRtt r update late _ _ _ ih => exact ih

end Hdtn.LtpTimers
