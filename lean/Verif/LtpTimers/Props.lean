import Verif.LtpTimers.Lemmas

/-!
# C64: LTP timers

In full: a timer that is started calls back exactly once, unless it is deleted before; not before its
time is over, and as soon as it is over. This does not hold for a timer whose id the code takes for
`no timer` (`C64_zero_violated`), nor, as to the time, if the duration of timers is made shorter
without adjusting the running ones (`C64_shorter_violated`) or if they are adjusted while the handler of
the operating system timer is due (`C64_race_violated`).
-/

namespace Hdtn.LtpTimers
variable {α : Type} [DecidableEq α]

/-- C64: in every history the timers started with an id are those deleted, those that called back, and
those running, of which there is at most one. So no timer calls back twice or after it was deleted,
and none is lost. Also the code never uses a pointer it has not set. -/
theorem C64_exactly_once (zero : α) (rtt : Int) (evs : List (Event α)) (st : State α)
    (effs : List (Eff α)) (h : run zero (.init zero rtt) evs = some (st, effs)) (id : α) :
    starts id effs = deletes id effs + fires id effs + pending id st ∧ pending id st ≤ 1 ∧
    Eff.undefined ∉ effs := by
  have hr : Reach zero rtt (fun _ _ => True) (fun _ => True) st effs :=
    reach_run evs (fun _ _ _ _ => trivial) (fun _ _ => trivial) h
  refine ⟨hr.count id, ?_, hr.defined⟩
  by_cases hrun : running st id = true
  · rw [pending_one hr.inv.nodup hrun]
  · have : pending id st = 0 := by
      refine List.countP_eq_zero.2 fun p hp => ?_
      intro hc
      refine hrun ((running_iff st id).2 (List.mem_map.2 ⟨p, hp, by simpa using hc⟩))
    omega

/-! ### Not too early -/

/-- Nothing in the list is about the id. -/
def Silent (id : α) (effs : List (Eff α)) : Prop := starts id effs = 0 ∧ deletes id effs = 0 ∧ fires id effs = 0

/-- The last that was seen of the id is that it was started at the time. -/
def StartedAt (id : α) (at_ : Int) (effs : List (Eff α)) : Prop :=
  ∃ a b, effs = a ++ .started id at_ :: b ∧ Silent id b

theorem StartedAt.append {id : α} {s : Int} {effs out : List (Eff α)} (h : StartedAt id s effs)
    (ho : Silent id out) : StartedAt id s (effs ++ out) := by
  obtain ⟨a, b, rfl, hb⟩ := h
  refine ⟨a, b ++ out, by simp, ?_⟩
  obtain ⟨b1, b2, b3⟩ := hb
  obtain ⟨o1, o2, o3⟩ := ho
  simp only [Silent, starts, deletes, fires, List.countP_append] at *
  omega

theorem Reach.early {zero : α} {rtt : Int} {U : α → Prop} {st : State α}
    {effs : List (Eff α)} (h : Reach zero rtt (fun _ late => late = false) U st effs) :
    ∀ d, st.wait = some (.armed d) → st.active ≠ zero → ∃ rest, st.timers = (st.active, d) :: rest := by
  induction h with
  | init => intro d hd; simp [State.init] at hd
  | tick n _ ih => exact ih
  | @start st effs id _ h ih =>
    intro d hd ha
    unfold LtpTimers.start at hd ha ⊢
    split at hd
    · rename_i hr; rw [if_pos hr] at ha ⊢; exact ih d hd ha
    · rename_i hr
      rw [if_neg hr] at ha ⊢
      simp only at hd ha ⊢
      match hw : st.wait with
      | none =>
        rw [hw] at hd ha
        simp only [Option.some.injEq, Wait.armed.injEq] at hd ha ⊢
        rw [hd]
        exact ⟨[], by simp [h.inv.idle hw]⟩
      | some w =>
        rw [hw] at hd ha
        simp only at hd ha ⊢
        obtain ⟨rest, hrest⟩ := ih d (by rw [hw]; exact hd) ha
        exact ⟨rest ++ [(id, st.now + st.rtt)], by simp [hrest]⟩
  | @delete st effs id h ih =>
    intro d hd ha
    unfold LtpTimers.delete at hd ha ⊢
    split at hd
    · rename_i hr
      rw [if_pos hr] at ha ⊢
      simp only at hd ha ⊢
      split at ha
      · simp at ha
      · rename_i hc
        rw [if_neg hc] at hd ⊢
        simp only at hd ha ⊢
        obtain ⟨rest, hrest⟩ := ih d hd ha
        have hne : st.active ≠ id := fun he => hc ⟨by rw [hd]; simp, he⟩
        exact ⟨_, filter_head hrest hne⟩
    · rename_i hr; rw [if_neg hr] at ha ⊢; exact ih d hd ha
  | fire d _ _ _ _ _ ih => intro d hd ha; simp at ha
  | @rearm st effs h ih =>
    intro d hd ha
    unfold LtpTimers.rearm at hd ha ⊢
    match ht : st.timers with
    | [] => simp only [ht] at hd; simp at hd
    | (id, e) :: rest =>
      simp only [ht, Option.some.injEq, Wait.armed.injEq] at hd ha ⊢
      exact ⟨rest, by rw [hd]⟩
  | @setRtt st effs r update late hp _ h ih =>
    intro d hd ha
    split at hd
    · rename_i hu
      rw [if_pos hu] at ha ⊢
      unfold adjust at hd ha ⊢
      match hw : st.wait with
      | none => simp only [hw] at hd; simp at hd
      | some w => simp only [hw, hp] at hd; simp at hd
    · rename_i hu; rw [if_neg hu] at ha ⊢; exact ih d hd ha

/-- With a constant duration, a running timer was started that long before its expiry. -/
theorem Reach.since {zero : α} {rtt : Int} {U : α → Prop} {st : State α}
    {effs : List (Eff α)} (h : Reach zero rtt (fun _ _ => False) U st effs) :
    st.rtt = rtt ∧ ∀ id e, (id, e) ∈ st.timers → StartedAt id (e - rtt) effs := by
  induction h with
  | init => exact ⟨rfl, by simp [State.init]⟩
  | tick d _ ih => exact ih
  | @start st effs id _ h ih =>
    obtain ⟨hrt, ih⟩ := ih
    unfold LtpTimers.start
    split
    · rw [List.append_nil]; exact ⟨hrt, ih⟩
    · rename_i hr
      simp only
      have key : ∀ i e, (i, e) ∈ st.timers ++ [(id, st.now + st.rtt)] →
          StartedAt i (e - rtt) (effs ++ [.started id st.now]) := by
        intro i e hm
        rw [List.mem_append, List.mem_singleton] at hm
        rcases hm with hm | hm
        · refine (ih i e hm).append ?_
          have : ¬ id = i := by
            rintro rfl
            exact hr ((running_iff st id).2 (List.mem_map.2 ⟨_, hm, rfl⟩))
          simp [Silent, starts, deletes, fires, this]
        · obtain ⟨rfl, rfl⟩ := Prod.mk.injEq .. ▸ hm
          refine ⟨effs, [], ?_, by simp [Silent, starts, deletes, fires]⟩
          rw [hrt]
          simp
      split
      · exact ⟨hrt, key⟩
      · exact ⟨hrt, key⟩
  | @delete st effs id h ih =>
    obtain ⟨hrt, ih⟩ := ih
    unfold LtpTimers.delete
    split
    · simp only
      have key : ∀ i e, (i, e) ∈ st.timers.filter (fun p => p.1 ≠ id) →
          StartedAt i (e - rtt) (effs ++ [.deleted id]) := by
        intro i e hm
        rw [List.mem_filter] at hm
        refine (ih i e hm.1).append ?_
        have : ¬ id = i := fun hc => by simp [hc] at hm
        simp [Silent, starts, deletes, fires, this]
      split
      · exact ⟨hrt, key⟩
      · exact ⟨hrt, key⟩
    · rw [List.append_nil]; exact ⟨hrt, ih⟩
  | @fire st effs d h hw hd ha hr ih =>
    obtain ⟨hrt, ih⟩ := ih
    refine ⟨hrt, fun i e hm => ?_⟩
    rw [List.mem_filter] at hm
    refine (ih i e hm.1).append ?_
    have : ¬ st.active = i := fun hc => by simp [hc] at hm
    simp [Silent, starts, deletes, fires, this]
  | @rearm st effs _ ih =>
    unfold LtpTimers.rearm
    split
    · exact ih
    · exact ih
  | setRtt r update late hp _ _ _ => exact hp.elim

/-- Every callback so far came no earlier than the duration after the timer's start. -/
def AllInTime (rtt : Int) (effs : List (Eff α)) : Prop :=
  ∀ pre post id at_, effs = pre ++ .fired id at_ :: post → ∃ s, StartedAt id s pre ∧ s + rtt ≤ at_

theorem AllInTime.append_none {rtt : Int} {effs out : List (Eff α)} (h : AllInTime rtt effs)
    (ho : ∀ id at_, Eff.fired id at_ ∉ out) : AllInTime rtt (effs ++ out) := by
  intro pre post id at_ he
  rcases List.append_eq_append_iff.1 he with ⟨c, h1, h2⟩ | ⟨c, h1, h2⟩
  · exact absurd (by rw [h2]; simp) (ho id at_)
  · match c with
    | [] =>
      simp only [List.nil_append] at h2
      exact absurd (by rw [← h2]; simp) (ho id at_)
    | x :: c =>
      simp only [List.cons_append, List.cons.injEq] at h2
      obtain ⟨rfl, -⟩ := h2
      exact h pre c id at_ h1

theorem Reach.weaken {zero : α} {rtt : Int} {P Q : Bool → Bool → Prop} {U : α → Prop} {st : State α}
    {effs : List (Eff α)} (hPQ : ∀ a b, P a b → Q a b) (h : Reach zero rtt P U st effs) :
    Reach zero rtt Q U st effs := by
  induction h with
  | init => exact .init
  | tick d _ ih => exact .tick d ih
  | start id hu _ ih => exact .start id hu ih
  | delete id _ ih => exact .delete id ih
  | fire d _ hw hd ha hr ih => exact .fire d ih hw hd ha hr
  | rearm _ ih => exact .rearm ih
  | setRtt r u l hp hl _ ih => exact .setRtt r u l (hPQ _ _ hp) hl ih

theorem Reach.inTime {zero : α} {rtt : Int} {U : α → Prop} {st : State α}
    {effs : List (Eff α)} (h : Reach zero rtt (fun _ _ => False) U st effs) : AllInTime rtt effs := by
  induction h with
  | init => intro pre post id at_ he; simp at he
  | tick d _ ih => exact ih
  | @start st effs id _ h ih =>
    refine ih.append_none fun i a hm => ?_
    unfold LtpTimers.start at hm
    split at hm
    · simp at hm
    · simp only at hm; split at hm <;> simp at hm
  | @delete st effs id h ih =>
    refine ih.append_none fun i a hm => ?_
    unfold LtpTimers.delete at hm
    split at hm
    · simp only at hm; split at hm <;> simp at hm
    · simp at hm
  | @fire st effs d h hw hd ha hr ih =>
    intro pre post id at_ he
    rcases List.append_eq_append_iff.1 he with ⟨c, h1, h2⟩ | ⟨c, h1, h2⟩
    · match c with
      | [] =>
        simp only [List.nil_append, List.cons.injEq] at h2
        obtain ⟨h2, -⟩ := h2
        rw [Eff.fired.injEq] at h2
        obtain ⟨rfl, rfl⟩ := h2
        rw [List.append_nil] at h1
        subst h1
        obtain ⟨rest, hrest⟩ := (h.weaken (Q := fun _ late => late = false) (by simp)).early d hw ha
        refine ⟨d - rtt, h.since.2 _ d (by rw [hrest]; simp), by omega⟩
      | x :: c => simp at h2
    · match c with
      | [] =>
        simp only [List.nil_append, List.cons.injEq] at h2
        obtain ⟨h2, -⟩ := h2
        rw [Eff.fired.injEq] at h2
        obtain ⟨rfl, rfl⟩ := h2
        rw [List.append_nil] at h1
        subst h1
        obtain ⟨rest, hrest⟩ := (h.weaken (Q := fun _ late => late = false) (by simp)).early d hw ha
        refine ⟨d - rtt, h.since.2 _ d (by rw [hrest]; simp), by omega⟩
      | x :: c =>
        simp only [List.cons_append, List.cons.injEq] at h2
        obtain ⟨rfl, -⟩ := h2
        exact ih pre c id at_ h1
  | rearm _ ih => exact ih
  | setRtt r update late hp _ _ _ => exact hp.elim

/-- C64: with a constant duration, a timer calls back no earlier than that after its last start, and it
has been neither deleted nor called back since. -/
theorem C64_not_early_partial (zero : α) (rtt : Int) (evs : List (Event α)) (hc : Constant evs)
    (st : State α) (effs : List (Eff α)) (h : run zero (.init zero rtt) evs = some (st, effs))
    (pre post : List (Eff α)) (id : α) (at_ : Int) (he : effs = pre ++ .fired id at_ :: post) :
    ∃ s, StartedAt id s pre ∧ s + rtt ≤ at_ := by
  have hr : Reach zero rtt (fun _ _ => False) (fun _ => True) st effs :=
    reach_run evs (fun r u l hm => hc r u l hm) (fun _ _ => trivial) h
  exact hr.inTime pre post id at_ he

/-- C64: a timer that calls back does so no earlier than its expiry, also if the duration was changed and
the running timers were adjusted, unless that happened while the handler was due. -/
theorem C64_not_before_expiry_partial (zero : α) (rtt : Int) (evs : List (Event α)) (hc : NoRace evs)
    (st : State α) (effs : List (Eff α)) (h : run zero (.init zero rtt) evs = some (st, effs))
    (inner : List (Op α)) (st' : State α) (out : List (Eff α))
    (hs : step zero st (.handler inner) = some (st', out)) (id : α) (at_ : Int)
    (hf : Eff.fired id at_ ∈ out) : at_ = st.now ∧ ∃ e ≤ st.now, (id, e) ∈ st.timers := by
  have hr : Reach zero rtt (fun _ late => late = false) (fun _ => True) st effs :=
    reach_run evs (fun r u l hm => by
      cases l with
      | false => rfl
      | true => exact absurd hm (hc r u)) (fun _ _ => trivial) h
  have hops : ∀ (os : List (Op α)) (st : State α), Eff.fired id at_ ∉ (doOps zero st os).2 := by
    intro os
    induction os with
    | nil => intro st; simp [doOps]
    | cons o os ih =>
      intro st
      simp only [doOps, List.mem_append]
      rintro (hm | hm)
      · cases o with
        | start i =>
          simp only [doOp, start] at hm
          split at hm
          · simp at hm
          · split at hm <;> simp at hm
        | delete i =>
          simp only [doOp, delete] at hm
          split at hm
          · split at hm <;> simp at hm
          · simp at hm
      · exact ih _ hm
  simp only [step] at hs
  split at hs
  · simp at hs
  · simp only [Option.some.injEq, Prod.mk.injEq] at hs
    rw [← hs.2] at hf
    simp at hf
  · rename_i d hw
    split at hs
    · rename_i hd
      simp only [Option.some.injEq] at hs
      unfold expire at hs
      split at hs
      · rename_i ha
        obtain ⟨rest, hrest⟩ := hr.early d hw ha
        have hrun : running st st.active = true := by rw [running_iff, hrest]; simp
        simp only at hs
        rw [if_pos hrun] at hs
        simp only [Prod.mk.injEq] at hs
        rw [← hs.2, List.mem_cons, doOps_now] at hf
        rcases hf with hf | hf
        · rw [Eff.fired.injEq] at hf
          obtain ⟨rfl, rfl⟩ := hf
          exact ⟨rfl, d, hd, by rw [hrest]; simp⟩
        · exact absurd hf (hops _ _)
      · simp only [Prod.mk.injEq] at hs
        rw [← hs.2] at hf
        simp at hf
    · simp at hs

/-! ### Not too late -/

/-- The invariant of histories in which running timers are adjusted. -/
structure Prompt (st : State α) : Prop where
  sorted : st.timers.Pairwise (fun p q => p.2 ≤ q.2)
  last : ∀ p ∈ st.timers, p.2 ≤ st.now + st.rtt
  armed : ∀ d, st.wait = some (.armed d) → (d ≤ st.now ∨ ∀ p ∈ st.timers, d ≤ p.2) ∧
    (d ≤ st.now ∨ d ≤ st.now + st.rtt)

theorem Reach.prompt {zero : α} {rtt : Int} {U : α → Prop} {st : State α}
    {effs : List (Eff α)} (h : Reach zero rtt (fun update _ => update = true) U st effs) : Prompt st := by
  induction h with
  | init => exact ⟨by simp [State.init], by simp [State.init], by simp [State.init]⟩
  | tick d _ ih =>
    refine ⟨ih.sorted, fun p hp => ?_, fun x hx => ?_⟩
    · have := ih.last p hp; simp only; omega
    · obtain ⟨h1, h2⟩ := ih.armed x hx
      refine ⟨h1.imp (fun h => by simp only; omega) id, ?_⟩
      simp only
      omega
  | @start st effs id _ h ih =>
    unfold LtpTimers.start
    split
    · exact ih
    · simp only
      have hsorted : (st.timers ++ [(id, st.now + st.rtt)]).Pairwise (fun p q => p.2 ≤ q.2) := by
        rw [List.pairwise_append]
        refine ⟨ih.sorted, by simp, ?_⟩
        intro p hp q hq
        rw [List.mem_singleton] at hq
        rw [hq]
        exact ih.last p hp
      have hlast : ∀ p ∈ st.timers ++ [(id, st.now + st.rtt)], p.2 ≤ st.now + st.rtt := by
        intro p hp
        rw [List.mem_append, List.mem_singleton] at hp
        rcases hp with hp | rfl
        · exact ih.last p hp
        · exact le_refl _
      split
      · rename_i hw
        refine ⟨hsorted, hlast, fun d hd => ?_⟩
        simp only [Option.some.injEq, Wait.armed.injEq] at hd
        subst hd
        refine ⟨.inr ?_, .inr (le_refl _)⟩
        simp [h.inv.idle hw]
      · refine ⟨hsorted, hlast, fun d hd => ?_⟩
        obtain ⟨h1, h2⟩ := ih.armed d hd
        refine ⟨?_, h2⟩
        rcases h1 with h1 | h1
        · exact .inl h1
        · rcases h2 with h2 | h2
          · exact .inl h2
          · refine .inr fun p hp => ?_
            simp only [List.mem_append, List.mem_singleton] at hp
            rcases hp with hp | rfl
            · exact h1 p hp
            · exact h2
  | @delete st effs id h ih =>
    have key : ∀ a : α, Prompt { st with active := a, timers := st.timers.filter (fun p => p.1 ≠ id) } := by
      intro a
      refine ⟨ih.sorted.sublist List.filter_sublist, fun p hp => ih.last p (List.mem_filter.1 hp).1,
        fun d hd => ?_⟩
      obtain ⟨h1, h2⟩ := ih.armed d hd
      exact ⟨h1.imp (fun h => h) (fun h p hp => h p (List.mem_filter.1 hp).1), h2⟩
    unfold LtpTimers.delete
    split
    · simp only
      split
      · exact key zero
      · exact key st.active
    · exact ih
  | @fire st effs d h hw hd ha hr ih =>
    refine ⟨ih.sorted.sublist List.filter_sublist, fun p hp => ih.last p (List.mem_filter.1 hp).1,
      fun x hx => ?_⟩
    obtain ⟨h1, h2⟩ := ih.armed x hx
    exact ⟨h1.imp id (fun h p hp => h p (List.mem_filter.1 hp).1), h2⟩
  | @rearm st effs h ih =>
    unfold LtpTimers.rearm
    split
    · exact ⟨ih.sorted, ih.last, by simp⟩
    · rename_i id e rest ht
      have hs := ih.sorted
      rw [ht, List.pairwise_cons] at hs
      refine ⟨ih.sorted, ih.last, fun d hd => ?_⟩
      simp only [Option.some.injEq, Wait.armed.injEq] at hd
      subst hd
      refine ⟨.inr fun p hp => ?_, .inr (ih.last (id, e) (by rw [ht]; simp))⟩
      simp only at hp
      rw [ht, List.mem_cons] at hp
      rcases hp with rfl | hp
      · exact le_refl _
      · exact hs.1 p hp
  | @setRtt st effs r update late hp hl h ih =>
    rw [if_pos hp]
    unfold adjust
    simp only
    match hw : st.wait with
    | none =>
      have ht := h.inv.idle hw
      exact ⟨by simp [ht], by simp [ht], by simp [hw]⟩
    | some w =>
      simp only
      refine ⟨?_, ?_, fun d hd => ?_⟩
      · rw [List.pairwise_map]
        exact ih.sorted.imp (by intro a b hab; simpa using hab)
      · intro p hp
        rw [List.mem_map] at hp
        obtain ⟨q, hq, rfl⟩ := hp
        have := ih.last q hq
        simp only
        omega
      · simp only [Option.some.injEq] at hd
        cases late with
        | false => simp at hd
        | true =>
          simp only [if_true] at hd
          have := hl rfl
          rw [due, hw, hd] at this
          simp only [decide_eq_true_eq] at this
          exact ⟨.inl this, .inl this⟩

theorem adjusted_reach {zero : α} {rtt : Int} {U : α → Prop} {evs : List (Event α)} {st : State α}
    {effs : List (Eff α)} (hc : Adjusted evs) (hU : ∀ id, Uses id evs → U id)
    (h : run zero (.init zero rtt) evs = some (st, effs)) :
    Reach zero rtt (fun update _ => update = true) U st effs :=
  reach_run evs (fun r u l hm => by
      cases u with
      | true => rfl
      | false => exact absurd hm (hc r l)) hU h

/-- C64: if running timers are adjusted whenever the duration changes, then as soon as the time of any
running timer is over the handler of the operating system timer may run. -/
theorem C64_not_late_partial (zero : α) (rtt : Int) (evs : List (Event α)) (hc : Adjusted evs)
    (st : State α) (effs : List (Eff α)) (h : run zero (.init zero rtt) evs = some (st, effs))
    (id : α) (e : Int) (hm : (id, e) ∈ st.timers) (he : e ≤ st.now) : due st = true := by
  have hr := adjusted_reach (U := fun _ => True) hc (fun _ _ => trivial) h
  have hp := hr.prompt
  unfold due
  match hw : st.wait with
  | none => rw [hr.inv.idle hw] at hm; simp at hm
  | some .aborted => rfl
  | some (.armed d) =>
    simp only [decide_eq_true_eq]
    rcases (hp.armed d hw).1 with h1 | h1
    · exact h1
    · have := h1 _ hm; simp only at this; omega

theorem Reach.nonzero {zero : α} {rtt : Int} {P : Bool → Bool → Prop} {U : α → Prop} {st : State α}
    {effs : List (Eff α)} (hU : ¬ U zero) (h : Reach zero rtt P U st effs) :
    ∀ p ∈ st.timers, p.1 ≠ zero := by
  induction h with
  | init => simp [State.init]
  | tick d _ ih => exact ih
  | @start st effs id hu h ih =>
    unfold LtpTimers.start
    split
    · exact ih
    · have key : ∀ p ∈ st.timers ++ [(id, st.now + st.rtt)], p.1 ≠ zero := by
        intro p hp
        rw [List.mem_append, List.mem_singleton] at hp
        rcases hp with hp | rfl
        · exact ih p hp
        · exact fun hc => hU (hc ▸ hu)
      simp only
      split
      · exact key
      · exact key
  | @delete st effs id h ih =>
    unfold LtpTimers.delete
    split
    · simp only
      split
      · exact fun p hp => ih p (List.mem_filter.1 hp).1
      · exact fun p hp => ih p (List.mem_filter.1 hp).1
    · exact ih
  | fire d _ _ _ _ _ ih => exact fun p hp => ih p (List.mem_filter.1 hp).1
  | @rearm st effs h ih => unfold LtpTimers.rearm; split <;> exact ih
  | @setRtt st effs r update late hp hl h ih =>
    split
    · unfold adjust
      simp only
      split
      · exact ih
      · intro p hp
        rw [List.mem_map] at hp
        obtain ⟨q, hq, rfl⟩ := hp
        exact ih q hq
    · exact ih

theorem drain (zero : α) : ∀ (l : List (α × Int)) (now rtt : Int) (a : α) (w : Option Wait),
    (l.map Prod.fst).Nodup → (∀ p ∈ l, p.1 ≠ zero ∧ p.2 ≤ now) →
    (match l with
      | [] => w = none
      | (id, e) :: _ => a = id ∧ w = some (.armed e)) →
    ∃ st', run zero ⟨now, rtt, l, a, w⟩ (List.replicate l.length (.handler [])) =
      some (st', l.map (fun p => .fired p.1 now)) ∧ st'.timers = [] := by
  intro l
  induction l with
  | nil => intro now rtt a w _ _ _; exact ⟨_, rfl, rfl⟩
  | cons p l ih =>
    intro now rtt a w hn hp hw
    obtain ⟨id, e⟩ := p
    simp only at hw
    obtain ⟨rfl, rfl⟩ := hw
    have h0 := hp (a, e) List.mem_cons_self
    simp only at h0
    rw [List.map_cons, List.nodup_cons] at hn
    have hfil : ((a, e) :: l).filter (fun p => p.1 ≠ a) = l := by
      rw [List.filter_cons_of_neg (by simp), List.filter_eq_self]
      intro q hq
      simp only [decide_eq_true_eq]
      exact fun hc => hn.1 (List.mem_map.2 ⟨q, hq, hc⟩)
    have hstep : step zero ⟨now, rtt, (a, e) :: l, a, some (.armed e)⟩ (.handler []) =
        some (rearm ⟨now, rtt, l, zero, some (.armed e)⟩, [.fired a now]) := by
      simp only [step, h0.2, if_true, expire, h0.1, ne_eq, not_false_eq_true, doOps]
      rw [if_pos (by simp [running])]
      simp only [ne_eq] at hfil
      rw [hfil]
    have hl : ∀ p ∈ l, p.1 ≠ zero ∧ p.2 ≤ now := fun q hq => hp q (List.mem_cons_of_mem _ hq)
    have hr : ∃ a' w', rearm ⟨now, rtt, l, zero, some (.armed e)⟩ = ⟨now, rtt, l, a', w'⟩ ∧
        (match l with
          | [] => w' = none
          | (id, e) :: _ => a' = id ∧ w' = some (.armed e)) := by
      match l with
      | [] => exact ⟨zero, none, rfl, rfl⟩
      | (i, x) :: l => exact ⟨i, some (.armed x), rfl, rfl, rfl⟩
    obtain ⟨a', w', hr1, hr2⟩ := hr
    obtain ⟨st', h1, h2⟩ := ih now rtt a' w' hn.2 hl hr2
    refine ⟨st', ?_, h2⟩
    simp only [List.length_cons, List.replicate_succ, run, List.map_cons]
    rw [hstep, hr1]
    simp [h1]

/-- C64: if running timers are adjusted whenever the duration changes and no timer is started with the
id that stands for none, then at any point of any history, if nothing else happens until the times of
all running timers are over, the handler runs and calls back exactly these, in the order in
which they were started. -/
theorem C64_all_fire_partial (zero : α) (rtt : Int) (evs : List (Event α)) (hc : Adjusted evs)
    (hz : ¬ Uses zero evs) (st : State α) (effs : List (Eff α))
    (h : run zero (.init zero rtt) evs = some (st, effs)) (d : Nat)
    (hd : ∀ p ∈ st.timers, p.2 ≤ st.now + d) :
    ∃ k st', k ≤ st.timers.length + 1 ∧
      run zero (.init zero rtt) (evs ++ .tick d :: List.replicate k (.handler [])) =
        some (st', effs ++ st.timers.map (fun p => .fired p.1 (st.now + d))) ∧
      st'.timers = [] := by
  have hr := adjusted_reach (U := fun i => Uses i evs) hc (fun _ h => h) h
  have hnz := Reach.nonzero (U := fun i => Uses i evs) hz hr
  have htick : step zero st (.tick d) = some ({ st with now := st.now + d }, []) := rfl
  have hgo : ∀ k st', run zero { st with now := st.now + d } (List.replicate k (.handler [])) =
      some (st', st.timers.map (fun p => .fired p.1 (st.now + d))) →
      run zero (.init zero rtt) (evs ++ .tick d :: List.replicate k (.handler [])) =
        some (st', effs ++ st.timers.map (fun p => .fired p.1 (st.now + d))) := by
    intro k st' hk
    refine run_append_some h ?_
    simp [run, htick, hk]
  by_cases ht : st.timers = []
  · refine ⟨0, { st with now := st.now + d }, by omega, hgo 0 _ ?_, ht⟩
    simp [run, ht]
  -- the handler is due
  have hrt : Reach zero rtt (fun update _ => update = true) (fun i => Uses i evs)
      { st with now := st.now + d } effs := .tick d hr
  obtain ⟨⟨i, e⟩, rest, hl⟩ := List.exists_cons_of_ne_nil ht
  have hall : ∀ p ∈ st.timers, p.1 ≠ zero ∧ p.2 ≤ st.now + d := fun p hp => ⟨hnz p hp, hd p hp⟩
  have hdr := drain zero st.timers (st.now + d) st.rtt i (some (.armed e)) hr.inv.nodup hall
    (by rw [hl]; exact ⟨rfl, rfl⟩)
  obtain ⟨st', h1, h2⟩ := hdr
  have hrearm : ∀ a w, rearm ⟨st.now + d, st.rtt, st.timers, a, w⟩ =
      ⟨st.now + d, st.rtt, st.timers, i, some (.armed e)⟩ := by
    intro a w
    unfold rearm
    simp only [hl]
  match hw : st.wait with
  | none => exact absurd (hr.inv.idle hw) ht
  | some .aborted =>
    refine ⟨st.timers.length + 1, st', le_refl _, hgo _ _ ?_, h2⟩
    have hs : step zero { st with now := st.now + d } (.handler []) =
        some (⟨st.now + d, st.rtt, st.timers, i, some (.armed e)⟩, []) := by
      simp only [step, hw, hrearm]
    rw [List.replicate_succ, run, hs]
    simp [h1]
  | some (.armed x) =>
    have hx : x ≤ st.now + d := by
      rcases (hrt.prompt.armed x hw).1 with h1 | h1
      · exact h1
      · have := h1 (i, e) (by simp only; rw [hl]; simp)
        have h3 := hd (i, e) (by rw [hl]; simp)
        simp only at this h3
        omega
    by_cases ha : st.active = zero
    · refine ⟨st.timers.length + 1, st', le_refl _, hgo _ _ ?_, h2⟩
      have hs : step zero { st with now := st.now + d } (.handler []) =
          some (⟨st.now + d, st.rtt, st.timers, i, some (.armed e)⟩, []) := by
        simp only [step, hw, hx, if_true, expire, ha, ne_eq, not_true, if_false, hrearm]
      rw [List.replicate_succ, run, hs]
      simp [h1]
    · -- the first timer is the one being timed
      obtain ⟨e', rest', hl'⟩ := hr.inv.head ha
      rw [hl, List.cons.injEq, Prod.mk.injEq] at hl'
      obtain ⟨⟨hia, rfl⟩, rfl⟩ := hl'
      refine ⟨st.timers.length, st', by omega, hgo _ _ ?_, h2⟩
      -- the armed deadline does not matter, as it is over
      have hsame : step zero { st with now := st.now + d } (.handler []) =
          step zero ⟨st.now + d, st.rtt, st.timers, i, some (.armed e)⟩ (.handler []) := by
        have he : e ≤ st.now + d := hd (i, e) (by rw [hl]; simp)
        have hiz : i ≠ zero := by rw [hia]; exact ha
        have hany : (st.timers.any fun p => decide (p.1 = i)) = true := by rw [hl]; simp
        simp only [step, hw, hx, he, if_true, expire, ← hia, running, doOps, rearm, if_pos hiz, hany]
      rw [hl] at h1 ⊢
      rw [List.length_cons, List.replicate_succ, run] at h1 ⊢
      rw [hl] at hsame
      rw [← hsame] at h1
      convert h1 using 2

/-! Two timers, of which the first is deleted, and a third one started by a callback. -/

def exEvs : List (Event Nat) :=
  [.op (.start 1), .tick 2, .op (.start 2), .op (.delete 1), .tick 3, .handler [], .setRtt 7 true false,
   .handler [], .tick 5, .handler [.start 3]]

example : (run 0 (.init 0 5) exEvs).map (fun p => (p.2, p.1.timers)) =
    some ([.started 1 0, .started 2 2, .deleted 1, .fired 2 10, .started 3 10], [(3, 17)]) := by
  decide +kernel

example : Adjusted exEvs ∧ NoRace exEvs ∧ ¬ Uses 0 exEvs := by
  refine ⟨by intro r l h; simp [exEvs] at h, by intro r u h; simp [exEvs] at h, ?_⟩
  rintro (⟨o, ho, hu⟩ | ⟨inner, hi, o, ho, hu⟩)
  · simp [exEvs] at ho
    rcases ho with rfl | rfl | rfl <;> simp [usesOp] at hu
  · simp [exEvs] at hi
    rcases hi with rfl | rfl
    · simp at ho
    · simp at ho; subst ho; simp [usesOp] at hu

example : Constant ([.op (.start 1), .tick 5, .handler []] : List (Event Nat)) ∧
    (run 0 (.init 0 5) [.op (.start 1), .tick 5, .handler []]).map (·.2) =
      some [.started 1 0, .fired 1 5] := by
  refine ⟨by intro r u l h; simp at h, by decide +kernel⟩

/-! ### What fails -/

/-- The timer with the id that stands for none is the first. -/
def Stuck (zero : α) (st : State α) : Prop :=
  st.active = zero ∧ st.wait ≠ none ∧ ∃ e rest, st.timers = (zero, e) :: rest

theorem stuck_step {zero : α} {st st' : State α} {e : Event α} {out : List (Eff α)}
    (h : Stuck zero st) (hd : e ≠ .op (.delete zero)) (hs : step zero st e = some (st', out)) :
    Stuck zero st' ∧ ∀ id at_, Eff.fired id at_ ∉ out := by
  obtain ⟨ha, hw, x, rest, ht⟩ := h
  cases e with
  | tick d =>
    simp only [step, Option.some.injEq, Prod.mk.injEq] at hs
    obtain ⟨rfl, rfl⟩ := hs
    exact ⟨⟨ha, hw, x, rest, ht⟩, by simp⟩
  | op o =>
    simp only [step, Option.some.injEq] at hs
    cases o with
    | start id =>
      simp only [doOp, start] at hs
      split at hs
      · simp only [Prod.mk.injEq] at hs
        obtain ⟨rfl, rfl⟩ := hs
        exact ⟨⟨ha, hw, x, rest, ht⟩, by simp⟩
      · split at hs
        · rename_i hn; exact absurd hn hw
        · simp only [Prod.mk.injEq] at hs
          obtain ⟨rfl, rfl⟩ := hs
          exact ⟨⟨ha, hw, x, rest ++ [(id, st.now + st.rtt)], by simp [ht]⟩, by simp⟩
    | delete id =>
      have hne : zero ≠ id := fun hc => hd (by rw [hc])
      simp only [doOp, delete] at hs
      split at hs
      · rw [if_neg (by rintro ⟨-, hc⟩; exact hne (ha ▸ hc))] at hs
        simp only [Prod.mk.injEq] at hs
        obtain ⟨rfl, rfl⟩ := hs
        exact ⟨⟨ha, hw, x, _, filter_head ht hne⟩, by simp⟩
      · simp only [Prod.mk.injEq] at hs
        obtain ⟨rfl, rfl⟩ := hs
        exact ⟨⟨ha, hw, x, rest, ht⟩, by simp⟩
  | setRtt r update late =>
    simp only [step] at hs
    split at hs
    · simp at hs
    · simp only [Option.some.injEq, Prod.mk.injEq] at hs
      obtain ⟨rfl, rfl⟩ := hs
      refine ⟨?_, by simp⟩
      split
      · unfold adjust
        simp only
        split
        · rename_i hn; exact absurd hn hw
        · exact ⟨ha, by simp, x + (r - st.rtt), rest.map (fun p => (p.1, p.2 + (r - st.rtt))),
            by simp [ht]⟩
      · exact ⟨ha, hw, x, rest, ht⟩
  | handler inner =>
    have hre : Stuck zero (rearm st) := by
      unfold rearm
      simp only [ht]
      exact ⟨rfl, by simp, x, rest, rfl⟩
    simp only [step] at hs
    split at hs
    · simp at hs
    · simp only [Option.some.injEq, Prod.mk.injEq] at hs
      obtain ⟨rfl, rfl⟩ := hs
      exact ⟨hre, by simp⟩
    · split at hs
      · simp only [Option.some.injEq, expire, ha, ne_eq, not_true, if_false, Prod.mk.injEq] at hs
        obtain ⟨rfl, rfl⟩ := hs
        exact ⟨hre, by simp⟩
      · simp at hs

/-- C64 fails for the id that stands for none: once a timer is started with it while none runs, then
unless it is deleted no timer ever calls back, whatever else happens. -/
theorem C64_zero_violated (zero : α) (rtt : Int) (evs : List (Event α))
    (hd : Event.op (.delete zero) ∉ evs) (st : State α) (effs : List (Eff α))
    (h : run zero (.init zero rtt) (.op (.start zero) :: evs) = some (st, effs)) (id : α) (at_ : Int) :
    Eff.fired id at_ ∉ effs := by
  have hgo : ∀ (evs : List (Event α)) (st : State α), Stuck zero st → Event.op (.delete zero) ∉ evs →
      ∀ st' effs, run zero st evs = some (st', effs) → Eff.fired id at_ ∉ effs := by
    intro evs
    induction evs with
    | nil =>
      intro st _ _ st' effs h
      simp only [run, Option.some.injEq, Prod.mk.injEq] at h
      rw [← h.2]; simp
    | cons e es ih =>
      intro st hst hn st' effs h
      simp only [run, Option.bind_eq_bind, Option.bind_eq_some_iff, Prod.exists, Option.pure_def,
        Option.some.injEq, Prod.mk.injEq] at h
      obtain ⟨s1, o1, h1, s2, o2, h2, -, rfl⟩ := h
      obtain ⟨hs, ho⟩ := stuck_step hst (fun hc => hn (by rw [hc]; simp)) h1
      rw [List.mem_append]
      rintro (hc | hc)
      · exact ho id at_ hc
      · exact ih s1 hs (fun hm => hn (List.mem_cons_of_mem _ hm)) s2 o2 h2 hc
  simp only [run, Option.bind_eq_bind, Option.bind_eq_some_iff, Prod.exists, Option.pure_def,
    Option.some.injEq, Prod.mk.injEq] at h
  obtain ⟨s1, o1, h1, s2, o2, h2, -, rfl⟩ := h
  simp [step, doOp, start, running, State.init] at h1
  obtain ⟨rfl, rfl⟩ := h1
  rw [List.mem_append]
  rintro (hc | hc)
  · simp at hc
  · exact hgo evs _ ⟨rfl, by simp, rtt, [], rfl⟩ hd s2 o2 h2 hc

example : (run 0 (.init 0 5) [.op (.start 0), .op (.start 7), .tick 100, .handler [], .handler [],
    .tick 100, .handler []]).map (·.2) = some [Eff.started 0 0, .started 7 0] := by decide +kernel

/-- C64 fails when the duration is made shorter without adjusting the running timers: a timer's time is
over, and the handler that would call back is not due. -/
theorem C64_shorter_violated : ∃ (evs : List (Event Nat)) (st : State Nat) (effs : List (Eff Nat)),
    run 0 (.init 0 100) evs = some (st, effs) ∧ ¬ Uses 0 evs ∧
      (∃ e ≤ st.now, (2, e) ∈ st.timers) ∧ due st = false := by
  refine ⟨[.op (.start 1), .setRtt 10 false false, .op (.start 2), .tick 50], _, _, rfl, ?_,
    ⟨10, by decide, by decide⟩, by decide⟩
  rintro (⟨o, ho, hu⟩ | ⟨inner, hi, o, ho, hu⟩)
  · simp at ho
    rcases ho with rfl | rfl <;> simp [usesOp] at hu
  · simp at hi

/-- C64 fails when running timers are adjusted while the handler is due: a timer calls back before its new
expiry. -/
theorem C64_race_violated : ∃ (evs : List (Event Nat)) (st st' : State Nat) (effs : List (Eff Nat)),
    run 0 (.init 0 10) evs = some (st, effs) ∧ st.timers = [(1, 100)] ∧
      step 0 st (.handler []) = some (st', [.fired 1 10]) := by
  exact ⟨[.op (.start 1), .tick 10, .setRtt 100 true true], _, _, _, rfl, rfl, rfl⟩

end Hdtn.LtpTimers
