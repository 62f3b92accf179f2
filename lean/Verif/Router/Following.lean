import Verif.Router.Contacts

/-!
The router follows a contact plan.
-/

namespace Hdtn.Router

open Spec

theorem step_clock {C : Config} {s s' : State} {now : Nat} {a : Act} (h : s.step C now a = some s') : s.clock ≤ now := by
  unfold State.step at h
  split at h
  · cases h
  · omega

/-- What steps other than those for the contact plan leave alone. -/
structure Beside (s s' : State) (now : Nat) : Prop where
  ready : s'.ready = s.ready
  clock : s'.clock = now
  index : s'.index = s.index
  events : s'.events = s.events
  epoch : s'.epoch = s.epoch
  plan : s'.plan = s.plan
  timer : s'.timer = s.timer
  queued : s'.queued = s.queued

theorem restartFull_beside (s : State) (now : Nat) (h : s.clock = now) : Beside s s.restartFull now := by
  unfold State.restartFull; split <;> exact ⟨rfl, h, rfl, rfl, rfl, rfl, rfl, rfl⟩

theorem Beside.trans {a b c : State} {n m : Nat} (h : Beside a b n) (h' : Beside b c m) : Beside a c m :=
  ⟨h'.ready.trans h.ready, h'.clock, h'.index.trans h.index, h'.events.trans h.events, h'.epoch.trans h.epoch, h'.plan.trans h.plan,
    h'.timer.trans h.timer, h'.queued.trans h.queued⟩

theorem Updated.beside {s s' i o new up first} (h : Updated s s' i o new up first) {now : Nat} (hc : s.clock = now) : Beside s s' now :=
  ⟨h.ready, h.clock.trans hc, h.index, h.events, h.epoch, h.plan, h.timer, h.queued⟩

theorem storageEvent_beside (C : Config) (s : State) (now : Nat) (hc : s.clock = now) : Beside s (s.storageEvent C now) now := by
  unfold State.storageEvent
  cases he : s.full with
  | nil => exact ⟨rfl, hc, rfl, rfl, rfl, rfl, rfl, rfl⟩
  | cons x rest =>
    simp only
    obtain ⟨s1, hs1⟩ : ∃ s1, s1 = (if x.1 > now then State.restartFull { s with fullTimer := none } else { s with fullTimer := none }) :=
      ⟨_, rfl⟩
    have hb : Beside s s1 now := by
      rw [hs1]; split
      · exact Beside.trans (b := { s with fullTimer := none }) ⟨rfl, hc, rfl, rfl, rfl, rfl, rfl, rfl⟩ (restartFull_beside _ _ hc)
      · exact ⟨rfl, hc, rfl, rfl, rfl, rfl, rfl, rfl⟩
    simp only [he] at hs1
    rw [← hs1]
    obtain ⟨r1, r2, r3, r4, r5, r6, r7, r8, r9, r10⟩ := release_frame C s1 now x.2
    refine hb.trans (Beside.trans (b := { s1.release C now x.2 with full := rest }) (n := now) ⟨r1, r2.trans hb.clock, r3, r4, r5, r6, r7, r8⟩
      (restartFull_beside _ _ (r2.trans hb.clock)))

/-- The steps that have nothing to do with the contact plan. -/
def Act.other : Act → Bool
  | .physical _ _ | .api _ _ | .depleted _ | .storageTimer => true
  | _ => false

theorem step_beside {C : Config} {s s' : State} {now : Nat} {a : Act} (h : s.step C now a = some s') (ha : a.other = true) :
    Beside s s' now := by
  unfold State.step at h
  split at h
  · cases h
  simp only at h
  have h0 : Beside s { s with clock := now } now := ⟨rfl, rfl, rfl, rfl, rfl, rfl, rfl, rfl⟩
  cases a with
  | physical i up =>
    cases h
    unfold State.physical
    cases ho : s.outducts i with
    | none => simpa [ho] using h0
    | some o => simp only [ho]; exact h0.trans ((update_updated C _ now i o _ up _).beside rfl)
  | api i up =>
    cases h
    unfold State.api
    cases ho : s.outducts i with
    | none => simpa [ho] using h0
    | some o => simp only [ho]; exact h0.trans ((update_updated C _ now i o _ up _).beside rfl)
  | depleted node =>
    cases h
    unfold State.depleted
    simp only
    cases hi : s.index node with
    | none => exact h0
    | some i =>
      simp only
      cases ho : s.outducts i with
      | none => simpa [ho] using h0
      | some o =>
        simp only [ho]
        refine Beside.trans (b := State.restartFull { s with
          clock := now, full := placeFull (now + C.delay * 1000000) i (s.full.filter (·.2 != i)) }) (n := now) ?_
          ((update_updated C _ now i o _ false _).beside (restartFull_beside _ now rfl).clock)
        exact Beside.trans (b := { s with
          clock := now, full := placeFull (now + C.delay * 1000000) i (s.full.filter (·.2 != i)) }) (n := now)
          ⟨rfl, rfl, rfl, rfl, rfl, rfl, rfl, rfl⟩ (restartFull_beside _ now rfl)
  | storageTimer =>
    simp only at h
    split at h
    · cases h
    · split at h
      · cases h; exact h0.trans (storageEvent_beside C _ now rfl)
      · cases h
  | _ => cases ha

/-- The first event of the contact plan is handled. -/
theorem event_facts (C : Config) (s : State) (now : Nat) (x : Nat × Event) (rest : List (Nat × Event)) (he : s.events = x :: rest) :
    let s' := s.contactEvent C now
    s'.ready = s.ready ∧ s'.clock = s.clock ∧ s'.index = s.index ∧ s'.events = rest ∧ s'.epoch = s.epoch ∧ s'.plan = s.plan ∧
      s'.timer = rest.head?.map (·.1) ∧ s'.queued = s.queued := by
  unfold State.contactEvent
  rw [he]
  obtain ⟨r1, r2, r3, r4, r5, r6, r7, r8, r9, r10⟩ := contact_frame C s now x.2
  exact ⟨r1, r2, r3, rfl, r5, r6, rfl, r8⟩

/-! ### Next hops and outducts -/

/-- The outduct for a next hop is one to this next hop. -/
def IndexInv (s : State) : Prop := ∀ h i, s.index h = some i → (s.outducts i).map (·.hop) = some h

theorem foldl_index (l : List (Nat × Nat × Bool)) (f : Nat → Option Nat) (h i : Nat)
    (hf : l.foldl (fun f p => fun h => if h = p.2.1 then some p.1 else f h) f h = some i) : (∃ p ∈ l, p.1 = i ∧ p.2.1 = h) ∨ f h = some i := by
  induction l generalizing f with
  | nil => exact .inr hf
  | cons p l ih =>
    rw [List.foldl_cons] at hf
    rcases ih _ hf with ⟨q, a, b⟩ | e
    · exact .inl ⟨q, List.mem_cons_of_mem _ a, b⟩
    · split at e
      next hp => cases e; exact .inl ⟨p, List.mem_cons_self .., rfl, hp.symm⟩
      next => exact .inr e

theorem find_of_nodup {l : List (Nat × Nat × Bool)} (hn : (l.map (·.1)).Nodup) {p : Nat × Nat × Bool} (hp : p ∈ l) :
    l.find? (·.1 == p.1) = some p := by
  induction l with
  | nil => cases hp
  | cons q l ih =>
    rcases List.mem_cons.mp hp with rfl | hp
    · rw [List.find?_cons_of_pos (by simp)]
    · have hq : q.1 ≠ p.1 := fun e => (List.nodup_cons.mp hn).1 (by simp only; rw [e]; exact List.mem_map.mpr ⟨p, hp, rfl⟩)
      rw [List.find?_cons_of_neg (by simpa using hq)]
      exact ih (List.nodup_cons.mp hn).2 hp

theorem init_ok {C : Config} {s s' : State} {now : Nat} {l : List (Nat × Nat × Bool)} (h : s.step C now (.init l) = some s') :
    s.ready = false ∧ (l.map (·.1)).Nodup ∧ s' = ({ s with clock := now } : State).init l := by
  unfold State.step at h
  split at h
  · cases h
  simp only at h
  by_cases hc : (s.ready || !decide (l.map (·.1)).Nodup) = true
  · rw [if_pos hc] at h; cases h
  · rw [if_neg hc] at h; cases h
    simp at hc
    exact ⟨hc.1, hc.2, rfl⟩

theorem step_hop {C : Config} {s s' : State} {now : Nat} {a : Act} (h : s.step C now a = some s') (hn : ∀ l, a ≠ .init l) (i : Nat) :
    (s'.outducts i).map (·.hop) = (s.outducts i).map (·.hop) := by
  have h1 := congrArg (Option.map (·.hop)) (step_flags h i)
  have h2 : ∀ x : Option Outduct, (x.map Outduct.bare).map (·.hop) = x.map (·.hop) := by
    intro x; cases x <;> rfl
  rw [h2] at h1
  rw [h1]
  have h3 : ∀ (f : Outduct → Outduct) (j : Nat), (∀ o, (f o).hop = o.hop) → (s.change f j i).map (·.hop) = (s.outducts i).map (·.hop) := by
    intro f j hf
    unfold State.change
    split
    · cases s.outducts i with
      | none => rfl
      | some o => exact congrArg some (hf o)
    · exact h2 _
  cases a with
  | init l => exact absurd rfl (hn l)
  | load l => simp only [State.flagsAfter]; cases s.outducts i <;> rfl
  | fire => exact h2 _
  | event =>
    simp only [State.flagsAfter]
    cases s.events with
    | nil => exact h2 _
    | cons x l => exact h3 _ _ fun _ => rfl
  | physical j up => exact h3 _ _ fun _ => rfl
  | api j up => exact h3 _ _ fun _ => rfl
  | depleted node =>
    simp only [State.flagsAfter]
    cases s.index node with
    | none => exact h2 _
    | some j => exact h3 _ _ fun _ => rfl
  | storageTimer =>
    simp only [State.flagsAfter]
    cases s.full with
    | nil => exact h2 _
    | cons x l => exact h3 _ _ fun _ => rfl

theorem step_index {C : Config} {s s' : State} {now : Nat} {a : Act} (h : s.step C now a = some s') (hn : ∀ l, a ≠ .init l) :
    s'.index = s.index ∧ s'.ready = s.ready ∧ s'.clock = now := by
  by_cases ho : a.other = true
  · have := step_beside h ho
    exact ⟨this.index, this.ready, this.clock⟩
  unfold State.step at h
  split at h
  · cases h
  simp only at h
  cases a with
  | init l => exact absurd rfl (hn l)
  | load l => cases h; exact ⟨rfl, rfl, rfl⟩
  | fire =>
    simp only at h
    split at h
    · cases h
    · split at h
      · cases h; exact ⟨rfl, rfl, rfl⟩
      · cases h
  | event =>
    simp only at h
    split at h
    · cases h
    · cases h
      cases he : s.events with
      | nil => unfold State.contactEvent; simp only [he]; exact ⟨trivial, trivial, trivial⟩
      | cons x rest =>
        obtain ⟨a, b, c, -⟩ := event_facts C { s with clock := now, queued := s.queued - 1 } now x rest he
        simp only [he] at a b c ⊢
        exact ⟨c, a, b⟩
  | _ => exact absurd rfl ho

theorem step_indexInv {C : Config} {s s' : State} {now : Nat} {a : Act} (hs : IndexInv s) (h : s.step C now a = some s') : IndexInv s' := by
  by_cases hn : ∀ l, a ≠ .init l
  · intro x i hx
    rw [(step_index h hn).1] at hx
    rw [step_hop h hn]
    exact hs x i hx
  · have : ∃ l, a = .init l := by
      by_contra e; exact hn fun l e' => e ⟨l, e'⟩
    obtain ⟨l, rfl⟩ := this
    obtain ⟨-, hd, rfl⟩ := init_ok h
    intro x i hx
    rcases foldl_index l _ x i hx with ⟨p, a, rfl, rfl⟩ | e
    · rw [init_outducts hd, find_of_nodup hd a]; rfl
    · cases e

theorem run_indexInv {C : Config} {acts : List (Nat × Act)} {s : State} (h : run C start acts = some s) : IndexInv s :=
  run_induction (fun _ s => IndexInv s) (fun h i e => by cases e) (fun _ _ _ _ _ _ h h' => step_indexInv h h') h

/-! ### Following a plan -/

/-- The router has handled the first events of the plan, and only after their times. -/
structure Follows (C : Config) (ix : Nat → Option Nat) (epoch : Nat) (plan : List Planned) (s : State) : Prop where
  ready : s.ready = true
  index : s.index = ix
  events : ∃ done, loadContacts C ix epoch plan = done ++ s.events ∧ (∀ x ∈ done, x.1 ≤ s.clock) ∧
    ∀ i o, s.outducts i = some o → o.byTime = lastFor i done
  timer : (s.queued = 0 ∧ s.timer = s.events.head?.map (·.1)) ∨
    (s.queued = 1 ∧ s.timer = none ∧ ∃ x rest, s.events = x :: rest ∧ x.1 ≤ s.clock)

theorem load_follows {C : Config} {s s' : State} {now : Nat} {plan : List Planned} (hr : s.ready = true) (hq : s.queued = 0)
    (h : s.step C now (.load plan) = some s') : Follows C s.index (if C.unix then 0 else now) plan s' := by
  unfold State.step at h
  split at h
  · cases h
  cases h
  refine ⟨hr, rfl, ⟨[], rfl, by simp, ?_⟩, .inl ⟨hq, rfl⟩⟩
  intro i o ho
  change (s.outducts i).map (fun o => ({ o with byTime := false, dests := [] } : Outduct)) = some o at ho
  cases h1 : s.outducts i with
  | none => rw [h1] at ho; cases ho
  | some o1 => rw [h1] at ho; cases ho; rfl

theorem byTime_of_flags {s s' : State} {i : Nat} (h : (s'.outducts i).map (·.byTime) = (s.outducts i).map (·.byTime)) {b : Bool}
    (hs : ∀ o, s.outducts i = some o → o.byTime = b) : ∀ o, s'.outducts i = some o → o.byTime = b := by
  intro o ho
  rw [ho] at h
  cases h1 : s.outducts i with
  | none => rw [h1] at h; cases h
  | some o1 =>
    rw [h1] at h
    simp only [Option.map_some, Option.some.injEq] at h
    rw [h]; exact hs o1 h1

theorem step_byTime {C : Config} {s s' : State} {now : Nat} {a : Act} (h : s.step C now a = some s')
    (ha : ∀ i up, a ≠ .api i up) (ho : a.other = true ∨ a = .fire) (i : Nat) :
    (s'.outducts i).map (·.byTime) = (s.outducts i).map (·.byTime) := by
  have h1 := congrArg (Option.map (·.byTime)) (step_flags h i)
  have h2 : ∀ x : Option Outduct, (x.map Outduct.bare).map (·.byTime) = x.map (·.byTime) := by
    intro x; cases x <;> rfl
  rw [h2] at h1
  rw [h1]
  have h3 : ∀ (f : Outduct → Outduct) (j : Nat), (∀ o, (f o).byTime = o.byTime) → (s.change f j i).map (·.byTime) = (s.outducts i).map (·.byTime) := by
    intro f j hf
    unfold State.change
    split
    · cases s.outducts i with
      | none => rfl
      | some o => exact congrArg some (hf o)
    · exact h2 _
  cases a with
  | fire => exact h2 _
  | physical j up => exact h3 _ _ fun _ => rfl
  | api j up => exact absurd rfl (ha j up)
  | depleted node =>
    simp only [State.flagsAfter]
    cases s.index node with
    | none => exact h2 _
    | some j => exact h3 _ _ fun _ => rfl
  | storageTimer =>
    simp only [State.flagsAfter]
    cases s.full with
    | nil => exact h2 _
    | cons x l => exact h3 _ _ fun _ => rfl
  | _ => rcases ho with h | h <;> cases h

theorem step_follows {C : Config} {index : Nat → Option Nat} {epoch : Nat} {plan : List Planned} {s s' : State} {now : Nat} {a : Act}
    (hs : Follows C index epoch plan s) (h : s.step C now a = some s') (hl : ∀ l, a ≠ .load l) (ha : ∀ i up, a ≠ .api i up) :
    Follows C index epoch plan s' := by
  have hc := step_clock h
  obtain ⟨done, e1, e2, e3⟩ := hs.events
  by_cases hn : ∀ l, a ≠ .init l
  · obtain ⟨i1, i2, i3⟩ := step_index h hn
    by_cases ho : a.other = true
    · have hb := step_beside h ho
      refine ⟨i2.trans hs.ready, i1.trans hs.index, ⟨done, by rw [hb.events]; exact e1, fun x hx => ?_, fun i => ?_⟩, ?_⟩
      · rw [i3]; exact (e2 x hx).trans hc
      · exact byTime_of_flags (step_byTime h ha (.inl ho) i) (e3 i)
      · rw [hb.queued, hb.timer, hb.events, i3]
        rcases hs.timer with h | ⟨h1, h2, x, r, h3, h4⟩
        · exact .inl h
        · exact .inr ⟨h1, h2, x, r, h3, h4.trans hc⟩
    · cases a with
      | fire =>
        have hby := step_byTime h ha (.inr rfl)
        unfold State.step at h
        split at h
        · cases h
        simp only at h
        cases ht : s.timer with
        | none => rw [ht] at h; cases h
        | some t =>
          rw [ht] at h
          simp only at h
          by_cases htn : t ≤ now
          · rw [if_pos htn] at h
            cases h
            refine ⟨hs.ready, hs.index, ⟨done, e1, fun x hx => (e2 x hx).trans hc, fun i => byTime_of_flags (hby i) (e3 i)⟩, ?_⟩
            rcases hs.timer with ⟨h1, h2⟩ | ⟨h1, h2, _⟩
            · refine .inr ⟨by simp [h1], rfl, ?_⟩
              rw [ht] at h2
              cases he : s.events with
              | nil => rw [he] at h2; cases h2
              | cons x r =>
                rw [he] at h2
                cases h2
                exact ⟨x, r, rfl, htn⟩
            · rw [ht] at h2; cases h2
          · rw [if_neg htn] at h; cases h
      | event =>
        have hfl := step_flags h
        unfold State.step at h
        split at h
        · cases h
        simp only at h
        by_cases hq : s.queued = 0
        · rw [if_pos hq] at h; cases h
        · rw [if_neg hq] at h
          cases h
          rcases hs.timer with ⟨h1, h2⟩ | ⟨h1, h2, x, r, h3, h4⟩
          · exact absurd h1 hq
          · obtain ⟨f1, f2, f3, f4, f5, f6, f7, f8⟩ := event_facts C { s with clock := now, queued := s.queued - 1 } now x r h3
            refine ⟨f1.trans hs.ready, f3.trans hs.index, ⟨done ++ [x], ?_, ?_, ?_⟩, .inl ⟨?_, ?_⟩⟩
            · rw [f4, e1, h3]; simp
            · intro y hy
              rw [f2]
              rcases List.mem_append.mp hy with hy | hy
              · exact (e2 y hy).trans hc
              · rw [List.mem_singleton.mp hy]; exact h4.trans hc
            · intro i o ho
              have := hfl i
              rw [ho] at this
              simp only [State.flagsAfter, h3, State.change] at this
              rw [lastFor_snoc]
              cases h5 : s.outducts i with
              | none => rw [h5] at this; split at this <;> cases this
              | some o1 =>
                rw [h5] at this
                by_cases hx : x.2.outduct = i
                · rw [if_pos hx] at this ⊢
                  simp only [Option.map_some, Option.some.injEq] at this
                  have := congrArg (·.byTime) this
                  exact this
                · rw [if_neg hx] at this ⊢
                  simp only [Option.map_some, Option.some.injEq] at this
                  have := congrArg (·.byTime) this
                  rw [← e3 i o1 h5]
                  exact this
            · rw [f8]; simp [h1]
            · rw [f7, f4]
      | load l => exact absurd rfl (hl l)
      | init l => exact absurd rfl (hn l)
      | _ => exact absurd rfl ho
  · exfalso
    have : ∃ l, a = .init l := by
      by_contra e; exact hn fun l e' => e ⟨l, e'⟩
    obtain ⟨l, rfl⟩ := this
    have := (init_ok h).1
    rw [hs.ready] at this; cases this

theorem run_follows {C : Config} {index : Nat → Option Nat} {epoch : Nat} {plan : List Planned} {s s' : State} {acts : List (Nat × Act)}
    (hs : Follows C index epoch plan s) (hu : Undisturbed acts) (h : run C s acts = some s') : Follows C index epoch plan s' := by
  induction acts generalizing s with
  | nil => cases h; exact hs
  | cons x acts ih =>
    obtain ⟨now, a⟩ := x
    unfold run at h
    cases h1 : s.step C now a with
    | none => rw [h1] at h; cases h
    | some s1 =>
      rw [h1] at h
      have := hu (now, a) (List.mem_cons_self ..)
      exact ih (step_follows hs h1 this.1 this.2) (fun b hb => hu b (List.mem_cons_of_mem _ hb)) h

end Hdtn.Router
