import Verif.Sink.Props
import Verif.Source.Lemmas

/-!
C134: what becomes of the bundles that a sink sends: signals and echoes.
-/

namespace Hdtn.Sink

open Hdtn.HashMap16 Hdtn.Sink.Spec

/-- All bundles with numbers. -/
def Sender.numbered (s : Sender) : List Bundle := s.failed ++ s.held.toList ++ s.duct ++ s.acked

/-- What holds at all times. -/
structure Inv (max : Nat) (s : Sender) : Prop where
  all : s.asked.Perm (Spec.Sender.all s)
  ids : (s.numbered.map (·.id)).Nodup
  below : ∀ b ∈ s.numbered, b.id < s.next
  sent : ∀ b ∈ s.duct, b.id ∈ s.sending
  nodup : s.sending.Nodup
  room : s.sending.length ≤ max
  holds : s.pc = .link ∨ s.pc = .room ∨ s.pc = .forward → s.held.isSome
  marked : s.pc = .forward → ∀ b, s.held = some b → b.id ∈ s.sending
  awake : s.pc = .sleep → s.queue = [] ∧ s.held = none

theorem inv_start (max : Nat) : Inv max Sender.start := by
  constructor <;> simp [Sender.start, Spec.Sender.all, Sender.numbered]

/-- Only the place of the thread has changed. -/
theorem inv_pc {max : Nat} {s : Sender} (h : Inv max s) (running linkDown : Bool) (pc : Pc)
    (h1 : pc = .link ∨ pc = .room ∨ pc = .forward → s.held.isSome) (h2 : pc = .forward → s.pc = .forward)
    (h3 : pc = .sleep → s.queue = [] ∧ s.held = none) : Inv max { s with running := running, linkDown := linkDown, pc := pc } :=
  ⟨h.all, h.ids, h.below, h.sent, h.nodup, h.room, h1, fun hp => h.marked (h2 hp), h3⟩

theorem inv_main {max : Nat} {s : Sender} (h : Inv max s) (timeout accepted : Bool) : Inv max (s.main max timeout accepted) := by
  unfold Sender.main
  cases hpc : s.pc with
  | top =>
    dsimp only
    split_ifs with hr
    · exact inv_pc h _ _ _ (by simp) (by simp) (by simp)
    · cases hh : s.held with
      | some b =>
        dsimp only
        rw [← hh]
        exact inv_pc h _ _ _ (by simp [hh]) (by simp) (by simp)
      | none =>
        cases hf : s.failed with
        | cons b rest =>
          dsimp only
          have hall := h.all
          have hids := h.ids
          have hbelow := h.below
          simp only [Spec.Sender.all, Sender.numbered, hh, hf] at hall hids hbelow
          refine ⟨?_, ?_, ?_, h.sent, h.nodup, h.room, fun _ => rfl, by simp, by simp⟩
          · refine hall.trans ?_
            simp only [Spec.Sender.all]
            refine .append_right _ (.append_left _ (.map _ (.append_right _ (.append_right _ ?_))))
            simpa using (List.perm_append_singleton b rest).symm
          · refine (List.Perm.nodup_iff ?_).1 hids
            simp only [Sender.numbered]
            refine .map _ (.append_right _ (.append_right _ ?_))
            simpa using (List.perm_append_singleton b rest).symm
          · intro c hc
            refine hbelow c ?_
            simp only [Sender.numbered] at hc
            simp at hc ⊢
            tauto
        | nil =>
          cases hq : s.queue with
          | nil =>
            dsimp only
            rw [← hh, ← hf, ← hq]
            exact inv_pc h _ _ _ (by simp) (by simp) (fun _ => ⟨hq, hh⟩)
          | cons x rest =>
            obtain ⟨dest, data⟩ := x
            dsimp only
            have hall := h.all
            have hids := h.ids
            have hbelow := h.below
            simp only [Spec.Sender.all, Sender.numbered, hh, hf, hq] at hall hids hbelow
            refine ⟨?_, ?_, ?_, h.sent, h.nodup, h.room, fun _ => rfl, by simp, by simp⟩
            · refine hall.trans ?_
              simp only [Spec.Sender.all, hf]
              refine .append_right _ ?_
              simp [List.perm_middle.symm]
            · simp only [Sender.numbered, hf]
              simp only [Option.toList_some, Option.toList_none, List.nil_append, List.cons_append, List.map_cons, List.nodup_cons] at hids ⊢
              refine ⟨fun hm => ?_, hids⟩
              obtain ⟨c, hc, e⟩ := List.mem_map.1 hm
              exact absurd (hbelow c (by simpa using hc)) (by omega)
            · intro c hc
              simp only [Sender.numbered, hf] at hc
              simp only [Option.toList_some, List.nil_append, List.cons_append, List.mem_cons] at hc
              rcases hc with rfl | hc
              · exact Nat.lt_succ_self _
              · exact Nat.lt_succ_of_lt (hbelow c (by simpa using hc))
  | sleep => exact h
  | link =>
    dsimp only
    split_ifs
    · exact inv_pc h _ _ _ (by simp) (by simp) (by simp)
    · exact inv_pc h _ _ _ (fun _ => h.holds (.inl hpc)) (by simp) (by simp)
  | room =>
    dsimp only
    split_ifs with h1 h2 h3
    · exact inv_pc h _ _ _ (by simp) (by simp) (by simp)
    · exact h
    · exact inv_pc h _ _ _ (by simp) (by simp) (by simp)
    · cases hh : s.held with
      | none => exact h
      | some b =>
        dsimp only
        have hlt : s.sending.length < max := by
          simp only [Bool.not_eq_true', Bool.not_eq_false] at h3
          simpa [h3] using h1
        rw [← hh]
        refine ⟨h.all, h.ids, h.below, fun c hc => Source.mem_insertId.2 (.inr (h.sent c hc)), ?_, ?_, fun _ => by simp [hh], fun _ c hc => ?_, by simp⟩
        · show (Source.insertId s.sending b.id).Nodup
          unfold Source.insertId
          split_ifs with hm
          · exact h.nodup
          · exact List.nodup_cons.2 ⟨hm, h.nodup⟩
        · show (Source.insertId s.sending b.id).length ≤ max
          unfold Source.insertId
          split_ifs with hm
          · exact h.room
          · exact hlt
        · have : c = b := by simpa [hh] using hc.symm
          subst this
          exact Source.mem_insertId.2 (.inl rfl)
  | forward =>
    dsimp only
    cases hh : s.held with
    | none => exact h
    | some b =>
      dsimp only
      split_ifs
      · have hall := h.all
        have hids := h.ids
        have hbelow := h.below
        simp only [Spec.Sender.all, Sender.numbered, hh] at hall hids hbelow
        have hp : (s.failed ++ (some b).toList ++ s.duct ++ s.acked).Perm (s.failed ++ (none : Option Bundle).toList ++ (s.duct ++ [b]) ++ s.acked) := by
          simp only [Option.toList_some, Option.toList_none, List.append_nil]
          refine .append_right _ ?_
          rw [List.append_assoc]
          refine .append_left _ ?_
          simpa using (List.perm_append_singleton b s.duct).symm
        refine ⟨?_, ?_, ?_, ?_, h.nodup, h.room, by simp, by simp, by simp⟩
        · refine hall.trans ?_
          exact .append_right _ (.append_left _ (.map _ hp))
        · exact (List.Perm.nodup_iff (.map _ hp)).1 hids
        · exact fun c hc => hbelow c (hp.mem_iff.2 hc)
        · intro c hc
          rcases List.mem_append.1 hc with hc | hc
          · exact h.sent c hc
          · have : c = b := by simpa using hc
            subst this
            exact h.marked hpc _ hh
      · rw [← hh]
        exact inv_pc h _ _ _ (by simp) (by simp) (by simp)
  | done => exact h

theorem wake_at {pc p : Pc} (h : pc.wake = p) : pc = p ∨ p = .top := by
  cases pc <;> simp_all [Pc.wake]

theorem wake_awake (pc : Pc) : pc.wake ≠ .sleep := by
  cases pc <;> simp [Pc.wake]

theorem inv_taken {max : Nat} {s : Sender} (h : Inv max s) {b : Bundle} (hb : b ∈ s.duct) (down : Bool) (failed acked : List Bundle)
    (hfa : (s.failed ++ s.acked ++ [b]).Perm (failed ++ acked)) :
    Inv max { s with duct := s.duct.erase b, sending := s.sending.erase b.id, linkDown := down, failed := failed, acked := acked } := by
  have hp : s.numbered.Perm (failed ++ s.held.toList ++ s.duct.erase b ++ acked) := by
    rw [List.perm_iff_count] at hfa ⊢
    have he := List.perm_iff_count.1 (List.perm_cons_erase hb)
    intro c
    have h1 := hfa c
    have h2 := he c
    simp only [Sender.numbered, List.count_append, List.count_cons, List.count_nil] at h1 h2 ⊢
    omega
  have hnd : (s.duct.map (·.id)).Nodup := by
    have := h.ids
    unfold Sender.numbered at this
    rw [List.map_append, List.map_append] at this
    exact ((List.nodup_append.1 (List.nodup_append.1 this).1).2).1
  have hne : ∀ c ∈ s.duct.erase b, c.id ≠ b.id := by
    intro c hc e
    have hp := (List.perm_cons_erase hb).map (·.id)
    rw [hp.nodup_iff, List.map_cons, List.nodup_cons] at hnd
    exact hnd.1 (List.mem_map.2 ⟨c, hc, e⟩)
  refine ⟨?_, ?_, ?_, ?_, h.nodup.erase _, ?_, h.holds, ?_, h.awake⟩
  · exact h.all.trans (.append_right _ (.append_left _ (.map _ hp)))
  · exact (List.Perm.nodup_iff (.map _ hp)).1 h.ids
  · exact fun c hc => h.below c (hp.mem_iff.2 hc)
  · exact fun c hc => (List.mem_erase_of_ne (hne c hc)).2 (h.sent c (List.mem_of_mem_erase hc))
  · exact (List.length_erase_le).trans h.room
  · intro hpc c hc
    have hc : s.held = some c := hc
    refine (List.mem_erase_of_ne ?_).2 (h.marked hpc c hc)
    intro e
    have := h.ids
    unfold Sender.numbered at this
    rw [hc, List.map_append, List.map_append, List.map_append] at this
    have := (List.nodup_append.1 (List.nodup_append.1 this).1).2.2 c.id (by simp) b.id (List.mem_map_of_mem hb)
    exact this e

theorem inv_step {max : Nat} {s : Sender} (h : Inv max s) (e : Ev) : Inv max (s.step max e) := by
  cases e with
  | main timeout accepted => exact inv_main h timeout accepted
  | ask dest data =>
    unfold Sender.step
    dsimp only
    split_ifs
    · refine ⟨?_, h.ids, h.below, h.sent, h.nodup, h.room, h.holds, h.marked, h.awake⟩
      exact (h.all.append_right _).trans (by simp [Spec.Sender.all])
    · refine ⟨?_, h.ids, h.below, h.sent, h.nodup, h.room, fun hp => h.holds ?_, fun hp => h.marked ?_, fun hp => absurd hp (wake_awake _)⟩
      · refine (h.all.append_right _).trans ?_
        rw [List.perm_iff_count]
        intro c
        simp only [Spec.Sender.all, List.count_append]
        omega
      · rcases hp with hp | hp | hp <;> rcases wake_at hp with q | q <;> simp_all
      · rcases wake_at hp with q | q <;> simp_all
  | ok id =>
    unfold Sender.step
    dsimp only
    split
    · exact h
    · rename_i b hb
      have hid : b.id = id := by simpa using List.find?_some hb
      subst hid
      exact inv_taken h (List.mem_of_find?_eq_some hb) false s.failed (s.acked ++ [b]) (by simp)
  | fail id =>
    unfold Sender.step
    dsimp only
    split
    · exact h
    · rename_i b hb
      have hid : b.id = id := by simpa using List.find?_some hb
      subst hid
      refine inv_taken h (List.mem_of_find?_eq_some hb) true (s.failed ++ [b]) s.acked ?_
      rw [List.perm_iff_count]
      intro c
      simp only [List.count_append]
      omega
  | link down => exact inv_pc h _ _ _ h.holds id h.awake
  | wake =>
    refine inv_pc h _ _ _ (fun hp => h.holds ?_) (fun hp => ?_) fun hp => absurd hp (wake_awake _)
    · rcases hp with hp | hp | hp <;> rcases wake_at hp with q | q <;> simp_all
    · rcases wake_at hp with q | q <;> simp_all
  | stop =>
    refine inv_pc h _ _ _ (fun hp => h.holds ?_) (fun hp => ?_) fun hp => absurd hp (wake_awake _)
    · rcases hp with hp | hp | hp <;> rcases wake_at hp with q | q <;> simp_all
    · rcases wake_at hp with q | q <;> simp_all

theorem inv_run (max : Nat) (es : List Ev) : Inv max (Sender.start.run max es) := by
  unfold Sender.run
  have : ∀ s : Sender, Inv max s → Inv max (es.foldl (Sender.step max) s) := by
    induction es with
    | nil => exact fun s h => h
    | cons e es ih => exact fun s h => ih _ (inv_step h e)
  exact this _ (inv_start max)

/-- C134: whatever happens, every bundle that the sink was asked to send is in exactly one place, as it was: it waits, is with the outduct, has been sent,
or was refused. None comes twice. -/
theorem C134_kept_partial (max : Nat) (es : List Ev) : (Sender.start.run max es).asked.Perm (Spec.Sender.all (Sender.start.run max es)) :=
  (inv_run max es).all

/-- C134: the outduct has never more bundles at a time than it has room for, and no two with the same number. -/
theorem C134_pipeline (max : Nat) (es : List Ev) :
    (Sender.start.run max es).duct.length ≤ max ∧ ((Sender.start.run max es).duct.map (·.id)).Nodup := by
  have h := inv_run max es
  have hnd : ((Sender.start.run max es).duct.map (·.id)).Nodup := by
    have := h.ids
    unfold Sender.numbered at this
    rw [List.map_append, List.map_append] at this
    exact ((List.nodup_append.1 (List.nodup_append.1 this).1).2).1
  refine ⟨?_, hnd⟩
  have hs : (Sender.start.run max es).duct.map (·.id) ⊆ (Sender.start.run max es).sending := by
    intro i hi
    obtain ⟨b, hb, rfl⟩ := List.mem_map.1 hi
    exact h.sent b hb
  have := (List.subperm_of_subset hnd hs).length_le
  rw [List.length_map] at this
  exact this.trans h.room

/-- C134: the thread does not sleep while a new bundle waits. -/
theorem C134_awake (max : Nat) (es : List Ev) (h : (Sender.start.run max es).queue ≠ []) : (Sender.start.run max es).pc ≠ .sleep :=
  fun hp => h ((inv_run max es).awake hp).1

/-- C134: nothing is refused as long as no more than 2000 bundles wait. -/
theorem C134_refused_iff (max : Nat) (s : Sender) (dest : Eid) (data : Bytes) :
    (s.step max (.ask dest data)).dropped = s.dropped ↔ s.queue.length ≤ 2000 := by
  unfold Sender.step
  dsimp only
  by_cases h : s.queue.length > 2000
  · rw [if_pos h]
    simpa using h
  · rw [if_neg h]
    simp only [true_iff]
    omega

/-- C134: if the link is up, and there is room, the thread gives the first bundle that waits to the outduct, in four steps. -/
theorem C134_progress (max : Nat) (s : Sender) (hr : s.running = true) (hpc : s.pc = .top) (hup : s.linkDown = false) (hh : s.held = none)
    (hf : s.failed = []) (x : Eid × Bytes) (rest : List (Eid × Bytes)) (hq : s.queue = x :: rest) (hroom : s.sending.length < max) :
    let s' := s.run max [.main false true, .main false true, .main false true, .main false true]
    s'.duct = s.duct ++ [⟨s.next, x.1, x.2⟩] ∧ s'.queue = rest ∧ s'.held = none ∧ s'.pc = .top := by
  have h1 : s.main max false true = { s with held := some ⟨s.next, x.1, x.2⟩, queue := rest, next := s.next + 1, pc := .link } := by
    unfold Sender.main
    rw [hpc]
    simp [hr, hh, hf, hq]
  simp only [Sender.run, List.foldl_cons, List.foldl_nil, Sender.step, h1]
  simp [Sender.main, hup, hr, hroom.not_ge]

/-- The hypotheses of `C134_progress`. -/
example : ∃ s : Sender, s = Sender.start.run 5 [.ask ⟨2, 1⟩ [7]] ∧ s.running = true ∧ s.pc = .top ∧ s.linkDown = false ∧ s.held = none ∧ s.failed = [] ∧
    s.queue = [(⟨2, 1⟩, [7])] ∧ s.sending.length < 5 := ⟨_, rfl, by decide⟩

/-- A history in which one bundle has been sent, one has failed, one is with the outduct, and one waits. -/
example : let s := Sender.start.run 5 ([.ask ⟨2, 1⟩ [1], .ask ⟨2, 1⟩ [2], .ask ⟨2, 1⟩ [3], .ask ⟨2, 1⟩ [4]] ++ List.replicate 12 (.main false true) ++
      [.ok 0, .fail 1])
    s.acked.map (·.data) = [[1]] ∧ s.failed.map (·.data) = [[2]] ∧ s.duct.map (·.data) = [[3]] ∧ s.queue.map (·.2) = [[4]] := by decide

/-- Violated: what the sink is asked to send is sent or kept. With more than 2000 bundles that wait, a new one is dropped, and nothing is kept of it. -/
theorem C134_dropped_violated (max : Nat) (s : Sender) (h : s.queue.length > 2000) (dest : Eid) (data : Bytes) :
    s.step max (.ask dest data) = { s with asked := s.asked ++ [(dest, data)], dropped := s.dropped ++ [(dest, data)] } := by
  unfold Sender.step
  dsimp only
  rw [if_pos h]

theorem asks_queue (max : Nat) (x : Eid × Bytes) (n : Nat) : ∀ s : Sender, s.queue.length + n ≤ 2001 →
    (s.run max (List.replicate n (.ask x.1 x.2))).queue.length = s.queue.length + n := by
  induction n with
  | zero => exact fun s _ => rfl
  | succ n ih =>
    intro s hs
    have h1 : (s.step max (.ask x.1 x.2)).queue.length = s.queue.length + 1 := by
      unfold Sender.step
      dsimp only
      rw [if_neg (by omega)]
      simp
    have := ih (s.step max (.ask x.1 x.2)) (by omega)
    rw [List.replicate_succ]
    unfold Sender.run at this ⊢
    rw [List.foldl_cons, this, h1]
    omega

/-- That happens: the thread did not come to take any. -/
example : ∃ es, (Sender.start.run 5 es).queue.length > 2000 :=
  ⟨_, by rw [asks_queue 5 (⟨2, 1⟩, [7]) 2001 Sender.start (by decide)]; decide⟩

/-- An event that wakes the thread: a new bundle, or the end. -/
def Wakes : Ev → Prop
  | .ask _ _ | .wake | .stop => True
  | _ => False

/-- Violated: a bundle that the outduct could not send is tried again once the link is up. If the thread waits for new bundles when the outduct
reports the failure, it goes on waiting, whatever the outduct reports from then on; the bundle stays where it is until another one is to be sent. -/
theorem C134_asleep_violated (max : Nat) : ∃ (es : List Ev) (b : Bundle), b ∈ (Sender.start.run (max + 1) es).failed ∧
    ∀ more : List Ev, (∀ e ∈ more, ¬ Wakes e) →
      b ∈ ((Sender.start.run (max + 1) es).run (max + 1) more).failed ∧ ((Sender.start.run (max + 1) es).run (max + 1) more).duct = [] := by
  let es : List Ev := [.ask ⟨2, 1⟩ [7], .main false true, .main false true, .main false true, .main false true, .main false true, .fail 0]
  have hstart : Sender.start.run (max + 1) es = ⟨true, [], [⟨0, ⟨2, 1⟩, [7]⟩], none, 1, [], true, .sleep, [], [(⟨2, 1⟩, [7])], [], []⟩ := by
    simp [es, Sender.run, Sender.start, Sender.step, Sender.main, Source.insertId, Pc.wake]
  refine ⟨es, ⟨0, ⟨2, 1⟩, [7]⟩, by rw [hstart]; simp, ?_⟩
  have key : ∀ (more : List Ev) (s : Sender), (∀ e ∈ more, ¬ Wakes e) → s.pc = .sleep → (⟨0, ⟨2, 1⟩, [7]⟩ : Bundle) ∈ s.failed → s.duct = [] →
      (⟨0, ⟨2, 1⟩, [7]⟩ : Bundle) ∈ (s.run (max + 1) more).failed ∧ (s.run (max + 1) more).duct = [] := by
    intro more
    induction more with
    | nil => exact fun s _ _ h1 h2 => ⟨h1, h2⟩
    | cons e more ih =>
      intro s hw hpc h1 h2
      have hs : (s.step (max + 1) e).pc = .sleep ∧ (s.step (max + 1) e).failed = s.failed ∧ (s.step (max + 1) e).duct = [] := by
        have hwe := hw e (by simp)
        cases e with
        | main t a => simp [Sender.step, Sender.main, hpc, h2]
        | ask _ _ => exact absurd trivial hwe
        | ok id => simp [Sender.step, hpc, h2]
        | fail id => simp [Sender.step, hpc, h2]
        | link d => exact ⟨hpc, rfl, h2⟩
        | wake => exact absurd trivial hwe
        | stop => exact absurd trivial hwe
      exact ih _ (fun e he => hw e (by simp [he])) hs.1 (by rw [hs.2.1]; exact h1) hs.2.2
  intro more hmore
  exact key more _ hmore (by rw [hstart]) (by rw [hstart]; simp) (by rw [hstart])

/-- Violated: a bundle that the outduct does not take is tried again. With an outduct that takes one bundle at a time, the number of the bundle stays in the
set of those that are under way, which is now full: the thread waits for a bundle that is not there, without end. -/
theorem C134_stuck_violated : ∃ es : List Ev, (Sender.start.run 1 es).running = true ∧ (Sender.start.run 1 es).linkDown = false ∧
    ∀ more : List Ev, ((Sender.start.run 1 es).run 1 more).duct = [] ∧ ((Sender.start.run 1 es).run 1 more).acked = [] := by
  let es : List Ev := [.ask ⟨2, 1⟩ [7], .main false false, .main false false, .main false false, .main false false]
  refine ⟨es, by decide, by decide, ?_⟩
  have key : ∀ (more : List Ev) (s : Sender), s.pc ≠ .forward → s.sending = [0] → s.duct = [] → s.acked = [] →
      (s.run 1 more).duct = [] ∧ (s.run 1 more).acked = [] := by
    intro more
    induction more with
    | nil => exact fun s _ _ h1 h2 => ⟨h1, h2⟩
    | cons e more ih =>
      intro s hpc h0 h1 h2
      have hs : (s.step 1 e).pc ≠ .forward ∧ (s.step 1 e).sending = [0] ∧ (s.step 1 e).duct = [] ∧ (s.step 1 e).acked = [] := by
        have hw : s.pc.wake ≠ .forward := by
          cases hc : s.pc <;> simp_all [Pc.wake]
        cases e with
        | main t a =>
          unfold Sender.step Sender.main
          dsimp only
          cases hc : s.pc with
          | top =>
            dsimp only
            split_ifs
            · exact ⟨by simp, h0, h1, h2⟩
            · split <;> exact ⟨by simp, h0, h1, h2⟩
          | sleep => exact ⟨hpc, h0, h1, h2⟩
          | link =>
            dsimp only
            split_ifs <;> exact ⟨by simp, h0, h1, h2⟩
          | room =>
            dsimp only
            cases hrun : s.running
            · simp [h0, h1, h2]
            · simp only [h0, Bool.true_and]
              cases t <;> simp [h0, h1, h2, hc]
          | forward => exact absurd hc hpc
          | done => exact ⟨hpc, h0, h1, h2⟩
        | ask d x =>
          unfold Sender.step
          dsimp only
          split_ifs
          · exact ⟨hpc, h0, h1, h2⟩
          · exact ⟨hw, h0, h1, h2⟩
        | ok id => simp [Sender.step, hpc, h0, h1, h2]
        | fail id => simp [Sender.step, hpc, h0, h1, h2]
        | link d => exact ⟨hpc, h0, h1, h2⟩
        | wake => exact ⟨hw, h0, h1, h2⟩
        | stop => exact ⟨hw, h0, h1, h2⟩
      exact ih _ hs.1 hs.2.1 hs.2.2.1 hs.2.2.2
  exact fun more => key more _ (by decide) (by decide) (by decide) (by decide)

/-- Violated: a custody signal that was rendered is sent. When two threads receive bundles, both render their signals into one view, and one signal takes
the place of the other: the first is lost, and a bundle without any bytes is queued in its place. -/
theorem C134_shared_violated (s : Shared) (a b : Eid × Bytes) (hb : b.2 ≠ []) :
    (s.run [.rendered a, .rendered b, .moved, .moved]).queue = s.queue ++ [b, (b.1, [])] := by
  have : b.2.length ≠ 0 := by simpa using hb
  simp [Shared.run, Shared.step, this]

/-- With one thread, each signal is queued as it was rendered. -/
theorem C134_alone (s : Shared) (signals : List (Eid × Bytes)) (h : ∀ x ∈ signals, x.2 ≠ []) :
    (s.run (signals.flatMap fun x => [.rendered x, .moved])).queue = s.queue ++ signals := by
  induction signals generalizing s with
  | nil => simp [Shared.run]
  | cons x xs ih =>
    have hx : x.2.length ≠ 0 := by simpa using h x (by simp)
    have := ih (s.run [.rendered x, .moved]) (fun y hy => h y (by simp [hy]))
    simp only [Shared.run, List.flatMap_cons, List.foldl_append] at this ⊢
    rw [this]
    simp [Shared.step, hx]

end Hdtn.Sink
