import Verif.Source.Lemmas

namespace Hdtn.Source

open Spec

/-! ### The end of the thread -/

/-- Without failures at the wrong moment, the thread that says that everything was sent has no failed bundles. -/
theorem quiet_run {C : Cfg} {s : Src} {es : List Ev} (h : Inv C s) (q : Quiet C s es) (h1 : s.pc = .checked → s.failed = [])
    (h2 : s.saidAll = true → s.failed = []) :
    (run C s es).saidAll = true → (run C s es).failed = [] := by
  induction es generalizing s with
  | nil => exact h2
  | cons e es ih =>
    refine ih (inv_step h e) q.2 ?_ ?_
    · cases e with
      | main a =>
        unfold Src.step
        dsimp only
        unfold Src.main
        intro hpc
        split at hpc
        · by_cases hr : s.running = true
          · simp only [hr, Bool.not_true, Bool.false_eq_true, if_false] at hpc ⊢
            split at hpc
            · exact Pc.noConfusion hpc
            · rename_i hf; simp only [hf]
          · simp only [hr, Bool.not_false, if_true] at hpc
            exact Pc.noConfusion hpc
        · by_cases hw : s.waitingNew = true
          · simp only [hw, if_true] at hpc; exact Pc.noConfusion hpc
          · simp only [hw, Bool.false_eq_true, if_false] at hpc
            by_cases hg : s.generating = true
            · simp only [hg, if_true] at hpc
              split at hpc <;> exact Pc.noConfusion hpc
            · simp only [hg, Bool.false_eq_true, if_false] at hpc
              split at hpc <;> exact Pc.noConfusion hpc
        · exact Pc.noConfusion hpc
        · split at hpc <;> exact Pc.noConfusion hpc
        · rename_i hp
          split at hpc
          · exact Pc.noConfusion hpc
          · split at hpc
            · exact Pc.noConfusion hpc
            · rw [hp] at hpc; exact Pc.noConfusion hpc
        · split at hpc <;> exact Pc.noConfusion hpc
        · split at hpc <;> exact Pc.noConfusion hpc
        · rename_i hp
          split at hpc
          · rw [hp] at hpc; exact Pc.noConfusion hpc
          · exact Pc.noConfusion hpc
        · rename_i hp; rw [hp] at hpc; exact Pc.noConfusion hpc
      | ok id =>
        unfold Src.step
        dsimp only
        split
        · exact h1
        · exact h1
      | fail id =>
        intro hpc
        have hp : s.pc = .checked := by
          unfold Src.step at hpc
          dsimp only at hpc
          split at hpc
          · exact hpc
          · split at hpc <;> exact hpc
        exact absurd rfl (q.1 hp id)
      | failLate id =>
        unfold Src.step
        dsimp only
        split <;> exact h1
      | link d => exact h1
      | rx => exact h1
      | stop => exact h1
    · cases e with
      | main a =>
        unfold Src.step
        dsimp only
        unfold Src.main
        split
        · rename_i hpc
          by_cases hr : s.running = true
          · simp only [hr, Bool.not_true, Bool.false_eq_true, if_false]
            intro hs
            have hs' : s.saidAll = true := by
              split at hs <;> exact hs
            have := (h.said hs').2.2.1
            rw [hr] at this
            exact Bool.noConfusion this
          · simp only [hr, Bool.not_false, if_true]
            exact h2
        · rename_i hpc
          have hf := h1 hpc
          by_cases hw : s.waitingNew = true
          · simp only [hw, if_true]; exact h2
          · simp only [hw, Bool.false_eq_true, if_false]
            by_cases hg : s.generating = true
            · simp only [hg, if_true]
              split <;> exact h2
            · simp only [hg, Bool.false_eq_true, if_false]
              split
              · exact fun _ => hf
              · exact h2
        · exact h2
        · split <;> exact h2
        · split
          · exact h2
          · split <;> exact h2
        · split <;> exact h2
        · split <;> exact h2
        · split <;> exact h2
        · exact h2
      | ok id =>
        unfold Src.step
        dsimp only
        split
        · exact h2
        · exact h2
      | fail id =>
        unfold Src.step
        dsimp only
        split
        · exact h2
        · rename_i b hb
          intro hs
          have hs' : s.saidAll = true := by
            split at hs <;> exact hs
          have hd := (h.said hs').1
          have := (named_some hb).1
          rw [hd] at this
          exact (List.not_mem_nil this).elim
      | failLate id =>
        unfold Src.step
        dsimp only
        split <;> exact h2
      | link d => exact h2
      | rx => exact h2
      | stop => exact h2

theorem named_nil (id : Nat) : named id [] = none := rfl

/-- The thread has ended, or is about to, and the outduct has nothing. -/
structure Ended (s : Src) : Prop where
  stopped : s.running = false
  place : s.pc = .top ∨ s.pc = .done
  empty : s.duct = []

theorem ended_step {C : Cfg} {s : Src} (h : Ended s) (e : Ev) : Ended (s.step C e) ∧ (s.step C e).failed = s.failed := by
  cases e with
  | main a =>
    unfold Src.step
    dsimp only
    unfold Src.main
    rcases h.place with hp | hp
    · rw [hp]
      simp only [h.stopped, Bool.not_false, if_true]
      exact ⟨⟨rfl, Or.inr rfl, h.empty⟩, trivial⟩
    · rw [hp]
      exact ⟨h, rfl⟩
  | ok id => unfold Src.step; dsimp only; rw [h.empty, named_nil]; exact ⟨h, rfl⟩
  | fail id => unfold Src.step; dsimp only; rw [h.empty, named_nil]; exact ⟨h, rfl⟩
  | failLate id => unfold Src.step; dsimp only; split <;> exact ⟨⟨h.stopped, h.place, h.empty⟩, rfl⟩
  | link d => exact ⟨⟨h.stopped, h.place, h.empty⟩, rfl⟩
  | rx => exact ⟨⟨h.stopped, h.place, h.empty⟩, rfl⟩
  | stop => exact ⟨⟨rfl, h.place, h.empty⟩, rfl⟩

theorem ended_run {C : Cfg} {s : Src} (h : Ended s) (es : List Ev) : (run C s es).failed = s.failed := by
  induction es generalizing s with
  | nil => rfl
  | cons e es ih => exact (ih (ended_step h e).1).trans (ended_step h e).2

theorem run_append (C : Cfg) (s : Src) (es fs : List Ev) : run C s (es ++ fs) = run C (run C s es) fs := by
  induction es generalizing s with
  | nil => rfl
  | cons e es ih => exact ih _

/-! ### Bundles that vanish -/

theorem vanished_step {C : Cfg} {s : Src} {b : Bundle} (h : b ∈ s.vanished) (e : Ev) : b ∈ (s.step C e).vanished := by
  cases e with
  | main a =>
    unfold Src.step
    dsimp only
    unfold Src.main
    repeat' split
    all_goals exact h
  | ok id => unfold Src.step; dsimp only; split <;> exact h
  | fail id =>
    unfold Src.step
    dsimp only
    split
    · exact h
    · split
      · exact List.mem_append_left _ h
      · exact h
  | failLate id => unfold Src.step; dsimp only; split <;> exact h
  | link d => exact h
  | rx => exact h
  | stop => exact h

theorem vanished_run {C : Cfg} {s : Src} {b : Bundle} (h : b ∈ s.vanished) (es : List Ev) : b ∈ (run C s es).vanished := by
  induction es generalizing s with
  | nil => exact h
  | cons e es ih => exact ih (vanished_step h e)

/-! ### A refused bundle and a pipeline for one -/

structure Stuck (s : Src) (b : Bundle) : Prop where
  sending : s.sending = [b.id]
  duct : s.duct = []
  place : s.pc = .hand b ∨ s.pc = .room b ∨ s.pc = .retry b ∨ (s.running = false ∧ (s.pc = .top ∨ s.pc = .done))

theorem stuck_step {C : Cfg} (one : C.max = 1) {s : Src} {b : Bundle} (h : Stuck s b) (e : Ev) : Stuck (s.step C e) b := by
  cases e with
  | main a =>
    unfold Src.step
    dsimp only
    unfold Src.main
    rcases h.place with hp | hp | hp | ⟨hr, hp | hp⟩
    · rw [hp]
      dsimp only
      split
      · exact ⟨h.sending, h.duct, Or.inr (Or.inr (Or.inl rfl))⟩
      · exact ⟨h.sending, h.duct, Or.inr (Or.inl rfl)⟩
    · rw [hp]
      dsimp only
      rw [h.sending, one]
      simp only [List.length_singleton, Nat.lt_irrefl, if_false]
      split
      · exact ⟨rfl, h.duct, Or.inr (Or.inr (Or.inl rfl))⟩
      · exact h
    · rw [hp]
      dsimp only
      by_cases hr : s.running = true
      · simp only [hr, if_true]
        exact ⟨h.sending, h.duct, Or.inl rfl⟩
      · have hr' : s.running = false := by simpa using hr
        simp only [hr', Bool.false_eq_true, if_false]
        exact ⟨h.sending, h.duct, Or.inr (Or.inr (Or.inr ⟨rfl, Or.inl rfl⟩))⟩
    · rw [hp]
      simp only [hr, Bool.not_false, if_true]
      exact ⟨h.sending, h.duct, Or.inr (Or.inr (Or.inr ⟨rfl, Or.inr rfl⟩))⟩
    · rw [hp]; exact h
  | ok id => unfold Src.step; dsimp only; rw [h.duct, named_nil]; exact h
  | fail id => unfold Src.step; dsimp only; rw [h.duct, named_nil]; exact h
  | failLate id => unfold Src.step; dsimp only; split <;> exact ⟨h.sending, h.duct, h.place⟩
  | link d => exact ⟨h.sending, h.duct, h.place⟩
  | rx => exact ⟨h.sending, h.duct, h.place⟩
  | stop =>
    refine ⟨h.sending, h.duct, ?_⟩
    rcases h.place with hp | hp | hp | ⟨_, hp⟩
    · exact Or.inl hp
    · exact Or.inr (Or.inl hp)
    · exact Or.inr (Or.inr (Or.inl hp))
    · exact Or.inr (Or.inr (Or.inr ⟨rfl, hp⟩))

theorem stuck_run {C : Cfg} (one : C.max = 1) {s : Src} {b : Bundle} (h : Stuck s b) (es : List Ev) : Stuck (run C s es) b := by
  induction es generalizing s with
  | nil => exact h
  | cons e es ih => exact ih (stuck_step one h e)

/-! ### One bundle for one -/

/-- How many bundles were sent and how many received. -/
structure Turns (C : Cfg) (s : Src) : Prop where
  never : s.count ≤ s.received + 1
  free : (s.running = true ∨ s.pc ≠ .top) → s.pc ≠ .sent → s.pc ≠ .done → s.count ≤ s.received
  early : s.awaiting = false → (∃ b, s.pc = .room b ∨ s.pc = .forward b) → s.count + 1 ≤ s.received
  answered : s.pc = .sent → s.awaiting = false → s.count ≤ s.received

theorem turns_step {C : Cfg} (req : C.requireRx = true) {s : Src} (h : Turns C s) (e : Ev) : Turns C (s.step C e) := by
  have hn := h.never
  have hf := h.free
  have he := h.early
  have ha := h.answered
  cases e with
  | main a =>
    unfold Src.step
    dsimp only
    unfold Src.main
    split
    · rename_i hpc
      rw [hpc] at hf ha
      by_cases hr : s.running = true
      · have := hf (Or.inl hr) (by simp) (by simp)
        simp only [hr, Bool.not_true, Bool.false_eq_true, if_false]
        split <;> exact ⟨by simpa using hn, fun _ _ _ => by simpa using this, by rintro - ⟨b, hb | hb⟩ <;> simp at hb, by simp⟩
      · have hr' : s.running = false := by simpa using hr
        simp only [hr', Bool.not_false, if_true]
        exact ⟨by simpa using hn, by simp, by rintro - ⟨b, hb | hb⟩ <;> simp at hb, by simp⟩
    · rename_i hpc
      rw [hpc] at hf
      have this := hf (Or.inr (by simp)) (by simp) (by simp)
      have simple : ∀ t : Src, t.count = s.count → t.received = s.received → t.pc ≠ .sent → (∀ b, t.pc ≠ .room b ∧ t.pc ≠ .forward b) → Turns C t := by
        intro t h1 h2 h3 h4
        refine ⟨by omega, fun _ _ _ => by omega, ?_, fun q => (h3 q).elim⟩
        rintro - ⟨b, hb | hb⟩
        · exact ((h4 b).1 hb).elim
        · exact ((h4 b).2 hb).elim
      by_cases hw : s.waitingNew = true
      · simp only [hw, if_true]; exact simple _ rfl rfl (by simp) (by simp)
      · simp only [hw, Bool.false_eq_true, if_false]
        by_cases hg : s.generating = true
        · simp only [hg, if_true]
          split <;> exact simple _ rfl rfl (by simp) (by simp)
        · simp only [hg, Bool.false_eq_true, if_false]
          split <;> exact simple _ rfl rfl (by simp) (by simp)
    · rename_i hpc
      rw [hpc] at hf
      have this := hf (Or.inr (by simp)) (by simp) (by simp)
      exact ⟨hn, fun _ _ _ => this, by rintro - ⟨b, hb | hb⟩ <;> simp at hb, by simp⟩
    · rename_i b hpc
      rw [hpc] at hf
      have this := hf (Or.inr (by simp)) (by simp) (by simp)
      split
      · exact ⟨hn, fun _ _ _ => this, by rintro - ⟨b, hb | hb⟩ <;> simp at hb, by simp⟩
      · exact ⟨hn, fun _ _ _ => this, by simp [req], by simp⟩
    · rename_i b hpc
      rw [hpc] at hf he
      have this := hf (Or.inr (by simp)) (by simp) (by simp)
      split
      · exact ⟨hn, fun _ _ _ => this, fun q _ => he q ⟨b, Or.inl rfl⟩, by simp⟩
      · split
        · exact ⟨hn, fun _ _ _ => this, by rintro - ⟨b, hb | hb⟩ <;> simp at hb, by simp⟩
        · exact h
    · rename_i b hpc
      rw [hpc] at hf he
      have this := hf (Or.inr (by simp)) (by simp) (by simp)
      split
      · refine ⟨?_, by simp, by rintro - ⟨b, hb | hb⟩ <;> simp at hb, fun _ q => ?_⟩
        · show s.count + 1 ≤ s.received + 1; omega
        · exact he q ⟨b, Or.inr rfl⟩
      · exact ⟨hn, fun _ _ _ => this, by rintro - ⟨b, hb | hb⟩ <;> simp at hb, by simp⟩
    · rename_i b hpc
      rw [hpc] at hf
      have this := hf (Or.inr (by simp)) (by simp) (by simp)
      split <;> exact ⟨hn, fun _ _ _ => this, by rintro - ⟨b, hb | hb⟩ <;> simp at hb, by simp⟩
    · rename_i hpc
      split
      · exact h
      · rename_i hc
        refine ⟨hn, ?_, by rintro - ⟨b, hb | hb⟩ <;> simp at hb, by simp⟩
        intro q _ _
        have hr : s.running = true := by rcases q with q | q; exact q; exact (q rfl).elim
        have hw : s.awaiting = false := by
          by_contra hw
          exact hc ⟨req, hr, by simpa using hw⟩
        exact ha hpc hw
    · exact h
  | ok id => unfold Src.step; dsimp only; split <;> exact ⟨hn, hf, he, ha⟩
  | fail id =>
    unfold Src.step; dsimp only
    split
    · exact h
    · split <;> exact ⟨hn, hf, he, ha⟩
  | failLate id => unfold Src.step; dsimp only; split <;> exact ⟨hn, hf, he, ha⟩
  | link d => exact ⟨hn, hf, he, ha⟩
  | rx =>
    unfold Src.step
    refine ⟨by show s.count ≤ s.received + 1 + 1; omega, fun a b c => Nat.le_succ_of_le (hf a b c), ?_, ?_⟩
    · rintro - ⟨b, hb⟩
      show s.count + 1 ≤ s.received + 1
      have hp : s.pc ≠ .top ∧ s.pc ≠ .sent ∧ s.pc ≠ .done := by
        rcases hb with hb | hb <;> (have hb' : s.pc = _ := hb; rw [hb']; simp)
      have := hf (Or.inr hp.1) hp.2.1 hp.2.2
      omega
    · intro _ _
      show s.count ≤ s.received + 1
      exact hn
  | stop =>
    unfold Src.step
    refine ⟨hn, ?_, he, ha⟩
    intro q hs hd
    rcases q with q | q
    · exact Bool.noConfusion q
    · exact hf (Or.inr q) hs hd

theorem turns_run {C : Cfg} (req : C.requireRx = true) {s : Src} (h : Turns C s) (es : List Ev) : Turns C (run C s es) := by
  induction es generalizing s with
  | nil => exact h
  | cons e es ih => exact ih (turns_step req h e)

/-- The thread waits for an answer, and a bundle has failed. -/
structure Hung (s : Src) (b : Bundle) : Prop where
  place : s.pc = .sent
  running : s.running = true
  awaiting : s.awaiting = true
  failed : b ∈ s.failed

theorem hung_step {C : Cfg} (req : C.requireRx = true) {s : Src} {b : Bundle} (h : Hung s b) (e : Ev) (n1 : e ≠ .rx) (n2 : e ≠ .stop) :
    Hung (s.step C e) b := by
  cases e with
  | main a =>
    unfold Src.step
    dsimp only
    unfold Src.main
    rw [h.place]
    dsimp only
    rw [if_pos ⟨req, h.running, h.awaiting⟩]
    exact h
  | ok id => unfold Src.step; dsimp only; split <;> exact ⟨h.place, h.running, h.awaiting, h.failed⟩
  | fail id =>
    unfold Src.step; dsimp only
    split
    · exact h
    · split
      · exact ⟨h.place, h.running, h.awaiting, h.failed⟩
      · exact ⟨h.place, h.running, h.awaiting, List.mem_append_left _ h.failed⟩
  | failLate id => unfold Src.step; dsimp only; split <;> exact ⟨h.place, h.running, h.awaiting, h.failed⟩
  | link d => exact ⟨h.place, h.running, h.awaiting, h.failed⟩
  | rx => exact (n1 rfl).elim
  | stop => exact (n2 rfl).elim

theorem hung_run {C : Cfg} (req : C.requireRx = true) {s : Src} {b : Bundle} (h : Hung s b) (es : List Ev)
    (n1 : Ev.rx ∉ es) (n2 : Ev.stop ∉ es) : Hung (run C s es) b := by
  induction es generalizing s with
  | nil => exact h
  | cons e es ih =>
    exact ih (hung_step req h e (by rintro rfl; simp at n1) (by rintro rfl; simp at n2)) (fun q => n1 (by simp [q])) (fun q => n2 (by simp [q]))

/-! ### Custody -/

/-- How many bundles were sent. -/
def sends : List Op → Nat
  | [] => 0
  | .send _ :: ops => sends ops + 1
  | .bundle _ :: ops => sends ops

theorem receive6_plain (s : Acct) (v : BundleView6.View) (h : ¬ IsAggregate v) :
    (s.receive6 v).1 = s ∨ ∃ id ∈ s.uuids, SignalFor s.custodian id v ∧
      (s.receive6 v).1 = { s with uuids := s.uuids.erase id, signals := s.signals + 1 } := by
  unfold Acct.receive6
  split
  · exact Or.inl rfl
  rename_i hfrag
  split
  · left
    split
    · rfl
    · split <;> rfl
  rename_i hadm
  split
  · exact Or.inl rfl
  rename_i hdest
  split
  · rename_i b hb
    split
    · rename_i t f status fills hbody
      exact (h ⟨b, by rw [hb]; simp, t, f, status, fills, hbody⟩).elim
    · rename_i t f c hbody
      split
      · exact Or.inl rfl
      rename_i hok
      split
      · exact Or.inl rfl
      rename_i hcf
      split
      · rename_i n e huri
        dsimp only
        split
        · rename_i hmem
          refine Or.inr ⟨_, hmem, ⟨by simpa using hdest, by simpa using hadm, by simpa using hfrag, b, t, f, c, hb, hbody, by simpa using hok,
            by simpa using hcf, huri, rfl, rfl⟩, rfl⟩
        · exact Or.inl rfl
      · exact Or.inl rfl
    · exact Or.inl rfl
  · exact Or.inl rfl

theorem acct_run (s s' : Acct) (ops : List Op) (hc : s.cteb = false) (plain : ∀ v, Op.bundle v ∈ ops → ¬ IsAggregate v)
    (h : s.run ops = some s') :
    s'.acs = s.acs ∧ s'.count = s.count + sends ops ∧ s'.uuids.length + s'.signals = s.uuids.length + s.signals + sends ops ∧
    ∀ id, id ∈ s.uuids ∨ Op.send id ∈ ops → id ∈ s'.uuids ∨ ∃ v, Op.bundle v ∈ ops ∧ SignalFor s.custodian id v := by
  induction ops generalizing s with
  | nil =>
    simp [Acct.run] at h
    subst h
    simp [sends]
  | cons op ops ih =>
    cases op with
    | send id =>
      simp only [Acct.run, Acct.send, hc, Bool.false_eq_true, if_false] at h
      split at h
      · simp at h
      · rename_i hni
        simp only [Option.bind_eq_bind, Option.bind_some] at h
        obtain ⟨h1, h2, h3, h4⟩ := ih { s with uuids := id :: s.uuids, count := s.count + 1, cteb := false } rfl (fun v hv => plain v (by simp [hv])) h
        simp only [List.length_cons] at h3
        refine ⟨h1, by rw [h2]; simp only [sends]; omega, by rw [h3]; simp only [sends]; omega, ?_⟩
        intro i hi
        have : i ∈ id :: s.uuids ∨ Op.send i ∈ ops := by
          rcases hi with hi | hi
          · exact Or.inl (by simp [hi])
          · rcases List.mem_cons.mp hi with hi | hi
            · injection hi with hi; exact Or.inl (by simp [hi])
            · exact Or.inr hi
        rcases h4 i this with h5 | ⟨v, hv, hs⟩
        · exact Or.inl h5
        · exact Or.inr ⟨v, by simp [hv], hs⟩
    | bundle v =>
      simp only [Acct.run] at h
      rcases receive6_plain s v (plain v (by simp)) with e | ⟨id, hmem, hsig, e⟩
      · rw [e] at h
        obtain ⟨h1, h2, h3, h4⟩ := ih s hc (fun w hw => plain w (by simp [hw])) h
        refine ⟨h1, h2, h3, ?_⟩
        intro i hi
        have : i ∈ s.uuids ∨ Op.send i ∈ ops := by
          rcases hi with hi | hi
          · exact Or.inl hi
          · exact Or.inr (by simpa using hi)
        rcases h4 i this with h5 | ⟨w, hw, hs⟩
        · exact Or.inl h5
        · exact Or.inr ⟨w, by simp [hw], hs⟩
      · rw [e] at h
        obtain ⟨h1, h2, h3, h4⟩ := ih { s with uuids := s.uuids.erase id, signals := s.signals + 1 } hc (fun w hw => plain w (by simp [hw])) h
        have hl : (s.uuids.erase id).length + 1 = s.uuids.length := by
          rw [List.length_erase_of_mem hmem]
          have := List.length_pos_of_mem hmem
          omega
        simp only at h3
        refine ⟨h1, h2, by rw [h3]; simp only [sends]; omega, ?_⟩
        intro i hi
        by_cases q : i = id
        · subst q
          exact Or.inr ⟨v, by simp, hsig⟩
        · have : i ∈ s.uuids.erase id ∨ Op.send i ∈ ops := by
            rcases hi with hi | hi
            · exact Or.inl ((List.mem_erase_of_ne q).mpr hi)
            · exact Or.inr (by simpa using hi)
          rcases h4 i this with h5 | ⟨w, hw, hs⟩
          · exact Or.inl h5
          · exact Or.inr ⟨w, by simp [hw], hs⟩

end Hdtn.Source
