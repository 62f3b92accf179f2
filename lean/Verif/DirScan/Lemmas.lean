import Verif.DirScan.Spec
import Mathlib.Tactic.SplitIfs
import Mathlib.Data.List.Nodup
import Mathlib.Data.List.Perm.Basic

namespace Hdtn.DirScan

open Hdtn.DirScan.Spec

/-! ### The map -/

theorem find_put_self (m : List (Nat × Nat × Nat)) (p n k : Nat) : find (put m p n k) p = some (n, k) := by simp [find, put]

theorem find_put_other (m : List (Nat × Nat × Nat)) (p q n k : Nat) (h : q ≠ p) : find (put m p n k) q = find m q := by
  unfold find put
  rw [List.find?_cons_of_neg (by simpa using fun x => h x.symm), List.find?_filter]
  congr 2
  funext x
  by_cases hx : x.1 = q
  · simp [hx, h]
  · simp [hx]

theorem find_erase_self (m : List (Nat × Nat × Nat)) (p : Nat) : find (m.filter fun x => !(x.1 == p)) p = none := by
  unfold find
  rw [List.find?_filter]
  simp

theorem find_erase_other (m : List (Nat × Nat × Nat)) (p q : Nat) (h : q ≠ p) : find (m.filter fun x => !(x.1 == p)) q = find m q := by
  unfold find
  rw [List.find?_filter]
  congr 2
  funext x
  by_cases hx : x.1 = q
  · simp [hx, h]
  · simp [hx]

/-! ### What is found -/

/-- What always holds of the files. -/
structure Inv (s : Scan) : Prop where
  perm : (s.sent ++ s.lost ++ s.current.toList ++ s.list).Perm s.found
  order : (s.sent ++ s.current.toList ++ s.list).Sublist s.found
  nodup : s.found.Nodup
  sub : ∀ p ∈ s.found, p ∈ s.added
  wait : s.waiting = true → s.current = none

/-- Steps that change no file. -/
theorem inv_same (s t : Scan) (h : Inv s) (h1 : t.sent = s.sent) (h2 : t.lost = s.lost) (h3 : t.current = s.current) (h4 : t.list = s.list) (h5 : t.found = s.found)
    (h6 : t.added = s.added) (h7 : t.waiting = s.waiting) : Inv t :=
  ⟨by rw [h1, h2, h3, h4, h5]; exact h.perm, by rw [h1, h3, h4, h5]; exact h.order, by rw [h5]; exact h.nodup, by rw [h5, h6]; exact h.sub, by rw [h7, h3]; exact h.wait⟩

theorem inv_changed (s : Scan) (p : Nat) (n : Option Nat) (h : Inv s) : Inv (s.changed p n) := by
  unfold Scan.changed
  split_ifs
  · exact h
  · cases n <;> exact inv_same s _ h rfl rfl rfl rfl rfl rfl rfl

theorem inv_timer (s : Scan) (n : Option Nat) (o : Bool) (h : Inv s) : Inv (s.timer n o) := by
  unfold Scan.timer
  cases hq : s.queue with
  | nil => exact h
  | cons p queue =>
    simp only
    cases hf : find s.pending p with
    | none => exact inv_same s _ h rfl rfl rfl rfl rfl rfl rfl
    | some x =>
      obtain ⟨size, count⟩ := x
      simp only
      by_cases hc : count - 1 ≠ 0
      · rw [if_pos hc]; exact inv_same s _ h rfl rfl rfl rfl rfl rfl rfl
      · rw [if_neg hc]
        cases n with
        | none => exact inv_same s _ h rfl rfl rfl rfl rfl rfl rfl
        | some n =>
          simp only
          by_cases he : size = n ∧ o = true
          · rw [if_pos he]
            by_cases ha : s.added.contains p = true
            · rw [if_pos ha]; exact inv_same s _ h rfl rfl rfl rfl rfl rfl rfl
            · rw [if_neg ha]
              have ha' : p ∉ s.added := fun x => ha (by simpa using x)
              refine ⟨?_, ?_, ?_, ?_, h.wait⟩
              · show (s.sent ++ s.lost ++ s.current.toList ++ (s.list ++ [p])).Perm (s.found ++ [p])
                rw [← List.append_assoc]
                exact h.perm.append_right [p]
              · show (s.sent ++ s.current.toList ++ (s.list ++ [p])).Sublist (s.found ++ [p])
                rw [← List.append_assoc]
                exact h.order.append (List.Sublist.refl _)
              · show (s.found ++ [p]).Nodup
                rw [List.nodup_append]
                refine ⟨h.nodup, by simp, ?_⟩
                intro a hx b hb hab
                rw [List.mem_singleton] at hb
                subst hb; subst hab
                exact ha' (h.sub _ hx)
              · intro q hq'
                rcases List.mem_append.mp hq' with hx | hx
                · exact List.mem_cons_of_mem _ (h.sub q hx)
                · rw [List.mem_singleton] at hx; rw [hx]; exact List.mem_cons_self
          · rw [if_neg he]; exact inv_same s _ h rfl rfl rfl rfl rfl rfl rfl

theorem inv_getNext (s : Scan) (h : Inv s) (hw : s.waiting = false) : Inv s.getNext := by
  unfold Scan.getNext
  split
  · exact h
  · rename_i p l hl
    have hp := h.perm
    have ho := h.order
    rw [hl] at hp ho
    refine ⟨?_, ?_, h.nodup, h.sub, (fun x => by rw [hw] at x; cases x)⟩
    · show (s.sent ++ (s.lost ++ s.current.toList) ++ [p] ++ l).Perm s.found
      simpa using hp
    · show (s.sent ++ [p] ++ l).Sublist s.found
      refine List.Sublist.trans ?_ ho
      simp only [List.append_assoc]
      exact (List.Sublist.refl _).append (by simpa using List.sublist_append_right s.current.toList (p :: l))

theorem getNext_waiting (s : Scan) : s.getNext.waiting = s.waiting := by
  unfold Scan.getNext; split <;> rfl

theorem inv_step (s : Scan) (e : Ev) (h : Inv s) : Inv (s.step e) := by
  unfold Scan.step
  by_cases hcr : s.crashed = true
  · rw [if_pos hcr]; exact h
  rw [if_neg hcr]
  cases e with
  | changed p n => exact inv_changed s p n h
  | timer n o => exact inv_timer s n o h
  | next =>
    simp only [Scan.next]
    by_cases hw : s.waiting = true
    · rw [if_pos hw]; exact h
    · rw [if_neg hw]
      split_ifs
      · exact h
      · exact inv_getNext s h (by simpa using hw)
  | finish =>
    simp only [Scan.finish]
    by_cases hw : s.waiting = true
    · rw [if_pos hw]; exact h
    · rw [if_neg hw]
      refine ⟨?_, ?_, h.nodup, h.sub, fun _ => rfl⟩
      · show (s.sent ++ s.current.toList ++ s.lost ++ [] ++ s.list).Perm s.found
        refine List.Perm.trans ?_ h.perm
        rw [List.append_nil]
        refine List.Perm.append_right _ ?_
        rw [List.append_assoc, List.append_assoc]
        exact List.Perm.append_left _ List.perm_append_comm
      · show (s.sent ++ s.current.toList ++ [] ++ s.list).Sublist s.found
        rw [List.append_nil]; exact h.order
  | tryWait =>
    simp only [Scan.tryWait]
    by_cases hw : s.waiting = true
    · rw [if_pos hw]; exact h
    · rw [if_neg hw]
      have hw' : s.waiting = false := by simpa using hw
      by_cases hc : s.current.isSome = true
      · rw [if_pos hc]; exact h
      · rw [if_neg hc]
        split
        · exact ⟨h.perm, h.order, h.nodup, h.sub, fun _ => by simpa using hc⟩
        · exact inv_getNext _ (inv_getNext s h hw') (by rw [getNext_waiting]; exact hw')
  | wake =>
    simp only [Scan.wake]
    split_ifs with hw
    · exact inv_getNext _ ⟨h.perm, h.order, h.nodup, h.sub, (fun x => by cases x)⟩ rfl
    · exact h

theorem inv_init (existing : List Nat) (hn : existing.Nodup) (inc : Bool) : Inv (Scan.init existing inc) := by
  unfold Scan.init
  cases inc
  · exact ⟨by simp, by simp, by simp, by simp, (fun x => by cases x)⟩
  · exact ⟨by simp, by simp, by simpa using hn, by simp, (fun x => by cases x)⟩

theorem inv_run (evs : List Ev) : ∀ s : Scan, Inv s → Inv (s.run evs) := by
  induction evs with
  | nil => intro s h; exact h
  | cons e evs ih => intro s h; exact ih _ (inv_step s e h)

/-! ### Nothing is lost -/

theorem getNext_lost (s : Scan) (h : s.current = none) : s.getNext.lost = s.lost := by
  unfold Scan.getNext; split <;> simp [h]

theorem lost_changed (s : Scan) (p : Nat) (n : Option Nat) : (s.changed p n).lost = s.lost := by
  unfold Scan.changed
  split_ifs
  · rfl
  · cases n <;> rfl

theorem lost_timer (s : Scan) (n : Option Nat) (o : Bool) : (s.timer n o).lost = s.lost := by
  unfold Scan.timer
  split
  · rfl
  · simp only
    split
    · rfl
    · cases n with
      | none => simp only; split <;> rfl
      | some n => simp only; split_ifs <;> rfl

theorem lost_step (s : Scan) (e : Ev) (h : Inv s) (hc : e = .tryWait → s.list.length ≤ 1) : (s.step e).lost = s.lost := by
  unfold Scan.step
  by_cases hcr : s.crashed = true
  · rw [if_pos hcr]
  rw [if_neg hcr]
  cases e with
  | changed p n => exact lost_changed s p n
  | timer n o => exact lost_timer s n o
  | next =>
    simp only [Scan.next]
    split_ifs with _ h2
    · rfl
    · rfl
    · exact getNext_lost s (by simpa using h2)
  | finish => simp only [Scan.finish]; split_ifs <;> rfl
  | tryWait =>
    simp only [Scan.tryWait]
    split_ifs with _ h2
    · rfl
    · rfl
    · have h3 : s.current = none := by simpa using h2
      have hl := hc rfl
      cases hx : s.list with
      | nil => rfl
      | cons p l =>
        rw [hx, List.length_cons] at hl
        have : l = [] := List.length_eq_zero_iff.mp (by omega)
        subst this
        simp [Scan.getNext, hx, h3]
  | wake =>
    simp only [Scan.wake]
    split_ifs with hw
    · exact getNext_lost _ (h.wait hw)
    · rfl

theorem lost_run (evs : List Ev) : ∀ s : Scan, Inv s → Calm s evs → (s.run evs).lost = s.lost := by
  induction evs with
  | nil => intro s _ _; rfl
  | cons e evs ih =>
    intro s h hc
    show ((s.step e).run evs).lost = s.lost
    rw [ih (s.step e) (inv_step s e h) ?_, lost_step s e h ?_]
    · intro he
      exact hc [] evs (by rw [he]; rfl)
    · intro a b hab
      exact hc (e :: a) b (by rw [hab]; rfl)

theorem getNext_lost_mono (s : Scan) (p : Nat) (hp : p ∈ s.lost) : p ∈ s.getNext.lost := by
  unfold Scan.getNext
  split
  · exact hp
  · exact List.mem_append_left _ hp

theorem lost_mono (s : Scan) (e : Ev) (p : Nat) (hp : p ∈ s.lost) : p ∈ (s.step e).lost := by
  unfold Scan.step
  by_cases hcr : s.crashed = true
  · rw [if_pos hcr]; exact hp
  rw [if_neg hcr]
  cases e with
  | changed q n => simp only; rw [lost_changed]; exact hp
  | timer n o => simp only; rw [lost_timer]; exact hp
  | next =>
    simp only [Scan.next]
    split_ifs
    · exact hp
    · exact hp
    · exact getNext_lost_mono s p hp
  | finish => simp only [Scan.finish]; split_ifs <;> exact hp
  | tryWait =>
    simp only [Scan.tryWait]
    split_ifs
    · exact hp
    · exact hp
    · split
      · exact hp
      · exact getNext_lost_mono _ p (getNext_lost_mono s p hp)
  | wake =>
    simp only [Scan.wake]
    split_ifs
    · exact getNext_lost_mono _ p hp
    · exact hp

theorem lost_mono_run (evs : List Ev) (p : Nat) : ∀ s : Scan, p ∈ s.lost → p ∈ (s.run evs).lost := by
  induction evs with
  | nil => intro s h; exact h
  | cons e evs ih => intro s h; exact ih _ (lost_mono s e p h)

/-! ### The queue of the timer -/

/-- The counts are those of the queue. -/
structure Cnt (s : Scan) : Prop where
  count : ∀ p, s.queue.count p = ((find s.pending p).map Prod.snd).getD 0
  pos : ∀ p x, find s.pending p = some x → 0 < x.2
  fresh : ∀ p x, find s.pending p = some x → p ∉ s.added

theorem cnt_same (s t : Scan) (h : Cnt s) (h1 : t.queue = s.queue) (h2 : t.pending = s.pending) (h3 : t.added = s.added) : Cnt t :=
  ⟨by rw [h1, h2]; exact h.count, by rw [h2]; exact h.pos, by rw [h2, h3]; exact h.fresh⟩

theorem cnt_changed (s : Scan) (p : Nat) (n : Option Nat) (h : Cnt s) : Cnt (s.changed p n) := by
  unfold Scan.changed
  split_ifs with ha
  · exact h
  · cases n with
    | none => exact cnt_same s _ h rfl rfl rfl
    | some n =>
      simp only
      refine ⟨?_, ?_, ?_⟩
      · intro q
        show (s.queue ++ [p]).count q = _
        rw [List.count_append]
        have hc := h.count q
        by_cases hq : q = p
        · subst hq
          rw [find_put_self, hc]
          cases find s.pending q <;> simp
        · rw [find_put_other _ _ _ _ _ hq, hc]
          simp [List.count_singleton, Ne.symm hq]
      · intro q x hx
        by_cases hq : q = p
        · subst hq
          rw [find_put_self] at hx
          have := Option.some.inj hx
          subst this
          show 0 < _
          cases find s.pending q <;> simp
        · rw [find_put_other _ _ _ _ _ hq] at hx
          exact h.pos q x hx
      · intro q x hx
        by_cases hq : q = p
        · subst hq
          exact fun y => ha (by simpa using y)
        · rw [find_put_other _ _ _ _ _ hq] at hx
          exact h.fresh q x hx

theorem cnt_timer (s : Scan) (n : Option Nat) (o : Bool) (h : Cnt s) (hcr : (s.timer n o).crashed = false) : Cnt (s.timer n o) := by
  revert hcr
  unfold Scan.timer
  cases hq : s.queue with
  | nil => exact fun _ => h
  | cons p queue =>
    simp only
    have hcount : ∀ q, (p :: queue).count q = ((find s.pending q).map Prod.snd).getD 0 := by rw [← hq]; exact h.count
    have hother : ∀ q, q ≠ p → queue.count q = ((find s.pending q).map Prod.snd).getD 0 := by
      intro q hqp
      rw [← hcount q, List.count_cons_of_ne (Ne.symm hqp)]
    cases hf : find s.pending p with
    | none =>
      have := hcount p
      rw [hf, List.count_cons_self] at this
      simp at this
    | some x =>
      obtain ⟨size, count⟩ := x
      have hself : queue.count p + 1 = count := by
        have := hcount p
        rw [hf, List.count_cons_self] at this
        exact this
      simp only
      have hput : ∀ k, k ≠ 0 → ∀ queue', queue'.count p = k → (∀ q, q ≠ p → queue'.count q = queue.count q) →
          Cnt { s with pending := put s.pending p size k, queue := queue' } := by
        intro k hk queue' h1 h2
        refine ⟨?_, ?_, ?_⟩
        · intro q
          show queue'.count q = ((find (put s.pending p size k) q).map Prod.snd).getD 0
          by_cases hqp : q = p
          · subst hqp; rw [find_put_self, h1]; rfl
          · rw [find_put_other _ _ _ _ _ hqp, h2 q hqp, hother q hqp]
        · intro q x hx
          by_cases hqp : q = p
          · subst hqp
            rw [find_put_self] at hx
            have := Option.some.inj hx
            subst this
            exact Nat.pos_of_ne_zero hk
          · rw [find_put_other _ _ _ _ _ hqp] at hx
            exact h.pos q x hx
        · intro q x hx
          by_cases hqp : q = p
          · subst hqp
            exact h.fresh q _ hf
          · rw [find_put_other _ _ _ _ _ hqp] at hx
            exact h.fresh q x hx
      by_cases hc : count - 1 ≠ 0
      · rw [if_pos hc]
        intro _
        exact hput (count - 1) hc queue (by omega) (fun _ _ => rfl)
      · rw [if_neg hc]
        have hz : queue.count p = 0 := by omega
        cases n with
        | none => intro hcr; cases hcr
        | some n =>
          simp only
          by_cases he : size = n ∧ o = true
          · rw [if_pos he, if_neg (fun y => h.fresh p _ hf (by simpa using y))]
            intro _
            refine ⟨?_, ?_, ?_⟩
            · intro q
              show queue.count q = ((find (s.pending.filter fun x => !(x.1 == p)) q).map Prod.snd).getD 0
              by_cases hqp : q = p
              · subst hqp; rw [find_erase_self, hz]; rfl
              · rw [find_erase_other _ _ _ hqp, hother q hqp]
            · intro q x hx
              by_cases hqp : q = p
              · subst hqp; rw [find_erase_self] at hx; cases hx
              · rw [find_erase_other _ _ _ hqp] at hx
                exact h.pos q x hx
            · intro q x hx
              by_cases hqp : q = p
              · subst hqp; rw [find_erase_self] at hx; cases hx
              · rw [find_erase_other _ _ _ hqp] at hx
                show q ∉ p :: s.added
                rw [List.mem_cons]
                rintro (y | y)
                · exact hqp y
                · exact h.fresh q x hx y
          · rw [if_neg he]
            intro _
            refine hput 1 (by omega) (queue ++ [p]) (by rw [List.count_append, hz]; simp) ?_
            intro q hqp
            rw [List.count_append]
            simp [List.count_singleton, Ne.symm hqp]

theorem getNext_q (s : Scan) : s.getNext.queue = s.queue ∧ s.getNext.pending = s.pending ∧ s.getNext.added = s.added ∧ s.getNext.crashed = s.crashed ∧
    s.getNext.found = s.found := by
  unfold Scan.getNext; split <;> exact ⟨rfl, rfl, rfl, rfl, rfl⟩

/-- What the sender does changes nothing in the search. -/
theorem step_q (s : Scan) (e : Ev) (he : e = .next ∨ e = .finish ∨ e = .tryWait ∨ e = .wake) :
    (s.step e).queue = s.queue ∧ (s.step e).pending = s.pending ∧ (s.step e).added = s.added ∧ (s.step e).crashed = s.crashed ∧ (s.step e).found = s.found := by
  unfold Scan.step
  by_cases hcr : s.crashed = true
  · rw [if_pos hcr]; exact ⟨rfl, rfl, rfl, rfl, rfl⟩
  rw [if_neg hcr]
  rcases he with rfl | rfl | rfl | rfl
  · simp only [Scan.next]
    split_ifs
    · exact ⟨rfl, rfl, rfl, rfl, rfl⟩
    · exact ⟨rfl, rfl, rfl, rfl, rfl⟩
    · exact getNext_q s
  · simp only [Scan.finish]
    split_ifs <;> exact ⟨rfl, rfl, rfl, rfl, rfl⟩
  · simp only [Scan.tryWait]
    split_ifs
    · exact ⟨rfl, rfl, rfl, rfl, rfl⟩
    · exact ⟨rfl, rfl, rfl, rfl, rfl⟩
    · split
      · exact ⟨rfl, rfl, rfl, rfl, rfl⟩
      · have h1 := getNext_q s
        have h2 := getNext_q s.getNext
        exact ⟨h2.1.trans h1.1, h2.2.1.trans h1.2.1, h2.2.2.1.trans h1.2.2.1, h2.2.2.2.1.trans h1.2.2.2.1, h2.2.2.2.2.trans h1.2.2.2.2⟩
  · simp only [Scan.wake]
    split_ifs
    · exact getNext_q _
    · exact ⟨rfl, rfl, rfl, rfl, rfl⟩

theorem crashed_run (evs : List Ev) : ∀ s : Scan, s.crashed = true → s.run evs = s := by
  induction evs with
  | nil => intro s _; rfl
  | cons e evs ih =>
    intro s h
    have : s.step e = s := by unfold Scan.step; rw [if_pos h]
    show (s.step e).run evs = s
    rw [this]; exact ih s h

theorem cnt_step (s : Scan) (e : Ev) (h : Cnt s) (hcr : (s.step e).crashed = false) : Cnt (s.step e) := by
  have hs : s.crashed = false := by
    cases hx : s.crashed with
    | false => rfl
    | true =>
      have : s.step e = s := by unfold Scan.step; rw [if_pos hx]
      rw [this, hx] at hcr; cases hcr
  cases e with
  | changed p n =>
    have : s.step (.changed p n) = s.changed p n := by simp [Scan.step, hs]
    rw [this]; exact cnt_changed s p n h
  | timer n o =>
    have : s.step (.timer n o) = s.timer n o := by simp [Scan.step, hs]
    rw [this] at hcr ⊢
    exact cnt_timer s n o h hcr
  | next => have := step_q s .next (by simp); exact cnt_same s _ h this.1 this.2.1 this.2.2.1
  | finish => have := step_q s .finish (by simp); exact cnt_same s _ h this.1 this.2.1 this.2.2.1
  | tryWait => have := step_q s .tryWait (by simp); exact cnt_same s _ h this.1 this.2.1 this.2.2.1
  | wake => have := step_q s .wake (by simp); exact cnt_same s _ h this.1 this.2.1 this.2.2.1

theorem cnt_run (evs : List Ev) : ∀ s : Scan, Cnt s → (s.run evs).crashed = false → Cnt (s.run evs) := by
  induction evs with
  | nil => intro s h _; exact h
  | cons e evs ih =>
    intro s h hcr
    show Cnt ((s.step e).run evs)
    have hs : (s.step e).crashed = false := by
      cases hx : (s.step e).crashed with
      | false => rfl
      | true =>
        have h2 : (s.run (e :: evs)) = s.step e := crashed_run evs _ hx
        rw [h2, hx] at hcr; cases hcr
    exact ih _ (cnt_step s e h hs) hcr

theorem cnt_init (existing : List Nat) (inc : Bool) : Cnt (Scan.init existing inc) := by
  unfold Scan.init
  exact ⟨(fun p => by simp [find]), (fun p x hx => by simp [find] at hx), (fun p x hx => by simp [find] at hx)⟩

/-- The timer with the sizes that are stored: all files that are pending are found. -/
theorem drain (fs : Nat → Nat) (queue : List Nat) : ∀ s : Scan, s.queue = queue → s.crashed = false → Cnt s → (∀ p x, find s.pending p = some x → x.1 = fs p) →
    (s.run (queue.map fun p => .timer (some (fs p)) true)).queue = [] ∧
      (∀ p, p ∈ queue → p ∈ (s.run (queue.map fun p => .timer (some (fs p)) true)).found) ∧
      (∀ p, p ∈ s.found → p ∈ (s.run (queue.map fun p => .timer (some (fs p)) true)).found) ∧
      (s.run (queue.map fun p => .timer (some (fs p)) true)).crashed = false := by
  induction queue with
  | nil => intro s hq hcr _ _; exact ⟨hq, (fun p hp => by cases hp), (fun p hp => hp), hcr⟩
  | cons p queue ih =>
    intro s hq hcr hc hfs
    have hst : s.step (.timer (some (fs p)) true) = s.timer (some (fs p)) true := by simp [Scan.step, hcr]
    have hcount : (p :: queue).count p = ((find s.pending p).map Prod.snd).getD 0 := by rw [← hq]; exact hc.count p
    have key : ∃ t : Scan, s.timer (some (fs p)) true = t ∧ t.queue = queue ∧ t.crashed = false ∧ (∀ q x, find t.pending q = some x → x.1 = fs q) ∧
        (∀ q, q ∈ s.found → q ∈ t.found) ∧ (p ∈ queue ∨ p ∈ t.found) := by
      refine ⟨_, rfl, ?_⟩
      unfold Scan.timer
      rw [hq]
      simp only
      cases hf : find s.pending p with
      | none => rw [hf, List.count_cons_self] at hcount; simp at hcount
      | some x =>
        obtain ⟨size, count⟩ := x
        have hsz : size = fs p := hfs p _ hf
        have hself : queue.count p + 1 = count := by
          rw [hf, List.count_cons_self] at hcount; exact hcount
        simp only
        by_cases hk : count - 1 ≠ 0
        · rw [if_pos hk]
          refine ⟨rfl, hcr, ?_, (fun q hq' => hq'), Or.inl (List.count_pos_iff.mp (by omega))⟩
          intro q x hx
          by_cases hqp : q = p
          · subst hqp
            have hx' : find (put s.pending q size (count - 1)) q = some x := hx
            rw [find_put_self] at hx'
            have := Option.some.inj hx'
            rw [← this]; exact hsz
          · have hx' : find (put s.pending p size (count - 1)) q = some x := hx
            rw [find_put_other _ _ _ _ _ hqp] at hx'
            exact hfs q x hx'
        · rw [if_neg hk, if_pos ⟨hsz, trivial⟩, if_neg (fun y => hc.fresh p _ hf (by simpa using y))]
          refine ⟨rfl, hcr, ?_, (fun q hq' => List.mem_append_left _ hq'), Or.inr (by simp)⟩
          intro q x hx
          have hx' : find (s.pending.filter fun x => !(x.1 == p)) q = some x := hx
          by_cases hqp : q = p
          · subst hqp; rw [find_erase_self] at hx'; cases hx'
          · rw [find_erase_other _ _ _ hqp] at hx'
            exact hfs q x hx'
    obtain ⟨t, ht, h1, h2, h3, h4, h5⟩ := key
    have hct : Cnt t := by
      rw [← ht]
      exact cnt_timer s _ _ hc (by rw [ht]; exact h2)
    obtain ⟨g1, g2, g3, g4⟩ := ih t h1 h2 hct h3
    have hrun : s.run ((p :: queue).map fun p => .timer (some (fs p)) true) = t.run (queue.map fun p => .timer (some (fs p)) true) := by
      show (s.step (.timer (some (fs p)) true)).run _ = _
      rw [hst, ht]
    rw [hrun]
    refine ⟨g1, ?_, (fun q hq' => g3 q (h4 q hq')), g4⟩
    intro q hq'
    rcases List.mem_cons.mp hq' with hx | hx
    · rw [hx]
      rcases h5 with h6 | h6
      · exact g2 p h6
      · exact g3 p h6
    · exact g2 q hx

/-! ### Only files that no longer change -/

/-- What is stored is the size of the last change. -/
structure Last (existing : List Nat) (s : Scan) (evs : List Ev) : Prop where
  pend : ∀ p x, find s.pending p = some x → ∃ a b, evs = a ++ .changed p (some x.1) :: b ∧ ∀ m, Ev.changed p (some m) ∉ b
  found : ∀ p ∈ s.found, p ∈ existing ∨ Stable p evs

theorem stable_append (p : Nat) (evs : List Ev) (e : Ev) (h : Stable p evs) : Stable p (evs ++ [e]) := by
  obtain ⟨n, a, b, c, h1, h2⟩ := h
  exact ⟨n, a, b, c ++ [e], (by rw [h1]; simp), h2⟩

theorem pend_append (p n : Nat) (evs : List Ev) (e : Ev) (he : ∀ m, e ≠ .changed p (some m))
    (h : ∃ a b, evs = a ++ .changed p (some n) :: b ∧ ∀ m, Ev.changed p (some m) ∉ b) :
    ∃ a b, evs ++ [e] = a ++ .changed p (some n) :: b ∧ ∀ m, Ev.changed p (some m) ∉ b := by
  obtain ⟨a, b, h1, h2⟩ := h
  refine ⟨a, b ++ [e], (by rw [h1]; simp), ?_⟩
  intro m hm
  rcases List.mem_append.mp hm with hx | hx
  · exact h2 m hx
  · rw [List.mem_singleton] at hx; exact he m hx.symm

/-- Nothing of what is searched for changes. -/
theorem last_same (existing : List Nat) (s t : Scan) (evs : List Ev) (e : Ev) (h : Last existing s evs) (h1 : ∀ p x, find t.pending p = some x → ∃ y, find s.pending p = some (x.1, y))
    (h2 : t.found = s.found) (he : ∀ p x m, find s.pending p = some x → e ≠ .changed p (some m)) : Last existing t (evs ++ [e]) := by
  refine ⟨?_, ?_⟩
  · intro p x hx
    obtain ⟨y, hy⟩ := h1 p x hx
    exact pend_append p x.1 evs e (fun m => he p _ m hy) (h.pend p (x.1, y) hy)
  · intro p hp
    rw [h2] at hp
    rcases h.found p hp with hx | hx
    · exact Or.inl hx
    · exact Or.inr (stable_append p evs e hx)

theorem last_changed (existing : List Nat) (s : Scan) (evs : List Ev) (p : Nat) (n : Option Nat) (hc : Cnt s) (h : Last existing s evs) :
    Last existing (s.changed p n) (evs ++ [.changed p n]) := by
  unfold Scan.changed
  by_cases ha : s.added.contains p = true
  · rw [if_pos ha]
    refine last_same existing s s evs _ h (fun q x hx => ⟨x.2, hx⟩) rfl ?_
    intro q x m hx heq
    have hpq : p = q := by injection heq
    subst hpq
    exact hc.fresh p x hx (by simpa using ha)
  · rw [if_neg ha]
    cases n with
    | none => exact last_same existing s _ evs _ h (fun q x hx => ⟨x.2, hx⟩) rfl (fun q x m _ heq => by injection heq with _ h2; cases h2)
    | some n =>
      simp only
      refine ⟨?_, ?_⟩
      · intro q x hx
        by_cases hqp : q = p
        · subst hqp
          rw [find_put_self] at hx
          have := Option.some.inj hx
          rw [← this]
          exact ⟨evs, [], rfl, (fun m hm => by cases hm)⟩
        · rw [find_put_other _ _ _ _ _ hqp] at hx
          exact pend_append q x.1 evs _ (fun m heq => by injection heq with h1 _; exact hqp h1.symm) (h.pend q x hx)
      · intro q hq
        rcases h.found q hq with hx | hx
        · exact Or.inl hx
        · exact Or.inr (stable_append q evs _ hx)

theorem last_timer (existing : List Nat) (s : Scan) (evs : List Ev) (n : Option Nat) (o : Bool) (h : Last existing s evs) :
    Last existing (s.timer n o) (evs ++ [.timer n o]) := by
  have hne : ∀ p (x : Nat × Nat) m, find s.pending p = some x → Ev.timer n o ≠ .changed p (some m) := fun p x m _ heq => by cases heq
  unfold Scan.timer
  cases hq : s.queue with
  | nil => exact last_same existing s s evs _ h (fun q x hx => ⟨x.2, hx⟩) rfl hne
  | cons p queue =>
    simp only
    cases hf : find s.pending p with
    | none => exact last_same existing s _ evs _ h (fun q x hx => ⟨x.2, hx⟩) rfl hne
    | some x =>
      obtain ⟨size, count⟩ := x
      have hput : ∀ k q x, find (put s.pending p size k) q = some x → ∃ y, find s.pending q = some (x.1, y) := by
        intro k q x hx
        by_cases hqp : q = p
        · subst hqp
          rw [find_put_self] at hx
          have := Option.some.inj hx
          rw [← this]; exact ⟨count, hf⟩
        · rw [find_put_other _ _ _ _ _ hqp] at hx
          exact ⟨x.2, hx⟩
      have herase : ∀ q x, find (s.pending.filter fun x => !(x.1 == p)) q = some x → ∃ y, find s.pending q = some (x.1, y) := by
        intro q x hx
        by_cases hqp : q = p
        · subst hqp; rw [find_erase_self] at hx; cases hx
        · rw [find_erase_other _ _ _ hqp] at hx
          exact ⟨x.2, hx⟩
      simp only
      by_cases hc : count - 1 ≠ 0
      · rw [if_pos hc]; exact last_same existing s _ evs _ h (hput _) rfl hne
      · rw [if_neg hc]
        cases n with
        | none => exact last_same existing s _ evs _ h (fun q x hx => ⟨x.2, hx⟩) rfl hne
        | some n =>
          simp only
          by_cases he : size = n ∧ o = true
          · rw [if_pos he]
            by_cases ha : s.added.contains p = true
            · rw [if_pos ha]; exact last_same existing s _ evs _ h herase rfl hne
            · rw [if_neg ha]
              have h0 := last_same existing s { s with pending := s.pending.filter fun x => !(x.1 == p) } evs _ h herase rfl hne
              refine ⟨h0.pend, ?_⟩
              intro q hq'
              rcases List.mem_append.mp hq' with hx | hx
              · exact h0.found q hx
              · rw [List.mem_singleton] at hx
                subst hx
                obtain ⟨a, b, h1, h2⟩ := h.pend q _ hf
                refine Or.inr ⟨n, a, b, [], ?_, h2⟩
                rw [h1, he.2, ← he.1]
                simp
          · rw [if_neg he]; exact last_same existing s _ evs _ h (hput _) rfl hne

theorem last_step (existing : List Nat) (s : Scan) (evs : List Ev) (e : Ev) (hcr : s.crashed = false) (hc : Cnt s) (h : Last existing s evs) : Last existing (s.step e) (evs ++ [e]) := by
  have hsame : ∀ e : Ev, (e = .next ∨ e = .finish ∨ e = .tryWait ∨ e = .wake) → Last existing (s.step e) (evs ++ [e]) := by
    intro e he
    have hs := step_q s e he
    refine last_same existing s _ evs e h (fun q x hx => ⟨x.2, by rw [← hs.2.1]; exact hx⟩) hs.2.2.2.2 ?_
    intro p x m _ heq
    rw [heq] at he
    rcases he with h1 | h1 | h1 | h1 <;> cases h1
  cases e with
  | changed p n =>
    have : s.step (.changed p n) = s.changed p n := by simp [Scan.step, hcr]
    rw [this]; exact last_changed existing s evs p n hc h
  | timer n o =>
    have : s.step (.timer n o) = s.timer n o := by simp [Scan.step, hcr]
    rw [this]; exact last_timer existing s evs n o h
  | next => exact hsame _ (by simp)
  | finish => exact hsame _ (by simp)
  | tryWait => exact hsame _ (by simp)
  | wake => exact hsame _ (by simp)

theorem stable_append_list (p : Nat) (evs rest : List Ev) (h : Stable p evs) : Stable p (evs ++ rest) := by
  obtain ⟨n, a, b, c, h1, h2⟩ := h
  exact ⟨n, a, b, c ++ rest, (by rw [h1]; simp), h2⟩

theorem last_run (existing : List Nat) (rest : List Ev) : ∀ (s : Scan) (evs : List Ev), Cnt s → Last existing s evs →
    ∀ p ∈ (s.run rest).found, p ∈ existing ∨ Stable p (evs ++ rest) := by
  induction rest with
  | nil => intro s evs _ h p hp; rw [List.append_nil]; exact h.found p hp
  | cons e rest ih =>
    intro s evs hc h p hp
    cases hcr : s.crashed with
    | true =>
      rw [crashed_run _ s hcr] at hp
      rcases h.found p hp with hx | hx
      · exact Or.inl hx
      · exact Or.inr (stable_append_list p evs _ hx)
    | false =>
      have hl := last_step existing s evs e hcr hc h
      cases hcr2 : (s.step e).crashed with
      | true =>
        have hp' : p ∈ ((s.step e).run rest).found := hp
        rw [crashed_run _ _ hcr2] at hp'
        rcases hl.found p hp' with hx | hx
        · exact Or.inl hx
        · right
          have := stable_append_list p _ rest hx
          simpa using this
      | false =>
        have := ih (s.step e) (evs ++ [e]) (cnt_step s e hc hcr2) hl p hp
        simpa using this

/-! ### Files that are there at the beginning -/

theorem added_timer (s : Scan) (n : Option Nat) (o : Bool) (p : Nat) (ha : p ∈ s.added) (hf : p ∉ s.found) : p ∈ (s.timer n o).added ∧ p ∉ (s.timer n o).found := by
  unfold Scan.timer
  split
  · exact ⟨ha, hf⟩
  · rename_i q queue _
    simp only
    split
    · exact ⟨ha, hf⟩
    · cases n with
      | none => simp only; split_ifs <;> exact ⟨ha, hf⟩
      | some n =>
        simp only
        split_ifs with _ _ h3
        · exact ⟨ha, hf⟩
        · exact ⟨ha, hf⟩
        · refine ⟨List.mem_cons_of_mem _ ha, ?_⟩
          show p ∉ s.found ++ [q]
          rw [List.mem_append, List.mem_singleton]
          rintro (hx | hx)
          · exact hf hx
          · subst hx; exact h3 (by simpa using ha)
        · exact ⟨ha, hf⟩

theorem added_step (s : Scan) (e : Ev) (p : Nat) (ha : p ∈ s.added) (hf : p ∉ s.found) : p ∈ (s.step e).added ∧ p ∉ (s.step e).found := by
  have hsame : ∀ e : Ev, (e = .next ∨ e = .finish ∨ e = .tryWait ∨ e = .wake) → p ∈ (s.step e).added ∧ p ∉ (s.step e).found := by
    intro e he
    have hs := step_q s e he
    rw [hs.2.2.1, hs.2.2.2.2]; exact ⟨ha, hf⟩
  cases e with
  | changed q n =>
    simp only [Scan.step, Scan.changed]
    split_ifs
    · exact ⟨ha, hf⟩
    · exact ⟨ha, hf⟩
    · cases n <;> exact ⟨ha, hf⟩
  | timer n o =>
    unfold Scan.step
    split_ifs
    · exact ⟨ha, hf⟩
    · exact added_timer s n o p ha hf
  | next => exact hsame _ (by simp)
  | finish => exact hsame _ (by simp)
  | tryWait => exact hsame _ (by simp)
  | wake => exact hsame _ (by simp)

theorem added_run (evs : List Ev) (p : Nat) : ∀ s : Scan, p ∈ s.added → p ∉ s.found → p ∉ (s.run evs).found := by
  induction evs with
  | nil => intro s _ h; exact h
  | cons e evs ih =>
    intro s ha hf
    have := added_step s e p ha hf
    exact ih _ this.1 this.2

theorem found_step (s : Scan) (e : Ev) : s.found <+: (s.step e).found := by
  cases e with
  | changed q n =>
    simp only [Scan.step, Scan.changed]
    split_ifs
    · exact List.prefix_refl _
    · exact List.prefix_refl _
    · cases n <;> exact List.prefix_refl _
  | timer n o =>
    unfold Scan.step
    split_ifs
    · exact List.prefix_refl _
    · simp only
      unfold Scan.timer
      split
      · exact List.prefix_refl _
      · simp only
        split
        · exact List.prefix_refl _
        · cases n with
          | none => simp only; split_ifs <;> exact List.prefix_refl _
          | some n =>
            simp only
            split_ifs
            · exact List.prefix_refl _
            · exact List.prefix_refl _
            · exact List.prefix_append _ _
            · exact List.prefix_refl _
  | next => rw [(step_q s .next (by simp)).2.2.2.2]; exact List.prefix_refl _
  | finish => rw [(step_q s .finish (by simp)).2.2.2.2]; exact List.prefix_refl _
  | tryWait => rw [(step_q s .tryWait (by simp)).2.2.2.2]; exact List.prefix_refl _
  | wake => rw [(step_q s .wake (by simp)).2.2.2.2]; exact List.prefix_refl _

theorem found_run (evs : List Ev) : ∀ s : Scan, s.found <+: (s.run evs).found := by
  induction evs with
  | nil => intro s; exact List.prefix_refl _
  | cons e evs ih => intro s; exact (found_step s e).trans (ih _)

end Hdtn.DirScan
