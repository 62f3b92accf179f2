import Verif.DirScan.Lemmas

/-!
C173 and C174: the files of a directory, from the scanner to the sender.
-/

namespace Hdtn.DirScan

open Hdtn.DirScan.Spec

/-! ### C173: each file is sent once, in the order in which files were found -/

/-- The files that were sent are among those that were found, in their order, and each only once. -/
theorem C173_once (existing : List Nat) (hn : existing.Nodup) (inc : Bool) (evs : List Ev) :
    (((Scan.init existing inc).run evs).sent.Sublist ((Scan.init existing inc).run evs).found) ∧ ((Scan.init existing inc).run evs).sent.Nodup := by
  have h := inv_run evs _ (inv_init existing hn inc)
  have hs : ((Scan.init existing inc).run evs).sent.Sublist ((Scan.init existing inc).run evs).found := by
    refine List.Sublist.trans ?_ h.order
    rw [List.append_assoc]
    exact List.sublist_append_left _ _
  exact ⟨hs, h.nodup.sublist hs⟩

example : ((Scan.init [4, 7] true).run [.next, .changed 9 (some 100), .changed 9 (some 200), .finish, .timer (some 200) true, .next, .timer (some 200) true, .changed 9 (some 1),
    .finish, .tryWait]).sent = [4, 7] ∧
    ((Scan.init [4, 7] true).run [.next, .changed 9 (some 100), .changed 9 (some 200), .finish, .timer (some 200) true, .next, .timer (some 200) true, .changed 9 (some 1),
    .finish, .next, .finish]).sent = [4, 7, 9] := by decide +kernel

/-- The files that are there at the beginning come first if they are to be sent, in the order of the list; otherwise none of them is ever sent, even if it changes. -/
theorem C173_existing (existing : List Nat) (hn : existing.Nodup) (evs : List Ev) :
    existing <+: ((Scan.init existing true).run evs).found ∧ ∀ p ∈ existing, p ∉ ((Scan.init existing false).run evs).sent := by
  refine ⟨found_run evs (Scan.init existing true), ?_⟩
  intro p hp hs
  exact added_run evs p (Scan.init existing false) hp (by simp [Scan.init]) ((C173_once existing hn false evs).1.subset hs)

example : ((Scan.init [4, 7] false).run [.changed 7 (some 5), .changed 9 (some 6), .timer (some 6) true, .next, .finish, .next, .finish]).sent = [9] := by decide +kernel

/-- Every file that is found was sent, is being sent, or is still in the list, in this order.
Partial: only while the sender waits for a file with at most one file in the list (see `C173_lost_violated`). -/
theorem C173_all_partial (existing : List Nat) (hn : existing.Nodup) (inc : Bool) (evs : List Ev) (hc : Calm (Scan.init existing inc) evs) :
    ((Scan.init existing inc).run evs).sent ++ ((Scan.init existing inc).run evs).current.toList ++ ((Scan.init existing inc).run evs).list =
      ((Scan.init existing inc).run evs).found := by
  have h0 := inv_init existing hn inc
  have h := inv_run evs _ h0
  have hl : ((Scan.init existing inc).run evs).lost = [] := lost_run evs _ h0 hc
  refine h.order.eq_of_length ?_
  have := h.perm.length_eq
  rw [hl] at this
  simpa using this

example : Calm (Scan.init [4, 7] true) [.next, .finish, .tryWait, .next, .finish] := by
  intro a b hab
  match a, hab with
  | [], hab => simp at hab
  | [_], hab => simp at hab
  | [x, y], hab =>
    simp only [List.cons_append, List.nil_append, List.cons.injEq] at hab
    rw [← hab.1, ← hab.2.1]; decide +kernel
  | [_, _, _], hab => simp at hab
  | [_, _, _, _], hab => simp at hab
  | _ :: _ :: _ :: _ :: _ :: _, hab => simp at hab

/-- The sender gets the next file of the list when it asks for one. -/
theorem C173_next (s : Scan) (hcr : s.crashed = false) (hw : s.waiting = false) (hc : s.current = none) (p : Nat) (l : List Nat) (hl : s.list = p :: l) :
    (s.step .next).current = some p ∧ (s.step .next).list = l ∧ ((s.step .next).step .finish).sent = s.sent ++ [p] ∧ ((s.step .next).step .finish).current = none := by
  simp [Scan.step, Scan.next, Scan.finish, Scan.getNext, hcr, hw, hc, hl]

/-- In the timed wait the sender gets the file that is found. -/
theorem C173_wake (s : Scan) (hcr : s.crashed = false) (hw : s.waiting = true) (p : Nat) (l : List Nat) (hl : s.list = p :: l) :
    (s.step .wake).current = some p ∧ (s.step .wake).list = l ∧ (s.step .wake).waiting = false := by
  simp [Scan.step, Scan.wake, Scan.getNext, hcr, hw, hl]

example : ((Scan.init [] true).run [.next, .tryWait, .changed 9 (some 100), .timer (some 100) true, .wake]).current = some 9 := by decide +kernel

/-- The claim that every file that is found is sent is false: if two files are in the list when the sender begins to wait, the first is taken from the list, then
overwritten by the second, and never sent, whatever happens later. -/
theorem C173_lost_violated (existing : List Nat) (hn : existing.Nodup) (inc : Bool) (evs : List Ev) (p q : Nat) (l : List Nat)
    (hcr : ((Scan.init existing inc).run evs).crashed = false) (hw : ((Scan.init existing inc).run evs).waiting = false)
    (hc : ((Scan.init existing inc).run evs).current = none) (hl : ((Scan.init existing inc).run evs).list = p :: q :: l) (evs2 : List Ev) :
    ((Scan.init existing inc).run (evs ++ [.tryWait])).current = some q ∧ p ∈ ((Scan.init existing inc).run (evs ++ [.tryWait])).found ∧
      p ∉ ((Scan.init existing inc).run (evs ++ [.tryWait] ++ evs2)).sent := by
  have h := inv_run evs _ (inv_init existing hn inc)
  have h1 : (Scan.init existing inc).run (evs ++ [.tryWait]) = ((Scan.init existing inc).run evs).step .tryWait := by
    unfold Scan.run; rw [List.foldl_append]; rfl
  have h2 : (Scan.init existing inc).run (evs ++ [.tryWait] ++ evs2) = (((Scan.init existing inc).run evs).step .tryWait).run evs2 := by
    rw [← h1]; unfold Scan.run; rw [List.foldl_append]
  rw [h1, h2]
  generalize (Scan.init existing inc).run evs = s at *
  have hlost : p ∈ (s.step .tryWait).lost := by simp [Scan.step, Scan.tryWait, Scan.getNext, hcr, hw, hc, hl]
  have hi := inv_run evs2 _ (inv_step s .tryWait h)
  refine ⟨by simp [Scan.step, Scan.tryWait, Scan.getNext, hcr, hw, hc, hl], ?_, ?_⟩
  · refine (inv_step s .tryWait h).perm.subset ?_
    simp [hlost]
  · intro hp
    have hl2 := lost_mono_run evs2 p _ hlost
    have hnd := (hi.perm.nodup_iff).mpr hi.nodup
    rw [List.append_assoc, List.append_assoc] at hnd
    exact (List.nodup_append.mp hnd).2.2 p hp p (List.mem_append_left _ hl2) rfl

/-- This happens: both files are found after the sender looked for one and before it waits. -/
example : ((Scan.init [] true).run [.next, .changed 1 (some 10), .changed 2 (some 20), .timer (some 10) true, .timer (some 20) true]).list = [1, 2] ∧
    ((Scan.init [] true).run [.next, .changed 1 (some 10), .changed 2 (some 20), .timer (some 10) true, .timer (some 20) true]).current = none ∧
    ((Scan.init [] true).run [.next, .changed 1 (some 10), .changed 2 (some 20), .timer (some 10) true, .timer (some 20) true, .tryWait, .next, .finish]).sent = [2] := by
  decide +kernel

/-! ### C174: files are found when they no longer change -/

/-- A file that was not there at the beginning is found only if, after its last change, the timer expired when it had the size of that change and could be opened. -/
theorem C174_stable (existing : List Nat) (inc : Bool) (evs : List Ev) (p : Nat) (hp : p ∈ ((Scan.init existing inc).run evs).found) : p ∈ existing ∨ Stable p evs := by
  have h0 : Last existing (Scan.init existing inc) [] := by
    refine ⟨(fun q x hx => by simp [Scan.init, find] at hx), ?_⟩
    intro q hq
    left
    unfold Scan.init at hq
    cases inc
    · simp at hq
    · simpa using hq
  have := last_run existing evs _ [] (cnt_init existing inc) h0 p hp
  simpa using this

example : 9 ∈ ((Scan.init [4] true).run [.changed 9 (some 100), .timer (some 150) true, .changed 9 (some 200), .timer (some 200) true, .timer (some 200) true]).found := by
  decide +kernel

/-- Each event of a file has its place in the queue of the timer, as long as the file is not found. -/
theorem C174_pending (existing : List Nat) (inc : Bool) (evs : List Ev) (hcr : ((Scan.init existing inc).run evs).crashed = false) (p : Nat) (n : Nat)
    (hp : p ∉ ((Scan.init existing inc).run evs).added) : p ∈ ((Scan.init existing inc).run (evs ++ [.changed p (some n)])).queue := by
  have h1 : (Scan.init existing inc).run (evs ++ [.changed p (some n)]) = ((Scan.init existing inc).run evs).step (.changed p (some n)) := by
    unfold Scan.run; rw [List.foldl_append]; rfl
  rw [h1]
  simp [Scan.step, hcr, Scan.changed, hp]

/-- If all files that are pending keep the size of their last change and can be opened, then all are found when the timer has expired as often as there are
places in its queue, and the queue is empty. Partial: if a file has another size, or is removed, see the theorems below. -/
theorem C174_found_partial (existing : List Nat) (inc : Bool) (evs : List Ev) (hcr : ((Scan.init existing inc).run evs).crashed = false) (size : Nat → Nat)
    (hs : ∀ p x, find ((Scan.init existing inc).run evs).pending p = some x → x.1 = size p) :
    let s := (Scan.init existing inc).run evs
    let t := s.run (s.queue.map fun p => .timer (some (size p)) true)
    t.queue = [] ∧ t.crashed = false ∧ ∀ p, p ∈ s.queue ∨ p ∈ s.found → p ∈ t.found := by
  intro s t
  have h := drain size s.queue s rfl hcr (cnt_run evs _ (cnt_init existing inc) hcr) hs
  exact ⟨h.1, h.2.2.2, fun p hp => hp.elim (h.2.1 p) (h.2.2.1 p)⟩

example : ((Scan.init [4] true).run [.changed 9 (some 100), .changed 8 (some 50), .changed 9 (some 200)]).queue = [9, 8, 9] ∧
    ((Scan.init [4] true).run ([.changed 9 (some 100), .changed 8 (some 50), .changed 9 (some 200)] ++ [.timer (some 200) true, .timer (some 50) true, .timer (some 200) true])).found =
      [4, 8, 9] := by decide +kernel

/-- A file that is removed while it is pending ends the program: `file_size` throws when the timer expires. -/
theorem C174_removed_violated (s : Scan) (hcr : s.crashed = false) (p n : Nat) (l : List Nat) (hq : s.queue = p :: l) (hf : find s.pending p = some (n, 1)) (o : Bool) :
    (s.step (.timer none o)).crashed = true := by
  simp [Scan.step, hcr, Scan.timer, hq, hf]

example : ((Scan.init [] true).run [.changed 9 (some 100), .timer none true]).crashed = true := by decide +kernel

/-- The size that is stored is that of the last event: a file that has another size since then, without an event, is never found, although it no longer changes. -/
theorem C174_grown_violated (existing : List Nat) (inc : Bool) (p n m : Nat) (hp : p ∉ existing) (hm : n ≠ m) (k : Nat) :
    p ∉ ((Scan.init existing inc).run (.changed p (some n) :: List.replicate k (.timer (some m) true))).found ∧
      ((Scan.init existing inc).run (.changed p (some n) :: List.replicate k (.timer (some m) true))).queue = [p] := by
  have key : (Scan.init existing inc).run (.changed p (some n) :: List.replicate k (.timer (some m) true)) =
      ((Scan.init existing inc).changed p (some n)) := by
    have h0 : (Scan.init existing inc).step (.changed p (some n)) = (Scan.init existing inc).changed p (some n) := by simp [Scan.step, Scan.init]
    show ((Scan.init existing inc).step (.changed p (some n))).run _ = _
    rw [h0]
    induction k with
    | zero => rfl
    | succ k ih =>
      rw [List.replicate_succ]
      show (((Scan.init existing inc).changed p (some n)).step (.timer (some m) true)).run _ = _
      have : ((Scan.init existing inc).changed p (some n)).step (.timer (some m) true) = (Scan.init existing inc).changed p (some n) := by
        simp [Scan.step, Scan.init, Scan.changed, hp, Scan.timer, find, put, hm]
      rw [this]; exact ih
  rw [key]
  cases inc <;> simp [Scan.init, Scan.changed, hp]

end Hdtn.DirScan
