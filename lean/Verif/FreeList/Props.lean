import Verif.FreeList.Lemmas

/-!
# C178: memory of the allocator that keeps unused nodes
-/

namespace Hdtn.FreeList

/-- **C178 (a block has one owner).** After any history by the rules, with any number of allocators that
are created, moved, assigned and destroyed, a request is answered with a block that is memory in use by the
process, that the user does not hold already, and that no allocator keeps any more. -/
theorem C178_fresh {max : Nat} {s : Sys} (h : Reach max s) (i n fresh : Nat)
    (ha : s.allowed (.allocate i n fresh)) :
    (s.w.allocate i n fresh).1 ∉ s.addrs ∧
      (s.w.allocate i n fresh).1 ∈ (s.w.allocate i n fresh).2.mem ∧
      ∀ a ∈ (s.w.allocate i n fresh).2.allocs, (s.w.allocate i n fresh).1 ∉ a.list := by
  have hi := (inv_reach h).allocate (n := n) ha.1.1 ha.1.2 ha.2
  generalize s.w.allocate i n fresh = r at hi
  have h1 := hi.nodup r.1
  have h2 := hi.bal r.1
  simp only [List.count_cons_self] at h2
  refine ⟨fun hm => ?_, hi.mem (by simp), fun a hm hl => ?_⟩
  · have := List.count_pos_iff.mpr hm; omega
  · have := List.count_pos_iff.mpr hl
    have h3 : a.list.count r.1 ≤ kept r.2.allocs r.1 :=
      kept_ge _ _ _ hm
    omega

/-- **C178 (nothing is released twice).** After any history by the rules no address was given back to the
operating system that was not in use, and the blocks the user holds are pairwise different and still
in use. -/
theorem C178_safe {max : Nat} {s : Sys} (h : Reach max s) :
    s.w.fault = false ∧ s.addrs.Nodup ∧ ∀ p ∈ s.addrs, p ∈ s.w.mem := by
  have hi := inv_reach h
  refine ⟨hi.fault, List.nodup_iff_count.mpr fun a => ?_, fun p hp => hi.mem hp⟩
  have := hi.nodup a
  have := hi.bal a
  omega

/-- **C178 (bound).** No allocator ever keeps more unused nodes than its limit, and its counter is right. -/
theorem C178_bound {max : Nat} {s : Sys} (h : Reach max s) (i : Nat) :
    (s.w.get i).list.length = (s.w.get i).size ∧ (s.w.get i).list.length ≤ max := by
  have := (inv_reach h).ok i
  exact ⟨this.1, by have := this.1; have := (inv_reach h).ok i |>.2.1; omega⟩

/-- **C178 (no leak).** When every allocator has been destroyed, the memory in use is exactly what the user
still holds. -/
theorem C178_no_leak {max : Nat} {s : Sys} (h : Reach max s)
    (hd : ∀ a ∈ s.w.allocs, a.alive = false) : s.w.mem.Perm s.addrs := by
  have hi := inv_reach h
  rw [List.perm_iff_count]
  intro a
  have h0 : kept s.w.allocs a = 0 := kept_zero _ _ fun x hx => by
    obtain ⟨i, _, e⟩ := get_of_mem hx
    have := (hi.ok i).2.2
    rw [e] at this
    exact this (hd x hx)
  have := hi.bal a
  omega

/-- **C178 (reuse).** A single node given back to an allocator with room is the answer to the next request for
one node, and the operating system is not asked in between. -/
theorem C178_reuse {max : Nat} {s : Sys} (i p fresh : Nat) (ha : s.allowed (.deallocate i p 1))
    (hr : (s.w.get i).size < max) :
    ((s.w.deallocate max i p 1).allocate i 1 fresh).1 = p ∧
      ((s.w.deallocate max i p 1).allocate i 1 fresh).2 = s.w := by
  have hi := ha.1.1
  have e : (s.w.deallocate max i p 1) =
      s.w.put i { s.w.get i with list := p :: (s.w.get i).list, size := (s.w.get i).size + 1 } := by
    simp [World.deallocate, hr]
  have g := get_put s.w i i { s.w.get i with list := p :: (s.w.get i).list, size := (s.w.get i).size + 1 }
  rw [if_pos ⟨rfl, hi⟩] at g
  rw [e]
  simp only [World.allocate, g, if_true]
  refine ⟨trivial, ?_⟩
  simp only [World.put, List.set_set, Nat.add_sub_cancel]
  have : s.w.allocs.set i (s.w.get i) = s.w.allocs := by
    simp [World.get, hi]
  have e2 : ({ list := (s.w.get i).list, size := (s.w.get i).size, alive := (s.w.get i).alive } : Alloc)
      = s.w.get i := rfl
  rw [e2, this]

/-- A history: two allocators, three blocks, one given back to the other allocator, one past the limit, a move
assignment, a move construction, and the end of all three allocators. -/
def demo : List Ev :=
  [.create, .create, .allocate 0 1 100, .allocate 0 1 200, .allocate 1 4 300, .deallocate 1 100 1,
   .deallocate 1 200 1, .moveAssign 0 1, .moveNew 0, .allocate 2 1 400, .deallocate 2 100 1,
   .destroy 2, .destroy 1, .destroy 0]

instance (s : Sys) (e : Ev) : Decidable (s.allowed e) := by
  cases e <;> simp only [Sys.allowed, Sys.live] <;> infer_instance

/-- Whether a whole history keeps to the rules, for the examples. -/
def okRun (max : Nat) : Sys → List Ev → Bool
  | _, [] => true
  | s, e :: r => decide (s.allowed e) && okRun max (s.step max e) r

theorem reach_run {max : Nat} (l : List Ev) {s : Sys} (h : Reach max s) (hk : okRun max s l = true) :
    Reach max (l.foldl (Sys.step max) s) := by
  induction l generalizing s with
  | nil => exact h
  | cons e l ih =>
    simp only [okRun, Bool.and_eq_true, decide_eq_true_eq] at hk
    exact ih (.step h hk.1) hk.2

example : okRun 1 Sys.init demo = true := by decide +kernel
example : Reach 1 (demo.foldl (Sys.step 1) Sys.init) := reach_run demo .init (by decide +kernel)
/-- The hypothesis of `C178_no_leak` is met at its end, and the block of four elements is still held. -/
example : (∀ a ∈ (demo.foldl (Sys.step 1) Sys.init).w.allocs, a.alive = false) ∧
    (demo.foldl (Sys.step 1) Sys.init).w.mem = [300] ∧
    (demo.foldl (Sys.step 1) Sys.init).held = [(300, 4)] := by decide +kernel
/-- The tenth step reuses the node that has travelled from allocator 1 through 0 to 2. -/
example : ((demo.take 9).foldl (Sys.step 1) Sys.init).allowed (.allocate 2 1 400) ∧
    (((demo.take 9).foldl (Sys.step 1) Sys.init).w.allocate 2 1 400).1 = 100 := by decide +kernel
/-- The hypotheses of `C178_reuse`. -/
example : ((demo.take 5).foldl (Sys.step 1) Sys.init).allowed (.deallocate 1 100 1) ∧
    (((demo.take 5).foldl (Sys.step 1) Sys.init).w.get 1).size < 1 := by decide +kernel
/-- A block given back twice, against the rules, is a fault in the model: `C178_safe` is not empty. -/
example : (([.create, .allocate 0 2 100, .deallocate 0 100 2, .deallocate 0 100 2].foldl
    (Sys.step 1) Sys.init)).w.fault = true := by decide +kernel

end Hdtn.FreeList
