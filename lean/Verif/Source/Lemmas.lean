import Verif.Source.Spec
import Mathlib.Data.List.Nodup
import Mathlib.Data.List.Count
import Mathlib.Data.List.Perm.Subperm

namespace Hdtn.Source

open Spec

/-! ### Timestamps -/

theorem stamps_before (c : Clock) (times : List Nat) (bound : Nat) (room : c.seq + times.length < bound) (hb : bound ≤ U64)
    (mono : times.Pairwise (· ≤ ·)) (first : ∀ t ∈ times, c.last ≤ t) :
    (c.stamps times).Pairwise Before ∧ ∀ x ∈ c.stamps times, Before (c.last, c.seq) x ∧ ∃ t ∈ times, x.1 = t := by
  induction times generalizing c with
  | nil => simp [Clock.stamps]
  | cons now later ih =>
    simp only [List.length_cons] at room
    have hm := List.pairwise_cons.mp mono
    have hf : c.last ≤ now := first now (by simp)
    have this : Before (c.last, c.seq) (c.stamp now).1 ∧ (c.stamp now).2.seq ≤ c.seq + 1 ∧
        (c.stamp now).1 = ((c.stamp now).2.last, (c.stamp now).2.seq) ∧ (c.stamp now).2.last = now := by
      unfold Clock.stamp Before
      by_cases q : now = c.last
      · have hs : (c.seq + 1) % U64 = c.seq + 1 := Nat.mod_eq_of_lt (by omega)
        simp only [q, if_true, hs]
        exact ⟨Or.inr ⟨trivial, by omega⟩, by omega, trivial, trivial⟩
      · simp only [q, if_false]
        refine ⟨Or.inl (by show c.last < now; omega), by omega, by simp, by simp⟩
    obtain ⟨hbefore, hseq, heq, hlast⟩ := this
    have := ih (c.stamp now).2 (by omega) hm.2 (by rw [hlast]; exact hm.1)
    unfold Clock.stamps
    refine ⟨List.pairwise_cons.mpr ⟨?_, this.1⟩, ?_⟩
    · intro x hx
      rw [heq]
      exact (this.2 x hx).1
    · intro x hx
      rcases List.mem_cons.mp hx with rfl | hx
      · exact ⟨hbefore, now, by simp, by rw [heq, hlast]⟩
      · obtain ⟨h1, t, ht, hxt⟩ := this.2 x hx
        refine ⟨?_, t, by simp [ht], hxt⟩
        rw [← heq] at h1
        unfold Before at *
        omega

/-! ### The invariant of the sender -/

/-- How often a bundle is somewhere. -/
def places (s : Src) (x : Bundle) : Nat :=
  s.pc.held.count x + s.duct.count x + s.failed.count x + s.acked.count x + s.late.count x + s.vanished.count x + s.abandoned.count x

structure Inv (C : Cfg) (s : Src) : Prop where
  whole : ∀ x, s.made.count x = places s x
  nodup : (s.made.map (·.id)).Nodup
  below : ∀ b ∈ s.made, b.id < s.next
  ducts : ∀ b, b ∈ s.duct ∨ b ∈ s.vanished → b.id ∈ s.sending
  fwd : ∀ b, s.pc = .forward b → b.id ∈ s.sending
  pipe : s.sending.length ≤ C.max
  gone : s.abandoned ≠ [] → s.running = false ∧ (s.pc = .top ∨ s.pc = .done)
  said : s.saidAll = true → s.duct = [] ∧ s.vanished = [] ∧ s.running = false ∧ (s.pc = .top ∨ s.pc = .done) ∧ s.abandoned = []
  secured : C.inPlace = false → s.vanished = []

theorem inv_start (C : Cfg) : Inv C start := by
  constructor <;> simp [start, places, Pc.held]

theorem Inv.count_le {C : Cfg} {s : Src} (h : Inv C s) (x : Bundle) : places s x ≤ 1 := by
  rw [← h.whole]
  exact List.nodup_iff_count_le_one.mp (List.Nodup.of_map _ h.nodup) x

theorem Inv.mem_made {C : Cfg} {s : Src} (h : Inv C s) {x : Bundle} (hx : 0 < places s x) : x ∈ s.made := by
  apply List.count_pos_iff.mp
  rw [h.whole]
  exact hx

theorem Inv.inj {C : Cfg} {s : Src} (h : Inv C s) {x y : Bundle} (hx : 0 < places s x) (hy : 0 < places s y)
    (e : x.id = y.id) : x = y :=
  List.inj_on_of_nodup_map h.nodup (h.mem_made hx) (h.mem_made hy) e

theorem named_some {id : Nat} {bs : List Bundle} {b : Bundle} (h : named id bs = some b) : b ∈ bs ∧ b.id = id := by
  unfold named at h
  exact ⟨List.mem_of_find?_eq_some h, by simpa using List.find?_some h⟩

theorem count_erase_self' {l : List Bundle} {b x : Bundle} (hb : b ∈ l) :
    l.count x = (l.erase b).count x + (if b = x then 1 else 0) := by
  rw [List.count_erase]
  by_cases q : b = x
  · subst q
    have : 0 < l.count b := List.count_pos_iff.mpr hb
    simp; omega
  · simp [q]

theorem count_append_one {l : List Bundle} {b x : Bundle} : (l ++ [b]).count x = l.count x + (if b = x then 1 else 0) := by
  rw [List.count_append]
  by_cases q : b = x
  · subst q; simp
  · have : List.count x [b] = 0 := List.count_eq_zero.mpr (by simpa using fun e => q e.symm)
    simp [this, q]

theorem count_cons' {l : List Bundle} {b x : Bundle} : (b :: l).count x = l.count x + (if b = x then 1 else 0) := by
  rw [List.count_cons]
  by_cases q : b = x <;> simp [q]

/-- A bundle of the outduct leaves it, and its identifier the set. -/
theorem Inv.leave {C : Cfg} {s : Src} (h : Inv C s) {b : Bundle} (hb : b ∈ s.duct) :
    (∀ c, c ∈ s.duct.erase b ∨ c ∈ s.vanished → c.id ∈ s.sending.erase b.id) ∧
    (∀ c, s.pc = .forward c → c.id ∈ s.sending.erase b.id) := by
  have hbc : 0 < s.duct.count b := List.count_pos_iff.mpr hb
  have hbp : 0 < places s b := by unfold places; omega
  have hle := h.count_le b
  refine ⟨?_, ?_⟩
  · intro c hc
    have hne : c.id ≠ b.id := by
      intro e
      rcases hc with hc | hc
      · have hc' : c ∈ s.duct := List.mem_of_mem_erase hc
        have hcp : 0 < places s c := by have := List.count_pos_iff.mpr hc'; unfold places; omega
        have := h.inj hcp hbp e
        subst this
        have h1 := List.count_pos_iff.mpr hc
        have h2 := count_erase_self' (x := c) hb
        rw [if_pos rfl] at h2
        unfold places at hle
        omega
      · have hcc := List.count_pos_iff.mpr hc
        have hcp : 0 < places s c := by unfold places; omega
        have := h.inj hcp hbp e
        subst this
        unfold places at hle
        omega
    refine (List.mem_erase_of_ne hne).mpr (h.ducts c ?_)
    rcases hc with hc | hc
    · exact Or.inl (List.mem_of_mem_erase hc)
    · exact Or.inr hc
  · intro c hc
    have hne : c.id ≠ b.id := by
      intro e
      have hcc : 0 < s.pc.held.count c := by rw [hc]; simp [Pc.held]
      have hcp : 0 < places s c := by unfold places; omega
      have := h.inj hcp hbp e
      subst this
      unfold places at hle
      omega
    exact (List.mem_erase_of_ne hne).mpr (h.fwd c hc)

theorem mem_insertId {ids : List Nat} {id x : Nat} : x ∈ insertId ids id ↔ x = id ∨ x ∈ ids := by
  unfold insertId
  split
  · rename_i h
    constructor
    · exact Or.inr
    · rintro (rfl | h')
      · exact h
      · exact h'
  · simp

theorem inv_main {C : Cfg} {s : Src} (h : Inv C s) (a : Answer) : Inv C (s.main C a) := by
  have hw := h.whole
  have hg := h.gone
  have hsd := h.said
  unfold Src.main
  split
  · -- top
    rename_i hpc
    simp only [places, hpc, Pc.held] at hw
    by_cases hr : s.running = true
    · simp only [hr, Bool.not_true, Bool.false_eq_true, if_false]
      have hab : s.abandoned = [] := by
        by_contra q; have := (hg q).1; rw [hr] at this; exact Bool.noConfusion this
      have hns : s.saidAll ≠ true := by
        intro q; have := (hsd q).2.2.1; rw [hr] at this; exact Bool.noConfusion this
      split
      · rename_i b rest hf
        refine ⟨?_, h.nodup, h.below, h.ducts, by intro c hc; exact Pc.noConfusion hc, h.pipe, fun q => (q hab).elim,
          fun q => (hns q).elim, h.secured⟩
        intro x
        have := hw x
        simp only [hf, count_cons'] at this
        simp only [places, Pc.held, count_cons']
        rw [this]
        simp only [List.count_nil]; omega
      · rename_i hf
        exact ⟨by simpa only [places, Pc.held] using hw, h.nodup, h.below, h.ducts, by intro c hc; exact Pc.noConfusion hc, h.pipe,
          fun q => (q hab).elim, fun q => (hns q).elim, h.secured⟩
    · have hr' : s.running = false := by simpa using hr
      simp only [hr', Bool.not_false, if_true]
      exact ⟨by simpa only [places, Pc.held] using hw, h.nodup, h.below, h.ducts, by intro c hc; exact Pc.noConfusion hc, h.pipe,
        fun q => ⟨rfl, Or.inr rfl⟩, fun q => ⟨(hsd q).1, (hsd q).2.1, rfl, Or.inr rfl, (hsd q).2.2.2.2⟩, h.secured⟩
  · -- checked
    rename_i hpc
    simp only [places, hpc, Pc.held] at hw
    have hab : s.abandoned = [] := by
      by_contra q; rcases (hg q).2 with e | e <;> (rw [hpc] at e; exact Pc.noConfusion e)
    have hns : s.saidAll ≠ true := by
      intro q; rcases (hsd q).2.2.2.1 with e | e <;> (rw [hpc] at e; exact Pc.noConfusion e)
    by_cases hwn : s.waitingNew = true
    · simp only [hwn, if_true]
      exact ⟨by simpa only [places, Pc.held] using hw, h.nodup, h.below, h.ducts, by intro c hc; exact Pc.noConfusion hc, h.pipe,
        fun q => (q hab).elim, fun q => (hns q).elim, h.secured⟩
    · simp only [hwn, Bool.false_eq_true, if_false]
      by_cases hgen : s.generating = true
      · simp only [hgen, if_true]
        split
        · exact ⟨by simpa only [places, Pc.held] using hw, h.nodup, h.below, h.ducts, by intro c hc; exact Pc.noConfusion hc, h.pipe,
            fun q => (q hab).elim, fun q => (hns q).elim, h.secured⟩
        · exact ⟨by simpa only [places, Pc.held] using hw, h.nodup, h.below, h.ducts, by intro c hc; exact Pc.noConfusion hc, h.pipe,
            fun q => (q hab).elim, fun q => (hns q).elim, h.secured⟩
        · rename_i data _
          refine ⟨?_, ?_, ?_, h.ducts, by intro c hc; exact Pc.noConfusion hc, h.pipe, fun q => (q hab).elim,
            fun q => (hns q).elim, h.secured⟩
          · intro x
            simp only [places, Pc.held, count_cons', count_append_one, hw x, List.count_nil]
            omega
          · show ((s.made ++ [(⟨s.next, data⟩ : Bundle)]).map (·.id)).Nodup
            rw [List.map_append]
            refine List.Nodup.append h.nodup (by simp) ?_
            intro i hi hi'
            simp at hi'
            subst hi'
            obtain ⟨b, hb, e⟩ := List.mem_map.mp hi
            have := h.below b hb
            omega
          · intro b hb
            show b.id < s.next + 1
            rcases List.mem_append.mp hb with hb | hb
            · have := h.below b hb; omega
            · simp at hb; subst hb; simp
        · refine ⟨by simpa only [places, Pc.held] using hw, h.nodup, ?_, h.ducts, by intro c hc; exact Pc.noConfusion hc, h.pipe,
            fun q => (q hab).elim, fun q => (hns q).elim, h.secured⟩
          intro b hb
          have := h.below b hb
          show b.id < s.next + 1
          omega
      · simp only [hgen, Bool.false_eq_true, if_false]
        split
        · rename_i he
          refine ⟨by simpa only [places, Pc.held] using hw, h.nodup, h.below, h.ducts, by intro c hc; exact Pc.noConfusion hc, h.pipe,
            fun q => (q hab).elim, fun _ => ⟨?_, ?_, rfl, Or.inl rfl, hab⟩, h.secured⟩
          · apply List.eq_nil_iff_forall_not_mem.mpr
            intro b hb
            have := h.ducts b (Or.inl hb)
            rw [he] at this
            exact List.not_mem_nil this
          · apply List.eq_nil_iff_forall_not_mem.mpr
            intro b hb
            have := h.ducts b (Or.inr hb)
            rw [he] at this
            exact List.not_mem_nil this
        · exact ⟨by simpa only [places, Pc.held] using hw, h.nodup, h.below, h.ducts, by intro c hc; exact Pc.noConfusion hc, h.pipe,
            fun q => (q hab).elim, fun q => (hns q).elim, h.secured⟩
  · -- wait
    rename_i hpc
    simp only [places, hpc, Pc.held] at hw
    have hab : s.abandoned = [] := by
      by_contra q; rcases (hg q).2 with e | e <;> (rw [hpc] at e; exact Pc.noConfusion e)
    have hns : s.saidAll ≠ true := by
      intro q; rcases (hsd q).2.2.2.1 with e | e <;> (rw [hpc] at e; exact Pc.noConfusion e)
    exact ⟨by simpa only [places, Pc.held] using hw, h.nodup, h.below, h.ducts, by intro c hc; exact Pc.noConfusion hc, h.pipe,
      fun q => (q hab).elim, fun q => (hns q).elim, h.secured⟩
  · -- hand
    rename_i b hpc
    simp only [places, hpc, Pc.held] at hw
    have hab : s.abandoned = [] := by
      by_contra q; rcases (hg q).2 with e | e <;> (rw [hpc] at e; exact Pc.noConfusion e)
    have hns : s.saidAll ≠ true := by
      intro q; rcases (hsd q).2.2.2.1 with e | e <;> (rw [hpc] at e; exact Pc.noConfusion e)
    split <;>
    exact ⟨by simpa only [places, Pc.held] using hw, h.nodup, h.below, h.ducts, by intro c hc; exact Pc.noConfusion hc, h.pipe,
      fun q => (q hab).elim, fun q => (hns q).elim, h.secured⟩
  · -- room
    rename_i b hpc
    simp only [places, hpc, Pc.held] at hw
    have hab : s.abandoned = [] := by
      by_contra q; rcases (hg q).2 with e | e <;> (rw [hpc] at e; exact Pc.noConfusion e)
    have hns : s.saidAll ≠ true := by
      intro q; rcases (hsd q).2.2.2.1 with e | e <;> (rw [hpc] at e; exact Pc.noConfusion e)
    split
    · rename_i hlt
      refine ⟨by simpa only [places, Pc.held] using hw, h.nodup, h.below, fun c hc => mem_insertId.mpr (Or.inr (h.ducts c hc)), ?_, ?_,
        fun q => (q hab).elim, fun q => (hns q).elim, h.secured⟩
      · intro c hc
        have : b = c := by injection hc
        subst this
        exact mem_insertId.mpr (Or.inl rfl)
      · show (insertId s.sending b.id).length ≤ C.max
        unfold insertId
        split
        · omega
        · simp; omega
    · split
      · exact ⟨by simpa only [places, Pc.held] using hw, h.nodup, h.below, h.ducts, by intro c hc; exact Pc.noConfusion hc, h.pipe,
          fun q => (q hab).elim, fun q => (hns q).elim, h.secured⟩
      · exact h
  · -- forward
    rename_i b hpc
    simp only [places, hpc, Pc.held] at hw
    have hab : s.abandoned = [] := by
      by_contra q; rcases (hg q).2 with e | e <;> (rw [hpc] at e; exact Pc.noConfusion e)
    have hns : s.saidAll ≠ true := by
      intro q; rcases (hsd q).2.2.2.1 with e | e <;> (rw [hpc] at e; exact Pc.noConfusion e)
    split
    · refine ⟨?_, h.nodup, h.below, ?_, by intro c hc; exact Pc.noConfusion hc, h.pipe,
        fun q => (q hab).elim, fun q => (hns q).elim, h.secured⟩
      · intro x
        simp only [places, Pc.held, count_append_one, hw x, count_cons', List.count_nil]
        omega
      · intro c hc
        rcases hc with hc | hc
        · rcases List.mem_append.mp hc with hc | hc
          · exact h.ducts c (Or.inl hc)
          · simp at hc; subst hc; exact h.fwd _ hpc
        · exact h.ducts c (Or.inr hc)
    · exact ⟨by simpa only [places, Pc.held] using hw, h.nodup, h.below, h.ducts, by intro c hc; exact Pc.noConfusion hc, h.pipe,
        fun q => (q hab).elim, fun q => (hns q).elim, h.secured⟩
  · -- retry
    rename_i b hpc
    simp only [places, hpc, Pc.held] at hw
    have hab : s.abandoned = [] := by
      by_contra q; rcases (hg q).2 with e | e <;> (rw [hpc] at e; exact Pc.noConfusion e)
    have hns : s.saidAll ≠ true := by
      intro q; rcases (hsd q).2.2.2.1 with e | e <;> (rw [hpc] at e; exact Pc.noConfusion e)
    by_cases hr : s.running = true
    · simp only [hr, if_true]
      exact ⟨by simpa only [places, Pc.held] using hw, h.nodup, h.below, h.ducts, by intro c hc; exact Pc.noConfusion hc, h.pipe,
        fun q => (q hab).elim, fun q => (hns q).elim, h.secured⟩
    · have hr' : s.running = false := by simpa using hr
      simp only [hr', Bool.false_eq_true, if_false]
      refine ⟨?_, h.nodup, h.below, h.ducts, by intro c hc; exact Pc.noConfusion hc, h.pipe,
        fun _ => ⟨rfl, Or.inl rfl⟩, fun q => (hns q).elim, h.secured⟩
      intro x
      simp only [places, Pc.held, count_append_one, hw x, count_cons', List.count_nil]
      omega
  · -- sent
    rename_i hpc
    simp only [places, hpc, Pc.held] at hw
    have hab : s.abandoned = [] := by
      by_contra q; rcases (hg q).2 with e | e <;> (rw [hpc] at e; exact Pc.noConfusion e)
    have hns : s.saidAll ≠ true := by
      intro q; rcases (hsd q).2.2.2.1 with e | e <;> (rw [hpc] at e; exact Pc.noConfusion e)
    split
    · exact h
    · exact ⟨by simpa only [places, Pc.held] using hw, h.nodup, h.below, h.ducts, by intro c hc; exact Pc.noConfusion hc, h.pipe,
        fun q => (q hab).elim, fun q => (hns q).elim, h.secured⟩
  · exact h

theorem inv_step {C : Cfg} {s : Src} (h : Inv C s) (e : Ev) : Inv C (s.step C e) := by
  cases e with
  | main a => exact inv_main h a
  | ok id =>
    unfold Src.step
    dsimp only
    split
    · exact h
    · rename_i b hb
      obtain ⟨hm, rfl⟩ := named_some hb
      obtain ⟨hl, hf⟩ := h.leave hm
      refine ⟨?_, h.nodup, h.below, hl, hf, ?_, h.gone, ?_, h.secured⟩
      · intro x
        have := h.whole x
        simp only [places, count_append_one] at *
        have := count_erase_self' (x := x) hm
        omega
      · exact Nat.le_trans (List.length_erase_le) h.pipe
      · intro q
        have := h.said q
        rw [this.1] at hm
        exact (List.not_mem_nil hm).elim
  | fail id =>
    unfold Src.step
    dsimp only
    split
    · exact h
    · rename_i b hb
      obtain ⟨hm, rfl⟩ := named_some hb
      obtain ⟨hl, hf⟩ := h.leave hm
      have hsd : s.saidAll ≠ true := by
        intro q; have := h.said q; rw [this.1] at hm; exact List.not_mem_nil hm
      by_cases hi : C.inPlace = true
      · simp only [hi, if_true]
        refine ⟨?_, h.nodup, h.below, ?_, h.fwd, h.pipe, h.gone, fun q => (hsd q).elim, fun q => ?_⟩
        · intro x
          have := h.whole x
          simp only [places, count_append_one] at *
          have := count_erase_self' (x := x) hm
          omega
        · intro c hc
          rcases hc with hc | hc
          · exact h.ducts c (Or.inl (List.mem_of_mem_erase hc))
          · rcases List.mem_append.mp hc with hc | hc
            · exact h.ducts c (Or.inr hc)
            · simp at hc; subst hc; exact h.ducts _ (Or.inl hm)
        · rw [hi] at q; exact Bool.noConfusion q
      · simp only [hi, Bool.false_eq_true, if_false]
        refine ⟨?_, h.nodup, h.below, hl, hf, Nat.le_trans (List.length_erase_le) h.pipe, h.gone, fun q => (hsd q).elim, h.secured⟩
        intro x
        have := h.whole x
        simp only [places, count_append_one] at *
        have := count_erase_self' (x := x) hm
        omega
  | failLate id =>
    unfold Src.step
    dsimp only
    split
    · exact h
    · rename_i b hb
      obtain ⟨hm, rfl⟩ := named_some hb
      refine ⟨?_, h.nodup, h.below, h.ducts, h.fwd, h.pipe, h.gone, h.said, h.secured⟩
      intro x
      have := h.whole x
      simp only [places, count_append_one] at *
      have := count_erase_self' (x := x) hm
      omega
  | link d => exact ⟨h.whole, h.nodup, h.below, h.ducts, h.fwd, h.pipe, h.gone, h.said, h.secured⟩
  | rx => exact ⟨h.whole, h.nodup, h.below, h.ducts, h.fwd, h.pipe, h.gone, h.said, h.secured⟩
  | stop =>
    refine ⟨h.whole, h.nodup, h.below, h.ducts, h.fwd, h.pipe, fun q => ⟨rfl, (h.gone q).2⟩, fun q => ?_, h.secured⟩
    have := h.said q
    exact ⟨this.1, this.2.1, rfl, this.2.2.2⟩

theorem inv_run {C : Cfg} {s : Src} (h : Inv C s) (es : List Ev) : Inv C (run C s es) := by
  induction es generalizing s with
  | nil => exact h
  | cons e es ih => exact ih (inv_step h e)

end Hdtn.Source
