import Verif.LtpSessions.Account
import Mathlib.Tactic.SplitIfs
import Mathlib.Tactic.ByContra

/-! # The engine comes to an end of its work -/

namespace Hdtn.LtpSessions

/-- The sum of a size over all sessions. -/
def size {α} (f : α → Nat) (l : List (Nat × α)) : Nat := (l.map fun x => f x.2).sum

theorem size_put {α} (f : α → Nat) {l : List (Nat × α)} (hk : (l.map Prod.fst).Nodup) {n : Nat} {t : α}
    (h : look l n = some t) (a : α) : size f (put l n a) + f t = size f l + f a := by
  induction l with
  | nil => cases h
  | cons x l ih =>
    simp only [List.map_cons, List.nodup_cons] at hk
    by_cases hx : x.1 = n
    · have ht : x.2 = t := by
        unfold look at h
        rw [List.find?_cons_of_pos (by simp [hx])] at h
        exact Option.some.inj h
      have hab : ∀ y ∈ l, y.1 ≠ n := fun y hy k => hk.1 (by rw [hx, ← k]; exact List.mem_map_of_mem hy)
      have e : put (x :: l) n a = (n, a) :: put l n a := by unfold put; simp [hx]
      rw [e, put_absent a hab]
      unfold size
      simp only [List.map_cons, List.sum_cons]
      rw [ht]; omega
    · have h' : look l n = some t := by
        unfold look at h ⊢
        rwa [List.find?_cons_of_neg (by simp [hx])] at h
      have := ih hk.2 h'
      have e : put (x :: l) n a = x :: put l n a := by unfold put; simp [hx]
      rw [e]
      unfold size at this ⊢
      simp only [List.map_cons, List.sum_cons]
      omega

theorem size_drop {α} (f : α → Nat) (l : List (Nat × α)) (n : Nat) : size f (drop l n) ≤ size f l := by
  induction l with
  | nil => exact Nat.le_refl _
  | cons x l ih =>
    unfold drop at ih ⊢
    rw [List.filter_cons]
    split
    · unfold size at ih ⊢
      simp only [List.map_cons, List.sum_cons]
      omega
    · unfold size at ih ⊢
      simp only [List.map_cons, List.sum_cons]
      omega

/-- What a session has to send. -/
def Tx.load (t : Tx) : Nat := t.acks.length + t.resend.length + t.first.length

/-- What there is to send. -/
def Eng.work (s : Eng) : Nat :=
  size Tx.load s.tx + size List.length s.rx + s.cancels.length + s.closed.length

/-- Four times the work, and the calls posted. -/
def Eng.left (s : Eng) : Nat := 4 * s.work + s.posted

/-- No two sessions have the same number. -/
def Keys (s : Eng) : Prop := (s.tx.map Prod.fst).Nodup ∧ (s.rx.map Prod.fst).Nodup

theorem left_of {s s' : Eng} {k : Nat} (h1 : size Tx.load s'.tx + size List.length s'.rx + k ≤
    size Tx.load s.tx + size List.length s.rx) (h2 : s'.cancels = s.cancels) (h3 : s'.closed = s.closed)
    (h4 : s'.posted ≤ s.posted + k) : s'.left + 3 * k ≤ s.left := by
  unfold Eng.left Eng.work
  rw [h2, h3]
  omega

theorem load_critical {t t' : Tx} {p : Nat} (h : t.takeCritical = some (p, t')) :
    t'.load + 1 = t.load := by
  unfold Tx.takeCritical at h
  unfold Tx.load
  split at h
  · rename_i a as ha
    have := Option.some.inj h
    cases this
    rw [ha]; simp; omega
  · split at h
    · cases h
    · split at h
      · rename_i p' ps hp
        have := Option.some.inj h
        cases this
        rw [hp]; simp; omega
      · cases h

/-- What one part of `next` does. -/
def Less (s : Eng) (x : Option Out × Eng) : Prop :=
  Keys x.2 ∧ x.2.left + (if x.1.isSome then 3 else 0) ≤ s.left

theorem less_after {s s1 : Eng} {x : Option Out × Eng} (h : s1.left ≤ s.left) (hx : Less s1 x) :
    Less s x := ⟨hx.1, Nat.le_trans hx.2 h⟩

theorem less_deletes (c : Cfg) (q : List Nat) : ∀ s : Eng, Keys s → Less s (deletes c s q) := by
  induction q with
  | nil => intro s hk; unfold deletes; exact ⟨hk, Nat.le_refl _⟩
  | cons n q ih =>
    intro s hk
    unfold deletes
    split
    · exact ih s hk
    · rename_i t hl
      split
      · rename_i p t' hc
        refine ⟨⟨nodup_put n t' hk.1, hk.2⟩, ?_⟩
        have h1 := size_put Tx.load hk.1 hl t'
        have h2 := load_critical hc
        refine left_of (k := 1) (s := s) (s' := { s with tx := put s.tx n t', qDelete := n :: q }) ?_ rfl rfl (Nat.le_succ _)
        show size Tx.load (put s.tx n t') + size List.length s.rx + 1 ≤ _
        omega
      · obtain ⟨p1, p2, p3, p4, p5, p6, p7⟩ := close_parts c s n t
        have hp : (s.close c n t).posted = s.posted := by
          unfold Eng.close Eng.giveBack Eng.erase
          dsimp only
          split_ifs <;> rfl
        refine less_after ?_ (ih _ ⟨by rw [p1]; exact keys_drop n hk.1, by rw [p2]; exact hk.2⟩)
        refine left_of (k := 0) ?_ p5 p6 (Nat.le_of_eq hp)
        rw [p1, p2]
        have := size_drop Tx.load s.tx n
        omega

theorem less_pending (c : Cfg) (q : List Nat) : ∀ s : Eng, Keys s →
    Keys (tellPending c s q) ∧ (tellPending c s q).left = s.left := by
  induction q with
  | nil => intro s hk; exact ⟨hk, rfl⟩
  | cons u q ih =>
    intro s hk
    unfold tellPending
    split
    · exact ih _ hk
    · exact ⟨hk, rfl⟩

theorem less_rxDeletes (q : List Nat) : ∀ s : Eng, Keys s → Less s (rxDeletes s q) := by
  induction q with
  | nil => intro s hk; unfold rxDeletes; exact ⟨hk, Nat.le_refl _⟩
  | cons r q ih =>
    intro s hk
    unfold rxDeletes
    split
    · exact ih s hk
    · rename_i p ps hl
      refine ⟨⟨hk.1, nodup_put r ps hk.2⟩, ?_⟩
      have h1 := size_put List.length hk.2 hl ps
      refine left_of (k := 1) (s := s) (s' := { s with rx := put s.rx r ps, qRxDelete := r :: q }) ?_ rfl rfl (Nat.le_succ _)
      show size Tx.load s.tx + size List.length (put s.rx r ps) + 1 ≤ _
      simp only [List.length_cons] at h1
      omega
    · have h0 : ({ s with rx := drop s.rx r } : Eng).left ≤ s.left := by
        refine left_of (k := 0) ?_ rfl rfl (Nat.le_refl _)
        have := size_drop List.length s.rx r
        show size Tx.load s.tx + size List.length (drop s.rx r) + 0 ≤ _
        omega
      exact less_after h0 (ih _ ⟨hk.1, keys_drop r hk.2⟩)

theorem less_criticals (q : List Nat) : ∀ s : Eng, Keys s → Less s (criticals s q) := by
  induction q with
  | nil => intro s hk; unfold criticals; exact ⟨hk, Nat.le_refl _⟩
  | cons n q ih =>
    intro s hk
    unfold criticals
    split
    · exact ih s hk
    · rename_i t hl
      split
      · rename_i p t' hc
        refine ⟨⟨nodup_put n t' hk.1, hk.2⟩, ?_⟩
        have h1 := size_put Tx.load hk.1 hl t'
        have h2 := load_critical hc
        refine left_of (k := 1) (s := s) (s' := { s with tx := put s.tx n t', qCritical := n :: q }) ?_ rfl rfl (Nat.le_succ _)
        show size Tx.load (put s.tx n t') + size List.length s.rx + 1 ≤ _
        omega
      · exact ih s hk

theorem less_rxSends (q : List Nat) : ∀ s : Eng, Keys s → Less s (rxSends s q) := by
  induction q with
  | nil => intro s hk; unfold rxSends; exact ⟨hk, Nat.le_refl _⟩
  | cons r q ih =>
    intro s hk
    unfold rxSends
    split
    · rename_i p ps hl
      refine ⟨⟨hk.1, nodup_put r ps hk.2⟩, ?_⟩
      have h1 := size_put List.length hk.2 hl ps
      refine left_of (k := 1) (s := s) (s' := { s with rx := put s.rx r ps, qRx := r :: q }) ?_ rfl rfl (Nat.le_succ _)
      show size Tx.load s.tx + size List.length (put s.rx r ps) + 1 ≤ _
      simp only [List.length_cons] at h1
      omega
    · exact ih s hk

theorem less_firsts (q : List Nat) : ∀ s : Eng, Keys s → Less s (firsts s q) := by
  induction q with
  | nil => intro s hk; unfold firsts; exact ⟨hk, Nat.le_refl _⟩
  | cons n q ih =>
    intro s hk
    unfold firsts
    split
    · exact ih s hk
    · rename_i t hl
      split
      · rename_i p ps hp
        unfold Eng.afterFirst
        split_ifs
        · refine ⟨⟨nodup_put n _ hk.1, hk.2⟩, ?_⟩
          have h1 := size_put Tx.load hk.1 hl
            { t with first := ps, notified := true, failed := t.failed || false, told := true }
          refine left_of (k := 1) (s := s) (s' := ({ s with qFirst := n :: q } : Eng).finish n { t with first := ps } false) ?_ rfl rfl (Nat.le_refl _)
          show size Tx.load (put s.tx n
            { t with first := ps, notified := true, failed := t.failed || false, told := true }) +
            size List.length s.rx + 1 ≤ _
          unfold Tx.load at h1 ⊢
          rw [hp] at h1
          simp only [List.length_cons] at h1
          omega
        · refine ⟨⟨nodup_put n _ hk.1, hk.2⟩, ?_⟩
          have h1 := size_put Tx.load hk.1 hl { t with first := ps }
          refine left_of (k := 1) (s := s) (s' := { s with qFirst := n :: q, tx := put s.tx n { t with first := ps } }) ?_ rfl rfl (Nat.le_succ _)
          show size Tx.load (put s.tx n { t with first := ps }) + size List.length s.rx + 1 ≤ _
          unfold Tx.load at h1 ⊢
          rw [hp] at h1
          simp only [List.length_cons] at h1
          omega
      · exact ih s hk

theorem less_nextLive (s : Eng) (hk : Keys s) : Less s s.nextLive := by
  unfold Eng.nextLive
  split
  · rename_i x xs hx
    refine ⟨hk, ?_⟩
    unfold Eng.left Eng.work
    rw [hx]
    simp only [List.length_cons, Option.isSome, if_true]
    omega
  · split
    · rename_i x xs hx
      refine ⟨hk, ?_⟩
      unfold Eng.left Eng.work
      rw [hx]
      simp only [List.length_cons, Option.isSome, if_true]
      omega
    · have h1 := less_criticals s.qCritical s hk
      split
      · rename_i he; rw [he] at h1; exact h1
      · rename_i s1 he
        rw [he] at h1
        have h2 := less_rxSends s1.qRx s1 h1.1
        have l1 : s1.left ≤ s.left := h1.2
        split
        · rename_i he2; rw [he2] at h2; exact less_after l1 h2
        · rename_i s2 he2
          rw [he2] at h2
          exact less_after (Nat.le_trans h2.2 l1) (less_firsts s2.qFirst s2 h2.1)

theorem less_next (c : Cfg) (s : Eng) (hk : Keys s) : Less s (s.next c) := by
  unfold Eng.next
  have h1 := less_deletes c s.qDelete s hk
  split
  · rename_i he; rw [he] at h1; exact h1
  · rename_i s1 he
    rw [he] at h1
    have l1 : s1.left ≤ s.left := h1.2
    obtain ⟨k2, l2⟩ := less_pending c s1.pending s1 h1.1
    dsimp only
    have h3 := less_rxDeletes (tellPending c s1 s1.pending).qRxDelete _ k2
    have l2' : (tellPending c s1 s1.pending).left ≤ s.left := by rw [l2]; exact l1
    split
    · rename_i he3; rw [he3] at h3; exact less_after l2' h3
    · rename_i s3 he3
      rw [he3] at h3
      exact less_after (Nat.le_trans h3.2 l2') (less_nextLive s3 h3.1)

/-- What is left to do: see `C148_ends`. -/
def Eng.todo (s : Eng) : Nat := s.left + 2 * s.flight

theorem todo_fill (c : Cfg) (k : Nat) : ∀ s : Eng, Keys s → (s.fill c k).todo ≤ s.todo := by
  induction k with
  | zero => intro s _; exact Nat.le_refl _
  | succ k ih =>
    intro s hk
    have h1 := less_next c s hk
    have hf := frame_next c s
    unfold Eng.fill
    split
    · rename_i s' hn
      rw [hn] at h1 hf
      unfold Eng.todo
      have := h1.2
      have := hf.flight
      dsimp only at *
      simp only [Option.isSome, Bool.false_eq_true, if_false] at *
      omega
    · rename_i o s' hn
      rw [hn] at h1 hf
      refine Nat.le_trans (ih _ h1.1) ?_
      have a := h1.2
      have b := hf.flight
      dsimp only at *
      simp only [Option.isSome, if_true] at a
      unfold Eng.todo
      show s'.left + 2 * (s'.flight + 1) ≤ _
      omega

theorem todo_step {c : Cfg} {s : Eng} (hk : Keys s) {e : Ev} (he : e.effective s) :
    (s.step c e).todo + 1 ≤ s.todo := by
  cases e <;> try exact False.elim he
  · have he' : s.posted ≠ 0 := he
    unfold Eng.step
    dsimp only
    rw [if_neg he']
    have := todo_fill c (c.max - s.queued) ({ s with posted := s.posted - 1 } : Eng) hk
    unfold Eng.saturate
    refine Nat.le_trans (Nat.succ_le_succ this) ?_
    unfold Eng.todo Eng.left Eng.work
    dsimp only
    omega
  · have he' : s.flight ≠ 0 := he
    unfold Eng.step
    dsimp only
    rw [if_neg he']
    unfold Eng.todo Eng.left Eng.work
    split_ifs <;> dsimp only <;> omega

theorem keys_fill (c : Cfg) (k : Nat) : ∀ s : Eng, Keys s → Keys (s.fill c k) := by
  induction k with
  | zero => intro s h; exact h
  | succ k ih =>
    intro s hk
    have h1 := less_next c s hk
    unfold Eng.fill
    split
    · rename_i s' hn; rw [hn] at h1; exact h1.1
    · rename_i o s' hn; rw [hn] at h1; exact ih _ h1.1

theorem keys_step {c : Cfg} {s : Eng} (hk : Keys s) {e : Ev} (he : e.effective s) :
    Keys (s.step c e) := by
  cases e <;> try exact False.elim he
  · unfold Eng.step
    dsimp only
    split_ifs
    · exact hk
    · exact keys_fill c _ _ hk
  · unfold Eng.step
    dsimp only
    split_ifs <;> exact hk

theorem effective_length {c : Cfg} (es : List Ev) : ∀ s : Eng, Keys s → Effective c s es →
    es.length ≤ s.todo := by
  induction es with
  | nil => intro s _ _; exact Nat.zero_le _
  | cons e es ih =>
    intro s hk he
    have h1 := todo_step (c := c) hk he.1
    have h2 := ih _ (keys_step hk he.1) he.2
    simp only [List.length_cons]
    omega

theorem drains_aux {c : Cfg} (m : Nat) : ∀ s : Eng, Keys s → s.todo ≤ m →
    ∃ es, Effective c s es ∧ (es.foldl (Eng.step c) s).posted = 0 ∧
      (es.foldl (Eng.step c) s).flight = 0 := by
  induction m with
  | zero =>
    intro s _ hm
    refine ⟨[], trivial, ?_, ?_⟩ <;> show _ = 0 <;> unfold Eng.todo Eng.left at hm <;> simp <;> omega
  | succ m ih =>
    intro s hk hm
    have go : ∀ e : Ev, e.effective s → ∃ es, Effective c s es ∧ (es.foldl (Eng.step c) s).posted = 0 ∧
        (es.foldl (Eng.step c) s).flight = 0 := fun e he => by
      have h1 := todo_step (c := c) hk he
      have h2 : (s.step c e).todo ≤ m := by omega
      obtain ⟨es, a, b⟩ := ih _ (keys_step (c := c) hk he) h2
      exact ⟨e :: es, ⟨he, a⟩, b⟩
    by_cases hp : s.posted = 0
    · by_cases hf : s.flight = 0
      · exact ⟨[], trivial, hp, hf⟩
      · exact go .completed hf
    · exact go .posted hp

/-! ### Reads that fail -/

/-- All places in the pipeline are taken, and nothing is under way that frees one. -/
def Stuck (c : Cfg) (s : Eng) : Prop := c.max ≤ s.queued ∧ s.flight = 0

theorem stuck_saturate {c : Cfg} {s : Eng} (h : Stuck c s) : s.saturate c = s := by
  unfold Eng.saturate
  rw [Nat.sub_eq_zero_of_le h.1]
  rfl

theorem stuck_start {c : Cfg} {s : Eng} (h : Stuck c s) (n : Nat) (r : Request) :
    Stuck c (s.start c n r) ∧ (s.start c n r).sent = s.sent := by
  unfold Eng.start
  split
  · exact ⟨h, rfl⟩
  · dsimp only
    rw [stuck_saturate (by exact h)]
    exact ⟨h, rfl⟩

theorem stuck_step {c : Cfg} {s : Eng} (h : Stuck c s) (e : Ev) :
    Stuck c (s.step c e) ∧ (s.step c e).sent = s.sent := by
  have sat : ∀ s' : Eng, s'.queued = s.queued → s'.flight = s.flight → s'.sent = s.sent →
      Stuck c (s'.saturate c) ∧ (s'.saturate c).sent = s.sent := fun s' a b d => by
    have h' : Stuck c s' := ⟨by rw [a]; exact h.1, by rw [b]; exact h.2⟩
    rw [stuck_saturate h']
    exact ⟨h', d⟩
  cases e with
  | request n r ok =>
    unfold Eng.step
    dsimp only
    split_ifs
    · exact ⟨h, rfl⟩
    · exact ⟨h, rfl⟩
    · exact stuck_start h n r
  | written i n =>
    unfold Eng.step
    dsimp only
    split
    · rename_i r hr
      have := stuck_start (s := { s with writes := s.writes.eraseIdx i }) (by exact h) n r
      unfold Eng.written
      dsimp only
      split_ifs <;> exact this
    · exact ⟨h, rfl⟩
  | report n ack fresh all extra =>
    unfold Eng.step
    dsimp only
    split
    · unfold Eng.reportIn Eng.producible Eng.finish
      dsimp only
      split_ifs <;> exact sat _ rfl rfl rfl
    · exact sat _ rfl rfl rfl
  | checkpoint n p retry skip =>
    unfold Eng.step
    dsimp only
    split
    · unfold Eng.checkpoint Eng.producible Eng.finish
      dsimp only
      split_ifs <;> exact ⟨h, rfl⟩
    · exact ⟨h, rfl⟩
  | delayed n extra =>
    unfold Eng.step
    dsimp only
    split
    · unfold Eng.producible
      split_ifs <;> exact ⟨h, rfl⟩
    · exact ⟨h, rfl⟩
  | cancelIn n p =>
    unfold Eng.step
    dsimp only
    split
    · unfold Eng.giveBack Eng.erase
      dsimp only
      split_ifs <;> exact sat _ rfl rfl rfl
    · exact sat _ rfl rfl rfl
  | cancel n =>
    unfold Eng.step
    dsimp only
    split
    · unfold Eng.giveBack Eng.erase
      dsimp only
      split_ifs <;> exact sat _ rfl rfl rfl
    · exact ⟨h, rfl⟩
  | cancelTimer x => exact sat _ rfl rfl rfl
  | rxOpen r =>
    unfold Eng.step
    dsimp only
    split <;> exact ⟨h, rfl⟩
  | rxMake r ps =>
    unfold Eng.step
    dsimp only
    split <;> exact ⟨h, rfl⟩
  | rxEnd r b => exact ⟨h, rfl⟩
  | rxCancelIn r p => exact sat _ rfl rfl rfl
  | posted =>
    unfold Eng.step
    dsimp only
    split_ifs
    · exact ⟨h, rfl⟩
    · exact sat _ rfl rfl rfl
  | completed =>
    unfold Eng.step
    dsimp only
    rw [if_pos h.2]
    exact ⟨h, rfl⟩
  | readFailed =>
    unfold Eng.step
    dsimp only
    rw [if_neg (fun k => k.2 h.2)]
    exact ⟨h, rfl⟩
  | housekeeping => exact sat _ rfl rfl rfl

theorem stuck_run {c : Cfg} (es : List Ev) : ∀ s : Eng, Stuck c s →
    (es.foldl (Eng.step c) s).sent = s.sent := by
  induction es with
  | nil => intro s _; rfl
  | cons e es ih =>
    intro s h
    obtain ⟨a, b⟩ := stuck_step h e
    exact (ih _ a).trans b

end Hdtn.LtpSessions
