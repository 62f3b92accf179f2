import Verif.LtpSessions.Spec
import Mathlib.Data.List.Nodup
import Mathlib.Data.List.Induction

namespace Hdtn.LtpSessions

/-! ## Maps -/

theorem look_mem {α} {l : List (Nat × α)} {n : Nat} {a : α} (h : look l n = some a) :
    (n, a) ∈ l := by
  unfold look at h
  split at h
  · rename_i x hx
    have h1 := List.find?_some hx
    have h2 := List.mem_of_find?_eq_some hx
    have h3 := Option.some.inj h
    have h4 : x.1 = n := by simpa using h1
    have : x = (n, a) := Prod.ext h4 h3
    rw [← this]; exact h2
  · cases h

theorem look_none {α} {l : List (Nat × α)} {n : Nat} (h : look l n = none) :
    ∀ x ∈ l, x.1 ≠ n := by
  unfold look at h
  split at h
  · cases h
  · rename_i hx
    intro x hm he
    have := List.find?_eq_none.mp hx x hm
    simp [he] at this

theorem mem_look {α} {l : List (Nat × α)} (hk : (l.map Prod.fst).Nodup) {x : Nat × α}
    (h : x ∈ l) : look l x.1 = some x.2 := by
  cases hl : look l x.1 with
  | none => exact absurd rfl (look_none hl x h)
  | some a =>
    have hm := look_mem hl
    have := List.inj_on_of_nodup_map hk hm h rfl
    rw [← this]

theorem mem_put {α} {l : List (Nat × α)} {n : Nat} {a : α} {x : Nat × α} (h : x ∈ put l n a) :
    x = (n, a) ∨ (x ∈ l ∧ x.1 ≠ n) := by
  unfold put at h
  obtain ⟨y, hy, he⟩ := List.mem_map.mp h
  split at he
  · exact Or.inl he.symm
  · subst he; exact Or.inr ⟨hy, by assumption⟩

theorem mem_drop {α} {l : List (Nat × α)} {n : Nat} {x : Nat × α} :
    x ∈ drop l n ↔ x ∈ l ∧ x.1 ≠ n := by simp [drop]

theorem keys_put {α} (l : List (Nat × α)) (n : Nat) (a : α) :
    (put l n a).map Prod.fst = l.map Prod.fst := by
  unfold put
  rw [List.map_map]
  apply List.map_congr_left
  intro x _
  show (if x.1 = n then (n, a) else x).1 = x.1
  split
  · rename_i h; exact h.symm
  · rfl

theorem nodup_put {α} {l : List (Nat × α)} (n : Nat) (a : α) (h : (l.map Prod.fst).Nodup) :
    ((put l n a).map Prod.fst).Nodup := by rw [keys_put]; exact h

theorem keys_drop {α} {l : List (Nat × α)} (n : Nat) (h : (l.map Prod.fst).Nodup) :
    ((drop l n).map Prod.fst).Nodup :=
  (List.Sublist.map Prod.fst (List.filter_sublist)).nodup h

theorem put_absent {α} {l : List (Nat × α)} {n : Nat} (a : α) (h : ∀ x ∈ l, x.1 ≠ n) :
    put l n a = l := by
  unfold put
  conv => rhs; rw [← List.map_id l]
  apply List.map_congr_left
  intro x hx
  simp [h x hx]

theorem drop_absent {α} {l : List (Nat × α)} {n : Nat} (h : ∀ x ∈ l, x.1 ≠ n) :
    drop l n = l := by
  unfold drop
  apply List.filter_eq_self.mpr
  intro x hx; simp [h x hx]

theorem count_put {α} {l : List (Nat × α)} (hk : (l.map Prod.fst).Nodup) {n : Nat} {t : α}
    (h : (n, t) ∈ l) (a : α) (p : Nat × α → Bool) :
    (put l n a).countP p + (if p (n, t) then 1 else 0)
      = l.countP p + (if p (n, a) then 1 else 0) := by
  induction l with
  | nil => cases h
  | cons y l ih =>
    rw [List.map_cons, List.nodup_cons] at hk
    rcases List.mem_cons.mp h with he | hm
    · subst he
      have hab : ∀ x ∈ l, x.1 ≠ n := fun x hx he => hk.1 (List.mem_map.mpr ⟨x, hx, he⟩)
      have : put ((n, t) :: l) n a = (n, a) :: l := by
        have := put_absent a hab
        unfold put at this ⊢
        rw [List.map_cons, this]; simp
      rw [this, List.countP_cons, List.countP_cons]; omega
    · have hne : y.1 ≠ n := fun he => hk.1 (List.mem_map.mpr ⟨(n, t), hm, he.symm⟩)
      have : put (y :: l) n a = y :: put l n a := by
        unfold put; rw [List.map_cons]; simp [hne]
      rw [this, List.countP_cons, List.countP_cons]
      have := ih hk.2 hm
      omega

theorem count_drop {α} {l : List (Nat × α)} (hk : (l.map Prod.fst).Nodup) {n : Nat} {t : α}
    (h : (n, t) ∈ l) (p : Nat × α → Bool) :
    (drop l n).countP p + (if p (n, t) then 1 else 0) = l.countP p := by
  induction l with
  | nil => cases h
  | cons y l ih =>
    rw [List.map_cons, List.nodup_cons] at hk
    rcases List.mem_cons.mp h with he | hm
    · subst he
      have hab : ∀ x ∈ l, x.1 ≠ n := fun x hx he => hk.1 (List.mem_map.mpr ⟨x, hx, he⟩)
      have : drop ((n, t) :: l) n = l := by
        have := drop_absent hab
        unfold drop at this ⊢
        rw [List.filter_cons]; simpa using this
      rw [this, List.countP_cons]
    · have hne : y.1 ≠ n := fun he => hk.1 (List.mem_map.mpr ⟨(n, t), hm, he.symm⟩)
      have : drop (y :: l) n = y :: drop l n := by
        unfold drop; rw [List.filter_cons]; simp [hne]
      rw [this, List.countP_cons, List.countP_cons]
      have := ih hk.2 hm
      omega

/-! ## What the loops leave alone -/

/-- `s'` differs from `s` in sessions, queues and calls only. -/
structure Frame (s s' : Eng) : Prop where
  queued : s'.queued = s.queued
  flight : s'.flight = s.flight
  sent : s'.sent = s.sent
  writes : s'.writes = s.writes
  posted : s.posted ≤ s'.posted
  late : s'.late = s.late

theorem Frame.refl (s : Eng) : Frame s s := ⟨rfl, rfl, rfl, rfl, Nat.le_refl _, rfl⟩

theorem Frame.trans {a b d : Eng} (h : Frame a b) (k : Frame b d) : Frame a d :=
  ⟨k.queued.trans h.queued, k.flight.trans h.flight, k.sent.trans h.sent,
   k.writes.trans h.writes, Nat.le_trans h.posted k.posted, k.late.trans h.late⟩

theorem frame_close (c : Cfg) (s : Eng) (n : Nat) (t : Tx) : Frame s (s.close c n t) := by
  unfold Eng.close Eng.giveBack Eng.erase
  dsimp only
  split_ifs <;> exact ⟨rfl, rfl, rfl, rfl, Nat.le_refl _, rfl⟩

theorem frame_finish (s : Eng) (n : Nat) (t : Tx) (b : Bool) : Frame s (s.finish n t b) :=
  ⟨rfl, rfl, rfl, rfl, Nat.le_succ _, rfl⟩

theorem frame_deletes (c : Cfg) (q : List Nat) : ∀ s : Eng, Frame s (deletes c s q).2 := by
  induction q with
  | nil => intro s; exact ⟨rfl, rfl, rfl, rfl, Nat.le_refl _, rfl⟩
  | cons n q ih =>
    intro s
    unfold deletes
    split
    · exact ih s
    · split
      · exact ⟨rfl, rfl, rfl, rfl, Nat.le_refl _, rfl⟩
      · exact (frame_close c s n _).trans (ih _)

theorem frame_pending (c : Cfg) (q : List Nat) : ∀ s : Eng, Frame s (tellPending c s q) := by
  induction q with
  | nil => intro s; exact ⟨rfl, rfl, rfl, rfl, Nat.le_refl _, rfl⟩
  | cons n q ih =>
    intro s
    unfold tellPending
    split
    · refine Frame.trans ?_ (ih _); exact ⟨rfl, rfl, rfl, rfl, Nat.le_refl _, rfl⟩
    · exact ⟨rfl, rfl, rfl, rfl, Nat.le_refl _, rfl⟩

theorem frame_rxDeletes (q : List Nat) : ∀ s : Eng, Frame s (rxDeletes s q).2 := by
  induction q with
  | nil => intro s; exact ⟨rfl, rfl, rfl, rfl, Nat.le_refl _, rfl⟩
  | cons n q ih =>
    intro s
    unfold rxDeletes
    split
    · exact ih s
    · exact ⟨rfl, rfl, rfl, rfl, Nat.le_refl _, rfl⟩
    · refine Frame.trans ?_ (ih _); exact ⟨rfl, rfl, rfl, rfl, Nat.le_refl _, rfl⟩

theorem frame_criticals (q : List Nat) : ∀ s : Eng, Frame s (criticals s q).2 := by
  induction q with
  | nil => intro s; exact ⟨rfl, rfl, rfl, rfl, Nat.le_refl _, rfl⟩
  | cons n q ih =>
    intro s
    unfold criticals
    split
    · exact ih s
    · split
      · exact ⟨rfl, rfl, rfl, rfl, Nat.le_refl _, rfl⟩
      · exact ih s

theorem frame_rxSends (q : List Nat) : ∀ s : Eng, Frame s (rxSends s q).2 := by
  induction q with
  | nil => intro s; exact ⟨rfl, rfl, rfl, rfl, Nat.le_refl _, rfl⟩
  | cons n q ih =>
    intro s
    unfold rxSends
    split
    · exact ⟨rfl, rfl, rfl, rfl, Nat.le_refl _, rfl⟩
    · exact ih s

theorem frame_afterFirst (s : Eng) (n : Nat) (t : Tx) : Frame s (s.afterFirst n t) := by
  unfold Eng.afterFirst
  split
  · exact frame_finish s n t false
  · exact ⟨rfl, rfl, rfl, rfl, Nat.le_refl _, rfl⟩

theorem frame_firsts (q : List Nat) : ∀ s : Eng, Frame s (firsts s q).2 := by
  induction q with
  | nil => intro s; exact ⟨rfl, rfl, rfl, rfl, Nat.le_refl _, rfl⟩
  | cons n q ih =>
    intro s
    unfold firsts
    split
    · exact ih s
    · split
      · refine Frame.trans ?_ (frame_afterFirst _ _ _); exact ⟨rfl, rfl, rfl, rfl, Nat.le_refl _, rfl⟩
      · exact ih s

theorem frame_nextLive (s : Eng) : Frame s s.nextLive.2 := by
  unfold Eng.nextLive
  split
  · exact ⟨rfl, rfl, rfl, rfl, Nat.le_refl _, rfl⟩
  · split
    · exact ⟨rfl, rfl, rfl, rfl, Nat.le_refl _, rfl⟩
    · have h1 := frame_criticals s.qCritical s
      split
      · rename_i h; rw [h] at h1; exact h1
      · rename_i s1 h; rw [h] at h1
        have h2 := frame_rxSends s1.qRx s1
        split
        · rename_i h; rw [h] at h2; exact h1.trans h2
        · rename_i s2 h; rw [h] at h2
          exact (h1.trans h2).trans (frame_firsts _ _)

theorem frame_next (c : Cfg) (s : Eng) : Frame s (s.next c).2 := by
  unfold Eng.next
  have h1 := frame_deletes c s.qDelete s
  split
  · rename_i h; rw [h] at h1; exact h1
  · rename_i s1 h; rw [h] at h1
    have h2 := frame_pending c s1.pending s1
    dsimp only
    have h3 := frame_rxDeletes (tellPending c s1 s1.pending).qRxDelete (tellPending c s1 s1.pending)
    split
    · rename_i h; rw [h] at h3; exact (h1.trans h2).trans h3
    · rename_i s3 h; rw [h] at h3
      exact ((h1.trans h2).trans h3).trans (frame_nextLive _)

/-! ## Nothing found to send: nothing is queued -/

/-- The queues of `s'` are those of `s`, up to the one named. -/
theorem deletes_none (c : Cfg) (q : List Nat) : ∀ s s' : Eng, deletes c s q = (none, s') →
    s'.qDelete = [] := by
  induction q with
  | nil => intro s s' h; unfold deletes at h; cases h; rfl
  | cons n q ih =>
    intro s s' h
    unfold deletes at h
    split at h
    · exact ih _ _ h
    · split at h
      · cases h
      · exact ih _ _ h

theorem pending_qDelete (c : Cfg) (q : List Nat) : ∀ s : Eng,
    (tellPending c s q).qDelete = s.qDelete := by
  induction q with
  | nil => intro s; rfl
  | cons n q ih =>
    intro s; unfold tellPending; split
    · rw [ih]
    · rfl

theorem rxDeletes_none (q : List Nat) : ∀ s s' : Eng, rxDeletes s q = (none, s') →
    s'.qRxDelete = [] ∧ s'.qDelete = s.qDelete := by
  induction q with
  | nil => intro s s' h; unfold rxDeletes at h; cases h; exact ⟨rfl, rfl⟩
  | cons n q ih =>
    intro s s' h
    unfold rxDeletes at h
    split at h
    · exact ih _ _ h
    · cases h
    · have := ih _ _ h; exact this

theorem criticals_none (q : List Nat) : ∀ s s' : Eng, criticals s q = (none, s') →
    s' = { s with qCritical := [] } := by
  induction q with
  | nil => intro s s' h; unfold criticals at h; cases h; rfl
  | cons n q ih =>
    intro s s' h
    unfold criticals at h
    split at h
    · exact ih _ _ h
    · split at h
      · cases h
      · exact ih _ _ h

theorem rxSends_none (q : List Nat) : ∀ s s' : Eng, rxSends s q = (none, s') →
    s' = { s with qRx := [] } := by
  induction q with
  | nil => intro s s' h; unfold rxSends at h; cases h; rfl
  | cons n q ih =>
    intro s s' h
    unfold rxSends at h
    split at h
    · cases h
    · exact ih _ _ h

theorem firsts_none (q : List Nat) : ∀ s s' : Eng, firsts s q = (none, s') →
    s' = { s with qFirst := [] } := by
  induction q with
  | nil => intro s s' h; unfold firsts at h; cases h; rfl
  | cons n q ih =>
    intro s s' h
    unfold firsts at h
    split at h
    · exact ih _ _ h
    · split at h
      · cases h
      · exact ih _ _ h

theorem next_none (c : Cfg) (s s' : Eng) (h : s.next c = (none, s')) : Quiet s' := by
  unfold Eng.next at h
  split at h
  · cases h
  · rename_i s1 h1
    dsimp only at h
    have e1 := deletes_none c _ _ _ h1
    split at h
    · cases h
    · rename_i s3 h3
      obtain ⟨e3, e3'⟩ := rxDeletes_none _ _ _ h3
      rw [pending_qDelete, e1] at e3'
      unfold Eng.nextLive at h
      split at h
      · cases h
      · rename_i hc
        split at h
        · cases h
        · rename_i hcl
          split at h
          · cases h
          · rename_i s4 h4
            have e4 := criticals_none _ _ _ h4
            split at h
            · cases h
            · rename_i s5 h5
              have e5 := rxSends_none _ _ _ h5
              have e6 := firsts_none _ _ _ h
              subst e6; subst e5; subst e4
              exact ⟨e3', e3, hc, hcl, rfl, rfl, rfl⟩

/-! ## The pipeline -/

theorem fill_spec (c : Cfg) (k : Nat) : ∀ s : Eng,
    (Quiet (s.fill c k) ∨ (s.fill c k).queued = s.queued + k) ∧
    (s.fill c k).queued ≤ s.queued + k ∧
    s.queued ≤ (s.fill c k).queued ∧
    (s.fill c k).flight + s.queued = s.flight + (s.fill c k).queued ∧
    s.posted ≤ (s.fill c k).posted ∧ (s.fill c k).writes = s.writes := by
  induction k with
  | zero => intro s; unfold Eng.fill; exact ⟨Or.inr rfl, Nat.le_refl _, Nat.le_refl _, rfl, Nat.le_refl _, rfl⟩
  | succ k ih =>
    intro s
    unfold Eng.fill
    have hf := frame_next c s
    cases hn : s.next c with
    | mk o s' =>
      rw [hn] at hf
      cases o with
      | none =>
        dsimp only
        have hq : s'.queued = s.queued := hf.queued
        have hfl : s'.flight = s.flight := hf.flight
        exact ⟨Or.inl (next_none c s s' hn), by omega, by omega, by omega, hf.posted, hf.writes⟩
      | some o =>
        dsimp only
        have hq : s'.queued = s.queued := hf.queued
        have hfl : s'.flight = s.flight := hf.flight
        have hp : s.posted ≤ s'.posted := hf.posted
        obtain ⟨a1, a2, a3, a4, a5, a6⟩ := ih { s' with
          queued := s'.queued + 1, flight := s'.flight + 1, sent := s'.sent ++ [o]
          late := if o.isFirst && s.urgent then s'.late ++ [o] else s'.late }
        dsimp only at a1 a2 a3 a4 a5 a6
        refine ⟨?_, by omega, by omega, by omega, by omega, a6.trans hf.writes⟩
        rcases a1 with h | h
        · exact Or.inl h
        · exact Or.inr (by omega)

/-- A call of the pipeline is posted, or system calls are under way whose end posts one, or
nothing is queued. -/
def Settled (c : Cfg) (s : Eng) : Prop := 0 < s.posted ∨ c.min < s.queued ∨ Quiet s

theorem saturate_settled (c : Cfg) (hc : c.min < c.max) (s : Eng) (hq : s.queued ≤ c.max) :
    Settled c (s.saturate c) ∧ (s.saturate c).queued ≤ c.max ∧
    (s.saturate c).flight + s.queued = s.flight + (s.saturate c).queued ∧
    (s.saturate c).writes = s.writes := by
  obtain ⟨a1, a2, a3, a4, a5, a6⟩ := fill_spec c (c.max - s.queued) s
  unfold Eng.saturate
  refine ⟨?_, by omega, a4, a6⟩
  rcases a1 with h | h
  · exact Or.inr (Or.inr h)
  · exact Or.inr (Or.inl (by omega))

/-- The state of the pipeline that lasts: `failed` counts the reads that failed. -/
structure Pipe (c : Cfg) (lost : Nat) (s : Eng) : Prop where
  settled : Settled c s
  queued : s.queued ≤ c.max
  flight : s.queued = s.flight + lost

theorem pipe_saturate {c : Cfg} (hc : c.min < c.max) {k : Nat} {s : Eng} (hq : s.queued ≤ c.max)
    (hf : s.queued = s.flight + k) : Pipe c k (s.saturate c) := by
  obtain ⟨a, b, d, _⟩ := saturate_settled c hc s hq
  exact ⟨a, b, by omega⟩

/-- How many reads failed. -/
def lostBy (c : Cfg) (s : Eng) : Ev → Nat
  | .readFailed => if c.disk ∧ s.flight ≠ 0 then 1 else 0
  | _ => 0

theorem pipe_start {c : Cfg} (hc : c.min < c.max) {k : Nat} {s : Eng} (h : Pipe c k s) (n : Nat)
    (r : Request) : Pipe c k (s.start c n r) := by
  unfold Eng.start
  split
  · exact h
  · exact pipe_saturate hc h.queued h.flight

theorem pipe_step {c : Cfg} (hc : c.min < c.max) {k : Nat} {s : Eng} (h : Pipe c k s) (e : Ev) :
    Pipe c (k + lostBy c s e) (s.step c e) := by
  have hq := h.queued
  have hf := h.flight
  cases e with
  | request n r ok =>
    unfold Eng.step
    dsimp only
    split_ifs
    · exact ⟨h.settled, hq, hf⟩
    · exact h
    · exact pipe_start hc h n r
  | written i n =>
    unfold Eng.step
    dsimp only
    split
    · rename_i r hr
      have h1 : Pipe c k (({ s with writes := s.writes.eraseIdx i } : Eng).start c n r) :=
        pipe_start hc (s := { s with writes := s.writes.eraseIdx i }) ⟨h.settled, hq, hf⟩ n r
      unfold Eng.written
      dsimp only
      split_ifs
      · exact ⟨h1.settled, h1.queued, h1.flight⟩
      · exact ⟨h1.settled, h1.queued, h1.flight⟩
    · exact h
  | report n ack fresh all extra =>
    unfold Eng.step
    dsimp only
    split
    · rename_i t ht
      have hk : ∀ s', Frame s s' → Pipe c k (s'.saturate c) := fun s' f =>
        pipe_saturate hc (by rw [f.queued]; exact hq) (by rw [f.queued, f.flight]; exact hf)
      apply hk
      unfold Eng.reportIn Eng.producible
      dsimp only
      split_ifs <;> exact ⟨rfl, rfl, rfl, rfl, (by first | exact Nat.le_refl _ | exact Nat.le_succ _), rfl⟩
    · exact pipe_saturate hc hq hf
  | checkpoint n p retry skip =>
    unfold Eng.step
    dsimp only
    split
    · unfold Eng.checkpoint Eng.producible
      dsimp only
      split_ifs
      · exact h
      · exact ⟨Or.inl (Nat.succ_pos _), hq, hf⟩
      · exact h
      · exact ⟨Or.inl (Nat.succ_pos _), hq, hf⟩
    · exact h
  | delayed n extra =>
    unfold Eng.step
    dsimp only
    split
    · unfold Eng.producible
      split_ifs
      · exact ⟨h.settled, hq, hf⟩
      · exact ⟨Or.inl (Nat.succ_pos _), hq, hf⟩
    · exact h
  | cancelIn n p =>
    unfold Eng.step
    dsimp only
    split
    · unfold Eng.giveBack Eng.erase
      split_ifs <;> exact pipe_saturate hc hq hf
    · exact pipe_saturate hc hq hf
  | cancel n =>
    unfold Eng.step
    dsimp only
    split
    · unfold Eng.giveBack Eng.erase
      split_ifs <;> exact pipe_saturate hc hq hf
    · exact h
  | cancelTimer x => exact pipe_saturate hc hq hf
  | rxOpen r =>
    unfold Eng.step
    dsimp only
    split
    · exact h
    · exact ⟨h.settled, hq, hf⟩
  | rxMake r ps =>
    unfold Eng.step
    dsimp only
    split
    · exact ⟨Or.inl (Nat.succ_pos _), hq, hf⟩
    · exact h
  | rxEnd r b => exact ⟨Or.inl (Nat.succ_pos _), hq, hf⟩
  | rxCancelIn r p => exact pipe_saturate hc hq hf
  | posted =>
    unfold Eng.step
    dsimp only
    split
    · exact h
    · exact pipe_saturate hc hq hf
  | completed =>
    unfold Eng.step
    dsimp only
    split
    · exact h
    · split
      · refine ⟨Or.inl (Nat.succ_pos _), ?_, ?_⟩
        · show s.queued - 1 ≤ c.max; omega
        · show s.queued - 1 = s.flight - 1 + (k + 0); omega
      · refine ⟨Or.inr (Or.inl ?_), ?_, ?_⟩
        · show c.min < s.queued - 1; omega
        · show s.queued - 1 ≤ c.max; omega
        · show s.queued - 1 = s.flight - 1 + (k + 0); omega
  | readFailed =>
    unfold Eng.step lostBy
    dsimp only
    split
    · refine ⟨h.settled, hq, ?_⟩
      show s.queued = s.flight - 1 + (k + 1); omega
    · exact h
  | housekeeping => exact pipe_saturate hc hq hf

theorem run_snoc (c : Cfg) (es : List Ev) (e : Ev) :
    Eng.run c (es ++ [e]) = (Eng.run c es).step c e := by
  unfold Eng.run; rw [List.foldl_append]; rfl

theorem pipe_run {c : Cfg} (hc : c.min < c.max) (hd : c.disk = false) (es : List Ev) :
    Pipe c 0 (Eng.run c es) := by
  induction es using List.reverseRecOn with
  | nil => exact ⟨Or.inr (Or.inr ⟨rfl, rfl, rfl, rfl, rfl, rfl, rfl⟩), Nat.zero_le _, rfl⟩
  | append_singleton es e ih =>
    rw [run_snoc]
    have := pipe_step hc ih e
    have h0 : lostBy c (Eng.run c es) e = 0 := by
      cases e <;> first | rfl | (unfold lostBy; simp [hd])
    rw [h0] at this
    exact this

theorem pipe_run_any {c : Cfg} (hc : c.min < c.max) (es : List Ev) :
    ∃ k, Pipe c k (Eng.run c es) := by
  induction es using List.reverseRecOn with
  | nil => exact ⟨0, Or.inr (Or.inr ⟨rfl, rfl, rfl, rfl, rfl, rfl, rfl⟩), Nat.zero_le _, rfl⟩
  | append_singleton es e ih =>
    obtain ⟨k, ih⟩ := ih
    rw [run_snoc]
    exact ⟨_, pipe_step hc ih e⟩

end Hdtn.LtpSessions
