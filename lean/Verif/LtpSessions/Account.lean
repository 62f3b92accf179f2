import Verif.LtpSessions.Lemmas

namespace Hdtn.LtpSessions

/-- The session was made for a request. -/
def Asked (es : List Ev) (x : Nat × Tx) : Prop :=
  ∃ ok, Ev.request x.1 ⟨x.2.user, x.2.green, x.2.block⟩ ok ∈ es

/-- What holds of every session: `x` is its number and the session, `used` the numbers drawn so
far, `S` the packets handed over. -/
structure Good (es : List Ev) (used qd qc qf : List Nat) (S : List Out) (x : Nat × Tx) : Prop where
  used : x.1 ∈ used
  held : x.2.held = true
  del : x.1 ∈ qd ↔ x.2.notified = true
  ok : x.2.notified = true → x.2.failed = false →
    x.2.first = [] ∧ (x.2.green = true ∨ x.2.done = true)
  fail : x.2.failed = true → x.2.notified = true ∧ Exhausted es x.1
  done : x.2.done = true → Claimed es x.1
  crit : x.2.takeCritical ≠ none → x.1 ∈ qc ∨ x.1 ∈ qd
  pass : x.2.first ≠ [] → x.1 ∈ qf ∨ x.1 ∈ qd
  order : firstOf x.1 S ++ x.2.first = x.2.block
  told : x.2.notified = true → x.2.told = true
  req : Asked es x

/-- What holds of every call: the session is gone, and the call was right. -/
def Gone (es : List Ev) (used keys : List Nat) (S : List Out) : Call → Prop
  | .success u (some x) => u = x.2.user ∧ x.1 ∈ used ∧ x.1 ∉ keys ∧ firstOf x.1 S = x.2.block ∧
      (x.2.green = true ∨ Claimed es x.1) ∧ Asked es x
  | .success _ none => False
  | .failed u x => u = x.2.user ∧ x.1 ∈ used ∧ x.1 ∉ keys ∧ firstOf x.1 S ++ x.2.first = x.2.block ∧
      (Exhausted es x.1 ∨ Cancelled es x.1) ∧ Asked es x
  | _ => True

def keysOf (s : Eng) : List Nat := s.tx.map Prod.fst

structure Inv (es : List Ev) (used : List Nat) (R : Nat → Nat) (S : List Out) (s : Eng) : Prop where
  keys : (keysOf s).Nodup
  good : ∀ x ∈ s.tx, Good es used s.qDelete s.qCritical s.qFirst S x
  gone : ∀ a ∈ s.calls, Gone es used (keysOf s) S a
  sent : ∀ n p, Out.first n p ∈ S → n ∈ used
  qdel : ∀ n ∈ s.qDelete, n ∈ used
  pend : s.pending = []
  wr : s.writes = []
  count : ∀ u, s.calls.countP (Call.answers u) + openFor u s = R u
  tells : ∀ u, s.calls.countP (Call.tells u) +
    s.tx.countP (fun x => x.2.user == u && !x.2.told) ≤ R u
  rx : ∀ x ∈ s.rx, x.2 ≠ [] → x.1 ∈ s.qRx ∨ x.1 ∈ s.qRxDelete
  rxk : (s.rx.map Prod.fst).Nodup
  late : s.late = []

variable {es : List Ev} {used : List Nat} {R : Nat → Nat} {S : List Out} {s : Eng}

theorem firstOf_snoc (n : Nat) (S : List Out) (o : Out) (h : ∀ p, o ≠ Out.first n p) :
    firstOf n (S ++ [o]) = firstOf n S := by
  unfold firstOf
  rw [List.filterMap_append]
  cases o with
  | first m p =>
    have : m ≠ n := fun he => h p (by rw [he])
    simp [this]
  | critical _ _ => simp
  | rx _ _ => simp
  | cancel _ => simp
  | closed _ => simp

/-- Handing over a packet which is not of a first pass. -/
theorem inv_sent (h : Inv es used R S s) (o : Out) (ho : ∀ n p, o ≠ Out.first n p) :
    Inv es used R (S ++ [o]) s := by
  refine { h with good := ?_, gone := ?_, sent := ?_ }
  · intro x hx
    have g := h.good x hx
    exact { g with order := by rw [firstOf_snoc x.1 S o (ho x.1)]; exact g.order }
  · intro a ha
    have g := h.gone a ha
    cases a with
    | success u x =>
      cases x with
      | none => exact g
      | some x =>
        show _ ∧ _
        rw [firstOf_snoc x.1 S o (ho x.1)]; exact g
    | failed u x => show _ ∧ _; rw [firstOf_snoc x.1 S o (ho x.1)]; exact g
    | completed u => trivial
    | stopped u => trivial
  · intro n p hm
    rcases List.mem_append.mp hm with hm | hm
    · exact h.sent n p hm
    · exact absurd (List.mem_singleton.mp hm).symm (ho n p)

/-- Changing a session which stays: the number of sessions and the calls do not change. -/
theorem inv_put (h : Inv es used R S s) {n : Nat} {t t' : Tx} (ht : look s.tx n = some t)
    {qd qc qf : List Nat}
    (hg : Good es used qd qc qf S (n, t'))
    (hu : t'.user = t.user) (htold : t.told = true → t'.told = true)
    (ho : ∀ x ∈ s.tx, x.1 ≠ n → Good es used qd qc qf S x)
    (hqd : ∀ m ∈ qd, m ∈ used) :
    Inv es used R S { s with tx := put s.tx n t', qDelete := qd, qCritical := qc, qFirst := qf } := by
  have hm := look_mem ht
  refine { h with keys := ?_, good := ?_, gone := ?_, qdel := hqd, count := ?_, tells := ?_ }
  · show ((put s.tx n t').map Prod.fst).Nodup
    rw [keys_put]; exact h.keys
  · intro x hx
    rcases mem_put hx with rfl | ⟨hx, hne⟩
    · exact hg
    · exact ho x hx hne
  · intro a ha
    have : keysOf ({ s with tx := put s.tx n t', qDelete := qd, qCritical := qc, qFirst := qf } : Eng)
        = keysOf s := keys_put _ _ _
    rw [this]; exact h.gone a ha
  · intro u
    have := count_put h.keys hm t' (fun x => x.2.user == u)
    have hc := h.count u
    unfold openFor at hc ⊢
    show s.calls.countP _ + (put s.tx n t').countP _ = _
    dsimp only at this
    rw [hu] at this
    omega
  · intro u
    have := count_put h.keys hm t' (fun x => x.2.user == u && !x.2.told)
    have hc := h.tells u
    dsimp only at this ⊢
    rw [hu] at this
    cases h1 : t.told
    · cases h2 : t'.told
      · rw [h1, h2] at this; omega
      · rw [h1, h2] at this
        simp only [Bool.not_true, Bool.and_false, Bool.false_eq_true, if_false, Bool.not_false, Bool.and_true] at this
        omega
    · rw [h1, htold h1] at this; omega

theorem inv_congr (h : Inv es used R S s) {s' : Eng} (h1 : s'.tx = s.tx)
    (h2 : s'.qDelete = s.qDelete) (h3 : s'.qCritical = s.qCritical) (h4 : s'.qFirst = s.qFirst)
    (h5 : s'.calls = s.calls) (h6 : s'.pending = s.pending) (h7 : s'.writes = s.writes)
    (h8 : ∀ x ∈ s'.rx, x.2 ≠ [] → x.1 ∈ s'.qRx ∨ x.1 ∈ s'.qRxDelete)
    (h9 : (s'.rx.map Prod.fst).Nodup) (h10 : s'.late = s.late) : Inv es used R S s' := by
  refine ⟨?_, ?_, ?_, h.sent, ?_, h6.trans h.pend, h7.trans h.wr, ?_, ?_, h8, h9, h10.trans h.late⟩
  · unfold keysOf; rw [h1]; exact h.keys
  · rw [h1, h2, h3, h4]; exact h.good
  · unfold keysOf; rw [h1, h5]; exact h.gone
  · rw [h2]; exact h.qdel
  · unfold openFor; rw [h1, h5]; exact h.count
  · rw [h1, h5]; exact h.tells

theorem critical_parts {t t' : Tx} {p : Nat} (h : t.takeCritical = some (p, t')) :
    t'.user = t.user ∧ t'.green = t.green ∧ t'.held = t.held ∧ t'.first = t.first ∧
    t'.block = t.block ∧ t'.done = t.done ∧ t'.failed = t.failed ∧ t'.notified = t.notified ∧
    t'.told = t.told := by
  unfold Tx.takeCritical at h
  split at h
  · have := Option.some.inj h; cases this; exact ⟨rfl, rfl, rfl, rfl, rfl, rfl, rfl, rfl, rfl⟩
  · split at h
    · cases h
    · split at h
      · have := Option.some.inj h; cases this; exact ⟨rfl, rfl, rfl, rfl, rfl, rfl, rfl, rfl, rfl⟩
      · cases h

theorem good_critical {t t' : Tx} {n p : Nat} {qd qc qf : List Nat}
    (g : Good es used qd qc qf S (n, t)) (h : t.takeCritical = some (p, t')) :
    Good es used qd qc qf S (n, t') := by
  obtain ⟨a1, a2, a3, a4, a5, a6, a7, a8, a9⟩ := critical_parts h
  refine ⟨g.used, a3.trans g.held, ?_, ?_, ?_, ?_, ?_, ?_, ?_, ?_, ?_⟩
  · show _ ↔ t'.notified = true; rw [a8]; exact g.del
  · show t'.notified = true → t'.failed = false → t'.first = [] ∧ (t'.green = true ∨ t'.done = true)
    rw [a8, a7, a4, a2, a6]; exact g.ok
  · show t'.failed = true → t'.notified = true ∧ _; rw [a7, a8]; exact g.fail
  · show t'.done = true → _; rw [a6]; exact g.done
  · intro _; exact g.crit (by show t.takeCritical ≠ none; rw [h]; exact fun k => nomatch k)
  · show t'.first ≠ [] → _; rw [a4]; exact g.pass
  · show _ ++ t'.first = t'.block; rw [a4, a5]; exact g.order
  · show t'.notified = true → t'.told = true; rw [a8, a9]; exact g.told
  · show ∃ ok, Ev.request n ⟨t'.user, t'.green, t'.block⟩ ok ∈ es; rw [a1, a2, a5]; exact g.req

theorem erase_gone {es : List Ev} {used keys keys' : List Nat} {S : List Out} {a : Call}
    (h : Gone es used keys S a) (hk : ∀ n ∈ keys', n ∈ keys) : Gone es used keys' S a := by
  cases a with
  | success u x =>
    cases x with
    | none => exact h
    | some x => exact ⟨h.1, h.2.1, fun k => h.2.2.1 (hk _ k), h.2.2.2⟩
  | failed u x => exact ⟨h.1, h.2.1, fun k => h.2.2.1 (hk _ k), h.2.2.2⟩
  | completed u => trivial
  | stopped u => trivial

/-- A session ends with the call `a`. -/
theorem inv_end (h : Inv es used R S s) {n : Nat} {t : Tx} (ht : look s.tx n = some t)
    {qd qc qf : List Nat} {a : Call}
    (ha : Call.answers t.user a = true) (ha' : ∀ u, u ≠ t.user → Call.answers u a = false)
    (hat : ∀ u, Call.tells u a = false)
    (hg : Gone es used (keysOf { s with tx := drop s.tx n }) S a)
    (ho : ∀ x ∈ s.tx, x.1 ≠ n → Good es used qd qc qf S x)
    (hqd : ∀ m ∈ qd, m ∈ used) :
    Inv es used R S { s with tx := drop s.tx n, qDelete := qd, qCritical := qc, qFirst := qf,
                             calls := s.calls ++ [a] } := by
  have hm := look_mem ht
  refine { h with keys := keys_drop n h.keys, good := ?_, gone := ?_, qdel := hqd, count := ?_,
                  tells := ?_ }
  · intro x hx
    obtain ⟨h1, h2⟩ := mem_drop.mp hx
    exact ho x h1 h2
  · intro b hb
    rcases List.mem_append.mp hb with hb | hb
    · refine erase_gone (h.gone b hb) ?_
      intro m hm
      obtain ⟨y, hy, rfl⟩ := List.mem_map.mp hm
      exact List.mem_map.mpr ⟨y, (mem_drop.mp hy).1, rfl⟩
    · rw [List.mem_singleton.mp hb]; exact hg
  · intro u
    have hc := h.count u
    have := count_drop h.keys hm (fun x => x.2.user == u)
    unfold openFor at hc ⊢
    show (s.calls ++ [a]).countP _ + (drop s.tx n).countP _ = _
    rw [List.countP_append, List.countP_singleton]
    by_cases hu : u = t.user
    · subst hu
      rw [ha]; simp only [beq_self_eq_true, if_true] at this ⊢; omega
    · rw [ha' u hu]
      have : (t.user == u) = false := by simpa using fun k => hu k.symm
      simp only [this, Bool.false_eq_true, if_false] at *
      omega
  · intro u
    have hc := h.tells u
    have := count_drop h.keys hm (fun x => x.2.user == u && !x.2.told)
    show (s.calls ++ [a]).countP _ + (drop s.tx n).countP _ ≤ _
    rw [List.countP_append, List.countP_singleton, hat u]
    simp only [Bool.false_eq_true, if_false]
    omega

/-- A session asks to be deleted: it is told once, and queued. -/
theorem inv_finish (h : Inv es used R S s) {n : Nat} {t0 t : Tx} (ht : look s.tx n = some t0)
    {b : Bool} (hn : t.notified = false) (hu : t.user = t0.user) (htold : t.told = t0.told)
    (hS : n ∈ used) (hheld : t.held = true)
    (hok : b = false → t.failed = false → t.first = [] ∧ (t.green = true ∨ t.done = true))
    (hfail : (t.failed || b) = true → Exhausted es n)
    (hdone : t.done = true → Claimed es n)
    (hord : firstOf n S ++ t.first = t.block) (hreq : Asked es (n, t))
    (ho : ∀ x ∈ s.tx, x.1 ≠ n → Good es used s.qDelete s.qCritical s.qFirst S x)  :
    Inv es used R S (s.finish n t b) := by
  have hm := look_mem ht
  have hcp := fun a p => count_put h.keys hm a p
  refine ⟨?_, ?_, ?_, h.sent, ?_, h.pend, h.wr, ?_, ?_, h.rx, h.rxk, h.late⟩
  · show ((put s.tx n _).map Prod.fst).Nodup
    rw [keys_put]; exact h.keys
  · intro x hx
    rcases mem_put hx with rfl | ⟨hx, hne⟩
    · have hin : n ∈ s.qDelete ++ [n] := List.mem_append_right _ (List.mem_singleton.mpr rfl)
      refine ⟨hS, hheld, ⟨fun _ => rfl, fun _ => hin⟩, ?_, fun k => ⟨rfl, hfail k⟩, hdone,
        fun _ => Or.inr hin, fun _ => Or.inr hin, hord, fun _ => rfl, hreq⟩
      intro _ hf
      have hf' : (t.failed || b) = false := hf
      rw [Bool.or_eq_false_iff] at hf'
      exact hok hf'.2 hf'.1
    · have g := ho x hx hne
      have hiff : x.1 ∈ s.qDelete ++ [n] ↔ x.1 ∈ s.qDelete := by
        simp [hne]
      refine { g with del := ?_, crit := ?_, pass := ?_ }
      · show x.1 ∈ s.qDelete ++ [n] ↔ _; rw [hiff]; exact g.del
      · show _ → _ ∨ x.1 ∈ s.qDelete ++ [n]; rw [hiff]; exact g.crit
      · show _ → _ ∨ x.1 ∈ s.qDelete ++ [n]; rw [hiff]; exact g.pass
  · intro a ha
    have hk : keysOf (s.finish n t b) = keysOf s := keys_put _ _ _
    rw [hk]
    rcases List.mem_append.mp ha with ha | ha
    · exact h.gone a ha
    · split at ha
      · cases ha
      · rw [List.mem_singleton.mp ha]; split <;> trivial
  · intro m hm
    rcases List.mem_append.mp hm with hm | hm
    · exact h.qdel m hm
    · rw [List.mem_singleton.mp hm]; exact hS
  · intro u
    have hc := h.count u
    have := hcp { t with notified := true, failed := t.failed || b, told := true }
      (fun x => x.2.user == u)
    unfold openFor at hc ⊢
    show (s.calls ++ (if t.told then [] else _)).countP _ + (put s.tx n _).countP _ = _
    dsimp only at this
    rw [← hu] at this
    rw [List.countP_append]
    have h0 : (if t.told = true then ([] : List Call)
        else [if b = true then Call.stopped t.user else Call.completed t.user]).countP
          (Call.answers u) = 0 := by
      split
      · rfl
      · split <;> rfl
    rw [h0]; omega
  · intro u
    have hc := h.tells u
    have := hcp { t with notified := true, failed := t.failed || b, told := true }
      (fun x => x.2.user == u && !x.2.told)
    show (s.calls ++ (if t.told then [] else _)).countP _ + (put s.tx n _).countP _ ≤ _
    dsimp only at this
    rw [List.countP_append]
    rw [← htold, ← hu] at this
    simp only [Bool.not_true, Bool.and_false, Bool.false_eq_true, if_false] at this
    split
    · simp only [List.countP_nil]; omega
    · rename_i hf
      have hf : t.told = false := by simpa using hf
      rw [hf] at this
      simp only [Bool.not_false, Bool.and_true] at this
      have : ([if b = true then Call.stopped t.user else Call.completed t.user] : List Call).countP
          (Call.tells u) = if (t.user == u) = true then 1 else 0 := by
        rw [List.countP_singleton]
        split <;> rfl
      omega

/-! ## The loops of `GetNextPacketToSend` -/

/-- The packet found, added to those handed over. -/
def plus (S : List Out) : Option Out → List Out
  | some o => S ++ [o]
  | none => S

theorem good_pop {n : Nat} {q qc qf : List Nat} {x : Nat × Tx} (hne : x.1 ≠ n)
    (g : Good es used (n :: q) qc qf S x) : Good es used q qc qf S x := by
  have hiff : x.1 ∈ n :: q ↔ x.1 ∈ q := by simp [hne]
  refine { g with del := ?_, crit := ?_, pass := ?_ }
  · rw [← hiff]; exact g.del
  · rw [← hiff]; exact g.crit
  · rw [← hiff]; exact g.pass

theorem inv_deletes {c : Cfg} (hd : c.disk = false) (q : List Nat) : ∀ s : Eng,
    Inv es used R S { s with qDelete := q } → (∀ n ∈ q, n ∈ used) →
    Inv es used R (plus S (deletes c s q).1) (deletes c s q).2 := by
  induction q with
  | nil => intro s h _; exact h
  | cons n q ih =>
    intro s h hq
    have hq' : ∀ m ∈ q, m ∈ used := fun m hm => hq m (List.mem_cons_of_mem _ hm)
    unfold deletes
    cases hl : look s.tx n with
    | none =>
      dsimp only
      apply ih _ _ hq'
      have hab := look_none hl
      exact { h with good := fun x hx => good_pop (hab x hx) (h.good x hx), qdel := hq' }
    | some t =>
      dsimp only
      have g : Good es used (n :: q) s.qCritical s.qFirst S (n, t) := h.good _ (look_mem hl)
      cases hc : t.takeCritical with
      | some pt =>
        obtain ⟨p, t'⟩ := pt
        dsimp only [plus]
        obtain ⟨a1, a2, a3, a4, a5, a6, a7, a8, a9⟩ := critical_parts hc
        refine inv_sent ?_ _ (by intro _ _ k; cases k)
        have := inv_put h (n := n) (t := t) (t' := t') hl (qd := n :: q) (qc := s.qCritical)
          (qf := s.qFirst) (good_critical g hc) a1 (fun k => a9.trans k)
          (fun x hx _ => h.good x hx) hq
        exact this
      | none =>
        dsimp only
        have hnot : t.notified = true := g.del.mp (List.mem_cons_self ..)
        have hheld : t.held = true := g.held
        apply ih _ _ hq'
        have ho : ∀ x ∈ s.tx, x.1 ≠ n → Good es used q s.qCritical s.qFirst S x :=
          fun x hx hne => good_pop hne (h.good x hx)
        have hk : n ∉ keysOf { s with tx := drop s.tx n } := by
          intro hm
          obtain ⟨y, hy, he⟩ := List.mem_map.mp hm
          exact (mem_drop.mp hy).2 he
        unfold Eng.close
        dsimp only
        cases hf : t.failed with
        | true =>
          simp only [if_true]
          unfold Eng.giveBack
          rw [hheld]
          have := inv_end h (n := n) (t := t) hl (qd := q) (qc := s.qCritical) (qf := s.qFirst)
            (a := .failed t.user (n, t)) (by simp [Call.answers])
            (fun u hu => by simpa [Call.answers] using fun k => hu k.symm) (fun _ => rfl)
            ⟨rfl, g.used, hk, g.order, Or.inl (g.fail hf).2, g.req⟩ ho hq'
          exact this
        | false =>
          rw [hd]
          simp only [Bool.false_eq_true, if_false]
          obtain ⟨e1, e2⟩ := g.ok hnot hf
          have hord : firstOf n S ++ t.first = t.block := g.order
          have e1' : t.first = [] := e1
          rw [e1', List.append_nil] at hord
          have := inv_end h (n := n) (t := t) hl (qd := q) (qc := s.qCritical) (qf := s.qFirst)
            (a := .success t.user (some (n, t))) (by simp [Call.answers])
            (fun u hu => by simpa [Call.answers] using fun k => hu k.symm) (fun _ => rfl)
            ⟨rfl, g.used, hk, hord, e2.imp id g.done, g.req⟩ ho hq'
          exact this

theorem inv_rxDeletes (q : List Nat) : ∀ s : Eng,
    Inv es used R S { s with qRxDelete := q } →
    Inv es used R (plus S (rxDeletes s q).1) (rxDeletes s q).2 := by
  induction q with
  | nil => intro s h; exact h
  | cons r q ih =>
    intro s h
    have hrx : ∀ x ∈ s.rx, x.2 ≠ [] → x.1 ∈ s.qRx ∨ x.1 ∈ r :: q := h.rx
    unfold rxDeletes
    cases hl : look s.rx r with
    | none =>
      dsimp only
      apply ih
      refine { h with rx := ?_ }
      intro x hx hne
      have := look_none hl x hx
      simpa [this] using hrx x hx hne
    | some ps =>
      cases ps with
      | nil =>
        dsimp only
        apply ih
        refine { h with rx := ?_, rxk := keys_drop r h.rxk }
        intro x hx hne
        obtain ⟨hx, h2⟩ := mem_drop.mp hx
        simpa [h2] using hrx x hx hne
      | cons p ps =>
        dsimp only [plus]
        refine inv_sent ?_ _ (by intro _ _ k; cases k)
        refine { h with rx := ?_, rxk := nodup_put r ps h.rxk }
        intro x hx hne
        rcases mem_put hx with rfl | ⟨hx, _⟩
        · exact Or.inr (List.mem_cons_self ..)
        · exact hrx x hx hne

theorem inv_criticals (q : List Nat) : ∀ s : Eng,
    Inv es used R S { s with qCritical := q } →
    Inv es used R (plus S (criticals s q).1) (criticals s q).2 := by
  induction q with
  | nil => intro s h; exact h
  | cons n q ih =>
    intro s h
    unfold criticals
    cases hl : look s.tx n with
    | none =>
      dsimp only
      apply ih
      have hab := look_none hl
      refine { h with good := fun x hx => ?_ }
      have g := h.good x hx
      refine { g with crit := fun k => ?_ }
      simpa [hab x hx] using g.crit k
    | some t =>
      dsimp only
      have g : Good es used s.qDelete (n :: q) s.qFirst S (n, t) := h.good _ (look_mem hl)
      cases hc : t.takeCritical with
      | some pt =>
        obtain ⟨p, t'⟩ := pt
        dsimp only [plus]
        obtain ⟨a1, a2, a3, a4, a5, a6, a7, a8, a9⟩ := critical_parts hc
        refine inv_sent ?_ _ (by intro _ _ k; cases k)
        have := inv_put h (n := n) (t := t) (t' := t') hl (qd := s.qDelete) (qc := n :: q)
          (qf := s.qFirst) (good_critical g hc) a1 (fun k => a9.trans k)
          (fun x hx _ => h.good x hx) h.qdel
        exact this
      | none =>
        dsimp only
        apply ih
        refine { h with good := fun x hx => ?_ }
        have gx := h.good x hx
        refine { gx with crit := fun k => ?_ }
        have hne : x.1 ≠ n := by
          intro he
          have := mem_look h.keys hx
          rw [he] at this
          have hx2 : some t = some x.2 := hl.symm.trans this
          have := Option.some.inj hx2
          rw [← this] at k
          exact k hc
        simpa [hne] using gx.crit k

theorem inv_rxSends (q : List Nat) : ∀ s : Eng,
    Inv es used R S { s with qRx := q } →
    Inv es used R (plus S (rxSends s q).1) (rxSends s q).2 := by
  induction q with
  | nil => intro s h; exact h
  | cons r q ih =>
    intro s h
    have hk : (s.rx.map Prod.fst).Nodup := h.rxk
    have hrx : ∀ x ∈ s.rx, x.2 ≠ [] → x.1 ∈ r :: q ∨ x.1 ∈ s.qRxDelete := h.rx
    have hpop : look s.rx r = none ∨ look s.rx r = some [] →
        Inv es used R S { s with qRx := q } := by
      intro hl
      refine { h with rx := ?_ }
      intro x hx hne
      have : x.1 ≠ r := by
        intro he
        have := mem_look hk hx
        rw [he] at this
        rcases hl with hl | hl
        · rw [hl] at this; cases this
        · rw [hl] at this; exact hne (Option.some.inj this).symm
      simpa [this] using hrx x hx hne
    unfold rxSends
    split
    · dsimp only [plus]
      refine inv_sent ?_ _ (by intro _ _ k; cases k)
      refine { h with rx := ?_, rxk := nodup_put r _ hk }
      intro x hx hne
      rcases mem_put hx with rfl | ⟨hx, _⟩
      · exact Or.inl (List.mem_cons_self ..)
      · exact hrx x hx hne
    · rename_i hno
      apply ih
      apply hpop
      cases hl : look s.rx r with
      | none => exact Or.inl rfl
      | some ps =>
        cases ps with
        | nil => exact Or.inr rfl
        | cons p ps => exact absurd hl (hno p ps)

theorem critical_first {t : Tx} (ps : List Nat) (h : t.takeCritical = none) :
    ({ t with first := ps } : Tx).takeCritical = none := by
  unfold Tx.takeCritical at h ⊢
  dsimp only
  split at h
  · cases h
  · rename_i ha
    rw [ha]
    split at h
    · rename_i hd; rw [if_pos hd]
    · rename_i hd
      rw [if_neg hd]
      split at h
      · cases h
      · rfl

theorem firstOf_first (n p : Nat) (S : List Out) :
    firstOf n (S ++ [.first n p]) = firstOf n S ++ [p] := by
  unfold firstOf; rw [List.filterMap_append]; simp

theorem inv_firsts (q : List Nat) : ∀ s : Eng,
    Inv es used R S { s with qFirst := q } →
    Inv es used R (plus S (firsts s q).1) (firsts s q).2 := by
  induction q with
  | nil => intro s h; exact h
  | cons n q ih =>
    intro s h
    unfold firsts
    cases hl : look s.tx n with
    | none =>
      dsimp only
      apply ih
      have hab := look_none hl
      refine { h with good := fun x hx => ?_ }
      have g := h.good x hx
      refine { g with pass := fun k => ?_ }
      simpa [hab x hx] using g.pass k
    | some t =>
      dsimp only
      have g : Good es used s.qDelete s.qCritical (n :: q) S (n, t) := h.good _ (look_mem hl)
      cases hf : t.first with
      | nil =>
        dsimp only
        apply ih
        refine { h with good := fun x hx => ?_ }
        have gx := h.good x hx
        refine { gx with pass := fun k => ?_ }
        have hne : x.1 ≠ n := by
          intro he
          have := mem_look h.keys hx
          rw [he] at this
          have hx2 : some t = some x.2 := hl.symm.trans this
          have := Option.some.inj hx2
          rw [← this] at k
          exact k hf
        simpa [hne] using gx.pass k
      | cons p ps =>
        dsimp only [plus]
        have hord : firstOf n (S ++ [.first n p]) ++ ps = t.block := by
          have : firstOf n S ++ t.first = t.block := g.order
          rw [hf] at this
          rw [firstOf_first, List.append_assoc]; exact this
        have hfne : t.first ≠ [] := by rw [hf]; exact fun k => nomatch k
        have hnf : t.notified = true → t.failed = true := by
          intro hn
          cases hff : t.failed with
          | true => rfl
          | false => exact absurd (g.ok hn hff).1 hfne
        -- the packet is added; the other sessions and the calls do not see it
        have hoth : ∀ x ∈ s.tx, x.1 ≠ n →
            Good es used s.qDelete s.qCritical (n :: q) (S ++ [.first n p]) x := by
          intro x hx hne
          have gx : Good es used s.qDelete s.qCritical (n :: q) S x := h.good x hx
          refine { gx with order := ?_ }
          rw [firstOf_snoc x.1 S _ (fun p' k => by cases k; exact hne rfl)]; exact gx.order
        have hgone : ∀ a ∈ s.calls, Gone es used (keysOf s) (S ++ [.first n p]) a := by
          intro a ha
          have ga := h.gone a ha
          have hin : n ∈ keysOf s := List.mem_map.mpr ⟨(n, t), look_mem hl, rfl⟩
          have hneq : ∀ m, m ∉ keysOf s → ∀ p', Out.first n p ≠ Out.first m p' := by
            intro m hm p' k; cases k; exact hm hin
          cases a with
          | success u x =>
            cases x with
            | none => exact ga
            | some x =>
              obtain ⟨b1, b2, b3, b4⟩ := ga
              show _ ∧ _
              rw [firstOf_snoc x.1 S _ (hneq _ b3)]; exact ⟨b1, b2, b3, b4⟩
          | failed u x =>
            obtain ⟨b1, b2, b3, b4⟩ := ga
            show _ ∧ _
            rw [firstOf_snoc x.1 S _ (hneq _ b3)]; exact ⟨b1, b2, b3, b4⟩
          | completed u => trivial
          | stopped u => trivial
        have hsent : ∀ m p', Out.first m p' ∈ S ++ [.first n p] → m ∈ used := by
          intro m p' hm
          rcases List.mem_append.mp hm with hm | hm
          · exact h.sent m p' hm
          · have := List.mem_singleton.mp hm; cases this; exact g.used
        -- the state with the packet taken, the session as it will be
        have hg' : Good es used s.qDelete s.qCritical (n :: q) (S ++ [.first n p])
            (n, { t with first := ps }) := by
          refine { g with ok := ?_, pass := fun _ => Or.inl (List.mem_cons_self ..), order := hord,
                          crit := fun k => g.crit (fun k' => k (critical_first ps k')) }
          intro hn hff
          have : t.failed = true := hnf hn
          have hff' : t.failed = false := hff
          rw [this] at hff'; cases hff'
        have base : Inv es used R (S ++ [.first n p])
            { s with tx := put s.tx n { t with first := ps }, qFirst := n :: q } := by
          have h0 : (keysOf s).Nodup := h.keys
          refine ⟨?_, ?_, ?_, hsent, h.qdel, h.pend, h.wr, ?_, ?_, h.rx, h.rxk, h.late⟩
          · show ((put s.tx n _).map Prod.fst).Nodup
            rw [keys_put]; exact h0
          · intro x hx
            rcases mem_put hx with rfl | ⟨hx, hne⟩
            · exact hg'
            · exact hoth x hx hne
          · intro a ha
            have hk : keysOf ({ s with tx := put s.tx n { t with first := ps }, qFirst := n :: q } : Eng)
              = keysOf s := keys_put _ _ _
            rw [hk]; exact hgone a ha
          · intro u
            have := count_put h0 (look_mem hl) { t with first := ps } (fun x => x.2.user == u)
            have hc : s.calls.countP (Call.answers u) + s.tx.countP _ = R u := h.count u
            unfold openFor
            show s.calls.countP _ + (put s.tx n _).countP _ = _
            dsimp only at this
            omega
          · intro u
            have := count_put h0 (look_mem hl) { t with first := ps }
              (fun x => x.2.user == u && !x.2.told)
            have hc : s.calls.countP (Call.tells u) + s.tx.countP _ ≤ R u := h.tells u
            show s.calls.countP _ + (put s.tx n _).countP _ ≤ _
            dsimp only at this
            omega
        unfold Eng.afterFirst
        split
        · rename_i hc
          obtain ⟨c1, c2, c3⟩ := hc
          have c1' : ps = [] := c1
          -- `finish` writes the session once more
          have hput : ∀ a : Tx, put (put s.tx n { t with first := ps }) n a = put s.tx n a := by
            intro a
            unfold put
            rw [List.map_map]
            apply List.map_congr_left
            intro x _
            show (if (if x.1 = n then (n, _) else x).1 = n then (n, a) else _) = _
            by_cases hx : x.1 = n <;> simp [hx]
          have hlk : look (put s.tx n { t with first := ps }) n = some { t with first := ps } := by
            have hk' : ((put s.tx n { t with first := ps }).map Prod.fst).Nodup := base.keys
            have hm : (n, ({ t with first := ps } : Tx)) ∈ put s.tx n { t with first := ps } := by
              unfold put
              exact List.mem_map.mpr ⟨(n, t), look_mem hl, by simp⟩
            exact mem_look hk' hm
          have hfin := inv_finish base (n := n) (t0 := { t with first := ps })
            (t := { t with first := ps }) hlk (b := false) c3 rfl rfl g.used g.held
            (fun _ _ => ⟨c1, by
              rcases c2 with k | k
              · exact Or.inl k
              · exact Or.inr k⟩)
            (fun k => by
              have k' : t.failed = true := by simpa using k
              exact (g.fail k').2)
            g.done hord g.req (fun x hx hne => by
              rcases mem_put hx with rfl | ⟨hx, _⟩
              · exact absurd rfl hne
              · exact hoth x hx hne)
          have heq : Eng.finish ({ s with tx := put s.tx n { t with first := ps }, qFirst := n :: q } : Eng)
              n { t with first := ps } false
              = Eng.finish ({ s with qFirst := n :: q } : Eng) n { t with first := ps } false := by
            unfold Eng.finish
            dsimp only
            rw [hput]
          rw [heq] at hfin
          exact hfin
        · exact base

theorem inv_nextLive (h : Inv es used R S s) :
    Inv es used R (plus S s.nextLive.1) s.nextLive.2 := by
  unfold Eng.nextLive
  split
  · refine inv_sent ?_ _ (by intro _ _ k; cases k)
    exact { h with }
  · split
    · refine inv_sent ?_ _ (by intro _ _ k; cases k)
      exact { h with }
    · have h1 := inv_criticals s.qCritical s (S := S) (used := used) (es := es) (R := R) h
      split
      · rename_i he; rw [he] at h1; exact h1
      · rename_i s1 he; rw [he] at h1
        have h2 := inv_rxSends s1.qRx s1 (S := S) (used := used) (es := es) (R := R) h1
        split
        · rename_i he; rw [he] at h2; exact h2
        · rename_i s2 he; rw [he] at h2
          exact inv_firsts s2.qFirst s2 h2

theorem inv_next {c : Cfg} (hd : c.disk = false) (h : Inv es used R S s) :
    Inv es used R (plus S (s.next c).1) (s.next c).2 := by
  unfold Eng.next
  have h1 := inv_deletes hd s.qDelete s (S := S) (used := used) (es := es) (R := R) h h.qdel
  split
  · rename_i he; rw [he] at h1; exact h1
  · rename_i s1 he; rw [he] at h1
    have hp : tellPending c s1 s1.pending = s1 := by
      have : s1.pending = [] := h1.pend
      rw [this]
      show ({ s1 with pending := [] } : Eng) = s1
      rw [← this]
    dsimp only
    rw [hp]
    have h2 := inv_rxDeletes s1.qRxDelete s1 (S := S) (used := used) (es := es) (R := R) h1
    split
    · rename_i he; rw [he] at h2; exact h2
    · rename_i s2 he; rw [he] at h2
      exact inv_nextLive h2

/-! ### What goes before the first passes -/

theorem urgent_iff {t : Tx} (h : t.takeCritical = none) : t.urgent = false := by
  unfold Tx.takeCritical at h
  unfold Tx.urgent
  split at h
  · cases h
  · rename_i ha
    rw [ha]
    split at h
    · rename_i hd; rw [hd]; rfl
    · split at h
      · cases h
      · rename_i hr; rw [hr]; simp

theorem deletes_some (c : Cfg) (q : List Nat) : ∀ s s' : Eng, ∀ o, deletes c s q = (some o, s') →
    o.isFirst = false := by
  induction q with
  | nil => intro s s' o h; unfold deletes at h; cases h
  | cons n q ih =>
    intro s s' o h
    unfold deletes at h
    split at h
    · exact ih _ _ _ h
    · split at h
      · cases h; rfl
      · exact ih _ _ _ h

theorem close_parts (c : Cfg) (s : Eng) (n : Nat) (t : Tx) :
    (s.close c n t).tx = drop s.tx n ∧ (s.close c n t).rx = s.rx ∧
    (s.close c n t).qRx = s.qRx ∧ (s.close c n t).qRxDelete = s.qRxDelete ∧
    (s.close c n t).cancels = s.cancels ∧ (s.close c n t).closed = s.closed ∧
    (s.close c n t).qCritical = s.qCritical := by
  unfold Eng.close Eng.giveBack Eng.erase
  dsimp only
  split_ifs <;> exact ⟨rfl, rfl, rfl, rfl, rfl, rfl, rfl⟩

theorem deletes_quiet (c : Cfg) (q : List Nat) : ∀ s s' : Eng, deletes c s q = (none, s') →
    (s.tx.map Prod.fst).Nodup →
    (∀ x ∈ s.tx, x.1 ∈ q → x.2.takeCritical = none) ∧ (∀ x ∈ s.tx, x.1 ∉ q → x ∈ s'.tx) ∧
    s'.rx = s.rx ∧ s'.qRx = s.qRx ∧ s'.qRxDelete = s.qRxDelete ∧ s'.cancels = s.cancels ∧
    s'.closed = s.closed ∧ s'.qCritical = s.qCritical ∧ (s'.tx.map Prod.fst).Nodup := by
  induction q with
  | nil =>
    intro s s' h hk; unfold deletes at h; cases h
    exact ⟨(fun _ _ k => nomatch k), fun _ k _ => k, rfl, rfl, rfl, rfl, rfl, rfl, hk⟩
  | cons n q ih =>
    intro s s' h hk
    unfold deletes at h
    split at h
    · rename_i hl
      have hab := look_none hl
      obtain ⟨a1, a2, a3⟩ := ih _ _ h hk
      refine ⟨fun x hx hq => a1 x hx ?_, fun x hx hq => a2 x hx (fun k => hq (List.mem_cons_of_mem _ k)), a3⟩
      exact (List.mem_cons.mp hq).resolve_left (hab x hx)
    · rename_i t hl
      split at h
      · cases h
      · rename_i hc
        obtain ⟨p1, p2, p3, p4, p5, p6, p7⟩ := close_parts c s n t
        obtain ⟨a1, a2, a3, a4, a5, a6, a7, a8, a9⟩ := ih _ _ h (by rw [p1]; exact keys_drop n hk)
        rw [p1] at a1 a2
        refine ⟨?_, ?_, a3.trans p2, a4.trans p3, a5.trans p4, a6.trans p5, a7.trans p6, a8.trans p7, a9⟩
        · intro x hx hq
          by_cases hxn : x.1 = n
          · have := mem_look hk hx
            rw [hxn, hl] at this
            have := Option.some.inj this
            rw [← this]; exact hc
          · exact a1 x (mem_drop.mpr ⟨hx, hxn⟩) ((List.mem_cons.mp hq).resolve_left hxn)
        · intro x hx hq
          refine a2 x (mem_drop.mpr ⟨hx, fun k => hq ?_⟩) (fun k => hq (List.mem_cons_of_mem _ k))
          rw [k]; exact List.mem_cons_self ..

theorem rxDeletes_quiet (q : List Nat) : ∀ s s' : Eng, ∀ o, rxDeletes s q = (o, s') →
    (s.rx.map Prod.fst).Nodup →
    (∀ o', o = some o' → o'.isFirst = false) ∧
    (o = none → (∀ x ∈ s.rx, x.1 ∈ q → x.2 = []) ∧ (∀ x ∈ s.rx, x.1 ∉ q → x ∈ s'.rx) ∧
      s'.tx = s.tx ∧ s'.qRx = s.qRx ∧ s'.cancels = s.cancels ∧
      s'.closed = s.closed ∧ s'.qCritical = s.qCritical ∧ (s'.rx.map Prod.fst).Nodup) := by
  induction q with
  | nil =>
    intro s s' o h hk; unfold rxDeletes at h; cases h
    exact ⟨(fun _ k => nomatch k), fun _ => ⟨(fun _ _ k => nomatch k), fun _ k _ => k, rfl, rfl, rfl, rfl, rfl, hk⟩⟩
  | cons n q ih =>
    intro s s' o h hk
    unfold rxDeletes at h
    split at h
    · rename_i hl
      have hab := look_none hl
      obtain ⟨b1, b2⟩ := ih _ _ _ h hk
      refine ⟨b1, fun ho => ?_⟩
      obtain ⟨a1, a2, a3⟩ := b2 ho
      refine ⟨fun x hx hq => a1 x hx ?_, fun x hx hq => a2 x hx (fun k => hq (List.mem_cons_of_mem _ k)), a3⟩
      exact (List.mem_cons.mp hq).resolve_left (hab x hx)
    · cases h
      exact ⟨(fun o' k => by cases k; rfl), fun k => nomatch k⟩
    · rename_i hl
      have hih := ih _ _ _ h (keys_drop n hk)
      dsimp only at hih
      obtain ⟨b1, b2⟩ := hih
      refine ⟨b1, fun ho => ?_⟩
      obtain ⟨a1, a2, a3⟩ := b2 ho
      refine ⟨?_, ?_, a3⟩
      · intro x hx hq
        by_cases hxn : x.1 = n
        · have := mem_look hk hx
          rw [hxn, hl] at this
          exact (Option.some.inj this).symm
        · exact a1 x (mem_drop.mpr ⟨hx, hxn⟩) ((List.mem_cons.mp hq).resolve_left hxn)
      · intro x hx hq
        refine a2 x (mem_drop.mpr ⟨hx, fun k => hq ?_⟩) (fun k => hq (List.mem_cons_of_mem _ k))
        rw [k]; exact List.mem_cons_self ..

theorem criticals_quiet (q : List Nat) : ∀ s s' : Eng, ∀ o, criticals s q = (o, s') →
    (s.tx.map Prod.fst).Nodup →
    (∀ o', o = some o' → o'.isFirst = false) ∧
    (o = none → ∀ x ∈ s.tx, x.1 ∈ q → x.2.takeCritical = none) := by
  induction q with
  | nil =>
    intro s s' o h hk; unfold criticals at h; cases h
    exact ⟨(fun _ k => nomatch k), fun _ _ _ k => nomatch k⟩
  | cons n q ih =>
    intro s s' o h hk
    unfold criticals at h
    split at h
    · rename_i hl
      have hab := look_none hl
      obtain ⟨b1, b2⟩ := ih _ _ _ h hk
      exact ⟨b1, fun ho x hx hq => b2 ho x hx ((List.mem_cons.mp hq).resolve_left (hab x hx))⟩
    · rename_i t hl
      split at h
      · cases h
        exact ⟨(fun o' k => by cases k; rfl), fun k => nomatch k⟩
      · rename_i hc
        obtain ⟨b1, b2⟩ := ih _ _ _ h hk
        refine ⟨b1, fun ho x hx hq => ?_⟩
        by_cases hxn : x.1 = n
        · have := mem_look hk hx
          rw [hxn, hl] at this
          have := Option.some.inj this
          rw [← this]; exact hc
        · exact b2 ho x hx ((List.mem_cons.mp hq).resolve_left hxn)

theorem rxSends_quiet (q : List Nat) : ∀ s s' : Eng, ∀ o, rxSends s q = (o, s') →
    (s.rx.map Prod.fst).Nodup →
    (∀ o', o = some o' → o'.isFirst = false) ∧
    (o = none → ∀ x ∈ s.rx, x.1 ∈ q → x.2 = []) := by
  induction q with
  | nil =>
    intro s s' o h hk; unfold rxSends at h; cases h
    exact ⟨(fun _ k => nomatch k), fun _ _ _ k => nomatch k⟩
  | cons n q ih =>
    intro s s' o h hk
    unfold rxSends at h
    split at h
    · cases h
      exact ⟨(fun o' k => by cases k; rfl), fun k => nomatch k⟩
    · rename_i hno
      obtain ⟨b1, b2⟩ := ih _ _ _ h hk
      refine ⟨b1, fun ho x hx hq => ?_⟩
      by_cases hxn : x.1 = n
      · have := mem_look hk hx
        rw [hxn] at this
        cases hx2 : x.2 with
        | nil => rfl
        | cons p ps => rw [hx2] at this; exact absurd this (hno p ps)
      · exact b2 ho x hx ((List.mem_cons.mp hq).resolve_left hxn)

theorem next_first {c : Cfg} (hd : c.disk = false) (h : Inv es used R S s) {o : Out} {s' : Eng}
    (hn : s.next c = (some o, s')) (ho : o.isFirst = true) : s.urgent = false := by
  unfold Eng.next at hn
  have i1 := inv_deletes hd s.qDelete s (S := S) (used := used) (es := es) (R := R) h h.qdel
  split at hn
  · rename_i he
    have := deletes_some c _ _ _ _ he
    cases hn
    rw [this] at ho; cases ho
  · rename_i s1 he
    rw [he] at i1
    obtain ⟨a1, a2, a3, a4, a5, a6, a7, a8, a9⟩ := deletes_quiet c _ _ _ he h.keys
    have hp : tellPending c s1 s1.pending = s1 := by
      have : s1.pending = [] := i1.pend
      rw [this]
      show ({ s1 with pending := [] } : Eng) = s1
      rw [← this]
    dsimp only at hn
    rw [hp] at hn
    split at hn
    · rename_i he2
      have := (rxDeletes_quiet _ _ _ _ he2 (by rw [a3]; exact h.rxk)).1 _ rfl
      cases hn
      rw [this] at ho; cases ho
    · rename_i s2 he2
      obtain ⟨b1, b2, b3, b4, b5, b6, b7, b8⟩ :=
        (rxDeletes_quiet _ _ _ _ he2 (by rw [a3]; exact h.rxk)).2 rfl
      unfold Eng.nextLive at hn
      split at hn
      · cases hn; cases ho
      · rename_i hcan
        split at hn
        · cases hn; cases ho
        · rename_i hclo
          have hk2 : (s2.tx.map Prod.fst).Nodup := by rw [b3]; exact a9
          split at hn
          · rename_i he3
            have := (criticals_quiet _ _ _ _ he3 hk2).1 _ rfl
            cases hn
            rw [this] at ho; cases ho
          · rename_i s3 he3
            have c1 := (criticals_quiet _ _ _ _ he3 hk2).2 rfl
            have e3 := criticals_none _ _ _ he3
            split at hn
            · rename_i he4
              have := (rxSends_quiet _ _ _ _ he4 (by rw [e3]; exact b8)).1 _ rfl
              cases hn
              rw [this] at ho; cases ho
            · rename_i s4 he4
              have d1 := (rxSends_quiet _ _ _ _ he4 (by rw [e3]; exact b8)).2 rfl
              unfold Eng.urgent
              have hc0 : s.cancels = [] := by rw [← a6, ← b5]; exact hcan
              have hc1 : s.closed = [] := by rw [← a7, ← b6]; exact hclo
              have ht : s.tx.any (fun x => x.2.urgent) = false := by
                rw [List.any_eq_false]
                intro x hx
                have : x.2.takeCritical = none := by
                  by_cases hq : x.1 ∈ s.qDelete
                  · exact a1 x hx hq
                  · by_contra hne
                    rcases (h.good x hx).crit hne with k | k
                    · refine hne (c1 x (by rw [b3]; exact a2 x hx hq) ?_)
                      rw [b7, a8]; exact k
                    · exact hq k
                rw [urgent_iff this]; exact Bool.false_ne_true
              have hr : s.rx.any (fun x => !x.2.isEmpty) = false := by
                rw [List.any_eq_false]
                intro x hx
                have : x.2 = [] := by
                  by_cases hq : x.1 ∈ s1.qRxDelete
                  · exact b1 x (by rw [a3]; exact hx) hq
                  · by_contra hne
                    rcases h.rx x hx hne with k | k
                    · refine hne (d1 x ?_ ?_)
                      · rw [e3]; exact b2 x (by rw [a3]; exact hx) hq
                      · rw [e3]; show x.1 ∈ s2.qRx; rw [b4, a4]; exact k
                    · exact hq (by rw [a5]; exact k)
                rw [this]; simp
              rw [hc0, hc1, ht, hr]; rfl

theorem inv_fill {c : Cfg} (hd : c.disk = false) (k : Nat) : ∀ s : Eng,
    Inv es used R s.sent s → Inv es used R (s.fill c k).sent (s.fill c k) := by
  induction k with
  | zero => intro s h; exact h
  | succ k ih =>
    intro s h
    unfold Eng.fill
    have h1 := inv_next hd h
    have hf := frame_next c s
    cases hn : s.next c with
    | mk o s' =>
      rw [hn] at h1 hf
      have hs : s'.sent = s.sent := hf.sent
      cases o with
      | none =>
        dsimp only
        rw [hs]; exact h1
      | some o =>
        dsimp only
        apply ih
        show Inv es used R (s'.sent ++ [o]) _
        rw [hs]
        have h1' : Inv es used R (s.sent ++ [o]) s' := h1
        refine { h1' with late := ?_ }
        show (if o.isFirst && s.urgent then s'.late ++ [o] else s'.late) = []
        rw [hf.late, h.late]
        cases hof : o.isFirst with
        | false => rfl
        | true => rw [next_first hd h hn hof]; rfl

theorem inv_saturate {c : Cfg} (hd : c.disk = false) (h : Inv es used R s.sent s) :
    Inv es used R (s.saturate c).sent (s.saturate c) := inv_fill hd _ s h

/-! ## Events -/

/-- More events: what was the case stays the case. -/
theorem inv_mono (h : Inv es used R S s) {es' : List Ev} (he : ∀ e ∈ es, e ∈ es') :
    Inv es' used R S s := by
  have hE : ∀ n, Exhausted es n → Exhausted es' n := fun n ⟨p, k, hm⟩ => ⟨p, k, he _ hm⟩
  have hC : ∀ n, Claimed es n → Claimed es' n := fun n ⟨p, k, hm⟩ => ⟨p, k, he _ hm⟩
  have hX : ∀ n, Cancelled es n → Cancelled es' n := by
    intro n k
    rcases k with k | ⟨p, k⟩
    · exact Or.inl (he _ k)
    · exact Or.inr ⟨p, he _ k⟩
  have hA : ∀ x, Asked es x → Asked es' x := fun x ⟨ok, k⟩ => ⟨ok, he _ k⟩
  refine { h with good := fun x hx => ?_, gone := fun a ha => ?_ }
  · have g := h.good x hx
    exact { g with fail := fun k => ⟨(g.fail k).1, hE _ (g.fail k).2⟩
                   done := fun k => hC _ (g.done k), req := hA _ g.req }
  · have g := h.gone a ha
    cases a with
    | success u x =>
      cases x with
      | none => exact g
      | some x => exact ⟨g.1, g.2.1, g.2.2.1, g.2.2.2.1, g.2.2.2.2.1.imp id (hC _), hA _ g.2.2.2.2.2⟩
    | failed u x => exact ⟨g.1, g.2.1, g.2.2.1, g.2.2.2.1, g.2.2.2.2.1.imp (hE _) (hX _), hA _ g.2.2.2.2.2⟩
    | completed u => trivial
    | stopped u => trivial

theorem inv_used (h : Inv es used R S s) {used' : List Nat} (hu : ∀ n ∈ used, n ∈ used') :
    Inv es used' R S s := by
  refine { h with good := fun x hx => ?_, gone := fun a ha => ?_,
                  sent := fun n p k => hu _ (h.sent n p k), qdel := fun n k => hu _ (h.qdel n k) }
  · have g := h.good x hx
    exact { g with used := hu _ g.used }
  · have g := h.gone a ha
    cases a with
    | success u x =>
      cases x with
      | none => exact g
      | some x => exact ⟨g.1, hu _ g.2.1, g.2.2⟩
    | failed u x => exact ⟨g.1, hu _ g.2.1, g.2.2⟩
    | completed u => trivial
    | stopped u => trivial

theorem firstOf_unused {n : Nat} (h : ∀ m p, Out.first m p ∈ S → m ∈ used) (hn : n ∉ used) :
    firstOf n S = [] := by
  unfold firstOf
  apply List.filterMap_eq_nil_iff.mpr
  intro o ho
  cases o with
  | first m p =>
    have : m ≠ n := fun he => hn (he ▸ h m p ho)
    simp [this]
  | critical _ _ => rfl
  | rx _ _ => rfl
  | cancel _ => rfl
  | closed _ => rfl

theorem keys_snoc (s : Eng) (n : Nat) (t : Tx) (qf : List Nat) :
    keysOf ({ s with tx := s.tx ++ [(n, t)], qFirst := qf } : Eng) = keysOf s ++ [n] := by
  unfold keysOf; simp

/-- A new session. -/
theorem inv_start {c : Cfg} (hd : c.disk = false) (h : Inv es used R s.sent s) {n : Nat}
    {r : Request} (hn : n ∉ used) (hr : r.first ≠ []) {ok : Bool} (hq : Ev.request n r ok ∈ es) :
    Inv es (n :: used) (fun u => R u + if r.user == u then 1 else 0) (s.start c n r).sent
      (s.start c n r) := by
  have hab : ∀ x ∈ s.tx, x.1 ≠ n := fun x hx he => hn (he ▸ (h.good x hx).used)
  have hl : look s.tx n = none := by
    cases hl : look s.tx n with
    | none => rfl
    | some t => exact absurd rfl (hab _ (look_mem hl))
  have hqd : n ∉ s.qDelete := fun k => hn (h.qdel n k)
  unfold Eng.start
  rw [hl]
  dsimp only
  apply inv_saturate hd
  have h' := inv_used h (used' := n :: used) (fun m hm => List.mem_cons_of_mem _ hm)
  have hin : n ∈ s.qFirst ++ [n] := List.mem_append_right _ (List.mem_singleton.mpr rfl)
  refine ⟨?_, ?_, ?_, h'.sent, h'.qdel, h.pend, h.wr, ?_, ?_, h.rx, h.rxk, h.late⟩
  · show ((s.tx ++ [(n, _)]).map Prod.fst).Nodup
    rw [List.map_append]
    refine List.nodup_append.mpr ⟨h.keys, by simp, ?_⟩
    intro a ha b hb
    obtain ⟨x, hx, rfl⟩ := List.mem_map.mp ha
    have : b = n := by simpa using hb
    rw [this]; exact hab x hx
  · intro x hx
    rcases List.mem_append.mp hx with hx | hx
    · have g := h'.good x hx
      exact { g with pass := fun k => (g.pass k).imp (List.mem_append_left _) id }
    · have hx := List.mem_singleton.mp hx
      subst hx
      refine ⟨List.mem_cons_self .., ?_, ⟨fun k => absurd k hqd, (by intro k; cases k)⟩,
        (by intro k; cases k), (by intro k; cases k), (by intro k; cases k),
        fun k => absurd rfl k, fun _ => Or.inl hin, ?_, (by intro k; cases k), ⟨ok, hq⟩⟩
      · show (!c.disk && !r.first.isEmpty) = true
        rw [hd]
        cases hf : r.first with
        | nil => exact absurd hf hr
        | cons a l => rfl
      · show firstOf n s.sent ++ r.first = r.first
        rw [firstOf_unused h.sent hn]; rfl
  · intro a ha
    have g := h'.gone a ha
    rw [keys_snoc]
    have hu := h.gone a ha
    have hnot : ∀ m ∈ used, m ∉ keysOf s → m ∉ keysOf s ++ [n] := by
      intro m hm hk k
      rcases List.mem_append.mp k with k | k
      · exact hk k
      · exact hn (List.mem_singleton.mp k ▸ hm)
    cases a with
    | success u x =>
      cases x with
      | none => exact g
      | some x => exact ⟨g.1, g.2.1, hnot _ hu.2.1 hu.2.2.1, g.2.2.2⟩
    | failed u x => exact ⟨g.1, g.2.1, hnot _ hu.2.1 hu.2.2.1, g.2.2.2⟩
    | completed u => trivial
    | stopped u => trivial
  · intro u
    have hc := h.count u
    unfold openFor at hc ⊢
    show s.calls.countP _ + (s.tx ++ [_]).countP _ = _
    rw [List.countP_append, List.countP_singleton]
    dsimp only
    omega
  · intro u
    have hc := h.tells u
    show s.calls.countP _ + (s.tx ++ [_]).countP _ ≤ _
    rw [List.countP_append, List.countP_singleton]
    simp only [Bool.not_false, Bool.and_true]
    omega

theorem critical_more {t t' : Tx} (h : t'.takeCritical = none)
    (ha : t'.acks = [] → t.acks = []) (hd : t'.done = true → t.done = true)
    (hr : t'.resend = [] → t.resend = []) : t.takeCritical = none := by
  unfold Tx.takeCritical at h ⊢
  split at h
  · cases h
  · rename_i h1
    rw [ha h1]
    dsimp only
    split at h
    · rename_i h2; rw [if_pos (hd h2)]
    · split at h
      · cases h
      · rename_i h3; rw [hr h3]; split <;> rfl

/-- The session is given more to send and put into the queue, unless it is to be deleted. -/
theorem inv_more (h : Inv es used R S s) {n : Nat} {t t' : Tx} (hl : look s.tx n = some t)
    (h1 : t'.user = t.user) (h2 : t'.green = t.green) (h3 : t'.held = t.held)
    (h4 : t'.first = t.first) (h5 : t'.block = t.block)
    (h6 : t'.done = true → t.done = true ∨ Claimed es n)
    (h6' : t.done = true → t'.done = true)
    (h7 : t'.failed = t.failed) (h8 : t'.notified = t.notified) (h9 : t'.told = t.told)
    {qc : List Nat} (hq : ∀ m ∈ s.qCritical, m ∈ qc) (hn : t.notified = true ∨ n ∈ qc) :
    Inv es used R S { s with tx := put s.tx n t', qCritical := qc } := by
  have g := h.good _ (look_mem hl)
  have := inv_put h (n := n) (t := t) (t' := t') hl (qd := s.qDelete) (qc := qc) (qf := s.qFirst)
    ⟨g.used, h3.trans g.held, (by show _ ↔ t'.notified = true; rw [h8]; exact g.del),
     (by show t'.notified = true → t'.failed = false → t'.first = [] ∧ (t'.green = true ∨ t'.done = true)
         rw [h8, h7, h4, h2]
         intro a b
         exact ⟨(g.ok a b).1, (g.ok a b).2.imp id h6'⟩),
     (by show t'.failed = true → t'.notified = true ∧ _; rw [h7, h8]; exact g.fail),
     (by intro k; rcases h6 k with k | k
         · exact g.done k
         · exact k),
     (by intro _; rcases hn with k | k
         · exact Or.inr (g.del.mpr k)
         · exact Or.inl k),
     (by show t'.first ≠ [] → _; rw [h4]; exact g.pass),
     (by show _ ++ t'.first = t'.block; rw [h4, h5]; exact g.order),
     (by show t'.notified = true → t'.told = true; rw [h8, h9]; exact g.told),
     (by show ∃ ok, Ev.request n ⟨t'.user, t'.green, t'.block⟩ ok ∈ es; rw [h1, h2, h5]; exact g.req)⟩
    h1 (fun k => h9.trans k)
    (fun x hx _ => { h.good x hx with crit := fun k => ((h.good x hx).crit k).imp (hq _) id })
    h.qdel
  exact this

/-- The user is told that the session was cancelled, and then it is erased with its bundle
going back. -/
theorem inv_stop (h : Inv es used R S s) {n : Nat} {t : Tx} (hl : look s.tx n = some t)
    (hx : Cancelled es n) (tell : Bool) (htell : tell = true → t.told = false) :
    Inv es used R S (Eng.erase (Eng.giveBack
      (if tell then { s with calls := s.calls ++ [.stopped t.user] } else s) n t) n) := by
  have g := h.good _ (look_mem hl)
  have hheld : t.held = true := g.held
  have hk : n ∉ keysOf { s with tx := drop s.tx n } := by
    intro hm
    obtain ⟨y, hy, he⟩ := List.mem_map.mp hm
    exact (mem_drop.mp hy).2 he
  have hend := inv_end h (n := n) (t := t) hl (qd := s.qDelete) (qc := s.qCritical)
    (qf := s.qFirst) (a := .failed t.user (n, t)) (by simp [Call.answers])
    (fun u hu => by simpa [Call.answers] using fun k => hu k.symm) (fun _ => rfl)
    ⟨rfl, g.used, hk, g.order, Or.inr hx, g.req⟩ (fun x hx _ => h.good x hx) h.qdel
  unfold Eng.giveBack Eng.erase
  rw [hheld]
  cases tell with
  | false => exact hend
  | true =>
    have ht := htell rfl
    refine ⟨hend.keys, hend.good, ?_, hend.sent, hend.qdel, hend.pend, hend.wr, ?_, ?_, hend.rx, hend.rxk, hend.late⟩
    · intro a ha
      have ha : a ∈ (s.calls ++ [.stopped t.user]) ++ [.failed t.user (n, t)] := ha
      rcases List.mem_append.mp ha with ha | ha
      · rcases List.mem_append.mp ha with ha | ha
        · exact hend.gone a (List.mem_append_left _ ha)
        · rw [List.mem_singleton.mp ha]; trivial
      · exact hend.gone a (List.mem_append_right _ ha)
    · intro u
      have hc := hend.count u
      unfold openFor at hc ⊢
      have hc : (s.calls ++ [Call.failed t.user (n, t)]).countP (Call.answers u)
        + (drop s.tx n).countP _ = R u := hc
      show ((s.calls ++ [Call.stopped t.user]) ++ [Call.failed t.user (n, t)]).countP (Call.answers u)
        + (drop s.tx n).countP _ = R u
      rw [List.countP_append] at hc
      rw [List.countP_append, List.countP_append]
      have : ([Call.stopped t.user] : List Call).countP (Call.answers u) = 0 := rfl
      omega
    · intro u
      have hc := h.tells u
      have hd := count_drop h.keys (look_mem hl) (fun x => x.2.user == u && !x.2.told)
      show ((s.calls ++ [Call.stopped t.user]) ++ [Call.failed t.user (n, t)]).countP (Call.tells u)
        + (drop s.tx n).countP _ ≤ R u
      rw [List.countP_append, List.countP_append, List.countP_singleton, List.countP_singleton]
      dsimp only at hd
      rw [ht] at hd
      simp only [Bool.not_false, Bool.and_true] at hd
      have e1 : Call.tells u (.stopped t.user) = (t.user == u) := rfl
      have e2 : Call.tells u (.failed t.user (n, t)) = false := rfl
      rw [e1, e2]
      simp only [Bool.false_eq_true, if_false]
      omega

/-- The numbers drawn by one event. -/
def drawn : Ev → List Nat
  | .request n _ _ => [n]
  | .written _ n => [n]
  | _ => []

/-- What one event adds to the requests. -/
def asked (u : Nat) : Ev → Nat
  | .request _ r _ => if r.user == u then 1 else 0
  | _ => 0

theorem inv_step {c : Cfg} (hd : c.disk = false) (h : Inv es used R s.sent s) (e : Ev)
    (hn : ∀ n ∈ drawn e, n ∉ used) (hr : ∀ n r ok, e = .request n r ok → r.first ≠ []) :
    Inv (es ++ [e]) (drawn e ++ used) (fun u => R u + asked u e) (s.step c e).sent (s.step c e) := by
  have hin : e ∈ es ++ [e] := List.mem_append_right _ (List.mem_singleton.mpr rfl)
  have h := inv_mono h (es' := es ++ [e]) (fun x hx => List.mem_append_left _ hx)
  cases e with
  | request n r ok =>
    unfold Eng.step
    dsimp only
    rw [hd]
    exact inv_start hd h (hn n (List.mem_singleton.mpr rfl)) (hr n r ok rfl) hin
  | written i n =>
    unfold Eng.step
    dsimp only
    have : s.writes[i]? = none := by rw [h.wr]; rfl
    rw [this]
    exact inv_used h (fun m hm => List.mem_cons_of_mem _ hm)
  | report n ack fresh all extra =>
    unfold Eng.step
    dsimp only
    cases hl : look s.tx n with
    | none =>
      dsimp only
      exact inv_saturate hd (s := { s with closed := s.closed ++ [ack] }) { h with }
    | some t =>
      dsimp only
      apply inv_saturate hd
      have g := h.good _ (look_mem hl)
      have key : ∀ t' : Tx, t'.user = t.user → t'.green = t.green → t'.held = t.held →
          t'.first = t.first → t'.block = t.block →
          (t'.done = true → t.done = true ∨ Claimed (es ++ [.report n ack fresh all extra]) n) →
          (t.done = true → t'.done = true) → t'.failed = t.failed → t'.notified = t.notified →
          t'.told = t.told →
          Inv (es ++ [.report n ack fresh all extra]) used R
            (if t'.notified = true then ({ s with tx := put s.tx n t' } : Eng)
              else ({ s with tx := put s.tx n t' } : Eng).producible n).sent
            (if t'.notified = true then ({ s with tx := put s.tx n t' } : Eng)
              else ({ s with tx := put s.tx n t' } : Eng).producible n) := by
        intro t' k1 k2 k3 k4 k5 k6 k6' k7 k8 k9
        split
        · rename_i hnot
          exact inv_more h hl k1 k2 k3 k4 k5 k6 k6' k7 k8 k9 (fun _ k => k)
            (Or.inl (k8.symm.trans hnot))
        · have := inv_more h hl k1 k2 k3 k4 k5 k6 k6' k7 k8 k9 (qc := s.qCritical ++ [n])
            (fun _ k => List.mem_append_left _ k)
            (Or.inr (List.mem_append_right _ (List.mem_singleton.mpr rfl)))
          exact { this with }
      have hdone : ∀ b : Bool, (t.done || b) = true → t.done = true ∨ b = true := by
        intro b k; simpa using k
      unfold Eng.reportIn
      dsimp only
      split
      · rename_i hfresh
        have hcl : (t.done || all) = true →
            t.done = true ∨ Claimed (es ++ [.report n ack fresh all extra]) n := by
          intro k
          rcases hdone all k with k | k
          · exact Or.inl k
          · exact Or.inr ⟨ack, extra, by rw [hfresh, k] at hin ⊢; exact hin⟩
        split
        · rename_i hc
          obtain ⟨c1, c2, c3⟩ := hc
          have c1' : t.first = [] := c1
          have c2' : (t.done || all) = true := c2
          exact inv_finish h hl c3 rfl rfl g.used g.held (fun _ _ => ⟨c1, Or.inr c2⟩)
            (fun k => by
              have k' : t.failed = true := by simpa using k
              exact (g.fail k').2)
            (fun k => (hcl k).elim g.done id) g.order g.req (fun x hx _ => h.good x hx)
        · exact key { t with acks := t.acks ++ [ack], done := t.done || all,
                             resend := t.resend ++ extra } rfl rfl rfl rfl rfl hcl
            (fun k => by show (t.done || all) = true; rw [k]; rfl) rfl rfl rfl
      · exact key { t with acks := t.acks ++ [ack] } rfl rfl rfl rfl rfl Or.inl id rfl rfl rfl
  | checkpoint n p retry skip =>
    unfold Eng.step
    dsimp only
    cases hl : look s.tx n with
    | none => exact h
    | some t =>
      dsimp only
      have g := h.good _ (look_mem hl)
      unfold Eng.checkpoint
      dsimp only
      split
      · split
        · exact h
        · have := inv_more h hl (t' := { t with resend := t.resend ++ [p] })
            rfl rfl rfl rfl rfl Or.inl id rfl rfl rfl (qc := s.qCritical ++ [n])
            (fun _ k => List.mem_append_left _ k)
            (Or.inr (List.mem_append_right _ (List.mem_singleton.mpr rfl)))
          exact { this with }
      · rename_i hretry
        have hretry : retry = false := by simpa using hretry
        split
        · exact h
        · rename_i hnot
          have hnot : t.notified = false := by simpa using hnot
          exact inv_finish h hl hnot rfl rfl g.used g.held (fun k => nomatch k)
            (fun _ => ⟨p, skip, by rw [hretry] at hin ⊢; exact hin⟩) g.done g.order g.req
            (fun x hx _ => h.good x hx)
  | delayed n extra =>
    unfold Eng.step
    dsimp only
    cases hl : look s.tx n with
    | none => exact h
    | some t =>
      dsimp only
      split
      · rename_i hnot
        exact inv_more h hl (t' := { t with resend := t.resend ++ extra })
          rfl rfl rfl rfl rfl Or.inl id rfl rfl rfl (fun _ k => k) (Or.inl hnot)
      · have := inv_more h hl (t' := { t with resend := t.resend ++ extra })
            rfl rfl rfl rfl rfl Or.inl id rfl rfl rfl (qc := s.qCritical ++ [n])
            (fun _ k => List.mem_append_left _ k)
            (Or.inr (List.mem_append_right _ (List.mem_singleton.mpr rfl)))
        exact { this with }
  | cancelIn n p =>
    unfold Eng.step
    dsimp only
    cases hl : look s.tx n with
    | none =>
      dsimp only
      exact inv_saturate hd (s := { s with closed := s.closed ++ [p] }) { h with }
    | some t =>
      dsimp only
      apply inv_saturate hd
      have hx : Cancelled (es ++ [.cancelIn n p]) n := Or.inr ⟨p, hin⟩
      have hst := inv_stop h hl hx (!t.told) (fun k => by simpa using k)
      cases ht : t.told with
      | true =>
        rw [ht] at hst
        simp only [Bool.not_true, Bool.false_eq_true, if_false, if_true] at hst ⊢
        have hs : (Eng.erase (s.giveBack n t) n).sent = s.sent := by
          unfold Eng.giveBack Eng.erase; split <;> rfl
        have : Inv (es ++ [.cancelIn n p]) used R (Eng.erase (s.giveBack n t) n).sent
            (Eng.erase (s.giveBack n t) n) := by rw [hs]; exact hst
        exact { this with }
      | false =>
        rw [ht] at hst
        simp only [Bool.not_false, Bool.false_eq_true, if_false, if_true] at hst ⊢
        have hs : (Eng.erase (Eng.giveBack { s with calls := s.calls ++ [.stopped t.user] } n t) n).sent
            = s.sent := by
          unfold Eng.giveBack Eng.erase; split <;> rfl
        have : Inv (es ++ [.cancelIn n p]) used R
            (Eng.erase (Eng.giveBack { s with calls := s.calls ++ [.stopped t.user] } n t) n).sent
            (Eng.erase (Eng.giveBack { s with calls := s.calls ++ [.stopped t.user] } n t) n) := by
          rw [hs]; exact hst
        exact { this with }
  | cancel n =>
    unfold Eng.step
    dsimp only
    cases hl : look s.tx n with
    | none => exact h
    | some t =>
      dsimp only
      apply inv_saturate hd
      have hx : Cancelled (es ++ [.cancel n]) n := Or.inl hin
      have hst := inv_stop h hl hx false (fun k => nomatch k)
      have hs : (Eng.erase (s.giveBack n t) n).sent = s.sent := by
        unfold Eng.giveBack Eng.erase; split <;> rfl
      have : Inv (es ++ [.cancel n]) used R (Eng.erase (s.giveBack n t) n).sent
          (Eng.erase (s.giveBack n t) n) := by rw [hs]; exact hst
      exact { this with }
  | cancelTimer x =>
    exact inv_saturate hd (s := { s with cancels := s.cancels ++ [x] }) { h with }
  | rxOpen r =>
    unfold Eng.step
    dsimp only
    cases hl : look s.rx r with
    | some t => exact h
    | none =>
      dsimp only
      have hab := look_none hl
      refine { h with rx := ?_, rxk := ?_ }
      · intro x hx hne
        rcases List.mem_append.mp hx with hx | hx
        · exact h.rx x hx hne
        · rw [List.mem_singleton.mp hx] at hne; exact absurd rfl hne
      · show ((s.rx ++ [(r, [])]).map Prod.fst).Nodup
        rw [List.map_append]
        refine List.nodup_append.mpr ⟨h.rxk, by simp, ?_⟩
        intro a ha b hb
        obtain ⟨x, hx, rfl⟩ := List.mem_map.mp ha
        have : b = r := by simpa using hb
        rw [this]; exact hab x hx
  | rxMake r ps =>
    unfold Eng.step
    dsimp only
    cases hl : look s.rx r with
    | none => exact h
    | some qs =>
      dsimp only
      refine { h with rx := ?_, rxk := nodup_put r _ h.rxk }
      intro x hx hne
      rcases mem_put hx with rfl | ⟨hx, _⟩
      · exact Or.inl (List.mem_append_right _ (List.mem_singleton.mpr rfl))
      · exact (h.rx x hx hne).imp (List.mem_append_left _) id
  | rxEnd r b =>
    unfold Eng.step
    exact { h with rx := fun x hx hne => (h.rx x hx hne).imp id (List.mem_append_left _) }
  | rxCancelIn r p =>
    refine inv_saturate hd (s := { s with rx := drop s.rx r, closed := s.closed ++ [p] })
      { h with rx := fun x hx hne => h.rx x (mem_drop.mp hx).1 hne, rxk := keys_drop r h.rxk }
  | posted =>
    unfold Eng.step
    dsimp only
    split
    · exact h
    · exact inv_saturate hd (s := { s with posted := s.posted - 1 }) { h with }
  | completed =>
    unfold Eng.step
    dsimp only
    split
    · exact h
    · split
      · exact { h with }
      · exact { h with }
  | readFailed =>
    unfold Eng.step
    dsimp only
    split
    · exact { h with }
    · exact h
  | housekeeping => exact inv_saturate hd h

theorem numbers_snoc (es : List Ev) (e : Ev) : numbers (es ++ [e]) = numbers es ++ drawn e := by
  unfold numbers
  rw [List.filterMap_append]
  cases e <;> rfl

theorem requests_snoc (u : Nat) (es : List Ev) (e : Ev) :
    requestsOf u (es ++ [e]) = requestsOf u es + asked u e := by
  unfold requestsOf
  rw [List.countP_append, List.countP_singleton]
  cases e <;> rfl

theorem inv_run {c : Cfg} (hd : c.disk = false) (es : List Ev) (hn : (numbers es).Nodup)
    (hr : NonEmpty es) :
    ∃ used, (∀ n, n ∈ used ↔ n ∈ numbers es) ∧
      Inv es used (fun u => requestsOf u es) (Eng.run c es).sent (Eng.run c es) := by
  induction es using List.reverseRecOn with
  | nil =>
    refine ⟨[], fun n => Iff.rfl, ?_⟩
    refine ⟨List.nodup_nil, ?_, ?_, ?_, ?_, rfl, rfl, ?_, ?_, ?_, List.nodup_nil, rfl⟩
    · intro x hx; cases hx
    · intro x hx; cases hx
    · intro n p hx; cases hx
    · intro n hx; cases hx
    · intro u; rfl
    · intro u; exact Nat.le_refl _
    · intro x hx; cases hx
  | append_singleton es e ih =>
    rw [numbers_snoc] at hn
    obtain ⟨n1, n2, n3⟩ := List.nodup_append.mp hn
    obtain ⟨used, hu, h⟩ := ih n1 (fun x hx => hr x (List.mem_append_left _ hx))
    refine ⟨drawn e ++ used, ?_, ?_⟩
    · intro n
      rw [numbers_snoc, List.mem_append, List.mem_append, hu]
      exact Or.comm
    · rw [run_snoc]
      have := inv_step hd h e
        (fun n hn hin => n3 n ((hu n).mp hin) n hn rfl)
        (fun n r ok he => hr e (List.mem_append_right _ (List.mem_singleton.mpr rfl)) n r ok he)
      have hR : (fun u => requestsOf u (es ++ [e])) = fun u => requestsOf u es + asked u e := by
        funext u; exact requests_snoc u es e
      rw [hR]; exact this

end Hdtn.LtpSessions
