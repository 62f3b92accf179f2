import Verif.TcpclV3Link.Steps
import Mathlib.Tactic.ByContra

/-! # What is on its way arrives -/

namespace Hdtn.TcpclV3Link

/-- The work a message makes for an active or passive receiver. -/
def base (act : Bool) : Msg → Nat
  | .contact _ _ => if act then 4 else 6
  | .data _ _ _ => 4
  | _ => 0

/-- The work of messages which are `k` moves from being received. -/
def load (act : Bool) (k : Nat) (l : List Msg) : Nat := (l.map (fun m => base act m + k)).sum

theorem load_append (act : Bool) (k : Nat) (l l' : List Msg) :
    load act k (l ++ l') = load act k l + load act k l' := by
  simp [load]

theorem load_cons (act : Bool) (k : Nat) (m : Msg) (l : List Msg) :
    load act k (m :: l) = base act m + k + load act k l := by
  simp [load]

/-- The work which is left in one direction, and in both. -/
def Sys.dirLoad (s : Sys) : Nat :=
  load s.b.active 1 s.ab + load s.b.active 2 (s.a.out.map Prod.fst) +
    load s.b.active 3 (s.a.pend.map Prod.fst)

def Sys.work (s : Sys) : Nat := s.dirLoad + s.swap.dirLoad

theorem swap_swap (s : Sys) : s.swap.swap = s := rfl

theorem work_swap (s : Sys) : s.swap.work = s.work := by
  unfold Sys.work; rw [swap_swap]; omega

theorem send_out (e : End) (x : El) (k : Nat) (act : Bool) :
    load act k ((e.send x).out.map Prod.fst) ≤ load act k (e.out.map Prod.fst) + (base act x.1 + k) := by
  unfold End.send
  split
  · show load act k (e.out.map Prod.fst) ≤ _; omega
  · show load act k ((e.out ++ [x]).map Prod.fst) ≤ _
    rw [List.map_append, load_append]; simp [load]

theorem send_pend (e : End) (x : El) : (e.send x).pend = e.pend := by
  unfold End.send; split <;> rfl

theorem send_active (e : End) (x : El) : (e.send x).active = e.active := by
  unfold End.send; split <;> rfl

theorem dataIn_out (e : End) (f t : Bool) (d : Bytes) (act : Bool) :
    load act 2 ((e.dataIn f t d).out.map Prod.fst) ≤ load act 2 (e.out.map Prod.fst) + 2 ∧
    (e.dataIn f t d).pend = e.pend ∧ (e.dataIn f t d).active = e.active := by
  unfold End.dataIn
  simp only
  split
  · refine ⟨?_, ?_, ?_⟩
    · exact send_out (e.got f t d) (.ack (take1 e.concat f t d).2.2, none) 2 act
    · rw [send_pend]
    · rw [send_active]
  · exact ⟨Nat.le_add_right _ _, rfl, rfl⟩

/-- The entity afterwards, by its work: at most that of what it answers. -/
theorem recv_out (e : End) (m : Msg) (act : Bool) (h : e.active = true ∨ act = true) :
    load act 2 ((e.recv m).out.map Prod.fst) < load act 2 (e.out.map Prod.fst) + (base e.active m + 1) ∧
    (e.recv m).pend = e.pend ∧ (e.recv m).active = e.active := by
  cases m with
  | contact k g =>
    by_cases ha : e.active = true
    · have he : e.recv (.contact k g) = { e with wantsAck := k, wantsLen := g, ready := true } := by
        simp [End.recv, ha]
      rw [he]
      refine ⟨?_, rfl, rfl⟩
      show load act 2 (e.out.map Prod.fst) < _
      omega
    · have he : e.recv (.contact k g) =
          { ({ e with wantsAck := k, wantsLen := g } : End).send (.contact true false, none) with ready := true } := by
        simp [End.recv, ha]
      have hact : act = true := by
        rcases h with h | h
        · exact absurd h ha
        · exact h
      rw [he]
      refine ⟨?_, send_pend _ _, send_active _ _⟩
      have := send_out ({ e with wantsAck := k, wantsLen := g } : End) (.contact true false, none) 2 act
      simp only [base, hact, ha, if_true] at this ⊢
      simp at this ⊢
      omega
  | data f t d =>
    have := dataIn_out e f t d act
    refine ⟨?_, this.2.1, this.2.2⟩
    have h1 := this.1
    show load act 2 ((e.dataIn f t d).out.map Prod.fst) < _
    simp only [base]; omega
  | ack n =>
    obtain ⟨r, su, he⟩ := ackIn_frame e n
    have : e.recv (.ack n) = { e with ring := r, success := su } := he
    rw [this]
    exact ⟨by simp [base], rfl, rfl⟩
  | length n => exact ⟨by simp [base, End.recv], rfl, rfl⟩
  | refuse => exact ⟨by simp [base, End.recv], rfl, rfl⟩
  | keepalive => exact ⟨by simp [base, End.recv], rfl, rfl⟩
  | shutdown => exact ⟨by simp [base, End.recv], rfl, rfl⟩

theorem stepA_recv (c : Cfg) {s : Sys} {m : Msg} {l : List Msg} (hd : s.a.deaf = false)
    (hb : s.ba = m :: l) (hm : ∀ f t, m ≠ .data f t []) :
    s.stepA c .recv = { s with a := s.a.recv m, ba := l } := by
  simp only [Sys.stepA, hd, Bool.false_eq_true, if_false, hb]

/-- What moves on leaves less to do. -/
theorem work_stepA (c : Cfg) (s : Sys) (e : Ev) (hact : s.a.active = true ∨ s.b.active = true)
    (h : e.moves s) : (s.stepA c e).work < s.work := by
  cases e with
  | post =>
    cases hp : s.a.pend with
    | nil => exact absurd hp h
    | cons x p =>
      have hs : s.stepA c .post = { s with a := ({ s.a with pend := p } : End).send x } := by
        simp [Sys.stepA, End.post, hp]
      rw [hs]
      have h1 := send_out ({ s.a with pend := p } : End) x 2 s.b.active
      unfold Sys.work Sys.dirLoad Sys.swap
      simp only [send_pend, send_active, hp, List.map_cons, load_cons]
      simp only at h1
      omega
  | write =>
    cases ho : s.a.out with
    | nil => exact absurd ho h
    | cons x o =>
      have hs : s.stepA c .write = { s with a := { s.a with out := o }, ab := s.ab ++ [x.1] } := by
        simp [Sys.stepA, ho]
      rw [hs]
      unfold Sys.work Sys.dirLoad Sys.swap
      simp only [ho, List.map_cons, load_cons, load_append]
      have : load s.b.active 1 [] = 0 := rfl
      omega
  | recv =>
    obtain ⟨hd, m, l, hb, hm⟩ := h
    rw [stepA_recv c hd hb hm]
    have h1 := recv_out s.a m s.b.active hact
    unfold Sys.work Sys.dirLoad Sys.swap
    simp only [hb, load_cons, h1.2.1, h1.2.2]
    omega
  | _ => exact absurd h id

theorem active_stepA (c : Cfg) (s : Sys) (e : Ev) :
    (s.stepA c e).a.active = s.a.active ∧ (s.stepA c e).b.active = s.b.active := by
  cases e with
  | forward u d =>
    refine ⟨?_, rfl⟩
    simp only [Sys.stepA]; rw [forward_eq]
    split
    · rfl
    · split <;> rfl
  | post =>
    refine ⟨?_, rfl⟩
    simp only [Sys.stepA]
    unfold End.post
    split
    · rfl
    · rw [send_active]
  | write => simp only [Sys.stepA]; split <;> exact ⟨rfl, rfl⟩
  | fail => exact ⟨rfl, rfl⟩
  | close => exact ⟨rfl, rfl⟩
  | stop tell =>
    refine ⟨?_, rfl⟩
    cases tell
    · rfl
    · exact send_active _ _
  | keepalive => exact ⟨send_active _ _, rfl⟩
  | recv =>
    simp only [Sys.stepA]
    split
    · exact ⟨rfl, rfl⟩
    · split
      · exact ⟨rfl, rfl⟩
      · next m l hb =>
        split
        · exact ⟨rfl, rfl⟩
        · exact ⟨(recv_out s.a _ true (Or.inr rfl)).2.2, rfl⟩

/-- Somebody is the active side. -/
def Led (s : Sys) : Prop := s.a.active = true ∨ s.b.active = true

theorem led_step (c : Cfg) (s : Sys) (e : Act) (h : Led s) (he : e ≠ .reconnect) : Led (s.step c e) := by
  cases e with
  | left e =>
    have := active_stepA c s e
    unfold Led Sys.step; rw [this.1, this.2]; exact h
  | right e =>
    have := active_stepA c s.swap e
    show (s.swap.stepA c e).b.active = true ∨ (s.swap.stepA c e).a.active = true
    rw [this.1, this.2]; exact h
  | reconnect => exact absurd rfl he

theorem work_step (c : Cfg) (s : Sys) (e : Act) (hl : Led s) (h : e.moves s) :
    (s.step c e).work < s.work := by
  cases e with
  | left e => exact work_stepA c s e hl h
  | right e =>
    have h1 := work_stepA c s.swap e hl.symm h
    rw [work_swap] at h1
    show Sys.work (Sys.swap _) < _
    rw [work_swap]; exact h1
  | reconnect => exact absurd h id

theorem moves_ne {s : Sys} {e : Act} (h : e.moves s) : e ≠ .reconnect := by
  intro he; subst he; exact h

theorem moving_length (c : Cfg) (es : List Act) (s : Sys) (hl : Led s) (h : Moving c s es) :
    es.length + (es.foldl (Sys.step c) s).work ≤ s.work := by
  induction es generalizing s with
  | nil => simp
  | cons e es ih =>
    have h1 := work_step c s e hl h.1
    have h2 := ih _ (led_step c s e hl (moves_ne h.1)) h.2
    simp only [List.length_cons, List.foldl_cons]
    omega

theorem led_foldl (c : Cfg) (es : List Act) (s : Sys) (h : s.a.active = true) :
    (es.foldl (Sys.step c) s).a.active = true := by
  induction es generalizing s with
  | nil => exact h
  | cons e es ih =>
    refine ih _ ?_
    cases e with
    | left e => exact (active_stepA c s e).1.trans h
    | right e => exact (active_stepA c s.swap e).2.trans h
    | reconnect => exact h

/-- The message is no empty data segment. -/
def Msg.full (m : Msg) : Prop := ∀ f t, m ≠ .data f t []

/-- Nothing on its way is an empty data segment, and everybody can send and hear. -/
structure Clean (s : Sys) : Prop where
  ab : ∀ m ∈ s.ab, m.full
  out : ∀ m ∈ s.a.out.map Prod.fst, m.full
  pend : ∀ m ∈ s.a.pend.map Prod.fst, m.full

theorem send_full (e : End) (x : El) (hx : x.1.full) (h : ∀ m ∈ e.out.map Prod.fst, m.full) :
    ∀ m ∈ (e.send x).out.map Prod.fst, m.full := by
  unfold End.send
  split
  · exact h
  · intro m hm
    simp only [List.map_append, List.mem_append, List.map_cons, List.map_nil, List.mem_singleton] at hm
    rcases hm with hm | hm
    · exact h m hm
    · subst hm; exact hx

theorem segs_full (f : Nat) (hf : f ≠ 0) (k : Nat) (s : Bool) (d : Bytes) (hd : d ≠ []) :
    ∀ m ∈ segs f k s d, m.full := by
  induction k generalizing s d with
  | zero =>
    intro m hm
    simp only [segs, List.mem_singleton] at hm
    subst hm; intro a b hx
    injection hx with _ _ h3; exact hd h3
  | succ k ih =>
    intro m hm
    unfold segs at hm
    split at hm
    · simp only [List.mem_singleton] at hm
      subst hm; intro a b hx
      injection hx with _ _ h3; exact hd h3
    · next hlen =>
      rcases List.mem_cons.1 hm with hm | hm
      · subst hm; intro a b hx
        injection hx with _ _ h3
        rcases List.take_eq_nil_iff.1 h3 with h3 | h3
        · exact hf h3
        · exact hd h3
      · refine ih false (d.drop f) ?_ m hm
        intro h0
        have := List.drop_eq_nil_iff.1 h0
        omega

theorem segments_full (c : Cfg) (d : Bytes) (hd : d ≠ []) : ∀ m ∈ c.segments d, m.full := by
  unfold Cfg.segments
  split
  · next h =>
    refine segs_full _ ?_ _ _ _ hd
    simp [Cfg.cuts] at h; exact h.1
  · intro m hm
    simp only [List.mem_singleton] at hm
    subst hm; intro a b hx
    injection hx with _ _ h3; exact hd h3

theorem recv_full (e : End) (m : Msg) (h : ∀ m ∈ e.out.map Prod.fst, m.full) :
    ∀ x ∈ (e.recv m).out.map Prod.fst, x.full := by
  cases m with
  | contact k g =>
    unfold End.recv
    simp only
    split
    · exact h
    · exact send_full _ _ (fun _ _ hx => nomatch hx) h
  | data f t d =>
    show ∀ x ∈ (e.dataIn f t d).out.map Prod.fst, x.full
    unfold End.dataIn
    simp only
    split
    · exact send_full (e.got f t d) _ (fun _ _ hx => nomatch hx) h
    · exact h
  | ack n =>
    obtain ⟨r, su, he⟩ := ackIn_frame e n
    have : e.recv (.ack n) = { e with ring := r, success := su } := he
    rw [this]; exact h
  | length n => exact h
  | refuse => exact h
  | keepalive => exact h
  | shutdown => exact h

theorem clean_stepA (c : Cfg) (s : Sys) (e : Ev) (he : e.nonempty) (h : Clean s) (h' : Clean s.swap) :
    Clean (s.stepA c e) ∧ Clean (s.stepA c e).swap := by
  cases e with
  | forward u d =>
    have hf : ∀ m ∈ (s.a.forward c u d).2.pend.map Prod.fst, m.full := by
      rw [forward_eq]
      split
      · exact h.pend
      · split
        · exact h.pend
        · intro m hm
          simp only [End.taken, List.map_append, own_fst, List.mem_append] at hm
          rcases hm with (hm | hm) | hm
          · exact h.pend m hm
          · unfold lenEls at hm
            split at hm
            · simp at hm; subst hm; intro _ _ hx; exact nomatch hx
            · simp at hm
          · exact segments_full c d he m hm
    have ho : (s.a.forward c u d).2.out = s.a.out := by
      rw [forward_eq]; split
      · rfl
      · split <;> rfl
    exact ⟨⟨h.ab, by show ∀ m ∈ (s.a.forward c u d).2.out.map Prod.fst, m.full; rw [ho]; exact h.out, hf⟩,
      ⟨h'.ab, h'.out, h'.pend⟩⟩
  | post =>
    refine ⟨?_, ⟨h'.ab, h'.out, h'.pend⟩⟩
    cases hp : s.a.pend with
    | nil =>
      have hs : s.stepA c .post = s := by simp [Sys.stepA, End.post, hp]
      rw [hs]; exact h
    | cons x p =>
      have hs : s.stepA c .post = { s with a := ({ s.a with pend := p } : End).send x } := by
        simp [Sys.stepA, End.post, hp]
      rw [hs]
      have hpd := h.pend
      rw [hp] at hpd
      refine ⟨h.ab, send_full _ _ (hpd _ (by simp)) h.out, ?_⟩
      rw [send_pend]
      intro m hm
      exact hpd m (by rw [List.map_cons]; exact List.mem_cons_of_mem _ hm)
  | write =>
    cases ho : s.a.out with
    | nil =>
      have hs : s.stepA c .write = s := by simp [Sys.stepA, ho]
      rw [hs]; exact ⟨h, h'⟩
    | cons x o =>
      have hs : s.stepA c .write = { s with a := { s.a with out := o }, ab := s.ab ++ [x.1] } := by
        simp [Sys.stepA, ho]
      rw [hs]
      have hout := h.out
      rw [ho] at hout
      refine ⟨⟨?_, ?_, h.pend⟩, ⟨h'.ab, h'.out, h'.pend⟩⟩
      · intro m hm
        rcases List.mem_append.1 hm with hm | hm
        · exact h.ab m hm
        · rw [List.mem_singleton.1 hm]; exact hout _ (by simp)
      · intro m hm
        exact hout m (by rw [List.map_cons]; exact List.mem_cons_of_mem _ hm)
  | fail => exact ⟨⟨h.ab, fun m hm => (nomatch hm), h.pend⟩, ⟨h'.ab, h'.out, h'.pend⟩⟩
  | close => exact ⟨⟨h.ab, fun m hm => (nomatch hm), h.pend⟩, ⟨h'.ab, h'.out, h'.pend⟩⟩
  | stop tell =>
    refine ⟨?_, ⟨h'.ab, h'.out, h'.pend⟩⟩
    cases tell
    · exact ⟨h.ab, h.out, h.pend⟩
    · refine ⟨h.ab, send_full _ _ (fun _ _ hx => nomatch hx) h.out, ?_⟩
      show ∀ m ∈ (End.send _ _).pend.map Prod.fst, m.full
      rw [send_pend]; exact h.pend
  | keepalive =>
    refine ⟨⟨h.ab, send_full _ _ (fun _ _ hx => nomatch hx) h.out, ?_⟩, ⟨h'.ab, h'.out, h'.pend⟩⟩
    show ∀ m ∈ (End.send _ _).pend.map Prod.fst, m.full
    rw [send_pend]; exact h.pend
  | recv =>
    by_cases hd : s.a.deaf = true
    · have hs : s.stepA c .recv = s := by simp [Sys.stepA, hd]
      rw [hs]; exact ⟨h, h'⟩
    · have hd' : s.a.deaf = false := by cases hx : s.a.deaf <;> simp_all
      cases hb : s.ba with
      | nil =>
        have hs : s.stepA c .recv = s := by simp [Sys.stepA, hd', hb]
        rw [hs]; exact ⟨h, h'⟩
      | cons m l =>
        have hba : ∀ x ∈ m :: l, x.full := by rw [← hb]; exact h'.ab
        rw [stepA_recv c hd' hb (hba m (by simp))]
        refine ⟨⟨h.ab, recv_full _ _ h.out, ?_⟩, ⟨?_, h'.out, h'.pend⟩⟩
        · show ∀ x ∈ (s.a.recv m).pend.map Prod.fst, x.full
          rw [(recv_out s.a m true (Or.inr rfl)).2.1]; exact h.pend
        · intro x hx; exact hba x (List.mem_cons_of_mem _ hx)

theorem clean_step (c : Cfg) (s : Sys) (e : Act) (he : e.nonempty) (h : Clean s ∧ Clean s.swap) :
    Clean (s.step c e) ∧ Clean (s.step c e).swap := by
  cases e with
  | left e => exact clean_stepA c s e he h.1 h.2
  | right e =>
    have := clean_stepA c s.swap e he h.2 h.1
    exact ⟨this.2, this.1⟩
  | reconnect =>
    refine ⟨⟨fun x hx => (nomatch hx), ?_, fun x hx => (nomatch hx)⟩,
      ⟨fun x hx => (nomatch hx), fun x hx => (nomatch hx), fun x hx => (nomatch hx)⟩⟩
    intro m hm
    rw [List.mem_singleton.1 (show m ∈ [Msg.contact true false] from hm)]
    intro _ _ hx; exact nomatch hx

theorem clean_foldl (c : Cfg) (es : List Act) (he : ∀ e ∈ es, e.nonempty) (s : Sys)
    (h : Clean s ∧ Clean s.swap) :
    Clean (es.foldl (Sys.step c) s) ∧ Clean (es.foldl (Sys.step c) s).swap := by
  induction es generalizing s with
  | nil => exact h
  | cons e es ih =>
    exact ih (fun x hx => he x (List.mem_cons_of_mem _ hx)) _ (clean_step c s e (he e (by simp)) h)

theorem send_able (e : End) (x : El) : (e.send x).error = e.error ∧ (e.send x).deaf = e.deaf := by
  unfold End.send; split <;> exact ⟨rfl, rfl⟩

theorem recv_able (e : End) (m : Msg) : (e.recv m).error = e.error ∧ (e.recv m).deaf = e.deaf := by
  cases m with
  | contact k g =>
    unfold End.recv
    simp only
    split
    · exact ⟨rfl, rfl⟩
    · exact send_able ({ e with wantsAck := k, wantsLen := g } : End) _
  | data f t d =>
    show (e.dataIn f t d).error = e.error ∧ (e.dataIn f t d).deaf = e.deaf
    unfold End.dataIn
    simp only
    split
    · exact send_able (e.got f t d) _
    · exact ⟨rfl, rfl⟩
  | ack n =>
    obtain ⟨r, su, he⟩ := ackIn_frame e n
    have : e.recv (.ack n) = { e with ring := r, success := su } := he
    rw [this]; exact ⟨rfl, rfl⟩
  | length n => exact ⟨rfl, rfl⟩
  | refuse => exact ⟨rfl, rfl⟩
  | keepalive => exact ⟨rfl, rfl⟩
  | shutdown => exact ⟨rfl, rfl⟩

theorem able_stepA (c : Cfg) (s : Sys) (e : Ev) (he : e.moves s) (h : Able s) : Able (s.stepA c e) := by
  obtain ⟨h1, h2, h3, h4⟩ := h
  cases e with
  | post =>
    cases hp : s.a.pend with
    | nil => exact absurd hp he
    | cons x p =>
      have hs : s.stepA c .post = { s with a := ({ s.a with pend := p } : End).send x } := by
        simp [Sys.stepA, End.post, hp]
      rw [hs]
      have := send_able ({ s.a with pend := p } : End) x
      exact ⟨this.1.trans h1, this.2.trans h2, h3, h4⟩
  | write =>
    simp only [Sys.stepA]
    split <;> exact ⟨h1, h2, h3, h4⟩
  | recv =>
    obtain ⟨hd, m, l, hb, hm⟩ := he
    rw [stepA_recv c hd hb hm]
    have := recv_able s.a m
    exact ⟨this.1.trans h1, this.2.trans h2, h3, h4⟩
  | _ => exact absurd he id

theorem able_step (c : Cfg) (s : Sys) (e : Act) (he : e.moves s) (h : Able s) : Able (s.step c e) := by
  cases e with
  | left e => exact able_stepA c s e he h
  | right e =>
    obtain ⟨h1, h2, h3, h4⟩ := able_stepA c s.swap e he ⟨h.2.2.1, h.2.2.2, h.1, h.2.1⟩
    exact ⟨h3, h4, h1, h2⟩
  | reconnect => exact absurd he id

theorem moves_nonempty {s : Sys} {e : Act} (h : e.moves s) : e.nonempty := by
  cases e with
  | left e => cases e <;> first | exact absurd h id | trivial
  | right e => cases e <;> first | exact absurd h id | trivial
  | reconnect => exact absurd h id

/-- Nothing is on its way. -/
def Still (s : Sys) : Prop :=
  s.ab = [] ∧ s.ba = [] ∧ s.a.out = [] ∧ s.a.pend = [] ∧ s.b.out = [] ∧ s.b.pend = []

theorem still_or_moves (s : Sys) (ha : Able s) (hc : Clean s ∧ Clean s.swap) :
    Still s ∨ ∃ e : Act, e.moves s := by
  by_contra hn
  have h1 : ∀ e : Act, ¬ e.moves s := fun e he => hn (Or.inr ⟨e, he⟩)
  refine hn (Or.inl ⟨?_, ?_, ?_, ?_, ?_, ?_⟩)
  · by_contra h
    cases hb : s.ab with
    | nil => exact h hb
    | cons m l => exact h1 (.right .recv) ⟨ha.2.2.2, m, l, hb, hc.1.ab m (by rw [hb]; simp)⟩
  · by_contra h
    cases hb : s.ba with
    | nil => exact h hb
    | cons m l => exact h1 (.left .recv) ⟨ha.2.1, m, l, hb, hc.2.ab m (by show m ∈ s.ba; rw [hb]; simp)⟩
  · by_contra h; exact h1 (.left .write) h
  · by_contra h; exact h1 (.left .post) h
  · by_contra h; exact h1 (.right .write) h
  · by_contra h; exact h1 (.right .post) h

theorem drains (c : Cfg) (n : Nat) (s : Sys) (hn : s.work ≤ n) (hl : Led s) (ha : Able s)
    (hc : Clean s ∧ Clean s.swap) :
    ∃ es, Moving c s es ∧ Still (es.foldl (Sys.step c) s) ∧ Able (es.foldl (Sys.step c) s) := by
  induction n generalizing s with
  | zero =>
    rcases still_or_moves s ha hc with h | ⟨e, he⟩
    · exact ⟨[], trivial, h, ha⟩
    · have := work_step c s e hl he
      omega
  | succ n ih =>
    rcases still_or_moves s ha hc with h | ⟨e, he⟩
    · exact ⟨[], trivial, h, ha⟩
    · have h1 := work_step c s e hl he
      obtain ⟨es, hm, hs, hab⟩ := ih (s.step c e) (by omega) (led_step c s e hl (moves_ne he))
        (able_step c s e he ha) (clean_step c s e (moves_nonempty he) hc)
      exact ⟨e :: es, ⟨he, hm⟩, hs, hab⟩

theorem moving_calm (c : Cfg) (es : List Act) (s : Sys) (h : Moving c s es) : Calm c s es := by
  induction es generalizing s with
  | nil => trivial
  | cons e es ih => exact ⟨fun hx => absurd hx (moves_ne h.1), ih _ h.2⟩

theorem calm_append (c : Cfg) (es fs : List Act) (s : Sys) (h : Calm c s es)
    (h' : Calm c (es.foldl (Sys.step c) s) fs) : Calm c s (es ++ fs) := by
  induction es generalizing s with
  | nil => exact h'
  | cons e es ih => exact ⟨h.1, ih _ h.2 h'⟩

theorem able_moving (c : Cfg) (es : List Act) (s : Sys) (h : Moving c s es) (ha : Able s)
    (hc : Clean s ∧ Clean s.swap) :
    Able (es.foldl (Sys.step c) s) ∧ Clean (es.foldl (Sys.step c) s) ∧
      Clean (es.foldl (Sys.step c) s).swap := by
  induction es generalizing s with
  | nil => exact ⟨ha, hc⟩
  | cons e es ih =>
    exact ih _ h.2 (able_step c s e h.1 ha) (clean_step c s e (moves_nonempty h.1) hc)

end Hdtn.TcpclV3Link
