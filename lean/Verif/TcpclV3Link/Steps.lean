import Verif.TcpclV3Link.Lemmas
import Mathlib.Tactic.SplitIfs

/-! # Every event keeps both directions in order -/

namespace Hdtn.TcpclV3Link

/-- Neither data nor a contact header. -/
def Msg.control : Msg → Prop
  | .data _ _ _ => False
  | .contact _ _ => False
  | _ => True

theorem feed_mid {m : Msg} (h : ∀ s e d, m ≠ .data s e d) (k : Bytes) (x y : List Msg) :
    feed k (x ++ m :: y) = feed k (x ++ y) := by
  have h1 : ∀ k', feed k' (m :: y) = feed k' y := by
    intro k'; cases m <;> simp [feed] at h ⊢
  rw [feed_append, feed_append, h1]

theorem flag_mid {m : Msg} (h : m.control) (w : Bool) (x y : List Msg) :
    flagAfter w (x ++ m :: y) = flagAfter w (x ++ y) := by
  have h1 : ∀ w', flagAfter w' (m :: y) = flagAfter w' y := by
    intro w'; cases m <;> simp [flagAfter, Msg.control] at h ⊢
  rw [flagAfter_append, flagAfter_append, h1]

theorem okFlow_mid {m : Msg} (h : m.control) (w : Bool) (x y : List Msg) :
    okFlow w (x ++ m :: y) ↔ okFlow w (x ++ y) := by
  have h1 : ∀ w', okFlow w' (m :: y) ↔ okFlow w' y := by
    intro w'; cases m <;> simp [okFlow, Msg.control] at h ⊢
  rw [okFlow_append, okFlow_append, h1]

theorem control_ne {m : Msg} (h : m.control) : ∀ s e d, m ≠ .data s e d := by
  intro s e d he; subst he; exact h

/-- The sender sends a control message: its direction stays in order. -/
theorem dir_control {s : Sys} (h : Dir s) {m : Msg} (hm : m.control) :
    Dir { s with a := s.a.send (m, none) } := by
  unfold End.send
  by_cases he : s.a.error = true
  · rw [if_pos he]
    obtain ⟨h1, h2, h3, h4, h5, h6, h7, h8⟩ := h
    exact ⟨h1, h2, h3, h4, h5, h6, h7, h8⟩
  · rw [if_neg he]
    have hf : Sys.flow { s with a := { s.a with out := s.a.out ++ [(m, none)] } } =
        (s.ab ++ s.a.out.map Prod.fst) ++ m :: (if s.a.error then [] else s.a.pend.map Prod.fst) := by
      simp [Sys.flow]
    have hfeed := feed_mid (control_ne hm) s.b.concat (s.ab ++ s.a.out.map Prod.fst)
      (if s.a.error then [] else s.a.pend.map Prod.fst)
    have hfl := flag_mid hm s.b.wantsAck (s.ab ++ s.a.out.map Prod.fst)
      (if s.a.error then [] else s.a.pend.map Prod.fst)
    have hok := okFlow_mid hm s.b.wantsAck (s.ab ++ s.a.out.map Prod.fst)
      (if s.a.error then [] else s.a.pend.map Prod.fst)
    obtain ⟨h1, h2, h3, h4, h5, h6, h7, h8⟩ := h
    refine ⟨?_, ?_, h3, h4, ?_, ?_, h7, fun hx => absurd hx he⟩
    · rw [hf, hfeed]; exact h1
    · rw [hf, hfeed]; exact h2
    · rw [hf]; exact hok.2 h5
    · intro hr hx
      rw [hf, hfl]; exact h6 hr hx

/-- The same for a contact header, after which it may be ready. -/
theorem dir_contact {s : Sys} (h : Dir s) :
    Dir { s with a := { s.a.send (.contact true false, none) with ready := true } } := by
  unfold End.send
  by_cases he : s.a.error = true
  · rw [if_pos he]
    obtain ⟨h1, h2, h3, h4, h5, h6, h7, h8⟩ := h
    refine ⟨h1, h2, h3, h4, h5, ?_, h7, h8⟩
    intro _ hx; exact absurd (he.symm.trans hx) (by simp)
  · rw [if_neg he]
    obtain ⟨h1, h2, h3, h4, h5, h6, h7, h8⟩ := h
    have hf : Sys.flow { s with a := { s.a with out := s.a.out ++ [(.contact true false, none)], ready := true } } =
        (s.ab ++ s.a.out.map Prod.fst) ++ .contact true false :: s.a.pend.map Prod.fst := by
      simp [Sys.flow, he]
    have hfeed := feed_mid (m := .contact true false) (by intro _ _ _ hx; exact nomatch hx) s.b.concat
      (s.ab ++ s.a.out.map Prod.fst) (s.a.pend.map Prod.fst)
    have hflow : s.flow = (s.ab ++ s.a.out.map Prod.fst) ++ s.a.pend.map Prod.fst := by
      simp [Sys.flow, he]
    rw [hflow] at h1 h2 h5
    refine ⟨?_, ?_, h3, h4, ?_, ?_, h7, fun hx => absurd hx he⟩
    · rw [hf, hfeed]; exact h1
    · rw [hf, hfeed]; exact h2
    · rw [hf, okFlow_append]
      exact ⟨((okFlow_append _ _ _).1 h5).1, okFlow_plain h7⟩
    · intro _ _
      rw [hf, flagAfter_append]
      exact flagAfter_plain true h7

/-- The sender becomes ready with what it sent before, or not ready. -/
theorem dir_ready {s : Sys} (h : Dir s) (r : Bool) (hr : r = true → s.a.active = true) :
    Dir { s with a := { s.a with ready := r } } := by
  obtain ⟨h1, h2, h3, h4, h5, h6, h7, h8⟩ := h
  refine ⟨h1, h2, h3, h4, h5, ?_, h7, h8⟩
  intro hx he
  refine h6 (Or.inl ?_) he
  rcases hx with hx | hx
  · exact hx
  · exact hr hx

/-- The length message, if there is one. -/
def lenEls (w : Bool) (d : Bytes) : List El := if w then [(.length d.length, none)] else []

/-- The entity with an accepted bundle. -/
def End.taken (c : Cfg) (e : End) (u : Nat) (d : Bytes) : End :=
  { e with
    ring := e.ring ++ [c.entry u d]
    pend := e.pend ++ lenEls e.wantsLen d ++ own d (c.segments d)
    accepted := e.accepted ++ [(u, d)] }

theorem forward_eq (c : Cfg) (e : End) (u : Nat) (d : Bytes) :
    e.forward c u d = if e.ready = false then (false, e)
      else if c.maxUnacked + 4 ≤ e.ring.length then (false, e) else (true, e.taken c u d) := rfl

theorem dir_forward {s : Sys} (c : Cfg) (u : Nat) (d : Bytes) (h : Dir s) :
    Dir { s with a := (s.a.forward c u d).2 } := by
  rw [forward_eq]
  split_ifs with hr hfull
  · exact h
  · exact h
  show Dir { s with a := s.a.taken c u d }
  obtain ⟨h1, h2, h3, h4, h5, h6, h7, h8⟩ := h
  have hrd : s.a.ready = true := by cases hx : s.a.ready <;> simp_all
  have hlenp : ∀ m ∈ (lenEls s.a.wantsLen d).map Prod.fst, m.plain := by
    unfold lenEls; split <;> simp [Msg.plain]
  have hlenf : ∀ k, feed k ((lenEls s.a.wantsLen d).map Prod.fst) = ([], []) := by
    intro k; unfold lenEls; split <;> simp [feed]
  have hp : ∀ m ∈ (s.a.pend ++ (lenEls s.a.wantsLen d) ++
      own d (c.segments d)).map Prod.fst, m.plain := by
    intro m hm
    simp only [List.map_append, own_fst, List.mem_append] at hm
    rcases hm with (hm | hm) | hm
    · exact h7 m hm
    · exact hlenp m hm
    · exact segments_plain c d m hm
  by_cases he : s.a.error = true
  · have hf : Sys.flow { s with a := s.a.taken c u d } = s.flow := by
      simp [Sys.flow, End.taken, he]
    refine ⟨?_, ?_, ?_, ?_, ?_, ?_, hp, h8⟩
    · obtain ⟨lost, hl, _⟩ := h1
      refine ⟨lost ++ [d], ?_, fun hx => absurd (he.symm.trans hx) (by simp)⟩
      rw [hf]
      simp only [End.taken, List.map_append, ← hl]
      simp
    · obtain ⟨T, lost, hT, hl, hn, _⟩ := h2
      refine ⟨T, lost ++ (c.entry u d).labelled, hT, ?_, hn, fun hx => absurd (he.symm.trans hx) (by simp)⟩
      rw [hf]
      simp only [End.taken, List.flatMap_append, ← hl]
      simp
    · simp only [End.taken, List.map_append, ← h3]
      simp [Cfg.entry]
    · intro x hx
      rcases List.mem_append.1 hx with hx | hx
      · exact h4 x hx
      · rw [List.mem_singleton.1 hx]; exact entry_ok c u d
    · rw [hf]; exact h5
    · intro _ hx; exact absurd (he.symm.trans hx) (by simp)
  · have he' : s.a.error = false := by cases hx : s.a.error <;> simp_all
    have hf : Sys.flow { s with a := s.a.taken c u d } =
        s.flow ++ ((lenEls s.a.wantsLen d).map Prod.fst ++ c.segments d) := by
      simp [Sys.flow, End.taken, he', own_fst]
    have hfeed : ∀ k, feed k (s.flow ++ ((lenEls s.a.wantsLen d).map Prod.fst ++ c.segments d)) =
        ((feed k s.flow).1 ++ [d], (feed k s.flow).2 ++ (c.entry u d).labelled) := by
      intro k
      rw [feed_append, feed_append (buf k s.flow), hlenf, feed_segments c _ u d]
      simp
    have hflag := h6 (Or.inr hrd) he'
    have hpl : ∀ m ∈ (lenEls s.a.wantsLen d).map Prod.fst ++ c.segments d, m.plain := by
      intro m hm
      rcases List.mem_append.1 hm with hm | hm
      · exact hlenp m hm
      · exact segments_plain c d m hm
    refine ⟨?_, ?_, ?_, ?_, ?_, ?_, hp, h8⟩
    · obtain ⟨lost, hl, h0⟩ := h1
      have := h0 he'; subst this
      refine ⟨[], ?_, fun _ => rfl⟩
      rw [hf, hfeed]
      simp only [End.taken, List.map_append, ← hl]
      simp
    · obtain ⟨T, lost, hT, hl, hn, h0⟩ := h2
      by_cases hb : s.b.error = true
      · refine ⟨T, lost ++ (c.entry u d).labelled, hT, ?_, hn, fun _ hx => absurd (hb.symm.trans hx) (by simp)⟩
        simp only [hb, if_true] at hl ⊢
        simp only [End.taken, List.flatMap_append, ← hl]
        simp
      · have hb' : s.b.error = false := by cases hx : s.b.error <;> simp_all
        have := h0 he' hb'; subst this
        refine ⟨T, [], hT, ?_, hn, fun _ _ => rfl⟩
        rw [hf, hfeed]
        simp only [hb', Bool.false_eq_true, if_false] at hl ⊢
        simp only [End.taken, List.flatMap_append, ← hl]
        simp
    · simp only [End.taken, List.map_append, ← h3]
      simp [Cfg.entry]
    · intro x hx
      rcases List.mem_append.1 hx with hx | hx
      · exact h4 x hx
      · rw [List.mem_singleton.1 hx]; exact entry_ok c u d
    · rw [hf, okFlow_append]
      refine ⟨h5, ?_⟩
      rw [hflag]; exact okFlow_plain hpl
    · intro _ _
      rw [hf, flagAfter_append]
      rw [hflag]; exact flagAfter_plain true hpl

theorem dir_post {s : Sys} (h : Dir s) : Dir { s with a := s.a.post } := by
  unfold End.post
  split
  · exact h
  · next x p hp =>
    obtain ⟨h1, h2, h3, h4, h5, h6, h7, h8⟩ := h
    have h7' : ∀ m ∈ p.map Prod.fst, m.plain := by
      intro m hm
      exact h7 m (by rw [hp]; simp only [List.map_cons]; exact List.mem_cons_of_mem _ hm)
    unfold End.send
    by_cases he : s.a.error = true
    · rw [if_pos he]
      have hf : Sys.flow { s with a := { s.a with pend := p, returned := s.a.returned ++ x.back } } = s.flow := by
        simp [Sys.flow, he]
      exact ⟨by rw [hf]; exact h1, by rw [hf]; exact h2, h3, h4, by rw [hf]; exact h5,
        by rw [hf]; exact h6, h7', h8⟩
    · rw [if_neg he]
      have hf : Sys.flow { s with a := { s.a with pend := p, out := s.a.out ++ [x] } } = s.flow := by
        simp [Sys.flow, he, hp]
      exact ⟨by rw [hf]; exact h1, by rw [hf]; exact h2, h3, h4, by rw [hf]; exact h5,
        by rw [hf]; exact h6, h7', fun hx => absurd hx he⟩

theorem dir_write {s : Sys} {x : El} {o : List El} (h : Dir s) (ho : s.a.out = x :: o) :
    Dir { s with a := { s.a with out := o }, ab := s.ab ++ [x.1] } := by
  obtain ⟨h1, h2, h3, h4, h5, h6, h7, h8⟩ := h
  have hf : Sys.flow { s with a := { s.a with out := o }, ab := s.ab ++ [x.1] } = s.flow := by
    simp [Sys.flow, ho]
  exact ⟨by rw [hf]; exact h1, by rw [hf]; exact h2, h3, h4, by rw [hf]; exact h5,
    by rw [hf]; exact h6, h7, fun hx => absurd (h8 hx) (by simp [ho])⟩

/-- The sender loses what is not with TCP. -/
theorem dir_cut {s : Sys} (h : Dir s) (rt : List (Option Nat × Bytes)) (df : Bool) :
    Dir { s with a := { s.a with error := true, out := [], returned := rt, deaf := df } } := by
  obtain ⟨h1, h2, h3, h4, h5, h6, h7, h8⟩ := h
  have hf : Sys.flow { s with a := { s.a with error := true, out := [], returned := rt, deaf := df } } = s.ab := by
    simp [Sys.flow]
  obtain ⟨t, ht⟩ : ∃ t, s.flow = s.ab ++ t := ⟨_, by unfold Sys.flow; rw [List.append_assoc]⟩
  rw [ht, feed_append] at h1 h2
  refine ⟨?_, ?_, h3, h4, ?_, ?_, h7, fun _ => rfl⟩
  · rw [hf]
    obtain ⟨lost, hl, _⟩ := h1
    refine ⟨(feed (buf s.b.concat s.ab) t).1 ++ lost, ?_, fun hx => nomatch hx⟩
    rw [← hl]; simp
  · rw [hf]
    obtain ⟨T, lost, hT, hl, hn, _⟩ := h2
    by_cases hb : s.b.error = true
    · refine ⟨T, lost, hT, ?_, hn, fun hx => nomatch hx⟩
      rw [← hl]; simp [hb]
    · refine ⟨T, (feed (buf s.b.concat s.ab) t).2 ++ lost, hT, ?_, hn, fun hx => nomatch hx⟩
      rw [← hl]; simp [hb]
  · rw [hf]; rw [ht, okFlow_append] at h5; exact h5.1
  · intro _ hx; exact nomatch hx

/-- The next message on the way back is no acknowledgement. -/
theorem dir_skip {s : Sys} {m : Msg} {l : List Msg} (h : Dir s) (hb : s.ba = m :: l)
    (hm : ∀ n, m ≠ .ack n) : Dir { s with ba := l } := by
  obtain ⟨h1, h2, h3, h4, h5, h6, h7, h8⟩ := h
  refine ⟨h1, ?_, h3, h4, h5, h6, h7, h8⟩
  have : acksOf (s.ba ++ s.b.out.map Prod.fst) = acksOf (l ++ s.b.out.map Prod.fst) := by
    rw [hb]; cases m <;> simp [acksOf] at hm ⊢
  rw [this] at h2; exact h2

/-- The sender receives an acknowledgement. -/
theorem dir_ack {s : Sys} {n : Nat} {l : List Msg} (h : Dir s) (hb : s.ba = .ack n :: l) :
    Dir { s with a := s.a.ackIn n, ba := l } := by
  obtain ⟨h1, h2, h3, h4, h5, h6, h7, h8⟩ := h
  obtain ⟨T, lost, hT, hl, hn, h0⟩ := h2
  rw [hb] at hT
  simp only [List.cons_append, acksOf] at hT
  cases T with
  | nil => simp at hT
  | cons p T =>
  obtain ⟨hp, hT'⟩ := List.cons.inj hT
  cases hr : s.a.ring with
  | nil => rw [hr] at hl; simp at hl
  | cons x r =>
    have hx : x.Ok := h4 x (by simp [hr])
    rw [hr, List.flatMap_cons] at hl
    cases ht : x.rest with
    | nil =>
      exfalso
      unfold Entry.rest at ht
      split at ht
      · simp at ht
      · next hne =>
        rcases hx with hx | hx
        · exact hne hx
        · have := List.drop_eq_nil_iff.1 ht
          omega
    | cons n' t =>
      have hlab : x.labelled = (n', t.isEmpty) :: lab t := by
        unfold Entry.labelled; rw [ht, lab_cons]
      rw [hlab] at hl
      obtain ⟨hpn, hl'⟩ := List.cons.inj hl
      subst hpn
      have hn' : n' = n := hp
      subst hn'
      rcases ackIn_rest s.a x r n' t hr hx ht with ⟨ht0, he⟩ | ⟨ht0, y, hy, hyr, hyu, he⟩
      · rw [he]
        subst ht0
        refine ⟨h1, ⟨T, lost, hT', hl', ?_, h0⟩, ?_, ?_, h5, h6, h7, h8⟩
        · simp at hn ⊢; omega
        · rw [← h3, hr]; simp
        · intro z hz; exact h4 z (by rw [hr]; exact List.mem_cons_of_mem _ hz)
      · rw [he]
        refine ⟨h1, ⟨T, lost, hT', ?_, ?_, h0⟩, ?_, ?_, h5, h6, h7, h8⟩
        · show _ = (y :: r).flatMap Entry.labelled
          rw [List.flatMap_cons]
          unfold Entry.labelled at hl' ⊢
          rw [hyr]; exact hl'
        · have : t.isEmpty = false := List.isEmpty_eq_false_iff.2 ht0
          simp [this] at hn ⊢; omega
        · rw [← h3, hr]
          show _ ++ (y :: r).map Entry.user = _
          simp [hyu]
        · intro z hz
          rcases List.mem_cons.1 hz with hz | hz
          · subst hz; exact hy
          · exact h4 z (by rw [hr]; exact List.mem_cons_of_mem _ hz)

/-- The receiver changes in what does not matter for the direction. -/
theorem dir_congr {s t : Sys} (h : Dir s) (ha : s.a = t.a) (hab : s.ab = t.ab)
    (hd : s.b.delivered = t.b.delivered) (hk : s.b.concat = t.b.concat)
    (hw : s.b.wantsAck = t.b.wantsAck) (he : s.b.error = t.b.error)
    (hq : acksOf (s.ba ++ s.b.out.map Prod.fst) = acksOf (t.ba ++ t.b.out.map Prod.fst)) : Dir t := by
  obtain ⟨h1, h2, h3, h4, h5, h6, h7, h8⟩ := h
  have hf : s.flow = t.flow := by unfold Sys.flow; rw [ha, hab]
  rw [ha] at h1 h2 h3 h4 h6 h7 h8
  rw [hd, hk, hf] at h1
  rw [hk, hf, he, hq, hd] at h2
  rw [hw, hf] at h5 h6
  exact ⟨h1, h2, h3, h4, h5, h6, h7, h8⟩

/-- The receiver sends something else than an acknowledgement. -/
theorem dir_bsend {s : Sys} (h : Dir s) (x : El) (hx : ∀ n, x.1 ≠ .ack n) :
    Dir { s with b := s.b.send x } := by
  unfold End.send
  by_cases he : s.b.error = true
  · rw [if_pos he]
    exact dir_congr h rfl rfl rfl rfl rfl rfl rfl
  · rw [if_neg he]
    refine dir_congr h rfl rfl rfl rfl rfl rfl ?_
    obtain ⟨m, o⟩ := x
    simp only [List.map_append, acksOf_append, List.map_cons, List.map_nil]
    cases m <;> simp [acksOf] at hx ⊢

/-- The receiver loses what is not with TCP. -/
theorem dir_bcut {s : Sys} (h : Dir s) (rt : List (Option Nat × Bytes)) (df : Bool) :
    Dir { s with b := { s.b with error := true, out := [], returned := rt, deaf := df } } := by
  obtain ⟨h1, h2, h3, h4, h5, h6, h7, h8⟩ := h
  refine ⟨h1, ?_, h3, h4, h5, h6, h7, h8⟩
  obtain ⟨T, lost, hT, hl, hn, _⟩ := h2
  rw [acksOf_append] at hT
  obtain ⟨T1, T2, rfl, hT1, hT2⟩ := List.map_eq_append_iff.1 hT
  refine ⟨T1, T2 ++ (if s.b.error then [] else (feed s.b.concat s.flow).2) ++ lost,
    ?_, ?_, ?_, fun _ hx => nomatch hx⟩
  · rw [hT1]; simp
  · show _ = s.a.ring.flatMap Entry.labelled
    rw [← hl]; simp
  · rw [List.countP_append] at hn
    show s.a.success.length + T1.countP Prod.snd ≤ s.b.delivered.length
    omega

/-- The receiver receives a message which is neither data nor a contact header. -/
theorem dir_bskip {s : Sys} {m : Msg} {l : List Msg} (h : Dir s) (hab : s.ab = m :: l)
    (hm : m.control) : Dir { s with ab := l } := by
  obtain ⟨h1, h2, h3, h4, h5, h6, h7, h8⟩ := h
  have hf : s.flow = [] ++ m :: Sys.flow { s with ab := l } := by simp [Sys.flow, hab]
  rw [hf] at h1 h2 h5 h6
  rw [feed_mid (control_ne hm)] at h1 h2
  rw [okFlow_mid hm] at h5
  rw [flag_mid hm] at h6
  exact ⟨h1, h2, h3, h4, h5, h6, h7, h8⟩

/-- The receiver receives a contact header. -/
theorem dir_bcontact {s : Sys} {k g w : Bool} {l : List Msg} (h : Dir s) (hab : s.ab = .contact k g :: l) :
    Dir { s with b := { s.b with wantsAck := k, wantsLen := g, ready := w }, ab := l } := by
  obtain ⟨h1, h2, h3, h4, h5, h6, h7, h8⟩ := h
  have hf : s.flow = .contact k g :: Sys.flow { s with ab := l } := by simp [Sys.flow, hab]
  rw [hf] at h1 h2 h5 h6
  exact ⟨h1, h2, h3, h4, h5, h6, h7, h8⟩

/-- The entity with one more segment. -/
def End.got (e : End) (f t : Bool) (d : Bytes) : End :=
  { e with
    concat := (take1 e.concat f t d).1
    delivered := e.delivered ++ (take1 e.concat f t d).2.1 }

/-- The receiver receives a data segment. -/
theorem dir_bdata {s : Sys} {f t : Bool} {d : Bytes} {l : List Msg} (h : Dir s)
    (hab : s.ab = .data f t d :: l) : Dir { s with b := s.b.dataIn f t d, ab := l } := by
  obtain ⟨h1, h2, h3, h4, h5, h6, h7, h8⟩ := h
  have hf : s.flow = .data f t d :: Sys.flow { s with ab := l } := by simp [Sys.flow, hab]
  rw [hf] at h1 h2 h5 h6
  obtain ⟨hw, h5⟩ := h5
  have hdi : s.b.dataIn f t d = (s.b.got f t d).send
        (.ack (take1 s.b.concat f t d).2.2, none) := by
    unfold End.dataIn; exact if_pos hw
  rw [hdi]
  unfold End.send
  obtain ⟨l1, hl1, h01⟩ := h1
  obtain ⟨T, l2, hT, hl2, hn, h02⟩ := h2
  have hlen : (take1 s.b.concat f t d).2.1.length = if t then 1 else 0 := by
    unfold take1
    cases f <;> cases t <;> simp
  by_cases he : s.b.error = true
  · rw [if_pos (show (s.b.got f t d).error = true from he)]
    refine ⟨⟨l1, ?_, h01⟩, ⟨T, l2, ?_, ?_, ?_, h02⟩, h3, h4, ?_, ?_, h7, h8⟩
    · rw [← hl1]
      show s.b.delivered ++ _ ++ (feed (take1 s.b.concat f t d).1 (Sys.flow { s with ab := l })).1 ++ l1 = _
      simp [feed]
    · exact hT
    · show _ = s.a.ring.flatMap Entry.labelled
      rw [← hl2]; simp [End.got, he]
    · show s.a.success.length + T.countP Prod.snd ≤ (s.b.delivered ++ (take1 s.b.concat f t d).2.1).length
      rw [List.length_append]; omega
    · show okFlow s.b.wantsAck (Sys.flow { s with ab := l })
      exact h5
    · exact h6
  · rw [if_neg (show ¬ (s.b.got f t d).error = true from he)]
    refine ⟨⟨l1, ?_, h01⟩, ⟨T ++ [((take1 s.b.concat f t d).2.2, t)], l2, ?_, ?_, ?_, h02⟩, h3, h4, ?_, ?_, h7, h8⟩
    · rw [← hl1]
      show s.b.delivered ++ _ ++ (feed (take1 s.b.concat f t d).1 (Sys.flow { s with ab := l })).1 ++ l1 = _
      simp [feed]
    · show _ = acksOf (s.ba ++ (s.b.out ++ [(Msg.ack (take1 s.b.concat f t d).2.2, none)]).map Prod.fst)
      rw [List.map_append, hT]
      simp [acksOf_append, acksOf]
    · show _ = s.a.ring.flatMap Entry.labelled
      rw [← hl2]
      simp only [End.got, he, if_false, feed]
      simp [Sys.flow]
    · show s.a.success.length + (T ++ [((take1 s.b.concat f t d).2.2, t)]).countP Prod.snd ≤
        (s.b.delivered ++ (take1 s.b.concat f t d).2.1).length
      rw [List.length_append, hlen, List.countP_append]
      cases t <;> simp at hn ⊢ <;> omega
    · show okFlow s.b.wantsAck (Sys.flow { s with ab := l })
      exact h5
    · exact h6

/-- Both directions are in order. -/
def Inv (s : Sys) : Prop := Dir s ∧ Dir s.swap

theorem inv_init : Inv Sys.init := by
  constructor
  · refine ⟨⟨[], rfl, fun _ => rfl⟩, ⟨[], [], rfl, rfl, Nat.le_refl 0, fun _ _ => rfl⟩, rfl, ?_, ?_, ?_, ?_, ?_⟩
    · intro x hx; exact nomatch hx
    · trivial
    · intro _ _; rfl
    · intro x hx; exact nomatch hx
    · intro hx; exact nomatch hx
  · refine ⟨⟨[], rfl, fun _ => rfl⟩, ⟨[], [], rfl, rfl, Nat.le_refl 0, fun _ _ => rfl⟩, rfl, ?_, ?_, ?_, ?_, ?_⟩
    · intro x hx; exact nomatch hx
    · trivial
    · intro hx; rcases hx with hx | hx <;> exact nomatch hx
    · intro x hx; exact nomatch hx
    · intro hx; exact nomatch hx

theorem ackIn_frame (e : End) (n : Nat) :
    ∃ r su, e.ackIn n = { e with ring := r, success := su } := by
  unfold End.ackIn
  split
  · exact ⟨e.ring, e.success, rfl⟩
  · next x r hr =>
    by_cases h : (if x.frags = [] then x
      else { x with idx := x.idx + 1
                    frags := if x.idx + 1 = x.frags.length then [] else x.frags } : Entry).frags = [] ∧
      (if x.frags = [] then x
      else { x with idx := x.idx + 1
                    frags := if x.idx + 1 = x.frags.length then [] else x.frags } : Entry).size = n
    · exact ⟨_, _, if_pos h⟩
    · exact ⟨_, e.success, if_neg h⟩

theorem inv_recv {s : Sys} {m : Msg} {l : List Msg} (h : Inv s) (hb : s.ba = m :: l) :
    Inv { s with a := s.a.recv m, ba := l } := by
  obtain ⟨ha, hs⟩ := h
  have hsw : s.swap.ab = m :: l := hb
  cases m with
  | contact k g =>
    have h1 := dir_skip ha hb (fun n hx => nomatch hx)
    by_cases hact : s.a.active = true
    · have he : s.a.recv (.contact k g) = { s.a with wantsAck := k, wantsLen := g, ready := true } := by
        simp [End.recv, hact]
      rw [he]
      refine ⟨?_, dir_bcontact (w := true) hs hsw⟩
      have h2 := dir_ready h1 true (fun _ => hact)
      obtain ⟨h1, h2, h3, h4, h5, h6, h7, h8⟩ := h2
      exact ⟨h1, h2, h3, h4, h5, h6, h7, h8⟩
    · have he : s.a.recv (.contact k g) =
          { ({ s.a with wantsAck := k, wantsLen := g } : End).send (.contact true false, none) with ready := true } := by
        simp [End.recv, hact]
      rw [he]
      constructor
      · refine dir_contact (s := { s with a := { s.a with wantsAck := k, wantsLen := g }, ba := l }) ?_
        obtain ⟨h1, h2, h3, h4, h5, h6, h7, h8⟩ := h1
        exact ⟨h1, h2, h3, h4, h5, h6, h7, h8⟩
      · have h2 := dir_bcontact (w := s.a.ready) hs hsw
        have h3 := dir_bsend h2 (.contact true false, none) (fun n hx => nomatch hx)
        exact dir_congr h3 rfl rfl rfl rfl rfl rfl rfl
  | data f t d =>
    refine ⟨?_, dir_bdata hs hsw⟩
    have h1 := dir_skip ha hb (fun n hx => nomatch hx)
    show Dir { s with a := s.a.dataIn f t d, ba := l }
    unfold End.dataIn
    have h2 : Dir { s with a := s.a.got f t d, ba := l } := by
      obtain ⟨h1, h2, h3, h4, h5, h6, h7, h8⟩ := h1
      exact ⟨h1, h2, h3, h4, h5, h6, h7, h8⟩
    simp only
    split
    · exact dir_control h2 trivial
    · exact h2
  | ack n =>
    refine ⟨dir_ack ha hb, ?_⟩
    obtain ⟨r, su, he⟩ := ackIn_frame s.a n
    show Dir (Sys.swap { s with a := s.a.ackIn n, ba := l })
    rw [he]
    exact dir_congr (dir_bskip hs hsw trivial) rfl rfl rfl rfl rfl rfl rfl
  | length n => exact ⟨dir_skip ha hb (fun n hx => nomatch hx), dir_bskip hs hsw trivial⟩
  | refuse => exact ⟨dir_skip ha hb (fun n hx => nomatch hx), dir_bskip hs hsw trivial⟩
  | keepalive => exact ⟨dir_skip ha hb (fun n hx => nomatch hx), dir_bskip hs hsw trivial⟩
  | shutdown => exact ⟨dir_skip ha hb (fun n hx => nomatch hx), dir_bskip hs hsw trivial⟩

theorem inv_stepA {s : Sys} (c : Cfg) (h : Inv s) (e : Ev) : Inv (s.stepA c e) := by
  obtain ⟨ha, hs⟩ := h
  cases e with
  | forward u d =>
    refine ⟨dir_forward c u d ha, ?_⟩
    refine dir_congr hs rfl rfl ?_ ?_ ?_ ?_ ?_ <;>
    · simp only [Sys.swap, Sys.stepA]
      rw [forward_eq]
      split
      · rfl
      · split <;> rfl
  | post =>
    refine ⟨dir_post ha, ?_⟩
    show Dir (Sys.swap { s with a := s.a.post })
    unfold End.post
    split
    · exact hs
    · next x p hp =>
      have hx : x.1.plain := ha.plain _ (by rw [hp]; simp)
      have h1 := dir_bsend hs x (by intro n hn; rw [hn] at hx; exact hx)
      refine dir_congr h1 rfl rfl ?_ ?_ ?_ ?_ ?_ <;>
      · simp only [Sys.swap]
        unfold End.send
        simp only
        split <;> rfl
  | write =>
    simp only [Sys.stepA]
    split
    · exact ⟨ha, hs⟩
    · next x o ho =>
      refine ⟨dir_write ha ho, ?_⟩
      refine dir_congr hs rfl rfl rfl rfl rfl rfl ?_
      simp [Sys.swap, ho]
  | fail => exact ⟨dir_cut ha _ _, dir_bcut hs _ _⟩
  | close => exact ⟨dir_cut ha _ _, dir_bcut hs _ _⟩
  | stop tell =>
    have h1 := dir_ready ha false (fun hx => nomatch hx)
    have h2 : Dir (Sys.swap { s with a := { s.a with ready := false } }) :=
      dir_congr hs rfl rfl rfl rfl rfl rfl rfl
    cases tell
    · exact ⟨h1, h2⟩
    · exact ⟨dir_control h1 trivial, dir_bsend h2 (.shutdown, none) (fun n hx => nomatch hx)⟩
  | keepalive => exact ⟨dir_control ha trivial, dir_bsend hs (.keepalive, none) (fun n hx => nomatch hx)⟩
  | recv =>
    simp only [Sys.stepA]
    split
    · exact ⟨ha, hs⟩
    · split
      · exact ⟨ha, hs⟩
      · next m l hb =>
        split
        · refine ⟨?_, dir_congr hs rfl rfl rfl rfl rfl rfl rfl⟩
          obtain ⟨h1, h2, h3, h4, h5, h6, h7, h8⟩ := ha
          exact ⟨h1, h2, h3, h4, h5, h6, h7, h8⟩
        · exact inv_recv ⟨ha, hs⟩ hb

theorem dir_unacked {s : Sys} (h : Dir s) : unacked s.a = s.a.ring.length := by
  have := congrArg List.length h.user
  simp only [List.length_append, List.length_map] at this
  unfold unacked; omega

theorem dir_prefix {s : Sys} (h : Dir s) : s.b.delivered <+: s.a.accepted.map Prod.snd := by
  obtain ⟨lost, hl, _⟩ := h.del
  exact ⟨(feed s.b.concat s.flow).1 ++ lost, by rw [← hl]; simp⟩

theorem dir_success {s : Sys} (h : Dir s) : s.a.success <+: s.a.accepted.map Prod.fst :=
  ⟨_, h.user⟩

theorem dir_late {s : Sys} (h : Dir s) : s.a.success.length ≤ s.b.delivered.length := by
  obtain ⟨T, _, _, _, hn, _⟩ := h.ack
  omega

/-- If all is reported as sent, all is delivered. -/
theorem dir_done {s : Sys} (h : Dir s) (hu : unacked s.a = 0) :
    s.a.ring = [] ∧ s.b.delivered = s.a.accepted.map Prod.snd := by
  have h1 := dir_unacked h
  have hr : s.a.ring = [] := List.length_eq_zero_iff.1 (by omega)
  refine ⟨hr, (dir_prefix h).eq_of_length_le ?_⟩
  have h2 := dir_late h
  have h3 := congrArg List.length h.user
  rw [hr] at h3
  simp at h3 ⊢
  omega

theorem inv_reconnect {s : Sys} (h : Inv s) (ha : unacked s.a = 0) (hb : unacked s.b = 0) :
    Inv s.reconnect := by
  obtain ⟨h1, h2⟩ := h
  obtain ⟨hra, hda⟩ := dir_done h1 ha
  obtain ⟨hrb, hdb⟩ := dir_done h2 hb
  have hdb' : s.a.delivered = s.b.accepted.map Prod.snd := hdb
  have hrb' : s.b.ring = [] := hrb
  have hub := h2.user
  have hub' : s.b.success = s.b.accepted.map Prod.fst := by
    rw [hrb] at hub; simpa [Sys.swap] using hub
  constructor
  · refine ⟨⟨[], ?_, fun _ => rfl⟩, ⟨[], [], rfl, ?_, ?_, fun _ _ => rfl⟩, h1.user, h1.ok, trivial,
      fun _ _ => rfl, fun x hx => (nomatch hx), fun hx => (nomatch hx)⟩
    · show s.b.delivered ++ [] ++ [] = s.a.accepted.map Prod.snd
      rw [← hda]; simp
    · show [] = s.a.ring.flatMap Entry.labelled
      rw [hra]; rfl
    · show s.a.success.length + 0 ≤ s.b.delivered.length
      exact dir_late h1
  · refine ⟨⟨[], ?_, fun _ => rfl⟩, ⟨[], [], rfl, rfl, ?_, fun _ _ => rfl⟩, ?_, fun x hx => (nomatch hx), trivial,
      ?_, fun x hx => (nomatch hx), fun hx => (nomatch hx)⟩
    · show s.a.delivered ++ [] ++ [] = s.b.accepted.map Prod.snd
      rw [← hdb']; simp
    · show s.b.success.length + 0 ≤ s.a.delivered.length
      exact dir_late h2
    · show s.b.success ++ [] = s.b.accepted.map Prod.fst
      rw [hub']; simp
    · intro hx; rcases hx with hx | hx <;> exact nomatch hx

theorem inv_step {s : Sys} (c : Cfg) (h : Inv s) (e : Act)
    (he : e = .reconnect → unacked s.a = 0 ∧ unacked s.b = 0) : Inv (s.step c e) := by
  cases e with
  | left e => exact inv_stepA c h e
  | right e =>
    have := inv_stepA (s := s.swap) c ⟨h.2, h.1⟩ e
    exact ⟨this.2, this.1⟩
  | reconnect => exact inv_reconnect h (he rfl).1 (he rfl).2

theorem inv_foldl (c : Cfg) (es : List Act) (s : Sys) (he : Calm c s es) (h : Inv s) :
    Inv (es.foldl (Sys.step c) s) := by
  induction es generalizing s with
  | nil => exact h
  | cons e es ih => exact ih _ he.2 (inv_step c h e he.1)

theorem inv_run (c : Cfg) (es : List Act) (he : Calm c Sys.init es) : Inv (Sys.run c es) :=
  inv_foldl c es _ he inv_init

/-- Everything sent has arrived. -/
theorem dir_all {s : Sys} (h : Dir s) (hs : Sound s.a) (hf : Flushed s.a) (hab : s.ab = []) :
    s.b.delivered = s.a.accepted.map Prod.snd := by
  obtain ⟨lost, hl, h0⟩ := h.del
  have hfl : s.flow = [] := by
    unfold Sys.flow; rw [hab, hf.1, hf.2]; simp
  rw [h0 hs, hfl] at hl
  simpa [feed] using hl

theorem dir_told {s : Sys} (h : Dir s) (hs : Sound s.a) (hf : Flushed s.a) (hab : s.ab = [])
    (hsb : Sound s.b) (hob : s.b.out = []) (hba : s.ba = []) :
    s.a.success = s.a.accepted.map Prod.fst := by
  obtain ⟨T, lost, hT, hl, _, h0⟩ := h.ack
  have hfl : s.flow = [] := by
    unfold Sys.flow; rw [hab, hf.1, hf.2]; simp
  rw [hba, hob] at hT
  have hT0 : T = [] := by simpa [acksOf] using hT
  rw [h0 hs hsb, hfl, hT0] at hl
  have hr : s.a.ring = [] := by
    cases hr : s.a.ring with
    | nil => rfl
    | cons x r =>
      exfalso
      rw [hr, List.flatMap_cons] at hl
      have hx : x.Ok := h.ok x (by simp [hr])
      have hl2 : x.labelled = [] := by
        have : ([] : List (Nat × Bool)) = x.labelled ++ r.flatMap Entry.labelled := by
          rw [← hl]; simp [feed]
        exact (List.append_eq_nil_iff.1 this.symm).1
      unfold Entry.labelled at hl2
      cases hxr : x.rest with
      | nil =>
        unfold Entry.rest at hxr
        split at hxr
        · simp at hxr
        · next hne =>
          rcases hx with hx | hx
          · exact hne hx
          · have := List.drop_eq_nil_iff.1 hxr
            omega
      | cons n t => rw [hxr, lab_cons] at hl2; exact nomatch hl2
  have := h.user
  rw [hr] at this
  simpa using this

end Hdtn.TcpclV3Link
