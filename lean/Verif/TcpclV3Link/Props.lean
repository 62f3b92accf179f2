import Mathlib.Data.List.Induction
import Mathlib.Tactic.SplitIfs
import Verif.TcpclV3Link.Drain

/-!
# Properties of a TCPCLv3 link

C150: what is forwarded arrives.  C151: what is reported as sent has arrived.  C152: what is
accepted.  C153: what happens to bundles when a connection ends.
-/

namespace Hdtn.TcpclV3Link

theorem run_append (c : Cfg) (es fs : List Act) :
    Sys.run c (es ++ fs) = fs.foldl (Sys.step c) (Sys.run c es) := by
  simp [Sys.run]

/-! ## C150 -/

/-- **C150** (partial): whatever happens on a link (bundles forwarded at both ends, cut into
segments of any size, keep-alives, failing writes, shutdowns), at each end the bundles delivered are
a prefix of the bundles accepted at the other: whole, unchanged, in order, none twice and none
skipped.  Missing: connecting again while bundles are not yet reported as sent (C153). -/
theorem C150_in_order_partial (c : Cfg) (es : List Act) (he : Calm c Sys.init es) :
    (Sys.run c es).b.delivered <+: (Sys.run c es).a.accepted.map Prod.snd ∧
    (Sys.run c es).a.delivered <+: (Sys.run c es).b.accepted.map Prod.snd :=
  ⟨dir_prefix (inv_run c es he).1, dir_prefix (inv_run c es he).2⟩

/-- **C150** (partial): and all of them are, when no write failed at the sender and nothing of its
is on its way. -/
theorem C150_complete_partial (c : Cfg) (es : List Act) (he : Calm c Sys.init es) :
    (Sound (Sys.run c es).a → Flushed (Sys.run c es).a → (Sys.run c es).ab = [] →
      (Sys.run c es).b.delivered = (Sys.run c es).a.accepted.map Prod.snd) ∧
    (Sound (Sys.run c es).b → Flushed (Sys.run c es).b → (Sys.run c es).ba = [] →
      (Sys.run c es).a.delivered = (Sys.run c es).b.accepted.map Prod.snd) :=
  ⟨fun h1 h2 h3 => dir_all (inv_run c es he).1 h1 h2 h3,
    fun h1 h2 h3 => dir_all (inv_run c es he).2 h1 h2 h3⟩

/-- **C150** (partial): after any history, as long as both can send and hear: what is on its way
moves on only finitely often, in whatever order, and when nothing moves any more all bundles
accepted at either end are delivered at the other and reported as sent.  Missing: empty bundles. -/
theorem C150_arrives_partial (c : Cfg) (es : List Act) (he : Calm c Sys.init es)
    (hn : ∀ e ∈ es, e.nonempty) (ha : Able (Sys.run c es)) :
    (∃ n, ∀ fs, Moving c (Sys.run c es) fs → fs.length ≤ n) ∧
    ∀ fs, Moving c (Sys.run c es) fs → (∀ e : Act, ¬ e.moves (Sys.run c (es ++ fs))) →
      (Sys.run c (es ++ fs)).b.delivered = (Sys.run c (es ++ fs)).a.accepted.map Prod.snd ∧
      (Sys.run c (es ++ fs)).a.delivered = (Sys.run c (es ++ fs)).b.accepted.map Prod.snd ∧
      (Sys.run c (es ++ fs)).a.success = (Sys.run c (es ++ fs)).a.accepted.map Prod.fst ∧
      (Sys.run c (es ++ fs)).b.success = (Sys.run c (es ++ fs)).b.accepted.map Prod.fst := by
  have hl : Led (Sys.run c es) := Or.inl (led_foldl c es _ rfl)
  have hc0 : Clean Sys.init ∧ Clean Sys.init.swap := by
    refine ⟨⟨fun x hx => (nomatch hx), ?_, fun x hx => (nomatch hx)⟩,
      ⟨fun x hx => (nomatch hx), fun x hx => (nomatch hx), fun x hx => (nomatch hx)⟩⟩
    intro m hm
    rw [List.mem_singleton.1 (show m ∈ [Msg.contact true false] from hm)]
    intro _ _ hx; exact nomatch hx
  have hc := clean_foldl c es hn _ hc0
  refine ⟨⟨(Sys.run c es).work, fun fs hf => ?_⟩, fun fs hf hstop => ?_⟩
  · have := moving_length c fs _ hl hf
    omega
  · have hcalm : Calm c Sys.init (es ++ fs) := calm_append c es fs _ he (moving_calm c fs _ hf)
    have hinv := inv_run c _ hcalm
    obtain ⟨hab, hcl⟩ := able_moving c fs _ hf ha hc
    rw [run_append] at hstop hinv ⊢
    rcases still_or_moves _ hab hcl with hs | ⟨e, hm⟩
    · obtain ⟨s1, s2, s3, s4, s5, s6⟩ := hs
      exact ⟨dir_all hinv.1 hab.1 ⟨s4, s3⟩ s1, dir_all hinv.2 hab.2.2.1 ⟨s6, s5⟩ s2,
        dir_told hinv.1 hab.1 ⟨s4, s3⟩ s1 hab.2.2.1 s5 s2,
        dir_told hinv.2 hab.2.2.1 ⟨s6, s5⟩ s2 hab.1 s3 s1⟩
    · exact absurd hm (hstop e)

/-- **C150** (partial): and nothing prevents it: there is such a continuation. -/
theorem C150_possible_partial (c : Cfg) (es : List Act) (hn : ∀ e ∈ es, e.nonempty)
    (ha : Able (Sys.run c es)) :
    ∃ fs, Moving c (Sys.run c es) fs ∧ ∀ e : Act, ¬ e.moves (Sys.run c (es ++ fs)) := by
  have hl : Led (Sys.run c es) := Or.inl (led_foldl c es _ rfl)
  have hc0 : Clean Sys.init ∧ Clean Sys.init.swap := by
    refine ⟨⟨fun x hx => (nomatch hx), ?_, fun x hx => (nomatch hx)⟩,
      ⟨fun x hx => (nomatch hx), fun x hx => (nomatch hx), fun x hx => (nomatch hx)⟩⟩
    intro m hm
    rw [List.mem_singleton.1 (show m ∈ [Msg.contact true false] from hm)]
    intro _ _ hx; exact nomatch hx
  obtain ⟨fs, hf, hs, _⟩ := drains c _ _ (Nat.le_refl _) hl ha (clean_foldl c es hn _ hc0)
  refine ⟨fs, hf, fun e he => ?_⟩
  rw [run_append] at he
  obtain ⟨s1, s2, s3, s4, s5, s6⟩ := hs
  cases e with
  | left e =>
    cases e with
    | post => exact he s4
    | write => exact he s3
    | recv => obtain ⟨_, m, l, hb, _⟩ := he; rw [s2] at hb; exact nomatch hb
    | _ => exact he
  | right e =>
    cases e with
    | post => exact he s6
    | write => exact he s5
    | recv =>
      obtain ⟨_, m, l, hb, _⟩ := he
      have hb' : [] = m :: l := s1.symm.trans hb
      exact nomatch hb'
    | _ => exact he
  | reconnect => exact he

/-- The contact headers are exchanged. -/
def shake : List Act := [.left .write, .right .recv, .right .write, .left .recv]

/-- Both forward, with segments of two bytes; then all connect again and one more bundle goes. -/
def busy : List Act :=
  shake ++ [.left (.forward 1 [1, 2, 3, 4, 5]), .right (.forward 7 [9]), .left .post, .left .write, .right .recv,
    .left .post, .right .post, .right .write, .right .write, .left .keepalive, .left .write, .left .recv]

/-- `busy`, and on until all is acknowledged; again after that. -/
def twice : List Act :=
  shake ++ [.left (.forward 1 [1, 2, 3]), .left .post, .left .post, .left .write, .left .write, .right .recv, .right .recv,
    .right .write, .right .write, .left .recv, .left .recv, .reconnect] ++ shake ++
    [.left (.forward 2 [4]), .left .post, .left .write, .right .recv]

example : Calm ⟨5, 2⟩ Sys.init twice ∧ (Sys.run ⟨5, 2⟩ twice).b.delivered = [[1, 2, 3], [4]] ∧
    (Sys.run ⟨5, 2⟩ twice).a.success = [1] ∧ Sound (Sys.run ⟨5, 2⟩ twice).a ∧ Flushed (Sys.run ⟨5, 2⟩ twice).a ∧
    (Sys.run ⟨5, 2⟩ twice).ab = [] := by
  refine ⟨?_, by decide +kernel, by decide +kernel, by unfold Sound; decide +kernel,
    by unfold Flushed; decide +kernel, by decide +kernel⟩
  repeat' first
    | exact trivial
    | refine ⟨fun h => absurd h (by decide), ?_⟩
    | refine ⟨fun _ => by decide +kernel, ?_⟩

example : Calm ⟨5, 2⟩ Sys.init busy ∧ (∀ e ∈ busy, e.nonempty) ∧ Able (Sys.run ⟨5, 2⟩ busy) ∧
    (Sys.run ⟨5, 2⟩ busy).b.delivered = [] ∧ (Sys.run ⟨5, 2⟩ busy).a.delivered = [] ∧
    (Sys.run ⟨5, 2⟩ busy).a.accepted.length = 1 ∧ (Sys.run ⟨5, 2⟩ busy).b.accepted.length = 1 := by
  refine ⟨?_, ?_, by unfold Able; decide +kernel, by decide +kernel, by decide +kernel, by decide +kernel,
    by decide +kernel⟩
  · repeat' first
      | exact trivial
      | refine ⟨fun h => (nomatch h), ?_⟩
  · intro e he
    simp only [busy, shake, List.cons_append, List.nil_append, List.mem_cons, List.not_mem_nil, or_false] at he
    rcases he with h | h | h | h | h | h | h | h | h | h | h | h | h | h | h | h <;> subst h <;>
      simp [Act.nonempty, Ev.nonempty]

/-- **C150** violated: an empty bundle is accepted; neither it nor anything after it is ever
delivered, though no write fails. -/
theorem C150_empty_violated :
    ∃ es, (Sys.run ⟨5, 0⟩ es).a.accepted = [(1, []), (2, [7])] ∧ Sound (Sys.run ⟨5, 0⟩ es).a ∧
      Flushed (Sys.run ⟨5, 0⟩ es).a ∧ (Sys.run ⟨5, 0⟩ es).b.delivered = [] ∧
      ∀ n, (Sys.run ⟨5, 0⟩ (es ++ List.replicate n (.right .recv))).b.delivered = [] := by
  refine ⟨shake ++ [.left (.forward 1 []), .left (.forward 2 [7]), .left .post, .left .post, .left .write,
    .left .write, .right .recv], by decide +kernel, by unfold Sound; decide +kernel,
    by unfold Flushed; decide +kernel, by decide +kernel, ?_⟩
  intro n
  have key : ∀ (n : Nat) (s : Sys), s.b.deaf = true →
      (List.replicate n (Act.right .recv)).foldl (Sys.step ⟨5, 0⟩) s = s := by
    intro n
    induction n with
    | zero => intro s _; rfl
    | succ n ih =>
      intro s hs
      rw [List.replicate_succ, List.foldl_cons]
      have : s.step ⟨5, 0⟩ (.right .recv) = s := by
        simp [Sys.step, Sys.stepA, Sys.swap, hs]
      rw [this]; exact ih s hs
  rw [run_append, key]
  · decide +kernel
  · decide +kernel

/-! ## C151 -/

/-- **C151** (partial): at each end bundles are reported as sent in the order in which they were
accepted, each at most once with its own user data, and never before they are delivered at the
other end.  Missing: connecting again while bundles are not yet reported as sent (C153). -/
theorem C151_reported_partial (c : Cfg) (es : List Act) (he : Calm c Sys.init es) :
    ((Sys.run c es).a.success <+: (Sys.run c es).a.accepted.map Prod.fst ∧
      (Sys.run c es).a.success.length ≤ (Sys.run c es).b.delivered.length) ∧
    ((Sys.run c es).b.success <+: (Sys.run c es).b.accepted.map Prod.fst ∧
      (Sys.run c es).b.success.length ≤ (Sys.run c es).a.delivered.length) :=
  ⟨⟨dir_success (inv_run c es he).1, dir_late (inv_run c es he).1⟩,
    ⟨dir_success (inv_run c es he).2, dir_late (inv_run c es he).2⟩⟩

/-- **C151** (partial): and the `i`-th bundle reported as sent is the `i`-th delivered. -/
theorem C151_same_bundle_partial (c : Cfg) (es : List Act) (he : Calm c Sys.init es) (i : Nat) (u : Nat)
    (h : (Sys.run c es).a.success[i]? = some u) :
    ∃ d, (Sys.run c es).a.accepted[i]? = some (u, d) ∧ (Sys.run c es).b.delivered[i]? = some d := by
  have hinv := (inv_run c es he).1
  have hi : i < (Sys.run c es).a.success.length := by
    by_contra hx
    rw [List.getElem?_eq_none (by omega)] at h; exact nomatch h
  obtain ⟨t1, ht1⟩ := dir_success hinv
  obtain ⟨t2, ht2⟩ := dir_prefix hinv
  have hd : i < (Sys.run c es).b.delivered.length := Nat.lt_of_lt_of_le hi (dir_late hinv)
  have h1 : ((Sys.run c es).a.accepted.map Prod.fst)[i]? = some u := by
    rw [← ht1, List.getElem?_append_left hi, h]
  have h2 : ((Sys.run c es).a.accepted.map Prod.snd)[i]? = (Sys.run c es).b.delivered[i]? := by
    rw [← ht2, List.getElem?_append_left hd]
  rw [List.getElem?_map] at h1 h2
  cases ha : (Sys.run c es).a.accepted[i]? with
  | none => rw [ha] at h1; exact nomatch h1
  | some p =>
    rw [ha] at h1 h2
    obtain ⟨p1, p2⟩ := p
    have hu : p1 = u := Option.some.inj h1
    exact ⟨p2, by rw [hu], h2.symm⟩

example : (Sys.run ⟨5, 2⟩ twice).a.success[0]? = some 1 := by decide +kernel

/-! ## C152 -/

/-- **C152** (partial): a bundle is accepted exactly when the link is ready and fewer bundles than the
pipeline holds, which is four more than configured, are unacknowledged; a refusal changes nothing.
Missing: histories which connect again too early. -/
theorem C152_accepts_partial (c : Cfg) (es : List Act) (he : Calm c Sys.init es) (u : Nat) (d : Bytes) :
    (((Sys.run c es).a.forward c u d).1 = true ↔
      (Sys.run c es).a.ready = true ∧ unacked (Sys.run c es).a < c.maxUnacked + 4) ∧
    (((Sys.run c es).a.forward c u d).1 = true →
      ((Sys.run c es).a.forward c u d).2.accepted = (Sys.run c es).a.accepted ++ [(u, d)]) ∧
    (((Sys.run c es).a.forward c u d).1 = false →
      ((Sys.run c es).a.forward c u d).2 = (Sys.run c es).a) := by
  have hu := dir_unacked (inv_run c es he).1
  rw [hu, forward_eq]
  by_cases hr : (Sys.run c es).a.ready = false
  · rw [if_pos hr, hr]
    exact ⟨by simp, fun h => (nomatch h), fun _ => rfl⟩
  · have hr' : (Sys.run c es).a.ready = true := by cases hx : (Sys.run c es).a.ready <;> simp_all
    rw [if_neg hr, hr']
    by_cases hf : c.maxUnacked + 4 ≤ (Sys.run c es).a.ring.length
    · rw [if_pos hf]
      exact ⟨by simp; omega, fun h => (nomatch h), fun _ => rfl⟩
    · rw [if_neg hf]
      exact ⟨by simp; omega, fun _ => rfl, fun h => (nomatch h)⟩

theorem send_ready (e : End) (x : El) : (e.send x).ready = e.ready := by
  unfold End.send; split <;> rfl

theorem ackIn_ready (e : End) (n : Nat) : (e.ackIn n).ready = e.ready := by
  unfold End.ackIn
  split
  · rfl
  · simp only
    split_ifs <;> rfl

theorem stepA_ready (c : Cfg) (s : Sys) (e : Ev) :
    (s.stepA c e).b.ready = s.b.ready ∧
    ((s.stepA c e).a.ready = true → (s.a.ready = true ∧ ∀ t, e ≠ .stop t) ∨
      e = .recv ∧ ∃ acks lengths, s.ba.head? = some (.contact acks lengths)) := by
  cases e with
  | forward u d =>
    refine ⟨rfl, fun h => .inl ⟨?_, fun _ => (nofun)⟩⟩
    simp only [Sys.stepA, forward_eq] at h
    split at h
    · exact h
    · split at h <;> exact h
  | post =>
    refine ⟨rfl, fun h => .inl ⟨?_, fun _ => (nofun)⟩⟩
    simp only [Sys.stepA] at h
    unfold End.post at h
    split at h
    · exact h
    · rw [send_ready] at h; exact h
  | write =>
    simp only [Sys.stepA]
    split
    · exact ⟨rfl, fun h => .inl ⟨h, fun _ => (nofun)⟩⟩
    · exact ⟨rfl, fun h => .inl ⟨h, fun _ => (nofun)⟩⟩
  | fail => exact ⟨rfl, fun h => .inl ⟨h, fun _ => (nofun)⟩⟩
  | close => exact ⟨rfl, fun h => .inl ⟨h, fun _ => (nofun)⟩⟩
  | stop tell =>
    refine ⟨rfl, fun h => ?_⟩
    simp only [Sys.stepA, End.stop] at h
    split at h
    · rw [send_ready] at h; cases h
    · cases h
  | keepalive =>
    refine ⟨rfl, fun h => .inl ⟨?_, fun _ => (nofun)⟩⟩
    simp only [Sys.stepA, send_ready] at h
    exact h
  | recv =>
    simp only [Sys.stepA]
    split
    · exact ⟨rfl, fun h => .inl ⟨h, fun _ => (nofun)⟩⟩
    · split
      · exact ⟨rfl, fun h => .inl ⟨h, fun _ => (nofun)⟩⟩
      · rename_i m l hba
        split
        · exact ⟨rfl, fun h => .inl ⟨h, fun _ => (nofun)⟩⟩
        · refine ⟨rfl, fun h => ?_⟩
          rw [hba]
          cases m with
          | contact acks lengths => exact .inr ⟨trivial, acks, lengths, rfl⟩
          | data p q d =>
            refine .inl ⟨?_, fun _ => (nofun)⟩
            simp only [End.recv, End.dataIn] at h
            split at h
            · rw [send_ready] at h; exact h
            · exact h
          | ack n =>
            refine .inl ⟨?_, fun _ => (nofun)⟩
            simp only [End.recv, ackIn_ready] at h
            exact h
          | length _ => exact .inl ⟨h, fun _ => (nofun)⟩
          | refuse => exact .inl ⟨h, fun _ => (nofun)⟩
          | keepalive => exact .inl ⟨h, fun _ => (nofun)⟩
          | shutdown => exact .inl ⟨h, fun _ => (nofun)⟩

/-- **C152**: the link is ready only after it received the contact header of the peer on the present
connection, and if it was not shut down since. -/
theorem C152_headers_first (c : Cfg) (es : List Act) (h : (Sys.run c es).a.ready = true) :
    ∃ before since acks lengths, es = before ++ .left .recv :: since ∧
      (Sys.run c before).ba.head? = some (.contact acks lengths) ∧
      .reconnect ∉ since ∧ ∀ t, .left (.stop t) ∉ since := by
  induction es using List.reverseRecOn with
  | nil => cases h
  | append_singleton es e ih =>
    have hs : Sys.run c (es ++ [e]) = (Sys.run c es).step c e := by rw [run_append]; rfl
    rw [hs] at h
    have go : (Sys.run c es).a.ready = true → e ≠ .reconnect → (∀ t, e ≠ .left (.stop t)) →
        ∃ before since acks lengths, es ++ [e] = before ++ .left .recv :: since ∧
          (Sys.run c before).ba.head? = some (.contact acks lengths) ∧
          .reconnect ∉ since ∧ ∀ t, .left (.stop t) ∉ since := by
      intro h1 h2 h3
      obtain ⟨before, since, acks, lengths, h4, h5, h6, h7⟩ := ih h1
      refine ⟨before, since ++ [e], acks, lengths, by rw [h4]; simp, h5, ?_, ?_⟩
      · simp only [List.mem_append, List.mem_singleton, not_or]
        exact ⟨h6, fun hc => h2 hc.symm⟩
      · intro t
        simp only [List.mem_append, List.mem_singleton, not_or]
        exact ⟨h7 t, fun hc => h3 t hc.symm⟩
    cases e with
    | reconnect => cases h
    | right e =>
      refine go ?_ (nofun) (fun _ => (nofun))
      have := (stepA_ready c (Sys.run c es).swap e).1
      exact this.symm.trans h
    | left e =>
      rcases (stepA_ready c (Sys.run c es) e).2 h with ⟨h1, h2⟩ | ⟨rfl, acks, lengths, h2⟩
      · exact go h1 (nofun) (fun t hc => h2 t (Act.left.inj hc))
      · exact ⟨es, [], acks, lengths, rfl, h2, by simp, by simp⟩

/-- Five are accepted with a pipeline of one. -/
def five : List Act := shake ++ (List.range 5).map (fun i => .left (.forward i [1]))

example : Calm ⟨1, 0⟩ Sys.init (shake) ∧ (Sys.run ⟨1, 0⟩ shake).a.ready = true := by
  refine ⟨?_, by decide +kernel⟩
  repeat' first
    | exact trivial
    | refine ⟨fun h => (nomatch h), ?_⟩

/-- **C152** violated: there may be more bundles unacknowledged than configured. -/
theorem C152_limit_violated : unacked (Sys.run ⟨1, 0⟩ five).a = 5 ∧
    ((Sys.run ⟨1, 0⟩ five).a.forward ⟨1, 0⟩ 9 [1]).1 = false := by
  unfold unacked
  decide +kernel

/-! ## C153 -/

/-- One bundle is written and the link fails before it arrives; then it connects again. -/
def again (d : Bytes) : List Act :=
  shake ++ [.left (.forward 1 d), .left .post, .left .write, .left (.stop false), .reconnect] ++ shake

/-- A bundle is forwarded and goes all the way. -/
def through (u : Nat) (d : Bytes) : List Act :=
  [.left (.forward u d), .left .post, .left .write, .right .recv, .right .write, .left .recv]

/-- **C153** violated: a bundle lost with the connection is reported as sent when a later one of
the same size is acknowledged; it was never delivered. -/
theorem C153_false_report_violated :
    (Sys.run ⟨5, 0⟩ (again [1, 1] ++ through 2 [9, 9])).a.accepted = [(1, [1, 1]), (2, [9, 9])] ∧
    (Sys.run ⟨5, 0⟩ (again [1, 1] ++ through 2 [9, 9])).a.success = [1] ∧
    (Sys.run ⟨5, 0⟩ (again [1, 1] ++ through 2 [9, 9])).b.delivered = [[9, 9]] := by
  decide +kernel

/-- **C153** violated: after a bundle lost with the connection, later ones of another size are
delivered and acknowledged but never reported; when the ring is full the link, though ready and
idle, refuses everything. -/
theorem C153_stuck_violated :
    let s := Sys.run ⟨0, 0⟩ (again [1] ++ through 2 [9, 9] ++ through 3 [8, 8] ++ through 4 [7, 7])
    s.b.delivered = [[9, 9], [8, 8], [7, 7]] ∧ s.a.success = [] ∧ s.a.ready = true ∧
    s.ab = [] ∧ s.ba = [] ∧ s.a.out = [] ∧ s.b.out = [] ∧ (s.a.forward ⟨0, 0⟩ 5 [1]).1 = false := by
  decide +kernel

/-- **C153** violated: a bundle which could not be written comes back without its user data, and
waits in the ring all the same. -/
theorem C153_returned_violated :
    let s := Sys.run ⟨5, 0⟩ (shake ++ [.left (.forward 1 [1, 1]), .left .post, .left .fail])
    s.a.accepted = [(1, [1, 1])] ∧ s.a.returned = [(none, [1, 1])] ∧ unacked s.a = 1 ∧ s.a.ring.length = 1 := by
  unfold unacked
  decide +kernel

/-- **C153** violated: what waits to be written when the sender is deleted is neither delivered, nor
reported, nor returned. -/
theorem C153_dropped_violated :
    let s := Sys.run ⟨5, 0⟩ (shake ++ [.right (.forward 1 [1, 1]), .right .post, .right (.stop true), .right .close])
    s.b.accepted = [(1, [1, 1])] ∧ s.a.delivered = [] ∧ s.b.success = [] ∧ s.b.returned = [] ∧
    s.ba = [] ∧ s.b.out = [] ∧ s.b.pend = [] := by
  decide +kernel

/-- **C153** violated: a refusal by the peer is ignored: the bundle stays first in the ring, and
acknowledgements of later bundles are taken for it. -/
theorem C153_refused_violated :
    let e := ((Sys.run ⟨5, 0⟩ (shake ++ [.left (.forward 1 [1]), .left (.forward 2 [2, 2])])).a.recv .refuse).recv (.ack 2)
    e.success = [] ∧ e.returned = [] ∧ e.ring.map Entry.user = [1, 2] := by
  decide +kernel

/-- **C153** (partial): nobody is ever given user data which are not its own: what comes back after
a failed write has none at all, in every history.  Missing: that it has its own. -/
theorem C153_no_foreign_data_partial (c : Cfg) (es : List Act) :
    ∀ p ∈ (Sys.run c es).a.returned ++ (Sys.run c es).b.returned, p.1 = none := by
  have hback : ∀ (x : El), ∀ p ∈ x.back, p.1 = none := by
    intro x p hp
    unfold El.back at hp
    split at hp
    · split at hp
      · simp at hp
      · simp at hp; rw [hp]
    · simp at hp
  have hsend : ∀ (e : End) (x : El), (∀ p ∈ e.returned, p.1 = none) → ∀ p ∈ (e.send x).returned, p.1 = none := by
    intro e x h p hp
    unfold End.send at hp
    split at hp
    · rcases List.mem_append.1 hp with hp | hp
      · exact h p hp
      · exact hback x p hp
    · exact h p hp
  have hstep : ∀ (s : Sys) (e : Ev), (∀ p ∈ s.a.returned, p.1 = none) → (∀ p ∈ s.b.returned, p.1 = none) →
      (∀ p ∈ (s.stepA c e).a.returned, p.1 = none) ∧ (∀ p ∈ (s.stepA c e).b.returned, p.1 = none) := by
    intro s e ha hb
    cases e with
    | forward u d =>
      refine ⟨?_, hb⟩
      simp only [Sys.stepA]; rw [forward_eq]
      split
      · exact ha
      · split <;> exact ha
    | post =>
      refine ⟨?_, hb⟩
      simp only [Sys.stepA]
      unfold End.post
      split
      · exact ha
      · exact hsend _ _ ha
    | write => simp only [Sys.stepA]; split <;> exact ⟨ha, hb⟩
    | fail =>
      refine ⟨?_, hb⟩
      intro p hp
      rcases List.mem_append.1 (show p ∈ s.a.returned ++ s.a.out.flatMap El.back from hp) with hp | hp
      · exact ha p hp
      · obtain ⟨x, _, hx⟩ := List.mem_flatMap.1 hp
        exact hback x p hx
    | close => exact ⟨ha, hb⟩
    | stop tell =>
      cases tell
      · exact ⟨ha, hb⟩
      · exact ⟨hsend ({ s.a with ready := false } : End) _ ha, hb⟩
    | keepalive => exact ⟨hsend _ _ ha, hb⟩
    | recv =>
      simp only [Sys.stepA]
      split
      · exact ⟨ha, hb⟩
      · split
        · exact ⟨ha, hb⟩
        · next m l hba =>
          split
          · exact ⟨ha, hb⟩
          · refine ⟨?_, hb⟩
            cases m with
            | contact k g =>
              show ∀ p ∈ (s.a.recv (.contact k g)).returned, p.1 = none
              unfold End.recv
              simp only
              split
              · exact ha
              · exact hsend ({ s.a with wantsAck := k, wantsLen := g } : End) _ ha
            | data f t d =>
              show ∀ p ∈ (s.a.dataIn f t d).returned, p.1 = none
              unfold End.dataIn
              simp only
              split
              · exact hsend (s.a.got f t d) _ ha
              · exact ha
            | ack n =>
              obtain ⟨r, su, he⟩ := ackIn_frame s.a n
              show ∀ p ∈ (s.a.ackIn n).returned, p.1 = none
              rw [he]; exact ha
            | length n => exact ha
            | refuse => exact ha
            | keepalive => exact ha
            | shutdown => exact ha
  have hall : ∀ (es : List Act) (s : Sys), (∀ p ∈ s.a.returned, p.1 = none) → (∀ p ∈ s.b.returned, p.1 = none) →
      (∀ p ∈ (es.foldl (Sys.step c) s).a.returned, p.1 = none) ∧
      (∀ p ∈ (es.foldl (Sys.step c) s).b.returned, p.1 = none) := by
    intro es
    induction es with
    | nil => intro s ha hb; exact ⟨ha, hb⟩
    | cons e es ih =>
      intro s ha hb
      cases e with
      | left e => exact ih _ (hstep s e ha hb).1 (hstep s e ha hb).2
      | right e => exact ih _ (hstep s.swap e hb ha).2 (hstep s.swap e hb ha).1
      | reconnect => exact ih _ ha hb
  have := hall es Sys.init (fun p hp => (nomatch hp)) (fun p hp => (nomatch hp))
  intro p hp
  rcases List.mem_append.1 hp with hp | hp
  · exact this.1 p hp
  · exact this.2 p hp

end Hdtn.TcpclV3Link
