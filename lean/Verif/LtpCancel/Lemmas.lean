import Verif.LtpCancel.Spec
import Mathlib.Data.List.Induction

/-!
The steps of the engine as seen by one session, and the invariants of a history.
-/

namespace Hdtn.LtpCancel
open Hdtn.LtpRng

/-! ### Histories -/

theorem run_append (cfg : Cfg) (es fs : List Event) : ∀ st,
    run cfg st (es ++ fs) = (do
      let (st, out) ← run cfg st es
      let (st, outs) ← run cfg st fs
      pure (st, out ++ outs)) := by
  induction es with
  | nil => intro st; cases h : run cfg st fs <;> simp [run, h]
  | cons e es ih =>
    intro st
    simp only [List.cons_append, run]
    cases h : step cfg st e with
    | none => simp
    | some p =>
      simp only [Option.bind_eq_bind, Option.bind_some, ih]
      cases h2 : run cfg p.1 es with
      | none => simp
      | some q =>
        simp only [Option.bind_some, Option.pure_def]
        cases h3 : run cfg q.1 fs <;> simp

theorem run_snoc_inv {cfg : Cfg} {st st' : State} {es : List Event} {e : Event} {effs : List Eff}
    (h : run cfg st (es ++ [e]) = some (st', effs)) :
    ∃ mid out outs, run cfg st es = some (mid, out) ∧ step cfg mid e = some (st', outs) ∧
      effs = out ++ outs := by
  rw [run_append] at h
  simp only [Option.bind_eq_bind, Option.bind_eq_some_iff, Prod.exists, Option.pure_def,
    Option.some.injEq, Prod.mk.injEq, run] at h
  obtain ⟨mid, out, h1, s2, o2, ⟨s3, o3, h3, s4, o4, ⟨rfl, rfl⟩, rfl, rfl⟩, rfl, rfl⟩ := h
  exact ⟨mid, out, o3, h1, h3, by simp⟩

theorem run_snoc {cfg : Cfg} {st mid st' : State} {es : List Event} {e : Event} {out outs : List Eff}
    (h1 : run cfg st es = some (mid, out)) (h2 : step cfg mid e = some (st', outs)) :
    run cfg st (es ++ [e]) = some (st', out ++ outs) := by
  rw [run_append]
  simp [h1, h2, run]

/-! ### One session's view -/

/-- The session's waiting segments. -/
def q (st : State) (sid : Sid) : List Info := st.queue.filter (fun j => j.sid = sid)

/-- The session's segments under a timer. -/
def t (st : State) (sid : Sid) : List Info := st.timers.filter (fun j => j.sid = sid)

/-- The invariant: at most one timer for each session, and the side of a segment shows in its id. -/
structure Inv (cfg : Cfg) (st : State) : Prop where
  timers : ∀ sid, (t st sid).length ≤ 1
  side : ∀ i, i ∈ st.queue ∨ i ∈ st.timers → i.fromSender = decide (i.sid.engine = cfg.me)

/-- The effect is not about the session. -/
def Foreign (sid : Sid) : Eff → Prop
  | .started s => s ≠ sid
  | .pingStarted s => s ≠ sid
  | .sent s _ _ => s ≠ sid
  | .acked s => s ≠ sid
  | .failed s => s ≠ sid
  | .linkUp => True
  | .linkDown => True

/-- A step as the session sees it. -/
inductive Turn (cfg : Cfg) (sid : Sid) (st st' : State) (out : List Eff) : Prop where
  | other (hq : q st' sid = q st sid) (ht : t st' sid = t st sid) (hf : ∀ e ∈ out, Foreign sid e)
      (hp : (st'.pinging = st.pinging ∧ Eff.linkUp ∉ out ∧ Eff.linkDown ∉ out) ∨
        (∃ i ∈ st.timers, i.sid ≠ sid ∧ isPing cfg i.fromSender i.sid = true) ∨
        sid ≠ cfg.pingSid)
  | start (i : Info) (hi : i.sid = sid) (hr : i.retry = 1) (hq : q st' sid = q st sid ++ [i])
      (ht : t st' sid = t st sid) (ho : out = [.started sid]) (hp : st'.pinging = st.pinging)
  | ping (i : Info) (hi : i.sid = sid) (hr : i.retry = 1) (hq : q st' sid = q st sid ++ [i])
      (ht : t st' sid = t st sid) (ho : out = [.pingStarted sid]) (hs : sid = cfg.pingSid)
      (hp : st.pinging = false) (hp' : st'.pinging = true)
  | send (i : Info) (hq : q st sid = i :: q st' sid)
      (ht : t st' sid = if t st sid = [] then [i] else t st sid)
      (ho : out = [.sent sid i.reason i.fromSender]) (hp : st'.pinging = st.pinging)
  | again (i : Info) (ht : t st sid = [i]) (ht' : t st' sid = []) (hr : i.retry ≤ cfg.maxRetries)
      (hq : q st' sid = q st sid ++ [{ i with retry := (i.retry + 1) % 256 }]) (ho : out = [])
      (hp : st'.pinging = st.pinging)
  | gaveUp (i : Info) (ht : t st sid = [i]) (ht' : t st' sid = []) (hr : cfg.maxRetries < i.retry)
      (hq : q st' sid = q st sid)
      (ho : (isPing cfg (decide (sid.engine = cfg.me)) sid = true ∧ out = [.linkDown] ∧
          st'.pinging = false) ∨
        (isPing cfg (decide (sid.engine = cfg.me)) sid = false ∧ out = [.failed sid] ∧
          st'.pinging = st.pinging))
  | acked (i : Info) (ht : t st sid = [i]) (ht' : t st' sid = []) (hq : q st' sid = q st sid)
      (ho : (isPing cfg (decide (sid.engine = cfg.me)) sid = true ∧ out = [.linkUp] ∧
          st'.pinging = false) ∨
        (isPing cfg (decide (sid.engine = cfg.me)) sid = false ∧ out = [.acked sid] ∧
          st'.pinging = st.pinging))

theorem filter_other {l : List Info} {a b : Sid} (h : a ≠ b) :
    (l.filter (fun j => j.sid ≠ b)).filter (fun j => j.sid = a) = l.filter (fun j => j.sid = a) := by
  rw [List.filter_filter]
  congr 1
  funext j
  by_cases hj : j.sid = a
  · simp [hj, h]
  · simp [hj]

theorem filter_gone {l : List Info} {a : Sid} :
    (l.filter (fun j => j.sid ≠ a)).filter (fun j => j.sid = a) = [] := by
  rw [List.filter_filter, List.filter_eq_nil_iff]
  intro j _
  simp

/-- What is found is the session's only timer. -/
theorem found {cfg : Cfg} {st : State} {sid : Sid} {i : Info} (hI : Inv cfg st)
    (h : st.timers.find? (fun j => j.sid = sid) = some i) :
    i ∈ st.timers ∧ i.sid = sid ∧ t st sid = [i] := by
  have hm := List.mem_of_find?_eq_some h
  have hs : i.sid = sid := by simpa using List.find?_some h
  refine ⟨hm, hs, ?_⟩
  have hin : i ∈ t st sid := List.mem_filter.2 ⟨hm, by simpa using hs⟩
  have hl := hI.timers sid
  match hx : t st sid with
  | [] => rw [hx] at hin; simp at hin
  | [j] => rw [hx] at hin; simp at hin; rw [hin]
  | j :: k :: r => rw [hx] at hl; simp at hl

theorem t_removed (st : State) (a b : Sid) (rest : State)
    (h : rest.timers = st.timers.filter (fun j => j.sid ≠ b)) :
    t rest a = if a = b then [] else t st a := by
  unfold t
  rw [h]
  split
  · rename_i hab; subst hab; exact filter_gone
  · rename_i hab; exact filter_other hab

theorem length_removed (cfg : Cfg) (st rest : State) (hI : Inv cfg st) (b : Sid)
    (h : rest.timers = st.timers.filter (fun j => j.sid ≠ b)) (a : Sid) : (t rest a).length ≤ 1 := by
  rw [t_removed st a b rest h]
  split
  · simp
  · exact hI.timers a

theorem q_enqueue (st : State) (s sid : Sid) (f : Bool) (r : Reason) :
    q (enqueue st s f r) sid = if s = sid then q st sid ++ [⟨s, r, f, 1⟩] else q st sid := by
  simp only [q, enqueue, List.filter_append]
  split <;> rename_i h <;> simp [h]

theorem t_enqueue (st : State) (s sid : Sid) (f : Bool) (r : Reason) :
    t (enqueue st s f r) sid = t st sid := rfl

theorem inv_enqueue {cfg : Cfg} {st : State} {s : Sid} {f : Bool} {r : Reason} (hI : Inv cfg st)
    (h : f = decide (s.engine = cfg.me)) : Inv cfg (enqueue st s f r) := by
  refine ⟨hI.timers, fun i hi => ?_⟩
  simp only [enqueue, List.mem_append, List.mem_singleton] at hi
  rcases hi with (hi | rfl) | hi
  · exact hI.side i (.inl hi)
  · exact h
  · exact hI.side i (.inr hi)

theorem turn_start {cfg : Cfg} {st st1 : State} {s : Sid} {f : Bool} {r : Reason} (sid : Sid)
    (h1 : st1.queue = st.queue) (h2 : st1.timers = st.timers) (h3 : st1.pinging = st.pinging) :
    Turn cfg sid st (enqueue st1 s f r) [.started s] := by
  have hq : q st1 sid = q st sid := by simp [q, h1]
  have ht : t st1 sid = t st sid := by simp [t, h2]
  by_cases hs : s = sid
  · subst hs
    exact .start ⟨s, r, f, 1⟩ rfl rfl (by rw [q_enqueue]; simp [hq]) (by rw [t_enqueue, ht]) rfl h3
  · exact .other (by rw [q_enqueue]; simp [hs, hq]) (by rw [t_enqueue, ht]) (by simp [Foreign, hs])
      (.inl ⟨h3, by simp, by simp⟩)

theorem send_inv {cfg : Cfg} {st : State} (hI : Inv cfg st) (sid : Sid) :
    Inv cfg (send st).1 ∧ Turn cfg sid st (send st).1 (send st).2 := by
  unfold send
  match hq : st.queue with
  | [] => exact ⟨hI, .other rfl rfl (by simp) (.inl ⟨rfl, by simp, by simp⟩)⟩
  | i :: rest =>
    simp only
    have hany : ∀ s, (st.timers.any (fun j => j.sid = s)) = true ↔ t st s ≠ [] := by
      intro s
      rw [List.any_eq_true, t, ne_eq, List.filter_eq_nil_iff]
      push Not
      rfl
    have htt : ∀ s, t { st with
        queue := rest
        timers := if st.timers.any (fun j => j.sid = i.sid) then st.timers else st.timers ++ [i] } s =
        if s = i.sid then (if t st s = [] then [i] else t st s) else t st s := by
      intro s
      by_cases ha : (st.timers.any (fun j => j.sid = i.sid)) = true
      · simp only [ha, if_true]
        by_cases hs : s = i.sid
        · have := (hany i.sid).1 ha
          rw [if_pos hs, hs, if_neg this]; rfl
        · rw [if_neg hs]; rfl
      · have hn : t st i.sid = [] := by
          by_contra hc; exact ha ((hany _).2 hc)
        simp only [ha]
        by_cases hs : s = i.sid
        · rw [if_pos hs, hs, if_pos hn]
          rw [t] at hn
          simp [t, List.filter_append, hn]
        · rw [if_neg hs]
          have : ¬ i.sid = s := fun h => hs h.symm
          simp [t, List.filter_append, this]
    refine ⟨⟨fun s => ?_, fun j hj => ?_⟩, ?_⟩
    · rw [htt]
      split
      · split
        · simp
        · exact hI.timers s
      · exact hI.timers s
    · apply hI.side j
      rw [hq]
      simp only at hj
      rcases hj with hj | hj
      · exact .inl (List.mem_cons_of_mem _ hj)
      · split at hj
        · exact .inr hj
        · rw [List.mem_append, List.mem_singleton] at hj
          rcases hj with hj | rfl
          · exact .inr hj
          · exact .inl List.mem_cons_self
    · by_cases hs : i.sid = sid
      · subst hs
        refine .send i ?_ ?_ rfl rfl
        · simp [q, hq]
        · rw [htt]; simp
      · refine .other ?_ ?_ (by simp [Foreign, hs]) (.inl ⟨rfl, by simp, by simp⟩)
        · simp [q, hq, hs]
        · rw [htt, if_neg (fun h => hs h.symm)]

theorem expired_inv {cfg : Cfg} {st st' : State} {s : Sid} {out : List Eff} (hI : Inv cfg st)
    (h : expired cfg st s = some (st', out)) (sid : Sid) :
    Inv cfg st' ∧ Turn cfg sid st st' out := by
  unfold expired at h
  match hf : st.timers.find? (fun j => j.sid = s) with
  | none => rw [hf] at h; simp at h
  | some i =>
    rw [hf] at h
    obtain ⟨hm, hs, ht⟩ := found hI hf
    have hside := hI.side i (.inr hm)
    rw [hs] at hside
    simp only [hs, hside] at h
    have hkeep : ∀ j, j ∈ st.timers.filter (fun j => j.sid ≠ s) → j ∈ st.timers :=
      fun j hj => (List.mem_filter.1 hj).1
    split at h
    · rename_i hr
      simp only [Option.some.injEq, Prod.mk.injEq] at h
      obtain ⟨rfl, rfl⟩ := h
      refine ⟨⟨length_removed cfg st _ hI s rfl, fun j hj => ?_⟩, ?_⟩
      · simp only [List.mem_append, List.mem_singleton] at hj
        rcases hj with (hj | rfl) | hj
        · exact hI.side j (.inl hj)
        · simp only [hs]
        · exact hI.side j (.inr (hkeep j hj))
      · by_cases he : s = sid
        · subst he
          refine .again i ht ?_ hr ?_ rfl rfl
          · rw [t_removed st s s _ rfl, if_pos rfl]
          · cases i
            simp only at hs hside
            subst hs hside
            simp [q, List.filter_append]
        · refine .other ?_ ?_ (by simp) (.inl ⟨rfl, by simp, by simp⟩)
          · simp [q, List.filter_append, he]
          · rw [t_removed st sid s _ rfl, if_neg (fun h => he h.symm)]
    · rename_i hr
      split at h
      · rename_i hp
        simp only [Option.some.injEq, Prod.mk.injEq] at h
        obtain ⟨rfl, rfl⟩ := h
        refine ⟨⟨length_removed cfg st _ hI s rfl, fun j hj => ?_⟩, ?_⟩
        · rcases hj with hj | hj
          · exact hI.side j (.inl hj)
          · exact hI.side j (.inr (hkeep j hj))
        · by_cases he : s = sid
          · subst he
            exact .gaveUp i ht (by rw [t_removed st s s _ rfl, if_pos rfl]) (by omega) rfl
              (.inl ⟨hp, rfl, rfl⟩)
          · exact .other rfl (by rw [t_removed st sid s _ rfl, if_neg (fun h => he h.symm)])
              (by simp [Foreign]) (.inr (.inl ⟨i, hm, by rw [hs]; exact he, by rw [hs, hside]; exact hp⟩))
      · rename_i hp
        simp only [Option.some.injEq, Prod.mk.injEq] at h
        obtain ⟨rfl, rfl⟩ := h
        refine ⟨⟨length_removed cfg st _ hI s rfl, fun j hj => ?_⟩, ?_⟩
        · rcases hj with hj | hj
          · exact hI.side j (.inl hj)
          · exact hI.side j (.inr (hkeep j hj))
        · by_cases he : s = sid
          · subst he
            exact .gaveUp i ht (by rw [t_removed st s s _ rfl, if_pos rfl]) (by omega) rfl
              (.inr ⟨by simpa using hp, rfl, rfl⟩)
          · exact .other rfl (by rw [t_removed st sid s _ rfl, if_neg (fun h => he h.symm)])
              (by simp [Foreign, he]) (.inl ⟨rfl, by simp, by simp⟩)

theorem ack_inv {cfg : Cfg} {st : State} {s : Sid} {b : Bool} (hI : Inv cfg st) (sid : Sid) :
    Inv cfg (ack cfg st s b).1 ∧ Turn cfg sid st (ack cfg st s b).1 (ack cfg st s b).2 := by
  have hnil : ∀ a b : List Eff, a = [] → Inv cfg st ∧ Turn cfg sid st st a := by
    rintro a - rfl
    exact ⟨hI, .other rfl rfl (by simp) (.inl ⟨rfl, by simp, by simp⟩)⟩
  unfold ack
  split
  · exact hnil _ [] rfl
  · rename_i hb
    push Not at hb
    match hf : st.timers.find? (fun j => j.sid = s) with
    | none => simp only [hf]; exact hnil _ [] rfl
    | some i =>
      simp only [hf]
      obtain ⟨hm, hs, ht⟩ := found hI hf
      have hside := hI.side i (.inr hm)
      have hkeep : ∀ j, j ∈ st.timers.filter (fun j => j.sid ≠ s) → j ∈ st.timers :=
        fun j hj => (List.mem_filter.1 hj).1
      rw [hb]
      have hinv : ∀ st' : State, st'.queue = st.queue →
          st'.timers = st.timers.filter (fun j => j.sid ≠ s) → Inv cfg st' := by
        intro st' h1 h2
        refine ⟨length_removed cfg st st' hI s h2, fun j hj => ?_⟩
        rw [h1, h2] at hj
        rcases hj with hj | hj
        · exact hI.side j (.inl hj)
        · exact hI.side j (.inr (hkeep j hj))
      have hturn : ∀ st' : State, st'.queue = st.queue → st'.pinging = st.pinging →
          st'.timers = st.timers.filter (fun j => j.sid ≠ s) →
          isPing cfg (decide (s.engine = cfg.me)) s = false → Turn cfg sid st st' [.acked s] := by
        intro st' h1 h3 h2 h4
        have hq : q st' sid = q st sid := by simp [q, h1]
        by_cases he : s = sid
        · subst he
          exact .acked i ht (by rw [t_removed st s s _ h2, if_pos rfl]) hq (.inr ⟨h4, rfl, h3⟩)
        · exact .other hq (by rw [t_removed st sid s _ h2, if_neg (fun h => he h.symm)])
            (by simp [Foreign, he]) (.inl ⟨h3, by simp, by simp⟩)
      split
      · rename_i hp
        refine ⟨hinv _ rfl rfl, ?_⟩
        by_cases he : s = sid
        · subst he
          exact .acked i ht (by rw [t_removed st s s _ rfl, if_pos rfl]) rfl (.inl ⟨hp, rfl, rfl⟩)
        · exact .other rfl (by rw [t_removed st sid s _ rfl, if_neg (fun h => he h.symm)])
            (by simp [Foreign]) (.inr (.inl ⟨i, hm, by rw [hs]; exact he, by rw [hside, hs]; exact hp⟩))
      · rename_i hp
        split
        · exact ⟨hinv _ rfl rfl, hturn _ rfl rfl rfl (by simpa using hp)⟩
        · exact ⟨hinv _ rfl rfl, hturn _ rfl rfl rfl (by simpa using hp)⟩

/-- Every step keeps the invariant and is one of the turns, for every session. -/
theorem step_inv {cfg : Cfg} {st st' : State} {e : Event} {out : List Eff} (hI : Inv cfg st)
    (h : step cfg st e = some (st', out)) (sid : Sid) :
    Inv cfg st' ∧ Turn cfg sid st st' out := by
  have hnil : Inv cfg st ∧ Turn cfg sid st st [] :=
    ⟨hI, .other rfl rfl (by simp) (.inl ⟨rfl, by simp, by simp⟩)⟩
  cases e with
  | cancelTx number reason =>
    simp only [step, Option.some.injEq, Prod.mk.injEq] at h
    obtain ⟨rfl, rfl⟩ := h
    exact ⟨inv_enqueue hI (by simp), turn_start sid rfl rfl rfl⟩
  | cancelRx s reason =>
    simp only [step] at h
    split at h
    · simp at h
    · rename_i hs
      simp only [Option.some.injEq, Prod.mk.injEq] at h
      obtain ⟨rfl, rfl⟩ := h
      exact ⟨inv_enqueue hI (by simp [hs]), turn_start sid rfl rfl rfl⟩
  | wrongService s =>
    simp only [step, wrongService, Option.some.injEq] at h
    split at h
    · obtain ⟨rfl, rfl⟩ := (by simpa using h : _ ∧ _); exact hnil
    · rename_i hs
      split at h
      · obtain ⟨rfl, rfl⟩ := (by simpa using h : _ ∧ _); exact hnil
      · simp only [Prod.mk.injEq] at h
        obtain ⟨rfl, rfl⟩ := h
        exact ⟨inv_enqueue ⟨hI.timers, hI.side⟩ (by simp [hs]), turn_start sid rfl rfl rfl⟩
  | send =>
    simp only [step, Option.some.injEq] at h
    have := send_inv hI sid
    rw [h] at this
    exact this
  | expired s => exact expired_inv hI h sid
  | ack s b =>
    simp only [step, Option.some.injEq] at h
    have := ack_inv (s := s) (b := b) hI sid
    rw [h] at this
    exact this
  | housekeeping due =>
    simp only [step, housekeeping, Option.some.injEq] at h
    split at h
    · rename_i hd
      split at h
      · obtain ⟨rfl, rfl⟩ := (by simpa using h : _ ∧ _)
        exact ⟨⟨hI.timers, hI.side⟩, .other rfl rfl (by simp) (.inl ⟨rfl, by simp, by simp⟩)⟩
      · simp only [Prod.mk.injEq] at h
        obtain ⟨rfl, rfl⟩ := h
        refine ⟨inv_enqueue ⟨hI.timers, hI.side⟩ (by simp), ?_⟩
        have hp : st.pinging = false := by simp at hd; exact hd.2
        by_cases hs : sid = cfg.pingSid
        · subst hs
          exact .ping ⟨cfg.pingSid, userCancelled, true, 1⟩ rfl rfl
            (by rw [q_enqueue]; simp [Cfg.pingSid, q]) (by rw [t_enqueue]; rfl) rfl rfl hp rfl
        · refine .other ?_ (by rw [t_enqueue]; rfl) ?_ (.inr (.inr hs))
          · rw [q_enqueue, if_neg (fun h => hs h.symm)]; rfl
          · simp only [List.mem_singleton, forall_eq, Foreign]
            exact fun h => hs h.symm
    · obtain ⟨rfl, rfl⟩ := (by simpa using h : _ ∧ _); exact hnil
  | transmission =>
    simp only [step, Option.some.injEq, Prod.mk.injEq] at h
    obtain ⟨rfl, rfl⟩ := h
    exact ⟨⟨hI.timers, hI.side⟩, .other rfl rfl (by simp) (.inl ⟨rfl, by simp, by simp⟩)⟩

theorem inv_init (cfg : Cfg) : Inv cfg .init := ⟨by simp [t, State.init], by simp [State.init]⟩

theorem run_inv {cfg : Cfg} {evs : List Event} : ∀ {st : State} {effs : List Eff},
    run cfg .init evs = some (st, effs) → Inv cfg st := by
  induction evs using List.reverseRecOn with
  | nil => intro st effs h; simp only [run, Option.some.injEq, Prod.mk.injEq] at h; rw [← h.1]; exact inv_init cfg
  | append_singleton es e ih =>
    intro st effs h
    obtain ⟨mid, out, outs, h1, h2, -⟩ := run_snoc_inv h
    exact (step_inv (ih h1) h2 ⟨0, 0⟩).1

theorem foreign_counts {sid : Sid} {out : List Eff} (h : ∀ e ∈ out, Foreign sid e) :
    begun sid out = 0 ∧ sends sid out = 0 ∧ ended sid out = 0 := by
  refine ⟨?_, ?_, ?_⟩ <;> refine List.countP_eq_zero.2 fun e he => ?_ <;> have := h e he <;>
    cases e <;> simp_all [Foreign]

theorem begun_append (sid : Sid) (a b : List Eff) : begun sid (a ++ b) = begun sid a + begun sid b :=
  List.countP_append

theorem sends_append (sid : Sid) (a b : List Eff) : sends sid (a ++ b) = sends sid a + sends sid b :=
  List.countP_append

theorem ended_append (sid : Sid) (a b : List Eff) : ended sid (a ++ b) = ended sid a + ended sid b :=
  List.countP_append

end Hdtn.LtpCancel
