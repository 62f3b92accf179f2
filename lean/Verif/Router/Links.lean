import Verif.Router.Lemmas

/-!
What is announced about links.
-/

namespace Hdtn.Router

open Spec

/-- No message about a link or the schedule of a link. -/
def OnlyRoutes (l : List Msg) : Prop := NoLink l ∧ ∀ i r up, Msg.schedule i r up ∉ l

/-- What an update leaves alone and what it sends. -/
structure Updated (s s' : State) (i : Nat) (o new : Outduct) (up : Bool) (first : List Msg) : Prop where
  ready : s'.ready = s.ready
  clock : s'.clock = s.clock
  indices : s'.indices = s.indices
  index : s'.index = s.index
  events : s'.events = s.events
  epoch : s'.epoch = s.epoch
  plan : s'.plan = s.plan
  timer : s'.timer = s.timer
  queued : s'.queued = s.queued
  full : s'.full = s.full
  fullTimer : s'.fullTimer = s.fullTimer
  here : (s'.outducts i).map Outduct.bare = some new.bare
  there : ∀ j, j ≠ i → (s'.outducts j).map Outduct.bare = (s.outducts j).map Outduct.bare
  msgs : ∃ l, OnlyRoutes l ∧ s'.msgs = s.msgs ++ first ++ (if o.isUp = new.isUp then [] else [.link i up]) ++ l

theorem update_updated (C : Config) (s : State) (now i : Nat) (o new : Outduct) (up : Bool) (first : List Msg) :
    Updated s (s.update C now i o new up first) i o new up first := by
  unfold State.update
  simp only
  by_cases hc : o.isUp = new.isUp
  · rw [if_neg (by simp [hc])]
    constructor <;> first | rfl | skip
    · simp [State.setOutduct]
    · intro j hj; simp [State.setOutduct, hj]
    · exact ⟨[], ⟨(by intro i up h; cases h), (by intro i r up h; cases h)⟩, by simp [State.setOutduct, hc]⟩
  · rw [if_pos (by simpa using hc)]
    have h := linkChanged_step C { s.setOutduct i new with msgs := (s.setOutduct i new).msgs ++ first } now i up
    obtain ⟨l, e, n, k⟩ := h.msgs
    refine ⟨h.ready, h.clock, h.indices, h.index, h.events, h.epoch, h.plan, h.timer, h.queued, h.full, h.fullTimer, ?_, ?_, l, ⟨n, k⟩, ?_⟩
    · rw [h.outducts i]; simp [State.setOutduct, State.setTime, State.send]
    · intro j hj; rw [h.outducts j]; simp [State.setOutduct, State.setTime, State.send, hj]
    · rw [e, if_neg hc]; simp [State.setOutduct, State.setTime, State.send]

/-- Whether a link is up for the router. -/
def State.up (s : State) (i : Nat) : Bool := (s.outducts i).any Outduct.isUp

theorem up_of_bare {s s' : State} {i : Nat} (h : (s'.outducts i).map Outduct.bare = (s.outducts i).map Outduct.bare) :
    s'.up i = s.up i := by
  unfold State.up
  cases h1 : s.outducts i <;> cases h2 : s'.outducts i <;> simp only [h1, h2, Option.map_some, Option.map_none, Option.some.injEq] at h <;>
    first | rfl | (have := congrArg Outduct.isUp h; exact this) | cases h

theorem Updated.upHere {s s' i o new up first} (h : Updated s s' i o new up first) : s'.up i = new.isUp := by
  have := congrArg (Option.map Outduct.isUp) h.here
  unfold State.up
  cases h2 : s'.outducts i <;> simp_all [Outduct.isUp_bare]

/-- What is announced is what is the case, and only news are sent. -/
structure LinkInv (s : State) : Prop where
  heard : ∀ i, announced i s.msgs = s.up i
  news : ∀ i, NewsOnly i s.msgs
  fresh : s.ready = false → ∀ i, s.outducts i = none
  indices : ∀ i, i ∈ s.indices ↔ (s.outducts i).isSome = true
  nodup : s.indices.Nodup

theorem Updated.isSome {s s' i o new up first} (h : Updated s s' i o new up first) (ho : s.outducts i = some o) (j : Nat) :
    (s'.outducts j).isSome = (s.outducts j).isSome := by
  by_cases hj : j = i
  · subst hj
    have := h.here
    cases h2 : s'.outducts j <;> simp_all
  · have := h.there j hj
    cases h1 : s.outducts j <;> cases h2 : s'.outducts j <;> simp_all

theorem Updated.linkInv {s s' i o new up first} (h : Updated s s' i o new up first) (hs : LinkInv s) (ho : s.outducts i = some o)
    (hup : o.isUp ≠ new.isUp → new.isUp = up) (hf : NoLink first) : LinkInv s' := by
  obtain ⟨l, ⟨n, _⟩, e⟩ := h.msgs
  have hi : s.up i = o.isUp := by unfold State.up; rw [ho]; rfl
  have key : ∀ j, announced j s'.msgs = s'.up j ∧ NewsOnly j s'.msgs := by
    intro j
    rw [e, announced_noLink n]
    have h1 : announced j (s.msgs ++ first) = s.up j := by rw [announced_noLink hf]; exact hs.heard j
    have h2 : NewsOnly j (s.msgs ++ first) := newsOnly_noLink hf (hs.news j)
    have h3 : ∀ x, NewsOnly j x → NewsOnly j (x ++ l) := fun x hx => newsOnly_noLink n hx
    by_cases hj : j = i
    · subst hj
      rw [h.upHere]
      by_cases hc : o.isUp = new.isUp
      · rw [if_pos hc, List.append_nil, h1, hi]
        exact ⟨hc, h3 _ h2⟩
      · rw [if_neg hc, announced_snoc_link, if_pos rfl]
        refine ⟨(hup hc).symm, h3 _ (newsOnly_link h2 fun _ => ?_)⟩
        rw [h1, hi, ← hup hc]
        exact hc
    · rw [up_of_bare (h.there j hj)]
      by_cases hc : o.isUp = new.isUp
      · rw [if_pos hc, List.append_nil]
        exact ⟨h1, h3 _ h2⟩
      · rw [if_neg hc, announced_snoc_link, if_neg (Ne.symm hj)]
        exact ⟨h1, h3 _ (newsOnly_link h2 fun e => absurd e hj)⟩
  refine ⟨fun j => (key j).1, fun j => (key j).2, ?_, ?_, ?_⟩
  · intro hr j
    have := hs.fresh (h.ready ▸ hr) i
    rw [ho] at this; cases this
  · intro j; rw [h.indices, h.isSome ho]; exact hs.indices j
  · rw [h.indices]; exact hs.nodup

/-- A change of anything that has nothing to do with links. -/
theorem LinkInv.frame {s s' : State} (h : LinkInv s) (h1 : s'.msgs = s.msgs) (h2 : s'.outducts = s.outducts) (h3 : s'.ready = s.ready)
    (h4 : s'.indices = s.indices) : LinkInv s' :=
  ⟨fun i => by rw [h1, h.heard]; unfold State.up; rw [h2], fun i => h1 ▸ h.news i, fun hr => h2 ▸ h.fresh (h3 ▸ hr),
    fun i => by rw [h4, h2]; exact h.indices i, h4 ▸ h.nodup⟩

/-- The messages that the links go down. -/
theorem announced_downs (s : State) (hs : LinkInv s) (l : List Nat) (hn : l.Nodup) (h : ∀ i ∈ l, s.up i = true) (j : Nat) :
    announced j (s.msgs ++ l.map fun i => Msg.link i false) = (if j ∈ l then false else s.up j) ∧
    NewsOnly j (s.msgs ++ l.map fun i => Msg.link i false) := by
  induction l using List.reverseRecOn with
  | nil => simpa using ⟨hs.heard j, hs.news j⟩
  | append_singleton l i ih =>
    have hn' := List.nodup_append.mp hn
    obtain ⟨a, b⟩ := ih hn'.1 fun i hi => h i (List.mem_append_left _ hi)
    rw [List.map_append, ← List.append_assoc, List.map_singleton, announced_snoc_link]
    have hil : i ∉ l := fun hi => hn'.2.2 i hi i (by simp) rfl
    refine ⟨?_, newsOnly_link b ?_⟩
    · by_cases hj : i = j
      · subst hj; simp
      · rw [if_neg hj, a]; simp [show j ≠ i from fun e => hj e.symm]
    · rintro rfl
      rw [a, if_neg hil, h j (by simp)]; simp

theorem noLink_routes (l : List (Nat × Option Nat)) : NoLink (l.map fun p => Msg.route p.1 none) := by
  intro i up h; simp at h

theorem load_linkInv (C : Config) {s : State} (hs : LinkInv s) (now : Nat) (l : List Planned) : LinkInv (s.load C now l) := by
  have hm : (s.load C now l).msgs = s.msgs ++ ((s.indices.filter fun i => s.up i).map fun i => Msg.link i false) ++
      (((s.routes.filter (·.2.isSome)).map fun p => Msg.route p.1 none) ++ (loadRoutes C l).map fun p => Msg.route p.1 none) := by
    unfold State.load
    simp only [State.restart, State.up, List.append_assoc]
  have ho : ∀ i, (s.load C now l).outducts i = (s.outducts i).map fun o => { o with byTime := false, dests := [] } := fun i => rfl
  have hno : NoLink (((s.routes.filter (·.2.isSome)).map fun p => Msg.route p.1 none) ++ (loadRoutes C l).map fun p => Msg.route p.1 none) :=
    fun i up h => (List.mem_append.mp h).elim (noLink_routes _ i up) (noLink_routes _ i up)
  have key := announced_downs s hs (s.indices.filter fun i => s.up i) (hs.nodup.filter _) (fun i hi => (List.mem_filter.mp hi).2)
  refine ⟨?_, ?_, ?_, ?_, hs.nodup⟩
  · intro i
    rw [hm, announced_noLink hno, (key i).1]
    have : (s.load C now l).up i = false := by
      unfold State.up; rw [ho i]; cases s.outducts i <;> simp [Outduct.isUp]
    rw [this]
    by_cases hi : s.up i = true
    · have : i ∈ s.indices := by
        rw [hs.indices]; unfold State.up at hi; cases h : s.outducts i <;> simp_all
      rw [if_pos (List.mem_filter.mpr ⟨this, hi⟩)]
    · simp [hi]
  · intro i
    rw [hm]
    exact newsOnly_noLink hno (key i).2
  · intro hr i; rw [ho i, hs.fresh hr i]; rfl
  · intro i; rw [ho i]
    rw [Option.isSome_map]
    exact hs.indices i

/-! ### Outducts at the start -/

theorem foldl_outducts (l : List (Nat × Nat × Bool)) (f : Nat → Option Outduct) (i : Nat) (hn : (l.map (·.1)).Nodup) :
    l.foldl (fun f p => fun j => if j = p.1 then some ⟨p.2.1, false, !p.2.2, true, []⟩ else f j) f i =
      match l.find? (·.1 == i) with
      | some p => some ⟨p.2.1, false, !p.2.2, true, []⟩
      | none => f i := by
  induction l generalizing f with
  | nil => rfl
  | cons p l ih =>
    rw [List.foldl_cons, ih _ (List.nodup_cons.mp hn).2]
    by_cases hp : p.1 = i
    · have : l.find? (·.1 == i) = none := by
        rw [List.find?_eq_none]
        intro x hx hxi
        refine (List.nodup_cons.mp hn).1 ?_
        exact List.mem_map.mpr ⟨x, hx, by simp only [beq_iff_eq] at hxi; exact hxi.trans hp.symm⟩
      rw [this, List.find?_cons_of_pos (by simpa using hp)]
      simp [hp]
    · rw [List.find?_cons_of_neg (by simpa using hp)]
      cases l.find? (·.1 == i) with
      | none => simp [show i ≠ p.1 from fun e => hp e.symm]
      | some q => rfl

theorem init_outducts {s : State} {l : List (Nat × Nat × Bool)} (hn : (l.map (·.1)).Nodup) (i : Nat) :
    (s.init l).outducts i = (l.find? (·.1 == i)).map fun p => ⟨p.2.1, false, !p.2.2, true, []⟩ := by
  unfold State.init
  simp only
  rw [foldl_outducts l _ i hn]
  cases l.find? (·.1 == i) <;> rfl

theorem init_linkInv {s : State} (hs : LinkInv s) (hr : s.ready = false) {l : List (Nat × Nat × Bool)} (hn : (l.map (·.1)).Nodup) :
    LinkInv (s.init l) := by
  refine ⟨?_, hs.news, fun h => (by cases h), ?_, hn⟩
  · intro i
    have h1 : s.up i = false := by unfold State.up; rw [hs.fresh hr i]; rfl
    show announced i s.msgs = _
    rw [hs.heard i, h1]
    unfold State.up
    rw [init_outducts hn]
    cases l.find? (·.1 == i) <;> simp [Outduct.isUp]
  · intro i
    rw [init_outducts hn]
    show i ∈ l.map (·.1) ↔ _
    rw [Option.isSome_map, List.find?_isSome, List.mem_map]
    simp only [beq_iff_eq]

/-! ### Every step -/

theorem isUp_time (o : Outduct) (b : Bool) : o.isUp ≠ ({ o with byTime := b } : Outduct).isUp → ({ o with byTime := b } : Outduct).isUp = b := by
  cases o with | mk h t p s d => cases t <;> cases p <;> cases s <;> cases b <;> simp [Outduct.isUp]

theorem isUp_physical (o : Outduct) (b : Bool) :
    o.isUp ≠ ({ o with physical := b } : Outduct).isUp → ({ o with physical := b } : Outduct).isUp = b := by
  cases o with | mk h t p s d => cases t <;> cases p <;> cases s <;> cases b <;> simp [Outduct.isUp]

theorem isUp_storage (o : Outduct) (b : Bool) :
    o.isUp ≠ ({ o with storage := b } : Outduct).isUp → ({ o with storage := b } : Outduct).isUp = b := by
  cases o with | mk h t p s d => cases t <;> cases p <;> cases s <;> cases b <;> simp [Outduct.isUp]

theorem noLink_nil : NoLink [] := by intro i up h; cases h

theorem restartFull_frame (s : State) : s.restartFull.msgs = s.msgs ∧ s.restartFull.outducts = s.outducts ∧ s.restartFull.ready = s.ready ∧
    s.restartFull.indices = s.indices := by
  unfold State.restartFull; split <;> exact ⟨rfl, rfl, rfl, rfl⟩

theorem restartFull_linkInv {s : State} (h : LinkInv s) : LinkInv s.restartFull :=
  let ⟨a, b, c, d⟩ := restartFull_frame s
  h.frame a b c d

theorem event_linkInv {C : Config} {s : State} (hs : LinkInv s) (now : Nat) : LinkInv (s.contactEvent C now) := by
  unfold State.contactEvent
  cases he : s.events with
  | nil => exact hs
  | cons x rest =>
    refine LinkInv.frame (s := s.contact C now x.2) ?_ rfl rfl rfl rfl
    unfold State.contact
    cases ho : s.outducts x.2.outduct with
    | none => exact hs
    | some o =>
      exact (update_updated C s now x.2.outduct o _ x.2.up _).linkInv hs ho (isUp_time o x.2.up) (by intro i up h; simp at h)

theorem release_linkInv {C : Config} {s : State} (hs : LinkInv s) (now i : Nat) : LinkInv (s.release C now i) := by
  unfold State.release
  cases ho : s.outducts i with
  | none => exact hs
  | some o => exact (update_updated C s now i o _ true _).linkInv hs ho (isUp_storage o true) noLink_nil

theorem storage_linkInv {C : Config} {s : State} (hs : LinkInv s) (now : Nat) : LinkInv (s.storageEvent C now) := by
  unfold State.storageEvent
  have h0 : LinkInv { s with fullTimer := none } := hs.frame rfl rfl rfl rfl
  cases he : s.full with
  | nil => simpa [he] using h0
  | cons x rest =>
    apply restartFull_linkInv
    refine LinkInv.frame (release_linkInv ?_ now x.2) rfl rfl rfl rfl
    split
    · exact restartFull_linkInv (h0.frame rfl rfl rfl rfl)
    · exact h0.frame rfl rfl rfl rfl

theorem depleted_linkInv {C : Config} {s : State} (hs : LinkInv s) (now node : Nat) : LinkInv (s.depleted C now node) := by
  unfold State.depleted
  cases hi : s.index node with
  | none => exact hs
  | some i =>
    simp only
    cases ho : s.outducts i with
    | none => exact hs
    | some o =>
      simp only
      refine (update_updated C _ now i o _ false _).linkInv (restartFull_linkInv (hs.frame rfl rfl rfl rfl)) ?_ (isUp_storage o false)
        noLink_nil
      rw [(restartFull_frame _).2.1]; exact ho

theorem step_linkInv {C : Config} {s s' : State} {now : Nat} {a : Act} (hs : LinkInv s) (h : s.step C now a = some s') : LinkInv s' := by
  unfold State.step at h
  split at h
  · cases h
  have h0 : LinkInv { s with clock := now } := hs.frame rfl rfl rfl rfl
  simp only at h
  cases a with
  | init l =>
    simp only at h
    by_cases hc : (s.ready || !decide (l.map (·.1)).Nodup) = true
    · rw [if_pos hc] at h; cases h
    · rw [if_neg hc] at h; cases h
      simp at hc
      exact init_linkInv h0 hc.1 hc.2
  | load l => cases h; exact load_linkInv C h0 now l
  | fire =>
    simp only at h
    split at h
    · cases h
    · split at h
      · cases h; exact hs.frame rfl rfl rfl rfl
      · cases h
  | event =>
    simp only at h
    split at h
    · cases h
    · cases h; exact event_linkInv (s := { s with clock := now, queued := s.queued - 1 }) (hs.frame rfl rfl rfl rfl) now
  | physical i up =>
    cases h
    unfold State.physical
    cases ho : s.outducts i with
    | none => simpa [ho] using h0
    | some o =>
      simp only [ho]
      exact (update_updated C _ now i o _ up _).linkInv h0 ho (isUp_physical o up) noLink_nil
  | api i up =>
    cases h
    unfold State.api
    cases ho : s.outducts i with
    | none => simpa [ho] using h0
    | some o =>
      simp only [ho]
      exact (update_updated C _ now i o _ up _).linkInv h0 ho (isUp_time o up) noLink_nil
  | depleted node => cases h; exact depleted_linkInv h0 now node
  | storageTimer =>
    simp only at h
    split at h
    · cases h
    · split at h
      · cases h; exact storage_linkInv h0 now
      · cases h

theorem run_append (C : Config) (s : State) (a b : List (Nat × Act)) : run C s (a ++ b) = (run C s a).bind fun s => run C s b := by
  induction a generalizing s with
  | nil => rfl
  | cons x a ih =>
    obtain ⟨now, x⟩ := x
    rw [List.cons_append, run, run]
    cases s.step C now x with
    | none => rfl
    | some s => exact ih s

/-- An invariant that may speak about what happened. -/
theorem run_induction {C : Config} (P : List (Nat × Act) → State → Prop) (h0 : P [] start)
    (hs : ∀ acts s now a s', run C start acts = some s → P acts s → s.step C now a = some s' → P (acts ++ [(now, a)]) s')
    {acts : List (Nat × Act)} {s : State} (h : run C start acts = some s) : P acts s := by
  induction acts using List.reverseRecOn generalizing s with
  | nil => cases h; exact h0
  | append_singleton acts x ih =>
    rw [run_append] at h
    cases h1 : run C start acts with
    | none => rw [h1] at h; cases h
    | some s1 =>
      obtain ⟨now, a⟩ := x
      rw [h1] at h
      simp only [Option.bind_some, run] at h
      cases h2 : s1.step C now a with
      | none => rw [h2] at h; cases h
      | some s2 => rw [h2] at h; cases h; exact hs acts s1 now a _ h1 (ih h1) h2

theorem start_linkInv : LinkInv start :=
  ⟨fun _ => rfl, fun i => newsOnly_nil i, fun _ _ => rfl, fun i => by simp [start], List.nodup_nil⟩

theorem run_linkInv {C : Config} {acts : List (Nat × Act)} {s : State} (h : run C start acts = some s) : LinkInv s :=
  run_induction (fun _ s => LinkInv s) start_linkInv (fun _ _ _ _ _ _ h h' => step_linkInv h h') h

end Hdtn.Router
