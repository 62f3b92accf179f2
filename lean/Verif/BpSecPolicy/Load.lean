import Verif.BpSecPolicy.History

/-!
Reading the configuration.
-/

namespace Hdtn.BpSecPolicy

open Spec

/-! ### The settings of one rule -/

theorem lastOf_nil {α : Type} (f : Param → Option α) (d : α) : lastOf f d [] = d := rfl

theorem lastOf_cons {α : Type} (f : Param → Option α) (d : α) (x : Param) (xs : List Param) :
    lastOf f d (x :: xs) = lastOf f ((f x).getD d) xs := by
  unfold lastOf
  cases h : f x with
  | none => simp [h]
  | some v =>
    rw [List.filterMap_cons_some h, List.getLast?_cons]
    rfl

/-- The policy after the parameters. -/
def applied (s : Service) (p : Policy) (xs : List Param) : Policy :=
  match s with
  | .integrity =>
    { p with bib := { p.bib with
        variant := lastOf sha? p.bib.variant xs
        scope := lastOf scope? p.bib.scope xs
        crc := lastOf crc? p.bib.crc xs
        kek := lastOf kek? p.bib.kek xs
        key := lastOf key? p.bib.key xs } }
  | .confidentiality =>
    { p with bcb := { p.bcb with
        variant := lastOf aes? p.bcb.variant xs
        short := lastOf short? p.bcb.short xs
        scope := lastOf scope? p.bcb.scope xs
        crc := lastOf crc? p.bcb.crc xs
        kek := lastOf kek? p.bcb.kek xs
        key := lastOf key? p.bcb.key xs } }

theorem param_eq (s : Service) (p : Policy) (x : Param) :
    (Allowed s x → p.param s x = some (applied s p [x])) ∧ (¬ Allowed s x → p.param s x = none) := by
  cases x with
  | aes v =>
    cases s with
    | integrity => exact ⟨fun h => absurd h (by simp [Allowed]), fun _ => rfl⟩
    | confidentiality =>
      simp only [Allowed, Policy.param]
      constructor
      · rintro (rfl | rfl)
        · rfl
        · rfl
      · intro h
        rw [if_neg (fun e => h (Or.inl e)), if_neg (fun e => h (Or.inr e))]
  | sha v =>
    cases s with
    | confidentiality => exact ⟨fun h => absurd h (by simp [Allowed]), fun _ => rfl⟩
    | integrity =>
      simp only [Allowed, Policy.param]
      constructor
      · rintro (rfl | rfl | rfl)
        · rfl
        · rfl
        · rfl
      · intro h
        rw [if_neg (fun e => h (Or.inl e)), if_neg (fun e => h (Or.inr (Or.inl e))),
          if_neg (fun e => h (Or.inr (Or.inr e)))]
  | ivSize v =>
    cases s with
    | integrity => exact ⟨fun h => absurd h (by simp [Allowed]), fun _ => rfl⟩
    | confidentiality =>
      simp only [Allowed, Policy.param]
      constructor
      · rintro (rfl | rfl)
        · rfl
        · rfl
      · intro h
        push Not at h
        rw [if_pos h]
  | scope v =>
    have ha : Allowed s (.scope v) ↔ v ≤ 7 := by cases s <;> rfl
    rw [ha]
    simp only [Policy.param]
    constructor
    · intro h
      rw [if_neg (by omega)]
      cases s <;> rfl
    · intro h
      rw [if_pos (by omega)]
  | crc v =>
    have ha : Allowed s (.crc v) ↔ v ≤ 2 := by cases s <;> rfl
    rw [ha]
    simp only [Policy.param]
    constructor
    · intro h
      rw [if_neg (by omega)]
      cases s <;> rfl
    · intro h
      rw [if_pos (by omega)]
  | kek f =>
    have ha : Allowed s (.kek f) ↔ ∃ b bs, f = some (b :: bs) := by cases s <;> rfl
    rw [ha]
    constructor
    · rintro ⟨b, bs, rfl⟩
      cases s <;> rfl
    · intro h
      cases f with
      | none => rfl
      | some bytes =>
        cases bytes with
        | nil => rfl
        | cons b bs => exact absurd ⟨b, bs, rfl⟩ h
  | key f =>
    have ha : Allowed s (.key f) ↔ ∃ b bs, f = some (b :: bs) := by cases s <;> rfl
    rw [ha]
    constructor
    · rintro ⟨b, bs, rfl⟩
      cases s <;> rfl
    · intro h
      cases f with
      | none => rfl
      | some bytes =>
        cases bytes with
        | nil => rfl
        | cons b bs => exact absurd ⟨b, bs, rfl⟩ h

theorem applied_cons (s : Service) (p : Policy) (x : Param) (xs : List Param) :
    applied s (applied s p [x]) xs = applied s p (x :: xs) := by
  cases s <;> simp [applied, lastOf_cons, lastOf_nil]

theorem params_eq (s : Service) (xs : List Param) : ∀ p : Policy,
    ((∀ x ∈ xs, Allowed s x) → p.params s xs = some (applied s p xs)) ∧
    ((¬ ∀ x ∈ xs, Allowed s x) → p.params s xs = none) := by
  induction xs with
  | nil =>
    intro p
    refine ⟨fun _ => ?_, fun h => absurd (by simp) h⟩
    cases s <;> rfl
  | cons x xs ih =>
    intro p
    obtain ⟨h1, h2⟩ := param_eq s p x
    simp only [List.forall_mem_cons, Policy.params]
    constructor
    · rintro ⟨ha, hb⟩
      rw [h1 ha]
      simp only
      rw [(ih _).1 hb, applied_cons]
    · intro h
      by_cases ha : Allowed s x
      · rw [h1 ha]
        simp only
        exact (ih _).2 (fun hb => h ⟨ha, hb⟩)
      · rw [h2 ha]

/-- The template of a usable rule. -/
def target (r : Rule) (s : Service) : Policy :=
  match s with
  | .integrity => { Policy.init with bib := { Spec.bib r with events := 0 } }
  | .confidentiality => { Policy.init with bcb := { Spec.bcb r with events := 0 } }

theorem lastOf_ne {α : Type} (f : Param → Option (List α)) (xs : List Param)
    (h : ∀ x ∈ xs, f x ≠ some []) : ∀ d : List α, d ≠ [] → lastOf f d xs ≠ [] := by
  induction xs with
  | nil => intro d hd; exact hd
  | cons x xs ih =>
    intro d hd
    rw [lastOf_cons]
    apply ih (fun y hy => h y (List.mem_cons_of_mem _ hy))
    cases hf : f x with
    | none => exact hd
    | some v =>
      intro e
      have : v = [] := e
      exact h x List.mem_cons_self (by rw [hf, this])

theorem lastOf_eq_nil {α : Type} (f : Param → Option (List α)) (xs : List Param)
    (h : ∀ x ∈ xs, f x ≠ some []) : lastOf f [] xs = [] ↔ ¬ ∃ x ∈ xs, f x ≠ none := by
  induction xs with
  | nil => simp [lastOf_nil]
  | cons x xs ih =>
    rw [lastOf_cons]
    have h' : ∀ y ∈ xs, f y ≠ some [] := fun y hy => h y (List.mem_cons_of_mem _ hy)
    cases hf : f x with
    | none =>
      show lastOf f [] xs = [] ↔ _
      rw [ih h']
      simp [hf]
    | some v =>
      constructor
      · intro e
        refine absurd e (lastOf_ne f xs h' v ?_)
        intro hv
        exact h x List.mem_cons_self (by rw [hf, hv])
      · intro e
        exact absurd ⟨x, List.mem_cons_self, by simp [hf]⟩ e

theorem allowed_keys {s : Service} {xs : List Param} (h : ∀ x ∈ xs, Allowed s x) :
    (∀ x ∈ xs, kek? x ≠ some []) ∧ (∀ x ∈ xs, key? x ≠ some []) := by
  constructor
  · intro x hx e
    have ha := h x hx
    cases x with
    | kek f =>
      have : Allowed s (.kek f) ↔ ∃ b bs, f = some (b :: bs) := by cases s <;> rfl
      obtain ⟨b, bs, rfl⟩ := this.mp ha
      simp [kek?] at e
    | _ => simp [kek?] at e
  · intro x hx e
    have ha := h x hx
    cases x with
    | key f =>
      have : Allowed s (.key f) ↔ ∃ b bs, f = some (b :: bs) := by cases s <;> rfl
      obtain ⟨b, bs, rfl⟩ := this.mp ha
      simp [key?] at e
    | _ => simp [key?] at e

theorem template_eq (r : Rule) (role : Nat) (s : Service) (t : Policy) :
    r.template role s = some t ↔ (∀ p ∈ r.params, Allowed s p) ∧
      ((∃ p ∈ r.params, kek? p ≠ none) ↔ ¬ ∃ p ∈ r.params, key? p ≠ none) ∧ t = target r s := by
  by_cases ha : ∀ p ∈ r.params, Allowed s p
  · obtain ⟨hk1, hk2⟩ := allowed_keys ha
    have e1 := lastOf_eq_nil kek? r.params hk1
    have e2 := lastOf_eq_nil key? r.params hk2
    have fin : ∀ kek key : Bytes, kek = lastOf kek? [] r.params → key = lastOf key? [] r.params →
        ((if kek = [] ∧ key = [] then none else if kek ≠ [] ∧ key ≠ [] then none else some (target r s)) = some t ↔
        ((∃ p ∈ r.params, kek? p ≠ none) ↔ ¬ ∃ p ∈ r.params, key? p ≠ none) ∧ t = target r s) := by
      intro kek key hkek hkey
      rw [← hkek] at e1
      rw [← hkey] at e2
      by_cases h1 : kek = []
      · by_cases h2 : key = []
        · have := e1.mp h1
          have := e2.mp h2
          simp_all
        · rw [if_neg (fun h => h2 h.2), if_neg (fun h => h.1 h1)]
          have n1 := e1.mp h1
          have n2 : ∃ p ∈ r.params, key? p ≠ none := by
            by_contra hc; exact h2 (e2.mpr hc)
          rw [Option.some.injEq]
          constructor
          · intro h; exact ⟨⟨fun h => absurd h n1, fun h => absurd n2 h⟩, h.symm⟩
          · intro h; exact h.2.symm
      · have n1 : ∃ p ∈ r.params, kek? p ≠ none := by
          by_contra hc; exact h1 (e1.mpr hc)
        rw [if_neg (fun h => h1 h.1)]
        by_cases h2 : key = []
        · have n2 := e2.mp h2
          rw [if_neg (fun h => h.2 h2), Option.some.injEq]
          constructor
          · intro h; exact ⟨⟨fun _ => n2, fun _ => n1⟩, h.symm⟩
          · intro h; exact h.2.symm
        · have n2 : ∃ p ∈ r.params, key? p ≠ none := by
            by_contra hc; exact h2 (e2.mpr hc)
          rw [if_pos ⟨h1, h2⟩]
          constructor
          · intro h; exact absurd h (by simp)
          · intro h; exact absurd n2 (h.1.mp n1)
    unfold Rule.template
    have hv : (if role = roleSource then (target r s).validate else some (target r s)) = some (target r s) := by
      split
      · cases s <;> rfl
      · rfl
    cases s with
    | integrity =>
      simp only
      rw [(params_eq .integrity r.params _).1 ha]
      simp only
      have : applied .integrity { Policy.init with bib := { Policy.init.bib with targets := r.targets } } r.params =
          target r .integrity := rfl
      rw [this, hv]
      simp only
      rw [fin (target r .integrity).bib.kek (target r .integrity).bib.key rfl rfl]
      exact ⟨fun h => ⟨ha, h⟩, fun h => h.2⟩
    | confidentiality =>
      simp only
      rw [(params_eq .confidentiality r.params _).1 ha]
      simp only
      have : applied .confidentiality { Policy.init with bcb := { Policy.init.bcb with targets := r.targets } } r.params =
          target r .confidentiality := rfl
      rw [this, hv]
      simp only
      rw [fin (target r .confidentiality).bcb.kek (target r .confidentiality).bcb.key rfl rfl]
      exact ⟨fun h => ⟨ha, h⟩, fun h => h.2⟩
  · unfold Rule.template
    cases s with
    | integrity =>
      simp only
      rw [(params_eq .integrity r.params _).2 ha]
      simp [ha]
    | confidentiality =>
      simp only
      rw [(params_eq .confidentiality r.params _).2 ha]
      simp [ha]

/-! ### All rules, as one list of steps -/

/-- One pair of a source and a destination of a rule. -/
structure Job where
  call : Call
  s : Service
  t : Policy
  events : Nat

/-- The steps one after the other. -/
def Manager.jobs (m : Manager) : List Job → Manager × Bool
  | [] => (m, true)
  | j :: js =>
    match m.place j.call j.s j.t j.events with
    | (m', false) => (m', false)
    | (m', true) => m'.jobs js

theorem placeAll_eq (s : Service) (t : Policy) (ev : Nat) (cs : List Call) : ∀ m : Manager,
    m.placeAll s t ev cs = m.jobs (cs.map (fun c => ⟨c, s, t, ev⟩)) := by
  induction cs with
  | nil => intro m; rfl
  | cons c cs ih =>
    intro m
    simp only [Manager.placeAll, List.map_cons, Manager.jobs]
    rcases h : m.place c s t ev with ⟨m', b⟩
    cases b
    · rfl
    · exact ih m'

theorem jobs_append (js js' : List Job) : ∀ m : Manager,
    m.jobs (js ++ js') = match m.jobs js with
      | (m', false) => (m', false)
      | (m', true) => m'.jobs js' := by
  induction js with
  | nil => intro m; rfl
  | cons j js ih =>
    intro m
    simp only [List.cons_append, Manager.jobs]
    rcases h : m.place j.call j.s j.t j.events with ⟨m', b⟩
    cases b
    · rfl
    · exact ih m'

/-- The steps of a rule, if its settings are in order. -/
def jobsOf (r : Rule) : Option (List Job) :=
  match r.role with
  | none => none
  | some role =>
    match r.service with
    | none => none
    | some s =>
      match r.template role.val s with
      | none => none
      | some t => some ((r.calls role.val).map (fun c => ⟨c, s, t, r.events⟩))

/-- The steps of all rules. -/
def jobsOfAll : List Rule → Option (List Job)
  | [] => some []
  | r :: rs =>
    match jobsOf r with
    | none => none
    | some js =>
      match jobsOfAll rs with
      | none => none
      | some js' => some (js ++ js')

theorem rule_eq (m : Manager) (r : Rule) :
    m.rule r = match jobsOf r with
      | none => (m, false)
      | some js => m.jobs js := by
  unfold Manager.rule jobsOf
  cases r.role with
  | none => rfl
  | some role =>
    simp only
    cases r.service with
    | none => rfl
    | some s =>
      simp only
      cases r.template role.val s with
      | none => rfl
      | some t => simp only [placeAll_eq]

theorem load_eq (rs : List Rule) : ∀ m m' : Manager,
    m.load rs = (m', true) ↔ ∃ js, jobsOfAll rs = some js ∧ m.jobs js = (m', true) := by
  induction rs with
  | nil => intro m m'; simp [Manager.load, jobsOfAll, Manager.jobs]
  | cons r rs ih =>
    intro m m'
    simp only [Manager.load, jobsOfAll]
    rw [rule_eq]
    cases hj : jobsOf r with
    | none => simp
    | some js =>
      simp only
      rcases hm : m.jobs js with ⟨m1, b⟩
      cases b with
      | false =>
        simp only [Prod.mk.injEq, Bool.false_eq_true, and_false, false_iff]
        rintro ⟨js', h1, h2⟩
        cases hr : jobsOfAll rs with
        | none => rw [hr] at h1; simp at h1
        | some js2 =>
          rw [hr] at h1
          simp only [Option.some.injEq] at h1
          rw [← h1, jobs_append, hm] at h2
          simp at h2
      | true =>
        simp only
        rw [ih m1 m']
        cases hr : jobsOfAll rs with
        | none => simp
        | some js2 =>
          simp only [Option.some.injEq]
          constructor
          · rintro ⟨js', rfl, h⟩
            exact ⟨_, rfl, by rw [jobs_append, hm]; exact h⟩
          · rintro ⟨js', rfl, h⟩
            exact ⟨js2, rfl, by rw [jobs_append, hm] at h; exact h⟩

/-! ### What the steps leave -/

/-- The settings of a place after a list of steps. -/
structure PolInv (js : List Job) (pl : Place) (p : Policy) : Prop where
  doBib : p.doBib = true ↔ ∃ j ∈ js, j.s = .integrity ∧ IsFor j.call pl
  bib : ∀ j ∈ js, j.s = .integrity → IsFor j.call pl → p.bib = { j.t.bib with events := j.events }
  doBcb : p.doBcb = true ↔ ∃ j ∈ js, j.s = .confidentiality ∧ IsFor j.call pl
  bcb : ∀ j ∈ js, j.s = .confidentiality → IsFor j.call pl → p.bcb = { j.t.bcb with events := j.events }

/-- What holds after a list of steps. -/
structure JInv (js : List Job) (m : Manager) : Prop where
  root : RInv (js.map (·.call)) m.root m.policies.length
  pol : ∀ pl id, pl.role < 3 → idAt m.root pl = some id → ∃ p, m.policies[id]? = some p ∧ PolInv js pl p

/-- The step that would be refused: no place, or one that has the service already. -/
def Fits (js : List Job) (j : Job) : Prop :=
  ∃ pl, IsFor j.call pl ∧ ∀ j' ∈ js, j'.s = j.s → ¬ IsFor j'.call pl

theorem PolInv.other {js : List Job} {pl : Place} {p : Policy} (h : PolInv js pl p) {j : Job}
    (hj : ¬ IsFor j.call pl) : PolInv (js ++ [j]) pl p := by
  constructor
  · rw [h.doBib]; simp [or_and_right, exists_or, hj]
  · intro j' hj' hs hf
    rcases List.mem_append.mp hj' with h' | h'
    · exact h.bib j' h' hs hf
    · rw [List.mem_singleton.mp h'] at hf; exact absurd hf hj
  · rw [h.doBcb]; simp [or_and_right, exists_or, hj]
  · intro j' hj' hs hf
    rcases List.mem_append.mp hj' with h' | h'
    · exact h.bcb j' h' hs hf
    · rw [List.mem_singleton.mp h'] at hf; exact absurd hf hj

theorem PolInv.copy {js : List Job} {pl : Place} {p : Policy} (h : PolInv js pl p) {j : Job}
    (hj : IsFor j.call pl) (hn : ∀ j' ∈ js, j'.s = j.s → ¬ IsFor j'.call pl) :
    PolInv (js ++ [j]) pl (p.copy j.s j.t j.events) := by
  cases hs : j.s with
  | integrity =>
    rw [hs] at hn
    constructor
    · simp only [Policy.copy, true_iff]
      exact ⟨j, by simp, hs, hj⟩
    · intro j' hj' hs' hf
      rcases List.mem_append.mp hj' with h' | h'
      · exact absurd hf (hn j' h' hs')
      · rw [List.mem_singleton.mp h']; rfl
    · simp only [Policy.copy]
      rw [h.doBcb]; simp [or_and_right, exists_or, hs]
    · intro j' hj' hs' hf
      rcases List.mem_append.mp hj' with h' | h'
      · exact h.bcb j' h' hs' hf
      · rw [List.mem_singleton.mp h', hs] at hs'; simp at hs'
  | confidentiality =>
    rw [hs] at hn
    constructor
    · simp only [Policy.copy]
      rw [h.doBib]; simp [or_and_right, exists_or, hs]
    · intro j' hj' hs' hf
      rcases List.mem_append.mp hj' with h' | h'
      · exact h.bib j' h' hs' hf
      · rw [List.mem_singleton.mp h', hs] at hs'; simp at hs'
    · simp only [Policy.copy, true_iff]
      exact ⟨j, by simp, hs, hj⟩
    · intro j' hj' hs' hf
      rcases List.mem_append.mp hj' with h' | h'
      · exact absurd hf (hn j' h' hs')
      · rw [List.mem_singleton.mp h']; rfl

theorem PolInv.init {js : List Job} {pl : Place} (h : ∀ j ∈ js, ¬ IsFor j.call pl) : PolInv js pl Policy.init := by
  constructor
  · simp only [Policy.init, Bool.false_eq_true, false_iff]
    rintro ⟨j, hj, _, hf⟩; exact h j hj hf
  · intro j hj _ hf; exact absurd hf (h j hj)
  · simp only [Policy.init, Bool.false_eq_true, false_iff]
    rintro ⟨j, hj, _, hf⟩; exact h j hj hf
  · intro j hj _ hf; exact absurd hf (h j hj)

theorem place_eq {js : List Job} {m : Manager} (h : JInv js m) (j : Job) :
    (Fits js j → ∃ m', m.place j.call j.s j.t j.events = (m', true) ∧ JInv (js ++ [j]) m') ∧
    (¬ Fits js j → ∃ m', m.place j.call j.s j.t j.events = (m', false)) := by
  obtain ⟨-, -, -, c4, c5, c6⟩ := create_eq m.root m.policies.length j.call
  have hstep := h.root.step j.call
  by_cases hp : ∃ pl, IsFor j.call pl
  · obtain ⟨pl, hpl⟩ := hp
    have hrole := hpl.2.2.2.2
    have hres := c6 pl hpl
    have hfits : Fits js j ↔ ∀ j' ∈ js, j'.s = j.s → ¬ IsFor j'.call pl := by
      constructor
      · rintro ⟨pl', h1, h2⟩
        rw [IsFor.unique hpl h1]; exact h2
      · intro h2; exact ⟨pl, hpl, h2⟩
    have hroot : m.root.create m.policies.length j.call = ((m.root.create m.policies.length j.call).1,
        some ((idAt m.root pl).getD m.policies.length, (idAt m.root pl).isNone)) := by
      rw [← hres]
    cases hid : idAt m.root pl with
    | none =>
      rw [hid] at hroot hres
      have hnone : ∀ j' ∈ js, ¬ IsFor j'.call pl := by
        intro j' hj' hf
        obtain ⟨id, hi⟩ := (h.root.has pl hrole).mpr ⟨j'.call, List.mem_map_of_mem hj', hf⟩
        rw [hid] at hi; simp at hi
      refine ⟨fun _ => ?_, fun hn => absurd (hfits.mpr (fun j' hj' _ => hnone j' hj')) hn⟩
      refine ⟨⟨(m.root.create m.policies.length j.call).1, (m.policies ++ [Policy.init]).set m.policies.length
        (Policy.init.copy j.s j.t j.events)⟩, ?_, ?_⟩
      · unfold Manager.place
        rw [hroot]
        simp
      · constructor
        · have hc : countAfter m.policies.length (m.root.create m.policies.length j.call).2 = m.policies.length + 1 := by
            rw [hres]; rfl
          rw [hc] at hstep
          simp only [List.map_append, List.map_cons, List.map_nil, List.length_set, List.length_append,
            List.length_cons, List.length_nil]
          exact hstep
        · intro pl' id hr hi
          simp only at hi
          rw [c4 pl' hr] at hi
          by_cases hf : IsFor j.call pl'
          · have e := IsFor.unique hpl hf
            subst e
            rw [if_pos hf, hid] at hi
            have : m.policies.length = id := Option.some.inj hi
            subst this
            refine ⟨Policy.init.copy j.s j.t j.events, by simp, ?_⟩
            exact (PolInv.init hnone).copy hf (fun j' hj' _ => hnone j' hj')
          · rw [if_neg hf] at hi
            obtain ⟨p, hp1, hp2⟩ := h.pol pl' id hr hi
            have hlt := h.root.lt pl' id hr hi
            refine ⟨p, ?_, hp2.other hf⟩
            rw [List.getElem?_set_ne (by omega), List.getElem?_append_left hlt]
            exact hp1
    | some id =>
      rw [hid] at hroot hres
      obtain ⟨p, hp1, hp2⟩ := h.pol pl id hrole hid
      have hlt := h.root.lt pl id hrole hid
      have hplace : m.place j.call j.s j.t j.events =
          if j.s = .confidentiality ∧ p.doBcb = true then (⟨(m.root.create m.policies.length j.call).1, m.policies⟩, false)
          else if j.s = .integrity ∧ p.doBib = true then (⟨(m.root.create m.policies.length j.call).1, m.policies⟩, false)
          else (⟨(m.root.create m.policies.length j.call).1, m.policies.set id (p.copy j.s j.t j.events)⟩, true) := by
        unfold Manager.place
        rw [hroot]
        simp [hp1]
      have hbusy : (j.s = .confidentiality ∧ p.doBcb = true) ∨ (j.s = .integrity ∧ p.doBib = true) ↔
          ¬ ∀ j' ∈ js, j'.s = j.s → ¬ IsFor j'.call pl := by
        rw [hp2.doBcb, hp2.doBib]
        push Not
        constructor
        · rintro (⟨hs, j', h1, h2, h3⟩ | ⟨hs, j', h1, h2, h3⟩)
          · exact ⟨j', h1, by rw [h2, hs], h3⟩
          · exact ⟨j', h1, by rw [h2, hs], h3⟩
        · rintro ⟨j', h1, h2, h3⟩
          cases hs : j.s with
          | confidentiality => exact Or.inl ⟨rfl, j', h1, by rw [h2, hs], h3⟩
          | integrity => exact Or.inr ⟨rfl, j', h1, by rw [h2, hs], h3⟩
      constructor
      · intro hf
        have hn := hfits.mp hf
        have hb : ¬ ((j.s = .confidentiality ∧ p.doBcb = true) ∨ (j.s = .integrity ∧ p.doBib = true)) := by
          rw [hbusy]; exact fun h => h hn
        rw [hplace, if_neg (fun h => hb (Or.inl h)), if_neg (fun h => hb (Or.inr h))]
        refine ⟨_, rfl, ?_⟩
        constructor
        · have hc : countAfter m.policies.length (m.root.create m.policies.length j.call).2 = m.policies.length := by
            rw [hres]; rfl
          rw [hc] at hstep
          simp only [List.map_append, List.map_cons, List.map_nil, List.length_set]
          exact hstep
        · intro pl' id' hr hi
          simp only at hi
          rw [c4 pl' hr] at hi
          by_cases hf' : IsFor j.call pl'
          · have e := IsFor.unique hpl hf'
            subst e
            rw [if_pos hf', hid] at hi
            have : id = id' := Option.some.inj hi
            subst this
            refine ⟨p.copy j.s j.t j.events, ?_, hp2.copy hf' hn⟩
            rw [List.getElem?_set_self hlt]
          · rw [if_neg hf'] at hi
            obtain ⟨p', hp1', hp2'⟩ := h.pol pl' id' hr hi
            refine ⟨p', ?_, hp2'.other hf'⟩
            rw [List.getElem?_set_ne]
            · exact hp1'
            · intro e
              subst e
              exact hf' (by rw [← h.root.inj pl pl' id hrole hr hid hi]; exact hpl)
      · intro hf
        have hn : ¬ ∀ j' ∈ js, j'.s = j.s → ¬ IsFor j'.call pl := fun h => hf (hfits.mpr h)
        rcases hbusy.mpr hn with hb | hb
        · exact ⟨_, by rw [hplace, if_pos hb]⟩
        · have hb' : ¬ (j.s = .confidentiality ∧ p.doBcb = true) := by
            rintro ⟨h1, _⟩
            rw [hb.1] at h1
            simp at h1
          exact ⟨_, by rw [hplace, if_neg hb', if_pos hb]⟩
  · refine ⟨fun ⟨pl, h1, _⟩ => absurd ⟨pl, h1⟩ hp, fun _ => ?_⟩
    have hnone := c5.mpr (fun pl hpl => hp ⟨pl, hpl⟩)
    refine ⟨⟨(m.root.create m.policies.length j.call).1, m.policies⟩, ?_⟩
    unfold Manager.place
    rw [show m.root.create m.policies.length j.call = ((m.root.create m.policies.length j.call).1, none) from by
      rw [← hnone]]

/-- Every step fits what came before. -/
def AllFit (done : List Job) : List Job → Prop
  | [] => True
  | j :: js => Fits done j ∧ AllFit (done ++ [j]) js

theorem jobs_inv (js : List Job) : ∀ (done : List Job) (m : Manager), JInv done m →
    (AllFit done js → ∃ m', m.jobs js = (m', true)) ∧
    (∀ m', m.jobs js = (m', true) → AllFit done js ∧ JInv (done ++ js) m') := by
  induction js with
  | nil =>
    intro done m h
    refine ⟨fun _ => ⟨m, rfl⟩, fun m' hm => ?_⟩
    simp only [Manager.jobs, Prod.mk.injEq, and_true] at hm
    subst hm
    exact ⟨trivial, by simpa using h⟩
  | cons j js ih =>
    intro done m h
    obtain ⟨p1, p2⟩ := place_eq h j
    constructor
    · rintro ⟨hf, hr⟩
      obtain ⟨m', hm, hi⟩ := p1 hf
      simp only [Manager.jobs, hm]
      exact (ih _ _ hi).1 hr
    · intro m' hm
      by_cases hf : Fits done j
      · obtain ⟨m1, hm1, hi⟩ := p1 hf
        simp only [Manager.jobs, hm1] at hm
        obtain ⟨a, b⟩ := (ih _ _ hi).2 m' hm
        exact ⟨⟨hf, a⟩, by simpa using b⟩
      · obtain ⟨m1, hm1⟩ := p2 hf
        simp [Manager.jobs, hm1] at hm

theorem JInv.empty : JInv [] Manager.init := by
  refine ⟨RInv.init, ?_⟩
  intro pl id hr hi
  obtain ⟨c, hc, _⟩ := (RInv.init.has pl hr).mp ⟨id, hi⟩
  simp at hc

/-- The flags that `ValidateAndFinalize` sets stay off. -/
def Off (p : Policy) : Prop := p.bcbPayload = false ∧ p.bibEncrypt = false

theorem place_off {m m' : Manager} {c : Call} {s : Service} {t : Policy} {ev : Nat} {b : Bool}
    (hm : ∀ p ∈ m.policies, Off p) (ht : Off t) (h : m.place c s t ev = (m', b)) : ∀ p ∈ m'.policies, Off p := by
  unfold Manager.place at h
  rcases hc : m.root.create m.policies.length c with ⟨root, _ | ⟨id, isNew⟩⟩
  · rw [hc] at h
    simp only [Prod.mk.injEq] at h
    rw [← h.1]; exact hm
  · rw [hc] at h
    simp only at h
    have hps : ∀ p ∈ (if isNew then m.policies ++ [.init] else m.policies), Off p := by
      intro p hp
      split at hp
      · rcases List.mem_append.mp hp with h' | h'
        · exact hm p h'
        · rw [List.mem_singleton.mp h']; exact ⟨rfl, rfl⟩
      · exact hm p hp
    generalize (if isNew then m.policies ++ [.init] else m.policies) = ps at h hps
    cases hg : ps[id]? with
    | none =>
      rw [hg] at h
      simp only [Prod.mk.injEq] at h
      rw [← h.1]; exact hps
    | some p0 =>
      rw [hg] at h
      simp only at h
      split at h
      · simp only [Prod.mk.injEq] at h; rw [← h.1]; exact hps
      · split at h
        · simp only [Prod.mk.injEq] at h; rw [← h.1]; exact hps
        · simp only [Prod.mk.injEq] at h
          rw [← h.1]
          intro p hp
          rcases List.mem_or_eq_of_mem_set hp with h' | h'
          · exact hps p h'
          · rw [h']; exact ht

theorem jobs_off (js : List Job) (ht : ∀ j ∈ js, Off j.t) : ∀ (m m' : Manager) (b : Bool),
    (∀ p ∈ m.policies, Off p) → m.jobs js = (m', b) → ∀ p ∈ m'.policies, Off p := by
  induction js with
  | nil =>
    intro m m' b hm h
    simp only [Manager.jobs, Prod.mk.injEq] at h
    rw [← h.1]; exact hm
  | cons j js ih =>
    intro m m' b hm h
    simp only [Manager.jobs] at h
    rcases hp : m.place j.call j.s j.t j.events with ⟨m1, b1⟩
    rw [hp] at h
    have h1 := place_off hm (ht j List.mem_cons_self) hp
    cases b1 with
    | false =>
      simp only [Prod.mk.injEq] at h
      rw [← h.1]; exact h1
    | true => exact ih (fun j' hj' => ht j' (List.mem_cons_of_mem _ hj')) m1 m' b h1 h

theorem jobsOfAll_off (rs : List Rule) : ∀ js, jobsOfAll rs = some js → ∀ j ∈ js, Off j.t := by
  induction rs with
  | nil => intro js h; simp [jobsOfAll] at h; simp [h]
  | cons r rs ih =>
    intro js h j hj
    simp only [jobsOfAll] at h
    cases h1 : jobsOf r with
    | none => rw [h1] at h; simp at h
    | some js1 =>
      rw [h1] at h
      simp only at h
      cases h2 : jobsOfAll rs with
      | none => rw [h2] at h; simp at h
      | some js2 =>
        rw [h2] at h
        simp only [Option.some.injEq] at h
        rw [← h] at hj
        rcases List.mem_append.mp hj with h' | h'
        · unfold jobsOf at h1
          cases hr : r.role with
          | none => rw [hr] at h1; simp at h1
          | some role =>
            rw [hr] at h1
            simp only at h1
            cases hs : r.service with
            | none => rw [hs] at h1; simp at h1
            | some s =>
              rw [hs] at h1
              simp only at h1
              cases ht : r.template role.val s with
              | none => rw [ht] at h1; simp at h1
              | some t =>
                rw [ht] at h1
                simp only [Option.some.injEq] at h1
                rw [← h1] at h'
                obtain ⟨c, _, rfl⟩ := List.mem_map.mp h'
                have := ((template_eq r role.val s t).mp ht).2.2
                rw [this]
                cases s <;> exact ⟨rfl, rfl⟩
        · exact ih js2 h2 j h'

/-! ### The steps and the rules -/

/-- The place of a call. -/
def placeOf (c : Call) : Option Place :=
  match parsePat c.sec, parsePat c.src, parsePat c.dst with
  | some a, some b, some d => if c.role < 3 then some ⟨a, b, d, c.role⟩ else none
  | _, _, _ => none

theorem placeOf_eq (c : Call) (pl : Place) : placeOf c = some pl ↔ IsFor c pl := by
  unfold placeOf IsFor
  cases parsePat c.sec with
  | none => simp
  | some a =>
    cases parsePat c.src with
    | none => simp
    | some b =>
      cases parsePat c.dst with
      | none => simp
      | some d =>
        simp only [Option.some.injEq]
        cases pl
        by_cases h : c.role < 3
        · simp only [h, if_true, Option.some.injEq, Place.mk.injEq]
          constructor
          · rintro ⟨rfl, rfl, rfl, rfl⟩; exact ⟨rfl, rfl, rfl, rfl, h⟩
          · rintro ⟨rfl, rfl, rfl, rfl, _⟩; exact ⟨rfl, rfl, rfl, rfl⟩
        · simp only [h, if_false, reduceCtorEq, false_iff]
          rintro ⟨_, _, _, h1, h2⟩
          omega

/-- The places of the steps for a service. -/
def jobPlaces (s : Service) (js : List Job) : List Place :=
  (js.filter (fun j => decide (j.s = s))).filterMap (fun j => placeOf j.call)

theorem jobPlaces_append (s : Service) (js js' : List Job) :
    jobPlaces s (js ++ js') = jobPlaces s js ++ jobPlaces s js' := by
  simp [jobPlaces]

theorem mem_jobPlaces (s : Service) (js : List Job) (pl : Place) :
    pl ∈ jobPlaces s js ↔ ∃ j ∈ js, j.s = s ∧ IsFor j.call pl := by
  unfold jobPlaces
  rw [List.mem_filterMap]
  constructor
  · rintro ⟨j, hj, hp⟩
    rw [List.mem_filter, decide_eq_true_eq] at hj
    exact ⟨j, hj.1, hj.2, (placeOf_eq _ _).mp hp⟩
  · rintro ⟨j, hj, hs, hp⟩
    exact ⟨j, by rw [List.mem_filter, decide_eq_true_eq]; exact ⟨hj, hs⟩, (placeOf_eq _ _).mpr hp⟩

theorem allFit_iff (js : List Job) : ∀ done : List Job,
    AllFit done js ↔ (∀ j ∈ js, ∃ pl, IsFor j.call pl) ∧
      ∀ s, (jobPlaces s js).Nodup ∧ ∀ pl ∈ jobPlaces s js, pl ∉ jobPlaces s done := by
  induction js with
  | nil => intro done; simp [AllFit, jobPlaces]
  | cons j js ih =>
    intro done
    have hcons : ∀ s, jobPlaces s (j :: js) = jobPlaces s [j] ++ jobPlaces s js := fun s =>
      jobPlaces_append s [j] js
    simp only [AllFit]
    rw [ih]
    constructor
    · rintro ⟨⟨pl, hpl, hn⟩, hv, hs⟩
      refine ⟨?_, ?_⟩
      · intro j' hj'
        rcases List.mem_cons.mp hj' with rfl | h'
        · exact ⟨pl, hpl⟩
        · exact hv j' h'
      · intro s
        obtain ⟨h1, h2⟩ := hs s
        rw [hcons]
        by_cases he : j.s = s
        · have hj : jobPlaces s [j] = [pl] := by
            simp [jobPlaces, he, (placeOf_eq _ _).mpr hpl]
          rw [hj]
          refine ⟨?_, ?_⟩
          · rw [List.singleton_append, List.nodup_cons]
            refine ⟨fun hm => ?_, h1⟩
            refine h2 pl hm ?_
            rw [jobPlaces_append, hj]
            simp
          · intro p hp
            rcases List.mem_append.mp hp with h' | h'
            · rw [List.mem_singleton.mp h']
              intro hm
              obtain ⟨j', a, b, c⟩ := (mem_jobPlaces _ _ _).mp hm
              exact hn j' a (by rw [b, he]) c
            · intro hm
              exact h2 p h' (by rw [jobPlaces_append]; exact List.mem_append_left _ hm)
        · have hj : jobPlaces s [j] = [] := by simp [jobPlaces, he]
          rw [hj, List.nil_append]
          refine ⟨h1, fun p hp hm => h2 p hp ?_⟩
          rw [jobPlaces_append]; exact List.mem_append_left _ hm
    · rintro ⟨hv, hs⟩
      obtain ⟨pl, hpl⟩ := hv j List.mem_cons_self
      have hj : jobPlaces j.s [j] = [pl] := by
        simp [jobPlaces, (placeOf_eq _ _).mpr hpl]
      refine ⟨⟨pl, hpl, ?_⟩, fun j' hj' => hv j' (List.mem_cons_of_mem _ hj'), ?_⟩
      · intro j' hj' he hf
        obtain ⟨_, h2⟩ := hs j.s
        refine h2 pl ?_ ((mem_jobPlaces _ _ _).mpr ⟨j', hj', he, hf⟩)
        rw [hcons, hj]; simp
      · intro s
        obtain ⟨h1, h2⟩ := hs s
        rw [hcons] at h1 h2
        rw [List.nodup_append] at h1
        refine ⟨h1.2.1, fun p hp hm => ?_⟩
        rw [jobPlaces_append] at hm
        rcases List.mem_append.mp hm with h' | h'
        · exact h2 p (List.mem_append_right _ hp) h'
        · exact h1.2.2 p h' p hp rfl

/-- What is required of the settings of a rule. -/
def SettingsOk (r : Rule) : Prop :=
  r.role ≠ none ∧ (∃ s, r.service = some s ∧ ∀ p ∈ r.params, Allowed s p) ∧
    ((∃ p ∈ r.params, kek? p ≠ none) ↔ ¬ ∃ p ∈ r.params, key? p ≠ none)

theorem jobsOf_some (r : Rule) (js : List Job) (h : jobsOf r = some js) :
    SettingsOk r ∧ ∃ role s, r.role = some role ∧ r.service = some s ∧
      js = (r.calls role.val).map (fun c => ⟨c, s, target r s, r.events⟩) := by
  unfold jobsOf at h
  cases hr : r.role with
  | none => rw [hr] at h; simp at h
  | some role =>
    rw [hr] at h
    simp only at h
    cases hs : r.service with
    | none => rw [hs] at h; simp at h
    | some s =>
      rw [hs] at h
      simp only at h
      cases ht : r.template role.val s with
      | none => rw [ht] at h; simp at h
      | some t =>
        rw [ht] at h
        simp only [Option.some.injEq] at h
        obtain ⟨h1, h2, h3⟩ := (template_eq r role.val s t).mp ht
        rw [h3] at h
        exact ⟨⟨by rw [hr]; simp, ⟨s, hs, h1⟩, h2⟩, role, s, rfl, rfl, h.symm⟩

theorem jobsOf_ok (r : Rule) (h : SettingsOk r) : ∃ js, jobsOf r = some js := by
  obtain ⟨h1, ⟨s, hs, h2⟩, h3⟩ := h
  unfold jobsOf
  cases hr : r.role with
  | none => exact absurd hr h1
  | some role =>
    rw [hs]
    simp only
    rw [(template_eq r role.val s (target r s)).mpr ⟨h2, h3, rfl⟩]
    exact ⟨_, rfl⟩

theorem calls_places (r : Rule) (role : Fin 3) (hr : r.role = some role) :
    (r.calls role.val).filterMap placeOf = places r := by
  unfold Rule.calls places
  rw [List.filterMap_flatMap]
  congr 1
  funext src
  rw [List.filterMap_map]
  congr 1
  funext dst
  simp only [Function.comp_apply, placeOf, hr]
  have := role.isLt
  cases parsePat r.sec <;> cases parsePat src <;> cases parsePat dst <;> simp

theorem jobPlaces_rule (r : Rule) (js : List Job) (h : jobsOf r = some js) (s : Service) :
    jobPlaces s js = if r.service = some s then places r else [] := by
  obtain ⟨_, role, s', hr, hs, rfl⟩ := jobsOf_some r js h
  unfold jobPlaces
  by_cases he : s' = s
  · subst he
    rw [if_pos hs, ← calls_places r role hr, List.filter_map, List.filterMap_map]
    have : ∀ l : List Call, l.filter (fun _ => true) = l := fun l => List.filter_eq_self.mpr (by simp)
    simp [Function.comp_def, this]
  · rw [if_neg (by rw [hs]; simpa using he), List.filter_map]
    simp [Function.comp_def, he]

theorem jobsOfAll_places (rs : List Rule) : ∀ js, jobsOfAll rs = some js → ∀ s,
    jobPlaces s js = placesOf s rs := by
  induction rs with
  | nil => intro js h s; simp [jobsOfAll] at h; simp [h, jobPlaces, placesOf]
  | cons r rs ih =>
    intro js h s
    simp only [jobsOfAll] at h
    cases h1 : jobsOf r with
    | none => rw [h1] at h; simp at h
    | some js1 =>
      rw [h1] at h
      simp only at h
      cases h2 : jobsOfAll rs with
      | none => rw [h2] at h; simp at h
      | some js2 =>
        rw [h2] at h
        simp only [Option.some.injEq] at h
        rw [← h, jobPlaces_append, jobPlaces_rule r js1 h1, ih js2 h2]
        unfold placesOf
        by_cases he : r.service = some s
        · simp [he]
        · simp [he]

theorem jobsOfAll_calls (rs : List Rule) : ∀ js, jobsOfAll rs = some js → js.map (·.call) = callsOf rs := by
  induction rs with
  | nil => intro js h; simp [jobsOfAll] at h; simp [h, callsOf]
  | cons r rs ih =>
    intro js h
    simp only [jobsOfAll] at h
    cases h1 : jobsOf r with
    | none => rw [h1] at h; simp at h
    | some js1 =>
      rw [h1] at h
      simp only at h
      cases h2 : jobsOfAll rs with
      | none => rw [h2] at h; simp at h
      | some js2 =>
        rw [h2] at h
        simp only [Option.some.injEq] at h
        obtain ⟨_, role, s', hr, hs, hjs⟩ := jobsOf_some r js1 h1
        rw [← h, List.map_append, ih js2 h2, hjs]
        simp [callsOf, hr, Rule.calls, Function.comp_def]

theorem jobsOfAll_mem (rs : List Rule) : ∀ js, jobsOfAll rs = some js →
    (∀ r ∈ rs, ∀ s, r.service = some s → ∀ pl ∈ places r, ∃ j ∈ js, j.s = s ∧ IsFor j.call pl ∧
      j.t = target r s ∧ j.events = r.events) ∧
    ((∀ j ∈ js, ∃ pl, IsFor j.call pl) ↔ ∀ r ∈ rs, ∀ src ∈ r.srcs, ∀ dst ∈ r.dsts,
      parsePat r.sec ≠ none ∧ parsePat src ≠ none ∧ parsePat dst ≠ none) ∧
    (∀ r ∈ rs, SettingsOk r) := by
  induction rs with
  | nil => intro js h; simp [jobsOfAll] at h; simp [h]
  | cons r rs ih =>
    intro js h
    simp only [jobsOfAll] at h
    cases h1 : jobsOf r with
    | none => rw [h1] at h; simp at h
    | some js1 =>
      rw [h1] at h
      simp only at h
      cases h2 : jobsOfAll rs with
      | none => rw [h2] at h; simp at h
      | some js2 =>
        rw [h2] at h
        simp only [Option.some.injEq] at h
        obtain ⟨hok, role, s', hr, hs, hjs⟩ := jobsOf_some r js1 h1
        obtain ⟨i1, i2, i3⟩ := ih js2 h2
        refine ⟨?_, ?_, ?_⟩
        · intro r' hr' s hs' pl hpl
          rcases List.mem_cons.mp hr' with rfl | hr'
          · rw [hs, Option.some.injEq] at hs'
            subst hs'
            rw [← calls_places r' role hr] at hpl
            obtain ⟨c, hc, hp⟩ := List.mem_filterMap.mp hpl
            refine ⟨⟨c, s', target r' s', r'.events⟩, ?_, rfl, (placeOf_eq _ _).mp hp, rfl, rfl⟩
            rw [← h, hjs]
            exact List.mem_append_left _ (List.mem_map_of_mem hc)
          · obtain ⟨j, hj, hrest⟩ := i1 r' hr' s hs' pl hpl
            exact ⟨j, by rw [← h]; exact List.mem_append_right _ hj, hrest⟩
        · rw [← h]
          rw [List.forall_mem_append, List.forall_mem_cons, i2, hjs]
          refine and_congr_left fun _ => ?_
          rw [List.forall_mem_map]
          constructor
          · intro hh src hsrc dst hdst
            obtain ⟨pl, a, b, c, _⟩ := hh ⟨r.sec, src, dst, role.val⟩ (by
              unfold Rule.calls
              exact List.mem_flatMap.mpr ⟨src, hsrc, List.mem_map_of_mem hdst⟩)
            simp only at a b c
            simp [a, b, c]
          · intro hh c hc
            unfold Rule.calls at hc
            obtain ⟨src, hsrc, hc⟩ := List.mem_flatMap.mp hc
            obtain ⟨dst, hdst, rfl⟩ := List.mem_map.mp hc
            obtain ⟨a, b, d⟩ := hh src hsrc dst hdst
            obtain ⟨a', ha⟩ := Option.ne_none_iff_exists'.mp a
            obtain ⟨b', hb⟩ := Option.ne_none_iff_exists'.mp b
            obtain ⟨d', hd⟩ := Option.ne_none_iff_exists'.mp d
            exact ⟨⟨a', b', d', role.val⟩, ha, hb, hd, rfl, role.isLt⟩
        · intro r' hr'
          rcases List.mem_cons.mp hr' with rfl | hr'
          · exact hok
          · exact i3 r' hr'

theorem jobsOfAll_ok (rs : List Rule) (h : ∀ r ∈ rs, SettingsOk r) : ∃ js, jobsOfAll rs = some js := by
  induction rs with
  | nil => exact ⟨[], rfl⟩
  | cons r rs ih =>
    obtain ⟨js1, h1⟩ := jobsOf_ok r (h r List.mem_cons_self)
    obtain ⟨js2, h2⟩ := ih (fun r' hr' => h r' (List.mem_cons_of_mem _ hr'))
    exact ⟨js1 ++ js2, by simp [jobsOfAll, h1, h2]⟩

end Hdtn.BpSecPolicy
