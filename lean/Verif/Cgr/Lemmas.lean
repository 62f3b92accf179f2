import Verif.Cgr.Spec

/-!
Journeys, and the invariant of the search.
-/

namespace Hdtn.Cgr

open Spec

theorem arrivalVia_eq (t : Int) (c : Contact) : arrivalVia t c = arrive t c := by
  unfold arrivalVia arrive
  split <;> omega

theorem arrive_mono {t t' : Int} (c : Contact) (h : t ≤ t') : arrive t c ≤ arrive t' c := by
  unfold arrive; omega

theorem le_arrive {t : Int} {c : Contact} (h : 0 ≤ c.owlt) : t ≤ arrive t c := by
  unfold arrive; omega

theorem arrival_append (t : Int) (p q : List Contact) :
    arrival t (p ++ q) = arrival (arrival t p) q := by
  induction p generalizing t with
  | nil => rfl
  | cons c p ih => exact ih _

theorem endNode_append (a : Nat) (p q : List Contact) :
    endNode a (p ++ q) = endNode (endNode a p) q := by
  induction p generalizing a with
  | nil => rfl
  | cons c p ih => exact ih _

theorem endNode_snoc (a : Nat) (p : List Contact) (c : Contact) : endNode a (p ++ [c]) = c.dst := by
  rw [endNode_append]; rfl

theorem arrival_snoc (t : Int) (p : List Contact) (c : Contact) :
    arrival t (p ++ [c]) = arrive (arrival t p) c := by
  rw [arrival_append]; rfl

theorem journey_append (plan : List Contact) (a : Nat) (t : Int) (p q : List Contact) :
    Journey plan a t (p ++ q) ↔
      Journey plan a t p ∧ Journey plan (endNode a p) (arrival t p) q := by
  induction p generalizing a t with
  | nil => simp [Journey, endNode, arrival]
  | cons c p ih =>
    simp only [List.cons_append, Journey, endNode, arrival, ih]
    constructor
    · rintro ⟨h1, h2, h3, h4, h5, h6⟩; exact ⟨⟨h1, h2, h3, h4, h5⟩, h6⟩
    · rintro ⟨⟨h1, h2, h3, h4, h5⟩, h6⟩; exact ⟨h1, h2, h3, h4, h5, h6⟩

theorem journey_snoc (plan : List Contact) (a : Nat) (t : Int) (p : List Contact) (c : Contact) :
    Journey plan a t (p ++ [c]) ↔ Journey plan a t p ∧ c ∈ plan ∧ Usable c ∧ c.frm = endNode a p ∧
      arrival t p < c.stop := by
  rw [journey_append]
  simp [Journey]

theorem journey_mem {plan : List Contact} {a : Nat} {t : Int} {p : List Contact}
    (h : Journey plan a t p) : ∀ c ∈ p, c ∈ plan := by
  induction p generalizing a t with
  | nil => simp
  | cons d p ih =>
    obtain ⟨h1, _, _, _, h5⟩ := h
    intro c hc
    rcases List.mem_cons.mp hc with rfl | hc
    · exact h1
    · exact ih h5 c hc

theorem le_arrival {plan : List Contact} (hc : Causal plan) {a : Nat} {t : Int} {p : List Contact}
    (h : Journey plan a t p) : t ≤ arrival t p := by
  induction p generalizing a t with
  | nil => exact Int.le_refl _
  | cons d p ih =>
    obtain ⟨h1, _, _, _, h5⟩ := h
    exact Int.le_trans (le_arrive (hc d h1)) (ih h5)

theorem nodesOf_snoc (a : Nat) (p : List Contact) (c : Contact) :
    nodesOf a (p ++ [c]) = nodesOf a p ++ [c.dst] := by
  simp [nodesOf]

theorem endNode_mem (a : Nat) (p : List Contact) : endNode a p ∈ nodesOf a p := by
  induction p generalizing a with
  | nil => simp [endNode, nodesOf]
  | cons c p ih =>
    have := ih c.dst
    simp only [nodesOf, List.map_cons, endNode] at this ⊢
    exact List.mem_cons_of_mem _ this

/-- What the working area of a contact says about the way the contact was reached. -/
structure Info (plan : List Contact) (source : Nat) (now : Int) (w : Work) (p : List Contact) :
    Prop where
  nodes : w.nodes = nodesOf source p
  arrival : w.arrival = arrival now p
  journey : Journey plan source now p
  nodup : (nodesOf source p).Nodup

/-- The way back from a settled contact to the root. -/
inductive Chain (plan : List Contact) (source : Nat) (now : Int) (P : Ref → Prop)
    (work : Ref → Work) : Ref → List Contact → Prop
  | root : Info plan source now (work .root) [] → P .root →
      Chain plan source now P work .root []
  | leg {i : Nat} {c : Contact} {r : Ref} {p : List Contact} : plan[i]? = some c → P (.leg i) →
      (work (.leg i)).pred = some r → Chain plan source now P work r p →
      Info plan source now (work (.leg i)) (p ++ [c]) →
      Chain plan source now P work (.leg i) (p ++ [c])

theorem Chain.info {plan source now P work r p} (h : Chain plan source now P work r p) :
    Info plan source now (work r) p := by
  cases h <;> assumption

theorem Chain.settled {plan source now P work r p} (h : Chain plan source now P work r p) :
    P r := by
  cases h <;> assumption

/-- Every node of the way is the far end of some settled contact of the way, reached earlier. -/
theorem Chain.earlier {plan source now P work r p} (hc : Causal plan)
    (h : Chain plan source now P work r p) {y : Nat} (hy : y ∈ nodesOf source p) :
    ∃ r' p', Chain plan source now P work r' p' ∧ endNode source p' = y ∧
      arrival now p' ≤ arrival now p := by
  induction h with
  | root h1 h2 =>
    refine ⟨.root, [], .root h1 h2, ?_, Int.le_refl _⟩
    simpa [nodesOf, endNode, eq_comm] using hy
  | @leg i c r p h1 h2 h3 h4 h5 ih =>
    rw [nodesOf_snoc, List.mem_append] at hy
    rcases hy with hy | hy
    · obtain ⟨r', p', a1, a2, a3⟩ := ih hy
      refine ⟨r', p', a1, a2, Int.le_trans a3 ?_⟩
      rw [arrival_snoc]
      exact le_arrive (hc c (List.mem_of_getElem? h1))
    · refine ⟨.leg i, p ++ [c], .leg h1 h2 h3 h4 h5, ?_, Int.le_refl _⟩
      rw [endNode_snoc]
      simpa [eq_comm] using hy

/-- Settled contacts do not change, so the ways do not. -/
theorem Chain.mono {plan source now} {P Q : Ref → Prop} {work work' : Ref → Work} {r p}
    (hPQ : ∀ x, P x → Q x) (hw : ∀ x, P x → (work' x).arrival = (work x).arrival ∧
      (work' x).pred = (work x).pred ∧ (work' x).nodes = (work x).nodes)
    (h : Chain plan source now P work r p) : Chain plan source now Q work' r p := by
  induction h with
  | root h1 h2 =>
    refine .root ?_ (hPQ _ h2)
    obtain ⟨a, _, b⟩ := hw _ h2
    exact ⟨by rw [b, h1.nodes], by rw [a, h1.arrival], h1.journey, h1.nodup⟩
  | leg h1 h2 h3 h4 h5 ih =>
    obtain ⟨a, a', b⟩ := hw _ h2
    exact .leg h1 (hPQ _ h2) (by rw [a', h3]) ih
      ⟨by rw [b, h5.nodes], by rw [a, h5.arrival], h5.journey, h5.nodup⟩

/-- Chains are determined by their last contact. -/
theorem Chain.unique {plan source now P work r p} (h : Chain plan source now P work r p)
    {p' : List Contact} (h' : Chain plan source now P work r p') : p' = p := by
  induction h generalizing p' with
  | root => cases h'; rfl
  | leg h1 h2 h3 h4 h5 ih =>
    cases h' with
    | leg a1 a2 a3 a4 a5 =>
      rw [h1] at a1; cases a1
      rw [h3] at a3; cases a3
      rw [ih a4]

/-- A contact that has been reached. -/
def Labelled (plan : List Contact) (source : Nat) (now : Int) (P : Ref → Prop)
    (work : Ref → Work) (i : Nat) (c : Contact) : Prop :=
  ∃ r p, (work (.leg i)).pred = some r ∧ Chain plan source now P work r p ∧
    Info plan source now (work (.leg i)) (p ++ [c])

theorem Labelled.mono {plan source now} {P Q : Ref → Prop} {work work' : Ref → Work} {i c}
    (hPQ : ∀ x, P x → Q x) (hw : ∀ x, P x → (work' x).arrival = (work x).arrival ∧
      (work' x).pred = (work x).pred ∧ (work' x).nodes = (work x).nodes)
    (hi : (work' (.leg i)).arrival = (work (.leg i)).arrival ∧
      (work' (.leg i)).pred = (work (.leg i)).pred ∧
      (work' (.leg i)).nodes = (work (.leg i)).nodes)
    (h : Labelled plan source now P work i c) : Labelled plan source now Q work' i c := by
  obtain ⟨r, p, h1, h2, h3⟩ := h
  obtain ⟨a, a', b⟩ := hi
  exact ⟨r, p, by rw [a', h1], h2.mono hPQ hw,
    ⟨by rw [b, h3.nodes], by rw [a, h3.arrival], h3.journey, h3.nodup⟩⟩

theorem Labelled.usable {plan source now P work i c}
    (h : Labelled plan source now P work i c) : Usable c := by
  obtain ⟨r, p, _, _, h3⟩ := h
  exact ((journey_snoc _ _ _ _ _).mp h3.journey).2.2.1

theorem Labelled.lt_max {plan source now P work i c} (hT : InTime plan source now)
    (h : Labelled plan source now P work i c) : (work (.leg i)).arrival < maxTime := by
  obtain ⟨r, p, _, _, h3⟩ := h
  rw [h3.arrival]
  exact hT.2 _ h3.journey

/-- Going on from a settled contact by contact `j` has been taken into account. -/
def Seen (source : Nat) (now : Int) (work : Ref → Work) (p : List Contact) (j : Nat)
    (c : Contact) : Prop :=
  Usable c → arrival now p < c.stop → c.dst ∈ nodesOf source p ∨
    (work (.leg j)).arrival ≤ arrive (arrival now p) c

/-- The invariant of the search.  `P`: the settled contacts; `R`: those all of whose
continuations have been looked at. -/
structure Inv (plan : List Contact) (source : Nat) (now : Int) (dest : Nat) (P R : Ref → Prop)
    (s : Search) : Prop where
  rootChain : Chain plan source now P s.work .root []
  each : ∀ i c, plan[i]? = some c →
    ((s.work (.leg i)).arrival = maxTime ∧ ¬ P (.leg i)) ∨ Labelled plan source now P s.work i c
  sorted : ∀ r i c, P r → plan[i]? = some c → ¬ P (.leg i) →
    (s.work r).arrival ≤ (s.work (.leg i)).arrival
  seen : ∀ r p, R r → Chain plan source now P s.work r p → ∀ j c, plan[j]? = some c →
    c.frm = endNode source p → Seen source now s.work p j c
  finLe : ∀ i c, plan[i]? = some c → c.dst = dest → s.finTime ≤ (s.work (.leg i)).arrival
  finMax : s.finTime ≤ maxTime
  finNone : s.final = none → s.finTime = maxTime
  finSome : ∀ f, s.final = some f → ∃ c, plan[f]? = some c ∧ c.dst = dest ∧
    Labelled plan source now P s.work f c ∧ (s.work (.leg f)).arrival = s.finTime

end Hdtn.Cgr
