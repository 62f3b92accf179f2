import Verif.Router.Model
import Verif.Cgr.Spec

/-!
What links, contacts and routes are, told by what happened and by the messages of the router.
-/

namespace Hdtn.Router.Spec

open Hdtn.Router

/-- What one hears about a link. -/
def hearLink (i : Nat) (before : Bool) : Msg → Bool
  | .link j up => if j = i then up else before
  | _ => before

/-- What ingress and storage last heard about a link; it is down before they hear anything. -/
def announced (i : Nat) (l : List Msg) : Bool := l.foldl (hearLink i) false

/-- What one hears about the schedule of a link. -/
def hearSchedule (i : Nat) (before : Bool) : Msg → Bool
  | .schedule j _ up => if j = i then up else before
  | _ => before

/-- What egress last heard about the schedule of a link. -/
def scheduled (i : Nat) (l : List Msg) : Bool := l.foldl (hearSchedule i) false

/-- What one hears about the route to a destination. -/
def hearRoute (d : Nat) (before : Option Nat) : Msg → Option Nat
  | .route d' hop => if d' = d then hop else before
  | _ => before

/-- The next hop for a destination that egress last heard of. -/
def routed (d : Nat) (l : List Msg) : Option Nat := l.foldl (hearRoute d) none

/-- Each message about a link tells something new. -/
def NewsOnly (i : Nat) (l : List Msg) : Prop :=
  ∀ before after up, l = before ++ Msg.link i up :: after → announced i before ≠ up

/-- What an action tells about whether a link works. -/
def works1 (i : Nat) (w : Option Bool) : Act → Option Bool
  | .init l => (l.find? (·.1 == i)).map fun p => !p.2.2
  | .physical j up => if j = i then w.map fun _ => up else w
  | _ => w

/-- Whether a link works, by the first and the later messages of egress; `none` if there is no such link. -/
def works (i : Nat) (l : List (Nat × Act)) : Option Bool := l.foldl (fun w a => works1 i w a.2) none

/-- The contacts of the plan from `me` to `hop` do not touch each other, and none ends before it starts. -/
def Apart (me hop : Nat) (plan : List Planned) : Prop :=
  (∀ c ∈ plan, c.source = me → c.dest = hop → c.start < c.stop) ∧
  plan.Pairwise fun a b => a.source = me → b.source = me → a.dest = hop → b.dest = hop → a.stop < b.start ∨ b.stop < a.start

/-- The plan, whose times count from `epoch`, has a contact from `me` to `hop` at the time `now`. -/
def InContact (me hop epoch : Nat) (plan : List Planned) (now : Nat) : Prop :=
  ∃ c ∈ plan, c.source = me ∧ c.dest = hop ∧ epoch + c.start * 1000000 ≤ now ∧ now < epoch + c.stop * 1000000

/-- Neither a contact plan is loaded nor a link set by a user. -/
def Undisturbed (acts : List (Nat × Act)) : Prop :=
  ∀ a ∈ acts, (∀ l, a.2 ≠ .load l) ∧ ∀ i up, a.2 ≠ .api i up

/-- What an action tells about the outduct for a next hop. -/
def outductTo1 (hop : Nat) (before : Option Nat) : Act → Option Nat
  | .init l => (l.reverse.find? (·.2.1 == hop)).map (·.1)
  | _ => before

/-- The outduct for a next hop, by the first message of egress: the last one to this next hop. -/
def outductTo (hop : Nat) (acts : List (Nat × Act)) : Option Nat := acts.foldl (fun x a => outductTo1 hop x a.2) none

/-- No neighbour that is taken to have no storage tells so again. -/
def NoRepeat (C : Config) (acts : List (Nat × Act)) : Prop :=
  ∀ before t n after, acts = before ++ (t, .depleted n) :: after → ∀ s, run C start before = some s →
    ∀ i, s.index n = some i → ∀ o, s.outducts i = some o → o.storage = true

/-- This plan was loaded at the time `t0`, after the outducts were known, and no plan after it. -/
def LastPlan (acts : List (Nat × Act)) (t0 : Nat) (plan : List Planned) : Prop :=
  ∃ before after, acts = before ++ (t0, .load plan) :: after ∧ (∃ t l, (t, Act.init l) ∈ before) ∧ ∀ a ∈ after, ∀ l, a.2 ≠ .load l

/-- The whole seconds from the start of the times of a plan loaded at `t0` to `now`. -/
def seconds (C : Config) (t0 now : Nat) : Nat := now / 1000000 - (if C.unix then 0 else t0) / 1000000

/-- A contact that does not have to be avoided: not one of this node, or one to a neighbour whose link is up or which is not now. -/
def available (me : Nat) (outduct : Nat → Option Nat) (msgs : List Msg) (t : Nat) (c : Planned) : Bool :=
  c.source != me || match outduct c.dest with
    | none => false
    | some i => announced i msgs || !(decide (c.start ≤ t) && decide (t ≤ c.stop))

/-- The contacts of a plan that do not have to be avoided. -/
def contactsNow (me : Nat) (outduct : Nat → Option Nat) (msgs : List Msg) (t : Nat) (plan : List Planned) : List Cgr.Contact :=
  (plan.filter (available me outduct msgs t)).map Planned.toCgr

/-- A next hop on a way that arrives first; none if there is no way. -/
def Best (plan : List Cgr.Contact) (me : Nat) (t : Int) (d : Nat) (hop : Option Nat) : Prop :=
  (hop = none ↔ ¬ ∃ cs, Cgr.Spec.Journey plan me t cs ∧ Cgr.Spec.endNode me cs = d) ∧
  ∀ n, hop = some n → ∃ c cs, c.dst = n ∧ Cgr.Spec.Journey plan me t (c :: cs) ∧ Cgr.Spec.endNode me (c :: cs) = d ∧
    ∀ cs', Cgr.Spec.Journey plan me t cs' → Cgr.Spec.endNode me cs' = d → Cgr.Spec.arrival t (c :: cs) ≤ Cgr.Spec.arrival t cs'

/-- The times of a plan are such that no arrival is beyond what 64 bits hold. -/
def Bounded (plan : List Planned) : Prop := ∀ c ∈ plan, c.start + c.owlt < 2 ^ 63 - 1 ∧ c.stop + c.owlt < 2 ^ 63

end Hdtn.Router.Spec
