import Verif.EncapRepeater.Model
import Verif.Encap.Spec

/-!
What is expected of the repeater.
-/

namespace Hdtn.EncapRepeater.Spec

open Hdtn.EncapRepeater

/-- The packets that came from stream `i`. -/
def came (r : Repeater) (i : Bool) : List Bytes := (r.dir i).got

/-- What was written for stream `i`, on the other stream, in order. -/
def wentOut (r : Repeater) (i : Bool) : Bytes := ((r.dir i).wire.map Prod.snd).flatten

/-- The same, each write by itself. -/
def writes (r : Repeater) (i : Bool) : List Bytes := (r.dir i).wire.map Prod.snd

/-- The packets from stream `i` that wait. -/
def waiting (r : Repeater) (i : Bool) : List Bytes := (r.dir i).queue

/-- The packets that stream `i` brought in these events. -/
def brought (i : Bool) : List Ev → List Bytes
  | [] => []
  | .packet j p :: evs => if j = i then p :: brought i evs else brought i evs
  | _ :: evs => brought i evs

/-- Is stream `i` connected after an event, if it was or was not before? -/
def upAfter (i : Bool) (before : Bool) : Ev → Bool
  | .connection j u => if j = i then u else before
  | _ => before

/-- Stream `i` is connected. -/
def up (i : Bool) (evs : List Ev) : Bool := evs.foldl (upAfter i) false

/-- No write on stream `i` fails. -/
def NoError (i : Bool) (evs : List Ev) : Prop := ∀ k, Ev.written i (some k) ∉ evs

/-- Stream `i` is connected at most once. -/
def Once (i : Bool) (evs : List Ev) : Prop := evs.countP (fun e => e == Ev.connection i true) ≤ 1

end Hdtn.EncapRepeater.Spec
