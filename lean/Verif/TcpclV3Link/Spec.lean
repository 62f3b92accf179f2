import Verif.TcpclV3Link.Model

/-! # What is expected of a TCPCLv3 link -/

namespace Hdtn.TcpclV3Link

/-- How many bundles are accepted and not yet reported as sent. -/
def unacked (e : End) : Nat := e.accepted.length - e.success.length

/-- The active side connects again only when all that was accepted is reported as sent; in
particular, when it does not connect again at all. -/
def Calm (c : Cfg) : Sys → List Act → Prop
  | _, [] => True
  | s, e :: es =>
    (e = .reconnect → unacked s.a = 0 ∧ unacked s.b = 0) ∧ Calm c (s.step c e) es

/-- No write failed at that side, and its sender is not deleted. -/
def Sound (e : End) : Prop := e.error = false

/-- Everything the entity made is with TCP. -/
def Flushed (e : End) : Prop := e.pend = [] ∧ e.out = []

/-- Both can send and hear. -/
def Able (s : Sys) : Prop :=
  s.a.error = false ∧ s.a.deaf = false ∧ s.b.error = false ∧ s.b.deaf = false

/-- The event does not forward an empty bundle. -/
def Ev.nonempty : Ev → Prop
  | .forward _ d => d ≠ []
  | _ => True

/-- The same at either side. -/
def Act.nonempty : Act → Prop
  | .left e => e.nonempty
  | .right e => e.nonempty
  | .reconnect => True

/-- The event moves something on: an element is posted, written or received. -/
def Ev.moves (s : Sys) : Ev → Prop
  | .post => s.a.pend ≠ []
  | .write => s.a.out ≠ []
  | .recv => s.a.deaf = false ∧ ∃ m l, s.ba = m :: l ∧ ∀ f t, m ≠ .data f t []
  | _ => False

/-- The same at either side. -/
def Act.moves (s : Sys) : Act → Prop
  | .left e => e.moves s
  | .right e => e.moves s.swap
  | .reconnect => False

/-- A history in which things only move on. -/
def Moving (c : Cfg) : Sys → List Act → Prop
  | _, [] => True
  | s, e :: es => e.moves s ∧ Moving c (s.step c e) es

end Hdtn.TcpclV3Link
