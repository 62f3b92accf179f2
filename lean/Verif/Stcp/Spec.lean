import Verif.Stcp.Model

/-!
The format of STCP, and what is meant by the bytes, calls and bundles of a history.
-/

namespace Hdtn.Stcp.Spec

/-- `Units bs w`: `w` is a stream of data units, each a bundle (not empty) after its size in four
bytes, most significant first, with keepalives (a size of zero) anywhere between. -/
inductive Units : List Bytes → Bytes → Prop
  | nil : Units [] []
  | keepAlive {bs : List Bytes} {w : Bytes} (h : Units bs w) : Units bs ([0, 0, 0, 0] ++ w)
  | unit {b : Bytes} {bs : List Bytes} {size w : Bytes} (h0 : b ≠ []) (h1 : size.length = 4)
      (h2 : beValue size = b.length) (h : Units bs w) : Units (b :: bs) (size ++ b ++ w)

/-- The bytes that arrive in a history of the sink. -/
def arrived : List SinkEvent → Bytes
  | [] => []
  | .arrive bs :: es => bs ++ arrived es
  | _ :: es => arrived es

/-- The bundles the sink has put out: given to its user or waiting to be. -/
def received (s : Sink) : List Bytes := s.delivered ++ s.ring

/-- The bundles that precede the first one over the limit. -/
def upToLimit (cfg : Cfg) (bs : List Bytes) : List Bytes :=
  bs.takeWhile (fun b => decide (b.length ≤ cfg.maxSize))

/-- Nothing is left to do: the user has taken all bundles, no call is posted, and the bytes that
have arrived do not complete a read. -/
def AtRest (s : Sink) : Prop :=
  s.ring = [] ∧ s.posts = 0 ∧
  match s.phase with
  | .room => True
  | .size => s.buf.length < 4
  | .data n => s.buf.length < n

/-- The calls of `Forward` in a history that took the bundle, in order. -/
def taken (maxUnacked : Nat) : Source → List SourceEvent → List (Bytes × Nat)
  | _, [] => []
  | s, .forward b tag :: es =>
    if (s.forward maxUnacked b tag).2 then
      (b, tag) :: taken maxUnacked (s.step maxUnacked (.forward b tag)) es
    else taken maxUnacked (s.step maxUnacked (.forward b tag)) es
  | s, e :: es => taken maxUnacked (s.step maxUnacked e) es

/-- The bundles in a queue. -/
def bundles : List Item → List (Bytes × Nat)
  | [] => []
  | .bundle b tag :: is => (b, tag) :: bundles is
  | .keepAlive :: is => bundles is

/-- Those of some bundles that are not empty. -/
def nonempty (l : List (Bytes × Nat)) : List Bytes := (l.map (·.1)).filter (fun b => decide (b ≠ []))

/-- The history has no failing write. -/
def NoFailure (es : List SourceEvent) : Prop := ∀ k, SourceEvent.broke k ∉ es

/-- What became of a bundle that left the queue: reported sent, reported failed (unless empty), or
written without a report. -/
inductive Fate where
  | sent
  | failed
  | silent
  deriving DecidableEq

/-- The report of a fate. -/
def report : (Bytes × Nat) × Fate → List Note
  | ((_, tag), .sent) => [.sent tag]
  | ((b, tag), .failed) => if b = [] then [] else [.failed b tag]
  | (_, .silent) => []

end Hdtn.Stcp.Spec
