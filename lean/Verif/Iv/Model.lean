import Verif.Base

/-!
Initialization vectors: `common/bpsec/src/InitializationVectors.cpp`.
-/

namespace Hdtn.Iv

/-- The bytes of a number in memory, least significant first (the build is for little endian
machines). -/
def toLe : Nat → Nat → Bytes
  | 0, _ => []
  | n + 1, v => UInt8.ofNat (v % 256) :: toLe n (v / 256)

/-- `InitializationVector12Byte` and `InitializationVector16Byte`: `m_timePart` and
`m_counterPart`. -/
structure Vector where
  time : Nat
  counter : Nat
  deriving DecidableEq, Repr

/-- The bytes of the counter: 4 of the short vectors, 8 of the long ones. -/
def counterBytes (short : Bool) : Nat := if short then 4 else 8

/-- The constructor (InitializationVectors.cpp:40-42, :59-61). -/
def Vector.start (time : Nat) : Vector := ⟨time, 0⟩

/-- `Serialize` (InitializationVectors.cpp:44-49, :63-65). -/
def Vector.serialize (short : Bool) (v : Vector) : Bytes :=
  toLe 8 v.time ++ toLe (counterBytes short) v.counter

/-- `Increment` (InitializationVectors.cpp:50-53, :66-69). -/
def Vector.increment (short : Bool) (v : Vector) : Vector :=
  let c := (v.counter + 1) % 256 ^ counterBytes short
  ⟨(v.time + if c = 0 then 1 else 0) % 2 ^ 64, c⟩

/-- `InitializationVectorsForOneThread`: `m_iv12` and `m_iv16`. -/
structure Gen where
  short : Vector
  long : Vector
  deriving DecidableEq, Repr

/-- `MIN_DIFF_MICROSECONDS` (InitializationVectors.h). -/
def minDiff : Nat := 100000

/-- `Create` (InitializationVectors.cpp:76-101): `last` is `staticLastTimeMicroseconds`, `clock` the
readings of the clock in the loop, which ends at the first one that is late enough.  `none`: it has
not ended.  The lock makes calls run one after the other. -/
def create (last : Nat) : List Nat → Option Nat
  | [] => none
  | t :: clock =>
    if t > last then
      if t - last ≥ minDiff then some t else create last clock
    else create last clock

/-- `SerializeAndIncrement` (InitializationVectors.cpp:103-114). -/
def Gen.next (g : Gen) (short : Bool) : Gen × Bytes :=
  if short then ({ g with short := g.short.increment true }, g.short.serialize true)
  else ({ g with long := g.long.increment false }, g.long.serialize false)

/-- A running process: `staticLastTimeMicroseconds`, the objects that `Create` has made, and the
vectors they have issued, with the index of the object and the length asked for. -/
structure Process where
  last : Nat
  gens : List Gen
  issued : List (Nat × Bool × Bytes)
  deriving Repr

/-- The start of a process. -/
def Process.init : Process := ⟨0, [], []⟩

/-- What happens in a process: a call of `Create` with the readings of the clock, or one of
`SerializeAndIncrement` on an object. -/
inductive Event where
  | create (clock : List Nat)
  | next (i : Nat) (short : Bool)

/-- One event. -/
def Process.step (p : Process) : Event → Process
  | .create clock =>
    match Iv.create p.last clock with
    | none => p
    | some t => { p with last := t, gens := p.gens ++ [⟨.start t, .start t⟩] }
  | .next i short =>
    match p.gens[i]? with
    | none => p
    | some g =>
      { p with
        gens := p.gens.set i (g.next short).1
        issued := p.issued ++ [(i, short, (g.next short).2)] }

/-- Several events, from the start. -/
def Process.run (es : List Event) : Process := es.foldl Process.step .init

end Hdtn.Iv
