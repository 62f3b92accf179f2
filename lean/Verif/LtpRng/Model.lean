import Verif.Base

/-!
Model of `common/ltp/src/LtpRandomNumberGenerator.cpp`. The hardware-seeded generator `m_rng()` is an
arbitrary 64-bit number `r` supplied with every call.
-/

namespace Hdtn.LtpRng

/-- The generator's own state: `m_birthdayParadoxPreventer_incrementalPart_U32` and
`m_engineIndex`. -/
structure Rng where
  inc : Nat
  engineIndex : Nat
deriving DecidableEq, Repr

/-- Constructor and `SetEngineIndex`, LtpRandomNumberGenerator.cpp:98-104, :197-199. -/
def Rng.init (engineIndex : Nat) : Rng := ⟨1, engineIndex⟩

/-- Next value of the incremental part, LtpRandomNumberGenerator.cpp:120-127 with the mask for 24
bits and :167-174 with the mask for 21 bits. -/
def nextInc (mask inc : Nat) : Nat :=
  let i := (inc + 1) % U32 &&& mask
  (i + (if i = 0 then 1 else 0)) % U32

/-- `GetRandomSession64`, LtpRandomNumberGenerator.cpp:111-130. -/
def session64 (g : Rng) (r : Nat) : Nat × Rng :=
  let n := (r <<< 24) % U64
  let n := n &&& 0xfffffffff000000
  let n := n ||| (g.engineIndex <<< 61) % U64
  (n ||| g.inc, { g with inc := nextInc 0xffffff g.inc })

/-- `GetPingSession64`, LtpRandomNumberGenerator.cpp:133-137. -/
def ping64 (g : Rng) : Nat := 0x1fffffffffffffff ||| (g.engineIndex <<< 61) % U64

/-- `GetRandomSerialNumber64`, LtpRandomNumberGenerator.cpp:143-149. -/
def serial64 (r : Nat) : Nat := ((r <<< 16) % U64 &&& 0x7fffffffffff0000) ||| 1

/-- `GetRandomSession32`, LtpRandomNumberGenerator.cpp:157-175. -/
def session32 (g : Rng) (r : Nat) : Nat × Rng :=
  let n := (r <<< 21) % U64
  let n := n &&& 0xfe00000
  let n := n ||| (g.engineIndex <<< 29) % U64
  ((n ||| g.inc) % U32, { g with inc := nextInc 0x1fffff g.inc })

/-- `GetPingSession32`, LtpRandomNumberGenerator.cpp:179-183. -/
def ping32 (g : Rng) : Nat := (0x1fffffff ||| (g.engineIndex <<< 29) % U64) % U32

/-- `GetRandomSerialNumber32`, LtpRandomNumberGenerator.cpp:189-195. -/
def serial32 (r : Nat) : Nat := (((r <<< 16) % U64 &&& 0x7fff0000) ||| 1) % U32

/-- `GetEngineIndexFromRandomSessionNumber`, LtpRandomNumberGenerator.cpp:209-214. -/
def engineIndexOf (session : Nat) : Nat :=
  let e64 := (session >>> 61) % 256
  let e32 := (session >>> 29) % 256
  (e32 * (if e64 = 0 then 1 else 0) + e64) % 256

/-- `IsPingSession`, LtpRandomNumberGenerator.cpp:215-224. -/
def isPingSession (session : Nat) (is32Bit : Bool) : Bool :=
  if is32Bit then 0x00ffffff &&& session = 0x00ffffff
  else 0xffffffffffffff &&& session = 0xffffffffffffff

/-- The session numbers produced by a sequence of draws, 64-bit. -/
def sessions64 (g : Rng) : List Nat → List Nat
  | [] => []
  | r :: rs => (session64 g r).1 :: sessions64 (session64 g r).2 rs

/-- The session numbers produced by a sequence of draws, 32-bit. -/
def sessions32 (g : Rng) : List Nat → List Nat
  | [] => []
  | r :: rs => (session32 g r).1 :: sessions32 (session32 g r).2 rs

end Hdtn.LtpRng
