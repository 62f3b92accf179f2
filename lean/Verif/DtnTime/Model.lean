import Verif.Base

/-!
# Times of DTN and of the clock (`common/util/src/TimestampUtil.cpp`)

A `boost::posix_time::ptime` is the number of its microseconds since the start of the year 2000
(simplification: the special values, and the bounds of boost's own counters, are left out; boost is taken to
be built without nanoseconds).  The serialization of these times is in the modules Sdnv and AdminRecord6.
-/

namespace Hdtn.DtnTime

/-- `dtn_time_t` (TimestampUtil.cpp:137-139): `uint64_t` seconds, `uint32_t` nanoseconds. -/
structure DtnTime where
  sec : Nat
  nano : Nat
  deriving DecidableEq, Repr

/-- A conversion of a signed number to `uint64_t` or `uint32_t` (TimestampUtil.cpp:231-232). -/
def toUnsigned (bits : Nat) (x : Int) : Nat := (x % (2 ^ bits : Int)).toNat

/-- `PtimeToDtnTime` (TimestampUtil.cpp:228-234): `total_seconds` and `fractional_seconds` divide with
truncation towards zero. -/
def ofPtime (t : Int) : DtnTime :=
  ⟨toUnsigned 64 (t.tdiv 1000000), toUnsigned 32 (t.tmod 1000000 * 1000)⟩

/-- `DtnTimeToPtimeLossy` (TimestampUtil.cpp:218-226). -/
def toPtime (d : DtnTime) : Int := (d.sec : Int) * 1000000 + ((d.nano / 1000 : Nat) : Int)

/-- `operator<` (TimestampUtil.cpp:159-164). -/
def lt (a b : DtnTime) : Bool :=
  if a.sec = b.sec then a.nano < b.nano else a.sec < b.sec

end Hdtn.DtnTime
