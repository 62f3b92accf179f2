import Verif.DtnTime.Model

/-!
# What a time of DTN stands for: nanoseconds since the start of the year 2000
-/

namespace Hdtn.DtnTime

def DtnTime.nanos (d : DtnTime) : Nat := d.sec * 1000000000 + d.nano

/-- A time that the protocol allows: seconds of 64 bits, less than one second of nanoseconds. -/
def DtnTime.proper (d : DtnTime) : Prop := d.sec < 2 ^ 64 ∧ d.nano < 1000000000

/-- A time of the clock since the start of the year 2000, with 64 bits of seconds. -/
def covered (t : Int) : Prop := 0 ≤ t ∧ t < 2 ^ 64 * 1000000

end Hdtn.DtnTime
