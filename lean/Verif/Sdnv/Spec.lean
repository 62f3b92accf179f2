import Verif.Base

/-!
What an SDNV is (RFC 6256), independent of the code: a non-empty byte string in which every byte but
the last has its top bit set and the last has it clear, denoting the number whose base-128 digits are
the low seven bits of the bytes, most significant first.
-/

namespace Hdtn.Sdnv.Spec

/-- The number denoted by the low seven bits of each byte, most significant first. -/
def value : Bytes → Nat
  | [] => 0
  | b :: bs => (b.toNat % 128) * 128 ^ bs.length + value bs

/-- Every byte but the last has the top bit set, the last one has it clear. -/
def WellFormed : Bytes → Prop
  | [] => False
  | [b] => b.toNat < 128
  | b :: bs => 128 ≤ b.toNat ∧ WellFormed bs

/-- Least `k ≥ 1` with `v < 128 ^ k`: the length of the shortest SDNV of `v`. -/
def IsMinimalLength (v k : Nat) : Prop :=
  1 ≤ k ∧ v < 128 ^ k ∧ ∀ j, 1 ≤ j → v < 128 ^ j → k ≤ j

instance : (bs : Bytes) → Decidable (WellFormed bs)
  | [] => isFalse id
  | [b] => inferInstanceAs (Decidable (b.toNat < 128))
  | _ :: b :: bs =>
    have := instDecidableWellFormed (b :: bs)
    inferInstanceAs (Decidable (_ ∧ _))

end Hdtn.Sdnv.Spec

namespace Hdtn.Sdnv.Spec

/-- `p` is a complete SDNV of at most ten bytes whose value `v` fits in 64 bits. -/
def IsSdnv64 (p : Bytes) (v : Nat) : Prop :=
  p.length ≤ 10 ∧ WellFormed p ∧ value p = v ∧ v < 2 ^ 64

/-- `p` is a complete SDNV of at most five bytes whose value `v` fits in 32 bits. -/
def IsSdnv32 (p : Bytes) (v : Nat) : Prop :=
  p.length ≤ 5 ∧ WellFormed p ∧ value p = v ∧ v < 2 ^ 32

/-- The buffer is the concatenation of SDNVs with the given values, followed by `rest`. -/
inductive Split : Bytes → List Nat → Bytes → Prop
  | nil (rest : Bytes) : Split rest [] rest
  | cons {p : Bytes} {v : Nat} {buf : Bytes} {vs : List Nat} {rest : Bytes} :
    IsSdnv64 p v → Split buf vs rest → Split (p ++ buf) (v :: vs) rest

/-- Fewer than ten bytes, all with the top bit set: an SDNV may have been cut off here. -/
def CutOff (bs : Bytes) : Prop := bs.length < 10 ∧ ∀ b ∈ bs, 128 ≤ b.toNat

/-- Neither a cut-off SDNV nor one that can be read: no continuation starts with a 64-bit SDNV. -/
def Malformed (bs : Bytes) : Prop := ∀ more p v rest, IsSdnv64 p v → bs ++ more ≠ p ++ rest

end Hdtn.Sdnv.Spec
