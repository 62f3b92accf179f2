import Verif.Common.OrdMap

/-!
Model of `module/storage/src/HashMap16BitFixedSize.cpp`: a fixed table of 65536 sorted lists. It is
generic in the key type with its `operator<` and in the hash function, like the C++ template; the
three instantiations used by the storage catalog follow.
-/

namespace Hdtn.HashMap16

variable {κ ν : Type}

/-- `m_buckets`, HashMap16BitFixedSize.h:37, :71. -/
structure Table (κ ν : Type) where
  buckets : Nat → List (κ × ν)

/-- The constructor, HashMap16BitFixedSize.cpp:26-29, and `Clear`, :190-195. -/
def Table.empty : Table κ ν := ⟨fun _ => []⟩

/-- The loop of `Insert` over one bucket, HashMap16BitFixedSize.cpp:99-121; `none` when the key
already exists. The empty bucket, treated separately there, is the loop that stops at once. -/
def insertLoop (lt : κ → κ → Bool) (key : κ) (value : ν) : List (κ × ν) → Option (List (κ × ν))
  | [] => some [(key, value)]
  | (k, v) :: rest =>
    if lt key k then some ((key, value) :: (k, v) :: rest)
    else if lt k key then (insertLoop lt key value rest).map ((k, v) :: ·)
    else none

/-- The loop of `GetValueAndRemove`, HashMap16BitFixedSize.cpp:132-155. -/
def removeLoop (lt : κ → κ → Bool) (key : κ) : List (κ × ν) → Option (ν × List (κ × ν))
  | [] => none
  | (k, v) :: rest =>
    if lt key k then none
    else if lt k key then (removeLoop lt key rest).map fun r => (r.1, (k, v) :: r.2)
    else some (v, rest)

/-- The loop of `GetValuePtr`, HashMap16BitFixedSize.cpp:165-187. -/
def getLoop (lt : κ → κ → Bool) (key : κ) : List (κ × ν) → Option ν
  | [] => none
  | (k, v) :: rest =>
    if lt key k then none else if lt k key then getLoop lt key rest else some v

/-- Replace one bucket. -/
def Table.setBucket (t : Table κ ν) (h : Nat) (b : List (κ × ν)) : Table κ ν :=
  ⟨fun i => if i = h then b else t.buckets i⟩

/-- `Insert`, HashMap16BitFixedSize.cpp:76-123; `none` is a NULL result (the table is unchanged). -/
def Table.insert (lt : κ → κ → Bool) (hash : κ → Nat) (t : Table κ ν) (key : κ) (value : ν) :
    Option (Table κ ν) :=
  (insertLoop lt key value (t.buckets (hash key))).map fun b => t.setBucket (hash key) b

/-- `GetValueAndRemove`, HashMap16BitFixedSize.cpp:125-155; `none` is a false result. -/
def Table.remove (lt : κ → κ → Bool) (hash : κ → Nat) (t : Table κ ν) (key : κ) :
    Option (ν × Table κ ν) :=
  (removeLoop lt key (t.buckets (hash key))).map fun r => (r.1, t.setBucket (hash key) r.2)

/-- `GetValuePtr`, HashMap16BitFixedSize.cpp:159-187. -/
def Table.get (lt : κ → κ → Bool) (hash : κ → Nat) (t : Table κ ν) (key : κ) : Option ν :=
  getLoop lt key (t.buckets (hash key))

/-- Assignment through the pointer returned by `GetValuePtr`, as the catalog's users do. -/
def modifyLoop (lt : κ → κ → Bool) (key : κ) (value : ν) : List (κ × ν) → List (κ × ν)
  | [] => []
  | (k, v) :: rest =>
    if lt key k then (k, v) :: rest
    else if lt k key then (k, v) :: modifyLoop lt key value rest
    else (k, value) :: rest

/-- See `modifyLoop`. -/
def Table.modify (lt : κ → κ → Bool) (hash : κ → Nat) (t : Table κ ν) (key : κ) (value : ν) :
    Table κ ν :=
  t.setBucket (hash key) (modifyLoop lt key value (t.buckets (hash key)))

/-! The key types. -/

/-- `cbhe_eid_t`, Cbhe.h. -/
structure Eid where
  node : Nat
  service : Nat
deriving DecidableEq, Repr

/-- `cbhe_eid_t::operator<`, Cbhe.cpp:49-54. -/
def Eid.lt (a b : Eid) : Bool :=
  if a.node = b.node then a.service < b.service else a.node < b.node

/-- `cbhe_bundle_uuid_t`, Cbhe.h. -/
structure Uuid where
  creation : Nat
  sequence : Nat
  src : Eid
  fragmentOffset : Nat
  dataLength : Nat
deriving DecidableEq, Repr

/-- `cbhe_bundle_uuid_t::operator<`, Cbhe.cpp:317-331. -/
def Uuid.lt (a b : Uuid) : Bool :=
  if a.creation = b.creation then
    if a.sequence = b.sequence then
      if a.src = b.src then
        if a.fragmentOffset = b.fragmentOffset then a.dataLength < b.dataLength
        else a.fragmentOffset < b.fragmentOffset
      else a.src.lt b.src
    else a.sequence < b.sequence
  else a.creation < b.creation

/-- `cbhe_bundle_uuid_nofragment_t`, Cbhe.h. -/
structure UuidNoFrag where
  creation : Nat
  sequence : Nat
  src : Eid
deriving DecidableEq, Repr

/-- `cbhe_bundle_uuid_nofragment_t::operator<`, Cbhe.cpp:378-386. -/
def UuidNoFrag.lt (a b : UuidNoFrag) : Bool :=
  if a.creation = b.creation then
    if a.sequence = b.sequence then a.src.lt b.src else a.sequence < b.sequence
  else a.creation < b.creation

/-- Folding 64 bits to 16 without the CRC instruction, HashMap16BitFixedSize.cpp:49-51. -/
def fold64 (x : Nat) : Nat :=
  let x32 := (x >>> 32) % U32 ^^^ x % U32
  (x32 >>> 16) % 2 ^ 16 ^^^ x32 % 2 ^ 16

/-- `GetHash` of a fragment identifier, HashMap16BitFixedSize.cpp:35-53, in the build without the
CRC32C instruction. -/
def Uuid.hash (u : Uuid) : Nat :=
  fold64 (u.creation ^^^ u.sequence ^^^ u.src.node ^^^ u.src.service ^^^ u.fragmentOffset ^^^ u.dataLength)

/-- `GetHash` of a bundle identifier, HashMap16BitFixedSize.cpp:55-68, likewise. -/
def UuidNoFrag.hash (u : UuidNoFrag) : Nat :=
  fold64 (u.creation ^^^ u.sequence ^^^ u.src.node ^^^ u.src.service)

/-- `GetHash` of a custody identifier, HashMap16BitFixedSize.cpp:71-73. -/
def hashU64 (key : Nat) : Nat := key % 2 ^ 16

end Hdtn.HashMap16
