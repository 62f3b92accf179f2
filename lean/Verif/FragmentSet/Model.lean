import Verif.Base

/-!
Model of `common/util/src/FragmentSet.cpp`.

A `std::set<data_fragment_t>` is the list of its elements in iteration order. Tree searches are
modelled as linear scans for the same boundary: on a set sorted by its comparator the tests `e < key`
and `key < e` used by the search are monotone along the iteration order. `std::set::insert` reports,
when it refuses, the last element that is not greater than the key (libstdc++
`_M_get_insert_unique_pos`); `find` and `lower_bound` look at the first element that is not less.
Insertions with a position hint are modelled as insertions at that position.
-/

namespace Hdtn.FragmentSet

/-- `data_fragment_t`, FragmentSet.h:40-55: a range of indices, both ends included. -/
structure Frag where
  b : Nat
  e : Nat
deriving DecidableEq, Repr

/-- `data_fragment_t::operator<`, FragmentSet.cpp:41-43: `(endIndex+1) < o.beginIndex` on
`uint64_t`. -/
def Frag.lt (x y : Frag) : Bool := (x.e + 1) % U64 < y.b

/-- `data_fragment_no_overlap_allow_abut_t::operator<`, FragmentSet.cpp:73-75. -/
def Frag.ltAbut (x y : Frag) : Bool := x.e < y.b

/-- `data_fragment_t::GetOverlap`, FragmentSet.cpp:48-66. -/
def Frag.getOverlap (k1 k2 : Frag) : Option Frag :=
  if k2.b ≤ k1.e ∧ k1.b ≤ k2.e then some ⟨max k1.b k2.b, min k1.e k2.e⟩ else none

/-- `FragmentSet::InsertFragment`, FragmentSet.cpp:92-112: new set and "was modified". -/
def insertLoop (s : List Frag) (key : Frag) (modified : Bool) : List Frag × Bool :=
  let pre := s.takeWhile fun f => !(key.lt f)
  let post := s.dropWhile fun f => !(key.lt f)
  match _h : pre.getLast? with
  | none => (key :: s, true)
  | some j =>
    if j.lt key then (pre ++ key :: post, true)
    else if key.b ≥ j.b ∧ key.e ≤ j.e then (s, modified)
    else insertLoop (pre.dropLast ++ post) ⟨min key.b j.b, max key.e j.e⟩ true
termination_by s.length
decreasing_by
  have h1 : (s.takeWhile fun f => !(key.lt f)) ++ s.dropWhile (fun f => !(key.lt f)) = s :=
    List.takeWhile_append_dropWhile
  have h2 : (s.takeWhile fun f => !(key.lt f)) ≠ [] := by
    intro h0
    have : pre = [] := h0
    simp [this] at _h
  have h3 := congrArg List.length h1
  have h4 : 0 < (s.takeWhile fun f => !(key.lt f)).length := List.length_pos_iff.2 h2
  simp only [List.length_append, List.length_dropLast] at h3 ⊢
  omega

/-- `FragmentSet::InsertFragment`, FragmentSet.cpp:92-112. -/
def insertFragment (s : List Frag) (key : Frag) : List Frag × Bool := insertLoop s key false

/-- `std::set::find` with the default comparator: the first element not less than the key, if the
key is not less than it. -/
def find (s : List Frag) (key : Frag) : Option Frag :=
  match s.dropWhile fun f => f.lt key with
  | [] => none
  | f :: _ => if key.lt f then none else some f

/-- `FragmentSet::ContainsFragmentEntirely`, FragmentSet.cpp:114-122. -/
def containsEntirely (s : List Frag) (key : Frag) : Bool :=
  match find s key with
  | none => false
  | some f => key.b ≥ f.b && key.e ≤ f.e

/-- `FragmentSet::DoesNotContainFragmentEntirely`, FragmentSet.cpp:126-150: `find` with the
comparator that lets ranges abut; true when nothing is found. -/
def doesNotContainEntirely (s : List Frag) (key : Frag) : Bool :=
  match s.dropWhile fun f => f.ltAbut key with
  | [] => true
  | f :: _ => key.ltAbut f

/-- `FragmentSet::FragmentSetsHaveOverlap`, FragmentSet.cpp:153-161. -/
def haveOverlap (s1 s2 : List Frag) : Bool := s1.any fun f => !(doesNotContainEntirely s2 f)

/-- The `for` loop of `RemoveFragment` from the current iterator, FragmentSet.cpp:172-236. -/
def removeLoop (db de : Nat) : List Frag → List Frag × Bool
  | [] => ([], false)
  | f :: fs =>
    if db > f.e then (f :: fs, false)
    else if de < f.b then
      let r := removeLoop db de fs
      (f :: r.1, r.2)
    else if db ≤ f.b ∧ de ≥ f.e then ((removeLoop db de fs).1, true)
    else if db > f.b ∧ de < f.e then (⟨f.b, db - 1⟩ :: ⟨de + 1, f.e⟩ :: (removeLoop db de fs).1, true)
    else if db ≤ f.b ∧ de ≥ f.b then (⟨de + 1, f.e⟩ :: (removeLoop db de fs).1, true)
    else if db ≤ f.e ∧ de ≥ f.e then (⟨f.b, db - 1⟩ :: (removeLoop db de fs).1, true)
    else
      let r := removeLoop db de fs
      (f :: r.1, r.2)

/-- `FragmentSet::RemoveFragment`, FragmentSet.cpp:165-238: start at `lower_bound(key)`. -/
def removeFragment (s : List Frag) (key : Frag) : List Frag × Bool :=
  if key.b > key.e then (s, false)
  else
    let r := removeLoop key.b key.e (s.dropWhile fun f => f.lt key)
    (s.takeWhile (fun f => f.lt key) ++ r.1, r.2)

/-- `FragmentSet::GetBoundsMinusFragments`, FragmentSet.cpp:247-253. -/
def boundsMinusFragments (bounds : Frag) (s : List Frag) : List Frag :=
  s.foldl (fun acc f => (removeFragment acc f).1) (insertFragment [] bounds).1

end Hdtn.FragmentSet
