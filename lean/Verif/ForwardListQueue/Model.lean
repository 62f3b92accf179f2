import Verif.Base

/-!
Model of `common/util/include/ForwardListQueue.h`. The list nodes have identities, so that the cached
iterator `m_flLastIt` can dangle: an insertion after an iterator that is not in the list, or reading
through one, is undefined behaviour and is modelled as `none`.
-/

namespace Hdtn.ForwardListQueue

/-- A `std::forward_list` iterator: `before_begin()`, a node, or a default-constructed one. -/
inductive Iter where
  | beforeBegin
  | node (id : Nat)
  | singular
deriving DecidableEq, Repr

variable {α : Type} [DecidableEq α]

/-- `m_fl`, `m_flLastIt`, ForwardListQueue.h:35-36; `fresh` is the next unused node identity. -/
structure Queue (α : Type) where
  fl : List (Nat × α)
  last : Iter
  fresh : Nat
deriving DecidableEq, Repr

/-- `forward_list::insert_after(it, v)`: undefined unless `it` is `before_begin()` or in the list. -/
def insertAfter (fl : List (Nat × α)) (it : Iter) (id : Nat) (v : α) : Option (List (Nat × α)) :=
  match it with
  | .beforeBegin => some ((id, v) :: fl)
  | .singular => none
  | .node k =>
    if fl.any fun p => p.1 = k then
      some (fl.takeWhile (fun p => p.1 ≠ k) ++
        (fl.dropWhile fun p => p.1 ≠ k).take 1 ++ (id, v) :: (fl.dropWhile fun p => p.1 ≠ k).drop 1)
    else none

/-- Default constructor, ForwardListQueue.h:38. -/
def Queue.empty : Queue α := ⟨[], .singular, 0⟩

/-- Constructor from an initializer list, ForwardListQueue.h:39-46: the last iterator is advanced
once per element, starting from `before_begin()`. -/
def Queue.ofList (init : List α) : Queue α :=
  let fl := init.zipIdx.map fun p => (p.2, p.1)
  if fl = [] then ⟨[], .singular, 0⟩
  else ⟨fl, fl.foldl (fun _ p => .node p.1) .beforeBegin, init.length⟩

/-- `emplace_back` / `push_back`, ForwardListQueue.h:48-81. -/
def Queue.pushBack (q : Queue α) (v : α) : Option (Queue α) :=
  if q.fl = [] then some ⟨[(q.fresh, v)], .node q.fresh, q.fresh + 1⟩
  else do
    let fl ← insertAfter q.fl q.last q.fresh v
    some ⟨fl, .node q.fresh, q.fresh + 1⟩

/-- `emplace_front` / `push_front`, ForwardListQueue.h:83-106. -/
def Queue.pushFront (q : Queue α) (v : α) : Queue α :=
  ⟨(q.fresh, v) :: q.fl, if q.fl = [] then .node q.fresh else q.last, q.fresh + 1⟩

/-- The loop of `remove_by_key`, ForwardListQueue.h:113-122, with `itPrev` before the rest. -/
def removeLoop (key : α) (last : Iter) (prev : Iter) :
    List (Nat × α) → Option (List (Nat × α) × Iter)
  | [] => none
  | (id, v) :: rest =>
    if key = v then some (rest, if Iter.node id = last then prev else last)
    else (removeLoop key last (.node id) rest).map fun r => ((id, v) :: r.1, r.2)

/-- `remove_by_key`, ForwardListQueue.h:108-126. -/
def Queue.removeByKey (q : Queue α) (key : α) : Queue α × Bool :=
  if q.fl = [] then (q, false)
  else
    match removeLoop key q.last .beforeBegin q.fl with
    | none => (q, false)
    | some (fl, last) => (⟨fl, last, q.fresh⟩, true)

/-- `front`, ForwardListQueue.h:128-134; undefined on an empty list. -/
def Queue.front (q : Queue α) : Option α := q.fl.head?.map (·.2)

/-- `back`, ForwardListQueue.h:136-142: dereferences the cached iterator. -/
def Queue.back (q : Queue α) : Option α :=
  match q.last with
  | .node k => (q.fl.find? fun p => p.1 = k).map (·.2)
  | _ => none

/-- `pop`, ForwardListQueue.h:144-146; undefined on an empty list. -/
def Queue.pop (q : Queue α) : Option (Queue α) :=
  match q.fl with
  | [] => none
  | _ :: rest => some { q with fl := rest }

/-- `clear`, ForwardListQueue.h:148-150. -/
def Queue.clear (q : Queue α) : Queue α := { q with fl := [] }

end Hdtn.ForwardListQueue
