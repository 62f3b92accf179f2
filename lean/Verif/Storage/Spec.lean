import Verif.Storage.Model

/-!
Specification for C28, C29, C30 and C65: what the user of the store may do, and what is in it
according to the answers given so far.
-/

namespace Hdtn.Storage

open Hdtn.Catalog Hdtn.HashMap16

/-- The configurations the code can be built and run with: at least one disk, segments of a positive
multiple of 4096 bytes, identifiers of 32 or 64 bits, and no more segments than
`MAX_MEMORY_MANAGER_SEGMENTS`. -/
structure Cfg.Valid (cfg : Cfg) : Prop where
  disks : 1 ≤ cfg.disks
  mult : 1 ≤ cfg.mult
  idBytes : cfg.idBytes = 4 ∨ cfg.idBytes = 8
  max : cfg.maxSegments ≤ 2 ^ 32 - 4

/-- The bundles in the store by the answers so far: those stored and not removed. -/
def contentStep (m : Nat → Option Bytes) : Out → Nat → Option Bytes
  | .stored id data => fun k => if k = id then some data else m k
  | .removed id _ => fun k => if k = id then none else m k
  | _ => m

/-- The contents of the bundle with a custody identifier, by the answers so far. -/
def contentOf (outs : List Out) : Nat → Option Bytes := outs.foldl contentStep fun _ => none

/-- The first segment of the bundle, whatever follows it in its block, starts with this primary
block. -/
def Starts (cfg : Cfg) (data : Bytes) (p : Primary) : Prop :=
  ∀ junk : Bytes, (data.take cfg.perSeg ++ junk).length = cfg.perSeg →
    cfg.parse (data.take cfg.perSeg ++ junk) = some p

/-- How the store is used. A bundle is stored under a custody identifier that is not in use, with
the primary block it starts with. A user gives back what it took, removes what is known, and asks
for removal from the waiting bundles as well exactly for a bundle it has not taken. The bundle of a
session is read once after it was taken. The two restrictions that are not about the user: only
bundles of one segment are read by `ReadFirstSegment`, and a restart comes when no duplicate was
stored and some segment below the capacity has never been written. -/
def Allowed (cfg : Cfg) (s : State) (outs : List Out) : Act → Prop
  | .store p data payloadSize _ id =>
    s.cat.entry id = none ∧ p.priority < 3 ∧ id < 2 ^ 64 ∧ payloadSize < 2 ^ 64 ∧
      data.length < 2 ^ 64 - 1 ∧ Starts cfg data p
  | .giveBack id => id ∈ s.taken
  | .readAll => s.sess.next = 0 ∧ s.sess.nextCache = 0
  | .readFirst id => ∀ e, s.cat.entry id = some e → e.segments.length ≤ 1
  | .remove id awaiting _ => (s.cat.entry id).isSome = true ∧ (awaiting = true ↔ id ∉ s.taken)
  | .restart => (∀ id, Out.duplicate id ∉ outs) ∧ ∃ seg < cfg.maxSegments, readBlock cfg s.files seg = none
  | .crash => False
  | _ => True

/-- The answer is the right one, given what is in the store before it: a bundle read is the one
stored, in full (or its first segment), what is removed or taken is there, and a restart succeeds and
counts what is there. -/
def Out.Right (cfg : Cfg) (m : Nat → Option Bytes) : Out → Prop
  | .read id data ok => ok = true ∧ m id = some data
  | .first id data ok =>
    (m id = none ∧ data = [] ∧ ok = false) ∨ (ok = true ∧ ∃ d, m id = some d ∧ data = d.take cfg.perSeg)
  | .removed id ok => ok = true ∧ (m id).isSome = true
  | .took id size => ∃ d, m id = some d ∧ size = d.length
  | .gaveBack id ok => ok = true ∧ (m id).isSome = true
  | .stored id data => data ≠ [] ∧ m id = none
  | .restored bundles bytes segments =>
    ∃ l : List (Nat × Bytes), (l.map (·.1)).Nodup ∧ (∀ id d, m id = some d ↔ (id, d) ∈ l) ∧
      bundles = l.length ∧ bytes = (l.map fun x => x.2.length).sum ∧
      segments = (l.map fun x => cfg.segsFor x.2.length).sum
  | .notRestored => False
  | _ => True

/-- A history of allowed steps from one state to another, with the answers given before and after;
`P` restricts the steps further. -/
inductive Runs (cfg : Cfg) (P : Act → Prop) (s0 : State) (outs0 : List Out) : State → List Out → Prop
  | refl : Runs cfg P s0 outs0 s0 outs0
  | step (s s' : State) (outs o : List Out) (a : Act) (h : Runs cfg P s0 outs0 s outs) (hp : P a)
      (ha : Allowed cfg s outs a) (hs : step cfg s a = some (s', o)) : Runs cfg P s0 outs0 s' (outs ++ o)

/-- The states reached by a history of allowed steps from an empty store, with the answers given. -/
def Reaches (cfg : Cfg) (s : State) (outs : List Out) : Prop := Runs cfg (fun _ => True) (init cfg) [] s outs

/-- Only bundles that fit in one segment are stored. -/
def Small (cfg : Cfg) : Act → Prop
  | .store _ data _ _ _ => data.length ≤ cfg.perSeg
  | _ => True

/-- The steps that carry on with the call going on, or with the work of the disks. -/
def Inner : Act → Prop
  | .tick _ => True
  | .push _ => True
  | .cacheNext => True
  | .consume => True
  | _ => False

/-- The answers to the call that is going on. -/
def Main.Answer : Main → Out → Prop
  | .idle, _ => False
  | .pushing _ _ id data _, x => x = .stored id data ∨ x = .duplicate id
  | .reading false id _ _ _ _ _, x => ∃ data ok, x = .read id data ok
  | .reading true id _ _ _ _ _, x => ∃ data ok, x = .first id data ok

end Hdtn.Storage
