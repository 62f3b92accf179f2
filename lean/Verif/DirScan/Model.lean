import Verif.Base

/-!
Model of how the files of a directory are found and handed to the program that sends them.

 - DirectoryScanner.cpp is in /repo/common/util/src, BpSendFile.cpp in /repo/common/bpcodec/apps/bpsendfile/src.

Simplifications: paths are numbers; the files that are there at the beginning are given (walking through directories and the choice of those to watch are
not modelled); a change is an event for a file that is not too deep; times are not modelled, the timer expires for the first in its queue. The iterator
`m_currentFilePathIterator` is always at the first element of the list or, if the list is empty, at its end.
-/

namespace Hdtn.DirScan

/-- `m_pathsOfFilesList`, `m_newFilePathsAddedSet`, `m_currentlyPendingFilesToAddMap` (path, size and queue count), `m_currentlyPendingFilesToAddTimerQueue`,
whether an exception ended the program; of BpSendFile `m_currentFilePathAbsolute`, and whether it is in the timed wait. For the statements: all files that
were found, those that were sent, and those that were overwritten. -/
structure Scan where
  list : List Nat
  added : List Nat
  pending : List (Nat × Nat × Nat)
  queue : List Nat
  crashed : Bool
  current : Option Nat
  waiting : Bool
  found : List Nat
  sent : List Nat
  lost : List Nat
deriving DecidableEq, Repr

/-- `Reload`, DirectoryScanner.cpp:145-183, and `IterateDirectories` for files that exist, :206-214. -/
def Scan.init (existing : List Nat) (inc : Bool) : Scan :=
  let l := if inc then existing else []
  ⟨l, existing, [], [], false, none, false, l, [], []⟩

/-- The entry for a path. -/
def find (m : List (Nat × Nat × Nat)) (p : Nat) : Option (Nat × Nat) := (m.find? fun x => x.1 == p).map Prod.snd

/-- The map with another entry for a path. -/
def put (m : List (Nat × Nat × Nat)) (p size count : Nat) : List (Nat × Nat × Nat) := (p, size, count) :: m.filter fun x => !(x.1 == p)

/-- `TryAddNewFile`, DirectoryScanner.cpp:306-322; `file_size` throws if the file is not there. -/
def Scan.changed (s : Scan) (p : Nat) (size : Option Nat) : Scan :=
  if s.added.contains p then s
  else match size with
    | none => { s with crashed := true }
    | some n =>
      let count := match find s.pending p with
        | some x => x.2 + 1
        | none => 1
      { s with pending := put s.pending p n count, queue := s.queue ++ [p] }

/-- `OnRecheckFileSize_TimerExpired`, DirectoryScanner.cpp:324-378: with the size of the file now, and whether it can be opened. -/
def Scan.timer (s : Scan) (now : Option Nat) (openable : Bool) : Scan :=
  match s.queue with
  | [] => s
  | p :: queue =>
    let s : Scan := { s with queue := queue }
    match find s.pending p with
    | none => s
    | some (size, count) =>
      if count - 1 ≠ 0 then { s with pending := put s.pending p size (count - 1) }
      else match now with
        | none => { s with crashed := true }
        | some n =>
          if size = n ∧ openable = true then
            let s : Scan := { s with pending := s.pending.filter fun x => !(x.1 == p) }
            if s.added.contains p then s
            else { s with added := p :: s.added, list := s.list ++ [p], found := s.found ++ [p] }
          else { s with pending := put s.pending p size 1, queue := s.queue ++ [p] }

/-- `GetNextFilePath_NotThreadSafe`, DirectoryScanner.cpp:98-108, into `m_currentFilePathAbsolute`. -/
def Scan.getNext (s : Scan) : Scan :=
  match s.list with
  | [] => s
  | p :: l => { s with list := l, lost := s.lost ++ s.current.toList, current := some p }

/-- `BpSendFile::GetNextPayloadLength_Step1`, BpSendFile.cpp:77-86. -/
def Scan.next (s : Scan) : Scan :=
  if s.waiting then s else if s.current.isSome then s else s.getNext

/-- The end of a file in `CopyPayload_Step2`, BpSendFile.cpp:131-136. -/
def Scan.finish (s : Scan) : Scan :=
  if s.waiting then s else { s with sent := s.sent ++ s.current.toList, current := none }

/-- `BpSendFile::TryWaitForDataAvailable` (BpSendFile.cpp:144-149) with `GetNextFilePathTimeout` (DirectoryScanner.cpp:115-123) up to the timed wait; if the first
attempt succeeds, the second follows at once. -/
def Scan.tryWait (s : Scan) : Scan :=
  if s.waiting then s else if s.current.isSome then s
  else match s.list with
    | [] => { s with waiting := true }
    | _ :: _ => s.getNext.getNext

/-- The rest of `GetNextFilePathTimeout`, after the timed wait, DirectoryScanner.cpp:122. -/
def Scan.wake (s : Scan) : Scan := if s.waiting then Scan.getNext { s with waiting := false } else s

/-- Things that happen. -/
inductive Ev
  | changed (p : Nat) (size : Option Nat)
  | timer (now : Option Nat) (openable : Bool)
  | next
  | finish
  | tryWait
  | wake
deriving DecidableEq, Repr

def Scan.step (s : Scan) (e : Ev) : Scan :=
  if s.crashed then s else match e with
    | .changed p n => s.changed p n
    | .timer n o => s.timer n o
    | .next => s.next
    | .finish => s.finish
    | .tryWait => s.tryWait
    | .wake => s.wake

def Scan.run (s : Scan) (evs : List Ev) : Scan := evs.foldl Scan.step s

end Hdtn.DirScan
