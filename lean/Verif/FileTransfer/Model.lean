import Verif.FragmentSet.Model

/-!
Model of bpsendfile and bpreceivefile, which send files in bundles.

 - BpSendFile.cpp = /repo/common/bpcodec/apps/bpsendfile/src/BpSendFile.cpp
 - BpReceiveFile.cpp = /repo/common/bpcodec/apps/bpreceivefile/src/BpReceiveFile.cpp

What goes between them are payloads of bundles.

Simplifications:
 - The files to be sent are known at the start and do not change while they are sent.
 - A path is the string that is sent; two strings that name the same file are not considered.
 - What is written to a file is there at once. Whether directories can be created and files be opened is fixed for each path.
-/

namespace Hdtn.FileTransfer

open FragmentSet

/-- `native_to_little_inplace`: `k` bytes, the lowest first. -/
def le : Nat → Nat → Bytes
  | 0, _ => []
  | k + 1, n => UInt8.ofNat (n % 256) :: le k (n / 256)

/-- `little_to_native_inplace`. -/
def unle : Bytes → Nat
  | [] => 0
  | b :: l => b.toNat + 256 * unle l

/-- `SendFileMetadata`, BpSendFile.h:38-49, without its three unused bytes. -/
structure Header where
  total : Nat
  offset : Nat
  length : Nat
  pathLen : Nat
deriving DecidableEq, Repr

/-- The 24 bytes of a header, BpSendFile.cpp:117-118. The unused bytes are not initialised. -/
def Header.encode (h : Header) (unused : Bytes) : Bytes :=
  le 8 h.total ++ le 8 h.offset ++ le 4 h.length ++ le 1 h.pathLen ++ unused

/-- Reading the header, BpReceiveFile.cpp:72-80. -/
def Header.decode (b : Bytes) : Header :=
  ⟨unle (b.take 8), unle ((b.drop 8).take 8), unle ((b.drop 16).take 4), unle ((b.drop 20).take 1)⟩

/-! ### The sender -/

/-- The files that are still to be sent, with `none` for a file that cannot be opened, and the one that is being sent, with its offset. -/
structure Sender where
  files : List (Bytes × Option Bytes)
  current : Option (Bytes × Bytes × Nat)

/-- The next fragment of a file, BpSendFile.cpp:113-114 and 116-142. -/
def Sender.emit (max : Nat) (unused : Bytes) (rest : List (Bytes × Option Bytes)) (path content : Bytes) (offset : Nat) : Bytes × Sender :=
  let length := min (content.length - offset) max % U32
  ((Header.encode ⟨content.length, offset, length, path.length⟩ unused ++ path ++ (content.drop offset).take length),
    if length + offset = content.length then ⟨rest, none⟩ else ⟨rest, some (path, content, length + offset)⟩)

/-- `GetNextPayloadLength_Step1` and `CopyPayload_Step2`, BpSendFile.cpp:77-142: the next payload, `none` when there is none, after which the sender
stops (BpSourcePattern.cpp:449-454). -/
def Sender.next (max : Nat) (unused : Bytes) (s : Sender) : Option (Bytes × Sender) :=
  match s.current with
  | some (path, content, offset) => some (Sender.emit max unused s.files path content offset)
  | none => match s.files with
    | [] => none
    | (_, none) :: _ => none
    | (path, some content) :: rest => if path.length > 255 then none else some (Sender.emit max unused rest path content 0)

/-- The first `n` payloads. -/
def payloads (max : Nat) (unused : Bytes) : Nat → Sender → List Bytes
  | 0, _ => []
  | n + 1, s => match s.next max unused with
    | none => []
    | some (b, s) => b :: payloads max unused n s

/-! ### The receiver -/

/-- The receiver: whether it saves files, the files that there are, and `m_filenameToWriteInfoMap`: for each path what was received, and whether
the file is open. -/
structure Receiver where
  saving : Bool
  files : Bytes → Option Bytes
  info : Bytes → List Frag × Bool

/-- The system: whether the directory for a path can be created or exists, and whether the file can be opened. -/
structure Env where
  mkdir : Bytes → Bool
  canOpen : Bytes → Bool

/-- What can happen with a payload: it is processed, with this return value; a null pointer is used; or bytes behind the payload are read. -/
inductive Outcome
  | done (r : Receiver) (ok : Bool)
  | crash
  | overread

/-- `IsFileFullyReceived`, BpReceiveFile.cpp:63-69. -/
def received (set : List Frag) (total : Nat) : Bool :=
  match set with
  | [f] => f.b == 0 && f.e == total - 1
  | _ => false

/-- Writing at a position of a file, with zeros for a gap before it. -/
def writeAt (content : Bytes) (offset : Nat) (data : Bytes) : Bytes :=
  (content ++ List.replicate (offset - content.length) 0).take offset ++ data ++ content.drop (offset + data.length)

/-- What is known about a path changes. -/
def Receiver.setInfo (r : Receiver) (path : Bytes) (x : List Frag × Bool) : Receiver :=
  { r with info := fun p => if p = path then x else r.info p }

/-- The content of a file changes. -/
def Receiver.setFile (r : Receiver) (path content : Bytes) : Receiver :=
  { r with files := fun p => if p = path then some content else r.files p }

/-- A fragment is written, BpReceiveFile.cpp:160-174; `opened` tells whether there is a stream. -/
def Receiver.write (r : Receiver) (path : Bytes) (h : Header) (rest : Bytes) (opened : Bool) : Outcome :=
  let set := (insertFragment (r.info path).1 ⟨h.offset, h.offset + h.length - 1⟩).1
  if r.saving then
    if !opened then .crash
    else if rest.length < h.length then .overread
    else match r.files path with
      | none => .crash
      | some content =>
        .done ((r.setInfo path (set, !received set h.total)).setFile path (writeAt content h.offset (rest.take h.length))) true
  else .done (r.setInfo path (set, opened)) true

/-- `ProcessPayload`, BpReceiveFile.cpp:71-178. -/
def Receiver.process (env : Env) (r : Receiver) (b : Bytes) : Outcome :=
  if b.length < 24 then .done r false
  else
    let h := Header.decode b
    if h.offset > 8000000000 then .done r false
    else if h.length > 2000000000 then .done r false
    else if h.offset + h.length > h.total then .done r false
    else if b.length < 24 + h.pathLen then .overread
    else
      let path := (b.drop 24).take h.pathLen
      let rest := b.drop (24 + h.pathLen)
      let set := (r.info path).1
      if h.total = 0 then
        if set.isEmpty && r.saving then
          if !env.mkdir path then .done r false
          else if (r.files path).isSome then .done r true
          else if !env.canOpen path then .done r false
          else .done (r.setFile path []) true
        else .done r true
      else if h.length = 0 then .done r true
      else if set.isEmpty then
        if r.saving then
          if !env.mkdir path then .done r false
          else if (r.files path).isSome then .done r true
          else if !env.canOpen path then .done r false
          else (r.setFile path []).write path h rest true
        else r.write path h rest false
      else if received set h.total then .done r true
      else r.write path h rest (r.info path).2

/-- Payloads are processed one after the other; the return values. `none` if something goes wrong. -/
def Receiver.processAll (env : Env) (r : Receiver) : List Bytes → Option (Receiver × List Bool)
  | [] => some (r, [])
  | b :: l => match r.process env b with
    | .done r ok => match r.processAll env l with
      | some (r, oks) => some (r, ok :: oks)
      | none => none
    | _ => none

end Hdtn.FileTransfer
