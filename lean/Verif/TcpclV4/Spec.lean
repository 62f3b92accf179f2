import Verif.TcpclV4.Model

/-!
The wire format of the TCP convergence layer, version 4 (RFC 9174), as relations between bytes and what the
peer is told, without the parser.
-/

namespace Hdtn.TcpclV4.Spec

/-- `p` is the number `v` in `n` bytes in network order. -/
def IsNum (n : Nat) (p : Bytes) (v : Nat) : Prop := p.length = n ∧ beValue p = v

/-- An extension item: flags, type, length and value. -/
inductive IsItem : Bytes → Ext → Prop
  | mk (fl : UInt8) (t l value : Bytes) (type : Nat) : IsNum 2 t type → IsNum 2 l value.length →
    IsItem (fl :: (t ++ (l ++ value))) ⟨fl, type, value⟩

/-- A sequence of items. -/
inductive IsItems : Bytes → List Ext → Prop
  | nil : IsItems [] []
  | cons {p ps : Bytes} {x : Ext} {xs : List Ext} : IsItem p x → IsItems ps xs → IsItems (p ++ ps) (x :: xs)

/-- How the announced length of a sequence of items relates to the real one. The protocol says that they are
equal. The receiver counts in 32 bits, so that it cannot tell lengths with the same remainder apart. -/
def Exact (announced actual : Nat) : Prop := announced = actual

/-- See `Exact`. -/
def Modulo (announced actual : Nat) : Prop := announced = actual % 2 ^ 32

/-- The length of the items, and the items. -/
inductive IsExts (ann : Nat → Nat → Prop) : Bytes → List Ext → Prop
  | mk (n : Nat) (p items : Bytes) (xs : List Ext) : IsNum 4 p n → IsItems items xs → ann n items.length →
    IsExts ann (p ++ items) xs

/-- A contact header: `dtn!`, version 4, flags. -/
inductive IsContact : Bytes → Event → Prop
  | mk (flags : UInt8) : IsContact [0x64, 0x74, 0x6e, 0x21, 4, flags] (.contact (flags.toNat.testBit 0))

/-- A segment up to its extension items: only the first segment of a transfer has them. -/
inductive IsSegHead (ann : Nat → Nat → Prop) : Bytes → Bool → Bool → Nat → List Ext → Prop
  | first (fl : UInt8) (p q : Bytes) (id : Nat) (xs : List Ext) : fl.toNat.testBit 1 = true → IsNum 8 p id →
    IsExts ann q xs → IsSegHead ann (1 :: fl :: (p ++ q)) true (fl.toNat.testBit 0) id xs
  | later (fl : UInt8) (p : Bytes) (id : Nat) : fl.toNat.testBit 1 = false → IsNum 8 p id →
    IsSegHead ann (1 :: fl :: p) false (fl.toNat.testBit 0) id []

/-- A session initialisation up to its extension items. -/
inductive IsInitHead : Bytes → Nat → Nat → Nat → Bytes → Prop
  | mk (a b c l node : Bytes) (k m x : Nat) : IsNum 2 a k → IsNum 8 b m → IsNum 8 c x → IsNum 2 l node.length →
    IsInitHead (7 :: (a ++ (b ++ (c ++ (l ++ node))))) k m x node

/-- A message other than a contact header. -/
inductive IsMessage (ann : Nat → Nat → Prop) : Bytes → Event → Prop
  | data (h p c : Bytes) (s e : Bool) (id : Nat) (xs : List Ext) : IsSegHead ann h s e id xs → IsNum 8 p c.length →
    IsMessage ann (h ++ (p ++ c)) (.data c s e id xs)
  | ack (fl : UInt8) (p q : Bytes) (id n : Nat) : IsNum 8 p id → IsNum 8 q n →
    IsMessage ann (2 :: fl :: (p ++ q)) (.ack (fl.toNat.testBit 1) (fl.toNat.testBit 0) id n)
  | refusal (reason : UInt8) (p : Bytes) (id : Nat) : IsNum 8 p id →
    IsMessage ann (3 :: reason :: p) (.refusal reason id)
  | keepAlive : IsMessage ann [4] .keepAlive
  | term (fl reason : UInt8) : IsMessage ann [5, fl, reason] (.term reason (fl.toNat.testBit 0))
  | reject (reason header : UInt8) : IsMessage ann [6, reason, header] (.reject reason header)
  | init (h q node : Bytes) (k m x : Nat) (xs : List Ext) : IsInitHead h k m x node → IsExts ann q xs →
    IsMessage ann (h ++ q) (.init k m x node xs)

/-- A sequence of messages. -/
inductive IsMessages : Bytes → List Event → Prop
  | nil : IsMessages [] []
  | cons {w ws : Bytes} {e : Event} {es : List Event} : IsMessage Exact w e → IsMessages ws es →
    IsMessages (w ++ ws) (e :: es)

/-- What a conforming peer sends: a contact header and messages. -/
inductive Conforms : Bytes → List Event → Prop
  | mk {w ws : Bytes} {e : Event} {es : List Event} : IsContact w e → IsMessages ws es → Conforms (w ++ ws) (e :: es)

/-- Messages that this receiver is made for: contents within the limit, neither contents nor node empty. -/
def Fits (lim : Nat) : Event → Prop
  | .data c _ _ _ _ => c ≠ [] ∧ c.length ≤ lim
  | .init _ _ _ node _ => node ≠ []
  | _ => True

/-- The receiver reports `e` for a message `e'`: the same, except that with a segment that is not the first
of its transfer there may be extensions that were not sent with it. -/
inductive Reported : Event → Event → Prop
  | same (e : Event) : Reported e e
  | stale (c : Bytes) (e : Bool) (id : Nat) (xs : List Ext) : Reported (.data c false e id xs) (.data c false e id [])

/-- The events `es` are explained by the bytes `w`: each by bytes of its own that encode it, in this order,
the first one being a contact header. In between there may be bytes that encode nothing; after such bytes a
contact header is needed again, unless they are types of messages that do not exist. -/
inductive Explains : Bytes → List Event → Bool → Prop
  | nil : Explains [] [] false
  | drop {w junk : Bytes} {es : List Event} {up : Bool} : Explains w es up → Explains (w ++ junk) es false
  | unknown {w : Bytes} {es : List Event} {t : UInt8} : Explains w es true → (t.toNat = 0 ∨ 7 < t.toNat) →
    Explains (w ++ [t]) es true
  | contact {w m : Bytes} {es : List Event} {e : Event} : Explains w es false → IsContact m e →
    Explains (w ++ m) (es ++ [e]) true
  | message {w m : Bytes} {es : List Event} {e e' : Event} : Explains w es true → IsMessage Modulo m e' →
    Reported e e' → Explains (w ++ m) (es ++ [e]) true

/-! ### Sending -/

/-- The function that writes a message; for segments see also `C46_generators`. -/
def generate : Event → Bytes
  | .contact tls => genContact tls
  | .init k m x node exts => genInit k m x node exts
  | .data c true e id exts => genStart e id c exts
  | .data c false e id _ => genNext e id c
  | .ack s e id n => genAck s e id n
  | .refusal r id => genRefusal r id
  | .reject r h => genReject r h
  | .keepAlive => genKeepAlive
  | .term r a => genTerm r a

/-- Extensions whose types, lengths and total length fit their fields. -/
def ExtsFit (xs : List Ext) : Prop :=
  (∀ x ∈ xs, x.type < 2 ^ 16 ∧ x.value.length < 2 ^ 16) ∧ (xs.map fun x => 5 + x.value.length).sum < 2 ^ 32

/-- The arguments the generators are meant for: numbers of the right width, extensions only with the first
segment of a transfer. -/
def Sendable : Event → Prop
  | .contact _ => True
  | .init k m x node exts => k < 2 ^ 16 ∧ m < 2 ^ 64 ∧ x < 2 ^ 64 ∧ node.length < 2 ^ 16 ∧ ExtsFit exts
  | .data c s _ id exts => c.length < 2 ^ 64 ∧ id < 2 ^ 64 ∧ ExtsFit exts ∧ (s = false → exts = [])
  | .ack _ _ id n => id < 2 ^ 64 ∧ n < 2 ^ 64
  | .refusal _ id => id < 2 ^ 64
  | .reject _ _ => True
  | .keepAlive => True
  | .term _ _ => True

/-- Whether a message is a contact header. -/
def opens : Event → Bool
  | .contact _ => true
  | _ => false

/-- The receiver when every call has one byte. -/
def bytewise (lim : Nat) (r : Rx) (stream : Bytes) : List Event × Rx :=
  feedAll lim r (stream.map fun b => [b])

end Hdtn.TcpclV4.Spec
