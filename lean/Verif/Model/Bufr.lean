import Verif.Model.Reader
import Verif.Model.Template

/-!
# The BUFR object model

Models /repo/bufr/field.go, cell.go, node.go, info.go, payload.go, section.go, message.go.
Formatting (`String`, `MarshalJSON`) and the `Visitor` double dispatch are not modelled here.
-/

namespace Gobufr

/-! ## Values -/

/-- The dynamic values (`interface{}`) stored in cells and simple fields.  `binary none` is a
typed nil pointer `(*Binary)(nil)`, which is not the nil interface. -/
inductive Val (F : Type) where
  | nil
  | uint (v : Nat)
  | int (v : Int)
  | float (v : F)
  | bool (v : Bool)
  | str (v : GoString)
  | bytes (v : List UInt8)
  | binary (v : Option Binary)
  deriving Repr, DecidableEq, Inhabited

/-! ## field.go -/

/-- /repo/bufr/field.go:11-19 `MISSING_VALUE_OF_NBITS`: filled for 1..64 by `init`;
`1<<uint(i) - 1` on a uint (for 64 the shift gives 0 and the subtraction wraps). -/
def missingValueOfNbits (nbits : Int) : Option Nat :=
  if 1 ≤ nbits ∧ nbits ≤ 64 then some (toUint ((shl64 1 nbits.toNat : Int) - 1)) else none

/-- /repo/bufr/field.go:23-28 `IsMissing`; a map miss gives 0. -/
def isMissing (value : Val F) (nbits : Int) : Bool :=
  match value with
  | .uint v => if nbits > 1 then v == (missingValueOfNbits nbits).getD 0 else false
  | _ => false

/-- /repo/bufr/field.go:31-37 `MissingValue` -/
def missingValue (nbits : Int) : Outcome Nat :=
  match missingValueOfNbits nbits with
  | some v => .ok v
  | none => .err (.msg "invalid number of bits for retrieving missing value")

/-! ## info.go, node.go -/

/-- /repo/bufr/info.go:5-10 `PackingInfo` -/
structure PackingInfo (F : Type) where
  unit : Unit'
  scale : Int
  refval : F
  nbits : Int
  deriving Repr, DecidableEq, Inhabited

/-- Reference to a node (Go pointer).  All nodes of a subset tree live in one list, the heap of
that tree; a reference is a position in it. -/
abbrev NodeId := Nat

/-- The descriptor stored in a node: `none` is a nil interface; `assoc` tells a
`DecorateDescriptor` (/repo/table/descriptor.go:163-199; the only one built by the code is
`{Descriptor: d, Initial: 'A', Name: "ASSOCIATED FIELD"}`), whose methods other than `String`
delegate to `d`. -/
structure NodeDesc where
  d : Option Desc
  assoc : Bool := false
  deriving Repr, DecidableEq, Inhabited

/-- What kind of node: /repo/bufr/node.go:14 `Block`, 38-41 `ValuelessNode`,
57-66 `ValuedNode` (`minValue`, `nbitsDiff` are set for compressed data only). -/
inductive NodeKind (F : Type) where
  | block
  | valueless (d : NodeDesc)
  | valued (d : NodeDesc) (index : Int) (info : PackingInfo F) (minValue : Val F) (nbitsDiff : Int)
  deriving Repr, DecidableEq, Inhabited

/-- /repo/bufr/node.go:8-12 `Node`: kind and members; a member may be a nil interface. -/
structure Node (F : Type) where
  kind : NodeKind F
  members : List (Option NodeId) := []
  deriving Repr, DecidableEq, Inhabited

/-- The nodes allocated so far. -/
abbrev Heap (F : Type) := List (Node F)

/-- /repo/bufr/node.go:25-27, 47-49, 76-78 `AddMember` on the node `n` of the heap. -/
def Heap.addMember (h : Heap F) (n : NodeId) (m : Option NodeId) : Heap F :=
  h.modify n fun x => { x with members := x.members ++ [m] }

/-! ## cell.go -/

/-- /repo/bufr/cell.go:11-18 `Cell` -/
structure Cell (F : Type) where
  n : NodeId
  v : Val F
  deriving Repr, DecidableEq, Inhabited

namespace Cell

/-- /repo/bufr/cell.go:47-56 `StringValue` -/
def stringValue (c : Cell F) : Outcome GoString :=
  match c.v with
  | .str s => .ok s
  | .bytes b => .ok b
  | _ => .err (.msg "cell value is not string")

/-- /repo/bufr/cell.go:58-69 `UintValue`; `uint(value)` of an int wraps. -/
def uintValue [GoFloat F] (c : Cell F) : Outcome Nat :=
  match c.v with
  | .float f => .ok (GoFloat.roundUint f)
  | .int i => .ok (toUint i)
  | .uint u => .ok u
  | _ => .err (.msg "cell value is not compatible with uint")

/-- /repo/bufr/cell.go:71-82 `IntValue`; `int(value)` of a uint wraps. -/
def intValue [GoFloat F] (c : Cell F) : Outcome Int :=
  match c.v with
  | .float f => .ok (GoFloat.roundInt f)
  | .int i => .ok i
  | .uint u => .ok (toInt64 u)
  | _ => .err (.msg "cell value is not compatible with int")

/-- /repo/bufr/cell.go:84-95 `FloatValue` -/
def floatValue [GoFloat F] (c : Cell F) : Outcome F :=
  match c.v with
  | .float f => .ok f
  | .int i => .ok (GoFloat.ofInt i)
  | .uint u => .ok (GoFloat.ofNat u)
  | _ => .err (.msg "cell value is not compatible with float")

end Cell

/-! ## payload.go -/

/-- /repo/bufr/payload.go:49-58 `Subset`, together with the heap its node references point
into.  The subsets of a compressed payload share one tree; each record then carries the same
heap. -/
structure Subset (F : Type) where
  index : Int
  cells : List (Cell F)
  root : NodeId
  heap : Heap F
  deriving Repr, DecidableEq, Inhabited

/-- /repo/bufr/payload.go:7-10 `Payload` -/
structure Payload (F : Type) where
  subsets : List (Subset F) := []
  compressed : Bool
  deriving Repr, DecidableEq, Inhabited

/-- /repo/bufr/payload.go:30-33 `AddSubset` with `SetIndex` 72-74.  (The Go method also changes
the index of the caller's object, which is the one stored.) -/
def Payload.addSubset (p : Payload F) (s : Subset F) : Payload F :=
  { p with subsets := p.subsets ++ [{ s with index := p.subsets.length }] }

/-- /repo/bufr/payload.go:35-42 `Add` -/
def Payload.add (p : Payload F) (root : NodeId) (cells : List (Cell F)) (heap : Heap F) : Payload F :=
  { p with subsets := p.subsets ++ [⟨p.subsets.length, cells, root, heap⟩] }

/-! ## field.go, section.go, message.go -/

/-- Values of fields: simple ones, the template or the payload. -/
inductive FieldVal (F : Type) where
  | val (v : Val F)
  | template (ut : UnexpandedTemplate)
  | payload (p : Payload F)
  deriving Repr, DecidableEq, Inhabited

/-- /repo/bufr/field.go:41-62 `Field`; the `Lookup` function is never set by the code and left
out, `Virtual` is always false and left out. -/
structure Field (F : Type) where
  name : GoString
  value : FieldVal F
  nbits : Int
  hidden : Bool := false
  deriving Repr, DecidableEq, Inhabited

/-- /repo/bufr/field.go:68-70 `Field.IsMissing` -/
def Field.isMissing (f : Field F) : Bool :=
  match f.value with
  | .val v => Gobufr.isMissing v f.nbits
  | _ => false

/-- /repo/bufr/field.go:76-78 `NewField` -/
def newField (name : GoString) (value : FieldVal F) (nbits : Int) : Field F := ⟨name, value, nbits, false⟩

/-- /repo/bufr/field.go:80-84 `NewHiddenField` -/
def newHiddenField (name : GoString) (value : FieldVal F) (nbits : Int) : Field F :=
  { newField name value nbits with hidden := true }

/-- /repo/bufr/section.go:10-25 `Section`; of the metadata only the description is ever set. -/
structure Section (F : Type) where
  number : Int
  description : GoString
  startByteIndex : Int := 0
  padding : Int := 0
  fields : List (Field F) := []
  deriving Repr, DecidableEq, Inhabited

/-- /repo/bufr/section.go:71-78 `NewSection` -/
def newSection (number : Int) (description : GoString) : Section F :=
  { number := number, description := description }

/-- /repo/bufr/section.go:52-54 `AddField` -/
def Section.addField (s : Section F) (f : Field F) : Section F := { s with fields := s.fields ++ [f] }

/-- /repo/bufr/section.go:59-63, the loop of `FieldByName` -/
def fieldByNameLoop (name : GoString) : List (Field F) → Option (Field F)
  | [] => none
  | p :: ps => if p.name = name then some p else fieldByNameLoop name ps

/-- /repo/bufr/section.go:58-65 `FieldByName`; `none` is nil. -/
def Section.fieldByName (s : Section F) (name : GoString) : Option (Field F) :=
  fieldByNameLoop name s.fields

/-- /repo/bufr/message.go:10-22 `Message`; of the metadata only the input path is ever set.
The section currently being built is the last one (the factory holds a pointer to it). -/
structure Message (F : Type) where
  inputPath : GoString
  sections : List (Section F) := []
  proxyFields : List (GoString × Field F) := []
  deriving Repr, DecidableEq, Inhabited

/-- /repo/bufr/message.go:69-77 `NewMessage` -/
def newMessage (inputPath : GoString) : Message F := { inputPath := inputPath }

/-- /repo/bufr/message.go:44-48 `Message.NewSection` -/
def Message.newSection (m : Message F) (number : Int) (description : GoString) : Message F :=
  { m with sections := m.sections ++ [Gobufr.newSection number description] }

/-- /repo/bufr/message.go:50-52 `SetProxyField` -/
def Message.setProxyField (m : Message F) (f : Field F) : Message F :=
  { m with proxyFields := mapSet m.proxyFields f.name f }

/-- /repo/bufr/message.go:54-60 `ProxyField` -/
def Message.proxyField (m : Message F) (name : GoString) : Outcome (Field F) :=
  match mapGet m.proxyFields name with
  | some f => .ok f
  | none => .err (.msg "no proxy field")

end Gobufr
