import Verif.Model.Bufr

/-!
# Metadata, payloads and subsets as objects

Models the metadata of /repo/bufr/message.go and /repo/bufr/section.go, and /repo/bufr/payload.go with
the pointers to subsets that a caller shares with a payload (in `Verif.Model.Bufr` a subset is a value).  A slice of
cells is a value: that two subsets made from one slice may share its memory is left out.
-/

namespace Gobufr

variable {F : Type}

/-! ## Metadata -/

/-- A map from names to arbitrary values; those of `Val` stand for all values. -/
abbrev Metadata (F : Type) := List (GoString × Val F)

/-- /repo/bufr/message.go:69-77 `NewMessage`: the metadata of a new message -/
def messageMetadata (inputPath : GoString) : Metadata F := mapSet [] (str "inputPath") (.str inputPath)

/-- /repo/bufr/section.go:71-78 `NewSection`: the metadata of a new section -/
def sectionMetadata (description : GoString) : Metadata F := mapSet [] (str "description") (.str description)

/-- /repo/bufr/message.go:28-30, /repo/bufr/section.go:35-37 `SetMetadata` -/
def Metadata.set (m : Metadata F) (name : GoString) (value : Val F) : Metadata F := mapSet m name value

/-- /repo/bufr/message.go:32-38 `Message.Metadata`: nil for a name that is not there -/
def Metadata.ofMessage (m : Metadata F) (name : GoString) : Val F :=
  match mapGet m name with
  | some v => v
  | none => .nil

/-- /repo/bufr/section.go:39-46 `Section.Metadata`: `log.Fatalf` ends the program.  (That is worse than
a panic, which could be recovered from; there is no other way to represent it here.) -/
def Metadata.ofSection (m : Metadata F) (name : GoString) : Outcome (Val F) :=
  match mapGet m name with
  | some v => .ok v
  | none => .panic "exit status 1"

/-! ## Payloads and subsets -/

/-- A `*bufr.Subset` other than nil: position among the subsets created so far. -/
abbrev SubRef := Nat
/-- A `*bufr.Payload` other than nil. -/
abbrev PayRef := Nat

/-- /repo/bufr/payload.go:49-58 `Subset` -/
structure SubObj (F : Type) where
  index : Int
  cells : List (Cell F)
  root : NodeId
  deriving Repr, DecidableEq, Inhabited

/-- /repo/bufr/payload.go:7-10 `Payload` -/
structure PayObj where
  compressed : Bool
  subsets : List SubRef := []
  deriving Repr, DecidableEq, Inhabited

/-- The objects created so far. -/
structure PayMem (F : Type) where
  subs : List (SubObj F) := []
  pays : List PayObj := []
  deriving Repr, DecidableEq, Inhabited

/-- The calls that create or change payloads and subsets. -/
inductive PayOp (F : Type) where
  /-- `NewPayload(compressed)` -/
  | newPayload (compressed : Bool)
  /-- `NewSubset(cells, root)` -/
  | newSubset (cells : List (Cell F)) (root : NodeId)
  /-- `p.AddSubset(s)` -/
  | addSubset (p : PayRef) (s : SubRef)
  /-- `p.Add(root, cells)` -/
  | add (p : PayRef) (root : NodeId) (cells : List (Cell F))
  /-- `s.AddCell(cell)` -/
  | addCell (s : SubRef) (cell : Cell F)
  deriving Repr, DecidableEq, Inhabited

namespace PayMem

/-- /repo/bufr/payload.go:12-14 `NewPayload` -/
def newPayload (m : PayMem F) (compressed : Bool) : PayMem F :=
  { m with pays := m.pays ++ [{ compressed := compressed }] }

/-- /repo/bufr/payload.go:60-62 `NewSubset`: the index is 0 until the subset is added -/
def newSubset (m : PayMem F) (cells : List (Cell F)) (root : NodeId) : PayMem F :=
  { m with subs := m.subs ++ [⟨0, cells, root⟩] }

/-- /repo/bufr/payload.go:72-74 `SetIndex` -/
def setIndex (m : PayMem F) (s : SubRef) (index : Int) : PayMem F :=
  { m with subs := m.subs.modify s fun x => { x with index := index } }

/-- `p.subsets = append(p.subsets, s)` -/
def append (m : PayMem F) (p : PayRef) (s : SubRef) : PayMem F :=
  { m with pays := m.pays.modify p fun x => { x with subsets := x.subsets ++ [s] } }

/-- `len(p.subsets)` -/
def len (m : PayMem F) (p : PayRef) : Nat := (m.pays[p]?.map fun x => x.subsets.length).getD 0

/-- /repo/bufr/payload.go:30-33 `AddSubset` -/
def addSubset (m : PayMem F) (p : PayRef) (s : SubRef) : PayMem F := (m.setIndex s (m.len p)).append p s

/-- /repo/bufr/payload.go:35-42 `Add` -/
def add (m : PayMem F) (p : PayRef) (root : NodeId) (cells : List (Cell F)) : PayMem F :=
  PayMem.append { m with subs := m.subs ++ [⟨m.len p, cells, root⟩] } p m.subs.length

/-- /repo/bufr/payload.go:84-86 `AddCell` -/
def addCell (m : PayMem F) (s : SubRef) (cell : Cell F) : PayMem F :=
  { m with subs := m.subs.modify s fun x => { x with cells := x.cells ++ [cell] } }

/-- What a call does. -/
def step (m : PayMem F) : PayOp F → PayMem F
  | .newPayload c => m.newPayload c
  | .newSubset cs r => m.newSubset cs r
  | .addSubset p s => m.addSubset p s
  | .add p r cs => m.add p r cs
  | .addCell s c => m.addCell s c

/-- Calls one after the other. -/
def run (m : PayMem F) (ops : List (PayOp F)) : PayMem F := ops.foldl step m

/-- /repo/bufr/payload.go:20-22 `Subsets` -/
def subsets (m : PayMem F) (p : PayRef) : List SubRef := (m.pays[p]?.map fun x => x.subsets).getD []

/-- indexing a slice -/
def at_ (l : List α) (i : Int) : Outcome α :=
  if i < 0 then .panic "index out of range"
  else
    match l[i.toNat]? with
    | some a => .ok a
    | none => .panic "index out of range"

/-- /repo/bufr/payload.go:24-26 `Subset` -/
def subset (m : PayMem F) (p : PayRef) (i : Int) : Outcome SubRef := at_ (m.subsets p) i

/-- /repo/bufr/payload.go:68-70 `Index` -/
def index (m : PayMem F) (s : SubRef) : Option Int := m.subs[s]?.map fun x => x.index

/-- /repo/bufr/payload.go:76-78 `Cells` -/
def cells (m : PayMem F) (s : SubRef) : List (Cell F) := (m.subs[s]?.map fun x => x.cells).getD []

/-- /repo/bufr/payload.go:80-82 `Cell` -/
def cell (m : PayMem F) (s : SubRef) (i : Int) : Outcome (Cell F) := at_ (m.cells s) i

end PayMem

end Gobufr
