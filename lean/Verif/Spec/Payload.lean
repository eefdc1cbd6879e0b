import Verif.Model.Payload

/-!
# Specification vocabulary: decoding into a table

The data section as a flat table: one column per decoded value, in the order of the data, with
the values of all subsets (uncompressed: of the one subset).  There is no tree, no heap and no
parent stack: replications are plain repetition and sequences their members.  Other columns are
referred to by their number.

`Represents` says when a state of the decoder of the code stands for a table.
-/

namespace Gobufr
namespace Flat

variable {F : Type}

/-- Two lists related element by element. -/
inductive All2 (R : α → β → Prop) : List α → List β → Prop where
  | nil : All2 R [] []
  | cons : R a b → All2 R as bs → All2 R (a :: as) (b :: bs)

/-- A decoded value: the descriptor, how it was packed, the columns attached to it (attributes;
`none` for a nil), and the value for every subset. -/
structure Column (F : Type) where
  desc : NodeDesc
  info : PackingInfo F
  minValue : Val F
  nbitsDiff : Int
  attrs : List (Option Nat)
  vals : List (Val F)
  deriving Repr, DecidableEq, Inhabited

/-- An associated field in force: its width, and the column of its significance. -/
structure Assoc where
  nbits : Int
  sig : Option Nat
  deriving Repr, DecidableEq, Inhabited

/-- State of the decoder.  `subsets` is the number of subsets of compressed data, `none` for
uncompressed data.  `backref`, `targets`, `bitmaps`, `reusable` and `current` belong to the bitmaps. -/
structure State (F : Type) where
  r : Reader F
  subsets : Option Nat
  cols : List (Column F)
  nbitsOffset : Int := 0
  scaleOffset : Int := 0
  assoc : List Assoc := []
  nbitsIncrement : Int := 0
  scaleIncrement : Int := 0
  refvalFactor : Int := 0
  nbitsString : Int := 0
  backref : Int := -1
  targets : List Nat := []
  bitmaps : List Bitmap := []
  reusable : Option Nat := none
  current : Option Nat := none
  deriving Repr, DecidableEq, Inhabited

/-- The number of columns; asking for it crashes when there are no subsets. -/
def State.len (f : State F) : Outcome Int :=
  if f.subsets = some 0 then .panic "index out of range" else .ok f.cols.length

/-- The value of column `i` in the first subset. -/
def State.value (f : State F) (i : Int) : Outcome (Val F) := do
  let c ← index f.cols i
  .ok (c.vals.getD 0 .nil)

/-- All values are the first one. -/
def allEqual [GoFloat F] (v : Val F) : List (Val F) → Outcome Bool
  | [] => .ok true
  | w :: ws => do
    let b ← ifaceEq v w
    if b then allEqual v ws else .ok false

/-- The last column has the same value in all subsets. -/
def State.lastEqual [GoFloat F] (f : State F) : Outcome Bool :=
  match f.subsets with
  | none => .ok true
  | some _ => do
    let c ← index f.cols (f.cols.length - 1)
    match c.vals with
    | [] => .ok true
    | v :: vs => allEqual v vs

/-- Read one column. -/
def build [GoFloat F] (c : VisCfg) (d : NodeDesc) (info : PackingInfo F) : M (State F) Nat := do
  let val ← M.zoom State.r (fun r f => { f with r := r }) (c.unpacker.unpack info)
  fun f =>
    match f.subsets, val with
    | none, .plain v =>
      (.ok f.cols.length, { f with cols := f.cols ++ [⟨d, info, .nil, 0, [], [v]⟩] })
    | none, .compressed _ => (.panic "does not occur", f)
    | some 0, _ => (.panic "index out of range", f)
    | some (_ + 1), .plain _ => (.panic "interface conversion", f)
    | some (_ + 1), .compressed cv =>
      (.ok f.cols.length,
        { f with cols := f.cols ++ [⟨d, info, cv.minValue, cv.nbitsDiff, [], cv.values⟩] })

/-- How the next value of an element is packed: table B as modified by the operators in force. -/
def State.packing [GoFloat F] (f : State F) (d : Option Desc) : Outcome (PackingInfo F) :=
  match d with
  | none => .panic "nil pointer dereference"
  | some d =>
    match d.entry with
    | .b e =>
      match e.unit with
      | .string =>
        .ok ⟨e.unit, 0, GoFloat.ofNat 0, if f.nbitsString ≠ 0 then f.nbitsString else e.nbits⟩
      | .numeric =>
        .ok ⟨e.unit, e.scale + f.scaleOffset + f.scaleIncrement,
          GoFloat.mul (GoFloat.ofInt e.refval) (GoFloat.pow10 f.refvalFactor),
          e.nbits + f.nbitsOffset + f.nbitsIncrement⟩
      | _ => .ok ⟨e.unit, e.scale, GoFloat.ofInt e.refval, e.nbits⟩
    | _ => .panic "interface conversion: table.Entry is not *table.Bentry"

/-- Attach column `j` to column `i`. -/
def attachTo (i : Nat) (j : Option Nat) : M (State F) Unit :=
  M.modify fun f => { f with cols := f.cols.modify i fun x => { x with attrs := x.attrs ++ [j] } }

/-- Attach several columns. -/
def attachAll (i : Nat) : List Nat → M (State F) Unit
  | [] => pure ()
  | j :: js => do attachTo i (some j); attachAll i js

/-- Read an element. -/
def buildElement [GoFloat F] (c : VisCfg) (d : Desc) : M (State F) Nat := do
  let info ← (fun f => (f.packing (some d), f))
  build c ⟨some d, false⟩ info

/-- Read the associated fields of an element. -/
def buildAssocs [GoFloat F] (c : VisCfg) (d : Desc) : List Assoc → M (State F) (List Nat)
  | [] => pure []
  | a :: as => do
    let i ← build c ⟨some d, true⟩ (Vis.plainInfo .nonnegCode a.nbits)
    attachTo i a.sig
    let is ← buildAssocs c d as
    pure (i :: is)

/-- An element has the associated fields in force, if it is not of class 31. -/
def elementAssocs [GoFloat F] (c : VisCfg) (d : Desc) : M (State F) (List Nat) := fun f =>
  buildAssocs c d (if d.id.X = 31 then [] else f.assoc) f

/-- Give up the innermost associated field. -/
def popAssoc : M (State F) Unit := fun f =>
  if f.assoc.isEmpty then (.panic "slice bounds out of range", f)
  else (.ok (), { f with assoc := f.assoc.dropLast })

/-- Operators that are given a column of zero width in compatible mode. -/
def buildZero [GoFloat F] (c : VisCfg) (d : Desc) : M (State F) Unit :=
  if c.compatible then
    M.ignoreErr () (do let _ ← build c ⟨some d, false⟩ (Vis.plainInfo .nonnegCode 0); pure ())
  else pure ()

/-- Fix the end of the cells assessments refer to. -/
def newAssessment : M (State F) Unit := fun f =>
  if f.backref = -1 then
    match f.len with
    | .ok n => (.ok (), { f with backref := n - 1 })
    | .err e => (.err e, f)
    | .panic w => (.panic w, f)
    | .diverge => (.diverge, f)
  else (.ok (), f)

/-- Start a bitmap. -/
def newBitmap : M (State F) Unit := do
  let n ← (fun f => (f.len, f))
  M.modify fun f => { f with
    bitmaps := f.bitmaps ++ [{ index0 := n }]
    current := some f.bitmaps.length
    reusable := some f.bitmaps.length }

/-- End the current bitmap. -/
def endBitmap : M (State F) Unit := fun f =>
  match f.len, f.current with
  | .ok n, some b => (.ok (), { f with bitmaps := f.bitmaps.modify b fun x => { x with index1 := n } })
  | .panic w, _ => (.panic w, f)
  | _, _ => (.panic "nil pointer dereference", f)

/-- Forget the bitmap. -/
def cancelBitmap : M (State F) Unit := M.modify fun f => { f with reusable := none, current := none }

/-- The bits in columns `i`, ..., `i + k - 1`. -/
def bitsOf [GoFloat F] (f : State F) : Nat → Int → Outcome (List Nat)
  | 0, _ => .ok []
  | k + 1, i => do
    let v ← f.value i
    let b ← Cell.uintValue ⟨0, v⟩
    let bs ← bitsOf f k (i + 1)
    .ok (b :: bs)

/-- The bits of the current bitmap. -/
def State.bits [GoFloat F] (f : State F) : Outcome (List Nat) :=
  match f.current.bind fun b => f.bitmaps[b]? with
  | none => .panic "nil pointer dereference"
  | some b =>
    if b.index1 - b.index0 < 0 then .panic "makeslice: len out of range"
    else bitsOf f (b.index1 - b.index0).toNat b.index0

/-- The columns `lo`, ..., `lo + bits - 1` whose bit is 0. -/
def zeros : List Nat → Nat → List Nat
  | [], _ => []
  | b :: bs, lo => if b = 0 then lo :: zeros bs (lo + 1) else zeros bs (lo + 1)

/-- The columns a bitmap selects, counting back from the back reference.  An empty bitmap and one
that is longer than the columns there are is an error. -/
def selectTargets [GoFloat F] : M (State F) (List Nat) := do
  let bits ← (fun f => (f.bits, f))
  let n ← (fun f => (.ok (f.backref + 1), f))
  if n < bits.length ∨ (bits = [] ∧ 0 < n) then
    M.fail (.msg "inconsistent number of bits and target nodes")
  else do
    M.modify fun f => { f with targets := zeros bits (n.toNat - bits.length) }
    pure (zeros bits (n.toNat - bits.length))

/-- Attach the source columns to the targets, and the attributes to the sources. -/
def attachSources (attrs : List Nat) : List Nat → List Nat → M (State F) Unit
  | [], _ => pure ()
  | _ :: _, [] => M.crash "index out of range"
  | s :: ss, t :: ts => do
    attachTo t (some s)
    attachAll s attrs
    attachSources attrs ss ts

/-- The columns that are added by some decoding. -/
def added (m : M (State F) Unit) : M (State F) (List Nat) := do
  let a0 ← (fun f => (f.len, f))
  m
  let a1 ← (fun f => (f.len, f))
  pure (List.range' a0.toNat (a1 - a0).toNat)

/-- Set the significance of the innermost associated field. -/
def setSig (i : Nat) : List Assoc → List Assoc
  | [] => []
  | [p] => [{ p with sig := some i }]
  | p :: ps => p :: setSig i ps

/-- Decode a delayed replication, given how to decode the factor and the block. -/
def delayed [GoFloat F] (factor block : M (State F) Unit) : M (State F) Unit := do
  factor
  let same ← (fun f => (f.lastEqual, f))
  if !same then
    M.fail (.msg "delayed replication factor not equal across all (compressed) subsets")
  else do
    let n ← (fun f => (f.len, f))
    let v ← (fun f => (f.value (n - 1), f))
    let k ← M.lift (Cell.uintValue ⟨0, v⟩)
    Vis.repeatM block k

/-- Decode a marker: packed like the next target. -/
def marker [GoFloat F] (c : VisCfg) (d : Desc) : M (State F) Unit := do
  let t ← (fun f => match f.targets with
    | [] => (.panic "index out of range", f)
    | t :: ts => (.ok t, { f with targets := ts }))
  let td ← (fun f => (match f.cols[t]? with
    | some col => (.ok col.desc.d : Outcome (Option Desc))
    | none => .panic "does not occur: targets are valued nodes", f))
  let info ← (fun f => (f.packing td, f))
  let info := if td.map (fun x => x.id.Operator) = some 225 then
      { info with refval := GoFloat.ofInt (toInt64 (-(shl64 1 (toUint info.nbits) : Int))),
                  nbits := info.nbits + 1 }
    else info
  let _ ← build c ⟨some d, false⟩ info
  pure ()

/-- Decode an assessment, given how to decode its parts. -/
def assessment [GoFloat F] (c : VisCfg) (d : Desc) (bitmap attrs members : M (State F) Unit) :
    M (State F) Unit := do
  newAssessment
  buildZero c d
  bitmap
  let as ← added attrs
  let ts ← selectTargets
  let ss ← added members
  attachSources as ss ts

/-- New reference values: the map they should be put into does not exist. -/
def refvals [GoFloat F] (c : VisCfg) (info : PackingInfo F) : List Ast → M (State F) Unit
  | [] => pure ()
  | m :: _ => do
    let _ ← build c ⟨m.descriptor, false⟩ info
    match m.descriptor with
    | none => M.crash "nil pointer dereference"
    | some _ => M.crash "assignment to entry in nil map"

/-- Decode the bitmap of an assessment, given how to decode its members. -/
def bitmapDef [GoFloat F] (c : VisCfg) (d : Option Desc) (members : M (State F) Unit) : M (State F) Unit :=
  match d with
  | none => M.crash "nil pointer dereference"
  | some d => do
    buildZero c d
    if d.id = 237000 then M.modify fun f => { f with current := f.reusable }
    else do
      newBitmap
      M.deferDo endBitmap members

mutual
/-- Decode a node of the template. -/
def visit [GoFloat F] (c : VisCfg) : Ast → M (State F) Unit
  | .base _ ms => visitL c ms
  | .element d np =>
    if np then pure ()
    else do
      let is ← elementAssocs c d
      let i ← buildElement c d
      attachAll i is
  | .e031021 d => do
    let i ← buildElement c d
    M.modify fun f => { f with assoc := setSig i f.assoc }
  | .fixedRepl d ms => Vis.repeatM (visitL c ms) d.id.Y.toNat
  | .delayedRepl _ ms => match ms with
      | [] => M.crash "index out of range"
      | m :: rest => delayed (visit c m) (visitL c rest)
  | .sequence _ ms => visitL c ms
  | .nbitsOffset d => M.modify fun f => { f with nbitsOffset := if d.id.Y = 0 then 0 else d.id.Y - 128 }
  | .scaleOffset d => M.modify fun f => { f with scaleOffset := if d.id.Y = 0 then 0 else d.id.Y - 128 }
  | .newRefval d ms => if d.id.Y ≠ 255 then refvals c (Vis.plainInfo .code d.id.Y) ms else pure ()
  | .assocField d ms => do
    if d.id.Y = 0 then
      popAssoc
    else M.modify fun f => { f with assoc := f.assoc ++ [⟨d.id.Y, none⟩] }
    visitL c ms
  | .insertString d => do
    let _ ← build c ⟨some d, false⟩ (Vis.plainInfo .string (d.id.Y * 8))
    pure ()
  | .skipLocal d ms =>
    match ms with
    | [] => M.crash "index out of range"
    | m :: _ => do
      let _ ← build c ⟨m.descriptor, false⟩ (Vis.plainInfo .binary d.id.Y)
      pure ()
  | .modifyPacking d => M.modify fun f => { f with
      nbitsIncrement := if d.id.Y = 0 then 0 else (10 * d.id.Y + 2).tdiv 3
      scaleIncrement := d.id.Y, refvalFactor := d.id.Y }
  | .setStringLength d => M.modify fun f => { f with nbitsString := d.id.Y * 8 }
  | .dataNotPresent _ ms => visitL c ms
  | .assessment d bm as ms => assessment c d (visit c bm) (visitL c as) (visitL c ms)
  | .marker d => marker c d
  | .cancelBackRef _ => M.modify fun f => { f with backref := -1, reusable := none, current := none }
  | .cancelBitmap _ => cancelBitmap
  | .bitmap d ms => bitmapDef c d (visitL c ms)
/-- Decode a list of nodes. -/
def visitL [GoFloat F] (c : VisCfg) : List Ast → M (State F) Unit
  | [] => pure ()
  | m :: ms => do visit c m; visitL c ms
end

mutual
/-- There is no root node in a tree; only the root of a template is one. -/
def noBase : Ast → Bool
  | .base _ _ => false
  | .sequence _ ms | .fixedRepl _ ms | .delayedRepl _ ms | .newRefval _ ms | .assocField _ ms
  | .skipLocal _ ms | .dataNotPresent _ ms | .bitmap _ ms => noBaseL ms
  | .assessment _ b as ms => noBase b && noBaseL as && noBaseL ms
  | _ => true
/-- No root node in a list. -/
def noBaseL : List Ast → Bool
  | [] => true
  | m :: ms => noBase m && noBaseL ms
end

/-- The empty table: no operator is in force. -/
def fresh (c : VisCfg) (r : Reader F) : State F where
  r := r
  subsets := if c.compressed = true ∧ c.inputType = .binary then some c.nsubsets.toNat else none
  cols := []

/-! ## The table of a decoder state -/

/-- The kind of a node is that of column `i`. -/
def kindOf (i : Nat) (col : Column F) : NodeKind F := .valued col.desc i col.info col.minValue col.nbitsDiff

/-- A reference to the node of a column. -/
def Ref (ρ : List NodeId) (n : NodeId) (i : Nat) : Prop := ρ[i]? = some n

/-- A reference that may be nil. -/
def RefO (ρ : List NodeId) : Option NodeId → Option Nat → Prop
  | none, none => True
  | some n, some i => Ref ρ n i
  | _, _ => False

/-- `ρ` lists the nodes of the columns: every column has its node in the heap, with the right
index and the nodes of its attributes as members. -/
structure Nodes (ρ : List NodeId) (heap : Heap F) (cols : List (Column F)) : Prop where
  length : ρ.length = cols.length
  node : ∀ (i : Nat) (n : NodeId) (col : Column F), ρ[i]? = some n → cols[i]? = some col →
    ∃ ms, heap[n]? = some ⟨kindOf i col, ms⟩ ∧
      All2 (RefO ρ) ms col.attrs

/-- The cells of the decoder: for subset number `k`, cell `i` is the node and value of column `i`. -/
def cellsOf (ρ : List NodeId) (cols : List (Column F)) (k : Nat) : List (Cell F) :=
  List.zipWith (fun n col => ⟨n, col.vals.getD k .nil⟩) ρ cols

/-- A node that is not the node of a value. -/
def Inner (heap : Heap F) (n : NodeId) : Prop :=
  ∃ x, heap[n]? = some x ∧ ∀ d i info mv nd, x.kind ≠ .valued d i info mv nd

/-- The decoder state `s` stands for the table `f`, with the nodes `ρ` of its columns. -/
structure Represents (c : VisCfg) (ρ : List NodeId) (s : Vis F) (f : State F) : Prop where
  r : s.r = f.r
  subsets : f.subsets = if c.compressed = true ∧ c.inputType = .binary then some c.nsubsets.toNat else none
  nodes : Nodes ρ s.heap f.cols
  widths : ∀ col ∈ f.cols, col.vals.length = f.subsets.getD 1
  cells : s.cells = match f.subsets with
    | none => .flat (cellsOf ρ f.cols 0)
    | some n => .tissues ((List.range n).map (cellsOf ρ f.cols))
  node : Inner s.heap s.node
  stack : ∀ n ∈ s.stack, Inner s.heap n
  nbitsOffset : s.nbitsOffset = f.nbitsOffset
  scaleOffset : s.scaleOffset = f.scaleOffset
  newRefval : s.newRefval = none
  assoc : All2 (fun p a => p.nbits = a.nbits ∧ RefO ρ p.node a.sig) s.assoc f.assoc
  nbitsIncrement : s.nbitsIncrement = f.nbitsIncrement
  scaleIncrement : s.scaleIncrement = f.scaleIncrement
  refvalFactor : s.refvalFactor = f.refvalFactor
  nbitsString : s.nbitsString = f.nbitsString
  backref : s.bm.backref1 = f.backref
  targets : All2 (Ref ρ) s.bm.targets f.targets
  bitmaps : s.bm.bitmaps = f.bitmaps
  reusable : s.bm.reusable = f.reusable
  current : s.bm.current = f.current
  backref_ge : -1 ≤ f.backref
  backref_lt : f.backref < f.cols.length
  empty : f.subsets = some 0 → f.cols = []

/-! ## Looking at a decoder state -/

/-- The `Index` of a node, if it is the node of a value. -/
def indexOf (heap : Heap F) (n : NodeId) : Option Int :=
  match heap[n]? with
  | some ⟨.valued _ i _ _ _, _⟩ => some i
  | _ => none

/-- The column a node stands for, with the given values: what the node records about the value,
and its members as numbers of columns. -/
def columnOf (heap : Heap F) (n : NodeId) (vals : List (Val F)) : Option (Column F) :=
  match heap[n]? with
  | some ⟨.valued d _ info mv nd, ms⟩ =>
    some ⟨d, info, mv, nd, ms.map fun m => m.bind fun k => (indexOf heap k).map Int.toNat, vals⟩
  | _ => none

/-- The subsets that are being decoded. -/
def subsetsOf : Cells F → List (List (Cell F))
  | .flat cs => [cs]
  | .tissues ts => ts

/-- The number of subsets, if compressed. -/
def subsetCount : Cells F → Option Nat
  | .flat _ => none
  | .tissues ts => some ts.length

/-- The table of a decoder state: everything of the state except how the nodes are arranged in a
tree. -/
def tableOf (s : Vis F) : State F where
  r := s.r
  subsets := subsetCount s.cells
  cols := ((subsetsOf s.cells).headD []).zipIdx.filterMap fun x =>
    columnOf s.heap x.1.n ((subsetsOf s.cells).map fun t => (t[x.2]?.map Cell.v).getD .nil)
  nbitsOffset := s.nbitsOffset
  scaleOffset := s.scaleOffset
  assoc := s.assoc.map fun p => ⟨p.nbits, p.node.bind fun k => (indexOf s.heap k).map Int.toNat⟩
  nbitsIncrement := s.nbitsIncrement
  scaleIncrement := s.scaleIncrement
  refvalFactor := s.refvalFactor
  nbitsString := s.nbitsString
  backref := s.bm.backref1
  targets := s.bm.targets.map fun k => ((indexOf s.heap k).map Int.toNat).getD 0
  bitmaps := s.bm.bitmaps
  reusable := s.bm.reusable
  current := s.bm.current

/-- The configuration is one made by `NewDeserializeVisitor`. -/
def CfgOk (c : VisCfg) : Prop :=
  ∃ fuel, newDeserializeVisitor fuel c.compressed c.inputType c.compatible c.nsubsets = .ok c

/-- A consistent decoder state: it is described by its table. -/
def WellFormed (c : VisCfg) (s : Vis F) : Prop := ∃ ρ, Represents c ρ s (tableOf s)

/-! ## Packing operators -/

/-- The operands of the operators 201, 202, 207 and 208 in force; 0 is none. -/
structure Operands where
  y201 : Int := 0
  y202 : Int := 0
  y207 : Int := 0
  y208 : Int := 0
  deriving Repr, DecidableEq, Inhabited

/-- How an element with the given table B entry is packed: 201 adds Y - 128 bits, 202 adds Y - 128
to the scale, 207 adds Y to the scale, multiplies the reference value by 10^Y and adds
(10 Y + 2) / 3 bits; all of numeric elements only.  208 makes strings Y characters wide. -/
def Operands.packing [GoFloat F] (o : Operands) (e : Bentry) : PackingInfo F :=
  match e.unit with
  | .numeric => {
      unit := .numeric
      nbits := e.nbits + (if o.y201 = 0 then 0 else o.y201 - 128) + (10 * o.y207 + 2).tdiv 3
      scale := e.scale + (if o.y202 = 0 then 0 else o.y202 - 128) + o.y207
      refval := GoFloat.mul (GoFloat.ofInt e.refval) (GoFloat.pow10 o.y207) }
  | .string => {
      unit := .string
      nbits := if o.y208 = 0 then e.nbits else 8 * o.y208
      scale := 0
      refval := GoFloat.ofNat 0 }
  | u => { unit := u, nbits := e.nbits, scale := e.scale, refval := GoFloat.ofInt e.refval }

/-- The decoder has the operand of 201 in force. -/
def In201 (s : Vis F) (y : Int) : Prop := s.nbitsOffset = if y = 0 then 0 else y - 128
/-- The decoder has the operand of 202 in force. -/
def In202 (s : Vis F) (y : Int) : Prop := s.scaleOffset = if y = 0 then 0 else y - 128
/-- The decoder has the operand of 207 in force. -/
def In207 (s : Vis F) (y : Int) : Prop :=
  s.nbitsIncrement = (10 * y + 2).tdiv 3 ∧ s.scaleIncrement = y ∧ s.refvalFactor = y
/-- The decoder has the operand of 208 in force. -/
def In208 (s : Vis F) (y : Int) : Prop := s.nbitsString = 8 * y
/-- The decoder has the operands in force. -/
def InForce (s : Vis F) (o : Operands) : Prop :=
  In201 s o.y201 ∧ In202 s o.y202 ∧ In207 s o.y207 ∧ In208 s o.y208

/-! ## Bitmaps -/

/-- The number a value stands for; missing values and texts stand for none. -/
def numberOf [GoFloat F] : Val F → Option Nat
  | .uint n => some n
  | .int i => some (toUint i)
  | .float x => some (GoFloat.roundUint x)
  | _ => none

/-- The columns from `b.index0` on, up to but not including `b.index1`, hold the numbers `bits` in
the first subset. -/
structure BitsAt [GoFloat F] (cols : List (Column F)) (b : Bitmap) (bits : List Nat) : Prop where
  length : b.index1 = b.index0 + bits.length
  bit : ∀ (j : Nat) (n : Nat), bits[j]? = some n → ∃ (k : Nat) (col : Column F) (v : Val F),
    b.index0 + j = k ∧ cols[k]? = some col ∧ col.vals.head? = some v ∧ numberOf v = some n

/-- The bitmap in force. -/
def currentBitmap (s : Vis F) : Option Bitmap := s.bm.current.bind fun b => s.bm.bitmaps[b]?

/-- The columns selected by a bitmap that ends at column `n`: those whose bit is 0. -/
def selected (bits : List Nat) (n : Nat) : List Nat :=
  ((List.range bits.length).filter fun j => bits[j]? = some 0).map fun j => n - bits.length + j

/-- The nodes of the cells. -/
def cellNodes (s : Vis F) : List NodeId := ((subsetsOf s.cells).headD []).map Cell.n

end Flat
end Gobufr
