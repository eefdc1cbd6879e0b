import Verif.Model.Ast
import Verif.Model.Unpack

/-!
# Decoding the data section

Models /repo/deserialize/payload/treebuilder.go, cellsbuilder.go, bitmap.go, build.go,
helpers.go and desvisitor.go.

* Nodes are references into the heap of the subset that is being decoded (`Vis.heap`); `reset`
  starts a new heap, as nothing of a former subset is referred to any more.
* The texts that `fmt.Errorf` puts before an error are dropped.
* `int` arithmetic on widths, scales, indices and counts is unbounded.
* `fmt.Println` in `VisitOpMarkerNode` and the unused `Verbose` are left out.
-/

namespace Gobufr

variable {F : Type}

/-! ## The state -/

/-- /repo/deserialize/payload/bitmap.go:11-15 `Bitmap` -/
structure Bitmap where
  index0 : Int
  index1 : Int := 0
  deriving Repr, DecidableEq, Inhabited

/-- /repo/deserialize/payload/bitmap.go:19-27 `BitmapManager`.  The bitmaps made so far are kept in
a list; `reusable` and `current` are positions in it (`none` is nil), since both may point to
the same bitmap.  The cells builder is that of the visitor. -/
structure BitmapMgr where
  backref1 : Int := -1
  targets : List NodeId := []
  bitmaps : List Bitmap := []
  reusable : Option Nat := none
  current : Option Nat := none
  deriving Repr, DecidableEq, Inhabited

/-- /repo/deserialize/payload/cellsbuilder.go:9-23 `CellsBuilder` and its implementations 25-27
`UncompressCellsBuilder`, 55-60 `CompressedCellsBuilder`.  `nsubsets` is only used to make the
tissues, `isubset` is never changed from 0; both are left out. -/
inductive Cells (F : Type) where
  | flat (cells : List (Cell F))
  | tissues (ts : List (List (Cell F)))
  deriving Repr, DecidableEq, Inhabited

/-- /repo/deserialize/payload/build.go:12-15 `assocPair`; `node = none` is a nil interface. -/
structure AssocPair where
  nbits : Int
  node : Option NodeId := none
  deriving Repr, DecidableEq, Inhabited

/-- /repo/deserialize/payload/desvisitor.go:22-42 `DesVisitor` with its `TreeBuilder`
(/repo/deserialize/payload/treebuilder.go:9-14): `node` is the current parent, `stack` the
parents above it, innermost first.  `r` is the reader the unpacker holds.  `newRefval = none` is
a nil map. -/
structure Vis (F : Type) where
  r : Reader F
  heap : Heap F
  node : NodeId
  stack : List NodeId
  cells : Cells F
  nbitsOffset : Int
  scaleOffset : Int
  newRefval : Option (List (ID × NodeId))
  assoc : List AssocPair
  nbitsIncrement : Int
  scaleIncrement : Int
  refvalFactor : Int
  nbitsString : Int
  bm : BitmapMgr
  deriving Repr, DecidableEq, Inhabited

/-- What does not change while decoding: /repo/deserialize/payload/desvisitor.go:12-18
`DesVisitorConfig`, the number of subsets and the unpacker. -/
structure VisCfg where
  compressed : Bool
  inputType : InputType
  compatible : Bool
  nsubsets : Int
  unpacker : Unpacker
  deriving Repr, DecidableEq, Inhabited

/-- /repo/deserialize/payload/desvisitor.go:44-55 `NewDeserializeVisitor`; for `fuel` see
`Unpacker`.  The arguments are the fields of the configuration that
/repo/deserialize/config.go:15-22 `toDesVisitorConfig` copies. -/
def newDeserializeVisitor (fuel : Nat) (compressed : Bool) (inputType : InputType) (compatible : Bool)
    (nsubsets : Int) : Outcome VisCfg := do
  let u ← newUnpacker fuel nsubsets compressed inputType
  pure ⟨compressed, inputType, compatible, nsubsets, u⟩

/-! ## treebuilder.go -/

namespace Vis

/-- `&bufr.ValuelessNode{...}`, `bufr.NewBlock()`, `&bufr.ValuedNode{...}`: a new node -/
def alloc (k : NodeKind F) : M (Vis F) NodeId := fun s =>
  (.ok s.heap.length, { s with heap := s.heap ++ [⟨k, []⟩] })

/-- `n.AddMember(m)` -/
def addMember (n : NodeId) (m : Option NodeId) : M (Vis F) Unit :=
  M.modify fun s => { s with heap := s.heap.addMember n m }

/-- /repo/deserialize/payload/treebuilder.go:21-23 `Add` -/
def treeAdd (n : NodeId) : M (Vis F) Unit := fun s => addMember s.node (some n) s

/-- /repo/deserialize/payload/treebuilder.go:26-29 `Push`: the node is not made a member of its
parent. -/
def treePush (n : NodeId) : M (Vis F) Unit :=
  M.modify fun s => { s with stack := s.node :: s.stack, node := n }

/-- /repo/deserialize/payload/treebuilder.go:32-34 `Pop` -/
def treePop : M (Vis F) Unit := fun s =>
  match s.stack with
  | [] => (.panic "slice bounds out of range", s)
  | n :: st => (.ok (), { s with stack := st, node := n })

/-- /repo/deserialize/payload/treebuilder.go:36-41 `Root` -/
def treeRoot : M (Vis F) NodeId := fun s =>
  if s.stack.isEmpty then (.ok s.node, s)
  else (.err (.msg "tree builder stack is not empty when root node is required"), s)

/-- `v.treeBuilder.Add(&bufr.ValuelessNode{Descriptor: d})` -/
def addValueless (d : Option Desc) : M (Vis F) Unit := do
  let n ← alloc (.valueless ⟨d, false⟩)
  treeAdd n

/-- `v.treeBuilder.Push(node)` of a new node and `defer v.treeBuilder.Pop()` around the rest, as in
/repo/deserialize/payload/build.go:42-51 `buildBlock`. -/
def within (k : NodeKind F) (m : M (Vis F) Unit) : M (Vis F) Unit := do
  let n ← alloc k
  treePush n
  M.deferDo treePop m

end Vis

/-! ## cellsbuilder.go -/

/-- Slice indexing -/
def index (l : List α) (i : Int) : Outcome α :=
  if i < 0 then .panic "index out of range"
  else match l[i.toNat]? with
    | some a => .ok a
    | none => .panic "index out of range"

/-- `a != b` on interface values holding cell values: the result of `a == b`.  Values of different
dynamic types differ; comparing two `[]byte` panics.  Pointers to Binary are compared by what
they point to, but never occur here (`C47_diverges`: compressed binaries do not decode). -/
def ifaceEq [GoFloat F] : Val F → Val F → Outcome Bool
  | .nil, .nil => .ok true
  | .uint a, .uint b => .ok (a == b)
  | .int a, .int b => .ok (a == b)
  | .float a, .float b => .ok (GoFloat.eq a b)
  | .bool a, .bool b => .ok (a == b)
  | .str a, .str b => .ok (a == b)
  | .bytes _, .bytes _ => .panic "comparing uncomparable type []uint8"
  | .binary a, .binary b => .ok (a == b)
  | _, _ => .ok false

namespace Cells

/-- /repo/deserialize/payload/cellsbuilder.go:35-37, 73-75 `Len` -/
def len : Cells F → Outcome Int
  | flat cs => .ok cs.length
  | tissues [] => .panic "index out of range"
  | tissues (t :: _) => .ok t.length

/-- /repo/deserialize/payload/cellsbuilder.go:39-41, 78-80 `Cell` -/
def cell (i : Int) : Cells F → Outcome (Cell F)
  | flat cs => index cs i
  | tissues [] => .panic "index out of range"
  | tissues (t :: _) => index t i

/-- /repo/deserialize/payload/cellsbuilder.go:85-89, the loop of `LastCellEquality` -/
def sameValue [GoFloat F] (v : Val F) (i : Int) : List (List (Cell F)) → Outcome Bool
  | [] => .ok true
  | t :: ts => do
    let c ← index t i
    let b ← ifaceEq v c.v
    if b then sameValue v i ts else .ok false

/-- /repo/deserialize/payload/cellsbuilder.go:44-46, 82-91 `LastCellEquality` -/
def lastCellEquality [GoFloat F] : Cells F → Outcome Bool
  | flat _ => .ok true
  | tissues [] => .panic "index out of range"
  | tissues (t :: ts) => do
    let c ← index t (t.length - 1)
    sameValue c.v (t.length - 1) ts

/-- /repo/deserialize/payload/cellsbuilder.go:67-70, the loop of the compressed `Add` -/
def addColumn (n : NodeId) : List (Val F) → List (List (Cell F)) → Outcome (List (List (Cell F)))
  | [], ts => .ok ts
  | _ :: _, [] => .panic "index out of range"
  | v :: vs, t :: ts => do
    let ts' ← addColumn n vs ts
    .ok ((t ++ [⟨n, v⟩]) :: ts')

end Cells

/-- `node.Index = i`, and for compressed values `node.MinValue`, `node.NbitsDiff` -/
def Heap.setIndex (h : Heap F) (n : NodeId) (i : Int) (mv : Val F) (nd : Int) : Heap F :=
  h.modify n fun x => { x with kind := match x.kind with
    | .valued d _ info _ _ => .valued d i info mv nd
    | k => k }

namespace Vis

/-- /repo/deserialize/payload/cellsbuilder.go:35, 73 `v.cellsBuilder.Len()` -/
def len : M (Vis F) Int := fun s => (s.cells.len, s)

/-- `v.cellsBuilder.Cell(i)` -/
def cell (i : Int) : M (Vis F) (Cell F) := fun s => (s.cells.cell i, s)

/-- `v.cellsBuilder.LastCellEquality()` -/
def lastCellEquality [GoFloat F] : M (Vis F) Bool := fun s => (s.cells.lastCellEquality, s)

/-- /repo/deserialize/payload/cellsbuilder.go:29-33, 62-71 `Add`.  A compressed value is never
added to an UncompressCellsBuilder, as `reset` chooses the builder on the same condition as
`NewUnpacker` the unpacker. -/
def cellsAdd (n : NodeId) (val : Unpacked F) : M (Vis F) Unit := fun s =>
  match s.cells, val with
  | .flat cs, .plain v =>
    (.ok (), { s with heap := s.heap.setIndex n cs.length .nil 0, cells := .flat (cs ++ [⟨n, v⟩]) })
  | .flat _, .compressed _ => (.panic "does not occur", s)
  | .tissues [], _ => (.panic "index out of range", s)
  | .tissues (_ :: _), .plain _ => (.panic "interface conversion", s)
  | .tissues (t :: ts), .compressed c =>
    match Cells.addColumn n c.values (t :: ts) with
    | .ok ts' =>
      (.ok (), { s with heap := s.heap.setIndex n t.length c.minValue c.nbitsDiff, cells := .tissues ts' })
    | .err e => (.err e, s)
    | .panic w => (.panic w, s)
    | .diverge => (.diverge, s)

/-! ## build.go, helpers.go -/

/-- `v.unpacker.Unpack(info)` -/
def unpack [GoFloat F] (c : VisCfg) (info : PackingInfo F) : M (Vis F) (Unpacked F) :=
  M.zoom Vis.r (fun r s => { s with r := r }) (c.unpacker.unpack info)

/-- /repo/deserialize/payload/build.go:85-94 `buildValuedNodeWithInfo` -/
def buildValuedNodeWithInfo [GoFloat F] (c : VisCfg) (d : NodeDesc) (info : PackingInfo F) :
    M (Vis F) NodeId := do
  let val ← unpack c info
  let n ← alloc (.valued d 0 info .nil 0)
  treeAdd n
  cellsAdd n val
  pure n

/-- `&bufr.PackingInfo{Unit: u, Nbits: n}` -/
def plainInfo [GoFloat F] (u : Unit') (n : Int) : PackingInfo F := ⟨u, 0, GoFloat.ofNat 0, n⟩

/-- /repo/deserialize/payload/helpers.go:29-41, the reference value of a numeric element -/
def calcRefval [GoFloat F] (s : Vis F) (d : Desc) (e : Bentry) : Outcome F :=
  match s.newRefval.bind fun m => mapGet m d.id with
  | some n => do
    let same ← s.cells.lastCellEquality
    if !same then .err (.msg "new ref val not equal across all (compressed) subsets")
    else
      let i : Int := match s.heap[n]? with
        | some ⟨.valued _ i _ _ _, _⟩ => i
        | _ => 0
      let c ← s.cells.cell i
      let v ← c.floatValue
      pure (GoFloat.mul v (GoFloat.pow10 s.refvalFactor))
  | none => .ok (GoFloat.mul (GoFloat.ofInt e.refval) (GoFloat.pow10 s.refvalFactor))

/-- /repo/deserialize/payload/helpers.go:10-51 `calcPackingInfo`; a nil descriptor panics, the
type assertion panics for entries that are not of table B. -/
def calcPackingInfo [GoFloat F] (s : Vis F) (d : NodeDesc) : Outcome (PackingInfo F) :=
  match d.d with
  | none => .panic "nil pointer dereference"
  | some d =>
    match d.entry with
    | .b e =>
      match e.unit with
      | .string =>
        .ok ⟨e.unit, 0, GoFloat.ofNat 0, if s.nbitsString ≠ 0 then s.nbitsString else e.nbits⟩
      | .numeric => do
        let refval ← calcRefval s d e
        .ok ⟨e.unit, e.scale + s.scaleOffset + s.scaleIncrement, refval,
          e.nbits + s.nbitsOffset + s.nbitsIncrement⟩
      | _ => .ok ⟨e.unit, e.scale, GoFloat.ofInt e.refval, e.nbits⟩
    | _ => .panic "interface conversion: table.Entry is not *table.Bentry"

/-- /repo/deserialize/payload/build.go:75-81 `buildValuedNode` -/
def buildValuedNode [GoFloat F] (c : VisCfg) (d : NodeDesc) : M (Vis F) NodeId := do
  let info ← (fun s => (calcPackingInfo s d, s))
  buildValuedNodeWithInfo c d info

/-- /repo/deserialize/payload/build.go:59-68, the loop of `buildAssocNodes` -/
def assocLoop [GoFloat F] (c : VisCfg) (d : Desc) : List AssocPair → M (Vis F) (List NodeId)
  | [] => pure []
  | p :: ps => do
    let n ← buildValuedNodeWithInfo c ⟨some d, true⟩ (plainInfo .nonnegCode p.nbits)
    addMember n p.node
    let ns ← assocLoop c d ps
    pure (n :: ns)

/-- /repo/deserialize/payload/build.go:54-70 `buildAssocNodes` -/
def buildAssocNodes [GoFloat F] (c : VisCfg) (d : Desc) : M (Vis F) (List NodeId) := fun s =>
  if d.id.X = 31 ∨ s.assoc.length = 0 then (.ok [], s) else assocLoop c d s.assoc s

/-- /repo/deserialize/payload/build.go:97-105 `buildZeroNode` -/
def buildZeroNode [GoFloat F] (c : VisCfg) (d : Option Desc) : M (Vis F) Unit :=
  if c.compatible then do
    let _ ← buildValuedNodeWithInfo c ⟨d, false⟩ (plainInfo .nonnegCode 0)
    pure ()
  else addValueless d

/-! ## bitmap.go -/

/-- /repo/deserialize/payload/bitmap.go:31-35 `NewAssessment` -/
def newAssessment : M (Vis F) Unit := fun s =>
  if s.bm.backref1 = -1 then
    match s.cells.len with
    | .ok n => (.ok (), { s with bm.backref1 := n - 1 })
    | .err e => (.err e, s)
    | .panic w => (.panic w, s)
    | .diverge => (.diverge, s)
  else (.ok (), s)

/-- /repo/deserialize/payload/bitmap.go:38-44 `NewBitmap` -/
def newBitmap (reusable : Bool) : M (Vis F) Unit := do
  let n ← len
  M.modify fun s => { s with
    bm.bitmaps := s.bm.bitmaps ++ [{ index0 := n }]
    bm.current := some s.bm.bitmaps.length
    bm.reusable := if reusable then some s.bm.bitmaps.length else s.bm.reusable }

/-- /repo/deserialize/payload/bitmap.go:47-49 `EndBitmap` -/
def endBitmap : M (Vis F) Unit := fun s =>
  match s.cells.len, s.bm.current with
  | .ok n, some b =>
    (.ok (), { s with bm.bitmaps := s.bm.bitmaps.modify b fun x => { x with index1 := n } })
  | .panic w, _ => (.panic w, s)
  | _, _ => (.panic "nil pointer dereference", s)

/-- /repo/deserialize/payload/bitmap.go:51-53 `RecallBitmap` -/
def recallBitmap : M (Vis F) Unit := M.modify fun s => { s with bm.current := s.bm.reusable }

/-- /repo/deserialize/payload/bitmap.go:56-59 `CancelBitmap` -/
def cancelBitmap : M (Vis F) Unit :=
  M.modify fun s => { s with bm.reusable := none, bm.current := none }

/-- /repo/deserialize/payload/bitmap.go:62-65 `CancelBackref` -/
def cancelBackref : M (Vis F) Unit := do
  M.modify fun s => { s with bm.backref1 := -1 }
  cancelBitmap

/-- /repo/deserialize/payload/bitmap.go:71-78, the loop of `Bits` over `k` cells from `i` on -/
def bitsLoop [GoFloat F] (cells : Cells F) : Nat → Int → Outcome (List Nat)
  | 0, _ => .ok []
  | k + 1, i => do
    let c ← cells.cell i
    let b ← c.uintValue
    let bs ← bitsLoop cells k (i + 1)
    .ok (b :: bs)

/-- /repo/deserialize/payload/bitmap.go:68-80 `Bits` -/
def bits [GoFloat F] (s : Vis F) : Outcome (List Nat) :=
  match s.bm.current.bind fun b => s.bm.bitmaps[b]? with
  | none => .panic "nil pointer dereference"
  | some b =>
    if b.index1 - b.index0 < 0 then .panic "makeslice: len out of range"
    else bitsLoop s.cells (b.index1 - b.index0).toNat b.index0

/-- /repo/deserialize/payload/bitmap.go:89-95, the loop of `InitTargetNodes` downward from
`i = k - 1` -/
def targetLoop (cells : Cells F) (want : Nat) : Nat → List NodeId → Outcome (List NodeId)
  | 0, acc => .ok acc
  | k + 1, acc => do
    let c ← cells.cell k
    if (c.n :: acc).length < want then targetLoop cells want k (c.n :: acc) else .ok (c.n :: acc)

/-- /repo/deserialize/payload/bitmap.go:102-107, the nodes whose bit is 0 -/
def selectTargets : List Nat → List NodeId → List NodeId
  | b :: bs, n :: ns => if b = 0 then n :: selectTargets bs ns else selectTargets bs ns
  | _, _ => []

/-- /repo/deserialize/payload/bitmap.go:83-109 `InitTargetNodes` -/
def initTargetNodes [GoFloat F] : M (Vis F) (List NodeId) := do
  let bits ← (fun s => (s.bits, s))
  let nodes ← (fun s => (targetLoop s.cells bits.length (s.bm.backref1 + 1).toNat [], s))
  if bits.length ≠ nodes.length then
    M.fail (.msg "inconsistent number of bits and target nodes")
  else do
    M.modify fun s => { s with bm.targets := selectTargets bits nodes }
    pure (selectTargets bits nodes)

/-- /repo/deserialize/payload/bitmap.go:111-114 `NextTargetNode` -/
def nextTargetNode : M (Vis F) NodeId := fun s =>
  match s.bm.targets with
  | [] => (.panic "index out of range", s)
  | n :: ns => (.ok n, { s with bm.targets := ns })

/-! ## desvisitor.go -/

/-- /repo/deserialize/payload/desvisitor.go:67-88 `reset` -/
def reset (c : VisCfg) : M (Vis F) Unit := fun s =>
  if c.compressed = true ∧ c.inputType = .binary ∧ c.nsubsets < 0 then
    (.panic "makeslice: len out of range", s)
  else (.ok (), {
    r := s.r
    heap := [⟨.block, []⟩]
    node := 0
    stack := []
    cells := if c.compressed = true ∧ c.inputType = .binary
      then .tissues (List.replicate c.nsubsets.toNat []) else .flat []
    nbitsOffset := 0
    scaleOffset := 0
    newRefval := none
    assoc := []
    nbitsIncrement := 0
    scaleIncrement := 0
    refvalFactor := 0
    nbitsString := 0
    bm := {} })

/-- `for i := 0; i < n; i++ { if err := m(); err != nil { return err } }` -/
def repeatM (m : M σ Unit) : Nat → M σ Unit
  | 0 => pure ()
  | k + 1 => do m; repeatM m k

/-- /repo/deserialize/payload/desvisitor.go:205-211, the loop of `VisitOpNewRefvalNode`;
assigning to an entry of a nil map panics. -/
def newRefvalLoop [GoFloat F] (c : VisCfg) (info : PackingInfo F) : List Ast → M (Vis F) Unit
  | [] => pure ()
  | m :: ms => do
    let n ← buildValuedNodeWithInfo c ⟨m.descriptor, false⟩ info
    match m.descriptor with
    | none => M.crash "nil pointer dereference"
    | some d => do
      (fun s => match s.newRefval with
        | none => (.panic "assignment to entry in nil map", s)
        | some mp => (.ok (), { s with newRefval := some (mapSet mp d.id n) }))
      newRefvalLoop c info ms

/-- /repo/deserialize/payload/build.go:26-28 `Pop` -/
def assocPop : M (Vis F) Unit := fun s =>
  if s.assoc.isEmpty then (.panic "slice bounds out of range", s)
  else (.ok (), { s with assoc := s.assoc.dropLast })

/-- /repo/deserialize/payload/build.go:22-24 `Push` -/
def assocPush (nbits : Int) : M (Vis F) Unit :=
  M.modify fun s => { s with assoc := s.assoc ++ [{ nbits := nbits }] }

/-- Set the node of the last pair. -/
def setLastNode (n : NodeId) : List AssocPair → List AssocPair
  | [] => []
  | [p] => [{ p with node := some n }]
  | p :: ps => p :: setLastNode n ps

/-- /repo/deserialize/payload/build.go:31-35 `SetNode` -/
def assocSetNode (n : NodeId) : M (Vis F) Unit :=
  M.modify fun s => { s with assoc := setLastNode n s.assoc }

/-- `for _, n := range assocNodes { enode.AddMember(n) }`,
/repo/deserialize/payload/desvisitor.go:116-120 and 309-311 -/
def addMembers (n : NodeId) : List NodeId → M (Vis F) Unit
  | [] => pure ()
  | m :: ms => do addMember n (some m); addMembers n ms

/-- /repo/deserialize/payload/desvisitor.go:369-371, the loop collecting the nodes of the cells
`i`, ..., `i + k - 1` -/
def nodesOfCells (cells : Cells F) : Nat → Int → Outcome (List NodeId)
  | 0, _ => .ok []
  | k + 1, i => do
    let c ← cells.cell i
    let ns ← nodesOfCells cells k (i + 1)
    .ok (c.n :: ns)

/-- /repo/deserialize/payload/desvisitor.go:360-373 `visitNodesForValuedNodes`, given the loop
visiting the nodes -/
def valuedNodes (visits : M (Vis F) Unit) : M (Vis F) (List NodeId) := do
  let a0 ← len
  visits
  let a1 ← len
  if a1 - a0 < 0 then M.crash "makeslice: len out of range"
  else fun s => (nodesOfCells s.cells (a1 - a0).toNat a0, s)

/-- /repo/deserialize/payload/desvisitor.go:307-312, the loop that attaches the source nodes -/
def attach (anodes : List NodeId) : List NodeId → List NodeId → M (Vis F) Unit
  | [], _ => pure ()
  | _ :: _, [] => M.crash "index out of range"
  | sn :: sns, t :: ts => do
    addMember t (some sn)
    addMembers sn anodes
    attach anodes sns ts

/-- /repo/deserialize/payload/desvisitor.go:316-330 `VisitOpMarkerNode` -/
def visitMarker [GoFloat F] (c : VisCfg) (d : Desc) : M (Vis F) Unit := do
  let t ← nextTargetNode
  let td ← (fun s => (match s.heap[t]? with
    | some ⟨.valued td _ _ _ _, _⟩ => (.ok td : Outcome NodeDesc)
    | _ => .panic "does not occur: targets are valued nodes", s))
  let info ← (fun s => (calcPackingInfo s td, s))
  let info := if td.d.map (fun x => x.id.Operator) = some 225 then
      { info with refval := GoFloat.ofInt (toInt64 (-(shl64 1 (toUint info.nbits) : Int))),
                  nbits := info.nbits + 1 }
    else info
  let _ ← buildValuedNodeWithInfo c ⟨some d, false⟩ info
  pure ()

/-- /repo/deserialize/payload/desvisitor.go:148-164, `VisitDelayedReplicationNode` after the push,
given the visits of the first and of the other members -/
def visitDelayed [GoFloat F] (first rest : M (Vis F) Unit) : M (Vis F) Unit := do
  first
  let same ← lastCellEquality
  if !same then
    M.fail (.msg "delayed replication factor not equal across all (compressed) subsets")
  else do
    let n ← len
    let x ← cell (n - 1)
    let k ← M.lift x.uintValue
    repeatM (within .block rest) k

/-- /repo/deserialize/payload/desvisitor.go:279-314 `VisitOpAssessmentNode`, given the visits of
its parts -/
def visitAssessment [GoFloat F] (c : VisCfg) (d : Desc) (bitmap attrs members : M (Vis F) Unit) :
    M (Vis F) Unit := do
  newAssessment
  M.ignoreErr () (buildZeroNode c (some d))
  bitmap
  let anodes ← valuedNodes attrs
  let targets ← initTargetNodes
  let snodes ← valuedNodes members
  attach anodes snodes targets

/-- /repo/deserialize/payload/desvisitor.go:342-358 `VisitBitmapNode`, given the visits of its
members -/
def visitBitmap [GoFloat F] (c : VisCfg) (d : Option Desc) (members : M (Vis F) Unit) : M (Vis F) Unit :=
  match d with
  | none => M.crash "nil pointer dereference"
  | some d => do
    M.ignoreErr () (buildZeroNode c (some d))
    if d.id = 237000 then recallBitmap
    else do
      newBitmap true
      M.deferDo endBitmap members

mutual
/-- /repo/deserialize/payload/desvisitor.go:90-358, the `Visit...` methods.  `VisitNode` (:90-98)
serves the `BaseNode`. -/
def visit [GoFloat F] (c : VisCfg) : Ast → M (Vis F) Unit
  | .base _ ms => do
    reset c
    visitL c ms
  -- :100-122
  | .element d np =>
    if np then addValueless (some d)
    else do
      let anodes ← buildAssocNodes c d
      let n ← buildValuedNode c ⟨some d, false⟩
      addMembers n anodes
  -- :125-132
  | .e031021 d => do
    let n ← buildValuedNode c ⟨some d, false⟩
    assocSetNode n
  -- :134-143
  | .fixedRepl d ms =>
    within (.valueless ⟨some d, false⟩) (repeatM (within .block (visitL c ms)) d.id.Y.toNat)
  -- :145-165
  | .delayedRepl d ms => within (.valueless ⟨some d, false⟩) (match ms with
      | [] => M.crash "index out of range"
      | m :: rest => visitDelayed (visit c m) (visitL c rest))
  -- :167-176
  | .sequence d ms => within (.valueless ⟨some d, false⟩) (visitL c ms)
  -- :178-187
  | .nbitsOffset d => do
    addValueless (some d)
    M.modify fun s => { s with nbitsOffset := if d.id.Y = 0 then d.id.Y else d.id.Y - 128 }
  -- :189-198
  | .scaleOffset d => do
    addValueless (some d)
    M.modify fun s => { s with scaleOffset := if d.id.Y = 0 then d.id.Y else d.id.Y - 128 }
  -- :200-215
  | .newRefval d ms => do
    addValueless (some d)
    if d.id.Y ≠ 255 then newRefvalLoop c (plainInfo .code d.id.Y) ms else pure ()
  -- :217-230
  | .assocField d ms => do
    addValueless (some d)
    if d.id.Y = 0 then assocPop else assocPush d.id.Y
    visitL c ms
  -- :232-237
  | .insertString d => do
    let _ ← buildValuedNodeWithInfo c ⟨some d, false⟩ (plainInfo .string (d.id.Y * 8))
    pure ()
  -- :239-245
  | .skipLocal d ms => do
    addValueless (some d)
    match ms with
    | [] => M.crash "index out of range"
    | m :: _ => do
      let _ ← buildValuedNodeWithInfo c ⟨m.descriptor, false⟩ (plainInfo .binary d.id.Y)
      pure ()
  -- :247-261
  | .modifyPacking d => do
    addValueless (some d)
    if d.id.Y = 0 then
      M.modify fun s => { s with nbitsIncrement := 0, scaleIncrement := 0, refvalFactor := 0 }
    else
      M.modify fun s => { s with
        nbitsIncrement := (10 * d.id.Y + 2).tdiv 3, scaleIncrement := d.id.Y, refvalFactor := d.id.Y }
  -- :263-267
  | .setStringLength d => do
    addValueless (some d)
    M.modify fun s => { s with nbitsString := d.id.Y * 8 }
  -- :269-277
  | .dataNotPresent d ms => do
    addValueless (some d)
    visitL c ms
  -- :279-314
  | .assessment d bm attrs ms => visitAssessment c d (visit c bm) (visitL c attrs) (visitL c ms)
  -- :316-330
  | .marker d => visitMarker c d
  -- :332-335
  | .cancelBackRef _ => cancelBackref
  -- :337-340
  | .cancelBitmap _ => cancelBitmap
  -- :342-358
  | .bitmap d ms => visitBitmap c d (visitL c ms)
/-- The loops over member nodes, /repo/deserialize/payload/desvisitor.go:92-96 and elsewhere. -/
def visitL [GoFloat F] (c : VisCfg) : List Ast → M (Vis F) Unit
  | [] => pure ()
  | m :: ms => do visit c m; visitL c ms
end

/-- /repo/deserialize/payload/cellsbuilder.go:48-50, 93-97 `CellsBuilder.Produce` -/
def addSubsets (heap : Heap F) (root : NodeId) : Cells F → Payload F → Payload F
  | .flat cs, p => p.add root cs heap
  | .tissues ts, p => ts.foldl (fun p t => p.add root t heap) p

/-- /repo/deserialize/payload/desvisitor.go:58-65 `Produce` -/
def produce (p : Payload F) : M (Vis F) (Payload F) := do
  let root ← treeRoot
  fun s => (.ok (addSubsets s.heap root s.cells p), s)

/-- /repo/deserialize/factory.go:202-209, the loop of `NewPayloadField` over the subsets -/
def decodeSubsets [GoFloat F] (c : VisCfg) (tree : Ast) : Nat → Payload F → M (Vis F) (Payload F)
  | 0, p => pure p
  | k + 1, p => do
    visit c tree
    let p ← produce p
    decodeSubsets c tree k p

end Vis

end Gobufr
