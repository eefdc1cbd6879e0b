import Verif.Model.FlatJson

/-!
# Specification vocabulary: reading a JSON document as a flat sequence of scalars
-/

namespace Gobufr

/-- A read request of the Reader interface, as issued to a JSON reader. -/
inductive JOp where
  | number | uint | int | bool | bytes | binary | float32
  deriving Repr, DecidableEq

/-- A value handed out by a JSON reader. -/
inductive JVal (F : Type) where
  | float (f : F)
  | uint (n : Nat)
  | int (i : Int)
  | bool (b : Bool)
  | bytes (s : GoString)
  | binary (b : Option Binary)
  deriving Repr, DecidableEq

variable {F : Type} [GoFloat F]

/-- The scalars of a document, in order. -/
def scalars (ts : List (Tok F)) : List (Tok F) := ts.filter fun | .delim => false | _ => true

/-- What each read makes of a scalar: the value if the scalar has the kind asked for. -/
def JOp.value : JOp → Tok F → Option (JVal F)
  | .number, .num f => some (.float f)
  | .float32, .num f => some (.float f)
  | .uint, .num f => some (.uint (GoFloat.truncUint f))
  | .int, .num f => some (.int (GoFloat.truncInt f))
  | .bool, .bool b => some (.bool b)
  | .bytes, .str s => some (.bytes s)
  | .binary, .str s =>
    if s.all (fun c => c == ch '0' || c == ch '1') then
      match newBinaryFromString s with
      | .ok b => some (.binary (some b))
      | _ => none
    else none
  | _, _ => none

/-- Issue the request to a FlatJsonReader (the width argument only affects `Pos`). -/
def JOp.runFlat (n : Int) : JOp → M (FlatJson F) (JVal F)
  | .number => do let v ← FlatJson.readNumber n; pure (.float v)
  | .uint => do let v ← FlatJson.readUint n; pure (.uint v)
  | .int => do let v ← FlatJson.readInt n; pure (.int v)
  | .bool => do let v ← FlatJson.readBool; pure (.bool v)
  | .bytes => do let v ← FlatJson.readBytes n; pure (.bytes v)
  | .binary => do let v ← FlatJson.readBinary n; pure (.binary v)
  | .float32 => do let v ← FlatJson.readFloat32; pure (.float v)

/-- Issue the request to a PeekableFlatJsonReader. -/
def JOp.runPeek (n : Int) : JOp → M (PeekJson F) (JVal F)
  | .number => do let v ← PeekJson.readNumber n; pure (.float v)
  | .uint => do let v ← PeekJson.readUint n; pure (.uint v)
  | .int => do let v ← PeekJson.readInt n; pure (.int v)
  | .bool => do let v ← PeekJson.readBool; pure (.bool v)
  | .bytes => do let v ← PeekJson.readBytes n; pure (.bytes v)
  | .binary => do let v ← PeekJson.readBinary n; pure (.binary v)
  | .float32 => do let v ← PeekJson.readFloat32; pure (.float v)

/-- Issue requests one after the other, whatever their outcome, and collect the outcomes
(as "value or not"). -/
def runEachFlat : List (JOp × Int) → FlatJson F → List (Option (JVal F))
  | [], _ => []
  | (op, n) :: ops, r =>
    match op.runFlat n r with
    | (.ok v, r') => some v :: runEachFlat ops r'
    | (_, r') => none :: runEachFlat ops r'

/-- The intended outcomes: the k-th request uses the k-th scalar. -/
def specEach : List JOp → List (Tok F) → List (Option (JVal F))
  | [], _ => []
  | _ :: ops, [] => none :: specEach ops []
  | op :: ops, s :: ss => op.value s :: specEach ops ss

/-- An event of a history on a peekable reader. -/
inductive JEvent where
  | read (op : JOp) (n : Int)
  | peekUint (skip : Nat) (n : Int)
  | peekBytes (skip : Nat) (n : Int)
  deriving Repr, DecidableEq

/-- Run one event; the outcome as "value or not". -/
def JEvent.run : JEvent → PeekJson F → Option (JVal F) × PeekJson F
  | .read op n, r => match op.runPeek n r with
    | (.ok v, r') => (some v, r')
    | (_, r') => (none, r')
  | .peekUint skip n, r => match PeekJson.peekUint skip n r with
    | (.ok v, r') => (some (.uint v), r')
    | (_, r') => (none, r')
  | .peekBytes skip n, r => match PeekJson.peekBytes skip n r with
    | (.ok v, r') => (some (.bytes v), r')
    | (_, r') => (none, r')

/-- Outcomes of a whole history. -/
def runHistory : List JEvent → PeekJson F → List (Option (JVal F))
  | [], _ => []
  | e :: es, r => (e.run r).1 :: runHistory es (e.run r).2

/-- The intended meaning of a history on the pending scalars: peeks look ahead without effect. -/
def specHistory : List JEvent → List (Tok F) → List (Option (JVal F))
  | [], _ => []
  | .read op _ :: es, ss => (ss.head?.bind op.value) :: specHistory es ss.tail
  | .peekUint skip _ :: es, ss => (ss[skip]?.bind JOp.uint.value) :: specHistory es ss
  | .peekBytes skip _ :: es, ss => (ss[skip]?.bind JOp.bytes.value) :: specHistory es ss

/-- `specHistory` restricted to the reads of the history. -/
def specReads (es : List JEvent) (ss : List (Tok F)) : List (Option (JVal F)) :=
  specEach (es.filterMap fun | .read op _ => some op | _ => none) ss

/-- Outcomes of the reads of a history (peeks performed, their outcomes not listed). -/
def runReads : List JEvent → PeekJson F → List (Option (JVal F))
  | [], _ => []
  | .read op n :: es, r => ((JEvent.read op n).run r).1 :: runReads es ((JEvent.read op n).run r).2
  | e :: es, r => runReads es (e.run r).2

/-- Number of scalars looked at but not yet read, and whether every peek of the history looks
at or beyond the furthest scalar already looked at. `total` is the number of pending scalars. -/
def forwardPeeks : List JEvent → (ahead total : Nat) → Bool
  | [], _, _ => true
  | .read _ _ :: es, a, t => forwardPeeks es (a - 1) (t - 1)
  | .peekUint skip _ :: es, a, t =>
    decide (a ≤ skip + 1) && forwardPeeks es (min (max a (skip + 1)) t) t
  | .peekBytes skip _ :: es, a, t =>
    decide (a ≤ skip + 1) && forwardPeeks es (min (max a (skip + 1)) t) t

end Gobufr
