import Verif.Model.Binary
import Verif.Model.Float

/-!
# tdcfio.FlatJsonReader and tdcfio.PeekableFlatJsonReader

Models /repo/tdcfio/flatjsonreader.go.  The JSON text is represented by the sequence of tokens
that `json.Decoder.Token` delivers, followed by the error it returns at the end (`io.EOF`, or
a syntax error for malformed text).
-/

namespace Gobufr

/-- A `json.Token`: delimiter, nil, bool, float64 or string (`UseNumber` is not set). -/
inductive Tok (F : Type) where
  | delim
  | null
  | bool (b : Bool)
  | num (f : F)
  | str (s : GoString)
  deriving Repr, DecidableEq, Inhabited

/-- /repo/tdcfio/flatjsonreader.go:11-14 `FlatJsonReader` -/
structure FlatJson (F : Type) where
  toks : List (Tok F)
  endErr : Err
  pos : Int
  deriving Repr, DecidableEq, Inhabited

namespace FlatJson

variable {F : Type}

/-- /repo/tdcfio/flatjsonreader.go:20-23 `NewFlatJsonReader` -/
def new (toks : List (Tok F)) (endErr : Err := .eof) : FlatJson F := ⟨toks, endErr, 0⟩

/-- /repo/tdcfio/flatjsonreader.go:93-105 `token`, the loop over the decoder's tokens. -/
def tokenLoop (endErr : Err) : List (Tok F) → Outcome (Tok F) × List (Tok F)
  | [] => (.err (.wrap "cannot get token" endErr), [])
  | .delim :: ts => tokenLoop endErr ts
  | t :: ts => (.ok t, ts)

/-- /repo/tdcfio/flatjsonreader.go:93-105 `token` -/
def token : M (FlatJson F) (Tok F) := fun r =>
  match tokenLoop r.endErr r.toks with
  | (o, ts) => (o, { r with toks := ts })

/-- /repo/tdcfio/flatjsonreader.go:156-162 `float64` -/
def toFloat : Tok F → Outcome F
  | .num f => .ok f
  | _ => .err (.msg "value is not float64 type")

/-- /repo/tdcfio/flatjsonreader.go:108-114 `uint` -/
def toUint [GoFloat F] (t : Tok F) : Outcome Nat := do
  let v ← toFloat t
  .ok (GoFloat.truncUint v)

/-- /repo/tdcfio/flatjsonreader.go:116-122 `int` -/
def toInt [GoFloat F] (t : Tok F) : Outcome Int := do
  let v ← toFloat t
  .ok (GoFloat.truncInt v)

/-- /repo/tdcfio/flatjsonreader.go:124-130 `bool` -/
def toBool : Tok F → Outcome Bool
  | .bool b => .ok b
  | _ => .err (.msg "value is not bool type")

/-- /repo/tdcfio/flatjsonreader.go:148-154 `string` -/
def toStr : Tok F → Outcome GoString
  | .str s => .ok s
  | _ => .err (.msg "value is not string type")

/-- /repo/tdcfio/flatjsonreader.go:132-138 `bytes` -/
def toBytes (t : Tok F) : Outcome (List UInt8) := toStr t

/-- /repo/tdcfio/flatjsonreader.go:140-146 `binary` -/
def toBinary (t : Tok F) : Outcome (Option Binary) := do
  let s ← toStr t
  let b ← newBinaryFromString s
  .ok (some b)

/-- The common shape of the `ReadXXX` methods, e.g. /repo/tdcfio/flatjsonreader.go:29-36: get a
token, advance `pos` by the nominal width, convert. -/
def readWith (width : Int) (conv : Tok F → Outcome α) : M (FlatJson F) α := do
  let t ← token
  M.modify fun r => { r with pos := r.pos + width }
  M.lift (conv t)

/-- /repo/tdcfio/flatjsonreader.go:29-36 `ReadNumber` -/
def readNumber (n : Int) : M (FlatJson F) F := readWith n toFloat
/-- /repo/tdcfio/flatjsonreader.go:38-45 `ReadUint` -/
def readUint [GoFloat F] (n : Int) : M (FlatJson F) Nat := readWith n toUint
/-- /repo/tdcfio/flatjsonreader.go:47-54 `ReadInt` -/
def readInt [GoFloat F] (n : Int) : M (FlatJson F) Int := readWith n toInt
/-- /repo/tdcfio/flatjsonreader.go:56-63 `ReadBool` -/
def readBool : M (FlatJson F) Bool := readWith 1 toBool
/-- /repo/tdcfio/flatjsonreader.go:65-72 `ReadBytes` -/
def readBytes (n : Int) : M (FlatJson F) (List UInt8) := readWith (n * 8) toBytes
/-- /repo/tdcfio/flatjsonreader.go:74-81 `ReadBinary` -/
def readBinary (n : Int) : M (FlatJson F) (Option Binary) := readWith n toBinary
/-- /repo/tdcfio/flatjsonreader.go:83-90 `ReadFloat32` -/
def readFloat32 : M (FlatJson F) F := readWith 32 toFloat

end FlatJson

/-- /repo/tdcfio/flatjsonreader.go:165-168 `PeekableFlatJsonReader` -/
structure PeekJson (F : Type) where
  base : FlatJson F
  cache : List (Tok F)
  deriving Repr, DecidableEq, Inhabited

namespace PeekJson

variable {F : Type}

/-- /repo/tdcfio/flatjsonreader.go:173-175 `NewPeekableFlatJsonReader` -/
def new (toks : List (Tok F)) (endErr : Err := .eof) : PeekJson F := ⟨FlatJson.new toks endErr, []⟩

/-- run a call of the embedded FlatJsonReader -/
def onBase (m : M (FlatJson F) α) : M (PeekJson F) α := fun r =>
  match m r.base with
  | (o, b) => (o, { r with base := b })

/-- /repo/tdcfio/flatjsonreader.go:263-269 `shift`.  The result `none` is the Go `nil`: either
there is no cached token, or the cached token is itself nil (JSON null) - the callers cannot
tell these apart. -/
def shift : M (PeekJson F) (Option (Tok F)) := fun r =>
  match r.cache with
  | [] => (.ok none, r)
  | .null :: ts => (.ok none, { r with cache := ts })
  | t :: ts => (.ok (some t), { r with cache := ts })

/-- The common shape of the overridden `ReadXXX` methods, e.g.
/repo/tdcfio/flatjsonreader.go:177-183. -/
def readWith (width : Int) (conv : Tok F → Outcome α) : M (PeekJson F) α := do
  match ← shift with
  | some t => do
    M.modify fun r => { r with base := { r.base with pos := r.base.pos + width } }
    M.lift (conv t)
  | none => onBase (FlatJson.readWith width conv)

/-- /repo/tdcfio/flatjsonreader.go:177-183 `ReadNumber` -/
def readNumber (n : Int) : M (PeekJson F) F := readWith n FlatJson.toFloat
/-- /repo/tdcfio/flatjsonreader.go:185-191 `ReadUint` -/
def readUint [GoFloat F] (n : Int) : M (PeekJson F) Nat := readWith n FlatJson.toUint
/-- /repo/tdcfio/flatjsonreader.go:193-199 `ReadInt` -/
def readInt [GoFloat F] (n : Int) : M (PeekJson F) Int := readWith n FlatJson.toInt
/-- /repo/tdcfio/flatjsonreader.go:201-207 `ReadBool` -/
def readBool : M (PeekJson F) Bool := readWith 1 FlatJson.toBool
/-- /repo/tdcfio/flatjsonreader.go:209-215 `ReadBytes` -/
def readBytes (n : Int) : M (PeekJson F) (List UInt8) := readWith (n * 8) FlatJson.toBytes
/-- /repo/tdcfio/flatjsonreader.go:217-223 `ReadBinary` -/
def readBinary (n : Int) : M (PeekJson F) (Option Binary) := readWith n FlatJson.toBinary

/-- /repo/tdcfio/flatjsonreader.go:225-231 `ReadFloat32`: when nothing is cached the method calls
itself (not the embedded reader's method).  `fuel` bounds the recursion examined. -/
def readFloat32Fuel : Nat → M (PeekJson F) F
  | 0 => M.loop
  | fuel + 1 => do
    match ← shift with
    | some t => do
      M.modify fun r => { r with base := { r.base with pos := r.base.pos + 32 } }
      M.lift (FlatJson.toFloat t)
    | none => readFloat32Fuel fuel

/-- `ReadFloat32` with enough fuel: the recursion can only end while cached tokens remain
(proved in Verif/Props/Json.lean). -/
def readFloat32 : M (PeekJson F) F := fun r => readFloat32Fuel (r.cache.length + 1) r

/-- /repo/tdcfio/flatjsonreader.go:252-258, the loop of `peek`. -/
def fill : Nat → M (PeekJson F) Unit
  | 0 => pure ()
  | k + 1 => do
    let t ← M.wrapErr "cannot peek token" (onBase FlatJson.token)
    M.modify fun r => { r with cache := r.cache ++ [t] }
    fill k

/-- /repo/tdcfio/flatjsonreader.go:249-260 `peek` -/
def peek (skip : Int) : M (PeekJson F) (Tok F) := do
  let r ← M.get
  fill (skip - (r.cache.length : Int) + 1).toNat
  let r ← M.get
  match r.cache.getLast? with
  | some t => pure t
  | none => M.crash "index out of range"

/-- /repo/tdcfio/flatjsonreader.go:233-239 `PeekUint` -/
def peekUint [GoFloat F] (skip _n : Int) : M (PeekJson F) Nat := do
  let t ← peek skip
  M.lift (FlatJson.toUint t)

/-- /repo/tdcfio/flatjsonreader.go:241-247 `PeekBytes` -/
def peekBytes (skip _n : Int) : M (PeekJson F) (List UInt8) := do
  let t ← peek skip
  M.lift (FlatJson.toBytes t)

end PeekJson

end Gobufr
