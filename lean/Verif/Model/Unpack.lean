import Verif.Model.Bufr

/-!
# Unpacking values

Models /repo/deserialize/unpack/unpacker.go, uncompress.go, compressed.go.
-/

namespace Gobufr

variable {F : Type}

/-- /repo/deserialize/unpack/compressed.go:12-16 `CompressedVal` -/
structure CompressedVal (F : Type) where
  minValue : Val F
  nbitsDiff : Int
  values : List (Val F)
  deriving Repr, DecidableEq, Inhabited

/-- What `Unpack` returns as `interface{}`: a plain value or a pointer to a CompressedVal. -/
inductive Unpacked (F : Type) where
  | plain (v : Val F)
  | compressed (c : CompressedVal F)
  deriving Repr, DecidableEq, Inhabited

/-- /repo/deserialize/unpack/unpacker.go:10-12 `Unpacker` and its implementations
(/repo/deserialize/unpack/uncompress.go:10-12, 47-49, compressed.go:18-21); the reader they
hold is the state of the calls.  `fuel` bounds the examined iterations of a loop that need not
end (see `newBinaryFromUint`). -/
inductive Unpacker where
  | uncompress
  | compressed (nsubsets : Int) (fuel : Nat)
  | json
  deriving Repr, DecidableEq, Inhabited

/-- /repo/deserialize/unpack/unpacker.go:15-27 `NewUnpacker` -/
def newUnpacker (fuel : Nat) (nsubsets : Int) (compressed : Bool) : InputType → Outcome Unpacker
  | .binary => if compressed then .ok (.compressed nsubsets fuel) else .ok .uncompress
  | .flatJson => .ok .json
  | .flatText => .err (.msg "no candidate unpacker")

/-- /repo/deserialize/unpack/unpacker.go:29-34 `unpackMissing` -/
def unpackMissing (info : PackingInfo F) (x : Nat) : Outcome (Val F) :=
  if isMissing (.uint x : Val F) info.nbits then .ok .nil else .ok (.uint x)

/-- `y == nil` for an interface value -/
def Val.isNil : Val F → Bool
  | .nil => true
  | _ => false

/-- /repo/deserialize/unpack/unpacker.go:37-55 `unpackNumeric` -/
def unpackNumeric [GoFloat F] (info : PackingInfo F) (x : Nat) : Outcome (Val F) := do
  let y ← unpackMissing info x
  if y.isNil then pure .nil
  else
    let xfloat : F := GoFloat.ofNat x
    if !GoFloat.isZero info.refval || info.scale ≠ 0 then
      let xfloat := if !GoFloat.isZero info.refval then GoFloat.add xfloat info.refval else xfloat
      let xfloat := if info.scale ≠ 0 then GoFloat.div xfloat (GoFloat.pow10 info.scale) else xfloat
      pure (.float xfloat)
    else pure (.float xfloat)

/-- /repo/deserialize/unpack/unpacker.go:57-59 `unpackBinary` -/
def unpackBinary (fuel : Nat) (info : PackingInfo F) (x : Nat) : Outcome (Val F) := do
  let b ← newBinaryFromUint fuel x info.nbits
  pure (.binary (some b))

/-- /repo/deserialize/unpack/uncompress.go:14-45 `UncompressBitUnpacker.Unpack`.  The `Unit` type
has no other values than the ones listed, so the default case does not occur. -/
def uncompressUnpack [GoFloat F] (info : PackingInfo F) : M (Reader F) (Val F) :=
  match info.unit with
  | .string => do let v ← Reader.readBytes (info.nbits.tdiv 8); pure (.bytes v)
  | .code => do let v ← Reader.readInt info.nbits; pure (.int v)
  | .nonnegCode | .flag =>
    if info.nbits = 0 then pure (.uint 0)
    else do let v ← Reader.readUint info.nbits; M.lift (unpackMissing info v)
  | .numeric => do let v ← Reader.readUint info.nbits; M.lift (unpackNumeric info v)
  | .binary => do let v ← Reader.readBinary info.nbits; pure (.binary v)

/-- /repo/deserialize/unpack/uncompress.go:51-71 `JsonUnpacker.Unpack` -/
def jsonUnpack [GoFloat F] (info : PackingInfo F) : M (Reader F) (Val F) :=
  match info.unit with
  | .string => do let v ← Reader.readBytes (info.nbits.tdiv 8); pure (.bytes v)
  | .code => do let v ← Reader.readInt info.nbits; pure (.int v)
  | .nonnegCode | .flag => do let v ← Reader.readUint info.nbits; pure (.uint v)
  | .numeric => do let v ← Reader.readNumber info.nbits; pure (.float v)
  | .binary => do let v ← Reader.readBinary info.nbits; pure (.binary v)

/-- /repo/deserialize/unpack/compressed.go:181-187 `readNbitsDiff` -/
def readNbitsDiff [GoFloat F] : M (Reader F) Int := do
  let n ← Reader.readUint 6
  pure (toInt64 n)

/-- `make([]interface{}, n)` panics for a negative length. -/
def makeCheck (n : Int) : M σ Unit :=
  if n < 0 then M.crash "makeslice: len out of range" else pure ()

/-- `for i := 0; i < n; i++ { values[i], err = f(); if err != nil { return } }` -/
def fillM (f : M σ α) : Nat → M σ (List α)
  | 0 => pure []
  | k + 1 => do
    let v ← f
    let vs ← fillM f k
    pure (v :: vs)

/-- /repo/deserialize/unpack/compressed.go:57-94 `unpackString` -/
def unpackString [GoFloat F] (nsubsets : Int) (info : PackingInfo F) :
    M (Reader F) (CompressedVal F) := do
  let nbytes := info.nbits.tdiv 8
  let minValue ← Reader.readBytes nbytes
  let nbitsDiff ← readNbitsDiff
  makeCheck nsubsets
  if nbitsDiff = 0 then
    pure ⟨.bytes minValue, nbitsDiff, List.replicate nsubsets.toNat (.bytes minValue)⟩
  else if minValue ≠ List.replicate nbytes.toNat 0 then
    M.fail (.msg "different string must be compressed with empty minimum value")
  else do
    let values ← fillM (Reader.readBytes nbitsDiff) nsubsets.toNat
    pure ⟨.bytes minValue, nbitsDiff, values.map .bytes⟩

/-- /repo/deserialize/unpack/compressed.go:128-138, one round of the loop of `unpackOthers` -/
def unpackDiff [GoFloat F] (unpackFunc : PackingInfo F → Nat → Outcome (Val F))
    (info : PackingInfo F) (minValue : Nat) (nbitsDiff : Int) : M (Reader F) (Val F) := do
  let diff ← Reader.readUint nbitsDiff
  if isMissing (.uint diff : Val F) nbitsDiff then pure .nil
  else M.lift (unpackFunc info ((minValue + diff) % two64))

/-- /repo/deserialize/unpack/compressed.go:96-142 `unpackOthers` -/
def unpackOthers [GoFloat F] (nsubsets : Int) (info : PackingInfo F)
    (unpackFunc : PackingInfo F → Nat → Outcome (Val F)) : M (Reader F) (CompressedVal F) := do
  let minValue ← Reader.readUint info.nbits
  let nbitsDiff ← readNbitsDiff
  makeCheck nsubsets
  if nbitsDiff = 0 then do
    let v ← M.lift (unpackFunc info minValue)
    pure ⟨.uint minValue, nbitsDiff, List.replicate nsubsets.toNat v⟩
  else if isMissing (.uint minValue : Val F) info.nbits then
    M.fail (.msg "missing value must have zero valued nbitsDiff")
  else do
    let values ← fillM (unpackDiff unpackFunc info minValue nbitsDiff) nsubsets.toNat
    pure ⟨.uint minValue, nbitsDiff, values⟩

/-- /repo/deserialize/unpack/compressed.go:166-175, one round of the loop of `unpackCode`.
`ret.Values[i].(int)`: the entry is still nil, so the type assertion panics. -/
def unpackCodeDiff [GoFloat F] (nbitsDiff : Int) : M (Reader F) (Val F) := do
  let diff ← Reader.readUint nbitsDiff
  if isMissing (.uint diff : Val F) nbitsDiff then pure .nil
  else M.crash "interface conversion: interface {} is nil, not int"

/-- /repo/deserialize/unpack/compressed.go:144-179 `unpackCode` -/
def unpackCode [GoFloat F] (nsubsets : Int) (info : PackingInfo F) :
    M (Reader F) (CompressedVal F) := do
  let minValue ← Reader.readInt info.nbits
  let nbitsDiff ← readNbitsDiff
  makeCheck nsubsets
  if nbitsDiff = 0 then
    pure ⟨.int minValue, nbitsDiff, List.replicate nsubsets.toNat (.int minValue)⟩
  else do
    let values ← fillM (unpackCodeDiff nbitsDiff) nsubsets.toNat
    pure ⟨.int minValue, nbitsDiff, values⟩

/-- /repo/deserialize/unpack/compressed.go:23-55 `CompressedBitUnpacker.Unpack` -/
def compressedUnpack [GoFloat F] (nsubsets : Int) (fuel : Nat) (info : PackingInfo F) :
    M (Reader F) (CompressedVal F) :=
  match info.unit with
  | .string => unpackString nsubsets info
  | .code => unpackCode nsubsets info
  | .nonnegCode | .flag =>
    if info.nbits = 0 then do
      makeCheck nsubsets
      pure ⟨.uint 0, 0, List.replicate nsubsets.toNat (.uint 0)⟩
    else unpackOthers nsubsets info unpackMissing
  | .numeric => unpackOthers nsubsets info unpackNumeric
  | .binary => unpackOthers nsubsets info (unpackBinary fuel)

/-- /repo/deserialize/unpack/unpacker.go:11 `Unpack`, dynamic dispatch -/
def Unpacker.unpack [GoFloat F] (u : Unpacker) (info : PackingInfo F) : M (Reader F) (Unpacked F) :=
  match u with
  | .uncompress => do let v ← uncompressUnpack info; pure (.plain v)
  | .compressed n fuel => do let c ← compressedUnpack n fuel info; pure (.compressed c)
  | .json => do let v ← jsonUnpack info; pure (.plain v)

end Gobufr
