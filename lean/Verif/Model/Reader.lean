import Verif.Model.BitReader
import Verif.Model.FlatJson

/-!
# tdcfio.PeekableReader

Models the interfaces of /repo/tdcfio/reader.go and their two implementations that can be
handed to a factory: the peekable bit reader and the peekable flat JSON reader.
-/

namespace Gobufr

/-- /repo/tdcfio/reader.go:6-12 `InputType` -/
inductive InputType where
  | binary | flatText | flatJson
  deriving Repr, DecidableEq, Inhabited

/-- /repo/tdcfio/reader.go:40-47 `PeekableReader`, an interface value holding one of the two
implementations. -/
inductive Reader (F : Type) where
  | bin (r : BitReader)
  | json (r : PeekJson F)
  deriving Repr, DecidableEq, Inhabited

namespace Reader

variable {F : Type}

/-- Dynamic dispatch of an interface method. -/
def call (mb : M BitReader α) (mj : M (PeekJson F) α) : M (Reader F) α
  | .bin r => ((mb r).1, .bin (mb r).2)
  | .json r => ((mj r).1, .json (mj r).2)

/-- /repo/tdcfio/reader.go:22 `Pos` (/repo/tdcfio/bitreader.go:28-30,
/repo/tdcfio/flatjsonreader.go:22-24) -/
def pos : Reader F → Int
  | .bin r => r.pos
  | .json r => r.base.pos

/-- /repo/tdcfio/reader.go:24 -/
def readNumber [GoFloat F] (n : Int) : M (Reader F) F := call (BitReader.readNumber n) (PeekJson.readNumber n)
/-- /repo/tdcfio/reader.go:25 -/
def readUint [GoFloat F] (n : Int) : M (Reader F) Nat := call (BitReader.readUint n) (PeekJson.readUint n)
/-- /repo/tdcfio/reader.go:26 -/
def readInt [GoFloat F] (n : Int) : M (Reader F) Int := call (BitReader.readInt n) (PeekJson.readInt n)
/-- /repo/tdcfio/reader.go:27 -/
def readBool : M (Reader F) Bool := call BitReader.readBool PeekJson.readBool
/-- /repo/tdcfio/reader.go:28 -/
def readBytes (n : Int) : M (Reader F) (List UInt8) := call (BitReader.readBytes n) (PeekJson.readBytes n)
/-- /repo/tdcfio/reader.go:29 -/
def readBinary (n : Int) : M (Reader F) (Option Binary) :=
  call (BitReader.readBinary n) (PeekJson.readBinary n)
/-- /repo/tdcfio/reader.go:32 -/
def readFloat32 [GoFloat F] : M (Reader F) F := call BitReader.readFloat32 PeekJson.readFloat32
/-- /repo/tdcfio/reader.go:43 -/
def peekUint [GoFloat F] (skip n : Int) : M (Reader F) Nat :=
  call (BitReader.peekUint skip n) (PeekJson.peekUint skip n)
/-- /repo/tdcfio/reader.go:46 -/
def peekBytes (skip n : Int) : M (Reader F) (List UInt8) :=
  call (BitReader.peekBytes skip n) (PeekJson.peekBytes skip n)

end Reader

end Gobufr
