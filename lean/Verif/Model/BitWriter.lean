import Verif.Model.Binary
import Verif.Model.Float

/-!
# tdcfio.BitWriter

Models /repo/tdcfio/bitwriter.go.  The state is the list of bits written so far.  The
`io.Writer` below is assumed not to fail, so no write returns an I/O error.  (The library
keeps an incomplete last byte in its buffer; the code offers no flush.)
-/

namespace Gobufr
namespace BitWriter

/-- /repo/tdcfio/bitwriter.go:22-24 `WriteUint` -/
def writeUint (v : Nat) (n : Int) : M Bits Unit := writeBits v n

/-- `1 << uint(n-1)` on `uint`: a negative count converts to a huge one and gives 0. -/
def signBit (n : Int) : Nat := shl64 1 (toUint (n - 1))

/-- /repo/tdcfio/bitwriter.go:30-35 `WriteInt` -/
def writeInt (v : Int) (n : Int) : M Bits Unit :=
  if v < 0 then writeUint (signBit n ||| toUint (-v)) n
  else writeUint (toUint v) n

/-- /repo/tdcfio/bitwriter.go:37-39 `WriteBool` -/
def writeBool (v : Bool) : M Bits Unit := writeBit (v == true)

/-- /repo/tdcfio/bitwriter.go:44-53, the loop of `WriteBytes`; `k` iterations to go. -/
def writeBytesLoop : Nat → List UInt8 → M Bits Unit
  | 0, _ => pure ()
  | k + 1, [] => do writeByte 0; writeBytesLoop k []
  | k + 1, b :: bs => do writeByte b; writeBytesLoop k bs

/-- /repo/tdcfio/bitwriter.go:42-55 `WriteBytes` -/
def writeBytes (v : List UInt8) (n : Int) : M Bits Unit := writeBytesLoop n.toNat v

/-- /repo/tdcfio/bitwriter.go:63-73, the `range` loop of `WriteBinary`; the last byte is the
singleton case. -/
def writeBinaryLoop (nbits : Int) : List UInt8 → M Bits Unit
  | [] => pure ()
  | [b] => if nbits.tmod 8 ≠ 0 then writeBits b.toNat (nbits.tmod 8) else writeByte b
  | b :: bs => do writeByte b; writeBinaryLoop nbits bs

/-- /repo/tdcfio/bitwriter.go:58-75 `WriteBinary` (a nil pointer argument panics; not modelled
since the argument here is a value). -/
def writeBinary (v : Binary) (nbits : Int) : M Bits Unit :=
  if nbits ≠ v.nbits then
    M.fail (.msg "inconsistent number of bits for writing Bin data")
  else writeBinaryLoop v.nbits v.b

/-- /repo/tdcfio/bitwriter.go:77-79 `WriteFloat32` -/
def writeFloat32 [GoFloat F] (v : F) : M Bits Unit := writeUint (GoFloat.toFloat32Bits v) 32

end BitWriter
end Gobufr
