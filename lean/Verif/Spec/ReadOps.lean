import Verif.Model.BitReader
import Verif.Model.BitWriter

/-!
# Specification vocabulary: histories of typed reads and writes

One constructor per operation of the `tdcfio.Reader` interface; used to quantify over
"any read" and "any history of reads".
-/

namespace Gobufr

/-- A read request of the Reader interface. -/
inductive ReadOp where
  | uint (n : Nat)
  | int (n : Nat)
  | bool
  | bytes (n : Nat)
  | binary (n : Nat)
  deriving Repr, DecidableEq

/-- What a read hands out; `none` is Go's nil pointer for `*Binary`. -/
inductive ReadVal where
  | uint (v : Nat)
  | int (v : Int)
  | bool (v : Bool)
  | bytes (v : List UInt8)
  | binary (v : Option Binary)
  deriving Repr, DecidableEq

/-- A genuine value, as opposed to a nil pointer. -/
def ReadVal.real : ReadVal → Bool
  | .binary none => false
  | _ => true

/-- Number of bits the caller asks for. -/
def ReadOp.width : ReadOp → Nat
  | .uint n => n
  | .int n => n
  | .bool => 1
  | .bytes n => 8 * n
  | .binary n => n

/-- Call the operation on a bit reader. -/
def ReadOp.run : ReadOp → M BitReader ReadVal
  | .uint n => do let v ← BitReader.readUint n; pure (.uint v)
  | .int n => do let v ← BitReader.readInt n; pure (.int v)
  | .bool => do let v ← BitReader.readBool; pure (.bool v)
  | .bytes n => do let v ← BitReader.readBytes n; pure (.bytes v)
  | .binary n => do let v ← BitReader.readBinary n; pure (.binary v)

/-- Call a sequence of operations, stopping at the first failure. -/
def runAll : List ReadOp → M BitReader (List ReadVal)
  | [] => pure []
  | op :: ops => do
    let v ← op.run
    let vs ← runAll ops
    pure (v :: vs)

/-- A typed value to be written, with its width. -/
inductive Item where
  | uint (v n : Nat)
  | int (v : Int) (n : Nat)
  | bool (b : Bool)
  | bytes (v : List UInt8)
  | binary (v : Binary)
  deriving Repr, DecidableEq

/-- The value can be represented in its width. A `Binary` must come from the package. -/
def Item.fits : Item → Prop
  | .uint v n => n ≤ 64 ∧ v < 2 ^ n
  | .int v n => 1 ≤ n ∧ n ≤ 64 ∧ v.natAbs < 2 ^ (n - 1)
  | .bool _ => True
  | .bytes _ => True
  | .binary v => ∃ s, newBinaryFromString s = .ok v

/-- Write the value. -/
def Item.write : Item → M Bits Unit
  | .uint v n => BitWriter.writeUint v n
  | .int v n => BitWriter.writeInt v n
  | .bool b => BitWriter.writeBool b
  | .bytes v => BitWriter.writeBytes v v.length
  | .binary v => BitWriter.writeBinary v v.nbits

/-- The read that corresponds to the write. -/
def Item.readOp : Item → ReadOp
  | .uint _ n => .uint n
  | .int _ n => .int n
  | .bool _ => .bool
  | .bytes v => .bytes v.length
  | .binary v => .binary v.nbits.toNat

/-- The value expected back. -/
def Item.expected : Item → ReadVal
  | .uint v _ => .uint v
  | .int v _ => .int v
  | .bool b => .bool b
  | .bytes v => .bytes v
  | .binary v => .binary (some v)

/-- Write a record. -/
def writeAll : List Item → M Bits Unit
  | [] => pure ()
  | i :: is => do i.write; writeAll is

end Gobufr
