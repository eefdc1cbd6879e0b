import Verif.Spec.Compose
import Verif.Spec.EncodeJson

/-!
# Specification vocabulary: a message as flat JSON

The scalars of a message that is written as a JSON text instead of bits, from the side of whoever writes it.
-/

namespace Spec
open Gobufr Layout

variable {F : Type}

/-- The last `k` bytes of a number, the highest first. -/
def bytesOf : Nat → Nat → List UInt8
  | 0, _ => []
  | k + 1, v => UInt8.ofNat (v / 256 ^ k) :: bytesOf k v

/-- The scalar of a field of `w` bits with the number `v`: a number, true or false, characters, or a string of zeros and
ones; if `plain`, bits are given as a number. -/
def fieldToken [GoFloat F] (plain : Bool) (w v : Nat) : Kind → Tok F
  | .number => .num (GoFloat.ofNat v)
  | .flag => .bool (v == 1)
  | .text => .str (bytesOf (w / 8) v)
  | .bits => if plain then .num (GoFloat.ofNat v) else .str (digits (natBits w v))

/-- The scalars of the fields of fixed width. -/
def headTokens [GoFloat F] (plain : String → Bool) (v : String → Nat) (fs : List FieldShape) : List (Tok F) :=
  fs.flatMap fun f => match f.width with
    | some w => [fieldToken (plain f.name) w (v f.name) (kindOf (Gobufr.str f.name))]
    | none => []

/-- Bits without meaning, as a string of zeros and ones. -/
def bitsToken (l : List Bool) : Tok F := .str (digits l)

/-- The padding of a section. -/
def padTokens (l : List Bool) : List (Tok F) := if l = [] then [] else [bitsToken l]

/-- The scalars of a descriptor. -/
def idTokens [GoFloat F] (d : Nat × Nat × Nat) : List (Tok F) :=
  [.num (GoFloat.ofNat d.1), .num (GoFloat.ofNat d.2.1), .num (GoFloat.ofNat d.2.2)]

namespace Draft

/-- What follows the fields of fixed width in section `n`; the data are `values`. -/
def tailTokens [GoFloat F] (d : Draft) (values : List (Tok F)) : Nat → List (Tok F)
  | 1 => padTokens d.pad1
  | 2 => [bitsToken (d.locals.getD [])]
  | 3 => d.descriptors.flatMap idTokens ++ padTokens d.pad3
  | 4 => values ++ padTokens d.pad4
  | _ => []

/-- The scalars of the message; `plain` says which fields with bits are given as numbers. -/
def tokens [GoFloat F] (d : Draft) (plain : Nat → String → Bool) (values : List (Tok F)) : List (Tok F) :=
  d.sections.flatMap fun x => headTokens (plain x.number) (d.head x.number) x.fields ++ d.tailTokens values x.number

end Draft

/-- The fields with bits that are taken as numbers: those declared with the undefined type `BIN` in
/repo/_definitions/bufr3/section1.lua:34, /repo/_definitions/common/section3.lua:9 and 28, /repo/_definitions/common/section4.lua:9. -/
def asNumbers (edition : Nat) : Nat → String → Bool
  | 1, _ => edition == 3
  | 3, _ => true
  | 4, _ => true
  | _, _ => false

end Spec
