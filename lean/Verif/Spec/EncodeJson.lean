import Verif.Spec.Encode
import Verif.Spec.Json
import Verif.Spec.Marshal

/-!
# Specification vocabulary: data written as flat JSON
-/

namespace Gobufr
namespace EncodeSpec
open Spec

variable {F : Type}

/-- The scalar that stands for a value: numbers for numbers, strings for text, strings of zeros and ones for
bits, null for a missing value. -/
inductive Token [GoFloat F] : Val F → Tok F → Prop where
  | float (f : F) : Token (.float f) (.num f)
  | uint (n : Nat) : Token (.uint n) (.num (GoFloat.ofNat n))
  | int (z : Int) : Token (.int z) (.num (if 0 ≤ z then GoFloat.ofNat z.toNat else GoFloat.ofInt z))
  | text (s : List UInt8) : Token (.bytes s) (.str s)
  | bits {l : List Bool} {bs : List UInt8} : Packed l bs → Token (.binary (some ⟨bs, l.length⟩)) (.str (digits l))
  | missing : Token .nil .null

/-- One scalar for each value. -/
inductive Tokens [GoFloat F] : List (Val F) → List (Tok F) → Prop where
  | nil : Tokens [] []
  | cons {v : Val F} {t : Tok F} {vs : List (Val F)} {ts : List (Tok F)} : Token v t → Tokens vs ts → Tokens (v :: vs) (t :: ts)

/-- A value that the packing admits. -/
def Suits (info : PackingInfo F) : Val F → Prop
  | .float _ => info.unit = .numeric
  | .uint _ => info.unit = .nonnegCode ∨ info.unit = .flag
  | .int _ => info.unit = .code
  | .bytes _ => info.unit = .string
  | .binary (some _) => info.unit = .binary
  | .nil => info.unit = .numeric ∨ info.unit = .nonnegCode ∨ info.unit = .flag ∨ info.unit = .code
  | _ => False

/-- A number that JSON numbers can hold exactly. -/
def Exact : Val F → Prop
  | .uint n => n ≤ 2 ^ 53
  | .int z => z.natAbs ≤ 2 ^ 53
  | _ => True

/-- A value that is there. -/
def Present : Val F → Prop
  | .nil => False
  | _ => True

/-- Not a text. -/
def NoText : Val F → Prop
  | .bytes _ => False
  | _ => True

/-- The values written, in order. -/
def values (data : List (List Bool × List (Datum F))) : List (Val F) := data.flatMap fun x => x.2.flatMap Datum.vals

/-- One scalar for one value. -/
inductive ScalarNull [GoFloat F] (info : PackingInfo F) : List (Tok F) → List (Val F) → Prop where
  | one {v : Val F} {t : Tok F} : Token v t → Suits info v → Exact v → ScalarNull info [t] [v]

/-- One scalar for one value that is there. -/
inductive Scalar [GoFloat F] (info : PackingInfo F) : List (Tok F) → List (Val F) → Prop where
  | one {v : Val F} {t : Tok F} : Token v t → Suits info v → Exact v → Present v → Scalar info [t] [v]

end EncodeSpec
end Gobufr
