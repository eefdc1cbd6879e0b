import Verif.Model.Unpack
import Verif.Spec.Bits

/-!
# Specification vocabulary: packed values

What a raw bit group stands for, following the BUFR manual: all ones is "missing", otherwise
(raw + reference) / 10^scale for numbers and the raw value for codes and flags.  The types
`Val`, `PackingInfo` and `Reader` are the data types of the model.
-/

namespace Gobufr
namespace UnpackSpec
open Spec

variable {F : Type}

/-- All bits of an `n` bit group are set; a single bit is never missing. -/
def AllOnes (n raw : Nat) : Prop := 1 < n ∧ natBits n raw = List.replicate n true

instance (n raw : Nat) : Decidable (AllOnes n raw) := inferInstanceAs (Decidable (_ ∧ _))

/-- (raw + reference) / 10^scale -/
def scaled [GoFloat F] (info : PackingInfo F) (raw : Nat) : F :=
  GoFloat.div (GoFloat.add (GoFloat.ofNat raw) info.refval) (GoFloat.pow10 info.scale)

/-- The value of a raw number of an element with the given unit that is not missing. -/
def present [GoFloat F] (info : PackingInfo F) (raw : Nat) : Val F :=
  match info.unit with
  | .numeric => .float (scaled info raw)
  | _ => .uint raw

/-- The value of a raw number in an `n` bit group. -/
def value [GoFloat F] (info : PackingInfo F) (n raw : Nat) : Val F :=
  if AllOnes n raw then .nil else present info raw

/-- Elements holding a number: numeric, code table, flag table. -/
def Plain (u : Unit') : Prop := u = .numeric ∨ u = .nonnegCode ∨ u = .flag

/-- The bits of a compressed column: base value, increment width, one increment per subset. -/
def column (n base w : Nat) (incs : List Nat) : List Bool :=
  natBits n base ++ natBits 6 w ++ incs.flatMap (natBits w)

end UnpackSpec
end Gobufr
