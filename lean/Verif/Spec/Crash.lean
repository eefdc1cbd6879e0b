import Verif.Spec.Safe
import Verif.Spec.Overrun
import Verif.Spec.Only

/-!
# Specification vocabulary: what crashes the decoder when there are bitmaps
-/

namespace Gobufr
namespace Safety
open EncodeSpec

mutual
/-- Nothing in a part of a template can crash the decoder but the values of assessments, markers, new reference values and ends
of associated fields.  Bitmaps, and what goes between a bitmap and the values, are harmless and leave other bitmaps alone;
new reference values are not in compressed data. -/
def guarded (compressed : Bool) : Ast → Bool
  | .sequence _ ms | .dataNotPresent _ ms | .fixedRepl _ ms | .assocField _ ms => guardedL compressed ms
  | .delayedRepl _ (f :: ms) => (factorOf f).any (countable compressed) && guardedL compressed ms
  | .marker _ => true
  | .newRefval d _ => d.id.Y == 255 || !compressed
  | .assessment _ (.bitmap (some d) bs) as ms =>
    (d.id == 237000 || (harmlessL compressed bs 0).isSome) && apart as && (harmlessL compressed as 0).isSome && guardedL compressed ms
  | t => (harmless compressed t 0).isSome
/-- The same for a list of nodes. -/
def guardedL (compressed : Bool) : List Ast → Bool
  | [] => true
  | m :: ms => guarded compressed m && guardedL compressed ms
end

/-- An element that can be read, or something that is not in table B. -/
def legible (compressed : Bool) (d : Desc) : Bool :=
  match d.entry with
  | .b _ => readable compressed d
  | _ => true

/-- All elements of the template can be read. -/
def tame (compressed : Bool) (ms : List Ast) : Bool :=
  (ParserSpec.nodesL ms).all fun m => m.descriptor.all (legible compressed)

end Safety

namespace EncodeSpec
variable {F : Type}

/-- Bits that are read as one value: its own bits by the rules of C88, if it is packed properly. -/
def Loose [GoFloat F] : Wire F Bool := fun info b vs => ∃ v, vs = [v] ∧ (Proper info v → Single info b vs)

/-- Bits that are read as a column: by the rules for columns that are accepted, if its width is proper. -/
def LooseColumn [GoFloat F] (k : Nat) : Wire F Bool := fun info b vs => ProperColumn info → Lenient k info b vs

end EncodeSpec
end Gobufr
