import Verif.Spec.Accuracy
import Verif.Model.Bufr
import Verif.Spec.Parser

/-!
# Specification vocabulary: numbers within the range of doubles
-/

namespace Gobufr
namespace AccuracySpec

/-- A packing that operators can make of an element: the reference value is an integer of 64 bits, multiplied by 10^y for a y from 0 to
255, and the scale is at least y - 227. -/
def Modest (info : PackingInfo Double) : Prop :=
  ∃ ref y : Int, ref.natAbs ≤ 2 ^ 63 ∧ 0 ≤ y ∧ y ≤ 255 ∧ info.refval = GoFloat.mul (GoFloat.ofInt ref) (GoFloat.pow10 y) ∧
    y - 227 ≤ info.scale

/-- A descriptor as tables and templates have them: Y is from 0 to 255, and if it is an element, its scale is at least -100 and its reference
value has 64 bits. -/
def ModestDesc (d : Desc) : Prop :=
  0 ≤ d.id.Y ∧ d.id.Y ≤ 255 ∧ ∀ e, d.entry = .b e → -100 ≤ e.scale ∧ e.refval.natAbs ≤ 2 ^ 63

/-- All descriptors of a template are. -/
def ModestTemplate (ns : List Ast) : Prop := ∀ n ∈ ParserSpec.nodesL ns, ∀ d, n.descriptor = some d → ModestDesc d

end AccuracySpec
end Gobufr
