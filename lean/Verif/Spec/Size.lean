import Verif.Spec.PayloadBits

/-!
# Specification vocabulary: the number of values of a payload
-/

namespace SizeSpec
open Gobufr

variable {F : Type}

/-- The values of which there are bits of their own in the data section: those of all subsets, or of the first if the subsets
share their bits. -/
def places (p : Payload F) : Nat :=
  if p.compressed then ((p.subsets.head?.map fun x => x.cells.length).getD 0) else (p.subsets.map fun x => x.cells.length).sum

/-- No value is written with no bits. -/
def TakesBits (p : Payload F) : Prop :=
  ∀ x ∈ p.subsets, ∀ y ∈ x.cells, ∃ n : Node F, x.heap[y.n]? = some n ∧
    0 < Spec.nodeBits (if p.compressed then some p.subsets.length else none) n.kind

end SizeSpec
