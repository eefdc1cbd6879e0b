import Verif.Model.Bufr

/-!
# Specification vocabulary: the size of a payload

How many bits the data of a payload takes in the data section, from what the nodes record.
-/

namespace Spec
open Gobufr

variable {F : Type}

/-- The bits of a value of uncompressed data: strings consist of whole bytes. -/
def valueBits (unit : Unit') (nbits : Int) : Int :=
  match unit with
  | .string => nbits.tdiv 8 * 8
  | _ => nbits

/-- The bits of the values of `n` compressed subsets: the minimum, six bits for the width of the
differences, and the differences; the width counts bytes for strings.  Codes of no bits are not there. -/
def columnBits (n : Nat) (unit : Unit') (nbits nbitsDiff : Int) : Int :=
  match unit with
  | .string => nbits.tdiv 8 * 8 + 6 + n * (nbitsDiff * 8)
  | .nonnegCode | .flag => if nbits = 0 then 0 else nbits + 6 + n * nbitsDiff
  | _ => nbits + 6 + n * nbitsDiff

/-- The bits a node says it takes; `n` is the number of subsets of compressed data. -/
def nodeBits (n : Option Nat) : NodeKind F → Int
  | .valued _ _ info _ nbitsDiff =>
    match n with
    | none => valueBits info.unit info.nbits
    | some n => columnBits n info.unit info.nbits nbitsDiff
  | _ => 0

/-- The bits of the values of a subset. -/
def cellsBits (n : Option Nat) (heap : Heap F) (cells : List (Cell F)) : Int :=
  (cells.map fun x => match heap[x.n]? with
    | some y => nodeBits n y.kind
    | none => 0).sum

/-- The bits of a payload.  Compressed subsets share their bits: those of the first are counted. -/
def payloadBits (p : Payload F) : Int :=
  if p.compressed then
    match p.subsets with
    | [] => 0
    | x :: _ => cellsBits (some p.subsets.length) x.heap x.cells
  else (p.subsets.map fun x => cellsBits none x.heap x.cells).sum

/-- Widths for which a read takes as many bits as it says: not negative, and signed codes have a
sign bit. -/
def goodWidth (info : PackingInfo F) : Prop := 0 ≤ info.nbits ∧ (info.unit = .code → 0 < info.nbits)

/-- The node has a good width. -/
def goodKind : NodeKind F → Prop
  | .valued _ _ info _ _ => goodWidth info
  | _ => True

/-- All values of a subset have good widths and none is the nil pointer for a bit string that the
end of the input cut off. -/
def goodCells (heap : Heap F) (cells : List (Cell F)) : Prop :=
  ∀ x ∈ cells, x.v ≠ .binary none ∧ ∀ y, heap[x.n]? = some y → goodKind y.kind

end Spec
