import Verif.Spec.Message
import Verif.Spec.Factory
import Verif.Spec.Header

/-!
# Specification vocabulary: composing a message

What the bits of a message are, from the side of whoever writes it: the sections of `Layout`, one after
the other, each with its fields as numbers and what follows them.
-/

namespace Spec
open Gobufr Layout

/-- What goes into a message. -/
structure Draft where
  edition : Nat
  /-- the fields of fixed width as numbers, by section number and name -/
  head : Nat → String → Nat
  /-- what follows the fields of section 1 -/
  pad1 : List Bool
  /-- section 2, if there is one: the local bits -/
  locals : Option (List Bool)
  /-- (F, X, Y) -/
  descriptors : List (Nat × Nat × Nat)
  pad3 : List Bool
  data : List Bool
  pad4 : List Bool

/-- The fields of fixed width of a section, with the given numbers. -/
def headBits (v : String → Nat) (fs : List FieldShape) : List Bool :=
  fs.flatMap fun f => match f.width with
    | some w => natBits w (v f.name)
    | none => []

namespace Draft

def sections (d : Draft) : List SectionShape := Layout.sections d.edition d.locals.isSome

/-- What follows the fields of fixed width in section `n`. -/
def tail (d : Draft) : Nat → List Bool
  | 1 => d.pad1
  | 2 => d.locals.getD []
  | 3 => d.descriptors.flatMap (descriptorBits 2 6 8) ++ d.pad3
  | 4 => d.data ++ d.pad4
  | _ => []

/-- The bits of a section. -/
def part (d : Draft) (x : SectionShape) : List Bool := headBits (d.head x.number) x.fields ++ d.tail x.number

/-- The bits of the message. -/
def bits (d : Draft) : List Bool := d.sections.flatMap d.part

/-- The draft keeps the rules of the format: the numbers have the widths of their fields, the lengths of
the sections are right, edition, signature and the flag for section 2 are what they should be, and section 3
has no room for another descriptor.  (The total length and the stop signature are not asked to be right.) -/
structure Sound (d : Draft) : Prop where
  edition : d.edition = 3 ∨ d.edition = 4
  fits : ∀ x ∈ d.sections, ∀ f ∈ x.fields, ∀ w, f.width = some w → d.head x.number f.name < 2 ^ w
  lengths : ∀ x ∈ d.sections, fixed "lengthInBytes" 24 ∈ x.fields →
    d.head x.number "lengthInBytes" * 8 = (d.part x).length
  signature : natBits 32 (d.head 0 "startSignature") = signature.flatMap fun b => natBits 8 b.toNat
  number : d.head 0 "bufrEditionNumber" = d.edition
  flag : d.head 1 "isSection2Presents" = if d.locals.isSome then 1 else 0
  descriptors : ∀ x ∈ d.descriptors, x.1 < 2 ^ 2 ∧ x.2.1 < 2 ^ 6 ∧ x.2.2 < 2 ^ 8
  pad3 : d.pad3.length < 16

/-- The message says what is in the draft: it has the sections, the numbers, flags and texts in their
fields, and the descriptors. -/
structure Says (d : Draft) (m : Message F) : Prop where
  sections : MessageHas m d.sections
  fields : ∀ x ∈ d.sections, ∀ f ∈ x.fields, ∀ w, f.width = some w → kindOf (Gobufr.str f.name) ≠ .bits →
    ∃ v, fieldValue m x.number f.name = some v ∧
      Denotes (kindOf (Gobufr.str f.name)) (natBits w (d.head x.number f.name)) v
  template : templateOf m = some (d.descriptors.map descriptorNumber)

end Draft

end Spec
