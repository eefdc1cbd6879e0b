import Verif.Spec.Message
import Verif.Spec.Factory

/-!
# What the fields of a message hold

Which bits of the input belong to a field, and what value these bits denote.
-/

namespace Spec
open Gobufr

variable {F : Type}

/-- `l` are the bits at position `pos` of the input `src`, whose first bit has the position `p0`. -/
def BitsAt (src : List Bool) (p0 pos : Int) (l : List Bool) : Prop :=
  ∃ pre post, src = pre ++ l ++ post ∧ p0 + pre.length = pos

/-- What a field is for. -/
inductive Kind where
  | number
  | flag
  | text
  | bits
  deriving DecidableEq, Repr

/-- The format says what a field is for; numbers, if nothing else. -/
def kindOf (name : GoString) : Kind :=
  if name ∈ ["startSignature", "stopSignature"].map Gobufr.str then .text
  else if name ∈ ["isSection2Presents", "isObservation", "isCompressed"].map Gobufr.str then .flag
  else if name ∈ ["flagBits", "reservedBits", "localBits", "padding"].map Gobufr.str then .bits
  else .number

/-- The bits in groups of eight, the last group possibly shorter, each the number of a byte. -/
def Packed : List Bool → List UInt8 → Prop
  | l, [] => l = []
  | l, b :: bs => l ≠ [] ∧ b.toNat = bitsVal (l.take 8) ∧ Packed (l.drop 8) bs

/-- The value denoted by bits. -/
def Denotes : Kind → List Bool → Val F → Prop
  | .number, l, v => v = .uint (bitsVal l)
  | .flag, l, v => ∃ b, l = [b] ∧ v = .bool b
  | .text, l, v => ∃ bs : List UInt8, l = bs.flatMap (fun b => natBits 8 b.toNat) ∧ v = .bytes bs
  | .bits, l, v => ∃ bs, Packed l bs ∧ v = .binary (some ⟨bs, l.length⟩)

/-- The descriptors spelled by bits: two bits for F, six for X and eight for Y. -/
def Spells (l : List Bool) (ids : List ID) : Prop :=
  ∃ ds : List (Nat × Nat × Nat), (∀ d ∈ ds, Fits 2 6 8 d) ∧ l = ds.flatMap (descriptorBits 2 6 8) ∧
    ids = ds.map descriptorNumber

/-- The field holds what the bits `l` say, and they are as many as it says. -/
def Holds (l : List Bool) (f : Field F) : Prop :=
  (l.length : Int) = f.nbits ∧
    match f.value with
    | .val v => Denotes (kindOf f.name) l v
    | .template ut => Spells l ut.ids
    | .payload _ => True

/-- The fields, one after the other from position `pos` on: those selected by `P` hold what their bits
say. -/
def FieldsAt (P : Field F → Prop) (src : List Bool) (p0 : Int) : Int → List (Field F) → Prop
  | _, [] => True
  | pos, f :: fs => (P f → ∃ l, BitsAt src p0 pos l ∧ Holds l f) ∧ FieldsAt P src p0 (pos + f.nbits) fs

/-- A field with a number, a flag, a text or descriptors. -/
def isPlain (f : Field F) : Prop :=
  match f.value with
  | .val _ => kindOf f.name ≠ .bits
  | .template _ => True
  | .payload _ => False

/-- A field with bits. -/
def isBits (f : Field F) : Prop :=
  match f.value with
  | .val _ => kindOf f.name = .bits
  | _ => False

/-- The payload of a message. -/
def payloadOf (m : Message F) : Option (Payload F) :=
  (m.sections.flatMap (·.fields)).findSome? fun f =>
    match f.value with
    | .payload p => some p
    | _ => none

/-- The descriptors of a message. -/
def templateOf (m : Message F) : Option (List ID) :=
  (m.sections.flatMap (·.fields)).findSome? fun f =>
    match f.value with
    | .template ut => some ut.ids
    | _ => none

end Spec
