import Verif.Spec.Bits
import Verif.Model.Bufr

/-!
# What a decoded message looks like

The sections of an edition 3 and an edition 4 message, with the fields of each: written down from the
format definition, not from the model of the scripts.
-/

namespace Spec
namespace Layout

/-- A field: its name, and its width in bits where the format fixes it. -/
structure FieldShape where
  name : String
  width : Option Nat
  deriving Repr, DecidableEq

/-- A section: its number, its fields in order, and whether it may end with padding. -/
structure SectionShape where
  number : Nat
  fields : List FieldShape
  padded : Bool
  deriving Repr, DecidableEq

def fixed (name : String) (width : Nat) : FieldShape := ⟨name, some width⟩
def free (name : String) : FieldShape := ⟨name, none⟩

def indicator : SectionShape :=
  ⟨0, [fixed "startSignature" 32, fixed "totalLengthInBytes" 24, fixed "bufrEditionNumber" 8], false⟩

def identification3 : SectionShape :=
  ⟨1, [fixed "lengthInBytes" 24, fixed "masterTableNumber" 8, fixed "originatingSubCentre" 8,
    fixed "originatingCentre" 8, fixed "updateSequenceNumber" 8, fixed "isSection2Presents" 1,
    fixed "flagBits" 7, fixed "dataCategory" 8, fixed "dataLocalSubCategory" 8,
    fixed "masterTableVersion" 8, fixed "localTableVersion" 8, fixed "year" 8, fixed "month" 8,
    fixed "day" 8, fixed "hour" 8, fixed "minute" 8, fixed "second" 8], true⟩

def identification4 : SectionShape :=
  ⟨1, [fixed "lengthInBytes" 24, fixed "masterTableNumber" 8, fixed "originatingCentre" 16,
    fixed "originatingSubCentre" 16, fixed "updateSequenceNumber" 8, fixed "isSection2Presents" 1,
    fixed "flagBits" 7, fixed "dataCategory" 8, fixed "dataI18nSubCategory" 8,
    fixed "dataLocalSubCategory" 8, fixed "masterTableVersion" 8, fixed "localTableVersion" 8,
    fixed "year" 16, fixed "month" 8, fixed "day" 8, fixed "hour" 8, fixed "minute" 8,
    fixed "second" 8], true⟩

def optional : SectionShape :=
  ⟨2, [fixed "lengthInBytes" 24, fixed "reservedBits" 8, free "localBits"], false⟩

def description : SectionShape :=
  ⟨3, [fixed "lengthInBytes" 24, fixed "reservedBits" 8, fixed "nSubsets" 16, fixed "isObservation" 1,
    fixed "isCompressed" 1, fixed "flagBits" 6, free "unexpandedTemplate"], true⟩

def data : SectionShape := ⟨4, [fixed "lengthInBytes" 24, fixed "reservedBits" 8, free "payload"], true⟩

def ending : SectionShape := ⟨5, [fixed "stopSignature" 32], false⟩

/-- The sections of a message. -/
def sections (edition : Nat) (hasOptional : Bool) : List SectionShape :=
  [indicator, if edition = 4 then identification4 else identification3] ++
    (if hasOptional then [optional] else []) ++ [description, data, ending]

end Layout

open Gobufr Layout

/-- A visible field of the given shape. -/
def HasShape (f : Field F) (x : FieldShape) : Prop :=
  f.name = Gobufr.str x.name ∧ f.hidden = false ∧ ∀ w, x.width = some w → f.nbits = w

/-- One to one, in order. -/
def Matches (R : α → β → Prop) : List α → List β → Prop
  | [], [] => True
  | a :: as, b :: bs => R a b ∧ Matches R as bs
  | _, _ => False

/-- A section of the given shape: its fields in order, then at most one hidden padding field if the
shape allows it. -/
def SectionHas (s : Section F) (x : SectionShape) : Prop :=
  s.number = x.number ∧ ∃ fs pad, s.fields = fs ++ pad ∧ Matches HasShape fs x.fields ∧
    (pad = [] ∨ x.padded = true ∧ ∃ f, pad = [f] ∧ f.name = Gobufr.str "padding" ∧ f.hidden = true)

/-- The message has these sections, in order. -/
def MessageHas (m : Message F) (l : List SectionShape) : Prop := Matches SectionHas m.sections l

/-- The value of a simple field of a section, by section number and field name: the first such field of
the first such section. -/
def fieldValue (m : Message F) (number : Nat) (name : String) : Option (Val F) :=
  ((m.sections.find? fun s => s.number = (number : Int)).bind fun s =>
    s.fields.find? fun f => f.name = Gobufr.str name).bind fun f =>
      match f.value with
      | .val v => some v
      | _ => none

/-- The same message `k` bytes further on in the input: only the positions of its sections differ. -/
def moved (k : Int) (m : Message F) : Message F :=
  { m with sections := m.sections.map fun s => { s with startByteIndex := s.startByteIndex + k } }

end Spec
