import Verif.Spec.Compose
import Verif.Spec.Only
import Verif.Model.Script

/-!
# Specification vocabulary: messages that were decoded

What the template of a message or of a draft means, and where a draft stands in the input.
-/

namespace Spec
open Gobufr EncodeSpec

variable {F : Type}

/-- The meaning of descriptors, with the tables that go with the five numbers. -/
def Meaning (c : FacCfg) (master centre subCentre masterVersion localVersion : Nat) (ids : List ID) (ns : List Ast) : Prop :=
  ∃ (g : ChainGroup) (root : Desc),
    addLocalAndWmoTableGroups c.tables master centre subCentre masterVersion localVersion ⟨[]⟩ = (.ok (), g) ∧
    parse g.lookup c.fuel ids = .ok (.base root ns)

/-- The meaning of the template of a draft. -/
def Draft.Means (c : FacCfg) (d : Draft) (ns : List Ast) : Prop :=
  Meaning c (d.head 1 "masterTableNumber") (d.head 1 "originatingCentre") (d.head 1 "originatingSubCentre")
    (d.head 1 "masterTableVersion") (d.head 1 "localTableVersion") (d.descriptors.map descriptorNumber) ns

/-- The meaning of the template of a message. -/
def Means (c : FacCfg) (m : Message F) (ns : List Ast) : Prop :=
  ∃ (master centre subCentre masterVersion localVersion : Nat) (ids : List ID),
    fieldValue m 1 "masterTableNumber" = some (.uint master) ∧ fieldValue m 1 "originatingCentre" = some (.uint centre) ∧
    fieldValue m 1 "originatingSubCentre" = some (.uint subCentre) ∧
    fieldValue m 1 "masterTableVersion" = some (.uint masterVersion) ∧
    fieldValue m 1 "localTableVersion" = some (.uint localVersion) ∧ templateOf m = some ids ∧
    Meaning c master centre subCentre masterVersion localVersion ids ns

/-- The bytes of the draft stand in the input, between `junk` without a signature and `rest`. -/
structure Draft.StandsIn (d : Draft) (input junk bs rest : List UInt8) : Prop where
  parts : input = junk ++ bs ++ rest
  first : ¬ signature <:+: junk
  bits : BitReader.bitsOfBytes bs = d.bits

/-- The draft carries subsets without compression, written by the rules. -/
structure Draft.Carries [GoFloat F] (c : FacCfg) (d : Draft) (ns : List Ast) (subsets : List (List Bool × List (Datum F))) : Prop where
  flag : d.head 3 "isCompressed" = 0
  number : d.head 3 "nSubsets" = subsets.length
  data : d.data = subsets.flatMap Prod.fst
  coded : ∀ x ∈ subsets, ∃ y, Coded Single c.compatible {} ns x.1 x.2 y

/-- The draft carries `k` subsets with compression, in columns that are accepted. -/
structure Draft.CarriesColumns [GoFloat F] (c : FacCfg) (d : Draft) (ns : List Ast) (k : Nat) (is : List (Datum F)) : Prop where
  flag : d.head 3 "isCompressed" = 1
  number : d.head 3 "nSubsets" = k
  coded : ∃ y, Coded (Lenient k) c.compatible {} ns d.data is y

/-- A local section has its four bytes. -/
def LocalFits (m : Message F) : Prop := ∀ L, fieldValue m 2 "lengthInBytes" = some (.uint L) → 4 ≤ L

end Spec
