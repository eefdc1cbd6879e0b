import Verif.Model.Stringer

/-!
# Specification vocabulary: texts
-/

namespace Spec
open Gobufr

/-- The character of a digit. -/
def digit (d : Nat) : UInt8 := UInt8.ofNat (48 + d)

/-- `s` is the decimal number `n`, without leading zeros. -/
inductive Decimal : Nat → GoString → Prop where
  | one {d : Nat} : d < 10 → Decimal d [digit d]
  | more {n d : Nat} {s : GoString} : 0 < n → d < 10 → Decimal n s → Decimal (10 * n + d) (s ++ [digit d])

/-- `s` is the whole number `i` in decimal. -/
def DecimalInt (i : Int) (s : GoString) : Prop :=
  (0 ≤ i ∧ Decimal i.toNat s) ∨ (i < 0 ∧ ∃ t, s = ch '-' :: t ∧ Decimal (-i).toNat t)

/-- `f` prints the constants in the table by their names and all others by type and number. -/
def Prints (typ : GoString) (consts : List (Int × GoString)) (f : Int → GoString) : Prop :=
  (∀ p ∈ consts, f p.1 = p.2) ∧
  ∀ i, (∀ p ∈ consts, p.1 ≠ i) → ∃ s, DecimalInt i s ∧ f i = typ ++ [ch '('] ++ s ++ [ch ')']

/-- A list of constants numbered from 0. -/
def numberedFrom0 (names : List String) : List (Int × GoString) :=
  (List.range names.length).zip names |>.map fun p => ((p.1 : Int), str p.2)

/-- The constants of type `Unit`, /repo/table/table.go:16-23. -/
def unitConsts : List (Int × GoString) := numberedFrom0 ["NUMERIC", "STRING", "NONNEG_CODE", "CODE", "FLAG", "BINARY"]

/-- The constants of type `DataType`, /repo/deserialize/factory.go:18-25. -/
def dataTypeConsts : List (Int × GoString) := numberedFrom0 ["INT", "UINT", "FLOAT", "BOOL", "BYTES", "BINARY"]

/-- The constants of type `EventCode`, /repo/table/template.go:18-32. -/
def eventConsts : List (Int × GoString) := numberedFrom0
  ["WE_ELEMENT_DESCRIPTOR", "WE_REPLICATION_DESCRIPTOR", "WE_OPERATOR_DESCRIPTOR", "WE_SEQUENCE_DESCRIPTOR", "WE_FACTOR",
   "WE_BEGIN_SEQUENCE", "WE_END_SEQUENCE", "WE_BEGIN_REPLICATION", "WE_END_REPLICATION", "WE_BEGIN_BLOCK", "WE_END_BLOCK",
   "WE_BEGIN_TEMPLATE", "WE_END_TEMPLATE"]

/-- The constants of type `Operator`, /repo/table/descriptor.go:18-39. -/
def operatorConsts : List (Int × GoString) :=
  [(201, str "OP_NBITS_OFFSET"), (202, str "OP_SCALE_OFFSET"), (203, str "OP_NEW_REFVAL"), (204, str "OP_ASSOCIATE_FIELD"),
   (205, str "OP_INSERT_STRING"), (206, str "OP_SKIP_LOCAL"), (207, str "OP_MODIFY_PACKING"), (208, str "OP_SET_STRING_LENGTH"),
   (221, str "OP_DATA_NOT_PRESENT"), (222, str "OP_QUALITY_INFO"), (223, str "OP_SUBSTITUTION"), (224, str "OP_FIRST_ORDER_STATS"),
   (225, str "OP_DIFFERENCE_STATS"), (232, str "OP_REPLACEMENT"), (235, str "OP_CANCEL_BACK_REFERENCE"), (236, str "OP_DEFINE_BITMAP"),
   (237, str "OP_RECALL_BITMAP"), (241, str "OP_DEFINE_EVENT"), (242, str "OP_DEFINE_CONDITIONING_EVENT"),
   (243, str "OP_CATEGORICAL_VALUES")]

/-- The id of a descriptor of the tables: six digits. -/
def SixDigits (i : ID) : Prop := 0 ≤ i ∧ i < 1000000

end Spec
