import Verif.Model.Marshal

/-!
# The texts of constants, descriptors, templates, nodes and cells

Models the generated `String` methods of /repo/table/unit_string.go, /repo/table/eventcode_string.go,
/repo/table/operator_string.go and /repo/deserialize/datatype_string.go, and the `String` methods of
/repo/table/descriptor.go, /repo/table/template.go, /repo/bufr/node.go and /repo/bufr/cell.go.
-/

namespace Gobufr
namespace Stringer

/-- the Go expression `s[a:b]`, for `a ≤ b ≤ len(s)` -/
def slice (s : GoString) (a b : Nat) : GoString := (s.drop a).take (b - a)

/-- `fmt.Sprintf("T(%d)", i)` -/
def numbered (typ : GoString) (i : Int) : GoString := typ ++ [ch '('] ++ itoa i ++ [ch ')']

/-- `name[index[i]:index[i+1]]` -/
def entry (name : GoString) (index : List Nat) (i : Nat) : GoString := slice name (index.getD i 0) (index.getD (i + 1) 0)

/-- The code that `stringer` generates for constants 0, 1, ...: the same for `Unit`, `EventCode` and `DataType`. -/
def stringer (typ name : GoString) (index : List Nat) (i : Int) : GoString :=
  if i < 0 ∨ i ≥ (index.length : Int) - 1 then numbered typ i else entry name index i.toNat

/-- /repo/table/unit_string.go:7-16 `Unit.String` -/
def unit : Int → GoString :=
  stringer (str "Unit") (str "NUMERICSTRINGCODEFLAGCOMMON_CODEBIN") [0, 7, 13, 17, 21, 32, 35]

/-- /repo/deserialize/datatype_string.go:7-16 `DataType.String` -/
def dataType : Int → GoString := stringer (str "DataType") (str "INTUINTFLOATBOOLBYTESBIN") [0, 3, 7, 12, 16, 21, 24]

/-- /repo/table/eventcode_string.go:7-16 `EventCode.String` -/
def eventCode : Int → GoString :=
  stringer (str "EventCode")
    (str "WE_ELEMENT_DESCRIPTORWE_REPLICATION_DESCRIPTORWE_OPERATOR_DESCRIPTORWE_SEQUENCE_DESCRIPTORWE_FACTORWE_BEGIN_SEQUENCEWE_END_SEQUENCEWE_BEGIN_REPLICATIONWE_END_REPLICATIONWE_BEGIN_BLOCKWE_END_BLOCKWE_BEGIN_TEMPLATEWE_END_TEMPLATE")
    [0, 21, 46, 68, 90, 99, 116, 131, 151, 169, 183, 195, 212, 227]

/-- /repo/table/operator_string.go:7-43 `Operator.String` -/
def operator (i : Int) : GoString :=
  if 201 ≤ i ∧ i ≤ 208 then
    entry (str "OP_NBITS_OFFSETOP_SCALE_OFFSETOP_NEW_REFVALOP_ASSOCIATE_FIELDOP_INSERT_STRINGOP_SKIP_LOCALOP_MODIFY_PACKINGOP_SET_STRING_LENGTH")
      [0, 15, 30, 43, 61, 77, 90, 107, 127] (i - 201).toNat
  else if 221 ≤ i ∧ i ≤ 225 then
    entry (str "OP_DATA_NOT_PRESENTOP_QUALITY_INFOOP_SUBSTITUTIONOP_FIRST_ORDER_STATSOP_DIFFERENCE_STATS")
      [0, 19, 34, 49, 69, 88] (i - 221).toNat
  else if i = 232 then str "OP_REPLACEMENT"
  else if 235 ≤ i ∧ i ≤ 237 then
    entry (str "OP_CANCEL_BACK_REFERENCEOP_DEFINE_BITMAPOP_RECALL_BITMAP") [0, 24, 40, 56] (i - 235).toNat
  else if 241 ≤ i ∧ i ≤ 243 then
    entry (str "OP_DEFINE_EVENTOP_DEFINE_CONDITIONING_EVENTOP_CATEGORICAL_VALUES") [0, 15, 43, 64] (i - 241).toNat
  else numbered (str "Operator") i

/-- /repo/table/descriptor.go:68-70 `ID.String` -/
def id (i : ID) : GoString := pad06 i

/-- /repo/table/descriptor.go:169-171 `DecorateDescriptor.String`; `initial` is an ASCII character.  (The slice
expression `[1:]` cannot fail, as there are at least six characters.) -/
def decorated (initial : UInt8) (i : ID) (name : GoString) : GoString := [initial] ++ (id i).drop 1 ++ [ch ' '] ++ name

/-- `%v` of the descriptor of a node: /repo/table/descriptor.go:106-111 or, for associated fields, 169-171.  A nil
descriptor is printed as `<nil>`. -/
def nodeDesc (d : NodeDesc) : GoString :=
  match d.d with
  | none => str "<nil>"
  | some e => if d.assoc then decorated (ch 'A') e.id (str "ASSOCIATED FIELD") else e.toStr

/-- /repo/bufr/node.go:80-82 `ValuedNode.String` -/
def valued (i : Int) (d : NodeDesc) (nbits : Int) : GoString :=
  [ch '['] ++ itoa i ++ str "] " ++ nodeDesc d ++ str " (" ++ itoa nbits ++ str ")"

/-- `utf8.RuneCountInString`: bytes that are not UTF-8 count one each. -/
def runes (s : GoString) : Nat :=
  match s with
  | [] => 0
  | a :: rest => 1 + runes ((a :: rest).drop (max 1 (Marshal.runeLength (a :: rest))))
termination_by s.length
decreasing_by
  simp only [List.length_cons, List.length_drop]
  omega

/-- /repo/bufr/cell.go:24-33 `Cell.String`: the node, filled up to 81 characters, and the text of the value, which is a
parameter here. -/
def cell (node value : GoString) : GoString := node ++ List.replicate (81 - runes node) (ch ' ') ++ [ch ' '] ++ value

/-- the elements of a slice as `%v` prints them -/
def spaced : List GoString → GoString
  | [] => []
  | [s] => s
  | s :: t :: r => s ++ [ch ' '] ++ spaced (t :: r)

/-- /repo/table/template.go:55-57 `UnexpandedTemplate.String` -/
def template (ids : List ID) : GoString := [ch '['] ++ spaced (ids.map id) ++ [ch ']']

end Stringer
end Gobufr
