import Verif.Props.TestData
import Verif.Model.Template
import Verif.Model.BitWriter
import Verif.Model.FloatInst

/-!
# C110: the unit tests of the program

Each test of /repo that asserts something, with the model in place of the program; the kernel computes.  The file
/repo/_testdata/contrived.bufr is given by all its bytes, the tables by the entries used.
/repo/bufr/node_test.go asserts nothing.
-/

namespace Gobufr
namespace UnitTests

open TestData

/-- There is no error, and the result passes the test. -/
def pass {α : Type} (o : Outcome α) (p : α → Bool) : Bool :=
  match o with
  | .ok a => p a
  | _ => false

/-! ## tdcfio -/

/-- /repo/tdcfio/bitwriter_test.go:10-47 `TestBitWriter`: what it writes -/
def written : M Bits Unit := do
  BitWriter.writeBytes (str "BUFR") 4
  BitWriter.writeUint 94 24
  BitWriter.writeInt 4 8
  BitWriter.writeUint 22 24
  BitWriter.writeUint 0 8
  BitWriter.writeUint 1 16
  BitWriter.writeUint 0 16
  BitWriter.writeUint 0 8
  BitWriter.writeBool false
  let binary ← M.lift (newBinaryFromString (str "0000000"))
  BitWriter.writeBinary binary 7

/-- /repo/tdcfio/bitreader_test.go:9-61 `TestBitReader`: what it reads.  The text, the three numbers read and ignored are
dropped, as in the test. -/
def readsBits : M BitReader (List UInt8 × Nat × Int × Bool × Option Binary) := do
  let b ← BitReader.readBytes 4
  let u ← BitReader.readUint 24
  let i ← BitReader.readInt 8
  let _ ← BitReader.readUint 24
  let _ ← BitReader.readUint 8
  let _ ← BitReader.readUint 16
  let _ ← BitReader.readUint 16
  let _ ← BitReader.readUint 8
  let q ← BitReader.readBool
  let s ← BitReader.readBinary 7
  pure (b, u, i, q, s)

/-- /repo/tdcfio/bitreader_test.go:63-143 `TestPeekableBitReader`; the results of the peeks come last. -/
def peeksBits : M BitReader ((List UInt8 × Nat × Int × Bool × Option Binary) × List UInt8 × Nat × Nat × Nat) := do
  let p ← BitReader.peekBytes 0 4
  let p1 ← BitReader.peekUint 8 24
  let b ← BitReader.readBytes 4
  let u ← BitReader.readUint 24
  let i ← BitReader.readInt 8
  let _ ← BitReader.readUint 24
  let _ ← BitReader.readUint 8
  let _ ← BitReader.readUint 16
  let _ ← BitReader.readUint 16
  let _ ← BitReader.readUint 8
  let p2 ← BitReader.peekUint 4 8
  let q ← BitReader.readBool
  let s ← BitReader.readBinary 7
  let p3 ← BitReader.peekUint 7 8
  pure ((b, u, i, q, s), p, p1, p2, p3)

/-- The text of a bit string that is not nil -/
def textOf : Option Binary → GoString
  | some b => b.string
  | none => str "<nil>"

/-- C110. `TestBitWriter`, `TestBitReader` and `TestPeekableBitReader` pass. -/
theorem C110_bits :
    ((written []).1 = .ok () ∧ (written []).2 = BitReader.bitsOfBytes (contrived.take 18)) ∧
    pass ((readsBits (BitReader.new contrived)).1) (fun (b, u, i, q, s) => decide (b = str "BUFR" ∧ u = 94 ∧ i = 4 ∧ q = false ∧ textOf s = str "0000000")) = true ∧
    pass ((peeksBits (BitReader.new contrived)).1) (fun ((b, u, i, q, s), p, p1, p2, p3) => decide (b = str "BUFR" ∧ u = 94 ∧ i = 4 ∧ q = false ∧ textOf s = str "0000000" ∧
          p = str "BUFR" ∧ p1 = 22 ∧ p2 = 18 ∧ p3 = 2)) = true := by
  decide +kernel

/-- The number `n` as a token -/
def n (n : Nat) : Tok ToyFloat := .num (GoFloat.ofNat n)

/-- The tokens of the text at /repo/tdcfio/flatjsonreader_test.go:9-14 -/
def jstr : List (Tok ToyFloat) :=
  [.delim, .delim, .str (str "BUFR"), n 94, n 4, .delim] ++
  [.delim, n 22, n 0, n 1, n 0, n 0, .bool false, .str (str "0000000"), n 2, n 4, n 0, n 18, n 0, n 2016, n 2, n 18, n 23,
    n 0, n 0, .delim] ++
  [.delim, n 25, .str (str "00000000"), n 2, .bool true, .bool false, .str (str "000000"), .delim, n 301001, n 105002,
    n 102000, n 31001, n 8002, n 20011, n 8002, n 301011, n 20011, .delim, .delim] ++
  [.delim, n 35, .str (str "00000000"), .delim, .delim, n 94, n 461, n 2, n 1, n 2, n 3, n 4, n 21, n 3, n 5, n 6, n 7, n 8,
    n 9, n 10, n 22, n 2016, n 2, n 18, n 1, .delim, .delim, n 94, n 461, n 2, n 1, n 2, n 3, n 4, n 21, n 3, n 5, n 6, n 7,
    n 8, n 9, n 10, n 22, n 2016, n 2, n 18, n 1, .delim, .delim, .delim] ++
  [.delim, .str (str "7777"), .delim, .delim]

/-- /repo/tdcfio/flatjsonreader_test.go:16-62 `TestFlatJsonReader` -/
def readsJson : M (FlatJson ToyFloat) (List UInt8 × Nat × Int × Bool × Option Binary) := do
  let b ← FlatJson.readBytes 4
  let u ← FlatJson.readUint 24
  let i ← FlatJson.readInt 8
  let _ ← FlatJson.readUint 24
  let _ ← FlatJson.readUint 8
  let _ ← FlatJson.readUint 16
  let _ ← FlatJson.readUint 16
  let _ ← FlatJson.readUint 8
  let q ← FlatJson.readBool
  let s ← FlatJson.readBinary 7
  pure (b, u, i, q, s)

/-- /repo/tdcfio/flatjsonreader_test.go:64-132 `TestPeekableFlatJsonReader_PeekBytes` -/
def peeksJson : M (PeekJson ToyFloat) ((List UInt8 × Nat × Int × Bool × Option Binary) × List UInt8 × Nat × Nat) := do
  let p ← PeekJson.peekBytes 0 4
  let p1 ← PeekJson.peekUint 3 24
  let b ← PeekJson.readBytes 4
  let u ← PeekJson.readUint 24
  let i ← PeekJson.readInt 8
  let _ ← PeekJson.readUint 24
  let _ ← PeekJson.readUint 8
  let _ ← PeekJson.readUint 16
  let _ ← PeekJson.readUint 16
  let _ ← PeekJson.readUint 8
  let p2 ← PeekJson.peekUint 5 8
  let q ← PeekJson.readBool
  let s ← PeekJson.readBinary 7
  pure ((b, u, i, q, s), p, p1, p2)

/-- C110. `TestFlatJsonReader` and `TestPeekableFlatJsonReader_PeekBytes` pass. -/
theorem C110_json :
    pass ((readsJson (FlatJson.new jstr)).1) (fun (b, u, i, q, s) => decide (b = str "BUFR" ∧ u = 94 ∧ i = 4 ∧ q = false ∧ textOf s = str "0000000")) = true ∧
    pass ((peeksJson (PeekJson.new jstr)).1) (fun ((b, u, i, q, s), p, p1, p2) => decide (b = str "BUFR" ∧ u = 94 ∧ i = 4 ∧ q = false ∧ textOf s = str "0000000" ∧
          p = str "BUFR" ∧ p1 = 22 ∧ p2 = 18)) = true := by
  decide +kernel

/-- The text of a bit string just made -/
def made (b : List UInt8) (nbits : Int) : Outcome GoString := do
  let x ← newBinary b nbits
  .ok x.string

/-- A bit of a bit string just made -/
def bitOf (b : List UInt8) (nbits i : Int) : Outcome Bool := do
  let x ← newBinary b nbits
  x.bit i

/-- C110. The tests of /repo/tdcfio/binary_test.go pass; a JSON string of digits is the text between the quotes. -/
theorem C110_binary :
    (made [1] 1 = .ok (str "1") ∧ made [1] 2 = .ok (str "01") ∧ made [1] 8 = .ok (str "00000001") ∧
      made [127, 1] 10 = .ok (str "0111111101")) ∧
    ((∀ i < 8, bitOf [85] 8 (i : Nat) = .ok (i % 2 == 1)) ∧ (∀ i < 8, bitOf [85, 85] 16 (8 + i : Nat) = .ok (i % 2 == 1)) ∧
      bitOf [80, 2] 10 8 = .ok true ∧ bitOf [80, 2] 10 9 = .ok false) ∧
    ((newBinary [1] 1).isOk = true ∧ (newBinary [1] 8).isOk = true ∧ (newBinary [1] 9).isErr = true ∧
      (newBinary [1, 2] 9).isOk = true ∧ (newBinary [1, 2] 16).isOk = true ∧ (newBinary [1, 2] 8).isErr = true ∧
      (newBinary [1, 2] 17).isErr = true) ∧
    (∃ b, Binary.unmarshalJSON (fun d => some ((d.drop 1).dropLast)) (str "\"00110000\"") = .ok b ∧
      b.string = str "00110000") := by
  refine ⟨by decide +kernel, by decide +kernel, by decide +kernel, ⟨_, rfl, by decide +kernel⟩⟩

/-! ## table -/

/-- The records of /repo/_definitions/tables/0/0/0/25 used by /repo/table/table_test.go -/
def disk : Disk ToyFloat := fun path =>
  if path = str "B" then .ok [(str "001001", [.str (str "WMO BLOCK NUMBER"), .str (str "Numeric"), .num (GoFloat.ofNat 0),
    .num (GoFloat.ofNat 0), .num (GoFloat.ofNat 7), .str (str "Numeric"), .num (GoFloat.ofNat 0), .num (GoFloat.ofNat 2)])]
  else .ok [(str "301001", [.str (str "(WMO block and station numbers)"), .arr [.str (str "001001"), .str (str "001002")]])]

/-- C110. `TestLoadTableB` and `TestLoadTableD` pass. -/
theorem C110_tables :
    pass ((do let b ← loadTableB disk (str "B"); b.lookup 1001 : Outcome Desc)) (fun d => decide (d.id = 1001 ∧ d.entry.name = str "WMO BLOCK NUMBER")) = true ∧
    pass ((do let b ← loadTableD disk (str "D"); b.lookup 301001 : Outcome Desc)) (fun d => match d.entry with
      | .d e => decide (d.id = 301001 ∧ e.name = str "(WMO block and station numbers)" ∧ e.members = [1001, 1002])
      | _ => false) = true := by
  decide +kernel

/-- /repo/table/template_test.go:8-24 `getTableGroup` -/
def group : SingleGroup where
  b := ⟨[], [1001, 1002, 4003, 4004, 4005, 31001].map fun i => (i, emptyBentry (pad06 i))⟩
  d := ⟨[], [(301001, ⟨str "301001", [1001, 1002]⟩), (301013, ⟨str "301013", [4003, 4004, 4005]⟩)]⟩

/-- The template expanded and dumped -/
def dumped (ids : List ID) : Outcome GoString := do
  let ts ← expand group.lookup 20 (.exact ids)
  dumpTemplate ts

/-- C110. `TestUnexpandedTemplate_Expand`, `…2`, `…3` and `…4` pass. -/
theorem C110_expand :
    dumped [301001, 301013] = .ok (str "301001 301001\n    001001 001001\n    001002 001002\n301013 301013\n    004003 004003\n    004004 004004\n    004005 004005") ∧
    dumped [103002, 1001, 1002, 4003] = .ok (str "103002 103002\n    001001 001001\n    001002 001002\n    004003 004003") ∧
    dumped [103002, 4004, 301001, 4003] = .ok (str "103002 103002\n    004004 004004\n    301001 301001\n        001001 001001\n        001002 001002\n    004003 004003") ∧
    dumped [103000, 31001, 301001, 301013, 1001] = .ok (str "103000 103000\n....031001 031001\n    301001 301001\n        001001 001001\n        001002 001002\n    301013 301013\n        004003 004003\n        004004 004004\n        004005 004005\n    001001 001001") := by
  decide +kernel

/-- The code of an event, and the id if it has a descriptor -/
def shown : Event → String × Option ID
  | .element d => ("WE_ELEMENT_DESCRIPTOR", some d.id)
  | .replication d => ("WE_REPLICATION_DESCRIPTOR", some d.id)
  | .operator d => ("WE_OPERATOR_DESCRIPTOR", some d.id)
  | .sequence d => ("WE_SEQUENCE_DESCRIPTOR", some d.id)
  | .factor d => ("WE_FACTOR", some d.id)
  | .beginSequence => ("WE_BEGIN_SEQUENCE", none)
  | .endSequence => ("WE_END_SEQUENCE", none)
  | .beginReplication => ("WE_BEGIN_REPLICATION", none)
  | .endReplication => ("WE_END_REPLICATION", none)
  | .beginBlock => ("WE_BEGIN_BLOCK", none)
  | .endBlock => ("WE_END_BLOCK", none)
  | .beginTemplate => ("WE_BEGIN_TEMPLATE", none)
  | .endTemplate => ("WE_END_TEMPLATE", none)

/-- The events of one block in `TestExpandedTemplate_Walk` -/
def block : List (String × Option ID) := [
  ("WE_BEGIN_BLOCK", none), ("WE_SEQUENCE_DESCRIPTOR", some 301001), ("WE_BEGIN_SEQUENCE", none),
  ("WE_ELEMENT_DESCRIPTOR", some 1001), ("WE_ELEMENT_DESCRIPTOR", some 1002), ("WE_END_SEQUENCE", none),
  ("WE_SEQUENCE_DESCRIPTOR", some 301013), ("WE_BEGIN_SEQUENCE", none), ("WE_ELEMENT_DESCRIPTOR", some 4003),
  ("WE_ELEMENT_DESCRIPTOR", some 4004), ("WE_ELEMENT_DESCRIPTOR", some 4005), ("WE_END_SEQUENCE", none),
  ("WE_ELEMENT_DESCRIPTOR", some 1001), ("WE_END_BLOCK", none)]

/-- C110. `TestExpandedTemplate_Walk` passes, and no event is left out. -/
theorem C110_walk :
    pass (expand group.lookup 20 (.exact [103000, 31001, 301001, 301013, 1001])) (fun ts => decide ((walkTemplate ts ⟨[], some [2]⟩).1 = .ok () ∧ (walkTemplate ts ⟨[], some [2]⟩).2.outs.map shown =
          [("WE_BEGIN_TEMPLATE", none), ("WE_REPLICATION_DESCRIPTOR", some 103000), ("WE_FACTOR", some 31001),
           ("WE_BEGIN_REPLICATION", none)] ++ block ++ block ++ [("WE_END_REPLICATION", none), ("WE_END_TEMPLATE", none)])) = true := by
  decide +kernel

/-! ## deserialize/parser, deserialize/ast -/

/-- /repo/deserialize/parser/state_test.go:8-20 `getKeeper` -/
def keeper : Keeper := newKeeper [236000, 101000, 31002, 31031, 1031, 1032, 101000, 31002, 33007]

/-- C110. `TestIdsKeeper_TakeWhile` and `TestIdsKeeper_TakeTill` pass. -/
theorem C110_keeper :
    pass ((Keeper.takeWhile (fun i => i == 31031) keeper).1) (fun ids => decide (ids.length = 4 ∧ ids[0]? = some 236000 ∧ ids[3]? = some 31031)) = true ∧
    pass ((Keeper.takeTill (fun i => i == 1032) keeper).1) (fun ids => decide (ids.length = 5 ∧ ids[0]? = some 236000 ∧ ids[4]? = some 1031)) = true := by
  decide +kernel

/-- The entries of /repo/_definitions/tables/0/0/0/28 that /repo/deserialize/parser/parser_test.go uses; 005003 has none. -/
def wmo28 : SingleGroup where
  b := ⟨[], [
    (1001, el .numeric 0 0 7), (1002, el .numeric 0 0 10), (4001, el .numeric 0 0 12), (4002, el .numeric 0 0 4),
    (5001, el .numeric 5 (-9000000) 25), (5002, el .numeric 2 (-9000) 15), (6001, el .numeric 5 (-18000000) 26),
    (8023, el .nonnegCode 0 0 6), (1031, el .nonnegCode 0 0 16), (1032, el .numeric 0 0 8), (31001, el .numeric 0 0 8),
    (31002, el .numeric 0 0 16), (31021, el .nonnegCode 0 0 6), (31031, el .flag 0 0 1), (33007, el .numeric 0 0 7)]⟩
  d := ⟨[], [(301001, ⟨[], [1001, 1002]⟩)]⟩

/-- The template of `TestParser_Parse` -/
def template : List ID := [301001, 102001, 4001, 4002, 103000, 31001, 5001, 5002, 6001, 221003, 5001, 5002, 6001, 222000,
  236000, 101000, 31002, 31031, 1031, 1032, 101000, 31002, 33007, 237255, 223000, 101000, 31002, 31031, 1031, 1032, 8023,
  223255, 223255, 204003, 31021, 206050, 5003, 31021, 204000, 203012, 1031, 1032, 203255]

/-- C110. `TestParser_Parse` passes: the template is parsed and the tree is dumped.  (The test asserts nothing more; that
the tree is the right one is C33 and C34.) -/
theorem C110_parse :
    pass (parse wmo28.lookup 100 template) (fun t => decide ((AstDump.visit t ⟨[], []⟩).1 = .ok () ∧ t.members.length = 13)) = true := by
  decide +kernel

/-- C110. The tests of /repo/deserialize/ast/lint_test.go pass. -/
theorem C110_lint (c1 c2 : GoString) :
    (lint (.fixedRepl ⟨102002, .r c1⟩ [.element ⟨1001, .b (el .numeric 0 0 7)⟩ false])).isErr = true ∧
    (lint (.assocField ⟨204002, .c c2⟩ [])).isErr = true :=
  ⟨rfl, rfl⟩

end UnitTests
end Gobufr
