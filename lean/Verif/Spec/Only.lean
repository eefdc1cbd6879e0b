import Verif.Spec.Encode

/-!
# Specification vocabulary: data sections that are accepted

Which templates `C99` is about, when the packing of a value is a proper one, and which columns of compressed data are
accepted beside those of `Spec.Encode`.
-/

namespace Gobufr
namespace EncodeSpec

variable {F : Type}

/-- Entries of table B are those of elements. -/
def fine (d : Desc) : Bool := match d.entry with
  | .b _ => d.id.F == 0
  | _ => true

mutual
/-- Nodes that are never without a value. -/
def yields : Ast → Bool
  | .element _ np => !np
  | .e031021 _ | .insertString _ | .skipLocal _ _ | .delayedRepl _ _ | .marker _ => true
  | .sequence _ ms | .assocField _ ms | .dataNotPresent _ ms => yieldsL ms
  | .fixedRepl d ms => decide (0 < d.id.Y) && yieldsL ms
  | _ => false
/-- One of the nodes is such. -/
def yieldsL : List Ast → Bool
  | [] => false
  | m :: ms => yields m || yieldsL ms
end

mutual
/-- Templates whose replication factors are not without a value, nor their bitmaps; assessments only if `b`, within bitmaps
none, and nothing else that deals with bitmaps. -/
def simple (b : Bool) : Ast → Bool
  | .element d np => np || fine d
  | .e031021 d | .insertString d => fine d
  | .nbitsOffset _ | .scaleOffset _ | .modifyPacking _ | .setStringLength _ | .cancelBackRef _ | .cancelBitmap _ => true
  | .sequence _ ms | .fixedRepl _ ms | .assocField _ ms | .dataNotPresent _ ms => simpleL b ms
  | .delayedRepl _ ms => simpleL b ms && match ms with
    | m :: _ => yields m
    | [] => true
  | .newRefval d ms => (d.id.Y == 255 || !ms.isEmpty) && simpleL b ms
  | .skipLocal _ ms => simpleL b ms && match ms with
    | m :: _ => m.descriptor.all fine
    | [] => true
  | .marker d => fine d
  | .assessment d bm as ms => b && fine d && definesBitmap bm && simpleL false as && simpleL true ms
  | _ => false
/-- A bitmap with its definition, or the recall of one. -/
def definesBitmap : Ast → Bool
  | .bitmap (some d) ms => fine d && (d.id == 237000 || apart ms && yieldsL ms && simpleL false ms)
  | _ => false
/-- All nodes of a list are. -/
def simpleL (b : Bool) : List Ast → Bool
  | [] => true
  | m :: ms => simple b m && simpleL b ms
end

/-- A value is packed properly: numbers have at most 64 bits, texts are whole bytes, signed numbers have
a sign, and bits without meaning are there. -/
def Proper (info : PackingInfo F) (v : Val F) : Prop :=
  match info.unit with
  | .string => ∃ n : Nat, info.nbits = 8 * n
  | .code => 1 ≤ info.nbits ∧ info.nbits ≤ 64
  | .binary => 0 ≤ info.nbits ∧ v ≠ .binary none
  | _ => 0 ≤ info.nbits ∧ info.nbits ≤ 64

open UnpackSpec Spec

/-- The value of a base and an increment whose sum is `x`: sums of more than 64 bits are cut off, and sums of more than
`n` bits are never missing. -/
def sumValue [GoFloat F] (info : PackingInfo F) (n x : Nat) : Val F :=
  if x % 2 ^ 64 < 2 ^ n then value info n (x % 2 ^ 64) else present info (x % 2 ^ 64)

/-- Columns of compressed data that are accepted.  They are those of `Shared k`, and others that the rules do not
allow: increments of one bit, sums that are too large for the column, numbers of no width, and signed numbers and bits
without meaning if they are missing in all subsets. -/
inductive Lenient [GoFloat F] (k : Nat) (info : PackingInfo F) : List Bool → List (Val F) → Prop where
  /-- no width, nothing to write: zero -/
  | none : info.unit = .nonnegCode ∨ info.unit = .flag → info.nbits = 0 →
      Lenient k info [] (List.replicate k (.uint 0))
  /-- the same number in all subsets -/
  | same {n base : Nat} : Plain info.unit → info.nbits = n → (n = 0 → info.unit = .numeric) → n ≤ 64 → base < 2 ^ n →
      Lenient k info (column n base 0 []) (List.replicate k (value info n base))
  /-- base and increments; an increment of all ones is a missing value if it has two bits or more -/
  | increments {n base w : Nat} {incs : List Nat} : Plain info.unit → info.nbits = n → (n = 0 → info.unit = .numeric) →
      n ≤ 64 → base < 2 ^ n → w ≠ 0 → w < 64 → (∀ d ∈ incs, d < 2 ^ w) → ¬ AllOnes n base → incs.length = k →
      Lenient k info (column n base w incs)
        (incs.map fun d => if AllOnes w d then .nil else sumValue info n (base + d))
  /-- the same text in all subsets -/
  | sameText {s : List UInt8} : info.unit = .string → info.nbits = 8 * s.length →
      Lenient k info (s.flatMap byteBits ++ natBits 6 0) (List.replicate k (.bytes s))
  /-- a text for each subset, of the same length; the base is all zero -/
  | texts {n w : Nat} {strs : List (List UInt8)} : info.unit = .string → info.nbits = 8 * n → w ≠ 0 → w < 64 →
      (∀ x ∈ strs, x.length = w) → strs.length = k →
      Lenient k info ((List.replicate n (0 : UInt8)).flatMap byteBits ++ natBits 6 w ++
        (strs.flatMap fun x => x.flatMap byteBits)) (strs.map .bytes)
  /-- the same signed number in all subsets -/
  | sameSigned {n mag : Nat} {neg : Bool} : info.unit = .code → info.nbits = (n + 1 : Nat) → n < 64 → mag < 2 ^ n →
      Lenient k info (neg :: natBits n mag ++ natBits 6 0)
        (List.replicate k (.int (if neg then -(mag : Int) else mag)))
  /-- a signed number that is missing in all subsets, with any base -/
  | noSigned {n mag w : Nat} {neg : Bool} : info.unit = .code → info.nbits = (n + 1 : Nat) → n < 64 → mag < 2 ^ n →
      2 ≤ w → w < 64 →
      Lenient k info (neg :: natBits n mag ++ natBits 6 w ++ (List.replicate k (2 ^ w - 1)).flatMap (natBits w))
        (List.replicate k .nil)
  /-- bits without meaning that are missing in all subsets -/
  | noBits {n base w : Nat} : info.unit = .binary → info.nbits = n → n ≤ 64 → base < 2 ^ n → ¬ AllOnes n base →
      2 ≤ w → w < 64 → Lenient k info (column n base w (List.replicate k (2 ^ w - 1))) (List.replicate k .nil)

/-- A column has a proper width. -/
def ProperColumn (info : PackingInfo F) : Prop :=
  match info.unit with
  | .string => ∃ n : Nat, info.nbits = 8 * n
  | .code => 1 ≤ info.nbits ∧ info.nbits ≤ 64
  | _ => 0 ≤ info.nbits ∧ info.nbits ≤ 64

end EncodeSpec
end Gobufr
