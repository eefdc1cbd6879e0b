import Verif.Model.BitStream

/-!
# tdcfio.Binary

Models /repo/tdcfio/binary.go.
-/

namespace Gobufr

/-- Go strings are byte sequences. -/
abbrev GoString := List UInt8

/-- The byte of an ASCII character. -/
def ch (c : Char) : UInt8 := UInt8.ofNat c.toNat

/-- An ASCII literal as a Go string. -/
def str (s : String) : GoString := s.toList.map ch

/-- /repo/tdcfio/binary.go:14-17 `Binary`: bytes and number of bits. -/
structure Binary where
  b : List UInt8
  nbits : Int
  deriving Repr, DecidableEq, Inhabited

/-- /repo/tdcfio/binary.go:19-32 `NewBinary`.  Go `/` and `%` truncate towards zero.
The slice is shared with the caller in Go, copied here. -/
def newBinary (b : List UInt8) (nbits : Int) : Outcome Binary :=
  let nbytes := nbits.tdiv 8
  let nbytes := if nbits.tmod 8 > 0 then nbytes + 1 else nbytes
  if (b.length : Int) ≠ nbytes then .err (.msg "number of bytes and bits mismatch")
  else .ok ⟨b, nbits⟩

/-- `strconv.ParseUint(s, 2, 8)` on strings of 1 to 8 bytes: digits '0' and '1' only (the
range check cannot fail for at most 8 binary digits). -/
def parseBin8 : GoString → Nat → Outcome UInt8
  | [], u => .ok (UInt8.ofNat u)
  | c :: cs, u =>
    if c = ch '0' then parseBin8 cs (2 * u)
    else if c = ch '1' then parseBin8 cs (2 * u + 1)
    else .err (.msg "strconv.ParseUint: invalid syntax")

/-- /repo/tdcfio/binary.go:39-54, the loop over groups of 8 characters and the rest. -/
def newBinaryFromStringLoop : GoString → List UInt8 → Outcome (List UInt8)
  | c1 :: c2 :: c3 :: c4 :: c5 :: c6 :: c7 :: c8 :: rest, b => do
    let u ← parseBin8 [c1, c2, c3, c4, c5, c6, c7, c8] 0
    newBinaryFromStringLoop rest (b ++ [u])
  | [], b => .ok b
  | c :: cs, b => do
    let u ← parseBin8 (c :: cs) 0
    .ok (b ++ [u])

/-- /repo/tdcfio/binary.go:34-57 `NewBinaryFromString`. -/
def newBinaryFromString (s : GoString) : Outcome Binary := do
  let b ← newBinaryFromStringLoop s []
  newBinary b s.length

/-- /repo/tdcfio/binary.go:62, the byte that a round of the loop of `NewBinaryFromUint` appends (before its conversion to
`byte`). -/
def newBinaryFromUintByte (v nbitsShift : Nat) : Nat := ((shl64 127 nbitsShift) &&& v) / 2 ^ nbitsShift

/-- /repo/tdcfio/binary.go:61-63, the loop of `NewBinaryFromUint`.  `nbitsShift` is a
`uint`, so the condition `nbitsShift >= 0` is written as on the Go line and is always true;
`fuel` bounds the number of iterations examined, `diverge` means the loop is still running
after `fuel` iterations. -/
def newBinaryFromUintLoop (v : Nat) : (fuel : Nat) → (nbitsShift : Nat) → List UInt8 →
    Outcome (List UInt8)
  | 0, _, _ => .diverge
  | fuel + 1, nbitsShift, bs =>
    if nbitsShift ≥ 0 then
      newBinaryFromUintLoop v fuel (toUint ((nbitsShift : Int) - 8))
        (bs ++ [UInt8.ofNat (newBinaryFromUintByte v nbitsShift)])
    else .ok bs

/-- /repo/tdcfio/binary.go:59-69 `NewBinaryFromUint`. -/
def newBinaryFromUint (fuel : Nat) (v : Nat) (nbits : Int) : Outcome Binary := do
  let bs ← newBinaryFromUintLoop v fuel (toUint (nbits - 8)) []
  newBinary bs nbits

/-- Number of binary digits `%b` prints for a number. -/
def binDigits (n : Nat) : Nat := n.log2 + 1

/-- The digits of the `w` low bits of `n`. -/
def digitsOf (n : Nat) : Nat → GoString
  | 0 => []
  | w + 1 => (if n.testBit w then ch '1' else ch '0') :: digitsOf n w

/-- `fmt.Sprintf("%0<len>b", b)`: at least `len` digits, more when the value needs them. -/
def fmtBin (len : Nat) (b : UInt8) : GoString := digitsOf b.toNat (max len (binDigits b.toNat))

/-- /repo/tdcfio/binary.go:71-85 `Binary.String`; the recursion is the `range` loop, the last
element is the singleton case. A negative width (negative `nbits`) is outside the model:
`toNat` is used, such a Binary cannot be built with a non-empty byte slice by this package. -/
def Binary.stringLoop (nbits : Int) : List UInt8 → GoString
  | [] => []
  | [b] => fmtBin (if nbits.tmod 8 ≠ 0 then (nbits.tmod 8).toNat else 8) b
  | b :: bs => fmtBin 8 b ++ Binary.stringLoop nbits bs

def Binary.string (bin : Binary) : GoString := Binary.stringLoop bin.nbits bin.b

/-- /repo/tdcfio/binary.go:89-104 `Binary.Bit`.  A negative shift count converts to a huge
`uint` and gives 0. Indexing outside the byte slice panics. -/
def Binary.bit (bin : Binary) (n : Int) : Outcome Bool :=
  if n ≥ bin.nbits then .ok false
  else
    let ibyte := n.tdiv 8
    let ibit := n.tmod 8
    if ibyte < 0 then .panic "index out of range"
    else
      match bin.b[ibyte.toNat]? with
      | none => .panic "index out of range"
      | some b =>
        let padding : Int :=
          if ibyte = (bin.b.length : Int) - 1 ∧ bin.nbits.tmod 8 ≠ 0 then 8 - bin.nbits.tmod 8
          else 0
        let sh := 8 - ibit - 1 - padding
        if sh < 0 then .ok false
        else .ok ((b.toNat / 2 ^ sh.toNat) % 2 == 1)

/-- /repo/tdcfio/binary.go:106-108 `Binary.Nbits`. -/
def Binary.getNbits (bin : Binary) : Int := bin.nbits

/-- /repo/tdcfio/binary.go:110-112 `Binary.MarshalJSON`: a JSON string.  Binary texts contain
no character that JSON would escape. -/
def Binary.marshalJSON (bin : Binary) : GoString := [ch '"'] ++ bin.string ++ [ch '"']

/-- /repo/tdcfio/binary.go:114-126 `Binary.UnmarshalJSON`.  `jsonString` stands for
`json.Unmarshal(data, &s)`; its error is ignored by the code, `s` then stays empty. -/
def Binary.unmarshalJSON (jsonString : GoString → Option GoString) (data : GoString) :
    Outcome Binary :=
  newBinaryFromString ((jsonString data).getD [])

end Gobufr
