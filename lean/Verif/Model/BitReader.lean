import Verif.Model.Binary
import Verif.Model.Float

/-!
# tdcfio.BitReader and tdcfio.PeekableBitReader

Models /repo/tdcfio/bitreader.go.
-/

namespace Gobufr

/-- /repo/tdcfio/bitreader.go:12-17 `BitReader`: the bit source and the position counter. -/
structure BitReader where
  src : Bits
  pos : Int
  deriving Repr, DecidableEq, Inhabited

namespace BitReader

/-- Bits of a byte stream. -/
def bitsOfBytes (bs : List UInt8) : Bits := bs.flatMap byteBits

/-- /repo/tdcfio/bitreader.go:22-26 `NewBitReader`. -/
def new (bytes : List UInt8) : BitReader := ⟨bitsOfBytes bytes, 0⟩

/-- run a call of the bit stream library -/
def onSrc (m : M Bits α) : M BitReader α := fun r =>
  match m r.src with
  | (o, s) => (o, { r with src := s })

/-- `r.pos += n` -/
def advance (n : Int) : M BitReader Unit := fun r => (.ok (), { r with pos := r.pos + n })

/-- /repo/tdcfio/bitreader.go:40-44 `ReadUint` -/
def readUint (nbits : Int) : M BitReader Nat := do
  advance nbits
  onSrc (readBits nbits)

/-- /repo/tdcfio/bitreader.go:32-38 `ReadNumber` -/
def readNumber [GoFloat F] (nbits : Int) : M BitReader F := do
  let x ← readUint nbits
  pure (GoFloat.ofNat x)

/-- /repo/tdcfio/bitreader.go:61-65 `ReadBool` -/
def readBool : M BitReader Bool := do
  advance 1
  onSrc readBit

/-- /repo/tdcfio/bitreader.go:46-59 `ReadInt`: sign bit, then magnitude. -/
def readInt (nbits : Int) : M BitReader Int := do
  let negative ← readBool
  advance (nbits - 1)
  let value ← onSrc (readBits (nbits - 1))
  if negative then pure (toInt64 (-(toInt64 value)))
  else pure (toInt64 value)

/-- /repo/tdcfio/bitreader.go:70-76, the loop of `ReadBytes` -/
def readBytesLoop : Nat → M BitReader (List UInt8)
  | 0 => pure []
  | k + 1 => do
    let b ← onSrc readByte
    let bs ← readBytesLoop k
    pure (b :: bs)

/-- /repo/tdcfio/bitreader.go:67-78 `ReadBytes`; `make` panics on a negative length. -/
def readBytes (nbytes : Int) : M BitReader (List UInt8) := do
  advance (nbytes * 8)
  if nbytes < 0 then M.crash "makeslice: len out of range"
  else readBytesLoop nbytes.toNat

/-- /repo/tdcfio/bitreader.go:91-102, the loop of `ReadBinary`.  `k` counts the iterations
(ceil(nbits/8)), `n` is the Go variable `nbits`.  `none` is the early `return nil, nil` taken
when a read fails: the error is dropped by the code. -/
def readBinaryLoop : (k : Nat) → (n : Nat) → List UInt8 → M BitReader (Option (List UInt8))
  | 0, _, buffer => pure (some buffer)
  | k + 1, n, buffer => fun r =>
    match onSrc (readBits (if n < 8 then n else 8)) r with
    | (.ok currentValue, r') => readBinaryLoop k (n - 8) (buffer ++ [UInt8.ofNat currentValue]) r'
    | (.err _, r') => (.ok none, r')
    | (.panic w, r') => (.panic w, r')
    | (.diverge, r') => (.diverge, r')

/-- /repo/tdcfio/bitreader.go:80-104 `ReadBinary`; `none` is a nil pointer. -/
def readBinary (nbits : Int) : M BitReader (Option Binary) := do
  advance nbits
  let buffer ← readBinaryLoop ((nbits.toNat + 7) / 8) nbits.toNat []
  match buffer with
  | none => pure none
  | some b => pure (some ⟨b, nbits⟩)

/-- /repo/tdcfio/bitreader.go:106-114 `ReadFloat32` -/
def readFloat32 [GoFloat F] : M BitReader F := do
  let v ← readUint 32
  pure (GoFloat.ofFloat32Bits (v % 2 ^ 32))

/-! ## Peeking -/

/-- The bytes that the shared `bufio.Reader` still holds: the bit reader fetches one byte at
a time, so at most one partially consumed byte is in the bit reader, the rest is below. -/
def underBits (r : BitReader) : Bits := r.src.drop (r.src.length % 8)

/-- Pack whole groups of 8 bits into bytes. -/
def bytesOfBits : Bits → List UInt8
  | a :: b :: c :: d :: e :: f :: g :: h :: t =>
    UInt8.ofNat ([a, b, c, d, e, f, g, h].foldl pushBit 0) :: bytesOfBits t
  | _ => []

/-- Default size of a `bufio.Reader` buffer. -/
def bufSize : Int := 4096

/-- `bufio.Reader.Peek(n)` on the remaining bytes: negative count, count over the buffer
size and end of input are errors; otherwise the next n bytes.  Nothing is consumed. -/
def bufPeek (under : Bits) (n : Int) : Outcome (List UInt8) :=
  if n < 0 then .err .negativeCount
  else if n > bufSize then .err .bufferFull
  else
    let avail := under.take (8 * n.toNat)
    if avail.length < 8 * n.toNat then .err .eof
    else .ok (bytesOfBits avail)

/-- /repo/tdcfio/bitreader.go:167-180 `peek`.  The slice returned together with an error is
never looked at by the callers. `b[skip:]` panics for a negative `skip` and for `skip` past
the end. `%` truncates. -/
def peek (skip n : Int) : M BitReader (List UInt8) := fun r =>
  if r.pos.tmod 8 ≠ 0 then (.err (.msg "can only peek at complete byte boundary"), r)
  else
    match bufPeek (underBits r) (skip + n) with
    | .err e => if skip < 0 then (.panic "slice bounds out of range", r) else (.err e, r)
    | .ok b =>
      if skip < 0 ∨ skip > b.length then (.panic "slice bounds out of range", r)
      else (.ok (b.drop skip.toNat), r)
    | .panic w => (.panic w, r)
    | .diverge => (.diverge, r)

/-- Run a call on a fresh bit reader over the given bytes. -/
def onFresh (bytes : List UInt8) (m : M BitReader α) : Outcome α := (m (new bytes)).1

/-- Wrap the error of a stateless call. -/
def wrapO (w : String) : Outcome α → Outcome α
  | .err e => .err (.wrap w e)
  | o => o

/-- /repo/tdcfio/bitreader.go:139-153 `PeekUint` -/
def peekUint (skip n : Int) : M BitReader Nat := do
  let nbytes := n.tdiv 8
  let nbytes := if n.tmod 8 > 0 then nbytes + 1 else nbytes
  let b ← M.wrapErr "cannot peek bytes" (peek skip nbytes)
  M.lift (wrapO "cannot read peeked bytes" (onFresh b (readUint n)))

/-- /repo/tdcfio/bitreader.go:155-165 `PeekBytes` -/
def peekBytes (skip nbytes : Int) : M BitReader (List UInt8) := do
  let b ← M.wrapErr "cannot peek bytes" (peek skip nbytes)
  M.lift (wrapO "cannot read peeked bytes" (onFresh b (readBytes nbytes)))

end BitReader

end Gobufr
