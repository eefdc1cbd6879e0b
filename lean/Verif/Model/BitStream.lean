import Verif.Go

/-!
# The bit stream library (external: github.com/dgryski/go-bitstream)

The library is not part of /repo and its source is not available here; the definitions
below are its documented contract, written with the loop structure of the library.
The input is the list of the bits that the reader has not yet handed out, most
significant bit of each byte first.  When the underlying `io.Reader` delivers whole bytes
the length of the list is a multiple of 8 at the start, but nothing below relies on it.
-/

namespace Gobufr

/-- Remaining input bits, most significant first. -/
abbrev Bits := List Bool

/-- Add a bit at the least significant end. -/
def pushBit (u : Nat) (b : Bool) : Nat := 2 * u + b.toNat

/-- `BitReader.ReadBit`: next bit or `io.EOF`. -/
def readBit : M Bits Bool
  | [] => (.err .eof, [])
  | b :: bs => (.ok b, bs)

/-- `BitReader.ReadByte`: the next 8 bits, at any alignment.  With fewer than 8 bits left
the result is `io.EOF` and nothing is consumed (the partial byte stays buffered). -/
def readByte : M Bits UInt8
  | a :: b :: c :: d :: e :: f :: g :: h :: t =>
    (.ok (UInt8.ofNat ([a, b, c, d, e, f, g, h].foldl pushBit 0)), t)
  | s => (.err .eof, s)

/-- First loop of `BitReader.ReadBits`: whole bytes, `u = (u << 8) | byte` on uint64. -/
def readBitsByteLoop : Nat → Nat → M Bits Nat
  | 0, u => pure u
  | k + 1, u => do
    let b ← readByte
    readBitsByteLoop k ((u * 256 + b.toNat) % two64)

/-- Second loop of `BitReader.ReadBits`: single bits, `u = (u << 1) | bit` on uint64. -/
def readBitsBitLoop : Nat → Nat → M Bits Nat
  | 0, u => pure u
  | k + 1, u => do
    let b ← readBit
    readBitsBitLoop k (pushBit u b % two64)

/-- `BitReader.ReadBits(n)`: big endian, whole bytes first, then single bits.
A non-positive `n` reads nothing. -/
def readBits (n : Int) : M Bits Nat := do
  let u ← readBitsByteLoop (n.toNat / 8) 0
  readBitsBitLoop (n.toNat % 8) u

/-- Shift left on uint64; a shift count of 64 or more gives 0. -/
def shl64 (u : Nat) (k : Nat) : Nat := if k < 64 then (u * 2 ^ k) % two64 else 0

/-- `BitWriter.WriteBit`.  The state is the list of all bits written so far; the
underlying `io.Writer` is assumed not to fail. -/
def writeBit (b : Bool) : M Bits Unit := fun s => (.ok (), s ++ [b])

/-- The 8 bits of a byte, most significant first. -/
def byteBits (b : UInt8) : Bits :=
  [b.toNat.testBit 7, b.toNat.testBit 6, b.toNat.testBit 5, b.toNat.testBit 4,
   b.toNat.testBit 3, b.toNat.testBit 2, b.toNat.testBit 1, b.toNat.testBit 0]

/-- `BitWriter.WriteByte` at any alignment. -/
def writeByte (b : UInt8) : M Bits Unit := fun s => (.ok (), s ++ byteBits b)

/-- First loop of `BitWriter.WriteBits`: the top byte of `u`, then `u <<= 8`. -/
def writeBitsByteLoop : Nat → Nat → M Bits Nat
  | 0, u => pure u
  | k + 1, u => do
    writeByte (UInt8.ofNat (u / 2 ^ 56))
    writeBitsByteLoop k (shl64 u 8)

/-- Second loop of `BitWriter.WriteBits`: the top bit of `u`, then `u <<= 1`. -/
def writeBitsBitLoop : Nat → Nat → M Bits Unit
  | 0, _ => pure ()
  | k + 1, u => do
    writeBit (u / 2 ^ 63 == 1)
    writeBitsBitLoop k (shl64 u 1)

/-- `BitWriter.WriteBits(u, n)`: left-align `u` in 64 bits, then whole bytes, then bits.
The shift count `64 - uint(n)` wraps around for `n > 64` (then the shift clears `u`). -/
def writeBits (u : Nat) (n : Int) : M Bits Unit := do
  let u ← writeBitsByteLoop (n.toNat / 8) (shl64 u (toUint (64 - n)))
  writeBitsBitLoop (n.toNat % 8) u

end Gobufr
