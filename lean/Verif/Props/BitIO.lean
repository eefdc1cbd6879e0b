import Verif.Spec.ReadOps
import Verif.Proofs.Binary

/-!
# Properties of bit level reading and writing (C01 - C13)
-/

namespace Gobufr
open Spec

/-! ## C01 -/

/-- C01. Writing `v` with `n ≤ 64` bits after any bits `before`, then reading `n` bits at that
place with anything following, returns `v mod 2^n` and leaves what follows. -/
theorem C01_uint_roundtrip (v n : Nat) (hn : n ≤ 64) (before after : Bits) (p : Int) :
    ∃ w, BitWriter.writeUint v n before = (.ok (), before ++ w) ∧ w.length = n ∧
      BitReader.readUint n ⟨w ++ after, p⟩ = (.ok (v % 2 ^ n), ⟨after, p + n⟩) := by
  refine ⟨natBits n v, ?_, by simp, ?_⟩
  · simpa using BitWriter.writeUint_eq v n before (by omega) (by omega)
  · rw [BitReader.readUint_append n _ _ _ (by simp), bitsVal_natBits]
    rw [Nat.mod_eq_of_lt (b := two64)]
    exact Nat.lt_of_lt_of_le (Nat.mod_lt _ (Nat.two_pow_pos n))
      (Nat.pow_le_pow_right (by decide) hn)

/-- C01. Reading the same bits as a number gives the float of the unsigned value. -/
theorem C01_number {F : Type} [GoFloat F] (v n : Nat) (hn : n ≤ 64) (before after : Bits) (p : Int) :
    ∃ w, BitWriter.writeUint v n before = (.ok (), before ++ w) ∧
      BitReader.readNumber (F := F) n ⟨w ++ after, p⟩ = (.ok (GoFloat.ofNat (v % 2 ^ n)), ⟨after, p + n⟩) := by
  obtain ⟨w, h1, _, h2⟩ := C01_uint_roundtrip v n hn before after p
  exact ⟨w, h1, by unfold BitReader.readNumber; rw [M.bind_ok h2]; rfl⟩

/-- Non-vacuity: 5 bits of 21 after 3 bits, a full concrete run. -/
example : BitReader.readUint 5
    ⟨(BitWriter.writeUint 21 5 [true, false, true]).2.drop 3 ++ [true], 3⟩
      = (.ok 21, ⟨[true], 8⟩) := by decide

/-! ## C02 -/

theorem signBit_eq (n : Nat) (h1 : 1 ≤ n) (h : n ≤ 64) : BitWriter.signBit n = 2 ^ (n - 1) := by
  unfold BitWriter.signBit
  have : toUint ((n : Int) - 1) = n - 1 := by unfold toUint two64; omega
  rw [this]
  unfold shl64
  rw [if_pos (by omega), Nat.one_mul, Nat.mod_eq_of_lt]
  exact Nat.pow_lt_pow_right (by decide) (by omega)

theorem natBits_sign_mag (n m : Nat) (s : Bool) (h : m < 2 ^ n) :
    natBits (n + 1) (s.toNat * 2 ^ n + m) = s :: natBits n m := by
  have hp := Nat.two_pow_pos n
  simp only [natBits]
  rw [Nat.add_comm, Nat.mul_comm, Nat.add_mul_div_left _ _ hp, Nat.div_eq_of_lt h]
  congr 1
  · cases s <;> rfl
  · apply natBits_congr
    rw [Nat.add_mul_mod_self_left]

theorem toInt64_small {i : Int} (h1 : -(2 ^ 63) ≤ i) (h2 : i < 2 ^ 63) : toInt64 i = i := by
  unfold toInt64 two64
  rw [Int.bmod_eq_iff (by decide)]
  refine ⟨by omega, by omega, ?_⟩
  simp

/-- The bits `WriteInt` appends for a value that fits. -/
theorem writeInt_bits (v : Int) (n : Nat) (h1 : 1 ≤ n) (hn : n ≤ 64) (hv : v.natAbs < 2 ^ (n - 1))
    (before : Bits) :
    BitWriter.writeInt v n before
      = (.ok (), before ++ (decide (v < 0) :: natBits (n - 1) v.natAbs)) := by
  have hpow : 2 ^ (n - 1) ≤ 2 ^ 63 := Nat.pow_le_pow_right (by decide) (by omega)
  have hs := natBits_sign_mag (n - 1) v.natAbs (decide (v < 0)) hv
  rw [show n - 1 + 1 = n by omega] at hs
  unfold BitWriter.writeInt
  by_cases h : v < 0
  · rw [if_pos h, BitWriter.writeUint_eq _ _ _ (by omega) (by omega)]
    have e1 : toUint (-v) = v.natAbs := by unfold toUint two64; omega
    rw [signBit_eq n h1 hn, e1]
    have hor := Nat.two_pow_add_eq_or_of_lt hv 1
    rw [Nat.mul_one] at hor
    rw [← hor]
    simp only [h, decide_true, Bool.toNat_true, Nat.one_mul] at hs
    simp [hs, h]
  · rw [if_neg h, BitWriter.writeUint_eq _ _ _ (by omega) (by omega)]
    have e1 : toUint v = v.natAbs := by unfold toUint two64; omega
    rw [e1]
    simp only [h, decide_false, Bool.toNat_false, Nat.zero_mul, Nat.zero_add] at hs
    simp [hs, h]

theorem readInt_bits (s : Bool) (m n : Nat) (h1 : 1 ≤ n) (hn : n ≤ 64) (hm : m < 2 ^ (n - 1))
    (after : Bits) (p : Int) :
    BitReader.readInt n ⟨(s :: natBits (n - 1) m) ++ after, p⟩
      = (.ok (if s then -(m : Int) else m), ⟨after, p + n⟩) := by
  have hpow : 2 ^ (n - 1) ≤ 2 ^ 63 := Nat.pow_le_pow_right (by decide) (by omega)
  rw [BitReader.readInt_append n s _ _ _ (by simp), bitsVal_natBits, Nat.mod_eq_of_lt hm,
    Nat.mod_eq_of_lt (show m < two64 by unfold two64; omega),
    toInt64_small (i := (m : Int)) (by omega) (by omega), toInt64_small (by omega) (by omega)]

/-- C02. A signed value with `|v| < 2^(n-1)` survives `WriteInt`/`ReadInt`. -/
theorem C02_int_roundtrip (v : Int) (n : Nat) (h1 : 1 ≤ n) (hn : n ≤ 64)
    (hv : v.natAbs < 2 ^ (n - 1)) (before after : Bits) (p : Int) :
    ∃ w, BitWriter.writeInt v n before = (.ok (), before ++ w) ∧ w.length = n ∧
      BitReader.readInt n ⟨w ++ after, p⟩ = (.ok v, ⟨after, p + n⟩) := by
  refine ⟨_, writeInt_bits v n h1 hn hv before, by simp; omega, ?_⟩
  rw [readInt_bits _ _ n h1 hn hv]
  congr 2
  by_cases h : v < 0 <;> simp [h] <;> omega

/-- C02, second sentence: a non-negative value one bit too large for its width is accepted by
`WriteInt` and read back as the negative number with the same low bits. -/
theorem C02_int_overflow_aliases (v : Int) (n : Nat) (h1 : 1 ≤ n) (hn : n ≤ 63)
    (hlo : (2 : Int) ^ (n - 1) ≤ v) (hhi : v < (2 : Int) ^ n) (before after : Bits) (p : Int) :
    ∃ w, BitWriter.writeInt v n before = (.ok (), before ++ w) ∧
      BitReader.readInt n ⟨w ++ after, p⟩ = (.ok (-(v - 2 ^ (n - 1))), ⟨after, p + n⟩) := by
  obtain ⟨m, rfl⟩ : ∃ m : Nat, v = 2 ^ (n - 1) + (m : Int) := ⟨(v - 2 ^ (n - 1)).toNat, by omega⟩
  have hpow : 2 ^ (n - 1) ≤ 2 ^ 62 := Nat.pow_le_pow_right (by decide) (by omega)
  have hcast : ((2 ^ (n - 1) : Nat) : Int) = (2 : Int) ^ (n - 1) := by simp
  have hm : m < 2 ^ (n - 1) := by
    have : (2 : Int) ^ n = 2 * 2 ^ (n - 1) := by
      rw [← Int.pow_succ', show n - 1 + 1 = n by omega]
    omega
  have hs := natBits_sign_mag (n - 1) m true hm
  rw [show n - 1 + 1 = n by omega] at hs
  refine ⟨true :: natBits (n - 1) m, ?_, ?_⟩
  · unfold BitWriter.writeInt
    rw [if_neg (by omega), BitWriter.writeUint_eq _ _ _ (by omega) (by omega)]
    have e1 : toUint (2 ^ (n - 1) + (m : Int)) = 2 ^ (n - 1) + m := by
      unfold toUint two64; omega
    simp only [Bool.toNat_true, Nat.one_mul] at hs
    rw [e1]
    simp [hs]
  · rw [readInt_bits _ _ n h1 (by omega) hm]
    congr 2
    simp; omega

/-- What `ReadInt` makes of `n` bits: a number whose magnitude has `n - 1` bits. -/
theorem readInt_bounded (w : Bits) (n : Nat) (h1 : 1 ≤ n) (hn : n ≤ 64) (hw : w.length = n) (after : Bits) (p : Int) :
    ∃ v : Int, BitReader.readInt n ⟨w ++ after, p⟩ = (.ok v, ⟨after, p + n⟩) ∧ v.natAbs < 2 ^ (n - 1) := by
  match w, hw with
  | [], hw => simp at hw; omega
  | s :: w, hw =>
    have hl : w.length = n - 1 := by simp at hw; omega
    have hv := natBits_bitsVal w
    have hm : bitsVal w < 2 ^ (n - 1) := by rw [← hl]; exact bitsVal_lt w
    rw [hl] at hv
    have := readInt_bits s (bitsVal w) n h1 hn hm after p
    rw [hv] at this
    refine ⟨_, this, ?_⟩
    cases s <;> simp <;> exact hm

/-- C02, second sentence: a value that does not fit is written without an error, with `n` bits like any
other, and is read back as a different number. -/
theorem C02_misfit (v : Int) (n : Nat) (h1 : 1 ≤ n) (hn : n ≤ 64) (hv : 2 ^ (n - 1) ≤ v.natAbs) (before after : Bits) (p : Int) :
    ∃ w v', BitWriter.writeInt v n before = (.ok (), before ++ w) ∧ w.length = n ∧
      BitReader.readInt n ⟨w ++ after, p⟩ = (.ok v', ⟨after, p + n⟩) ∧ v' ≠ v := by
  have hw : ∃ w : Bits, BitWriter.writeInt v n before = (.ok (), before ++ w) ∧ w.length = n := by
    unfold BitWriter.writeInt
    split
    · exact ⟨_, BitWriter.writeUint_eq _ n before (by omega) (by omega), by simp⟩
    · exact ⟨_, BitWriter.writeUint_eq _ n before (by omega) (by omega), by simp⟩
  obtain ⟨w, hw, hl⟩ := hw
  obtain ⟨v', hr, hb⟩ := readInt_bounded w n h1 hn hl after p
  exact ⟨w, v', hw, hl, hr, fun e => by subst e; omega⟩

/-- -9 does not fit in 4 bits. -/
example : BitReader.readInt 4 ⟨(BitWriter.writeInt (-9) 4 []).2, 0⟩ = (.ok (-1), ⟨[], 4⟩) := by decide

example : (-5 : Int).natAbs < 2 ^ (8 - 1) := by decide
/-- 200 written with 8 bits comes back as -72. -/
example : BitReader.readInt 8 ⟨(BitWriter.writeInt 200 8 []).2, 0⟩ = (.ok (-72), ⟨[], 8⟩) := by
  decide

/-! ## C03 -/

theorem binary_roundtrip (l : Bits) (before after : Bits) (p : Int) :
    BitWriter.writeBinary ⟨packBits l, l.length⟩ l.length before = (.ok (), before ++ l) ∧
    BitReader.readBinary l.length ⟨l ++ after, p⟩
      = (.ok (some ⟨packBits l, l.length⟩), ⟨after, p + l.length⟩) := by
  constructor
  · unfold BitWriter.writeBinary
    rw [if_neg (by simp)]
    exact BitWriter.writeBinaryLoop_pack l before
  · exact BitReader.readBinary_append _ l after p (by simp)

theorem item_roundtrip (i : Item) (h : i.fits) (before : Bits) :
    ∃ w, i.write before = (.ok (), before ++ w) ∧ w.length = i.readOp.width ∧
      ∀ after p, i.readOp.run ⟨w ++ after, p⟩
        = (.ok i.expected, ⟨after, p + i.readOp.width⟩) := by
  cases i with
  | uint v n =>
    obtain ⟨h1, h2⟩ := h
    obtain ⟨w, hw, hl, _⟩ := C01_uint_roundtrip v n h1 before [] 0
    refine ⟨w, hw, hl, fun after p => ?_⟩
    obtain ⟨w', hw', _, hr⟩ := C01_uint_roundtrip v n h1 before after p
    have : w' = w := by
      rw [hw] at hw'; simpa using (congrArg Prod.snd hw').symm
    subst this
    simp only [Item.readOp, ReadOp.run]
    rw [M.bind_ok hr, Nat.mod_eq_of_lt h2]; rfl
  | int v n =>
    obtain ⟨h1, h2, h3⟩ := h
    obtain ⟨w, hw, hl, _⟩ := C02_int_roundtrip v n h1 h2 h3 before [] 0
    refine ⟨w, hw, hl, fun after p => ?_⟩
    obtain ⟨w', hw', _, hr⟩ := C02_int_roundtrip v n h1 h2 h3 before after p
    have : w' = w := by
      rw [hw] at hw'; simpa using (congrArg Prod.snd hw').symm
    subst this
    simp only [Item.readOp, ReadOp.run]
    rw [M.bind_ok hr]; rfl
  | bool b =>
    refine ⟨[b], by simp [Item.write, BitWriter.writeBool, writeBit], rfl, fun after p => ?_⟩
    simp only [Item.readOp, ReadOp.run]
    rw [List.cons_append, List.nil_append, M.bind_ok (BitReader.readBool_cons b after p)]; rfl
  | bytes v =>
    refine ⟨v.flatMap byteBits, ?_, ?_, fun after p => ?_⟩
    · simp [Item.write, BitWriter.writeBytes, BitWriter.writeBytesLoop_eq]
    · simp only [Item.readOp, ReadOp.width]
      induction v with
      | nil => rfl
      | cons b bs ih =>
        have h8 : (byteBits b).length = 8 := rfl
        simp only [List.flatMap_cons, List.length_append, List.length_cons, h8, ih trivial]; omega
    · simp only [Item.readOp, ReadOp.run]
      rw [M.bind_ok (BitReader.readBytes_append v after p)]
      simp [Item.expected, ReadOp.width, Int.mul_comm]
  | binary v =>
    obtain ⟨s, hs⟩ := h
    obtain ⟨l, _, rfl⟩ := newBinaryFromString_ok hs
    refine ⟨l, (binary_roundtrip l before [] 0).1, by simp [Item.readOp, ReadOp.width], ?_⟩
    intro after p
    simp only [Item.readOp, ReadOp.run, Int.toNat_natCast]
    rw [M.bind_ok (binary_roundtrip l before after p).2]
    simp [Item.expected, ReadOp.width]

/-- C03. Any record of fitting values, written at any place, is read back unchanged by the
corresponding reads, which consume exactly what was written. -/
theorem C03_record_roundtrip (is : List Item) (h : ∀ i ∈ is, i.fits) (before after : Bits)
    (p : Int) :
    ∃ w, writeAll is before = (.ok (), before ++ w) ∧
      runAll (is.map Item.readOp) ⟨w ++ after, p⟩
        = (.ok (is.map Item.expected), ⟨after, p + w.length⟩) := by
  induction is generalizing before p with
  | nil => exact ⟨[], by simp [writeAll], by simp [runAll]⟩
  | cons i is ih =>
    obtain ⟨w1, hw1, hl1, hr1⟩ := item_roundtrip i (h i (by simp)) before
    obtain ⟨w2, hw2, hr2⟩ := ih (fun j hj => h j (by simp [hj])) (before ++ w1) (p + w1.length)
    refine ⟨w1 ++ w2, ?_, ?_⟩
    · simp only [writeAll]
      rw [M.bind_ok hw1, hw2, List.append_assoc]
    · simp only [List.map_cons, runAll, List.append_assoc]
      rw [M.bind_ok (hr1 (w2 ++ after) p), ← hl1, M.bind_ok hr2]
      simp [Int.add_assoc]

/-- Non-vacuity: a record mixing all kinds, unaligned. -/
example : ∀ i ∈ [Item.uint 5 3, .int (-3) 4, .bool true, .bytes [1, 2],
    .binary ⟨[0xAB, 0x1], 9⟩], i.fits := by
  intro i hi
  simp only [List.mem_cons, List.not_mem_nil, or_false] at hi
  rcases hi with rfl | rfl | rfl | rfl | rfl
  · exact ⟨by decide, by decide⟩
  · exact ⟨by decide, by decide, by decide⟩
  · trivial
  · trivial
  · exact ⟨str "101010111", by decide⟩

/-! ## C04 -/

/-- C04. `WriteBytes(v, n)` then `ReadBytes(n)`: the first `n` bytes of `v`, completed with
zero bytes. -/
theorem C04_bytes_pad_truncate (v : List UInt8) (n : Nat) (before after : Bits) (p : Int) :
    ∃ w r, BitWriter.writeBytes v n before = (.ok (), before ++ w) ∧
      BitReader.readBytes n ⟨w ++ after, p⟩ = (.ok r, ⟨after, p + 8 * n⟩) ∧
      r.length = n ∧ ∀ i < n, r[i]? = some (v.getD i 0) := by
  refine ⟨((v ++ List.replicate n 0).take n).flatMap byteBits, (v ++ List.replicate n 0).take n,
    ?_, ?_, by simp, ?_⟩
  · simp [BitWriter.writeBytes, BitWriter.writeBytesLoop_eq]
  · have := BitReader.readBytes_append ((v ++ List.replicate n 0).take n) after p
    have hl : ((v ++ List.replicate n (0 : UInt8)).take n).length = n := by simp
    rw [hl] at this
    rw [this]
    simp [Int.mul_comm]
  · intro i hi
    rw [List.getElem?_take_of_lt hi]
    by_cases hv : i < v.length
    · simp [List.getElem?_append_left, hv]
    · rw [List.getElem?_append_right (by omega)]
      have h2 : v[i]? = none := List.getElem?_eq_none (by omega)
      simp [List.getD_eq_getElem?_getD, h2, List.getElem?_replicate]
      omega

example : (BitWriter.writeBytes [7] 2 []).2
    = [false, false, false, false, false, true, true, true,
       false, false, false, false, false, false, false, false] := by decide

/-! ## C05 -/

/-- C05. A Binary made by the package, written and read back with its own width at any place,
is unchanged. -/
theorem C05_binary_roundtrip (s : GoString) (b : Binary) (hb : newBinaryFromString s = .ok b)
    (before after : Bits) (p : Int) :
    ∃ w, BitWriter.writeBinary b b.nbits before = (.ok (), before ++ w) ∧
      BitReader.readBinary b.nbits ⟨w ++ after, p⟩ = (.ok (some b), ⟨after, p + b.nbits⟩) := by
  obtain ⟨l, _, rfl⟩ := newBinaryFromString_ok hb
  exact ⟨l, (binary_roundtrip l before after p).1, (binary_roundtrip l before after p).2⟩

/-- C05, for a Binary obtained by reading: writing it reproduces the very bits it came from, which are read as
the same Binary wherever they stand. -/
theorem C05_binary_read_write (n : Nat) (r r' : BitReader) (b : Binary)
    (h : BitReader.readBinary n r = (.ok (some b), r')) (before : Bits) :
    b.nbits = n ∧ BitWriter.writeBinary b n before = (.ok (), before ++ r.src.take n) ∧
      ∀ after p, BitReader.readBinary n ⟨r.src.take n ++ after, p⟩ = (.ok (some b), ⟨after, p + n⟩) := by
  obtain ⟨s, p⟩ := r
  by_cases hl : s.length < n
  · obtain ⟨s', h'⟩ := BitReader.readBinary_short n s p (by simpa using hl)
    rw [h'] at h; simp at h
  · have hlen : (s.take n).length = n := by simp; omega
    have h1 := (binary_roundtrip (s.take n) before (s.drop n) p).2
    rw [List.take_append_drop, hlen] at h1
    rw [h1] at h
    simp only [Prod.mk.injEq, Outcome.ok.injEq, Option.some.injEq] at h
    obtain ⟨rfl, _⟩ := h
    have h2 := (binary_roundtrip (s.take n) before (s.drop n) p).1
    rw [hlen] at h2
    refine ⟨rfl, h2, fun after p => ?_⟩
    have h3 := (binary_roundtrip (s.take n) before after p).2
    rwa [hlen] at h3

/-- C05, last clause: a width different from `Nbits()` is refused and nothing is written. -/
theorem C05_width_mismatch (b : Binary) (n : Int) (h : n ≠ b.nbits) (before : Bits) :
    ∃ e, BitWriter.writeBinary b n before = (.err e, before) := by
  unfold BitWriter.writeBinary
  rw [if_pos h]
  exact ⟨_, rfl⟩

example : newBinaryFromString (str "10110011101") = .ok ⟨[0xB3, 5], 11⟩ := by decide

/-! ## C06, C07, C08 -/

/-- What a read does, completely: with enough input it consumes exactly its width of bits
whatever follows, and yields a genuine value. -/
theorem run_enough (op : ReadOp) (hint : op ≠ .int 0) (c : Bits) (hc : c.length = op.width) :
    ∃ v, v.real = true ∧ ∀ t p, op.run ⟨c ++ t, p⟩ = (.ok v, ⟨t, p + op.width⟩) := by
  cases op with
  | uint n =>
    refine ⟨.uint (bitsVal c % two64), rfl, fun t p => ?_⟩
    simp only [ReadOp.run]
    rw [M.bind_ok (BitReader.readUint_append n c t p (by simpa [ReadOp.width] using hc))]; rfl
  | int n =>
    cases n with
    | zero => exact absurd rfl hint
    | succ n =>
      match c, hc with
      | b :: c, hc =>
        refine ⟨.int (if b then toInt64 (-(toInt64 (bitsVal c % two64 : Nat)))
            else toInt64 (bitsVal c % two64 : Nat)), rfl, fun t p => ?_⟩
        simp only [ReadOp.run]
        rw [M.bind_ok (BitReader.readInt_append (n + 1 : Nat) b c t p
            (by simp [ReadOp.width] at hc; simp; omega))]; rfl
  | bool =>
    match c, hc with
    | [b], _ =>
      exact ⟨.bool b, rfl, fun t p => by
        simp only [ReadOp.run, List.cons_append, List.nil_append]
        rw [M.bind_ok (BitReader.readBool_cons b t p)]; rfl⟩
  | bytes n =>
    have hx : ∃ bs : List UInt8, bs.length = n ∧ bs.flatMap byteBits = c := by
      simp only [ReadOp.width] at hc
      clear hint
      induction n generalizing c with
      | zero => exact ⟨[], rfl, by simp at hc; simp [hc]⟩
      | succ n ih =>
        obtain ⟨bs, hb1, hb2⟩ := ih (c.drop 8) (by simp; omega)
        have h8 : (c.take 8).length = 8 := by simp; omega
        refine ⟨UInt8.ofNat (bitsVal (c.take 8)) :: bs, by simp [hb1], ?_⟩
        have hn := natBits_bitsVal (c.take 8)
        rw [h8] at hn
        simp only [List.flatMap_cons]
        rw [hb2, byteBits_eq, byte_toNat h8, hn, List.take_append_drop]
    obtain ⟨bs, rfl, rfl⟩ := hx
    refine ⟨.bytes bs, rfl, fun t p => ?_⟩
    simp only [ReadOp.run]
    rw [M.bind_ok (BitReader.readBytes_append bs t p)]
    simp [ReadOp.width, Int.mul_comm]
  | binary n =>
    refine ⟨.binary (some ⟨packBits c, n⟩), rfl, fun t p => ?_⟩
    simp only [ReadOp.run]
    rw [M.bind_ok (BitReader.readBinary_append n c t p (by simpa [ReadOp.width] using hc))]; rfl

/-- With too little input: never a genuine value. -/
theorem run_short (op : ReadOp) (s : Bits) (p : Int) (h : s.length < op.width) :
    (∃ r, op.run ⟨s, p⟩ = (.err .eof, r)) ∨
    (∃ n r, op = .binary n ∧ op.run ⟨s, p⟩ = (.ok (.binary none), r)) := by
  cases op with
  | uint n =>
    obtain ⟨s', h'⟩ := BitReader.readUint_short n s p (by simpa [ReadOp.width] using h)
    exact .inl ⟨_, M.bind_err h'⟩
  | int n =>
    obtain ⟨s', q, h'⟩ := BitReader.readInt_short n s p (by simpa [ReadOp.width] using h)
    exact .inl ⟨_, M.bind_err h'⟩
  | bool =>
    have : s = [] := List.eq_nil_of_length_eq_zero (by simp [ReadOp.width] at h; simp [h])
    subst this
    exact .inl ⟨_, M.bind_err (BitReader.readBool_nil p)⟩
  | bytes n =>
    obtain ⟨s', h'⟩ := BitReader.readBytes_short n s p (by simp [ReadOp.width] at h; omega)
    exact .inl ⟨_, M.bind_err h'⟩
  | binary n =>
    obtain ⟨s', h'⟩ := BitReader.readBinary_short n s p (by simpa [ReadOp.width] using h)
    refine .inr ⟨n, ⟨s', p + n⟩, rfl, ?_⟩
    simp only [ReadOp.run]
    rw [M.bind_ok h']; rfl

/-- A genuine value was read: the consumed bits, and independence of what follows. -/
theorem run_ok_real (op : ReadOp) (hint : op ≠ .int 0) (r r' : BitReader) (v : ReadVal)
    (h : op.run r = (.ok v, r')) (hv : v.real = true) :
    ∃ c, c.length = op.width ∧ r.src = c ++ r'.src ∧ r'.pos = r.pos + op.width ∧
      ∀ t p, op.run ⟨c ++ t, p⟩ = (.ok v, ⟨t, p + op.width⟩) := by
  obtain ⟨s, p⟩ := r
  by_cases hl : s.length < op.width
  · rcases run_short op s p hl with ⟨r, h'⟩ | ⟨n, r, _, h'⟩
    · rw [h'] at h; simp at h
    · rw [h'] at h; simp at h; obtain ⟨rfl, _⟩ := h; simp [ReadVal.real] at hv
  · obtain ⟨v', _, h2⟩ := run_enough op hint (s.take op.width) (by simp; omega)
    have h3 := h2 (s.drop op.width) p
    rw [List.take_append_drop, h] at h3
    simp only [Prod.mk.injEq, Outcome.ok.injEq] at h3
    obtain ⟨rfl, rfl⟩ := h3
    exact ⟨s.take op.width, by simp; omega, by simp, rfl, h2⟩

/-- C06 (part). Over any history of reads that hand out genuine values, `Pos()` advances by the
sum of the widths asked for and exactly that many bits leave the input.  Missing from the full
property: `ReadInt(0)` and a truncated `ReadBinary`, for which it is false (see the two
theorems below). -/
theorem C06_pos_accounting_partial (ops : List ReadOp) (hint : ∀ op ∈ ops, op ≠ .int 0)
    (r r' : BitReader) (vs : List ReadVal) (h : runAll ops r = (.ok vs, r'))
    (hv : ∀ v ∈ vs, v.real = true) :
    r'.pos = r.pos + (ops.map ReadOp.width).sum ∧
    r.src.length = r'.src.length + (ops.map ReadOp.width).sum ∧
    r'.src = r.src.drop (ops.map ReadOp.width).sum := by
  induction ops generalizing r vs with
  | nil =>
    simp only [runAll, M.pure_apply, Prod.mk.injEq] at h
    obtain ⟨_, rfl⟩ := h
    simp
  | cons op ops ih =>
    simp only [runAll] at h
    obtain ⟨v, r1, h1, h⟩ := M.bind_eq_ok.mp h
    obtain ⟨vs', r2, h2, h⟩ := M.bind_eq_ok.mp h
    simp only [M.pure_apply, Prod.mk.injEq, Outcome.ok.injEq] at h
    obtain ⟨rfl, rfl⟩ := h
    obtain ⟨c, hc, hs, hp, _⟩ := run_ok_real op (hint op (by simp)) r r1 v h1 (hv v (by simp))
    obtain ⟨e1, e2, e3⟩ := ih (fun o ho => hint o (by simp [ho])) r1 vs' h2
      (fun x hx => hv x (by simp [hx]))
    simp only [List.map_cons, List.sum_cons]
    refine ⟨by omega, ?_, ?_⟩
    · rw [hs, List.length_append]; omega
    · rw [e3, ← hc, hs, ← List.drop_drop, List.drop_left]

/-- C06 in full. -/
def C06_statement : Prop :=
  ∀ (ops : List ReadOp) (r r' : BitReader) (vs : List ReadVal), runAll ops r = (.ok vs, r') →
    r'.pos = r.pos + (ops.map ReadOp.width).sum ∧ r.src.length = r'.src.length + (ops.map ReadOp.width).sum

/-- C06 is violated by `ReadInt(0)`: it consumes one bit of the input while `Pos()` stays. -/
theorem C06_readInt0_violates (b : Bool) (t : Bits) (p : Int) :
    ∃ v, BitReader.readInt 0 ⟨b :: t, p⟩ = (.ok v, ⟨t, p⟩) := by
  have := BitReader.readInt_append 0 b [] t p (by simp)
  simp only [List.nil_append, List.cons_append, Int.add_zero] at this
  exact ⟨_, this⟩

/-- C06 is violated by `ReadBinary` at the end of the input: it reports success and moves
`Pos()` by the full width although fewer bits were there. -/
theorem C06_readBinary_violates (n : Nat) (s : Bits) (p : Int) (h : s.length < n) :
    ∃ v r', BitReader.readBinary n ⟨s, p⟩ = (.ok v, r') ∧ r'.pos = p + n ∧
      s.length < r'.src.length + n := by
  obtain ⟨s', h'⟩ := BitReader.readBinary_short n s p (by simpa using h)
  exact ⟨_, _, h', rfl, by simp; omega⟩

/-- The code violates C06. -/
theorem C06_violates : ¬ C06_statement := by
  intro h
  have := (h [.int 0] ⟨[true], 0⟩ ⟨[], 0⟩ [.int 0] (by decide)).2
  simp [ReadOp.width] at this

example : runAll [.uint 3, .binary 4, .bool] ⟨[true, false, true, true, true, true, true, false, true], 0⟩
    = (.ok [.uint 5, .binary (some ⟨[15], 4⟩), .bool false], ⟨[true], 8⟩) := by decide

/-- C07 (part). A read that asks for more bits than remain fails with `io.EOF`, for every
operation except `ReadBinary`. Missing: `ReadBinary`, which violates the property. -/
theorem C07_truncation_partial (op : ReadOp) (hb : ∀ n, op ≠ .binary n) (s : Bits) (p : Int)
    (h : s.length < op.width) : ∃ r, op.run ⟨s, p⟩ = (.err .eof, r) := by
  rcases run_short op s p h with h' | ⟨n, _, h', _⟩
  · exact h'
  · exact absurd h' (hb n)

/-- C07 is violated by `ReadBinary`: every truncated read returns a nil pointer and no error. -/
theorem C07_readBinary_violates (n : Nat) (s : Bits) (p : Int) (h : s.length < n) :
    ∃ r, BitReader.readBinary n ⟨s, p⟩ = (.ok none, r) := by
  obtain ⟨s', h'⟩ := BitReader.readBinary_short n s p (by simpa using h)
  exact ⟨_, h'⟩

/-- C07 in full. -/
def C07_statement : Prop :=
  ∀ (op : ReadOp) (s : Bits) (p : Int), s.length < op.width → ∃ e r, op.run ⟨s, p⟩ = (.err e, r)

/-- The code violates C07. -/
theorem C07_violates : ¬ C07_statement := by
  intro h
  obtain ⟨e, r, h⟩ := h (.binary 3) [true] 0 (by decide)
  have : (ReadOp.binary 3).run ⟨[true], 0⟩ = (.ok (.binary none), ⟨[], 3⟩) := by decide
  rw [this] at h
  cases h

example : (ReadOp.bytes 2).run ⟨List.replicate 15 true, 0⟩
    = (.err .eof, ⟨List.replicate 7 true, 16⟩) := by decide

/-- C08 in full. -/
def C08_statement : Prop :=
  ∀ (op : ReadOp) (r r' : BitReader) (v : ReadVal), op.run r = (.ok v, r') →
    ∃ c, r.src = c ++ r'.src ∧ ∀ t, op.run ⟨c ++ t, r.pos⟩ = (.ok v, ⟨t, r'.pos⟩)

/-- C08 (part). A read that hands out a genuine value depends only on the bits it consumed: on any other
continuation it gives the same value and leaves that continuation.  Missing: a `ReadBinary` cut off by the
end of the input, which hands out nil without an error (`C08_violates`). -/
theorem C08_prefix_partial (op : ReadOp) (r r' : BitReader) (v : ReadVal)
    (h : op.run r = (.ok v, r')) (hv : v.real = true) :
    ∃ c, r.src = c ++ r'.src ∧
      ∀ t, op.run ⟨c ++ t, r.pos⟩ = (.ok v, ⟨t, r'.pos⟩) := by
  by_cases hint : op = .int 0
  · subst hint
    obtain ⟨src, p⟩ := r
    have hr : ∀ (b : Bool) (t : Bits), (ReadOp.int 0).run ⟨b :: t, p⟩ = (.ok (.int 0), ⟨t, p⟩) := by
      intro b t
      have := BitReader.readInt_append 0 b [] t p (by simp)
      simp only [List.nil_append, List.cons_append, Int.add_zero] at this
      simp only [ReadOp.run]
      rw [show ((0 : Nat) : Int) = 0 from rfl, M.bind_ok this]
      cases b <;> rfl
    match src with
    | [] =>
      have : ((ReadOp.int 0).run ⟨[], p⟩).1 = .err .eof := by
        simp only [ReadOp.run, BitReader.readInt]
        rw [M.bind_err (M.bind_err (BitReader.readBool_nil p))]
      rw [h] at this
      cases this
    | b :: t =>
      rw [hr] at h
      simp only [Prod.mk.injEq, Outcome.ok.injEq] at h
      obtain ⟨rfl, rfl⟩ := h
      exact ⟨[b], rfl, fun t => hr b t⟩
  · obtain ⟨c, _, hs, hp, hr⟩ := run_ok_real op hint r r' v h hv
    exact ⟨c, hs, fun t => by rw [hr, hp]⟩

/-- The code violates C08: eight bits read as a Binary at the end of the input give nil, with more input a value. -/
theorem C08_violates : ¬ C08_statement := by
  intro h
  obtain ⟨c, hc, hr⟩ := h (.binary 8) ⟨[], 0⟩ ⟨[], 8⟩ (.binary none) (by decide)
  have : c = [] := by cases c with | nil => rfl | cons _ _ => simp at hc
  subst this
  have h8 := hr (List.replicate 8 true)
  have : (ReadOp.binary 8).run ⟨List.replicate 8 true, 0⟩ = (.ok (.binary (some ⟨[255], 8⟩)), ⟨[], 8⟩) := by decide
  rw [List.nil_append, this] at h8
  cases h8

example : (ReadOp.int 4).run ⟨[true, false, true, true, true], 0⟩
    = (.ok (.int (-3)), ⟨[true], 4⟩) := by decide

/-! ## C09 -/

/-- C09, no effect: whatever the arguments, a peek leaves the reader exactly as it was, so no
later read and no later `Pos()` can be affected. -/
theorem C09_peek_no_effect (skip n : Int) (r : BitReader) :
    (BitReader.peekUint skip n r).2 = r ∧ (BitReader.peekBytes skip n r).2 = r := by
  have hp : ∀ a b, (BitReader.peek a b r).2 = r := by
    intro a b
    unfold BitReader.peek
    split
    · rfl
    · split
      · split <;> rfl
      · split <;> rfl
      · rfl
      · rfl
  have hw : ∀ a b, (M.wrapErr "cannot peek bytes" (BitReader.peek a b) r).2 = r := by
    intro a b
    unfold M.wrapErr
    have := hp a b
    split <;> simp_all
  constructor
  · unfold BitReader.peekUint
    simp only [M.bind_apply]
    generalize hg : M.wrapErr "cannot peek bytes" (BitReader.peek skip _) r = x
    have := hw skip (if n.tmod 8 > 0 then n.tdiv 8 + 1 else n.tdiv 8)
    rw [hg] at this
    obtain ⟨o, s⟩ := x
    subst this
    cases o <;> rfl
  · unfold BitReader.peekBytes
    simp only [M.bind_apply]
    generalize hg : M.wrapErr "cannot peek bytes" (BitReader.peek skip _) r = x
    have := hw skip n
    rw [hg] at this
    obtain ⟨o, s⟩ := x
    subst this
    cases o <;> rfl

/-- C09, refusal: away from a byte boundary every peek is an error. -/
theorem C09_peek_unaligned (skip n : Int) (r : BitReader) (h : r.pos.tmod 8 ≠ 0) :
    (BitReader.peekUint skip n r).1.isErr = true ∧ (BitReader.peekBytes skip n r).1.isErr = true := by
  have hp : ∀ a b, BitReader.peek a b r = (.err (.msg "can only peek at complete byte boundary"), r) := by
    intro a b; unfold BitReader.peek; rw [if_pos h]
  constructor
  · simp [BitReader.peekUint, M.bind_apply, M.wrapErr, hp, Outcome.isErr]
  · simp [BitReader.peekBytes, M.bind_apply, M.wrapErr, hp, Outcome.isErr]

theorem bytesOfBits_append8 {g : Bits} (h : g.length = 8) (t : Bits) :
    BitReader.bytesOfBits (g ++ t) = UInt8.ofNat (bitsVal g) :: BitReader.bytesOfBits t := by
  obtain ⟨a, b, c, d, e, f, g', i, rfl⟩ := length8 h
  have := foldl_pushBit [a, b, c, d, e, f, g', i] 0
  simp only [Nat.zero_mul, Nat.zero_add] at this
  simp only [List.cons_append, List.nil_append, BitReader.bytesOfBits, this]

/-- Packing whole bytes and unpacking them again. -/
theorem bitsOfBytes_bytesOfBits (k : Nat) (l : Bits) (h : l.length = 8 * k) :
    BitReader.bitsOfBytes (BitReader.bytesOfBits l) = l ∧ (BitReader.bytesOfBits l).length = k ∧
    ∀ s, (BitReader.bytesOfBits l).drop s = BitReader.bytesOfBits (l.drop (8 * s)) := by
  induction k generalizing l with
  | zero =>
    have : l = [] := List.eq_nil_of_length_eq_zero (by omega)
    subst this
    simp [BitReader.bytesOfBits, BitReader.bitsOfBytes]
  | succ k ih =>
    have h8 : (l.take 8).length = 8 := by simp; omega
    have e : l = l.take 8 ++ l.drop 8 := (List.take_append_drop 8 l).symm
    obtain ⟨i1, i2, i3⟩ := ih (l.drop 8) (by simp; omega)
    have hb : BitReader.bytesOfBits l
        = UInt8.ofNat (bitsVal (l.take 8)) :: BitReader.bytesOfBits (l.drop 8) := by
      conv => lhs; rw [e]
      exact bytesOfBits_append8 h8 _
    refine ⟨?_, by rw [hb]; simp [i2], ?_⟩
    · rw [hb]
      unfold BitReader.bitsOfBytes at i1 ⊢
      have hn := natBits_bitsVal (l.take 8)
      rw [h8] at hn
      rw [List.flatMap_cons, i1, byteBits_eq, byte_toNat h8, hn, List.take_append_drop]
    · intro s
      cases s with
      | zero => simp
      | succ s =>
        rw [hb, List.drop_succ_cons, i3 s, List.drop_drop]
        congr 2; omega

/-- What `bufio.Peek` followed by `b[skip:]` gives at a byte boundary. -/
theorem peek_aligned (skip k : Nat) (r : BitReader) (hp : r.pos.tmod 8 = 0)
    (ha : r.src.length % 8 = 0) (hk : skip + k ≤ 4096) :
    BitReader.peek skip k r =
      if 8 * (skip + k) ≤ r.src.length then
        (.ok (BitReader.bytesOfBits ((r.src.drop (8 * skip)).take (8 * k))), r)
      else (.err .eof, r) := by
  unfold BitReader.peek
  rw [if_neg (by simp [hp])]
  have hu : BitReader.underBits r = r.src := by simp [BitReader.underBits, ha]
  have ht : ((skip : Int) + (k : Int)).toNat = skip + k := by omega
  unfold BitReader.bufPeek BitReader.bufSize
  rw [hu, if_neg (by omega), if_neg (by omega)]
  simp only [ht]
  by_cases h : 8 * (skip + k) ≤ r.src.length
  · have hl : (r.src.take (8 * (skip + k))).length = 8 * (skip + k) := by simp; omega
    obtain ⟨_, h2, h3⟩ := bitsOfBytes_bytesOfBits (skip + k) _ hl
    rw [if_neg (by omega), if_pos h]
    simp only [h2]
    rw [if_neg (by omega), Int.toNat_natCast, h3 skip, List.drop_take]
    congr 5; omega
  · rw [if_pos (by simp; omega), if_neg h]
    simp

/-- C09, look-ahead: at a byte boundary and within the 4096-byte buffer, `PeekUint(skip, n)`
yields a value exactly when skipping `skip` bytes and then reading `n` bits would, and the same
value. -/
theorem C09_peekUint_partial (skip n : Nat) (r : BitReader) (hp : r.pos.tmod 8 = 0)
    (ha : r.src.length % 8 = 0) (hk : skip + (n + 7) / 8 ≤ 4096) (v : Nat) :
    (BitReader.peekUint skip n r).1 = .ok v ↔
      ((do let _ ← BitReader.readBytes skip; BitReader.readUint n) r).1 = .ok v := by
  have hnb : (if (n : Int).tmod 8 > 0 then (n : Int).tdiv 8 + 1 else (n : Int).tdiv 8)
      = ((n + 7) / 8 : Nat) := by
    rw [Int.tmod_eq_emod_of_nonneg (by omega), Int.tdiv_eq_ediv_of_nonneg (by omega)]
    split <;> omega
  obtain ⟨s, p⟩ := r
  simp only at hp ha
  unfold BitReader.peekUint
  simp only [hnb]
  by_cases h : 8 * (skip + (n + 7) / 8) ≤ s.length
  · -- enough input on both sides
    obtain ⟨v1, _, hskip⟩ := run_enough (.bytes skip) (by simp) (s.take (8 * skip))
      (by simp [ReadOp.width]; omega)
    have hs1 := hskip (s.drop (8 * skip)) p
    rw [List.take_append_drop] at hs1
    simp only [ReadOp.run] at hs1
    obtain ⟨bs, r1, hb, hb'⟩ := M.bind_eq_ok.mp hs1
    simp only [M.pure_apply, Prod.mk.injEq] at hb'
    obtain ⟨_, rfl⟩ := hb'
    have hread : ∀ q, BitReader.readUint n ⟨s.drop (8 * skip), q⟩
        = (.ok (bitsVal ((s.drop (8 * skip)).take n) % two64),
            ⟨(s.drop (8 * skip)).drop n, q + n⟩) := by
      intro q
      have := BitReader.readUint_append n ((s.drop (8 * skip)).take n) ((s.drop (8 * skip)).drop n) q
        (by simp; omega)
      rwa [List.take_append_drop] at this
    have hpk := peek_aligned skip ((n + 7) / 8) ⟨s, p⟩ hp ha hk
    rw [if_pos h] at hpk
    rw [M.bind_ok (m := M.wrapErr _ _) (by simp only [M.wrapErr, hpk]; rfl), M.bind_ok hb, hread]
    have hl : ((s.drop (8 * skip)).take (8 * ((n + 7) / 8))).length = 8 * ((n + 7) / 8) := by
      simp; omega
    obtain ⟨h1, _, _⟩ := bitsOfBytes_bytesOfBits _ _ hl
    have hfresh : BitReader.onFresh (BitReader.bytesOfBits
        ((s.drop (8 * skip)).take (8 * ((n + 7) / 8)))) (BitReader.readUint n)
          = .ok (bitsVal ((s.drop (8 * skip)).take n) % two64) := by
      unfold BitReader.onFresh BitReader.new
      rw [h1]
      have := BitReader.readUint_append n ((s.drop (8 * skip)).take n)
        (((s.drop (8 * skip)).take (8 * ((n + 7) / 8))).drop n) 0 (by simp; omega)
      have e : (s.drop (8 * skip)).take n ++ ((s.drop (8 * skip)).take (8 * ((n + 7) / 8))).drop n
          = (s.drop (8 * skip)).take (8 * ((n + 7) / 8)) := by
        conv => rhs; rw [← List.take_append_drop n ((s.drop (8 * skip)).take (8 * ((n + 7) / 8)))]
        rw [List.take_take, Nat.min_eq_left (by omega)]
      rw [e] at this
      rw [this]
    rw [hfresh]
    simp [BitReader.wrapO]
  · -- not enough input: both fail
    have hpk := peek_aligned skip ((n + 7) / 8) ⟨s, p⟩ hp ha hk
    rw [if_neg h] at hpk
    rw [M.bind_err (m := M.wrapErr _ _) (by simp only [M.wrapErr, hpk]; rfl)]
    simp only [reduceCtorEq, false_iff]
    intro hc
    generalize hrun : (do let _ ← BitReader.readBytes skip; BitReader.readUint n) (⟨s, p⟩ : BitReader) = x at hc
    obtain ⟨o, r2⟩ := x
    simp only at hc
    subst hc
    obtain ⟨bs, r1, hb, hu⟩ := M.bind_eq_ok.mp hrun
    obtain ⟨c1, hc1, hs1, _, _⟩ := run_ok_real (.bytes skip) (by simp) ⟨s, p⟩ r1 (.bytes bs)
      (by simp only [ReadOp.run]; rw [M.bind_ok hb]; rfl) rfl
    obtain ⟨c2, hc2, hs2, _, _⟩ := run_ok_real (.uint n) (by simp) r1 r2 (.uint v)
      (by simp only [ReadOp.run]; rw [M.bind_ok hu]; rfl) rfl
    have e1 := congrArg List.length hs1
    have e2 := congrArg List.length hs2
    simp only [List.length_append, ReadOp.width] at e1 e2 hc1 hc2
    omega

/-- C09, look-ahead for `PeekBytes`. -/
theorem C09_peekBytes_partial (skip n : Nat) (r : BitReader) (hp : r.pos.tmod 8 = 0)
    (ha : r.src.length % 8 = 0) (hk : skip + n ≤ 4096) (v : List UInt8) :
    (BitReader.peekBytes skip n r).1 = .ok v ↔
      ((do let _ ← BitReader.readBytes skip; BitReader.readBytes n) r).1 = .ok v := by
  obtain ⟨s, p⟩ := r
  simp only at hp ha
  unfold BitReader.peekBytes
  by_cases h : 8 * (skip + n) ≤ s.length
  · obtain ⟨v1, _, hskip⟩ := run_enough (.bytes skip) (by simp) (s.take (8 * skip))
      (by simp [ReadOp.width]; omega)
    have hs1 := hskip (s.drop (8 * skip)) p
    rw [List.take_append_drop] at hs1
    simp only [ReadOp.run] at hs1
    obtain ⟨bs, r1, hb, hb'⟩ := M.bind_eq_ok.mp hs1
    simp only [M.pure_apply, Prod.mk.injEq] at hb'
    obtain ⟨_, rfl⟩ := hb'
    have hl : ((s.drop (8 * skip)).take (8 * n)).length = 8 * n := by simp; omega
    obtain ⟨h1, h2, _⟩ := bitsOfBytes_bytesOfBits _ _ hl
    have hread : ∀ t q, BitReader.readBytes n ⟨(s.drop (8 * skip)).take (8 * n) ++ t, q⟩
        = (.ok (BitReader.bytesOfBits ((s.drop (8 * skip)).take (8 * n))), ⟨t, q + n * 8⟩) := by
      intro t q
      have := BitReader.readBytes_append
        (BitReader.bytesOfBits ((s.drop (8 * skip)).take (8 * n))) t q
      unfold BitReader.bitsOfBytes at h1
      rwa [h1, h2] at this
    have hpk := peek_aligned skip n ⟨s, p⟩ hp ha hk
    rw [if_pos h] at hpk
    rw [M.bind_ok (m := M.wrapErr _ _) (by simp only [M.wrapErr, hpk]; rfl), M.bind_ok hb]
    have hr2 := hread ((s.drop (8 * skip)).drop (8 * n)) (p + (ReadOp.bytes skip).width)
    rw [List.take_append_drop] at hr2
    have hr1 := hread [] 0
    rw [List.append_nil] at hr1
    have hfresh : BitReader.onFresh (BitReader.bytesOfBits
        ((s.drop (8 * skip)).take (8 * n))) (BitReader.readBytes n)
          = .ok (BitReader.bytesOfBits ((s.drop (8 * skip)).take (8 * n))) := by
      unfold BitReader.onFresh BitReader.new
      rw [h1, hr1]
    rw [hfresh, hr2]
    simp [BitReader.wrapO]
  · have hpk := peek_aligned skip n ⟨s, p⟩ hp ha hk
    rw [if_neg h] at hpk
    rw [M.bind_err (m := M.wrapErr _ _) (by simp only [M.wrapErr, hpk]; rfl)]
    simp only [reduceCtorEq, false_iff]
    intro hc
    generalize hrun : (do let _ ← BitReader.readBytes skip; BitReader.readBytes n) (⟨s, p⟩ : BitReader) = x at hc
    obtain ⟨o, r2⟩ := x
    simp only at hc
    subst hc
    obtain ⟨bs, r1, hb, hu⟩ := M.bind_eq_ok.mp hrun
    obtain ⟨c1, hc1, hs1, _, _⟩ := run_ok_real (.bytes skip) (by simp) ⟨s, p⟩ r1 (.bytes bs)
      (by simp only [ReadOp.run]; rw [M.bind_ok hb]; rfl) rfl
    obtain ⟨c2, hc2, hs2, _, _⟩ := run_ok_real (.bytes n) (by simp) r1 r2 (.bytes v)
      (by simp only [ReadOp.run]; rw [M.bind_ok hu]; rfl) rfl
    have e1 := congrArg List.length hs1
    have e2 := congrArg List.length hs2
    simp only [List.length_append, ReadOp.width] at e1 e2 hc1 hc2
    omega

/-- C09. The reader is at the beginning of a byte of the input whenever its position is a multiple of 8, after
any reads that handed out genuine values: the second condition of `C09_peekUint_partial` and
`C09_peekBytes_partial` follows from the first. -/
theorem C09_boundary (bytes : List UInt8) (ops : List ReadOp) (hint : ∀ op ∈ ops, op ≠ .int 0) (r : BitReader)
    (vs : List ReadVal) (h : runAll ops (BitReader.new bytes) = (.ok vs, r)) (hv : ∀ v ∈ vs, v.real = true)
    (hp : r.pos.tmod 8 = 0) : r.src.length % 8 = 0 := by
  obtain ⟨h1, h2, h3⟩ := C06_pos_accounting_partial ops hint _ r vs h hv
  have hl : (BitReader.new bytes).src.length = 8 * bytes.length := by
    simp only [BitReader.new, BitReader.bitsOfBytes]
    clear h h1 h2 h3
    induction bytes with
    | nil => rfl
    | cons b bs ih =>
      have h8 : (byteBits b).length = 8 := rfl
      rw [List.flatMap_cons, List.length_append, h8, ih, List.length_cons]; omega
  rw [hl] at h2
  have h0 : (BitReader.new bytes).pos = 0 := rfl
  rw [h0] at h1
  rw [h1, Int.tmod_eq_emod_of_nonneg (by omega)] at hp
  omega

/-- C09 in full: at a byte boundary a peek sees what reading would give. -/
def C09_statement : Prop :=
  ∀ (skip n : Nat) (r : BitReader), r.pos.tmod 8 = 0 → r.src.length % 8 = 0 → ∀ v,
    (BitReader.peekBytes skip n r).1 = .ok v ↔
      ((do let _ ← BitReader.readBytes skip; BitReader.readBytes n) r).1 = .ok v

/-- How C09 fails: a peek that reaches beyond 4096 bytes, the size of the buffer, is refused, however long the input is. -/
theorem C09_limit (skip n : Nat) (r : BitReader) :
    (4096 < skip + n → (BitReader.peekBytes skip n r).1.isErr = true) ∧
    (4096 < skip + (n + 7) / 8 → (BitReader.peekUint skip n r).1.isErr = true) := by
  have hp : ∀ a b : Nat, 4096 < a + b → ∃ e, BitReader.peek a b r = (.err e, r) := by
    intro a b hab
    unfold BitReader.peek
    split
    · exact ⟨_, rfl⟩
    · unfold BitReader.bufPeek BitReader.bufSize
      rw [if_neg (by omega), if_pos (by omega)]
      exact ⟨_, by simp only []; rw [if_neg (by omega)]⟩
  constructor
  · intro h
    obtain ⟨e, h⟩ := hp skip n h
    simp [BitReader.peekBytes, M.bind_apply, M.wrapErr, h, Outcome.isErr]
  · intro h
    obtain ⟨e, h⟩ := hp skip ((n + 7) / 8) h
    have hnb : (if (n : Int).tmod 8 > 0 then (n : Int).tdiv 8 + 1 else (n : Int).tdiv 8) = ((n + 7) / 8 : Nat) := by
      rw [Int.tmod_eq_emod_of_nonneg (by omega), Int.tdiv_eq_ediv_of_nonneg (by omega)]
      split <;> omega
    unfold BitReader.peekUint
    simp only [hnb]
    simp only [M.bind_apply, M.wrapErr, h, Outcome.isErr]

/-- The code violates C09: 4097 bytes can be read, but not looked at. -/
theorem C09_violates : ¬ C09_statement := by
  intro h
  have key : ∀ bs : List UInt8, 4096 < bs.length → False := by
    intro bs hlen
    have hl : (bs.flatMap byteBits).length % 8 = 0 := by
      clear h hlen
      induction bs with
      | nil => rfl
      | cons b bs ih =>
        have h8 : (byteBits b).length = 8 := rfl
        rw [List.flatMap_cons, List.length_append, h8]; omega
    have hr := BitReader.readBytes_append bs [] 0
    have h0 := BitReader.readBytes_append [] (bs.flatMap byteBits) 0
    simp only [List.append_nil, List.flatMap_nil, List.nil_append, List.length_nil] at hr h0
    have := (h 0 bs.length ⟨bs.flatMap byteBits, 0⟩ rfl hl bs).mpr (by
      rw [M.bind_ok h0]
      simpa using congrArg Prod.fst hr)
    have hn := (C09_limit 0 bs.length ⟨bs.flatMap byteBits, 0⟩).1 (by omega)
    rw [this] at hn
    cases hn
  exact key (List.replicate 4097 0) (by rw [List.length_replicate]; omega)

/-- Non-vacuity: peek 12 bits after one byte. -/
example : (BitReader.peekUint 1 12 (BitReader.new [0xFF, 0xAB, 0xCD])).1 = .ok 0xABC := by decide

/-! ## C10, C11, C12, C13 -/

/-- C10. Accessors of a Binary made from a string: `Nbits` is the number of characters,
`String` the string, and `Bit(i)` tells whether character `i` is '1' (false past the end). -/
theorem C10_accessors_fromString (s : GoString) (b : Binary) (h : newBinaryFromString s = .ok b) :
    b.getNbits = s.length ∧ b.string = s ∧
      ∀ i : Nat, b.bit i = .ok (s[i]? == some (ch '1')) := by
  obtain ⟨l, rfl, rfl⟩ := newBinaryFromString_ok h
  refine ⟨by simp [Binary.getNbits, textOf_length], string_pack l, fun i => ?_⟩
  rw [bit_pack]
  congr 1
  rw [List.getD_eq_getElem?_getD]
  simp only [textOf, List.getElem?_map]
  cases l[i]? with
  | none => rfl
  | some b => cases b <;> decide

/-- C10. Accessors of a Binary obtained by reading `n` bits: exactly the bits read. -/
theorem C10_accessors_read (n : Nat) (r r' : BitReader) (b : Binary)
    (h : BitReader.readBinary n r = (.ok (some b), r')) :
    b.getNbits = n ∧ b.string.length = n ∧
      (∀ i : Nat, i < n → b.bit i = .ok (r.src.getD i false) ∧
        b.string[i]? = some (if r.src.getD i false then ch '1' else ch '0')) ∧
      (∀ i : Nat, n ≤ i → b.bit i = .ok false) := by
  obtain ⟨s, p⟩ := r
  by_cases hl : s.length < n
  · obtain ⟨s', h'⟩ := BitReader.readBinary_short n s p (by simpa using hl)
    rw [h'] at h; simp at h
  · have hlen : (s.take n).length = n := by simp; omega
    have h1 := BitReader.readBinary_append n (s.take n) (s.drop n) p (by simpa using hlen)
    rw [List.take_append_drop, h] at h1
    simp only [Prod.mk.injEq, Outcome.ok.injEq, Option.some.injEq] at h1
    obtain ⟨rfl, _⟩ := h1
    have hb := bit_pack (s.take n)
    have hs := string_pack (s.take n)
    rw [hlen] at hb hs
    refine ⟨rfl, by rw [hs, textOf_length, hlen], fun i hi => ⟨?_, ?_⟩, fun i hi => ?_⟩
    · rw [hb]
      simp only [List.getD_eq_getElem?_getD, List.getElem?_take_of_lt hi]
    · rw [hs]
      simp only [textOf, List.getElem?_map, List.getElem?_take_of_lt hi,
        List.getD_eq_getElem?_getD]
      have : i < s.length := by omega
      simp [List.getElem?_eq_getElem this]
    · rw [hb]
      simp only [List.getD_eq_getElem?_getD]
      rw [List.getElem?_eq_none (by omega)]
      rfl

example : (Binary.mk [0xB3, 5] 11).string = str "10110011101" := by decide

/-- C11. `NewBinaryFromString` succeeds iff the string has only '0' and '1', and then `String`
gives the string back. -/
theorem C11_text_roundtrip (s : GoString) :
    ((∃ b, newBinaryFromString s = .ok b) ↔ ∀ c ∈ s, c = ch '0' ∨ c = ch '1') ∧
    ∀ b, newBinaryFromString s = .ok b → b.string = s := by
  constructor
  · constructor
    · rintro ⟨b, h⟩
      obtain ⟨l, rfl, _⟩ := newBinaryFromString_ok h
      intro c hc
      simp only [textOf, List.mem_map] at hc
      obtain ⟨x, _, rfl⟩ := hc
      cases x <;> simp
    · intro h
      have : ∃ l, s = textOf l := by
        induction s with
        | nil => exact ⟨[], rfl⟩
        | cons c cs ih =>
          obtain ⟨l, hl⟩ := ih (fun x hx => h x (by simp [hx]))
          rcases h c (by simp) with hc | hc
          · exact ⟨false :: l, by simp [textOf, hc] at hl ⊢; exact hl⟩
          · exact ⟨true :: l, by simp [textOf, hc] at hl ⊢; exact hl⟩
      obtain ⟨l, rfl⟩ := this
      exact ⟨_, newBinaryFromString_text l⟩
  · intro b h
    exact (C10_accessors_fromString s b h).2.1

/-- C11. Marshalling to JSON and unmarshalling is the identity, for any JSON library that
decodes a quoted '0'/'1' string to its contents. -/
theorem C11_json_roundtrip (jsonString : GoString → Option GoString)
    (hj : ∀ s : GoString, (∀ c ∈ s, c = ch '0' ∨ c = ch '1') →
      jsonString ([ch '"'] ++ s ++ [ch '"']) = some s)
    (s : GoString) (b : Binary) (h : newBinaryFromString s = .ok b) :
    Binary.unmarshalJSON jsonString b.marshalJSON = .ok b := by
  have hs := (C11_text_roundtrip s).2 b h
  have h01 := (C11_text_roundtrip s).1.mp ⟨b, h⟩
  unfold Binary.unmarshalJSON Binary.marshalJSON
  rw [hs, hj s h01]
  exact h

/-- C11, disagreement: malformed JSON is not reported, it yields an empty Binary. -/
theorem C11_unmarshal_ignores_errors (jsonString : GoString → Option GoString) (data : GoString)
    (h : jsonString data = none) :
    Binary.unmarshalJSON jsonString data = .ok ⟨[], 0⟩ := by
  unfold Binary.unmarshalJSON
  rw [h]
  rfl

example : ∀ c ∈ str "0110", c = ch '0' ∨ c = ch '1' := by decide

/-- C12. `NewBinary(b, n)` succeeds iff `len(b) = ceil(n/8)`, and then holds `b` and `n`; for every integer `n`
(the quotient of the Euclidean division by 8 of `n + 7` is `ceil(n/8)`). -/
theorem C12_newBinary_validates (b : List UInt8) (n : Int) :
    ((b.length : Int) = (n + 7) / 8 → newBinary b n = .ok ⟨b, n⟩) ∧
    ((b.length : Int) ≠ (n + 7) / 8 → (newBinary b n).isErr = true) := by
  unfold newBinary
  have hk : (if n.tmod 8 > 0 then n.tdiv 8 + 1 else n.tdiv 8) = (n + 7) / 8 := by
    by_cases h : 0 ≤ n
    · rw [Int.tmod_eq_emod_of_nonneg h, Int.tdiv_eq_ediv_of_nonneg h]; split <;> omega
    · have h1 : n.tdiv 8 = -((-n) / 8) := by
        rw [← Int.tdiv_eq_ediv_of_nonneg (by omega), Int.neg_tdiv, Int.neg_neg]
      have h2 : ¬ n.tmod 8 > 0 := by
        have := Int.tmod_eq_emod_of_nonneg (a := -n) (b := 8) (by omega)
        rw [Int.neg_tmod] at this; omega
      rw [if_neg h2, h1]; omega
  simp only [hk]
  constructor
  · intro h; rw [if_neg]; omega
  · intro h; rw [if_pos]
    · rfl
    · omega

example : newBinary [1, 2] 9 = .ok ⟨[1, 2], 9⟩ ∧ (newBinary [1] 9).isErr = true := by decide

/-- A negative number of bits above -8 is accepted with no bytes. -/
example : newBinary [] (-3) = .ok ⟨[], -3⟩ := by decide

/-- C13 is violated for every argument: the loop of `NewBinaryFromUint` never ends, however
many iterations are allowed (its counter is unsigned and the loop condition is `>= 0`). -/
theorem C13_newBinaryFromUint_diverges (v : Nat) (n : Int) (fuel : Nat) :
    newBinaryFromUint fuel v n = .diverge := by
  have : ∀ sh bs, newBinaryFromUintLoop v fuel sh bs = .diverge := by
    induction fuel with
    | zero => intros; rfl
    | succ fuel ih =>
      intro sh bs
      unfold newBinaryFromUintLoop
      rw [if_pos (Nat.zero_le _)]
      exact ih _ _
  unfold newBinaryFromUint
  rw [this]
  rfl

/-- C13 (full claim): the call returns a Binary of `n` bits which spells the number. -/
def C13_statement : Prop :=
  ∀ (v : Nat) (n : Nat), 1 ≤ n → n ≤ 64 → v < 2 ^ n →
    ∃ fuel b, newBinaryFromUint fuel v n = .ok b ∧ b.nbits = n ∧ b.string = textOf (natBits n v)

/-- The code violates C13: the call never returns. -/
theorem C13_violates : ¬ C13_statement := by
  intro h
  obtain ⟨fuel, b, hb, -⟩ := h 5 8 (by decide) (by decide) (by decide)
  rw [C13_newBinaryFromUint_diverges] at hb
  cases hb

/-- What the loop of C13 gets right in a round: from the shift `s ≤ 56` it takes bits `s .. s+6` of
the number; bit `s+7`, the top bit of the byte, is lost.  (What is missing: everything else, the
loop does not end.) -/
theorem C13_byte_partial (v s : Nat) (h : s ≤ 56) :
    newBinaryFromUintByte v s = v / 2 ^ s % 2 ^ 7 := by
  unfold newBinaryFromUintByte
  have h1 : shl64 127 s = 127 * 2 ^ s := by
    unfold shl64
    rw [if_pos (by omega), Nat.mod_eq_of_lt]
    calc 127 * 2 ^ s ≤ 127 * 2 ^ 56 := Nat.mul_le_mul_left _ (Nat.pow_le_pow_right (by decide) h)
      _ < two64 := by decide
  rw [h1, ← Nat.shiftRight_eq_div_pow, Nat.shiftRight_and_distrib, ← Nat.shiftLeft_eq,
    Nat.shiftLeft_shiftRight, Nat.and_comm, Nat.shiftRight_eq_div_pow,
    show (127 : Nat) = 2 ^ 7 - 1 by decide, Nat.and_two_pow_sub_one_eq_mod]

example : newBinaryFromUintByte 0xABCD 8 = 0x2B := by decide

end Gobufr
