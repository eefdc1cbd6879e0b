import Verif.Model.Unpack
import Verif.Proofs.BitReader

/-!
# Helper lemmas: reads of a binary reader through the interface
-/

namespace Gobufr
open Spec

variable {F : Type}

namespace Reader

theorem call_bin {mb : M BitReader α} {mj : M (PeekJson F) α} {r r' : BitReader} {o : Outcome α}
    (h : mb r = (o, r')) : call mb mj (.bin r) = (o, .bin r') := by
  simp [call, h]

theorem readUint_bin [GoFloat F] (n : Int) (l t : Bits) (p : Int) (h : l.length = n.toNat) :
    (readUint n (.bin ⟨l ++ t, p⟩) : Outcome Nat × Reader F)
      = (.ok (bitsVal l % two64), .bin ⟨t, p + n⟩) :=
  call_bin (BitReader.readUint_append n l t p h)

theorem readInt_bin [GoFloat F] (n : Int) (b : Bool) (l t : Bits) (p : Int)
    (h : l.length = (n - 1).toNat) :
    (readInt n (.bin ⟨b :: l ++ t, p⟩) : Outcome Int × Reader F)
      = (.ok (if b then toInt64 (-(toInt64 (bitsVal l % two64 : Nat)))
            else toInt64 (bitsVal l % two64 : Nat)), .bin ⟨t, p + n⟩) :=
  call_bin (BitReader.readInt_append n b l t p h)

theorem readBytes_bin (bs : List UInt8) (t : Bits) (p : Int) :
    (readBytes bs.length (.bin ⟨bs.flatMap byteBits ++ t, p⟩) : Outcome _ × Reader F)
      = (.ok bs, .bin ⟨t, p + bs.length * 8⟩) :=
  call_bin (BitReader.readBytes_append bs t p)

theorem readBinary_bin (n : Int) (l t : Bits) (p : Int) (h : l.length = n.toNat) :
    (readBinary n (.bin ⟨l ++ t, p⟩) : Outcome _ × Reader F)
      = (.ok (some ⟨packBits l, n⟩), .bin ⟨t, p + n⟩) :=
  call_bin (BitReader.readBinary_append n l t p h)

end Reader

/-- A number below `2^n` written with `n` bits is read back. -/
theorem readUint_natBits [GoFloat F] (n v : Nat) (t : Bits) (p : Int) (hn : n ≤ 64) (hv : v < 2 ^ n) :
    (Reader.readUint n (.bin ⟨natBits n v ++ t, p⟩) : Outcome Nat × Reader F)
      = (.ok v, .bin ⟨t, p + n⟩) := by
  rw [Reader.readUint_bin n _ t p (by simp), bitsVal_natBits, Nat.mod_eq_of_lt hv]
  have h64 : v < two64 := Nat.lt_of_lt_of_le hv (Nat.pow_le_pow_right (by decide) hn)
  rw [Nat.mod_eq_of_lt h64]

theorem missingValueOfNbits_eq (n : Nat) (h1 : 1 ≤ n) (h64 : n ≤ 64) :
    missingValueOfNbits n = some (2 ^ n - 1) := by
  unfold missingValueOfNbits
  rw [if_pos (by omega)]
  congr 1
  unfold shl64
  simp only [Int.toNat_natCast, Nat.one_mul]
  by_cases h : n < 64
  · rw [if_pos h]
    have h2 : 2 ^ n < two64 := Nat.pow_lt_pow_right (by decide) h
    have h3 : 1 ≤ 2 ^ n := Nat.one_le_two_pow
    rw [Nat.mod_eq_of_lt h2]
    have h4 : ((2 ^ n : Nat) : Int) - 1 = ((2 ^ n - 1 : Nat) : Int) := by omega
    rw [h4, toUint_of_lt (by omega)]
  · have : n = 64 := by omega
    subst this
    decide

theorem isMissing_uint (v n : Nat) (h1 : 1 < n) (h64 : n ≤ 64) :
    isMissing (.uint v : Val F) n = decide (v = 2 ^ n - 1) := by
  unfold isMissing
  rw [missingValueOfNbits_eq n (by omega) h64]
  simp only [Option.getD_some]
  rw [if_pos (by omega)]
  by_cases h : v = 2 ^ n - 1 <;> simp [h]

theorem isMissing_le_one (v : Val F) (n : Int) (h : n ≤ 1) : isMissing v n = false := by
  cases v <;> simp [isMissing] <;> omega

/-- reading the same kind of item repeatedly -/
theorem fillM_read {α β σ : Type} (f : M σ α) (st : List β → σ) (val : β → α) :
    ∀ xs : List β, (∀ x ys, x ∈ xs → f (st (x :: ys)) = (.ok (val x), st ys)) →
      fillM f xs.length (st xs) = (.ok (xs.map val), st [])
  | [], _ => rfl
  | x :: xs, h => by
    have ih := fillM_read f st val xs fun y ys hy => h y ys (List.mem_cons_of_mem _ hy)
    simp only [List.length_cons, fillM]
    rw [M.bind_ok (h x xs (List.mem_cons_self ..)), M.bind_ok ih]
    rfl

end Gobufr
