/-!
# Specification vocabulary: bit strings and numbers

Independent of the model: what number a bit string denotes and how a number is spelled
with a given number of bits, most significant bit first.
-/

namespace Spec

/-- The number denoted by a bit string, most significant bit first. -/
def bitsVal : List Bool → Nat
  | [] => 0
  | b :: bs => b.toNat * 2 ^ bs.length + bitsVal bs

/-- The `n` low bits of `v`, most significant first. -/
def natBits : Nat → Nat → List Bool
  | 0, _ => []
  | n + 1, v => (v / 2 ^ n % 2 == 1) :: natBits n v

@[simp] theorem natBits_length (n v : Nat) : (natBits n v).length = n := by
  induction n generalizing v with
  | zero => rfl
  | succ n ih => simp [natBits, ih]

theorem bitsVal_lt (l : List Bool) : bitsVal l < 2 ^ l.length := by
  induction l with
  | nil => simp [bitsVal]
  | cons b bs ih =>
    simp only [bitsVal, List.length_cons, Nat.pow_succ]
    cases b <;> simp <;> omega

theorem bitsVal_natBits (n v : Nat) : bitsVal (natBits n v) = v % 2 ^ n := by
  induction n generalizing v with
  | zero => simp [natBits, bitsVal, Nat.mod_one]
  | succ n ih =>
    simp only [natBits, bitsVal, natBits_length, ih]
    have h := Nat.mod_mul (x := v) (a := 2 ^ n) (b := 2)
    rw [Nat.pow_succ, h]
    have : v / 2 ^ n % 2 = 0 ∨ v / 2 ^ n % 2 = 1 := by omega
    rcases this with h0 | h0 <;> simp [h0] <;> omega

theorem natBits_congr {n v w : Nat} (h : v % 2 ^ n = w % 2 ^ n) : natBits n v = natBits n w := by
  induction n with
  | zero => rfl
  | succ n ih =>
    have hdvd : 2 ^ n ∣ 2 ^ (n + 1) := ⟨2, by rw [Nat.pow_succ]⟩
    have h1 : v % 2 ^ n = w % 2 ^ n := by
      rw [← Nat.mod_mod_of_dvd v hdvd, ← Nat.mod_mod_of_dvd w hdvd, h]
    have h2 : v / 2 ^ n % 2 = w / 2 ^ n % 2 := by
      rw [Nat.pow_succ, Nat.mod_mul, Nat.mod_mul, h1] at h
      have hp : 0 < 2 ^ n := Nat.two_pow_pos n
      exact Nat.eq_of_mul_eq_mul_left hp (by omega)
    simp only [natBits, h2, ih h1]

theorem natBits_mod (n v : Nat) : natBits n (v % 2 ^ n) = natBits n v :=
  natBits_congr (Nat.mod_mod _ _)

/-- Spelling and denotation are inverse to each other. -/
theorem natBits_bitsVal (l : List Bool) : natBits l.length (bitsVal l) = l := by
  induction l with
  | nil => rfl
  | cons b bs ih =>
    simp only [List.length_cons, natBits, bitsVal]
    have hlt := bitsVal_lt bs
    have hp : 0 < 2 ^ bs.length := Nat.two_pow_pos _
    have hd : (b.toNat * 2 ^ bs.length + bitsVal bs) / 2 ^ bs.length = b.toNat := by
      rw [Nat.add_comm, Nat.mul_comm, Nat.add_mul_div_left _ _ hp, Nat.div_eq_of_lt hlt]; omega
    rw [hd]
    congr 1
    · cases b <;> rfl
    · rw [← ih]
      rw [ih]
      conv => rhs; rw [← ih]
      apply natBits_congr
      rw [Nat.add_comm, Nat.mul_comm, Nat.add_mul_mod_self_left]

theorem bitsVal_append (a b : List Bool) :
    bitsVal (a ++ b) = bitsVal a * 2 ^ b.length + bitsVal b := by
  induction a with
  | nil => simp [bitsVal]
  | cons x xs ih =>
    simp only [List.cons_append, bitsVal, ih, List.length_append, Nat.pow_add, Nat.add_mul]
    rw [Nat.mul_assoc]; omega

/-- Left-to-right evaluation (Horner) gives the same number. -/
theorem foldl_eq_bitsVal (l : List Bool) (u : Nat) :
    l.foldl (fun u b => 2 * u + b.toNat) u = u * 2 ^ l.length + bitsVal l := by
  induction l generalizing u with
  | nil => simp [bitsVal]
  | cons b bs ih =>
    simp only [List.foldl_cons, ih, bitsVal, List.length_cons, Nat.pow_succ, Nat.add_mul]
    have : 2 * u * 2 ^ bs.length = u * (2 ^ bs.length * 2) := by
      rw [Nat.mul_comm 2 u, Nat.mul_assoc, Nat.mul_comm 2]
    omega

theorem natBits_add (m n v : Nat) : natBits (m + n) v = natBits m (v / 2 ^ n) ++ natBits n v := by
  induction m with
  | zero => simp [natBits]
  | succ m ih =>
    have : m + 1 + n = (m + n) + 1 := by omega
    rw [this]
    simp only [natBits, ih, List.cons_append]
    congr 2
    rw [Nat.div_div_eq_div_mul, ← Nat.pow_add, Nat.add_comm n m]

end Spec
