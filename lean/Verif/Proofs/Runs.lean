import Verif.Proofs.Reader
import Verif.Model.Unpack

/-!
# Helper lemmas: what a read depends on

A read that succeeds on a binary stream depends only on the bits it consumes.  The exception is
`ReadBinary`, which returns nil when the input ends.
-/

namespace Gobufr
open Spec

variable {F : Type}

namespace BitReader

theorem readBits_ok {n : Int} {s s' : Bits} {v : Nat} (h : readBits n s = (.ok v, s')) :
    ∃ l, l.length = n.toNat ∧ s = l ++ s' := by
  by_cases hn : s.length < n.toNat
  · obtain ⟨t, ht⟩ := readBits_short n s hn
    rw [ht] at h
    cases h
  · have hl : (s.take n.toNat).length = n.toNat := by simp; omega
    have := readBits_append n (s.take n.toNat) (s.drop n.toNat) hl
    rw [List.take_append_drop, h] at this
    cases this
    exact ⟨_, hl, (List.take_append_drop _ _).symm⟩

theorem readUint_ok {n : Int} {s : Bits} {p : Int} {v : Nat} {r : BitReader} (h : readUint n ⟨s, p⟩ = (.ok v, r)) :
    ∃ l t, l.length = n.toNat ∧ s = l ++ t ∧ r = ⟨t, p + n⟩ ∧ v = bitsVal l % two64 := by
  by_cases hn : s.length < n.toNat
  · obtain ⟨t, ht⟩ := readUint_short n s p hn
    rw [ht] at h
    cases h
  · have hl : (s.take n.toNat).length = n.toNat := by simp; omega
    have := readUint_append n (s.take n.toNat) (s.drop n.toNat) p hl
    rw [List.take_append_drop, h] at this
    cases this
    exact ⟨_, _, hl, (List.take_append_drop _ _).symm, rfl, rfl⟩

theorem readInt_ok {n : Int} {s : Bits} {p : Int} {v : Int} {r : BitReader} (h : readInt n ⟨s, p⟩ = (.ok v, r)) :
    ∃ b l t, l.length = (n - 1).toNat ∧ s = b :: l ++ t ∧ r = ⟨t, p + n⟩ := by
  match s with
  | [] => rw [readInt, M.bind_err (readBool_nil p)] at h; cases h
  | b :: s =>
    have h0 := h
    unfold readInt at h
    rw [M.bind_ok (readBool_cons b s p)] at h
    obtain ⟨_, r1, h1, h⟩ := M.bind_eq_ok.1 h
    cases h1
    obtain ⟨x, r2, h2, h⟩ := M.bind_eq_ok.1 h
    unfold onSrc at h2
    rcases hb : readBits (n - 1) s with ⟨o, t⟩
    simp only [hb] at h2
    cases h2
    obtain ⟨l, hl, rfl⟩ := readBits_ok hb
    have h3 := readInt_append n b l t p hl
    rw [List.cons_append, h0] at h3
    exact ⟨b, l, t, hl, rfl, (Prod.mk.inj h3).2⟩

theorem readByte_ok {s s' : Bits} {b : UInt8} (h : readByte s = (.ok b, s')) : s = byteBits b ++ s' := by
  by_cases h8 : s.length < 8
  · rw [readByte_short h8] at h
    cases h
  · have hl : (s.take 8).length = 8 := by simp; omega
    have h1 := readByte_append hl (s.drop 8)
    rw [List.take_append_drop, h] at h1
    cases h1
    obtain ⟨a, b, c, d, e, f, g, i, hh⟩ := length8 hl
    conv => lhs; rw [← List.take_append_drop 8 s]
    rw [hh]
    congr 1
    have key : ∀ a b c d e f g i : Bool, [a, b, c, d, e, f, g, i]
        = byteBits (UInt8.ofNat (bitsVal [a, b, c, d, e, f, g, i])) := by decide
    exact key a b c d e f g i

theorem readBytesLoop_ok : ∀ {k : Nat} {s : Bits} {p : Int} {bs : List UInt8} {r : BitReader},
    readBytesLoop k ⟨s, p⟩ = (.ok bs, r) → bs.length = k ∧ ∃ t, s = bs.flatMap byteBits ++ t ∧ r = ⟨t, p⟩
  | 0, s, p, bs, r, h => by
    cases h
    exact ⟨rfl, s, rfl, rfl⟩
  | k + 1, s, p, bs, r, h => by
    unfold readBytesLoop at h
    obtain ⟨b, r1, h1, h⟩ := M.bind_eq_ok.1 h
    obtain ⟨bs', r2, h2, h⟩ := M.bind_eq_ok.1 h
    cases h
    unfold onSrc at h1
    rcases hb : readByte s with ⟨o, t⟩
    simp only [hb] at h1
    cases h1
    have e := readByte_ok hb
    obtain ⟨hl, t2, rfl, rfl⟩ := readBytesLoop_ok h2
    exact ⟨by simp [hl], t2, by simp [e], rfl⟩

theorem readBytes_ok {n : Int} {s : Bits} {p : Int} {bs : List UInt8} {r : BitReader}
    (h : readBytes n ⟨s, p⟩ = (.ok bs, r)) :
    (bs.length : Int) = n ∧ ∃ t, s = bs.flatMap byteBits ++ t ∧ r = ⟨t, p + n * 8⟩ := by
  unfold readBytes at h
  rw [M.bind_ok (m := advance _) (a := ()) (s' := ⟨s, p + n * 8⟩) rfl] at h
  by_cases hn : n < 0
  · rw [if_pos hn] at h; cases h
  · rw [if_neg hn] at h
    obtain ⟨hl, t, h1, h2⟩ := readBytesLoop_ok h
    exact ⟨by omega, t, h1, h2⟩

/-- What is left after a failed read. -/
theorem readBits_left {n : Nat} {s : Bits} (hn : n ≤ 8) (h : s.length < n) :
    ∃ s', readBits n s = (.err .eof, s') ∧ s'.length ≤ s.length := by
  by_cases h8 : n = 8
  · subst h8
    refine ⟨s, ?_, Nat.le_refl _⟩
    unfold readBits
    exact M.bind_err (M.bind_err (readByte_short h))
  · have key : ∀ (k u : Nat) (s : Bits), s.length < k → ∃ s', readBitsBitLoop k u s = (.err .eof, s') ∧
        s'.length ≤ s.length := by
      intro k
      induction k with
      | zero => intro u s h; omega
      | succ k ih =>
        intro u s h
        unfold readBitsBitLoop
        match s, h with
        | [], _ => exact ⟨[], rfl, Nat.le_refl _⟩
        | b :: s, h =>
          obtain ⟨s', h1, h2⟩ := ih (pushBit u b % two64) s (by simpa using h)
          exact ⟨s', (M.bind_ok (m := readBit) (a := b) (s' := s) rfl).trans h1, by simp; omega⟩
    unfold readBits
    have e1 : (n : Int).toNat / 8 = 0 := by omega
    have e2 : (n : Int).toNat % 8 = n := by omega
    rw [e1, e2]
    obtain ⟨s', h1, h2⟩ := key n 0 s h
    exact ⟨s', (M.bind_ok (m := readBitsByteLoop 0 0) (a := 0) (s' := s) rfl).trans h1, h2⟩

theorem readBinaryLoop_ok : ∀ {k n : Nat} {acc : List UInt8} {s : Bits} {p : Int} {o : Option (List UInt8)}
    {r : BitReader}, k = (n + 7) / 8 → readBinaryLoop k n acc ⟨s, p⟩ = (.ok o, r) →
    ∃ t, r = ⟨t, p⟩ ∧ t.length ≤ s.length ∧ (o = none → s.length < n ∧ t.length < 8)
  | 0, n, acc, s, p, o, r, hk, h => by
    cases h
    exact ⟨s, rfl, Nat.le_refl _, by simp⟩
  | k + 1, n, acc, s, p, o, r, hk, h => by
    unfold readBinaryLoop at h
    by_cases hs : s.length < (if n < 8 then n else 8)
    · obtain ⟨s', h1, h2⟩ := readBits_left (s := s) (n := if n < 8 then n else 8) (by split <;> omega) hs
      have h3 : onSrc (readBits (if n < 8 then n else 8)) ⟨s, p⟩ = (.err .eof, ⟨s', p⟩) := by
        unfold onSrc
        have : readBits ((if n < 8 then n else 8 : Nat) : Int) s = _ := h1
        have e : ((if n < 8 then n else 8 : Nat) : Int) = if n < 8 then (n : Int) else 8 := by split <;> rfl
        rw [e] at this
        simp only [this]
      simp only [h3] at h
      cases h
      refine ⟨s', rfl, h2, fun _ => ?_⟩
      split at hs <;> omega
    · have hl : (s.take (if n < 8 then n else 8)).length = ((if n < 8 then (n : Int) else 8)).toNat := by
        simp; split <;> split at hs <;> omega
      have h1 := readBits_append _ _ (s.drop (if n < 8 then n else 8)) hl
      rw [List.take_append_drop] at h1
      have h3 : onSrc (readBits (if n < 8 then n else 8)) ⟨s, p⟩ =
          (.ok (bitsVal (s.take (if n < 8 then n else 8)) % two64), ⟨s.drop (if n < 8 then n else 8), p⟩) := by
        unfold onSrc
        rw [h1]
      simp only [h3] at h
      obtain ⟨t, e1, e2, e3⟩ := readBinaryLoop_ok (by omega) h
      refine ⟨t, e1, ?_, fun ho => ?_⟩
      · simp at e2; omega
      · obtain ⟨e3, e4⟩ := e3 ho
        simp only [List.length_drop] at e3
        split at e3 <;> omega

theorem readBinary_ok {n : Int} {s : Bits} {p : Int} {o : Option Binary} {r : BitReader}
    (h : readBinary n ⟨s, p⟩ = (.ok o, r)) :
    ∃ t, r = ⟨t, p + n⟩ ∧ ((∃ l, l.length = n.toNat ∧ s = l ++ t ∧ o = some ⟨packBits l, n⟩) ∨
      (o = none ∧ s.length < n.toNat ∧ t.length < 8 ∧ t.length ≤ s.length)) := by
  by_cases hn : s.length < n.toNat
  · unfold readBinary at h
    rw [M.bind_ok (m := advance _) (a := ()) (s' := ⟨s, p + n⟩) rfl] at h
    obtain ⟨b, r1, h1, h⟩ := M.bind_eq_ok.1 h
    obtain ⟨t, h2, h3, h4⟩ := readBinaryLoop_ok rfl h1
    have hb : b = none := by
      obtain ⟨s', hs'⟩ := readBinaryLoop_short _ s n.toNat [] (p + n) rfl hn
      rw [hs'] at h1
      cases h1
      rfl
    subst hb
    cases h
    exact ⟨t, h2, Or.inr ⟨rfl, hn, (h4 rfl).2, h3⟩⟩
  · have hl : (s.take n.toNat).length = n.toNat := by simp; omega
    have := readBinary_append n (s.take n.toNat) (s.drop n.toNat) p hl
    rw [List.take_append_drop, h] at this
    cases this
    exact ⟨_, rfl, Or.inl ⟨_, hl, (List.take_append_drop _ _).symm, rfl⟩⟩

end BitReader

/-- A read on a binary stream that succeeds depends only on what it consumes, unless its value is one of
`E` and less than a byte is left. -/
def Rd (E : α → Prop) (m : M (Reader F) α) : Prop :=
  ∀ src p a r', m (.bin ⟨src, p⟩) = (.ok a, r') → ∃ src' p', r' = .bin ⟨src', p'⟩ ∧ src'.length ≤ src.length ∧
    (8 ≤ src'.length ∨ ¬ E a → ∃ l, src = l ++ src' ∧
      ∀ z δ, m (.bin ⟨l ++ z, p + δ⟩) = (.ok a, .bin ⟨z, p' + δ⟩))

/-- No exception. -/
abbrev Never : α → Prop := fun _ => False

namespace Rd

theorem pure (E : α → Prop) (a : α) : Rd (F := F) E (Pure.pure a) := by
  intro src p b r h
  cases h
  exact ⟨src, p, rfl, Nat.le_refl _, fun _ => ⟨[], rfl, fun z δ => rfl⟩⟩

theorem stop {m : M (Reader F) α} (E : α → Prop) (h : ∀ r a r', m r ≠ (.ok a, r')) : Rd E m :=
  fun _ _ _ _ e => absurd e (h _ _ _)

theorem lift (E : α → Prop) (o : Outcome α) : Rd (F := F) E (M.lift o) := by
  intro src p b r h
  simp only [M.lift_apply, Prod.mk.injEq] at h
  obtain ⟨rfl, rfl⟩ := h
  exact ⟨src, p, rfl, Nat.le_refl _, fun _ => ⟨[], rfl, fun z δ => rfl⟩⟩

theorem bind {E1 : α → Prop} {E2 : β → Prop} {m : M (Reader F) α} {f : α → M (Reader F) β} (hm : Rd E1 m)
    (hf : ∀ a, Rd E2 (f a)) (hE : ∀ a b r r', f a r = (.ok b, r') → E1 a → E2 b) : Rd E2 (m >>= f) := by
  intro src p b r h
  obtain ⟨a, r1, h1, h2⟩ := M.bind_eq_ok.1 h
  obtain ⟨src1, p1, rfl, hl1, k1⟩ := hm _ _ _ _ h1
  obtain ⟨src2, p2, rfl, hl2, k2⟩ := hf _ _ _ _ _ h2
  refine ⟨src2, p2, rfl, by omega, fun hg => ?_⟩
  obtain ⟨l1, e1, q1⟩ := k1 (by
    rcases hg with hg | hg
    · left; omega
    · right; exact fun h => hg (hE _ _ _ _ h2 h))
  obtain ⟨l2, e2, q2⟩ := k2 hg
  refine ⟨l1 ++ l2, by rw [e1, e2, List.append_assoc], fun z δ => ?_⟩
  rw [List.append_assoc, M.bind_ok (q1 _ _), q2]

theorem bind' {E2 : β → Prop} {m : M (Reader F) α} {f : α → M (Reader F) β} (hm : Rd Never m)
    (hf : ∀ a, Rd E2 (f a)) : Rd E2 (m >>= f) := bind hm hf fun _ _ _ _ _ h => h.elim

theorem ite {E : α → Prop} {p : Prop} [Decidable p] {m n : M (Reader F) α} (hm : Rd E m) (hn : Rd E n) :
    Rd E (if p then m else n) := by
  by_cases h : p
  · rw [if_pos h]; exact hm
  · rw [if_neg h]; exact hn

theorem readUint [GoFloat F] (n : Int) : Rd (F := F) Never (Reader.readUint n) := by
  intro src p a r h
  simp only [Reader.readUint, Reader.call, Prod.mk.injEq] at h
  obtain ⟨l, t, hl, rfl, hr, rfl⟩ := BitReader.readUint_ok (eq_of_fst h.1)
  rw [hr] at h
  refine ⟨t, _, h.2.symm, by simp, fun _ => ⟨l, rfl, fun z δ => ?_⟩⟩
  rw [Reader.readUint_bin n l z _ hl]
  congr 3
  omega

theorem readInt [GoFloat F] (n : Int) : Rd (F := F) Never (Reader.readInt n) := by
  intro src p a r h
  have h0 := h
  simp only [Reader.readInt, Reader.call, Prod.mk.injEq] at h
  obtain ⟨b, l, t, hl, rfl, hr⟩ := BitReader.readInt_ok (eq_of_fst h.1)
  rw [Reader.readInt_bin n b l t p hl] at h0
  cases h0
  refine ⟨t, _, rfl, by simp; omega, fun _ => ⟨b :: l, rfl, fun z δ => ?_⟩⟩
  rw [Reader.readInt_bin n b l z _ hl]
  congr 3
  omega

theorem readBool : Rd (F := F) Never Reader.readBool := by
  intro src p a r h
  match src with
  | [] => cases h
  | b :: src =>
    cases h
    refine ⟨src, p + 1, rfl, by simp, fun _ => ⟨[a], rfl, fun z δ => ?_⟩⟩
    show ((Outcome.ok a : Outcome Bool), (Reader.bin ⟨z, p + δ + 1⟩ : Reader F)) = _
    congr 3
    omega

theorem readBytes (n : Int) : Rd (F := F) Never (Reader.readBytes n) := by
  intro src p a r h
  simp only [Reader.readBytes, Reader.call, Prod.mk.injEq] at h
  obtain ⟨hl, t, rfl, hr⟩ := BitReader.readBytes_ok (eq_of_fst h.1)
  rw [hr] at h
  refine ⟨t, _, h.2.symm, by simp, fun _ => ⟨_, rfl, fun z δ => ?_⟩⟩
  rw [← hl, Reader.readBytes_bin]
  congr 3
  omega

theorem readFloat32 [GoFloat F] : Rd (F := F) Never Reader.readFloat32 := by
  intro src p a r h
  rcases h3 : BitReader.readUint 32 ⟨src, p⟩ with ⟨o, r1⟩
  cases o with
  | ok v =>
    obtain ⟨l, t, hl, rfl, rfl, rfl⟩ := BitReader.readUint_ok h3
    have hx : ∀ z p, BitReader.readFloat32 (F := F) ⟨l ++ z, p⟩ =
        (.ok (GoFloat.ofFloat32Bits ((bitsVal l % two64) % 2 ^ 32)), ⟨z, p + 32⟩) := by
      intro z p
      unfold BitReader.readFloat32
      rw [M.bind_ok (BitReader.readUint_append 32 l z p hl)]
      rfl
    rw [Reader.readFloat32, Reader.call_bin (hx _ _)] at h
    cases h
    refine ⟨t, p + 32, rfl, by simp, fun _ => ⟨l, rfl, fun z δ => ?_⟩⟩
    rw [Reader.readFloat32, Reader.call_bin (hx _ _)]
    congr 3
    omega
  | err e =>
    have hx : BitReader.readFloat32 (F := F) ⟨src, p⟩ = _ := M.bind_err h3
    rw [Reader.readFloat32, Reader.call_bin hx] at h
    cases h
  | panic e =>
    have hx : BitReader.readFloat32 (F := F) ⟨src, p⟩ = _ := M.bind_panic h3
    rw [Reader.readFloat32, Reader.call_bin hx] at h
    cases h
  | diverge =>
    have hx : BitReader.readFloat32 (F := F) ⟨src, p⟩ = _ := M.bind_diverge h3
    rw [Reader.readFloat32, Reader.call_bin hx] at h
    cases h

theorem readBinary (n : Int) : Rd (F := F) (fun o => o = none) (Reader.readBinary n) := by
  intro src p a r h
  simp only [Reader.readBinary, Reader.call, Prod.mk.injEq] at h
  obtain ⟨t, hr, hc⟩ := BitReader.readBinary_ok (eq_of_fst h.1)
  rw [hr] at h
  rcases hc with ⟨l, hl, rfl, ho⟩ | ⟨ho, h1, h2, h3⟩
  · refine ⟨t, _, h.2.symm, by simp, fun _ => ⟨l, rfl, fun z δ => ?_⟩⟩
    rw [Reader.readBinary_bin n l z _ hl, ho]
    congr 3
    omega
  · refine ⟨t, _, h.2.symm, h3, fun hg => ?_⟩
    rcases hg with hg | hg
    · omega
    · exact absurd ho hg

/-! ## The unpackers -/

variable [GoFloat F]

/-- The value of a binary read at the end of the input. -/
def NilBinary (v : Val F) : Prop := v = .binary none

theorem uncompress (info : PackingInfo F) : Rd NilBinary (uncompressUnpack info) := by
  unfold uncompressUnpack
  split
  · exact bind' (readBytes _) fun _ => pure _ _
  · exact bind' (readInt _) fun _ => pure _ _
  · exact ite (pure _ _) (bind' (readUint _) fun _ => lift _ _)
  · exact ite (pure _ _) (bind' (readUint _) fun _ => lift _ _)
  · exact bind' (readUint _) fun _ => lift _ _
  · refine bind (readBinary _) (fun _ => pure _ _) ?_
    intro a b r r' h e
    cases h
    subst e
    rfl

theorem nbitsDiff : Rd (F := F) Never readNbitsDiff := bind' (readUint _) fun _ => pure _ _

omit [GoFloat F] in
theorem make (n : Int) : Rd (F := F) Never (makeCheck n) := ite (stop _ (by intro _ _ _ h; cases h)) (pure _ _)

omit [GoFloat F] in
theorem fill {f : M (Reader F) α} (hf : Rd Never f) : ∀ k, Rd Never (fillM f k)
  | 0 => pure _ _
  | k + 1 => bind' hf fun _ => bind' (fill hf k) fun _ => pure _ _

theorem compressed (n : Int) (fuel : Nat) (info : PackingInfo F) : Rd Never (compressedUnpack n fuel info) := by
  have ho : ∀ u, Rd Never (unpackOthers n info u) := by
    intro u
    unfold unpackOthers
    refine bind' (readUint _) fun _ => bind' nbitsDiff fun _ => bind' (make _) fun _ => ite ?_ (ite ?_ ?_)
    · exact bind' (lift _ _) fun _ => pure _ _
    · exact stop _ (by intro _ _ _ h; cases h)
    · refine bind' (fill ?_ _) fun _ => pure _ _
      exact bind' (readUint _) fun _ => ite (pure _ _) (lift _ _)
  unfold compressedUnpack
  split
  · unfold unpackString
    refine bind' (readBytes _) fun _ => bind' nbitsDiff fun _ => bind' (make _) fun _ => ite (pure _ _) (ite ?_ ?_)
    · exact stop _ (by intro _ _ _ h; cases h)
    · exact bind' (fill (readBytes _) _) fun _ => pure _ _
  · unfold unpackCode
    refine bind' (readInt _) fun _ => bind' nbitsDiff fun _ => bind' (make _) fun _ => ite (pure _ _) ?_
    refine bind' (fill ?_ _) fun _ => pure _ _
    exact bind' (readUint _) fun _ => ite (pure _ _) (stop _ (by intro _ _ _ h; cases h))
  · exact ite (bind' (make _) fun _ => pure _ _) (ho _)
  · exact ite (bind' (make _) fun _ => pure _ _) (ho _)
  · exact ho _
  · exact ho _

/-- The exception for unpacked values. -/
def NilUnpacked (u : Unpacked F) : Prop := u = .plain (.binary none)

/-- The unpackers for binary input. -/
theorem unpack {u : Unpacker} (hu : u ≠ .json) (info : PackingInfo F) : Rd NilUnpacked (u.unpack info) := by
  unfold Unpacker.unpack
  split
  · refine bind (uncompress info) (fun _ => pure _ _) ?_
    intro a b r r' h e
    cases h
    subst e
    rfl
  · exact bind' (compressed _ _ _) fun _ => pure _ _
  · exact absurd rfl hu

end Rd

end Gobufr
