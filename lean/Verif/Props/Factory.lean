import Verif.Proofs.Message
import Verif.Spec.Factory
import Verif.Props.Json
import Verif.Model.FloatInst
import Mathlib.Data.Nat.Find

/-!
# Properties of the factory: start signature, end of input, padding, template

C66, C67, C68, C69
-/

namespace Gobufr
open Spec

variable {F : Type}

/-! ## C68: the start signature search -/

theorem str_BUFR : str "BUFR" = signature := by decide

/-- At a byte boundary the search stops at the first occurrence of `BUFR`, `pre` being the bytes in
front of it. -/
theorem seekLoop_found (pre post : List UInt8)
    (hfirst : ∀ pre' post', pre ++ signature ++ post = pre' ++ signature ++ post' → pre.length ≤ pre'.length)
    (p : Int) (hp : p.tmod 8 = 0) (fuel : Nat) (hf : pre.length < fuel) :
    Fac.seekLoop fuel (.bin ⟨BitReader.bitsOfBytes (pre ++ signature ++ post), p⟩ : Reader F)
      = (.ok (), .bin ⟨BitReader.bitsOfBytes (signature ++ post), p + 8 * pre.length⟩) := by
  induction pre generalizing p fuel with
  | nil =>
    obtain ⟨f, rfl⟩ : ∃ f, fuel = f + 1 := ⟨fuel - 1, by simp at hf; omega⟩
    rw [Fac.seekLoop_bytes f _ p hp, if_neg (by simp [signature]), if_pos (by rw [str_BUFR]; simp [signature])]
    simp
  | cons b pre ih =>
    obtain ⟨f, rfl⟩ : ∃ f, fuel = f + 1 := ⟨fuel - 1, by simp at hf; omega⟩
    have hne : ((b :: pre) ++ signature ++ post).take 4 ≠ str "BUFR" := by
      intro h
      have := hfirst [] (((b :: pre) ++ signature ++ post).drop 4) (by
        rw [str_BUFR] at h
        conv => lhs; rw [← List.take_append_drop 4 (b :: pre ++ signature ++ post), h]
        simp)
      simp at this
    rw [Fac.seekLoop_bytes f _ p hp, if_neg (by simp [signature]; omega), if_neg hne]
    have hd : ((b :: pre) ++ signature ++ post).drop 1 = pre ++ signature ++ post := by simp
    rw [hd, ih (fun pre' post' h => by
      have := hfirst (b :: pre') post' (by simp only [List.cons_append, h])
      simpa using this) (p + 8) (tmod8_add hp 1) f (by simp at hf; omega)]
    simp only [List.length_cons, Prod.mk.injEq, Reader.bin.injEq, BitReader.mk.injEq, true_and]
    omega

/-- Without an occurrence of `BUFR` the search fails. -/
theorem seekLoop_none (bs : List UInt8) (hno : ∀ pre post, bs ≠ pre ++ signature ++ post)
    (p : Int) (hp : p.tmod 8 = 0) (fuel : Nat) (hf : bs.length < fuel) :
    ∃ bs' q, Fac.seekLoop fuel (.bin ⟨BitReader.bitsOfBytes bs, p⟩ : Reader F)
      = (.err (.wrap "cannot peek bytes" .eof), .bin ⟨BitReader.bitsOfBytes bs', q⟩) ∧ bs'.length < 4 := by
  induction bs generalizing p fuel with
  | nil =>
    obtain ⟨f, rfl⟩ : ∃ f, fuel = f + 1 := ⟨fuel - 1, by simp at hf; omega⟩
    exact ⟨[], p, by rw [Fac.seekLoop_bytes f _ p hp, if_pos (by simp)], by simp⟩
  | cons b bs ih =>
    obtain ⟨f, rfl⟩ : ∃ f, fuel = f + 1 := ⟨fuel - 1, by simp at hf; omega⟩
    by_cases h4 : (b :: bs).length < 4
    · exact ⟨b :: bs, p, by rw [Fac.seekLoop_bytes f _ p hp, if_pos h4], h4⟩
    · have hne : (b :: bs).take 4 ≠ str "BUFR" := by
        intro h
        rw [str_BUFR] at h
        apply hno [] ((b :: bs).drop 4)
        conv => lhs; rw [← List.take_append_drop 4 (b :: bs), h]
        simp
      rw [Fac.seekLoop_bytes f _ p hp, if_neg h4, if_neg hne]
      exact ih (fun pre post h => hno (b :: pre) post (by simp [h])) (p + 8) (tmod8_add hp 1) f
        (by simp at hf; omega)

/-- **C68** (found).  For a binary reader at a byte boundary, `SeekStartSignature` stops with the
reader at the first occurrence of `BUFR`. -/
theorem C68_found (s : Fac F) (pre post : List UInt8) (p : Int)
    (hs : s.r = .bin ⟨BitReader.bitsOfBytes (pre ++ signature ++ post), p⟩) (hp : p.tmod 8 = 0)
    (hfirst : ∀ pre' post', pre ++ signature ++ post = pre' ++ signature ++ post' → pre.length ≤ pre'.length) :
    Fac.seekStartSignature s
      = (.ok (), { s with r := .bin ⟨BitReader.bitsOfBytes (signature ++ post), p + 8 * pre.length⟩ }) := by
  refine onReader_eq ?_
  rw [hs]
  exact seekLoop_found pre post hfirst p hp _ (by
    simp only [Fac.left, BitReader.bitsOfBytes_length, List.length_append]; omega)

/-- **C68** (fails).  For a binary reader at a byte boundary, `SeekStartSignature` fails when `BUFR`
occurs nowhere in the remaining bytes. -/
theorem C68_none (s : Fac F) (bs : List UInt8) (p : Int)
    (hs : s.r = .bin ⟨BitReader.bitsOfBytes bs, p⟩) (hp : p.tmod 8 = 0)
    (hno : ∀ pre post, bs ≠ pre ++ signature ++ post) :
    ∃ e s', Fac.seekStartSignature s = (.err e, s') := by
  obtain ⟨bs', q, h, -⟩ := seekLoop_none (F := F) bs hno p hp (8 * bs.length + 1) (by omega)
  exact ⟨_, _, onReader_eq (by
    rw [hs]
    simp only [Fac.left, BitReader.bitsOfBytes_length]
    exact h)⟩

/-- **C68**: it succeeds iff there is an occurrence. -/
theorem C68_iff (s : Fac F) (bs : List UInt8) (p : Int)
    (hs : s.r = .bin ⟨BitReader.bitsOfBytes bs, p⟩) (hp : p.tmod 8 = 0) :
    (Fac.seekStartSignature s).1 = .ok () ↔ ∃ pre post, bs = pre ++ signature ++ post := by
  constructor
  · intro h
    by_contra hno
    obtain ⟨e, s', h'⟩ := C68_none s bs p hs hp (by
      intro pre post hb
      exact hno ⟨pre, post, hb⟩)
    rw [h'] at h
    cases h
  · rintro ⟨pre, post, hb⟩
    -- take the shortest `pre`
    have hex : ∃ n, ∃ pre post : List UInt8, pre.length = n ∧ bs = pre ++ signature ++ post := ⟨_, pre, post, rfl, hb⟩
    classical
    obtain ⟨pre0, post0, hl, hb0⟩ := Nat.find_spec hex
    rw [C68_found s pre0 post0 p (by rw [hs, hb0]) hp (by
      intro pre' post' h'
      rw [hl]
      exact Nat.find_min' hex ⟨pre', post', rfl, by rw [hb0, h']⟩)]

/-- The bytes `AB BUFRx`: the search skips three bytes. -/
example : Fac.seekStartSignature
    (Fac.new (.bin (BitReader.new [0x41, 0x42, 0x20, 0x42, 0x55, 0x46, 0x52, 0x78])) : Fac Int)
      = (.ok (), Fac.new (.bin ⟨BitReader.bitsOfBytes [0x42, 0x55, 0x46, 0x52, 0x78], 24⟩)) := by
  refine C68_found _ [0x41, 0x42, 0x20] [0x78] 0 rfl (by decide) ?_
  intro pre' post' h
  match pre', h with
  | [], h => simp [signature] at h
  | [_], h => simp [signature] at h
  | [_, _], h => simp [signature] at h
  | _ :: _ :: _ :: _, _ => simp

/-- No occurrence. -/
example : ∃ e s', Fac.seekStartSignature
    (Fac.new (.bin (BitReader.new [0x42, 0x55, 0x46, 0x51])) : Fac Int) = (.err e, s') := by
  refine C68_none _ [0x42, 0x55, 0x46, 0x51] 0 rfl (by decide) ?_
  intro pre post h
  have hl := congrArg List.length h
  simp [signature] at hl
  match pre, h with
  | [], h => simp [signature] at h
  | _ :: _, _ => simp at hl; omega

/-! ### The loop ends -/

theorem bufPeek_ok_length {u : Bits} {n : Int} {b : List UInt8} (h : BitReader.bufPeek u n = .ok b) :
    8 * n.toNat ≤ u.length := by
  unfold BitReader.bufPeek at h
  split at h
  · cases h
  · split at h
    · cases h
    · dsimp only at h
      split at h
      · cases h
      · simp at *; omega

theorem scalars_length (ts : List (Tok F)) : (scalars ts).length ≤ ts.length := by
  unfold scalars
  exact List.length_filter_le _ _

/-- The number of bits or scalars left. -/
def weight : Reader F → Nat
  | .bin r => r.src.length
  | .json r => r.pending.length

theorem weight_le_left (r : Reader F) : weight r ≤ Fac.left r := by
  cases r with
  | bin r => exact Nat.le_refl _
  | json r =>
    have := scalars_length r.base.toks
    simp only [weight, Fac.left, PeekJson.pending, List.length_append]
    omega

theorem toBytes_not_diverge (t : Tok F) : FlatJson.toBytes t ≠ .diverge := by
  cases t <;> simp [FlatJson.toBytes, FlatJson.toStr]

theorem readBytes_not_diverge (n : Int) (r : BitReader) : (BitReader.readBytes n r).1 ≠ .diverge := by
  by_cases hn : n < 0
  · have h : BitReader.readBytes n r = (.panic "makeslice: len out of range", ⟨r.src, r.pos + n * 8⟩) := by
      unfold BitReader.readBytes
      rw [M.bind_ok (m := BitReader.advance _) (a := ()) (s' := ⟨r.src, r.pos + n * 8⟩) rfl, if_pos hn]
      rfl
    rw [h]; simp
  · by_cases h : (r.src.length : Int) < n * 8
    · obtain ⟨s', h'⟩ := BitReader.readBytes_short n r.src r.pos h
      have : r = ⟨r.src, r.pos⟩ := rfl
      rw [this, h']; simp
    · obtain ⟨hb, hl, -⟩ := bitsOfBytes_bytesOfBits n.toNat (r.src.take (8 * n.toNat)) (by simp; omega)
      have hr := BitReader.readBytes_append (BitReader.bytesOfBits (r.src.take (8 * n.toNat)))
        (r.src.drop (8 * n.toNat)) r.pos
      have he : BitReader.bitsOfBytes (BitReader.bytesOfBits (r.src.take (8 * n.toNat))) ++
          r.src.drop (8 * n.toNat) = r.src := by rw [hb, List.take_append_drop]
      unfold BitReader.bitsOfBytes at he
      rw [he, hl] at hr
      have hn' : ((n.toNat : Nat) : Int) = n := by omega
      rw [hn'] at hr
      have : r = ⟨r.src, r.pos⟩ := rfl
      rw [this, hr]; simp

/-- Peeking the signature: it ends, changes no weight, and on success there is something to read. -/
theorem peek_step [GoFloat F] (r : Reader F) : ∃ o r1, Reader.peekBytes 0 4 r = (o, r1) ∧ o ≠ .diverge ∧
    weight r1 = weight r ∧ (∀ bs, o = .ok bs →
      ∃ o2 r2, Reader.readBytes 1 r1 = (o2, r2) ∧ o2 ≠ .diverge ∧ weight r2 < weight r1) := by
  cases r with
  | bin r =>
    have hpk : ∃ o, BitReader.peekBytes 0 4 r = (o, r) ∧ o ≠ .diverge ∧ (∀ bs, o = .ok bs → 32 ≤ r.src.length) := by
      unfold BitReader.peekBytes
      have hp : ∃ o, BitReader.peek 0 4 r = (o, r) ∧ o ≠ .diverge ∧ (∀ bs, o = .ok bs → 32 ≤ r.src.length) := by
        unfold BitReader.peek
        split
        · exact ⟨_, rfl, by simp, by simp⟩
        · rcases hb : BitReader.bufPeek (BitReader.underBits r) (0 + 4) with b | e | w | _
          · have hl := bufPeek_ok_length hb
            have hu : (BitReader.underBits r).length ≤ r.src.length := by
              unfold BitReader.underBits; simp
            dsimp only
            split
            · exact ⟨_, rfl, by simp, by simp⟩
            · refine ⟨_, rfl, by simp, fun _ _ => ?_⟩
              have : (0 + 4 : Int).toNat = 4 := rfl
              omega
          · dsimp only
            split
            · exact ⟨_, rfl, by simp, by simp⟩
            · exact ⟨_, rfl, by simp, by simp⟩
          · exact ⟨_, rfl, by simp, by simp⟩
          · exfalso
            unfold BitReader.bufPeek at hb
            split at hb
            · cases hb
            · split at hb
              · cases hb
              · dsimp only at hb
                split at hb <;> cases hb
      obtain ⟨o, h1, h2, h3⟩ := hp
      cases o with
      | ok b =>
        rw [M.bind_ok (m := M.wrapErr _ _) (a := b) (s' := r) (by simp only [M.wrapErr, h1])]
        refine ⟨_, rfl, ?_, fun _ _ => h3 b rfl⟩
        have hnd := readBytes_not_diverge 4 (BitReader.new b)
        unfold BitReader.onFresh
        rcases h : (BitReader.readBytes 4 (BitReader.new b)).1 with a | e | w | _
        · simp [BitReader.wrapO]
        · simp [BitReader.wrapO]
        · simp [BitReader.wrapO]
        · exact absurd h hnd
      | err e =>
        rw [M.bind_err (m := M.wrapErr _ _) (e := .wrap "cannot peek bytes" e) (s' := r) (by simp only [M.wrapErr, h1])]
        exact ⟨_, rfl, by simp, by simp⟩
      | panic w =>
        rw [M.bind_panic (m := M.wrapErr _ _) (w := w) (s' := r) (by simp only [M.wrapErr, h1])]
        exact ⟨_, rfl, by simp, by simp⟩
      | diverge => exact absurd rfl h2
    obtain ⟨o, h1, h2, h3⟩ := hpk
    refine ⟨o, .bin r, Reader.call_bin h1, h2, rfl, fun bs hb => ?_⟩
    have hlen := h3 bs hb
    obtain ⟨hbb, hl, -⟩ := bitsOfBytes_bytesOfBits 1 (r.src.take 8) (by simp; omega)
    have hr := BitReader.readBytes_append (BitReader.bytesOfBits (r.src.take 8)) (r.src.drop 8) r.pos
    have he : BitReader.bitsOfBytes (BitReader.bytesOfBits (r.src.take 8)) ++ r.src.drop 8 = r.src := by
      rw [hbb, List.take_append_drop]
    unfold BitReader.bitsOfBytes at he
    rw [he, hl] at hr
    refine ⟨_, _, Reader.call_bin hr, by simp, ?_⟩
    simp only [weight, List.length_drop]
    omega
  | json r =>
    have hpk : ∃ o r1, PeekJson.peekBytes 0 4 r = (o, r1) ∧ o ≠ .diverge ∧ r1.pending = r.pending ∧
        (∀ bs, o = .ok bs → r1.cache ≠ []) := by
      unfold PeekJson.peekBytes
      by_cases h : 0 < r.pending.length
      · obtain ⟨r', t, h1, h2, h3, -⟩ := (peek_spec 0 r).1 h
        rw [M.bind_ok (m := PeekJson.peek 0) h1]
        refine ⟨_, _, rfl, toBytes_not_diverge t, h2, fun _ _ hc => ?_⟩
        rw [hc] at h3
        simp at h3
        omega
      · obtain ⟨r', e, h1, h2, -⟩ := (peek_spec 0 r).2 (by omega)
        rw [M.bind_err (m := PeekJson.peek 0) h1]
        exact ⟨_, _, rfl, by simp, h2, by simp⟩
    obtain ⟨o, ⟨b, c⟩, h1, h2, h3, h4⟩ := hpk
    refine ⟨o, .json ⟨b, c⟩, by simp [Reader.peekBytes, Reader.call, h1], h2, by simp [weight, h3], fun bs hb => ?_⟩
    match c, h4 bs hb with
    | t :: ts, _ =>
      have hrd : ∃ o2 r2, PeekJson.readWith (1 * 8) FlatJson.toBytes (⟨b, t :: ts⟩ : PeekJson F) = (o2, r2) ∧
          o2 ≠ .diverge ∧ r2.pending.length < ts.length + 1 + (scalars b.toks).length := by
        by_cases hn : t = .null
        · subst hn
          unfold PeekJson.readWith
          rw [M.bind_ok (m := PeekJson.shift) (a := none) (s' := ⟨b, ts⟩) rfl]
          cases hs : scalars b.toks with
          | nil =>
            obtain ⟨b', i1, i2⟩ := flat_read_nil (1 * 8) FlatJson.toBytes b hs
            refine ⟨.err (.wrap "cannot get token" b.endErr), ⟨b', ts⟩, by
              show PeekJson.onBase (FlatJson.readWith _ _) _ = _
              simp only [PeekJson.onBase, i1], by simp, ?_⟩
            simp [PeekJson.pending, i2]
          | cons s ss =>
            obtain ⟨b', i1, i2, -⟩ := flat_read_cons (1 * 8) FlatJson.toBytes b s ss hs
            refine ⟨_, ⟨b', ts⟩, by
              show PeekJson.onBase (FlatJson.readWith _ _) _ = _
              simp only [PeekJson.onBase, i1], toBytes_not_diverge s, ?_⟩
            simp [PeekJson.pending, i2]; omega
        · have hsh : PeekJson.shift (⟨b, t :: ts⟩ : PeekJson F) = (.ok (some t), ⟨b, ts⟩) := by
            cases t <;> first | rfl | exact absurd rfl hn
          unfold PeekJson.readWith
          rw [M.bind_ok hsh]
          refine ⟨FlatJson.toBytes t, ⟨{ b with pos := b.pos + 1 * 8 }, ts⟩, ?_, toBytes_not_diverge t, ?_⟩
          · simp only [M.bind_apply, M.modify_apply, M.lift_apply]
          · simp [PeekJson.pending]
      obtain ⟨o2, r2, i1, i2, i3⟩ := hrd
      refine ⟨o2, .json r2, by simp only [Reader.readBytes, Reader.call, PeekJson.readBytes, i1], i2, ?_⟩
      simp only [weight, PeekJson.pending, List.length_append, List.length_cons] at i3 ⊢
      exact i3

/-- With more rounds than bits or scalars the loop ends, and its result does not depend on the bound. -/
theorem seekLoop_ends [GoFloat F] (fuel : Nat) (r : Reader F) (h : weight r < fuel) :
    (Fac.seekLoop fuel r).1 ≠ .diverge ∧ Fac.seekLoop (fuel + 1) r = Fac.seekLoop fuel r := by
  induction fuel generalizing r with
  | zero => omega
  | succ fuel ih =>
    obtain ⟨o, r1, h1, hd, hw, hrd⟩ := peek_step r
    have key : ∀ k, Fac.seekLoop (k + 1) r = match o with
        | .ok bs => if bs.length < 4 then (.err .eof, r1) else if bs = str "BUFR" then (.ok (), r1)
          else M.handle (Reader.readBytes 1) (fun
            | .panic w => M.crash w
            | .diverge => M.loop
            | _ => Fac.seekLoop k) r1
        | .err e => (.err e, r1)
        | .panic w => (.panic w, r1)
        | .diverge => (.diverge, r1) := by
      intro k
      conv => lhs; unfold Fac.seekLoop
      cases o with
      | ok bs =>
        rw [M.bind_ok h1]
        dsimp only
        by_cases hl : bs.length < 4
        · rw [if_pos hl, if_pos hl]; rfl
        · rw [if_neg hl, if_neg hl]
          by_cases hb : bs = str "BUFR"
          · rw [if_pos hb, if_pos hb]; rfl
          · rw [if_neg hb, if_neg hb]
            obtain ⟨o2, r2, h2, -, -⟩ := hrd bs rfl
            rw [M.handle_eq h2, M.handle_eq h2]
            cases o2 <;> rfl
      | err e => rw [M.bind_err h1]
      | panic w => rw [M.bind_panic h1]
      | diverge => rw [M.bind_diverge h1]
    rw [key, key]
    cases o with
    | ok bs =>
      dsimp only
      by_cases hl : bs.length < 4
      · rw [if_pos hl, if_pos hl]; simp
      · rw [if_neg hl, if_neg hl]
        by_cases hb : bs = str "BUFR"
        · rw [if_pos hb, if_pos hb]; simp
        · rw [if_neg hb, if_neg hb]
          obtain ⟨o2, r2, h2, hd2, hw2⟩ := hrd bs rfl
          rw [M.handle_eq h2, M.handle_eq h2]
          cases o2 with
          | ok a => exact ih r2 (by omega)
          | err e => exact ih r2 (by omega)
          | panic w => simp
          | diverge => exact absurd rfl hd2
    | err e => simp
    | panic w => simp
    | diverge => exact absurd rfl hd

/-- **C68** (ends).  `SeekStartSignature` ends for every reader, binary or flat JSON, aligned or not;
more rounds of its loop than the model allows change nothing. -/
theorem C68_terminates [GoFloat F] (s : Fac F) (k : Nat) :
    (Fac.seekStartSignature s).1 ≠ .diverge ∧
    Fac.seekLoop (Fac.left s.r + 1 + k) s.r = Fac.seekLoop (Fac.left s.r + 1) s.r := by
  have hw := weight_le_left s.r
  constructor
  · exact (seekLoop_ends (Fac.left s.r + 1) s.r (by omega)).1
  · induction k with
    | zero => rfl
    | succ k ih => exact ((seekLoop_ends (Fac.left s.r + 1 + k) s.r (by omega)).2).trans ih

/-- A JSON document with a null in front. -/
example : (Fac.seekStartSignature (Fac.new (.json (PeekJson.new
    [.delim, .null, .str (str "BUFR"), .num (⟨3⟩ : ToyFloat)])))).1 ≠ .diverge :=
  (C68_terminates _ 0).1

/-! ## C69: end of input -/

/-- **C69**, as it should be: on a reader at a byte boundary `CheckEOF` answers whether the input is
exhausted. -/
def C69_statement (F : Type) [GoFloat F] : Prop :=
  ∀ (s : Fac F) (bs : List UInt8) (p : Int), s.r = .bin ⟨BitReader.bitsOfBytes bs, p⟩ → p.tmod 8 = 0 →
    (Fac.checkEOF s).1 = .ok (decide (bs = []))

/-- The peeks never return `io.EOF` itself. -/
theorem peekUint_not_eof [GoFloat F] (skip n : Int) (r : Reader F) : (Reader.peekUint skip n r).1 ≠ .err .eof := by
  cases r with
  | bin r =>
    show (BitReader.peekUint skip n r).1 ≠ _
    unfold BitReader.peekUint
    simp only [M.bind_apply]
    generalize hg : M.wrapErr "cannot peek bytes" (BitReader.peek skip _) r = x
    obtain ⟨o, r'⟩ := x
    cases o with
    | ok b =>
      dsimp only [M.lift_apply]
      rcases BitReader.onFresh b (BitReader.readUint n) with a | e | w | _ <;> simp [BitReader.wrapO]
    | err e =>
      dsimp only
      intro he
      cases he
      unfold M.wrapErr at hg
      split at hg
      · cases hg
      · next h => exact h _ _ hg
    | panic w => simp
    | diverge => simp
  | json r =>
    show (PeekJson.peekUint skip n r).1 ≠ _
    have hfill : ∀ (k : Nat) (r : PeekJson F), (PeekJson.fill k r).1 ≠ .err .eof := by
      intro k
      induction k with
      | zero => intro r; simp [PeekJson.fill]
      | succ k ih =>
        intro r
        simp only [PeekJson.fill, M.bind_apply]
        generalize hg : M.wrapErr "cannot peek token" (PeekJson.onBase FlatJson.token) r = x
        obtain ⟨o, r'⟩ := x
        cases o with
        | ok t => exact ih _
        | err e =>
          dsimp only
          intro he
          cases he
          unfold M.wrapErr at hg
          split at hg
          · cases hg
          · next h => exact h _ _ hg
        | panic w => simp
        | diverge => simp
    unfold PeekJson.peekUint PeekJson.peek
    simp only [M.bind_apply, M.get_apply]
    have hf := hfill (skip - (r.cache.length : Int) + 1).toNat r
    rcases hx : PeekJson.fill (skip - (r.cache.length : Int) + 1).toNat r with ⟨o, r'⟩
    rw [hx] at hf
    cases o with
    | ok u =>
      dsimp only
      rcases r'.cache.getLast? with _ | t
      · simp
      · simp only [M.pure_apply, M.lift_apply]
        cases t <;> simp [FlatJson.toUint, FlatJson.toFloat]
    | err e =>
      dsimp only
      intro he
      injection he with he
      exact hf (by rw [he])
    | panic w => simp
    | diverge => simp

/-- **C69** (disagreement): `CheckEOF` never returns true, whatever the reader. -/
theorem C69_never [GoFloat F] (s : Fac F) : (Fac.checkEOF s).1 ≠ .ok true := by
  unfold Fac.checkEOF
  rcases h : Fac.onReader (Reader.peekUint 0 8) s with ⟨o, s'⟩
  rw [M.handle_eq h]
  have hne : o ≠ .err .eof := by
    have := peekUint_not_eof 0 8 s.r
    simp only [Fac.onReader, M.zoom, Prod.mk.injEq] at h
    rw [h.1] at this
    exact this
  cases o with
  | ok v => simp
  | err e =>
    dsimp only
    split
    · next he => exact absurd (by rw [he]) hne
    · simp
  | panic w => simp
  | diverge => simp

/-- **C69** is violated: on the empty input `CheckEOF` returns an error. -/
theorem C69_violates [GoFloat F] : ¬ C69_statement F := by
  intro h
  exact C69_never (Fac.new (.bin ⟨BitReader.bitsOfBytes [], 0⟩)) (h _ [] 0 rfl (by decide))

/-- **C69**, the part that holds: with input left at a byte boundary the answer is false and nothing
is consumed; at the end of the input it is the wrapped error. -/
theorem C69_partial [GoFloat F] (s : Fac F) (bs : List UInt8) (p : Int)
    (hs : s.r = .bin ⟨BitReader.bitsOfBytes bs, p⟩) (hp : p.tmod 8 = 0) :
    Fac.checkEOF s = (if bs = [] then .err (.wrap "cannot peek bytes" .eof) else .ok false, s) := by
  obtain ⟨r, m, ut, tg⟩ := s
  subst hs
  have hpk : (Reader.peekUint 0 8 (.bin ⟨BitReader.bitsOfBytes bs, p⟩) : Outcome Nat × Reader F) = _ :=
    Reader.call_bin (BitReader.peekUint_byte 0 bs p hp (by decide))
  unfold Fac.checkEOF
  rw [M.handle_eq (onReader_eq hpk)]
  cases bs with
  | nil => rfl
  | cons b t => simp

/-- One byte left: not at the end. -/
example : Fac.checkEOF (Fac.new (.bin ⟨BitReader.bitsOfBytes [7], 16⟩) : Fac ToyFloat)
    = (.ok false, Fac.new (.bin ⟨BitReader.bitsOfBytes [7], 16⟩)) :=
  C69_partial _ [7] 16 rfl (by decide)

/-! ## C66: padding -/

/-- A successful read of a JSON token advances the position by the nominal width. -/
theorem readWith_pos (w : Int) (conv : Tok F → Outcome α) (r r' : PeekJson F) (a : α)
    (h : PeekJson.readWith w conv r = (.ok a, r')) : r'.base.pos = r.base.pos + w := by
  unfold PeekJson.readWith at h
  obtain ⟨x, r1, hsh, h⟩ := M.bind_eq_ok.1 h
  have hb : r1.base = r.base := by
    unfold PeekJson.shift at hsh
    split at hsh <;> cases hsh <;> rfl
  cases x with
  | some t =>
    obtain ⟨_, r2, h2, h3⟩ := M.bind_eq_ok.1 h
    cases h2
    simp only [M.lift_apply, Prod.mk.injEq] at h3
    rw [← h3.2, hb]
  | none =>
    have h' : FlatJson.readWith w conv r1.base = (.ok a, r'.base) := by
      simp only [PeekJson.onBase] at h
      rcases hx : FlatJson.readWith w conv r1.base with ⟨o, b⟩
      rw [hx] at h
      cases h; rfl
    rw [hb] at h'
    obtain ⟨t, b1, h1, h2⟩ := M.bind_eq_ok.1 h'
    obtain ⟨_, b2, h3, h4⟩ := M.bind_eq_ok.1 h2
    cases h3
    simp only [M.lift_apply, Prod.mk.injEq] at h4
    rw [← h4.2]
    have : b1.pos = r.base.pos := by
      simp only [FlatJson.token, Prod.mk.injEq] at h1
      rw [← h1.2]
    rw [this]

/-- A read of a binary value advances the position by the requested width. -/
theorem readBinary_pos (n : Int) (r r' : Reader F) (b : Option Binary)
    (h : Reader.readBinary n r = (.ok b, r')) : r'.pos = r.pos + n := by
  cases r with
  | bin r =>
    obtain ⟨src, p⟩ := r
    by_cases hs : src.length < n.toNat
    · obtain ⟨s', h'⟩ := BitReader.readBinary_short n src p hs
      rw [Reader.readBinary, Reader.call_bin h'] at h
      cases h; rfl
    · have h' := BitReader.readBinary_append n (src.take n.toNat) (src.drop n.toNat) p (by simp; omega)
      rw [List.take_append_drop] at h'
      rw [Reader.readBinary, Reader.call_bin h'] at h
      cases h; rfl
  | json r =>
    simp only [Reader.readBinary, Reader.call, PeekJson.readBinary, Prod.mk.injEq] at h
    obtain ⟨h1, rfl⟩ := h
    exact readWith_pos n FlatJson.toBinary r _ b (Prod.ext h1 rfl)

/-- **C66** (start).  A section begun at a byte boundary remembers exactly the position. -/
theorem C66_start (s : Fac F) (m : Message F) (number : Int) (description : GoString) (k : Int)
    (hm : s.message = some m) (hp : s.r.pos = 8 * k) :
    Fac.newSection number description s = (.ok (), { s with message := some { m with sections :=
      m.sections ++ [{ number := number, description := description, startByteIndex := k }] } }) := by
  unfold Fac.newSection
  have hk : s.r.pos.tdiv 8 = k := by rw [hp]; exact Int.mul_tdiv_cancel_left k (by decide)
  have h1 : Fac.theMessage s = (.ok m, s) := by unfold Fac.theMessage; rw [hm]
  rw [M.bind_ok h1, M.bind_ok (M.modify_apply _ _), M.bind_ok (M.gets_apply _ _)]
  dsimp only
  rw [hk, changeSection_eq _ (m := m.newSection number description) (front := m.sections)
    (sec := Gobufr.newSection number description) rfl rfl]
  rfl

/-- **C66** (success).  After `Padding(L)` succeeds, exactly `8*L` bits have been read since the section
start, for both kinds of readers. -/
theorem C66_ends (s s' : Fac F) (m : Message F) (front : List (Section F)) (sec : Section F) (L : Nat)
    (o : Option (Field F)) (hm : s.message = some m) (hl : m.sections = front ++ [sec])
    (h : Fac.padding L s = (.ok o, s')) :
    s'.r.pos - 8 * sec.startByteIndex = 8 * L := by
  unfold Fac.padding at h
  rw [M.bind_ok (bitsLeft_eq L hm hl)] at h
  by_cases h0 : (L : Int) * 8 - (s.r.pos - sec.startByteIndex * 8) = 0
  · rw [if_pos h0] at h
    cases h
    omega
  · rw [if_neg h0] at h
    by_cases h1 : (L : Int) * 8 - (s.r.pos - sec.startByteIndex * 8) < 0
    · rw [if_pos h1] at h
      cases h
    · rw [if_neg h1, M.bind_ok (changeSection_eq _ hm hl)] at h
      obtain ⟨b, s1, hb, h⟩ := M.bind_eq_ok.1 h
      have hb' : Fac.onReader (Reader.readBinary ((L : Int) * 8 - (s.r.pos - sec.startByteIndex * 8)))
          { s with message := some { m with sections := front ++ [{ sec with
            padding := (L : Int) * 8 - (s.r.pos - sec.startByteIndex * 8) }] } } = (.ok b, s1) := by
        exact of_wrapErr_ok hb
      obtain ⟨hb1, hb2⟩ := onReader_ok hb'
      have hpos := readBinary_pos _ _ _ _ hb1
      cases b with
      | none => cases h
      | some b =>
        have : s'.r = s1.r := by
          obtain ⟨u, s2, h2, h3⟩ := M.bind_eq_ok.1 h
          cases h3
          have hm1 : s1.message = some { m with sections := front ++ [{ sec with
              padding := (L : Int) * 8 - (s.r.pos - sec.startByteIndex * 8) }] } := by rw [hb2]
          rw [Fac.addField, changeSection_eq _ hm1 rfl] at h2
          cases h2
          rfl
        rw [this, hpos]
        dsimp only
        omega

/-- **C66** (content).  On a binary reader the bits up to the end of the section are consumed; they
become the hidden padding field, if there are any. -/
theorem C66_content (s : Fac F) (m : Message F) (front : List (Section F)) (sec : Section F) (L : Nat)
    (l t : Bits) (p : Int) (hm : s.message = some m) (hl : m.sections = front ++ [sec])
    (hr : s.r = .bin ⟨l ++ t, p⟩) (hp : p + l.length = 8 * (sec.startByteIndex + L)) :
    Fac.padding L s =
      if l = [] then (.ok none, s)
      else
        let field : Field F := ⟨str "padding", .val (.binary (some ⟨packBits l, l.length⟩)), l.length, true⟩
        (.ok (some field), { s with
          r := .bin ⟨t, p + l.length⟩
          message := some { m with sections :=
            front ++ [{ sec with padding := l.length, fields := sec.fields ++ [field] }] } }) := by
  have hb : (L : Int) * 8 - (s.r.pos - sec.startByteIndex * 8) = l.length := by
    rw [hr]
    show (L : Int) * 8 - (p - sec.startByteIndex * 8) = l.length
    omega
  unfold Fac.padding
  rw [M.bind_ok (bitsLeft_eq L hm hl), hb]
  by_cases h0 : l = []
  · rw [if_pos h0, if_pos (by simp [h0])]
    rfl
  · have hpos := List.length_pos_iff.2 h0
    rw [if_neg h0, if_neg (by omega), if_neg (by omega), M.bind_ok (changeSection_eq _ hm hl)]
    have hrd : Reader.readBinary (l.length : Int) s.r = _ :=
      (congrArg _ hr).trans (Reader.readBinary_bin _ l t p (by simp))
    rw [M.bind_ok (wrapErr_ok (onReader_eq (s := { s with message := some { m with
      sections := front ++ [{ sec with padding := (l.length : Int) }] } }) hrd))]
    dsimp only
    rw [M.bind_ok (m := Fac.addField _) (changeSection_eq _ rfl rfl)]
    rfl

/-- **C66** (beyond).  A section whose fields were read beyond its length is reported as an error, for
both kinds of readers. -/
theorem C66_beyond (s : Fac F) (m : Message F) (front : List (Section F)) (sec : Section F) (L : Nat)
    (hm : s.message = some m) (hl : m.sections = front ++ [sec])
    (hp : 8 * L < s.r.pos - 8 * sec.startByteIndex) : ∃ e, Fac.padding L s = (.err e, s) := by
  refine ⟨.msg "read beyond section boundary", ?_⟩
  unfold Fac.padding
  rw [M.bind_ok (bitsLeft_eq L hm hl), if_neg (by omega), if_pos (by omega)]
  rfl

/-- An input that ends inside the padding makes `Padding` panic: `ReadBinary` returns a nil pointer
and no error. -/
theorem C66_truncated_panics (s : Fac F) (m : Message F) (front : List (Section F)) (sec : Section F) (L : Nat)
    (src : Bits) (p : Int) (hm : s.message = some m) (hl : m.sections = front ++ [sec])
    (hr : s.r = .bin ⟨src, p⟩) (hp : p + src.length < 8 * (sec.startByteIndex + L)) :
    (Fac.padding L s).1 = .panic "nil pointer dereference" := by
  have hb : (src.length : Int) < (L : Int) * 8 - (s.r.pos - sec.startByteIndex * 8) := by
    rw [hr]
    show (src.length : Int) < (L : Int) * 8 - (p - sec.startByteIndex * 8)
    omega
  unfold Fac.padding
  rw [M.bind_ok (bitsLeft_eq L hm hl)]
  generalize (L : Int) * 8 - (s.r.pos - sec.startByteIndex * 8) = n at hb
  rw [if_neg (by omega), if_neg (by omega), M.bind_ok (changeSection_eq _ hm hl)]
  obtain ⟨s', h'⟩ := BitReader.readBinary_short n src p (by omega)
  have hrd : Reader.readBinary n s.r = _ := (congrArg _ hr).trans (Reader.call_bin h')
  rw [M.bind_ok (wrapErr_ok (onReader_eq (s := { s with message := some { m with
    sections := front ++ [{ sec with padding := n }] } }) hrd))]
  rfl

/-- A section of length 4 begun at byte 2, of which 20 bits have been read: the remaining 12 bits are
padding. -/
example : ∃ s', Fac.padding 4 (⟨.bin ⟨List.replicate 12 true ++ [false], 36⟩,
      some ⟨[], [{ number := 1, description := [], startByteIndex := 2 }], []⟩, none, none⟩ : Fac ToyFloat)
    = (.ok (some ⟨str "padding", .val (.binary (some ⟨[255, 15], 12⟩)), 12, true⟩), s') :=
  ⟨_, (C66_content _ _ [] _ 4 (List.replicate 12 true) [false] 36 rfl rfl rfl (by decide)).trans (by
    have : packBits (List.replicate 12 true) = [255, 15] := by decide +kernel
    rw [if_neg (by decide), this]
    rfl)⟩

/-! ## C67: the template field -/

/-- One descriptor. -/
theorem readId_eq [GoFloat F] (fb xb yb : Nat) (d : Nat × Nat × Nat) (t : Bits) (p : Int)
    (h : Spec.Fits fb xb yb d) :
    (Fac.readId fb xb yb (.bin ⟨Spec.descriptorBits fb xb yb d ++ t, p⟩) : Outcome ID × Reader F)
      = (.ok (Spec.descriptorNumber d), .bin ⟨t, p + (fb + xb + yb)⟩) := by
  obtain ⟨f, x, y⟩ := d
  obtain ⟨hfb, hxb, hyb, hf, hx, hy, hid⟩ := h
  unfold Fac.readId Spec.descriptorBits
  simp only [List.append_assoc]
  rw [M.bind_ok (readUint_natBits fb f _ p hfb hf), M.bind_ok (readUint_natBits xb x _ _ hxb hx),
    M.bind_ok (readUint_natBits yb y _ _ hyb hy)]
  have : toInt64 ((f * 100000 + x * 1000 + y : Nat) : Int) = ((f * 100000 + x * 1000 + y : Nat) : Int) := by
    unfold toInt64 two64
    dsimp only at hid
    rw [Int.bmod_eq_of_le] <;> omega
  rw [this, M.pure_apply]
  simp only [Spec.descriptorNumber, Int.add_assoc]

theorem readIds_eq [GoFloat F] (fb xb yb : Nat) (ds : List (Nat × Nat × Nat)) (t : Bits) (p : Int)
    (h : ∀ d ∈ ds, Spec.Fits fb xb yb d) :
    (Fac.readIds fb xb yb ds.length (.bin ⟨ds.flatMap (Spec.descriptorBits fb xb yb) ++ t, p⟩) : Outcome _ × Reader F)
      = (.ok (ds.map Spec.descriptorNumber), .bin ⟨t, p + ds.length * (fb + xb + yb)⟩) := by
  induction ds generalizing p with
  | nil => simp [Fac.readIds]
  | cons d ds ih =>
    simp only [List.length_cons, List.flatMap_cons, List.append_assoc, Fac.readIds]
    rw [M.bind_ok (readId_eq fb xb yb d _ p (h d (by simp))),
      M.bind_ok (ih _ fun d' hd => h d' (by simp [hd]))]
    simp only [M.pure_apply, List.map_cons, Prod.mk.injEq, Reader.bin.injEq, BitReader.mk.injEq, true_and]
    push_cast
    rw [Int.add_mul]
    omega

theorem readId_short [GoFloat F] (fb xb yb : Nat) (src : Bits) (p : Int) (h : src.length < fb + xb + yb) :
    ∃ e r', (Fac.readId fb xb yb (.bin ⟨src, p⟩) : Outcome ID × Reader F) = (.err e, r') := by
  unfold Fac.readId
  by_cases h1 : src.length < fb
  · obtain ⟨s', h'⟩ := BitReader.readUint_short fb src p (by omega)
    exact ⟨_, _, M.bind_err (Reader.call_bin h')⟩
  · have e1 := Reader.readUint_bin (F := F) fb (src.take fb) (src.drop fb) p (by simp; omega)
    rw [List.take_append_drop] at e1
    rw [M.bind_ok e1]
    by_cases h2 : (src.drop fb).length < xb
    · obtain ⟨s', h'⟩ := BitReader.readUint_short xb (src.drop fb) (p + fb) (by omega)
      exact ⟨_, _, M.bind_err (Reader.call_bin h')⟩
    · have e2 := Reader.readUint_bin (F := F) xb ((src.drop fb).take xb) ((src.drop fb).drop xb) (p + fb)
        (by simp at h2 ⊢; omega)
      rw [List.take_append_drop] at e2
      rw [M.bind_ok e2]
      obtain ⟨s', h'⟩ := BitReader.readUint_short yb ((src.drop fb).drop xb) (p + fb + xb) (by simp at h2 ⊢; omega)
      exact ⟨_, _, M.bind_err (Reader.call_bin h')⟩

theorem readId_enough [GoFloat F] (fb xb yb : Nat) (src : Bits) (p : Int) (h : fb + xb + yb ≤ src.length) :
    ∃ id, (Fac.readId fb xb yb (.bin ⟨src, p⟩) : Outcome ID × Reader F)
      = (.ok id, .bin ⟨src.drop (fb + xb + yb), p + fb + xb + yb⟩) := by
  unfold Fac.readId
  have e1 := Reader.readUint_bin (F := F) fb (src.take fb) (src.drop fb) p (by simp; omega)
  rw [List.take_append_drop] at e1
  rw [M.bind_ok e1]
  have e2 := Reader.readUint_bin (F := F) xb ((src.drop fb).take xb) ((src.drop fb).drop xb) (p + fb)
    (by simp; omega)
  rw [List.take_append_drop] at e2
  rw [M.bind_ok e2]
  have e3 := Reader.readUint_bin (F := F) yb (((src.drop fb).drop xb).take yb) (((src.drop fb).drop xb).drop yb)
    (p + fb + xb) (by simp; omega)
  rw [List.take_append_drop] at e3
  rw [M.bind_ok e3]
  exact ⟨_, by rw [M.pure_apply, List.drop_drop, List.drop_drop]⟩

theorem readIds_short [GoFloat F] (fb xb yb n : Nat) (src : Bits) (p : Int)
    (h : src.length < n * (fb + xb + yb)) :
    ∃ e r', (Fac.readIds fb xb yb n (.bin ⟨src, p⟩) : Outcome (List ID) × Reader F) = (.err e, r') := by
  induction n generalizing src p with
  | zero => omega
  | succ n ih =>
    unfold Fac.readIds
    by_cases h1 : src.length < fb + xb + yb
    · obtain ⟨e, r', h'⟩ := readId_short (F := F) fb xb yb src p h1
      exact ⟨_, _, M.bind_err h'⟩
    · obtain ⟨id, h'⟩ := readId_enough (F := F) fb xb yb src p (by omega)
      rw [M.bind_ok h']
      obtain ⟨e, r', h2⟩ := ih (src.drop (fb + xb + yb)) (p + fb + xb + yb) (by
        rw [List.length_drop]
        rw [Nat.succ_mul] at h
        omega)
      exact ⟨_, _, M.bind_err h2⟩

theorem tdiv_block (n w : Nat) (k : Int) (h0 : 0 ≤ k) (hk : k < w) :
    ((n : Int) * (w : Int) + k).tdiv (w : Int) = n := by
  have hn : (0 : Int) ≤ (n : Int) * (w : Int) := Int.mul_nonneg (by omega) (by omega)
  rw [Int.tdiv_eq_ediv_of_nonneg (by omega), Int.add_comm, Int.add_mul_ediv_right _ _ (by omega),
    Int.ediv_eq_zero_of_lt h0 hk, Int.zero_add]

/-- **C67**.  With `n` the number of whole descriptors that fit in the rest of the section, the field
holds the `n` descriptors spelled by the next bits, these bits are consumed, and the rest of the
section is shorter than a descriptor. -/
theorem C67_template [GoFloat F] (s : Fac F) (m : Message F) (front : List (Section F)) (sec : Section F)
    (name : GoString) (fb xb yb L : Nat) (ds : List (Nat × Nat × Nat)) (t : Bits) (p k : Int)
    (hm : s.message = some m) (hl : m.sections = front ++ [sec])
    (hr : s.r = .bin ⟨ds.flatMap (Spec.descriptorBits fb xb yb) ++ t, p⟩)
    (hds : ∀ d ∈ ds, Spec.Fits fb xb yb d)
    (hrest : 8 * (sec.startByteIndex + L) - p = ds.length * (fb + xb + yb) + k)
    (hk : 0 ≤ k ∧ k < fb + xb + yb) :
    ∃ s', Fac.newTemplateField name fb xb yb L s
        = (.ok ⟨name, .template ⟨ds.map Spec.descriptorNumber, fb, xb, yb⟩, ds.length * (fb + xb + yb), false⟩, s') ∧
      s'.r = .bin ⟨t, p + ds.length * (fb + xb + yb)⟩ ∧
      8 * (sec.startByteIndex + L) - s'.r.pos = k ∧
      s'.ut = some ⟨ds.map Spec.descriptorNumber, fb, xb, yb⟩ ∧
      s'.message.map (·.sections) = some (front ++ [{ sec with fields := sec.fields ++
        [⟨name, .template ⟨ds.map Spec.descriptorNumber, fb, xb, yb⟩, ds.length * (fb + xb + yb), false⟩] }]) := by
  have hb : (L : Int) * 8 - (s.r.pos - sec.startByteIndex * 8) = ds.length * (fb + xb + yb) + k := by
    rw [hr, ← hrest]
    show (L : Int) * 8 - (p - sec.startByteIndex * 8) = _
    omega
  have hdiv := tdiv_block ds.length (fb + xb + yb) k hk.1 (by omega)
  push_cast at hdiv
  unfold Fac.newTemplateField
  rw [M.bind_ok (bitsLeft_eq L hm hl), hb]
  dsimp only
  rw [if_neg (by omega), hdiv, if_neg (by omega), Int.toNat_natCast]
  have hrd : Fac.readIds fb xb yb ds.length s.r = _ := (congrArg _ hr).trans (readIds_eq fb xb yb ds t p hds)
  rw [M.bind_ok (onReader_eq hrd), M.bind_ok (M.modify_apply _ _)]
  rw [M.bind_ok (m := Fac.addField _) (changeSection_eq _ (by exact hm) hl), M.bind_ok (setProxyField_eq _ rfl)]
  simp only [List.length_map]
  refine ⟨_, rfl, rfl, ?_, rfl, rfl⟩
  show 8 * (sec.startByteIndex + (L : Int)) - (p + ds.length * (fb + xb + yb)) = k
  omega

/-- **C67** (components).  With the widths of the format, 2, 6 and 8 bits, the parts of the number are
the bit groups. -/
theorem C67_components (f x y : Nat) (hx : x < 64) (hy : y < 256) :
    ID.F (Spec.descriptorNumber (f, x, y)) = f ∧ ID.X (Spec.descriptorNumber (f, x, y)) = x ∧
      ID.Y (Spec.descriptorNumber (f, x, y)) = y := by
  unfold ID.F ID.X ID.Y Spec.descriptorNumber
  dsimp only
  rw [Int.tdiv_eq_ediv_of_nonneg (by omega), Int.tdiv_eq_ediv_of_nonneg (by omega),
    Int.tmod_eq_emod_of_nonneg (by omega), Int.tmod_eq_emod_of_nonneg (by omega)]
  omega

/-- **C67** (short input).  An input that ends before the last descriptor is an error. -/
theorem C67_short [GoFloat F] (s : Fac F) (m : Message F) (front : List (Section F)) (sec : Section F)
    (name : GoString) (fb xb yb L n : Nat) (src : Bits) (p k : Int)
    (hm : s.message = some m) (hl : m.sections = front ++ [sec]) (hr : s.r = .bin ⟨src, p⟩)
    (hrest : 8 * (sec.startByteIndex + L) - p = n * (fb + xb + yb) + k)
    (hk : 0 ≤ k ∧ k < fb + xb + yb) (hshort : src.length < n * (fb + xb + yb)) :
    ∃ e s', Fac.newTemplateField name fb xb yb L s = (.err e, s') := by
  have hb : (L : Int) * 8 - (s.r.pos - sec.startByteIndex * 8) = n * (fb + xb + yb) + k := by
    rw [hr, ← hrest]
    show (L : Int) * 8 - (p - sec.startByteIndex * 8) = _
    omega
  have hdiv := tdiv_block n (fb + xb + yb) k hk.1 (by omega)
  push_cast at hdiv
  unfold Fac.newTemplateField
  rw [M.bind_ok (bitsLeft_eq L hm hl), hb]
  dsimp only
  rw [if_neg (by omega), hdiv, if_neg (by omega), Int.toNat_natCast]
  obtain ⟨e, r', h⟩ := readIds_short (F := F) fb xb yb n src p hshort
  have hrd : Fac.readIds fb xb yb n s.r = _ := (congrArg _ hr).trans h
  exact ⟨_, _, M.bind_err (onReader_eq hrd)⟩

/-- A section whose length is less than what was read of it by a descriptor or more makes
`NewTemplateField` panic (`make` with a negative length). -/
theorem C67_negative_panics [GoFloat F] (s : Fac F) (m : Message F) (front : List (Section F)) (sec : Section F)
    (name : GoString) (fb xb yb L : Nat) (hm : s.message = some m) (hl : m.sections = front ++ [sec])
    (hpos : 0 < fb + xb + yb)
    (hrest : 8 * (sec.startByteIndex + L) - s.r.pos ≤ -(fb + xb + yb : Int)) :
    Fac.newTemplateField name fb xb yb L s = (.panic "makeslice: len out of range", s) := by
  unfold Fac.newTemplateField
  rw [M.bind_ok (bitsLeft_eq L hm hl)]
  dsimp only
  have hb : (L : Int) * 8 - (s.r.pos - sec.startByteIndex * 8) ≤ -((fb : Int) + xb + yb) := by omega
  generalize (L : Int) * 8 - (s.r.pos - sec.startByteIndex * 8) = r at hb
  have hneg : r.tdiv ((fb : Int) + xb + yb) < 0 := by
    have h1 : r = -(-r) := by omega
    rw [h1, Int.neg_tdiv, Int.tdiv_eq_ediv_of_nonneg (by omega)]
    have : 1 ≤ (-r) / ((fb : Int) + xb + yb) := by
      apply (Int.le_ediv_iff_mul_le (by omega)).2
      omega
    omega
  rw [if_neg (by omega), if_pos hneg]
  rfl

/-- Section 3 of length 12 with the descriptors 3 01 001, 0 12 101 and one byte left over: the section
began at byte 10, seven bytes of it have been read. -/
example : ∃ s', Fac.newTemplateField (str "unexpandedTemplate") 2 6 8 12
      (⟨.bin ⟨[(3, 1, 1), (0, 12, 101)].flatMap (Spec.descriptorBits 2 6 8) ++ List.replicate 8 false, 136⟩,
        some ⟨[], [{ number := 3, description := [], startByteIndex := 10 }], []⟩, none, none⟩ : Fac ToyFloat)
    = (.ok ⟨str "unexpandedTemplate", .template ⟨[301001, 12101], 2, 6, 8⟩, 32, false⟩, s') := by
  obtain ⟨s', h, -⟩ := C67_template (F := ToyFloat) (⟨.bin ⟨[(3, 1, 1), (0, 12, 101)].flatMap
      (Spec.descriptorBits 2 6 8) ++ List.replicate 8 false, 136⟩,
      some ⟨[], [{ number := 3, description := [], startByteIndex := 10 }], []⟩, none, none⟩ : Fac ToyFloat)
    ⟨[], [{ number := 3, description := [], startByteIndex := 10 }], []⟩ [] _ (str "unexpandedTemplate") 2 6 8 12
    [(3, 1, 1), (0, 12, 101)] (List.replicate 8 false) 136 8 rfl rfl rfl
    (by intro d hd; simp at hd; rcases hd with rfl | rfl <;> decide) (by decide) (by decide)
  exact ⟨s', h⟩

end Gobufr
