import Verif.Proofs.FacRuns
import Verif.Spec.Stream

/-!
# Properties of decoding several messages and parts of messages (C72, C73)
-/

namespace Gobufr
open Spec

variable {F : Type}

/-- The fields of section 1 for the byte that holds the edition number. -/
def editionFields (post : List UInt8) : Option (List FieldDecl) :=
  match post[3]? with
  | some e => if e = 4 then some Script.fields1Edition4 else if e = 3 then some Script.fields1Edition3 else none
  | none => none

/-- A run on bytes: the signature, then the message. -/
theorem run_at [GoFloat F] {c : FacCfg} {s s' : Fac F} {pre post : List UInt8} {q : Int}
    (hs : s.r = .bin ⟨BitReader.bitsOfBytes (pre ++ signature ++ post), 8 * q⟩)
    (hfirst : ∀ pre' post', pre ++ signature ++ post = pre' ++ signature ++ post' → pre.length ≤ pre'.length)
    {m : Message F} :
    Runtime.run c s = (.ok m, s') ↔ ∃ ds, editionFields post = some ds ∧ Script.deserialise c ds
      { s with r := .bin ⟨BitReader.bitsOfBytes (signature ++ post), 8 * (q + pre.length)⟩ } = (.ok m, s') := by
  have hp : (8 * q).tmod 8 = 0 := Int.mul_tmod_right 8 _
  have hk := C68_found s pre post (8 * q) hs hp hfirst
  have hpos : 8 * q + 8 * (pre.length : Int) = 8 * (q + pre.length) := by omega
  rw [hpos] at hk
  have hpk := BitReader.peekUint_byte 7 (signature ++ post) (8 * (q + pre.length)) (Int.mul_tmod_right 8 _) (by decide)
  have hpk' : Fac.peekEditionNumber { s with r := .bin ⟨BitReader.bitsOfBytes (signature ++ post),
      8 * (q + pre.length)⟩ } = _ := onReader_eq (Reader.call_bin hpk)
  have h7 : (signature ++ post)[7]? = post[3]? := by simp [signature]
  unfold Runtime.run
  rw [M.bind_ok hk]
  unfold Script.boot raise editionFields
  cases he : post[3]? with
  | none =>
    rw [h7, he] at hpk'
    constructor
    · intro h
      obtain ⟨_, _, h1, _⟩ := M.bind_eq_ok.1 h
      have := of_wrapErr_ok h1
      rw [hpk'] at this
      cases this
    · rintro ⟨ds, h, _⟩; cases h
  | some e =>
    rw [h7, he] at hpk'
    rw [M.bind_ok (wrapErr_ok hpk')]
    have e4 : e.toNat = 4 ↔ e = 4 := ⟨fun h => UInt8.toNat_inj.1 h, fun h => by rw [h]; rfl⟩
    have e3 : e.toNat = 3 ↔ e = 3 := ⟨fun h => UInt8.toNat_inj.1 h, fun h => by rw [h]; rfl⟩
    by_cases h4 : e = 4
    · rw [if_pos (e4.2 h4)]
      simp [h4]
    · rw [if_neg (fun h => h4 (e4.1 h))]
      by_cases h3 : e = 3
      · rw [if_pos (e3.2 h3)]
        simp [h3]
      · rw [if_neg (fun h => h3 (e3.1 h))]
        constructor
        · intro h; cases h
        · rintro ⟨ds, h, _⟩; simp [h4, h3] at h

/-! ## C73 -/

/-- **C73**.  For every input and every place to cut it: if decoding a message reads beyond the cut,
then decoding what is before the cut fails, whatever was decoded before. -/
theorem C73_truncated [GoFloat F] (c : FacCfg) (hc : c.inputType = .binary) (s s' t : Fac F) (m : Message F)
    (bs cut : List UInt8) (q q' : Int) (left : List Bool) (p' : Int)
    (hs : s.r = .bin ⟨BitReader.bitsOfBytes (bs ++ cut), 8 * q⟩) (h : Runtime.run c s = (.ok m, s'))
    (hs' : s'.r = .bin ⟨left, p'⟩) (hcut : left.length < 8 * cut.length)
    (ht : t.r = .bin ⟨BitReader.bitsOfBytes bs, 8 * q'⟩) :
    ∀ m' t', Runtime.run c t ≠ (.ok m', t') := by
  intro m' t' h'
  obtain ⟨s1, hseek⟩ : ∃ s1, Fac.seekStartSignature t = (.ok (), s1) := by
    unfold Runtime.run at h'
    obtain ⟨_, s1, h1, _⟩ := M.bind_eq_ok.1 h'
    exact ⟨s1, h1⟩
  obtain ⟨pre, post, hbs, hmin, _⟩ := seek_ok ht (Int.mul_tmod_right 8 _) hseek
  subst hbs
  have hfull : pre ++ signature ++ post ++ cut = pre ++ signature ++ (post ++ cut) := by simp
  have hmin' : ∀ pre' post', pre ++ signature ++ (post ++ cut) = pre' ++ signature ++ post' →
      pre.length ≤ pre'.length := by
    intro pre' post' he
    by_contra hlt
    have hl : (pre' ++ signature).length ≤ (pre ++ signature ++ post).length := by simp; omega
    have he' : pre' ++ signature ++ post' = (pre ++ signature ++ post) ++ cut := by rw [← he, hfull]
    obtain ⟨z, hz⟩ := List.prefix_of_prefix_length_le (⟨post', he'⟩ : pre' ++ signature <+: _)
      (List.prefix_append (pre ++ signature ++ post) cut) hl
    exact hlt (hmin pre' z hz.symm)
  rw [hfull] at hs
  obtain ⟨ds, hed, hde⟩ := (run_at hs hmin').1 h
  obtain ⟨ds', hed', hde'⟩ := (run_at ht hmin).1 h'
  have hds : ds' = ds := by
    have h3 : post[3]? = none ∨ (post ++ cut)[3]? = post[3]? := by
      by_cases hl : 3 < post.length
      · right; exact List.getElem?_append_left hl
      · left; exact List.getElem?_eq_none (by omega)
    unfold editionFields at hed hed'
    rcases h3 with h3 | h3
    · rw [h3] at hed'; cases hed'
    · rw [h3, hed'] at hed
      cases hed
      rfl
  subst hds
  obtain ⟨src', q2, -, l, hsrc, -, hl⟩ := deserialise_local hc rfl hde'
  obtain ⟨t2, h2, hr2⟩ := hl (src' ++ BitReader.bitsOfBytes cut) (q + pre.length - (q' + pre.length))
    { s with r := .bin ⟨BitReader.bitsOfBytes (signature ++ (post ++ cut)), 8 * (q + pre.length)⟩ } (by
      have hb : BitReader.bitsOfBytes (signature ++ (post ++ cut)) = l ++ (src' ++ BitReader.bitsOfBytes cut) := by
        rw [← List.append_assoc, BitReader.bitsOfBytes_append, hsrc, List.append_assoc]
      show Reader.bin _ = _
      rw [hb]
      congr 2
      omega)
  rw [hde] at h2
  have e := (Prod.mk.inj h2).2
  rw [← e, hs'] at hr2
  injection hr2 with hr2
  injection hr2 with hr2 _
  have := congrArg List.length hr2
  rw [List.length_append, BitReader.bitsOfBytes_length] at this
  omega

open MessageExample in
/-- The edition 4 message with some bytes behind it: cut in section 4 it is not decoded. -/
example : ∀ m' t', Runtime.run cfg (input (body.take 42)) ≠ (.ok m', t') := by
  obtain ⟨m, hm⟩ := isOk_eq (o := (Runtime.run cfg (input (body ++ stop ++ [7, 7]))).1) (by decide +kernel)
  have hr : (Runtime.run cfg (input (body ++ stop ++ [7, 7]))).2.r = .bin ⟨BitReader.bitsOfBytes [7, 7], 384⟩ := by
    decide +kernel
  have hb : body ++ stop ++ [7, 7] = body.take 42 ++ (body.drop 42 ++ stop ++ [7, 7]) := by decide
  exact C73_truncated cfg rfl _ _ _ m (body.take 42) (body.drop 42 ++ stop ++ [7, 7]) 0 0 _ _ (by rw [← hb]; rfl)
    (eq_of_fst hm) hr (by decide) rfl

open MessageExample in
/-- The failure can be a panic: in the padding of section 4, where the nil pointer that `ReadBinary`
returns is used. -/
theorem C73_panic : (Runtime.run cfg (input (body3.take 49))).1 = .panic "nil pointer dereference" := by
  decide +kernel

/-! ## C72 -/

/-- `BUFR` does not overlap itself: in front of a signature it can only be found inside what precedes. -/
theorem signature_first {junk post : List UInt8} (hj : ¬ signature <:+: junk) :
    ∀ pre' post', junk ++ signature ++ post = pre' ++ signature ++ post' → junk.length ≤ pre'.length := by
  intro pre' post' h
  by_contra hlt
  have hlt : pre'.length < junk.length := by omega
  have hget := congrArg (fun l => l[junk.length]?) h
  simp only [List.append_assoc] at hget
  rw [List.getElem?_append_right (l₁ := junk) (Nat.le_refl _), Nat.sub_self,
    List.getElem?_append_right (l₁ := pre') (by omega)] at hget
  rcases Nat.lt_or_ge (junk.length - pre'.length) 4 with h4 | h4
  · obtain h1 | h1 | h1 : junk.length - pre'.length = 1 ∨ junk.length - pre'.length = 2 ∨
        junk.length - pre'.length = 3 := by omega
    all_goals rw [h1] at hget; simp [signature] at hget
  · apply hj
    have hp : pre' ++ signature <+: junk ++ (signature ++ post) := ⟨post', by rw [← h, List.append_assoc]⟩
    obtain ⟨z, hz⟩ := List.prefix_of_prefix_length_le hp (List.prefix_append junk _) (by simp [signature]; omega)
    exact ⟨pre', z, hz⟩

/-- The bytes of `p` are one message: by themselves they decode to `m`, up to their end. -/
def Decodes [GoFloat F] (c : FacCfg) (p : Piece) (m : Message F) : Prop :=
  signature <+: p.bytes ∧ ∃ s', Runtime.run c (Fac.new (.bin ⟨BitReader.bitsOfBytes p.bytes, 0⟩)) = (.ok m, s') ∧
    s'.r = .bin ⟨[], 8 * p.bytes.length⟩

/-- **C72** (one message).  A message is decoded wherever it stands in the input, whatever follows it and
whatever was decoded before; bytes in front of it are skipped, and what follows it is left. -/
theorem C72_next [GoFloat F] (c : FacCfg) (hc : c.inputType = .binary) (p : Piece) (m : Message F)
    (hd : Decodes c p m) (hj : ¬ signature <:+: p.junk) (rest : List UInt8) (q : Int) (t : Fac F)
    (ht : t.r = .bin ⟨BitReader.bitsOfBytes (p.junk ++ p.bytes ++ rest), 8 * q⟩) :
    ∃ t', Runtime.run c t = (.ok (moved (q + p.junk.length) m), t') ∧
      t'.r = .bin ⟨BitReader.bitsOfBytes rest, 8 * (q + p.junk.length + p.bytes.length)⟩ := by
  obtain ⟨⟨post, hpost⟩, s', h, hs'⟩ := hd
  rw [← hpost] at h hs'
  have h0 : (Fac.new (.bin ⟨BitReader.bitsOfBytes (signature ++ post), 0⟩) : Fac F).r =
      .bin ⟨BitReader.bitsOfBytes ([] ++ signature ++ post), 8 * 0⟩ := rfl
  obtain ⟨ds, hed, hde⟩ := (run_at h0 (by intro _ _ _; simp)).1 h
  obtain ⟨src', q2, e2, l, hsrc, -, hl⟩ := deserialise_local hc rfl hde
  have h1 := hs'.symm.trans e2
  injection h1 with h1
  injection h1 with h1 h1'
  subst h1
  have ht' : t.r = .bin ⟨BitReader.bitsOfBytes (p.junk ++ signature ++ (post ++ rest)), 8 * q⟩ := by
    rw [ht, ← hpost]
    simp
  have hlen : 4 ≤ post.length := by
    unfold editionFields at hed
    rcases Nat.lt_or_ge 3 post.length with h | h
    · omega
    · rw [List.getElem?_eq_none h] at hed; cases hed
  have hed' : editionFields (post ++ rest) = some ds := by
    unfold editionFields at hed ⊢
    rw [List.getElem?_append_left (by omega)]
    exact hed
  obtain ⟨t', hr, hr'⟩ := hl (BitReader.bitsOfBytes rest) (q + p.junk.length)
    { t with r := .bin ⟨BitReader.bitsOfBytes (signature ++ (post ++ rest)), 8 * (q + p.junk.length)⟩ } (by
      rw [List.append_nil] at hsrc
      rw [← hsrc, ← BitReader.bitsOfBytes_append, List.append_assoc]
      simp)
  refine ⟨t', (run_at ht' (signature_first hj)).2 ⟨ds, hed', hr⟩, ?_⟩
  rw [hr', ← hpost]
  congr 2
  omega

/-- **C72**.  Running the decoder repeatedly on a stream decodes its messages one after the other, for
every sequence of messages, with bytes between them that do not contain `BUFR`; each message is what its
bytes alone decode to, but for the positions of its sections. -/
theorem C72_stream [GoFloat F] (c : FacCfg) (hc : c.inputType = .binary) (alone : Piece → Message F) :
    ∀ (ps : List Piece), (∀ p ∈ ps, Decodes c p (alone p) ∧ ¬ signature <:+: p.junk) →
    ∀ (rest : List UInt8) (q : Int) (t : Fac F), t.r = .bin ⟨BitReader.bitsOfBytes (streamBytes ps ++ rest), 8 * q⟩ →
    ∃ t', runTimes c ps.length t = (.ok (streamMessages alone q ps), t') ∧
      t'.r = .bin ⟨BitReader.bitsOfBytes rest, 8 * (q + (streamBytes ps).length)⟩
  | [], _, rest, q, t, ht => ⟨t, rfl, by rw [ht]; simp [streamBytes]⟩
  | p :: ps, hps, rest, q, t, ht => by
    obtain ⟨hd, hj⟩ := hps p (by simp)
    obtain ⟨t1, h1, e1⟩ := C72_next c hc p (alone p) hd hj (streamBytes ps ++ rest) q t (by
      rw [ht, streamBytes, List.append_assoc])
    obtain ⟨t2, h2, e2⟩ := C72_stream c hc alone ps (fun x hx => hps x (List.mem_cons_of_mem _ hx)) rest _ t1 e1
    refine ⟨t2, ?_, ?_⟩
    · rw [List.length_cons, runTimes, M.bind_ok h1, M.bind_ok h2]
      rfl
    · rw [e2]
      simp only [streamBytes, List.length_append]
      congr 2
      push_cast
      omega

/-- **C72** (the end).  After the last message the decoder fails if no signature follows. -/
theorem C72_end [GoFloat F] (c : FacCfg) (rest : List UInt8) (q : Int) (t : Fac F)
    (ht : t.r = .bin ⟨BitReader.bitsOfBytes rest, 8 * q⟩) (hno : ¬ signature <:+: rest) :
    ∃ e t', Runtime.run c t = (.err e, t') := by
  obtain ⟨e, s', h⟩ := C68_none t rest (8 * q) ht (Int.mul_tmod_right 8 _) (by
    intro pre post h
    exact hno ⟨pre, post, h.symm⟩)
  exact ⟨e, s', M.bind_err h⟩

open MessageExample in
/-- A stream of an edition 4 message, two other bytes, and an edition 3 message. -/
example : ∃ (alone : Piece → Message ToyFloat) (t' : Fac ToyFloat),
    runTimes cfg 2 (input (body ++ stop ++ [7, 0x42] ++ (body3 ++ stop) ++ [7])) =
      (.ok (streamMessages alone 0 [⟨[], body ++ stop⟩, ⟨[7, 0x42], body3 ++ stop⟩]), t') ∧
    t'.r = .bin ⟨BitReader.bitsOfBytes [7], 8 * 104⟩ := by
  obtain ⟨m4, hm4⟩ := isOk_eq run4
  obtain ⟨m3, hm3⟩ := isOk_eq run3
  have h4 : Decodes cfg ⟨[], body ++ stop⟩ m4 := ⟨⟨_, rfl⟩, _, eq_of_fst hm4, by decide +kernel⟩
  have h3 : Decodes cfg ⟨[7, 0x42], body3 ++ stop⟩ m3 := ⟨⟨_, rfl⟩, _, eq_of_fst hm3, by decide +kernel⟩
  obtain ⟨t', h, e⟩ := C72_stream cfg rfl (fun p => if p.junk = [] then m4 else m3)
    [⟨[], body ++ stop⟩, ⟨[7, 0x42], body3 ++ stop⟩] (by
      intro p hp
      simp only [List.mem_cons, List.not_mem_nil, or_false] at hp
      rcases hp with rfl | rfl
      · exact ⟨h4, by decide⟩
      · exact ⟨h3, by decide⟩) [7] 0 (input (body ++ stop ++ [7, 0x42] ++ (body3 ++ stop) ++ [7])) rfl
  exact ⟨_, t', h, e⟩

end Gobufr
