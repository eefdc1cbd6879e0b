import Verif.Spec.Resync
import Verif.Props.Stream
import Verif.Props.Accept

/-!
# C125: a message that cannot be decoded does not hide those behind it
-/

namespace Gobufr
open Spec

variable {F : Type}

/-- C125, the property: when a message cannot be decoded and the reader has not got to the next one yet, some call from then on returns the
next one. -/
def C125_statement : Prop := ∀ (F : Type) [GoFloat F] (c : FacCfg) (p : Piece) (m : Message F) (rest : List UInt8) (s t : Fac F) (e : Err)
  (before : List Bool) (pos : Int), c.inputType = .binary → Decodes c p m → ¬ signature <:+: p.junk →
  Runtime.run c s = (.err e, t) → t.r = .bin ⟨before ++ BitReader.bitsOfBytes (p.junk ++ p.bytes ++ rest), pos⟩ →
  ∃ q, Reaches c t (moved q m)

/-- **C125**, what holds: if the failure is at the end of a byte, and nothing that looks like a message comes first, the next call returns
the next message, and the reader is behind it. -/
theorem C125_partial [GoFloat F] (c : FacCfg) (hc : c.inputType = .binary) (p : Piece) (m : Message F) (hd : Decodes c p m)
    (before : List UInt8) (hj : ¬ signature <:+: before ++ p.junk) (rest : List UInt8) (s t : Fac F) (e : Err) (q : Int)
    (_ : Runtime.run c s = (.err e, t))
    (ht : t.r = .bin ⟨BitReader.bitsOfBytes before ++ BitReader.bitsOfBytes (p.junk ++ p.bytes ++ rest), 8 * q⟩) :
    ∃ t', Runtime.run c t = (.ok (moved (q + (before ++ p.junk).length) m), t') ∧
      t'.r = .bin ⟨BitReader.bitsOfBytes rest, 8 * (q + (before ++ p.junk).length + p.bytes.length)⟩ := by
  refine C72_next c hc ⟨before ++ p.junk, p.bytes⟩ m hd hj rest q t ?_
  rw [ht, ← BitReader.bitsOfBytes_append]
  simp

/-- **C125**, and all those behind it: after such a failure the next calls return all messages of the stream that follows, as if the
broken message were not there. -/
theorem C125_stream [GoFloat F] (c : FacCfg) (hc : c.inputType = .binary) (alone : Piece → Message F) (p : Piece) (ps : List Piece)
    (hps : ∀ x ∈ p :: ps, Decodes c x (alone x) ∧ ¬ signature <:+: x.junk) (before : List UInt8) (hj : ¬ signature <:+: before ++ p.junk)
    (rest : List UInt8) (s t : Fac F) (e : Err) (q : Int) (he : Runtime.run c s = (.err e, t))
    (ht : t.r = .bin ⟨BitReader.bitsOfBytes before ++ BitReader.bitsOfBytes (streamBytes (p :: ps) ++ rest), 8 * q⟩) :
    ∃ t', runTimes c (ps.length + 1) t = (.ok (streamMessages alone (q + before.length) (p :: ps)), t') ∧
      t'.r = .bin ⟨BitReader.bitsOfBytes rest, 8 * (q + before.length + (streamBytes (p :: ps)).length)⟩ := by
  obtain ⟨t1, h1, e1⟩ := C125_partial c hc p (alone p) (hps p (by simp)).1 before hj (streamBytes ps ++ rest) s t e q he (by
    rw [ht, streamBytes, List.append_assoc (p.junk ++ p.bytes)])
  have hl : q + ((before ++ p.junk).length : Int) = q + before.length + p.junk.length := by
    rw [List.length_append]
    omega
  rw [hl] at h1 e1
  obtain ⟨t2, h2, e2⟩ := C72_stream c hc alone ps (fun x hx => (hps x (List.mem_cons_of_mem _ hx))) rest _ t1 e1
  refine ⟨t2, ?_, ?_⟩
  · rw [runTimes, M.bind_ok h1, M.bind_ok h2]
    rfl
  · rw [e2]
    simp only [streamBytes, List.length_append]
    congr 2
    omega

theorem run_unaligned [GoFloat F] (c : FacCfg) (t : Fac F) (l : List Bool) (pos : Int) (ht : t.r = .bin ⟨l, pos⟩) (hp : pos.tmod 8 ≠ 0) :
    ∃ e, Runtime.run c t = (.err e, t) := by
  have h1 : (BitReader.peekBytes 0 4 ⟨l, pos⟩).1.isErr = true := (C09_peek_unaligned 0 4 ⟨l, pos⟩ hp).2
  have h2 := C09_peek_no_effect 0 4 ⟨l, pos⟩
  have hs : ∃ e, BitReader.peekBytes 0 4 ⟨l, pos⟩ = (.err e, ⟨l, pos⟩) := by
    rcases hx : BitReader.peekBytes 0 4 ⟨l, pos⟩ with ⟨o, r⟩
    rw [hx] at h1
    have hr : r = ⟨l, pos⟩ := by
      have := h2.2
      rw [hx] at this
      exact this
    cases o with
    | err e => exact ⟨e, by rw [hr]⟩
    | _ => cases h1
  obtain ⟨e, he⟩ := hs
  have hk : Fac.seekStartSignature t = (.err e, { t with r := .bin ⟨l, pos⟩ }) := by
    refine onReader_eq ?_
    rw [ht]
    unfold Fac.seekLoop
    exact M.bind_err (Reader.call_bin he)
  refine ⟨e, ?_⟩
  have : ({ t with r := .bin ⟨l, pos⟩ } : Fac F) = t := by rw [← ht]
  rw [this] at hk
  exact M.bind_err hk

/-- **C125**, a failure within a byte: all calls from then on fail, and the reader does not move. -/
theorem C125_stuck [GoFloat F] (c : FacCfg) (t : Fac F) (l : List Bool) (pos : Int) (ht : t.r = .bin ⟨l, pos⟩) (hp : pos.tmod 8 ≠ 0)
    (k : Nat) : ∃ e, Runtime.run c (afterRuns c k t) = (.err e, t) := by
  obtain ⟨e, he⟩ := run_unaligned c t l pos ht hp
  have hk : ∀ k, afterRuns c k t = t := by
    intro k
    induction k with
    | zero => rfl
    | succ k ih => rw [afterRuns, he]; exact ih
  exact ⟨e, by rw [hk]; exact he⟩

/-- **C125**, a message of another edition than 3 and 4: all calls fail, and the reader stays at its start. -/
theorem C125_edition [GoFloat F] (c : FacCfg) (pre post : List UInt8) (e : UInt8) (he : post[3]? = some e) (h3 : e ≠ 3) (h4 : e ≠ 4)
    (hpre : ¬ signature <:+: pre) (q : Int) (t : Fac F)
    (ht : t.r = .bin ⟨BitReader.bitsOfBytes (pre ++ signature ++ post), 8 * q⟩) (k : Nat) :
    ∃ x t', Runtime.run c (afterRuns c k t) = (.err x, t') ∧
      t'.r = .bin ⟨BitReader.bitsOfBytes (signature ++ post), 8 * (q + pre.length)⟩ := by
  have one : ∀ (pre : List UInt8), ¬ signature <:+: pre → ∀ (q : Int) (t : Fac F),
      t.r = .bin ⟨BitReader.bitsOfBytes (pre ++ signature ++ post), 8 * q⟩ → ∃ x t', Runtime.run c t = (.err x, t') ∧
        t'.r = .bin ⟨BitReader.bitsOfBytes (signature ++ post), 8 * (q + pre.length)⟩ := by
    intro pre hpre q t ht
    have hk := C68_found t pre post (8 * q) ht (Int.mul_tmod_right 8 _) (signature_first hpre)
    have hpos : 8 * q + 8 * (pre.length : Int) = 8 * (q + pre.length) := by omega
    rw [hpos] at hk
    have hpk := BitReader.peekUint_byte 7 (signature ++ post) (8 * (q + pre.length)) (Int.mul_tmod_right 8 _) (by decide)
    have hpk' : Fac.peekEditionNumber { t with r := .bin ⟨BitReader.bitsOfBytes (signature ++ post),
        8 * (q + pre.length)⟩ } = _ := onReader_eq (Reader.call_bin hpk)
    have h7 : (signature ++ post)[7]? = post[3]? := by simp [signature]
    rw [h7, he] at hpk'
    unfold Runtime.run
    rw [M.bind_ok hk]
    unfold Script.boot raise
    rw [M.bind_ok (wrapErr_ok hpk')]
    have e4 : ¬ e.toNat = 4 := fun h => h4 (UInt8.toNat_inj.1 h)
    have e3 : ¬ e.toNat = 3 := fun h => h3 (UInt8.toNat_inj.1 h)
    rw [if_neg e4, if_neg e3]
    exact ⟨_, _, rfl, rfl⟩
  induction k generalizing t pre q with
  | zero => exact one pre hpre q t ht
  | succ k ih =>
    obtain ⟨x, t', h1, h2⟩ := one pre hpre q t ht
    obtain ⟨x', t'', k1, k2⟩ := ih [] (by decide) (q + pre.length) t' h2
    refine ⟨x', t'', ?_, by simpa using k2⟩
    rw [afterRuns, h1]
    exact k1

namespace ResyncExample
open MessageExample

/-- 012001 of 12 bits. -/
def tables : Tables where
  getB n := if n = ⟨0, 0, 0, 13⟩ then .ok ⟨[], [(12001, { (default : Bentry) with unit := .numeric, nbits := 12 })]⟩ else .err .notExist
  getD n := if n = ⟨0, 0, 0, 13⟩ then .ok ⟨[], []⟩ else .err .notExist

def config : FacCfg := ⟨tables, .binary, false, false, 100⟩

def start : List UInt8 := [0, 0, 22, 0, 0, 1, 0, 0, 0, 0, 0, 0, 0, 13, 0, 7, 0xE4, 1, 1, 0, 0, 0]

/-- A message of one temperature. -/
def good : List UInt8 := [0x42, 0x55, 0x46, 0x52, 0, 0, 49, 4] ++ start ++ [0, 0, 9, 0, 0, 1, 0x80, 0x0C, 0x01] ++ [0, 0, 6, 0, 0x12, 0x30] ++ stop

/-- The same with a length of section 4 that is one byte too short. -/
def short : List UInt8 := [0x42, 0x55, 0x46, 0x52, 0, 0, 48, 4] ++ start ++ [0, 0, 9, 0, 0, 1, 0x80, 0x0C, 0x01] ++ [0, 0, 5, 0, 0x12] ++ stop

/-- One with a descriptor that is not in the tables. -/
def unknown : List UInt8 := [0x42, 0x55, 0x46, 0x52, 0, 0, 49, 4] ++ start ++ [0, 0, 9, 0, 0, 1, 0x80, 0x0C, 0x02] ++ [0, 0, 6, 0, 0x12, 0x30] ++ stop

/-- A message of edition 2. -/
def old : List UInt8 := [0x42, 0x55, 0x46, 0x52, 0, 0, 12, 2] ++ stop

theorem good_ok : (Runtime.run config (input good)).1.isOk = true := by decide +kernel

theorem decodes : ∃ m, Decodes config ⟨[], good⟩ (m : Message ToyFloat) := by
  obtain ⟨m, hm⟩ := isOk_eq good_ok
  exact ⟨m, ⟨_, rfl⟩, _, eq_of_fst hm, by decide +kernel⟩

theorem short_err : (Runtime.run config (input (short ++ good))).1.isErr = true := by decide +kernel

theorem short_left : (Runtime.run config (input (short ++ good))).2.r =
    .bin ⟨(BitReader.bitsOfBytes stop).drop 4 ++ BitReader.bitsOfBytes good, 356⟩ := by decide +kernel

theorem unknown_err : (Runtime.run config (input (unknown ++ good))).1.isErr = true := by decide +kernel

theorem unknown_left : (Runtime.run config (input (unknown ++ good))).2.r = .bin ⟨BitReader.bitsOfBytes (unknown.drop 43) ++
    BitReader.bitsOfBytes ([] ++ good ++ []), 8 * 43⟩ := by decide +kernel

theorem unknown_err2 : (Runtime.run config (input (unknown ++ (good ++ [7] ++ good)))).1.isErr = true := by decide +kernel

theorem unknown_left2 : (Runtime.run config (input (unknown ++ (good ++ [7] ++ good)))).2.r = .bin ⟨BitReader.bitsOfBytes (unknown.drop 43) ++
    BitReader.bitsOfBytes (streamBytes [⟨[], good⟩, ⟨[7], good⟩] ++ []), 8 * 43⟩ := by decide +kernel

theorem isErr_eq {o : Outcome α} (h : o.isErr = true) : ∃ e, o = .err e := by
  cases o with
  | err e => exact ⟨e, rfl⟩
  | _ => cases h

end ResyncExample

open ResyncExample MessageExample in
/-- C125 is violated: a section that is too short makes the decoder stop within a byte, and it never gets to the next message. -/
theorem C125_violates : ¬ C125_statement := by
  intro h
  obtain ⟨m, hm⟩ := decodes
  obtain ⟨e, he⟩ := isErr_eq short_err
  have h1 := eq_of_fst he
  have h2 := short_left
  generalize (Runtime.run ResyncExample.config (input (short ++ good))).2 = t at h1 h2
  have h3 : t.r = .bin ⟨(BitReader.bitsOfBytes stop).drop 4 ++ BitReader.bitsOfBytes ([] ++ good ++ []), 356⟩ := by
    rw [h2, List.nil_append, List.append_nil]
  obtain ⟨q, k, hk⟩ := h ToyFloat config ⟨[], good⟩ m [] _ t e _ _ rfl hm (by decide) h1 h3
  obtain ⟨e', he'⟩ := C125_stuck config t _ _ h2 (by decide) k
  rw [he'] at hk
  cases hk

open ResyncExample MessageExample in
/-- C125 is violated in another way: a message of edition 2 is never passed. -/
theorem C125_violates_edition : ∃ m : Message ToyFloat, Decodes config ⟨[], good⟩ m ∧
    ∀ m', ¬ Reaches config (input (old ++ good)) m' := by
  obtain ⟨m, hm⟩ := decodes
  refine ⟨m, hm, fun m' h => ?_⟩
  obtain ⟨k, hk⟩ := h
  have hr : (input (old ++ good)).r = .bin ⟨BitReader.bitsOfBytes ([] ++ signature ++ (old ++ good).drop 4), 8 * 0⟩ := by decide +kernel
  generalize input (old ++ good) = t at hk hr
  obtain ⟨x, t', h1, -⟩ := C125_edition config [] ((old ++ good).drop 4) 2 (by decide) (by decide) (by decide) (by decide) 0
    t hr k
  rw [h1] at hk
  cases hk

open ResyncExample MessageExample in
/-- After a message with an unknown descriptor the next one is decoded. -/
example : ∃ (m : Message ToyFloat) (t' : Fac ToyFloat),
    Runtime.run config (Runtime.run config (input (unknown ++ good))).2 = (.ok (moved 49 m), t') := by
  obtain ⟨m, hm⟩ := decodes
  obtain ⟨e, he⟩ := isErr_eq unknown_err
  have h1 := eq_of_fst he
  have h2 := unknown_left
  generalize (Runtime.run ResyncExample.config (input (unknown ++ good))).2 = t at h1 h2 ⊢
  obtain ⟨t', h, -⟩ := C125_partial config rfl ⟨[], good⟩ m hm (unknown.drop 43) (by decide) [] _ t e 43 h1 h2
  have hl : (43 : Int) + ((unknown.drop 43 ++ []).length : Int) = 49 := by decide
  rw [hl] at h
  exact ⟨m, t', h⟩

open ResyncExample MessageExample in
/-- After a message with an unknown descriptor two more are decoded. -/
example : ∃ (alone : Piece → Message ToyFloat) (t' : Fac ToyFloat),
    runTimes config 2 (Runtime.run config (input (unknown ++ (good ++ [7] ++ good)))).2 =
      (.ok (streamMessages alone 49 [⟨[], good⟩, ⟨[7], good⟩]), t') := by
  obtain ⟨m, hm⟩ := decodes
  obtain ⟨e, he⟩ := isErr_eq unknown_err2
  have h1 := eq_of_fst he
  have h2 := unknown_left2
  generalize (Runtime.run ResyncExample.config (input (unknown ++ (good ++ [7] ++ good)))).2 = t at h1 h2 ⊢
  have hd : ∀ x ∈ [(⟨[], good⟩ : Piece), ⟨[7], good⟩], Decodes config x m ∧ ¬ signature <:+: x.junk := by
    intro x hx
    simp only [List.mem_cons, List.not_mem_nil, or_false] at hx
    rcases hx with rfl | rfl
    · exact ⟨hm, by decide⟩
    · exact ⟨hm, by decide⟩
  obtain ⟨t', h, -⟩ := C125_stream config rfl (fun _ => m) _ _ hd (unknown.drop 43) (by decide) [] _ t e 43 h1 h2
  exact ⟨fun _ => m, t', h⟩

end Gobufr
