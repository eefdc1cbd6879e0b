import Verif.Proofs.SafeRun

/-!
# Properties: decoding does not crash

C94.
-/

namespace Gobufr
open Safety

variable {F : Type}

/-! ## C94 -/

/-- **C94**, as it should be: whatever the bytes of the input are, decoding them returns a message or an error; it neither panics
nor runs forever. -/
def C94_statement (F : Type) [GoFloat F] : Prop :=
  ∀ (c : FacCfg) (bytes : List UInt8), c.inputType = .binary → CalmTables c.tables →
    ¬ (Runtime.run c (Fac.new (F := F) (.bin (BitReader.new bytes)))).1.crashed

namespace SafeExample
open MessageExample

theorem calm : CalmTables cfg.tables := by
  intro n
  show ¬ (if n = ⟨0, 0, 0, 13⟩ then _ else _ : Outcome TableB).crashed ∧ ¬ (if n = ⟨0, 0, 0, 13⟩ then _ else _ : Outcome TableD).crashed
  by_cases h : n = ⟨0, 0, 0, 13⟩
  · rw [if_pos h, if_pos h]; exact ⟨id, id⟩
  · rw [if_neg h, if_neg h]; exact ⟨id, id⟩

/-- Sections 0 and 1 of an edition 4 message. -/
def front : List UInt8 :=
  [0x42, 0x55, 0x46, 0x52, 0, 0, 48, 4] ++
  [0, 0, 22, 0, 0, 1, 0, 0, 0, 0, 0, 0, 0, 13, 0, 7, 0xE4, 1, 1, 0, 0, 0]

/-- Section 3 says that it has 4 bytes. -/
def short : List UInt8 := front ++ [0, 0, 4, 0, 0, 1, 0x80, 0x0C, 0x01] ++ [0, 0, 5, 0, 0x12] ++ stop

/-- The template 204000 012001 cancels an associated field that is not there. -/
def cancels : List UInt8 := front ++ [0, 0, 11, 0, 0, 1, 0x80, 0x84, 0, 0x0C, 0x01] ++ [0, 0, 5, 0, 0x12] ++ stop

/-- Compressed data without subsets. -/
def noSubsets : List UInt8 := front ++ [0, 0, 9, 0, 0, 0, 0xC0, 0x0C, 0x01] ++ [0, 0, 5, 0, 0x12] ++ stop

end SafeExample

open MessageExample SafeExample in
/-- The end of the input in the padding of a section: a nil pointer is dereferenced.  A section 3 that claims less bytes than it
has: `make` is called with a negative length.  204000 without an associated field: the stack of associated fields is cut below
its beginning.  Compressed data of 0 subsets: the first value of none is looked at. -/
theorem C94_crashes :
    (Runtime.run cfg (input (body3.take 49))).1 = .panic "nil pointer dereference" ∧
    (Runtime.run cfg (input short)).1 = .panic "makeslice: len out of range" ∧
    (Runtime.run cfg (input cancels)).1 = .panic "slice bounds out of range" ∧
    (Runtime.run cfg (input noSubsets)).1 = .panic "index out of range" :=
  ⟨C73_panic, by decide +kernel, by decide +kernel, by decide +kernel⟩

open MessageExample SafeExample in
/-- C94 is violated. -/
theorem C94_violates : ¬ C94_statement ToyFloat := by
  intro h
  refine h cfg short rfl calm ?_
  show (Runtime.run cfg (input short)).1.crashed
  rw [C94_crashes.2.1]
  trivial

/-- **C94** (the causes).  If decoding binary input crashes, this is because the input ends in the padding of section 1, 3 or 4, or
section 3 claims less than 6 bytes, or the template is one that can crash the decoder.  Everything else that can be wrong with the
input ends in an error. -/
theorem C94_causes_partial [GoFloat F] (c : FacCfg) (bytes : List UInt8) (hc : c.inputType = .binary) (ht : CalmTables c.tables)
    (s' : Fac F) (o : Outcome (Message F)) (h : Runtime.run c (Fac.new (.bin (BitReader.new bytes))) = (o, s'))
    (ho : o.crashed) : CrashCause c s' :=
  run_crashed hc ht ⟨_, rfl⟩ h ho

open MessageExample SafeExample in
/-- The panics above have such a cause. -/
example : CrashCause cfg (Runtime.run cfg (input short)).2 ∧ CrashCause cfg (Runtime.run cfg (input cancels)).2 := by
  exact ⟨C94_causes_partial (F := ToyFloat) cfg short rfl calm _ _ (eq_of_fst C94_crashes.2.1) trivial,
    C94_causes_partial (F := ToyFloat) cfg cancels rfl calm _ _ (eq_of_fst C94_crashes.2.2.1) trivial⟩

open MessageExample SafeExample in
/-- Input that stops anywhere in front of the padding of section 3 is an error. -/
example : ∀ n < 32, (Runtime.run cfg (input (body3.take n))).1.isOk = false ∧ ¬ (Runtime.run cfg (input (body3.take n))).1.crashed := by
  have h : ∀ n < 32, (match (Runtime.run cfg (input (body3.take n))).1 with | .err _ => true | _ => false) = true := by
    decide +kernel
  intro n hn
  have := h n hn
  revert this
  cases (Runtime.run cfg (input (body3.take n))).1 with
  | ok a => exact nofun
  | err e => exact fun _ => ⟨rfl, id⟩
  | panic w => exact nofun
  | diverge => exact nofun

/-- **C94** (the data section).  The data of a harmless template is decoded, or an error is returned, whatever the bits of the data
section are. -/
theorem C94_payload [GoFloat F] (g : ChainGroup) (fuel : Nat) (ids : List ID) (t : Ast) (n : Int) (compressed compatible : Bool)
    (vc : VisCfg) (k : Nat) (r : BitReader) (ht : parse g.lookup fuel ids = .ok t)
    (hv : newDeserializeVisitor fuel compressed .binary compatible n = .ok vc)
    (hh : HarmlessTemplate (parse g.lookup fuel ids) n compressed) :
    ¬ (Vis.decodeSubsets vc t k { compressed := compressed } (Fac.freshVis (F := F) (.bin r))).1.crashed := by
  rw [ht] at hh
  obtain ⟨ns, f', rfl, -⟩ := parse_ok_iff.1 ht
  obtain ⟨hh, hn⟩ := hh
  obtain ⟨j, hj⟩ := Option.isSome_iff_exists.1 hh
  obtain ⟨c1, c2, c3, c4, c5⟩ := visitor_cfg hv hn
  rw [← c3] at hj
  exact (subsets_safe c1 c2 c5 (parse_noBase (good_chain g) ⟨fuel, ht⟩) hj k _).not (s := Fac.freshVis (.bin r)) ⟨_, rfl⟩ rfl

namespace SafeExample

/-- A group with a number, a count and a string. -/
def group : ChainGroup :=
  ⟨[⟨⟨[], [(12001, { (default : Bentry) with unit := .numeric, nbits := 8 }),
      (31001, { (default : Bentry) with unit := .numeric, nbits := 8 }),
      (31021, { (default : Bentry) with unit := .code, nbits := 6 }),
      (1015, { (default : Bentry) with unit := .string, nbits := 160 })]⟩, ⟨[], []⟩⟩]⟩

/-- 204007 031021, a delayed replication of a number and a string with 201YYY in force, 204000. -/
def ids : List ID := [204007, 31021, 201130, 102000, 31001, 12001, 1015, 201000, 204000]

def harmlessIds (b : Bool) : Bool :=
  match parse group.lookup 100 ids with
  | .ok (.base _ ms) => (harmlessL b ms 0).isSome
  | _ => false

end SafeExample

open SafeExample in
/-- A harmless template: an error at the end of the data, whatever it is. -/
example (r : BitReader) (t : Ast) (ht : parse group.lookup 100 ids = .ok t) (vc : VisCfg)
    (hv : newDeserializeVisitor 100 false .binary true 3 = .ok vc) :
    ¬ (Vis.decodeSubsets vc t 3 { compressed := false } (Fac.freshVis (F := ToyFloat) (.bin r))).1.crashed := by
  refine C94_payload group 100 ids t 3 false true vc 3 r ht hv ?_
  have h : harmlessIds false = true := by decide +kernel
  unfold harmlessIds at h
  rw [ht] at h ⊢
  cases t <;> first | exact ⟨h, nofun⟩ | exact absurd h Bool.false_ne_true

open SafeExample in
/-- The template can be parsed. -/
example : ((parse group.lookup 100 ids).isOk = true) := by decide +kernel

end Gobufr
