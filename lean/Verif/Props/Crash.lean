import Verif.Proofs.CrashRun
import Verif.Props.AssessmentCount

/-!
# What crashes the decoder when there are bitmaps

C94, for templates with bitmaps, markers and new reference values, which are not harmless: data that crash the decoder come
to a value for which the bitmap selects no element, to a marker for something that is not in table B, to values for which
there is no bitmap, to a new reference value, or to the end of an associated field that was not begun.
-/

namespace Gobufr
open Flat EncodeSpec Safety

variable {F : Type} {c : VisCfg}

theorem taken_loose [GoFloat F] [LawfulGoFloat F] {info : PackingInfo F} {b : List Bool} {vs : List (Val F)} (h : Taken info b vs) :
    Loose info b vs := by
  obtain ⟨v, p, p', t, rfl, e⟩ := id h
  refine ⟨v, rfl, fun hp => taken_single h fun v' hv => ?_⟩
  rw [List.mem_singleton.1 hv]
  exact hp

/-- **C94**, bitmaps: if decoding uncompressed subsets crashes, some subsets are written by the rules, and the bits of the
next come to a place where decoding cannot go on; this place says what the panic is. -/
theorem C94_bitmaps [GoFloat F] [LawfulGoFloat F] (hc : CfgOk c) (hb : c.inputType = .binary) (hu : c.compressed = false)
    {ns : List Ast} (hns : noBaseL ns = true) (hs : simpleL true ns = true) (ht : tame false ns = true)
    (hg : guardedL false ns = true) (d : Desc) (n : Nat) (p0 : Payload F) (s s' : Vis F) (o : Outcome (Payload F))
    (l : Bits) (p : Int) (hr : s.r = .bin ⟨l, p⟩) (h : Vis.decodeSubsets c (.base d ns) n p0 s = (o, s')) (ho : o.crashed) :
    ∃ (data : List (List Bool × List (Datum F))) (bits t : Bits) (why : Why) (w : String), o = .panic w ∧ why.panics w ∧
      data.length < n ∧ l = data.flatMap Prod.fst ++ bits ++ t ∧ (∀ x ∈ data, ∃ y, Coded Loose c.compatible {} ns x.1 x.2 y) ∧
      Stuck (F := F) Loose c.compatible why {} ns bits := by
  have hunp : c.unpacker = .uncompress := by
    obtain ⟨fuel, hf⟩ := hc
    rw [hu, hb] at hf
    simp only [newDeserializeVisitor, newUnpacker, Bool.false_eq_true, if_false, Outcome.bind_ok] at hf
    injection hf with hf
    rw [← hf]
  have hbin : BinCfg c := ⟨by rw [hu]; exact hunp, by simp [hu]⟩
  rw [← hu] at ht hg
  have hbl := guardedL_blames (F := F) hbin (takes_uncompress hunp) (matches_uncompress hunp) plainly_taken (zeroes_uncompress hunp) ns hs ht hg
  have hon : Only (F := F) true c AtAny Taken none (visitL c ns) ns :=
    simpleL_only (takes_uncompress hunp) (matches_uncompress hunp) plainly_taken (zeroes_uncompress hunp) true true ns id hs
  obtain ⟨data, bits, t, why, w, e1, e2, e3, e4, e5, e6⟩ := subsets_blame hc hbin hb (k := none) (by simp [hu]) hns hbl hon d
    (fun l r ⟨p, h⟩ => ⟨⟨l, p⟩, h⟩) n p0 s s' o l ⟨p, hr⟩ h ho
  refine ⟨data, bits, t, why, w, e1, e2, e3, e4, fun x hx => ?_, e6.mono fun _ _ _ => taken_loose⟩
  obtain ⟨y, hy⟩ := e5 x hx
  exact ⟨y, hy.mono fun _ _ _ => taken_loose⟩

/-- **C94**, bitmaps in compressed data. -/
theorem C94_bitmaps_compressed [GoFloat F] [LawfulGoFloat F] (hc : CfgOk c) (hb : c.inputType = .binary) (hu : c.compressed = true)
    {k : Nat} (hk : c.nsubsets = k) (h0 : 0 < k) {ns : List Ast} (hns : noBaseL ns = true) (hs : simpleL true ns = true)
    (ht : tame true ns = true) (hg : guardedL true ns = true) (d : Desc) (p0 : Payload F) (s s' : Vis F)
    (o : Outcome (Payload F)) (l : Bits) (p : Int) (hr : s.r = .bin ⟨l, p⟩)
    (h : Vis.decodeSubsets c (.base d ns) 1 p0 s = (o, s')) (ho : o.crashed) :
    ∃ (bits t : Bits) (why : Why) (w : String), o = .panic w ∧ why.panics w ∧ l = bits ++ t ∧
      Stuck (F := F) (LooseColumn k) c.compatible why {} ns bits := by
  obtain ⟨fuel, hunp⟩ := unpacker_compressed hc hb hu hk
  have hbin : BinCfg c := ⟨by rw [hu, hk]; exact ⟨fuel, hunp⟩, fun _ => by omega⟩
  replace ht : tame c.compressed ns = true := by rw [hu]; exact ht
  replace hg : guardedL c.compressed ns = true := by rw [hu]; exact hg
  have hbl := guardedL_blames (F := F) hbin (takes_compressed hunp) (matches_compressed hunp) plainly_column (zeroes_compressed hunp) ns hs ht hg
  have hon : Only (F := F) true c AtAny (TakenColumn k fuel) (some k) (visitL c ns) ns :=
    simpleL_only (takes_compressed hunp) (matches_compressed hunp) plainly_column (zeroes_compressed hunp) true true ns id hs
  obtain ⟨data, bits, t, why, w, e1, e2, e3, e4, e5, e6⟩ := subsets_blame hc hbin hb (k := some k) (by simp [hu, hk]) hns hbl hon d
    (fun l r ⟨p, h⟩ => ⟨⟨l, p⟩, h⟩) 1 p0 s s' o l ⟨p, hr⟩ h ho
  obtain rfl : data = [] := List.length_eq_zero_iff.1 (by omega)
  exact ⟨bits, t, why, w, e1, e2, by simpa using e4, e6.mono fun _ _ _ hw => taken_lenient h0 hw⟩

/-- **C94**, the converse: data that come to such a place crash the decoder. -/
theorem C94_stuck [GoFloat F] [LawfulGoFloat F] (hc : CfgOk c) (hb : c.inputType = .binary) (hu : c.compressed = false)
    {ns : List Ast} (hns : noBaseL ns = true) (d : Desc) (data : List (List Bool × List (Datum F)))
    (h : ∀ x ∈ data, ∃ y, Coded Single c.compatible {} ns x.1 x.2 y) (bits : Bits) (why : Why)
    (ho : Stuck (F := F) Single c.compatible why {} ns bits) (t : Bits) (p : Int) (m : Nat) (p0 : Payload F) (s : Vis F)
    (hr : s.r = .bin ⟨data.flatMap Prod.fst ++ bits ++ t, p⟩) :
    ∃ w, (Vis.decodeSubsets c (.base d ns) (data.length + 1 + m) p0 s).1 = .panic w ∧ why.panics w :=
  subsets_stop hc hb hu hns d data h bits ho t p m p0 s hr

/-- **C94**, the converse for compressed data. -/
theorem C94_stuck_compressed [GoFloat F] [LawfulGoFloat F] (hc : CfgOk c) (hb : c.inputType = .binary) (hu : c.compressed = true)
    {k : Nat} (hk : c.nsubsets = k) (h0 : 0 < k) {ns : List Ast} (hns : noBaseL ns = true) (d : Desc) (bits : Bits) (why : Why)
    (ho : Stuck (F := F) (Lenient k) c.compatible why {} ns bits) (t : Bits) (p : Int) (p0 : Payload F) (s : Vis F)
    (hr : s.r = .bin ⟨bits ++ t, p⟩) :
    ∃ w, (Vis.decodeSubsets c (.base d ns) 1 p0 s).1 = .panic w ∧ why.panics w := by
  obtain ⟨fuel, hunp⟩ := unpacker_compressed hc hb hu hk
  obtain ⟨w, e, hw⟩ := root_stops hc (reads_lenient hunp) (by rw [if_pos ⟨hu, hb⟩, hk]; simp) (by simp; omega) hns ho d (s := s) (t := t)
    (by rw [hr]; exact atBits_start _ p)
  simp only [Vis.decodeSubsets]
  rw [M.bind_panic (eq_of_fst e)]
  exact ⟨w, rfl, hw⟩

namespace EncodeExample
open PayloadExample

/-- An operator, as it is in table C. -/
def op (id : ID) : Desc := ⟨id, .c default⟩

/-- Two codes, and the quality of those that are selected: one value. -/
def gradedTwo (n : ID) : List Ast := [.element e4 false, .element e4 false, .assessment (op 222000)
  (.bitmap (some (op 236000)) [.fixedRepl (op n) [.element (elem 31031 .flag 1) false]]) [] [quality]]

/-- An assessment that recalls a bitmap: 237000. -/
def recalling : List Ast := [.element e4 false, .element e4 false, .assessment (op 222000) (.bitmap (some (op 237000)) []) [] [quality]]

/-- A marker for an operator, among what an assessment selects. -/
def strays : List Ast := [.insertString (op 205000), .assessment (op 224000)
  (.bitmap (some (op 236000)) [.fixedRepl (op 101001) [.element (elem 31031 .flag 1) false]]) [] [.marker (op 224255)]]

/-- There is none. -/
theorem recallsNone : Stuck (F := ToyFloat) Single false .noBitmap {} recalling
    (Spec.natBits 4 1 ++ Spec.natBits 4 2 ++ ([] ++ ([] ++ []) ++ [])) :=
  .after codes (.unset (.off rfl) (.recall rfl (.off rfl) .nil) .nil rfl)

end EncodeExample

open EncodeExample PayloadExample in
/-- The hypotheses of `C94_bitmaps` are met: two codes, a bitmap that selects none of them, and a quality value. -/
example : noBaseL (gradedTwo 101002) = true ∧ simpleL true (gradedTwo 101002) = true ∧ tame false (gradedTwo 101002) = true ∧
    guardedL false (gradedTwo 101002) = true ∧
    (Vis.decodeSubsets cfg (.base (plain 0) (gradedTwo 101002)) 1 { compressed := false } (before 1 1)).1 = .panic "index out of range" := by
  decide +kernel

open EncodeExample PayloadExample in
/-- A bitmap that was not defined: a nil pointer is dereferenced, whatever comes next; the hypotheses of `C94_stuck` and of
`C94_bitmaps` are met. -/
example (t : Bits) : (Vis.decodeSubsets cfg (.base (plain 0) recalling) 1
      { compressed := false } { start [] with r := .bin ⟨Spec.natBits 4 1 ++ Spec.natBits 4 2 ++ t, 0⟩ }).1
        = .panic "nil pointer dereference" ∧
    simpleL true recalling = true ∧ tame false recalling = true ∧ guardedL false recalling = true := by
  refine ⟨?_, by decide +kernel, by decide +kernel, by decide +kernel⟩
  obtain ⟨w, h, rfl⟩ := C94_stuck cfg_ok rfl rfl (by decide +kernel) (plain 0) [] (by simp) _ .noBitmap recallsNone t 0 0 { compressed := false }
    { start [] with r := .bin ⟨Spec.natBits 4 1 ++ Spec.natBits 4 2 ++ t, 0⟩ } (by simp)
  exact h

open EncodeExample PayloadExample in
/-- A marker for the text of 205YYY: its descriptor is not in table B. -/
example : simpleL true strays = true ∧ tame false strays = true ∧ guardedL false strays = true ∧
    (Vis.decodeSubsets cfg (.base (plain 0) strays) 1 { compressed := false } { start [] with r := .bin ⟨[false], 0⟩ }).1
      = .panic "interface conversion: table.Entry is not *table.Bentry" := by
  decide +kernel

open EncodeExample PayloadExample in
/-- A new reference value of 8 bits for an element: read, and not stored, whatever comes next. -/
example (t : Bits) : simpleL true [.element e4 false, .element e4 false, .newRefval (op 203008) [.element e8 false]] = true ∧
    tame false [.element e4 false, .element e4 false, .newRefval (op 203008) [.element e8 false]] = true ∧
    guardedL false [.element e4 false, .element e4 false, .newRefval (op 203008) [.element e8 false]] = true ∧
    ∃ w, (Vis.decodeSubsets cfg (.base (plain 0) [.element e4 false, .element e4 false, .newRefval (op 203008) [.element e8 false]]) 1
      { compressed := false } { start [] with r := .bin ⟨Spec.natBits 4 1 ++ Spec.natBits 4 2 ++ (true :: Spec.natBits 7 5) ++ t, 0⟩ }).1 =
        .panic w ∧ Why.newReference.panics w := by
  refine ⟨by decide +kernel, by decide +kernel, by decide +kernel, ?_⟩
  exact C94_stuck cfg_ok rfl rfl (by decide +kernel) (plain 0) [] (by simp) _ .newReference
    (.after codes (.reference (by decide) (.signed (n := 7) (mag := 5) (neg := true) rfl rfl (by decide) (by decide)))) t 0 0
    { compressed := false } _ (by simp)

open EncodeExample PayloadExample in
/-- The end of an associated field that was not begun. -/
example (t : Bits) : simpleL true [.element e4 false, .element e4 false, .assocField (op 204000) []] = true ∧
    tame false [.element e4 false, .element e4 false, .assocField (op 204000) []] = true ∧
    guardedL false [.element e4 false, .element e4 false, .assocField (op 204000) []] = true ∧
    (Vis.decodeSubsets cfg (.base (plain 0) [.element e4 false, .element e4 false, .assocField (op 204000) []]) 1
      { compressed := false } { start [] with r := .bin ⟨Spec.natBits 4 1 ++ Spec.natBits 4 2 ++ t, 0⟩ }).1 =
        .panic "slice bounds out of range" := by
  refine ⟨by decide +kernel, by decide +kernel, by decide +kernel, ?_⟩
  obtain ⟨w, h, rfl⟩ := C94_stuck cfg_ok rfl rfl (ns := [.element e4 false, .element e4 false, .assocField (op 204000) []])
    (by decide +kernel) (plain 0) [] (by simp) _ .noField (.after codes (.unopened (by decide) rfl)) t 0 0 { compressed := false }
    { start [] with r := .bin ⟨Spec.natBits 4 1 ++ Spec.natBits 4 2 ++ t, 0⟩ } (by simp)
  exact h

open EncodeExample PayloadExample in
/-- Compressed data: the hypotheses of `C94_bitmaps_compressed` are met. -/
example : simpleL true (gradedTwo 101002) = true ∧ tame true (gradedTwo 101002) = true ∧ guardedL true (gradedTwo 101002) = true ∧
    (Vis.decodeSubsets cfgC (.base (plain 0) (gradedTwo 101002)) 1 { compressed := true } { start [] with
      r := .bin ⟨Spec.natBits 4 9 ++ Spec.natBits 6 0 ++ Spec.natBits 4 9 ++ Spec.natBits 6 0 ++ Spec.natBits 1 1 ++ Spec.natBits 6 0 ++
        Spec.natBits 1 1 ++ Spec.natBits 6 0 ++ Spec.natBits 7 100 ++ Spec.natBits 6 0, 0⟩ }).1 = .panic "index out of range" := by
  decide +kernel

open EncodeExample PayloadExample in
/-- The hypotheses of `C94_stuck_compressed` are met. -/
example : Stuck (F := ToyFloat) (Lenient 2) false .noElement {} [.element e4 false, .assessment (plain 222000)
      (.bitmap (some (plain 236000)) [.fixedRepl (plain 101001) [.element (elem 31031 .flag 1) false]]) [] [quality]]
    (Spec.natBits 4 9 ++ Spec.natBits 6 0 ++ (Spec.natBits 1 1 ++ Spec.natBits 6 0 ++ (Spec.natBits 7 100 ++ Spec.natBits 6 0))) :=
  overrunC.mono fun _ _ _ h => h.lenient

end Gobufr
