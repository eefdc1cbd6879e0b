import Verif.Proofs.Overrun
import Verif.Proofs.Only
import Verif.Props.Encode

/-!
# C106: an assessment has one value for each element its bitmap selects

The number of values is given by the template and by replication factors in the data, the number of elements selected
by the bits of the bitmap in the data.  If they differ, the data are broken.
-/

namespace Gobufr
open Flat EncodeSpec

variable {F : Type} {c : VisCfg}

/-- **C106**, the property: data with more or with fewer values than elements selected are an error. -/
def C106_statement : Prop :=
  ∀ (F : Type) [GoFloat F] [LawfulGoFloat F] (c : VisCfg) (pre post as ms : List Ast) (bm : Ast) (d d' : Desc) (bits bits' t : Bits)
    (is : List (Datum F)) (x : Ctx) (chosen given : Nat) (p : Int) (s : Vis F),
    CfgOk c → c.inputType = .binary → c.compressed = false → noBaseL (pre ++ .assessment d' bm as ms :: post) = true →
    Coded Single c.compatible {} pre bits is x → Assessing (F := F) Single c.compatible x d' bm as ms bits' chosen given →
    given ≠ chosen → s.r = .bin ⟨bits ++ bits' ++ t, p⟩ →
    ∃ e, (Vis.decodeSubsets c (.base d (pre ++ .assessment d' bm as ms :: post)) 1 { compressed := false } s).1 = .err e

/-- Subsets that can be decoded, and one that cannot be. -/
theorem subsets_stop [GoFloat F] [LawfulGoFloat F] (hc : CfgOk c) (hb : c.inputType = .binary) (hu : c.compressed = false)
    {ns : List Ast} (hns : noBaseL ns = true) (d : Desc) (data : List (List Bool × List (Datum F)))
    (h : ∀ x ∈ data, ∃ y, Coded Single c.compatible {} ns x.1 x.2 y) (bits : Bits)
    {why : Why}
    (ho : Stuck (F := F) Single c.compatible why {} ns bits) (t : Bits) (p : Int) (m : Nat) (p0 : Payload F) (s : Vis F)
    (hr : s.r = .bin ⟨data.flatMap Prod.fst ++ bits ++ t, p⟩) :
    ∃ w, (Vis.decodeSubsets c (.base d ns) (data.length + 1 + m) p0 s).1 = .panic w ∧ why.panics w := by
  have hcomp : ¬ (c.compressed = true ∧ c.inputType = .binary) := by simp [hu]
  have hunp : c.unpacker = .uncompress := by
    obtain ⟨fuel, hf⟩ := hc
    rw [hu, hb] at hf
    simp only [newDeserializeVisitor, newUnpacker, Bool.false_eq_true, if_false, Outcome.bind_ok] at hf
    injection hf with hf
    rw [← hf]
  induction data generalizing p0 s p with
  | nil =>
    obtain ⟨w, e, hw⟩ := root_stops hc (reads_single hunp) (by rw [if_neg hcomp]) (by simp) hns ho d (s := s) (t := t)
      (by rw [hr]; exact atBits_start _ p)
    rw [show ([] : List (List Bool × List (Datum F))).length + 1 + m = m + 1 by simp; omega]
    simp only [Vis.decodeSubsets]
    rw [M.bind_panic (eq_of_fst e)]
    exact ⟨w, rfl, hw⟩
  | cons x data ih =>
    obtain ⟨y, hx⟩ := h x (by simp)
    obtain ⟨s1, ρ, f, e1, r1, st1, rep, hcols, hsub⟩ := root_coded hc (reads_single hunp) (by rw [if_neg hcomp]) (by simp)
      hns hx d (s := s) (t := data.flatMap Prod.fst ++ bits ++ t) (by
        rw [hr]
        simp only [List.flatMap_cons, List.append_assoc]
        exact atBits_start _ p)
    rw [show (x :: data).length + 1 + m = (data.length + 1 + m) + 1 by simp; omega]
    have r1 : s1.r = .bin ⟨data.flatMap Prod.fst ++ bits ++ t, p + x.1.length⟩ :=
      r1.trans (by simp only [List.length_append]; congr; omega)
    have e2 : Vis.produce p0 s1 = (.ok (Vis.addSubsets s1.heap s1.node s1.cells p0), s1) := by
      have e3 : Vis.treeRoot s1 = (.ok s1.node, s1) := by
        unfold Vis.treeRoot
        rw [st1]
        rfl
      unfold Vis.produce
      exact M.bind_ok e3
    simp only [Vis.decodeSubsets]
    rw [M.bind_ok e1, M.bind_ok e2]
    exact ih (fun z hz => h z (List.mem_cons_of_mem _ hz)) _ _ _ r1

/-- **C106**, too many values: decoding does not go on; but it panics, with whatever went before (correct subsets and
correct values) and whatever comes after. -/
theorem C106_partial [GoFloat F] [LawfulGoFloat F] (hc : CfgOk c) (hb : c.inputType = .binary) (hu : c.compressed = false)
    {ns : List Ast} (hns : noBaseL ns = true) (d : Desc) (data : List (List Bool × List (Datum F)))
    (h : ∀ x ∈ data, ∃ y, Coded Single c.compatible {} ns x.1 x.2 y) (bits : Bits)
    (ho : Overrun (F := F) Single c.compatible {} ns bits) (t : Bits) (p : Int) (m : Nat) (p0 : Payload F) (s : Vis F)
    (hr : s.r = .bin ⟨data.flatMap Prod.fst ++ bits ++ t, p⟩) :
    (Vis.decodeSubsets c (.base d ns) (data.length + 1 + m) p0 s).1 = .panic "index out of range" := by
  obtain ⟨w, h1, rfl⟩ := subsets_stop hc hb hu hns d data h bits ho t p m p0 s hr
  exact h1

/-- The same for compressed data. -/
theorem C106_compressed_partial [GoFloat F] [LawfulGoFloat F] (hc : CfgOk c) (hb : c.inputType = .binary) (hu : c.compressed = true)
    {k : Nat} (hk : c.nsubsets = k) (h0 : 0 < k) {ns : List Ast} (hns : noBaseL ns = true) (d : Desc) (bits : Bits)
    (ho : Overrun (F := F) (Shared k) c.compatible {} ns bits) (t : Bits) (p : Int) (p0 : Payload F) (s : Vis F)
    (hr : s.r = .bin ⟨bits ++ t, p⟩) :
    (Vis.decodeSubsets c (.base d ns) 1 p0 s).1 = .panic "index out of range" := by
  obtain ⟨fuel, hunp⟩ := unpacker_compressed hc hb hu hk
  obtain ⟨w, e, rfl⟩ := root_stops (why := .noElement) hc (reads_shared hunp) (by rw [if_pos ⟨hu, hb⟩, hk]; simp) (by simp; omega) hns ho d (s := s) (t := t)
    (by rw [hr]; exact atBits_start _ p)
  simp only [Vis.decodeSubsets]
  rw [M.bind_panic (eq_of_fst e)]

/-- **C106**, too few values: accepted without a word, the elements selected last get no value. -/
theorem C106_fewer [GoFloat F] [LawfulGoFloat F] (hc : CfgOk c) (hb : c.inputType = .binary) (hu : c.compressed = false)
    {pre as ms : List Ast} {bm : Ast} {d' : Desc} (hns : noBaseL (pre ++ [.assessment d' bm as ms]) = true) (d : Desc)
    {bits bits' : Bits} {is : List (Datum F)} {x : Ctx} {chosen given : Nat} (h : Coded Single c.compatible {} pre bits is x)
    (ha : Assessing (F := F) Single c.compatible x d' bm as ms bits' chosen given) (hl : given ≤ chosen) (t : Bits) (p : Int)
    (s : Vis F) (hr : s.r = .bin ⟨bits ++ bits' ++ t, p⟩) :
    ∃ p' s', Vis.decodeSubsets c (.base d (pre ++ [.assessment d' bm as ms])) 1 { compressed := false } s = (.ok p', s') ∧
      s'.r = .bin ⟨t, p + (bits ++ bits').length⟩ ∧ p'.subsets.length = 1 := by
  obtain ⟨x1, x2, x3, zb, b1, b2, b3, zs, i1, i2, i3, n, map, h0, hz, h1, h2, hcu, hba, hne, hn, h3, rfl, rfl, rfl⟩ := ha
  have h4 := Coded.assessment h0 hz h1 h2 hcu hba hne hn h3 hl .nil
  have h5 := h.append h4
  obtain ⟨p', s', q1, q2, q3⟩ := C88_uncompressed hc hb hu hns d false [(_, _)] (by simpa using ⟨_, h5⟩) t p s (by simpa using hr)
  refine ⟨p', s', q1, by simpa using q2, ?_⟩
  have := congrArg List.length q3
  simpa using this

/-! ## Examples -/

namespace EncodeExample
open PayloadExample UnpackSpec

/-- Quality information with a bitmap of two bits, for two values of which there is quality `ms`. -/
def graded (ms : List Ast) : Ast :=
  .assessment (plain 222000) (.bitmap (some (plain 236000)) [.fixedRepl (plain 101002) [.element (elem 31031 .flag 1) false]]) [] ms

/-- The quality of a value. -/
def quality : Ast := .element (elem 33007 .nonnegCode 7) false

/-- Two codes, 1 and 2. -/
theorem codes : Coded (F := ToyFloat) Single false {} [.element e4 false, .element e4 false]
    (Spec.natBits 4 1 ++ Spec.natBits 4 2) [⟨⟨some e4, false⟩, ⟨.nonnegCode, 0, ⟨0⟩, 4⟩, [.uint 1]⟩,
      ⟨⟨some e4, false⟩, ⟨.nonnegCode, 0, ⟨0⟩, 4⟩, [.uint 2]⟩] { ({} : Ctx) with seen := [⟨some e4, false⟩, ⟨some e4, false⟩] } := by
  have h : ∃ bits is y, Coded (F := ToyFloat) Single false {} [.element e4 false, .element e4 false] bits is y ∧
      bits = Spec.natBits 4 1 ++ Spec.natBits 4 2 ∧ is = [⟨⟨some e4, false⟩, ⟨.nonnegCode, 0, ⟨0⟩, 4⟩, [.uint 1]⟩,
      ⟨⟨some e4, false⟩, ⟨.nonnegCode, 0, ⟨0⟩, 4⟩, [.uint 2]⟩] ∧ y = { ({} : Ctx) with seen := [⟨some e4, false⟩, ⟨some e4, false⟩] } := by
    refine ⟨_, _, _, .element rfl .nil (.number (n := 4) (raw := 1) (.inr (.inl rfl)) rfl (by decide) (by decide))
      (.element rfl .nil (.number (n := 4) (raw := 2) (.inr (.inl rfl)) rfl (by decide) (by decide)) .nil), ?_, ?_, ?_⟩ <;> decide
  obtain ⟨_, _, _, h, rfl, rfl, rfl⟩ := h
  exact h

/-- One quality value, and a bitmap that selects two values, one or none. -/
theorem grades (a b : Nat) (ha : a < 2) (hb : b < 2) : Assessing (F := ToyFloat) Single false
    { ({} : Ctx) with seen := [⟨some e4, false⟩, ⟨some e4, false⟩] } (plain 222000)
    (.bitmap (some (plain 236000)) [.fixedRepl (plain 101002) [.element (elem 31031 .flag 1) false]]) [] [quality]
    ([a == 1] ++ [b == 1] ++ Spec.natBits 7 100) (selected [a, b] 2).length 1 := by
  have k : ∀ n : Nat, n < 2 → Single (F := ToyFloat) ⟨.flag, 0, ⟨0⟩, 1⟩ [n == 1] [.uint n] := by
    intro n hn
    have : n = 0 ∨ n = 1 := by omega
    rcases this with rfl | rfl
    · exact .number (n := 1) (raw := 0) (.inr (.inr rfl)) rfl (by decide) (by decide)
    · exact .number (n := 1) (raw := 1) (.inr (.inr rfl)) rfl (by decide) (by decide)
  have h1 : ∃ bits is y, Coded (F := ToyFloat) Single false
      ({ ({} : Ctx) with seen := [⟨some e4, false⟩, ⟨some e4, false⟩], back := some 2 }.add ([] : List (Datum ToyFloat)))
      [.bitmap (some (plain 236000)) [.fixedRepl (plain 101002) [.element (elem 31031 .flag 1) false]]] bits is y ∧
      bits = [a == 1] ++ [b == 1] ∧ y.current = some [a, b] ∧ y.back = some 2 ∧ y.ops = {} ∧ y.assoc = [] := by
    refine ⟨_, _, _, .bitmap (bits := [a, b]) (by decide) (by decide) (.off rfl)
      (.fixed (.element rfl .nil (k a ha) (.element rfl .nil (k b hb) .nil))) rfl .nil, rfl, rfl, rfl, rfl, rfl⟩
  obtain ⟨_, i1, y, h1, rfl, h2, h3, h4, h4'⟩ := h1
  have h5 : ∃ bits is z, Coded (F := ToyFloat) Single false { y with targets := selected [a, b] 2 } [quality] bits is z ∧
      bits = Spec.natBits 7 100 ∧ is.length = 1 := by
    obtain ⟨_, _, _, _, _, _, _⟩ := y
    subst h4 h4'
    exact ⟨_, _, _, .element rfl .nil (.number (n := 7) (raw := 100) (.inr (.inl rfl)) rfl (by decide) (by decide)) .nil, rfl, rfl⟩
  obtain ⟨_, i3, z, h5, rfl, h6⟩ := h5
  exact ⟨_, y, z, [], _, [], _, [], i1, [], i3, 2, [a, b], by decide, .off rfl, h1, .nil, h2, h3, by simp, by simp, h5, by simp,
    rfl, h6.symm⟩

/-- The decoder before the codes and the quality. -/
def before (a b : Nat) : Vis ToyFloat :=
  { start [] with r := .bin ⟨Spec.natBits 4 1 ++ Spec.natBits 4 2 ++ ([a == 1] ++ [b == 1] ++ Spec.natBits 7 100) ++ [true], 0⟩ }

end EncodeExample

open EncodeExample PayloadExample in
/-- The hypotheses of `C106_partial` are met: both bits are set, so no value is selected, and there is a quality value.
This is what the decoder does. -/
example : Overrun (F := ToyFloat) Single false {} [.element e4 false, .element e4 false, graded [quality]]
      (Spec.natBits 4 1 ++ Spec.natBits 4 2 ++ ([true] ++ [true] ++ Spec.natBits 7 100)) ∧
    (Vis.decodeSubsets cfg (.base (plain 0) [.element e4 false, .element e4 false, graded [quality]]) 1 { compressed := false }
      (before 1 1)).1 = .panic "index out of range" := by
  have h : Overrun (F := ToyFloat) Single false {} [.element e4 false, .element e4 false, graded [quality]]
      (Spec.natBits 4 1 ++ Spec.natBits 4 2 ++ ([true] ++ [true] ++ Spec.natBits 7 100)) :=
    .after codes (.values (grades 1 1 (by decide) (by decide)) (by decide))
  exact ⟨h, C106_partial cfg_ok rfl rfl (by decide) (plain 0) [] (by simp) _ h [true] 0 0 _ _ rfl⟩

open EncodeExample PayloadExample in
/-- A marker too many: the bitmap selects the second code only. -/
example : (Vis.decodeSubsets cfg (.base (plain 0) [.element e4 false, .element e4 false, graded [.marker (plain 224255), .marker (plain 224255)]])
    1 { compressed := false } (before 1 0)).1 = .panic "index out of range" := by
  decide +kernel

open EncodeExample PayloadExample in
/-- C106 is violated: a bitmap selects both codes, there is quality for one of them, and the data are accepted. -/
theorem C106_violates : ¬ C106_statement := by
  intro h
  obtain ⟨e, he⟩ := h ToyFloat cfg [.element e4 false, .element e4 false] [] [] [quality] _ (plain 0) (plain 222000) _ _ [true] _ _
    _ _ 0 (before 0 0) cfg_ok rfl rfl (by decide) codes (grades 0 0 (by decide) (by decide)) (by decide) rfl
  obtain ⟨p', s', h1, _⟩ := C106_fewer cfg_ok rfl rfl (by decide) (plain 0) codes (grades 0 0 (by decide) (by decide)) (by decide)
    [true] 0 (before 0 0) rfl
  rw [h1] at he
  cases he

open EncodeExample PayloadExample in
/-- C106 is violated the other way: a bitmap selects nothing, there is quality for one value, and the decoder panics. -/
theorem C106_violates_more : ¬ C106_statement := by
  intro h
  obtain ⟨e, he⟩ := h ToyFloat cfg [.element e4 false, .element e4 false] [] [] [quality] _ (plain 0) (plain 222000) _ _ [true] _ _
    _ _ 0 (before 1 1) cfg_ok rfl rfl (by decide) codes (grades 1 1 (by decide) (by decide)) (by decide) rfl
  have h1 := C106_partial cfg_ok rfl rfl (ns := [.element e4 false, .element e4 false, graded [quality]]) (by decide) (plain 0) []
    (by simp) _ (.after codes (.values (grades 1 1 (by decide) (by decide)) (by decide))) [true] 0 0 { compressed := false }
    (before 1 1) rfl
  exact nomatch h1.symm.trans he

namespace EncodeExample
open PayloadExample UnpackSpec

/-- In compressed data of two subsets: a code, a bitmap that does not select it, and its quality. -/
theorem overrunC : Overrun (F := ToyFloat) (Shared 2) false {} [.element e4 false, .assessment (plain 222000)
      (.bitmap (some (plain 236000)) [.fixedRepl (plain 101001) [.element (elem 31031 .flag 1) false]]) [] [quality]]
    (Spec.natBits 4 9 ++ Spec.natBits 6 0 ++ (Spec.natBits 1 1 ++ Spec.natBits 6 0 ++ (Spec.natBits 7 100 ++ Spec.natBits 6 0))) := by
  have h1 : ∃ bits is y, Coded (F := ToyFloat) (Shared 2) false {} [.element e4 false] bits is y ∧
      bits = Spec.natBits 4 9 ++ Spec.natBits 6 0 ∧ y = { ({} : Ctx) with seen := [⟨some e4, false⟩] } := by
    refine ⟨_, _, _, .element rfl .nil (.same (n := 4) (base := 9) (.inr (.inl rfl)) rfl (by decide) (by decide) (by decide)) .nil,
      ?_, ?_⟩ <;> decide
  obtain ⟨_, _, _, h1, rfl, rfl⟩ := h1
  have h2 : ∃ bits is y, Coded (F := ToyFloat) (Shared 2) false
      ({ ({} : Ctx) with seen := [⟨some e4, false⟩], back := some 1 }.add ([] : List (Datum ToyFloat)))
      [.bitmap (some (plain 236000)) [.fixedRepl (plain 101001) [.element (elem 31031 .flag 1) false]]] bits is y ∧
      bits = Spec.natBits 1 1 ++ Spec.natBits 6 0 ∧ y.current = some [1] ∧ y.back = some 1 ∧ y.ops = {} ∧ y.assoc = [] := by
    refine ⟨_, _, _, .bitmap (bits := [1]) (by decide) (by decide) (.off rfl)
      (.fixed (.element rfl .nil (.same (n := 1) (base := 1) (.inr (.inr rfl)) rfl (by decide) (by decide) (by decide)) .nil))
      rfl .nil, ?_, rfl, rfl, rfl, rfl⟩
    decide
  obtain ⟨_, i1, y, h2, rfl, h3, h4, h5, h6⟩ := h2
  have h7 : ∃ bits is z, Coded (F := ToyFloat) (Shared 2) false { y with targets := selected [1] 1 } [quality] bits is z ∧
      bits = Spec.natBits 7 100 ++ Spec.natBits 6 0 ∧ is.length = 1 := by
    obtain ⟨_, _, _, _, _, _, _⟩ := y
    subst h5 h6
    refine ⟨_, _, _, .element rfl .nil (.same (n := 7) (base := 100) (.inr (.inl rfl)) rfl (by decide) (by decide) (by decide))
      .nil, ?_, rfl⟩
    decide
  obtain ⟨_, i3, z, h7, rfl, h8⟩ := h7
  refine .after h1 (.values (chosen := 0) (given := 1) ⟨_, y, z, [], _, [], _, [], i1, [], i3, 1, [1], by decide, .off rfl, h2, .nil, h3, h4,
    by simp, by simp, h7, by simp, rfl, h8.symm⟩ (by decide))

end EncodeExample

open EncodeExample PayloadExample in
/-- The hypotheses of `C106_compressed_partial` are met. -/
example : (Vis.decodeSubsets cfgC (.base (plain 0) [.element e4 false, .assessment (plain 222000)
      (.bitmap (some (plain 236000)) [.fixedRepl (plain 101001) [.element (elem 31031 .flag 1) false]]) [] [quality]]) 1
      { compressed := true } { start [] with r := .bin ⟨Spec.natBits 4 9 ++ Spec.natBits 6 0 ++ (Spec.natBits 1 1 ++
        Spec.natBits 6 0 ++ (Spec.natBits 7 100 ++ Spec.natBits 6 0)) ++ [], 0⟩ }).1 = .panic "index out of range" :=
  C106_compressed_partial cfgC_ok rfl rfl (k := 2) rfl (by decide) (by decide) (plain 0) _ overrunC [] 0 _ _ rfl

end Gobufr
