import Verif.Props.Parser

/-!
# Properties of the lint and dump visitors of the parsed template (C77, C78)
-/

set_option linter.unusedSimpArgs false

namespace Gobufr
open TemplateSpec ParserSpec

/-! ## C77 -/

/-- C77. An element node is accepted iff its descriptor has F=0, rejected otherwise. -/
theorem C77_element (d : Desc) (np : Bool) :
    (lint (.element d np) = .ok () ↔ d.id.F = 0) ∧ (d.id.F ≠ 0 → (lint (.element d np)).isErr = true) := by
  by_cases h : d.id.F = 0
  · simp [lint, h]
  · simp [lint, h, Outcome.isErr]

/-- C77. An associated field node is accepted iff it cancels or is followed by exactly 031021. -/
theorem C77_assoc (d : Desc) (ms : List Ast) :
    lint (.assocField d ms) = .ok () ↔
      d.id.Y = 0 ∨ ∃ m md, ms = [m] ∧ m.descriptor = some md ∧ md.id = 31021 := by
  by_cases h : d.id.Y = 0
  · simp [lint, h]
  · simp only [lint, h, if_false, false_or]
    match ms with
    | [] => simp
    | [m] =>
      cases hm : m.descriptor with
      | none => simp [hm]
      | some md =>
        by_cases h1 : md.id = 31021
        · simp [hm, h1]
        · simp [hm, h1]
    | _ :: _ :: _ => simp

theorem lintElements_ok (ms : List Ast) : lintElements ms = .ok () ↔
    ∀ m ∈ ms, ∃ md, m.descriptor = some md ∧ md.id.F = 0 := by
  induction ms with
  | nil => simp [lintElements]
  | cons m ms ih =>
    simp only [lintElements]
    cases hm : m.descriptor with
    | none => simp [hm]
    | some md =>
      by_cases h1 : md.id.F = 0
      · simp [hm, h1, ih]
      · simp [hm, h1]

/-- C77. A new reference value node is accepted iff it ends the definitions or all its members
are elements. -/
theorem C77_refval (d : Desc) (ms : List Ast) :
    lint (.newRefval d ms) = .ok () ↔
      d.id.Y = 255 ∨ ∀ m ∈ ms, ∃ md, m.descriptor = some md ∧ md.id.F = 0 := by
  by_cases h : d.id.Y = 255
  · simp [lint, h]
  · simp [lint, h, lintElements_ok]

/-- C77, the clause on replications: accepted iff there are as many members as the descriptor
replicates. -/
def C77_repl_statement : Prop :=
  ∀ (d : Desc) (ms : List Ast), d.id.F = 1 → d.id.Y ≠ 0 →
    (lint (.fixedRepl d ms) = .ok () ↔ d.id.X = ms.length)

/-- C77 is violated: 101002 with its one member, as the parser builds it, is rejected. -/
theorem C77_repl_violates : ¬ C77_repl_statement := by
  intro h
  have := (h ⟨101002, .r []⟩ [.element ⟨1001, .b default⟩ false] (by decide) (by decide)).2 (by decide)
  exact absurd this (by decide +kernel)

/-- C77. What it does check: the number of members is the number of repetitions YYY. -/
theorem C77_repl_partial (d : Desc) (ms : List Ast) :
    lint (.fixedRepl d ms) = .ok () ↔ d.id.Y = ms.length := by
  by_cases h : d.id.Y = ms.length
  · simp [lint, h]
  · simp [lint, h]

/-- C77. All other nodes crash it. -/
theorem C77_unimplemented (n : Ast) (h1 : ∀ d np, n ≠ .element d np) (h2 : ∀ d ms, n ≠ .fixedRepl d ms)
    (h3 : ∀ d ms, n ≠ .newRefval d ms) (h4 : ∀ d ms, n ≠ .assocField d ms) : (lint n).isPanic = true := by
  cases n <;> first | rfl | (exact absurd rfl (h1 _ _)) | (exact absurd rfl (h2 _ _)) |
    (exact absurd rfl (h3 _ _)) | (exact absurd rfl (h4 _ _))

/-- Non-vacuity: accepted and rejected nodes of each kind. -/
example : lint (.element ⟨1001, .b default⟩ false) = .ok () ∧
    (lint (.element ⟨301001, .b default⟩ false)).isErr = true ∧
    lint (.assocField ⟨204008, .c []⟩ [.e031021 ⟨31021, .b default⟩]) = .ok () ∧
    (lint (.assocField ⟨204008, .c []⟩ [.element ⟨1001, .b default⟩ false])).isErr = true ∧
    lint (.newRefval ⟨203010, .c []⟩ [.element ⟨12001, .b default⟩ false]) = .ok () ∧
    (lint (.newRefval ⟨203010, .c []⟩ [.sequence ⟨301001, .b default⟩ []])).isErr = true := by decide +kernel

/-! ## C78 -/

/-- No delayed replication without a factor; C78_parse_trees: the parser makes none. -/
def FactorsPresent (ns : List Ast) : Prop := ∀ d, Ast.delayedRepl d [] ∉ nodesL ns

theorem FactorsPresent.of_cons {n : Ast} {ns : List Ast} (h : FactorsPresent (n :: ns)) :
    FactorsPresent [n] ∧ FactorsPresent ns := by
  constructor <;> intro d hd <;> refine h d ?_
  · rw [nodesL_cons] at hd ⊢
    simp only [nodesL, List.append_nil] at hd
    exact List.mem_append_left _ hd
  · exact List.mem_append_right _ hd

theorem factors_below {n : Ast} {ms : List Ast} (h : FactorsPresent [n])
    (hs : ∀ x ∈ nodesL ms, x ∈ nodes n) : FactorsPresent ms := by
  intro d hd
  refine h d ?_
  simp only [nodesL, List.append_nil]
  exact hs _ hd

namespace AstDump

/-- The visitor between two calls: `k` levels deep. -/
def at_ (out : GoString) (k : Nat) : AstDump := ⟨out, List.replicate (4 * k) 32⟩

theorem printf_at (out : GoString) (k : Nat) (text : GoString) :
    printf (text ++ str "\n") (at_ out k) = (.ok (), at_ (out ++ line k text) k) := by
  simp [printf, at_, line, List.append_assoc]

theorem head_at (out : GoString) (k : Nat) (n : Ast) :
    head n (at_ out k) = (.ok (), at_ (out ++ line k (nodeText n)) k) := by
  have h := printf_at out k (nodeText n)
  unfold head
  rw [show descText n.descriptor ++ str " (" ++ n.typeName ++ str ")\n"
      = nodeText n ++ str "\n" by
    have h : str ")\n" = str ")" ++ str "\n" := rfl
    have h1 : n.typeName = str "*ast." ++ str (kind n) := by cases n <;> simp only [Ast.typeName, kind] <;> decide +kernel
    have h2 : str " (*ast." = str " (" ++ str "*ast." := by decide +kernel
    rw [h, h1]; simp [nodeText, h2, List.append_assoc]]
  exact h

theorem indent_at (out : GoString) (k : Nat) : indent (at_ out k) = (.ok (), at_ out (k + 1)) := by
  have h : str "    " = List.replicate 4 (32 : UInt8) := rfl
  simp only [indent, at_, M.modify_apply, h, List.replicate_append_replicate]
  rfl

theorem dedent_at (out : GoString) (k : Nat) : dedent (at_ out (k + 1)) = (.ok (), at_ out k) := by
  simp [dedent, at_, Nat.mul_add]

theorem members_at {loop : M AstDump Unit} {out out' : GoString} {k : Nat}
    (h : loop (at_ out (k + 1)) = (.ok (), at_ out' (k + 1))) :
    visitMembers loop (at_ out k) = (.ok (), at_ out' k) := by
  unfold visitMembers
  rw [M.bind_ok (indent_at out k)]
  exact M.deferDo_ok h (dedent_at out' k)

theorem plain_at (n : Ast) {loop : M AstDump Unit} {k : Nat} {ls : List GoString}
    (h : ∀ out, loop (at_ out (k + 1)) = (.ok (), at_ (out ++ ls.flatten) (k + 1))) (out : GoString) :
    (do head n; visitMembers loop) (at_ out k)
      = (.ok (), at_ (out ++ (line k (nodeText n) :: ls).flatten) k) := by
  rw [M.bind_ok (head_at out k n)]
  rw [members_at (h _)]
  simp [List.append_assoc]

theorem leaf_at (n : Ast) (k : Nat) (out : GoString) :
    (do head n; visitMembers (pure ())) (at_ out k)
      = (.ok (), at_ (out ++ [line k (nodeText n)].flatten) k) :=
  plain_at n (ls := []) (fun out => by simp) out

mutual
theorem visit_at : ∀ (n : Ast) (k : Nat), FactorsPresent [n] → ∀ out,
    visit n (at_ out k) = (.ok (), at_ (out ++ (lines k n).flatten) k)
  | .delayedRepl d [], k, h => by
    exact absurd (by simp [nodesL, nodes]) (h d)
  | .delayedRepl d (m :: ms), k, h => by
    intro out
    have hb : FactorsPresent (m :: ms) := factors_below h (by simp [nodes]; exact fun x hx => .inr hx)
    have ih := visitL_at ms (k + 1) hb.of_cons.2
    simp only [visit, lines]
    rw [M.bind_ok (head_at out k _), M.bind_ok (printf_at _ k _), members_at (ih _)]
    simp [List.append_assoc]
  | .assessment d bm as ms, k, h => by
    intro out
    have h1 : FactorsPresent [bm] := factors_below h (by
      intro x hx; simp [nodesL] at hx; simp [nodes, hx])
    have h2 : FactorsPresent as := factors_below h (by intro x hx; simp [nodes, hx])
    have h3 : FactorsPresent ms := factors_below h (by intro x hx; simp [nodes, hx])
    have i1 := visit_at bm (k + 1) h1
    have i2 := visitL_at as (k + 1) h2
    have i3 := visitL_at ms (k + 1) h3
    simp only [visit, lines]
    rw [M.bind_ok (head_at out k _), M.bind_ok (indent_at _ k), M.bind_ok (i1 _),
      M.bind_ok (dedent_at _ k), M.bind_ok (members_at (i2 _)), members_at (i3 _)]
    simp [List.append_assoc]
  | .base d ms, k, h => plain_at _ (visitL_at ms (k + 1) (factors_below h fun x hx => by simp [nodes, hx]))
  | .sequence d ms, k, h => plain_at _ (visitL_at ms (k + 1) (factors_below h fun x hx => by simp [nodes, hx]))
  | .fixedRepl d ms, k, h => plain_at _ (visitL_at ms (k + 1) (factors_below h fun x hx => by simp [nodes, hx]))
  | .newRefval d ms, k, h => plain_at _ (visitL_at ms (k + 1) (factors_below h fun x hx => by simp [nodes, hx]))
  | .assocField d ms, k, h => plain_at _ (visitL_at ms (k + 1) (factors_below h fun x hx => by simp [nodes, hx]))
  | .skipLocal d ms, k, h => plain_at _ (visitL_at ms (k + 1) (factors_below h fun x hx => by simp [nodes, hx]))
  | .dataNotPresent d ms, k, h => plain_at _ (visitL_at ms (k + 1) (factors_below h fun x hx => by simp [nodes, hx]))
  | .bitmap d ms, k, h => plain_at _ (visitL_at ms (k + 1) (factors_below h fun x hx => by simp [nodes, hx]))
  | .element .., k, _ => leaf_at _ k
  | .e031021 .., k, _ => leaf_at _ k
  | .nbitsOffset .., k, _ => leaf_at _ k
  | .scaleOffset .., k, _ => leaf_at _ k
  | .insertString .., k, _ => leaf_at _ k
  | .modifyPacking .., k, _ => leaf_at _ k
  | .setStringLength .., k, _ => leaf_at _ k
  | .marker .., k, _ => leaf_at _ k
  | .cancelBackRef .., k, _ => leaf_at _ k
  | .cancelBitmap .., k, _ => leaf_at _ k
theorem visitL_at : ∀ (ns : List Ast) (k : Nat), FactorsPresent ns → ∀ out,
    visitL ns (at_ out k) = (.ok (), at_ (out ++ (linesL k ns).flatten) k)
  | [], k, _ => by intro out; simp [visitL, linesL]
  | n :: ns, k, h => by
    intro out
    have i1 := visit_at n k h.of_cons.1
    have i2 := visitL_at ns k h.of_cons.2
    simp only [visitL, linesL]
    rw [M.bind_ok (i1 _), i2]
    simp [List.append_assoc]
end

end AstDump

/-- C78. Trees in which no delayed replication lacks its factor are dumped line by line, each
indented by its depth, and the visitor ends with the indentation it started with. -/
theorem C78_dump (n : Ast) (h : FactorsPresent [n]) (k : Nat) (out : GoString) :
    AstDump.visit n ⟨out, List.replicate (4 * k) 32⟩
      = (.ok (), ⟨out ++ (lines k n).flatten, List.replicate (4 * k) 32⟩) :=
  AstDump.visit_at n k h out

/-- C78. The parser makes only such trees. -/
theorem C78_parse_trees (lk : Lookup) (hg : GoodLookup lk) (ids : List ID) (ns : List Ast)
    (h : Parses lk ids ns) : FactorsPresent [.base rootDescriptor ns] := by
  intro d hd
  simp only [nodesL, nodes, List.append_nil, List.mem_cons, reduceCtorEq, false_or] at hd
  obtain ⟨_, hF, _, body, j, f, f', h1, _, h2⟩ :=
    derived_delayed hg.id (derives_nodes ((parses_iff hg).1 h) _ hd)
  have hX := (Y_nonneg (show 0 < d.id.F by omega)).2
  have : body ++ List.replicate j 0 ≠ [] := by
    intro h0
    have h3 : (body ++ List.replicate j (0 : ID)).length = 0 := by rw [h0]; rfl
    rw [List.length_append, List.length_replicate] at h3
    rw [h3] at h1
    have h4 : (0 : Int) ≤ d.id.X := hX
    exact absurd h1 (by simp; omega)
  cases hb : body ++ List.replicate j 0 with
  | nil => exact this hb
  | cons x xs =>
    rw [hb] at h2
    generalize hns : ([] : List Ast) = ms at h2
    generalize hl : x :: xs = l at h2
    cases h2 with
    | nil => cases hl
    | _ => cases hns

/-- C78, the count: one line per node. -/
def C78_count_statement : Prop :=
  ∀ (lk : Lookup) (ids : List ID) (ns : List Ast), GoodLookup lk → Parses lk ids ns →
    (lines 0 (.base rootDescriptor ns)).length = (nodes (.base rootDescriptor ns)).length

/-- C78 is violated by factors that have nodes below them: of 101000 301001 the members of the
sequence are not printed. -/
theorem C78_count_violates : ¬ C78_count_statement := by
  intro h
  have := h ParserExample.lk [101000, 301001, 1001]
    [.delayedRepl ⟨101000, .r (pad06 101000)⟩
      [.sequence ⟨301001, .d ⟨str "S", [1001, 12001]⟩⟩
        [.element ⟨1001, .b default⟩ false, .element ⟨12001, .b default⟩ false],
       .element ⟨1001, .b default⟩ false]] ParserExample.good ⟨9, by rfl⟩
  exact absurd this (by decide +kernel)

/-- The factors of delayed replications are single nodes. -/
def FactorsSingle (ns : List Ast) : Prop :=
  ∀ d m ms, Ast.delayedRepl d (m :: ms) ∈ nodesL ns → nodes m = [m]

theorem FactorsSingle.of_cons {n : Ast} {ns : List Ast} (h : FactorsSingle (n :: ns)) :
    FactorsSingle [n] ∧ FactorsSingle ns := by
  constructor <;> intro d m ms hd <;> refine h d m ms ?_
  · rw [nodesL_cons] at hd ⊢
    simp only [nodesL, List.append_nil] at hd
    exact List.mem_append_left _ hd
  · exact List.mem_append_right _ hd

theorem single_below {n : Ast} {ms : List Ast} (h : FactorsSingle [n])
    (hs : ∀ x ∈ nodesL ms, x ∈ nodes n) : FactorsSingle ms := by
  intro d m ms hd
  refine h d m ms ?_
  simp only [nodesL, List.append_nil]
  exact hs _ hd

mutual
theorem lines_length : ∀ (n : Ast) (k : Nat), FactorsSingle [n] → (lines k n).length = (nodes n).length
  | .delayedRepl d [], k, h => rfl
  | .delayedRepl d (m :: ms), k, h => by
    have hb : FactorsSingle (m :: ms) := single_below h (by simp [nodes]; exact fun x hx => .inr hx)
    have ih := linesL_length ms (k + 1) hb.of_cons.2
    have hm := h d m ms (by simp [nodesL, nodes])
    simp [lines, nodes, nodesL, ih, hm]
  | .assessment d bm as ms, k, h => by
    have h1 : FactorsSingle [bm] := single_below h (by
      intro x hx; simp [nodesL] at hx; simp [nodes, hx])
    have h2 : FactorsSingle as := single_below h (by intro x hx; simp [nodes, hx])
    have h3 : FactorsSingle ms := single_below h (by intro x hx; simp [nodes, hx])
    have i1 := lines_length bm (k + 1) h1
    have i2 := linesL_length as (k + 1) h2
    have i3 := linesL_length ms (k + 1) h3
    simp [lines, nodes, i1, i2, i3]
  | .base d ms, k, h => by
    simp [lines, nodes, linesL_length ms (k + 1) (single_below h fun x hx => by simp [nodes, hx])]
  | .sequence d ms, k, h => by
    simp [lines, nodes, linesL_length ms (k + 1) (single_below h fun x hx => by simp [nodes, hx])]
  | .fixedRepl d ms, k, h => by
    simp [lines, nodes, linesL_length ms (k + 1) (single_below h fun x hx => by simp [nodes, hx])]
  | .newRefval d ms, k, h => by
    simp [lines, nodes, linesL_length ms (k + 1) (single_below h fun x hx => by simp [nodes, hx])]
  | .assocField d ms, k, h => by
    simp [lines, nodes, linesL_length ms (k + 1) (single_below h fun x hx => by simp [nodes, hx])]
  | .skipLocal d ms, k, h => by
    simp [lines, nodes, linesL_length ms (k + 1) (single_below h fun x hx => by simp [nodes, hx])]
  | .dataNotPresent d ms, k, h => by
    simp [lines, nodes, linesL_length ms (k + 1) (single_below h fun x hx => by simp [nodes, hx])]
  | .bitmap d ms, k, h => by
    simp [lines, nodes, linesL_length ms (k + 1) (single_below h fun x hx => by simp [nodes, hx])]
  | .element .., k, _ => rfl
  | .e031021 .., k, _ => rfl
  | .nbitsOffset .., k, _ => rfl
  | .scaleOffset .., k, _ => rfl
  | .insertString .., k, _ => rfl
  | .modifyPacking .., k, _ => rfl
  | .setStringLength .., k, _ => rfl
  | .marker .., k, _ => rfl
  | .cancelBackRef .., k, _ => rfl
  | .cancelBitmap .., k, _ => rfl
theorem linesL_length : ∀ (ns : List Ast) (k : Nat), FactorsSingle ns →
    (linesL k ns).length = (nodesL ns).length
  | [], k, _ => rfl
  | n :: ns, k, h => by
    simp [linesL, nodesL, lines_length n k h.of_cons.1, linesL_length ns k h.of_cons.2]
end

/-- C78. When the factors are single nodes there is one line per node. -/
theorem C78_count_partial (n : Ast) (h : FactorsSingle [n]) (k : Nat) :
    (lines k n).length = (nodes n).length := lines_length n k h

/-- Non-vacuity: the dump of 101000 031001 012001. -/
example : (AstDump.visit (.base rootDescriptor [.delayedRepl ⟨101000, .r (str "101000")⟩
      [.element ⟨31001, .b default⟩ false, .element ⟨12001, .b default⟩ false]]) ⟨[], []⟩).2.pre = [] ∧
    (lines 0 (.base rootDescriptor [.delayedRepl ⟨101000, .r (str "101000")⟩
      [.element ⟨31001, .b default⟩ false, .element ⟨12001, .b default⟩ false]])).length = 4 := by
  decide +kernel

end Gobufr
