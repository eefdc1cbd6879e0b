import Verif.Model.Template

/-!
# The tree of a parsed template

Models /repo/deserialize/ast/ast.go, dump.go, lint.go.
-/

namespace Gobufr

/-- /repo/deserialize/ast/ast.go:18-227, the node types.  `d` is the descriptor and `ms` the
members of the embedded `BaseNode`.  Node types which the parser never gives members have none
here.  A node's `Accept` (double dispatch) is the `match` on the constructor in the visitors.
Only a `BitmapNode` can have a nil descriptor. -/
inductive Ast where
  /-- `BaseNode` :18-43 -/
  | base (d : Desc) (ms : List Ast)
  /-- `ElementNode` :45-52 -/
  | element (d : Desc) (notPresent : Bool)
  /-- `E031021Node` :54-62 -/
  | e031021 (d : Desc)
  /-- `SequenceNode` :64-70 -/
  | sequence (d : Desc) (ms : List Ast)
  /-- `FixedReplicationNode` :72-78 -/
  | fixedRepl (d : Desc) (ms : List Ast)
  /-- `DelayedReplicationNode` :80-87 -/
  | delayedRepl (d : Desc) (ms : List Ast)
  /-- `OpNbitsOffsetNode` :89-96 -/
  | nbitsOffset (d : Desc)
  /-- `OpScaleOffsetNode` :98-105 -/
  | scaleOffset (d : Desc)
  /-- `OpNewRefvalNode` :107-115 -/
  | newRefval (d : Desc) (ms : List Ast)
  /-- `OpAssocFieldNode` :117-125 -/
  | assocField (d : Desc) (ms : List Ast)
  /-- `OpInsertStringNode` :127-134 -/
  | insertString (d : Desc)
  /-- `OpSkipLocalNode` :136-144 -/
  | skipLocal (d : Desc) (ms : List Ast)
  /-- `OpModifyPackingNode` :146-153 -/
  | modifyPacking (d : Desc)
  /-- `OpSetStringLengthNode` :155-162 -/
  | setStringLength (d : Desc)
  /-- `OpDataNotPresentNode` :164-171 -/
  | dataNotPresent (d : Desc) (ms : List Ast)
  /-- `OpAssessmentNode` :173-185 -/
  | assessment (d : Desc) (bitmap : Ast) (attrs : List Ast) (ms : List Ast)
  /-- `OpMarkerNode` :187-194 -/
  | marker (d : Desc)
  /-- `OpCancelBackRefNode` :196-202 -/
  | cancelBackRef (d : Desc)
  /-- `BitmapNode` :204-219 -/
  | bitmap (d : Option Desc) (ms : List Ast)
  /-- `OpCancelBitmapNode` :221-227 -/
  | cancelBitmap (d : Desc)
  deriving Repr, Inhabited

namespace Ast

/-- /repo/deserialize/ast/ast.go:29-31 `Descriptor`; `none` is nil. -/
def descriptor : Ast → Option Desc
  | base d _ | element d _ | e031021 d | sequence d _ | fixedRepl d _ | delayedRepl d _
  | nbitsOffset d | scaleOffset d | newRefval d _ | assocField d _ | insertString d
  | skipLocal d _ | modifyPacking d | setStringLength d | dataNotPresent d _
  | assessment d _ _ _ | marker d | cancelBackRef d | cancelBitmap d => some d
  | bitmap d _ => d

/-- /repo/deserialize/ast/ast.go:33-35 `Members` -/
def members : Ast → List Ast
  | base _ ms | sequence _ ms | fixedRepl _ ms | delayedRepl _ ms | newRefval _ ms
  | assocField _ ms | skipLocal _ ms | dataNotPresent _ ms | assessment _ _ _ ms
  | bitmap _ ms => ms
  | _ => []

/-- `%T` of a node -/
def typeName : Ast → GoString
  | base .. => str "*ast.BaseNode"
  | element .. => str "*ast.ElementNode"
  | e031021 .. => str "*ast.E031021Node"
  | sequence .. => str "*ast.SequenceNode"
  | fixedRepl .. => str "*ast.FixedReplicationNode"
  | delayedRepl .. => str "*ast.DelayedReplicationNode"
  | nbitsOffset .. => str "*ast.OpNbitsOffsetNode"
  | scaleOffset .. => str "*ast.OpScaleOffsetNode"
  | newRefval .. => str "*ast.OpNewRefvalNode"
  | assocField .. => str "*ast.OpAssocFieldNode"
  | insertString .. => str "*ast.OpInsertStringNode"
  | skipLocal .. => str "*ast.OpSkipLocalNode"
  | modifyPacking .. => str "*ast.OpModifyPackingNode"
  | setStringLength .. => str "*ast.OpSetStringLengthNode"
  | dataNotPresent .. => str "*ast.OpDataNotPresentNode"
  | assessment .. => str "*ast.OpAssessmentNode"
  | marker .. => str "*ast.OpMarkerNode"
  | cancelBackRef .. => str "*ast.OpCancelBackRefNode"
  | bitmap .. => str "*ast.BitmapNode"
  | cancelBitmap .. => str "*ast.OpCancelBitmapNode"

end Ast

/-! ## dump.go -/

/-- /repo/deserialize/ast/dump.go:8-11 `dumpVisitor`; `out` is what was written to `w`, which is
taken to accept everything. -/
structure AstDump where
  out : GoString
  pre : GoString
  deriving Repr, DecidableEq, Inhabited

namespace AstDump

/-- `%v` of a descriptor that may be nil -/
def descText : Option Desc → GoString
  | some d => d.toStr
  | none => str "<nil>"

/-- /repo/deserialize/ast/dump.go:129-135 `printf` -/
def printf (text : GoString) : M AstDump Unit := M.modify fun s => { s with out := s.out ++ s.pre ++ text }

/-- /repo/deserialize/ast/dump.go:137-139 `indent` -/
def indent : M AstDump Unit := M.modify fun s => { s with pre := s.pre ++ str "    " }

/-- /repo/deserialize/ast/dump.go:141-143 `dedent`; slicing panics when the prefix is short. -/
def dedent : M AstDump Unit := fun s =>
  if s.pre.length < 4 then (.panic "slice bounds out of range", s)
  else (.ok (), { s with pre := s.pre.drop 4 })

/-- `v.printf("%v (%T)\n", node.Descriptor(), node)` -/
def head (n : Ast) : M AstDump Unit :=
  printf (descText n.descriptor ++ str " (" ++ n.typeName ++ str ")\n")

/-- /repo/deserialize/ast/dump.go:117-126 `visitMembers`, given the loop over the members -/
def visitMembers (loop : M AstDump Unit) : M AstDump Unit := do
  indent
  M.deferDo dedent loop

mutual
/-- /repo/deserialize/ast/dump.go:17-115, the `Visit...` methods; all but the ones for delayed
replications (:36-44) and assessments (:90-103) are `VisitNode` (:17-22). -/
def visit : Ast → M AstDump Unit
  | .delayedRepl d ms => do
    head (.delayedRepl d ms)
    match ms with
    | [] => M.crash "index out of range"
    | m :: rest => do
      printf (str "...." ++ descText m.descriptor ++ str "\n")
      visitMembers (visitL rest)
  | .assessment d bm attrs ms => do
    head (.assessment d bm attrs ms)
    indent
    visit bm
    dedent
    visitMembers (visitL attrs)
    visitMembers (visitL ms)
  | .base d ms => do head (.base d ms); visitMembers (visitL ms)
  | .sequence d ms => do head (.sequence d ms); visitMembers (visitL ms)
  | .fixedRepl d ms => do head (.fixedRepl d ms); visitMembers (visitL ms)
  | .newRefval d ms => do head (.newRefval d ms); visitMembers (visitL ms)
  | .assocField d ms => do head (.assocField d ms); visitMembers (visitL ms)
  | .skipLocal d ms => do head (.skipLocal d ms); visitMembers (visitL ms)
  | .dataNotPresent d ms => do head (.dataNotPresent d ms); visitMembers (visitL ms)
  | .bitmap d ms => do head (.bitmap d ms); visitMembers (visitL ms)
  | .element d np => do head (.element d np); visitMembers (pure ())
  | .e031021 d => do head (.e031021 d); visitMembers (pure ())
  | .nbitsOffset d => do head (.nbitsOffset d); visitMembers (pure ())
  | .scaleOffset d => do head (.scaleOffset d); visitMembers (pure ())
  | .insertString d => do head (.insertString d); visitMembers (pure ())
  | .modifyPacking d => do head (.modifyPacking d); visitMembers (pure ())
  | .setStringLength d => do head (.setStringLength d); visitMembers (pure ())
  | .marker d => do head (.marker d); visitMembers (pure ())
  | .cancelBackRef d => do head (.cancelBackRef d); visitMembers (pure ())
  | .cancelBitmap d => do head (.cancelBitmap d); visitMembers (pure ())
/-- the loop at /repo/deserialize/ast/dump.go:120-124 -/
def visitL : List Ast → M AstDump Unit
  | [] => pure ()
  | m :: ms => do visit m; visitL ms
end

end AstDump

/-! ## lint.go -/

/-- /repo/deserialize/ast/lint.go:64-70, the loop over the members of a new refval node;
`m.Descriptor()` of an ad-hoc bitmap is nil. -/
def lintElements : List Ast → Outcome Unit
  | [] => .ok ()
  | m :: ms =>
    match m.descriptor with
    | none => .panic "nil pointer dereference"
    | some d =>
      if d.id.F ≠ 0 then
        .err (.msg "non-element descriptor appears in a new refval definition session")
      else lintElements ms

/-- /repo/deserialize/ast/lint.go:23-128 the methods of `LintVisitor` -/
def lint : Ast → Outcome Unit
  | .element d _ =>
    if d.id.F ≠ 0 then .err (.msg "not an element descriptor") else .ok ()
  | .fixedRepl d ms =>
    if d.id.Y ≠ ms.length then .err (.msg "incorrect number of replicated members") else .ok ()
  | .newRefval d ms =>
    if d.id.Y ≠ 255 then lintElements ms else .ok ()
  | .assocField d ms =>
    if d.id.Y = 0 then .ok ()
    else
      match ms with
      | [m] =>
        match m.descriptor with
        | none => .panic "nil pointer dereference"
        | some md =>
          if md.id ≠ 31021 then .err (.msg "invalid associated field significance") else .ok ()
      | _ => .err (.msg "incorrect number of associated field significance")
  | _ => .panic "implement me"

end Gobufr
