import Verif.Model.Parser
import Verif.Spec.Template

/-!
# What a parsed template is meant to be

A grammar of templates, and what can be read off a tree.  Independent of the loops, index
positions and recursion of the parser.
-/

namespace Gobufr.ParserSpec
open TemplateSpec

/-! ## Reading a tree -/

mutual
/-- The descriptors of a node in template order.  A sequence is one descriptor of the template;
its table D members are below it. -/
def spell : Ast → List ID
  | .base _ ms => spellL ms
  | .bitmap d ms => (d.map Desc.id).toList ++ spellL ms
  | .sequence d _ => [d.id]
  | .fixedRepl d ms | .delayedRepl d ms | .newRefval d ms | .assocField d ms | .skipLocal d ms
  | .dataNotPresent d ms => d.id :: spellL ms
  | .assessment d bm attrs ms => d.id :: (spell bm ++ spellL attrs ++ spellL ms)
  | .element d _ | .e031021 d | .nbitsOffset d | .scaleOffset d | .insertString d
  | .modifyPacking d | .setStringLength d | .marker d | .cancelBackRef d | .cancelBitmap d => [d.id]
/-- The descriptors of a list of nodes. -/
def spellL : List Ast → List ID
  | [] => []
  | n :: ns => spell n ++ spellL ns
end

mutual
/-- A node and all nodes below it. -/
def nodes : Ast → List Ast
  | .base d ms => .base d ms :: nodesL ms
  | .bitmap d ms => .bitmap d ms :: nodesL ms
  | .sequence d ms => .sequence d ms :: nodesL ms
  | .fixedRepl d ms => .fixedRepl d ms :: nodesL ms
  | .delayedRepl d ms => .delayedRepl d ms :: nodesL ms
  | .newRefval d ms => .newRefval d ms :: nodesL ms
  | .assocField d ms => .assocField d ms :: nodesL ms
  | .skipLocal d ms => .skipLocal d ms :: nodesL ms
  | .dataNotPresent d ms => .dataNotPresent d ms :: nodesL ms
  | .assessment d bm attrs ms =>
    .assessment d bm attrs ms :: (nodes bm ++ nodesL attrs ++ nodesL ms)
  | .element d np => [.element d np]
  | .e031021 d => [.e031021 d]
  | .nbitsOffset d => [.nbitsOffset d]
  | .scaleOffset d => [.scaleOffset d]
  | .insertString d => [.insertString d]
  | .modifyPacking d => [.modifyPacking d]
  | .setStringLength d => [.setStringLength d]
  | .marker d => [.marker d]
  | .cancelBackRef d => [.cancelBackRef d]
  | .cancelBitmap d => [.cancelBitmap d]
/-- All nodes of a list of trees. -/
def nodesL : List Ast → List Ast
  | [] => []
  | n :: ns => nodes n ++ nodesL ns
end

mutual
/-- The nodes that are not below a 206YYY operator. -/
def outside : Ast → List Ast
  | .base d ms => .base d ms :: outsideL ms
  | .bitmap d ms => .bitmap d ms :: outsideL ms
  | .sequence d ms => .sequence d ms :: outsideL ms
  | .fixedRepl d ms => .fixedRepl d ms :: outsideL ms
  | .delayedRepl d ms => .delayedRepl d ms :: outsideL ms
  | .newRefval d ms => .newRefval d ms :: outsideL ms
  | .assocField d ms => .assocField d ms :: outsideL ms
  | .skipLocal d ms => [.skipLocal d ms]
  | .dataNotPresent d ms => .dataNotPresent d ms :: outsideL ms
  | .assessment d bm attrs ms =>
    .assessment d bm attrs ms :: (outside bm ++ outsideL attrs ++ outsideL ms)
  | .element d np => [.element d np]
  | .e031021 d => [.e031021 d]
  | .nbitsOffset d => [.nbitsOffset d]
  | .scaleOffset d => [.scaleOffset d]
  | .insertString d => [.insertString d]
  | .modifyPacking d => [.modifyPacking d]
  | .setStringLength d => [.setStringLength d]
  | .marker d => [.marker d]
  | .cancelBackRef d => [.cancelBackRef d]
  | .cancelBitmap d => [.cancelBitmap d]
/-- The same for a list of trees. -/
def outsideL : List Ast → List Ast
  | [] => []
  | n :: ns => outside n ++ outsideL ns
end

/-! ## The grammar -/

/-- The descriptors up to and including the first run of ones with the property `p`; everything
when there are none. -/
def Until (p : ID → Bool) (l body rest : List ID) : Prop :=
  ∃ before run, l = before ++ run ++ rest ∧ body = before ++ run ∧
    (∀ x ∈ before, p x = false) ∧ (∀ x ∈ run, p x = true) ∧
    (run = [] → rest = []) ∧ ∀ x, rest.head? = some x → p x = false

/-- The descriptors before the first one with the property `p`. -/
def Till (p : ID → Bool) (l body rest : List ID) : Prop :=
  l = body ++ rest ∧ (∀ x ∈ body, p x = false) ∧ ∀ x, rest.head? = some x → p x = true

/-- What stands for an element that is not looked up: a name, and nothing else. -/
def placeholder (id : ID) : Desc := ⟨id, .b
  { name := str "LOCAL DESCRIPTOR", unitString := [], unit := .numeric, scale := 0, refval := 0, nbits := 0, crexUnitString := [],
    crexUnit := .numeric, crexScale := 0, crexNchars := 0 }⟩

/-- Nodes made of a single descriptor.  `skip` says that a 206YYY is in force. -/
inductive Leaf (lk : Lookup) (skip : Bool) : ID → Ast → Prop
  | element {id : ID} {d : Desc} : skip = false → id.F = 0 → id ≠ 31021 → lk id = .ok d →
      Leaf lk skip id (.element d false)
  | unknown {id : ID} : skip = true → id.F = 0 → id ≠ 31021 →
      Leaf lk skip id (.element (placeholder id) false)
  | e031021 {d : Desc} : skip = false → lk 31021 = .ok d → Leaf lk skip 31021 (.e031021 d)
  | unknown031021 : skip = true → Leaf lk skip 31021 (.e031021 (placeholder 31021))
  | nbitsOffset {id : ID} {d : Desc} : id.Operator = 201 → lk id = .ok d →
      Leaf lk skip id (.nbitsOffset d)
  | scaleOffset {id : ID} {d : Desc} : id.Operator = 202 → lk id = .ok d →
      Leaf lk skip id (.scaleOffset d)
  | refvalEnd {id : ID} {d : Desc} : id.Operator = 203 → id.Y = 255 → lk id = .ok d →
      Leaf lk skip id (.newRefval d [])
  | assocEnd {id : ID} {d : Desc} : id.Operator = 204 → id.Y = 0 → lk id = .ok d →
      Leaf lk skip id (.assocField d [])
  | insertString {id : ID} {d : Desc} : id.Operator = 205 → lk id = .ok d →
      Leaf lk skip id (.insertString d)
  | modifyPacking {id : ID} {d : Desc} : id.Operator = 207 → lk id = .ok d →
      Leaf lk skip id (.modifyPacking d)
  | setStringLength {id : ID} {d : Desc} : id.Operator = 208 → lk id = .ok d →
      Leaf lk skip id (.setStringLength d)
  | marker {id : ID} {d : Desc} : id = 223255 ∨ id = 224255 ∨ id = 225255 ∨ id = 232255 →
      lk id = .ok d → Leaf lk skip id (.marker d)
  | cancelBackRef {id : ID} {d : Desc} : id.Operator = 235 → lk id = .ok d →
      Leaf lk skip id (.cancelBackRef d)
  | cancelBitmap {id : ID} {d : Desc} : id.Operator = 237 → id.Y = 255 → lk id = .ok d →
      Leaf lk skip id (.cancelBitmap d)

/-- Descriptors that cover the next `n` descriptors, the node they make of them, and what they do
to the flags of the parser before and after. -/
inductive Scope : ID → Desc → Nat → (List Ast → Ast) → (PFlags → PFlags) → (PFlags → PFlags) → Prop
  | fixed {id : ID} {d : Desc} {n : Nat} : id.F = 1 → id.Y ≠ 0 → id.X = n →
      Scope id d n (.fixedRepl d) (fun f => f) (fun f => f)
  | delayed {id : ID} {d : Desc} {n : Nat} : id.F = 1 → id.Y = 0 → id.X = n →
      Scope id d (n + 1) (.delayedRepl d) (fun f => f) (fun f => f)
  | assocField {id : ID} {d : Desc} : id.Operator = 204 → id.Y ≠ 0 →
      Scope id d 1 (.assocField d) (fun f => f) (fun f => f)
  | skipLocal {id : ID} {d : Desc} : id.Operator = 206 →
      Scope id d 1 (.skipLocal d) (fun f => { f with skipLocal := true })
        (fun f => { f with skipLocal := false })
  | dataNotPresent {id : ID} {d : Desc} {n : Nat} : id.Operator = 221 → id.Y = n →
      Scope id d n (.dataNotPresent d) (fun f => { f with dataNotPresent := true })
        (fun f => { f with dataNotPresent := false })

/-- The start of a bitmap: its opening descriptor if any, the descriptors that define it. -/
inductive BitmapIds (lk : Lookup) : List ID → Option Desc → List ID → List ID → Prop
  | recall {d : Desc} {rest : List ID} : lk 237000 = .ok d →
      BitmapIds lk (237000 :: rest) (some d) [] rest
  | define {d : Desc} {l body rest : List ID} : lk 236000 = .ok d →
      Until (· == 31031) l body rest → BitmapIds lk (236000 :: l) (some d) body rest
  | adhoc {id : ID} {d : Desc} {l body rest : List ID} : id.F = 1 ∨ id = 31031 → lk id = .ok d →
      Until (· == 31031) (id :: l) body rest → BitmapIds lk (id :: l) none body rest

/-- Assessment operators: where their attributes end, and what their members are. -/
inductive Assess : ID → (ID → Bool) → (ID → Bool) → Prop
  | qaInfo : Assess 222000 (fun id => id.F == 1 || (id.F == 0 && id.X == 33))
      (fun id => id.F == 0 && id.X == 33)
  | marked {op mark : ID} : (op, mark) ∈ [(223000, 223255), (224000, 224255), (225000, 225255),
      (232000, 232255)] → Assess op (fun id => id.F == 1 || id == mark) (fun id => id == mark)

/-- `Derives lk pad f l ns f'`: the descriptors `l` make the nodes `ns`; `f` and `f'` are the flags
before and after.  With `pad` a scope that runs over the end is filled up with descriptors
000000 (what the code does), without it every scope must be complete. -/
inductive Derives (lk : Lookup) (pad : Bool) : PFlags → List ID → List Ast → PFlags → Prop
  | nil {f : PFlags} : Derives lk pad f [] [] f
  | leaf {f f' : PFlags} {id : ID} {n : Ast} {rest : List ID} {ns : List Ast} :
      Leaf lk f.skipLocal id n → Derives lk pad f rest ns f' →
      Derives lk pad f (id :: rest) (n :: ns) f'
  | sequence {f f₁ f' : PFlags} {id : ID} {d : Desc} {e : Dentry} {rest : List ID}
      {ms ns : List Ast} : id.F = 3 → lk id = .ok d → d.entry = .d e →
      Derives lk pad f e.members ms f₁ → Derives lk pad f₁ rest ns f' →
      Derives lk pad f (id :: rest) (.sequence d ms :: ns) f'
  | scope {f f₁ f' : PFlags} {id : ID} {d : Desc} {n j : Nat} {mk : List Ast → Ast}
      {fin fout : PFlags → PFlags} {body rest : List ID} {ms ns : List Ast} :
      Scope id d n mk fin fout → lk id = .ok d → body.length + j = n →
      (j = 0 ∨ pad = true ∧ rest = []) →
      Derives lk pad (fin f) (body ++ List.replicate j 0) ms f₁ →
      Derives lk pad (fout f₁) rest ns f' →
      Derives lk pad f (id :: (body ++ rest)) (mk ms :: ns) f'
  | newRefval {f f₁ f' : PFlags} {id : ID} {d : Desc} {l body rest : List ID} {ms ns : List Ast} :
      id.Operator = 203 → id.Y ≠ 255 → lk id = .ok d → Till (· == 203255) l body rest →
      Derives lk pad f body ms f₁ → Derives lk pad f₁ rest ns f' →
      Derives lk pad f (id :: l) (.newRefval d ms :: ns) f'
  | bitmap {f f₁ f' : PFlags} {d : Desc} {l body rest : List ID} {ms ns : List Ast} :
      BitmapIds lk l (some d) body rest →
      Derives lk pad f body ms f₁ → Derives lk pad f₁ rest ns f' →
      Derives lk pad f l (.bitmap (some d) ms :: ns) f'
  | assessment {f f₁ f₂ f₃ f' : PFlags} {id : ID} {d : Desc} {attrP memP : ID → Bool}
      {bd : Option Desc} {l bids l₁ aids l₂ mids rest : List ID} {bms as ms ns : List Ast} :
      Assess id attrP memP → lk id = .ok d → BitmapIds lk l bd bids l₁ →
      Derives lk pad f bids bms f₁ → Till attrP l₁ aids l₂ → Derives lk pad f₁ aids as f₂ →
      Until memP l₂ mids rest → Derives lk pad f₂ mids ms f₃ → Derives lk pad f₃ rest ns f' →
      Derives lk pad f (id :: l) (.assessment d (.bitmap bd bms) as ms :: ns) f'

/-! ## Words used in the statements -/

/-- The operators that assess data. -/
def assessOps : List ID := [222000, 223000, 224000, 225000, 232000]

/-- The tree has an element 000000. -/
def HasZero (ns : List Ast) : Prop := ∃ d np, Ast.element d np ∈ nodesL ns ∧ d.id = 0

/-- Flags are as before or cleared. -/
def FlagsLe (a b : PFlags) : Prop :=
  (a.skipLocal = true → b.skipLocal = true) ∧ (a.dataNotPresent = true → b.dataNotPresent = true)

/-- Operators the parser implements, with the operands it accepts. -/
def LegalOp (id : ID) : Prop :=
  id.Operator ∈ [201, 202, 203, 204, 205, 206, 207, 208, 221, 235] ∨
    id ∈ [222000, 223000, 223255, 224000, 224255, 225000, 225255, 232000, 232255, 236000, 237000] ∨
    (id.Operator = 237 ∧ id.Y = 255)

/-- Known to the tables and, for operators, implemented. -/
def LegalId (lk : Lookup) (id : ID) : Prop := (∃ d, lk id = .ok d) ∧ (id.F = 2 → LegalOp id)

/-- A 206YYY is used. -/
def Uses206 (lk : Lookup) (l : List ID) : Prop := ∃ o, Mentions lk l o ∧ o.Operator = 206

/-- An element node whose descriptor is the one of the tables. -/
def KnownElement (lk : Lookup) (n : Ast) : Prop :=
  ∀ d, (∃ np, n = .element d np) ∨ n = .e031021 d → lk d.id = .ok d

end Gobufr.ParserSpec

namespace Gobufr.ParserSpec

/-! ## The dump -/

/-- A line of the dump, `k` levels deep. -/
def line (k : Nat) (text : GoString) : GoString := List.replicate (4 * k) (32 : UInt8) ++ text ++ str "\n"

/-- The Go type of a node -/
def kind : Ast → String
  | .base .. => "BaseNode"
  | .element .. => "ElementNode"
  | .e031021 .. => "E031021Node"
  | .sequence .. => "SequenceNode"
  | .fixedRepl .. => "FixedReplicationNode"
  | .delayedRepl .. => "DelayedReplicationNode"
  | .bitmap .. => "BitmapNode"
  | .nbitsOffset .. => "OpNbitsOffsetNode"
  | .scaleOffset .. => "OpScaleOffsetNode"
  | .newRefval .. => "OpNewRefvalNode"
  | .assocField .. => "OpAssocFieldNode"
  | .insertString .. => "OpInsertStringNode"
  | .skipLocal .. => "OpSkipLocalNode"
  | .modifyPacking .. => "OpModifyPackingNode"
  | .setStringLength .. => "OpSetStringLengthNode"
  | .dataNotPresent .. => "OpDataNotPresentNode"
  | .assessment .. => "OpAssessmentNode"
  | .marker .. => "OpMarkerNode"
  | .cancelBackRef .. => "OpCancelBackRefNode"
  | .cancelBitmap .. => "OpCancelBitmapNode"

/-- What is written of a node. -/
def nodeText (n : Ast) : GoString := AstDump.descText n.descriptor ++ str " (*ast." ++ str (kind n) ++ str ")"

mutual
/-- The lines of a node at depth `k`: its own, then those of the nodes below it one level deeper.
The factor of a delayed replication is a line of its own at the level of the replication. -/
def lines (k : Nat) : Ast → List GoString
  | .delayedRepl d [] => [line k (nodeText (.delayedRepl d []))]
  | .delayedRepl d (m :: ms) => line k (nodeText (.delayedRepl d (m :: ms))) ::
      line k (str "...." ++ AstDump.descText m.descriptor) :: linesL (k + 1) ms
  | .assessment d bm as ms => line k (nodeText (.assessment d bm as ms)) ::
      (lines (k + 1) bm ++ linesL (k + 1) as ++ linesL (k + 1) ms)
  | .base d ms => line k (nodeText (.base d ms)) :: linesL (k + 1) ms
  | .bitmap d ms => line k (nodeText (.bitmap d ms)) :: linesL (k + 1) ms
  | .sequence d ms => line k (nodeText (.sequence d ms)) :: linesL (k + 1) ms
  | .fixedRepl d ms => line k (nodeText (.fixedRepl d ms)) :: linesL (k + 1) ms
  | .newRefval d ms => line k (nodeText (.newRefval d ms)) :: linesL (k + 1) ms
  | .assocField d ms => line k (nodeText (.assocField d ms)) :: linesL (k + 1) ms
  | .skipLocal d ms => line k (nodeText (.skipLocal d ms)) :: linesL (k + 1) ms
  | .dataNotPresent d ms => line k (nodeText (.dataNotPresent d ms)) :: linesL (k + 1) ms
  | .element d np => [line k (nodeText (.element d np))]
  | .e031021 d => [line k (nodeText (.e031021 d))]
  | .nbitsOffset d => [line k (nodeText (.nbitsOffset d))]
  | .scaleOffset d => [line k (nodeText (.scaleOffset d))]
  | .insertString d => [line k (nodeText (.insertString d))]
  | .modifyPacking d => [line k (nodeText (.modifyPacking d))]
  | .setStringLength d => [line k (nodeText (.setStringLength d))]
  | .marker d => [line k (nodeText (.marker d))]
  | .cancelBackRef d => [line k (nodeText (.cancelBackRef d))]
  | .cancelBitmap d => [line k (nodeText (.cancelBitmap d))]
/-- The lines of a list of nodes. -/
def linesL (k : Nat) : List Ast → List GoString
  | [] => []
  | n :: ns => lines k n ++ linesL k ns
end

end Gobufr.ParserSpec
