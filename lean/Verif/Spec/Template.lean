import Verif.Model.Template

/-!
# What templates, their expansion and their walk are meant to be

Independent of the loops and slices of the code.
-/

namespace Gobufr.TemplateSpec

/-- What users rely on in a table group: it answers or errs, the answer is about the id asked
for, and sequences come with their members (proved of the real groups in C21). -/
structure GoodLookup (lk : Lookup) : Prop where
  total : ∀ id, (∃ d, lk id = .ok d) ∨ (∃ e, lk id = .err e)
  id : ∀ id d, lk id = .ok d → d.id = id
  seq : ∀ id d, lk id = .ok d → id.F = 3 → ∃ e, d.entry = .d e

/-- A list of descriptors in which every replication covers descriptors of the same list. -/
inductive Nested : List ID → Prop
  | nil : Nested []
  | plain {id : ID} {rest : List ID} : id.F ≠ 1 → Nested rest → Nested (id :: rest)
  | fixed {id : ID} {body rest : List ID} : id.F = 1 → id.Y ≠ 0 → id.X = body.length →
      Nested body → Nested rest → Nested (id :: (body ++ rest))
  | delayed {id f : ID} {body rest : List ID} : id.F = 1 → id.Y = 0 → f.F ≠ 3 →
      id.X = body.length → Nested body → Nested rest → Nested (id :: f :: (body ++ rest))

/-- The members of a sequence descriptor. -/
def SeqMembers (lk : Lookup) (id : ID) (ms : List ID) : Prop :=
  id.F = 3 ∧ ∃ d e, lk id = .ok d ∧ d.entry = .d e ∧ e.members = ms

/-- Every sequence of the tables is well nested. -/
def NestedTables (lk : Lookup) : Prop := ∀ id ms, SeqMembers lk id ms → Nested ms

/-- `id` is mentioned in the template or in a sequence used, directly or not, by it. -/
inductive Mentions (lk : Lookup) : List ID → ID → Prop
  | here {l : List ID} {id : ID} : id ∈ l → Mentions lk l id
  | deep {l ms : List ID} {s id : ID} : s ∈ l → SeqMembers lk s ms → Mentions lk ms id →
      Mentions lk l id

/-- No sequence contains itself: sequences can be ranked. -/
def Acyclic (lk : Lookup) : Prop :=
  ∃ rank : ID → Nat, ∀ s ms m, SeqMembers lk s ms → m ∈ ms → rank m < rank s

/-- The expansion of a template: replications own the descriptors they cover, sequences own
their table D members. -/
inductive Expands (lk : Lookup) : List ID → List TNode → Prop
  | nil : Expands lk [] []
  | plain {id : ID} {d : Desc} {rest : List ID} {ts : List TNode} : lk id = .ok d →
      id.F ≠ 1 → id.F ≠ 3 → Expands lk rest ts → Expands lk (id :: rest) (.mk d none [] :: ts)
  | seq {id : ID} {d : Desc} {e : Dentry} {rest : List ID} {ms ts : List TNode} : lk id = .ok d →
      id.F = 3 → d.entry = .d e → Expands lk e.members ms → Expands lk rest ts →
      Expands lk (id :: rest) (.mk d none ms :: ts)
  | fixed {id : ID} {d : Desc} {body rest : List ID} {ms ts : List TNode} : lk id = .ok d →
      id.F = 1 → id.Y ≠ 0 → id.X = body.length → Expands lk body ms → Expands lk rest ts →
      Expands lk (id :: (body ++ rest)) (.mk d none ms :: ts)
  | delayed {id f : ID} {d df : Desc} {body rest : List ID} {ms ts : List TNode} :
      lk id = .ok d → id.F = 1 → id.Y = 0 → lk f = .ok df → id.X = body.length →
      Expands lk body ms → Expands lk rest ts →
      Expands lk (id :: f :: (body ++ rest)) (.mk d (some df) ms :: ts)

mutual
/-- The descriptors of a node in template order, sequences not unfolded. -/
def flat : TNode → List ID
  | .mk d factor ms =>
    if d.id.F = 1 then d.id :: ((factor.map Desc.id).toList ++ flats ms) else [d.id]
/-- The same for a list of nodes. -/
def flats : List TNode → List ID
  | [] => []
  | n :: ns => flat n ++ flats ns
end

mutual
/-- Below every sequence node are its table D members and nothing else. -/
def seqsOk : TNode → Prop
  | .mk d _ ms => (d.id.F = 3 → ∃ e, d.entry = .d e ∧ flats ms = e.members) ∧ seqsOks ms
/-- The same for a list of nodes. -/
def seqsOks : List TNode → Prop
  | [] => True
  | n :: ns => seqsOk n ∧ seqsOks ns
end

/-! ## Walk -/

mutual
/-- The nodes that expansion builds: leaves have nothing below them, only replications have a
factor, F is one of 0..3. -/
def sane : TNode → Prop
  | .mk d factor ms =>
    ((d.id.F = 0 ∨ d.id.F = 2) ∧ factor = none ∧ ms = [] ∨
      d.id.F = 1 ∨ d.id.F = 3 ∧ factor = none) ∧ sanes ms
/-- The same for a list of nodes. -/
def sanes : List TNode → Prop
  | [] => True
  | n :: ns => sane n ∧ sanes ns
end

/-- Kinds of brackets in an event sequence. -/
inductive Bracket where
  | template | sequence | replication | block
  deriving Repr, DecidableEq

/-- The bracket an event opens. -/
def opens : Event → Option Bracket
  | .beginTemplate => some .template
  | .beginSequence => some .sequence
  | .beginReplication => some .replication
  | .beginBlock => some .block
  | _ => none

/-- The bracket an event closes. -/
def closes : Event → Option Bracket
  | .endTemplate => some .template
  | .endSequence => some .sequence
  | .endReplication => some .replication
  | .endBlock => some .block
  | _ => none

/-- Check the brackets of an event sequence with a stack of open brackets. -/
def bracketed (st : List Bracket) : List Event → Bool
  | [] => st.isEmpty
  | e :: es =>
    match opens e, closes e with
    | some b, _ => bracketed (b :: st) es
    | none, some b => st.head? == some b && bracketed st.tail es
    | none, none => bracketed st es

/-- How often the members of a replication are walked; `ins` are the factors to be received,
`none` when there is no factor channel. -/
inductive Count (d : Desc) (factor : Option Desc) :
    Option (List Int) → Nat → Option (List Int) → Prop
  | once : Count d factor none 1 none
  | delayed {f : Desc} {k : Int} {ks : List Int} : factor = some f →
      Count d factor (some (k :: ks)) k.toNat (some ks)
  | fixed {ks : List Int} : factor = none → Count d factor (some ks) d.id.Y.toNat (some ks)

mutual
/-- `WalksN n ins es ins'`: the events of a node are `es`, leaving the factors `ins'`. -/
inductive WalksN : TNode → Option (List Int) → List Event → Option (List Int) → Prop
  | element {d : Desc} {f : Option Desc} {ms : List TNode} {i : Option (List Int)} :
      d.id.F = 0 → WalksN (.mk d f ms) i [.element d] i
  | operator {d : Desc} {f : Option Desc} {ms : List TNode} {i : Option (List Int)} :
      d.id.F = 2 → WalksN (.mk d f ms) i [.operator d] i
  | unknown {d : Desc} {f : Option Desc} {ms : List TNode} {i : Option (List Int)} :
      d.id.F ≠ 0 → d.id.F ≠ 1 → d.id.F ≠ 2 → d.id.F ≠ 3 → WalksN (.mk d f ms) i [] i
  | sequence {d : Desc} {f : Option Desc} {ms : List TNode} {i i' : Option (List Int)}
      {es : List Event} : d.id.F = 3 → WalksL ms i es i' →
      WalksN (.mk d f ms) i ([.sequence d, .beginSequence] ++ es ++ [.endSequence]) i'
  | replication {d : Desc} {f : Option Desc} {ms : List TNode} {i i' i'' : Option (List Int)}
      {n : Nat} {es : List Event} : d.id.F = 1 → Count d f i n i' → WalksB n ms i' es i'' →
      WalksN (.mk d f ms) i
        ([.replication d] ++ (f.map .factor).toList ++ [.beginReplication] ++ es
          ++ [.endReplication]) i''
/-- The same for nodes one after the other. -/
inductive WalksL : List TNode → Option (List Int) → List Event → Option (List Int) → Prop
  | nil {i : Option (List Int)} : WalksL [] i [] i
  | cons {n : TNode} {ns : List TNode} {i i' i'' : Option (List Int)} {es es' : List Event} :
      WalksN n i es i' → WalksL ns i' es' i'' → WalksL (n :: ns) i (es ++ es') i''
/-- Exactly `k` blocks, each walking all members. -/
inductive WalksB : Nat → List TNode → Option (List Int) → List Event → Option (List Int) → Prop
  | zero {ms : List TNode} {i : Option (List Int)} : WalksB 0 ms i [] i
  | succ {k : Nat} {ms : List TNode} {i i' i'' : Option (List Int)} {es es' : List Event} :
      WalksL ms i es i' → WalksB k ms i' es' i'' →
      WalksB (k + 1) ms i ([.beginBlock] ++ es ++ [.endBlock] ++ es') i''
end

/-! ## Dump -/

/-- Indentation of nesting depth `k`. -/
def indent (k : Nat) : GoString := (List.replicate k INDENT).flatten

mutual
/-- The lines of a node at depth `k`: its own, its factor's (dotted), its members' one deeper. -/
def dumpLines (k : Nat) : TNode → List GoString
  | .mk d factor ms =>
    if d.id.F = 0 ∨ d.id.F = 2 then [indent k ++ d.toStr]
    else if d.id.F = 1 then
      (indent k ++ d.toStr) :: ((factor.map fun f => indent k ++ INDOTS ++ f.toStr).toList
        ++ dumpLinesL (k + 1) ms)
    else if d.id.F = 3 then (indent k ++ d.toStr) :: dumpLinesL (k + 1) ms
    else []
/-- The lines of a list of nodes. -/
def dumpLinesL (k : Nat) : List TNode → List GoString
  | [] => []
  | n :: ns => dumpLines k n ++ dumpLinesL k ns
end

end Gobufr.TemplateSpec
