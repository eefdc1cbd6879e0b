import Verif.Model.Table

/-!
# table: template expansion, walking and dumping

Models /repo/table/template.go.
-/

namespace Gobufr

/-- A Go slice of ids: `arr` is the underlying array from the start of the slice up to its
capacity, `len` the length of the slice. -/
structure IdSlice where
  arr : List ID
  len : Nat
  deriving Repr, DecidableEq, Inhabited

/-- A slice whose capacity equals its length. -/
def IdSlice.exact (l : List ID) : IdSlice := ⟨l, l.length⟩

/-- `s[i]` -/
def IdSlice.at (s : IdSlice) (i : Nat) : Outcome ID :=
  if i < s.len then
    match s.arr[i]? with
    | some id => .ok id
    | none => .panic "index out of range"
  else .panic "index out of range"

/-- `s[lo : lo+n]`: Go checks the upper bound against the capacity, not the length. -/
def IdSlice.sub (s : IdSlice) (lo : Nat) (n : Int) : Outcome IdSlice :=
  if n < 0 then .panic "slice bounds out of range"
  else if lo + n.toNat ≤ s.arr.length then .ok ⟨s.arr.drop lo, n.toNat⟩
  else .panic "slice bounds out of range"

/-- /repo/table/template.go:44-49 `UnexpandedTemplate` -/
structure UnexpandedTemplate where
  ids : List ID
  fbits : Int
  xbits : Int
  ybits : Int
  deriving Repr, DecidableEq, Inhabited

/-- /repo/table/template.go:137-141 `Node`.  A factor node only ever has a descriptor. -/
inductive TNode where
  | mk (desc : Desc) (factor : Option Desc) (members : List TNode)
  deriving Repr, Inhabited

/-- A table group, as seen by its users. -/
abbrev Lookup := ID → Outcome Desc

/-- `d.Entry().(*Dentry)` -/
def Desc.dentry (d : Desc) : Outcome Dentry :=
  match d.entry with
  | .d e => .ok e
  | _ => .panic "interface conversion: Entry is not *Dentry"

/-- /repo/table/template.go:228-267 `expand`; `count` is the loop variable, the result are the
nodes still to be appended.  `fuel` bounds the number of loop iterations nested in each other
or following each other (`diverge` when exhausted). -/
def expandLoop (lk : Lookup) : Nat → IdSlice → Nat → Outcome (List TNode)
  | 0, _, _ => .diverge
  | fuel + 1, ids, count =>
    if count < ids.len then do
      let id ← ids.at count
      let d ← lk id
      if d.id.F = 3 then do
        let e ← d.dentry
        let members ← expandLoop lk fuel (.exact e.members) 0
        let rest ← expandLoop lk fuel ids (count + 1)
        .ok (.mk d none members :: rest)
      else if d.id.F = 1 then
        if d.id.Y = 0 then do
          let fid ← ids.at (count + 1)
          let f ← lk fid
          let sub ← ids.sub (count + 2) d.id.X
          let members ← expandLoop lk fuel sub 0
          let rest ← expandLoop lk fuel ids (count + 2 + d.id.X.toNat)
          .ok (.mk d (some f) members :: rest)
        else do
          let sub ← ids.sub (count + 1) d.id.X
          let members ← expandLoop lk fuel sub 0
          let rest ← expandLoop lk fuel ids (count + 1 + d.id.X.toNat)
          .ok (.mk d none members :: rest)
      else do
        let rest ← expandLoop lk fuel ids (count + 1)
        .ok (.mk d none [] :: rest)
    else .ok []

/-- /repo/table/template.go:76-83 `Expand` -/
def expand (lk : Lookup) (fuel : Nat) (ids : IdSlice) : Outcome (List TNode) :=
  expandLoop lk fuel ids 0

/-! ## Walk -/

/-- /repo/table/template.go:18-32 and :37-40 `Event` with its code -/
inductive Event where
  | element (d : Desc)
  | replication (d : Desc)
  | operator (d : Desc)
  | sequence (d : Desc)
  | factor (d : Desc)
  | beginSequence | endSequence
  | beginReplication | endReplication
  | beginBlock | endBlock
  | beginTemplate | endTemplate
  deriving Repr, DecidableEq, Inhabited

/-- The channels of a walk: events sent so far, and the factors that will be received (`none`
when the `ins` channel is nil). -/
structure WalkSt where
  outs : List Event
  ins : Option (List Int)
  deriving Repr, DecidableEq, Inhabited

/-- `outs <- e` -/
def emit (e : Event) : M WalkSt Unit := M.modify fun s => { s with outs := s.outs ++ [e] }

/-- `nrepeats = <-ins` guarded by `ins != nil`; blocks forever when nothing will be sent. -/
def recvFactor : M WalkSt Int := fun s =>
  match s.ins with
  | none => (.ok 1, s)
  | some [] => (.diverge, s)
  | some (k :: ks) => (.ok k, { s with ins := some ks })

/-- Repeat a call `n` times. -/
def repeatM (n : Nat) (m : M σ Unit) : M σ Unit :=
  match n with
  | 0 => pure ⟨⟩
  | n + 1 => do m; repeatM n m

/-- one turn of the loop at /repo/table/template.go:212-220 -/
def walkBlock (ms : M WalkSt Unit) : M WalkSt Unit := do
  emit .beginBlock
  ms
  emit .endBlock

/-- /repo/table/template.go:210-222 `walkReplication` -/
def walkReplication (ms : M WalkSt Unit) (nrepeats : Int) : M WalkSt Unit := do
  emit .beginReplication
  repeatM nrepeats.toNat (walkBlock ms)
  emit .endReplication

/-- /repo/table/template.go:198-206 `walkSequence` -/
def walkSequence (ms : M WalkSt Unit) : M WalkSt Unit := do
  emit .beginSequence
  ms
  emit .endSequence

mutual
/-- /repo/table/template.go:145-175 `Node.Walk`.  The goroutines that forward the events of
inner nodes through unbuffered channels are flattened: exactly one of them is runnable at a
time, and the consumer is assumed to receive every event. -/
def walkNode : TNode → M WalkSt Unit
  | .mk d factor members =>
    if d.id.F = 0 then emit (.element d)
    else if d.id.F = 1 then do
      emit (.replication d)
      match factor with
      | some f => do
        emit (.factor f)
        let n ← recvFactor
        walkReplication (walkNodes members) n
      | none => do
        let s ← M.get
        walkReplication (walkNodes members) (if s.ins.isSome then d.id.Y else 1)
    else if d.id.F = 2 then emit (.operator d)
    else if d.id.F = 3 then do
      emit (.sequence d)
      walkSequence (walkNodes members)
    else pure ⟨⟩

/-- the loops `for _, n := range members { for e := range n.Walk(ins) { outs <- e } }` -/
def walkNodes : List TNode → M WalkSt Unit
  | [] => pure ⟨⟩
  | n :: ns => do walkNode n; walkNodes ns
end

/-- /repo/table/template.go:109-122 `ExpandedTemplate.Walk` -/
def walkTemplate (ms : List TNode) : M WalkSt Unit := do
  emit .beginTemplate
  walkNodes ms
  emit .endTemplate

/-! ## Dump -/

/-- /repo/table/template.go:11 `INDENT` -/
def INDENT : GoString := str "    "
/-- /repo/table/template.go:12 `INDOTS` -/
def INDOTS : GoString := str "...."

/-- The local variables of `Dump`. -/
structure DumpSt where
  lines : List GoString
  indents : List GoString
  deriving Repr, DecidableEq, Inhabited

/-- /repo/table/template.go:185 -/
def dumpLine (dots : GoString) (d : Desc) : M DumpSt Unit :=
  M.modify fun s => { s with lines := s.lines ++ [s.indents.flatten ++ dots ++ d.toStr] }

/-- /repo/table/template.go:189 -/
def dumpOpen : M DumpSt Unit := M.modify fun s => { s with indents := s.indents ++ [INDENT] }

/-- /repo/table/template.go:191 -/
def dumpClose : M DumpSt Unit := fun s =>
  if s.indents.length = 0 then (.panic "slice bounds out of range", s)
  else (.ok ⟨⟩, { s with indents := s.indents.dropLast })

/-- /repo/table/template.go:183-192, one turn of the loop of `Node.Dump` -/
def dumpEvent : Event → M DumpSt Unit
  | .element d => dumpLine [] d
  | .replication d => dumpLine [] d
  | .operator d => dumpLine [] d
  | .sequence d => dumpLine [] d
  | .factor d => dumpLine INDOTS d
  | .beginSequence => dumpOpen
  | .beginBlock => dumpOpen
  | .endSequence => dumpClose
  | .endBlock => dumpClose
  | .beginReplication => pure ⟨⟩
  | .endReplication => pure ⟨⟩
  | .beginTemplate => pure ⟨⟩
  | .endTemplate => pure ⟨⟩

/-- the loop over the events -/
def dumpEvents : List Event → M DumpSt Unit
  | [] => pure ⟨⟩
  | e :: es => do dumpEvent e; dumpEvents es

/-- `strings.Join(lines, "\n")` -/
def joinLines (lines : List GoString) : GoString := List.intercalate [10] lines

/-- /repo/table/template.go:179-195 `Node.Dump` -/
def dumpNode (n : TNode) : Outcome GoString :=
  match walkNode n ⟨[], none⟩ with
  | (.ok _, w) => match dumpEvents w.outs ⟨[], []⟩ with
    | (.ok _, s) => .ok (joinLines s.lines)
    | (.err e, _) => .err e
    | (.panic w, _) => .panic w
    | (.diverge, _) => .diverge
  | (.err e, _) => .err e
  | (.panic w, _) => .panic w
  | (.diverge, _) => .diverge

/-- /repo/table/template.go:125-131 `ExpandedTemplate.Dump`, the loop -/
def dumpNodes : List TNode → Outcome (List GoString)
  | [] => .ok []
  | n :: ns => do
    let l ← dumpNode n
    let ls ← dumpNodes ns
    .ok (l :: ls)

/-- /repo/table/template.go:125-131 `ExpandedTemplate.Dump` -/
def dumpTemplate (ms : List TNode) : Outcome GoString := do
  let ls ← dumpNodes ms
  .ok (joinLines ls)

end Gobufr
