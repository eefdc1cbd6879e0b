import Verif.Model.Ast

/-!
# Parsing templates

Models /repo/deserialize/parser/parser.go and state.go.
-/

namespace Gobufr

/-- /repo/deserialize/parser/state.go:15-20 `idsKeeper` -/
structure Keeper where
  ids : List ID
  index : Nat
  deriving Repr, DecidableEq, Inhabited

/-- /repo/deserialize/parser/state.go:22-24 `newIdsKeeper` -/
def newKeeper (ids : List ID) : Keeper := ⟨ids, 0⟩

namespace Keeper

/-- /repo/deserialize/parser/state.go:27-29 `eof` -/
def eof (k : Keeper) : Bool := k.index ≥ k.ids.length

/-- /repo/deserialize/parser/state.go:33-37 `take` -/
def take : M Keeper ID := fun k =>
  match k.ids[k.index]? with
  | some id => (.ok id, { k with index := k.index + 1 })
  | none => (.panic "index out of range", k)

/-- /repo/deserialize/parser/state.go:40-42 `back`; it is only called after `take`, so the index
never becomes negative. -/
def back : M Keeper Unit := M.modify fun k => { k with index := k.index - 1 }

/-- /repo/deserialize/parser/state.go:45-49 `peek` -/
def peek : M Keeper ID := do
  let id ← take
  back
  pure id

/-- /repo/deserialize/parser/state.go:56-58, the loop of `takeN`; the rest of the slice stays
zero. -/
def takeNLoop : Nat → M Keeper (List ID)
  | 0 => pure []
  | n + 1 => do
    if (← M.get).eof then pure (List.replicate (n + 1) 0)
    else do
      let id ← take
      let ids ← takeNLoop n
      pure (id :: ids)

/-- /repo/deserialize/parser/state.go:54-60 `takeN`; `make` panics for a negative length. -/
def takeN (n : Int) : M Keeper (List ID) :=
  if n < 0 then M.crash "makeslice: len out of range" else takeNLoop n.toNat

/-- /repo/deserialize/parser/state.go:75-85, the loop of `takeWhile`; `fuel` is at least the number
of ids left, so the loop always ends by itself. -/
def takeWhileLoop (p : ID → Bool) : Nat → Bool → M Keeper (List ID)
  | 0, _ => pure []
  | fuel + 1, started => do
    if (← M.get).eof then pure []
    else do
      let id ← take
      if p id && !started then do
        let ids ← takeWhileLoop p fuel true
        pure (id :: ids)
      else if !p id && started then do
        back
        pure []
      else do
        let ids ← takeWhileLoop p fuel started
        pure (id :: ids)

/-- /repo/deserialize/parser/state.go:72-87 `takeWhile` -/
def takeWhile (p : ID → Bool) : M Keeper (List ID) := do
  let k ← M.get
  takeWhileLoop p (k.ids.length - k.index) false

/-- /repo/deserialize/parser/state.go:92-99, the loop of `takeTill`; `fuel` as above -/
def takeTillLoop (p : ID → Bool) : Nat → M Keeper (List ID)
  | 0 => pure []
  | fuel + 1 => do
    if (← M.get).eof then pure []
    else do
      let id ← take
      if p id then do
        back
        pure []
      else do
        let ids ← takeTillLoop p fuel
        pure (id :: ids)

/-- /repo/deserialize/parser/state.go:90-101 `takeTill` -/
def takeTill (p : ID → Bool) : M Keeper (List ID) := do
  let k ← M.get
  takeTillLoop p (k.ids.length - k.index)

end Keeper

/-- /repo/deserialize/parser/parser.go:35 `states`; the two bits of
/repo/deserialize/parser/state.go:9-12 as booleans. -/
structure PFlags where
  dataNotPresent : Bool := false
  skipLocal : Bool := false
  deriving Repr, DecidableEq, Inhabited

/-- What a parse function changes: the flags of the parser and the keeper it was given. -/
structure PSt where
  flags : PFlags
  k : Keeper
  deriving Repr, DecidableEq, Inhabited

/-- A call on the keeper. -/
def onKeeper (m : M Keeper α) : M PSt α := M.zoom (·.k) (fun k s => { s with k := k }) m

/-- Run `processThrough` on the keeper of the given ids: `f(p, newIdsKeeper(ids))` -/
def onIds (rec : M PSt (List Ast)) (ids : List ID) : M PSt (List Ast) := fun s =>
  let r := rec ⟨s.flags, newKeeper ids⟩
  (r.1, { s with flags := r.2.flags })

/-- /repo/deserialize/parser/state.go:148-155 `populateMembers` on a new keeper; `mk` builds the
node from its members, `rec` is `processThrough`. -/
def populateMembers (rec : M PSt (List Ast)) (ids : List ID) (mk : List Ast → Ast) : M PSt Ast := do
  let members ← onIds rec ids
  pure (mk members)

/-- /repo/deserialize/parser/state.go:325-331 `notPresent`; the condition is written as in Go. -/
def notPresent (flags : PFlags) (d : Desc) : Bool :=
  if !flags.dataNotPresent then false
  else
    let x := d.id.X
    x < 1 && x > 9 && x ≠ 31

section Parser

variable (lk : Lookup) (rec : M PSt (List Ast))

/-- `p.tableGroup.Lookup(keeper.take())` -/
def takeLookup : M PSt Desc := do
  let id ← onKeeper Keeper.take
  M.lift (lk id)

/-- /repo/deserialize/parser/parser.go:71-91 `parseElementNode` -/
def parseElementNode : M PSt Ast := do
  let st ← M.get
  let d ← if st.flags.skipLocal then do
      let id ← onKeeper Keeper.take
      pure (newLocalDescriptor id)
    else takeLookup lk
  if d.id = 31021 then pure (.e031021 d)
  else pure (.element d (notPresent st.flags d))

/-- /repo/deserialize/parser/parser.go:93-100 `parseSequenceNode` -/
def parseSequenceNode : M PSt Ast := do
  let d ← takeLookup lk
  let e ← M.lift d.dentry
  populateMembers rec e.members (.sequence d)

/-- /repo/deserialize/parser/parser.go:102-109 `parseDelayedReplicationNode` -/
def parseDelayedReplicationNode : M PSt Ast := do
  let d ← takeLookup lk
  let ids ← onKeeper (Keeper.takeN (d.id.X + 1))
  populateMembers rec ids (.delayedRepl d)

/-- /repo/deserialize/parser/parser.go:111-118 `parseFixedReplicationNode` -/
def parseFixedReplicationNode : M PSt Ast := do
  let d ← takeLookup lk
  let ids ← onKeeper (Keeper.takeN d.id.X)
  populateMembers rec ids (.fixedRepl d)

/-- /repo/deserialize/parser/parser.go:191-221 `parseBitmapNode` -/
def parseBitmapNode : M PSt Ast := do
  let d ← takeLookup lk
  if d.id = 237000 then pure (.bitmap (some d) [])
  else if d.id.F = 1 ∨ d.id = 31031 then do
    onKeeper Keeper.back
    let ids ← onKeeper (Keeper.takeWhile fun id => id == 31031)
    populateMembers rec ids (.bitmap none)
  else if d.id = 236000 then do
    let ids ← onKeeper (Keeper.takeWhile fun id => id == 31031)
    populateMembers rec ids (.bitmap (some d))
  else M.fail (.msg "invalid bitmap definition")

/-- /repo/deserialize/parser/state.go:157-167 `assembleOpNewRefvalNode` -/
def assembleOpNewRefvalNode (d : Desc) : M PSt Ast :=
  if d.id.Y = 255 then pure (.newRefval d [])
  else do
    let ids ← onKeeper (Keeper.takeTill fun id => id == 203255)
    populateMembers rec ids (.newRefval d)

/-- /repo/deserialize/parser/state.go:177-183 `assembleOpAssocFieldNode` -/
def assembleOpAssocFieldNode (d : Desc) : M PSt Ast :=
  if d.id.Y ≠ 0 then do
    let ids ← onKeeper (Keeper.takeN 1)
    populateMembers rec ids (.assocField d)
  else pure (.assocField d [])

/-- set or unset a state, /repo/deserialize/parser/parser.go:49-55 -/
def setFlags (f : PFlags → PFlags) : M PSt Unit := M.modify fun s => { s with flags := f s.flags }

/-- /repo/deserialize/parser/state.go:185-190 `assembleOpSkipLocalNode` -/
def assembleOpSkipLocalNode (d : Desc) : M PSt Ast := do
  setFlags fun f => { f with skipLocal := true }
  M.deferDo (setFlags fun f => { f with skipLocal := false }) do
    let ids ← onKeeper (Keeper.takeN 1)
    populateMembers rec ids (.skipLocal d)

/-- /repo/deserialize/parser/state.go:192-197 `assembleOpDataNotPresentNode` -/
def assembleOpDataNotPresentNode (d : Desc) : M PSt Ast := do
  setFlags fun f => { f with dataNotPresent := true }
  M.deferDo (setFlags fun f => { f with dataNotPresent := false }) do
    let ids ← onKeeper (Keeper.takeN d.id.Y)
    populateMembers rec ids (.dataNotPresent d)

/-- /repo/deserialize/parser/state.go:285-306 `assembleAssessmentNode` with :308-322
`processAssessmentNodeAttrs` and `processAssessmentNodeMembers` -/
def assembleAssessmentNode (d : Desc) (attrPredicate membersPredicate : ID → Bool) : M PSt Ast := do
  let bm ← parseBitmapNode lk rec
  let aids ← onKeeper (Keeper.takeTill attrPredicate)
  let attrs ← onIds rec aids
  let mids ← onKeeper (Keeper.takeWhile membersPredicate)
  populateMembers rec mids (.assessment d bm attrs)

/-- /repo/deserialize/parser/state.go:201-212 `assembleOpQaInfoNode` -/
def assembleOpQaInfoNode (d : Desc) : M PSt Ast :=
  if d.id ≠ 222000 then M.fail (.msg "invalid operand")
  else assembleAssessmentNode lk rec d
    (fun id => id.F == 1 || (id.F == 0 && id.X == 33)) (fun id => id.F == 0 && id.X == 33)

/-- /repo/deserialize/parser/state.go:214-280 `assembleOpSubstitutionNode`,
`assembleOpFirstOrderStatsNode`, `assembleOpDiffStatsNode`, `assembleOpReplacementNode`: the same
code for the operators 223, 224, 225 and 232, `open_` and `mark` are their 000 and 255 ids. -/
def assembleOpMarkedNode (open_ mark : ID) (d : Desc) : M PSt Ast :=
  if d.id = open_ then
    assembleAssessmentNode lk rec d (fun id => id.F == 1 || id == mark) (fun id => id == mark)
  else if d.id = mark then pure (.marker d)
  else M.fail (.msg "invalid operand")

/-- /repo/deserialize/parser/parser.go:120-188 `parseOperatorNode` -/
def parseOperatorNode : M PSt Ast := do
  let d ← takeLookup lk
  if d.id.Operator = 201 then pure (.nbitsOffset d)
  else if d.id.Operator = 202 then pure (.scaleOffset d)
  else if d.id.Operator = 203 then assembleOpNewRefvalNode rec d
  else if d.id.Operator = 204 then assembleOpAssocFieldNode rec d
  else if d.id.Operator = 205 then pure (.insertString d)
  else if d.id.Operator = 206 then assembleOpSkipLocalNode rec d
  else if d.id.Operator = 207 then pure (.modifyPacking d)
  else if d.id.Operator = 208 then pure (.setStringLength d)
  else if d.id.Operator = 221 then assembleOpDataNotPresentNode rec d
  else if d.id.Operator = 222 then assembleOpQaInfoNode lk rec d
  else if d.id.Operator = 223 then assembleOpMarkedNode lk rec 223000 223255 d
  else if d.id.Operator = 224 then assembleOpMarkedNode lk rec 224000 224255 d
  else if d.id.Operator = 225 then assembleOpMarkedNode lk rec 225000 225255 d
  else if d.id.Operator = 232 then assembleOpMarkedNode lk rec 232000 232255 d
  else if d.id.Operator = 235 then pure (.cancelBackRef d)
  else if d.id.Operator = 236 then do
    onKeeper Keeper.back
    parseBitmapNode lk rec
  else if d.id.Operator = 237 then
    if d.id.Y = 255 then pure (.cancelBitmap d)
    else do
      onKeeper Keeper.back
      parseBitmapNode lk rec
  else if d.id.Operator = 241 ∨ d.id.Operator = 242 ∨ d.id.Operator = 243 then
    M.fail (.msg "operator not implemented")
  else M.fail (.msg "unrecognised operator")

/-- /repo/deserialize/parser/state.go:112-141, the `switch` of `processThrough` -/
def parseOne (id : ID) : M PSt Ast :=
  if id.F = 3 then parseSequenceNode lk rec
  else if id.F = 1 ∧ id.Y = 0 then parseDelayedReplicationNode lk rec
  else if id.F = 1 then parseFixedReplicationNode lk rec
  else if id.F = 2 then parseOperatorNode lk rec
  else if id.F = 0 then parseElementNode lk
  else M.fail (.msg "unknown ID")

end Parser

/-- /repo/deserialize/parser/state.go:105-145 `processThrough`.  `fuel` bounds nested and following
iterations; `diverge` when exhausted. -/
def processThrough (lk : Lookup) : Nat → M PSt (List Ast)
  | 0 => M.loop
  | fuel + 1 => do
    if (← M.get).k.eof then pure []
    else do
      let id ← onKeeper Keeper.peek
      let node ← parseOne lk (processThrough lk fuel) id
      let nodes ← processThrough lk fuel
      pure (node :: nodes)

/-- /repo/deserialize/parser/parser.go:45-47 `Parse` by a new parser (:38-42) -/
def parse (lk : Lookup) (fuel : Nat) (ids : List ID) : Outcome Ast :=
  (populateMembers (processThrough lk fuel) ids (.base rootDescriptor) ⟨{}, newKeeper []⟩).1

end Gobufr
