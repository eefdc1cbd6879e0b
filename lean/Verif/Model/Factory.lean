import Verif.Model.Payload
import Verif.Model.Parser

/-!
# deserialize.DefaultFactory

Models /repo/deserialize/factory.go and /repo/deserialize/config.go.

* The factory's pointer to the current section is the last section of the current message: the
  code keeps pointing to a section of the former message between `NewMessage` and the next
  `NewSection`; no script adds a field in between (in the model that panics).
* `int` arithmetic on positions and lengths is unbounded: a section length read from a binary
  stream has 24 bits.
-/

namespace Gobufr

variable {F : Type}

/-- /repo/deserialize/config.go:8-13 `Config`.  `tables` is what the table manager finds below
`TablesPath`; `fuel` bounds the loops of the parser and of `NewBinaryFromUint` that need not
end (see `parse`, `newBinaryFromUint`). -/
structure FacCfg where
  tables : Tables
  inputType : InputType
  compatible : Bool
  verbose : Bool
  fuel : Nat

/-- /repo/deserialize/factory.go:69-82 `DefaultFactory`; `none` is nil. -/
structure Fac (F : Type) where
  r : Reader F
  message : Option (Message F)
  ut : Option UnexpandedTemplate
  tableGroup : Option ChainGroup
  deriving Repr, DecidableEq, Inhabited

/-- /repo/deserialize/factory.go:16-25 `DataType` -/
abbrev DataType := Int

namespace DataType
def INT : DataType := 0
def UINT : DataType := 1
def FLOAT : DataType := 2
def BOOL : DataType := 3
def BYTES : DataType := 4
def BINARY : DataType := 5
end DataType

/-- Change the last section of a message, if there is one. -/
def Message.modifyLast (m : Message F) (g : Section F → Section F) : Option (Message F) :=
  match m.sections.getLast? with
  | none => none
  | some s => some { m with sections := m.sections.dropLast ++ [g s] }

namespace Fac

/-- /repo/deserialize/factory.go:84-86 `NewDefaultFactory` -/
def new (r : Reader F) : Fac F := ⟨r, none, none, none⟩

/-- call a method of `fac.r` -/
def onReader (m : M (Reader F) α) : M (Fac F) α := M.zoom (·.r) (fun r s => { s with r := r }) m

/-- `fac.message`, dereferenced -/
def theMessage : M (Fac F) (Message F) := fun s =>
  match s.message with
  | some m => (.ok m, s)
  | none => (.panic "nil pointer dereference", s)

/-- `fac.section`, dereferenced -/
def theSection : M (Fac F) (Section F) := fun s =>
  match s.message.bind fun m => m.sections.getLast? with
  | some x => (.ok x, s)
  | none => (.panic "nil pointer dereference", s)

/-- `fac.section.… = …` -/
def changeSection (g : Section F → Section F) : M (Fac F) Unit := fun s =>
  match s.message.bind fun m => m.modifyLast g with
  | some m => (.ok (), { s with message := some m })
  | none => (.panic "nil pointer dereference", s)

/-- `fac.section.AddField(field)` -/
def addField (f : Field F) : M (Fac F) Unit := changeSection fun s => s.addField f

/-- `fac.message.SetProxyField(field)` -/
def setProxyField (f : Field F) : M (Fac F) Unit := fun s =>
  match s.message with
  | some m => (.ok (), { s with message := some (m.setProxyField f) })
  | none => (.panic "nil pointer dereference", s)

/-- /repo/deserialize/factory.go:92-95 `NewMessage` -/
def newMessage (inputPath : GoString) : M (Fac F) (Message F) := fun s =>
  (.ok (Gobufr.newMessage inputPath), { s with message := some (Gobufr.newMessage inputPath) })

/-- /repo/deserialize/factory.go:97-101 `NewSection`; `/` truncates. -/
def newSection (number : Int) (description : GoString) : M (Fac F) Unit := do
  let m ← theMessage
  M.modify fun s => { s with message := some (m.newSection number description) }
  let pos ← M.gets fun s => s.r.pos
  changeSection fun x => { x with startByteIndex := pos.tdiv 8 }

/-- /repo/deserialize/factory.go:103-111 `InitTableGroup` -/
def initTableGroup (c : FacCfg) (masterTableNo centreNo subCentreNo wmoVersion localVersion : Int) :
    M (Fac F) Unit := fun s =>
  match addLocalAndWmoTableGroups c.tables masterTableNo centreNo subCentreNo wmoVersion localVersion ⟨[]⟩ with
  | (.ok _, ctg) => (.ok (), { s with tableGroup := some ctg })
  | (.err e, _) => (.err e, s)
  | (.panic w, _) => (.panic w, s)
  | (.diverge, _) => (.diverge, s)

/-- /repo/deserialize/factory.go:119-134, the `switch` of `NewField` -/
def readValue [GoFloat F] (dataType : DataType) (nbits : Int) : M (Reader F) (Val F) :=
  if dataType = DataType.UINT then do let v ← Reader.readUint nbits; pure (.uint v)
  else if dataType = DataType.INT then do let v ← Reader.readInt nbits; pure (.int v)
  else if dataType = DataType.FLOAT then do let v ← Reader.readFloat32; pure (.float v)
  else if dataType = DataType.BOOL then do let v ← Reader.readBool; pure (.bool v)
  else if dataType = DataType.BYTES then do let v ← Reader.readBytes (nbits.tdiv 8); pure (.bytes v)
  else if dataType = DataType.BINARY then do let v ← Reader.readBinary nbits; pure (.binary v)
  else M.fail (.msg "unsupported data type")

/-- /repo/deserialize/factory.go:113-147 `NewField` -/
def newField [GoFloat F] (name : GoString) (dataType : DataType) (nbits : Int) (proxy : Bool) :
    M (Fac F) (Field F) := do
  let value ← onReader (readValue dataType nbits)
  let field := Gobufr.newField name (.val value) nbits
  addField field
  if proxy then setProxyField field
  pure field

/-- The number of bits left in the current section according to the given length,
/repo/deserialize/factory.go:151-152 and 217-219. -/
def bitsLeft (sectionLengthInBytes : Nat) : M (Fac F) Int := do
  let section_ ← theSection
  M.gets fun s => (sectionLengthInBytes : Int) * 8 - (s.r.pos - section_.startByteIndex * 8)

/-- /repo/deserialize/factory.go:158-170, the body of the loop; `uint` and `int` wrap around. -/
def readId [GoFloat F] (fbits xbits ybits : Int) : M (Reader F) ID := do
  let f ← Reader.readUint fbits
  let x ← Reader.readUint xbits
  let y ← Reader.readUint ybits
  pure (toInt64 ((f * 100000 + x * 1000 + y : Nat) : Int))

/-- /repo/deserialize/factory.go:157-171, the loop of `NewTemplateField` -/
def readIds [GoFloat F] (fbits xbits ybits : Int) : Nat → M (Reader F) (List ID)
  | 0 => pure []
  | k + 1 => do
    let id ← readId fbits xbits ybits
    let ids ← readIds fbits xbits ybits k
    pure (id :: ids)

/-- /repo/deserialize/factory.go:149-178 `NewTemplateField`; the division truncates and panics for
0, `make` panics on a negative length. -/
def newTemplateField [GoFloat F] (name : GoString) (fbits xbits ybits : Int)
    (sectionLengthInBytes : Nat) : M (Fac F) (Field F) := do
  let remainingBits ← bitsLeft sectionLengthInBytes
  let idBits := fbits + xbits + ybits
  if idBits = 0 then M.crash "integer divide by zero"
  else if remainingBits.tdiv idBits < 0 then M.crash "makeslice: len out of range"
  else do
    let ids ← onReader (readIds fbits xbits ybits (remainingBits.tdiv idBits).toNat)
    let ut : UnexpandedTemplate := ⟨ids, fbits, xbits, ybits⟩
    M.modify fun s => { s with ut := some ut }
    let field := Gobufr.newField name (.template ut) (ids.length * idBits)
    addField field
    setProxyField field
    pure field

/-- The table group as the parser uses it; a nil interface panics when called. -/
def lookup (s : Fac F) : Lookup :=
  match s.tableGroup with
  | some g => g.lookup
  | none => fun _ => .panic "nil pointer dereference"

/-- /repo/deserialize/factory.go:182-185: parse the current template -/
def parseTemplate (c : FacCfg) : M (Fac F) Ast := fun s =>
  match s.ut with
  | some ut => (Outcome.wrapErr "cannot parse template" (parse (lookup s) c.fuel ut.ids), s)
  | none => (.panic "nil pointer dereference", s)

/-- /repo/deserialize/factory.go:187-190: what is printed is left out, the error is ignored. -/
def verboseDump (c : FacCfg) (tree : Ast) : M (Fac F) Unit :=
  if c.verbose then M.ignoreErr () (M.lift (AstDump.visit tree ⟨[], []⟩).1) else pure ()

/-- The visitor returned by `NewDeserializeVisitor` before its first `reset`, which sets every
component but the reader. -/
def freshVis (r : Reader F) : Vis F where
  r := r
  heap := []
  node := 0
  stack := []
  cells := .flat []
  nbitsOffset := 0
  scaleOffset := 0
  newRefval := none
  assoc := []
  nbitsIncrement := 0
  scaleIncrement := 0
  refvalFactor := 0
  nbitsString := 0
  bm := {}

/-- /repo/deserialize/factory.go:192-209: decode the subsets; the reader is shared between the
factory and the visitor. -/
def decodePayload [GoFloat F] (c : FacCfg) (tree : Ast) (nsubsets : Int) (compressed : Bool) :
    M (Fac F) (Payload F) := do
  let vc ← M.lift (newDeserializeVisitor c.fuel compressed c.inputType c.compatible nsubsets)
  let n := if compressed = true ∧ c.inputType = .binary then 1 else nsubsets
  M.zoom (fun s => freshVis s.r) (fun v s => { s with r := v.r })
    (Vis.decodeSubsets vc tree n.toNat { compressed := compressed })

/-- /repo/deserialize/factory.go:180-214 `NewPayloadField` -/
def newPayloadField [GoFloat F] (c : FacCfg) (name : GoString) (nsubsets : Int) (compressed : Bool) :
    M (Fac F) (Field F) := do
  let spos ← M.gets fun s => s.r.pos
  let tree ← parseTemplate c
  verboseDump c tree
  let pay ← decodePayload c tree nsubsets compressed
  let epos ← M.gets fun s => s.r.pos
  let field := Gobufr.newField name (.payload pay) (epos - spos)
  addField field
  setProxyField field
  pure field

/-- /repo/deserialize/factory.go:216-237 `Padding`; `none` is the nil field.  `binary.Nbits()` on a
nil pointer panics. -/
def padding (sectionLengthInBytes : Nat) : M (Fac F) (Option (Field F)) := do
  let bitsPadding ← bitsLeft sectionLengthInBytes
  if bitsPadding = 0 then pure none
  else if bitsPadding < 0 then M.fail (.msg "read beyond section boundary")
  else do
    changeSection fun s => { s with padding := bitsPadding }
    let binary ← M.wrapErr "cannot read padding" (onReader (Reader.readBinary bitsPadding))
    match binary with
    | none => M.crash "nil pointer dereference"
    | some b => do
      let field := newHiddenField (str "padding") (.val (.binary (some b))) b.nbits
      addField field
      pure (some field)

/-- /repo/deserialize/factory.go:239-245 `CheckEOF`; `err == io.EOF` compares the error itself. -/
def checkEOF [GoFloat F] : M (Fac F) Bool :=
  M.handle (onReader (Reader.peekUint 0 8)) fun
    | .ok _ => pure false
    | .err e => if e = .eof then pure true else M.fail e
    | .panic w => M.crash w
    | .diverge => M.loop

/-- /repo/deserialize/factory.go:248-254 `PeekEditionNumber` -/
def peekEditionNumber [GoFloat F] : M (Fac F) Nat := onReader (Reader.peekUint 7 8)

/-- /repo/deserialize/factory.go:256-269, the loop of `SeekStartSignature`; `fuel` bounds its
iterations. -/
def seekLoop : Nat → M (Reader F) Unit
  | 0 => M.loop
  | fuel + 1 => do
    let bs ← Reader.peekBytes 0 4
    if bs.length < 4 then M.fail .eof
    else if bs = str "BUFR" then pure ()
    else do
      M.handle (Reader.readBytes 1) fun
        | .panic w => M.crash w
        | .diverge => M.loop
        | _ => seekLoop fuel

/-- An upper bound for the number of bits or tokens a reader can still deliver. -/
def left : Reader F → Nat
  | .bin r => r.src.length
  | .json r => r.base.toks.length + r.cache.length

/-- /repo/deserialize/factory.go:256-269 `SeekStartSignature` with enough fuel: every iteration
that goes on consumes a byte or a token (`C68_terminates`). -/
def seekStartSignature : M (Fac F) Unit := onReader fun r => seekLoop (left r + 1) r

end Fac

end Gobufr
