import Verif.Model.Script

/-!
# Definition scripts and the objects they hold

Models the same code as `Verif.Model.Factory` and `Verif.Model.Script` once more
(/repo/deserialize/factory.go, /repo/api/*.go, /repo/_definitions/*.lua), now with the pointers that
the factory and the scripts share: messages, sections and fields are objects in a memory, and what a
script gets from a call is a reference to one of them.  Here a script is any program (`Prog`) over
the functions that /repo/api offers to Lua.

* `Message`, `Section` and `Field` are changed only through these functions.  A field is not changed
  after its creation: nothing in /repo/api assigns to one.
* The Lua language is reduced to what a script can do with the functions: call one, go on depending
  on the result, raise an error, catch the errors of a part (`pcall`), return a value.  A script that
  runs for ever is left out.  A number given where a string is expected is taken as the empty string.
* `__tostring` of messages and fields (/repo/api/objmessage.go:14-19, /repo/api/objfield.go:15-21)
  only formats and is left out.
* A panic in Go ends the script, see `Verif.Model.Script`.
-/

namespace Gobufr

variable {F : Type}

/-- A `*bufr.Field` other than nil: position among the fields created so far. -/
abbrev FieldRef := Nat
/-- A `*bufr.Section` other than nil. -/
abbrev SecRef := Nat
/-- A `*bufr.Message` other than nil. -/
abbrev MsgRef := Nat

/-- /repo/bufr/section.go:10-25 `Section`; see `Section`. -/
structure SecObj where
  number : Int
  description : GoString
  startByteIndex : Int := 0
  padding : Int := 0
  fields : List FieldRef := []
  deriving Repr, DecidableEq, Inhabited

/-- /repo/bufr/message.go:10-22 `Message`; see `Message`. -/
structure MsgObj where
  inputPath : GoString
  sections : List SecRef := []
  proxyFields : List (GoString × FieldRef) := []
  deriving Repr, DecidableEq, Inhabited

/-- The objects created so far. -/
structure Mem (F : Type) where
  fields : List (Field F) := []
  sections : List SecObj := []
  messages : List MsgObj := []
  deriving Repr, DecidableEq, Inhabited

/-- /repo/deserialize/factory.go:69-82 `DefaultFactory` with its pointers `message` and `section`
(here `sec`); `none` is nil. -/
structure PFac (F : Type) where
  r : Reader F
  mem : Mem F := {}
  message : Option MsgRef := none
  sec : Option SecRef := none
  ut : Option UnexpandedTemplate := none
  tableGroup : Option ChainGroup := none
  deriving Repr, DecidableEq, Inhabited

namespace PFac

/-- /repo/deserialize/factory.go:84-86 `NewDefaultFactory` -/
def new (r : Reader F) : PFac F := { r := r }

/-- A part of the factory's code that does not look at the message. -/
def onFac (m : M (Fac F) α) : M (PFac F) α :=
  M.zoom (fun p => ⟨p.r, none, p.ut, p.tableGroup⟩)
    (fun s p => { p with r := s.r, ut := s.ut, tableGroup := s.tableGroup }) m

/-- `fac.message`, dereferenced -/
def theMessage : M (PFac F) MsgRef := fun p =>
  match p.message with
  | some i => (.ok i, p)
  | none => (.panic "nil pointer dereference", p)

/-- `fac.section`, dereferenced -/
def theSection : M (PFac F) SecRef := fun p =>
  match p.sec with
  | some i => (.ok i, p)
  | none => (.panic "nil pointer dereference", p)

/-- `section.… = …` -/
def changeSection (i : SecRef) (g : SecObj → SecObj) : M (PFac F) Unit :=
  M.modify fun p => { p with mem := { p.mem with sections := p.mem.sections.modify i g } }

/-- `message.… = …` -/
def changeMessage (i : MsgRef) (g : MsgObj → MsgObj) : M (PFac F) Unit :=
  M.modify fun p => { p with mem := { p.mem with messages := p.mem.messages.modify i g } }

/-- /repo/bufr/field.go:76-84 `NewField`, `NewHiddenField`: a new object -/
def allocField (f : Field F) : M (PFac F) FieldRef := fun p =>
  (.ok p.mem.fields.length, { p with mem := { p.mem with fields := p.mem.fields ++ [f] } })

/-- `fac.section.AddField(field)`, /repo/bufr/section.go:52-54 -/
def addField (f : FieldRef) : M (PFac F) Unit := do
  let s ← theSection
  changeSection s fun x => { x with fields := x.fields ++ [f] }

/-- `message.SetProxyField(field)`, /repo/bufr/message.go:50-52; the name is read from the field. -/
def setProxyOf (i : MsgRef) (f : FieldRef) : M (PFac F) Unit := fun p =>
  match p.mem.fields[f]? with
  | none => (.panic "nil pointer dereference", p)
  | some x => changeMessage i (fun m => { m with proxyFields := mapSet m.proxyFields x.name f }) p

/-- `fac.message.SetProxyField(field)` -/
def setProxyField (f : FieldRef) : M (PFac F) Unit := do
  let i ← theMessage
  setProxyOf i f

/-- /repo/deserialize/factory.go:92-95 `NewMessage` -/
def newMessage (inputPath : GoString) : M (PFac F) MsgRef := fun p =>
  (.ok p.mem.messages.length,
    { p with mem := { p.mem with messages := p.mem.messages ++ [{ inputPath := inputPath }] }
             message := some p.mem.messages.length })

/-- /repo/bufr/section.go:71-78 `NewSection`: a new object -/
def allocSection (number : Int) (description : GoString) : M (PFac F) SecRef := fun p =>
  (.ok p.mem.sections.length,
    { p with mem := { p.mem with sections := p.mem.sections ++
      [{ number := number, description := description }] } })

/-- /repo/deserialize/factory.go:97-101 `NewSection`, /repo/bufr/message.go:44-48 -/
def newSection (number : Int) (description : GoString) : M (PFac F) SecRef := do
  let i ← theMessage
  let s ← allocSection number description
  changeMessage i fun m => { m with sections := m.sections ++ [s] }
  M.modify fun p => { p with sec := some s }
  let pos ← M.gets fun p => p.r.pos
  changeSection s fun x => { x with startByteIndex := pos.tdiv 8 }
  pure s

/-- /repo/deserialize/factory.go:136-146, 172-178, 210-213: put the new field into the current
section and make it a proxy field if asked for. -/
def putField (field : Field F) (proxy : Bool) : M (PFac F) FieldRef := do
  let f ← allocField field
  addField f
  if proxy then setProxyField f
  pure f

/-- /repo/deserialize/factory.go:113-147 `NewField` -/
def newField [GoFloat F] (name : GoString) (dataType : DataType) (nbits : Int) (proxy : Bool) :
    M (PFac F) FieldRef := do
  let value ← onFac (Fac.onReader (Fac.readValue dataType nbits))
  putField (Gobufr.newField name (.val value) nbits) proxy

/-- /repo/deserialize/factory.go:151-152, 217-219; see `Fac.bitsLeft`. -/
def bitsLeft (sectionLengthInBytes : Nat) : M (PFac F) Int := do
  let s ← theSection
  M.gets fun p => (sectionLengthInBytes : Int) * 8 -
    (p.r.pos - (p.mem.sections[s]?.elim 0 (·.startByteIndex)) * 8)

/-- /repo/deserialize/factory.go:149-178 `NewTemplateField` -/
def newTemplateField [GoFloat F] (name : GoString) (fbits xbits ybits : Int)
    (sectionLengthInBytes : Nat) : M (PFac F) FieldRef := do
  let remainingBits ← bitsLeft sectionLengthInBytes
  let idBits := fbits + xbits + ybits
  if idBits = 0 then M.crash "integer divide by zero"
  else if remainingBits.tdiv idBits < 0 then M.crash "makeslice: len out of range"
  else do
    let ids ← onFac (Fac.onReader (Fac.readIds fbits xbits ybits (remainingBits.tdiv idBits).toNat))
    let ut : UnexpandedTemplate := ⟨ids, fbits, xbits, ybits⟩
    M.modify fun p => { p with ut := some ut }
    putField (Gobufr.newField name (.template ut) (ids.length * idBits)) true

/-- /repo/deserialize/factory.go:180-214 `NewPayloadField` -/
def newPayloadField [GoFloat F] (c : FacCfg) (name : GoString) (nsubsets : Int) (compressed : Bool) :
    M (PFac F) FieldRef := do
  let spos ← M.gets fun p => p.r.pos
  let tree ← onFac (Fac.parseTemplate c)
  onFac (Fac.verboseDump c tree)
  let pay ← onFac (Fac.decodePayload c tree nsubsets compressed)
  let epos ← M.gets fun p => p.r.pos
  putField (Gobufr.newField name (.payload pay) (epos - spos)) true

/-- /repo/deserialize/factory.go:216-237 `Padding`; see `Fac.padding`. -/
def padding (sectionLengthInBytes : Nat) : M (PFac F) Unit := do
  let bitsPadding ← bitsLeft sectionLengthInBytes
  if bitsPadding = 0 then pure ()
  else if bitsPadding < 0 then M.fail (.msg "read beyond section boundary")
  else do
    let s ← theSection
    changeSection s fun x => { x with padding := bitsPadding }
    let binary ← M.wrapErr "cannot read padding" (onFac (Fac.onReader (Reader.readBinary bitsPadding)))
    match binary with
    | none => M.crash "nil pointer dereference"
    | some b => do
      let _ ← putField (newHiddenField (str "padding") (.val (.binary (some b))) b.nbits) false

end PFac

/-! ## What scripts handle -/

/-- The values of a script: plain Lua values, and messages, sections and fields as user data
(/repo/api/helpers.go:17-33 `pushMessage`, `pushSection`, `pushField`).  `msg none` and `fld none` are
user data holding a nil pointer (/repo/api/libdeserializer.go:14-17, /repo/api/objsection.go:13-18). -/
inductive LVal (F : Type) where
  | lua (v : LuaVal F)
  | msg (m : Option MsgRef)
  | sec (s : SecRef)
  | fld (f : Option FieldRef)
  deriving Repr, DecidableEq, Inhabited

namespace LVal

/-- The value as seen by `state.ToInteger` and the like: an object is user data. -/
def plain : LVal F → LuaVal F
  | .lua v => v
  | _ => .userdata

/-- `state.ToString`: a number is written in decimal, anything else that is not a string gives the empty
string.  (The interpreter writes numbers with 14 significant digits; integers with more of them and numbers that
are not integers, given here as the empty string, do not reach it.) -/
def toText : LVal F → GoString
  | .lua (.str s) => s
  | .lua (.num i) => itoa i
  | _ => []

/-- nil -/
def nil : LVal F := .lua .nil

end LVal

/-- The functions of the library `factory` (/repo/api/libdeserializer.go:145-158) and the methods of
messages (/repo/api/objmessage.go:42-54), sections (/repo/api/objsection.go:26-36) and fields
(/repo/api/objfield.go:39-50), with their arguments. -/
inductive Op (F : Type) where
  | getMessage
  | newMessage (inputPath : LVal F)
  | newSection (number description : LVal F)
  | initTableGroup (masterTableNo centreNo subCentreNo wmoVersion localVersion : LVal F)
  | newField (name dataType nbits proxy : LVal F)
  | newTemplateField (name fbits xbits ybits length : LVal F)
  | newPayloadField (name nsubsets compressed : LVal F)
  | padding (length : LVal F)
  | peekEditionNumber
  | setProxyField (message field : LVal F)
  | getProxyField (message name : LVal F)
  | getField (section_ name : LVal F)
  | getNumberOfFields (section_ : LVal F)
  | value (field : LVal F)
  | isMissing (field : LVal F)
  deriving Repr, DecidableEq, Inhabited

namespace Op

/-- `x:method()` where the metatable of `x` has no such method, or none -/
def noMethod : M (PFac F) α := M.fail (.msg "attempt to call a nil value")

/-- a pointer to a message, dereferenced -/
def derefMsg (m : Option MsgRef) : M (PFac F) (MsgRef × MsgObj) := fun p =>
  match m with
  | none => (.panic "nil pointer dereference", p)
  | some i =>
    match p.mem.messages[i]? with
    | none => (.panic "nil pointer dereference", p)
    | some x => (.ok (i, x), p)

/-- a pointer to a section, dereferenced -/
def derefSec (i : SecRef) : M (PFac F) SecObj := fun p =>
  match p.mem.sections[i]? with
  | none => (.panic "nil pointer dereference", p)
  | some x => (.ok x, p)

/-- a pointer to a field, dereferenced -/
def derefFld (f : Option FieldRef) : M (PFac F) (Field F) := fun p =>
  match f with
  | none => (.panic "nil pointer dereference", p)
  | some i =>
    match p.mem.fields[i]? with
    | none => (.panic "nil pointer dereference", p)
    | some x => (.ok x, p)

/-- /repo/bufr/section.go:58-65 `FieldByName` -/
def fieldNamed (mem : Mem F) (name : GoString) : List FieldRef → Option FieldRef
  | [] => none
  | f :: fs =>
    if mem.fields[f]?.elim false (fun x => x.name == name) then some f else fieldNamed mem name fs

/-- What a call does.  Arguments are converted as by `state.ToInteger`, `ToString`, `ToUnsigned` and
`ToBoolean`; a Go error is raised as a Lua error. -/
def run [GoFloat F] (c : FacCfg) : Op F → M (PFac F) (LVal F)
  /- /repo/api/libdeserializer.go:14-17, /repo/deserialize/factory.go:88-90 -/
  | getMessage => M.gets fun p => .msg p.message
  /- /repo/api/libdeserializer.go:19-24 -/
  | newMessage path => do
    let i ← PFac.newMessage path.toText
    pure (.msg (some i))
  /- /repo/api/libdeserializer.go:26-34 -/
  | newSection number description => do
    let s ← PFac.newSection number.plain.toInteger description.toText
    pure (.sec s)
  /- /repo/api/libdeserializer.go:36-49 -/
  | initTableGroup a b d e g => do
    raise (PFac.onFac (Fac.initTableGroup c a.plain.toInteger b.plain.toInteger d.plain.toInteger
      e.plain.toInteger g.plain.toInteger))
    pure .nil
  /- /repo/api/libdeserializer.go:51-75 -/
  | newField name dataType nbits proxy => do
    let f ← raise (PFac.newField name.toText dataType.plain.toInteger nbits.plain.toInteger
      proxy.plain.toBoolean)
    pure (.fld (some f))
  /- /repo/api/libdeserializer.go:77-101 -/
  | newTemplateField name fbits xbits ybits length => do
    let f ← raise (PFac.newTemplateField name.toText fbits.plain.toInteger xbits.plain.toInteger
      ybits.plain.toInteger length.plain.toUnsigned)
    pure (.fld (some f))
  /- /repo/api/libdeserializer.go:103-121 -/
  | newPayloadField name nsubsets compressed => do
    let f ← raise (PFac.newPayloadField c name.toText nsubsets.plain.toInteger
      compressed.plain.toBoolean)
    pure (.fld (some f))
  /- /repo/api/libdeserializer.go:123-132 -/
  | padding length => do
    raise (PFac.padding length.plain.toUnsigned)
    pure .nil
  /- /repo/api/libdeserializer.go:134-143 -/
  | peekEditionNumber => do
    let n ← raise (PFac.onFac Fac.peekEditionNumber)
    pure (.lua (.num n))
  /- /repo/api/objmessage.go:21-26; the field is any user data, another type panics. -/
  | setProxyField m f =>
    match m with
    | .msg m => do
      match f with
      | .fld (some f) => do
        let (i, _) ← derefMsg m
        PFac.setProxyOf i f
        pure .nil
      | .fld none => M.crash "nil pointer dereference"
      | _ => M.crash "interface conversion"
    | _ => noMethod
  /- /repo/api/objmessage.go:28-40 -/
  | getProxyField m name =>
    match m with
    | .msg m => do
      let (_, x) ← derefMsg m
      match mapGet x.proxyFields name.toText with
      | some f => pure (.fld (some f))
      | none => raise (M.fail (.msg "no proxy field"))
    | _ => noMethod
  /- /repo/api/objsection.go:13-18 -/
  | getField s name =>
    match s with
    | .sec i => do
      let x ← derefSec i
      M.gets fun p => .fld (fieldNamed p.mem name.toText x.fields)
    | _ => noMethod
  /- /repo/api/objsection.go:20-24 -/
  | getNumberOfFields s =>
    match s with
    | .sec i => do
      let x ← derefSec i
      pure (.lua (.num x.fields.length))
    | _ => noMethod
  /- /repo/api/objfield.go:22-31 -/
  | value f =>
    match f with
    | .fld f => do
      let x ← derefFld f
      let v ← M.lift (BitReader.wrapO "lua" x.luaValue)
      pure (.lua v)
    | _ => noMethod
  /- /repo/api/objfield.go:33-37 -/
  | isMissing f =>
    match f with
    | .fld f => do
      let x ← derefFld f
      pure (.lua (.bool x.isMissing))
    | _ => noMethod

end Op

/-- A definition script. -/
inductive Prog (F : Type) where
  | ret (v : LVal F)
  | error (e : Err)
  | call (op : Op F) (k : LVal F → Prog F)
  /-- `pcall(f)`: `none` tells that `f` raised an error. -/
  | pcall (f : Prog F) (k : Option (LVal F) → Prog F)

namespace Prog

/-- Run a script.  The Lua interpreter is external, see above. -/
def run [GoFloat F] (c : FacCfg) : Prog F → M (PFac F) (LVal F)
  | ret v => pure v
  | error e => M.fail e
  | call op k => op.run c >>= fun v => run c (k v)
  | pcall f k => M.handle (run c f) fun
    | .ok v => run c (k (some v))
    | .err _ => run c (k none)
    | .panic w => M.crash w
    | .diverge => M.loop

/-- Call a Lua function and go on with its result. -/
def bind : Prog F → (LVal F → Prog F) → Prog F
  | ret v, k => k v
  | error e, _ => error e
  | call op k, k' => call op fun v => bind (k v) k'
  | pcall f k, k' => pcall f fun o => bind (k o) k'

end Prog

/-! ## The scripts of /repo/_definitions -/

namespace Lua

/-- a number in a script -/
def num (i : Int) : LVal F := .lua (.num i)
/-- a string in a script -/
def text (s : String) : LVal F := .lua (.str (str s))

/-- the global `BITS_PER_BYTE`, /repo/api/scriptrt.go:96 -/
def BITS_PER_BYTE : Int := 8

/-- The globals for data types, /repo/api/scriptrt.go:87-95; a global that was not set is nil. -/
def dataTypes : List (String × DataType) :=
  [("INT", DataType.INT), ("UINT", DataType.UINT), ("FLOAT", DataType.FLOAT),
   ("BOOL", DataType.BOOL), ("BYTES", DataType.BYTES), ("BINARY", DataType.BINARY)]

/-- the value of a global -/
def global (name : String) : LVal F :=
  match dataTypes.lookup name with
  | some t => num t
  | none => .nil

/-- The fields of a section as the scripts write them: name, data type, number of bits, proxy. -/
abbrev Decl := String × String × Int × Bool

/-- `factory.newField { … }`; `proxy` is nil where it is not given. -/
def newField (d : Decl) (k : LVal F → Prog F) : Prog F :=
  .call (.newField (text d.1) (global d.2.1) (num d.2.2.1)
    (if d.2.2.2 then .lua (.bool true) else .nil)) k

/-- successive calls of `factory.newField` -/
def newFields : List Decl → Prog F → Prog F
  | [], k => k
  | d :: ds, k => newField d fun _ => newFields ds k

/-- `message:getProxyField(name):value()` -/
def proxyValue (message : LVal F) (name : String) (k : LVal F → Prog F) : Prog F :=
  .call (.getProxyField message (text name)) fun f => .call (.value f) k

/-- /repo/_definitions/common/section0.lua:1-19 -/
def section0 : Prog F :=
  .call (.newSection (num 0) (text "Indicator Section")) fun section_ =>
  newFields [("startSignature", "BYTES", 32, false), ("totalLengthInBytes", "UINT", 24, true),
    ("bufrEditionNumber", "UINT", 8, true)] <|
  .ret section_

/-- /repo/_definitions/bufr4/section1.lua:8-90 -/
def fields1Edition4 : List Decl :=
  [("masterTableNumber", "UINT", 8, true), ("originatingCentre", "UINT", 16, true),
   ("originatingSubCentre", "UINT", 16, true), ("updateSequenceNumber", "UINT", 8, true),
   ("isSection2Presents", "BOOL", 1, true), ("flagBits", "BINARY", 7, false),
   ("dataCategory", "UINT", 8, true), ("dataI18nSubCategory", "UINT", 8, true),
   ("dataLocalSubCategory", "UINT", 8, true), ("masterTableVersion", "UINT", 8, true),
   ("localTableVersion", "UINT", 8, true), ("year", "UINT", 16, true), ("month", "UINT", 8, true),
   ("day", "UINT", 8, true), ("hour", "UINT", 8, true), ("minute", "UINT", 8, true),
   ("second", "UINT", 8, true)]

/-- /repo/_definitions/bufr3/section1.lua:8-85 -/
def fields1Edition3 : List Decl :=
  [("masterTableNumber", "UINT", 8, true), ("originatingSubCentre", "UINT", 8, true),
   ("originatingCentre", "UINT", 8, true), ("updateSequenceNumber", "UINT", 8, true),
   ("isSection2Presents", "BOOL", 1, true), ("flagBits", "BIN", 7, false),
   ("dataCategory", "UINT", 8, true), ("dataLocalSubCategory", "UINT", 8, true),
   ("masterTableVersion", "UINT", 8, true), ("localTableVersion", "UINT", 8, true),
   ("year", "UINT", 8, true), ("month", "UINT", 8, true), ("day", "UINT", 8, true),
   ("hour", "UINT", 8, true), ("minute", "UINT", 8, true), ("second", "UINT", 8, true)]

/-- /repo/_definitions/bufr4/section1.lua:1-95, /repo/_definitions/bufr3/section1.lua:1-90 -/
def section1 (fields : List Decl) : Prog F :=
  .call (.newSection (num 1) (text "Identification Section")) fun section_ =>
  newField ("lengthInBytes", "UINT", 24, false) fun lengthInBytes =>
  newFields fields <|
  .call (.value lengthInBytes) fun length =>
  .call (.padding length) fun _ =>
  .ret section_

/-- /repo/_definitions/common/section2.lua:1-18 -/
def section2 : Prog F :=
  .call (.newSection (num 2) (text "Optional Section")) fun section_ =>
  newField ("lengthInBytes", "UINT", 24, false) fun lengthInBytes =>
  newField ("reservedBits", "BINARY", 8, false) fun _ =>
  .call (.value lengthInBytes) fun length =>
  match length.plain.number with
  | .ok n => newField ("localBits", "BINARY", (n - 4) * BITS_PER_BYTE, false) fun _ => .ret section_
  | .err e => .error e
  | _ => .ret section_

/-- /repo/_definitions/common/section3.lua:1-38 -/
def section3 : Prog F :=
  .call (.newSection (num 3) (text "Data Description Section")) fun section_ =>
  newField ("lengthInBytes", "UINT", 24, false) fun lengthInBytes =>
  newFields [("reservedBits", "BIN", 8, false), ("nSubsets", "UINT", 16, true),
    ("isObservation", "BOOL", 1, true), ("isCompressed", "BOOL", 1, true),
    ("flagBits", "BIN", 6, false)] <|
  .call (.value lengthInBytes) fun length =>
  .call (.newTemplateField (text "unexpandedTemplate") (num 2) (num 6) (num 8) length) fun _ =>
  .call (.value lengthInBytes) fun length =>
  .call (.padding length) fun _ =>
  .ret section_

/-- /repo/_definitions/common/section4.lua:1-21 -/
def section4 : Prog F :=
  .call (.newSection (num 4) (text "Data Section")) fun section_ =>
  newField ("lengthInBytes", "UINT", 24, false) fun lengthInBytes =>
  newField ("reservedBits", "BIN", 8, false) fun _ =>
  .call .getMessage fun message => proxyValue message "nSubsets" fun nsubsets =>
  .call .getMessage fun message => proxyValue message "isCompressed" fun compressed =>
  .call (.newPayloadField (text "payload") nsubsets compressed) fun _ =>
  .call (.value lengthInBytes) fun length =>
  .call (.padding length) fun _ =>
  .ret section_

/-- /repo/_definitions/common/section5.lua:1-12 -/
def section5 : Prog F :=
  .call (.newSection (num 5) (text "End Section")) fun section_ =>
  newFields [("stopSignature", "BYTES", 32, false)] <|
  .ret section_

/-- /repo/_definitions/bufr4/bufr4.lua:1-33, /repo/_definitions/bufr3/bufr3.lua:1-33 -/
def deserialise (fields1 : List Decl) : Prog F :=
  .call (.newMessage .nil) fun message =>
  section0.bind fun _ =>
  (section1 fields1).bind fun _ =>
  (proxyValue message "isSection2Presents" fun present =>
    if present.plain.toBoolean then section2 else .ret .nil).bind fun _ =>
  section3.bind fun _ =>
  proxyValue message "masterTableNumber" fun master =>
  proxyValue message "originatingCentre" fun centre =>
  proxyValue message "originatingSubCentre" fun subCentre =>
  proxyValue message "masterTableVersion" fun masterVersion =>
  proxyValue message "localTableVersion" fun localVersion =>
  .call (.initTableGroup master centre subCentre masterVersion localVersion) fun _ =>
  section4.bind fun _ =>
  section5.bind fun _ =>
  .ret message

/-- /repo/_definitions/boot.lua:1-15 -/
def boot : Prog F :=
  .call .peekEditionNumber fun editionNumber =>
  match editionNumber.plain with
  | .num n =>
    if n = 4 then deserialise fields1Edition4
    else if n = 3 then deserialise fields1Edition3
    else .error (.msg "Invalid BUFR edition number")
  | _ => .error (.msg "Invalid BUFR edition number")

end Lua

/-- /repo/api/scriptrt.go:69-84 `RunDeserializer` with a given script: the script must return a
message, anything else fails the type assertion. -/
def PFac.runScript [GoFloat F] (c : FacCfg) (script : Prog F) : M (PFac F) (Option MsgRef) := do
  onFac Fac.seekStartSignature
  let v ← script.run c
  match v with
  | .msg m => pure m
  | _ => M.crash "interface conversion"

/-! ## What an object holds -/

/-- The objects behind a list of references, `none` if one of them does not exist. -/
def derefAll (g : α → Option β) : List α → Option (List β)
  | [] => some []
  | i :: is =>
    match g i, derefAll g is with
    | some a, some as => some (a :: as)
    | _, _ => none

/-- The fields behind the entries of the proxy table. -/
def derefProxies (g : Nat → Option α) : List (GoString × Nat) → Option (List (GoString × α))
  | [] => some []
  | (k, i) :: is =>
    match g i, derefProxies g is with
    | some a, some as => some ((k, a) :: as)
    | _, _ => none

/-- A section with its fields. -/
def SecObj.view (fields : List (Field F)) (x : SecObj) : Option (Section F) :=
  match derefAll (fields[·]?) x.fields with
  | none => none
  | some fs => some ⟨x.number, x.description, x.startByteIndex, x.padding, fs⟩

/-- The section as it looks now. -/
def Mem.section? (mem : Mem F) (i : SecRef) : Option (Section F) :=
  match mem.sections[i]? with
  | none => none
  | some x => x.view mem.fields

/-- The message as it looks now. -/
def Mem.message? (mem : Mem F) (i : MsgRef) : Option (Message F) :=
  match mem.messages[i]? with
  | none => none
  | some x =>
    match derefAll mem.section? x.sections, derefProxies (mem.fields[·]?) x.proxyFields with
    | some ss, some ps => some ⟨x.inputPath, ss, ps⟩
    | _, _ => none

end Gobufr
