import Verif.Model.Factory

/-!
# The message scripts and the runtime

Models /repo/_definitions/*.lua, the functions they call (/repo/api/libdeserializer.go,
helpers.go, objfield.go, objmessage.go), /repo/api/scriptrt.go and /repo/runtime.go.

* The Lua interpreter (github.com/Shopify/go-lua) is external.  Its numbers are represented
  exactly; all numbers the scripts handle come from fields of at most 24 bits when the input is
  binary.
* A Go error becomes a Lua error carrying its text, and comes back from `ProtectedCall` as an error:
  `raise`.  Whether `ProtectedCall` turns a Go panic into an error is left open: a panic stays a
  panic here.
* `require` finds and loads the files; the values left on the Lua stack after an error are left out.
-/

namespace Gobufr

variable {F : Type}

/-- A Lua value. -/
inductive LuaVal (F : Type) where
  | nil
  | num (i : Int)
  | float (f : F)
  | bool (b : Bool)
  | str (s : GoString)
  | userdata
  deriving Repr, DecidableEq, Inhabited

namespace LuaVal

/-- `state.ToInteger`, 0 for everything that is not a number.  (Numeric strings and floats do not
reach it.) -/
def toInteger : LuaVal F → Int
  | .num i => i
  | _ => 0

/-- `state.ToUnsigned`; see `toInteger`. -/
def toUnsigned (v : LuaVal F) : Nat := v.toInteger.toNat

/-- `state.ToBoolean`, and the condition of an `if` -/
def toBoolean : LuaVal F → Bool
  | .nil => false
  | .bool b => b
  | _ => true

/-- An operand of an arithmetic operation: anything but a number raises an error. -/
def number : LuaVal F → Outcome Int
  | .num i => .ok i
  | _ => .err (.msg "attempt to perform arithmetic on a non-number")

end LuaVal

/-- /repo/api/helpers.go:36-64 `pushFieldValue`, `pushSimpleValue`, called by
/repo/api/objfield.go:22-31 `value`. -/
def Field.luaValue (f : Field F) : Outcome (LuaVal F) :=
  match f.value with
  | .val (.binary _) => .ok .userdata
  | .val (.int i) => .ok (.num i)
  | .val (.uint n) => .ok (.num n)
  | .val (.str s) => .ok (.str s)
  | .val (.bool b) => .ok (.bool b)
  | .val (.float x) => .ok (.float x)
  | _ => .err (.msg "simple value push not implemented")

/-- Raise a Go error as a Lua error: `state.PushString(err.Error()); state.Error()`. -/
def raise (m : M σ α) : M σ α := M.wrapErr "lua" m

/-- A call `factory.newField { name, type, nbits; proxy = ... }` of a script. -/
structure FieldDecl where
  name : String
  dataType : DataType
  nbits : Int
  proxy : Bool := false
  deriving Repr, DecidableEq, Inhabited

namespace Script

open DataType

/-- The Lua global `BIN` is not set (/repo/api/scriptrt.go:87-97 sets `BINARY`): its value is nil,
which `state.ToInteger` (/repo/api/libdeserializer.go:56-58) turns into 0, that is `INT`. -/
def BIN : DataType := LuaVal.toInteger (F := Unit) .nil

/-- /repo/api/libdeserializer.go:51-75 `newField` -/
def newField [GoFloat F] (d : FieldDecl) : M (Fac F) (Field F) :=
  raise (Fac.newField (str d.name) d.dataType d.nbits d.proxy)

/-- successive calls of `factory.newField`, results dropped -/
def newFields [GoFloat F] : List FieldDecl → M (Fac F) Unit
  | [] => pure ()
  | d :: ds => do
    let _ ← newField d
    newFields ds

/-- `field:value()`, /repo/api/objfield.go:22-31 -/
def value (f : Field F) : M (Fac F) (LuaVal F) := M.lift (BitReader.wrapO "lua" f.luaValue)

/-- `message:getProxyField(name):value()`, /repo/api/objmessage.go:28-40.  The message is the
current one of the factory. -/
def proxyValue (name : String) : M (Fac F) (LuaVal F) := do
  let m ← Fac.theMessage
  let f ← M.lift (BitReader.wrapO "lua" (m.proxyField (str name)))
  value f

/-- /repo/api/libdeserializer.go:123-132 `padding` -/
def padding (length : LuaVal F) : M (Fac F) Unit := do
  let _ ← raise (Fac.padding length.toUnsigned)

/-- `local lengthInBytes = factory.newField { 'lengthInBytes', UINT, 24; }`, the beginning of the
sections 1 to 4 -/
def lengthField [GoFloat F] : M (Fac F) (Field F) := newField ⟨"lengthInBytes", UINT, 24, false⟩

/-- /repo/_definitions/common/section0.lua:4-16 -/
def fields0 : List FieldDecl :=
  [⟨"startSignature", BYTES, 32, false⟩, ⟨"totalLengthInBytes", UINT, 24, true⟩,
   ⟨"bufrEditionNumber", UINT, 8, true⟩]

/-- /repo/_definitions/common/section0.lua:1-19 -/
def section0 [GoFloat F] : M (Fac F) Unit := do
  Fac.newSection 0 (str "Indicator Section")
  newFields fields0

/-- /repo/_definitions/bufr4/section1.lua:8-90 -/
def fields1Edition4 : List FieldDecl :=
  [⟨"masterTableNumber", UINT, 8, true⟩, ⟨"originatingCentre", UINT, 16, true⟩,
   ⟨"originatingSubCentre", UINT, 16, true⟩, ⟨"updateSequenceNumber", UINT, 8, true⟩,
   ⟨"isSection2Presents", BOOL, 1, true⟩, ⟨"flagBits", BINARY, 7, false⟩,
   ⟨"dataCategory", UINT, 8, true⟩, ⟨"dataI18nSubCategory", UINT, 8, true⟩,
   ⟨"dataLocalSubCategory", UINT, 8, true⟩, ⟨"masterTableVersion", UINT, 8, true⟩,
   ⟨"localTableVersion", UINT, 8, true⟩, ⟨"year", UINT, 16, true⟩, ⟨"month", UINT, 8, true⟩,
   ⟨"day", UINT, 8, true⟩, ⟨"hour", UINT, 8, true⟩, ⟨"minute", UINT, 8, true⟩,
   ⟨"second", UINT, 8, true⟩]

/-- /repo/_definitions/bufr3/section1.lua:8-85 -/
def fields1Edition3 : List FieldDecl :=
  [⟨"masterTableNumber", UINT, 8, true⟩, ⟨"originatingSubCentre", UINT, 8, true⟩,
   ⟨"originatingCentre", UINT, 8, true⟩, ⟨"updateSequenceNumber", UINT, 8, true⟩,
   ⟨"isSection2Presents", BOOL, 1, true⟩, ⟨"flagBits", BIN, 7, false⟩,
   ⟨"dataCategory", UINT, 8, true⟩, ⟨"dataLocalSubCategory", UINT, 8, true⟩,
   ⟨"masterTableVersion", UINT, 8, true⟩, ⟨"localTableVersion", UINT, 8, true⟩,
   ⟨"year", UINT, 8, true⟩, ⟨"month", UINT, 8, true⟩, ⟨"day", UINT, 8, true⟩,
   ⟨"hour", UINT, 8, true⟩, ⟨"minute", UINT, 8, true⟩, ⟨"second", UINT, 8, true⟩]

/-- /repo/_definitions/bufr4/section1.lua:1-95, /repo/_definitions/bufr3/section1.lua:1-90 -/
def section1 [GoFloat F] (fields : List FieldDecl) : M (Fac F) Unit := do
  Fac.newSection 1 (str "Identification Section")
  let lengthInBytes ← lengthField
  newFields fields
  padding (← value lengthInBytes)

/-- /repo/_definitions/common/section2.lua:1-18 -/
def section2 [GoFloat F] : M (Fac F) Unit := do
  Fac.newSection 2 (str "Optional Section")
  let lengthInBytes ← lengthField
  let _ ← newField ⟨"reservedBits", BINARY, 8, false⟩
  let length ← M.lift ((← value lengthInBytes).number)
  let _ ← newField ⟨"localBits", BINARY, (length - 4) * 8, false⟩

/-- /repo/_definitions/common/section3.lua:8-29 -/
def fields3 : List FieldDecl :=
  [⟨"reservedBits", BIN, 8, false⟩, ⟨"nSubsets", UINT, 16, true⟩, ⟨"isObservation", BOOL, 1, true⟩,
   ⟨"isCompressed", BOOL, 1, true⟩, ⟨"flagBits", BIN, 6, false⟩]

/-- /repo/_definitions/common/section3.lua:1-38, with /repo/api/libdeserializer.go:77-101
`newTemplateField` -/
def section3 [GoFloat F] : M (Fac F) Unit := do
  Fac.newSection 3 (str "Data Description Section")
  let lengthInBytes ← lengthField
  newFields fields3
  let length ← value lengthInBytes
  let _ ← raise (Fac.newTemplateField (str "unexpandedTemplate") 2 6 8 length.toUnsigned)
  padding (← value lengthInBytes)

/-- /repo/_definitions/common/section4.lua:1-21, with /repo/api/libdeserializer.go:103-121
`newPayloadField` -/
def section4 [GoFloat F] (c : FacCfg) : M (Fac F) Unit := do
  Fac.newSection 4 (str "Data Section")
  let lengthInBytes ← lengthField
  let _ ← newField ⟨"reservedBits", BIN, 8, false⟩
  let nsubsets ← proxyValue "nSubsets"
  let compressed ← proxyValue "isCompressed"
  let _ ← raise (Fac.newPayloadField c (str "payload") nsubsets.toInteger compressed.toBoolean)
  padding (← value lengthInBytes)

/-- /repo/_definitions/common/section5.lua:1-12; the `assert` function of the table is never looked
at (/repo/api/libdeserializer.go:51-75). -/
def section5 [GoFloat F] : M (Fac F) Unit := do
  Fac.newSection 5 (str "End Section")
  newFields [⟨"stopSignature", BYTES, 32, false⟩]

/-- /repo/_definitions/bufr4/bufr4.lua:20-27, /repo/_definitions/bufr3/bufr3.lua:20-27, with
/repo/api/libdeserializer.go:36-49 `initTableGroup` -/
def initTableGroup (c : FacCfg) : M (Fac F) Unit := do
  let master ← proxyValue "masterTableNumber"
  let centre ← proxyValue "originatingCentre"
  let subCentre ← proxyValue "originatingSubCentre"
  let masterVersion ← proxyValue "masterTableVersion"
  let localVersion ← proxyValue "localTableVersion"
  raise (Fac.initTableGroup c master.toInteger centre.toInteger subCentre.toInteger
    masterVersion.toInteger localVersion.toInteger)

/-- /repo/_definitions/bufr4/bufr4.lua:14-16, /repo/_definitions/bufr3/bufr3.lua:14-16 -/
def optionalSection2 [GoFloat F] : M (Fac F) Unit := do
  let present ← proxyValue "isSection2Presents"
  if present.toBoolean then section2 else pure ()

/-- /repo/_definitions/bufr4/bufr4.lua:1-33, /repo/_definitions/bufr3/bufr3.lua:1-33; they differ in
section 1. The returned message is the object the factory holds. -/
def deserialise [GoFloat F] (c : FacCfg) (fields1 : List FieldDecl) : M (Fac F) (Message F) := do
  let _ ← Fac.newMessage []
  section0
  section1 fields1
  optionalSection2
  section3
  initTableGroup c
  section4 c
  section5
  Fac.theMessage

/-- /repo/_definitions/boot.lua:1-15, with /repo/api/libdeserializer.go:134-143
`peekEditionNumber` -/
def boot [GoFloat F] (c : FacCfg) : M (Fac F) (Message F) := do
  let editionNumber ← raise Fac.peekEditionNumber
  if editionNumber = 4 then deserialise c fields1Edition4
  else if editionNumber = 3 then deserialise c fields1Edition3
  else M.fail (.msg "Invalid BUFR edition number")

end Script

/-- /repo/api/scriptrt.go:69-84 `RunDeserializer`, /repo/runtime.go:51-53 `Runtime.Run` -/
def Runtime.run [GoFloat F] (c : FacCfg) : M (Fac F) (Message F) := do
  Fac.seekStartSignature
  Script.boot c

end Gobufr
