import Verif.Model.Api
import Verif.Model.Path

/-!
# The runtime

Models /repo/runtime.go, the set-up in /repo/api/scriptrt.go and the registration of libraries and
types in /repo/api/*.go.

* The files are a function from paths to contents (`World.open`), the Lua compiler is a function from
  a text to a program (`World.compile`): both are external.  An error while reading a file is taken
  together with an error while opening it: both come back from `initScripts`.
* Of the Lua state these parts are kept: the globals that the runtime sets, the search path of
  `require`, the metatables.  What the standard libraries put there is `World.std`.
* The programs are those of `Verif.Model.Api`.
* `NewGlobalUserData` (/repo/api/scriptrt.go:44-48) is never called and left out.
-/

namespace Gobufr

variable {F : Type}

/-- What a global of the Lua state holds. -/
inductive Global where
  | num (i : Int)
  /-- a library: the names of its functions -/
  | lib (functions : List String)
  /-- anything that the standard libraries define -/
  | std
  deriving Repr, DecidableEq, Inhabited

/-- The part of a Lua state that the runtime sets up. -/
structure LuaState (F : Type) where
  globals : List (String × Global) := []
  /-- `package.path` -/
  pkgPath : GoString
  /-- metatables: the names of their functions -/
  types : List (String × List String) := []
  /-- the table `gobufrkit.runtime`, none if it does not exist -/
  scripts : Option (List (String × Prog F)) := none

/-- What the runtime takes from outside. -/
structure World (F : Type) where
  /-- `os.Open` and reading the file to its end -/
  open_ : GoString → Outcome (List UInt8)
  /-- `state.Load` of go-lua -/
  compile : List UInt8 → Outcome (Prog F)
  /-- a state after `lua.NewState` and `lua.OpenLibraries` -/
  std : LuaState F
  /-- the tables below a path, see `Tables` -/
  tablesAt : GoString → Tables

/-- /repo/runtime.go:11-20 `Config`; `fuel` as in `FacCfg`. -/
structure Config where
  definitionsPath : GoString
  tablesPath : GoString
  inputType : InputType
  compatible : Bool
  verbose : Bool
  fuel : Nat

/-- /repo/runtime.go:22-29 `toDeserializeConfig` -/
def Config.toDeserializeConfig (w : World F) (c : Config) : FacCfg where
  tables := w.tablesAt c.tablesPath
  inputType := c.inputType
  compatible := c.compatible
  verbose := c.verbose
  fuel := c.fuel

/-- /repo/api/scriptrt.go:18-22 `ScriptRt`.  The factory has the configuration `cfg` and the state
`fac`. -/
structure ScriptRt (F : Type) where
  definitionsPath : GoString
  state : LuaState F
  cfg : FacCfg
  fac : PFac F

namespace ScriptRt

/-- /repo/api/scriptrt.go:24-27 `NewScriptRt`; the libraries are opened by `init`, so that the
state is empty but for what Lua itself has. -/
def new (definitionsPath : GoString) (cfg : FacCfg) (fac : PFac F) : ScriptRt F :=
  ⟨definitionsPath, { pkgPath := [] }, cfg, fac⟩

/-- /repo/api/scriptrt.go:51-54 `NewGlobalSimpleValue` with an integer -/
def newGlobalInt (name : String) (i : Int) (r : ScriptRt F) : ScriptRt F :=
  { r with state := { r.state with globals := mapSet r.state.globals name (.num i) } }

/-- /repo/api/scriptrt.go:87-97 `initConstants` -/
def initConstants (r : ScriptRt F) : ScriptRt F :=
  let r := r.newGlobalInt "INT" DataType.INT
  let r := r.newGlobalInt "UINT" DataType.UINT
  let r := r.newGlobalInt "FLOAT" DataType.FLOAT
  let r := r.newGlobalInt "BOOL" DataType.BOOL
  let r := r.newGlobalInt "BYTES" DataType.BYTES
  let r := r.newGlobalInt "BINARY" DataType.BINARY
  r.newGlobalInt "BITS_PER_BYTE" 8

/-- /repo/api/scriptrt.go:100-108 `initPkgPath` -/
def initPkgPath (r : ScriptRt F) : ScriptRt F :=
  { r with state := { r.state with pkgPath := Path.join [r.definitionsPath, str "?.lua;"] ++ r.state.pkgPath } }

/-- /repo/api/scriptrt.go:57-66 `Load`: `lua.NewMetaTable` makes the table if it does not exist. -/
def load (w : World F) (text : List UInt8) (keyName : String) (r : ScriptRt F) : Outcome Unit × ScriptRt F :=
  let r := { r with state := { r.state with scripts := some (r.state.scripts.getD []) } }
  match w.compile text with
  | .ok p => (.ok (), { r with state := { r.state with scripts := some (mapSet (r.state.scripts.getD []) keyName p) } })
  | .err e => (.err e, r)
  | .panic x => (.panic x, r)
  | .diverge => (.diverge, r)

/-- /repo/api/scriptrt.go:15 `DESERIALIZER` -/
def DESERIALIZER : String := "DESERIALIZER"

/-- /repo/api/scriptrt.go:111-119 `initScripts` -/
def initScripts (w : World F) (r : ScriptRt F) : Outcome Unit × ScriptRt F :=
  match w.open_ (Path.join [r.definitionsPath, str "boot.lua"]) with
  | .ok text => r.load w text DESERIALIZER
  | .err e => (.err e, r)
  | .panic x => (.panic x, r)
  | .diverge => (.diverge, r)

/-- /repo/api/scriptrt.go:128-131 `initLibs`, /repo/api/libdeserializer.go:145-158 `Register`: the
library becomes a global. -/
def initLibs (r : ScriptRt F) : ScriptRt F :=
  { r with state := { r.state with globals := mapSet r.state.globals "factory" (.lib
      ["getMessage", "newMessage", "newSection", "newField", "newTemplateField", "newPayloadField",
       "padding", "peekEditionNumber", "initTableGroup"]) } }

/-- a metatable that is its own index, with functions: /repo/api/helpers.go:10-15 and the
`register…` functions below -/
def registerType (name : String) (functions : List String) (r : ScriptRt F) : ScriptRt F :=
  { r with state := { r.state with types := mapSet r.state.types name functions } }

/-- /repo/api/scriptrt.go:121-125 `initTypes`, /repo/api/objmessage.go:42-56, objsection.go:26-38,
objfield.go:39-52 -/
def initTypes (r : ScriptRt F) : ScriptRt F :=
  let r := r.registerType "gobufrkit.message" ["__tostring", "setProxyField", "getProxyField"]
  let r := r.registerType "gobufrkit.section" ["getField", "getNumberOfFields"]
  r.registerType "gobufrkit.field" ["__tostring", "value", "isMissing"]

/-- /repo/api/scriptrt.go:31-41 `Initialize` -/
def init (w : World F) (r : ScriptRt F) : Outcome Unit × ScriptRt F :=
  let r := { r with state := w.std }
  let r := r.initConstants
  let r := r.initPkgPath
  match r.initScripts w with
  | (.ok _, r) => (.ok (), r.initLibs.initTypes)
  | (.err e, r) => (.err e, r)
  | (.panic x, r) => (.panic x, r)
  | (.diverge, r) => (.diverge, r)

/-- /repo/api/scriptrt.go:69-84 `RunDeserializer`: a table that does not exist is nil, indexing it
raises an error outside of a protected call; calling a script that does not exist is an error. -/
def runDeserializer [GoFloat F] (r : ScriptRt F) : Outcome (Option MsgRef) × ScriptRt F :=
  match PFac.onFac Fac.seekStartSignature r.fac with
  | (.ok _, fac) =>
    match r.state.scripts with
    | none => (.panic "attempt to index a nil value", { r with fac := fac })
    | some scripts =>
      match mapGet scripts DESERIALIZER with
      | none => (.err (.msg "attempt to call a nil value"), { r with fac := fac })
      | some script =>
        match script.run r.cfg fac with
        | (.ok (.msg m), fac) => (.ok m, { r with fac := fac })
        | (.ok _, fac) => (.panic "interface conversion", { r with fac := fac })
        | (.err e, fac) => (.err e, { r with fac := fac })
        | (.panic x, fac) => (.panic x, { r with fac := fac })
        | (.diverge, fac) => (.diverge, { r with fac := fac })
  | (.err e, fac) => (.err e, { r with fac := fac })
  | (.panic x, fac) => (.panic x, { r with fac := fac })
  | (.diverge, fac) => (.diverge, { r with fac := fac })

end ScriptRt

/-- /repo/runtime.go:36-49 `NewRuntime`; the reader is given with its state. -/
def newRuntime (w : World F) (c : Config) (r : Reader F) : Outcome (ScriptRt F) :=
  match (ScriptRt.new c.definitionsPath (c.toDeserializeConfig w) (PFac.new r)).init w with
  | (.ok _, rt) => .ok rt
  | (.err e, _) => .err (.wrap "cannot initialise script runtime" e)
  | (.panic x, _) => .panic x
  | (.diverge, _) => .diverge

/-- /repo/runtime.go:51-53 `Run` -/
def Runtime.runWith [GoFloat F] (rt : ScriptRt F) : Outcome (Option MsgRef) × ScriptRt F := rt.runDeserializer

/-! ## Searching modules -/

/-- What `require` puts for each "?" of a template: the name with slashes for dots. -/
def modulePath (name : GoString) : GoString := Path.joinWith (ch '/') (Path.split (ch '.') name)

/-- a template with the module name filled in -/
def fillTemplate (name : GoString) : GoString → GoString
  | [] => []
  | c :: cs => if c = ch '?' then modulePath name ++ fillTemplate name cs else c :: fillTemplate name cs

/-- The files that `require` tries, in order, for a given `package.path`: this is Lua's rule, the
interpreter is external (Lua 5.2 manual, `package.searchpath`). -/
def candidates (pkgPath name : GoString) : List GoString :=
  ((Path.split (ch ';') pkgPath).filter fun t => t ≠ []).map (fillTemplate name)

end Gobufr
