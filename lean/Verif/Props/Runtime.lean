import Verif.Spec.Runtime
import Verif.Proofs.Path
import Verif.Props.Api

/-!
# Properties of the runtime: C103 (setting it up), C104 (finding modules)
-/

namespace Gobufr

open Spec Objects

variable {F : Type}

theorem join_boot (dir : GoString) : Path.join [dir, str "boot.lua"] = below dir (str "boot.lua") := by
  rw [Path.join_dir dir (by simp) (by
    intro f hf
    rw [List.mem_singleton] at hf
    subst hf
    exact ⟨by decide, by decide, by decide, by decide⟩)]
  rfl

/-! ## C103 -/

/-- The state of a runtime after `NewRuntime`. -/
def readyRuntime (w : World F) (c : Config) (r : Reader F) (prog : Prog F) : ScriptRt F :=
  let rt := (({ ScriptRt.new c.definitionsPath (c.toDeserializeConfig w) (PFac.new r) with state := w.std } :
    ScriptRt F).initConstants.initPkgPath)
  ({ rt with state := { rt.state with
      scripts := some (mapSet (rt.state.scripts.getD []) "DESERIALIZER" prog) } } : ScriptRt F).initLibs.initTypes

theorem newRuntime_eq (w : World F) (c : Config) (r : Reader F) :
    newRuntime w c r =
      match w.open_ (below c.definitionsPath (str "boot.lua")) with
      | .ok text =>
        match w.compile text with
        | .ok prog => .ok (readyRuntime w c r prog)
        | .err e => .err (.wrap "cannot initialise script runtime" e)
        | .panic x => .panic x
        | .diverge => .diverge
      | .err e => .err (.wrap "cannot initialise script runtime" e)
      | .panic x => .panic x
      | .diverge => .diverge := by
  unfold newRuntime ScriptRt.init ScriptRt.initScripts
  simp only []
  rw [show (ScriptRt.initPkgPath (ScriptRt.initConstants { ScriptRt.new c.definitionsPath (c.toDeserializeConfig w) (PFac.new r) with
    state := w.std })).definitionsPath = c.definitionsPath from rfl, join_boot]
  cases w.open_ (below c.definitionsPath (str "boot.lua")) with
  | ok text =>
    simp only [ScriptRt.load]
    cases w.compile text <;> rfl
  | err e => rfl
  | panic x => rfl
  | diverge => rfl

/-- **C103** (success).  A runtime can be set up exactly if `boot.lua` of the definitions directory can
be read and is a Lua script. -/
theorem C103_succeeds_iff (w : World F) (c : Config) (r : Reader F) :
    (∃ rt, newRuntime w c r = .ok rt) ↔
      ∃ text prog, w.open_ (below c.definitionsPath (str "boot.lua")) = .ok text ∧ w.compile text = .ok prog := by
  rw [newRuntime_eq]
  constructor
  · rintro ⟨rt, h⟩
    split at h
    · rename_i text ht
      split at h
      · rename_i prog hp
        exact ⟨text, prog, ht, hp⟩
      all_goals cases h
    all_goals cases h
  · rintro ⟨text, prog, ht, hp⟩
    rw [ht]
    simp only [hp]
    exact ⟨_, rfl⟩

/-- **C103** (failure).  If `boot.lua` cannot be read or is no Lua script, the error tells so. -/
theorem C103_fails (w : World F) (c : Config) (r : Reader F) (e : Err)
    (h : w.open_ (below c.definitionsPath (str "boot.lua")) = .err e ∨
      ∃ text, w.open_ (below c.definitionsPath (str "boot.lua")) = .ok text ∧ w.compile text = .err e) :
    newRuntime w c r = .err (.wrap "cannot initialise script runtime" e) := by
  rw [newRuntime_eq]
  rcases h with h | ⟨text, h1, h2⟩
  · rw [h]
  · rw [h1]
    simp only [h2]

theorem readyRuntime_scripts (w : World F) (c : Config) (r : Reader F) (prog : Prog F) :
    ∃ ss, (readyRuntime w c r prog).state.scripts = some ss ∧ mapGet ss "DESERIALIZER" = some prog :=
  ⟨_, rfl, by simp [mapSet, mapGet]⟩

theorem run_script [GoFloat F] {rt : ScriptRt F} {ss : List (String × Prog F)} {prog : Prog F}
    (h1 : rt.state.scripts = some ss) (h2 : mapGet ss "DESERIALIZER" = some prog) :
    rt.runDeserializer
      = ((PFac.runScript rt.cfg prog rt.fac).1, { rt with fac := (PFac.runScript rt.cfg prog rt.fac).2 }) := by
  unfold ScriptRt.runDeserializer PFac.runScript ScriptRt.DESERIALIZER
  rw [M.bind_apply]
  cases hs : PFac.onFac Fac.seekStartSignature rt.fac with
  | mk o fac =>
    cases o with
    | ok u =>
      simp only [h1, h2]
      rw [M.bind_apply]
      cases hp : prog.run rt.cfg fac with
      | mk o fac' =>
        cases o with
        | ok v => cases v <;> rfl
        | err e => rfl
        | panic x => rfl
        | diverge => rfl
    | err e => rfl
    | panic x => rfl
    | diverge => rfl

/-- **C103** (running).  A runtime runs the script of `boot.lua`, with the tables, the kind of input and
the other settings of its configuration, on the reader it was given: every run, as often as it is run,
does what the script does, starting from what the former runs left. -/
theorem C103_runs [GoFloat F] (w : World F) (c : Config) (r : Reader F) {text : List UInt8} {prog : Prog F}
    (ht : w.open_ (below c.definitionsPath (str "boot.lua")) = .ok text) (hp : w.compile text = .ok prog) :
    ∃ rt, newRuntime w c r = .ok rt ∧ rt.fac = PFac.new r ∧
      ∀ fac : PFac F, Runtime.runWith ({ rt with fac := fac } : ScriptRt F)
        = ((PFac.runScript ⟨w.tablesAt c.tablesPath, c.inputType, c.compatible, c.verbose, c.fuel⟩ prog fac).1,
           { rt with fac := (PFac.runScript ⟨w.tablesAt c.tablesPath, c.inputType, c.compatible, c.verbose, c.fuel⟩ prog fac).2 }) := by
  refine ⟨readyRuntime w c r prog, ?_, rfl, fun fac => ?_⟩
  · rw [newRuntime_eq, ht]
    simp only [hp]
  · obtain ⟨ss, h1, h2⟩ := readyRuntime_scripts w c r prog
    exact run_script (rt := { readyRuntime w c r prog with fac := fac }) h1 h2

/-- **C103** (the shipped scripts).  If `boot.lua` is the script of the repository, the first run returns
the message that `Runtime.run` describes, or fails in the same way. -/
theorem C103_shipped [GoFloat F] (w : World F) (c : Config) (r : Reader F) {text : List UInt8}
    (ht : w.open_ (below c.definitionsPath (str "boot.lua")) = .ok text) (hp : w.compile text = .ok Lua.boot) :
    ∃ rt, newRuntime w c r = .ok rt ∧
      (Runtime.runWith rt).2.fac.r = (Runtime.run (c.toDeserializeConfig w) (Fac.new r)).2.r ∧
      Delivers {} (Runtime.runWith rt).2.fac.mem (Runtime.runWith rt).1
        (Runtime.run (c.toDeserializeConfig w) (Fac.new r)).1 := by
  obtain ⟨rt, h1, h2, h3⟩ := C103_runs w c r ht hp
  refine ⟨rt, h1, ?_⟩
  have h4 := h3 (PFac.new r)
  rw [← h2] at h4
  rw [show ({ rt with fac := rt.fac } : ScriptRt F) = rt from rfl] at h4
  rw [h4, h2]
  exact (C97_run (c.toDeserializeConfig w) (PFac.new r)).2

/-- **C103** (not initialised).  A runtime whose `Initialize` was not called has no scripts: it panics as
soon as it has found a message, and fails as the search does if it finds none. -/
theorem C103_unready [GoFloat F] (path : GoString) (cfg : FacCfg) (fac : PFac F) :
    ((ScriptRt.new path cfg fac).runDeserializer.1.isPanic = true ↔
      (PFac.onFac Fac.seekStartSignature fac).1 = .ok () ∨ (PFac.onFac Fac.seekStartSignature fac).1.isPanic = true) ∧
    ∀ e, (ScriptRt.new path cfg fac).runDeserializer.1 = .err e ↔ (PFac.onFac Fac.seekStartSignature fac).1 = .err e := by
  unfold ScriptRt.runDeserializer ScriptRt.new
  dsimp only
  cases hs : PFac.onFac Fac.seekStartSignature fac with
  | mk o fac =>
    cases o with
    | ok u => simp [Outcome.isPanic]
    | err e => simp [Outcome.isPanic]
    | panic x => simp [Outcome.isPanic]
    | diverge => simp [Outcome.isPanic]

/-- **C103** (names).  Scripts find the constants, the library `factory`, and everything else as the
standard libraries left it. -/
theorem C103_names (w : World F) (c : Config) (r : Reader F) {rt : ScriptRt F} (h : newRuntime w c r = .ok rt) :
    (∀ name i, Constant name i → mapGet rt.state.globals name = some (.num i)) ∧
    mapGet rt.state.globals "factory" = some (.lib library) ∧
    (∀ name, (∀ i, ¬ Constant name i) → name ≠ "factory" → mapGet rt.state.globals name = mapGet w.std.globals name) := by
  obtain ⟨text, prog, ht, hp⟩ := (C103_succeeds_iff w c r).1 ⟨rt, h⟩
  rw [newRuntime_eq, ht] at h
  simp only [hp] at h
  cases h
  refine ⟨?_, rfl, ?_⟩
  · intro name i hc
    cases hc <;> rfl
  · intro name hc hf
    have h1 : ∀ n i, Constant n i → n ≠ name := fun n i hn e => hc i (e ▸ hn)
    show mapGet (mapSet (mapSet (mapSet (mapSet (mapSet (mapSet (mapSet (mapSet w.std.globals "INT" _) "UINT" _) "FLOAT" _)
      "BOOL" _) "BYTES" _) "BINARY" _) "BITS_PER_BYTE" _) "factory" _) name = _
    simp only [mapSet, mapGet, if_neg (Ne.symm hf), if_neg (h1 _ _ .int), if_neg (h1 _ _ .uint), if_neg (h1 _ _ .float),
      if_neg (h1 _ _ .bool), if_neg (h1 _ _ .bytes), if_neg (h1 _ _ .binary), if_neg (h1 _ _ .bitsPerByte)]

/-- **C103** (types).  The objects that scripts get have the functions of `Verif.Model.Api` and no others;
the other types stay as they are. -/
theorem C103_types (w : World F) (c : Config) (r : Reader F) {rt : ScriptRt F} (h : newRuntime w c r = .ok rt) :
    (∀ name functions, ObjectType name functions → mapGet rt.state.types name = some functions) ∧
    (∀ name, (∀ functions, ¬ ObjectType name functions) → mapGet rt.state.types name = mapGet w.std.types name) := by
  obtain ⟨text, prog, ht, hp⟩ := (C103_succeeds_iff w c r).1 ⟨rt, h⟩
  rw [newRuntime_eq, ht] at h
  simp only [hp] at h
  cases h
  refine ⟨?_, ?_⟩
  · intro name i hc
    cases hc <;> rfl
  · intro name hc
    have h1 : ∀ n i, ObjectType n i → n ≠ name := fun n i hn e => hc i (e ▸ hn)
    have hset : ∀ {l : List (String × List String)} {k : String} {v : List String}, k ≠ name →
        mapGet (mapSet l k v) name = mapGet l name := by
      intro l k v hk
      simp only [mapSet, mapGet, if_neg hk]
    exact (hset (h1 _ _ .field)).trans ((hset (h1 _ _ .section_)).trans (hset (h1 _ _ .message)))

/-- **C103** (data types).  What the scripts of `Verif.Model.Api` take a name for is what the runtime
stored under it. -/
theorem C103_datatypes (w : World F) (c : Config) (r : Reader F) {rt : ScriptRt F} (h : newRuntime w c r = .ok rt)
    (name : String) (t : Int) (ht : Lua.dataTypes.lookup name = some t) :
    mapGet rt.state.globals name = some (.num t) ∧ (Lua.global name : LVal F) = Lua.num t := by
  constructor
  · refine (C103_names w c r h).1 name t ?_
    simp only [Lua.dataTypes, List.lookup] at ht
    repeat' split at ht
    all_goals first
      | (cases ht; rename_i e; rw [eq_of_beq e]; constructor)
      | cases ht
  · unfold Lua.global
    rw [ht]

/-! ## C104 -/

/-- **C104**.  A module that a script requires is looked for in the definitions directory first. -/
def C104_statement : Prop :=
  ∀ (F : Type) (w : World F) (c : Config) (r : Reader F) (rt : ScriptRt F), newRuntime w c r = .ok rt →
    ∀ parts : List GoString, parts ≠ [] → (∀ p ∈ parts, NamePart p) →
      (candidates rt.state.pkgPath (moduleName parts)).head? = some (moduleFile c.definitionsPath parts)

theorem newRuntime_pkgPath {w : World F} {c : Config} {r : Reader F} {rt : ScriptRt F} (h : newRuntime w c r = .ok rt) :
    rt.state.pkgPath = Path.join [c.definitionsPath, str "?.lua;"] ++ w.std.pkgPath := by
  obtain ⟨text, prog, ht, hp⟩ := (C103_succeeds_iff w c r).1 ⟨rt, h⟩
  rw [newRuntime_eq, ht] at h
  simp only [hp] at h
  cases h
  rfl

theorem join_template (dir : GoString) : Path.join [dir, str "?.lua;"] = below dir (str "?.lua;") := by
  rw [Path.join_dir dir (by simp) (by
    intro f hf
    rw [List.mem_singleton] at hf
    subst hf
    exact ⟨by decide, by decide, by decide, by decide⟩)]
  rfl

theorem below_append (dir a b : GoString) : below dir a ++ b = below dir (a ++ b) := List.append_assoc _ _ _

theorem below_eq (dir a : GoString) : below dir a = below dir [] ++ a := by
  unfold below
  simp only [List.append_nil]

theorem mem_below {dir : GoString} {x : UInt8} (h : x ∈ below dir []) : x ∈ dir ∨ x = ch '/' ∨ x = ch '.' := by
  unfold below at h
  rw [List.append_nil] at h
  split at h
  · cases h
  · split at h
    · exact .inr (.inl (by simpa [str] using h))
    · rcases List.mem_append.1 h with h | h
      · exact Path.mem_clean h
      · exact .inr (.inl (by simpa [str] using h))

theorem fillTemplate_append (name : GoString) : ∀ a b : GoString,
    fillTemplate name (a ++ b) = fillTemplate name a ++ fillTemplate name b
  | [], _ => rfl
  | c :: cs, b => by
    simp only [List.cons_append, fillTemplate, fillTemplate_append name cs b]
    split <;> simp

theorem fillTemplate_none {name : GoString} : ∀ {a : GoString}, ch '?' ∉ a → fillTemplate name a = a
  | [], _ => rfl
  | c :: cs, h => by
    rw [fillTemplate, if_neg (fun e => h (by simp [e])), fillTemplate_none (fun e => h (by simp [e]))]

theorem modulePath_name {parts : List GoString} (h : parts ≠ []) (hp : ∀ p ∈ parts, NamePart p) :
    modulePath (moduleName parts) = List.intercalate (str "/") parts := by
  unfold modulePath
  rw [show moduleName parts = Path.joinWith (ch '.') parts from rfl,
    Path.split_joinWith h fun p hq hc => ((hp p hq).2 _ hc).1 rfl]
  rfl

/-- **C104**, for definitions directories whose path has no semicolon and no question mark. -/
theorem C104_partial (w : World F) (c : Config) (r : Reader F) {rt : ScriptRt F} (h : newRuntime w c r = .ok rt)
    (h1 : ch ';' ∉ c.definitionsPath) (h2 : ch '?' ∉ c.definitionsPath)
    {parts : List GoString} (hn : parts ≠ []) (hp : ∀ p ∈ parts, NamePart p) :
    (candidates rt.state.pkgPath (moduleName parts)).head? = some (moduleFile c.definitionsPath parts) := by
  have h1' : ch ';' ∉ below c.definitionsPath [] ++ str "?.lua" := by
    intro hm
    rcases List.mem_append.1 hm with hm | hm
    · rcases mem_below hm with hm | hm | hm
      · exact h1 hm
      · revert hm; decide
      · revert hm; decide
    · revert hm; decide
  have h2' : ch '?' ∉ below c.definitionsPath [] := by
    intro hm
    rcases mem_below hm with hm | hm | hm
    · exact h2 hm
    · revert hm; decide
    · revert hm; decide
  rw [newRuntime_pkgPath h, join_template, below_eq,
    show below c.definitionsPath [] ++ str "?.lua;" ++ w.std.pkgPath
      = (below c.definitionsPath [] ++ str "?.lua") ++ ch ';' :: w.std.pkgPath by simp [str]]
  unfold candidates
  rw [Path.split_append, Path.split_noSep h1', List.filter_append, List.filter_cons_of_pos (by simp [str])]
  simp only [List.filter_nil, List.cons_append, List.map_cons, List.head?_cons, Option.some.injEq]
  rw [fillTemplate_append, fillTemplate_none h2', show str "?.lua" = ch '?' :: str ".lua" from rfl, fillTemplate, if_pos rfl,
    modulePath_name hn hp, fillTemplate_none (by decide)]
  unfold moduleFile
  rw [below_eq c.definitionsPath (_ ++ _)]

/-- **C104** (the rest of the path).  What the search path was before is still searched, after the
definitions directory. -/
theorem C104_keeps (w : World F) (c : Config) (r : Reader F) {rt : ScriptRt F} (h : newRuntime w c r = .ok rt)
    (name : GoString) :
    ∃ first, candidates rt.state.pkgPath name = first ++ candidates w.std.pkgPath name := by
  rw [newRuntime_pkgPath h, join_template, below_eq,
    show below c.definitionsPath [] ++ str "?.lua;" ++ w.std.pkgPath
      = (below c.definitionsPath [] ++ str "?.lua") ++ ch ';' :: w.std.pkgPath by simp [str]]
  unfold candidates
  rw [Path.split_append, List.filter_append, List.map_append]
  exact ⟨_, rfl⟩

namespace RuntimeExample

/-- Two definitions directories with the shipped scripts. -/
def world : World ToyFloat where
  open_ path := if path = str "/usr/defs/boot.lua" ∨ path = str "a;b/boot.lua" then .ok [] else .err .notExist
  compile _ := .ok Lua.boot
  std := { pkgPath := str "./?.lua", globals := [("print", .std)] }
  tablesAt _ := MessageExample.tables

/-- A configuration. -/
def config (dir : GoString) : Config := ⟨dir, str "tables", .binary, false, false, 100⟩

/-- A message of edition 4. -/
def reader : Reader ToyFloat := .bin (.new (MessageExample.body ++ MessageExample.stop))

theorem runs {dir : GoString} (h : below dir (str "boot.lua") = str "/usr/defs/boot.lua" ∨
    below dir (str "boot.lua") = str "a;b/boot.lua") : ∃ rt, newRuntime world (config dir) reader = .ok rt :=
  (C103_succeeds_iff _ _ _).2 ⟨[], Lua.boot, if_pos h, rfl⟩

end RuntimeExample

open RuntimeExample

/-- C104 is violated: with a semicolon in its path, the definitions directory is not searched. -/
theorem C104_violates : ¬ C104_statement := by
  intro h
  obtain ⟨rt, hr⟩ := runs (dir := str "a;b") (.inr (by decide))
  have h1 := h _ world _ _ rt hr [str "m"] (by simp) (by
    intro p hp
    rw [List.mem_singleton] at hp
    subst hp
    exact ⟨by decide, by decide⟩)
  rw [newRuntime_pkgPath hr] at h1
  revert h1
  decide

-- a directory named in a roundabout way
example : ∃ rt, newRuntime world (config (str "/usr//lib/../defs/")) reader = .ok rt ∧
    candidates rt.state.pkgPath (str "bufr4.bufr4") = [str "/usr/defs/bufr4/bufr4.lua", str "./bufr4/bufr4.lua"] := by
  obtain ⟨rt, hr⟩ := runs (dir := str "/usr//lib/../defs/") (.inl (by decide))
  refine ⟨rt, hr, ?_⟩
  rw [newRuntime_pkgPath hr]
  decide

-- no such directory
example : newRuntime world (config (str "/usr")) reader
    = .err (.wrap "cannot initialise script runtime" .notExist) :=
  C103_fails _ _ _ _ (.inl (by decide))

-- a run of the shipped scripts
example : ∃ rt, newRuntime world (config (str "/usr/defs")) reader = .ok rt ∧ (Runtime.runWith rt).1 = .ok (some 0) := by
  obtain ⟨rt, h1, h2, h3⟩ := C103_runs world (config (str "/usr/defs")) reader (text := []) (prog := Lua.boot)
    (by decide) rfl
  refine ⟨rt, h1, ?_⟩
  rw [show Runtime.runWith rt = Runtime.runWith ({ rt with fac := rt.fac } : ScriptRt ToyFloat) from rfl, h3 rt.fac, h2]
  dsimp only
  decide +kernel

-- a runtime that was not initialised
example : (ScriptRt.new (str "/usr/defs") { tables := world.tablesAt [], inputType := .binary, compatible := false, verbose := false, fuel := 5 }
    (PFac.new reader)).runDeserializer.1.isPanic = true := by
  refine (C103_unready _ _ _).1.2 (.inl ?_)
  decide +kernel

end Gobufr
