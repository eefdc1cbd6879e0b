/-
Runs the model on the files in /repo/_testdata and compares with the recordings.
Not part of the Lean project: it uses compiled code and IO.  A recording of several messages is to be split beforehand
into the documents /tmp/expected/NAME.0.json, /tmp/expected/NAME.1.json and so on.
Start in lean/: lake env lean --run Run.lean NAME ...
-/
import Lean.Data.Json
import Verif.Model.Runtime
import Verif.Model.Script
import Verif.Model.Marshal
open Gobufr Lean

def f64i (f : Float) : Int := if f < 0 then -( (-f).toUInt64.toNat : Int) else (f.toUInt64.toNat : Int)
def p10 (n : Int) : Float := if n < 0 then 1 / Float.ofNat (10 ^ n.natAbs) else Float.ofNat (10 ^ n.natAbs)
instance : GoFloat Float where
  ofNat n := Float.ofNat n
  ofInt i := if i < 0 then - Float.ofNat i.natAbs else Float.ofNat i.natAbs
  add := (· + ·)
  mul := (· * ·)
  div := (· / ·)
  pow10 := p10
  isZero a := a == 0
  eq a b := a == b
  roundUint a := a.round.toUInt64.toNat
  roundInt a := f64i a.round
  truncUint a := a.toUInt64.toNat
  truncInt a := f64i a
  ofFloat32Bits n := (Float32.ofBits n.toUInt32).toFloat
  toFloat32Bits a := a.toFloat32.toBits.toNat

def toStr' (s : GoString) : String := String.fromUTF8! (ByteArray.mk s.toArray)
def conv : Lean.Json → Gobufr.Json Float
  | .null => .null
  | .bool b => .bool b
  | .num n => .num n.toFloat
  | .str s => .str s.toUTF8.toList
  | .arr a => .arr (a.toList.attach.map fun ⟨x, _⟩ => match x with
      | .str s => .str s.toUTF8.toList
      | .num n => .num n.toFloat
      | _ => .null)
  | .obj _ => .obj

def loadFile (path : String) : IO (Option (List (GoString × List (Gobufr.Json Float)))) := do
  if !(← System.FilePath.pathExists path) then return none
  let t ← IO.FS.readFile path
  match Lean.Json.parse t with
  | .error e => throw (IO.userError e)
  | .ok j => match j.getObj? with
    | .error e => throw (IO.userError e)
    | .ok o => return some (o.toList.map fun (k, v) =>
        (k.toUTF8.toList, match v with | .arr a => a.toList.map conv | _ => []))

def outc (o : Outcome α) : String := match o with
  | .ok _ => "ok" | .panic w => "PANIC " ++ w | .diverge => "DIVERGE"
  | .err e => "ERR " ++ toString (repr e)

/-- all tables on disk, loaded lazily through the model's loaders -/
def tablesOf (dir : String) : IO Tables := do
  let root : System.FilePath := dir
  -- read every table directory
  let mut all : Array (TableNum × Option (List (GoString × List (Gobufr.Json Float))) × Option (List (GoString × List (Gobufr.Json Float)))) := #[]
  for m in (← root.readDir) do
    for c in (← m.path.readDir) do
      for s in (← c.path.readDir) do
        for v in (← s.path.readDir) do
          match m.fileName.toInt?, c.fileName.toInt?, s.fileName.toInt?, v.fileName.toInt? with
          | some a, some b, some d, some e =>
            if a == 0 then
              all := all.push (⟨a, b, d, e⟩, ← loadFile (v.path / "TableB.json").toString, ← loadFile (v.path / "TableD.json").toString)
          | _, _, _, _ => pure ()
  let l := all.toList
  return {
    getB := fun n => match l.find? (fun x => x.1 == n) with
      | some (_, some b, _) => loadTableB (fun _ => .ok b) []
      | _ => .err .notExist
    getD := fun n => match l.find? (fun x => x.1 == n) with
      | some (_, _, some d) => loadTableD (fun _ => .ok d) []
      | _ => .err .notExist }

/-- our value against the expected JSON -/
def same (v : Val Float) (j : Lean.Json) : Bool := match v, j with
  | .nil, .null => true
  | .uint n, .num m => (Float.ofNat n) == m.toFloat
  | .int i, .num m => (GoFloat.ofInt i : Float) == m.toFloat
  | .float f, .num m => f == m.toFloat
  | .bool b, .bool c => b == c
  | .bytes b, .str s => b == s.toUTF8.toList
  | .str b, .str s => b == s.toUTF8.toList
  | .binary (some b), .str s => b.string == s.toUTF8.toList
  | .binary none, .null => true
  | _, _ => false

def shown (v : Val Float) : String := match v with
  | .bytes b => s!"bytes {String.fromUTF8? (ByteArray.mk b.toArray)}"
  | .binary (some b) => "bits " ++ toStr' b.string
  | .binary none => "bits none"
  | .nil => "nil" | .uint n => s!"uint {n}" | .int n => s!"int {n}" | .float f => s!"float {f}" | .bool b => s!"{b}" | .str s => s!"str {toStr' s}"

def cmpL (where_ : String) (vs : List (Val Float)) (js : List Lean.Json) : IO Nat := do
  let mut bad := 0
  if vs.length != js.length then
    IO.println s!"  {where_}: {vs.length} values, expected {js.length}"
    bad := bad + 1
  let mut i := 0
  for (v, j) in vs.zip js do
    if !same v j then
      bad := bad + 1
      if bad ≤ 8 then IO.println s!"  {where_}[{i}]: {shown v}, expected {j.compress}"
    i := i + 1
  return bad

def cmpMsg (m : Message Float) (secs : Array Lean.Json) : IO Unit := do
        let mut bad := 0
        let mut hdr := 0
        let mut n := 0
        let mut nsub := 0
        if secs.size != m.sections.length then IO.println s!"  sections: {m.sections.length}, expected {secs.size}"; bad := bad + 1
        for (s, j) in m.sections.zip secs.toList do
          match j with
          | .arr fs =>
            if fs.size != s.fields.length then IO.println s!"  fields of section {s.number}: {s.fields.length}, expected {fs.size}"; bad := bad + 1
            for (f, fj) in s.fields.zip fs.toList do
              match f.value, fj with
              | .val v, fj => hdr := hdr + 1; if !same v fj then bad := bad + 1; IO.println s!"  {toStr' f.name}: {shown v}, expected {fj.compress}"
              | .template ut, .arr ids => if ut.ids.map (fun i => (Float.ofInt i)) != ids.toList.map (fun j => match j with | .num n => n.toFloat | _ => -1) then bad := bad + 1; IO.println s!"  template differs {repr ut.ids} {fj.compress}"
              | .payload p, .arr ss =>
                if p.subsets.length != ss.size then IO.println s!"  subsets: {p.subsets.length}, expected {ss.size}"; bad := bad + 1
                for (x, y) in p.subsets.zip ss.toList do
                  let b ← match y with | .arr vs => cmpL s!"subset {nsub}" (x.cells.map (·.v)) vs.toList | _ => pure 1
                  n := n + x.cells.length
                  bad := bad + b
                  nsub := nsub + 1
                  if bad > 40 then break
              | _, _ => bad := bad + 1; IO.println s!"  {toStr' f.name}: other kind"
          | _ => pure ()
        IO.println s!"  {hdr} header fields, {nsub} subsets, {n} values compared; {bad} differences"

def main (args : List String) : IO Unit := do
  let tables ← tablesOf "/repo/_definitions/tables"
  for name in args do
    let bytes := (← IO.FS.readBinFile s!"/repo/_testdata/{name}.bufr").toList
    let cfg : FacCfg := ⟨tables, .binary, false, false, 100000⟩
    let mut st := Fac.new (F := Float) (.bin (BitReader.new bytes))
    let mut k := 0
    while (← System.FilePath.pathExists s!"/tmp/expected/{name}.{k}.json") do
      let (o, st') := Gobufr.Runtime.run (F := Float) cfg st
      st := st'
      IO.println s!"{name} {k}: {outc o}"
      match o with
      | .ok m =>
        let e ← IO.FS.readFile s!"/tmp/expected/{name}.{k}.json"
        match Lean.Json.parse e with
        | .ok (.arr secs) => cmpMsg m secs
        | _ => IO.println "cannot parse"
      | _ => pure ()
      k := k + 1
    let (o, _) := Gobufr.Runtime.run (F := Float) cfg st
    IO.println s!"{name} after the last: {outc o}"
