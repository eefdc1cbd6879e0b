import Verif.Model.FlatJson

/-!
# table: descriptors, entries, tables, table groups

Models /repo/table/descriptor.go, /repo/table/table.go and /repo/table/group.go.  Go maps are
association lists (`mapGet`, `mapSet`); iteration order over a Go map is a parameter.
-/

namespace Gobufr

/-! ## Go library helpers -/

/-- Decimal digits of a number, `fuel` many at most. -/
def decAux : Nat → Nat → GoString
  | 0, _ => []
  | fuel + 1, n => if n < 10 then [UInt8.ofNat (48 + n)]
      else decAux fuel (n / 10) ++ [UInt8.ofNat (48 + n % 10)]

/-- `strconv.Itoa` for a non-negative number -/
def decNat (n : Nat) : GoString := decAux (n + 1) n

/-- `strconv.Itoa` -/
def itoa (i : Int) : GoString :=
  if i < 0 then ch '-' :: decNat i.natAbs else decNat i.natAbs

/-- `fmt.Sprintf("%06d", i)` -/
def pad06 (i : Int) : GoString :=
  if i < 0 then
    let d := decNat i.natAbs
    ch '-' :: (List.replicate (5 - d.length) (ch '0') ++ d)
  else
    let d := decNat i.natAbs
    List.replicate (6 - d.length) (ch '0') ++ d

/-- digits of `strconv.Atoi` -/
def atoiDigits : GoString → Nat → Option Nat
  | [], acc => some acc
  | c :: cs, acc =>
    if 48 ≤ c.toNat ∧ c.toNat ≤ 57 then atoiDigits cs (acc * 10 + (c.toNat - 48)) else none

/-- the sign accepted by `strconv.Atoi` -/
def atoiSign : GoString → Bool × GoString
  | [] => (false, [])
  | c :: cs => if c = ch '-' then (true, cs) else if c = ch '+' then (false, cs)
      else (false, c :: cs)

/-- the range check of `strconv.Atoi` -/
def checkInt64 (i : Int) : Outcome Int :=
  if -(2 ^ 63) ≤ i ∧ i < 2 ^ 63 then .ok i else .err (.msg "value out of range")

/-- `strconv.Atoi`: optional sign, at least one decimal digit, within the range of int64. -/
def atoi (s : GoString) : Outcome Int :=
  if (atoiSign s).2 = [] then .err (.msg "invalid syntax")
  else match atoiDigits (atoiSign s).2 0 with
    | none => .err (.msg "invalid syntax")
    | some n => checkInt64 (if (atoiSign s).1 then -(n : Int) else n)

/-- lookup in a Go map -/
def mapGet {K V : Type} [DecidableEq K] : List (K × V) → K → Option V
  | [], _ => none
  | (k, v) :: m, k' => if k = k' then some v else mapGet m k'

/-- store in a Go map -/
def mapSet {K V : Type} (m : List (K × V)) (k : K) (v : V) : List (K × V) := (k, v) :: m

/-! ## descriptor.go -/

/-- /repo/table/descriptor.go:44 `ID` (a Go int) -/
abbrev ID := Int

namespace ID
/-- /repo/table/descriptor.go:72-74 `F` -/
def F (id : ID) : Int := id.tdiv 100000
/-- /repo/table/descriptor.go:76-78 `X` -/
def X (id : ID) : Int := (id.tdiv 1000).tmod 100
/-- /repo/table/descriptor.go:80-82 `Y` -/
def Y (id : ID) : Int := id.tmod 1000
/-- /repo/table/descriptor.go:117-119 `Operator` -/
def Operator (id : ID) : Int := id.tdiv 1000
end ID

/-- /repo/table/table.go:14-23 `Unit` -/
inductive Unit' where
  | numeric | string | nonnegCode | code | flag | binary
  deriving Repr, DecidableEq, Inhabited

/-- `strings.HasPrefix` -/
def hasPrefix (s p : GoString) : Bool := p.isPrefixOf s

/-- /repo/table/table.go:26-38 `unitOf` -/
def unitOf (s : GoString) : Unit' :=
  if s = str "CCITT IA5" ∨ s = str "Character" then .string
  else if s = str "FLAG TABLE" then .flag
  else if s = str "CODE TABLE" ∨ hasPrefix s (str "Common CODE TABLE") = true then .nonnegCode
  else .numeric

/-- /repo/table/table.go:48-61 `Bentry` -/
structure Bentry where
  name : GoString
  unitString : GoString
  unit : Unit'
  scale : Int
  refval : Int
  nbits : Int
  crexUnitString : GoString
  crexUnit : Unit'
  crexScale : Int
  crexNchars : Int
  deriving Repr, DecidableEq, Inhabited

/-- /repo/table/table.go:87-92 `Dentry` -/
structure Dentry where
  name : GoString
  members : List ID
  deriving Repr, DecidableEq, Inhabited

/-- /repo/table/table.go:43-96 `Entry` and its four implementations -/
inductive Entry where
  | b (e : Bentry)
  | r (name : GoString)
  | c (name : GoString)
  | d (e : Dentry)
  deriving Repr, DecidableEq, Inhabited

/-- `Entry.Name()`, /repo/table/table.go:63-65, 72-74, 81-83, 94-96 -/
def Entry.name : Entry → GoString
  | .b e => e.name
  | .r n => n
  | .c n => n
  | .d e => e.name

/-- /repo/table/descriptor.go:101-104 `BaseDescriptor`, and the types embedding it
(/repo/table/descriptor.go:129-143), which add nothing.  `entry` is never nil in descriptors
built by /repo, so it is not optional. -/
structure Desc where
  id : ID
  entry : Entry
  deriving Repr, DecidableEq, Inhabited

/-- /repo/table/descriptor.go:106-111 `BaseDescriptor.String` (`%v %v` of id and name) -/
def Desc.toStr (d : Desc) : GoString := pad06 d.id ++ [ch ' '] ++ d.entry.name

/-- /repo/table/descriptor.go:154 `RootDescriptor` -/
def rootDescriptor : Desc := ⟨0, .r (str "Root")⟩

/-- zero `Bentry` with a name, as in `&Bentry{name: ...}` -/
def emptyBentry (name : GoString) : Bentry :=
  ⟨name, [], .numeric, 0, 0, 0, [], .numeric, 0, 0⟩

/-- /repo/table/descriptor.go:158-160 `NewLocalDescriptor` -/
def newLocalDescriptor (id : ID) : Desc := ⟨id, .b (emptyBentry (str "LOCAL DESCRIPTOR"))⟩

/-! ## table.go -/

/-- A decoded JSON value (`any`).  Objects inside records are never looked into, so their
content is dropped. -/
inductive Json (F : Type) where
  | null
  | bool (b : Bool)
  | num (f : F)
  | str (s : GoString)
  | arr (l : List (Json F))
  | obj
  deriving Inhabited

/-- /repo/table/table.go:105-112 `B` -/
structure TableB where
  path : GoString
  entries : List (ID × Bentry)
  deriving Repr, DecidableEq, Inhabited

/-- /repo/table/table.go:154-161 `D` -/
structure TableD where
  path : GoString
  entries : List (ID × Dentry)
  deriving Repr, DecidableEq, Inhabited

/-- /repo/table/table.go:114-120 `B.Lookup` -/
def TableB.lookup (b : TableB) (id : ID) : Outcome Desc :=
  match mapGet b.entries id with
  | some e => .ok ⟨id, .b e⟩
  | none => .err (.msg "ID not found")

/-- /repo/table/table.go:163-169 `D.Lookup` -/
def TableD.lookup (d : TableD) (id : ID) : Outcome Desc :=
  match mapGet d.entries id with
  | some e => .ok ⟨id, .d e⟩
  | none => .err (.msg "ID not found")

section Load

variable {F : Type} [GoFloat F]

/-- `record[i]` -/
def recAt (record : List (Json F)) (i : Nat) : Outcome (Json F) :=
  match record[i]? with
  | some j => .ok j
  | none => .panic "index out of range"

/-- `x.(string)` with the `ok` check and error -/
def asStr (why : String) : Json F → Outcome GoString
  | .str s => .ok s
  | _ => .err (.msg why)

/-- `x.(float64)` with the `ok` check and error -/
def asNum (why : String) : Json F → Outcome F
  | .num f => .ok f
  | _ => .err (.msg why)

/-- `x.([]any)` with the `ok` check and error -/
def asArr (why : String) : Json F → Outcome (List (Json F))
  | .arr l => .ok l
  | _ => .err (.msg why)

/-- /repo/table/table.go:204-249 `recordToBentry` -/
def recordToBentry (record : List (Json F)) : Outcome Bentry := do
  let name ← recAt record 0 >>= asStr "name is not a string"
  let unitString ← recAt record 1 >>= asStr "unitString is not a string"
  let scale ← recAt record 2 >>= asNum "scale is not a number"
  let refval ← recAt record 3 >>= asNum "refval is not a number"
  let nbits ← recAt record 4 >>= asNum "nbits is not a number"
  let crexUnitString ← recAt record 5 >>= asStr "crexUnitString is not a number"
  let crexScale ← recAt record 6 >>= asNum "crexScale is not a number"
  let crexNchars ← recAt record 7 >>= asNum "crexNchars is not a number"
  .ok { name := name, unitString := unitString, unit := unitOf unitString,
        scale := GoFloat.truncInt scale, refval := GoFloat.truncInt refval,
        nbits := GoFloat.truncInt nbits,
        crexUnitString := crexUnitString, crexUnit := unitOf crexUnitString,
        crexScale := GoFloat.truncInt crexScale, crexNchars := GoFloat.truncInt crexNchars }

omit [GoFloat F] in
/-- /repo/table/table.go:264-274, the loop over the member ids -/
def memberIds : List (Json F) → Outcome (List ID)
  | [] => .ok []
  | j :: js => do
    let s ← asStr "id is not a string" j
    let id ← atoi s
    let ids ← memberIds js
    .ok (id :: ids)

/-- /repo/table/table.go:253-276 `recordToDentry` -/
def recordToDentry (record : List (Json F)) : Outcome Dentry := do
  let name ← recAt record 0 >>= asStr "name is not a string"
  let fields ← recAt record 1 >>= asArr "fields is not a list"
  let ids ← memberIds fields
  .ok ⟨name, ids⟩

/-- Wrap the error of a stateless call. -/
def Outcome.wrapErr (w : String) : Outcome α → Outcome α
  | .err e => .err (.wrap w e)
  | o => o

/-- /repo/table/table.go:139-149 and :188-198, the loop over the records; `conv` is
`recordToBentry` or `recordToDentry`. The list is the map in iteration order. -/
def loadRecords {E : Type} (conv : List (Json F) → Outcome E) :
    List (GoString × List (Json F)) → List (ID × E) → Outcome (List (ID × E))
  | [], m => .ok m
  | (key, record) :: rs, m => do
    let id ← Outcome.wrapErr "error loading table" (atoi key)
    let e ← Outcome.wrapErr "error loading table" (conv record)
    loadRecords conv rs (mapSet m id e)

/-- What `os.Open` and the JSON decoder make of a path: the records in the order in which the
map is iterated, or an error (`Err.notExist`, another error of `os.Open`, or a wrapped JSON
error). -/
abbrev Disk (F : Type) := GoString → Outcome (List (GoString × List (Json F)))

/-- /repo/table/table.go:123-151 `LoadTableB` -/
def loadTableB (disk : Disk F) (path : GoString) : Outcome TableB := do
  let records ← disk path
  let entries ← loadRecords recordToBentry records []
  .ok ⟨path, entries⟩

/-- /repo/table/table.go:172-200 `LoadTableD` -/
def loadTableD (disk : Disk F) (path : GoString) : Outcome TableD := do
  let records ← disk path
  let entries ← loadRecords recordToDentry records []
  .ok ⟨path, entries⟩

end Load

/-! ## group.go -/

/-- /repo/table/group.go:18-21 `SingleTableGroup` -/
structure SingleGroup where
  b : TableB
  d : TableD
  deriving Repr, DecidableEq, Inhabited

/-- /repo/table/group.go:44-60 `SingleTableGroup.Lookup` -/
def SingleGroup.lookup (g : SingleGroup) (id : ID) : Outcome Desc :=
  if id.F = 0 then g.b.lookup id
  else if id.F = 1 then .ok ⟨id, .r (pad06 id)⟩
  else if id.F = 2 then .ok ⟨id, .c (pad06 id)⟩
  else if id.F = 3 then g.d.lookup id
  else .err (.msg "unknown ID")

/-- /repo/table/group.go:70-79 `ChainingTableGroup.Lookup`; the members are any table groups,
given by their Lookup methods. -/
def chainLookup : List (ID → Outcome Desc) → ID → Outcome Desc
  | [], _ => .err (.msg "ID not found")
  | g :: gs, id => match g id with
    | .ok d => .ok d
    | .err _ => chainLookup gs id
    | .panic w => .panic w
    | .diverge => .diverge

/-- The numbers that select a table. -/
structure TableNum where
  master : Int
  centre : Int
  subCentre : Int
  version : Int
  deriving Repr, DecidableEq, Inhabited

/-- /repo/table/manager.go:89-100 `composeTablePath`.  `filepath.Join` of the base path with
numbers and a file name only cleans the base path: `base` stands for the cleaned base path
including the separator that follows it. -/
def composeTablePath (base : GoString) (n : TableNum) (tableName : GoString) : GoString :=
  base ++ (itoa n.master ++ ch '/' :: (itoa n.centre ++ ch '/' :: (itoa n.subCentre ++ ch '/' ::
    (itoa n.version ++ ch '/' :: tableName))))

/-- What `manager.getTableB` / `getTableD` deliver for a path: see Verif/Model/Manager.lean for
the concurrent cache; a caller only sees the tables. -/
structure Tables where
  getB : TableNum → Outcome TableB
  getD : TableNum → Outcome TableD

/-- /repo/table/group.go:26-42 `NewSingleTableGroup` -/
def newSingleTableGroup (t : Tables) (n : TableNum) : Outcome SingleGroup := do
  let b ← t.getB n
  let d ← t.getD n
  .ok ⟨b, d⟩

/-- /repo/table/group.go:65-68 `ChainingTableGroup` -/
structure ChainGroup where
  groups : List SingleGroup
  deriving Repr, DecidableEq, Inhabited

/-- `ChainingTableGroup.Lookup` when the members are SingleTableGroups (the only members the
code adds). -/
def ChainGroup.lookup (c : ChainGroup) : ID → Outcome Desc :=
  chainLookup (c.groups.map SingleGroup.lookup)

/-- /repo/table/group.go:82-94 `AddSingleTableGroup` -/
def addSingleTableGroup (t : Tables) (n : TableNum) : M ChainGroup Unit := do
  let g ← M.lift (newSingleTableGroup t n)
  M.modify fun c => { c with groups := c.groups ++ [g] }

/-- `os.IsNotExist`, which does not look through wrapped errors -/
def isNotExist : Err → Bool
  | .notExist => true
  | _ => false

/-- /repo/table/group.go:99-115 `AddLocalAndWmoTableGroups` -/
def addLocalAndWmoTableGroups (t : Tables)
    (master centre subCentre wmoVersion localVersion : Int) : M ChainGroup Unit := do
  if localVersion ≠ 0 then
    M.handle (addSingleTableGroup t ⟨master, centre, subCentre, localVersion⟩) fun
      | .err e =>
        if isNotExist e then do
          addSingleTableGroup t ⟨master, centre, 0, localVersion⟩
          addSingleTableGroup t ⟨master, 0, 0, wmoVersion⟩
        else M.fail e
      | .ok _ => addSingleTableGroup t ⟨master, 0, 0, wmoVersion⟩
      | .panic w => M.crash w
      | .diverge => M.loop
  else
    addSingleTableGroup t ⟨master, 0, 0, wmoVersion⟩

/-- /repo/table/group.go:118-120 `ResetGroups` -/
def resetGroups : M ChainGroup Unit := M.set ⟨[]⟩

end Gobufr
