import Verif.Spec.Payload
import Verif.Model.Script

/-!
# Specification vocabulary: templates that cannot crash the decoder
-/

namespace Gobufr

/-- The call panicked or did not return. -/
def Outcome.crashed : Outcome α → Prop
  | .panic _ => True
  | .diverge => True
  | _ => False

namespace Safety

/-- A value of the element can be read: the element has an entry in table B, a string is not of negative length, and
compressed data has no signed codes and no bit strings. -/
def readable (compressed : Bool) (d : Desc) : Bool :=
  match d.entry with
  | .b e => (e.unit != .string || decide (0 ≤ e.nbits)) && (!compressed || (e.unit != .code && e.unit != .binary))
  | _ => false

/-- The element can be the factor of a replication: in compressed data it is not a string. -/
def countable (compressed : Bool) (d : Desc) : Bool :=
  match d.entry with
  | .b e => readable compressed d && (!compressed || e.unit != .string)
  | _ => false

/-- The factor of a delayed replication. -/
def factorOf : Ast → Option Desc
  | .element d np => if np then none else some d
  | .e031021 d => some d
  | _ => none

mutual
/-- Nothing in a part of a template can crash the decoder, if at least `n` associated fields are in force before it; the result
is the number of associated fields that are in force after it at least.  `none`: something can.

* Elements must be readable, factors countable.
* A block that is repeated leaves no fewer associated fields than it finds; 204000 needs one.
* There are no new reference values, no assessments, no markers and no bitmaps.
* 206YYY is not used in compressed data. -/
def harmless (compressed : Bool) : Ast → Nat → Option Nat
  | .element d np, n => if np || readable compressed d then some n else none
  | .e031021 d, n => if readable compressed d then some n else none
  | .sequence _ ms, n | .dataNotPresent _ ms, n => harmlessL compressed ms n
  | .fixedRepl _ ms, n =>
    match harmlessL compressed ms n with
    | some k => if n ≤ k then some n else none
    | none => none
  | .delayedRepl _ (f :: ms), n =>
    match factorOf f, harmlessL compressed ms n with
    | some d, some k => if countable compressed d && decide (n ≤ k) then some n else none
    | _, _ => none
  | .newRefval d ms, n => if d.id.Y = 255 ∨ ms.isEmpty then some n else none
  | .assocField d ms, n =>
    if d.id.Y ≠ 0 then harmlessL compressed ms (n + 1)
    else if n = 0 then none
    else harmlessL compressed ms (n - 1)
  | .insertString d, n => if 0 ≤ d.id.Y then some n else none
  | .skipLocal _ ms, n => if compressed || ms.isEmpty then none else some n
  | .setStringLength d, n => if 0 ≤ d.id.Y then some n else none
  | .nbitsOffset _, n | .scaleOffset _, n | .modifyPacking _, n | .cancelBackRef _, n | .cancelBitmap _, n => some n
  | .base _ _, _ | .delayedRepl _ [], _ | .assessment _ _ _ _, _ | .marker _, _ | .bitmap _ _, _ => none
/-- The same for a list of nodes. -/
def harmlessL (compressed : Bool) : List Ast → Nat → Option Nat
  | [], n => some n
  | m :: ms, n =>
    match harmless compressed m n with
    | some k => harmlessL compressed ms k
    | none => none
end

/-- A template whose data cannot crash the decoder: it has no tree, or a harmless one; compressed data has subsets. -/
def HarmlessTemplate (tree : Outcome Ast) (nsubsets : Int) (compressed : Bool) : Prop :=
  match tree with
  | .ok (.base _ ms) => (harmlessL compressed ms 0).isSome = true ∧ (compressed = true → 0 < nsubsets)
  | .ok _ => False
  | .err _ => True
  | _ => False

/-- Tables that are loaded, or not, without a crash. -/
def CalmTables (t : Tables) : Prop := ∀ n, ¬ (t.getB n).crashed ∧ ¬ (t.getD n).crashed

/-- Why decoding a message from binary input crashed, as seen in the state it stopped in.

* `padding`: the input ends in the padding of section 1, 3 or 4.
* `short`: the length of section 3 is less than 6; the fields in front of the template take 7 bytes.
* `template`: the template is not harmless, or cannot be parsed without a crash. -/
inductive CrashCause (c : FacCfg) (s : Fac F) : Prop where
  | padding {m : Message F} {x : Section F} (message : s.message = some m) (last : m.sections.getLast? = some x)
      (number : x.number = 1 ∨ x.number = 3 ∨ x.number = 4) (padded : 0 < x.padding) (left : Fac.left s.r < 8)
  | short {m : Message F} {x : Section F} {f : Field F} {n : Nat} (message : s.message = some m)
      (last : m.sections.getLast? = some x) (number : x.number = 3) (first : x.fields.head? = some f)
      (name : f.name = str "lengthInBytes") (value : f.value = .val (.uint n)) (small : n < 6)
  | template {m : Message F} {x : Section F} {ut : UnexpandedTemplate} {g : ChainGroup} {nf cf : Field F} {n : Nat} {b : Bool}
      (message : s.message = some m) (last : m.sections.getLast? = some x) (number : x.number = 4)
      (template : s.ut = some ut) (tables : s.tableGroup = some g)
      (subsets : m.proxyField (str "nSubsets") = .ok nf) (nsubsets : nf.value = .val (.uint n))
      (flag : m.proxyField (str "isCompressed") = .ok cf) (compressed : cf.value = .val (.bool b))
      (harmful : ¬ HarmlessTemplate (parse g.lookup c.fuel ut.ids) n b)

end Safety
end Gobufr
