import Verif.Spec.Encode

/-!
# Data that decoding cannot get through

Written by the same rules as the data of C88 (`EncodeSpec.Coded`), up to an assessment or a marker that cannot be
decoded, for example because there are more values than the bitmap selects elements, or to another place where the
decoder cannot go on.
-/

namespace Gobufr
namespace EncodeSpec
open Flat

variable {F τ : Type}

/-- An assessment is written up to the end of its values; its bitmap selects `chosen` elements and there are `given`
values. -/
def Assessing [GoFloat F] (W : Wire F τ) (compatible : Bool) (x : Ctx) (d : Desc) (bm : Ast) (as ms : List Ast) (bits : List τ)
    (chosen given : Nat) : Prop :=
  ∃ (x1 x2 x3 : Ctx) (zb b1 b2 b3 : List τ) (zs i1 i2 i3 : List (Datum F)) (n : Nat) (map : List Nat),
    0 < x.back.getD x.seen.length ∧ Zero W compatible d zb zs ∧
    Coded W compatible ({ x with back := some (x.back.getD x.seen.length) }.add zs) [bm] b1 i1 x1 ∧
    Coded W compatible x1 as b2 i2 x2 ∧
    x2.current = some map ∧ x2.back = some n ∧ map ≠ [] ∧ map.length ≤ n ∧
    Coded W compatible { x2 with targets := selected map n } ms b3 i3 x3 ∧
    bits = zb ++ b1 ++ b2 ++ b3 ∧ chosen = (selected map n).length ∧ given = i3.length

/-- Why decoding cannot go on. -/
inductive Why where
  /-- a value for which no element is left that the bitmap selects -/
  | noElement
  /-- a marker for a value whose descriptor has no entry in table B, so its packing is not known -/
  | noEntry
  /-- an assessment without a bitmap: none was defined, or it was given up -/
  | noBitmap
  /-- a new reference value (203YYY) -/
  | newReference
  /-- the end (204000) of an associated field when there is none -/
  | noField
  deriving DecidableEq, Repr

/-- The panics they lead to. -/
def Why.panics : Why → String → Prop
  | .noElement, w => w = "index out of range"
  | .noEntry, w => w = "interface conversion: table.Entry is not *table.Bentry" ∨ w = "nil pointer dereference"
  | .noBitmap, w => w = "nil pointer dereference"
  | .newReference, w => w = "assignment to entry in nil map" ∨ w = "nil pointer dereference"
  | .noField, w => w = "slice bounds out of range"

/-- An assessment begins: unless this is done already, it is fixed which elements bitmaps refer back to. -/
def Ctx.begin (x : Ctx) : Ctx :=
  if 0 < x.back.getD x.seen.length then { x with back := some (x.back.getD x.seen.length) } else x

/-- `Stuck W compatible why x ts bits`: following the template nodes `ts` from the context `x`, the bits come to
a place where decoding cannot go on. -/
inductive Stuck [GoFloat F] (W : Wire F τ) (compatible : Bool) : Why → Ctx → List Ast → List τ → Prop where
  /-- an assessment with more values than elements selected -/
  | values {x : Ctx} {ts as ms : List Ast} {bm : Ast} {bits : List τ} {d : Desc} {chosen given : Nat} :
      Assessing (F := F) W compatible x d bm as ms bits chosen given → chosen < given →
      Stuck W compatible .noElement x (.assessment d bm as ms :: ts) bits
  /-- a marker when all elements selected had theirs -/
  | marker {x : Ctx} {ts : List Ast} {d : Desc} : x.targets = [] → Stuck W compatible .noElement x (.marker d :: ts) []
  /-- a marker for something that is not in table B -/
  | stray {x : Ctx} {ts : List Ast} {d : Desc} {t : Nat} {rest : List Nat} {nd : NodeDesc} :
      x.targets = t :: rest → x.seen[t]? = some nd → (∀ td e, nd.d = some td → td.entry ≠ .b e) →
      Stuck W compatible .noEntry x (.marker d :: ts) []
  /-- an assessment without a bitmap -/
  | unset {x x1 x2 : Ctx} {ts as ms : List Ast} {bm : Ast} {zb b1 b2 : List τ} {zs i1 i2 : List (Datum F)} {d : Desc} :
      Zero W compatible d zb zs → Coded W compatible (x.begin.add zs) [bm] b1 i1 x1 → Coded W compatible x1 as b2 i2 x2 →
      x2.current = none → Stuck W compatible .noBitmap x (.assessment d bm as ms :: ts) (zb ++ b1 ++ b2)
  /-- a new reference value: it is read, but cannot be stored -/
  | reference {x : Ctx} {ts ms : List Ast} {m : Ast} {d : Desc} {vb : List τ} {vs : List (Val F)} :
      d.id.Y ≠ 255 → W (bare .code d.id.Y) vb vs → Stuck W compatible .newReference x (.newRefval d (m :: ms) :: ts) vb
  /-- the end of an associated field when there is none -/
  | unopened {x : Ctx} {ts ms : List Ast} {d : Desc} : d.id.Y = 0 → x.assoc = [] →
      Stuck W compatible .noField x (.assocField d ms :: ts) []
  /-- something correct goes before -/
  | after {why : Why} {x y : Ctx} {ts us : List Ast} {b b' : List τ} {is : List (Datum F)} :
      Coded W compatible x ts b is y → Stuck W compatible why y us b' → Stuck W compatible why x (ts ++ us) (b ++ b')
  /-- within sequences, data not present, and replications -/
  | sequence {why : Why} {x : Ctx} {ts ms : List Ast} {b : List τ} {d : Desc} :
      Stuck W compatible why x (ms ++ ts) b → Stuck W compatible why x (.sequence d ms :: ts) b
  | notPresent {why : Why} {x : Ctx} {ts ms : List Ast} {b : List τ} {d : Desc} :
      Stuck W compatible why x (ms ++ ts) b → Stuck W compatible why x (.dataNotPresent d ms :: ts) b
  | fixed {why : Why} {x : Ctx} {ts ms : List Ast} {b : List τ} {d : Desc} :
      Stuck W compatible why x ((List.replicate d.id.Y.toNat ms).flatten ++ ts) b →
      Stuck W compatible why x (.fixedRepl d ms :: ts) b
  /-- among what an associated field is for -/
  | op204 {why : Why} {x : Ctx} {ts ms : List Ast} {b : List τ} {d : Desc} : d.id.Y ≠ 0 →
      Stuck W compatible why { x with assoc := x.assoc ++ [d.id.Y] } (ms ++ ts) b →
      Stuck W compatible why x (.assocField d ms :: ts) b
  | op204end {why : Why} {x : Ctx} {ts ms : List Ast} {b : List τ} {d : Desc} : d.id.Y = 0 → x.assoc ≠ [] →
      Stuck W compatible why { x with assoc := x.assoc.dropLast } (ms ++ ts) b →
      Stuck W compatible why x (.assocField d ms :: ts) b
  | delayed {why : Why} {x z : Ctx} {ts ms : List Ast} {m : Ast} {fb b : List τ} {fs : List (Datum F)} {d : Desc} {v : Val F}
      {vs : List (Val F)} {k : Nat} {it : Datum F} :
      Coded W compatible x [m] fb fs z → fs.getLast? = some it → it.vals = v :: vs → (∀ w ∈ vs, Alike v w) →
      numberOf v = some k → Stuck W compatible why z ((List.replicate k ms).flatten ++ ts) b →
      Stuck W compatible why x (.delayedRepl d (m :: ms) :: ts) (fb ++ b)
  /-- within the values of an assessment -/
  | within {why : Why} {x x1 x2 : Ctx} {ts as ms : List Ast} {bm : Ast} {zb b1 b2 b3 : List τ} {zs i1 i2 : List (Datum F)}
      {d : Desc} {n : Nat} {map : List Nat} :
      0 < x.back.getD x.seen.length → Zero W compatible d zb zs →
      Coded W compatible ({ x with back := some (x.back.getD x.seen.length) }.add zs) [bm] b1 i1 x1 →
      Coded W compatible x1 as b2 i2 x2 → x2.current = some map → x2.back = some n → map ≠ [] → map.length ≤ n →
      Stuck W compatible why { x2 with targets := selected map n } ms b3 →
      Stuck W compatible why x (.assessment d bm as ms :: ts) (zb ++ b1 ++ b2 ++ b3)

/-- The bits come to a value for which there is no element left that the bitmap selects. -/
abbrev Overrun [GoFloat F] (W : Wire F τ) (compatible : Bool) : Ctx → List Ast → List τ → Prop :=
  Stuck (F := F) W compatible .noElement

end EncodeSpec
end Gobufr
