import Verif.Spec.Payload
import Verif.Spec.Unpack
import Verif.Spec.Header
import Verif.Spec.Parser

/-!
# Specification vocabulary: encoding a data section

What the bits of a data section are, given the template and the values, from the side of whoever
writes the data.  Nothing here refers to the decoder; `Val`, `PackingInfo`, `Ast` and `Desc` are
data types of the model.
-/

namespace Gobufr
namespace EncodeSpec
open Spec UnpackSpec Flat

variable {F : Type}

/-- The bits of one value of uncompressed data. -/
inductive Single [GoFloat F] (info : PackingInfo F) : List Bool → List (Val F) → Prop where
  /-- a number, code or flags; all ones is a missing value -/
  | number {n raw : Nat} : Plain info.unit → info.nbits = n → n ≤ 64 → raw < 2 ^ n →
      Single info (natBits n raw) [value info n raw]
  /-- characters -/
  | text {s : List UInt8} : info.unit = .string → info.nbits = 8 * s.length →
      Single info (s.flatMap byteBits) [.bytes s]
  /-- sign and magnitude -/
  | signed {n mag : Nat} {neg : Bool} : info.unit = .code → info.nbits = (n + 1 : Nat) → n < 64 → mag < 2 ^ n →
      Single info (neg :: natBits n mag) [.int (if neg then -(mag : Int) else mag)]
  /-- bits without meaning -/
  | skipped {l : List Bool} {bs : List UInt8} : info.unit = .binary → info.nbits = l.length →
      Packed l bs → Single info l [.binary (some ⟨bs, l.length⟩)]

/-- The bits of the values of one element in all `k` subsets of compressed data. -/
inductive Shared [GoFloat F] (k : Nat) (info : PackingInfo F) : List Bool → List (Val F) → Prop where
  /-- no width, nothing to write: zero -/
  | none : info.unit = .nonnegCode ∨ info.unit = .flag → info.nbits = 0 →
      Shared k info [] (List.replicate k (.uint 0))
  /-- the same number in all subsets -/
  | same {n base : Nat} : Plain info.unit → info.nbits = n → 1 ≤ n → n ≤ 64 → base < 2 ^ n →
      Shared k info (column n base 0 []) (List.replicate k (value info n base))
  /-- base and increments; an increment of all ones is a missing value -/
  | increments {n base w : Nat} {incs : List Nat} : Plain info.unit → info.nbits = n → 1 ≤ n → n ≤ 64 → base < 2 ^ n →
      2 ≤ w → w < 64 → (∀ d ∈ incs, d < 2 ^ w ∧ (d = 2 ^ w - 1 ∨ base + d < 2 ^ n)) → ¬ AllOnes n base →
      incs.length = k →
      Shared k info (column n base w incs)
        (incs.map fun d => if natBits w d = List.replicate w true then .nil else value info n (base + d))
  /-- the same text in all subsets -/
  | sameText {s : List UInt8} : info.unit = .string → info.nbits = 8 * s.length →
      Shared k info (s.flatMap byteBits ++ natBits 6 0) (List.replicate k (.bytes s))
  /-- a text for each subset, of the same length; the base is all zero -/
  | texts {n w : Nat} {strs : List (List UInt8)} : info.unit = .string → info.nbits = 8 * n → w ≠ 0 → w < 64 →
      (∀ x ∈ strs, x.length = w) → strs.length = k →
      Shared k info ((List.replicate n (0 : UInt8)).flatMap byteBits ++ natBits 6 w ++
        (strs.flatMap fun x => x.flatMap byteBits)) (strs.map .bytes)
  /-- the same signed number in all subsets -/
  | sameSigned {n mag : Nat} {neg : Bool} : info.unit = .code → info.nbits = (n + 1 : Nat) → n < 64 → mag < 2 ^ n →
      Shared k info (neg :: natBits n mag ++ natBits 6 0)
        (List.replicate k (.int (if neg then -(mag : Int) else mag)))

/-- A value that was written: of which element, how it was packed, and the value in every subset (there
is just one in uncompressed data). -/
structure Datum (F : Type) where
  desc : NodeDesc
  info : PackingInfo F
  vals : List (Val F)
  deriving Repr, DecidableEq, Inhabited

/-- Where in the template we are: the operands in force, the widths of the associated fields in force,
the elements written so far, the number of them that bitmaps refer back to (once fixed), the current
bitmap and the one to be reused, and the elements selected and not yet assessed. -/
structure Ctx where
  ops : Operands := {}
  assoc : List Int := []
  seen : List NodeDesc := []
  back : Option Nat := none
  current : Option (List Nat) := none
  reusable : Option (List Nat) := none
  targets : List Nat := []
  deriving Repr, DecidableEq, Inhabited

/-- Items were written. -/
def Ctx.add (x : Ctx) (is : List (Datum F)) : Ctx := { x with seen := x.seen ++ is.map Datum.desc }

variable {τ : Type}

/-- How values are written with symbols of type `τ`: `Single` and `Shared k` with bits, `Scalar` with
tokens. -/
abbrev Wire (F τ : Type) := PackingInfo F → List τ → List (Val F) → Prop

/-- The packing of an associated field, of an inserted string and of skipped bits. -/
def bare [GoFloat F] (u : Unit') (n : Int) : PackingInfo F := { unit := u, scale := 0, refval := GoFloat.ofNat 0, nbits := n }

/-- The associated fields of an element, one for each width in force. -/
inductive Assocs [GoFloat F] (W : Wire F τ) (d : Desc) : List Int → List τ → List (Datum F) → Prop where
  | nil : Assocs W d [] [] []
  | cons {w : Int} {ws : List Int} {b bs : List τ} {vs : List (Val F)} {is : List (Datum F)} :
      W (bare .nonnegCode w) b vs → Assocs W d ws bs is →
      Assocs W d (w :: ws) (b ++ bs) (⟨⟨some d, true⟩, bare .nonnegCode w, vs⟩ :: is)

/-- In compatible mode the operators of bitmaps count as elements of no width. -/
inductive Zero [GoFloat F] (W : Wire F τ) (compatible : Bool) (d : Desc) : List τ → List (Datum F) → Prop where
  | off : compatible = false → Zero W compatible d [] []
  | on {b : List τ} {vs : List (Val F)} : compatible = true → W (bare .nonnegCode 0) b vs →
      Zero W compatible d b [⟨⟨some d, false⟩, bare .nonnegCode 0, vs⟩]

/-- Two values that count as equal. -/
def Alike [GoFloat F] : Val F → Val F → Prop
  | .float x, .float y => GoFloat.eq x y = true
  | v, w => v = w

/-- Nodes that define, use or give up bitmaps. -/
def ofBitmaps : Ast → Bool
  | .assessment _ _ _ _ | .bitmap _ _ | .cancelBackRef _ | .cancelBitmap _ => true
  | _ => false

/-- Nodes that leave the bitmaps alone. -/
def apart (ms : List Ast) : Bool := (ParserSpec.nodesL ms).all fun n => !ofBitmaps n

/-- `Coded W compatible x ts bits is y`: a data section for the template nodes `ts` is written
`bits`, and holds the items `is`; `x` and `y` are the contexts before and after. -/
inductive Coded [GoFloat F] (W : Wire F τ) (compatible : Bool) : Ctx → List Ast → List τ → List (Datum F) → Ctx → Prop where
  | nil {x : Ctx} : Coded W compatible x [] [] [] x
  /-- an element with its associated fields; those of class 31 have none -/
  | element {x y : Ctx} {ts : List Ast} {bs : List τ} {is : List (Datum F)} {d : Desc} {e : Bentry} {ab vb : List τ}
      {as : List (Datum F)} {vs : List (Val F)} :
      d.entry = .b e → Assocs W d (if d.id.X = 31 then [] else x.assoc) ab as → W (x.ops.packing e) vb vs →
      Coded W compatible (x.add (as ++ [⟨⟨some d, false⟩, x.ops.packing e, vs⟩])) ts bs is y →
      Coded W compatible x (.element d false :: ts) (ab ++ vb ++ bs)
        (as ++ [⟨⟨some d, false⟩, x.ops.packing e, vs⟩] ++ is) y
  /-- an element that is not present -/
  | absent {x y : Ctx} {ts : List Ast} {bs : List τ} {is : List (Datum F)} {d : Desc} :
      Coded W compatible x ts bs is y → Coded W compatible x (.element d true :: ts) bs is y
  /-- the significance of an associated field -/
  | significance {x y : Ctx} {ts : List Ast} {bs : List τ} {is : List (Datum F)} {d : Desc} {e : Bentry} {vb : List τ}
      {vs : List (Val F)} :
      d.entry = .b e → W (x.ops.packing e) vb vs →
      Coded W compatible (x.add [(⟨⟨some d, false⟩, x.ops.packing e, vs⟩ : Datum F)]) ts bs is y →
      Coded W compatible x (.e031021 d :: ts) (vb ++ bs) (⟨⟨some d, false⟩, x.ops.packing e, vs⟩ :: is) y
  /-- sequences and data not present: the members -/
  | sequence {x y : Ctx} {ts ms : List Ast} {bs : List τ} {is : List (Datum F)} {d : Desc} :
      Coded W compatible x (ms ++ ts) bs is y → Coded W compatible x (.sequence d ms :: ts) bs is y
  | notPresent {x y : Ctx} {ts ms : List Ast} {bs : List τ} {is : List (Datum F)} {d : Desc} :
      Coded W compatible x (ms ++ ts) bs is y → Coded W compatible x (.dataNotPresent d ms :: ts) bs is y
  /-- Y times the members -/
  | fixed {x y : Ctx} {ts ms : List Ast} {bs : List τ} {is : List (Datum F)} {d : Desc} :
      Coded W compatible x ((List.replicate d.id.Y.toNat ms).flatten ++ ts) bs is y →
      Coded W compatible x (.fixedRepl d ms :: ts) bs is y
  /-- the factor, and the members as often as it says (the same for all subsets) -/
  | delayed {x z y : Ctx} {ts ms : List Ast} {m : Ast} {fb bs : List τ} {fs is : List (Datum F)} {d : Desc}
      {v : Val F} {vs : List (Val F)} {k : Nat} {it : Datum F} :
      Coded W compatible x [m] fb fs z → fs.getLast? = some it → it.vals = v :: vs → (∀ w ∈ vs, Alike v w) →
      numberOf v = some k → Coded W compatible z ((List.replicate k ms).flatten ++ ts) bs is y →
      Coded W compatible x (.delayedRepl d (m :: ms) :: ts) (fb ++ bs) (fs ++ is) y
  /-- operators 201, 202, 207, 208 -/
  | op201 {x y : Ctx} {ts : List Ast} {bs : List τ} {is : List (Datum F)} {d : Desc} :
      Coded W compatible { x with ops := { x.ops with y201 := d.id.Y } } ts bs is y →
      Coded W compatible x (.nbitsOffset d :: ts) bs is y
  | op202 {x y : Ctx} {ts : List Ast} {bs : List τ} {is : List (Datum F)} {d : Desc} :
      Coded W compatible { x with ops := { x.ops with y202 := d.id.Y } } ts bs is y →
      Coded W compatible x (.scaleOffset d :: ts) bs is y
  | op207 {x y : Ctx} {ts : List Ast} {bs : List τ} {is : List (Datum F)} {d : Desc} :
      Coded W compatible { x with ops := { x.ops with y207 := d.id.Y } } ts bs is y →
      Coded W compatible x (.modifyPacking d :: ts) bs is y
  | op208 {x y : Ctx} {ts : List Ast} {bs : List τ} {is : List (Datum F)} {d : Desc} :
      Coded W compatible { x with ops := { x.ops with y208 := d.id.Y } } ts bs is y →
      Coded W compatible x (.setStringLength d :: ts) bs is y
  /-- 203255: the end of new reference values -/
  | op203end {x y : Ctx} {ts ms : List Ast} {bs : List τ} {is : List (Datum F)} {d : Desc} : d.id.Y = 255 →
      Coded W compatible x ts bs is y → Coded W compatible x (.newRefval d ms :: ts) bs is y
  /-- 204YYY: one more associated field, 204000: one less -/
  | op204 {x y : Ctx} {ts ms : List Ast} {bs : List τ} {is : List (Datum F)} {d : Desc} : d.id.Y ≠ 0 →
      Coded W compatible { x with assoc := x.assoc ++ [d.id.Y] } (ms ++ ts) bs is y →
      Coded W compatible x (.assocField d ms :: ts) bs is y
  | op204end {x y : Ctx} {ts ms : List Ast} {bs : List τ} {is : List (Datum F)} {d : Desc} : d.id.Y = 0 →
      x.assoc ≠ [] → Coded W compatible { x with assoc := x.assoc.dropLast } (ms ++ ts) bs is y →
      Coded W compatible x (.assocField d ms :: ts) bs is y
  /-- 205YYY: Y characters -/
  | op205 {x y : Ctx} {ts : List Ast} {bs : List τ} {is : List (Datum F)} {d : Desc} {vb : List τ} {vs : List (Val F)} :
      W (bare .string (d.id.Y * 8)) vb vs →
      Coded W compatible (x.add [(⟨⟨some d, false⟩, bare .string (d.id.Y * 8), vs⟩ : Datum F)]) ts bs is y →
      Coded W compatible x (.insertString d :: ts) (vb ++ bs) (⟨⟨some d, false⟩, bare .string (d.id.Y * 8), vs⟩ :: is) y
  /-- 206YYY: the next descriptor is Y bits -/
  | op206 {x y : Ctx} {ts ms : List Ast} {bs : List τ} {is : List (Datum F)} {d : Desc} {m : Ast} {vb : List τ}
      {vs : List (Val F)} :
      W (bare .binary d.id.Y) vb vs →
      Coded W compatible (x.add [(⟨⟨m.descriptor, false⟩, bare .binary d.id.Y, vs⟩ : Datum F)]) ts bs is y →
      Coded W compatible x (.skipLocal d (m :: ms) :: ts) (vb ++ bs) (⟨⟨m.descriptor, false⟩, bare .binary d.id.Y, vs⟩ :: is) y
  /-- 235000 and 237255: give up the back reference, the bitmap -/
  | op235 {x y : Ctx} {ts : List Ast} {bs : List τ} {is : List (Datum F)} {d : Desc} :
      Coded W compatible { x with back := none, current := none, reusable := none } ts bs is y →
      Coded W compatible x (.cancelBackRef d :: ts) bs is y
  | op237end {x y : Ctx} {ts : List Ast} {bs : List τ} {is : List (Datum F)} {d : Desc} :
      Coded W compatible { x with current := none, reusable := none } ts bs is y →
      Coded W compatible x (.cancelBitmap d :: ts) bs is y
  /-- a bitmap: every value is a bit, in particular the factor of a delayed replication (which makes no difference unless
  it is zero, `C83_harmless`, or there is nothing before the bitmap for it to refer to) -/
  | bitmap {x z y : Ctx} {ts ms : List Ast} {zb bb bs : List τ} {zs bi is : List (Datum F)} {d : Desc} {bits : List Nat} :
      d.id ≠ 237000 → apart ms = true → Zero W compatible d zb zs →
      Coded W compatible { x.add zs with current := none, reusable := none } ms bb bi z →
      bi.map (fun i => i.vals.head?.bind numberOf) = bits.map some →
      Coded W compatible { z with current := some bits, reusable := some bits } ts bs is y →
      Coded W compatible x (.bitmap (some d) ms :: ts) (zb ++ bb ++ bs) (zs ++ bi ++ is) y
  /-- 237000: the bitmap that was kept -/
  | recall {x y : Ctx} {ts ms : List Ast} {zb bs : List τ} {zs is : List (Datum F)} {d : Desc} :
      d.id = 237000 → Zero W compatible d zb zs →
      Coded W compatible { x.add zs with current := x.reusable } ts bs is y →
      Coded W compatible x (.bitmap (some d) ms :: ts) (zb ++ bs) (zs ++ is) y
  /-- an assessment: the bitmap, what goes before the values, and values for the elements selected, in order (there may
  be fewer) -/
  | assessment {x x1 x2 x3 y : Ctx} {ts as ms : List Ast} {bm : Ast} {zb b1 b2 b3 bs : List τ}
      {zs i1 i2 i3 is : List (Datum F)} {d : Desc} {n : Nat} {bits : List Nat} :
      0 < x.back.getD x.seen.length → Zero W compatible d zb zs →
      Coded W compatible ({ x with back := some (x.back.getD x.seen.length) }.add zs) [bm] b1 i1 x1 →
      Coded W compatible x1 as b2 i2 x2 →
      x2.current = some bits → x2.back = some n → bits ≠ [] → bits.length ≤ n →
      Coded W compatible { x2 with targets := selected bits n } ms b3 i3 x3 →
      i3.length ≤ (selected bits n).length →
      Coded W compatible x3 ts bs is y →
      Coded W compatible x (.assessment d bm as ms :: ts) (zb ++ b1 ++ b2 ++ b3 ++ bs) (zs ++ i1 ++ i2 ++ i3 ++ is) y
  /-- the value for an element selected, packed like the element; if an associated field was selected, also like
  the element.  Differences (225) ought to have one bit more; the code packs them like the others (C61) and so do these rules -/
  | marker {x y : Ctx} {ts : List Ast} {bs : List τ} {is : List (Datum F)} {d td : Desc} {a : Bool} {e : Bentry} {t : Nat}
      {rest : List Nat} {vb : List τ} {vs : List (Val F)} :
      x.targets = t :: rest → x.seen[t]? = some ⟨some td, a⟩ → td.id.F = 0 → td.entry = .b e →
      W (x.ops.packing e) vb vs →
      Coded W compatible ({ x with targets := rest }.add [(⟨⟨some d, false⟩, x.ops.packing e, vs⟩ : Datum F)]) ts bs is y →
      Coded W compatible x (.marker d :: ts) (vb ++ bs) (⟨⟨some d, false⟩, x.ops.packing e, vs⟩ :: is) y

end EncodeSpec
end Gobufr
