import Verif.Model.Payload

/-!
# The members of the root

What the root of a decoded subset should have as members, read off the nodes of the template.
-/

namespace Spec

open Gobufr

/-- A member of the root: with a value or without one, for which descriptor, an associated field or not. -/
structure RootMember where
  valued : Bool
  desc : Option Desc
  assoc : Bool
  deriving Repr, DecidableEq

/-- What a node of a subset shows; a block shows nothing. -/
def shownAt {F : Type} (h : Heap F) (n : NodeId) : Option RootMember :=
  (h[n]?).bind fun x => match x.kind with
    | .block => none
    | .valueless d => some ⟨false, d.d, d.assoc⟩
    | .valued d _ _ _ _ => some ⟨true, d.d, d.assoc⟩

/-- Is the input flat JSON? -/
def fromJson (c : VisCfg) : Bool := c.unpacker matches .json

/-- A node without a value. -/
def label (d : Desc) : RootMember := ⟨false, some d, false⟩

/-- A node with a value. -/
def value (d : Desc) : RootMember := ⟨true, some d, false⟩

/-- An operator of bitmaps has a node without a value; in compatible mode it has one with a value, or none
if the input is flat JSON without a value for it. -/
inductive Operator (compatible json : Bool) (d : Desc) : List RootMember → Prop
  | label : compatible = false → Operator compatible json d [label d]
  | value : compatible = true → Operator compatible json d [value d]
  | lost : compatible = true → json = true → Operator compatible json d []

mutual
/-- `Members compatible json k t es k'`: with `k` associated fields open, a node `t` of the template that is not
in a sequence or replication stands for the members `es`, and then `k'` associated fields are open.
Sequences and replications stand for none. -/
inductive Members (compatible json : Bool) : Nat → Ast → List RootMember → Nat → Prop
  | absent (k : Nat) (d : Desc) : Members compatible json k (.element d true) [label d] k
  /-- the associated fields of an element come before it; elements of class 31 have none -/
  | element (k : Nat) (d : Desc) : Members compatible json k (.element d false)
      (List.replicate (if d.id.X = 31 then 0 else k) ⟨true, some d, true⟩ ++ [value d]) k
  | meaning (k : Nat) (d : Desc) : Members compatible json k (.e031021 d) [value d] k
  | sequence {k : Nat} {d : Desc} {ms : List Ast} {es : List RootMember} {k' : Nat} : MembersL compatible json k ms es k' →
      Members compatible json k (.sequence d ms) [] k'
  | fixed {k : Nat} {d : Desc} {ms : List Ast} {k' : Nat} : Times compatible json d.id.Y.toNat k ms k' →
      Members compatible json k (.fixedRepl d ms) [] k'
  | delayed {k : Nat} {d : Desc} {m : Ast} {ms : List Ast} {es : List RootMember} {k1 n k' : Nat} :
      Members compatible json k m es k1 → Times compatible json n k1 ms k' → Members compatible json k (.delayedRepl d (m :: ms)) [] k'
  | nbitsOffset (k : Nat) (d : Desc) : Members compatible json k (.nbitsOffset d) [label d] k
  | scaleOffset (k : Nat) (d : Desc) : Members compatible json k (.scaleOffset d) [label d] k
  | newRefval (k : Nat) (d : Desc) (ms : List Ast) : Members compatible json k (.newRefval d ms)
      (label d :: if d.id.Y = 255 then [] else ms.map fun m => ⟨true, m.descriptor, false⟩) k
  | opens {k : Nat} {d : Desc} {ms : List Ast} {es : List RootMember} {k' : Nat} : d.id.Y ≠ 0 →
      MembersL compatible json (k + 1) ms es k' → Members compatible json k (.assocField d ms) (label d :: es) k'
  | closes {k : Nat} {d : Desc} {ms : List Ast} {es : List RootMember} {k' : Nat} : d.id.Y = 0 →
      MembersL compatible json k ms es k' → Members compatible json (k + 1) (.assocField d ms) (label d :: es) k'
  | insertString (k : Nat) (d : Desc) : Members compatible json k (.insertString d) [value d] k
  | skipLocal (k : Nat) (d : Desc) (m : Ast) (ms : List Ast) : Members compatible json k (.skipLocal d (m :: ms))
      [label d, ⟨true, m.descriptor, false⟩] k
  | modifyPacking (k : Nat) (d : Desc) : Members compatible json k (.modifyPacking d) [label d] k
  | setStringLength (k : Nat) (d : Desc) : Members compatible json k (.setStringLength d) [label d] k
  | dataNotPresent {k : Nat} {d : Desc} {ms : List Ast} {es : List RootMember} {k' : Nat} :
      MembersL compatible json k ms es k' → Members compatible json k (.dataNotPresent d ms) (label d :: es) k'
  | assessment {k : Nat} {d : Desc} {bm : Ast} {as ms : List Ast} {zs es1 es2 es3 : List RootMember} {k1 k2 k' : Nat} :
      Operator compatible json d zs → Members compatible json k bm es1 k1 → MembersL compatible json k1 as es2 k2 →
      MembersL compatible json k2 ms es3 k' → Members compatible json k (.assessment d bm as ms) (zs ++ (es1 ++ (es2 ++ es3))) k'
  | marker (k : Nat) (d : Desc) : Members compatible json k (.marker d) [value d] k
  | cancelBackRef (k : Nat) (d : Desc) : Members compatible json k (.cancelBackRef d) [] k
  | cancelBitmap (k : Nat) (d : Desc) : Members compatible json k (.cancelBitmap d) [] k
  | recalled {k : Nat} {d : Desc} {ms : List Ast} {zs : List RootMember} : d.id = 237000 → Operator compatible json d zs →
      Members compatible json k (.bitmap (some d) ms) zs k
  | bitmap {k : Nat} {d : Desc} {ms : List Ast} {zs es : List RootMember} {k' : Nat} : d.id ≠ 237000 →
      Operator compatible json d zs → MembersL compatible json k ms es k' → Members compatible json k (.bitmap (some d) ms) (zs ++ es) k'
/-- The members that a list of nodes stands for. -/
inductive MembersL (compatible json : Bool) : Nat → List Ast → List RootMember → Nat → Prop
  | nil (k : Nat) : MembersL compatible json k [] [] k
  | cons {k : Nat} {t : Ast} {ts : List Ast} {es1 es2 : List RootMember} {k1 k' : Nat} : Members compatible json k t es1 k1 →
      MembersL compatible json k1 ts es2 k' → MembersL compatible json k (t :: ts) (es1 ++ es2) k'
/-- What is repeated that often may open and close associated fields. -/
inductive Times (compatible json : Bool) : Nat → Nat → List Ast → Nat → Prop
  | zero (k : Nat) (ms : List Ast) : Times compatible json 0 k ms k
  | succ {n k : Nat} {ms : List Ast} {es : List RootMember} {k1 k' : Nat} : MembersL compatible json k ms es k1 →
      Times compatible json n k1 ms k' → Times compatible json (n + 1) k ms k'
end

mutual
/-- The members that a node stands for when there are no associated fields, not in compatible mode. -/
def shownBy : Ast → List RootMember
  | .element d np => [⟨!np, some d, false⟩]
  | .e031021 d | .insertString d | .marker d => [value d]
  | .nbitsOffset d | .scaleOffset d | .modifyPacking d | .setStringLength d => [label d]
  | .newRefval d ms => label d :: if d.id.Y = 255 then [] else ms.map fun m => ⟨true, m.descriptor, false⟩
  | .skipLocal d (m :: _) => [label d, ⟨true, m.descriptor, false⟩]
  | .dataNotPresent d ms => label d :: shownByL ms
  | .assessment d bm as ms => label d :: (shownBy bm ++ (shownByL as ++ shownByL ms))
  | .bitmap (some d) ms => label d :: if d.id = 237000 then [] else shownByL ms
  | _ => []
/-- The members that a list of nodes stands for. -/
def shownByL : List Ast → List RootMember
  | [] => []
  | t :: ts => shownBy t ++ shownByL ts
end

/-- Operators of associated fields. -/
def IsField : Ast → Prop
  | .assocField _ _ => True
  | _ => False

end Spec
