import Verif.Model.Objects

/-!
# Histories of metadata, payloads and subsets
-/

namespace Spec

open Gobufr

variable {F : Type}

/-- The value stored last under a name. -/
def lastValue (sets : List (GoString × Val F)) (name : GoString) : Option (Val F) :=
  (sets.reverse.find? fun x => x.1 == name).map fun x => x.2

/-- The subsets added to the payload `p`, in order; `n` subsets were created before. -/
def added (p : PayRef) : Nat → List (PayOp F) → List SubRef
  | _, [] => []
  | n, .newPayload _ :: ops => added p n ops
  | n, .newSubset _ _ :: ops => added p (n + 1) ops
  | n, .addSubset q s :: ops => (if q = p then [s] else []) ++ added p n ops
  | n, .add q _ _ :: ops => (if q = p then [n] else []) ++ added p (n + 1) ops
  | n, .addCell _ _ :: ops => added p n ops

/-- The cells of the subset `s`, in order. -/
def cellsOf (s : SubRef) : Nat → List (PayOp F) → List (Cell F)
  | _, [] => []
  | n, .newPayload _ :: ops => cellsOf s n ops
  | n, .newSubset cs _ :: ops => (if n = s then cs else []) ++ cellsOf s (n + 1) ops
  | n, .addSubset _ _ :: ops => cellsOf s n ops
  | n, .add _ _ cs :: ops => (if n = s then cs else []) ++ cellsOf s (n + 1) ops
  | n, .addCell t c :: ops => (if t = s then [c] else []) ++ cellsOf s n ops

/-- A caller has only pointers to objects that exist: `np` payloads and `ns` subsets so far. -/
def Possible : Nat → Nat → List (PayOp F) → Prop
  | _, _, [] => True
  | np, ns, .newPayload _ :: ops => Possible (np + 1) ns ops
  | np, ns, .newSubset _ _ :: ops => Possible np (ns + 1) ops
  | np, ns, .addSubset p s :: ops => p < np ∧ s < ns ∧ Possible np ns ops
  | np, ns, .add p _ _ :: ops => p < np ∧ Possible np (ns + 1) ops
  | np, ns, .addCell s _ :: ops => s < ns ∧ Possible np ns ops

/-- No subset is given to `AddSubset` twice, and none that `Add` made. -/
def Once (taken : List SubRef) : Nat → List (PayOp F) → Prop
  | _, [] => True
  | n, .newPayload _ :: ops => Once taken n ops
  | n, .newSubset _ _ :: ops => Once taken (n + 1) ops
  | n, .addSubset _ s :: ops => s ∉ taken ∧ Once (s :: taken) n ops
  | n, .add _ _ _ :: ops => Once (n :: taken) (n + 1) ops
  | n, .addCell _ _ :: ops => Once taken n ops

end Spec
