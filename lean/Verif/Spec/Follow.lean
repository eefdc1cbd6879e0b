import Verif.Model.Ast
import Verif.Spec.Template
import Verif.Spec.Payload

/-!
# What a walk of a template announces

The events of a walk that stand for data, and the templates for which the order of the events is the order of the data.
Independent of the parser and the decoder.
-/

namespace Gobufr.FollowSpec
open Flat

variable {F : Type}

/-- The operators that have nothing below them and do not concern other data than those that follow: 201, 202, 205, 207,
208. -/
def plainOps : List Int := [201, 202, 205, 207, 208]

mutual
/-- Templates of elements, sequences, replications whose factors are elements, and of these operators. -/
def straight : TNode → Bool
  | .mk d factor ms =>
    (d.id.F == 0 || d.id.F == 1 || d.id.F == 3 || plainOps.contains d.id.Operator) &&
      factor.all (fun f => f.id.F == 0) && straightL ms
/-- The same for a list of nodes. -/
def straightL : List TNode → Bool
  | [] => true
  | n :: ns => straight n && straightL ns
end

/-- What an event says is to come in the data: a descriptor, and whether it is a replication factor.  Of the operators only
205 stands for data. -/
def announced : Event → List (Bool × Desc)
  | .element d => [(false, d)]
  | .factor d => [(true, d)]
  | .operator d => if d.id.Operator = 205 then [(false, d)] else []
  | _ => []

/-- What is said of the replication factors among the data. -/
def ofFactors {α : Type} (as : List (Bool × Desc)) (xs : List α) : List α :=
  (as.zip xs).filterMap fun p => if p.1.1 then some p.2 else none

/-- The nodes of a parsed template that belong to those of an expanded one. -/
def leafOf (d : Desc) : Ast := if d.id = 31021 then .e031021 d else .element d false

mutual
/-- The syntax tree of an expanded template: a factor is the first member of its replication. -/
def treeOf : TNode → Ast
  | .mk d factor ms =>
    if d.id.F = 0 then leafOf d
    else if d.id.F = 3 then .sequence d (treeL ms)
    else if d.id.F = 1 then
      match factor with
      | some f => .delayedRepl d (leafOf f :: treeL ms)
      | none => .fixedRepl d (treeL ms)
    else if d.id.Operator = 201 then .nbitsOffset d
    else if d.id.Operator = 202 then .scaleOffset d
    else if d.id.Operator = 205 then .insertString d
    else if d.id.Operator = 207 then .modifyPacking d
    else .setStringLength d
/-- The same for a list of nodes. -/
def treeL : List TNode → List Ast
  | [] => []
  | n :: ns => treeOf n :: treeL ns
end

end Gobufr.FollowSpec
