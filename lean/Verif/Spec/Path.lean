import Verif.Model.Table

/-!
# The place a path names

Stated without cleaning the path: one goes from directory to directory.  There are no symbolic links.
-/

namespace Spec

open Gobufr

/-- Go from a directory, given by the names of the directories down to it, the last one first, to what
the name stands for there.  The parent of the topmost directory is itself. -/
def enter (here : List GoString) (name : GoString) : List GoString :=
  if name = [] ∨ name = str "." then here
  else if name = str ".." then here.tail
  else name :: here

/-- Follow a path; `name` is the part of the next name that was read already. -/
def walk (here : List GoString) (name : GoString) : GoString → List GoString
  | [] => enter here name
  | c :: cs => if c = ch '/' then walk (enter here name) [] cs else walk here (name ++ [c]) cs

/-- The place that a path names, seen from a directory. -/
def place (here : List GoString) (path : GoString) : List GoString :=
  walk (if path.head? = some (ch '/') then [] else here) [] path

end Spec
