import Verif.Model.Table

/-!
# File paths

Models `filepath.Join` and `filepath.Clean` of the Go library as /repo/api/scriptrt.go:100-115 and
/repo/table/manager.go:89-100 use them, on systems where paths are separated by slashes.  The Go
library is external: this follows its documentation ("Clean returns the shortest path name
equivalent to path by purely lexical processing").
-/

namespace Gobufr.Path

/-- The parts of a text between the given separators. -/
def split (sep : UInt8) : GoString → List GoString
  | [] => [[]]
  | c :: cs =>
    if c = sep then [] :: split sep cs
    else
      match split sep cs with
      | [] => [[c]]
      | p :: ps => (c :: p) :: ps

/-- `strings.Join` -/
def joinWith (sep : UInt8) (parts : List GoString) : GoString := List.intercalate [sep] parts

/-- One element of a path; `stack` holds the elements kept so far, the last one first.  An empty
element and "." are dropped, ".." drops the last element, or itself at the root. -/
def push (rooted : Bool) (stack : List GoString) (part : GoString) : List GoString :=
  if part = [] ∨ part = str "." then stack
  else if part = str ".." then
    match stack with
    | [] => if rooted then [] else [part]
    | t :: ts => if t = str ".." then part :: stack else ts
  else part :: stack

/-- does the path begin with a slash? -/
def rooted (path : GoString) : Bool := path.head? == some (ch '/')

/-- the elements that are kept, the last one first -/
def kept (path : GoString) : List GoString := (split (ch '/') path).foldl (push (rooted path)) []

/-- put a path together again -/
def render (rooted : Bool) (stack : List GoString) : GoString :=
  if rooted then ch '/' :: joinWith (ch '/') stack.reverse
  else if stack = [] then str "." else joinWith (ch '/') stack.reverse

/-- `filepath.Clean` -/
def clean (path : GoString) : GoString := render (rooted path) (kept path)

/-- `filepath.Join` -/
def join : List GoString → GoString
  | [] => []
  | e :: es => if e = [] then join es else clean (joinWith (ch '/') (e :: es))

end Gobufr.Path
