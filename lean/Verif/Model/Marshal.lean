import Verif.Model.Bufr

/-!
# JSON output of the object model

Models the `MarshalJSON` methods of /repo/bufr (message.go, section.go, field.go, payload.go, cell.go) and
/repo/table/template.go, with the contract of `encoding/json` for the values they hand over.  JSON text is
represented by the tree it denotes; a string in it is the sequence of bytes it denotes (escapes resolved).
-/

namespace Gobufr

/-- A JSON document.  Integers are written in full, floating point numbers so that reading them gives the
same number. -/
inductive Doc (F : Type) where
  | null
  | bool (b : Bool)
  | int (i : Int)
  | num (f : F)
  | str (s : GoString)
  | arr (l : List (Doc F))
  deriving Repr, Inhabited

namespace Marshal

variable {F : Type}

/-- `encoding/base64.StdEncoding`: the character of a group of six bits -/
def sextet (n : Nat) : UInt8 :=
  if n < 26 then UInt8.ofNat (65 + n)
  else if n < 52 then UInt8.ofNat (97 + (n - 26))
  else if n < 62 then UInt8.ofNat (48 + (n - 52))
  else if n = 62 then ch '+'
  else ch '/'

/-- `encoding/base64.StdEncoding.EncodeToString`: what `encoding/json` writes for a `[]byte` -/
def base64 : List UInt8 → GoString
  | a :: b :: c :: rest =>
    sextet (a.toNat / 4) :: sextet (a.toNat % 4 * 16 + b.toNat / 16) ::
      sextet (b.toNat % 16 * 4 + c.toNat / 64) :: sextet (c.toNat % 64) :: base64 rest
  | [a, b] => [sextet (a.toNat / 4), sextet (a.toNat % 4 * 16 + b.toNat / 16), sextet (b.toNat % 16 * 4), ch '=']
  | [a] => [sextet (a.toNat / 4), sextet (a.toNat % 4 * 16), ch '=', ch '=']
  | [] => []

/-- A continuation byte of UTF-8 from `lo` to `hi`. -/
def inRange (lo hi : Nat) (b : UInt8) : Bool := lo ≤ b.toNat && b.toNat ≤ hi

/-- `unicode/utf8.DecodeRuneInString`: the number of bytes of the first character, 0 if the bytes are not
UTF-8 -/
def runeLength : List UInt8 → Nat
  | [] => 0
  | a :: rest =>
    if a.toNat < 0x80 then 1
    else match rest with
      | [] => 0
      | b :: rest =>
        if inRange 0xC2 0xDF a then (if inRange 0x80 0xBF b then 2 else 0)
        else match rest with
          | [] => 0
          | c :: rest =>
            if inRange 0xE0 0xEF a then
              (if inRange (if a = 0xE0 then 0xA0 else 0x80) (if a = 0xED then 0x9F else 0xBF) b && inRange 0x80 0xBF c then 3
               else 0)
            else match rest with
              | [] => 0
              | d :: _ =>
                if inRange 0xF0 0xF4 a && inRange (if a = 0xF0 then 0x90 else 0x80) (if a = 0xF4 then 0x8F else 0xBF) b &&
                    inRange 0x80 0xBF c && inRange 0x80 0xBF d then 4
                else 0

/-- `encoding/json` on strings: bytes that are not UTF-8 are replaced by U+FFFD. -/
def validText (s : List UInt8) : GoString :=
  match s with
  | [] => []
  | a :: rest =>
    if runeLength (a :: rest) = 0 then [0xEF, 0xBF, 0xBD] ++ validText rest
    else (a :: rest).take (runeLength (a :: rest)) ++ validText ((a :: rest).drop (runeLength (a :: rest)))
termination_by s.length
decreasing_by
  all_goals simp only [List.length_cons, List.length_drop]; omega

/-- `json.Marshal` of the dynamic values of fields and cells.  `finite` tells numbers from NaN and the
infinities, which are refused.  A nil pointer is `null`, without a call of `MarshalJSON`; for the other bit strings
see /repo/tdcfio/binary.go:110-112.  (No code makes a nil `[]byte`.) -/
def value (finite : F → Bool) : Val F → Outcome (Doc F)
  | .nil => .ok .null
  | .uint v => .ok (.int v)
  | .int v => .ok (.int v)
  | .float f => if finite f then .ok (.num f) else .err (.msg "json: unsupported value")
  | .bool b => .ok (.bool b)
  | .str s => .ok (.str (validText s))
  | .bytes b => .ok (.str (base64 b))
  | .binary none => .ok .null
  | .binary (some b) => .ok (.str b.string)

/-- `encoding/json` on the elements of a slice, one after the other -/
def elements (f : α → Outcome (Doc F)) : List α → Outcome (List (Doc F))
  | [] => .ok []
  | x :: xs => do
    let j ← f x
    let js ← elements f xs
    .ok (j :: js)

/-- `encoding/json` on a slice that has only been appended to: it is nil, written `null`, until the first
element is added. -/
def appended (f : α → Outcome (Doc F)) (l : List α) : Outcome (Doc F) := do
  let js ← elements f l
  match js with
  | [] => .ok .null
  | j :: js => .ok (.arr (j :: js))

/-- `encoding/json` on a slice that has been made with its length -/
def made (f : α → Outcome (Doc F)) (l : List α) : Outcome (Doc F) := do
  let js ← elements f l
  .ok (.arr js)

/-- `encoding/json` calls `MarshalJSON`; the error is wrapped in a `MarshalerError`. -/
def call (o : Outcome (Doc F)) : Outcome (Doc F) := Outcome.wrapErr "json: error calling MarshalJSON" o

/-- /repo/bufr/cell.go:43-45 `Cell.MarshalJSON` -/
def cell (finite : F → Bool) (c : Cell F) : Outcome (Doc F) := value finite c.v

/-- /repo/bufr/payload.go:92-98 `Subset.MarshalJSON` (the cells' own method is not used) -/
def subset (finite : F → Bool) (s : Subset F) : Outcome (Doc F) := made (value finite) (s.cells.map fun c => c.v)

/-- /repo/bufr/payload.go:44-46 `Payload.MarshalJSON` -/
def payload (finite : F → Bool) (p : Payload F) : Outcome (Doc F) :=
  appended (fun s => call (subset finite s)) p.subsets

/-- /repo/table/template.go:85-87 `UnexpandedTemplate.MarshalJSON`; an `ID` is an integer. -/
def template (ut : UnexpandedTemplate) : Outcome (Doc F) := made (fun id : ID => .ok (.int id)) ut.ids

/-- /repo/bufr/field.go:72-74 `Field.MarshalJSON` -/
def field (finite : F → Bool) (f : Field F) : Outcome (Doc F) :=
  match f.value with
  | .val v => value finite v
  | .template ut => call (template ut)
  | .payload p => call (payload finite p)

/-- /repo/bufr/section.go:67-69 `Section.MarshalJSON` -/
def section_ (finite : F → Bool) (s : Section F) : Outcome (Doc F) :=
  appended (fun f => call (field finite f)) s.fields

/-- /repo/bufr/message.go:62-64 `Message.MarshalJSON` -/
def message (finite : F → Bool) (m : Message F) : Outcome (Doc F) :=
  appended (fun s => call (section_ finite s)) m.sections

end Marshal

/-! ## Reading a document -/

namespace Doc

variable {F : Type}

mutual

/-- `json.Decoder.Token` on the text of the document -/
def toks [GoFloat F] : Doc F → List (Tok F)
  | .null => [.null]
  | .bool b => [.bool b]
  | .int i => [.num (if 0 ≤ i then GoFloat.ofNat i.toNat else GoFloat.ofInt i)]
  | .num f => [.num f]
  | .str s => [.str s]
  | .arr l => [.delim] ++ toksL l ++ [.delim]

/-- the elements of an array -/
def toksL [GoFloat F] : List (Doc F) → List (Tok F)
  | [] => []
  | j :: js => toks j ++ toksL js

end

end Doc

end Gobufr
