import Verif.Model.Marshal
import Verif.Spec.Header

/-!
# Specification vocabulary: a message as a JSON document
-/

namespace Spec
open Gobufr

variable {F : Type}

/-- The characters of a string of bits. -/
def digits (l : List Bool) : GoString := l.map fun b => if b then ch '1' else ch '0'

/-- `Shown text v j`: the JSON value `j` shows the value `v`; `text` says how characters are shown. -/
inductive Shown (text : List UInt8 → GoString → Prop) : Val F → Doc F → Prop where
  | missing : Shown text .nil .null
  | uint (v : Nat) : Shown text (.uint v) (.int v)
  | int (v : Int) : Shown text (.int v) (.int v)
  | float (f : F) : Shown text (.float f) (.num f)
  | bool (b : Bool) : Shown text (.bool b) (.bool b)
  | text {s : List UInt8} {t : GoString} : text s t → Shown text (.bytes s) (.str t)
  | bits {l : List Bool} {bs : List UInt8} : Packed l bs → Shown text (.binary (some ⟨bs, l.length⟩)) (.str (digits l))
  | noBits : Shown text (.binary none) .null

/-- The token of a JSON text by which a value is shown; numbers are read as floats. -/
inductive TokenOf [GoFloat F] (text : List UInt8 → GoString → Prop) : Val F → Tok F → Prop where
  | missing : TokenOf text .nil .null
  | uint (v : Nat) : TokenOf text (.uint v) (.num (GoFloat.ofNat v))
  | int (v : Nat) : TokenOf text (.int v) (.num (GoFloat.ofNat v))
  | negative {v : Int} : v < 0 → TokenOf text (.int v) (.num (GoFloat.ofInt v))
  | float (f : F) : TokenOf text (.float f) (.num f)
  | bool (b : Bool) : TokenOf text (.bool b) (.bool b)
  | text {s : List UInt8} {t : GoString} : text s t → TokenOf text (.bytes s) (.str t)
  | bits {l : List Bool} {bs : List UInt8} : Packed l bs → TokenOf text (.binary (some ⟨bs, l.length⟩)) (.str (digits l))
  | noBits : TokenOf text (.binary none) .null

/-- Is it a value, no bracket? -/
def isScalar : Tok F → Bool
  | .delim => false
  | _ => true

/-- `l` shown as an array, element by element. -/
def Listed (one : α → Doc F → Prop) (l : List α) (j : Doc F) : Prop := 
  ∃ js, j = .arr js ∧ js.length = l.length ∧ ∀ p ∈ l.zip js, one p.1 p.2

/-- The value of a field: a template as the list of its descriptors, a payload as the list of its subsets,
each the list of its values. -/
def FieldShown (text : List UInt8 → GoString → Prop) (f : Field F) (j : Doc F) : Prop :=
  match f.value with
  | .val v => Shown text v j
  | .template ut => Listed (fun (id : ID) j => j = .int id) ut.ids j
  | .payload p => Listed (fun (s : Subset F) j => Listed (fun (c : Cell F) j => Shown text c.v j) s.cells j) p.subsets j

/-- A message as the list of its sections, each the list of its fields. -/
def MessageShown (text : List UInt8 → GoString → Prop) (m : Message F) (j : Doc F) : Prop :=
  Listed (fun (s : Section F) j => Listed (FieldShown text) s.fields j) m.sections j

/-- The bytes of a character in UTF-8. -/
def utf8 (n : Nat) : List UInt8 :=
  if n < 0x80 then [UInt8.ofNat n]
  else if n < 0x800 then [UInt8.ofNat (0xC0 + n / 64), UInt8.ofNat (0x80 + n % 64)]
  else if n < 0x10000 then [UInt8.ofNat (0xE0 + n / 4096), UInt8.ofNat (0x80 + n / 64 % 64), UInt8.ofNat (0x80 + n % 64)]
  else [UInt8.ofNat (0xF0 + n / 262144), UInt8.ofNat (0x80 + n / 4096 % 64), UInt8.ofNat (0x80 + n / 64 % 64), UInt8.ofNat (0x80 + n % 64)]

/-- The numbers that are characters: no surrogates, nothing above 10FFFF. -/
def IsChar (n : Nat) : Prop := n < 0xD800 ∨ 0xDFFF < n ∧ n < 0x110000

/-- `Replaced s t`: `t` is `s` with U+FFFD for every byte that does not belong to a character. -/
inductive Replaced : List UInt8 → List UInt8 → Prop where
  | nil : Replaced [] []
  | char {n : Nat} {s t : List UInt8} : IsChar n → Replaced s t → Replaced (utf8 n ++ s) (utf8 n ++ t)
  | byte {a : UInt8} {s t : List UInt8} : (∀ n s', IsChar n → a :: s ≠ utf8 n ++ s') → Replaced s t →
      Replaced (a :: s) (utf8 0xFFFD ++ t)

/-- Characters as they are. -/
def AsText (s : List UInt8) (t : GoString) : Prop := t = s

/-- The characters of base64. -/
def alphabet : GoString := Gobufr.str "ABCDEFGHIJKLMNOPQRSTUVWXYZabcdefghijklmnopqrstuvwxyz0123456789+/"

/-- Base64: the bits of the bytes, filled up with zeros, in groups of six, one character for each; `=` signs make
the number of characters a multiple of four. -/
def AsBase64 (s : List UInt8) (t : GoString) : Prop :=
  ∃ (gs : List Nat) (z e : Nat), z < 6 ∧ e < 4 ∧ (∀ g ∈ gs, g < 64) ∧
    gs.flatMap (natBits 6) = s.flatMap (fun b => natBits 8 b.toNat) ++ List.replicate z false ∧
    t.map some = gs.map (fun g => alphabet[g]?) ++ List.replicate e (some (ch '=')) ∧ t.length % 4 = 0

/-- The values in a field; a template holds its descriptors. -/
def fieldItems (f : Field F) : List (Val F) :=
  match f.value with
  | .val v => [v]
  | .template ut => ut.ids.map .int
  | .payload p => p.subsets.flatMap fun s => s.cells.map fun c => c.v

/-- All values in a message, in order. -/
def items (m : Message F) : List (Val F) := m.sections.flatMap fun s => s.fields.flatMap fieldItems

/-- A value as a decoder makes them: characters are kept as bytes, bit strings have the bytes they need. -/
def Proper (v : Val F) : Prop :=
  match v with
  | .str _ => False
  | .binary (some b) => ∃ l, Packed l b.b ∧ b.nbits = l.length
  | _ => True

/-- There is a section, every section has a field, and a payload has a subset. -/
def NothingEmpty (m : Message F) : Prop :=
  m.sections ≠ [] ∧ ∀ s ∈ m.sections, s.fields ≠ [] ∧ ∀ f ∈ s.fields, ∀ p, f.value = .payload p → p.subsets ≠ []

/-- Two values of the same kind. -/
def SameKind : Val F → Val F → Prop
  | .nil, .nil | .uint _, .uint _ | .int _, .int _ | .float _, .float _ | .bool _, .bool _ | .bytes _, .bytes _ => True
  | .binary (some _), .binary (some _) => True
  | .binary none, .binary none => True
  | _, _ => False

end Spec
