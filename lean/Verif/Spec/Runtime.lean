import Verif.Model.Runtime

/-!
# What a runtime should be

Stated without looking at how the runtime is set up.
-/

namespace Spec

open Gobufr

/-- The path of a file of a directory.  An empty directory is the current one. -/
def below (dir file : GoString) : GoString :=
  (if dir = [] ∨ Path.clean dir = str "." then []
   else if Path.clean dir = str "/" then str "/"
   else Path.clean dir ++ str "/") ++ file

/-- The numbers that definition scripts know by name. -/
inductive Constant : String → Int → Prop
  | int : Constant "INT" 0
  | uint : Constant "UINT" 1
  | float : Constant "FLOAT" 2
  | bool : Constant "BOOL" 3
  | bytes : Constant "BYTES" 4
  | binary : Constant "BINARY" 5
  | bitsPerByte : Constant "BITS_PER_BYTE" 8

/-- The functions of the library `factory`. -/
def library : List String :=
  ["getMessage", "newMessage", "newSection", "newField", "newTemplateField", "newPayloadField",
   "padding", "peekEditionNumber", "initTableGroup"]

/-- The types of the objects that scripts get, with the functions they have. -/
inductive ObjectType : String → List String → Prop
  | message : ObjectType "gobufrkit.message" ["__tostring", "setProxyField", "getProxyField"]
  | section_ : ObjectType "gobufrkit.section" ["getField", "getNumberOfFields"]
  | field : ObjectType "gobufrkit.field" ["__tostring", "value", "isMissing"]

/-- The name of a module, made of the names of directories and of a file: `bufr4.bufr4`. -/
def moduleName (parts : List GoString) : GoString := List.intercalate (str ".") parts

/-- The file of a module below a directory: `bufr4/bufr4.lua`. -/
def moduleFile (dir : GoString) (parts : List GoString) : GoString :=
  below dir (List.intercalate (str "/") parts ++ str ".lua")

/-- Part of a module name. -/
def NamePart (p : GoString) : Prop := p ≠ [] ∧ ∀ c ∈ p, c ≠ ch '.' ∧ c ≠ ch '/' ∧ c ≠ ch ';' ∧ c ≠ ch '?'

end Spec
