import Verif.Spec.Parser
import Verif.Model.Script

/-!
# What decoding needs to end
-/

namespace Gobufr.EndsSpec

/-- Reading a table ends, with a table or an error. -/
structure Loading (t : Tables) : Prop where
  b : ∀ n, t.getB n ≠ .diverge
  d : ∀ n, t.getD n ≠ .diverge

/-- No sequence contains itself, by the tables that a message can choose together. -/
def NoCycles (t : Tables) : Prop := ∀ a b c d e g, addLocalAndWmoTableGroups t a b c d e ⟨[]⟩ = (.ok (), g) →
  TemplateSpec.Acyclic g.lookup

/-- A node for opaque bits: the unit of its descriptor is "binary", or it skips the bits of a local
descriptor (206YYY). -/
def Opaque : Ast → Prop
  | .skipLocal _ _ => True
  | t => ∃ d e, t.descriptor = some d ∧ d.entry = .b e ∧ e.unit = .binary

/-- The message so far says that the data are compressed. -/
def Compressed {F : Type} (s : Fac F) : Prop := ∃ m f v, s.message = some m ∧ m.proxyField (str "isCompressed") = .ok f ∧
  f.luaValue = .ok v ∧ v.toBoolean = true

/-- The template last read, parsed with the tables it is used with, has opaque bits. -/
def HasOpaque {F : Type} (s : Fac F) : Prop := ∃ u g n t, s.ut = some u ∧ s.tableGroup = some g ∧
  parse g.lookup n u.ids = .ok t ∧ ∃ x ∈ ParserSpec.nodes t, Opaque x

end Gobufr.EndsSpec
