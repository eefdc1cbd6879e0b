import Verif.Model.Script

/-!
# Which entries of the tables matter to a template or a message
-/

namespace Gobufr.ExtendSpec

/-- The ids a template leads to: its own, the members of the sequences among them, and 000000, which
the parser puts in the place of descriptors that a truncated template lacks. -/
inductive Reached (lk : Lookup) (ids : List ID) : ID → Prop
  | zero : Reached lk ids 0
  | top {id : ID} : id ∈ ids → Reached lk ids id
  | member {id m : ID} {d : Desc} {e : Dentry} : Reached lk ids id → lk id = .ok d → d.entry = .d e →
      m ∈ e.members → Reached lk ids m

/-- Two results of loading a table: both are tables, related by `R`, or they are the same failure. -/
inductive Loads {T : Type} (R : T → T → Prop) : Outcome T → Outcome T → Prop
  | both {x y : T} : R x y → Loads R (.ok x) (.ok y)
  | err (e : Err) : Loads R (.err e) (.err e)
  | panic (w : String) : Loads R (.panic w) (.panic w)
  | diverge : Loads R .diverge .diverge

/-- The same tables exist, and they say the same about the ids in `S`. -/
structure SameOn (S : ID → Prop) (t t' : Tables) : Prop where
  b : ∀ n, Loads (fun x y => ∀ id, S id → x.lookup id = y.lookup id) (t.getB n) (t'.getB n)
  d : ∀ n, Loads (fun x y => ∀ id, S id → x.lookup id = y.lookup id) (t.getD n) (t'.getD n)

/-- Some table B or D has an entry for the id. -/
def Known (t : Tables) (id : ID) : Prop :=
  (∃ n x d, t.getB n = .ok x ∧ x.lookup id = .ok d) ∨ (∃ n x d, t.getD n = .ok x ∧ x.lookup id = .ok d)

/-- The same tables exist; what they said they still say; and new entries are for ids that no table
knew. -/
structure Grown (t t' : Tables) : Prop where
  b : ∀ n, Loads (fun x y => ∀ id d, (x.lookup id = .ok d → y.lookup id = .ok d) ∧
    (y.lookup id = .ok d → x.lookup id = .ok d ∨ ¬ Known t id)) (t.getB n) (t'.getB n)
  d : ∀ n, Loads (fun x y => ∀ id d, (x.lookup id = .ok d → y.lookup id = .ok d) ∧
    (y.lookup id = .ok d → x.lookup id = .ok d ∨ ¬ Known t id)) (t.getD n) (t'.getD n)

/-- Configurations that differ at most in the tables. -/
def SameBut (c c' : FacCfg) : Prop := c' = { c with tables := c'.tables }

/-- The ids that the template last read leads to, by the tables it is used with, are in `T`. -/
def Within (T : ID → Prop) {F : Type} (s : Fac F) : Prop := ∀ u g, s.ut = some u → s.tableGroup = some g →
  ∀ id, Reached g.lookup u.ids id → T id

end Gobufr.ExtendSpec
