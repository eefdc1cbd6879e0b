import Verif.Spec.Runtime
import Verif.Proofs.Path
import Verif.Proofs.Stringer
import Verif.Props.Table

/-!
# C81 with the paths that `filepath.Join` makes
-/

namespace Gobufr

open Spec

theorem plain_itoa (i : Int) : Path.Plain (itoa i) := by
  refine ⟨?_, ?_, ?_, itoa_no_slash i⟩
  · unfold itoa
    split
    · simp
    · exact decNat_ne_nil _
  · intro h
    exact Stringer.itoa_no (i := i) (c := ch '.') (by decide) (by decide) (by rw [h]; decide)
  · intro h
    exact Stringer.itoa_no (i := i) (c := ch '.') (by decide) (by decide) (by rw [h]; decide)

/-- **C81** (paths).  What `filepath.Join` makes of the base directory, the numbers and a file name is
the path of `composeTablePath`. -/
theorem C81_join (dir : GoString) (n : TableNum) {name : GoString} (h : Path.Plain name) :
    Path.join [dir, itoa n.master, itoa n.centre, itoa n.subCentre, itoa n.version, name]
      = composeTablePath (below dir []) n name := by
  rw [Path.join_dir dir (by simp) (by
    intro f hf
    simp only [List.mem_cons, List.not_mem_nil, or_false] at hf
    rcases hf with rfl | rfl | rfl | rfl | rfl
    · exact plain_itoa _
    · exact plain_itoa _
    · exact plain_itoa _
    · exact plain_itoa _
    · exact h)]
  unfold below composeTablePath
  simp [Path.joinWith, List.intercalate, List.intersperse]

/-- **C81** (any base directory).  Different numberings and file names have different paths. -/
theorem C81_joined (dir : GoString) {n m : TableNum} {a b : GoString} (ha : Path.Plain a) (hb : Path.Plain b)
    (h : Path.join [dir, itoa n.master, itoa n.centre, itoa n.subCentre, itoa n.version, a]
      = Path.join [dir, itoa m.master, itoa m.centre, itoa m.subCentre, itoa m.version, b]) : n = m ∧ a = b := by
  rw [C81_join dir n ha, C81_join dir m hb] at h
  exact C81_paths_distinct _ _ _ _ _ h

example : Path.Plain (str "TableB.json") ∧
    Path.join [str "./_tables/", itoa 0, itoa 98, itoa 0, itoa 1, str "TableB.json"] = str "_tables/0/98/0/1/TableB.json" :=
  ⟨⟨by decide, by decide, by decide, by decide⟩, by decide⟩

end Gobufr
