import Verif.Spec.Stream

/-!
# Specification vocabulary: going on after a failure
-/

namespace Spec
open Gobufr

/-- The factory after `k` calls of `Run`, whatever they returned. -/
def afterRuns [GoFloat F] (c : FacCfg) : Nat → Fac F → Fac F
  | 0, t => t
  | k + 1, t => afterRuns c k (Runtime.run c t).2

/-- One of the calls of `Run` from now on returns the message. -/
def Reaches [GoFloat F] (c : FacCfg) (t : Fac F) (m : Message F) : Prop := ∃ k, (Runtime.run c (afterRuns c k t)).1 = .ok m

end Spec
