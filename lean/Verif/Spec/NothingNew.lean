import Verif.Spec.DesignSize

/-!
# When a proposal is not new
-/
namespace Verif.Spec
open Verif.Model

/-- The point does not differ from some recorded point. -/
def AlreadyRecorded (ks : List Kind) (data : List (List Val)) (x : List Val) : Prop := ∃ d ∈ data, ¬ Differs ks x d

end Verif.Spec
