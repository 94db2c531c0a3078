import Verif.Spec.World
import Verif.Spec.Wide

/-!
# Calls that change nothing, in any history
-/

set_option autoImplicit false

namespace Dendron
variable {α : Type}

/-- From `w` the program gets to `w'` by any calls that are no creations, edits or writes. -/
inductive ReadsAny : World α → World α → Prop
  | refl (w : World α) : ReadsAny w w
  | step {w w' w'' : World α} {op : Op α} {r : Res} : ReadsAny w w' → op.isRead → w'.Call op w'' r →
      ReadsAny w w''

/-- The same in the histories that also take the last of several siblings away: by calls that are no creations,
edits or writes and do not ask where a list of children with a stale end ends. -/
inductive ReadsW : World α → World α → Prop
  | refl (w : World α) : ReadsW w w
  | step {w w' w'' : World α} {op : Op α} {r : Res} : ReadsW w w' → op.isRead → w'.StepW op w'' r →
      ReadsW w w''

end Dendron
