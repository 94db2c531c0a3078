import Verif.Model.Macro
import Verif.Spec.RTree

/-! # What the macros must build -/

set_option autoImplicit false

namespace Dendron
variable {α : Type}

mutual
/-- The tree that a literal describes. -/
def Lit.tree : Lit α → RTree α
  | .leaf d => .node d []
  | .branch d cs => .node d (Lit.trees cs)
/-- The trees that a list of literals describes. -/
def Lit.trees : List (Lit α) → List (RTree α)
  | [] => []
  | c :: cs => Lit.tree c :: Lit.trees cs
end

end Dendron
