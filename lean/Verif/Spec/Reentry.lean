import Verif.Spec.RTree
import Verif.Spec.Shape
import Verif.Model.Reentry

/-!
# Post-order, and the answers of weak handles during a release
-/

set_option autoImplicit false

namespace Dendron
namespace RTree
variable {β : Type}

mutual
/-- The labels in post-order: the children from left to right, then the node. -/
def post : RTree β → List β
  | node v cs => postL cs ++ [v]
/-- The labels of a list of trees in post-order. -/
def postL : List (RTree β) → List β
  | [] => []
  | c :: cs => post c ++ postL cs
end

end RTree
open RTree
variable {α : Type}

/-- The answers at the moments of the release of tree `t`: weak handles to nodes of other trees can be
upgraded, those to nodes that are gone or going cannot; weak handles to other living trees can be
upgraded, those to the tree itself cannot. -/
def Answers (w : World α) (t : TreeId) (ms : List (Moment α)) : Prop :=
  ∀ l1 m l2, ms = l1 ++ m :: l2 →
    (∀ x, w.heap.alive x = true → w.heap.nodeTree x ≠ .ok t → m.upgrade x = .ok (some x)) ∧
    (∀ x, w.heap.alive x = false ∨ x ∈ (l1 ++ [m]).map (·.node) → m.upgrade x = .ok none) ∧
    ∀ u, m.upgradeTree u = if u ≠ t ∧ w.heap.treeAlive u = true then some u else none

/-- The destructors run in post-order of the tree `t`: children before their parents, from left to
right; except that the node `o` comes last. -/
def PostOrder (w : World α) (t : TreeId) (o : Option NodeId) (ms : List (Moment α)) : Prop :=
  ∀ r ch T, w.heap.root t = some r → FShape w.heap ch → SubtreeAt ch r T →
    ms.map (·.node) = T.post.filter (fun x => some x ≠ o) ++ o.toList

end Dendron
