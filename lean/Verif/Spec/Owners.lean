import Verif.Spec.World

/-!
# Who owns a node
-/

set_option autoImplicit false

namespace Dendron
variable {α : Type}

/-- The living node `m` owns node `n`: `n` is its first child or its next sibling. -/
def Heap.Owns (h : Heap α) (m n : NodeId) : Prop :=
  h.alive m = true ∧ (h.navTo m .firstChild = .ok (some n) ∨ h.navTo m .nextSibling = .ok (some n))

/-- The program owns node `n`: it has a handle to `n`, or `n` is the root of a tree it holds (by a `Tree`
or by a handle to some node of the tree). -/
def World.OwnsNode (w : World α) (n : NodeId) : Prop :=
  w.Holds n ∨ ∃ t, w.TreeHeld t ∧ w.heap.rootLink t = .ok n

/-- A chain of at least one owner from `m` to `n`. -/
inductive Heap.OwnPath (h : Heap α) : NodeId → NodeId → Prop
  | one {m n : NodeId} : h.Owns m n → Heap.OwnPath h m n
  | cons {m x n : NodeId} : h.Owns m x → Heap.OwnPath h x n → Heap.OwnPath h m n

end Dendron
