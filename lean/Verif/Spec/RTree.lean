import Verif.Spec.Shape

/-!
# Rose trees and event sequences

Abstract trees: what the traversals, the serializer, the builder and equality talk about.
-/

set_option autoImplicit false

namespace Dendron

/-- A finite ordered tree with labels. -/
inductive RTree (β : Type) where
  | node (v : β) (cs : List (RTree β))

namespace RTree
variable {β γ : Type}

/-- The label of the root. -/
def label : RTree β → β
  | node v _ => v

/-- The subtrees below the root. -/
def children : RTree β → List (RTree β)
  | node _ cs => cs

mutual
/-- The depth-first event sequence: open, the children from left to right, close. -/
def events : RTree β → List (DftEvent β)
  | node v cs => .opn v :: (eventsL cs ++ [.cls v])
/-- Event sequences of a list of trees, one after the other. -/
def eventsL : List (RTree β) → List (DftEvent β)
  | [] => []
  | c :: cs => events c ++ eventsL cs
end

mutual
/-- The labels in pre-order. -/
def nodes : RTree β → List β
  | node v cs => v :: nodesL cs
/-- The labels of a list of trees in pre-order. -/
def nodesL : List (RTree β) → List β
  | [] => []
  | c :: cs => nodes c ++ nodesL cs
end

/-- The number of nodes. -/
def size (t : RTree β) : Nat := t.nodes.length

mutual
/-- Relabeling. -/
def map (f : β → γ) : RTree β → RTree γ
  | node v cs => node (f v) (mapL f cs)
/-- Relabeling of a list of trees. -/
def mapL (f : β → γ) : List (RTree β) → List (RTree γ)
  | [] => []
  | c :: cs => map f c :: mapL f cs
end

end RTree

mutual
/-- Every node of the abstract tree has exactly the children that the hierarchy `ch` gives it. -/
def Hier (ch : NodeId → List NodeId) : RTree NodeId → Prop
  | .node v cs => cs.map RTree.label = ch v ∧ HierL ch cs
/-- The same for a list of trees. -/
def HierL (ch : NodeId → List NodeId) : List (RTree NodeId) → Prop
  | [] => True
  | c :: cs => Hier ch c ∧ HierL ch cs
end

/-- `t` is the subtree of the hierarchy `ch` at node `n`. -/
def SubtreeAt (ch : NodeId → List NodeId) (n : NodeId) (t : RTree NodeId) : Prop :=
  t.label = n ∧ Hier ch t

end Dendron
