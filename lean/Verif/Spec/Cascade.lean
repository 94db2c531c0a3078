import Verif.Model.Cascade
import Verif.Spec.Wide

/-!
# Dropping things one after the other
-/

set_option autoImplicit false

namespace Dendron
variable {α : Type}

/-- How many of this the program has, including what the data of its nodes owns. -/
def World.count (w : World α) : Asset → Nat
  | .node k n => w.held k n
  | .tree t => w.trees t
  | .token g t => if g then w.grantTok t else w.prohTok t

/-- A handle to a node of `t`, or a `Tree` of `t`. -/
def World.Keeping (w : World α) : Asset → TreeId → Prop
  | .node _ n, t => w.heap.nodeTree n = .ok t
  | .tree u, t => u = t
  | .token _ _, _ => False

/-- The call that drops it. -/
def Asset.op : Asset → Op α
  | .node k n => .drop k n
  | .tree t => .dropTree t
  | .token g t => .dropTok g t

/-- The things `P`, and everything owned by the data of living nodes, are all different things the program
has. -/
def OwnsAll (own : NodeId → List Asset) (w : World α) (P : List Asset) : Prop :=
  ∀ L : List NodeId, L.Nodup → (∀ x ∈ L, w.heap.alive x = true) →
    ∀ a, (P ++ L.flatMap own).count a ≤ w.count a

/-- The things of a list are dropped one after the other by ordinary calls; whenever such a call has
destroyed the nodes `l`, the things owned by the data of these come next. -/
inductive Drops (own : NodeId → List Asset) : List Asset → World α → World α → Prop
  | nil (w : World α) : Drops own [] w w
  | cons {a : Asset} {as : List Asset} {l : List NodeId} {w w1 w' : World α} :
      w.StepW a.op w1 .unit → l.Nodup →
      (∀ x, x ∈ l ↔ w.heap.alive x = true ∧ w1.heap.alive x = false) →
      Drops own (l.flatMap own ++ as) w1 w' → Drops own (a :: as) w w'

/-- No destructor is running. -/
def Nest.start : Nest := ⟨[], [], []⟩

end Dendron
