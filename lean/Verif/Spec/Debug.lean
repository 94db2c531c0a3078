import Verif.Model.Debug
import Verif.Spec.RTree

/-!
# What a debug print should show
-/

set_option autoImplicit false

namespace Dendron
variable {α : Type}

/-- The data of a node as it should be printed: the value, or `<borrowed>` while it is mutably
borrowed. -/
def Heap.shownData (h : Heap α) (n : NodeId) (x : Dbg α) : Prop :=
  (h.mutB n = true ∧ x = .raw "<borrowed>") ∨ (h.mutB n = false ∧ ∃ d, h.data n = some d ∧ x = .data d)

mutual
/-- `x` shows the tree: its data, and the children in order, nested. -/
def ShowsNode (h : Heap α) : RTree NodeId → Dbg α → Prop
  | .node n cs, x => ∃ d l, x = .struct "Node" [("data", d), ("children", .list l)] ∧ h.shownData n d ∧
      ShowsNodes h cs l
/-- The same for a list of trees. -/
def ShowsNodes (h : Heap α) : List (RTree NodeId) → List (Dbg α) → Prop
  | [], l => l = []
  | c :: cs, l => ∃ x xs, l = x :: xs ∧ ShowsNode h c x ∧ ShowsNodes h cs xs
end

/-- The lock counter of a tree as it should be printed. -/
def Dbg.ofLock (g : Int) : Dbg α :=
  .struct "HierarchyLockManager" [("num_grants", .struct "Cell" [("value", .int g)])]

/-- A link that is there or not, without its target. -/
def Dbg.optional (b : Prop) (x : Dbg α) : Prop := (b ∧ x = .raw "Some(_)") ∨ (¬ b ∧ x = .raw "None")

end Dendron
