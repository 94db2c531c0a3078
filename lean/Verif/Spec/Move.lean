import Verif.Spec.RTree

/-!
# What moving a set of nodes to another tree means
-/

set_option autoImplicit false

namespace Dendron
variable {α : Type}

/-- The membership after a change of tree: the node keeps its handles and locks. -/
def Membership.moveTo (t' : TreeId) : Membership → Membership
  | .weak _ => .weak (some t')
  | .strong _ rc l => .strong t' rc l

/-- A hot or frozen handle refers to the node. -/
def Heap.locked (h : Heap α) (x : NodeId) : Bool :=
  match h.mem x with
  | .strong _ _ l => l != 0
  | .weak _ => false

/-- Number of locked nodes of a list. -/
def Heap.lockedIn (h : Heap α) (D : List NodeId) : Nat := (D.filter h.locked).length

/-- Once the nodes `D` have left tree `t`, nothing holds `t` any more: there is no `Tree` and no
handle to any other node of `t`. -/
def LastHandlesLeave (h : Heap α) (D : List NodeId) (t : TreeId) : Prop :=
  h.treeRc t = 0 ∧ ∀ y rc l, y ∉ D → h.mem y ≠ .strong t rc l

/-- `x` is left behind in tree `t` by the nodes `D`, and nothing holds `t` any more. -/
def Abandoned (h : Heap α) (D : List NodeId) (t : TreeId) (x : NodeId) : Prop :=
  LastHandlesLeave h D t ∧ h.memTree x = some t ∧ x ∉ D

/-- The nodes `D` of tree `t` have become members of tree `t'`, keeping their data, handles and locks;
all other nodes keep theirs, except that the nodes abandoned in `t` have been freed.  `ch1` are the
child lists of the surviving nodes, `g` was the lock count of `t'`. -/
structure Rehomed (h h' : Heap α) (ch1 ch' : NodeId → List NodeId) (D : List NodeId)
    (t t' : TreeId) (g : Int) : Prop where
  freed : ∀ x, Abandoned h D t x → h'.alive x = false
  data : ∀ x, ¬ Abandoned h D t x → h'.data x = h.data x ∧ h'.mutB x = h.mutB x
  moved : ∀ x, x ∈ D → h'.mem x = (h.mem x).moveTo t'
  others : ∀ x, x ∉ D → ¬ Abandoned h D t x → h'.mem x = h.mem x
  children : ∀ x, ¬ Abandoned h D t x → ch' x = ch1 x
  /-- the locks of the moved nodes are now counted in `t'` -/
  grantsNew : h'.grants t' = g + h.lockedIn D
  grantsOld : ¬ LastHandlesLeave h D t → h'.grants t = h.grants t - h.lockedIn D
  grantsOther : ∀ u, u ≠ t → u ≠ t' → h'.grants u = h.grants u
  /-- the old tree survives exactly if something still holds it -/
  rootOld : h'.root t = none ↔ LastHandlesLeave h D t
  rootKept : ¬ LastHandlesLeave h D t → h'.root t = h.root t
  rootOther : ∀ u, u ≠ t → u ≠ t' → h'.root u = h.root u
  treeRc : ∀ u, u ≠ t' → h'.treeRc u = h.treeRc u
  nNode : h'.nNode = h.nNode

end Dendron

namespace Dendron
variable {α : Type}

/-- The hot and frozen nodes of tree `t` are counted among its grants.  (True in every reachable
state in which a grant for `t` is held: `Verif.Proofs.World`.) -/
def LocksCounted (h : Heap α) (t : TreeId) : Prop :=
  ∀ D : List NodeId, D.Nodup → (∀ x ∈ D, h.memTree x = some t) → (h.lockedIn D : Int) ≤ h.grants t

/-- The forward half of a consistent memory: everything of `WF` except the links to previous
siblings. -/
structure ForwardWF (h : Heap α) (ch : NodeId → List NodeId) : Prop extends FShape h ch where
  num : NumOK h ch
  tree : TreeWF h
  refs : RefWF h

end Dendron
