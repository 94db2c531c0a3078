import Verif.Model.Member

/-!
# Read-only navigation of `Node` (`src/node/plain.rs` 443-1157)

Each function returns the id of the node the code wraps into a handle; the wrapping
(`with_node_core`) is `Heap.withNodeCore`, see `Heap.handleTo` below.
-/

set_option autoImplicit false

namespace Dendron
namespace Heap
variable {α : Type}

/-- `Node::tree` (`src/node/plain.rs` 445-447). -/
def nodeTree (h : Heap α) (n : NodeId) : Except Fault TreeId := h.treeCore n

/-- `TreeCore::root_link` (`src/tree.rs` 49-54); a living tree core always stores a root. -/
def rootLink (h : Heap α) (t : TreeId) : Except Fault NodeId :=
  match h.root t with
  | some r => .ok r
  | none => .error (.panic "use of a dropped tree core")

/-- `Node::is_root` (`src/node/plain.rs` 522-535) with its `debug_assert_eq!`. -/
def nodeIsRoot (h : Heap α) (n : NodeId) : Except Fault Bool := do
  let t ← h.treeCore n
  let r ← h.rootLink t
  if h.isRoot n = (r == n) then return h.isRoot n
  else .error (.panic "assertion failed: `(left == right)`")

/-- `Node::root` (`src/node/plain.rs` 549-551). -/
def nodeRoot (h : Heap α) (n : NodeId) : Except Fault NodeId := do
  let t ← h.treeCore n
  h.rootLink t

/-- `Node::first_sibling` (`src/node/plain.rs` 659-669). -/
def firstSibling (h : Heap α) (n : NodeId) : Except Fault NodeId :=
  match h.parentLink n with
  | some p =>
    match h.firstChildLink p with
    | some f => .ok f
    | none => .error (.panic "the parent must have at least one child (`self`)")
  | none => .ok n

/-- `Node::last_sibling` (`src/node/plain.rs` 696-706). -/
def lastSibling (h : Heap α) (n : NodeId) : Except Fault NodeId :=
  match h.parentLink n with
  | some p => do
    match ← h.lastChildLink p with
    | some l => return l
    | none => .error (.panic "the parent must have at least one child (`self`)")
  | none => .ok n

/-- `Node::first_last_sibling` (`src/node/plain.rs` 735-748). -/
def firstLastSibling (h : Heap α) (n : NodeId) : Except Fault (NodeId × NodeId) :=
  match h.parentLink n with
  | some p => do
    match ← h.firstLastChildLink p with
    | some fl => return fl
    | none => .error (.panic "the parent must have at least one child (`self`)")
  | none => .ok (n, n)

/-- `iter::successors(first, step).count()`; the loop ends when `step` yields `None`. -/
def succCount (step : NodeId → Except Fault (Option NodeId)) :
    Nat → Option NodeId → Except Fault Nat
  | _, none => .ok 0
  | 0, some _ => .error .diverge
  | f + 1, some a => do
    let nx ← step a
    let k ← succCount step f nx
    return k + 1

/-- `count_children` of `NodeCoreLink` (`src/node/internal.rs` 253-255). -/
def countChildren (h : Heap α) (n : NodeId) : Except Fault Nat :=
  succCount (fun a => .ok (h.nextLink a)) (h.nNode + 1) (h.firstChildLink n)

/-- `count_preceding_siblings` (`src/node/internal.rs` 261-263). -/
def countPreceding (h : Heap α) (n : NodeId) : Except Fault Nat := do
  let p ← h.prevLink n
  succCount h.prevLink (h.nNode + 1) p

/-- `count_following_siblings` (`src/node/internal.rs` 269-271). -/
def countFollowing (h : Heap α) (n : NodeId) : Except Fault Nat :=
  succCount (fun a => .ok (h.nextLink a)) (h.nNode + 1) (h.nextLink n)

/-- `count_ancestors` (`src/node/internal.rs` 277-279). -/
def countAncestors (h : Heap α) (n : NodeId) : Except Fault Nat :=
  succCount (fun a => .ok (h.parentLink a)) (h.nNode + 1) (h.parentLink n)

/-- `has_one_child` (`src/node/plain.rs` 987-989). -/
def hasOneChild (h : Heap α) (n : NodeId) : Bool := h.numCh n == 1

/-- `has_multiple_children` (`src/node/plain.rs` 1021-1023). -/
def hasMultipleChildren (h : Heap α) (n : NodeId) : Bool := decide (1 < h.numCh n)

end Heap
end Dendron
