import Verif.Model.Lock

/-!
# Ownership: reference counts, release of nodes, destruction of trees
-/

set_option autoImplicit false

namespace Dendron
namespace Heap
variable {α : Type}

/-! ### Freeing -/

/-- Some strong reference to node `n` exists in memory: a `NodeLink` (counted by the strong
membership, `src/node/internal.rs` 584-606), a tree core whose `root` is `n` (`src/tree.rs` 30-35),
or a living node whose `first_child`/`next_sibling` is `n` (`src/node/internal.rs` 28-47). -/
def referenced (h : Heap α) (n : NodeId) : Bool :=
  (match h.mem n with | .strong .. => true | .weak _ => false)
  || (List.range h.nTree).any (fun t => h.root t == some n)
  || (List.range h.nNode).any
      (fun m => h.alive m && (h.firstChild m == some n || h.next m == some n))

/-- Deallocation of a `NodeCore`: all its fields are gone. -/
def kill (h : Heap α) (n : NodeId) : Heap α :=
  { h with
    data := upd h.data n none
    mutB := upd h.mutB n false
    parent := upd h.parent n none
    firstChild := upd h.firstChild n none
    next := upd h.next n none
    prevCyc := upd h.prevCyc n none
    numCh := upd h.numCh n 0
    mem := upd h.mem n (.weak none) }

/-- Drop of one `Rc<NodeCore>` to `n` that is no longer counted anywhere: frees `n` if no strong
reference is left (`pins` are the links still held by local variables), then drops its fields
`first_child` and `next_sibling` in declaration order (`src/node/internal.rs` 28-47).
This is the semantics of `Rc::drop`; the recursion is the compiler-generated drop glue. -/
def release : Nat → List NodeId → NodeId → Heap α → Except Fault (Heap α)
  | 0, _, _, _ => .error .diverge
  | f + 1, pins, n, h =>
    if !h.alive n || pins.contains n || h.referenced n then .ok h
    else
      let fc := h.firstChild n
      let nx := h.next n
      let h1 := h.kill n
      match (match fc with | some c => release f pins c h1 | none => .ok h1) with
      | .error e => .error e
      | .ok h2 => match nx with | some c => release f pins c h2 | none => .ok h2

/-- Fuel for `release`: every recursive call follows the deallocation of one node. -/
def relFuel (h : Heap α) : Nat := h.nNode + 2

/-- Body of one iteration of the loop of `Drop for TreeCore` for `Close(v)`
(`src/tree.rs` 101-113): the next event has already been computed and is pinned.  The old first child of
the parent is dropped at the end of its statement, the link to the parent at the end of the block, then
the link to `v`.  `k` bounds the depth of the recursion of the drop glue. -/
def dropStep (k : Nat) (h : Heap α) (pins : List NodeId) (v : NodeId) : Except Fault (Heap α) :=
  match h.parentLink v with
  | some p => do
    let h1 := (h.setNext v none).setFirst p (h.next v)
    let h2 ← (match h.firstChild p with
      | some c => h1.release k (p :: v :: pins) c
      | none => .ok h1)
    let h3 ← h2.release k (v :: pins) p
    h3.release k pins v
  | none => h.release k pins v

/-- The loop of `Drop for TreeCore` (`src/tree.rs` 96-114).  The link of an `Open` event is dropped at
the end of the iteration, too. -/
def dropLoop (k : Nat) : Nat → List NodeId → Option (DftEvent NodeId) → Heap α → Except Fault (Heap α)
  | _, _, none, h => .ok h
  | 0, _, some _, _ => .error .diverge
  | f + 1, pins, some ev, h =>
    let nx := h.evNext ev
    let pins' := match nx with | some e => e.value :: pins | none => pins
    match ev with
    | .opn v =>
      match h.release k pins' v with
      | .error e => .error e
      | .ok h1 => dropLoop k f pins nx h1
    | .cls v =>
      match dropStep k h pins' v with
      | .error e => .error e
      | .ok h1 => dropLoop k f pins nx h1

/-- Fuel of the drop loop: every node is opened and closed once. -/
def dropFuel (h : Heap α) : Nat := 2 * h.nNode + 2

/-- Destruction of a `TreeCore` (`src/tree.rs` 83-116), then of its fields: the `root` link is
released and the lock manager disappears.  `k` bounds the depth of the recursion of the drop glue. -/
def dropTreeWith (k : Nat) (h : Heap α) (pins : List NodeId) (t : TreeId) : Except Fault (Heap α) :=
  match h.root t with
  | none => .ok h
  | some r =>
    match dropLoop k h.dropFuel pins (some (.opn r)) h with
    | .error e => .error e
    | .ok h1 =>
      let h2 := (h1.setRoot t none).setGrants t 0
      h2.release k pins r

/-- `dropTreeWith` with more depth than there are nodes. -/
def dropTree (h : Heap α) (pins : List NodeId) (t : TreeId) : Except Fault (Heap α) :=
  dropTreeWith h.relFuel h pins t

/-- Some membership refers strongly to tree `t`. -/
def hasStrongMember (h : Heap α) (t : TreeId) : Bool :=
  (List.range h.nNode).any
    (fun n => match h.mem n with | .strong t' _ _ => t' == t | .weak _ => false)

/-- `Rc<TreeCore>::drop`: the tree core is destroyed when no strong reference is left. -/
def maybeDropTree (h : Heap α) (pins : List NodeId) (t : TreeId) : Except Fault (Heap α) :=
  if h.treeAlive t && h.treeRc t == 0 && !h.hasStrongMember t then h.dropTree pins t else .ok h

/-- Creation of an `Rc<TreeCore>` clone held by a `Tree` or a local variable. -/
def acqTree (h : Heap α) (t : TreeId) : Heap α := h.setTreeRc t (h.treeRc t + 1)

/-- Drop of an `Rc<TreeCore>` held by a `Tree` or a local variable. -/
def relTree (h : Heap α) (pins : List NodeId) (t : TreeId) : Except Fault (Heap α) :=
  let h1 := h.setTreeRc t (h.treeRc t - 1)
  h1.maybeDropTree pins t

/-! ### Memberships (`src/node/membership.rs`) and node links -/

/-- `increment_tree_refcount` (`src/node/membership.rs` 161-185); `none` is `Err`. -/
def incRef (h : Heap α) (n : NodeId) : Option (Heap α) :=
  match h.mem n with
  | .weak t =>
    match t.filter h.treeAlive with
    | some t => some (h.setMem n (.strong t 1 0))
    | none => none
  | .strong t rc l => some (h.setMem n (.strong t (rc + 1) l))

/-- `Node::with_node_core` (`src/node/plain.rs` 161-166) / `NodeLink::new`
(`src/node/internal.rs` 665-669). -/
def withNodeCore (h : Heap α) (n : NodeId) : Except Fault (Heap α) :=
  match h.incRef n with
  | some h => .ok h
  | none => .error (.panic "the tree for the given node should be alive")

/-- `NodeLink::clone` (`src/node/internal.rs` 594-603) with `increment_nonzero_tree_refcount`
(`src/node/membership.rs` 188-205). -/
def cloneLink (h : Heap α) (n : NodeId) : Except Fault (Heap α) :=
  match h.mem n with
  | .weak _ => .error (.panic "the membership should have a strong reference")
  | .strong t rc l => .ok (h.setMem n (.strong t (rc + 1) l))

/-- `decrement_tree_refcount` (`src/node/membership.rs` 208-240).  When the count reaches zero the
membership becomes weak and its `Rc<TreeCore>` is dropped; the node itself is still held by the
`NodeLink` being dropped (`pins`). -/
def decRef (h : Heap α) (n : NodeId) : Except Fault (Heap α) :=
  match h.mem n with
  | .weak _ => .error (.panic "the membership should have a strong reference")
  | .strong t rc l =>
    if rc - 1 = 0 then
      if l ≠ 0 then
        .error (.panic "locks can be acquired only from strong node references")
      else
        let h1 := h.setMem n (.weak (some t))
        h1.maybeDropTree [n] t
    else .ok (h.setMem n (.strong t (rc - 1) l))

/-- Drop of a `NodeLink` (`src/node/internal.rs` 587-592) and of its `core` field. -/
def dropLink (h : Heap α) (n : NodeId) : Except Fault (Heap α) := do
  let h1 ← h.decRef n
  h1.release h1.relFuel [] n

/-- `set_tree_core` (`src/node/membership.rs` 248-267); `none` is `Err`.  Replacing the strong
reference drops the old `Rc<TreeCore>`. -/
def setTreeCore (h : Heap α) (pins : List NodeId) (n : NodeId) (t' : TreeId) :
    Except Fault (Option (Heap α)) :=
  match h.mem n with
  | .weak _ => .ok (some (h.setMem n (.weak (some t'))))
  | .strong t rc l =>
    match (if l ≠ 0 then h.transferLock t t' else .ok (some h)) with
    | .error e => .error e
    | .ok none => .ok none
    | .ok (some h1) =>
      let h2 := h1.setMem n (.strong t' rc l)
      match h2.maybeDropTree pins t with
      | .error e => .error e
      | .ok h3 => .ok (some h3)

/-- `NodeLink::belongs_to_same_tree` (`src/node/internal.rs` 724-731). -/
def belongsToSameTree (h : Heap α) (a b : NodeId) : Bool := a == b || h.memTree a == h.memTree b

/-- `NodeLink::belongs_to` (`src/node/internal.rs` 718-720), `belongs_to_tree_core_rc`
(`src/node/internal.rs` 89-91), `ptr_eq_tree_core` (`src/node/membership.rs` 271-281). -/
def belongsTo (h : Heap α) (n : NodeId) (t : TreeId) : Bool := h.memTree n == some t

/-! ### Allocation -/

/-- Allocation of a `NodeCore` with the given membership; `prev_sibling_cyclic` refers to the node
itself (`src/node/internal.rs` 609-628, 639-656).  Returns the new id. -/
def allocNode (h : Heap α) (d : α) (m : Membership) : Heap α × NodeId :=
  let n := h.nNode
  ({ h with
      data := upd h.data n (some d)
      mutB := upd h.mutB n false
      parent := upd h.parent n none
      firstChild := upd h.firstChild n none
      next := upd h.next n none
      prevCyc := upd h.prevCyc n (some n)
      numCh := upd h.numCh n 0
      mem := upd h.mem n m
      nNode := n + 1 }, n)

/-- `TreeCore::new_rc` (`src/tree.rs` 40-45); the returned `Rc` is counted in `treeRc`. -/
def allocTree (h : Heap α) (r : NodeId) : Heap α × TreeId :=
  let t := h.nTree
  ({ h with
      root := upd h.root t (some r)
      grants := upd h.grants t 0
      treeRc := upd h.treeRc t 1
      nTree := t + 1 }, t)

/-- `NodeLink::new_tree_root` (`src/node/internal.rs` 609-633), `Node::new_tree`
(`src/node/plain.rs` 1607-1611).  The `Rc<TreeCore>` is moved into the strong membership. -/
def newTreeRoot (h : Heap α) (d : α) : Heap α × NodeId :=
  let (h1, n) := h.allocNode d (.weak none)
  let (h2, t) := h1.allocTree n
  ((h2.setTreeRc t 0).setMem n (.strong t 1 0), n)

/-- `NodeLink::new_orphan` (`src/node/internal.rs` 639-659): a node of tree `t` (kept alive by the
caller's `Rc`) with one node link. -/
def newOrphan (h : Heap α) (d : α) (t : TreeId) : Except Fault (Heap α × NodeId) :=
  let (h1, n) := h.allocNode d (.weak (some t))
  match h1.incRef n with
  | some h2 => .ok (h2, n)
  | none => .error (.panic "the node is just created and is alive")

end Heap
end Dendron
