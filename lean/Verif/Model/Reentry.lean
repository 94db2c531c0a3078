import Verif.Model.World

/-!
# What the destructors of the data see

`T::drop` of the data of a node runs while the node is being freed, in the middle of the release of a
tree, and may upgrade weak handles.  The functions of this file are those of `Model/Member` that free
nodes, with a record of the moments at which the destructor of some data runs; `Proofs/Reentry` shows
that they do the same as the functions of `Model/Member`.

Simplification: the destructors only upgrade weak handles (and drop what they get); they do not make,
edit or store anything.
-/

set_option autoImplicit false

namespace Dendron
variable {α : Type}

/-- A moment at which the destructor of the data of `node` runs.  The memory is `heap`, except that no
strong reference to `node` is left (`Rc::drop` of `NodeCore`, `src/node/internal.rs` 13-26: the field
`data` is dropped first), nor to the tree core `dying`, if its destructor is running
(`src/tree.rs` 83-116).  `cell` is the node whose membership is mutably borrowed
(`src/node/membership.rs` 208-240: `decrement_tree_refcount` drops the `Rc<TreeCore>` by assigning to
`*core`). -/
structure Moment (α : Type) where
  heap : Heap α
  node : NodeId
  dying : Option TreeId
  cell : Option NodeId

namespace Moment

/-- `NodeWeak::upgrade` (`src/node/plain.rs` 2941-2944), `Node::with_node_core` (`src/node/plain.rs`
161-166) and `increment_tree_refcount` (`src/node/membership.rs` 161-185), called by the destructor. -/
def upgrade (m : Moment α) (x : NodeId) : Except Fault (Option NodeId) :=
  if !m.heap.alive x || x == m.node then .ok none
  else if m.cell == some x then
    .error (.panic "membership core should never be borrowed nestedly")
  else
    match m.heap.mem x with
    | .strong .. => .ok (some x)
    | .weak t =>
      match t.filter (fun t => m.heap.treeAlive t && m.dying != some t) with
      | some _ => .ok (some x)
      | none => .error (.panic "the tree for the given node should be alive")

/-- `TreeWeak::upgrade` (`src/tree.rs` 572-574), called by the destructor. -/
def upgradeTree (m : Moment α) (t : TreeId) : Option TreeId :=
  if m.heap.treeAlive t && m.dying != some t then some t else none

end Moment

namespace Heap

/-- `release`, with the moments. -/
def releaseT (d : Option TreeId) (c : Option NodeId) : Nat → List NodeId → NodeId → Heap α →
    Except Fault (Heap α × List (Moment α))
  | 0, _, _, _ => .error .diverge
  | f + 1, pins, n, h =>
    if !h.alive n || pins.contains n || h.referenced n then .ok (h, [])
    else
      let fc := h.firstChild n
      let nx := h.next n
      let h1 := h.kill n
      match (match fc with | some x => releaseT d c f pins x h1 | none => .ok (h1, [])) with
      | .error e => .error e
      | .ok (h2, l2) =>
        match (match nx with | some x => releaseT d c f pins x h2 | none => .ok (h2, [])) with
        | .error e => .error e
        | .ok (h3, l3) => .ok (h3, ⟨h, n, d, c⟩ :: l2 ++ l3)

/-- `dropStep`, with the moments. -/
def dropStepT (d : Option TreeId) (c : Option NodeId) (k : Nat) (h : Heap α) (pins : List NodeId)
    (v : NodeId) : Except Fault (Heap α × List (Moment α)) :=
  match h.parentLink v with
  | some p => do
    let h1 := (h.setNext v none).setFirst p (h.next v)
    let (h2, l2) ← (match h.firstChild p with
      | some x => h1.releaseT d c k (p :: v :: pins) x
      | none => .ok (h1, []))
    let (h3, l3) ← h2.releaseT d c k (v :: pins) p
    let (h4, l4) ← h3.releaseT d c k pins v
    return (h4, l2 ++ l3 ++ l4)
  | none => h.releaseT d c k pins v

/-- `dropLoop`, with the moments. -/
def dropLoopT (d : Option TreeId) (c : Option NodeId) (k : Nat) : Nat → List NodeId →
    Option (DftEvent NodeId) → Heap α → Except Fault (Heap α × List (Moment α))
  | _, _, none, h => .ok (h, [])
  | 0, _, some _, _ => .error .diverge
  | f + 1, pins, some ev, h =>
    let nx := h.evNext ev
    let pins' := match nx with | some e => e.value :: pins | none => pins
    match (match ev with
      | .opn v => h.releaseT d c k pins' v
      | .cls v => dropStepT d c k h pins' v) with
    | .error e => .error e
    | .ok (h1, l1) =>
      match dropLoopT d c k f pins nx h1 with
      | .error e => .error e
      | .ok (h2, l2) => .ok (h2, l1 ++ l2)

/-- `dropTree`, with the moments.  The strong count of the tree core is zero all the time. -/
def dropTreeT (c : Option NodeId) (h : Heap α) (pins : List NodeId) (t : TreeId) :
    Except Fault (Heap α × List (Moment α)) :=
  match h.root t with
  | none => .ok (h, [])
  | some r =>
    match dropLoopT (some t) c h.relFuel h.dropFuel pins (some (.opn r)) h with
    | .error e => .error e
    | .ok (h1, l1) =>
      let h2 := (h1.setRoot t none).setGrants t 0
      match h2.releaseT (some t) c h.relFuel pins r with
      | .error e => .error e
      | .ok (h3, l3) => .ok (h3, l1 ++ l3)

/-- `maybeDropTree`, with the moments. -/
def maybeDropTreeT (c : Option NodeId) (h : Heap α) (pins : List NodeId) (t : TreeId) :
    Except Fault (Heap α × List (Moment α)) :=
  if h.treeAlive t && h.treeRc t == 0 && !h.hasStrongMember t then h.dropTreeT c pins t else .ok (h, [])

/-- Drop of a `Tree` (`relTree`), with the moments. -/
def relTreeT (h : Heap α) (t : TreeId) : Except Fault (Heap α × List (Moment α)) :=
  let h1 := h.setTreeRc t (h.treeRc t - 1)
  h1.maybeDropTreeT none [] t

/-- `decRef`, with the moments: the membership of `n` is mutably borrowed meanwhile. -/
def decRefT (h : Heap α) (n : NodeId) : Except Fault (Heap α × List (Moment α)) :=
  match h.mem n with
  | .weak _ => .error (.panic "the membership should have a strong reference")
  | .strong t rc l =>
    if rc - 1 = 0 then
      if l ≠ 0 then
        .error (.panic "locks can be acquired only from strong node references")
      else
        let h1 := h.setMem n (.weak (some t))
        h1.maybeDropTreeT (some n) [n] t
    else .ok (h.setMem n (.strong t (rc - 1) l), [])

/-- Drop of a `NodeLink` (`dropLink`), with the moments. -/
def dropLinkT (h : Heap α) (n : NodeId) : Except Fault (Heap α × List (Moment α)) := do
  let (h1, l1) ← h.decRefT n
  let (h2, l2) ← h1.releaseT none none h1.relFuel [] n
  pure (h2, l1 ++ l2)

/-- Drop of a `Node`, `HotNode` or `FrozenNode` (`dropHandle`), with the moments. -/
def dropHandleT (h : Heap α) (n : NodeId) : Kind → Except Fault (Heap α × List (Moment α))
  | .plain => h.dropLinkT n
  | _ => do
    let h ← h.decLock n
    h.dropLinkT n

end Heap
end Dendron
