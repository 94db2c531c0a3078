import Verif.Model.Traverse
import Verif.Model.Edit

/-!
# Step counts

The loops of `Verif.Model.Traverse` and `Verif.Model.Edit` with a counter of the work done.  Every
definition here is the modelled function of the same name without the `C`, plus a counter (proved:
`Verif.Proofs.Cost`, `..._erase`).  One unit is one call of an inner iterator's `next`, one
iteration of an explicit loop, or one call of a non-looping accessor: all of these read a bounded
number of links.  Memory allocation (`VecDeque` growth) is not counted.
-/

set_option autoImplicit false

namespace Dendron

/-- Exhausting an iterator (`Iterator::collect`, `VecDeque::extend`), one unit for every call of
`next`. -/
def drainC {σ ι : Type} (next : σ → Step σ ι) : Nat → σ → Except Fault (List ι × Nat)
  | 0, _ => .error .diverge
  | f + 1, s =>
    match next s with
    | .error e => .error e
    | .ok (none, _) => .ok ([], 1)
    | .ok (some x, s') =>
      match drainC next f s' with
      | .error e => .error e
      | .ok (l, c) => .ok (x :: l, c + 1)

variable {α : Type}

/-- `next_in_current_depth` (`src/traverse/breadth_first.rs` 59-70), one unit for every call of the
inner traverser's `next`. -/
def NaBfs.skipC (h : Heap α) (d : Nat) :
    Nat → Shallow.State → Except Fault ((Option NodeId × Shallow.State) × Nat)
  | 0, _ => .error .diverge
  | f + 1, s =>
    match Shallow.next h s with
    | .error e => .error e
    | .ok (none, s') => .ok ((none, s'), 1)
    | .ok (some (.opn (n, e)), s') =>
      if e = d then .ok ((some n, s'), 1)
      else
        match NaBfs.skipC h d f s' with
        | .error e => .error e
        | .ok (r, c) => .ok (r, c + 1)
    | .ok (some (.cls _), s') =>
      match NaBfs.skipC h d f s' with
      | .error e => .error e
      | .ok (r, c) => .ok (r, c + 1)

/-- `NonAllocatingBreadthFirstTraverser::next` (`src/traverse/breadth_first.rs` 74-98). -/
def NaBfs.nextC (h : Heap α) (s : NaBfs.State) :
    Except Fault ((Option (NodeId × Nat) × NaBfs.State) × Nat) :=
  match s.root with
  | none => .ok ((none, s), 0)
  | some r => do
    let ((x, i), c) ← NaBfs.skipC h s.depth (NaBfs.fuel h) s.inner
    match x with
    | some n => return ((some (n, s.depth), { s with inner := i }), c)
    | none =>
      let d := s.depth + 1
      let ((y, j), c') ← NaBfs.skipC h d (NaBfs.fuel h) (Shallow.start r (some d))
      match y with
      | some n => return ((some (n, d), ⟨j, some r, d⟩), c + c')
      | none => return ((none, ⟨j, none, d⟩), c + c')

/-- `AllocatingBreadthFirstTraverser::with_toplevel` (`src/traverse/breadth_first.rs` 161-186). -/
def AlBfs.startC (h : Heap α) (n : NodeId) (d : Nat) : Except Fault (AlBfs.State × Nat) :=
  if d = 0 then .ok (⟨[some n, none], 0⟩, 0)
  else do
    let (evs, c) ← drainC (Shallow.next h) (NaBfs.fuel h) (Shallow.start n (some d))
    let ns := evs.filterMap (fun e => match e with
      | .opn (m, e) => if e = d then some m else none
      | .cls _ => none)
    return (⟨ns.map some ++ [none], d⟩, c)

/-- Appending the children to the queue (`src/traverse/breadth_first.rs` 247-248): one unit for
`children_stable`, one for every call of its `next`. -/
def AlBfs.childListC (h : Heap α) (n : NodeId) : Except Fault (List NodeId × Nat) := do
  let s ← StableSib.children h n
  let (l, c) ← drainC (StableSib.next h) (h.nNode + 2) s
  return (l, c + 1)

/-- `AllocatingBreadthFirstTraverser::next` (`src/traverse/breadth_first.rs` 227-253): one unit for
every iteration of the loop, plus the children appended. -/
def AlBfs.nextFC (h : Heap α) :
    Nat → AlBfs.State → Except Fault ((Option (NodeId × Nat) × AlBfs.State) × Nat)
  | 0, _ => .error .diverge
  | f + 1, s =>
    match s.events with
    | [] => .ok ((none, s), 1)
    | some n :: es => do
      let (cs, c) ← AlBfs.childListC h n
      return ((some (n, s.depth), ⟨es ++ cs.map some, s.depth⟩), c + 1)
    | none :: es =>
      if es = [] then .ok ((none, ⟨[], s.depth⟩), 1)
      else
        match AlBfs.nextFC h f ⟨es ++ [none], s.depth + 1⟩ with
        | .error e => .error e
        | .ok (r, c) => .ok (r, c + 1)

/-- `AllocatingBreadthFirstTraverser::next` with enough fuel. -/
def AlBfs.nextC (h : Heap α) (s : AlBfs.State) :
    Except Fault ((Option (NodeId × Nat) × AlBfs.State) × Nat) :=
  AlBfs.nextFC h (s.events.length + 1) s

/-! ### Edits with a budget

The edits with their loops limited to `f` iterations each: a loop that needs more ends with
`Fault.diverge`.  With the budget of `Verif.Model.Edit` they are the modelled functions (proved:
`Verif.Proofs.CostEdit`).  Everything outside these two loops is straight-line code, apart from the
deallocation of nodes. -/
namespace Heap

/-- `OrphanRoot::create_new_tree` (`src/node/edit.rs` 120-124). -/
def createNewTreeF (f : Nat) (h : Heap α) (n : NodeId) : Except Fault (Heap α) :=
  let (h1, t) := h.allocTree n
  match setMembLoop f n t (some (.opn n)) h1 with
  | .error e => .error e
  | .ok none => .error (.panic "brand-new tree hierarchy can be locked by any types of lock")
  | .ok (some h2) => h2.relTree [] t

/-- `detach_subtree` (`src/node/edit.rs` 325-334). -/
def detachSubtreeF (f : Nat) (h : Heap α) (n : NodeId) : Except Fault (Heap α) :=
  if h.isRoot n then .ok h
  else do
    let (h, _) ← h.newByUnlink [] n
    h.createNewTreeF f n

/-- The loop check of the child insertions (`src/node/edit.rs` 176-178, 214-216). -/
def loopCheckF (f : Nat) (h : Heap α) (n : NodeId) (isNew : Bool) (p : NodeId) : Except Fault Bool :=
  if isNew then .ok false else h.isAncestorLoop n f (some p)

/-- `OrphanRoot::insert_as_first_child_of` (`src/node/edit.rs` 175-210): the check, then the rest of
the function (which is the function with `is_newly_created`). -/
def insertFirstF (f : Nat) (h : Heap α) (held : List NodeId) (n : NodeId) (isNew : Bool) (p : NodeId) :
    Except Fault (Heap α × Except HierarchyError Unit) := do
  if ← h.loopCheckF f n isNew p then return (h, .error .ancestorDescendantLoop)
  h.insertFirst held n true p

/-- `OrphanRoot::insert_as_last_child_of` (`src/node/edit.rs` 213-243), likewise. -/
def insertLastF (f : Nat) (h : Heap α) (held : List NodeId) (n : NodeId) (isNew : Bool) (p : NodeId) :
    Except Fault (Heap α × Except HierarchyError Unit) := do
  if ← h.loopCheckF f n isNew p then return (h, .error .ancestorDescendantLoop)
  h.insertLast held n true p

/-- `OrphanRoot::insert` (`src/node/edit.rs` 141-172). -/
def insertF (f : Nat) (h : Heap α) (held : List NodeId) (n : NodeId) (isNew : Bool) :
    InsertAs NodeId → Except Fault (Heap α × Except HierarchyError Unit)
  | .firstChildOf p => h.insertFirstF f held n isNew p
  | .lastChildOf p => h.insertLastF f held n isNew p
  | .previousSiblingOf a =>
    match h.parentLink a with
    | none => .ok (h, .error .siblingsWithoutParent)
    | some p => do
      match ← h.prevLink a with
      | some s => do
        let h ← h.insertBetween held n p s a
        let h ← h.dropLocal (p :: a :: n :: held) s
        let h ← h.dropLocal (a :: n :: held) p
        return (h, .ok ())
      | none => do
        let (h, r) ← h.insertFirstF f (a :: held) n isNew p
        let h ← h.dropLocal (a :: n :: held) p
        return (h, r)
  | .nextSiblingOf a =>
    match h.parentLink a with
    | none => .ok (h, .error .siblingsWithoutParent)
    | some p =>
      match h.nextLink a with
      | some s => do
        let h ← h.insertBetween held n p a s
        let h ← h.dropLocal (p :: a :: n :: held) s
        let h ← h.dropLocal (a :: n :: held) p
        return (h, .ok ())
      | none => do
        let (h, r) ← h.insertLastF f (a :: held) n isNew p
        let h ← h.dropLocal (a :: n :: held) p
        return (h, r)

/-- `detach_and_move_inside_same_tree` (`src/node/edit.rs` 339-351). -/
def moveSameF (f : Nat) (h : Heap α) (held : List NodeId) (n : NodeId) (dest : InsertAs NodeId) :
    Except Fault (Heap α × Except HierarchyError Unit) :=
  if h.isRoot n then .ok (h, .ok ())
  else do
    let (h, isNew) ← h.newByUnlink (dest.anchor :: held) n
    h.insertF f held n isNew dest

/-- `detach_and_move_to_another_tree` (`src/node/edit.rs` 363-373). -/
def moveOtherF (f : Nat) (h : Heap α) (n : NodeId) (dest : InsertAs NodeId) (t : TreeId) :
    Except Fault (Heap α × Except HierarchyError Unit) := do
  let (h, isNew) ← h.newByUnlink [dest.anchor] n
  match ← setMembLoop f n t (some (.opn n)) h with
  | none => .error (.panic "brand-new tree hierarchy can be locked by any types of lock")
  | some h => h.insertF f [] n isNew dest

/-- `Node::try_detach_insert_subtree` after the grant check (`src/node/plain.rs` 2605-2615),
`HotNode::try_detach_insert_subtree` (`src/node/hot.rs` 1132-1147). -/
def detachInsertF (f : Nat) (h : Heap α) (n : NodeId) (dest : InsertAs NodeId) :
    Except Fault (Heap α × Except HierarchyError Unit) :=
  if h.belongsToSameTree n dest.anchor then h.moveSameF f [] n dest
  else do
    let t ← h.treeCore dest.anchor
    let h := h.acqTree t
    let (h, r) ← h.moveOtherF f n dest t
    let h ← h.relTree [] t
    return (h, r)
end Heap

end Dendron
