import Verif.Model.World

/-!
# Data that owns handles

The data of a node may itself contain node handles, `Tree`s and tokens; they are dropped by the
destructor of the data, in the middle of the release of the node, possibly starting the release of
another tree.  The functions of this file are those of `Model/Member` and `Model/Edit` that free nodes,
with a call of the destructor `dt` of the data at the place where it happens.

Simplification: the destructors drop what the data owns and do nothing else.
-/

set_option autoImplicit false

namespace Dendron
variable {α : Type}

/-- Something the data of a node may own: a handle (`Node`, `HotNode`, `FrozenNode`), a `Tree`, or a token
(`HierarchyEditGrant` if `grant`, otherwise `HierarchyEditProhibition`). -/
inductive Asset where
  | node (k : Kind) (n : NodeId)
  | tree (t : TreeId)
  | token (grant : Bool) (t : TreeId)
  deriving DecidableEq, Repr

/-- What is going on around a destructor: the nodes to which local variables of the running functions have
links (or, for nodes being freed, fields not yet dropped), the nodes whose membership is mutably borrowed
(`src/node/membership.rs` 208-240, 248-267), and the trees whose core is being destroyed, so that weak
references to them cannot be upgraded (`src/tree.rs` 83-116). -/
structure Nest where
  pins : List NodeId
  busy : List NodeId
  dying : List TreeId

/-- The destructor of the data of a node. -/
abbrev Dtor (α : Type) := Nest → NodeId → Heap α → Except Fault (Heap α)

/-- `try_borrow_mut` of a membership that is already borrowed (`src/node/membership.rs` 209-212). -/
def Nest.nested : Fault := .panic "membership core should never be borrowed nestedly"

namespace Heap

/-- `release` (`Model/Member`): the field `data` of a `NodeCore` is dropped first, the fields of
`neighbors` next (`src/node/internal.rs` 13-47). -/
def releaseC (dt : Dtor α) (c : Nest) : Nat → List NodeId → NodeId → Heap α → Except Fault (Heap α)
  | 0, _, _, _ => .error .diverge
  | f + 1, pins, n, h =>
    if !h.alive n || pins.contains n || h.referenced n then .ok h
    else
      let fc := h.firstChild n
      let nx := h.next n
      let h1 := h.kill n
      match dt { c with pins := fc.toList ++ nx.toList ++ pins } n h1 with
      | .error e => .error e
      | .ok h2 =>
        match (match fc with | some x => releaseC dt c f pins x h2 | none => .ok h2) with
        | .error e => .error e
        | .ok h3 => match nx with | some x => releaseC dt c f pins x h3 | none => .ok h3

/-- `dropStep` (`Model/Member`, `src/tree.rs` 101-113). -/
def dropStepC (dt : Dtor α) (c : Nest) (k : Nat) (h : Heap α) (pins : List NodeId) (v : NodeId) :
    Except Fault (Heap α) :=
  match h.parentLink v with
  | some p => do
    let h1 := (h.setNext v none).setFirst p (h.next v)
    let h2 ← (match h.firstChild p with
      | some x => h1.releaseC dt c k (p :: v :: pins) x
      | none => .ok h1)
    let h3 ← h2.releaseC dt c k (v :: pins) p
    h3.releaseC dt c k pins v
  | none => h.releaseC dt c k pins v

/-- `dropLoop` (`Model/Member`, `src/tree.rs` 96-114). -/
def dropLoopC (dt : Dtor α) (c : Nest) (k : Nat) : Nat → List NodeId → Option (DftEvent NodeId) →
    Heap α → Except Fault (Heap α)
  | _, _, none, h => .ok h
  | 0, _, some _, _ => .error .diverge
  | f + 1, pins, some ev, h =>
    let nx := h.evNext ev
    let pins' := match nx with | some e => e.value :: pins | none => pins
    match (match ev with
      | .opn v => h.releaseC dt c k pins' v
      | .cls v => dropStepC dt c k h pins' v) with
    | .error e => .error e
    | .ok h1 => dropLoopC dt c k f pins nx h1

/-- `dropTree` (`Model/Member`, `src/tree.rs` 83-116). -/
def dropTreeC (dt : Dtor α) (c : Nest) (h : Heap α) (pins : List NodeId) (t : TreeId) :
    Except Fault (Heap α) :=
  match h.root t with
  | none => .ok h
  | some r =>
    match dropLoopC dt { c with dying := t :: c.dying } h.relFuel h.dropFuel pins (some (.opn r)) h with
    | .error e => .error e
    | .ok h1 =>
      let h2 := (h1.setRoot t none).setGrants t 0
      h2.releaseC dt { c with dying := t :: c.dying } h.relFuel pins r

/-- `maybeDropTree` (`Model/Member`): `Rc<TreeCore>::drop`. -/
def maybeDropTreeC (dt : Dtor α) (c : Nest) (h : Heap α) (pins : List NodeId) (t : TreeId) :
    Except Fault (Heap α) :=
  if h.treeAlive t && h.treeRc t == 0 && !h.hasStrongMember t then h.dropTreeC dt c pins t else .ok h

/-- `relTree` (`Model/Member`): drop of a `Tree` or of a local `Rc<TreeCore>`. -/
def relTreeC (dt : Dtor α) (c : Nest) (h : Heap α) (t : TreeId) : Except Fault (Heap α) :=
  let h1 := h.setTreeRc t (h.treeRc t - 1)
  h1.maybeDropTreeC dt c c.pins t

/-- `decrement_edit_lock_count` (`src/node/membership.rs` 291-307). -/
def decLockC (c : Nest) (h : Heap α) (n : NodeId) : Except Fault (Heap α) :=
  if c.busy.contains n then .error Nest.nested else h.decLock n

/-- `decrement_tree_refcount` (`src/node/membership.rs` 208-240): the membership stays mutably borrowed
while the `Rc<TreeCore>` is dropped. -/
def decRefC (dt : Dtor α) (c : Nest) (h : Heap α) (n : NodeId) : Except Fault (Heap α) :=
  if c.busy.contains n then .error Nest.nested
  else
    match h.mem n with
    | .weak _ => .error (.panic "the membership should have a strong reference")
    | .strong t rc l =>
      if rc - 1 = 0 then
        if l ≠ 0 then
          .error (.panic "locks can be acquired only from strong node references")
        else
          let h1 := h.setMem n (.weak (some t))
          h1.maybeDropTreeC dt { c with busy := n :: c.busy } (n :: c.pins) t
      else .ok (h.setMem n (.strong t (rc - 1) l))

/-- Drop of a `NodeLink` (`src/node/internal.rs` 587-592) and of its `core` field. -/
def dropLinkC (dt : Dtor α) (c : Nest) (h : Heap α) (n : NodeId) : Except Fault (Heap α) := do
  let h1 ← h.decRefC dt c n
  h1.releaseC dt c h1.relFuel c.pins n

/-- `drop` of a handle: the lock first (`src/node/hot.rs` 29-34, `src/node/frozen.rs` 29-34), then
the `NodeLink`. -/
def dropHandleC (dt : Dtor α) (c : Nest) (h : Heap α) (n : NodeId) : Kind → Except Fault (Heap α)
  | .plain => h.dropLinkC dt c n
  | _ => do
    let h ← h.decLockC c n
    h.dropLinkC dt c n

/-- `drop` of a token (`src/tree/lock.rs` 219-226, 296-303): the weak reference to the tree core is
upgraded. -/
def dropTokC (c : Nest) (h : Heap α) (grant : Bool) (t : TreeId) : Except Fault (Heap α) :=
  if h.treeAlive t && !c.dying.contains t then
    match World.unlockTree (h.grants t) grant with
    | .error e => .error e
    | .ok g => .ok (h.setGrants t g)
  else .ok h

/-- `drop` of something owned. -/
def dropAssetC (dt : Dtor α) (c : Nest) (h : Heap α) : Asset → Except Fault (Heap α)
  | .node k n => h.dropHandleC dt c n k
  | .tree t => h.relTreeC dt c t
  | .token g t => h.dropTokC c g t

/-- `drop` of several things, one after the other. -/
def dropAllC (dt : Dtor α) (c : Nest) : List Asset → Heap α → Except Fault (Heap α)
  | [], h => .ok h
  | a :: as, h =>
    match h.dropAssetC dt c a with
    | .error e => .error e
    | .ok h1 => dropAllC dt c as h1

/-- The destructors, if the data of node `n` owns `own n`: every thing is dropped in turn, which may run
further destructors.  The number bounds how deep the destructors are nested. -/
def dtor (own : NodeId → List Asset) : Nat → Dtor α
  | 0 => fun _ _ _ => .error .diverge
  | f + 1 => fun c x h => h.dropAllC (dtor own f) c (own x)

/-! ### Edits -/

/-- `set_tree_core` (`src/node/membership.rs` 248-267); `none` is `Err`.  The old `Rc<TreeCore>` is dropped
by the assignment, while the membership is mutably borrowed. -/
def setTreeCoreC (dt : Dtor α) (c : Nest) (h : Heap α) (pins : List NodeId) (n : NodeId) (t' : TreeId) :
    Except Fault (Option (Heap α)) :=
  if c.busy.contains n then .error Nest.nested
  else
    match h.mem n with
    | .weak _ => .ok (some (h.setMem n (.weak (some t'))))
    | .strong t rc l =>
      match (if l ≠ 0 then h.transferLock t t' else .ok (some h)) with
      | .error e => .error e
      | .ok none => .ok none
      | .ok (some h1) =>
        let h2 := h1.setMem n (.strong t' rc l)
        match h2.maybeDropTreeC dt { c with busy := n :: c.busy } pins t with
        | .error e => .error e
        | .ok h3 => .ok (some h3)

/-- The loop of `set_memberships_of_descendants_and_self` (`setMembLoop`, `src/node/edit.rs` 381-391). -/
def setMembLoopC (dt : Dtor α) (c : Nest) : Nat → NodeId → TreeId → Option (DftEvent NodeId) → Heap α →
    Except Fault (Option (Heap α))
  | _, _, _, none, h => .ok (some h)
  | 0, _, _, some _, _ => .error .diverge
  | f + 1, start, t, some ev, h =>
    if ev = .cls start then .ok (some h)
    else
      let nx := h.evNext ev
      let held := start :: (match nx with | some e => [e.value] | none => [])
      match ev with
      | .opn n =>
        match h.setTreeCoreC dt c (n :: held ++ c.pins) n t with
        | .error e => .error e
        | .ok none => .ok none
        | .ok (some h1) =>
          match h1.releaseC dt c h1.relFuel (held ++ c.pins) n with
          | .error e => .error e
          | .ok h2 => setMembLoopC dt c f start t nx h2
      | .cls n =>
        match h.releaseC dt c h.relFuel (held ++ c.pins) n with
        | .error e => .error e
        | .ok h1 => setMembLoopC dt c f start t nx h1

/-- `OrphanRoot::create_new_tree` (`createNewTree`, `src/node/edit.rs` 120-124). -/
def createNewTreeC (dt : Dtor α) (c : Nest) (h : Heap α) (n : NodeId) : Except Fault (Heap α) :=
  let (h1, t) := h.allocTree n
  match setMembLoopC dt c (2 * h1.nNode + 2) n t (some (.opn n)) h1 with
  | .error e => .error e
  | .ok none => .error (.panic "brand-new tree hierarchy can be locked by any types of lock")
  | .ok (some h2) => h2.relTreeC dt c t

/-- `detach_subtree` (`detachSubtree`, `src/node/edit.rs` 325-334).  The unlinking frees nothing (it only
drops links of nodes that stay linked). -/
def detachSubtreeC (dt : Dtor α) (c : Nest) (h : Heap α) (n : NodeId) : Except Fault (Heap α) :=
  if h.isRoot n then .ok h
  else do
    let (h, _) ← h.newByUnlink [] n
    h.createNewTreeC dt c n

/-- `detach_and_move_to_another_tree` (`moveOther`, `src/node/edit.rs` 363-373).  Unlinking and inserting free
nothing. -/
def moveOtherC (dt : Dtor α) (c : Nest) (h : Heap α) (n : NodeId) (dest : InsertAs NodeId) (t : TreeId) :
    Except Fault (Heap α × Except HierarchyError Unit) := do
  let (h, isNew) ← h.newByUnlink [dest.anchor] n
  match ← setMembLoopC dt c (2 * h.nNode + 2) n t (some (.opn n)) h with
  | none => .error (.panic "brand-new tree hierarchy can be locked by any types of lock")
  | some h => h.insert [] n isNew dest

/-- `try_detach_insert_subtree` (`detachInsert`, `src/node/plain.rs` 2605-2615, `src/node/hot.rs`
1132-1147). -/
def detachInsertC (dt : Dtor α) (c : Nest) (h : Heap α) (n : NodeId) (dest : InsertAs NodeId) :
    Except Fault (Heap α × Except HierarchyError Unit) :=
  if h.belongsToSameTree n dest.anchor then h.moveSame [] n dest
  else do
    let t ← h.treeCore dest.anchor
    let h := h.acqTree t
    let (h, r) ← h.moveOtherC dt c n dest t
    let h ← h.relTreeC dt c t
    return (h, r)

end Heap
end Dendron
