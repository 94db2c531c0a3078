import Verif.Model.NodeApi

/-!
# Programs using the crate: handles, tokens and the calls made through them

A `World` is the memory together with the values the user's program holds: node handles of the
three kinds, `Tree`s, edit grants and edit prohibitions.  `exec` runs one call of the public API.
-/

set_option autoImplicit false

namespace Dendron

/-- The three kinds of node handles: `Node` (`src/node/plain.rs` 40-43), `HotNode`
(`src/node/hot.rs` 24-27), `FrozenNode` (`src/node/frozen.rs` 24-27). -/
inductive Kind where
  | plain
  | hot
  | frozen
  deriving DecidableEq, Repr

/-- The memory and what the program holds: `held k n` handles of kind `k` to node `n`, `trees t`
values `Tree` for `t`, `grantTok t` values `HierarchyEditGrant`, `prohTok t` values
`HierarchyEditProhibition` (`src/tree/lock.rs` 217, 294).  Weak handles (`NodeWeak`, `TreeWeak`) do not
influence anything; upgrading one is possible for any id. -/
structure World (α : Type) where
  heap : Heap α
  held : Kind → NodeId → Nat
  trees : TreeId → Nat
  grantTok : TreeId → Nat
  prohTok : TreeId → Nat

/-- The navigation methods that return a node (`src/node/plain.rs` 549-845, `src/node/hot.rs`
434-545, `src/node/frozen.rs` 435-546). -/
inductive Nav where
  | root
  | parent
  | prevSibling
  | nextSibling
  | firstSibling
  | lastSibling
  | firstChild
  | lastChild
  deriving DecidableEq, Repr

/-- How an edit is authorized: by a grant given to a method of `Node`, or because the handle is a
`HotNode`. -/
inductive Auth where
  | token (t : TreeId)
  | hot
  deriving DecidableEq, Repr

/-- The calls.  Iterators, comparison, printing, serialization are not listed: they are built from
`nav`, `clone` and `drop`. -/
inductive Op (α : Type) where
  /-- `Node::new_tree` / `HotNode::new_tree` (`src/node/plain.rs` 1607, `src/node/hot.rs` 784) -/
  | newTree (hot : Bool) (d : α)
  /-- `clone` of a handle -/
  | clone (k : Kind) (n : NodeId)
  /-- `drop` of a handle -/
  | drop (k : Kind) (n : NodeId)
  /-- a navigation method -/
  | nav (k : Kind) (q : Nav) (n : NodeId)
  /-- `NodeWeak::upgrade` (`src/node/plain.rs` 2943-2946) -/
  | upgrade (n : NodeId)
  /-- `HotNode::plain`, `FrozenNode::plain` (`src/node/hot.rs` 159, `src/node/frozen.rs` 165) -/
  | plainOf (k : Kind) (n : NodeId)
  /-- `bundle_new_hierarchy_edit_grant` / `_prohibition` (`src/node/plain.rs` 221-245) -/
  | bundle (k : Kind) (n : NodeId)
  /-- `bundle_hierarchy_edit_grant` / `_prohibition` (`src/node/plain.rs` 270-302) with a token of
  tree `t` -/
  | bundleWith (k : Kind) (n : NodeId) (t : TreeId)
  /-- `tree()` of a handle (`src/node/plain.rs` 445) -/
  | treeOf (k : Kind) (n : NodeId)
  /-- `Tree::clone` (`src/tree.rs` 141-148) -/
  | cloneTree (t : TreeId)
  /-- `drop` of a `Tree` -/
  | dropTree (t : TreeId)
  /-- `Tree::root` (`src/tree.rs` 218-222) -/
  | treeRoot (t : TreeId)
  /-- `TreeWeak::upgrade` (`src/tree.rs` 572-574) -/
  | upgradeTree (t : TreeId)
  /-- `Tree::grant_hierarchy_edit` / `prohibit_hierarchy_edit` (`src/tree.rs` 244-272) -/
  | acquire (grant : Bool) (t : TreeId)
  /-- `try_clone`/`clone` of a token (`src/tree/lock.rs` 241-247, 340-346) -/
  | cloneTok (grant : Bool) (t : TreeId)
  /-- `drop` of a token (`src/tree/lock.rs` 219-226, 296-303) -/
  | dropTok (grant : Bool) (t : TreeId)
  /-- `HotNode::extract_hierarchy_edit_grant`, `FrozenNode::extract_hierarchy_edit_prohibition`
  (`src/node/hot.rs` 191-195, `src/node/frozen.rs` 193-197) -/
  | extract (grant : Bool) (n : NodeId)
  /-- `try_create_node_as` and the four special forms -/
  | create (a : Auth) (n : NodeId) (d : α) (as : AdoptAs)
  /-- `create_as_interrupting_parent` -/
  | createParent (a : Auth) (n : NodeId) (d : α)
  /-- `create_as_interrupting_child` -/
  | createChild (a : Auth) (n : NodeId) (d : α)
  /-- `detach_subtree` -/
  | detach (a : Auth) (n : NodeId)
  /-- `try_replace_with_children` -/
  | replace (a : Auth) (n : NodeId)
  /-- `try_detach_insert_subtree` -/
  | move (a : Auth) (n : NodeId) (dest : InsertAs NodeId)
  /-- write through `try_borrow_data_mut` (`src/node/plain.rs` 372) -/
  | write (n : NodeId) (d : α)
  /-- keep the `RefMut` of `try_borrow_data_mut`, or drop it -/
  | borrowMut (n : NodeId) (keep : Bool)

/-- What a call returns. -/
inductive Res where
  | unit
  | node (n : Option NodeId)
  | tree (t : Option TreeId)
  /-- `HierarchyEditGrantError` / `HierarchyEditProhibitionError` -/
  | denied
  /-- `BorrowMutError` -/
  | borrowed
  | err (e : HierarchyError)
  deriving DecidableEq, Repr

namespace Heap
variable {α : Type}

/-- The node a navigation method returns (`src/node/plain.rs` 549-815). -/
def navTo (h : Heap α) (n : NodeId) : Nav → Except Fault (Option NodeId)
  | .root => (h.nodeRoot n).map some
  | .parent => .ok (h.parentLink n)
  | .prevSibling => h.prevLink n
  | .nextSibling => .ok (h.nextLink n)
  | .firstSibling => (h.firstSibling n).map some
  | .lastSibling => (h.lastSibling n).map some
  | .firstChild => .ok (h.firstChildLink n)
  | .lastChild => h.lastChildLink n

/-- The lock part of making a handle of kind `k` from a node link; `none` is `Err`
(`src/node/hot.rs` 86-89, `src/node/frozen.rs` 86-89). -/
def acqLock (h : Heap α) (n : NodeId) : Kind → Except Fault (Option (Heap α))
  | .plain => .ok (some h)
  | .hot => h.acquireEditGrant n
  | .frozen => h.acquireEditProhibition n

/-- `.expect(..)` on the result of a lock acquisition. -/
def expectLock (r : Except Fault (Option (Heap α))) : Except Fault (Heap α) :=
  match r with
  | .error e => .error e
  | .ok none => .error (.panic "there should have already been a lock of the same kind")
  | .ok (some h) => .ok h

/-- `Node::with_node_core` (`src/node/plain.rs` 161-166), `HotNode::from_node_link_with_grant`
(`src/node/hot.rs` 116-125), `FrozenNode::from_node_link_with_prohibition`
(`src/node/frozen.rs` 118-127). -/
def wrap (h : Heap α) (n : NodeId) (k : Kind) : Except Fault (Heap α) := do
  let h ← h.withNodeCore n
  expectLock (h.acqLock n k)

/-- `clone` of a handle: `Node` (`src/node/plain.rs` 45-52), `HotNode` (`src/node/hot.rs` 36-44),
`FrozenNode` (`src/node/frozen.rs` 36-44). -/
def cloneHandle (h : Heap α) (n : NodeId) : Kind → Except Fault (Heap α)
  | .plain => h.cloneLink n
  | _ => do
    let h ← h.incLockNonzero n
    h.cloneLink n

/-- `drop` of a handle: the lock first (`src/node/hot.rs` 29-34, `src/node/frozen.rs` 29-34), then
the `NodeLink`. -/
def dropHandle (h : Heap α) (n : NodeId) : Kind → Except Fault (Heap α)
  | .plain => h.dropLink n
  | _ => do
    let h ← h.decLock n
    h.dropLink n

end Heap

namespace World
variable {α : Type}

/-- The program at its start. -/
def init : World α where
  heap := .empty
  held _ _ := 0
  trees _ := 0
  grantTok _ := 0
  prohTok _ := 0

/-- The program gets a handle. -/
def give (w : World α) (k : Kind) (n : NodeId) : World α :=
  { w with held := fun k' m => if k' = k ∧ m = n then w.held k' m + 1 else w.held k' m }

/-- A handle of the program is consumed. -/
def take (w : World α) (k : Kind) (n : NodeId) : World α :=
  { w with held := fun k' m => if k' = k ∧ m = n then w.held k' m - 1 else w.held k' m }

/-- `acquire_grant` / `acquire_prohibition` of a tree (`src/tree/lock.rs` 96-107, 133-144). -/
def lockTree (g : Int) (grant : Bool) : Except Fault (Option Int) :=
  if grant then Lock.acquireGrant g else Lock.acquireProhibition g

/-- `release_grant` / `release_prohibition` of a tree (`src/tree/lock.rs` 114-120, 151-157). -/
def unlockTree (g : Int) (grant : Bool) : Except Fault Int :=
  if grant then Lock.releaseGrant g else Lock.releaseProhibition g

/-- One more token. -/
def giveTok (w : World α) (grant : Bool) (t : TreeId) : World α :=
  if grant then { w with grantTok := upd w.grantTok t (w.grantTok t + 1) }
  else { w with prohTok := upd w.prohTok t (w.prohTok t + 1) }

/-- One token less. -/
def takeTok (w : World α) (grant : Bool) (t : TreeId) : World α :=
  if grant then { w with grantTok := upd w.grantTok t (w.grantTok t - 1) }
  else { w with prohTok := upd w.prohTok t (w.prohTok t - 1) }

/-- `HierarchyEditGrant::panic_if_invalid_for_node` (`src/tree/lock.rs` 372-378); nothing to check
for a `HotNode`. -/
def checkAuth (w : World α) (a : Auth) (n : NodeId) : Except Fault Unit :=
  match a with
  | .hot => .ok ()
  | .token t =>
    if w.heap.belongsTo n t then .ok ()
    else .error (.panic "the grant is not valid for the node of interest")

/-- The kind of the handles an edit returns. -/
def _root_.Dendron.Auth.kind : Auth → Kind
  | .token _ => .plain
  | .hot => .hot

/-- Wrapping of a newly created node: `HotNode::from_node(node).expect(..)` (`src/node/hot.rs`
803-806, 937, 971), nothing for `Node`. -/
def created (w : World α) (k : Kind) (n : NodeId) : Except Fault (World α × Res) := do
  let h ← Heap.expectLock (w.heap.acqLock n k)
  return (({ w with heap := h }).give k n, .node (some n))

/-- Acquisition of a token (`src/tree/lock.rs` 230-233, 318-321). -/
def execAcquire (w : World α) (grant : Bool) (t : TreeId) : Except Fault (World α × Res) :=
  match lockTree (w.heap.grants t) grant with
  | .error e => .error e
  | .ok none => .ok (w, .denied)
  | .ok (some g) => .ok (({ w with heap := w.heap.setGrants t g }).giveTok grant t, .unit)

/-- One call. -/
def exec (w : World α) : Op α → Except Fault (World α × Res)
  | .newTree hot d =>
    let (h, n) := w.heap.newTreeRoot d
    ({ w with heap := h } : World α).created (if hot then .hot else .plain) n
  | .clone k n => do
    let h ← w.heap.cloneHandle n k
    return (({ w with heap := h }).give k n, .unit)
  | .drop k n => do
    let h ← w.heap.dropHandle n k
    return (({ w with heap := h }).take k n, .unit)
  | .nav k q n => do
    match ← w.heap.navTo n q with
    | none => return (w, .node none)
    | some m => do
      let h ← w.heap.wrap m k
      return (({ w with heap := h }).give k m, .node (some m))
  | .upgrade n =>
    match w.heap.upgrade (some n) with
    | none => .ok (w, .node none)
    | some m => do
      let h ← w.heap.wrap m .plain
      return (({ w with heap := h }).give .plain m, .node (some m))
  | .plainOf _ n => do
    let h ← w.heap.cloneLink n
    return (({ w with heap := h }).give .plain n, .unit)
  | .bundle k n => do
    match ← w.heap.acqLock n k with
    | some h => return ((({ w with heap := h }).take .plain n).give k n, .unit)
    | none => do
      -- the node given to the method is dropped
      let h ← w.heap.dropLink n
      return (({ w with heap := h }).take .plain n, .denied)
  | .bundleWith k n t => do
    if w.heap.belongsTo n t then
      let h ← Heap.expectLock (w.heap.acqLock n k)
      return ((({ w with heap := h }).take .plain n).give k n, .unit)
    else .error (.panic "the token is not valid for the node of interest")
  | .treeOf _ n => do
    let t ← w.heap.nodeTree n
    return ({ w with heap := w.heap.acqTree t, trees := upd w.trees t (w.trees t + 1) },
      .tree (some t))
  | .cloneTree t =>
    .ok ({ w with heap := w.heap.acqTree t, trees := upd w.trees t (w.trees t + 1) }, .unit)
  | .dropTree t => do
    let h ← w.heap.relTree [] t
    return ({ w with heap := h, trees := upd w.trees t (w.trees t - 1) }, .unit)
  | .treeRoot t => do
    let r ← w.heap.rootLink t
    let h ← w.heap.wrap r .plain
    return (({ w with heap := h }).give .plain r, .node (some r))
  | .upgradeTree t =>
    if w.heap.treeAlive t then
      .ok ({ w with heap := w.heap.acqTree t, trees := upd w.trees t (w.trees t + 1) },
        .tree (some t))
    else .ok (w, .tree none)
  | .acquire grant t => w.execAcquire grant t
  | .cloneTok grant t =>
    if w.heap.treeAlive t then w.execAcquire grant t
    else .ok (w.giveTok grant t, .unit)
  | .dropTok grant t =>
    if w.heap.treeAlive t then do
      let g ← unlockTree (w.heap.grants t) grant
      return (({ w with heap := w.heap.setGrants t g }).takeTok grant t, .unit)
    else .ok (w.takeTok grant t, .unit)
  | .extract grant n => do
    let t ← w.heap.nodeTree n
    match ← w.execAcquire grant t with
    | (_, .denied) => .error (.panic "the tree hierarchy is already locked")
    | r => return r
  | .create a n d as => do
    w.checkAuth a n
    let (h, r) ← w.heap.nodeCreate n d as
    match r with
    | .error e => return ({ w with heap := h }, .err e)
    | .ok m => ({ w with heap := h } : World α).created a.kind m
  | .createParent a n d => do
    w.checkAuth a n
    let (h, m) ← w.heap.createInterruptingParent n d
    ({ w with heap := h } : World α).created a.kind m
  | .createChild a n d => do
    w.checkAuth a n
    let (h, m) ← w.heap.createInterruptingChild n d
    ({ w with heap := h } : World α).created a.kind m
  | .detach a n => do
    w.checkAuth a n
    let h ← w.heap.detachSubtree n
    return ({ w with heap := h }, .unit)
  | .replace a n => do
    w.checkAuth a n
    let (h, r) ← w.heap.replaceWithChildren n
    match r with
    | .error e => return ({ w with heap := h }, .err e)
    | .ok () => return ({ w with heap := h }, .unit)
  | .move a n dest => do
    w.checkAuth a n
    let (h, r) ← w.heap.detachInsert n dest
    match r with
    | .error e => return ({ w with heap := h }, .err e)
    | .ok () => return ({ w with heap := h }, .unit)
  | .write n d =>
    if w.heap.mutB n then .ok (w, .borrowed)
    else .ok ({ w with heap := w.heap.setData n d }, .unit)
  | .borrowMut n keep =>
    if keep && w.heap.mutB n then .ok (w, .borrowed)
    else .ok ({ w with heap := { w.heap with mutB := upd w.heap.mutB n keep } }, .unit)

/-- The program holds some handle to the node. -/
def Holds (w : World α) (n : NodeId) : Prop := ∃ k, 0 < w.held k n

/-- The handle through which an edit is made. -/
def HasAuth (w : World α) (n : NodeId) : Auth → Prop
  | .token t => 0 < w.held .plain n ∧ 0 < w.grantTok t
  | .hot => 0 < w.held .hot n

/-- The program can make the call: it holds the values the call is made with (Rust's ownership
rules). -/
def Allowed (w : World α) : Op α → Prop
  | .newTree _ _ => True
  | .clone k n | .drop k n | .nav k _ n | .treeOf k n => 0 < w.held k n
  | .upgrade _ | .upgradeTree _ => True
  | .plainOf k n => k ≠ .plain ∧ 0 < w.held k n
  | .bundle k n => k ≠ .plain ∧ 0 < w.held .plain n
  | .bundleWith k n t =>
    0 < w.held .plain n ∧
      (k = .hot ∧ 0 < w.grantTok t ∨ k = .frozen ∧ 0 < w.prohTok t)
  | .cloneTree t | .dropTree t | .treeRoot t | .acquire _ t => 0 < w.trees t
  | .cloneTok grant t | .dropTok grant t =>
    if grant then 0 < w.grantTok t else 0 < w.prohTok t
  | .extract grant n => if grant then 0 < w.held .hot n else 0 < w.held .frozen n
  | .create a n _ _ | .createParent a n _ | .createChild a n _ | .detach a n
  | .replace a n => w.HasAuth n a
  | .move a n dest => w.HasAuth n a ∧ 0 < w.held .hot dest.anchor
  | .write n _ | .borrowMut n _ => w.Holds n

end World
end Dendron
