/-!
# The heap

Model of the data structures of `src/node/internal.rs` and `src/tree.rs`.
-/

set_option autoImplicit false

namespace Dendron

/-- Identity of an `Rc<NodeCore<T>>` allocation (`src/node/internal.rs` 14-35).  Simplification:
ids are never reused. -/
abbrev NodeId := Nat

/-- Identity of an `Rc<TreeCore<T>>` allocation (`src/tree.rs` 30-35).  Simplification: ids are
never reused (in the code every token or weak reference keeps the allocation reserved, so pointer
comparison never confuses two trees either). -/
abbrev TreeId := Nat

/-- Abnormal ends of a call: a Rust panic, or a loop that does not end within its fuel. -/
inductive Fault where
  | panic (msg : String)
  | diverge
  deriving DecidableEq, Repr

/-- `HierarchyError` (`src/node.rs` 28-39). -/
inductive HierarchyError where
  | ancestorDescendantLoop
  | borrowNodeData
  | emptyTree
  | siblingsWithoutParent
  deriving DecidableEq, Repr

/-- `InsertAs<T>` (`src/anchor.rs` 22-32). -/
inductive InsertAs (β : Type) where
  | firstChildOf (a : β)
  | lastChildOf (a : β)
  | previousSiblingOf (a : β)
  | nextSiblingOf (a : β)
  deriving DecidableEq, Repr

/-- `AdoptAs` (`src/anchor.rs` 7-16). -/
inductive AdoptAs where
  | firstChild
  | lastChild
  | previousSibling
  | nextSibling
  deriving DecidableEq, Repr

namespace InsertAs
variable {β : Type}

/-- `InsertAs::anchor` (`src/anchor.rs` 59-66). -/
def anchor : InsertAs β → β
  | firstChildOf a => a
  | lastChildOf a => a
  | previousSiblingOf a => a
  | nextSiblingOf a => a

/-- `InsertAs::to_adopt_as` (`src/anchor.rs` 71-78). -/
def toAdoptAs : InsertAs β → AdoptAs
  | firstChildOf _ => .firstChild
  | lastChildOf _ => .lastChild
  | previousSiblingOf _ => .previousSibling
  | nextSiblingOf _ => .nextSibling

end InsertAs

/-- `MembershipCore<T>` (`src/node/membership.rs` 18-45).  `weak none` is `Weak::new()`.
Simplification: `tree_refcount` and the aggregated lock count are unbounded. -/
inductive Membership where
  | weak (t : Option TreeId)
  | strong (t : TreeId) (rc : Nat) (locks : Nat)
  deriving DecidableEq, Repr

/-- Point update of a total function (a store to one `Cell`/`RefCell` field). -/
def upd {β : Type} (f : Nat → β) (n : Nat) (v : β) : Nat → β := fun m => if m = n then v else f m

theorem upd_apply {β : Type} (f : Nat → β) (n : Nat) (v : β) (m : Nat) :
    upd f n v m = if m = n then v else f m := rfl

@[simp] theorem upd_same {β : Type} (f : Nat → β) (n : Nat) (v : β) : upd f n v n = v := by
  simp [upd]

@[simp] theorem upd_ne {β : Type} (f : Nat → β) {n m : Nat} (v : β) (h : m ≠ n) :
    upd f n v m = f m := by simp [upd, h]

/-- The whole memory: all node cores (`src/node/internal.rs` 14-47) and all tree cores
(`src/tree.rs` 30-35).  `data n = none` means that node `n` is not allocated (not yet, or not any
more).  `root t = none` likewise for trees.  `mutB n` tells that the user currently holds a `RefMut`
to the data of `n`.  `treeRc t` counts the `Rc<TreeCore>` held outside memberships (`Tree` values and
local variables).  `nNode`, `nTree` are the next fresh ids. -/
structure Heap (α : Type) where
  data : NodeId → Option α
  mutB : NodeId → Bool
  parent : NodeId → Option NodeId
  firstChild : NodeId → Option NodeId
  next : NodeId → Option NodeId
  prevCyc : NodeId → Option NodeId
  numCh : NodeId → Nat
  mem : NodeId → Membership
  root : TreeId → Option NodeId
  grants : TreeId → Int
  treeRc : TreeId → Nat
  nNode : Nat
  nTree : Nat

namespace Heap
variable {α : Type}

/-- The empty memory at program start. -/
def empty : Heap α where
  data _ := none
  mutB _ := false
  parent _ := none
  firstChild _ := none
  next _ := none
  prevCyc _ := none
  numCh _ := 0
  mem _ := .weak none
  root _ := none
  grants _ := 0
  treeRc _ := 0
  nNode := 0
  nTree := 0

/-- The node core is allocated (its strong count is nonzero). -/
def alive (h : Heap α) (n : NodeId) : Bool := (h.data n).isSome

/-- The tree core is allocated. -/
def treeAlive (h : Heap α) (t : TreeId) : Bool := (h.root t).isSome

/-! ### Setters (`src/node/internal.rs` 283-356) -/

/-- `replace_parent` (`src/node/internal.rs` 287-290); the old value is read separately. -/
def setParent (h : Heap α) (n : NodeId) (v : Option NodeId) : Heap α :=
  { h with parent := upd h.parent n v }
/-- `replace_prev_sibling_cyclic` (`src/node/internal.rs` 295-303). -/
def setPrev (h : Heap α) (n : NodeId) (v : Option NodeId) : Heap α :=
  { h with prevCyc := upd h.prevCyc n v }
/-- `replace_next_sibling` (`src/node/internal.rs` 308-316). -/
def setNext (h : Heap α) (n : NodeId) (v : Option NodeId) : Heap α :=
  { h with next := upd h.next n v }
/-- `replace_first_child` (`src/node/internal.rs` 321-328). -/
def setFirst (h : Heap α) (n : NodeId) (v : Option NodeId) : Heap α :=
  { h with firstChild := upd h.firstChild n v }
/-- `num_children_cell().set` (`src/node/internal.rs` 339-341). -/
def setNum (h : Heap α) (n : NodeId) (v : Nat) : Heap α :=
  { h with numCh := upd h.numCh n v }
/-- store to `NodeCore::membership` (`src/node/internal.rs` 21). -/
def setMem (h : Heap α) (n : NodeId) (v : Membership) : Heap α :=
  { h with mem := upd h.mem n v }
/-- `TreeCore::replace_root` (`src/tree.rs` 73-79). -/
def setRoot (h : Heap α) (t : TreeId) (v : Option NodeId) : Heap α :=
  { h with root := upd h.root t v }
/-- store to `HierarchyLockManager::num_grants` (`src/tree/lock.rs` 49-55). -/
def setGrants (h : Heap α) (t : TreeId) (v : Int) : Heap α :=
  { h with grants := upd h.grants t v }
/-- creation or drop of an `Rc<TreeCore>` outside of memberships. -/
def setTreeRc (h : Heap α) (t : TreeId) (v : Nat) : Heap α :=
  { h with treeRc := upd h.treeRc t v }
/-- write through `borrow_data_mut` (`src/node/plain.rs` 372-400). -/
def setData (h : Heap α) (n : NodeId) (v : α) : Heap α :=
  { h with data := upd h.data n (some v) }

/-- `num_children_add` (`src/node/internal.rs` 345-348). -/
def numAdd (h : Heap α) (n : NodeId) (v : Nat) : Heap α := h.setNum n (h.numCh n + v)

/-- `num_children_sub` (`src/node/internal.rs` 352-355); underflow panics (debug build). -/
def numSub (h : Heap α) (n : NodeId) (v : Nat) : Except Fault (Heap α) :=
  if h.numCh n < v then .error (.panic "attempt to subtract with overflow")
  else .ok (h.setNum n (h.numCh n - v))

/-! ### Getters (`src/node/internal.rs` 99-280) -/

/-- `NodeCoreLinkWeak::upgrade` (`src/node/internal.rs` 571-573). -/
def upgrade (h : Heap α) (w : Option NodeId) : Option NodeId := w.filter h.alive

/-- `parent_link` (`src/node/internal.rs` 130-132). -/
def parentLink (h : Heap α) (n : NodeId) : Option NodeId := h.upgrade (h.parent n)

/-- `is_root` (`src/node/internal.rs` 136-138). -/
def isRoot (h : Heap α) (n : NodeId) : Bool := (h.parentLink n).isNone

/-- `prev_sibling_cyclic_link` (`src/node/internal.rs` 143-147). -/
def prevCycLink (h : Heap α) (n : NodeId) : Except Fault NodeId :=
  match h.upgrade (h.prevCyc n) with
  | some m => .ok m
  | none => .error (.panic "`NodeCore::prev_sibling_cyclic` must never dangle after constructed")

/-- `next_sibling_link` (`src/node/internal.rs` 183-185). -/
def nextLink (h : Heap α) (n : NodeId) : Option NodeId := h.next n

/-- `prev_sibling_link` (`src/node/internal.rs` 158-169). -/
def prevLink (h : Heap α) (n : NodeId) : Except Fault (Option NodeId) := do
  let c ← h.prevCycLink n
  if (h.next c).isSome then return some c else return none

/-- `has_prev_sibling` (`src/node/internal.rs` 174-178). -/
def hasPrev (h : Heap α) (n : NodeId) : Except Fault Bool := do
  let c ← h.prevCycLink n
  return (h.next c).isSome

/-- `has_next_sibling` (`src/node/internal.rs` 190-192). -/
def hasNext (h : Heap α) (n : NodeId) : Bool := (h.next n).isSome

/-- `first_child_link` (`src/node/internal.rs` 197-199). -/
def firstChildLink (h : Heap α) (n : NodeId) : Option NodeId := h.firstChild n

/-- `last_child_link` (`src/node/internal.rs` 203-206). -/
def lastChildLink (h : Heap α) (n : NodeId) : Except Fault (Option NodeId) :=
  match h.firstChildLink n with
  | none => .ok none
  | some f => (h.prevCycLink f).map some

/-- `last_child_link_weak` (`src/node/internal.rs` 210-213); the outer option says whether there is
a first child, the inner one is the (possibly dangling) weak pointer. -/
def lastChildLinkWeak (h : Heap α) (n : NodeId) : Option (Option NodeId) :=
  (h.firstChildLink n).map h.prevCyc

/-- `first_last_child_link` (`src/node/internal.rs` 217-221). -/
def firstLastChildLink (h : Heap α) (n : NodeId) : Except Fault (Option (NodeId × NodeId)) :=
  match h.firstChildLink n with
  | none => .ok none
  | some f => (h.prevCycLink f).map (fun l => some (f, l))

/-- `has_children` (`src/node/internal.rs` 225-227). -/
def hasChildren (h : Heap α) (n : NodeId) : Bool := h.numCh n != 0

/-- `is_last_sibling` (`src/node/internal.rs` 244-246). -/
def isLastSibling (h : Heap α) (n : NodeId) : Bool := (h.next n).isNone

/-- `is_first_sibling` (`src/node/internal.rs` 238-240). -/
def isFirstSibling (h : Heap α) (n : NodeId) : Except Fault Bool := do
  let c ← h.prevCycLink n
  return h.isLastSibling c

/-- Tree id stored in a membership, without upgrading. -/
def memTree (h : Heap α) (n : NodeId) : Option TreeId :=
  match h.mem n with
  | .weak t => t
  | .strong t _ _ => some t

/-- `tree_core_opt` (`src/node/membership.rs` 145-154). -/
def treeCoreOpt (h : Heap α) (n : NodeId) : Option TreeId :=
  match h.mem n with
  | .weak t => t.filter h.treeAlive
  | .strong t _ _ => some t

/-- `NodeCoreLink::tree_core` (`src/node/internal.rs` 103-107). -/
def treeCore (h : Heap α) (n : NodeId) : Except Fault TreeId :=
  match h.treeCoreOpt n with
  | some t => .ok t
  | none => .error (.panic "the tree must be alive if a node is alive")

end Heap

/-- `DftEvent<T>` (`src/traverse/depth_first.rs` 11-16). -/
inductive DftEvent (β : Type) where
  | opn (n : β)
  | cls (n : β)
  deriving DecidableEq, Repr

namespace DftEvent
variable {β γ : Type}

/-- `DftEvent::as_value` (`src/traverse/depth_first.rs` 18-84). -/
def value : DftEvent β → β
  | opn n => n
  | cls n => n

/-- `DftEvent::map` (`src/traverse/depth_first.rs` 18-84). -/
def map (f : β → γ) : DftEvent β → DftEvent γ
  | opn n => opn (f n)
  | cls n => cls (f n)

end DftEvent

open DftEvent

/-- `DftEvent<NodeCoreLink<T>>::next` (`src/node/internal.rs` 458-476). -/
def Heap.evNext {α : Type} (h : Heap α) : DftEvent NodeId → Option (DftEvent NodeId)
  | .opn n =>
    match h.firstChildLink n with
    | some c => some (.opn c)
    | none => some (.cls n)
  | .cls n =>
    match h.nextLink n with
    | some s => some (.opn s)
    | none => (h.parentLink n).map .cls

end Dendron
