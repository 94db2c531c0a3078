import Verif.Model.Member

/-!
# Hierarchy edits (`src/node/edit.rs`)

Every function returns the new heap and, where the code returns `Result<_, HierarchyError>`, an
`Except HierarchyError _`.  An error result still carries the heap, because failing code may
already have changed it.

Whenever a strong link (`first_child`, `next_sibling`, `TreeCore::root`) is overwritten, and whenever
a local variable that owns a link goes out of scope, the node is released: it is freed if no strong
reference to it is left.  The parameter `held` lists the links owned by the callers during the call;
the arguments of a function are borrowed from its callers and so are held as well.  Links that are
copied and dropped again without a store in between are not modelled as owners.
-/

set_option autoImplicit false

namespace Dendron
namespace Heap
variable {α : Type}

/-! ### Stores to strong links -/

/-- End of the scope of a local variable that owns a link to `x` (drop of an `Rc<NodeCore>`). -/
def dropLocal (h : Heap α) (held : List NodeId) (x : NodeId) : Except Fault (Heap α) :=
  h.release h.relFuel held x

/-- The same for a local variable of type `Option<NodeCoreLink<T>>`. -/
def dropOpt (h : Heap α) (held : List NodeId) : Option NodeId → Except Fault (Heap α)
  | some x => h.dropLocal held x
  | none => .ok h

/-- `replace_next_sibling` (`src/node/internal.rs` 308-316) with its result dropped. -/
def putNext (h : Heap α) (held : List NodeId) (m : NodeId) (v : Option NodeId) :
    Except Fault (Heap α) := (h.setNext m v).dropOpt held (h.next m)

/-- `replace_first_child` (`src/node/internal.rs` 321-328) with its result dropped. -/
def putFirst (h : Heap α) (held : List NodeId) (m : NodeId) (v : Option NodeId) :
    Except Fault (Heap α) := (h.setFirst m v).dropOpt held (h.firstChild m)

/-- `TreeCore::replace_root` (`src/tree.rs` 73-79) with its result dropped. -/
def putRoot (h : Heap α) (held : List NodeId) (t : TreeId) (x : NodeId) : Except Fault (Heap α) :=
  (h.setRoot t (some x)).dropOpt held (h.root t)

/-- `connect_adjacent_siblings` (`src/node/internal.rs` 332-335). -/
def connect (h : Heap α) (held : List NodeId) (prev next : NodeId) : Except Fault (Heap α) :=
  (h.setPrev next (some prev)).putNext held prev (some next)

/-! ### Unlinking and membership -/

/-- `OrphanRoot::new_by_unlink` (`src/node/edit.rs` 56-110).  The Boolean is `is_newly_created`. -/
def newByUnlink (h : Heap α) (held : List NodeId) (n : NodeId) : Except Fault (Heap α × Bool) :=
  if h.isRoot n then .ok (h, false)
  else do
    let parent := h.parentLink n
    let prev ← h.prevLink n
    let prevC ← h.prevCycLink n
    let next := h.nextLink n
    -- Links held until the end, until `next` is dropped, until `prev` is dropped.
    let held3 := prevC :: (parent.toList ++ n :: held)
    let held2 := next.toList ++ held3
    let held1 := prev.toList ++ held2
    -- Update neighbors.
    let h ← (match parent with
      | some p => do
        let first ← h.isFirstSibling n
        let h ← (if first then h.putFirst held1 p next else .ok h)
        if h.numCh p = 0 then .error (.panic "parent should have a child")
        else h.numSub p 1
      | none => .ok h)
    let h ← (match prev with
      | some s => do
        let h ← h.putNext held1 s next
        h.dropLocal held2 s
      | none => .ok h)
    let h ← (match next with
      | some s => (h.setPrev s (some prevC)).dropLocal held3 s
      | none => .ok h)
    -- Update `node_to_unlink`.
    let h ← ((h.setParent n none).setPrev n (some n)).putNext held3 n none
    let h ← h.dropLocal (parent.toList ++ n :: held) prevC
    let h ← h.dropOpt (n :: held) parent
    return (h, true)

/-- The loop of `set_memberships_of_descendants_and_self` (`src/node/edit.rs` 381-391) over
`DepthFirstLinkTraverser` (`src/node/internal.rs` 507-519).  `none` is `Err`.  The event after the
current one is computed before the body runs; the links held by the iterator and by the loop
variable are pinned while an old tree is being destroyed, and the loop variable is released at the
end of the iteration. -/
def setMembLoop : Nat → NodeId → TreeId → Option (DftEvent NodeId) → Heap α →
    Except Fault (Option (Heap α))
  | _, _, _, none, h => .ok (some h)
  | 0, _, _, some _, _ => .error .diverge
  | f + 1, start, t, some ev, h =>
    if ev = .cls start then .ok (some h)
    else
      let nx := h.evNext ev
      let held := start :: (match nx with | some e => [e.value] | none => [])
      match ev with
      | .opn n =>
        match h.setTreeCore (n :: held) n t with
        | .error e => .error e
        | .ok none => .ok none
        | .ok (some h1) =>
          match h1.release h1.relFuel held n with
          | .error e => .error e
          | .ok h2 => setMembLoop f start t nx h2
      | .cls n =>
        match h.release h.relFuel held n with
        | .error e => .error e
        | .ok h1 => setMembLoop f start t nx h1

/-- `set_memberships_of_descendants_and_self` (`src/node/edit.rs` 381-391); fuel: every node is
opened and closed once. -/
def setMemberships (h : Heap α) (n : NodeId) (t : TreeId) : Except Fault (Option (Heap α)) :=
  setMembLoop (2 * h.nNode + 2) n t (some (.opn n)) h

/-- `OrphanRoot::create_new_tree` (`src/node/edit.rs` 120-124). -/
def createNewTree (h : Heap α) (n : NodeId) : Except Fault (Heap α) :=
  let (h1, t) := h.allocTree n
  match h1.setMemberships n t with
  | .error e => .error e
  | .ok none => .error (.panic "brand-new tree hierarchy can be locked by any types of lock")
  | .ok (some h2) => h2.relTree [] t

/-- `OrphanRoot::is_ancestor_of` (`src/node/edit.rs` 128-138): the loop over the parents of `cur`. -/
def isAncestorLoop (h : Heap α) (n : NodeId) : Nat → Option NodeId → Except Fault Bool
  | _, none => .ok false
  | 0, some _ => .error .diverge
  | f + 1, some a => if n = a then .ok true else isAncestorLoop h n f (h.parentLink a)

/-- `OrphanRoot::is_ancestor_of` (`src/node/edit.rs` 128-138). -/
def isAncestorOf (h : Heap α) (n m : NodeId) : Except Fault Bool :=
  h.isAncestorLoop n (h.nNode + 1) (some m)

/-- The loop check at the start of both child insertions (`src/node/edit.rs` 176-178, 214-216). -/
def loopCheck (h : Heap α) (n : NodeId) (isNew : Bool) (p : NodeId) : Except Fault Bool :=
  if isNew then .ok false else h.isAncestorOf n p

/-- `OrphanRoot::insert_as_first_child_of` (`src/node/edit.rs` 175-210). -/
def insertFirst (h : Heap α) (held : List NodeId) (n : NodeId) (isNew : Bool) (p : NodeId) : Except Fault (Heap α × Except HierarchyError Unit) := do
  if ← h.loopCheck n isNew p then return (h, .error .ancestorDescendantLoop)
  let fl ← h.firstLastChildLink p
  let h ← (match fl with
    | some (f, l) => do
      let h ← (h.setPrev n (some l)).connect (l :: n :: p :: held) n f
      h.dropLocal (n :: p :: held) l
    | none => .ok (h.setPrev n (some n)))
  let h ← (h.setParent n (some p)).putFirst (n :: p :: held) p (some n)
  return (h.numAdd p 1, .ok ())

/-- `OrphanRoot::insert_as_last_child_of` (`src/node/edit.rs` 213-243). -/
def insertLast (h : Heap α) (held : List NodeId) (n : NodeId) (isNew : Bool) (p : NodeId) : Except Fault (Heap α × Except HierarchyError Unit) := do
  if ← h.loopCheck n isNew p then return (h, .error .ancestorDescendantLoop)
  let fl ← h.firstLastChildLink p
  let h ← (match fl with
    | some (f, l) => do
      let h ← (h.setPrev f (some n)).connect (l :: f :: n :: p :: held) l n
      let h ← h.dropLocal (f :: n :: p :: held) l
      h.dropLocal (n :: p :: held) f
    | none => (h.setPrev n (some n)).putFirst (n :: p :: held) p (some n))
  let h := h.setParent n (some p)
  return (h.numAdd p 1, .ok ())

/-- The four `debug_assert!`s of `insert_between` (`src/node/edit.rs` 270-293). -/
def betweenChecks (h : Heap α) (p prev next : NodeId) : Except Fault Unit := do
  if h.parentLink prev ≠ some p then
    .error (.panic "`prev_sibling` must be a child of `parent`")
  else if h.parentLink next ≠ some p then
    .error (.panic "`next_sibling` must be a child of `parent`")
  else if h.nextLink prev ≠ some next then
    .error (.panic "`next_sibling` must be the next sibling of `prev_sibling`")
  else
    let pv ← h.prevLink next
    if pv ≠ some prev then
      .error (.panic "`prev_sibling` must be the previous sibling of `next_sibling`")
    else .ok ()

/-- `OrphanRoot::insert_between` (`src/node/edit.rs` 263-320). -/
def insertBetween (h : Heap α) (held : List NodeId) (n : NodeId) (p prev next : NodeId) : Except Fault (Heap α) := do
  h.betweenChecks p prev next
  let h := h.setParent n (some p)
  let nextOwned := h.next prev
  let h := h.setNext prev (some n)
  let h ← h.putNext (n :: p :: prev :: next :: held) n nextOwned
  let prevWeak := h.prevCyc next
  let h := (h.setPrev next (some n)).setPrev n prevWeak
  return h.numAdd p 1

/-- `OrphanRoot::insert` (`src/node/edit.rs` 141-172). -/
def insert (h : Heap α) (held : List NodeId) (n : NodeId) (isNew : Bool) : InsertAs NodeId → Except Fault (Heap α × Except HierarchyError Unit)
  | .firstChildOf p => h.insertFirst held n isNew p
  | .lastChildOf p => h.insertLast held n isNew p
  | .previousSiblingOf a =>
    match h.parentLink a with
    | none => .ok (h, .error .siblingsWithoutParent)
    | some p => do
      match ← h.prevLink a with
      | some s => do
        let h ← h.insertBetween held n p s a
        let h ← h.dropLocal (p :: a :: n :: held) s
        let h ← h.dropLocal (a :: n :: held) p
        return (h, .ok ())
      | none => do
        let (h, r) ← h.insertFirst (a :: held) n isNew p
        let h ← h.dropLocal (a :: n :: held) p
        return (h, r)
  | .nextSiblingOf a =>
    match h.parentLink a with
    | none => .ok (h, .error .siblingsWithoutParent)
    | some p =>
      match h.nextLink a with
      | some s => do
        let h ← h.insertBetween held n p a s
        let h ← h.dropLocal (p :: a :: n :: held) s
        let h ← h.dropLocal (a :: n :: held) p
        return (h, .ok ())
      | none => do
        let (h, r) ← h.insertLast (a :: held) n isNew p
        let h ← h.dropLocal (a :: n :: held) p
        return (h, r)

/-- `detach_subtree` (`src/node/edit.rs` 325-334). -/
def detachSubtree (h : Heap α) (n : NodeId) : Except Fault (Heap α) :=
  if h.isRoot n then .ok h
  else do
    let (h, _) ← h.newByUnlink [] n
    h.createNewTree n

/-- `detach_and_move_inside_same_tree` (`src/node/edit.rs` 339-351). -/
def moveSame (h : Heap α) (held : List NodeId) (n : NodeId) (dest : InsertAs NodeId) : Except Fault (Heap α × Except HierarchyError Unit) :=
  if h.isRoot n then .ok (h, .ok ())
  else do
    let (h, isNew) ← h.newByUnlink (dest.anchor :: held) n
    h.insert held n isNew dest

/-- `detach_and_move_to_another_tree` (`src/node/edit.rs` 363-373). -/
def moveOther (h : Heap α) (n : NodeId) (dest : InsertAs NodeId) (t : TreeId) : Except Fault (Heap α × Except HierarchyError Unit) := do
  let (h, isNew) ← h.newByUnlink [dest.anchor] n
  match ← h.setMemberships n t with
  | none => .error (.panic "brand-new tree hierarchy can be locked by any types of lock")
  | some h => h.insert [] n isNew dest

/-- `Node::try_detach_insert_subtree` after the grant check (`src/node/plain.rs` 2605-2615),
`HotNode::try_detach_insert_subtree` (`src/node/hot.rs` 1132-1147).  The destination's
`Rc<TreeCore>` is held during the call. -/
def detachInsert (h : Heap α) (n : NodeId) (dest : InsertAs NodeId) : Except Fault (Heap α × Except HierarchyError Unit) :=
  if h.belongsToSameTree n dest.anchor then h.moveSame [] n dest
  else do
    let t ← h.treeCore dest.anchor
    let h := h.acqTree t
    let (h, r) ← h.moveOther n dest t
    let h ← h.relTree [] t
    return (h, r)

/-- `OrphanRoot::create_and_process` (`src/node/edit.rs` 33-49): on error the new link is dropped. -/
def createAndProcess (h : Heap α) (d : α) (t : TreeId)
    (process : Heap α → NodeId → Except Fault (Heap α × Except HierarchyError Unit)) : Except Fault (Heap α × Except HierarchyError NodeId) := do
  let (h, n) ← h.newOrphan d t
  let (h, r) ← process h n
  match r with
  | .ok () => return (h, .ok n)
  | .error e => do
    let h ← h.dropLink n
    return (h, .error e)

/-- The `debug_assert!` at the start of the creation functions (`src/node/edit.rs` 428-431). -/
def checkBelongs (h : Heap α) (n : NodeId) (t : TreeId) : Except Fault Unit :=
  if h.belongsTo n t then .ok ()
  else .error (.panic "the given node link must belong to the tree with the given core")

/-- `.expect(..)` on a `Result<_, HierarchyError>`. -/
def expectOk {β : Type} (r : Except Fault (Heap α × Except HierarchyError β)) (msg : String) : Except Fault (Heap α × β) :=
  match r with
  | .error e => .error e
  | .ok (h, .ok b) => .ok (h, b)
  | .ok (_, .error _) => .error (.panic msg)

/-- `create_as_first_child` (`src/node/edit.rs` 423-437). -/
def createFirst (h : Heap α) (n : NodeId) (t : TreeId) (d : α) : Except Fault (Heap α × NodeId) := do
  h.checkBelongs n t
  expectOk (h.createAndProcess d t (fun h m => h.insertFirst [] m true n))
    "the hierarchy of the tree the parent belongs to should be editable"

/-- `create_as_last_child` (`src/node/edit.rs` 447-461). -/
def createLast (h : Heap α) (n : NodeId) (t : TreeId) (d : α) : Except Fault (Heap α × NodeId) := do
  h.checkBelongs n t
  expectOk (h.createAndProcess d t (fun h m => h.insertLast [] m true n))
    "the hierarchy of the tree the parent belongs to should be editable"

/-- `try_create_as_prev_sibling` (`src/node/edit.rs` 476-489). -/
def createPrev (h : Heap α) (n : NodeId) (t : TreeId) (d : α) : Except Fault (Heap α × Except HierarchyError NodeId) := do
  h.checkBelongs n t
  h.createAndProcess d t (fun h m => h.insert [] m true (.previousSiblingOf n))

/-- `try_create_as_next_sibling` (`src/node/edit.rs` 504-517). -/
def createNext (h : Heap α) (n : NodeId) (t : TreeId) (d : α) : Except Fault (Heap α × Except HierarchyError NodeId) := do
  h.checkBelongs n t
  h.createAndProcess d t (fun h m => h.insert [] m true (.nextSiblingOf n))

/-- `try_create_node_as` (`src/node/edit.rs` 401-413). -/
def tryCreateNodeAs (h : Heap α) (n : NodeId) (t : TreeId) (d : α) : AdoptAs → Except Fault (Heap α × Except HierarchyError NodeId)
  | .firstChild => do let (h, m) ← h.createFirst n t d; return (h, .ok m)
  | .lastChild => do let (h, m) ← h.createLast n t d; return (h, .ok m)
  | .previousSibling => h.createPrev n t d
  | .nextSibling => h.createNext n t d

/-- The closure of `create_as_interrupting_parent` (`src/node/edit.rs` 525-549). -/
def interruptParent (h : Heap α) (n : NodeId) (t : TreeId) (new : NodeId) : Except Fault (Heap α × Except HierarchyError Unit) :=
  match h.parentLink n with
  | some p => do
    let h ← (match h.nextLink n with
      | some s => do
        let h ← h.insertBetween [] new p n s
        h.dropLocal [p, n, new] s
      | none => do
        let (h, _) ← expectOk (h.insertLast [n] new true p) "newly created node won't make no loop"
        return h)
    let (h, _) ← expectOk (h.moveSame [p] n (.lastChildOf new))
      "the new node is neither ancestor nor descendant of `this`"
    let h ← h.dropLocal [n, new] p
    return (h, .ok ())
  | none => do
    let h ← h.putRoot [n, new] t new
    let h := h.setPrev new (some new)
    let h ← h.putFirst [n, new] new (some n)
    let h := h.setParent n (some new)
    return (h.numAdd new 1, .ok ())

/-- `create_as_interrupting_parent` (`src/node/edit.rs` 523-552).  Simplification: the local
`tree_core` clone is not counted; `this` keeps the tree alive throughout. -/
def createInterruptingParent (h : Heap α) (n : NodeId) (d : α) : Except Fault (Heap α × NodeId) := do
  let t ← h.treeCore n
  expectOk (h.createAndProcess d t (fun h m => h.interruptParent n t m))
    "the operation is infallible"

/-- `while let Some(child) = &child_next { child.replace_parent(..); .. }`
(`src/node/edit.rs` 564-569) and the same loop in `try_replace_with_children` (631-635). -/
def reparentLoop (held : List NodeId) : Nat → Option NodeId → NodeId → Heap α → Except Fault (Heap α)
  | _, none, _, h => .ok h
  | 0, some _, _, _ => .error .diverge
  | f + 1, some c, p, h => do
    let nx := h.nextLink c
    let h ← (h.setParent c (some p)).dropLocal (nx.toList ++ p :: held) c
    reparentLoop held f nx p h

/-- The closure of `create_as_interrupting_child` (`src/node/edit.rs` 557-578). -/
def interruptChild (h : Heap α) (n : NodeId) (new : NodeId) : Except Fault (Heap α × Except HierarchyError Unit) := do
  let first := h.firstChildLink n
  let h := h.setFirst n (some new)
  let h := h.setParent new (some n)
  let h ← h.putFirst (first.toList ++ [n, new]) new first
  let h ← reparentLoop [n] (h.nNode + 1) first new h
  let h := h.setNum new (h.numCh n)
  return (h.setNum n 1, .ok ())

/-- `create_as_interrupting_child` (`src/node/edit.rs` 555-580). -/
def createInterruptingChild (h : Heap α) (n : NodeId) (d : α) : Except Fault (Heap α × NodeId) := do
  let t ← h.treeCore n
  expectOk (h.createAndProcess d t (fun h m => h.interruptChild n m))
    "the operation is infallible"

/-- The sibling relinking of `try_replace_with_children` when `this` has children
(`src/node/edit.rs` 640-672). -/
def replaceRelinkSome (h : Heap α) (held : List NodeId) (p first : NodeId) (prev next : Option NodeId) :
    Except Fault (Heap α) := do
  let last ← h.prevCycLink first
  let h ← (match prev, next with
    | some a, some b => do
      let h ← h.connect (a :: b :: last :: p :: held) a first
      let h ← h.connect (a :: last :: p :: held) last b
      h.dropLocal (last :: p :: held) a
    | some a, none => do
      let h ← h.connect (a :: last :: p :: held) a first
      match h.firstChildLink p with
      | none => .error (.panic "the parent has at least one child (prev of `self`)")
      | some f => do
        let h ← (h.setPrev f (some last)).dropLocal (a :: last :: p :: held) f
        h.dropLocal (last :: p :: held) a
    | none, some b => do
      let h ← h.connect (first :: last :: p :: held) last b
      match h.lastChildLinkWeak p with
      | none => .error (.panic "the parent has at least one child (next of `self`)")
      | some w => (h.setPrev first w).putFirst (last :: p :: held) p (some first)
    | none, none => h.putFirst (last :: p :: held) p (some first))
  h.dropLocal (p :: held) last

/-- The sibling relinking of `try_replace_with_children` when `this` has no children
(`src/node/edit.rs` 673-696). -/
def replaceRelinkNone (h : Heap α) (held : List NodeId) (p : NodeId) (prev next : Option NodeId) :
    Except Fault (Heap α) :=
  match prev, next with
  | some a, some b => do
    let h ← h.connect (a :: p :: held) a b
    h.dropLocal (p :: held) a
  | some a, none => do
    let h ← h.putNext (a :: p :: held) a none
    h.dropLocal (p :: held) a
  | none, some b =>
    match h.lastChildLinkWeak p with
    | none => .error (.panic "the parent has at least one child (next of `self`)")
    | some w => (h.setPrev b w).putFirst (p :: held) p (some b)
  | none, none => h.putFirst (p :: held) p none

/-- The non-root branch of `try_replace_with_children` (`src/node/edit.rs` 623-705). -/
def replaceNonRoot (h : Heap α) (n p : NodeId) (first : Option NodeId) : Except Fault (Heap α) := do
  let h ← reparentLoop (first.toList ++ [n]) (h.nNode + 1) first p h
  let prev ← h.prevLink n
  let next := h.nextLink n
  let h ← (match first with
    | some f => h.replaceRelinkSome [n] p f prev next
    | none => h.replaceRelinkNone [n] p prev next)
  if h.numCh p = 0 then .error (.panic "`parent` has a child `this`")
  else
    let h ← h.numSub p 1
    (h.numAdd p (h.numCh n)).dropLocal [n] p

/-- The common tail of `try_replace_with_children` (`src/node/edit.rs` 726-740): disconnect `this`
and make it a single-node tree. -/
def replaceTail (h : Heap α) (n : NodeId) : Except Fault (Heap α) := do
  let h ← (h.setParent n none).putFirst [n] n none
  let h ← (h.setPrev n (some n)).putNext [n] n none
  let h := h.setNum n 0
  let (h, t) := h.allocTree n
  match h.setMemberships n t with
  | .error e => .error e
  | .ok none => .error (.panic "brand-new tree hierarchy can be locked by any types of lock")
  | .ok (some h) => h.relTree [] t

/-- `try_replace_with_children` (`src/node/edit.rs` 619-743).  The local `tree_core` is held until
the end of the function. -/
def replaceWithChildren (h : Heap α) (n : NodeId) : Except Fault (Heap α × Except HierarchyError Unit) := do
  let t ← h.treeCore n
  let h := h.acqTree t
  let first := h.firstChildLink n
  match h.parentLink n with
  | some p =>
    let h ← h.replaceNonRoot n p first
    let h ← h.replaceTail n
    let h ← h.relTree [] t
    return (h, .ok ())
  | none =>
    if h.numCh n = 0 then
      let h ← h.relTree [] t
      return (h, .error .emptyTree)
    else if h.numCh n = 1 then
      match first with
      | none => .error (.panic "the parent node has a child")
      | some c =>
        let h := h.setParent c none
        let h ← h.putRoot [n] t c
        let h ← h.replaceTail n
        let h ← h.relTree [] t
        return (h, .ok ())
    else
      let h ← h.relTree [] t
      return (h, .error .siblingsWithoutParent)

end Heap
end Dendron
