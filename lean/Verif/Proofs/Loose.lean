import Verif.Model.NodeApi

/-! The edits without release checks after overwritten links: an intermediate step of the proofs.
`Proofs/Strict.lean` shows that in consistent states they do the same as the edits of the model. -/

set_option autoImplicit false

namespace Dendron
namespace Heap
variable {α : Type}

/-- Linking of two adjacent siblings, without release check. -/
def connectAdjacent (h : Heap α) (prev next : NodeId) : Heap α :=
  (h.setPrev next (some prev)).setNext prev (some next)

/-- `newByUnlink` without release checks. -/
def newByUnlinkL (h : Heap α) (n : NodeId) : Except Fault (Heap α × Bool) :=
  if h.isRoot n then .ok (h, false)
  else do
    let parent := h.parentLink n
    let prev ← h.prevLink n
    let prevC ← h.prevCycLink n
    let next := h.nextLink n
    -- Update neighbors.
    let h ← (match parent with
      | some p => do
        let first ← h.isFirstSibling n
        let h := if first then h.setFirst p next else h
        if h.numCh p = 0 then .error (.panic "parent should have a child")
        else h.numSub p 1
      | none => .ok h)
    let h := match prev with | some s => h.setNext s next | none => h
    let h := match next with | some s => h.setPrev s (some prevC) | none => h
    -- Update `node_to_unlink`.
    let h := ((h.setParent n none).setPrev n (some n)).setNext n none
    return (h, true)

/-- `insertFirst` without release checks. -/
def insertFirstL (h : Heap α) (n : NodeId) (isNew : Bool) (p : NodeId) : Except Fault (Heap α × Except HierarchyError Unit) := do
  if ← h.loopCheck n isNew p then return (h, .error .ancestorDescendantLoop)
  let fl ← h.firstLastChildLink p
  let h := match fl with
    | some (f, l) => (h.setPrev n (some l)).connectAdjacent n f
    | none => h.setPrev n (some n)
  let h := (h.setParent n (some p)).setFirst p (some n)
  return (h.numAdd p 1, .ok ())

/-- `insertLast` without release checks. -/
def insertLastL (h : Heap α) (n : NodeId) (isNew : Bool) (p : NodeId) : Except Fault (Heap α × Except HierarchyError Unit) := do
  if ← h.loopCheck n isNew p then return (h, .error .ancestorDescendantLoop)
  let fl ← h.firstLastChildLink p
  let h := match fl with
    | some (f, l) => (h.setPrev f (some n)).connectAdjacent l n
    | none => (h.setPrev n (some n)).setFirst p (some n)
  let h := h.setParent n (some p)
  return (h.numAdd p 1, .ok ())

/-- `insertBetween` without release checks. -/
def insertBetweenL (h : Heap α) (n : NodeId) (p prev next : NodeId) : Except Fault (Heap α) := do
  h.betweenChecks p prev next
  let h := h.setParent n (some p)
  let nextOwned := h.next prev
  let h := (h.setNext prev (some n)).setNext n nextOwned
  let prevWeak := h.prevCyc next
  let h := (h.setPrev next (some n)).setPrev n prevWeak
  return h.numAdd p 1

/-- `insert` without release checks. -/
def insertL (h : Heap α) (n : NodeId) (isNew : Bool) : InsertAs NodeId → Except Fault (Heap α × Except HierarchyError Unit)
  | .firstChildOf p => h.insertFirstL n isNew p
  | .lastChildOf p => h.insertLastL n isNew p
  | .previousSiblingOf a =>
    match h.parentLink a with
    | none => .ok (h, .error .siblingsWithoutParent)
    | some p => do
      match ← h.prevLink a with
      | some s => return (← h.insertBetweenL n p s a, .ok ())
      | none => h.insertFirstL n isNew p
  | .nextSiblingOf a =>
    match h.parentLink a with
    | none => .ok (h, .error .siblingsWithoutParent)
    | some p =>
      match h.nextLink a with
      | some s => do return (← h.insertBetweenL n p a s, .ok ())
      | none => h.insertLastL n isNew p

/-- `detachSubtree` without release checks. -/
def detachSubtreeL (h : Heap α) (n : NodeId) : Except Fault (Heap α) :=
  if h.isRoot n then .ok h
  else do
    let (h, _) ← h.newByUnlinkL n
    h.createNewTree n

/-- `moveSame` without release checks. -/
def moveSameL (h : Heap α) (n : NodeId) (dest : InsertAs NodeId) : Except Fault (Heap α × Except HierarchyError Unit) :=
  if h.isRoot n then .ok (h, .ok ())
  else do
    let (h, isNew) ← h.newByUnlinkL n
    h.insertL n isNew dest

/-- `moveOther` without release checks. -/
def moveOtherL (h : Heap α) (n : NodeId) (dest : InsertAs NodeId) (t : TreeId) : Except Fault (Heap α × Except HierarchyError Unit) := do
  let (h, isNew) ← h.newByUnlinkL n
  match ← h.setMemberships n t with
  | none => .error (.panic "brand-new tree hierarchy can be locked by any types of lock")
  | some h => h.insertL n isNew dest

/-- `detachInsert` without release checks. -/
def detachInsertL (h : Heap α) (n : NodeId) (dest : InsertAs NodeId) : Except Fault (Heap α × Except HierarchyError Unit) :=
  if h.belongsToSameTree n dest.anchor then h.moveSameL n dest
  else do
    let t ← h.treeCore dest.anchor
    let h := h.acqTree t
    let (h, r) ← h.moveOtherL n dest t
    let h ← h.relTree [] t
    return (h, r)

/-- `createFirst` without release checks. -/
def createFirstL (h : Heap α) (n : NodeId) (t : TreeId) (d : α) : Except Fault (Heap α × NodeId) := do
  h.checkBelongs n t
  expectOk (h.createAndProcess d t (fun h m => h.insertFirstL m true n))
    "the hierarchy of the tree the parent belongs to should be editable"

/-- `createLast` without release checks. -/
def createLastL (h : Heap α) (n : NodeId) (t : TreeId) (d : α) : Except Fault (Heap α × NodeId) := do
  h.checkBelongs n t
  expectOk (h.createAndProcess d t (fun h m => h.insertLastL m true n))
    "the hierarchy of the tree the parent belongs to should be editable"

/-- `createPrev` without release checks. -/
def createPrevL (h : Heap α) (n : NodeId) (t : TreeId) (d : α) : Except Fault (Heap α × Except HierarchyError NodeId) := do
  h.checkBelongs n t
  h.createAndProcess d t (fun h m => h.insertL m true (.previousSiblingOf n))

/-- `createNext` without release checks. -/
def createNextL (h : Heap α) (n : NodeId) (t : TreeId) (d : α) : Except Fault (Heap α × Except HierarchyError NodeId) := do
  h.checkBelongs n t
  h.createAndProcess d t (fun h m => h.insertL m true (.nextSiblingOf n))

/-- `tryCreateNodeAs` without release checks. -/
def tryCreateNodeAsL (h : Heap α) (n : NodeId) (t : TreeId) (d : α) : AdoptAs → Except Fault (Heap α × Except HierarchyError NodeId)
  | .firstChild => do let (h, m) ← h.createFirstL n t d; return (h, .ok m)
  | .lastChild => do let (h, m) ← h.createLastL n t d; return (h, .ok m)
  | .previousSibling => h.createPrevL n t d
  | .nextSibling => h.createNextL n t d

/-- `interruptParent` without release checks. -/
def interruptParentL (h : Heap α) (n : NodeId) (t : TreeId) (new : NodeId) : Except Fault (Heap α × Except HierarchyError Unit) :=
  match h.parentLink n with
  | some p => do
    let h ← (match h.nextLink n with
      | some s => h.insertBetweenL new p n s
      | none => do
        let (h, _) ← expectOk (h.insertLastL new true p) "newly created node won't make no loop"
        return h)
    let (h, _) ← expectOk (h.moveSameL n (.lastChildOf new))
      "the new node is neither ancestor nor descendant of `this`"
    return (h, .ok ())
  | none =>
    let h := h.setRoot t (some new)
    let h := h.setPrev new (some new)
    let h := h.setFirst new (some n)
    let h := h.setParent n (some new)
    .ok (h.numAdd new 1, .ok ())

/-- `createInterruptingParent` without release checks. -/
def createInterruptingParentL (h : Heap α) (n : NodeId) (d : α) : Except Fault (Heap α × NodeId) := do
  let t ← h.treeCore n
  expectOk (h.createAndProcess d t (fun h m => h.interruptParentL n t m))
    "the operation is infallible"

/-- `reparentLoop` without release checks. -/
def reparentLoopL : Nat → Option NodeId → NodeId → Heap α → Except Fault (Heap α)
  | _, none, _, h => .ok h
  | 0, some _, _, _ => .error .diverge
  | f + 1, some c, p, h =>
    let nx := h.nextLink c
    reparentLoopL f nx p (h.setParent c (some p))

/-- `interruptChild` without release checks. -/
def interruptChildL (h : Heap α) (n : NodeId) (new : NodeId) : Except Fault (Heap α × Except HierarchyError Unit) := do
  let first := h.firstChildLink n
  let h := h.setFirst n (some new)
  let h := h.setParent new (some n)
  let h := h.setFirst new first
  let h ← reparentLoopL (h.nNode + 1) first new h
  let h := h.setNum new (h.numCh n)
  return (h.setNum n 1, .ok ())

/-- `createInterruptingChild` without release checks. -/
def createInterruptingChildL (h : Heap α) (n : NodeId) (d : α) : Except Fault (Heap α × NodeId) := do
  let t ← h.treeCore n
  expectOk (h.createAndProcess d t (fun h m => h.interruptChildL n m))
    "the operation is infallible"

/-- `replaceRelinkSome` without release checks. -/
def replaceRelinkSomeL (h : Heap α) (p first : NodeId) (prev next : Option NodeId) :
    Except Fault (Heap α) := do
  let last ← h.prevCycLink first
  match prev, next with
  | some a, some b => return (h.connectAdjacent a first).connectAdjacent last b
  | some a, none =>
    let h := h.connectAdjacent a first
    match h.firstChildLink p with
    | none => .error (.panic "the parent has at least one child (prev of `self`)")
    | some f => return h.setPrev f (some last)
  | none, some b =>
    let h := h.connectAdjacent last b
    match h.lastChildLinkWeak p with
    | none => .error (.panic "the parent has at least one child (next of `self`)")
    | some w => return (h.setPrev first w).setFirst p (some first)
  | none, none => return h.setFirst p (some first)

/-- `replaceRelinkNone` without release checks. -/
def replaceRelinkNoneL (h : Heap α) (p : NodeId) (prev next : Option NodeId) :
    Except Fault (Heap α) :=
  match prev, next with
  | some a, some b => .ok (h.connectAdjacent a b)
  | some a, none => .ok (h.setNext a none)
  | none, some b =>
    match h.lastChildLinkWeak p with
    | none => .error (.panic "the parent has at least one child (next of `self`)")
    | some w => .ok ((h.setPrev b w).setFirst p (some b))
  | none, none => .ok (h.setFirst p none)

/-- `replaceNonRoot` without release checks. -/
def replaceNonRootL (h : Heap α) (n p : NodeId) (first : Option NodeId) : Except Fault (Heap α) := do
  let h ← reparentLoopL (h.nNode + 1) first p h
  let prev ← h.prevLink n
  let next := h.nextLink n
  let h ← (match first with
    | some f => h.replaceRelinkSomeL p f prev next
    | none => h.replaceRelinkNoneL p prev next)
  if h.numCh p = 0 then .error (.panic "`parent` has a child `this`")
  else
    let h ← h.numSub p 1
    return h.numAdd p (h.numCh n)

/-- `replaceTail` without release checks. -/
def replaceTailL (h : Heap α) (n : NodeId) : Except Fault (Heap α) :=
  let h := h.setParent n none
  let h := h.setFirst n none
  let h := h.setPrev n (some n)
  let h := h.setNext n none
  let h := h.setNum n 0
  let (h, t) := h.allocTree n
  match h.setMemberships n t with
  | .error e => .error e
  | .ok none => .error (.panic "brand-new tree hierarchy can be locked by any types of lock")
  | .ok (some h) => h.relTree [] t

/-- `replaceWithChildren` without release checks. -/
def replaceWithChildrenL (h : Heap α) (n : NodeId) : Except Fault (Heap α × Except HierarchyError Unit) := do
  let t ← h.treeCore n
  let h := h.acqTree t
  let first := h.firstChildLink n
  match h.parentLink n with
  | some p =>
    let h ← h.replaceNonRootL n p first
    let h ← h.replaceTailL n
    let h ← h.relTree [] t
    return (h, .ok ())
  | none =>
    if h.numCh n = 0 then
      let h ← h.relTree [] t
      return (h, .error .emptyTree)
    else if h.numCh n = 1 then
      match first with
      | none => .error (.panic "the parent node has a child")
      | some c =>
        let h := h.setParent c none
        let h := h.setRoot t (some c)
        let h ← h.replaceTailL n
        let h ← h.relTree [] t
        return (h, .ok ())
    else
      let h ← h.relTree [] t
      return (h, .error .siblingsWithoutParent)

/-- `nodeCreate` without release checks. -/
def nodeCreateL (h : Heap α) (n : NodeId) (d : α) (as : AdoptAs) : Except Fault (Heap α × Except HierarchyError NodeId) := do
  let t ← h.treeCore n
  h.tryCreateNodeAsL n t d as

end Heap
end Dendron
