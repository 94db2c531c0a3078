import Verif.Model.World
import Verif.Model.Serial

/-!
# `TreeBuilder`, cloning of subtrees (`src/serial.rs`, `src/node/plain.rs`, `src/node/edit.rs`)

The handles a builder holds are counted in `World.held`, like those of the program.  Handles held by
the traverser of a serialization in progress are not represented (they point to nodes that the caller
keeps alive anyway).
-/

set_option autoImplicit false

namespace Dendron
variable {α : Type}

/-- `TreeBuildError` (`src/serial.rs` 127-138). -/
inductive BuildError where
  | rootNotOpened
  | rootClosed
  | borrowData
  deriving DecidableEq, Repr

/-- `TreeBuilder<T>` (`src/serial.rs` 262-268): `root` is a `Node`, `cur` a `HotNode`. -/
structure Builder where
  root : Option NodeId
  cur : Option NodeId
  deriving DecidableEq, Repr

-- The result of a builder call is the new state, and `Ok(())` or an error; or a panic.

namespace Builder

/-- `TreeBuilder::new` (`src/serial.rs` 291-293). -/
def new : Builder := ⟨none, none⟩

/-- `is_root_closed` (`src/serial.rs` 347-349). -/
def isRootClosed (b : Builder) : Bool := b.root.isSome && b.cur.isNone

/-- `is_root_available` (`src/serial.rs` 385-387). -/
def isRootAvailable (b : Builder) : Bool := b.root.isSome

/-- `with_root` (`src/serial.rs` 318-323): the `HotNode` given by the caller becomes `current`. -/
def withRoot (w : World α) (n : NodeId) : Except Fault (World α × Builder) := do
  let (w, _) ← w.exec (.plainOf .hot n)
  return (w, ⟨some n, some n⟩)

/-- `open` (`src/serial.rs` 523-536). -/
def opn (w : World α) (b : Builder) (d : α) :
    Except Fault (World α × Builder × Except BuildError Unit) :=
  match b.root with
  | none => do
    match ← w.exec (.newTree true d) with
    | (w, .node (some n)) => do
      let (w, _) ← w.exec (.plainOf .hot n)
      return (w, ⟨some n, some n⟩, .ok ())
    | _ => .error (.panic "new_tree returns a node")
  | some r =>
    match b.cur with
    | none => return (w, b, .error .rootClosed)
    | some c => do
      match ← w.exec (.create .hot c d .lastChild) with
      | (w, .node (some m)) => do
        let (w, _) ← w.exec (.drop .hot c)
        return (w, ⟨some r, some m⟩, .ok ())
      | _ => .error (.panic "[precondition] the hierarchy to be created should be valid")

/-- The loop of `close` (`src/serial.rs` 570-581) for `k` iterations; `false` is the early return of
`RootClosed`. -/
def closeLoop (r : NodeId) : Nat → World α → NodeId → Except Fault (World α × NodeId × Bool)
  | 0, w, c => .ok (w, c, true)
  | k + 1, w, c =>
    if c = r then .ok (w, c, false)
    else do
      match ← w.exec (.nav .hot .parent c) with
      | (w, .node (some p)) => do
        let (w, _) ← w.exec (.drop .hot c)
        closeLoop r k w p
      | (w, _) => return (w, c, false)

/-- `close` (`src/serial.rs` 562-588). -/
def close (w : World α) (b : Builder) (level : Nat) :
    Except Fault (World α × Builder × Except BuildError Unit) :=
  if level = 0 then .ok (w, b, .ok ())
  else match b.cur with
    | some c =>
      match b.root with
      | none => .error (.panic "[validity] `root` should be set when some node is tracked")
      | some r => do
        match ← closeLoop r (level - 1) w c with
        | (w, c, false) => return (w, ⟨some r, some c⟩, .error .rootClosed)
        | (w, c, true) => do
          match ← w.exec (.nav .hot .parent c) with
          | (w, .node p) => do
            let (w, _) ← w.exec (.drop .hot c)
            return (w, ⟨some r, p⟩, .ok ())
          | _ => .error (.panic "parent returns a node or nothing")
    | none =>
      if b.root.isSome then .ok (w, b, .error .rootClosed)
      else .ok (w, b, .error .rootNotOpened)

/-- `push_event` (`src/serial.rs` 610-615). -/
def push (w : World α) (b : Builder) : Event α →
    Except Fault (World α × Builder × Except BuildError Unit)
  | .opn d => opn w b d
  | .close k => close w b k

/-- `push_events` (`src/serial.rs` 638-661); stops at the first error. -/
def pushAll (w : World α) (b : Builder) : List (Event α) →
    Except Fault (World α × Builder × Except BuildError Unit)
  | [] => .ok (w, b, .ok ())
  | e :: es => do
    match ← push w b e with
    | (w, b, .error x) => return (w, b, .error x)
    | (w, b, .ok ()) => pushAll w b es

/-- `push_dft_event` (`src/serial.rs` 687-693) and `push_dft_events` (718-749). -/
def pushDftAll (w : World α) (b : Builder) : List (DftEvent NodeId) →
    Except Fault (World α × Builder × Except BuildError Unit)
  | [] => .ok (w, b, .ok ())
  | e :: es =>
    match w.heap.tryEvent e with
    | .error _ => .ok (w, b, .error .borrowData)
    | .ok ev => do
      match ← push w b ev with
      | (w, b, .error x) => return (w, b, .error x)
      | (w, b, .ok ()) => pushDftAll w b es

/-- `drop` of an optional handle. -/
def dropOpt (w : World α) (k : Kind) : Option NodeId → Except Fault (World α)
  | none => .ok w
  | some n => do
    let (w, _) ← w.exec (.drop k n)
    return w

/-- `drop` of a builder: the fields in the order of declaration. -/
def dropAll (w : World α) (b : Builder) : Except Fault (World α) := do
  let w ← dropOpt w .plain b.root
  dropOpt w .hot b.cur

/-- `finish` (`src/serial.rs` 445-447) and `finish_opt` (504-506): `current` is dropped, `root` is
returned. -/
def finish (w : World α) (b : Builder) : Except Fault (World α × Except BuildError NodeId) := do
  let w ← dropOpt w .hot b.cur
  match b.root with
  | some r => return (w, .ok r)
  | none => return (w, .error .rootNotOpened)

/-- `FromIterator<Event<T>> for Result<Node<T>, _>` (`src/serial.rs` 66-75). -/
def fromEvents (w : World α) (es : List (Event α)) :
    Except Fault (World α × Except BuildError NodeId) := do
  match ← pushAll w new es with
  | (w, b, .error e) => do
    let w ← dropAll w b
    return (w, .error e)
  | (w, b, .ok ()) => finish w b

/-- `FromIterator<DftEvent<Node<T>>> for Result<Node<T>, _>` (`src/serial.rs` 77-86). -/
def fromDftEvents (w : World α) (es : List (DftEvent NodeId)) :
    Except Fault (World α × Except BuildError NodeId) := do
  match ← pushDftAll w new es with
  | (w, b, .error e) => do
    let w ← dropAll w b
    return (w, .error e)
  | (w, b, .ok ()) => finish w b

/-- `FromIterator<Event<T>>` for `Result<HotNode<T>, _>` and `Result<FrozenNode<T>, _>`
(`src/serial.rs` 88-112). -/
def fromEventsAs (w : World α) (k : Kind) (es : List (Event α)) :
    Except Fault (World α × Except BuildError NodeId) := do
  match ← fromEvents w es with
  | (w, .error e) => return (w, .error e)
  | (w, .ok r) => do
    match ← w.exec (.bundle k r) with
    | (_, .denied) => .error (.panic "[validity] brand-new tree must be lockable")
    | (w, _) => return (w, .ok r)

/-- `FromIterator<Event<T>> for Result<Tree<T>, _>` (`src/serial.rs` 114-123). -/
def fromEventsTree (w : World α) (es : List (Event α)) :
    Except Fault (World α × Except BuildError TreeId) := do
  match ← fromEvents w es with
  | (w, .error e) => return (w, .error e)
  | (w, .ok r) => do
    match ← w.exec (.treeOf .plain r) with
    | (w, .tree (some t)) => do
      let (w, _) ← w.exec (.drop .plain r)
      return (w, .ok t)
    | _ => .error (.panic "tree returns a tree")

/-- The loop `to_events().try_fold(builder, ..)` of `try_clone_subtree` (`src/node/plain.rs`
2376-2380) and `try_clone_insert_subtree` (`src/node/edit.rs` 770-777): each event is read from the
memory as the builder has left it. -/
def fold : Nat → World α → Dft.State → Builder →
    Except Fault (World α × Builder × Except BuildError Unit)
  | 0, _, _, _ => .error .diverge
  | f + 1, w, s, b =>
    match w.heap.serNext s with
    | .error e => .error e
    | .ok (none, _) => .ok (w, b, .ok ())
    | .ok (some (.error _), _) => .ok (w, b, .error .borrowData)
    | .ok (some (.ok ev), s) => do
      match ← push w b ev with
      | (w, b, .error x) => return (w, b, .error x)
      | (w, b, .ok ()) => fold f w s b

/-- `try_clone_subtree` (`src/node/plain.rs` 2360-2390; `src/node/hot.rs` 1043-1048 and
`src/node/frozen.rs` 1139-1144 call it). `f` bounds the number of events. -/
def tryCloneSubtree (f : Nat) (w : World α) (n : NodeId) :
    Except Fault (World α × Except BorrowError NodeId) := do
  match ← fold f w (Dft.start n) new with
  | (w, b, .error e) => do
    let w ← dropAll w b
    match e with
    | .borrowData => return (w, .error .mk)
    | _ => .error (.panic "[validity] subtree should be consistently serializable")
  | (w, b, .ok ()) => do
    match ← finish w b with
    | (w, .ok r) => return (w, .ok r)
    | _ => .error (.panic "[validity] subtree should be consistently serializable")

/-- `Tree::try_clone_tree` (`src/tree.rs` 404-409). -/
def tryCloneTree (f : Nat) (w : World α) (t : TreeId) :
    Except Fault (World α × Except BorrowError TreeId) := do
  match ← w.exec (.treeRoot t) with
  | (w, .node (some r)) => do
    match ← tryCloneSubtree f w r with
    | (w, .error e) => do
      let (w, _) ← w.exec (.drop .plain r)
      return (w, .error e)
    | (w, .ok c) => do
      match ← w.exec (.treeOf .plain c) with
      | (w, .tree (some u)) => do
        let (w, _) ← w.exec (.drop .plain c)
        let (w, _) ← w.exec (.drop .plain r)
        return (w, .ok u)
      | _ => .error (.panic "tree returns a tree")
  | _ => .error (.panic "root returns a node")

/-- `try_clone_insert_subtree` (`src/node/edit.rs` 754-790, `InsertAs::try_create_node`
`src/anchor.rs` 107-111): the copy of the root is inserted before the subtree is read. -/
def tryCloneInsert (f : Nat) (w : World α) (src : NodeId) (dest : InsertAs NodeId) :
    Except Fault (World α × Except HierarchyError NodeId) :=
  match w.heap.borrowData src with
  | .error _ => .ok (w, .error .borrowNodeData)
  | .ok d => do
    match ← w.exec (.create .hot dest.anchor d dest.toAdoptAs) with
    | (w, .err e) => return (w, .error e)
    | (w, .node (some m)) => do
      let (_, s) ← w.heap.serNext (Dft.start src)
      let (w, b) ← withRoot w m
      match ← fold f w s b with
      | (w, b, .error e) => do
        let w ← dropAll w b
        match e with
        | .borrowData => return (w, .error .borrowNodeData)
        | _ => .error (.panic "[validity] subtree should be consistently serializable")
      | (w, b, .ok ()) => do
        match ← finish w b with
        | (w, .ok r) => do
          match ← w.exec (.bundle .hot r) with
          | (_, .denied) => .error (.panic "[consistency] the hierarchy of the destination tree is already editable")
          | (w, _) => return (w, .ok r)
        | _ => .error (.panic "[validity] subtree should be consistently serializable")
    | _ => .error (.panic "create returns a node")

end Builder
end Dendron
