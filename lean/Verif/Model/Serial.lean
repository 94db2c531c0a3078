import Verif.Model.Traverse

/-!
# Serialization and comparison (`src/serial.rs`, `src/node/internal.rs`)

`T::clone` is the identity on values; `!=` is the negation of a given Boolean equality.
-/

set_option autoImplicit false

namespace Dendron

/-- `Event<T>` (`src/serial.rs` 12-17). -/
inductive Event (β : Type) where
  | opn (d : β)
  | close (k : Nat)
  deriving DecidableEq, Repr

/-- `core::cell::BorrowError`. -/
inductive BorrowError where
  | mk
  deriving DecidableEq, Repr

/-- The largest `usize` on a 64 bit target. -/
def usizeMax : Nat := 2 ^ 64 - 1

namespace Heap
variable {α β : Type}

/-- `try_borrow_data` (`src/node/internal.rs` 361-363): fails exactly while a `RefMut` exists.  The
second error case (a node that is not allocated) cannot be reached through a handle. -/
def borrowData (h : Heap α) (n : NodeId) : Except BorrowError α :=
  if h.mutB n then .error .mk
  else match h.data n with
    | some d => .ok d
    | none => .error .mk

/-- The loop `while let Some(DftEvent::Close(_)) = self.inner.peek()` (`src/serial.rs` 780-788). -/
def countCloses (h : Heap α) : Nat → Nat → Dft.State → Except Fault (Nat × Dft.State)
  | 0, _, _ => .error .diverge
  | f + 1, c, s =>
    match Dft.peek s with
    | some (.cls _) =>
      if c = usizeMax then .ok (c, s)
      else match Dft.next h s with
        | .error e => .error e
        | .ok (_, s') => countCloses h f (c + 1) s'
    | _ => .ok (c, s)

/-- `TreeSerializeIter::next` (`src/serial.rs` 773-792); the iterator state is that of the inner
traverser.  `to_events` starts it with `Dft.start` (`src/serial.rs` 763-767). -/
def serNext (h : Heap α) (s : Dft.State) :
    Except Fault (Option (Except BorrowError (Event α)) × Dft.State) :=
  match Dft.next h s with
  | .error e => .error e
  | .ok (none, s') => .ok (none, s')
  | .ok (some (.opn n), s') => .ok (some ((h.borrowData n).map .opn), s')
  | .ok (some (.cls _), s') =>
    match h.countCloses (2 * h.nNode + 2) 1 s' with
    | .error e => .error e
    | .ok (c, s'') => .ok (some (.ok (.close c)), s'')

/-- `TryFrom<DftEvent<Node<T>>> for Event<T>` (`src/serial.rs` 33-42; 44-64 are the same for the other
handles). -/
def tryEvent (h : Heap α) : DftEvent NodeId → Except BorrowError (Event α)
  | .opn n => (h.borrowData n).map .opn
  | .cls _ => .ok (.close 1)

/-- `DepthFirstLinkTraverser::next` (`src/node/internal.rs` 508-519): ends before the closing of the
start node.  The state is that of `DepthFirstTraverser`. -/
def linkDftNext (h : Heap α) : Dft.State → Option (DftEvent NodeId) × Dft.State
  | none => (none, none)
  | some (ev, st) =>
    if ev = .cls st then (none, none)
    else (some ev, (h.evNext ev).map (fun e => (e, st)))

/-- `size_hint` of `DepthFirstLinkTraverser` (`src/node/internal.rs` 521-535). -/
def linkDftHint : Dft.State → Nat × Option Nat
  | some (.opn _, _) => (2, none)
  | some (.cls n, st) => if n = st then (1, some 1) else (1, none)
  | none => (0, some 0)

/-- The loop of `NodeCoreLink::try_eq` (`src/node/internal.rs` 429-445) over two subtrees, possibly
with data of different types. -/
def eqLoop (eq : α → β → Bool) (h : Heap α) (g : Heap β) :
    Nat → Dft.State → Dft.State → Except Fault (Except BorrowError Bool)
  | 0, _, _ => .error .diverge
  | f + 1, s, s' =>
    match h.linkDftNext s, g.linkDftNext s' with
    | (none, _), (none, _) => .ok (.ok true)
    | (some l, s1), (some r, s1') =>
      match l, r with
      | .opn l, .opn r =>
        match h.borrowData l with
        | .error e => .ok (.error e)
        | .ok a =>
          match g.borrowData r with
          | .error e => .ok (.error e)
          | .ok b => if eq a b then eqLoop eq h g f s1 s1' else .ok (.ok false)
      | .cls _, .cls _ => eqLoop eq h g f s1 s1'
      | _, _ => .ok (.ok false)
    | _, _ => .ok (.ok false)

/-- `try_eq` of nodes with data of different types, hence different allocations
(`src/node/internal.rs` 406-445). -/
def tryEqHet (eq : α → β → Bool) (h : Heap α) (g : Heap β) (n m : NodeId) :
    Except Fault (Except BorrowError Bool) :=
  eqLoop eq h g (2 * h.nNode + 2) (Dft.start n) (Dft.start m)

/-- `try_eq` of nodes (`src/node/internal.rs` 406-445, `src/node/plain.rs` 2704-2709). -/
def tryEq (eq : α → α → Bool) (h : Heap α) (n m : NodeId) : Except Fault (Except BorrowError Bool) :=
  if n = m then .ok (.ok true) else tryEqHet eq h h n m

/-- `Tree::try_eq` (`src/tree.rs` 360-365). -/
def treeTryEq (eq : α → α → Bool) (h : Heap α) (t u : TreeId) :
    Except Fault (Except BorrowError Bool) := do
  let r ← h.rootLink t
  let s ← h.rootLink u
  h.tryEq eq r s

end Heap
end Dendron
