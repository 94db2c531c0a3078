import Verif.Model.Query

/-!
# Traversers (`src/traverse/*.rs`)

An iterator is a state and a function `next : state → Except Fault (Option item × state)`.
The handles stored in a traverser are node ids; creating and dropping them (`Node::clone`,
`with_node_core`, `Drop`) is covered by `Verif.Props.Own`.
Simplification: `usize` depths are unbounded naturals; `Some(usize::MAX)` as a depth limit is
`none`, as in the code (`max_depth.wrapping_add(1)`).
-/

set_option autoImplicit false

namespace Dendron

/-- Result of one call of `Iterator::next`. -/
abbrev Step (σ ι : Type) := Except Fault (Option ι × σ)

namespace Heap
variable {α : Type}

/-- `DftEvent<Node<T>>::prev` (`src/traverse/depth_first.rs` 130-150). -/
def evPrev (h : Heap α) : DftEvent NodeId → Except Fault (Option (DftEvent NodeId))
  | .cls n => do
    match ← h.lastChildLink n with
    | some c => return some (.cls c)
    | none => return some (.opn n)
  | .opn n => do
    match ← h.prevLink n with
    | some s => return some (.cls s)
    | none => return (h.parentLink n).map .opn

/-- `DftEvent::close_current` (`src/traverse/depth_first.rs` 117-126): the loop calls `self.next()`
on the same, unchanged `self`. -/
def evCloseCurrent (h : Heap α) (ev : DftEvent NodeId) : Nat → Nat → Except Fault (Option NodeId)
  | 0, _ => .error .diverge
  | f + 1, depth =>
    match h.evNext ev with
    | none => .ok none
    | some (.opn _) => evCloseCurrent h ev f (depth + 1)
    | some (.cls n) => if depth = 0 then .ok (some n) else evCloseCurrent h ev f (depth - 1)

end Heap

/-- `close_current` of the traversers (`src/traverse/depth_first.rs` 203-212, 377-386, 495-504):
call `next` until the number of closings exceeds the number of openings. -/
def closeCurrent {σ ν : Type} (next : σ → Step σ (DftEvent ν)) :
    Nat → Nat → σ → Except Fault (Option ν × σ)
  | 0, _, _ => .error .diverge
  | f + 1, depth, s =>
    match next s with
    | .error e => .error e
    | .ok (none, s') => .ok (none, s')
    | .ok (some (.opn _), s') => closeCurrent next f (depth + 1) s'
    | .ok (some (.cls n), s') =>
      if depth = 0 then .ok (some n, s') else closeCurrent next f (depth - 1) s'

/-! ### `DepthFirstTraverser` -/
namespace Dft
variable {α : Type}

/-- State of `DepthFirstTraverser` (`src/traverse/depth_first.rs` 159-162). -/
abbrev State := Option (DftEvent NodeId × NodeId)

/-- `Node::depth_first_traverse` (`src/node/plain.rs` 1204-1206), `with_start`
(`src/traverse/depth_first.rs` 177-181). -/
def start (n : NodeId) : State := some (.opn n, n)

/-- `Iterator::next` (`src/traverse/depth_first.rs` 218-225). -/
def next (h : Heap α) : State → Except Fault (Option (DftEvent NodeId) × State)
  | none => .ok (none, none)
  | some (ev, st) =>
    let s := if ev = .cls st then none else (h.evNext ev).map (fun e => (e, st))
    .ok (some ev, s)

/-- `peek` (`src/traverse/depth_first.rs` 195-197). -/
def peek : State → Option (DftEvent NodeId) := Option.map Prod.fst

/-- `size_hint` (`src/traverse/depth_first.rs` 227-242). -/
def sizeHint : State → Nat × Option Nat
  | some (.opn _, _) => (2, none)
  | some (.cls n, st) => if n = st then (1, some 1) else (1, none)
  | none => (0, some 0)
end Dft

/-! ### `ReverseDepthFirstTraverser` -/
namespace RevDft
variable {α : Type}

/-- State of `ReverseDepthFirstTraverser` (`src/traverse/depth_first.rs` 247-250). -/
abbrev State := Option (DftEvent NodeId × NodeId)

/-- `Node::depth_first_reverse_traverse` (`src/node/plain.rs` 1276-1278). -/
def start (n : NodeId) : State := some (.cls n, n)

/-- `Iterator::next` (`src/traverse/depth_first.rs` 291-298). -/
def next (h : Heap α) : State → Except Fault (Option (DftEvent NodeId) × State)
  | none => .ok (none, none)
  | some (ev, st) => do
    if ev = .opn st then return (some ev, none)
    else
      let p ← h.evPrev ev
      return (some ev, p.map (fun e => (e, st)))

/-- `peek` (`src/traverse/depth_first.rs` 283-285). -/
def peek : State → Option (DftEvent NodeId) := Option.map Prod.fst

/-- `size_hint` (`src/traverse/depth_first.rs` 300-315). -/
def sizeHint : State → Nat × Option Nat
  | some (.cls _, _) => (2, none)
  | some (.opn n, st) => if n = st then (1, some 1) else (1, none)
  | none => (0, some 0)
end RevDft

/-! ### `StableDepthFirstTraverser` -/
namespace StableDft
variable {α : Type}

/-- State of `StableDepthFirstTraverser` (`src/traverse/depth_first.rs` 320-326). -/
abbrev State := Option (DftEvent NodeId × DftEvent NodeId)

/-- `with_toplevel` (`src/traverse/depth_first.rs` 341-345), `depth_first_traverse_stable`
(`src/node/frozen.rs` 782-784). -/
def start (n : NodeId) : State := some (.opn n, .cls n)

/-- `Iterator::next` (`src/traverse/depth_first.rs` 392-396): the end is not compared. -/
def next (h : Heap α) : State → Except Fault (Option (DftEvent NodeId) × State)
  | none => .ok (none, none)
  | some (a, b) => .ok (some a, (h.evNext a).map (fun e => (e, b)))

/-- `next_back` (`src/traverse/depth_first.rs` 414-420). -/
def back (h : Heap α) : State → Except Fault (Option (DftEvent NodeId) × State)
  | none => .ok (none, none)
  | some (a, b) => do
    let p ← h.evPrev b
    return (some b, p.map (fun e => (a, e)))

/-- `peek` (`src/traverse/depth_first.rs` 362-364). -/
def peek : State → Option (DftEvent NodeId) := Option.map Prod.fst
/-- `peek_back` (`src/traverse/depth_first.rs` 369-371). -/
def peekBack : State → Option (DftEvent NodeId) := Option.map Prod.snd

/-- `size_hint` (`src/traverse/depth_first.rs` 398-411). -/
def sizeHint : State → Nat × Option Nat
  | some (a, b) => if a = b then (1, some 1) else (2, none)
  | none => (0, some 0)
end StableDft

/-! ### `StableShallowDepthFirstTraverser` -/
namespace Shallow
variable {α : Type}

/-- An event with the depth of its node. -/
abbrev Ev := DftEvent (NodeId × Nat)

/-- State of `StableShallowDepthFirstTraverser` (`src/traverse/depth_first.rs` 427-434). -/
structure State where
  next : Option (Ev × Ev)
  /-- the depth limit, `none` = no limit (`max_depth`, 486-489) -/
  lim : Option Nat

/-- `with_toplevel` (`src/traverse/depth_first.rs` 456-467),
`shallow_depth_first_traverse_stable` (`src/node/frozen.rs` 964-969). -/
def start (n : NodeId) (lim : Option Nat) : State := ⟨some (.opn (n, 0), .cls (n, 0)), lim⟩

/-- The test of `next_of_next_forward`/`backward` for the last event
(`src/traverse/depth_first.rs` 510-523, 551-564): same kind and same node; then equal depths are
asserted. -/
def isLast (a b : Ev) : Except Fault Bool :=
  match a, b with
  | .opn (n, d), .opn (m, e) =>
    if n = m then (if d = e then .ok true else .error (.panic "[validity] the identical node should be at the same place")) else .ok false
  | .cls (n, d), .cls (m, e) =>
    if n = m then (if d = e then .ok true else .error (.panic "[validity] the identical node should be at the same place")) else .ok false
  | _, _ => .ok false

/-- `*depth - 1`; underflow panics. -/
def decDepth (d : Nat) : Except Fault Nat :=
  if d = 0 then .error (.panic "attempt to subtract with overflow") else .ok (d - 1)

/-- The second half of `next_of_next_forward` (`src/traverse/depth_first.rs` 524-545). -/
def fwd (h : Heap α) (lim : Option Nat) : Ev → Except Fault (Option Ev)
  | .opn (n, d) =>
    if lim = some d then .ok (some (.cls (n, d)))
    else match h.firstChildLink n with
      | some c => .ok (some (.opn (c, d + 1)))
      | none => .ok (some (.cls (n, d)))
  | .cls (n, d) =>
    match h.nextLink n with
    | some s => .ok (some (.opn (s, d)))
    | none =>
      match h.parentLink n with
      | none => .ok none
      | some p => do let d' ← decDepth d; return some (.cls (p, d'))

/-- The second half of `next_of_next_backward` (`src/traverse/depth_first.rs` 565-586). -/
def bwd (h : Heap α) (lim : Option Nat) : Ev → Except Fault (Option Ev)
  | .cls (n, d) =>
    if lim = some d then .ok (some (.opn (n, d)))
    else do
      match ← h.lastChildLink n with
      | some c => return some (.cls (c, d + 1))
      | none => return some (.opn (n, d))
  | .opn (n, d) => do
    match ← h.prevLink n with
    | some s => return some (.cls (s, d))
    | none =>
      match h.parentLink n with
      | none => return none
      | some p => do let d' ← decDepth d; return some (.opn (p, d'))

/-- `Iterator::next` (`src/traverse/depth_first.rs` 596-602). -/
def next (h : Heap α) (s : State) : Except Fault (Option Ev × State) :=
  match s.next with
  | none => .ok (none, s)
  | some (a, b) => do
    if ← isLast a b then return (some a, ⟨none, s.lim⟩)
    else
      let nn ← fwd h s.lim a
      return (some a, ⟨nn.map (fun e => (e, b)), s.lim⟩)

/-- `next_back` (`src/traverse/depth_first.rs` 677-683). -/
def back (h : Heap α) (s : State) : Except Fault (Option Ev × State) :=
  match s.next with
  | none => .ok (none, s)
  | some (a, b) => do
    if ← isLast a b then return (some b, ⟨none, s.lim⟩)
    else
      let nn ← bwd h s.lim b
      return (some b, ⟨nn.map (fun e => (a, e)), s.lim⟩)

/-- `peek` (`src/traverse/depth_first.rs` 472-474). -/
def peek (s : State) : Option Ev := s.next.map Prod.fst
/-- `peek_back` (`src/traverse/depth_first.rs` 479-481). -/
def peekBack (s : State) : Option Ev := s.next.map Prod.snd

/-- `size_hint` (`src/traverse/depth_first.rs` 604-673); the `debug_assert_eq!`s are those of
`isLast`. -/
def sizeHint (s : State) : Nat × Option Nat :=
  match s.next with
  | none => (0, some 0)
  | some (.opn (n, d), .opn (m, e)) =>
    if n = m then (1, some 1)
    else if e < d then (d - e + 3, none) else if d = e then (3, none) else (e - d + 1, none)
  | some (.cls (n, d), .cls (m, e)) =>
    if n = m then (1, some 1)
    else if e < d then (d - e + 1, none) else if d = e then (3, none) else (e - d + 3, none)
  | some (.opn (n, d), .cls (m, e)) =>
    if e < d then (d - e + 2, none)
    else if d = e then (if n = m then (2, some 2) else (4, none)) else (e - d + 2, none)
  | some (.cls (_, d), .opn (_, e)) =>
    if e < d then (d - e + 2, none) else if d = e then (2, none) else (e - d + 2, none)

end Shallow

/-! ### Siblings and ancestors -/
namespace Sib
variable {α : Type}

/-- State of `SiblingsTraverser`, `ReverseSiblingsTraverser` (`src/traverse/siblings.rs` 8-14,
60-66) and `AncestorsTraverser` (`src/traverse/ancestors.rs` 10-16). -/
abbrev State := Option NodeId

/-- `SiblingsTraverser::next` (`src/traverse/siblings.rs` 43-46). -/
def next (h : Heap α) : State → Except Fault (Option NodeId × State)
  | none => .ok (none, none)
  | some n => .ok (some n, h.nextLink n)

/-- `ReverseSiblingsTraverser::next` (`src/traverse/siblings.rs` 95-98). -/
def prev (h : Heap α) : State → Except Fault (Option NodeId × State)
  | none => .ok (none, none)
  | some n => do
    let p ← h.prevLink n
    return (some n, p)

/-- `AncestorsTraverser::next` (`src/traverse/ancestors.rs` 43-46). -/
def up (h : Heap α) : State → Except Fault (Option NodeId × State)
  | none => .ok (none, none)
  | some n => .ok (some n, h.parentLink n)

/-- `size_hint` of the three (`src/traverse/siblings.rs` 49-55, `src/traverse/ancestors.rs`
49-55). -/
def sizeHint : State → Nat × Option Nat
  | some _ => (1, none)
  | none => (0, some 0)

/-- `peek` of the three (`src/traverse/siblings.rs` 35-37, 87-89, `src/traverse/ancestors.rs`
35-37). -/
def peek (s : State) : Option NodeId := s

/-- `Node::children` (`src/node/plain.rs` 1306-1308). -/
def children (h : Heap α) (n : NodeId) : State := h.firstChildLink n
/-- `Node::children_reverse` (`src/node/plain.rs` 1336-1338). -/
def childrenReverse (h : Heap α) (n : NodeId) : Except Fault State := h.lastChildLink n
/-- `Node::ancestors_or_self` (`src/node/plain.rs` 1396-1398). -/
def ancestorsOrSelf (n : NodeId) : State := some n
/-- `Node::ancestors` (`src/node/plain.rs` 1365-1369). -/
def ancestors (h : Heap α) (n : NodeId) : Except Fault State := do
  let (_, s) ← up h (ancestorsOrSelf n)
  return s
/-- `Node::following_siblings_or_self` (`src/node/plain.rs` 1557-1559). -/
def followingOrSelf (n : NodeId) : State := some n
/-- `Node::following_siblings` (`src/node/plain.rs` 1588-1592). -/
def following (h : Heap α) (n : NodeId) : Except Fault State := do
  let (_, s) ← next h (followingOrSelf n)
  return s
/-- `Node::preceding_siblings_or_self_reverse` (`src/node/plain.rs` 1493-1495). -/
def precedingOrSelfReverse (n : NodeId) : State := some n
/-- `Node::preceding_siblings_reverse` (`src/node/plain.rs` 1524-1528). -/
def precedingReverse (h : Heap α) (n : NodeId) : Except Fault State := do
  let (_, s) ← prev h (precedingOrSelfReverse n)
  return s
/-- `Node::siblings` (`src/node/plain.rs` 1426-1431). -/
def siblings (h : Heap α) (n : NodeId) : State :=
  match h.parentLink n with
  | some p => children h p
  | none => followingOrSelf n
/-- `Node::siblings_reverse` (`src/node/plain.rs` 1459-1464). -/
def siblingsReverse (h : Heap α) (n : NodeId) : Except Fault State :=
  match h.parentLink n with
  | some p => childrenReverse h p
  | none => .ok (precedingOrSelfReverse n)
end Sib

/-! ### `StableSiblingsTraverser` -/
namespace StableSib
variable {α : Type}

/-- State of `StableSiblingsTraverser` (`src/traverse/siblings.rs` 113-117). -/
abbrev State := Option (NodeId × NodeId)

/-- `Iterator::next` (`src/traverse/siblings.rs` 169-175). -/
def next (h : Heap α) : State → Except Fault (Option NodeId × State)
  | none => .ok (none, none)
  | some (a, b) => .ok (some a, (h.nextLink a).map (fun e => (e, b)))

/-- `next_back` (`src/traverse/siblings.rs` 187-193). -/
def back (h : Heap α) : State → Except Fault (Option NodeId × State)
  | none => .ok (none, none)
  | some (a, b) => do
    let p ← h.prevLink b
    return (some b, p.map (fun e => (a, e)))

/-- `size_hint` (`src/traverse/siblings.rs` 177-183). -/
def sizeHint : State → Nat × Option Nat
  | some (a, b) => if a = b then (1, some 1) else (2, none)
  | none => (0, some 0)

/-- `peek`, `peek_back` (`src/traverse/siblings.rs` 154-163). -/
def peek : State → Option NodeId := Option.map Prod.fst
/-- `peek_back` (`src/traverse/siblings.rs` 161-163). -/
def peekBack : State → Option NodeId := Option.map Prod.snd

/-- `children_stable` (`src/node/frozen.rs` 796-798), `with_parent`
(`src/traverse/siblings.rs` 132-136). -/
def children (h : Heap α) (n : NodeId) : Except Fault State := h.firstLastChildLink n
/-- `preceding_siblings_or_self_stable` (`src/node/frozen.rs` 825-830). -/
def precedingOrSelf (h : Heap α) (n : NodeId) : Except Fault State := do
  let f ← h.firstSibling n
  return some (f, n)
/-- `preceding_siblings_stable` (`src/node/frozen.rs` 840-844): `iter.next()` drops the *first*
element. -/
def preceding (h : Heap α) (n : NodeId) : Except Fault State := do
  let s ← precedingOrSelf h n
  let (_, s) ← next h s
  return s
/-- `following_siblings_or_self_stable` (`src/node/frozen.rs` 854-859). -/
def followingOrSelf (h : Heap α) (n : NodeId) : Except Fault State := do
  let l ← h.lastSibling n
  return some (n, l)
/-- `following_siblings_stable` (`src/node/frozen.rs` 869-873). -/
def following (h : Heap α) (n : NodeId) : Except Fault State := do
  let s ← followingOrSelf h n
  let (_, s) ← next h s
  return s
/-- `siblings_stable` (`src/node/frozen.rs` 810-815). -/
def siblings (h : Heap α) (n : NodeId) : Except Fault State :=
  match h.parentLink n with
  | some p => children h p
  | none => followingOrSelf h n
end StableSib

/-! ### Breadth-first -/

/-- `Iterator::collect`-style exhaustion of an iterator, with fuel. -/
def drain {σ ι : Type} (next : σ → Step σ ι) : Nat → σ → Except Fault (List ι)
  | 0, _ => .error .diverge
  | f + 1, s =>
    match next s with
    | .error e => .error e
    | .ok (none, _) => .ok []
    | .ok (some x, s') =>
      match drain next f s' with
      | .error e => .error e
      | .ok l => .ok (x :: l)

namespace NaBfs
variable {α : Type}

/-- State of `NonAllocatingBreadthFirstTraverser` (`src/traverse/breadth_first.rs` 18-27). -/
structure State where
  inner : Shallow.State
  root : Option NodeId
  depth : Nat

/-- `with_toplevel` (`src/traverse/breadth_first.rs` 45-54). -/
def start (n : NodeId) (d : Nat) : State := ⟨Shallow.start n (some d), some n, d⟩

/-- `next_in_current_depth` (`src/traverse/breadth_first.rs` 59-70): skip to the next `Open` at the
given depth. -/
def skip (h : Heap α) (d : Nat) : Nat → Shallow.State → Except Fault (Option NodeId × Shallow.State)
  | 0, _ => .error .diverge
  | f + 1, s =>
    match Shallow.next h s with
    | .error e => .error e
    | .ok (none, s') => .ok (none, s')
    | .ok (some (.opn (n, e)), s') => if e = d then .ok (some n, s') else skip h d f s'
    | .ok (some (.cls _), s') => skip h d f s'

/-- Fuel for one scan of the tree. -/
def fuel (h : Heap α) : Nat := 2 * h.nNode + 2

/-- `Iterator::next` (`src/traverse/breadth_first.rs` 74-98). -/
def next (h : Heap α) (s : State) : Except Fault (Option (NodeId × Nat) × State) :=
  match s.root with
  | none => .ok (none, s)
  | some r => do
    let (x, i) ← skip h s.depth (fuel h) s.inner
    match x with
    | some n => return (some (n, s.depth), { s with inner := i })
    | none =>
      let d := s.depth + 1
      let (y, j) ← skip h d (fuel h) (Shallow.start r (some d))
      match y with
      | some n => return (some (n, d), ⟨j, some r, d⟩)
      | none => return (none, ⟨j, none, d⟩)

/-- `size_hint` (`src/traverse/breadth_first.rs` 100-106). -/
def sizeHint (s : State) : Nat × Option Nat := if s.root.isNone then (0, some 0) else (0, none)
end NaBfs

namespace AlBfs
variable {α : Type}

/-- State of `AllocatingBreadthFirstTraverser` (`src/traverse/breadth_first.rs` 116-150); `none` in
the queue is `IncrementDepth`. -/
structure State where
  events : List (Option NodeId)
  depth : Nat

/-- `with_toplevel` (`src/traverse/breadth_first.rs` 161-186). -/
def start (h : Heap α) (n : NodeId) (d : Nat) : Except Fault State :=
  if d = 0 then .ok ⟨[some n, none], 0⟩
  else do
    let evs ← drain (Shallow.next h) (NaBfs.fuel h) (Shallow.start n (some d))
    let ns := evs.filterMap (fun e => match e with
      | .opn (m, e) => if e = d then some m else none
      | .cls _ => none)
    return ⟨ns.map some ++ [none], d⟩

/-- `peek` (`src/traverse/breadth_first.rs` 192-204). -/
def peek (s : State) : Except Fault (Option (NodeId × Nat)) :=
  match s.events with
  | [] => .ok none
  | some n :: _ => .ok (some (n, s.depth))
  | [none] => .ok none
  | none :: some n :: _ => .ok (some (n, s.depth + 1))
  | none :: none :: _ =>
    .error (.panic "`IncrementDepth` must not appear right after `IncrementDepth`")

/-- The children appended to the queue: `next.children_stable()` exhausted. -/
def childList (h : Heap α) (n : NodeId) : Except Fault (List NodeId) := do
  let s ← StableSib.children h n
  drain (StableSib.next h) (h.nNode + 2) s

/-- `Iterator::next` (`src/traverse/breadth_first.rs` 227-253); the loop runs at most twice when the
queue contains one `IncrementDepth`; fuel. -/
def nextF (h : Heap α) : Nat → State → Except Fault (Option (NodeId × Nat) × State)
  | 0, _ => .error .diverge
  | f + 1, s =>
    match s.events with
    | [] => .ok (none, s)
    | some n :: es => do
      let cs ← childList h n
      return (some (n, s.depth), ⟨es ++ cs.map some, s.depth⟩)
    | none :: es =>
      if es = [] then .ok (none, ⟨[], s.depth⟩)
      else nextF h f ⟨es ++ [none], s.depth + 1⟩

/-- `Iterator::next` with enough fuel. -/
def next (h : Heap α) (s : State) : Except Fault (Option (NodeId × Nat) × State) := nextF h (s.events.length + 1) s

/-- `size_hint` (`src/traverse/breadth_first.rs` 255-264). -/
def sizeHint (s : State) : Nat × Option Nat :=
  if s.events.length ≤ 1 then (0, some 0) else (s.events.length - 1, none)
end AlBfs

end Dendron
