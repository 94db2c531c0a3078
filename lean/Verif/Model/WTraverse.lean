import Verif.Model.Prog
import Verif.Model.Traverse

/-!
# Traversers with their handles

The code of `Verif.Model.Traverse` again, now with every handle that is created, cloned and dropped
(`Prog`).  `owns` lists the handles stored in the state of a traverser.  The kind `k` is `frozen` for the
stable traversers and `plain` for the others.  Locals are dropped when they are last used.
Simplification: `usize` depths are unbounded, as in `Verif.Model.Traverse`; loops have fuel.
-/

set_option autoImplicit false

namespace Dendron
open Prog

variable {α : Type}

/-- `DftEvent<..>::next` (`src/traverse/depth_first.rs` 92-110). -/
def evNextP (k : Kind) : DftEvent NodeId → Prog α (Option (DftEvent NodeId))
  | .opn n => do
    match ← navP k .firstChild n with
    | some c => return some (.opn c)
    | none => do cloneP k n; return some (.cls n)
  | .cls n => do
    match ← navP k .nextSibling n with
    | some s => return some (.opn s)
    | none => do
      let p ← navP k .parent n
      return p.map .cls

/-- `DftEvent<..>::prev` (`src/traverse/depth_first.rs` 130-149). -/
def evPrevP (k : Kind) : DftEvent NodeId → Prog α (Option (DftEvent NodeId))
  | .cls n => do
    match ← navP k .lastChild n with
    | some c => return some (.cls c)
    | none => do cloneP k n; return some (.opn n)
  | .opn n => do
    match ← navP k .prevSibling n with
    | some s => return some (.cls s)
    | none => do
      let p ← navP k .parent n
      return p.map .opn

/-- `first_last_child` (`src/node/frozen.rs` 544-550, `src/node/plain.rs` 829-835): the handle to the
first child, then the handle to the last child (its link is the one `last_child_link` finds, too:
`src/node/internal.rs` 211-223). -/
def firstLastP (k : Kind) (n : NodeId) : Prog α (Option (NodeId × NodeId)) := do
  match ← navP k .firstChild n with
  | none => return none
  | some f =>
    match ← navP k .lastChild n with
    | none => .fail (.panic "unreachable: there is a first child")
    | some l => return some (f, l)

/-- `close_current` of the traversers (`src/traverse/depth_first.rs` 203-212, 377-386, 495-504): the
events skipped are dropped. -/
def closeCurrentP {σ ν : Type} (k : Kind) (node : ν → NodeId)
    (next : σ → Prog α (Option (DftEvent ν) × σ)) : Nat → Nat → σ → Prog α (Option ν × σ)
  | 0, _, _ => .fail .diverge
  | f + 1, depth, s => do
    match ← next s with
    | (none, s') => return (none, s')
    | (some (.opn v), s') => do dropP k (node v); closeCurrentP k node next f (depth + 1) s'
    | (some (.cls v), s') =>
      if depth = 0 then return (some v, s')
      else do dropP k (node v); closeCurrentP k node next f (depth - 1) s'

/-- The user's loop `for x in iter.by_ref().take(j)`: at most `j` calls of `next`, each item is dropped;
returns the items. -/
def takeP {σ ι : Type} (k : Kind) (node : ι → NodeId) (next : σ → Prog α (Option ι × σ)) :
    Nat → σ → Prog α (List ι × σ)
  | 0, s => return ([], s)
  | j + 1, s => do
    match ← next s with
    | (none, s') => return ([], s')
    | (some x, s') => do
      dropP k (node x)
      let (l, s'') ← takeP k node next j s'
      return (x :: l, s'')

/-- The user makes a traverser, takes at most `j` items from it and drops it. -/
def loopP {σ ι : Type} (k : Kind) (node : ι → NodeId) (owns : σ → List NodeId) (start : Prog α σ)
    (next : σ → Prog α (Option ι × σ)) (j : Nat) : Prog α (List ι) := do
  let s ← start
  let (l, s') ← takeP k node next j s
  dropAll k (owns s')
  return l

/-- `Clone` of a traverser (`src/traverse/depth_first.rs` 164-171, 252-259, 329-336, 443-451,
`src/traverse/siblings.rs` 15-22, 67-74, 119-126, `src/traverse/ancestors.rs` 15-22,
`src/traverse/breadth_first.rs` 29-38, 99-114): every handle in its state is cloned. -/
def cloneStateP {σ : Type} (k : Kind) (owns : σ → List NodeId) (s : σ) : Prog α σ := do
  cloneAll k (owns s)
  return s

/-- An iterator method of `HotNode`, `FrozenNode` that is that of `Node`: `self.plain().f()`
(`src/node/hot.rs` 668-770, `src/node/frozen.rs` 669-771). -/
def viaPlain {β : Type} (k : Kind) (n : NodeId) (p : Prog α β) : Prog α β := do
  plainP k n
  let s ← p
  dropP .plain n
  return s

/-- An iterator method of a handle of any kind: that of `Node`, or through `plain()`. -/
def methodP {β : Type} : Kind → NodeId → Prog α β → Prog α β
  | .plain, _, p => p
  | .hot, n, p => viaPlain .hot n p
  | .frozen, n, p => viaPlain .frozen n p

namespace Dft

/-- The handles in the state (`src/traverse/depth_first.rs` 159-162). -/
def owns : State → List NodeId
  | none => []
  | some (ev, st) => [ev.value, st]

/-- `Node::depth_first_traverse`, `with_start` (`src/node/plain.rs` 1204-1206,
`src/traverse/depth_first.rs` 177-181). -/
def startP (n : NodeId) : Prog α State := do
  cloneP .plain n
  cloneP .plain n
  return start n

/-- `Iterator::next` (`src/traverse/depth_first.rs` 218-225). -/
def nextP : State → Prog α (Option (DftEvent NodeId) × State)
  | none => return (none, none)
  | some (ev, st) =>
    if ev = .cls st then do dropP .plain st; return (some ev, none)
    else do
      match ← evNextP .plain ev with
      | some e => return (some ev, some (e, st))
      | none => do dropP .plain st; return (some ev, none)

end Dft

namespace RevDft

/-- The handles in the state (`src/traverse/depth_first.rs` 247-250). -/
def owns : State → List NodeId
  | none => []
  | some (ev, st) => [ev.value, st]

/-- `Node::depth_first_reverse_traverse`, `with_start` (`src/node/plain.rs` 1276-1278,
`src/traverse/depth_first.rs` 265-269). -/
def startP (n : NodeId) : Prog α State := do
  cloneP .plain n
  cloneP .plain n
  return start n

/-- `Iterator::next` (`src/traverse/depth_first.rs` 291-298). -/
def nextP : State → Prog α (Option (DftEvent NodeId) × State)
  | none => return (none, none)
  | some (ev, st) =>
    if ev = .opn st then do dropP .plain st; return (some ev, none)
    else do
      match ← evPrevP .plain ev with
      | some e => return (some ev, some (e, st))
      | none => do dropP .plain st; return (some ev, none)

end RevDft

namespace StableDft

/-- The handles in the state (`src/traverse/depth_first.rs` 320-326). -/
def owns : State → List NodeId
  | none => []
  | some (a, b) => [a.value, b.value]

/-- `depth_first_traverse_stable`, `with_toplevel` (`src/node/frozen.rs` 782-784,
`src/traverse/depth_first.rs` 341-345). -/
def startP (n : NodeId) : Prog α State := do
  cloneP .frozen n
  cloneP .frozen n
  return start n

/-- `Iterator::next` (`src/traverse/depth_first.rs` 392-396). -/
def nextP : State → Prog α (Option (DftEvent NodeId) × State)
  | none => return (none, none)
  | some (a, b) => do
    match ← evNextP .frozen a with
    | some e => return (some a, some (e, b))
    | none => do dropP .frozen b.value; return (some a, none)

/-- `next_back` (`src/traverse/depth_first.rs` 414-420). -/
def backP : State → Prog α (Option (DftEvent NodeId) × State)
  | none => return (none, none)
  | some (a, b) => do
    match ← evPrevP .frozen b with
    | some e => return (some b, some (a, e))
    | none => do dropP .frozen a.value; return (some b, none)

end StableDft

namespace Shallow

/-- The node of an event. -/
def evNode (e : Ev) : NodeId := e.value.1

/-- The handles in the state (`src/traverse/depth_first.rs` 427-441). -/
def owns (s : State) : List NodeId :=
  match s.next with
  | none => []
  | some (a, b) => [evNode a, evNode b]

/-- `with_toplevel` given a handle (`src/traverse/depth_first.rs` 456-467). -/
def toplevelP (n : NodeId) (lim : Option Nat) : Prog α State := do
  cloneP .frozen n
  return start n lim

/-- `shallow_depth_first_traverse_stable` (`src/node/frozen.rs` 964-969). -/
def startP (n : NodeId) (lim : Option Nat) : Prog α State := do
  cloneP .frozen n
  toplevelP n lim

/-- The second half of `next_of_next_forward` (`src/traverse/depth_first.rs` 524-545). -/
def fwdP (lim : Option Nat) : Ev → Prog α (Option Ev)
  | .opn (n, d) =>
    if lim = some d then do cloneP .frozen n; return some (.cls (n, d))
    else do
      match ← navP .frozen .firstChild n with
      | some c => return some (.opn (c, d + 1))
      | none => do cloneP .frozen n; return some (.cls (n, d))
  | .cls (n, d) => do
    match ← navP .frozen .nextSibling n with
    | some s => return some (.opn (s, d))
    | none =>
      match ← navP .frozen .parent n with
      | none => return none
      | some p => do
        let d' ← lift (decDepth d)
        return some (.cls (p, d'))

/-- The second half of `next_of_next_backward` (`src/traverse/depth_first.rs` 565-586). -/
def bwdP (lim : Option Nat) : Ev → Prog α (Option Ev)
  | .cls (n, d) =>
    if lim = some d then do cloneP .frozen n; return some (.opn (n, d))
    else do
      match ← navP .frozen .lastChild n with
      | some c => return some (.cls (c, d + 1))
      | none => do cloneP .frozen n; return some (.opn (n, d))
  | .opn (n, d) => do
    match ← navP .frozen .prevSibling n with
    | some s => return some (.cls (s, d))
    | none =>
      match ← navP .frozen .parent n with
      | none => return none
      | some p => do
        let d' ← lift (decDepth d)
        return some (.opn (p, d'))

/-- `Iterator::next` (`src/traverse/depth_first.rs` 596-602). -/
def nextP (s : State) : Prog α (Option Ev × State) :=
  match s.next with
  | none => return (none, s)
  | some (a, b) => do
    let last ← lift (isLast a b)
    let nn ← (if last then pure none else fwdP s.lim a)
    match nn with
    | some e => return (some a, ⟨some (e, b), s.lim⟩)
    | none => do dropP .frozen (evNode b); return (some a, ⟨none, s.lim⟩)

/-- `next_back` (`src/traverse/depth_first.rs` 677-683). -/
def backP (s : State) : Prog α (Option Ev × State) :=
  match s.next with
  | none => return (none, s)
  | some (a, b) => do
    let last ← lift (isLast a b)
    let nn ← (if last then pure none else bwdP s.lim b)
    match nn with
    | some e => return (some b, ⟨some (a, e), s.lim⟩)
    | none => do dropP .frozen (evNode a); return (some b, ⟨none, s.lim⟩)

end Shallow

namespace Sib

/-- The handles in the state (`src/traverse/siblings.rs` 10-14, 62-66, `src/traverse/ancestors.rs`
10-16). -/
def owns : State → List NodeId := Option.toList

/-- `SiblingsTraverser::next` (`src/traverse/siblings.rs` 43-46). -/
def nextP : State → Prog α (Option NodeId × State)
  | none => return (none, none)
  | some n => do let m ← navP .plain .nextSibling n; return (some n, m)

/-- `ReverseSiblingsTraverser::next` (`src/traverse/siblings.rs` 95-98). -/
def prevP : State → Prog α (Option NodeId × State)
  | none => return (none, none)
  | some n => do let m ← navP .plain .prevSibling n; return (some n, m)

/-- `AncestorsTraverser::next` (`src/traverse/ancestors.rs` 43-46). -/
def upP : State → Prog α (Option NodeId × State)
  | none => return (none, none)
  | some n => do let m ← navP .plain .parent n; return (some n, m)

/-- `Node::children` (`src/node/plain.rs` 1306-1308). -/
def childrenP (n : NodeId) : Prog α State := navP .plain .firstChild n
/-- `Node::children_reverse` (`src/node/plain.rs` 1336-1338). -/
def childrenReverseP (n : NodeId) : Prog α State := navP .plain .lastChild n
/-- `Node::ancestors_or_self`, `following_siblings_or_self`, `preceding_siblings_or_self_reverse`
(`src/node/plain.rs` 1396-1398, 1557-1559, 1493-1495). -/
def orSelfP (n : NodeId) : Prog α State := do cloneP .plain n; return some n
/-- `let mut iter = self.x_or_self(); iter.next(); iter`. -/
def skipFirst (next : State → Prog α (Option NodeId × State)) (n : NodeId) : Prog α State := do
  let s ← orSelfP n
  match ← next s with
  | (some x, s') => do dropP .plain x; return s'
  | (none, s') => return s'
/-- `Node::ancestors` (`src/node/plain.rs` 1365-1369). -/
def ancestorsP (n : NodeId) : Prog α State := skipFirst upP n
/-- `Node::following_siblings` (`src/node/plain.rs` 1588-1592). -/
def followingP (n : NodeId) : Prog α State := skipFirst nextP n
/-- `Node::preceding_siblings_reverse` (`src/node/plain.rs` 1524-1528). -/
def precedingReverseP (n : NodeId) : Prog α State := skipFirst prevP n
/-- `Node::siblings` (`src/node/plain.rs` 1426-1431). -/
def siblingsP (n : NodeId) : Prog α State := do
  match ← navP .plain .parent n with
  | some p => do
    let s ← childrenP p
    dropP .plain p
    return s
  | none => orSelfP n
/-- `Node::siblings_reverse` (`src/node/plain.rs` 1459-1464). -/
def siblingsReverseP (n : NodeId) : Prog α State := do
  match ← navP .plain .parent n with
  | some p => do
    let s ← childrenReverseP p
    dropP .plain p
    return s
  | none => orSelfP n

end Sib

namespace StableSib

/-- The handles in the state (`src/traverse/siblings.rs` 113-117). -/
def owns : State → List NodeId
  | none => []
  | some (a, b) => [a, b]

/-- `Iterator::next` (`src/traverse/siblings.rs` 169-175). -/
def nextP : State → Prog α (Option NodeId × State)
  | none => return (none, none)
  | some (a, b) => do
    match ← navP .frozen .nextSibling a with
    | some e => return (some a, some (e, b))
    | none => do dropP .frozen b; return (some a, none)

/-- `next_back` (`src/traverse/siblings.rs` 187-193). -/
def backP : State → Prog α (Option NodeId × State)
  | none => return (none, none)
  | some (a, b) => do
    match ← navP .frozen .prevSibling b with
    | some e => return (some b, some (a, e))
    | none => do dropP .frozen a; return (some b, none)

/-- `children_stable`, `with_parent` (`src/node/frozen.rs` 796-798, `src/traverse/siblings.rs`
132-136). -/
def childrenP (n : NodeId) : Prog α State := do
  cloneP .frozen n
  let s ← firstLastP .frozen n
  dropP .frozen n
  return s
/-- `first_sibling()`, `last_sibling()`, which never return `None`
(`src/node/frozen.rs` 490-510). -/
def expectP (q : Nav) (n : NodeId) : Prog α NodeId := do
  match ← navP .frozen q n with
  | some m => return m
  | none => .fail (.panic "unreachable: there is a sibling")
/-- `preceding_siblings_or_self_stable` (`src/node/frozen.rs` 825-830). -/
def precedingOrSelfP (n : NodeId) : Prog α State := do
  let f ← expectP .firstSibling n
  cloneP .frozen n
  return some (f, n)
/-- `following_siblings_or_self_stable` (`src/node/frozen.rs` 854-859). -/
def followingOrSelfP (n : NodeId) : Prog α State := do
  cloneP .frozen n
  let l ← expectP .lastSibling n
  return some (n, l)
/-- `iter.next(); iter`. -/
def skipFirst (p : Prog α State) : Prog α State := do
  let s ← p
  match ← nextP s with
  | (some x, s') => do dropP .frozen x; return s'
  | (none, s') => return s'
/-- `preceding_siblings_stable` (`src/node/frozen.rs` 840-844). -/
def precedingP (n : NodeId) : Prog α State := skipFirst (precedingOrSelfP n)
/-- `following_siblings_stable` (`src/node/frozen.rs` 869-873). -/
def followingP (n : NodeId) : Prog α State := skipFirst (followingOrSelfP n)
/-- `siblings_stable` (`src/node/frozen.rs` 810-815). -/
def siblingsP (n : NodeId) : Prog α State := do
  match ← navP .frozen .parent n with
  | some p => do
    let s ← childrenP p
    dropP .frozen p
    return s
  | none => followingOrSelfP n

end StableSib

namespace NaBfs

/-- The handles in the state (`src/traverse/breadth_first.rs` 18-27). -/
def owns (s : State) : List NodeId := Shallow.owns s.inner ++ s.root.toList

/-- `non_allocating_breadth_first_traverse_stable`, `with_toplevel` (`src/node/frozen.rs` 1042-1047,
`src/traverse/breadth_first.rs` 45-54). -/
def startP (n : NodeId) (d : Nat) : Prog α State := do
  cloneP .frozen n
  cloneP .frozen n
  let i ← Shallow.toplevelP n (some d)
  return ⟨i, some n, d⟩

/-- `next_in_current_depth` (`src/traverse/breadth_first.rs` 59-70): events that do not match are
dropped. -/
def skipP (d : Nat) : Nat → Shallow.State → Prog α (Option NodeId × Shallow.State)
  | 0, _ => .fail .diverge
  | f + 1, s => do
    match ← Shallow.nextP s with
    | (none, s') => return (none, s')
    | (some (.opn (n, e)), s') =>
      if e = d then return (some n, s')
      else do dropP .frozen n; skipP d f s'
    | (some (.cls v), s') => do dropP .frozen v.1; skipP d f s'

/-- `Iterator::next` (`src/traverse/breadth_first.rs` 74-98); `f` is the fuel for one scan. -/
def nextP (f : Nat) (s : State) : Prog α (Option (NodeId × Nat) × State) :=
  match s.root with
  | none => return (none, s)
  | some r => do
    let (x, i) ← skipP s.depth f s.inner
    match x with
    | some n => return (some (n, s.depth), { s with inner := i })
    | none => do
      let d := s.depth + 1
      cloneP .frozen r
      let j ← Shallow.toplevelP r (some d)
      dropAll .frozen (Shallow.owns i)
      let (y, j) ← skipP d f j
      match y with
      | some n => return (some (n, d), ⟨j, some r, d⟩)
      | none => do dropP .frozen r; return (none, ⟨j, none, d⟩)

end NaBfs

namespace AlBfs

/-- The handles in the queue (`src/traverse/breadth_first.rs` 116-150). -/
def owns (s : State) : List NodeId := s.events.filterMap id

/-- The nodes at depth `d` collected from a shallow traversal, the other events being dropped
(`src/traverse/breadth_first.rs` 170-181); at the end the traverser is dropped. -/
def atDepthP (d : Nat) : Nat → Shallow.State → Prog α (List NodeId)
  | 0, _ => .fail .diverge
  | f + 1, s => do
    match ← Shallow.nextP s with
    | (none, s') => do dropAll .frozen (Shallow.owns s'); return []
    | (some (.opn (n, e)), s') =>
      if e = d then do
        let l ← atDepthP d f s'
        return n :: l
      else do dropP .frozen n; atDepthP d f s'
    | (some (.cls v), s') => do dropP .frozen v.1; atDepthP d f s'

/-- `allocating_breadth_first_traverse_stable`, `with_toplevel` (`src/node/frozen.rs` 1120-1125,
`src/traverse/breadth_first.rs` 161-186). -/
def startP (f : Nat) (n : NodeId) (d : Nat) : Prog α State := do
  cloneP .frozen n
  if d = 0 then return ⟨[some n, none], 0⟩
  else do
    let s ← Shallow.toplevelP n (some d)
    let ns ← atDepthP d f s
    return ⟨ns.map some ++ [none], d⟩

/-- The rest of a stable siblings traverser, which is then dropped. -/
def restP : Nat → StableSib.State → Prog α (List NodeId)
  | 0, _ => .fail .diverge
  | f + 1, s => do
    match ← StableSib.nextP s with
    | (none, s') => do dropAll .frozen (StableSib.owns s'); return []
    | (some x, s') => do
      let l ← restP f s'
      return x :: l

/-- `next.children_stable()` exhausted into the queue (`src/traverse/breadth_first.rs` 245-246). -/
def childListP (f : Nat) (n : NodeId) : Prog α (List NodeId) := do
  let s ← StableSib.childrenP n
  restP f s

/-- `Iterator::next` (`src/traverse/breadth_first.rs` 227-253). -/
def nextFP (g : Nat) : Nat → State → Prog α (Option (NodeId × Nat) × State)
  | 0, _ => .fail .diverge
  | f + 1, s =>
    match s.events with
    | [] => return (none, s)
    | some n :: es => do
      let cs ← childListP g n
      return (some (n, s.depth), ⟨es ++ cs.map some, s.depth⟩)
    | none :: es =>
      if es = [] then return (none, ⟨[], s.depth⟩)
      else nextFP g f ⟨es ++ [none], s.depth + 1⟩

/-- `Iterator::next` with enough fuel for the loop; `g` is the fuel for the children. -/
def nextP (g : Nat) (s : State) : Prog α (Option (NodeId × Nat) × State) := nextFP g (s.events.length + 1) s

/-- `peek` (`src/traverse/breadth_first.rs` 192-204): the events looked at are cloned (`cloned()`), the
one returned is a new handle. -/
def peekP (s : State) : Prog α (Option (NodeId × Nat)) :=
  match s.events with
  | [] => return none
  | some n :: _ => do cloneP .frozen n; return some (n, s.depth)
  | [none] => return none
  | none :: some n :: _ => do cloneP .frozen n; return some (n, s.depth + 1)
  | none :: none :: _ =>
    .fail (.panic "`IncrementDepth` must not appear right after `IncrementDepth`")

end AlBfs
end Dendron
