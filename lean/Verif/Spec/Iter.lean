import Verif.Model.Traverse
import Verif.Spec.RTree

/-!
# What iterators must yield
-/

set_option autoImplicit false

namespace Dendron

/-- The iterator `next` started in state `s` yields exactly the items of the list, in order, and then
`None` forever. -/
inductive Yields {σ ι : Type} (next : σ → Except Fault (Option ι × σ)) : σ → List ι → Prop
  | done {s s'} : next s = .ok (none, s') → next s' = .ok (none, s') → Yields next s []
  | more {s x s' l} : next s = .ok (some x, s') → Yields next s' l → Yields next s (x :: l)

/-- One call on a double-ended iterator. -/
inductive Side where
  | front
  | back
  deriving DecidableEq, Repr

/-- The results of a sequence of `next` / `next_back` calls. -/
def runSched {σ ι : Type} (next back : σ → Except Fault (Option ι × σ)) :
    List Side → σ → Except Fault (List (Option ι))
  | [], _ => .ok []
  | .front :: es, s =>
    match next s with
    | .error e => .error e
    | .ok (x, s') => (runSched next back es s').map (x :: ·)
  | .back :: es, s =>
    match back s with
    | .error e => .error e
    | .ok (x, s') => (runSched next back es s').map (x :: ·)

/-- What the calls must return if the items still to come are `l`: each call takes the first or the
last remaining item; `None` once nothing remains. -/
def dequeSched {ι : Type} : List Side → List ι → List (Option ι)
  | [], _ => []
  | .front :: es, l => l.head? :: dequeSched es l.tail
  | .back :: es, l => l.getLast? :: dequeSched es l.dropLast

/-- Under every interleaving of `next` and `next_back`, each item is yielded exactly once, from the
end asked for. -/
def DoubleEnded {σ ι : Type} (next back : σ → Except Fault (Option ι × σ)) (s : σ)
    (l : List ι) : Prop :=
  ∀ es, runSched next back es s = .ok (dequeSched es l)

/-- States reached by calling `next` some number of times. -/
inductive Reaches {σ ι : Type} (next : σ → Except Fault (Option ι × σ)) (s : σ) : σ → Prop
  | refl : Reaches next s s
  | step {s1 s2 x} : Reaches next s s1 → next s1 = .ok (x, s2) → Reaches next s s2

/-- States reached by calling `next` and `next_back` in any order. -/
inductive Reaches2 {σ ι : Type} (next back : σ → Except Fault (Option ι × σ)) (s : σ) : σ → Prop
  | refl : Reaches2 next back s s
  | front {s1 s2 x} : Reaches2 next back s s1 → next s1 = .ok (x, s2) → Reaches2 next back s s2
  | rear {s1 s2 x} : Reaches2 next back s s1 → back s1 = .ok (x, s2) → Reaches2 next back s s2

/-- `size_hint` of a state with `k` items to come: at least the lower bound, at most the upper bound
if there is one. -/
def HintSound (hint : Nat × Option Nat) (k : Nat) : Prop :=
  hint.1 ≤ k ∧ ∀ u, hint.2 = some u → k ≤ u

/-- The nodes opened and not yet closed after the events, innermost first. -/
def openStack {β : Type} : List (DftEvent β) → List β → List β
  | [], st => st
  | .opn v :: es, st => openStack es (v :: st)
  | .cls _ :: es, st => openStack es st.tail

/-- What `close_current` must do after the events `pre`, when `l` is still to come: if a node is open,
the innermost such node `v` is returned and the iteration continues right after its `Close`;
otherwise the result is `None` and the iteration is over.  It terminates (some fuel suffices). -/
def ClosesCurrent {σ ν : Type} (next : σ → Except Fault (Option (DftEvent ν) × σ)) (s : σ)
    (pre l : List (DftEvent ν)) : Prop :=
  (∀ v stk, openStack pre [] = v :: stk → ∃ f s' mid rest, l = mid ++ .cls v :: rest ∧
    .cls v ∉ mid ∧ closeCurrent next f 0 s = .ok (some v, s') ∧ Yields next s' rest) ∧
  (openStack pre [] = [] → ∃ f s', closeCurrent next f 0 s = .ok (none, s') ∧ Yields next s' [])

namespace RTree
variable {β : Type}

mutual
/-- The events of the nodes at depth at most `lim` (all nodes if `none`), with depths, the root being
at depth `d`. -/
def eventsD (lim : Option Nat) (d : Nat) : RTree β → List (DftEvent (β × Nat))
  | node v cs =>
    .opn (v, d) :: ((if lim = some d then [] else eventsDL lim (d + 1) cs) ++ [.cls (v, d)])
/-- The same for a list of trees. -/
def eventsDL (lim : Option Nat) (d : Nat) : List (RTree β) → List (DftEvent (β × Nat))
  | [] => []
  | c :: cs => eventsD lim d c ++ eventsDL lim d cs
end

mutual
/-- The nodes at depth `k`, from left to right. -/
def level : Nat → RTree β → List β
  | 0, node v _ => [v]
  | k + 1, node _ cs => levelL k cs
/-- The nodes at depth `k` of a list of trees. -/
def levelL : Nat → List (RTree β) → List β
  | _, [] => []
  | k, c :: cs => level k c ++ levelL k cs
end

mutual
/-- The depth of the deepest node. -/
def height : RTree β → Nat
  | node _ cs => heightL cs
/-- `0` for no tree, otherwise one more than the largest height. -/
def heightL : List (RTree β) → Nat
  | [] => 0
  | c :: cs => max (height c + 1) (heightL cs)
end

/-- Breadth-first order from depth `d` on: level by level, each from left to right. -/
def bfs (d : Nat) (t : RTree β) : List (β × Nat) :=
  (List.range' d (t.height + 1 - d)).flatMap (fun k => (t.level k).map (fun v => (v, k)))

end RTree
end Dendron
