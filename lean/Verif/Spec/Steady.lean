import Verif.Spec.Wide
import Verif.Spec.Iter

/-!
# Iterators used while the program goes on

`During t w ws`: from state `w` on the program makes calls of its own, keeping tree `t` and some edit
prohibition of it alive (any `FrozenNode` of the tree does both), and at the states `ws`, in this order, it calls the iterator.
-/

set_option autoImplicit false

namespace Dendron
variable {α σ ι : Type}

/-- `last_child` of every node of tree `t` is right. -/
def TreeRight (h : Heap α) (ch : NodeId → List NodeId) (t : TreeId) : Prop :=
  ∀ p, h.alive p = true → h.nodeTree p = .ok t → LastRight h ch p

/-- See above. -/
inductive During (t : TreeId) : World α → List (World α) → Prop
  | nil (w : World α) : During t w []
  /-- the program makes a call of its own -/
  | other {w w' : World α} {ws : List (World α)} {op : Op α} {r : Res} : w.StepW op w' r →
      w'.ProhAlive t → w'.TreeHeld t → During t w' ws → During t w ws
  /-- the iterator is called -/
  | call {w : World α} {ws : List (World α)} : During t w ws → During t w (w :: ws)

/-- The results of calling the iterator once at each of the states. -/
def callsAt (next : Heap α → σ → Except Fault (Option ι × σ)) :
    List (World α) → σ → Except Fault (List (Option ι))
  | [], _ => .ok []
  | w :: ws, s =>
    match next w.heap s with
    | .error e => .error e
    | .ok (x, s') => (callsAt next ws s').map (x :: ·)

/-- The same for an iterator with two ends. -/
def callsAt2 (next back : Heap α → σ → Except Fault (Option ι × σ)) :
    List (World α × Side) → σ → Except Fault (List (Option ι))
  | [], _ => .ok []
  | (w, d) :: ws, s =>
    match (match d with | .front => next w.heap s | .back => back w.heap s) with
    | .error e => .error e
    | .ok (x, s') => (callsAt2 next back ws s').map (x :: ·)

/-- Whatever the program does between the calls, while `t` and a prohibition of it are alive,
the iterator
yields the items of `l` in order, and then `None` forever. -/
def YieldsDuring (t : TreeId) (w : World α) (next : Heap α → σ → Except Fault (Option ι × σ)) (s : σ)
    (l : List ι) : Prop :=
  ∀ ws, During t w ws → callsAt next ws s = .ok ((List.range ws.length).map (fun i => l[i]?))

/-- The same for both ends in any interleaving. -/
def DoubleEndedDuring (t : TreeId) (w : World α) (next back : Heap α → σ → Except Fault (Option ι × σ))
    (s : σ) (l : List ι) : Prop :=
  ∀ ws : List (World α × Side), During t w (ws.map Prod.fst) →
    callsAt2 next back ws s = .ok (dequeSched (ws.map Prod.snd) l)

end Dendron
