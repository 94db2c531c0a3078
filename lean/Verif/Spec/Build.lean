import Verif.Model.Builder
import Verif.Spec.Serial
import Verif.Spec.World

/-!
# What `TreeBuilder` and the cloning methods must do
-/

set_option autoImplicit false

namespace Dendron
variable {α β : Type}

/-- The opening and closing steps of a depth-first walk over the tree: `some v` opens a node labelled
`v`, `none` closes the innermost open node. -/
def RTree.steps (t : RTree β) : List (Option β) := t.events.map DftEvent.toStep

/-- After the steps `E` exactly `k` nodes are open, and closing them gives the tree `t`. -/
def Describes (E : List (Option β)) (k : Nat) (t : RTree β) : Prop :=
  E ++ List.replicate k none = t.steps

/-- A well-formed event sequence: a prefix of the event sequence of one tree. -/
def Event.Good (l : List (Event β)) : Prop :=
  Event.expand l = [] ∨ ∃ k t, Describes (Event.expand l) k t

/-- The number of nodes that are open after the events, starting with `s` open nodes (`none`: no node was
opened so far; `some 0`: the root is closed); `none` as a result: the events do not fit. -/
def Event.scan (s : Option Nat) : List (Event β) → Option (Option Nat)
  | [] => some s
  | .opn _ :: l =>
    match s with
    | none => scan (some 1) l
    | some 0 => none
    | some (k + 1) => scan (some (k + 2)) l
  | .close 0 :: l => scan s l
  | .close (n + 1) :: l =>
    match s with
    | none => none
    | some k => if n + 1 ≤ k then scan (some (k - (n + 1))) l else none

/-- A depth-first event as a serialization event: one closing at a time. -/
def DftEvent.toEvent : DftEvent β → Event β
  | .opn v => .opn v
  | .cls _ => .close 1

/-- The nodes that were alive in `w` are as before in `w'` (alive, same data, same tree, same
children), except that the children of `r` may differ. -/
structure Untouched (w w' : World α) (ch ch' : NodeId → List NodeId) (r : Option NodeId) : Prop where
  alive : ∀ x, w.heap.alive x = true → w'.heap.alive x = true
  data : ∀ x, w.heap.alive x = true → w'.heap.data x = w.heap.data x
  borrowed : ∀ x, w.heap.alive x = true → w'.heap.mutB x = w.heap.mutB x
  tree : ∀ x, w.heap.alive x = true → w'.heap.nodeTree x = w.heap.nodeTree x
  children : ∀ x, w.heap.alive x = true → some x ≠ r → ch' x = ch x
  trees : w'.trees = w.trees
  grantTok : w'.grantTok = w.grantTok
  prohTok : w'.prohTok = w.prohTok

/-- `n` is the root of a tree made of new nodes only, with data `u`; `n` is a root. -/
structure NewTree (w w' : World α) (ch' : NodeId → List NodeId) (n : NodeId) (u : RTree α) : Prop where
  /-- the tree is new -/
  tree : ∃ t, w'.heap.nodeTree n = .ok t ∧ w.heap.nTree ≤ t ∧ w'.heap.rootLink t = .ok n
  shape : ∃ s, SubtreeAt ch' n s ∧ HasData w'.heap s u ∧
    ∀ x ∈ s.nodes, w.heap.alive x = false ∧ w'.heap.alive x = true ∧ w'.heap.mutB x = false

/-- The program holds one more plain handle, to `n`, and otherwise what it held. -/
def GotPlain (w w' : World α) (n : NodeId) : Prop :=
  ∀ k x, w'.held k x = if k = .plain ∧ x = n then w.held k x + 1 else w.held k x

/-- The program holds one more hot handle, to `n`, and otherwise what it held. -/
def GotHot (w w' : World α) (n : NodeId) : Prop :=
  ∀ k x, w'.held k x = if k = .hot ∧ x = n then w.held k x + 1 else w.held k x

/-- The program holds one more handle of kind `k`, to `n`, and otherwise what it held. -/
def GotHandle (k : Kind) (w w' : World α) (n : NodeId) : Prop :=
  ∀ k' x, w'.held k' x = if k' = k ∧ x = n then w.held k' x + 1 else w.held k' x

/-- The subtree of `n` is made of new nodes of tree `t` only, with data `u`. -/
def NewSubtree (w w' : World α) (ch' : NodeId → List NodeId) (t : TreeId) (n : NodeId) (u : RTree α) :
    Prop :=
  ∃ s, SubtreeAt ch' n s ∧ HasData w'.heap s u ∧
    ∀ x ∈ s.nodes, w.heap.alive x = false ∧ w'.heap.alive x = true ∧ w'.heap.mutB x = false ∧
      w'.heap.nodeTree x = .ok t

/-- Everything is as before the call: no node was added or removed, no node was changed, and the program
holds what it held. -/
structure Undone (w w' : World α) (ch ch' : NodeId → List NodeId) : Prop where
  old : Untouched w w' ch ch' none
  nothingNew : ∀ x, w'.heap.alive x = true → w.heap.alive x = true
  held : ∀ k x, w'.held k x = w.held k x

end Dendron
