import Verif.Model.World
import Verif.Spec.RTree

/-!
# Histories of calls

`Reach w`: the program state `w` is reached from the start by calls the program can make, none of
which is one of the calls with a known defect (`SafeCall`), while lock counters stay far from the
limits of `isize` (`Room`).
-/

set_option autoImplicit false

namespace Dendron
variable {α : Type}

/-- `n` has a previous sibling but no next sibling. -/
def LastOfSeveral (ch : NodeId → List NodeId) (n : NodeId) : Prop :=
  ∃ p l a, ch p = l ++ [a, n]

/-- The destination asks for a sibling of its anchor. -/
def InsertAs.isSibling {β : Type} : InsertAs β → Bool
  | .previousSiblingOf _ | .nextSiblingOf _ => true
  | _ => false

/-- `n` is the only node of its tree, nobody has a `Tree` handle of this tree, and `n` goes to another
tree, not beside its root. -/
def LonelyRoot (h : Heap α) (ch : NodeId → List NodeId) (n : NodeId) (dest : InsertAs NodeId) : Prop :=
  (∀ p, n ∉ ch p) ∧ ch n = [] ∧ h.memTree n ≠ h.memTree dest.anchor ∧
    (∀ t, h.memTree n = some t → h.treeRc t = 0) ∧
    (dest.isSibling = true → ∃ q, dest.anchor ∈ ch q)

/-- A move without a known defect: either `n` is a root moved inside its own tree (nothing happens),
or `n` is not a root, is not the last of several siblings, the destination is not inside the subtree
of `n`, and it is not a sibling position of a root; or `n` is the only node of a tree without `Tree`
handles. -/
def SafeMove (h : Heap α) (ch : NodeId → List NodeId) (n : NodeId) (dest : InsertAs NodeId) : Prop :=
  ((∀ p, n ∉ ch p) ∧ h.memTree n = h.memTree dest.anchor) ∨
  ((∃ p, n ∈ ch p) ∧ ¬ LastOfSeveral ch n ∧ ¬ Desc ch n dest.anchor ∧
    (dest.isSibling = true → ∃ q, dest.anchor ∈ ch q)) ∨
  LonelyRoot h ch n dest

/-- The calls without a known defect (C10, C12, C14-C18 show what happens in the other cases). -/
def SafeCall (h : Heap α) (ch : NodeId → List NodeId) : Op α → Prop
  | .detach _ n => ¬ LastOfSeveral ch n
  | .replace _ n => ch n ≠ [] ∨ ¬ LastOfSeveral ch n
  | .move _ n dest => SafeMove h ch n dest
  | _ => True

/-- No lock counter of a living tree is near the limits of `isize`. -/
def Room (h : Heap α) : Prop := ∀ t, h.treeAlive t = true →
  -(2 : Int) ^ 62 < h.grants t ∧ h.grants t < (2 : Int) ^ 62

/-- The grant a call is made with, if any, is for the tree of the node it is used on. -/
def TokenFits (h : Heap α) (n : NodeId) : Auth → Prop
  | .token t => h.memTree n = some t
  | .hot => True

/-- The token a call is made with, if any, is for the tree of the node it is used on. -/
def TokenOK (h : Heap α) : Op α → Prop
  | .bundleWith _ n t => h.memTree n = some t
  | .create a n _ _ | .createParent a n _ | .createChild a n _ | .detach a n | .replace a n
  | .move a n _ => TokenFits h n a
  | _ => True

/-- The call is an edit of the hierarchy of tree `t`. -/
def Edits (h : Heap α) : Op α → TreeId → Prop
  | .create _ n _ _, t | .createParent _ n _, t | .createChild _ n _, t | .detach _ n, t
  | .replace _ n, t => h.memTree n = some t
  | .move _ n dest, t => h.memTree n = some t ∨ h.memTree dest.anchor = some t
  | _, _ => False

/-- The call stores new data in node `x`, or starts or ends a mutable borrow of its data. -/
def Writes : Op α → NodeId → Prop
  | .write n _, x | .borrowMut n _, x => x = n
  | _, _ => False

/-- The call is neither a creation, an edit, nor a write: it gets, copies, converts or drops handles and
tokens, or navigates. -/
def Op.isRead : Op α → Prop
  | .newTree .. | .create .. | .createParent .. | .createChild .. | .detach .. | .replace ..
  | .move .. | .write .. | .borrowMut .. => False
  | _ => True

/-- The program makes a call which returns `r`. -/
structure World.Step (w : World α) (op : Op α) (w' : World α) (r : Res) : Prop where
  allowed : w.Allowed op
  safe : ∀ ch, FShape w.heap ch → SafeCall w.heap ch op
  room : Room w.heap
  run : w.exec op = .ok (w', r)

/-- The reachable program states. -/
inductive Reach : World α → Prop
  | init : Reach World.init
  | step {w w' : World α} {op : Op α} {r : Res} : Reach w → w.Step op w' r → Reach w'

/-- The program makes any call it can make, which returns `r`. -/
structure World.Call (w : World α) (op : Op α) (w' : World α) (r : Res) : Prop where
  allowed : w.Allowed op
  run : w.exec op = .ok (w', r)

/-- The program states reached by any calls whatsoever that return. -/
inductive ReachAny : World α → Prop
  | init : ReachAny World.init
  | step {w w' : World α} {op : Op α} {r : Res} : ReachAny w → w.Call op w' r → ReachAny w'

/-- From `w` the program gets to `w'` by calls that are no creations, edits or writes. -/
inductive Reads : World α → World α → Prop
  | refl (w : World α) : Reads w w
  | step {w w' w'' : World α} {op : Op α} {r : Res} : Reads w w' → op.isRead → w'.Step op w'' r →
      Reads w w''

/-- Something keeps tree `t` alive: a `Tree`, or a handle to a node whose `tree()` is `t`. -/
def World.TreeHeld (w : World α) (t : TreeId) : Prop :=
  0 < w.trees t ∨ ∃ k n, 0 < w.held k n ∧ w.heap.nodeTree n = .ok t

/-- An edit grant of tree `t` is alive: a token, or a `HotNode` of that tree. -/
def World.GrantAlive (w : World α) (t : TreeId) : Prop :=
  0 < w.grantTok t ∨ ∃ n, 0 < w.held .hot n ∧ w.heap.nodeTree n = .ok t

/-- An edit prohibition of tree `t` is alive: a token, or a `FrozenNode` of that tree. -/
def World.ProhAlive (w : World α) (t : TreeId) : Prop :=
  0 < w.prohTok t ∨ ∃ n, 0 < w.held .frozen n ∧ w.heap.nodeTree n = .ok t

/-- The lock counter of tree `t` counts its tokens and its nodes with hot or frozen handles. -/
def World.LocksExact (w : World α) (t : TreeId) : Prop :=
  ∃ L : List NodeId, L.Nodup ∧
    (∀ n, n ∈ L ↔ 0 < w.held .hot n + w.held .frozen n ∧ w.heap.nodeTree n = .ok t) ∧
    (w.GrantAlive t → w.heap.grants t = (w.grantTok t : Int) + L.length) ∧
    (w.ProhAlive t → w.heap.grants t = -((w.prohTok t : Int) + L.length)) ∧
    (¬ w.GrantAlive t → ¬ w.ProhAlive t → w.heap.grants t = 0)

end Dendron
