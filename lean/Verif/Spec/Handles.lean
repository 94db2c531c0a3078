import Verif.Spec.World

/-!
# Handles owned by a value

A traverser (or any other value of the crate that contains handles) owns some of the handles counted
in `World.held`.
-/

set_option autoImplicit false

namespace Dendron
variable {α : Type}

/-- Handles: kind and node, a handle owned twice is listed twice. -/
abbrev Handles := List (Kind × NodeId)

/-- Handles of one kind. -/
def handles (k : Kind) (l : List NodeId) : Handles := l.map (fun n => (k, n))

/-- The program holds these handles (and possibly more). -/
def World.Has (w : World α) (a : Handles) : Prop := ∀ k n, a.count (k, n) ≤ w.held k n

/-- From `w` to `w'` the handles `a` have been replaced by the handles `b`; all other handles, all
`Tree`s and all tokens of the program are the same. -/
structure Exchange (w w' : World α) (a b : Handles) : Prop where
  held : ∀ k n, w'.held k n + a.count (k, n) = w.held k n + b.count (k, n)
  trees : w'.trees = w.trees
  grantTok : w'.grantTok = w.grantTok
  prohTok : w'.prohTok = w.prohTok

/-- The tokens of each tree and the nodes ever created are fewer than `2^62`: then no lock counter can
come near the limits of `isize`, whatever handles are made. -/
def World.Roomy (w : World α) : Prop :=
  ∀ t, w.grantTok t + w.prohTok t + w.heap.nNode < 2 ^ 62

/-- The code `p`, run in `w` where its user gives it the handles `a`, returns `b` and the handles
`out`, by making only allowed calls that are no edits. -/
def Transacts {β : Type} (w : World α) (run : World α → Except Fault (World α × β)) (a : Handles)
    (b : β) (out : Handles) : Prop :=
  ∃ w', run w = .ok (w', b) ∧ Reads w w' ∧ Exchange w w' a out

/-- The code run in `w` ends as `res`: with the same fault, or with the same result `b`, having replaced
the handles `a` by the handles `out b`. -/
def Ends {β : Type} (w : World α) (run : World α → Except Fault (World α × β)) (a : Handles)
    (res : Except Fault β) (out : β → Handles) : Prop :=
  match res with
  | .error e => run w = .error e
  | .ok b => Transacts w run a b (out b)

end Dendron
