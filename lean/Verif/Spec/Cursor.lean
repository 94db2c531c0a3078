import Verif.Spec.Iter

/-!
# Two cursors on a list

What the two stable traversers without a comparison of their ends really do: a front cursor and a rear
cursor walk over the *whole* list, past each other and past the places where they should meet, until one
of them runs off the list.
-/

set_option autoImplicit false

namespace Dendron

/-- The results of a sequence of `next` / `next_back` calls on two independent cursors on the list `L`.
`next` returns the item under the front cursor and moves it to the right, `next_back` returns the item
under the rear cursor and moves it to the left; when a cursor leaves the list, the iterator is finished. -/
def twoCursors {ι : Type} (L : List ι) : List Side → Option (Nat × Nat) → List (Option ι)
  | [], _ => []
  | _ :: es, none => none :: twoCursors L es none
  | .front :: es, some (i, j) =>
    L[i]? :: twoCursors L es (if i + 1 < L.length then some (i + 1, j) else none)
  | .back :: es, some (i, j) =>
    L[j]? :: twoCursors L es (if 0 < j then some (i, j - 1) else none)

end Dendron
