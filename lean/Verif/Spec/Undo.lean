import Verif.Spec.Builders

/-!
# Calls that undo each other

`a.Undo op r op'`: the call `op`, made in the abstract state `a` (`Verif.Spec.Machine`), has returned `r`, that is,
a handle or a token; `op'` drops what has been returned.
-/

set_option autoImplicit false

namespace Dendron
variable {α : Type}

/-- `op'` drops what `op` has returned. -/
inductive Forest.Undo (a : Forest α) : Op α → Res → Op α → Prop
  | newTree (hot : Bool) (d : α) (n : NodeId) :
      Undo a (.newTree hot d) (.node (some n)) (.drop (if hot then .hot else .plain) n)
  | clone (k : Kind) (n : NodeId) : Undo a (.clone k n) .unit (.drop k n)
  | nav (k : Kind) (q : Nav) (n m : NodeId) : Undo a (.nav k q n) (.node (some m)) (.drop k m)
  | upgrade (n m : NodeId) : Undo a (.upgrade n) (.node (some m)) (.drop .plain m)
  | plainOf (k : Kind) (n : NodeId) : Undo a (.plainOf k n) .unit (.drop .plain n)
  | treeOf (k : Kind) (n : NodeId) (t : TreeId) : Undo a (.treeOf k n) (.tree (some t)) (.dropTree t)
  | cloneTree (t : TreeId) : Undo a (.cloneTree t) .unit (.dropTree t)
  | treeRoot (t : TreeId) (n : NodeId) : Undo a (.treeRoot t) (.node (some n)) (.drop .plain n)
  | upgradeTree (t u : TreeId) : Undo a (.upgradeTree t) (.tree (some u)) (.dropTree u)
  | acquire (g : Bool) (t : TreeId) : Undo a (.acquire g t) .unit (.dropTok g t)
  | cloneTok (g : Bool) (t : TreeId) : Undo a (.cloneTok g t) .unit (.dropTok g t)
  | extract {g : Bool} {n : NodeId} {t : TreeId} : a.tree n = some t → Undo a (.extract g n) .unit (.dropTok g t)
  | borrow (n : NodeId) : Undo a (.borrowMut n true) .unit (.borrowMut n false)

/-- The same state with other names for the next node and the next tree. -/
def Forest.renew (a : Forest α) (n : NodeId) (t : TreeId) : Forest α := { a with newNode := n, newTree := t }

end Dendron
