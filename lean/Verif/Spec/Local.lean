import Verif.Spec.Machine

/-!
# Trees are independent of each other

Vocabulary on the abstract states of `Verif.Spec.Machine`: which trees a call involves, and when a tree is the
same in two states.
-/

set_option autoImplicit false

namespace Dendron
variable {α : Type}

/-- The nodes that are named by the call. -/
def Op.names : Op α → List NodeId
  | .newTree _ _ | .cloneTree _ | .dropTree _ | .treeRoot _ | .upgradeTree _ | .acquire _ _ | .cloneTok _ _
  | .dropTok _ _ => []
  | .clone _ n | .drop _ n | .nav _ _ n | .upgrade n | .plainOf _ n | .bundle _ n | .bundleWith _ n _
  | .treeOf _ n | .extract _ n | .create _ n _ _ | .createParent _ n _ | .createChild _ n _ | .detach _ n
  | .replace _ n | .write n _ | .borrowMut n _ => [n]
  | .move _ n dest => [n, dest.anchor]

/-- The trees that are named by the call itself. -/
def Op.namesTree : Op α → Option TreeId
  | .cloneTree t | .dropTree t | .treeRoot t | .upgradeTree t | .acquire _ t | .cloneTok _ t | .dropTok _ t => some t
  | _ => none

/-- The call makes a node. -/
def Op.makesNode : Op α → Bool
  | .newTree _ _ | .create _ _ _ _ | .createParent _ _ _ | .createChild _ _ _ => true
  | _ => false

/-- The call makes a tree: a new one, or a part of a tree becomes a tree of its own. -/
def Op.makesTree : Op α → Bool
  | .newTree _ _ | .detach _ _ | .replace _ _ => true
  | _ => false

namespace Forest

/-- The call involves the tree: one of the named nodes belongs to it, or it is named. -/
def Involves (a : Forest α) (op : Op α) (t : TreeId) : Prop :=
  (∃ n ∈ op.names, a.tree n = some t) ∨ op.namesTree = some t

/-- The tree `t` is the same in both states: its nodes, their data and children, its root, and what the program
holds of it. -/
structure SameTree (a b : Forest α) (t : TreeId) : Prop where
  tree : ∀ n, b.tree n = some t ↔ a.tree n = some t
  data : ∀ n, a.tree n = some t → b.data n = a.data n
  borrowed : ∀ n, a.tree n = some t → b.borrowed n = a.borrowed n
  children : ∀ n, a.tree n = some t → b.children n = a.children n
  held : ∀ k n, a.tree n = some t → b.held k n = a.held k n
  root : b.root t = a.root t
  trees : b.trees t = a.trees t
  grantTok : b.grantTok t = a.grantTok t
  prohTok : b.prohTok t = a.prohTok t

/-- The call finds the same in both states: every tree it involves is the same, a named node that does not exist
in the one does not exist in the other, and the name for what the call makes is the same. -/
structure AlikeFor (a b : Forest α) (op : Op α) : Prop where
  same : ∀ t, a.Involves op t → a.SameTree b t
  dead : ∀ n ∈ op.names, a.tree n = none → b.tree n = none
  node : op.makesNode = true → b.newNode = a.newNode
  newTree : op.makesTree = true → b.newTree = a.newTree

/-- The call concerns only what has been made already. -/
structure Known (a : Forest α) (op : Op α) : Prop where
  node : ∀ n ∈ op.names, n < a.newNode
  tree : ∀ t, op.namesTree = some t → t < a.newTree

/-- The two calls have nothing to do with each other: no tree is involved in both, and they do not both make a
node, or both a tree. -/
structure Apart (a : Forest α) (op1 op2 : Op α) : Prop where
  trees : ∀ t, a.Involves op1 t → ¬ a.Involves op2 t
  node : op1.makesNode = true → op2.makesNode = false
  tree : op1.makesTree = true → op2.makesTree = false

end Forest

/-- Any number of calls, none of which involves the tree `t`. -/
inductive LeavesAlone (t : TreeId) : World α → World α → Prop
  | refl (w : World α) : LeavesAlone t w w
  | step {w w' w1 : World α} {op : Op α} {r : Res} : LeavesAlone t w w' → w'.StepW op w1 r →
      (∀ a, Shows w' a → ¬ a.Involves op t) → LeavesAlone t w w1

end Dendron
