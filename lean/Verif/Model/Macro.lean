import Verif.Model.World

/-!
# The macros `tree_node!` and `tree!` (`src/macros.rs`)
-/

set_option autoImplicit false

namespace Dendron
variable {α : Type}

/-- What can be written in the macro: `data` or `data, [descendants]` (for the descendants with
`/(…)` around it), `src/macros.rs` 72-118.  The expressions are values here; how the macro language parses
commas is not represented. -/
inductive Lit (α : Type) where
  | leaf (d : α)
  | branch (d : α) (cs : List (Lit α))

mutual
/-- One descendant: the leaf patterns (`src/macros.rs` 107-110, 111-115) create a node and drop the
returned `HotNode` at the end of the statement; the other patterns (`src/macros.rs` 87-95, 96-106) bind
it to `node`, process its descendants and drop it at the end of the block. -/
def Lit.child (w : World α) (p : NodeId) : Lit α → Except Fault (World α)
  | .leaf d => do
    match ← w.exec (.create .hot p d .lastChild) with
    | (w, .node (some m)) => do
      let (w, _) ← w.exec (.drop .hot m)
      return w
    | _ => .error (.panic "[precondition] the hierarchy to be created should be valid")
  | .branch d cs => do
    match ← w.exec (.create .hot p d .lastChild) with
    | (w, .node (some m)) => do
      let w ← Lit.children w m cs
      let (w, _) ← w.exec (.drop .hot m)
      return w
    | _ => .error (.panic "[precondition] the hierarchy to be created should be valid")
/-- `@@process_descendant` (`src/macros.rs` 87-117): the descendants from left to right. -/
def Lit.children (w : World α) (p : NodeId) : List (Lit α) → Except Fault (World α)
  | [] => .ok w
  | c :: cs => do
    let w ← Lit.child w p c
    Lit.children w p cs
end

/-- `tree_node!` (`src/macros.rs` 72-86): a plain handle to the root.  `root` is dropped at the end of
the block, after `root.plain()` was evaluated. -/
def Lit.treeNode (w : World α) : Lit α → Except Fault (World α × NodeId)
  | .leaf d => do
    match ← w.exec (.newTree false d) with
    | (w, .node (some n)) => return (w, n)
    | _ => .error (.panic "new_tree returns a node")
  | .branch d cs => do
    match ← w.exec (.newTree true d) with
    | (w, .node (some n)) => do
      let w ← Lit.children w n cs
      let (w, _) ← w.exec (.plainOf .hot n)
      let (w, _) ← w.exec (.drop .hot n)
      return (w, n)
    | _ => .error (.panic "new_tree returns a node")

/-- `tree!` (`src/macros.rs` 133-137): the temporary `Node` is dropped after `.tree()`. -/
def Lit.treeMacro (w : World α) (l : Lit α) : Except Fault (World α × TreeId) := do
  let (w, n) ← l.treeNode w
  match ← w.exec (.treeOf .plain n) with
  | (w, .tree (some t)) => do
    let (w, _) ← w.exec (.drop .plain n)
    return (w, t)
  | _ => .error (.panic "tree returns a tree")

end Dendron
