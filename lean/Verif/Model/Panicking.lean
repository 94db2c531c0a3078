import Verif.Model.Builder

/-!
# The panicking variants of the fallible methods

Each of them calls the `try_` method and `expect`s its result (`src/node/plain.rs` 1841-1850, 1985-1994,
2049-2058, 2313-2320, 2398-2404, 2512-2522, 2632-2643; `src/node/hot.rs` 816-820, 869-873, 897-901,
1026-1032, 1060-1066, 1110-1121, 1161-1171; `src/node/frozen.rs` 1156-1162; `src/tree.rs` 421-427;
`PartialEq` for nodes `src/node/plain.rs` 62-66, 134-138, `src/node/hot.rs` 74-78, `src/node/frozen.rs`
74-78, and for trees `src/tree.rs` 177-181).  The messages of the panics are not represented.
-/

set_option autoImplicit false

namespace Dendron

/-- How such a call ends: it returns `r`, or `expect` panics.  In both cases `w` is the program state the
`try_` method has left (a program that catches the panic goes on with it). -/
inductive Ending (α ρ : Type) where
  | returned (w : World α) (r : ρ)
  | panicked (w : World α)

/-- `Result::expect`. -/
def Ending.expect {α ε ρ : Type} : Except Fault (World α × Except ε ρ) → Except Fault (Ending α ρ)
  | .error e => .error e
  | .ok (w, .ok r) => .ok (.returned w r)
  | .ok (w, .error _) => .ok (.panicked w)

namespace World
variable {α : Type}

/-- The `Result` of a fallible edit. -/
def result : Except Fault (World α × Res) → Except Fault (World α × Except HierarchyError Res)
  | .error e => .error e
  | .ok (w, .err e) => .ok (w, .error e)
  | .ok (w, r) => .ok (w, .ok r)

/-- `create_node_as` (`src/node/plain.rs` 1841-1850, `src/node/hot.rs` 816-820); with `previousSibling`
or `nextSibling` it is also `create_as_prev_sibling` and `create_as_next_sibling` (`src/node/plain.rs`
1985-1994, 2049-2058, `src/node/hot.rs` 869-873, 897-901). -/
def createNodeAs (w : World α) (a : Auth) (n : NodeId) (d : α) (as : AdoptAs) :
    Except Fault (Ending α Res) :=
  Ending.expect (result (w.exec (.create a n d as)))

/-- `replace_with_children` (`src/node/plain.rs` 2313-2320, `src/node/hot.rs` 1026-1032). -/
def replaceWithChildren (w : World α) (a : Auth) (n : NodeId) : Except Fault (Ending α Res) :=
  Ending.expect (result (w.exec (.replace a n)))

/-- `detach_insert_subtree` (`src/node/plain.rs` 2632-2643, `src/node/hot.rs` 1161-1171). -/
def detachInsertSubtree (w : World α) (a : Auth) (n : NodeId) (dest : InsertAs NodeId) :
    Except Fault (Ending α Res) :=
  Ending.expect (result (w.exec (.move a n dest)))

/-- `clone_subtree` (`src/node/plain.rs` 2398-2404, `src/node/hot.rs` 1060-1066, `src/node/frozen.rs`
1156-1162). -/
def cloneSubtree (f : Nat) (w : World α) (n : NodeId) : Except Fault (Ending α NodeId) :=
  Ending.expect (Builder.tryCloneSubtree f w n)

/-- `Tree::clone_tree` (`src/tree.rs` 421-427). -/
def cloneWholeTree (f : Nat) (w : World α) (t : TreeId) : Except Fault (Ending α TreeId) :=
  Ending.expect (Builder.tryCloneTree f w t)

/-- `clone_insert_subtree` (`src/node/plain.rs` 2512-2522, `src/node/hot.rs` 1110-1121). -/
def cloneInsertSubtree (f : Nat) (w : World α) (n : NodeId) (dest : InsertAs NodeId) :
    Except Fault (Ending α NodeId) :=
  Ending.expect (Builder.tryCloneInsert f w n dest)

/-- `==` between node handles of any kinds (`src/node/plain.rs` 62-66, 134-138): it changes nothing. -/
def nodeEq (eq : α → α → Bool) (w : World α) (n m : NodeId) : Except Fault (Ending α Bool) :=
  Ending.expect ((w.heap.tryEq eq n m).map fun r => (w, r))

end World
end Dendron
