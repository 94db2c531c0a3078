import Verif.Model.Edit
import Verif.Model.Query

/-!
# Edits as methods of `Node` (`src/node/plain.rs` 1600-2620)

The grant check at the start of each method is modelled in `Verif.Model.World`; here are the bodies
after it.
-/

set_option autoImplicit false

namespace Dendron
namespace Heap
variable {α : Type}

/-- Body of `Node::try_create_node_as` (`src/node/plain.rs` 1823-1832); `create_as_first_child`
(1885-1889), `create_as_last_child`, `try_create_as_prev_sibling`, `try_create_as_next_sibling` are
its four instances, and `HotNode` has the same bodies (`src/node/hot.rs` 795-1010). -/
def nodeCreate (h : Heap α) (n : NodeId) (d : α) (as : AdoptAs) :
    Except Fault (Heap α × Except HierarchyError NodeId) := do
  let t ← h.treeCore n
  h.tryCreateNodeAs n t d as

end Heap
end Dendron
