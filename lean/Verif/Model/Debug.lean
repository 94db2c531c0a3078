import Verif.Model.World

/-!
# The `Debug` printers (`src/node/debug_print/debug.rs`, `src/tree/debug_print.rs`)

What is handed to the formatter of the standard library, as a structured value: `debug_struct` with its
fields, `debug_list`, `debug_tuple`, strings written as they are, and values printed by their own `Debug`.
The layout (one line or many) is that of the standard library and not modelled.
-/

set_option autoImplicit false

namespace Dendron
variable {α : Type}

/-- What a `Debug` implementation prints. -/
inductive Dbg (α : Type) where
  /-- `debug_struct(name)` with fields -/
  | struct (name : String) (fields : List (String × Dbg α))
  /-- `debug_list()` -/
  | list (l : List (Dbg α))
  /-- `debug_tuple(name)` with one field -/
  | tuple (name : String) (x : Dbg α)
  /-- `write_str` (`RawStr`, `FakeOption`) -/
  | raw (s : String)
  /-- the data of a node -/
  | data (d : α)
  /-- an integer -/
  | int (i : Int)

namespace Dbg

/-- `NodeType::name` (`src/node/debug_print/debug.rs` 24-30). -/
def nodeName : Kind → String
  | .plain => "Node"
  | .frozen => "FrozenNode"
  | .hot => "HotNode"

/-- `FakeOption::some_if_true` (`src/node/debug_print.rs` 27-48). -/
def fakeOption (b : Bool) : Dbg α := .raw (if b then "Some(_)" else "None")

/-- `HierarchyLockManager`, `derive(Debug)`, with a `Cell` inside (`src/tree/lock.rs` 48-55). -/
def lock (g : Int) : Dbg α :=
  .struct "HierarchyLockManager" [("num_grants", .struct "Cell" [("value", .int g)])]

end Dbg

namespace Heap

/-- The field `data` (`src/node/debug_print/debug.rs` 45-48, 110-113, 192-195). -/
def debugData (h : Heap α) (n : NodeId) : Dbg α :=
  if h.mutB n then .raw "<borrowed>" else
    match h.data n with
    | some d => .data d
    | none => .raw "unreachable: the node is freed"

/-- `DebugPrintTreeLocal::fmt` (`src/tree/debug_print.rs` 53-59), `Debug for Tree`
(`src/tree.rs` 150-155). -/
def debugTreeLocal (h : Heap α) (t : TreeId) : Dbg α := .struct "Tree" [("lock_manager", Dbg.lock (h.grants t))]

/-- `DebugPrintNodeLocal::fmt` (`src/node/debug_print/debug.rs` 42-65), `Debug` of the three kinds of
nodes (`src/node/plain.rs` 35-40, `src/node/hot.rs` 46-51, `src/node/frozen.rs` 46-51). -/
def debugLocal (h : Heap α) (k : Kind) (n : NodeId) : Except Fault (Dbg α) := do
  let p ← h.hasPrev n
  let t ← h.treeCore n
  return .struct (Dbg.nodeName k) [("data", h.debugData n), ("parent", Dbg.fakeOption (!h.isRoot n)),
    ("prev_sibling", Dbg.fakeOption p), ("next_sibling", Dbg.fakeOption (h.hasNext n)),
    ("first_child", Dbg.fakeOption (h.hasChildren n)), ("tree", h.debugTreeLocal t)]

/-- The entries of `DebugPrintSubtreeChildren::fmt` from sibling `c` on, each a
`DebugPrintSubtreeDescendant` (`src/node/debug_print/debug.rs` 166-205); the fuel bounds the nesting. -/
def debugKids (h : Heap α) : Nat → Option NodeId → Except Fault (List (Dbg α))
  | 0, _ => .error .diverge
  | _ + 1, none => .ok []
  | f + 1, some c => do
    let sub ← debugKids h f (h.firstChildLink c)
    let rest ← debugKids h f (h.nextLink c)
    return .struct "Node" [("data", h.debugData c), ("children", .list sub)] :: rest

/-- Fuel for the recursion. -/
def debugFuel (h : Heap α) : Nat := h.nNode + 2

/-- The type stored by `DebugPrintSubtree::new_plain`, `new_frozen` and `new_hot`
(`src/node/debug_print/debug.rs` 125-153). -/
def subtreeType : Kind → Kind
  | .plain => .plain
  | .frozen => .plain
  | .hot => .hot

/-- `DebugPrintSubtree::fmt` (`src/node/debug_print/debug.rs` 106-123) of the printer returned by
`debug_print_subtree` (`src/node/plain.rs` 2895-2897, `src/node/hot.rs` 1220-1222, `src/node/frozen.rs`
1236-1238). -/
def debugSubtree (h : Heap α) (k : Kind) (n : NodeId) : Except Fault (Dbg α) := do
  let t ← h.treeCore n
  let sub ← h.debugKids h.debugFuel (h.firstChildLink n)
  return .struct (Dbg.nodeName (subtreeType k)) [("tree", h.debugTreeLocal t), ("data", h.debugData n),
    ("children", .list sub)]

/-- `DebugPrintTree::fmt` (`src/tree/debug_print.rs` 78-87): the root is printed as a descendant. -/
def debugTree (h : Heap α) (t : TreeId) : Except Fault (Dbg α) := do
  let r ← h.rootLink t
  let sub ← h.debugKids h.debugFuel (h.firstChildLink r)
  return .struct "Tree" [("lock_manager", Dbg.lock (h.grants t)),
    ("nodes", .struct "Node" [("data", h.debugData r), ("children", .list sub)])]

end Heap

namespace World

/-- `Debug for NodeWeak` (`src/node/plain.rs` 2915-2925): upgrade, print, drop the node. -/
def debugWeak (w : World α) (n : NodeId) : Except Fault (World α × Dbg α) := do
  match ← w.exec (.upgrade n) with
  | (w, .node (some m)) => do
    let d ← w.heap.debugLocal .plain m
    let (w, _) ← w.exec (.drop .plain m)
    return (w, .tuple "NodeWeak" d)
  | (w, _) => return (w, .raw "NodeWeak(<dropped>)")

/-- `Debug for TreeWeak` (`src/tree.rs` 546-553). -/
def debugTreeWeak (w : World α) (t : TreeId) : Except Fault (World α × Dbg α) := do
  match ← w.exec (.upgradeTree t) with
  | (w, .tree (some t)) => do
    let d := w.heap.debugTreeLocal t
    let (w, _) ← w.exec (.dropTree t)
    return (w, d)
  | (w, _) => return (w, .raw "TreeWeak(<dropped>)")

end World
end Dendron
