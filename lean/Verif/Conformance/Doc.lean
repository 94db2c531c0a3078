import Verif.Conformance.Harness

/-!
# The examples of the documentation, run on the model

The runnable examples in the documentation of `src/node/plain.rs`, `src/node/hot.rs`, `src/node/frozen.rs`,
`src/tree.rs`, `src/tree/lock.rs`, `src/serial.rs`, `src/macros.rs` and `src/lib.rs`, with the number of the
line where the example starts.  Examples with the same tree are transcribed together.  Handles that the
examples drop at the end of their scope are not dropped here unless an assertion follows.
-/

set_option autoImplicit false

namespace Dendron.Conformance

/-! ## `src/node/plain.rs` -/

/-- `NodeWeak::upgrade` whose result is a temporary: is it `Some`? -/
def upgrades (n : NodeId) : T Bool := do
  match ← call (.upgrade n) with
  | .node (some m) => do
    drop .plain m
    return true
  | _ => return false

/-- Lines 170, 2932: a weak handle. -/
def docWeak : T Unit := do
  let root ← newTree "root"
  check (← upgrades root)
  drop .plain root
  check (!(← upgrades root))

example : passes docWeak = true := by decide +kernel

/-- Lines 213, 235, 259, 289: bundling with a new or an existing token. -/
def docBundle : T Unit := do
  let node ← newTree "root"
  check (← bundle .frozen node)
  let node ← newTree "root"
  check (← bundle .hot node)
  let node ← newTree "root"
  let prohibition ← prohibit node
  ok (call (.bundleWith .frozen node prohibition))
  let node ← newTree "root"
  let grant ← grant node
  ok (call (.bundleWith .hot node grant))

example : passes docBundle = true := by decide +kernel

/-- Lines 317, 341, 361, 384 (`src/node/hot.rs` 206-269, `src/node/frozen.rs` 212-284 are the same for
the other kinds): reading and writing the data. -/
def docBorrow : T Unit := do
  let node ← newTree "root"
  check ((← data node) == "root")
  ok (call (.write node "ROOT"))
  check ((← data node) == "ROOT")

example : passes docBorrow = true := by decide +kernel

/-- Line 401 (`src/node/hot.rs` 287, `src/node/frozen.rs` 304): identity and equality. -/
def docPtrEq : T Unit := do
  let node1 ← newTree "root"
  let node2 ← newTree "root"
  check (← nodeEq node1 node2)
  check (node1 != node2)

example : passes docPtrEq = true := by decide +kernel

/-- Lines 435, 539 (`src/node/hot.rs` 330, 424, `src/node/frozen.rs` 335, 424): `tree` and `root`. -/
def docTree : T Unit := do
  let node1 ← newTree "root"
  let tree ← treeOf .plain node1
  check ((← node (call (.treeRoot tree))) == node1)
  goes .root node1 (some node1)

example : passes docTree = true := by decide +kernel

/-- Lines 453, 480, 507, 557 (`src/node/hot.rs` 348-399, `src/node/frozen.rs` 355-402). -/
def docChild : T Unit := do
  let root ← newTree "root"
  let g ← grant root
  let child ← mk (.token g) root "child"
  let other ← newTree "other"
  let t ← treeOf .plain root
  let u ← treeOf .plain other
  check (← belongs root t)
  check (← belongs child t)
  check (!(← belongs root u))
  let h ← heap
  check (h.belongsToSameTree root child)
  check (h.belongsToSameTree child root)
  check (!h.belongsToSameTree root other)
  check (← isRoot root)
  check (!(← isRoot child))
  goes .parent child (some root)
  goes .parent root none

example : passes docChild = true := by decide +kernel

/-- Lines 580, 609, 754, 782, 841, 867: a root with two children. -/
def docTwoChildren : T Unit := do
  let root ← newTree "root"
  let g ← grant root
  let child0 ← mk (.token g) root "child0"
  let child1 ← mk (.token g) root "child1"
  goes .prevSibling child0 none
  goes .prevSibling child1 (some child0)
  goes .prevSibling root none
  goes .nextSibling child0 (some child1)
  goes .nextSibling child1 none
  goes .nextSibling root none
  goes .firstChild root (some child0)
  goes .firstChild child0 none
  goes .lastChild root (some child1)
  goes .lastChild child0 none
  let h ← heap
  each [(child0, false), (child1, true), (root, false)] fun (n, b) => do
    check ((← pureT (h.hasPrev n)) == b)
  each [(child0, true), (child1, false), (root, false)] fun (n, b) => do check (h.hasNext n == b)

example : passes docTwoChildren = true := by decide +kernel

/-- Lines 638, 675, 712, 807: a root with three children. -/
def docThreeChildren : T Unit := do
  let root ← newTree "root"
  let g ← grant root
  let child0 ← mk (.token g) root "child0"
  let child1 ← mk (.token g) root "child1"
  let child2 ← mk (.token g) root "child2"
  each [child0, child1, child2] fun n => do
    goes .firstSibling n (some child0)
    goes .lastSibling n (some child2)
  goes .firstSibling root (some root)
  let h ← heap
  check ((← pureT (h.firstLastSibling child1)) == (child0, child2))
  check ((← pureT (h.firstLastSibling root)) == (root, root))
  check ((← pureT (h.firstLastChildLink root)) == some (child0, child2))
  check ((← pureT (h.firstLastChildLink child1)) == none)

example : passes docThreeChildren = true := by decide +kernel

/-- Lines 895, 1031, 1066, 1100: counting. -/
def docCounts : T Unit := do
  let root ← newTree "root"
  check ((← numChildren root) == 0)
  let g ← grant root
  let child0 ← mk (.token g) root "child0"
  check ((← numChildren root) == 1)
  let child1 ← mk (.token g) root "child1"
  check ((← numChildren root) == 2)
  let child2 ← mk (.token g) root "child2"
  check ((← numChildren root) == 3)
  let child2_0 ← mk (.token g) child2 "child2_0"
  let h ← heap
  -- num_children and count_children, count_preceding_siblings, count_following_siblings
  each [(root, 3, 0, 0), (child0, 0, 0, 2), (child1, 0, 1, 1), (child2, 1, 2, 0), (child2_0, 0, 0, 0)]
    fun (n, kids, before, after) => do
      check ((← numChildren n) == kids)
      check ((← pureT (h.countChildren n)) == kids)
      check ((← pureT (h.countPreceding n)) == before)
      check ((← pureT (h.countFollowing n)) == after)

example : passes docCounts = true := by decide +kernel

/-- Lines 931, 964, 998, 1134: `has_children`, `has_one_child`, `has_multiple_children`,
`count_ancestors`. -/
def docHasChildren : T Unit := do
  let root ← newTree "root"
  let g ← grant root
  let child0 ← mk (.token g) root "child0"
  let child1 ← mk (.token g) root "child1"
  let child1_0 ← mk (.token g) child1 "child1_0"
  let h ← heap
  each [(root, true, false, true, 0), (child1, true, true, false, 1), (child0, false, false, false, 1),
      (child1_0, false, false, false, 2)]
    fun (n, any, one, many, up) => do
      check (h.hasChildren n == any)
      check (h.hasOneChild n == one)
      check (h.hasMultipleChildren n == many)
      check ((← pureT (h.countAncestors n)) == up)

example : passes docHasChildren = true := by decide +kernel

/-- The events `[Open(a), Close(a)]`. -/
def leafEvents (a : String) : List (DftEvent String) := [.opn a, .cls a]

/-- Lines 1166, 1212, 1251, 1284, 1314: traversals of a tree made by the macro. -/
def docTraverse : T Unit := do
  let root ← treeNode (.branch "root" [.leaf "0", .leaf "1", .branch "2" [.leaf "2-0", .leaf "2-1"]])
  let events ← dft root
  check (decide (events = [.opn "root"] ++ leafEvents "0" ++ leafEvents "1" ++ [.opn "2"] ++ leafEvents "2-0"
    ++ leafEvents "2-1" ++ [.cls "2", .cls "root"]))
  let reverse ← dfts (← collect RevDft.next (RevDft.start root))
  check (decide (reverse = [.cls "root", .cls "2", .cls "2-1", .opn "2-1", .cls "2-0", .opn "2-0", .opn "2",
    .cls "1", .opn "1", .cls "0", .opn "0", .opn "root"]))
  check (decide (events = reverse.reverse))
  let h ← heap
  check ((← datas (← collect Sib.next (Sib.children h root))) == ["0", "1", "2"])
  check ((← datas (← collect Sib.prev (← pureT (Sib.childrenReverse h root)))) == ["2", "1", "0"])

example : passes docTraverse = true := by decide +kernel

/-- Lines 1344, 1375: ancestors. -/
def docAncestors : T Unit := do
  let root ← newTree "root"
  let g ← grant root
  let _ ← mk (.token g) root "0"
  let child1 ← mk (.token g) root "1"
  let child1_0 ← mk (.token g) child1 "1-0"
  let h ← heap
  check ((← datas (← collect Sib.up (← pureT (Sib.ancestors h child1_0)))) == ["1", "root"])
  check ((← datas (← collect Sib.up (Sib.ancestorsOrSelf child1_0))) == ["1-0", "1", "root"])

example : passes docAncestors = true := by decide +kernel

/-- Lines 1404, 1437, 1470, 1501, 1534, 1565: siblings. -/
def docSiblings : T Unit := do
  let root ← newTree "root"
  let g ← grant root
  let _ ← mk (.token g) root "0"
  let child1 ← mk (.token g) root "1"
  let child2 ← mk (.token g) root "2"
  let _ ← mk (.token g) child2 "2-0"
  let h ← heap
  check ((← datas (← collect Sib.next (Sib.siblings h child1))) == ["0", "1", "2"])
  check ((← datas (← collect Sib.prev (← pureT (Sib.siblingsReverse h child1)))) == ["2", "1", "0"])
  check ((← datas (← collect Sib.prev (Sib.precedingOrSelfReverse child1))) == ["1", "0"])
  check ((← datas (← collect Sib.prev (← pureT (Sib.precedingReverse h child1)))) == ["0"])
  check ((← datas (← collect Sib.next (Sib.followingOrSelf child1))) == ["1", "2"])
  check ((← datas (← collect Sib.next (← pureT (Sib.following h child1)))) == ["2"])

example : passes docSiblings = true := by decide +kernel

/-- Line 1630: `detach_subtree`. -/
def docDetach : T Unit := do
  let root ← newTree "root"
  let g ← grant root
  let _ ← mk (.token g) root "0"
  let child1 ← mk (.token g) root "1"
  let child1_0 ← mk (.token g) child1 "1-0"
  let child1_1 ← mk (.token g) child1 "1-1"
  let child2 ← mk (.token g) root "2"
  let _ ← mk (.token g) child2 "2-0"
  ok (call (.detach (.token g) child1))
  check ((← look .root child1) != some root)
  let h ← heap
  each [child1, child1_0, child1_1] fun n => check (!h.belongsToSameTree root n)
  looks root (.branch "root" [.leaf "0", .branch "2" [.leaf "2-0"]])
  each [child1_0, child1_1] fun n => check (h.belongsToSameTree child1 n)
  looks child1 (.branch "1" [.leaf "1-0", .leaf "1-1"])

example : passes docDetach = true := by decide +kernel

/-- The tree of the examples of the creating methods: `root`, `0`, `1`, `1-0` (the last three are
returned after the tree). -/
def smallTree : T (TreeId × NodeId × NodeId × NodeId × NodeId) := do
  let root ← newTree "root"
  let g ← grant root
  let child0 ← mk (.token g) root "0"
  let child1 ← mk (.token g) root "1"
  let child1_0 ← mk (.token g) child1 "1-0"
  return (g, root, child0, child1, child1_0)

/-- Lines 1709, 1860. -/
def docFirstChild : T Unit := do
  let (g, _, _, child1, child1_0) ← smallTree
  let new ← mk (.token g) child1 "new" .firstChild
  goes .firstChild child1 (some new)
  goes .prevSibling child1_0 (some new)

/-- Lines 1738, 1899. -/
def docLastChild : T Unit := do
  let (g, _, _, child1, child1_0) ← smallTree
  let new ← mk (.token g) child1 "new" .lastChild
  goes .lastChild child1 (some new)
  goes .nextSibling child1_0 (some new)

/-- Lines 1767, 1943. -/
def docPrevSibling : T Unit := do
  let (g, _, child0, child1, _) ← smallTree
  let new ← mk (.token g) child1 "new" .previousSibling
  goes .nextSibling child0 (some new)
  goes .prevSibling child1 (some new)

/-- Lines 1796, 2007. -/
def docNextSibling : T Unit := do
  let (g, root, _, child1, _) ← smallTree
  let new ← mk (.token g) child1 "new" .nextSibling
  goes .lastChild root (some new)
  goes .nextSibling child1 (some new)

example : [docFirstChild, docLastChild, docPrevSibling, docNextSibling].all passes = true := by
  decide +kernel

/-- `create_node_as` panics where `try_create_node_as` fails (lines 1810-1817): a root has no siblings. -/
def docNoSiblings : T Unit := do
  let (g, root, _, _, _) ← smallTree
  fails (call (.create (.token g) root "new" .previousSibling)) .siblingsWithoutParent
  fails (call (.create (.token g) root "new" .nextSibling)) .siblingsWithoutParent

example : passes docNoSiblings = true := by decide +kernel

/-- The tree of the examples of the interrupting methods: `this` below `root`. -/
def interruptTree : T (TreeId × NodeId × NodeId) := do
  let root ← newTree "root"
  let g ← grant root
  let _ ← mk (.token g) root "prev"
  let this ← mk (.token g) root "this"
  each ["child0", "child1", "child2"] fun d => do let _ ← mk (.token g) this d
  let _ ← mk (.token g) root "next"
  return (g, root, this)

/-- Line 2088: `create_as_interrupting_parent`. -/
def docInterruptingParent : T Unit := do
  let (g, root, this) ← interruptTree
  let new ← node (call (.createParent (.token g) this "new"))
  looks root (.branch "root" [.leaf "prev",
    .branch "new" [.branch "this" [.leaf "child0", .leaf "child1", .leaf "child2"]], .leaf "next"])
  goes .root root (some root)
  goes .firstChild new (some this)
  goes .parent this (some new)
  check ((← numChildren new) == 1)
  check ((← numChildren this) == 3)

example : passes docInterruptingParent = true := by decide +kernel

/-- Line 2144: `create_as_interrupting_parent` of a root. -/
def docInterruptingParentOfRoot : T Unit := do
  let this ← newTree "this"
  let g ← grant this
  let _ ← mk (.token g) this "child0"
  let _ ← mk (.token g) this "child1"
  let new ← node (call (.createParent (.token g) this "new"))
  looks new (.branch "new" [.branch "this" [.leaf "child0", .leaf "child1"]])
  goes .root this (some new)
  goes .firstChild new (some this)
  goes .parent this (some new)
  check ((← numChildren new) == 1)
  check ((← numChildren this) == 2)

example : passes docInterruptingParentOfRoot = true := by decide +kernel

/-- Line 2191: `create_as_interrupting_child`. -/
def docInterruptingChild : T Unit := do
  let (g, root, this) ← interruptTree
  let new ← node (call (.createChild (.token g) this "new"))
  looks root (.branch "root" [.leaf "prev",
    .branch "this" [.branch "new" [.leaf "child0", .leaf "child1", .leaf "child2"]], .leaf "next"])
  goes .root root (some root)
  goes .firstChild this (some new)
  goes .parent new (some this)
  check ((← numChildren new) == 3)
  check ((← numChildren this) == 1)

example : passes docInterruptingChild = true := by decide +kernel

/-- `try_clone_subtree().expect(..)`. -/
def cloneSubtree (n : NodeId) : T NodeId := do
  match ← onWorld (Builder.tryCloneSubtree steps · n) with
  | .ok m => return m
  | .error _ => throw (.panic "data are currently not borrowed")

/-- Line 2332: `try_clone_subtree`. -/
def docClone : T Unit := do
  let (_, root, _, child1, _) ← smallTree
  let cloned ← cloneSubtree child1
  check (!(← heap).belongsToSameTree cloned root)
  check (← nodeEq cloned child1)

example : passes docClone = true := by decide +kernel

/-- The tree of the two examples with `InsertAs::PreviousSiblingOf(&node2_0_hot)`: the grant, `root`,
`1`, `2`, `2-0`, the last as a hot handle. -/
def graftTree : T (TreeId × NodeId × NodeId × NodeId × NodeId) := do
  let root ← newTree "root"
  let g ← grant root
  let _ ← mk (.token g) root "0"
  let node1 ← mk (.token g) root "1"
  let node1_0 ← mk (.token g) node1 "1-0"
  let _ ← mk (.token g) node1_0 "1-0-0"
  let _ ← mk (.token g) node1 "1-1"
  let node2 ← mk (.token g) root "2"
  let node2_0 ← mk (.token g) node2 "2-0"
  ok (call (.bundleWith .hot node2_0 g))
  return (g, root, node1, node2, node2_0)

/-- The copied or moved subtree. -/
def graft : Lit String := .branch "1" [.branch "1-0" [.leaf "1-0-0"], .leaf "1-1"]

/-- Line 2422: `try_clone_insert_subtree`. -/
def docCloneInsert : T Unit := do
  let (_, root, node1, _, hot) ← graftTree
  match ← onWorld (Builder.tryCloneInsert steps · node1 (.previousSiblingOf hot)) with
  | .error _ => throw (.panic "creating valid hierarchy")
  | .ok cloned => do
    check (cloned != node1)
    check ((← heap).belongsToSameTree cloned node1)
    looks root (.branch "root" [.leaf "0", graft, .branch "2" [graft, .leaf "2-0"]])

example : passes docCloneInsert = true := by decide +kernel

/-- Line 2540: `try_detach_insert_subtree`. -/
def docDetachInsert : T Unit := do
  let (g, root, node1, node2, hot) ← graftTree
  ok (call (.move (.token g) node1 (.previousSiblingOf hot)))
  goes .parent node1 (some node2)
  check ((← heap).belongsToSameTree node1 node2)
  looks root (.branch "root" [.leaf "0", .branch "2" [graft, .leaf "2-0"]])

example : passes docDetachInsert = true := by decide +kernel

/-- Line 2658 (`src/tree.rs` 310): `try_eq`; the second tree has the same type here. -/
def docTryEq : T Unit := do
  let node1 ← treeNode (.branch "root" [.branch "0" [.leaf "0-0", .branch "0-1" [.leaf "0-1-0"]], .leaf "1"])
  let node2 ← treeNode (.branch "0" [.leaf "0-0", .branch "0-1" [.leaf "0-1-0"]])
  check (!(← nodeEq node1 node2))
  let some first ← look .firstChild node1 | throw (.panic "node1 has a child")
  check (← nodeEq first node2)

example : passes docTryEq = true := by decide +kernel

/-- Line 2718: `to_events`. -/
def docToEvents : T Unit := do
  let root ← newTree "root"
  let g ← grant root
  let _ ← mk (.token g) root "0"
  let child1 ← mk (.token g) root "1"
  let _ ← mk (.token g) child1 "1-0"
  let _ ← mk (.token g) child1 "1-1"
  let child2 ← mk (.token g) root "2"
  let _ ← mk (.token g) child2 "2-0"
  check (decide ((← toEvents root) = [.opn "root", .opn "0", .close 1, .opn "1", .opn "1-0", .close 1,
    .opn "1-1", .close 2, .opn "2", .opn "2-0", .close 3]))

example : passes docToEvents = true := by decide +kernel

/-- `<str as Debug>::fmt` on the texts of the example: the quote, the pieces between the escapes, and the
escapes. -/
def strDebug (s : String) : List (List Char) :=
  ["\"".toList] ++ s.toList.map (fun c => if c = '\n' then "\\n".toList else [c]) ++ ["\"".toList]

/-- Line 2782 (`src/tree.rs` 462): `debug_pretty_print`. -/
def docPretty : T Unit := do
  let root ← treeNode (.branch "root" [.branch "0" [.leaf "0\n0", .leaf "0\n1"], .leaf "1",
    .branch "2" [.branch "2\n0" [.leaf "2\n0\n0"]]])
  check ((← pretty root strDebug) == lines [
    "\"root\"",
    "|-- \"0\"",
    "|   |-- \"0\\n0\"",
    "|   `-- \"0\\n1\"",
    "|-- \"1\"",
    "`-- \"2\"",
    "    `-- \"2\\n0\"",
    "        `-- \"2\\n0\\n0\""])
  check ((← pretty root) == lines [
    "root",
    "|-- 0",
    "|   |-- 0",
    "|   |   0",
    "|   `-- 0",
    "|       1",
    "|-- 1",
    "`-- 2",
    "    `-- 2",
    "        0",
    "        `-- 2",
    "            0",
    "            0"])

example : passes docPretty = true := by decide +kernel

/-! ## `src/node/frozen.rs` -/

/-- The tree of lines 887, 983 and 1061, as a frozen handle. -/
def frozenTree : T NodeId := do
  let n ← treeNode (.branch "root" [
    .branch "0" [.branch "0-0" [.leaf "0-0-0", .leaf "0-0-1"], .leaf "0-1", .branch "0-2" [.leaf "0-2-0"]],
    .branch "1" [.leaf "1-0"], .leaf "2"])
  check (← bundle .frozen n)
  return n

/-- The data of nodes with their depth. -/
def depths : List (NodeId × Nat) → T (List (String × Nat))
  | [] => return []
  | (n, d) :: l => do return ((← data n), d) :: (← depths l)

/-- Events with data and depth. -/
def depthEvents : List Shallow.Ev → T (List (DftEvent (String × Nat)))
  | [] => return []
  | .opn (n, d) :: l => do return .opn ((← data n), d) :: (← depthEvents l)
  | .cls (n, d) :: l => do return .cls ((← data n), d) :: (← depthEvents l)

/-- Line 887: `shallow_depth_first_traverse_stable`. -/
def docShallow : T Unit := do
  let n ← frozenTree
  let max0 ← depthEvents (← collect Shallow.next (Shallow.start n (some 0)))
  check (decide (max0 = [.opn ("root", 0), .cls ("root", 0)]))
  let max2 ← depthEvents (← collect Shallow.next (Shallow.start n (some 2)))
  check (decide (max2 = [.opn ("root", 0), .opn ("0", 1), .opn ("0-0", 2), .cls ("0-0", 2), .opn ("0-1", 2),
    .cls ("0-1", 2), .opn ("0-2", 2), .cls ("0-2", 2), .cls ("0", 1), .opn ("1", 1), .opn ("1-0", 2),
    .cls ("1-0", 2), .cls ("1", 1), .opn ("2", 1), .cls ("2", 1), .cls ("root", 0)]))
  let all ← depthEvents (← collect Shallow.next (Shallow.start n none))
  check (decide (all.map (·.map Prod.fst) = (← dft n)))

example : passes docShallow = true := by decide +kernel

/-- The nodes of the tree from depth 2 on, in breadth-first order. -/
def belowTwo : List (String × Nat) :=
  [("0-0", 2), ("0-1", 2), ("0-2", 2), ("1-0", 2), ("0-0-0", 3), ("0-0-1", 3), ("0-2-0", 3)]

/-- The nodes above depth 2. -/
def aboveTwo : List (String × Nat) := [("root", 0), ("0", 1), ("1", 1), ("2", 1)]

/-- Line 983: `non_allocating_breadth_first_traverse_stable`. -/
def docNonAllocating : T Unit := do
  let n ← frozenTree
  check (decide ((← depths (← collect NaBfs.next (NaBfs.start n 2))) = belowTwo))
  check (decide ((← depths (← collect NaBfs.next (NaBfs.start n 0))) = aboveTwo ++ belowTwo))

example : passes docNonAllocating = true := by decide +kernel

/-- Line 1061: `allocating_breadth_first_traverse_stable`. -/
def docAllocating : T Unit := do
  let n ← frozenTree
  let h ← heap
  check (decide ((← depths (← collect AlBfs.next (← pureT (AlBfs.start h n 2)))) = belowTwo))
  check (decide ((← depths (← collect AlBfs.next (← pureT (AlBfs.start h n 0)))) = aboveTwo ++ belowTwo))

example : passes docAllocating = true := by decide +kernel

/-! ## `src/tree.rs`, `src/tree/lock.rs`, `src/macros.rs` -/

/-- `tree!`. -/
def treeMacro (l : Lit String) : T TreeId := onWorld l.treeMacro

/-- `t.root()`. -/
def rootOf (t : TreeId) : T NodeId := node (call (.treeRoot t))

/-- `==` of `Tree`. -/
def treeEq (t u : TreeId) : T Bool := do
  match ← pureT ((← heap).treeTryEq (fun a b => a == b) t u) with
  | .ok b => return b
  | .error _ => throw (.panic "BorrowError")

/-- `src/tree.rs` 205, 228, 254; `src/tree/lock.rs` 253, 349: `root`, the tokens of a tree are valid for
its nodes only. -/
def docTokens : T Unit := do
  let tree ← treeMacro (.branch "root" [.leaf "0"])
  let root ← rootOf tree
  check ((← data root) == "root")
  let other ← newTree "bar"
  each [false, true] fun g => do
    ok (call (.acquire g tree))
    check (← belongs root tree)
    check (!(← belongs other tree))
    ok (call (.dropTok g tree))

example : passes docTokens = true := by decide +kernel

/-- `src/tree.rs` 278: `ptr_eq` and `==`. -/
def docTreePtrEq : T Unit := do
  let tree1 ← treeMacro (.leaf "root")
  let tree2 ← treeMacro (.leaf "root")
  check (← treeEq tree1 tree2)
  check (tree1 != tree2)

example : passes docTreePtrEq = true := by decide +kernel

/-- `src/tree.rs` 381: `try_clone_tree`. -/
def docCloneTree : T Unit := do
  let tree ← treeMacro (.branch "root" [.leaf "0", .branch "1" [.leaf "1-0", .leaf "1-1"], .leaf "2"])
  match ← onWorld (Builder.tryCloneTree steps · tree) with
  | .error _ => throw (.panic "data are currently not borrowed")
  | .ok cloned => do
    check (tree != cloned)
    check (← treeEq tree cloned)

example : passes docCloneTree = true := by decide +kernel

/-- `src/tree.rs` 431, 560: a weak handle to a tree. -/
def docTreeWeak : T Unit := do
  let tree ← treeMacro (.leaf "root")
  check (decide ((← call (.upgradeTree tree)) = .tree (some tree)))
  ok (call (.dropTree tree))
  ok (call (.dropTree tree))
  check (decide ((← call (.upgradeTree tree)) = .tree none))

example : passes docTreeWeak = true := by decide +kernel

/-- `src/macros.rs` 16: `tree_node!`. -/
def docMacro : T Unit := do
  let root ← treeNode (.branch "root" [.branch "0" [.leaf "0-0", .leaf "0-1"], .leaf "1",
    .branch "2" [.branch "2-0" [.leaf "2-0-0"], .leaf "2-1"]])
  check (decide ((← dft root) = [.opn "root", .opn "0"] ++ leafEvents "0-0" ++ leafEvents "0-1" ++ [.cls "0"]
    ++ leafEvents "1" ++ [.opn "2", .opn "2-0"] ++ leafEvents "2-0-0" ++ [.cls "2-0"] ++ leafEvents "2-1"
    ++ [.cls "2", .cls "root"]))

example : passes docMacro = true := by decide +kernel

/-! ## `src/serial.rs` -/

/-- A step of the builder followed by `?`. -/
def built (f : World String → Except Fault (World String × Builder × Except BuildError Unit)) : T Builder := do
  match ← onWorld f with
  | (b, .ok ()) => return b
  | _ => throw (.panic "TreeBuildError")

/-- Lines 201, 215, 247, 332, 358, 601, 628: a tree with one node. -/
def docBuildOne : T Unit := do
  let b := Builder.new
  check (!b.isRootClosed && !b.isRootAvailable)
  let b ← built (Builder.push · b (.opn "root"))
  check (!b.isRootClosed && b.isRootAvailable)
  let b ← built (Builder.push · b (.close 1))
  check (b.isRootClosed && b.isRootAvailable)
  match ← onWorld (Builder.finish · b) with
  | .error _ => throw (.panic "TreeBuildError")
  | .ok n => do
    check (← isRoot n)
    check (!(← heap).hasChildren n)
    check ((← data n) == "root")

example : passes docBuildOne = true := by decide +kernel

/-- Lines 229, 674, 706: `push_dft_event`, `push_dft_events`. -/
def docBuildDft : T Unit := do
  let src ← treeNode (.branch "root" [.leaf "0", .branch "1" [.leaf "1-0", .leaf "1-1"], .leaf "2"])
  let es ← collect Dft.next (Dft.start src)
  let b ← built (Builder.pushDftAll · Builder.new es)
  match ← onWorld (Builder.finish · b) with
  | .error _ => throw (.panic "TreeBuildError")
  | .ok n => do
    check (n != src)
    check (← nodeEq n src)

example : passes docBuildDft = true := by decide +kernel

/-- Lines 299, 373: `with_root`. -/
def docWithRoot : T Unit := do
  let root ← newHot "root"
  let child ← mk .hot root "child"
  clone .hot child
  let b ← onWorld (Builder.withRoot · child)
  check b.isRootAvailable
  let b ← built (Builder.push · b (.opn "grandchild"))
  let b ← built (Builder.push · b (.close 1))
  let r ← onWorld (Builder.finish · b)
  check r.isOk
  drop .plain child
  check ((← heap).hasChildren child)

example : passes docWithRoot = true := by decide +kernel

/-- Lines 398, 457: `push_events` and `finish`. -/
def docBuildEvents : T Unit := do
  let b ← built (Builder.pushAll · Builder.new [.opn "root", .opn "0", .opn "0-0", .close 1, .opn "0-1",
    .close 2, .opn "1", .close 1, .opn "2", .opn "2-0", .close 3])
  match ← onWorld (Builder.finish · b) with
  | .error _ => throw (.panic "root node is created")
  | .ok n => looks n (.branch "root" [.branch "0" [.leaf "0-0", .leaf "0-1"], .leaf "1",
      .branch "2" [.leaf "2-0"]])

example : passes docBuildEvents = true := by decide +kernel

/-- Lines 514, 547: `open` and `close`. -/
def docOpenClose : T Unit := do
  let b ← built (Builder.opn · Builder.new "root")
  let b ← built (Builder.opn · b "child")
  let b ← built (Builder.opn · b "grandchild")
  let b ← built (Builder.close · b 1)
  check (!b.isRootClosed)
  let b ← built (Builder.close · b 2)
  check b.isRootClosed

example : passes docOpenClose = true := by decide +kernel

/-! ## `src/lib.rs` -/

/-- Line 24: any handle keeps the whole tree alive, and nothing is leaked. -/
def docAlive : T Unit := do
  let root ← newTree "root"
  let g ← grant root
  let child0 ← mk (.token g) root "child0"
  let child1 ← mk (.token g) root "child1"
  let child1_0 ← mk (.token g) child1 "child1_0"
  ok (call (.dropTok true g))
  drop .plain root
  drop .plain child0
  drop .plain child1
  goes .root child1_0 (some root)
  check ((← data root) == "root")
  let tree ← treeOf .plain child1_0
  drop .plain child1_0
  let r ← rootOf tree
  goes .firstChild r (some child0)
  check ((← data child0) == "child0")
  drop .plain r
  check ((← count) == 4)
  ok (call (.dropTree tree))
  check ((← count) == 0)

example : passes docAlive = true := by decide +kernel

/-- Line 68: a children iterator remembers the node it returns next. -/
def docCache : T Unit := do
  let root ← treeNode (.branch "root" [.leaf "0", .leaf "1", .leaf "2"])
  let g ← grant root
  -- the iterator holds its node
  let first ← node (call (.nav .plain .firstChild root))
  let children := Sib.children (← heap) root
  check (decide (children = some first))
  let again ← node (call (.nav .plain .firstChild root))
  ok (call (.detach (.token g) again))
  drop .plain again
  check ((← datas (← collect Sib.next children)) == ["0"])

example : passes docCache = true := by decide +kernel

/-- Line 93 (`should_panic`): no grant while the hierarchy is prohibited. -/
def docFreezer : T Unit := do
  let tree ← treeMacro (.leaf "root")
  ok (call (.acquire false tree))
  panics (ok (call (.acquire true tree)))

example : passes docFreezer = true := by decide +kernel

/-- Line 118: several prohibitions. -/
def docFreezers : T Unit := do
  let tree ← treeMacro (.leaf "root")
  each [1, 2, 3] fun (_ : Nat) => ok (call (.acquire false tree))
  check (decide ((← call (.acquire true tree)) = .denied))
  each [1, 2, 3] fun (_ : Nat) => ok (call (.dropTok false tree))
  ok (call (.acquire true tree))
  check (decide ((← call (.acquire false tree)) = .denied))

example : passes docFreezers = true := by decide +kernel

/-- Line 166: the two macros. -/
def docMacros : T Unit := do
  let l : Lit String := .branch "root" [.leaf "0", .branch "1" [.branch "1-0" [.leaf "1-0-0"], .leaf "1-1"]]
  let root1 ← treeNode l
  let tree1 ← treeOf .plain root1
  let tree2 ← treeMacro l
  let root2 ← rootOf tree2
  check (← nodeEq root1 root2)
  check (← treeEq tree1 tree2)

example : passes docMacros = true := by decide +kernel

end Dendron.Conformance
