import Verif.Conformance.Harness

/-!
# The tests of the crate, run on the model

`/repo/tests/*.rs` and the test modules of `/repo/src`, each transcribed under the name of its
function.  The two tests with 140000 nodes (`tests/tree_drop.rs` 187-230) are run with 30, since they are
about the stack of the machine, which the model does not have.
-/

set_option autoImplicit false

namespace Dendron.Conformance

/-- `n.clone().bundle_new_hierarchy_edit_grant()` / `_prohibition()`: is it `Ok`?  The handle that a
successful call returns is kept. -/
def cloneBundle (k : Kind) (n : NodeId) : T Bool := do
  clone .plain n
  bundle k n

/-! ## `tests/grant_prohibition_conflicts.rs`

The four tests of each module differ in what is acquired first (a handle or a token) and in what is tried
then. -/

/-- `prohibition_first::frozen_node_prevents_hot_node_creation` (7-30),
`grant_first::hot_node_prevents_frozen_node_creation` (115-138): `first` is the kind acquired first. -/
def nodePreventsNode (first second : Kind) : T Unit := do
  let root ← newTree "()"
  check (← cloneBundle first root)
  check (!(← cloneBundle second root))
  check (← cloneBundle first root)
  drop first root
  check (!(← cloneBundle second root))
  drop first root
  check (← bundle second root)

example : passes (nodePreventsNode .frozen .hot) = true := by decide +kernel
example : passes (nodePreventsNode .hot .frozen) = true := by decide +kernel

/-- `prohibition_first::frozen_node_prevents_grant` (32-55),
`grant_first::hot_node_prevents_prohibition` (140-163). -/
def nodePreventsToken (first : Kind) (second : Bool) : T Unit := do
  let root ← newTree "()"
  check (← cloneBundle first root)
  check ((← tryLock second root) == none)
  check (← cloneBundle first root)
  drop first root
  check ((← tryLock second root) == none)
  drop first root
  check ((← tryLock second root) != none)

example : passes (nodePreventsToken .frozen true) = true := by decide +kernel
example : passes (nodePreventsToken .hot false) = true := by decide +kernel

/-- `prohibition_first::prohibition_prevents_hot_node_creation` (57-80),
`grant_first::grant_prevents_frozen_node_creation` (165-185). -/
def tokenPreventsNode (first : Bool) (second : Kind) : T Unit := do
  let root ← newTree "()"
  let some t ← tryLock first root | throw (.panic "should success")
  check (!(← cloneBundle second root))
  check ((← tryLock first root) == some t)
  ok (call (.dropTok first t))
  check (!(← cloneBundle second root))
  ok (call (.dropTok first t))
  check (← bundle second root)

example : passes (tokenPreventsNode false .hot) = true := by decide +kernel
example : passes (tokenPreventsNode true .frozen) = true := by decide +kernel

/-- `prohibition_first::prohibition_prevents_grant` (82-105),
`grant_first::grant_prevents_prohibition` (187-207). -/
def tokenPreventsToken (first second : Bool) : T Unit := do
  let root ← newTree "()"
  let some t ← tryLock first root | throw (.panic "should success")
  check ((← tryLock second root) == none)
  check ((← tryLock first root) == some t)
  ok (call (.dropTok first t))
  check ((← tryLock second root) == none)
  ok (call (.dropTok first t))
  check ((← tryLock second root) == some t)

example : passes (tokenPreventsToken false true) = true := by decide +kernel
example : passes (tokenPreventsToken true false) = true := by decide +kernel

/-! ## `tests/tree_drop.rs`

The counter of the tests counts the values of the node type that are alive. -/

/-- `drop_single_node_tree` (50-59). -/
def dropSingleNodeTree : T Unit := do
  let root ← newHot "()"
  check ((← count) == 1)
  check (← isRoot root)
  drop .hot root
  check ((← count) == 0)

example : passes dropSingleNodeTree = true := by decide +kernel

/-- `drop_nested_node_tree` (61-97). -/
def dropNestedNodeTree : T Unit := do
  let root ← newHot "()"
  let child0 ← mk .hot root "()"
  let child1 ← mk .hot root "()"
  let child0_0 ← mk .hot child0 "()"
  check ((← count) == 4)
  drop .hot root
  check ((← count) == 4)
  drop .hot child0
  check ((← count) == 4)
  drop .hot child1
  check ((← count) == 4)
  drop .hot child0_0
  check ((← count) == 0)

example : passes dropNestedNodeTree = true := by decide +kernel

/-- `drop_detached_tree` (99-185). -/
def dropDetachedTree : T Unit := do
  let root ← newHot "()"
  let child0 ← mk .hot root "()"
  let child1 ← mk .hot root "()"
  let child0_0 ← mk .hot child0 "()"
  let child0_1 ← mk .hot child0 "()"
  let child1_0 ← mk .hot child1 "()"
  check ((← count) == 6)
  each [root, child0, child1, child0_0, child0_1, child1_0] fun n => goes .root n (some root) .hot
  check (← isRoot root)
  each [child0, child1, child0_0, child0_1, child1_0] fun n => do check (!(← isRoot n))
  ok (call (.detach .hot child0))
  check ((← count) == 6)
  each [root, child1, child1_0] fun n => goes .root n (some root) .hot
  each [child0, child0_0, child0_1] fun n => goes .root n (some child0) .hot
  each [root, child0] fun n => do check (← isRoot n)
  each [child1, child1_0, child0_0, child0_1] fun n => do check (!(← isRoot n))
  drop .hot root
  check ((← count) == 6)
  each [child1, child1_0] fun n => do check (!(← isRoot n))
  drop .hot child1
  check ((← count) == 6)
  check (!(← isRoot child1_0))
  drop .hot child1_0
  check ((← count) == 3)
  drop .hot child0
  check ((← count) == 3)
  each [child0_0, child0_1] fun n => do check (!(← isRoot n))
  drop .hot child0_1
  check ((← count) == 3)
  check (!(← isRoot child0_0))
  drop .hot child0_0
  check ((← count) == 0)

example : passes dropDetachedTree = true := by decide +kernel

/-- The loop of `drop_very_deep_tree`: `current = current.create_as_last_child(..)`, the old handle is
dropped; at the end `current` is dropped. -/
def deepen : Nat → NodeId → T Unit
  | 0, current => drop .hot current
  | k + 1, current => do
    let m ← mk .hot current "()"
    drop .hot current
    deepen k m

/-- `drop_very_deep_tree` (187-210). -/
def dropDeepTree (depth : Nat) : T Unit := do
  let root ← newHot "()"
  clone .hot root
  deepen (depth - 1) root
  check ((← count) == depth)
  drop .hot root
  check ((← count) == 0)

example : passes (dropDeepTree 30) = true := by decide +kernel

/-- `drop_very_wide_tree` (212-230). -/
def dropWideTree (width : Nat) : T Unit := do
  let root ← newHot "()"
  each (List.range width) fun _ => do
    let m ← mk .hot root "()"
    drop .hot m
  check ((← count) == width + 1)
  drop .hot root
  check ((← count) == 0)

example : passes (dropWideTree 30) = true := by decide +kernel

/-! ## `tests/node_replace_with_children.rs` -/

/-- `replace_root_without_children` (13-25). -/
def replaceRootWithoutChildren : T Unit := do
  let root ← newHot "root"
  fails (call (.replace .hot root)) .emptyTree

example : passes replaceRootWithoutChildren = true := by decide +kernel

/-- `n.tree().root().ptr_eq(&n.plain())` for a hot `n`. -/
def isRootOfTree (n : NodeId) : T Bool := do
  let t ← treeOf .hot n
  let r ← node (call (.treeRoot t))
  ok (call (.plainOf .hot n))
  drop .plain n
  drop .plain r
  ok (call (.dropTree t))
  return r == n

/-- `replace_root_with_single_child` (27-53). -/
def replaceRootWithSingleChild : T Unit := do
  let root ← newHot "root"
  let oldTree ← treeOf .hot root
  let child ← mk .hot root "child"
  check (← isRoot root)
  check (← belongs root oldTree)
  check (← isRootOfTree root)
  check (!(← isRoot child))
  check (← belongs child oldTree)
  check (!(← isRootOfTree child))
  ok (call (.replace .hot root))
  check (← isRoot root)
  check (!(← belongs root oldTree))
  check (← isRootOfTree root)
  check (← isRoot child)
  check (← belongs child oldTree)
  check (← isRootOfTree child)

example : passes replaceRootWithSingleChild = true := by decide +kernel

/-- `replace_root_with_multiple_children` (55-68). -/
def replaceRootWithMultipleChildren : T Unit := do
  let root ← newHot "root"
  each ["child0", "child1"] fun d => do
    let m ← mk .hot root d
    drop .hot m
  fails (call (.replace .hot root)) .siblingsWithoutParent

example : passes replaceRootWithMultipleChildren = true := by decide +kernel

/-- `format!("{name}{i}")`. -/
def label (name : String) (i : Nat) : String := name ++ toString i

/-- `create_source_tree_with_params` (108-123). -/
def sourceTree (prev next kids : Nat) : T (NodeId × NodeId) := do
  let root ← newHot "root"
  let target ← mk .hot root "target"
  each (List.range prev) fun i => do drop .hot (← mk .hot root (label "prev" i) .firstChild)
  each (List.range next) fun i => do drop .hot (← mk .hot root (label "next" i) .lastChild)
  each (List.range kids) fun i => do drop .hot (← mk .hot target (label "child" i) .lastChild)
  return (root, target)

/-- `create_result_events_with_params` (125-150). -/
def resultEvents (prev next kids : Nat) : List (DftEvent String) :=
  let leaf (name : String) (i : Nat) : List (DftEvent String) := [.opn (label name i), .cls (label name i)]
  [.opn "root"] ++ ((List.range prev).reverse.map (leaf "prev")).flatten
    ++ ((List.range kids).map (leaf "child")).flatten ++ ((List.range next).map (leaf "next")).flatten
    ++ [.cls "root"]

/-- The body of the loop of `replace_non_root` (152-193). -/
def replaceNonRoot (prev next kids : Nat) : T Unit := do
  let (root, target) ← sourceTree prev next kids
  let oldTree ← treeOf .hot root
  check (← isRoot root)
  check (← belongs root oldTree)
  check (← isRootOfTree root)
  check (!(← isRoot target))
  check (← belongs target oldTree)
  check (!(← isRootOfTree target))
  ok (call (.replace .hot target))
  check (← isRoot root)
  check (← belongs root oldTree)
  check (← isRootOfTree root)
  check (← isRoot target)
  check (!(← belongs target oldTree))
  check (← isRootOfTree target)
  check (decide ((← dft root) = resultEvents prev next kids))

/-- `replace_non_root` (152-193): all 27 configurations, each from the start. -/
example : ([0, 1, 2].all fun prev => [0, 1, 2].all fun next => [0, 1, 2].all fun kids =>
    passes (replaceNonRoot prev next kids)) = true := by decide +kernel

/-! ## `tests/pretty_debug_print.rs`

A label is a string of digits. -/

/-- `sample_tree` (42-80). -/
def sampleLabels : Lit String :=
  .branch "" [.leaf "0",
    .branch "1" [.branch "10" [.leaf "100"], .leaf "11", .branch "12" [.leaf "120"]],
    .branch "2" [.branch "20" [.leaf "200"], .branch "21" [.leaf "210"]]]

/-- `<Vec<i32> as Debug>::fmt`, not alternate. -/
def vecDebug (s : String) : List (List Char) :=
  ["[".toList] ++ ((s.toList.map fun c => [[c]]).intersperse [", ".toList]).flatten ++ ["]".toList]

/-- `<Vec<i32> as Debug>::fmt`, alternate: the entries are written through `PadAdapter`. -/
def vecDebugAlternate (s : String) : List (List Char) :=
  match s.toList with
  | [] => ["[".toList, "]".toList]
  | cs => ["[".toList, "\n".toList]
    ++ (cs.map fun c => ["    ".toList, [c], ",\n".toList]).flatten ++ ["]".toList]

/-- `<Label as Display>::fmt` (20-35): the separator depends on `f.alternate()`. -/
def labelDisplay (sep : String) (s : String) : List (List Char) :=
  match s.toList with
  | [] => ["root".toList]
  | c :: cs => [c] :: (cs.map fun c => [sep.toList, [c]]).flatten

/-- `format!(.., sample_tree().debug_pretty_print())`. -/
def printsSample (fmt : String → List (List Char)) (expected : List String) : T Unit := do
  let n ← treeNode sampleLabels
  check ((← pretty n fmt) == lines expected)
  drop .plain n

/-- `debug` (79-99). -/
example : passes (printsSample vecDebug [
    "[]",
    "|-- [0]",
    "|-- [1]",
    "|   |-- [1, 0]",
    "|   |   `-- [1, 0, 0]",
    "|   |-- [1, 1]",
    "|   `-- [1, 2]",
    "|       `-- [1, 2, 0]",
    "`-- [2]",
    "    |-- [2, 0]",
    "    |   `-- [2, 0, 0]",
    "    `-- [2, 1]",
    "        `-- [2, 1, 0]"]) = true := by decide +kernel

/-- `debug_alternate` (101-158). -/
example : passes (printsSample vecDebugAlternate [
    "[]",
    "|-- [",
    "|       0,",
    "|   ]",
    "|-- [",
    "|       1,",
    "|   ]",
    "|   |-- [",
    "|   |       1,",
    "|   |       0,",
    "|   |   ]",
    "|   |   `-- [",
    "|   |           1,",
    "|   |           0,",
    "|   |           0,",
    "|   |       ]",
    "|   |-- [",
    "|   |       1,",
    "|   |       1,",
    "|   |   ]",
    "|   `-- [",
    "|           1,",
    "|           2,",
    "|       ]",
    "|       `-- [",
    "|               1,",
    "|               2,",
    "|               0,",
    "|           ]",
    "`-- [",
    "        2,",
    "    ]",
    "    |-- [",
    "    |       2,",
    "    |       0,",
    "    |   ]",
    "    |   `-- [",
    "    |           2,",
    "    |           0,",
    "    |           0,",
    "    |       ]",
    "    `-- [",
    "            2,",
    "            1,",
    "        ]",
    "        `-- [",
    "                2,",
    "                1,",
    "                0,",
    "            ]"]) = true := by decide +kernel

/-- `display` (160-177). -/
example : passes (printsSample (labelDisplay "/") [
    "root",
    "|-- 0",
    "|-- 1",
    "|   |-- 1/0",
    "|   |   `-- 1/0/0",
    "|   |-- 1/1",
    "|   `-- 1/2",
    "|       `-- 1/2/0",
    "`-- 2",
    "    |-- 2/0",
    "    |   `-- 2/0/0",
    "    `-- 2/1",
    "        `-- 2/1/0"]) = true := by decide +kernel

/-- `display_alternate` (179-199). -/
example : passes (printsSample (labelDisplay " -> ") [
    "root",
    "|-- 0",
    "|-- 1",
    "|   |-- 1 -> 0",
    "|   |   `-- 1 -> 0 -> 0",
    "|   |-- 1 -> 1",
    "|   `-- 1 -> 2",
    "|       `-- 1 -> 2 -> 0",
    "`-- 2",
    "    |-- 2 -> 0",
    "    |   `-- 2 -> 0 -> 0",
    "    `-- 2 -> 1",
    "        `-- 2 -> 1 -> 0"]) = true := by decide +kernel

/-! ## `src/node/edit.rs` 792-861 -/

/-- `num_children_after_replace_with_children` (796-831). -/
def numChildrenAfterReplace : T Unit := do
  let root ← newHot "root"
  let child0 ← mk .hot root "0"
  let child1 ← mk .hot root "1"
  let child1_0 ← mk .hot child1 "1-0"
  let child1_1 ← mk .hot child1 "1-1"
  let child1_2 ← mk .hot child1 "1-2"
  let child2 ← mk .hot root "2"
  each [(root, 3), (child0, 0), (child1, 3), (child1_0, 0), (child1_1, 0), (child1_2, 0), (child2, 0)]
    fun (n, k) => do check ((← numChildren n) == k)
  ok (call (.replace .hot child1))
  each [(root, 5), (child0, 0), (child1_0, 0), (child1_1, 0), (child1_2, 0), (child2, 0), (child1, 0)]
    fun (n, k) => do check ((← numChildren n) == k)

example : passes numChildrenAfterReplace = true := by decide +kernel

/-- `num_children_after_replace_root_with_children` (833-860). -/
def numChildrenAfterReplaceOnly : T Unit := do
  let root ← newHot "root"
  let child0 ← mk .hot root "0"
  let child0_0 ← mk .hot child0 "0-0"
  let child0_1 ← mk .hot child0 "0-1"
  let child0_2 ← mk .hot child0 "0-2"
  each [(root, 1), (child0, 3), (child0_0, 0), (child0_1, 0), (child0_2, 0)]
    fun (n, k) => do check ((← numChildren n) == k)
  ok (call (.replace .hot child0))
  each [(root, 3), (child0_0, 0), (child0_1, 0), (child0_2, 0), (child0, 0)]
    fun (n, k) => do check ((← numChildren n) == k)

example : passes numChildrenAfterReplaceOnly = true := by decide +kernel

/-! ## `src/serial.rs` 797-930 -/

/-- `matches!(r, Err(e))`. -/
def isErr {β : Type} (r : Except BuildError β) (e : BuildError) : Bool :=
  match r with
  | .error e' => decide (e' = e)
  | .ok _ => false

/-- `builder::root_not_opened` (809-816). -/
def rootNotOpened : T Unit := do
  check (isErr (← onWorld (Builder.finish · Builder.new)) .rootNotOpened)

example : passes rootNotOpened = true := by decide +kernel

/-- `builder::excessive_close` (818-823). -/
def excessiveClose : T Unit := do
  let (b, r) ← onWorld (Builder.opn · Builder.new "root")
  check r.isOk
  let (_, r) ← onWorld (Builder.close · b 2)
  check (isErr r .rootClosed)

example : passes excessiveClose = true := by decide +kernel

/-- `sample_events` (837-853). -/
def sampleEvents : List (Event String) :=
  [.opn "root", .opn "0", .close 1, .opn "1", .opn "1-0", .close 1, .opn "1-1", .close 1, .opn "1-2",
    .opn "1-2-0", .close 3, .opn "2", .close 2]

/-- `DFT_EVENTS` (855-872). -/
def sampleDftEvents : List (DftEvent String) :=
  [.opn "root", .opn "0", .cls "0", .opn "1", .opn "1-0", .cls "1-0", .opn "1-1", .cls "1-1", .opn "1-2",
    .opn "1-2-0", .cls "1-2-0", .cls "1-2", .cls "1", .opn "2", .cls "2", .cls "root"]

/-- `event_streaming::check_events` (881-890). -/
def checkEvents : T Unit := do
  let root ← fromEvents sampleEvents
  check (decide ((← dft root) = sampleDftEvents))

example : passes checkEvents = true := by decide +kernel

/-- `event_streaming::roundtrip_from_events` (893-909). -/
def roundtripFromEvents : T Unit := do
  let root ← fromEvents sampleEvents
  check (decide ((← toEvents root) = sampleEvents))

example : passes roundtripFromEvents = true := by decide +kernel

/-- `event_streaming::collect_dft_events` (912-928). -/
def collectDftEvents : T Unit := do
  let root ← fromEvents sampleEvents
  let es ← collect Dft.next (Dft.start root)
  match ← onWorld (Builder.fromDftEvents · es) with
  | .ok cloned => check (decide ((← toEvents cloned) = sampleEvents))
  | .error _ => throw (.panic "tree should be traversable and events should be consistent")

example : passes collectDftEvents = true := by decide +kernel

end Dendron.Conformance
