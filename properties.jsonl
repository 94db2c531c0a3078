{"id": "C01", "title": "Sibling navigation is coherent", "statement": "In every reachable state there is one ordered list of children per node, and first_child, last_child, next_sibling, prev_sibling, first_sibling, last_sibling, first_last_child, first_last_sibling, has_prev_sibling, has_next_sibling, parent and is_root all report exactly what that list says; none of them panics.", "quantifier": "all histories of API calls, all nodes", "why_tests_cant": "quantifies over an unbounded set of tree shapes and edit histories; tests visit finitely many", "anchors": ["src/node/plain.rs: Node::{parent,first_child,last_child,prev_sibling,next_sibling,first_sibling,last_sibling}", "src/node/internal.rs: NodeCoreLink getters"]}
{"id": "C02", "title": "Child counts are exact", "statement": "num_children, has_children, has_one_child, has_multiple_children and count_children always agree with the number of children enumerated by following first_child/next_sibling.", "quantifier": "all histories, all nodes", "why_tests_cant": "quantifies over an unbounded set of tree shapes and edit histories; tests visit finitely many", "anchors": ["src/node/plain.rs: Node::{num_children,has_children,has_one_child,has_multiple_children,count_children}", "src/node/internal.rs: num_children_add, num_children_sub"]}
{"id": "C03", "title": "Position counts are exact", "statement": "count_preceding_siblings and count_following_siblings split the sibling list around the node (their sum is the number of siblings minus one), and count_ancestors is the depth of the node; all three terminate.", "quantifier": "all reachable states, all nodes", "why_tests_cant": "quantifies over an unbounded set of tree shapes and edit histories; tests visit finitely many", "anchors": ["src/node/plain.rs: Node::{count_preceding_siblings,count_following_siblings,count_ancestors}"]}
{"id": "C04", "title": "Tree, root and membership agree", "statement": "Every node has a living tree; root() is the unique node of that tree without a parent and is the last element of ancestors_or_self(); is_root holds exactly for it; a node and its parent always belong to the same tree; belongs_to / belongs_to_same_tree are exactly equality of tree().", "quantifier": "all reachable states, all nodes and trees", "why_tests_cant": "quantifies over an unbounded set of tree shapes and edit histories; tests visit finitely many", "anchors": ["src/node/plain.rs: Node::{tree,root,is_root,belongs_to,belongs_to_same_tree}", "src/tree.rs: Tree::root", "src/node/membership.rs"]}
{"id": "C05", "title": "create_as_first_child / create_as_last_child", "statement": "The new node is a leaf with the given data, becomes exactly the first (last) child of the target, belongs to the target's tree; no other child list, parent, data or membership changes.", "quantifier": "all well-formed states, all target nodes, all data", "why_tests_cant": "quantifies over an unbounded set of tree shapes and edit histories; tests visit finitely many", "anchors": ["src/node/plain.rs: create_as_first_child, create_as_last_child", "src/node/edit.rs: insert_as_first_child_of, insert_as_last_child_of"]}
{"id": "C06", "title": "create_as_prev_sibling / create_as_next_sibling", "statement": "On a non-root target the new leaf is inserted immediately before (after) the target in the parent's child list and nothing else changes. On a root target the call returns SiblingsWithoutParent.", "quantifier": "all well-formed states, all target nodes, all data", "why_tests_cant": "quantifies over an unbounded set of tree shapes and edit histories; tests visit finitely many", "anchors": ["src/node/plain.rs: try_create_as_prev_sibling, try_create_as_next_sibling", "src/node/edit.rs: OrphanRoot::insert, insert_between"]}
{"id": "C07", "title": "A failed node creation has no effect", "statement": "When try_create_node_as / try_create_as_*_sibling return an error, every node, child list, tree, lock and reference count is as before, and no node is leaked.", "quantifier": "all well-formed states, all targets and positions", "why_tests_cant": "quantifies over every state in which the call can fail", "anchors": ["src/node/edit.rs: create_and_process, try_create_node_as", "src/node/plain.rs: try_create_node_as"]}
{"id": "C08", "title": "create_as_interrupting_parent", "statement": "The new node takes exactly the target's position among its siblings (or becomes the tree's root if the target was the root) and the target becomes its only child; all other relations are unchanged.", "quantifier": "all well-formed states, all targets", "why_tests_cant": "quantifies over an unbounded set of tree shapes and edit histories; tests visit finitely many", "anchors": ["src/node/edit.rs: create_as_interrupting_parent"]}
{"id": "C09", "title": "create_as_interrupting_child", "statement": "The new node becomes the only child of the target and receives the former children of the target in the same order; all other relations are unchanged.", "quantifier": "all well-formed states, all targets (any number of children)", "why_tests_cant": "quantifies over an unbounded set of tree shapes and edit histories; tests visit finitely many", "anchors": ["src/node/edit.rs: create_as_interrupting_child"]}
{"id": "C10", "title": "try_replace_with_children result", "statement": "On success the children of the node take its place, in order, in the parent's child list (or the single child becomes the new root), the node becomes the root of a fresh single-node tree, and every navigation method reports this new shape.", "quantifier": "all well-formed states, all nodes", "why_tests_cant": "quantifies over an unbounded set of tree shapes and edit histories; tests visit finitely many", "anchors": ["src/node/edit.rs: try_replace_with_children"]}
{"id": "C11", "title": "try_replace_with_children errors", "statement": "It fails exactly when the node is a root with zero children (EmptyTree) or a root with two or more (SiblingsWithoutParent); a failed call changes nothing.", "quantifier": "all well-formed states, all nodes", "why_tests_cant": "quantifies over an unbounded set of tree shapes and edit histories; tests visit finitely many", "anchors": ["src/node/edit.rs: try_replace_with_children"]}
{"id": "C12", "title": "detach_subtree result", "statement": "Detaching a non-root node removes exactly that node from its parent's child list, makes the subtree (same shape, same nodes, same data) a new tree whose members are exactly the subtree, and leaves the rest unchanged with all navigation methods coherent. Detaching a root is a no-op.", "quantifier": "all well-formed states, all nodes", "why_tests_cant": "quantifies over an unbounded set of tree shapes and edit histories; tests visit finitely many", "anchors": ["src/node/edit.rs: detach_subtree, new_by_unlink, create_new_tree", "src/node/plain.rs: detach_subtree"]}
{"id": "C13", "title": "detach_subtree forward structure", "statement": "After detaching any non-root node, the parent's children enumerated forward (first_child/next_sibling), num_children, all parent links, the detached subtree and all memberships are right for every position of the node among its siblings.", "quantifier": "all well-formed states, all non-root nodes, every sibling position", "why_tests_cant": "quantifies over an unbounded set of tree shapes and edit histories; tests visit finitely many", "anchors": ["src/node/edit.rs: new_by_unlink, set_memberships_of_descendants_and_self"]}
{"id": "C14", "title": "Moving a subtree inside one tree", "statement": "try_detach_insert_subtree to a place outside the moved subtree removes the node from its old position and inserts it at the requested position (first/last child, previous/next sibling of the anchor), keeping the moved subtree intact and everything else unchanged and coherent.", "quantifier": "all well-formed states, all nodes and destinations in the same tree", "why_tests_cant": "quantifies over an unbounded set of tree shapes and edit histories; tests visit finitely many", "anchors": ["src/node/edit.rs: detach_and_move_inside_same_tree", "src/node/plain.rs: try_detach_insert_subtree"]}
{"id": "C15", "title": "Moving a subtree to another tree", "statement": "try_detach_insert_subtree to a destination in another tree moves the subtree there; all its nodes become members of the destination tree, nothing else changes.", "quantifier": "all well-formed states, all nodes and destinations in other trees", "why_tests_cant": "quantifies over an unbounded set of tree shapes and edit histories; tests visit finitely many", "anchors": ["src/node/edit.rs: detach_and_move_to_another_tree"]}
{"id": "C16", "title": "Moving a node below itself is rejected", "statement": "try_detach_insert_subtree with a destination inside the moved subtree fails with AncestorDescendantLoop and never creates a cycle (documented for HierarchyError).", "quantifier": "all well-formed states, all nodes and destinations inside their own subtree", "why_tests_cant": "quantifies over an unbounded set of tree shapes and edit histories; tests visit finitely many", "anchors": ["src/node/edit.rs: is_ancestor_of, is_newly_created", "src/node.rs: HierarchyError"]}
{"id": "C17", "title": "A failed move has no effect", "statement": "If try_detach_insert_subtree returns an error, the hierarchy, memberships and locks are unchanged.", "quantifier": "all well-formed states, all nodes, all destinations", "why_tests_cant": "quantifies over an unbounded set of tree shapes and edit histories; tests visit finitely many", "anchors": ["src/node/edit.rs: detach_and_move_inside_same_tree, detach_and_move_to_another_tree"]}
{"id": "C18", "title": "Moving a whole tree keeps its nodes", "statement": "Moving the root of a tree into another tree keeps all nodes of the subtree alive and linked, whatever handles the user holds or drops afterwards.", "quantifier": "all well-formed states, all handle configurations", "why_tests_cant": "depends on which handles exist and when they are dropped", "anchors": ["src/node/edit.rs: detach_and_move_to_another_tree", "src/tree.rs: Drop for TreeCore"]}
{"id": "C19", "title": "Depth-first traversal", "statement": "depth_first_traverse yields exactly the pre/post-order Open/Close event sequence of the subtree, each node opened and closed exactly once, properly nested, ending with Close of the start node and then None forever.", "quantifier": "all well-formed states, all start nodes", "why_tests_cant": "quantifies over an unbounded set of tree shapes and edit histories; tests visit finitely many", "anchors": ["src/traverse/depth_first.rs: DepthFirstTraverser, DftEvent::next", "src/node/plain.rs: depth_first_traverse"]}
{"id": "C20", "title": "Reverse depth-first traversal", "statement": "depth_first_reverse_traverse yields exactly the reverse of the forward event sequence.", "quantifier": "all well-formed states, all start nodes", "why_tests_cant": "quantifies over an unbounded set of tree shapes and edit histories; tests visit finitely many", "anchors": ["src/traverse/depth_first.rs: ReverseDepthFirstTraverser, DftEvent::prev"]}
{"id": "C21", "title": "children, siblings and ancestors iterators", "statement": "children/siblings/following_siblings(_or_self) yield the corresponding segment of the child list in order, the *_reverse variants the same in reverse order, ancestors(_or_self) the path to the root; then None.", "quantifier": "all well-formed states, all nodes", "why_tests_cant": "quantifies over an unbounded set of tree shapes and edit histories; tests visit finitely many", "anchors": ["src/traverse/siblings.rs: SiblingsTraverser, ReverseSiblingsTraverser", "src/traverse/ancestors.rs: AncestorsTraverser"]}
{"id": "C22", "title": "Stable depth-first traversal", "statement": "depth_first_traverse_stable yields exactly the events of the subtree; it is double-ended: under any interleaving of next and next_back each event is yielded exactly once.", "quantifier": "all well-formed states, start nodes, interleavings of next/next_back", "why_tests_cant": "quantifies over all interleavings", "anchors": ["src/traverse/depth_first.rs: StableDepthFirstTraverser", "src/node/frozen.rs: depth_first_traverse_stable"]}
{"id": "C23", "title": "Shallow depth-first traversal", "statement": "shallow_depth_first_traverse_stable(d) yields exactly the events of nodes at relative depth at most d with the right depth attached; under any interleaving of next and next_back each event is yielded exactly once, from both ends.", "quantifier": "all well-formed states, start nodes, all optional depth limits, all interleavings of next/next_back", "why_tests_cant": "quantifies over all interleavings", "anchors": ["src/traverse/depth_first.rs: StableShallowDepthFirstTraverser", "src/node/frozen.rs: shallow_depth_first_traverse_stable"]}
{"id": "C24", "title": "Breadth-first traversals", "statement": "The allocating and the non-allocating breadth-first traversers yield the same sequence: every node of the subtree exactly once, with its depth, ordered by depth and left to right within one depth; they terminate.", "quantifier": "all well-formed states, all start nodes", "why_tests_cant": "quantifies over an unbounded set of tree shapes and edit histories; tests visit finitely many", "anchors": ["src/traverse/breadth_first.rs: NonAllocatingBreadthFirstTraverser, AllocatingBreadthFirstTraverser"]}
{"id": "C25", "title": "size_hint bounds are sound", "statement": "For every traverser, the number of items still to come is at least the lower bound of size_hint and at most the upper bound when one is given.", "quantifier": "all traversers, all reachable traverser states", "why_tests_cant": "quantifies over an unbounded set of tree shapes and edit histories; tests visit finitely many", "anchors": ["src/traverse/depth_first.rs: size_hint", "src/traverse/breadth_first.rs: size_hint", "src/traverse/siblings.rs: size_hint"]}
{"id": "C26", "title": "close_current skips the rest of the subtree", "statement": "close_current of DepthFirstTraverser, StableDepthFirstTraverser and StableShallowDepthFirstTraverser advances past the event that closes the node currently open (the most recently opened one not yet closed) and returns this node; it returns None exactly if no node is open. DftEvent::close_current returns the node that is closed when the node of the event is left. They terminate.", "quantifier": "all traverser states", "why_tests_cant": "termination over all shapes", "anchors": ["src/traverse/depth_first.rs: close_current"]}
{"id": "C27", "title": "Stable sibling traversal", "statement": "children_stable, siblings_stable, preceding_siblings(_or_self)_stable, following_siblings(_or_self)_stable yield exactly the named segment in order, each node once under any interleaving of next and next_back.", "quantifier": "all well-formed states, nodes, interleavings", "why_tests_cant": "quantifies over all interleavings", "anchors": ["src/traverse/siblings.rs: StableSiblingsTraverser", "src/node/frozen.rs: *_stable"]}
{"id": "C28", "title": "peek agrees with next", "statement": "For the breadth-first and stable depth-first traversers, peek (peek_back) returns what the following next (next_back) returns and does not change the sequence.", "quantifier": "all traverser states", "why_tests_cant": "quantifies over an unbounded set of tree shapes and edit histories; tests visit finitely many", "anchors": ["src/traverse/depth_first.rs: peek", "src/traverse/breadth_first.rs: peek"]}
{"id": "C29", "title": "Serialization is the canonical event sequence", "statement": "to_events yields, for every subtree, the canonical sequence: Open(data) in pre-order with maximal runs of closings merged into Close(count>0), total closings equal to total openings.", "quantifier": "all well-formed states, all nodes", "why_tests_cant": "quantifies over an unbounded set of tree shapes and edit histories; tests visit finitely many", "anchors": ["src/serial.rs: TreeSerializeIter", "src/node/plain.rs: to_events"]}
{"id": "C30", "title": "Events round-trip", "statement": "Collecting to_events of a subtree with a fresh TreeBuilder (or FromIterator) builds a new tree structurally equal to the subtree, and serializing that tree yields the same events.", "quantifier": "all trees of any shape and data", "why_tests_cant": "quantifies over an unbounded set of tree shapes and edit histories; tests visit finitely many", "anchors": ["src/serial.rs: TreeBuilder, FromIterator for Result<Tree>", "src/node/plain.rs: to_events"]}
{"id": "C31", "title": "TreeBuilder accepts exactly well-formed event sequences", "statement": "A fresh builder accepts an event sequence exactly if it is a well-formed prefix of one tree: open fails with RootClosed once the root is closed, close(n) fails with RootNotOpened before the root is opened and with RootClosed when n exceeds the open depth, close(0) is a no-op; finish succeeds exactly if a root was opened, and returns the tree described by the events.", "quantifier": "all event sequences", "why_tests_cant": "quantifies over all event sequences", "anchors": ["src/serial.rs: TreeBuilder::{open,close,finish,finish_opt,push_event,is_root_closed,is_root_available}"]}
{"id": "C32", "title": "A failed TreeBuilder call leaves the builder unchanged", "statement": "If open or close returns an error the builder behaves as if the call had not been made.", "quantifier": "all builder states and levels", "why_tests_cant": "quantifies over all builder states", "anchors": ["src/serial.rs: TreeBuilder::close"]}
{"id": "C33", "title": "TreeBuilder::with_root stays inside the given subtree", "statement": "A builder started at a node only adds nodes below that node and reports is_root_closed after closing it.", "quantifier": "all builder histories with a non-root start node", "why_tests_cant": "quantifies over all event sequences", "anchors": ["src/serial.rs: TreeBuilder::with_root, close"]}
{"id": "C34", "title": "clone_subtree is an equal, independent copy", "statement": "try_clone_subtree returns the root of a fresh tree structurally equal to the source, made of new nodes only; the source and all other trees are unchanged. It fails exactly if some data in the subtree is mutably borrowed.", "quantifier": "all well-formed states, all nodes, all borrow states", "why_tests_cant": "quantifies over an unbounded set of tree shapes and edit histories; tests visit finitely many", "anchors": ["src/node/plain.rs: try_clone_subtree", "src/serial.rs"]}
{"id": "C35", "title": "clone_insert_subtree", "statement": "try_clone_insert_subtree inserts a structurally equal copy made of new nodes at the requested position of the destination and changes nothing else; it returns the copied root.", "quantifier": "all well-formed states, all sources and destinations", "why_tests_cant": "quantifies over an unbounded set of tree shapes and edit histories; tests visit finitely many", "anchors": ["src/node/edit.rs: try_clone_insert_subtree"]}
{"id": "C36", "title": "try_eq decides structural equality", "statement": "With no conflicting borrows, try_eq of two nodes (or trees) is Ok(true) exactly if the subtrees have the same shape and equal data at corresponding positions; it is reflexive, symmetric and transitive when data equality is, and ignores ancestors and siblings.", "quantifier": "all pairs of subtrees, any shapes and data", "why_tests_cant": "quantifies over an unbounded set of tree shapes and edit histories; tests visit finitely many", "anchors": ["src/node/internal.rs: NodeCoreLink::try_eq", "src/node/plain.rs: try_eq", "src/tree.rs: Tree::try_eq"]}
{"id": "C37", "title": "Grants and prohibitions exclude each other", "statement": "In no reachable state do an edit grant (token or HotNode) and an edit prohibition (token or FrozenNode) coexist for the same tree.", "quantifier": "all histories of lock, clone, drop, edit and move operations", "why_tests_cant": "quantifies over all histories", "anchors": ["src/tree/lock.rs", "src/node/membership.rs", "src/node/hot.rs", "src/node/frozen.rs"]}
{"id": "C38", "title": "Lock acquisition succeeds exactly when compatible", "statement": "prohibit_hierarchy_edit / bundle_new_hierarchy_edit_prohibition succeed exactly if no grant is alive for that tree, and grant_hierarchy_edit / bundle_new_hierarchy_edit_grant exactly if no prohibition is alive; a failed attempt changes nothing.", "quantifier": "all histories", "why_tests_cant": "quantifies over all histories of tokens and bundled nodes", "anchors": ["src/tree/lock.rs: acquire_prohibition, acquire_grant", "src/node/plain.rs: bundle_*", "src/tree.rs"]}
{"id": "C39", "title": "Lock counts never underflow and become neutral", "statement": "Dropping tokens, HotNodes and FrozenNodes in any order never panics; when the last lock of a tree is gone both kinds can be acquired again.", "quantifier": "all histories and drop orders", "why_tests_cant": "quantifies over all drop orders", "anchors": ["src/tree/lock.rs: release_prohibition, release_grant, release_any_lock", "src/node/membership.rs: decrement_edit_lock_count"]}
{"id": "C40", "title": "A grant is valid for exactly the nodes of its tree", "statement": "is_valid_for_node is true exactly if the node currently belongs to the tree the token was created for; an edit with a token of another tree panics before changing anything.", "quantifier": "all histories, tokens and nodes", "why_tests_cant": "quantifies over histories that move nodes between trees", "anchors": ["src/tree/lock.rs: is_valid_for_node, panic_if_invalid_for_node"]}
{"id": "C41", "title": "A prohibited hierarchy does not change", "statement": "While a prohibition token or FrozenNode of a tree is alive, no API call changes parent, children or membership of any node of that tree.", "quantifier": "all histories while a prohibition is held", "why_tests_cant": "quantifies over all histories", "anchors": ["src/tree/lock.rs", "src/node/plain.rs", "src/node/hot.rs", "src/node/frozen.rs"]}
{"id": "C42", "title": "Locks follow nodes when subtrees are detached or moved", "statement": "When nodes carrying hot locks are moved to a new or different tree, each such node keeps exactly its own lock in its new tree; the old tree keeps the remaining locks, tokens stay with their tree.", "quantifier": "all histories, all distributions of hot nodes", "why_tests_cant": "quantifies over all distributions of locks", "anchors": ["src/node/membership.rs: set_tree_core", "src/tree/lock.rs: transfer_single_lock_to", "src/node/edit.rs: set_memberships_of_descendants_and_self"]}
{"id": "C43", "title": "A handle keeps its whole tree alive", "statement": "While any Node, HotNode, FrozenNode or Tree handle refers to a tree or one of its nodes, every node of that tree stays alive and reachable.", "quantifier": "all histories of clones, drops, edits", "why_tests_cant": "quantifies over all histories", "anchors": ["src/node/membership.rs", "src/node/internal.rs: NodeLink", "src/tree.rs"]}
{"id": "C44", "title": "Last handle frees the whole tree and nothing else", "statement": "When the last handle to a tree is dropped, every node of this tree is released (no leak through reference cycles) and no node of another tree is.", "quantifier": "all histories, all tree shapes", "why_tests_cant": "quantifies over all shapes and handle configurations", "anchors": ["src/tree.rs: Drop for TreeCore", "src/node/membership.rs: decrement_tree_refcount"]}
{"id": "C45", "title": "Weak handles upgrade exactly while alive", "statement": "NodeWeak::upgrade / TreeWeak::upgrade return Some exactly if the target is still alive, and then a handle to that same node / tree.", "quantifier": "all histories", "why_tests_cant": "quantifies over all histories", "anchors": ["src/node/plain.rs: NodeWeak::upgrade", "src/tree.rs: TreeWeak::upgrade"]}
{"id": "C46", "title": "Reference counts are exact and internal assertions never fire", "statement": "In every reachable state the per-node reference count equals the number of live handles to that node and the lock count the number of live hot/frozen handles; no internal expect/unreachable/assert about them can fire.", "quantifier": "all histories", "why_tests_cant": "quantifies over all histories", "anchors": ["src/node/membership.rs", "src/node/internal.rs: NodeLink"]}
{"id": "C47", "title": "Tree destruction terminates without recursion over the tree", "statement": "Dropping a tree visits each of its nodes, terminates, and frees each node exactly once, for arbitrarily deep or wide trees, without recursive descent.", "quantifier": "all tree shapes", "why_tests_cant": "quantifies over unbounded depth and width", "anchors": ["src/tree.rs: Drop for TreeCore"]}
{"id": "C48", "title": "Data and identity are preserved by hierarchy edits", "statement": "No hierarchy edit changes, copies or drops the data of an existing node, nor frees an existing node, unless the edit leaves no handle to the tree the node is in.", "quantifier": "all edits in all well-formed states", "why_tests_cant": "quantifies over an unbounded set of tree shapes and edit histories; tests visit finitely many", "anchors": ["src/node/edit.rs"]}
{"id": "C49", "title": "Pretty printing", "statement": "The pretty printer output depends only on the shape and the text of the nodes, not on how the text is split into write calls; every line of a node carries the tree prefix of its position.", "quantifier": "all trees, all texts and chunkings", "why_tests_cant": "quantifies over all chunkings of the output", "anchors": ["src/node/debug_print/pretty.rs: IndentWriter"]}
{"id": "C50", "title": "tree_node! builds the described tree", "statement": "The macro builds a tree whose structure and data equal the literal it is given.", "quantifier": "all macro literals", "why_tests_cant": "quantifies over all nestings", "anchors": ["src/macros.rs: tree_node!"]}
{"id": "C51", "title": "Serialization and cloning only read", "statement": "Traversals, counts, comparison and serialization change neither hierarchy, data, memberships nor locks, and leave reference counts unchanged once their temporaries are dropped.", "quantifier": "all states, all read operations", "why_tests_cant": "quantifies over an unbounded set of tree shapes and edit histories; tests visit finitely many", "anchors": ["src/node/plain.rs", "src/serial.rs", "src/traverse"]}
{"id": "C52", "title": "Serialization fails exactly at mutably borrowed data", "statement": "to_events yields the events up to the first node (in pre-order) whose data is mutably borrowed and then that borrow error.", "quantifier": "all trees and borrow states", "why_tests_cant": "quantifies over an unbounded set of tree shapes and edit histories; tests visit finitely many", "anchors": ["src/serial.rs: TreeSerializeIter, TryFrom<DftEvent>"]}
{"id": "C53", "title": "a failed clone_insert_subtree has no effect", "statement": "If try_clone_insert_subtree returns an error, then the destination tree and all other trees are exactly as before the call.", "quantifier": "all well-formed states, all sources, destinations and borrow states", "why_tests_cant": "quantifies over an unbounded set of tree shapes, positions of borrowed nodes and edit histories; tests visit finitely many", "anchors": ["src/node/edit.rs: try_clone_insert_subtree", "src/anchor.rs: InsertAs::try_create_node"]}
{"id": "C54", "title": "Stable traversals are not disturbed by the rest of the program", "statement": "A stable or breadth-first traverser made from a FrozenNode yields exactly the items of the subtree or sibling list as it was when the traverser was made, whatever calls the program makes between the calls of the iterator (edits of other trees, new trees, handles taken and dropped, data written), as long as a FrozenNode of the tree is alive; for the depth-limited traverser under every interleaving with next_back.", "quantifier": "all reachable states, trees, start nodes, depth limits, and all interleavings of iterator calls with other calls of the program", "why_tests_cant": "quantifies over all interleavings of iterator calls with unboundedly many other calls on arbitrary trees", "anchors": ["src/traverse/depth_first.rs: StableDepthFirstTraverser, StableShallowDepthFirstTraverser", "src/traverse/breadth_first.rs", "src/traverse/siblings.rs: StableSiblingsTraverser", "src/node/frozen.rs"]}
{"id": "C55", "title": "Traversers neither leak nor lose handles and locks", "statement": "Every traverser owns exactly the handles in its state: a call of next, next_back, close_current or of an iterator method returns the item with one new handle and leaves every other handle, every Tree and every token of the program as it was. Making a traverser, taking any number of items, dropping them and the traverser leaves the whole program state (reference counts, locks, trees) exactly as before. While a stable traverser has items to return, edit grants of the tree are denied; once it has returned None it holds no lock.", "quantifier": "all reachable states, all handles, all traverser states whose handles the program owns, all numbers of items taken", "why_tests_cant": "quantifies over all reachable program states, all tree shapes and all points where an iteration is abandoned", "anchors": ["src/traverse/depth_first.rs", "src/traverse/breadth_first.rs", "src/traverse/siblings.rs", "src/traverse/ancestors.rs", "src/node/plain.rs", "src/node/hot.rs", "src/node/frozen.rs"]}
{"id": "C56", "title": "Debug printing shows the structure truthfully and changes nothing", "statement": "Debug of a Node, HotNode or FrozenNode and debug_print_local show its data (or <borrowed> exactly while the data is mutably borrowed), truthfully whether it has a parent, a previous sibling, a next sibling and a first child, and the lock state of its tree; debug_print_subtree and Tree::debug_print show all descendants, nested, in order, under the name of the kind of handle that was used. Debug of a NodeWeak or TreeWeak shows <dropped> exactly if upgrading would fail. None of these panics, runs forever or changes the program state.", "quantifier": "all well-formed forests of any size, all nodes, all sets of nodes with mutably borrowed data, all kinds of handles, all reachable states for weak handles", "why_tests_cant": "quantifies over all tree shapes, borrow states and program states", "anchors": ["src/node/debug_print/debug.rs", "src/node/debug_print.rs", "src/tree/debug_print.rs", "src/tree.rs", "src/node/plain.rs Debug for NodeWeak"]}
{"id": "C57", "title": "Weak handles can be used by destructors of the data", "statement": "When the last handle of a tree (a Tree, Node, HotNode or FrozenNode) is dropped, the data of every node of the tree is destroyed exactly once, in post-order of the tree (children before parents, from left to right; the node of a last node handle comes last). A destructor of data that runs meanwhile can upgrade weak handles: it gets None for the tree being released and for its nodes, and a handle for every other living node and tree; it never panics.", "quantifier": "all reachable states, all kinds of last handles, all tree shapes, all moments of the release, all weak handles", "why_tests_cant": "quantifies over all program states, tree shapes and moments inside the release of a tree", "anchors": ["src/tree.rs: Drop for TreeCore", "src/node/membership.rs: decrement_tree_refcount", "src/node/plain.rs: NodeWeak::upgrade, with_node_core", "src/tree.rs: TreeWeak::upgrade"]}
{"id": "C58", "title": "The data of a node is the value stored last, and guards protect it", "statement": "Reading the data of a node, through any handle or guard, gives the value it was created with or the one written to it last, however the node has been moved, detached, replaced or its neighbours destroyed since. try_borrow_data fails exactly while a RefMut of the node is alive, try_borrow_data_mut exactly while a Ref or RefMut of the node is alive; a failed borrow changes nothing. While a guard is alive its node is not destroyed and its data changes only by writing through the RefMut.", "quantifier": "all histories of calls, of any length, including calls that damage the hierarchy; all nodes; all points at which guards are got and dropped", "why_tests_cant": "quantifies over all interleavings of edits, borrows and writes", "anchors": ["src/node/internal.rs: NodeLink::try_borrow_data, try_borrow_data_mut", "src/node/plain.rs: Node::try_borrow_data, borrow_data, try_borrow_data_mut, borrow_data_mut", "src/node/hot.rs", "src/node/frozen.rs"]}
{"id": "C59", "title": "A node or tree lives exactly as long as something owns it", "statement": "In every history of calls, also one that damages the hierarchy, a tree is alive exactly while the program holds a Tree to it or a handle (Node, HotNode, FrozenNode) to one of its nodes; a node is alive exactly while the program holds a handle to it, or it is the root of a held tree, or it is the first child or next sibling of a living node. So upgrading a weak handle fails exactly when nothing owns its target, and when the program holds nothing any more all trees are gone and the only nodes left hang on a cycle of nodes that own each other.", "quantifier": "all histories of calls of any length, including those that damage the hierarchy; all nodes and trees", "why_tests_cant": "quantifies over all histories; a leak or an early destruction may show only after an unusual sequence of moves and drops", "anchors": ["src/node/internal.rs: NodeCore, NodeLink", "src/node/membership.rs: Membership, MembershipCore, Drop", "src/tree.rs: TreeCore, Drop for TreeCore", "src/node/plain.rs: NodeWeak::upgrade", "src/tree.rs: TreeWeak::upgrade"]}
{"id": "C60", "title": "Panicking variants panic exactly when the fallible ones fail", "statement": "create_node_as, create_as_prev_sibling, create_as_next_sibling, replace_with_children, detach_insert_subtree, clone_subtree, clone_tree, clone_insert_subtree and == do exactly what their try_ counterparts do when these succeed, and panic exactly when these fail: a grant for another tree, a sibling of a root, a root that has not exactly one child, a move beside itself or beside a root, mutably borrowed data met while copying (in the copied subtree; for a copy to a place inside the subtree, not in the first place, in front of that place, and such a copy never returns otherwise) or met before the first difference of compared subtrees. A program that catches the panic finds the state the try_ method leaves: unchanged for creations, replacements, clone_subtree, clone_tree and comparisons.", "quantifier": "all reachable program states, all nodes, destinations, grants, data and borrow states", "why_tests_cant": "the exact set of panicking calls ranges over all trees, positions and borrow patterns", "anchors": ["src/node/plain.rs: create_node_as, create_as_prev_sibling, create_as_next_sibling, replace_with_children, clone_subtree, clone_insert_subtree, detach_insert_subtree, PartialEq", "src/node/hot.rs: the same", "src/node/frozen.rs: clone_subtree, PartialEq", "src/tree.rs: clone_tree, PartialEq"]}
{"id": "C61", "title": "Loops over the unstable iterators that edit the tree follow the current hierarchy", "statement": "A program may edit the tree, or do anything else it is allowed to, between two calls of next() of depth_first_traverse, depth_first_reverse_traverse, children, children_reverse, siblings, siblings_reverse, following_siblings(_or_self), preceding_siblings(_or_self)_reverse, ancestors and ancestors_or_self, called on a handle of any kind. Every call of next() still returns without a panic, every item is a living node, the first item is the one the unedited iterator begins with, and each further item is the one that follows the previously returned item (next event, next or previous sibling, parent) in the hierarchy the tree had at the moment that previous item was returned: the iterators look exactly one item ahead. Depth-first traversal ends after the closing (reverse: opening) event of the start node; after None only None is returned.", "quantifier": "all reachable program states, start nodes, kinds of handle, and all finite interleavings of next() with any safe calls", "why_tests_cant": "ranges over all interleavings of iteration with edits of trees of any size", "anchors": ["src/traverse/depth_first.rs: DepthFirstTraverser, ReverseDepthFirstTraverser", "src/traverse/siblings.rs: SiblingsTraverser, ReverseSiblingsTraverser", "src/traverse/ancestors.rs: AncestorsTraverser", "src/node/plain.rs: depth_first_traverse, children, siblings, ancestors and so on"]}
{"id": "C62", "title": "The crate behaves as a machine of ordered trees", "statement": "Consider the abstract machine whose state is: the existing nodes with their data and mutable-borrow flag, each node's ordered list of children, each node's tree, each tree's root, and the handles, Tree values and lock tokens the program holds; its transitions describe every call (creation, navigation, cloning and dropping of handles, upgrades, locks and bundles, detaching, replacing, moving, writing) purely in terms of lists, and a tree nobody holds vanishes with all its nodes. In every history of calls that avoid the calls with a known defect (C10-C18), every call of the crate does and returns exactly what the machine does and returns; the machine is deterministic; and conversely every program of at most 2^61 calls written against the machine, which never depends on a last child after one has been taken away, is executed by the crate with the same results: no panic, no spurious error. In particular no lock counter can come near its limits in fewer than 2^61 calls.", "quantifier": "all histories of calls without a known defect, of any length (realisation: up to 2^61 calls), all data, all numbers of trees, nodes and handles", "why_tests_cant": "a statement about every history of the whole API at once; it is a simulation between memory states and abstract states", "anchors": ["src/node/plain.rs, src/node/hot.rs, src/node/frozen.rs: all methods", "src/node/edit.rs", "src/node/internal.rs", "src/node/membership.rs", "src/tree.rs", "src/tree/lock.rs"]}
{"id": "C63", "title": "Dropping handles when node data itself owns handles", "statement": "If the data stored in nodes owns node handles, Trees or edit tokens, then dropping any of these (or any list of them) never panics and always ends, even though the destructors of the data run in the middle of the release of a tree and may release further trees recursively. The outcome is that of dropping everything one after the other by ordinary calls: each thing given, and each thing owned by the data of a destroyed node, is dropped exactly once, and what is left does not depend on the order. Trees that keep each other alive in a cycle are never destroyed; without such a cycle, dropping everything the program has destroys all nodes and trees.", "quantifier": "all states reached by calls without a known defect, all assignments of owned handles, Trees and tokens to node data, all lists of things to drop, all orders", "why_tests_cant": "Nesting of destructors is unbounded, and the interleaving of a tree release with the drops it triggers depends on which node owns what; a test fixes one such graph.", "anchors": ["src/tree.rs: Drop for TreeCore", "src/node/internal.rs: NodeCore, Drop for NodeLink", "src/node/membership.rs: decrement_tree_refcount, decrement_edit_lock_count", "src/tree/lock.rs: Drop for HierarchyEditGrant, Drop for HierarchyEditProhibition"]}
{"id": "C64", "title": "Edits when node data itself owns handles", "statement": "detach_subtree and try_detach_insert_subtree do the same whether or not the data of nodes owns handles, Trees or tokens; in particular they do not panic if the remainder of the old tree is destroyed during the call and its data owns a handle to the moved node. (Violated: the old tree core is dropped while the membership of the moved node is mutably borrowed.)", "quantifier": "all states reached by calls without a known defect, all assignments of owned handles to node data, all nodes and destinations", "why_tests_cant": "The destructor runs in the middle of the edit only for particular combinations of remaining handles and owned handles; tests never store handles in node data.", "anchors": ["src/node/membership.rs: set_tree_core", "src/node/edit.rs: detach_subtree, detach_and_move_to_another_tree, set_memberships_of_descendants_and_self"]}
{"id": "C65", "title": "Pretty printing to a formatter that may fail", "statement": "debug_pretty_print always returns, without a panic, whatever the formatter behind it and the Display/Debug implementation of the data do (fail at any call, ignore failures, go on writing after one). If the data formatting passes failures on, the printer returns Ok exactly if every call of the formatter succeeded, and then the whole drawing was written; otherwise the failing call is the last one and what was written is a prefix of the drawing.", "quantifier": "all trees, start nodes, data formattings (strategies that may react to failures) and all behaviours of the formatter (which calls fail, after how many characters)", "why_tests_cant": "Formatting to a String never fails; the call at which a failure happens and the reaction of the data formatting are unbounded choices.", "anchors": ["src/node/debug_print/pretty.rs: IndentWriter::open_item, write_indent_partial, complete_partial_indent, write_str, DebugPrettyPrint::fmt, prepare_next_node_printing"]}
{"id": "C66", "title": "Reading forwards is right after every history", "statement": "Also after calls that leave last_child wrong, depth_first_traverse, children, ancestors_or_self, to_events, debug_pretty_print and try_eq show the hierarchy that parent, first_child, next_sibling and the counts report.", "quantifier": "all histories including those that take away the last of several siblings, all nodes, all data and formattings", "why_tests_cant": "It must hold after every history of edits, in particular after those that damage the cyclic previous-sibling pointers.", "anchors": ["src/traverse/depth_first.rs: DftEvent::next", "src/node/internal.rs: try_eq", "src/serial.rs: TreeSerializeIter", "src/node/debug_print/pretty.rs"]}
{"id": "C67", "title": "Documented costs", "statement": "Counting calls of inner iterators and iterations of loops: the non-allocating breadth-first traversal of a subtree with N nodes takes less than 2(N+1)^2 steps and at least (height+1)^2, so quadratic cost is attained for every N; the allocating one takes at most 7N+2 steps; detaching a subtree or moving it to another tree changes memberships in exactly 2N iterations; moving a subtree inside its tree runs no loop.", "quantifier": "all well-formed states, all subtrees, all starting depths, all destinations", "why_tests_cant": "A bound on the number of steps for every tree shape and size cannot be established by timing a few trees.", "anchors": ["src/traverse/breadth_first.rs: BreadthFirstTraverser, AllocatingBreadthFirstTraverser", "src/node/frozen.rs: breadth_first_traverse, allocating_breadth_first_traverse", "src/node/plain.rs: detach_subtree, detach_insert_subtree", "src/node/edit.rs: detach_insert_subtree", "src/node/membership.rs: set_memberships_of_descendants_and_self"]}
{"id": "C68", "title": "Tree builders living among other calls", "statement": "A program may have any number of TreeBuilders and feed them in any order, making other calls in between, including calls that edit the trees being built. The root and the cursor of every builder stay living nodes; pushing an event never panics and does exactly what an abstract builder step on ordered trees does (a new last child wherever the cursor is now; going up through the parents as they are now; RootClosed with the cursor at the highest node reachable); with_root, finish and drop exchange exactly the builder's own handles. If the other calls leave the builder's subtree alone, the events pushed are a prefix of the event sequence of exactly the tree made so far and the next event is accepted exactly if the sequence stays well-formed.", "quantifier": "all interleavings of any number of builders with any other calls of the program, all events", "why_tests_cant": "The interleavings of builder events with edits of the same trees are unbounded in number and length.", "anchors": ["src/serial.rs: TreeBuilder, with_root, push_event, open, close, finish"]}
{"id": "C69", "title": "Trees are independent of each other", "statement": "A call leaves every tree alone that it does not name and of which it names no node: nodes, data, hierarchy, root, locks, handles, and the correctness of last_child; so do any number of calls. What a call returns and does depends only on the trees it involves: in any other program state in which these are the same, it can be made, returns the same and leaves the same behind. Two calls that involve no common tree can be made in both orders, return the same in both, and lead to the same state.", "quantifier": "all reachable states, all pairs of states that agree on the involved trees, all calls and pairs of calls, histories of any length", "why_tests_cant": "Non-interference compares all pairs of states and all interleavings; a test compares a few.", "anchors": ["src/node/plain.rs: Node", "src/node/hot.rs: HotNode", "src/node/edit.rs", "src/node/membership.rs: Membership, TreeCore references", "src/tree.rs: Tree, TreeCore"]}
{"id": "C70", "title": "Calls that undo each other", "statement": "Dropping the handle, Tree or token a call has returned takes the call back: nodes, data, hierarchy, trees, locks and handles are as before. The same holds for bundling a node and converting it back to a plain node; for creating a node and detaching and dropping it; for putting a node between a node and its parent, or between a node and its children, and replacing it with its children and dropping it; and for moving a subtree, within a tree or to another one, and moving it back.", "quantifier": "all reachable states, all calls of the pairs, all nodes, places and handles", "why_tests_cant": "An inverse law compares the whole state before and after, in every state; a test looks at a few getters in a few states.", "anchors": ["src/node/edit.rs: create_as_*, detach_subtree, try_replace_with_children, detach_and_move_*", "src/node/plain.rs: Node", "src/node/hot.rs: HotNode::plain, HotNode::extract_hierarchy_edit_grant", "src/node/membership.rs: Membership::clone, drop", "src/tree/lock.rs: tokens"]}
{"id": "C71", "title": "Comparison, serialization and printing tell the same trees apart", "statement": "The pretty print of a tree whose texts are nonempty and have no newline determines the shape of the tree and its texts, also if texts look like branches (and neither condition can be dropped: an empty text is not drawn, and a text of two lines may look like a node and its child). A sequence of events serializes at most one tree. So for two nodes whose subtrees are not borrowed, with an equality of data that is exact and texts that are different for different data, try_eq says Ok(true) exactly if both serialize to the same events, and exactly if both print the same.", "quantifier": "all pairs of subtrees in all reachable states, all data, all texts", "why_tests_cant": "Injectivity compares all pairs of trees of all shapes and sizes; a test compares a few.", "anchors": ["src/node/debug_print.rs", "src/serial.rs: Event", "src/node/internal.rs: NodeCoreLink::try_eq", "src/node/plain.rs: to_events, debug_pretty_print, try_eq"]}
