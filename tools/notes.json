{
 "C01": {
  "note": "Holds in every consistent state, in all histories of calls without a known defect (Reach) and, except for the end-of-list queries of parents whose last child was taken away, in all histories of calls that neither make a cycle nor move a root with children or with a Tree handle into another tree, and that do not rely on a stale last_child (ReachW); the code violates it otherwise (proved).",
  "status": "partial"
 },
 "C02": {
  "note": "Holds in every consistent state, in all histories of calls without a known defect (Reach) and, except for the end-of-list queries of parents whose last child was taken away, in all histories of calls that neither make a cycle nor move a root with children or with a Tree handle into another tree, and that do not rely on a stale last_child (ReachW); the code violates it otherwise (proved).",
  "status": "partial"
 },
 "C03": {
  "note": "Holds in every consistent state, in all histories of calls without a known defect (Reach) and, except for the end-of-list queries of parents whose last child was taken away, in all histories of calls that neither make a cycle nor move a root with children or with a Tree handle into another tree, and that do not rely on a stale last_child (ReachW); the code violates it otherwise (proved).",
  "status": "partial"
 },
 "C04": {
  "note": "Holds in every consistent state, in all histories of calls without a known defect (Reach) and, except for the end-of-list queries of parents whose last child was taken away, in all histories of calls that neither make a cycle nor move a root with children or with a Tree handle into another tree, and that do not rely on a stale last_child (ReachW); the code violates it otherwise (proved).",
  "status": "partial"
 },
 "C10": {
  "note": "Settled in both directions: full result for roots and for every node except a childless last child with a predecessor; for that one the forward structure is proved, and that the code ALWAYS violates the property there while the old tree stays alive (C10_always_violated: last_child of the old parent is the removed node).",
  "status": "partial"
 },
 "C12": {
  "note": "Settled in both directions: full for first children, for nodes with a following sibling and for roots; for a last child with a predecessor the code ALWAYS violates it while the old tree stays alive (C12_always_violated: last_child of the old parent is the detached node); C13 gives the forward structure there.",
  "status": "partial"
 },
 "C14": {
  "note": "Settled in both directions: full result when the moved node is a first child or has a following sibling; for a last child with predecessors the code ALWAYS violates it, for every state and every destination (C14_always_violated: last_child of the old parent is the moved node wherever it went, and a move to the end of its own list makes it its own next sibling). The forward structure is proved for every position.",
  "status": "partial"
 },
 "C15": {
  "note": "Settled in both directions for non-roots: full result when the moved node is a first child or has a following sibling; for a last child with predecessors the code ALWAYS violates it while the old tree stays alive (C15_always_violated); forward structure for every position. Moving a root is C18.",
  "status": "partial"
 },
 "C16": {
  "note": "Violated by the code, proved for EVERY well-formed state and every non-root node: a move below itself succeeds and makes the node its own proper ancestor. The loop error is never returned. For roots nothing is changed.",
  "status": "partial"
 },
 "C17": {
  "note": "Which moves fail is settled for every state (C17_fails_iff, C17_outcome: a move never panics internally or gets stuck, and fails iff MoveFails: a non-root beside itself, or any node beside another node that is a root). The code violates the property in EVERY failing case (proved): a non-root has been unlinked (same tree and other tree), a root has become a member of the other tree (C17_root_always_violated). Child destinations never fail.",
  "status": "partial"
 },
 "C18": {
  "note": "Violated by the code, in every state: C18_links_always_destroyed (no Tree handle: the links of the moved subtree are destroyed, descendants without handle freed) and C18_tree_held_always_violated (with a Tree handle: the old tree keeps a root that has a parent). C18_consistent_iff says exactly when the call is right: no Tree handle and no children (C18_childless_root_partial). Two earlier witnesses are kept.",
  "status": "partial"
 },
 "C22": {
  "note": "Settled for every state: C22_exact says what every sequence of next/next_back returns (two cursors on the events of the whole tree that notice neither each other nor the end of the subtree). Used from one end it is right iff the start node is a root (C22_one_ended_iff); as a double-ended iterator it is NEVER right (C22_never_double_ended: Close of the start node is yielded twice).",
  "status": "partial"
 },
 "C25": {
  "note": "Proved for all traversers but the stable ones. Depth-limited: the lower bound always holds, and the hint is wrong exactly when more than two events are left of which the first opens and the last closes the same node (C25_shallow_exact). depth_first_traverse_stable of any non-root and preceding_siblings_or_self_stable of any node with a following sibling give wrong hints (C25_stable*_always_violated).",
  "status": "partial"
 },
 "C26": {
  "note": "Traversers: proved for depth_first_traverse, the depth-limited one and the stable one from a root; stable from a non-root: right while a node is open (C26_stable_open), violated otherwise for every such node (C26_stable_always_violated). DftEvent::close_current in every case: C26_event_exact (diverges iff the next event is an Open).",
  "status": "partial"
 },
 "C27": {
  "note": "Settled for every state: C27_exact says what every sequence of next/next_back returns (two cursors on the whole sibling list); C27_one_ended_iff and C27_double_ended_iff say exactly when each of the methods is right; C27_root: always for a node without parent.",
  "status": "partial"
 },
 "C32": {
  "note": "Full for open and for close while no node is open. close(n) with n larger than the number of open nodes fails; the failing call is harmless only when nothing but the root is open, and otherwise ALWAYS moves the current position to the root (C32_close_always_violated, every reachable builder); C32_close_outcome says exactly which state results, C32_violated is a concrete program. C32_close_fails_always says for every state (damaged ones included) and every builder that a failing close leaves what a successful close of fewer nodes leaves, and when that is no change; C32_close_fails_wide says exactly what a failing close does among any other calls of the wider histories.",
  "status": "partial"
 },
 "C33": {
  "note": "Proved for every start node as long as the pushed events stay inside the start node (C33_inside_partial), and for every event sequence when the start node is a root (C33_root_partial). Violated for EVERY start node with a parent: after it has been closed is_root_closed stays false and further nodes are added outside (C33_always_violated; C33_violated concretely). C33_undisturbed_partial/_next_partial and C33_root_undisturbed/_next extend both positive results to all the wider histories with other calls between the events that leave the subtree alone.",
  "status": "partial"
 },
 "C35": {
  "note": "Proved for every destination outside the source subtree. Violated for EVERY destination inside it: if the new node would become the first child of the source the method returns a wrong copy, with an extra first child (C35_inside_first, exact result), and in all other cases it never returns (C35_inside_endless; with borrowed data: C53). C35_violated_endless / C35_violated_copy are special cases. C35_wide_partial and C35_equal_wide_partial: the same in the histories that leave a last_child wrong, at every place whose parent's last_child is right or that has siblings on both sides.",
  "status": "partial"
 },
 "C41": {
  "note": "Proved for histories of calls that neither make a cycle nor move a root with children or with a Tree handle into another tree, and that do not rely on a stale last_child (ReachW); the code violates it after a damaging call (proved).",
  "status": "partial"
 },
 "C43": {
  "note": "Proved for all histories of calls that neither make a cycle nor move a root with children or with a Tree handle into another tree, and that do not rely on a stale last_child (ReachW); violated by the code after moving a root between trees (proved).",
  "status": "partial"
 },
 "C44": {
  "note": "Proved for all histories of calls that neither make a cycle nor move a root with children or with a Tree handle into another tree, and that do not rely on a stale last_child (ReachW); violated by the code after a node is moved under its own descendant (proved).",
  "status": "partial"
 },
 "C45": {
  "note": "Proved for all histories of calls that neither make a cycle nor move a root with children or with a Tree handle into another tree, and that do not rely on a stale last_child (ReachW); upgrade panics on a leaked node (proved).",
  "status": "partial"
 },
 "C46": {
  "note": "Exact counts are proved for all histories whatsoever; absence of panics for histories of calls that neither make a cycle nor move a root with children or with a Tree handle into another tree, and that do not rely on a stale last_child (ReachW); violated otherwise (proved: upgrading a leaked node; last_child after the last of several children was detached and destroyed).",
  "status": "partial"
 },
 "C47": {
  "note": "Proved for all histories of calls that neither make a cycle nor move a root with children or with a Tree handle into another tree, and that do not rely on a stale last_child (ReachW), for the last Tree and for the last Node.",
  "status": "partial"
 },
 "C48": {
  "note": "That no call changes data (or its borrow state) except by writing is proved for all histories whatsoever (C48_data, C48_borrow); that nodes are not freed, for all histories of calls that neither make a cycle nor move a root with children or with a Tree handle into another tree, and that do not rely on a stale last_child (ReachW); violated by the code when a root is moved between trees (proved).",
  "status": "partial"
 },
 "C51": {
  "status": "proved",
  "note": "For every state reached by any calls (damaged histories included) and any sequence of calls that create, edit and write nothing: the exact state is restored once the program holds the same values again, and meanwhile nothing visible changes while it still holds what it held. C51_places adds, for histories without a known defect, that places stay when more is dropped. C51_places_wide (with C51_reads_reach) does the same in the wider histories, by calls that do not ask for a stale end: data, tree, parent, siblings, children and all navigation that did not depend on a stale end stay."
 },
 "C53": {
  "note": "Settled in every case. Nothing changes when the data of the source root is borrowed and when the destination is a sibling position of a root. In every other failing case the property is violated: an incomplete copy stays in the destination (C53_outcome: destinations outside the source; C53_inside_first, C53_inside_before: inside). Inside the source, not in the first place, with nothing borrowed before the place, the call never returns (C53_inside_endless). C53_violated is a concrete program. C53_outcome_wide, C53_no_place_wide_partial: in the histories with a wrong last_child.",
  "status": "partial"
 },
 "C49": {
  "status": "proved",
  "note": "Output equals the line specification RTree.drawing; independent of chunking; a node with an empty text prints no line. The formatter behind the writer does not fail."
 },
 "C50": {
  "status": "proved",
  "note": "Literals with fewer than 2^62 - 3 nodes (lock counter). Parsing of the macro patterns is not modelled."
 },
 "C54": {
  "status": "partial",
  "note": "Full for the depth-limited and both breadth-first traversers; for depth_first_traverse_stable from a root used from one end, and for children_stable/following_siblings*_stable used as in C27, i.e. where the code is right without interference. Other calls range over the wider histories of C41 (ReachW/StepW: unlink and replacement of last children allowed); in the start state the traversed subtree holds no stale last_child (TreeRight, true of every Reach state)."
 },
 "C55": {
  "status": "proved",
  "note": "Reachable by calls without a known defect, and (`_wide`) in the wider histories of C41 where the last children of the tree are right if the traverser asks for them; at most 2^62 tokens plus nodes per tree (World.Roomy: no lock counter overflows). Loops with fuel for the breadth-first scans (fuel from the number of nodes, proved sufficient in C24)."
 },
 "C56": {
  "status": "partial",
  "note": "Everything but the name of a subtree printed through a FrozenNode, which is `Node` (C56_frozen_name_wrong: DebugPrintSubtree::new_frozen stores NodeType::Plain). Layout by the standard library formatter is not modelled. `Debug` of a node itself (C56_local_wide) needs last_child of the parent to be right if the node is the first child; otherwise it may panic."
 },
 "C57": {
  "status": "partial",
  "note": "Order, once-ness and all answers but one are proved: upgrading a weak handle of a node of the released tree that is not destroyed yet panics instead of returning None, in every state where the tree has at least two nodes (C57_tree_violated, C57_node_violated: with_node_core expects the tree to be alive; the membership cell of the last handle is borrowed). Histories: ReachW."
 },
 "C58": {
  "status": "proved",
  "note": "All histories, with no exclusion; guards of data (Ref, RefMut) are part of the program state and keep the handle they were got from (Rust's borrow checker)."
 },
 "C59": {
  "status": "proved",
  "note": "For every state reached by any calls, with no assumption on the shape of the hierarchy (damaged histories included). C59_chain: every living node hangs on something the program owns or on a cycle of owners; such cycles exist (see C44_violated)."
 },
 "C60": {
  "note": "Exact for creation, replacement, all moves (C60_move), copies, == and clone_insert_subtree, to places outside (C60_clone_insert_outside) and inside the copied subtree (C60_clone_insert_inside: there both variants may never return). C60_*_wide: also in the histories that leave a last_child wrong.",
  "status": "proved"
 },
 "C61": {
  "status": "proved",
  "note": "Any number of other calls (World.Step: edits included) between the calls of next; the hierarchy meant is the one at the moment the previous item was returned, as the iterators fetch the following item eagerly. Example: children inserted while looping."
 },
 "C62": {
  "status": "proved",
  "note": "Spec/Machine.lean is the machine (no heap, no counters); Shows is the representation relation. C62_refines/history: the crate simulates the machine in all histories of StepW; C62_exact: step of the machine iff the call returns, in the same state; C62_programs: hypotheses only about the machine (ownership May, no known defect Fine, no reliance on a removed last child) and at most 2^61 calls. The calls excluded by Fine and UsesLast are those shown to misbehave in C10-C18."
 },
 "C63": {
  "status": "proved",
  "note": "Model/Cascade models the functions that free nodes with the destructor of the data called at the place where Rust runs it (data before neighbors, membership still borrowed, tree core no longer upgradable). C63_drop: for every state (ReachW), every assignment of owned things and every list of things dropped, the nested execution returns and equals a sequence of ordinary drops (Drops), C63_account: everything exactly once, C63_order: order irrelevant, C63_survivors, C63_cycle (leak of cyclic ownership), C63_no_leak. Destructors that do other things than drop are C57."
 },
 "C64": {
  "status": "partial",
  "note": "Violated by the code (bug 18): C64_detach_violation and C64_move_violation prove, for every state with a root and one child, that the call panics with a nested borrow if the data of the abandoned root owns a handle to the moved node. C64_detach_exact gives the outcome of detach_subtree in every case (the ordinary calls n.tree(), n.detach_subtree(), n.tree() followed by dropping the two Trees, with the destructors of C63, split at the nodes of the subtree); C64_detach_returns: it returns if no data outside the subtree owns a handle into it; C64_detach_panics: it panics whenever the remainder is destroyed and its data owns a handle into the subtree. C64_detach_partial and C64_move_partial: if the call destroys nothing, owned handles make no difference. Missing: moves that destroy the remainder of the old tree whose data owns no handle to the moved nodes; replace_with_children."
 },
 "C65": {
  "status": "proved",
  "note": "The formatter is any function from call number to success/failure after k characters; the data formatting is any strategy. The prefix theorem is for formattings that pass failures on (Relays); returning without panic is for all."
 },
 "C66": {
  "status": "proved",
  "note": "Over ReachW histories (Spec/Wide): all calls except those with a defect that damages forward links, see C01. The underlying theorems C19, C21_ancestors, C29, C36, C49, C52 need the forward links only."
 },
 "C67": {
  "status": "proved",
  "note": "Costs are counted in loop iterations and calls of inner iterators; memory allocation is not counted. A detach or move after which nothing refers to the rest of the old tree also frees that rest, which is not counted."
 },
 "C68": {
  "status": "proved",
  "note": "An opening event is pushed only where last_child of the cursor is right (C13-C15 show the calls which make it wrong), and with fewer than 2^62 tokens and nodes. The abstract step shows that a builder is reported closed as soon as its cursor leaves the top of whatever tree it is in, also if another call has moved the open node out of the tree of the root (concrete case beside C68_push)."
 },
 "C69": {
  "status": "proved",
  "note": "For the calls of C62 (histories StepW: calls without the known defects of moves, which depend on a last child only where last_child is right). Two calls that both make a node, or both make a tree, are not claimed to commute: the nodes would be the same up to a renaming of the new ones."
 },
 "C70": {
  "status": "proved",
  "note": "On the abstract states of C62 (nodes, data, ordered children, trees, locks, handles; the names of the next node and tree differ after a creation), for the histories StepW and with fewer than 2^62 tokens and nodes. last_child may be stale after a last child has been removed (C13-C15), so that C70_child_replace asks for a right last_child. Detaching a subtree and inserting it again is not among the pairs: the insertion moves the root of the detached tree to another tree, which damages it (C18)."
 }
}