{
 "claims": [
  {
   "property": "C01",
   "status": "partial",
   "theorems": [
    "Dendron.C01_navigation_coherent_partial",
    "Dendron.C01_history_partial",
    "Dendron.C01_history_wide_partial",
    "Dendron.C01_last_child_kept_partial",
    "Dendron.C01_last_child_all_partial",
    "Dendron.C01_history_violated"
   ],
   "note": "Holds in every consistent state, in all histories of calls without a known defect (Reach) and, except for the end-of-list queries of parents whose last child was taken away, in all histories of calls that neither make a cycle nor move a root with children or with a Tree handle into another tree, and that do not rely on a stale last_child (ReachW); the code violates it otherwise (proved)."
  },
  {
   "property": "C02",
   "status": "partial",
   "theorems": [
    "Dendron.C02_child_counts_partial",
    "Dendron.C02_history_partial",
    "Dendron.C02_history_wide_partial"
   ],
   "note": "Holds in every consistent state, in all histories of calls without a known defect (Reach) and, except for the end-of-list queries of parents whose last child was taken away, in all histories of calls that neither make a cycle nor move a root with children or with a Tree handle into another tree, and that do not rely on a stale last_child (ReachW); the code violates it otherwise (proved)."
  },
  {
   "property": "C03",
   "status": "partial",
   "theorems": [
    "Dendron.C03_positions_partial",
    "Dendron.C03_history_partial",
    "Dendron.C03_history_wide_partial"
   ],
   "note": "Holds in every consistent state, in all histories of calls without a known defect (Reach) and, except for the end-of-list queries of parents whose last child was taken away, in all histories of calls that neither make a cycle nor move a root with children or with a Tree handle into another tree, and that do not rely on a stale last_child (ReachW); the code violates it otherwise (proved)."
  },
  {
   "property": "C04",
   "status": "partial",
   "theorems": [
    "Dendron.C04_trees_agree_partial",
    "Dendron.C04_history_partial",
    "Dendron.C04_history_wide_partial"
   ],
   "note": "Holds in every consistent state, in all histories of calls without a known defect (Reach) and, except for the end-of-list queries of parents whose last child was taken away, in all histories of calls that neither make a cycle nor move a root with children or with a Tree handle into another tree, and that do not rely on a stale last_child (ReachW); the code violates it otherwise (proved)."
  },
  {
   "property": "C05",
   "status": "proved",
   "theorems": [
    "Dendron.C05_create_as_first_child",
    "Dendron.C05_create_as_last_child"
   ],
   "note": ""
  },
  {
   "property": "C06",
   "status": "proved",
   "theorems": [
    "Dendron.C06_create_as_prev_sibling",
    "Dendron.C06_create_as_next_sibling",
    "Dendron.C06_create_sibling_of_root"
   ],
   "note": ""
  },
  {
   "property": "C07",
   "status": "proved",
   "theorems": [
    "Dendron.C07_failed_creation_no_effect"
   ],
   "note": ""
  },
  {
   "property": "C08",
   "status": "proved",
   "theorems": [
    "Dendron.C08_interrupting_parent_nonroot",
    "Dendron.C08_interrupting_parent_root"
   ],
   "note": ""
  },
  {
   "property": "C09",
   "status": "proved",
   "theorems": [
    "Dendron.C09_interrupting_child"
   ],
   "note": ""
  },
  {
   "property": "C10",
   "status": "partial",
   "theorems": [
    "Dendron.C10_replace_with_children_partial",
    "Dendron.C10_replace_forward",
    "Dendron.C10_replace_root",
    "Dendron.C10_replace_last_leaf_violation",
    "Dendron.C10_always_violated"
   ],
   "note": "Settled in both directions: full result for roots and for every node except a childless last child with a predecessor; for that one the forward structure is proved, and that the code ALWAYS violates the property there while the old tree stays alive (C10_always_violated: last_child of the old parent is the removed node)."
  },
  {
   "property": "C11",
   "status": "proved",
   "theorems": [
    "Dendron.C11_replace_errors"
   ],
   "note": ""
  },
  {
   "property": "C12",
   "status": "partial",
   "theorems": [
    "Dendron.C12_detach_subtree_partial",
    "Dendron.C12_detach_root_noop",
    "Dendron.C12_detach_last_child_violation",
    "Dendron.C12_always_violated"
   ],
   "note": "Settled in both directions: full for first children, for nodes with a following sibling and for roots; for a last child with a predecessor the code ALWAYS violates it while the old tree stays alive (C12_always_violated: last_child of the old parent is the detached node); C13 gives the forward structure there."
  },
  {
   "property": "C13",
   "status": "proved",
   "theorems": [
    "Dendron.C13_detach_forward"
   ],
   "note": ""
  },
  {
   "property": "C14",
   "status": "partial",
   "theorems": [
    "Dendron.C14_move_same_tree_partial",
    "Dendron.C14_move_forward",
    "Dendron.C14_move_last_child_violation",
    "Dendron.C14_move_last_to_last_violation",
    "Dendron.C14_always_violated"
   ],
   "note": "Settled in both directions: full result when the moved node is a first child or has a following sibling; for a last child with predecessors the code ALWAYS violates it, for every state and every destination (C14_always_violated: last_child of the old parent is the moved node wherever it went, and a move to the end of its own list makes it its own next sibling). The forward structure is proved for every position."
  },
  {
   "property": "C15",
   "status": "partial",
   "theorems": [
    "Dendron.C15_move_other_tree_partial",
    "Dendron.C15_move_forward",
    "Dendron.C15_always_violated"
   ],
   "note": "Settled in both directions for non-roots: full result when the moved node is a first child or has a following sibling; for a last child with predecessors the code ALWAYS violates it while the old tree stays alive (C15_always_violated); forward structure for every position. Moving a root is C18."
  },
  {
   "property": "C16",
   "status": "partial",
   "theorems": [
    "Dendron.C16_always_violated",
    "Dendron.C16_move_below_itself_violation",
    "Dendron.C16_loop_error_never_returned",
    "Dendron.C16_move_root_below_itself_partial"
   ],
   "note": "Violated by the code, proved for EVERY well-formed state and every non-root node: a move below itself succeeds and makes the node its own proper ancestor. The loop error is never returned. For roots nothing is changed."
  },
  {
   "property": "C17",
   "status": "partial",
   "theorems": [
    "Dendron.C17_fails_iff",
    "Dendron.C17_always_violated",
    "Dendron.C17_other_tree_violated",
    "Dendron.C17_failed_move_violation",
    "Dendron.C17_failed_move_partial",
    "Dendron.C17_root_always_violated",
    "Dendron.C17_outcome"
   ],
   "note": "Which moves fail is settled for every state (C17_fails_iff, C17_outcome: a move never panics internally or gets stuck, and fails iff MoveFails: a non-root beside itself, or any node beside another node that is a root). The code violates the property in EVERY failing case (proved): a non-root has been unlinked (same tree and other tree), a root has become a member of the other tree (C17_root_always_violated). Child destinations never fail."
  },
  {
   "property": "C18",
   "status": "partial",
   "theorems": [
    "Dendron.C18_move_whole_tree_violation",
    "Dendron.C18_drop_emptied_tree_violation",
    "Dendron.C18_tree_held_always_violated",
    "Dendron.C18_links_always_destroyed",
    "Dendron.C18_childless_root_partial",
    "Dendron.C18_consistent_iff"
   ],
   "note": "Violated by the code, in every state: C18_links_always_destroyed (no Tree handle: the links of the moved subtree are destroyed, descendants without handle freed) and C18_tree_held_always_violated (with a Tree handle: the old tree keeps a root that has a parent). C18_consistent_iff says exactly when the call is right: no Tree handle and no children (C18_childless_root_partial). Two earlier witnesses are kept."
  },
  {
   "property": "C19",
   "status": "proved",
   "theorems": [
    "Dendron.C19_subtree_exists_unique",
    "Dendron.C19_depth_first"
   ],
   "note": ""
  },
  {
   "property": "C20",
   "status": "proved",
   "theorems": [
    "Dendron.C20_depth_first_reverse"
   ],
   "note": ""
  },
  {
   "property": "C21",
   "status": "proved",
   "theorems": [
    "Dendron.C21_children",
    "Dendron.C21_siblings",
    "Dendron.C21_siblings_of_root",
    "Dendron.C21_ancestors"
   ],
   "note": ""
  },
  {
   "property": "C22",
   "status": "partial",
   "theorems": [
    "Dendron.C22_stable_depth_first_partial",
    "Dendron.C22_runs_past_subtree",
    "Dendron.C22_not_double_ended",
    "Dendron.C22_exact",
    "Dendron.C22_never_double_ended",
    "Dendron.C22_one_ended_iff"
   ],
   "note": "Settled for every state: C22_exact says what every sequence of next/next_back returns (two cursors on the events of the whole tree that notice neither each other nor the end of the subtree). Used from one end it is right iff the start node is a root (C22_one_ended_iff); as a double-ended iterator it is NEVER right (C22_never_double_ended: Close of the start node is yielded twice)."
  },
  {
   "property": "C23",
   "status": "proved",
   "theorems": [
    "Dendron.C23_shallow_depth_first",
    "Dendron.C23_unlimited_is_depth_first"
   ],
   "note": ""
  },
  {
   "property": "C24",
   "status": "proved",
   "theorems": [
    "Dendron.C24_breadth_first",
    "Dendron.C24_every_node_once"
   ],
   "note": ""
  },
  {
   "property": "C25",
   "status": "partial",
   "theorems": [
    "Dendron.C25_internal_hint_wrong",
    "Dendron.C25_size_hint_depth_first",
    "Dendron.C25_size_hint_breadth_first",
    "Dendron.C25_size_hint_siblings",
    "Dendron.C25_size_hint_shallow_partial",
    "Dendron.C25_shallow_upper_bound_wrong",
    "Dendron.C25_size_hint_stable_partial",
    "Dendron.C25_shallow_exact",
    "Dendron.C25_stable_always_violated",
    "Dendron.C25_stable_siblings_always_violated"
   ],
   "note": "Proved for all traversers but the stable ones. Depth-limited: the lower bound always holds, and the hint is wrong exactly when more than two events are left of which the first opens and the last closes the same node (C25_shallow_exact). depth_first_traverse_stable of any non-root and preceding_siblings_or_self_stable of any node with a following sibling give wrong hints (C25_stable*_always_violated)."
  },
  {
   "property": "C26",
   "status": "partial",
   "theorems": [
    "Dendron.C26_close_current",
    "Dendron.C26_close_current_stable_partial",
    "Dendron.C26_close_current_shallow",
    "Dendron.C26_event_close_current_diverges",
    "Dendron.C26_event_close_current_partial",
    "Dendron.C26_stable_open",
    "Dendron.C26_stable_always_violated",
    "Dendron.C26_event_exact"
   ],
   "note": "Traversers: proved for depth_first_traverse, the depth-limited one and the stable one from a root; stable from a non-root: right while a node is open (C26_stable_open), violated otherwise for every such node (C26_stable_always_violated). DftEvent::close_current in every case: C26_event_exact (diverges iff the next event is an Open)."
  },
  {
   "property": "C27",
   "status": "partial",
   "theorems": [
    "Dendron.C27_stable_siblings_partial",
    "Dendron.C27_preceding_wrong",
    "Dendron.C27_not_double_ended",
    "Dendron.C27_exact",
    "Dendron.C27_double_ended_iff",
    "Dendron.C27_one_ended_iff",
    "Dendron.C27_root"
   ],
   "note": "Settled for every state: C27_exact says what every sequence of next/next_back returns (two cursors on the whole sibling list); C27_one_ended_iff and C27_double_ended_iff say exactly when each of the methods is right; C27_root: always for a node without parent."
  },
  {
   "property": "C28",
   "status": "proved",
   "theorems": [
    "Dendron.C28_peek",
    "Dendron.C28_peek_breadth_first"
   ],
   "note": ""
  },
  {
   "property": "C29",
   "status": "proved",
   "theorems": [
    "Dendron.C29_data_exists_unique",
    "Dendron.C29_canonical",
    "Dendron.C29_to_events"
   ],
   "note": ""
  },
  {
   "property": "C30",
   "status": "proved",
   "theorems": [
    "Dendron.C30_round_trip",
    "Dendron.C30_collect_traversal",
    "Dendron.C30_round_trip_wide",
    "Dendron.C30_collect_traversal_wide"
   ],
   "note": ""
  },
  {
   "property": "C31",
   "status": "proved",
   "theorems": [
    "Dendron.C31_wellformed",
    "Dendron.C31_accepts",
    "Dendron.C31_flags",
    "Dendron.C31_next",
    "Dendron.C31_finish",
    "Dendron.C31_from_events",
    "Dendron.C31_from_events_as",
    "Dendron.C31_from_events_tree",
    "Dendron.C31_from_dft_events",
    "Dendron.C31_from_dft_events_borrowed",
    "Dendron.C31_from_events_wide",
    "Dendron.C31_from_events_as_wide",
    "Dendron.C31_from_events_tree_wide",
    "Dendron.C31_from_dft_events_wide",
    "Dendron.C31_from_dft_events_borrowed_wide"
   ],
   "note": ""
  },
  {
   "property": "C32",
   "status": "partial",
   "theorems": [
    "Dendron.C32_open",
    "Dendron.C32_close_partial",
    "Dendron.C32_close_outcome",
    "Dendron.C32_close_always_violated",
    "Dendron.C32_violated",
    "Dendron.C32_close_fails_always",
    "Dendron.C32_close_fails_wide"
   ],
   "note": "Full for open and for close while no node is open. close(n) with n larger than the number of open nodes fails; the failing call is harmless only when nothing but the root is open, and otherwise ALWAYS moves the current position to the root (C32_close_always_violated, every reachable builder); C32_close_outcome says exactly which state results, C32_violated is a concrete program. C32_close_fails_always says for every state (damaged ones included) and every builder that a failing close leaves what a successful close of fewer nodes leaves, and when that is no change; C32_close_fails_wide says exactly what a failing close does among any other calls of the wider histories."
  },
  {
   "property": "C33",
   "status": "partial",
   "theorems": [
    "Dendron.C33_inside_partial",
    "Dendron.C33_root_partial",
    "Dendron.C33_always_violated",
    "Dendron.C33_violated",
    "Dendron.C33_undisturbed_partial",
    "Dendron.C33_undisturbed_next_partial",
    "Dendron.C33_root_undisturbed",
    "Dendron.C33_root_undisturbed_next"
   ],
   "note": "Proved for every start node as long as the pushed events stay inside the start node (C33_inside_partial), and for every event sequence when the start node is a root (C33_root_partial). Violated for EVERY start node with a parent: after it has been closed is_root_closed stays false and further nodes are added outside (C33_always_violated; C33_violated concretely). C33_undisturbed_partial/_next_partial and C33_root_undisturbed/_next extend both positive results to all the wider histories with other calls between the events that leave the subtree alone."
  },
  {
   "property": "C34",
   "status": "proved",
   "theorems": [
    "Dendron.C34_copies",
    "Dendron.C34_fails",
    "Dendron.C34_equal",
    "Dendron.C34_tree",
    "Dendron.C34_tree_fails",
    "Dendron.C34_copies_wide",
    "Dendron.C34_fails_wide",
    "Dendron.C34_equal_wide",
    "Dendron.C34_tree_wide",
    "Dendron.C34_tree_fails_wide"
   ],
   "note": ""
  },
  {
   "property": "C35",
   "status": "partial",
   "theorems": [
    "Dendron.C35_partial",
    "Dendron.C35_equal_partial",
    "Dendron.C35_inside_endless",
    "Dendron.C35_inside_first",
    "Dendron.C35_violated_endless",
    "Dendron.C35_violated_endless_demo",
    "Dendron.C35_violated_copy",
    "Dendron.C35_wide_partial",
    "Dendron.C35_equal_wide_partial"
   ],
   "note": "Proved for every destination outside the source subtree. Violated for EVERY destination inside it: if the new node would become the first child of the source the method returns a wrong copy, with an extra first child (C35_inside_first, exact result), and in all other cases it never returns (C35_inside_endless; with borrowed data: C53). C35_violated_endless / C35_violated_copy are special cases. C35_wide_partial and C35_equal_wide_partial: the same in the histories that leave a last_child wrong, at every place whose parent's last_child is right or that has siblings on both sides."
  },
  {
   "property": "C36",
   "status": "proved",
   "theorems": [
    "Dendron.C36_try_eq",
    "Dendron.C36_fails_iff",
    "Dendron.C36_decides",
    "Dendron.C36_same_node",
    "Dendron.C36_tree",
    "Dendron.C36_equivalence"
   ],
   "note": ""
  },
  {
   "property": "C37",
   "status": "proved",
   "theorems": [
    "Dendron.C37_exclusive"
   ],
   "note": ""
  },
  {
   "property": "C38",
   "status": "proved",
   "theorems": [
    "Dendron.C38_grant",
    "Dendron.C38_prohibition",
    "Dendron.C38_hot",
    "Dendron.C38_frozen"
   ],
   "note": ""
  },
  {
   "property": "C39",
   "status": "proved",
   "theorems": [
    "Dendron.C39_drop_handle",
    "Dendron.C39_drop_token",
    "Dendron.C39_neutral"
   ],
   "note": ""
  },
  {
   "property": "C40",
   "status": "proved",
   "theorems": [
    "Dendron.C40_valid_iff",
    "Dendron.C40_wrong_token",
    "Dendron.C40_wrong_bundle",
    "Dendron.C40_right_bundle"
   ],
   "note": ""
  },
  {
   "property": "C41",
   "status": "partial",
   "theorems": [
    "Dendron.C41_prohibited_partial",
    "Dendron.C41_prohibited_wide_partial",
    "Dendron.C41_violated"
   ],
   "note": "Proved for histories of calls that neither make a cycle nor move a root with children or with a Tree handle into another tree, and that do not rely on a stale last_child (ReachW); the code violates it after a damaging call (proved)."
  },
  {
   "property": "C42",
   "status": "proved",
   "theorems": [
    "Dendron.C42_locks_exact",
    "Dendron.C42_edits_keep_handles",
    "Dendron.C42_hot_moves"
   ],
   "note": ""
  },
  {
   "property": "C43",
   "status": "partial",
   "theorems": [
    "Dendron.C43_reachable_partial",
    "Dendron.C43_reachable_wide_partial",
    "Dendron.C43_step_partial",
    "Dendron.C43_violated"
   ],
   "note": "Proved for all histories of calls that neither make a cycle nor move a root with children or with a Tree handle into another tree, and that do not rely on a stale last_child (ReachW); violated by the code after moving a root between trees (proved)."
  },
  {
   "property": "C44",
   "status": "partial",
   "theorems": [
    "Dendron.C44_noLeak_partial",
    "Dendron.C44_empty_partial",
    "Dendron.C44_step_partial",
    "Dendron.C44_violated"
   ],
   "note": "Proved for all histories of calls that neither make a cycle nor move a root with children or with a Tree handle into another tree, and that do not rely on a stale last_child (ReachW); violated by the code after a node is moved under its own descendant (proved)."
  },
  {
   "property": "C45",
   "status": "partial",
   "theorems": [
    "Dendron.C45_node_partial",
    "Dendron.C45_alive_partial",
    "Dendron.C45_tree_partial",
    "Dendron.C45_violated"
   ],
   "note": "Proved for all histories of calls that neither make a cycle nor move a root with children or with a Tree handle into another tree, and that do not rely on a stale last_child (ReachW); upgrade panics on a leaked node (proved)."
  },
  {
   "property": "C46",
   "status": "partial",
   "theorems": [
    "Dendron.C46_counts",
    "Dendron.C46_noPanic_partial",
    "Dendron.C46_drop",
    "Dendron.C46_violated",
    "Dendron.C46_stale_violated"
   ],
   "note": "Exact counts are proved for all histories whatsoever; absence of panics for histories of calls that neither make a cycle nor move a root with children or with a Tree handle into another tree, and that do not rely on a stale last_child (ReachW); violated otherwise (proved: upgrading a leaked node; last_child after the last of several children was detached and destroyed)."
  },
  {
   "property": "C47",
   "status": "partial",
   "theorems": [
    "Dendron.C47_tree_partial",
    "Dendron.C47_node_partial"
   ],
   "note": "Proved for all histories of calls that neither make a cycle nor move a root with children or with a Tree handle into another tree, and that do not rely on a stale last_child (ReachW), for the last Tree and for the last Node."
  },
  {
   "property": "C48",
   "status": "partial",
   "theorems": [
    "Dendron.C48_data",
    "Dendron.C48_borrow",
    "Dendron.C48_alive_partial",
    "Dendron.C48_violated"
   ],
   "note": "That no call changes data (or its borrow state) except by writing is proved for all histories whatsoever (C48_data, C48_borrow); that nodes are not freed, for all histories of calls that neither make a cycle nor move a root with children or with a Tree handle into another tree, and that do not rely on a stale last_child (ReachW); violated by the code when a root is moved between trees (proved)."
  },
  {
   "property": "C49",
   "status": "proved",
   "theorems": [
    "Dendron.C49_drawing",
    "Dendron.C49_chunks",
    "Dendron.C49_shape",
    "Dendron.C49_borrowed",
    "Dendron.C49_lines",
    "Dendron.C49_line_count"
   ],
   "note": "Output equals the line specification RTree.drawing; independent of chunking; a node with an empty text prints no line. The formatter behind the writer does not fail."
  },
  {
   "property": "C50",
   "status": "proved",
   "theorems": [
    "Dendron.C50_tree_node",
    "Dendron.C50_tree",
    "Dendron.C50_tree_node_wide",
    "Dendron.C50_tree_wide"
   ],
   "note": "Literals with fewer than 2^62 - 3 nodes (lock counter). Parsing of the macro patterns is not modelled."
  },
  {
   "property": "C51",
   "status": "proved",
   "theorems": [
    "Dendron.C51_restored",
    "Dendron.C51_untouched",
    "Dendron.C51_kept",
    "Dendron.C51_drop_again",
    "Dendron.C51_nav_drop",
    "Dendron.C51_places",
    "Dendron.C51_reads_reach",
    "Dendron.C51_places_wide"
   ],
   "note": "For every state reached by any calls (damaged histories included) and any sequence of calls that create, edit and write nothing: the exact state is restored once the program holds the same values again, and meanwhile nothing visible changes while it still holds what it held. C51_places adds, for histories without a known defect, that places stay when more is dropped. C51_places_wide (with C51_reads_reach) does the same in the wider histories, by calls that do not ask for a stale end: data, tree, parent, siblings, children and all navigation that did not depend on a stale end stay."
  },
  {
   "property": "C52",
   "status": "proved",
   "theorems": [
    "Dendron.C52_items",
    "Dendron.C52_first_error"
   ],
   "note": ""
  },
  {
   "property": "C53",
   "status": "partial",
   "theorems": [
    "Dendron.C53_root_borrowed_partial",
    "Dendron.C53_no_place_partial",
    "Dendron.C53_outcome",
    "Dendron.C53_inside_first",
    "Dendron.C53_inside_before",
    "Dendron.C53_inside_endless",
    "Dendron.C53_violated",
    "Dendron.C53_no_place_wide_partial",
    "Dendron.C53_outcome_wide"
   ],
   "note": "Settled in every case. Nothing changes when the data of the source root is borrowed and when the destination is a sibling position of a root. In every other failing case the property is violated: an incomplete copy stays in the destination (C53_outcome: destinations outside the source; C53_inside_first, C53_inside_before: inside). Inside the source, not in the first place, with nothing borrowed before the place, the call never returns (C53_inside_endless). C53_violated is a concrete program. C53_outcome_wide, C53_no_place_wide_partial: in the histories with a wrong last_child."
  },
  {
   "property": "C54",
   "status": "partial",
   "theorems": [
    "Dendron.C54_tree_right",
    "Dendron.C54_shallow_depth_first",
    "Dendron.C54_stable_depth_first_partial",
    "Dendron.C54_breadth_first",
    "Dendron.C54_siblings_partial"
   ],
   "note": "Full for the depth-limited and both breadth-first traversers; for depth_first_traverse_stable from a root used from one end, and for children_stable/following_siblings*_stable used as in C27, i.e. where the code is right without interference. Other calls range over the wider histories of C41 (ReachW/StepW: unlink and replacement of last children allowed); in the start state the traversed subtree holds no stale last_child (TreeRight, true of every Reach state)."
  },
  {
   "property": "C55",
   "status": "proved",
   "theorems": [
    "Dendron.C55_next_plain",
    "Dendron.C55_next_stable",
    "Dendron.C55_make_stable_siblings",
    "Dendron.C55_clone",
    "Dendron.C55_peek",
    "Dendron.C55_close_current",
    "Dendron.C55_depth_first_loop",
    "Dendron.C55_children_ancestors_loop",
    "Dendron.C55_siblings_loop",
    "Dendron.C55_stable_loop",
    "Dendron.C55_traverser_prohibits",
    "Dendron.C55_owns_pending",
    "Dendron.C55_exhausted_owns_nothing",
    "Dendron.C55_next_forward_wide",
    "Dendron.C55_next_backward_wide",
    "Dendron.C55_next_stable_wide",
    "Dendron.C55_clone_wide",
    "Dendron.C55_peek_wide",
    "Dendron.C55_close_current_wide",
    "Dendron.C55_forward_loop_wide",
    "Dendron.C55_backward_loop_wide",
    "Dendron.C55_stable_loop_wide"
   ],
   "note": "Reachable by calls without a known defect, and (`_wide`) in the wider histories of C41 where the last children of the tree are right if the traverser asks for them; at most 2^62 tokens plus nodes per tree (World.Roomy: no lock counter overflows). Loops with fuel for the breadth-first scans (fuel from the number of nodes, proved sufficient in C24)."
  },
  {
   "property": "C56",
   "status": "partial",
   "theorems": [
    "Dendron.C56_local",
    "Dendron.C56_subtree_partial",
    "Dendron.C56_frozen_name_wrong",
    "Dendron.C56_tree",
    "Dendron.C56_node_weak",
    "Dendron.C56_tree_weak",
    "Dendron.C56_local_wide",
    "Dendron.C56_node_weak_wide",
    "Dendron.C56_tree_weak_wide"
   ],
   "note": "Everything but the name of a subtree printed through a FrozenNode, which is `Node` (C56_frozen_name_wrong: DebugPrintSubtree::new_frozen stores NodeType::Plain). Layout by the standard library formatter is not modelled. `Debug` of a node itself (C56_local_wide) needs last_child of the parent to be right if the node is the first child; otherwise it may panic."
  },
  {
   "property": "C57",
   "status": "partial",
   "theorems": [
    "Dendron.C57_tree_partial",
    "Dendron.C57_tree_panics",
    "Dendron.C57_tree_violated",
    "Dendron.C57_node_partial",
    "Dendron.C57_node_panics",
    "Dendron.C57_node_violated"
   ],
   "note": "Order, once-ness and all answers but one are proved: upgrading a weak handle of a node of the released tree that is not destroyed yet panics instead of returning None, in every state where the tree has at least two nodes (C57_tree_violated, C57_node_violated: with_node_core expects the tree to be alive; the membership cell of the last handle is borrowed). Histories: ReachW."
  },
  {
   "property": "C58",
   "status": "proved",
   "theorems": [
    "Dendron.C58_last_value",
    "Dendron.C58_guards",
    "Dendron.C58_borrow",
    "Dendron.C58_borrow_mut",
    "Dendron.C58_stable"
   ],
   "note": "All histories, with no exclusion; guards of data (Ref, RefMut) are part of the program state and keep the handle they were got from (Rust's borrow checker)."
  },
  {
   "property": "C59",
   "status": "proved",
   "theorems": [
    "Dendron.C59_tree",
    "Dendron.C59_node",
    "Dendron.C59_chain",
    "Dendron.C59_empty",
    "Dendron.C59_upgrade"
   ],
   "note": "For every state reached by any calls, with no assumption on the shape of the hierarchy (damaged histories included). C59_chain: every living node hangs on something the program owns or on a cycle of owners; such cycles exist (see C44_violated)."
  },
  {
   "property": "C60",
   "status": "proved",
   "theorems": [
    "Dendron.C60_create",
    "Dendron.C60_replace",
    "Dendron.C60_move",
    "Dendron.C60_clone",
    "Dendron.C60_clone_tree",
    "Dendron.C60_clone_insert_outside",
    "Dendron.C60_clone_insert_inside",
    "Dendron.C60_eq",
    "Dendron.C60_clone_insert_wide",
    "Dendron.C60_create_wide",
    "Dendron.C60_replace_wide",
    "Dendron.C60_move_wide",
    "Dendron.C60_clone_wide",
    "Dendron.C60_clone_tree_wide"
   ],
   "note": "Exact for creation, replacement, all moves (C60_move), copies, == and clone_insert_subtree, to places outside (C60_clone_insert_outside) and inside the copied subtree (C60_clone_insert_inside: there both variants may never return). C60_*_wide: also in the histories that leave a last_child wrong."
  },
  {
   "property": "C61",
   "status": "proved",
   "theorems": [
    "Dendron.C61_depth_first",
    "Dendron.C61_depth_first_reverse",
    "Dendron.C61_siblings",
    "Dendron.C61_siblings_reverse",
    "Dendron.C61_ancestors",
    "Dendron.C61_depth_first_wide",
    "Dendron.C61_siblings_wide",
    "Dendron.C61_ancestors_wide",
    "Dendron.C61_depth_first_reverse_wide",
    "Dendron.C61_siblings_reverse_wide"
   ],
   "note": "Any number of other calls (World.Step: edits included) between the calls of next; the hierarchy meant is the one at the moment the previous item was returned, as the iterators fetch the following item eagerly. Example: children inserted while looping."
  },
  {
   "property": "C62",
   "status": "proved",
   "theorems": [
    "Dendron.C62_shown",
    "Dendron.C62_refines",
    "Dendron.C62_history",
    "Dendron.C62_deterministic",
    "Dendron.C62_exact",
    "Dendron.C62_room",
    "Dendron.C62_programs"
   ],
   "note": "Spec/Machine.lean is the machine (no heap, no counters); Shows is the representation relation. C62_refines/history: the crate simulates the machine in all histories of StepW; C62_exact: step of the machine iff the call returns, in the same state; C62_programs: hypotheses only about the machine (ownership May, no known defect Fine, no reliance on a removed last child) and at most 2^61 calls. The calls excluded by Fine and UsesLast are those shown to misbehave in C10-C18."
  },
  {
   "property": "C63",
   "status": "proved",
   "theorems": [
    "Dendron.C63_drop",
    "Dendron.C63_account",
    "Dendron.C63_order",
    "Dendron.C63_survivors",
    "Dendron.C63_cycle",
    "Dendron.C63_no_leak"
   ],
   "note": "Model/Cascade models the functions that free nodes with the destructor of the data called at the place where Rust runs it (data before neighbors, membership still borrowed, tree core no longer upgradable). C63_drop: for every state (ReachW), every assignment of owned things and every list of things dropped, the nested execution returns and equals a sequence of ordinary drops (Drops), C63_account: everything exactly once, C63_order: order irrelevant, C63_survivors, C63_cycle (leak of cyclic ownership), C63_no_leak. Destructors that do other things than drop are C57."
  },
  {
   "property": "C64",
   "status": "partial",
   "theorems": [
    "Dendron.C64_detach_violation",
    "Dendron.C64_move_violation",
    "Dendron.C64_detach_partial",
    "Dendron.C64_move_partial",
    "Dendron.C64_detach_exact",
    "Dendron.C64_detach_returns",
    "Dendron.C64_detach_panics"
   ],
   "note": "Violated by the code (bug 18): C64_detach_violation and C64_move_violation prove, for every state with a root and one child, that the call panics with a nested borrow if the data of the abandoned root owns a handle to the moved node. C64_detach_exact gives the outcome of detach_subtree in every case (the ordinary calls n.tree(), n.detach_subtree(), n.tree() followed by dropping the two Trees, with the destructors of C63, split at the nodes of the subtree); C64_detach_returns: it returns if no data outside the subtree owns a handle into it; C64_detach_panics: it panics whenever the remainder is destroyed and its data owns a handle into the subtree. C64_detach_partial and C64_move_partial: if the call destroys nothing, owned handles make no difference. Missing: moves that destroy the remainder of the old tree whose data owns no handle to the moved nodes; replace_with_children."
  },
  {
   "property": "C65",
   "status": "proved",
   "theorems": [
    "Dendron.C65_prefix",
    "Dendron.C65_all",
    "Dendron.C65_ok_complete",
    "Dendron.C65_returns"
   ],
   "note": "The formatter is any function from call number to success/failure after k characters; the data formatting is any strategy. The prefix theorem is for formattings that pass failures on (Relays); returning without panic is for all."
  },
  {
   "property": "C66",
   "status": "proved",
   "theorems": [
    "Dendron.C66_forward",
    "Dendron.C66_eq"
   ],
   "note": "Over ReachW histories (Spec/Wide): all calls except those with a defect that damages forward links, see C01. The underlying theorems C19, C21_ancestors, C29, C36, C49, C52 need the forward links only."
  },
  {
   "property": "C67",
   "status": "proved",
   "theorems": [
    "Dendron.C67_counting_faithful",
    "Dendron.C67_non_allocating_quadratic",
    "Dendron.C67_non_allocating_at_least",
    "Dendron.C67_quadratic_attained",
    "Dendron.C67_allocating_linear",
    "Dendron.C67_detach_linear",
    "Dendron.C67_move_other_linear",
    "Dendron.C67_move_same_constant"
   ],
   "note": "Costs are counted in loop iterations and calls of inner iterators; memory allocation is not counted. A detach or move after which nothing refers to the rest of the old tree also frees that rest, which is not counted."
  },
  {
   "property": "C68",
   "status": "proved",
   "theorems": [
    "Dendron.C68_history",
    "Dendron.C68_push",
    "Dendron.C68_deterministic",
    "Dendron.C68_with_root",
    "Dendron.C68_finish",
    "Dendron.C68_drop",
    "Dendron.C68_undisturbed",
    "Dendron.C68_undisturbed_next"
   ],
   "note": "An opening event is pushed only where last_child of the cursor is right (C13-C15 show the calls which make it wrong), and with fewer than 2^62 tokens and nodes. The abstract step shows that a builder is reported closed as soon as its cursor leaves the top of whatever tree it is in, also if another call has moved the open node out of the tree of the root (concrete case beside C68_push)."
  },
  {
   "property": "C69",
   "status": "proved",
   "theorems": [
    "Dendron.C69_others",
    "Dendron.C69_others_history",
    "Dendron.C69_depends",
    "Dendron.C69_commute"
   ],
   "note": "For the calls of C62 (histories StepW: calls without the known defects of moves, which depend on a last child only where last_child is right). Two calls that both make a node, or both make a tree, are not claimed to commute: the nodes would be the same up to a renaming of the new ones."
  },
  {
   "property": "C70",
   "status": "proved",
   "theorems": [
    "Dendron.C70_handles",
    "Dendron.C70_bundle",
    "Dendron.C70_create_detach",
    "Dendron.C70_parent_replace",
    "Dendron.C70_child_replace",
    "Dendron.C70_move_back"
   ],
   "note": "On the abstract states of C62 (nodes, data, ordered children, trees, locks, handles; the names of the next node and tree differ after a creation), for the histories StepW and with fewer than 2^62 tokens and nodes. last_child may be stale after a last child has been removed (C13-C15), so that C70_child_replace asks for a right last_child. Detaching a subtree and inserting it again is not among the pairs: the insertion moves the root of the detached tree to another tree, which damages it (C18)."
  },
  {
   "property": "C71",
   "status": "proved",
   "theorems": [
    "Dendron.C71_drawing_injective",
    "Dendron.C71_empty_text",
    "Dendron.C71_newline",
    "Dendron.C71_events_injective",
    "Dendron.C71_print",
    "Dendron.C71_agree",
    "Dendron.C71_reach"
   ],
   "note": ""
  }
 ]
}