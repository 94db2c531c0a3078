# Axioms of each theorem

Generated by `tools/mk_axioms.py` from `#print axioms`.

* `Dendron.C01_navigation_coherent_partial`: propext, Quot.sound
* `Dendron.C01_history_partial`: propext, Classical.choice, Quot.sound
* `Dendron.C01_history_wide_partial`: propext, Classical.choice, Quot.sound
* `Dendron.C01_last_child_kept_partial`: propext, Classical.choice, Quot.sound
* `Dendron.C01_last_child_all_partial`: propext, Classical.choice, Quot.sound
* `Dendron.C01_history_violated`: propext
* `Dendron.C02_child_counts_partial`: propext, Classical.choice, Quot.sound
* `Dendron.C02_history_partial`: propext, Classical.choice, Quot.sound
* `Dendron.C02_history_wide_partial`: propext, Classical.choice, Quot.sound
* `Dendron.C03_positions_partial`: propext, Classical.choice, Quot.sound
* `Dendron.C03_history_partial`: propext, Classical.choice, Quot.sound
* `Dendron.C03_history_wide_partial`: propext, Classical.choice, Quot.sound
* `Dendron.C04_trees_agree_partial`: propext, Classical.choice, Quot.sound
* `Dendron.C04_history_partial`: propext, Classical.choice, Quot.sound
* `Dendron.C04_history_wide_partial`: propext, Classical.choice, Quot.sound
* `Dendron.C05_create_as_first_child`: propext, Classical.choice, Quot.sound
* `Dendron.C05_create_as_last_child`: propext, Classical.choice, Quot.sound
* `Dendron.C06_create_as_prev_sibling`: propext, Classical.choice, Quot.sound
* `Dendron.C06_create_as_next_sibling`: propext, Classical.choice, Quot.sound
* `Dendron.C06_create_sibling_of_root`: propext, Classical.choice, Quot.sound
* `Dendron.C07_failed_creation_no_effect`: propext, Classical.choice, Quot.sound
* `Dendron.C08_interrupting_parent_nonroot`: propext, Classical.choice, Quot.sound
* `Dendron.C08_interrupting_parent_root`: propext, Classical.choice, Quot.sound
* `Dendron.C09_interrupting_child`: propext, Classical.choice, Quot.sound
* `Dendron.C10_replace_with_children_partial`: propext, Classical.choice, Quot.sound
* `Dendron.C10_replace_forward`: propext, Classical.choice, Quot.sound
* `Dendron.C10_replace_root`: propext, Classical.choice, Quot.sound
* `Dendron.C10_replace_last_leaf_violation`: propext, Classical.choice, Quot.sound
* `Dendron.C10_always_violated`: propext, Classical.choice, Quot.sound
* `Dendron.C11_replace_errors`: propext, Classical.choice, Quot.sound
* `Dendron.C12_detach_subtree_partial`: propext, Classical.choice, Quot.sound
* `Dendron.C12_detach_root_noop`: propext
* `Dendron.C12_detach_last_child_violation`: propext, Classical.choice, Quot.sound
* `Dendron.C12_always_violated`: propext, Classical.choice, Quot.sound
* `Dendron.C13_detach_forward`: propext, Classical.choice, Quot.sound
* `Dendron.C14_move_same_tree_partial`: propext, Classical.choice, Quot.sound
* `Dendron.C14_move_forward`: propext, Classical.choice, Quot.sound
* `Dendron.C14_move_last_child_violation`: propext, Classical.choice, Quot.sound
* `Dendron.C14_move_last_to_last_violation`: propext, Classical.choice, Quot.sound
* `Dendron.C14_always_violated`: propext, Classical.choice, Quot.sound
* `Dendron.C15_move_other_tree_partial`: propext, Classical.choice, Quot.sound
* `Dendron.C15_move_forward`: propext, Classical.choice, Quot.sound
* `Dendron.C15_always_violated`: propext, Classical.choice, Quot.sound
* `Dendron.C16_always_violated`: propext, Classical.choice, Quot.sound
* `Dendron.C16_move_below_itself_violation`: propext, Classical.choice, Quot.sound
* `Dendron.C16_loop_error_never_returned`: propext
* `Dendron.C16_move_root_below_itself_partial`: propext
* `Dendron.C17_fails_iff`: propext, Classical.choice, Quot.sound
* `Dendron.C17_always_violated`: propext, Classical.choice, Quot.sound
* `Dendron.C17_other_tree_violated`: propext, Classical.choice, Quot.sound
* `Dendron.C17_failed_move_violation`: propext, Classical.choice, Quot.sound
* `Dendron.C17_failed_move_partial`: propext
* `Dendron.C17_root_always_violated`: propext, Classical.choice, Quot.sound
* `Dendron.C17_outcome`: propext, Classical.choice, Quot.sound
* `Dendron.C18_move_whole_tree_violation`: propext, Classical.choice, Quot.sound
* `Dendron.C18_drop_emptied_tree_violation`: propext, Classical.choice, Quot.sound
* `Dendron.C18_tree_held_always_violated`: propext, Classical.choice, Quot.sound
* `Dendron.C18_links_always_destroyed`: propext, Classical.choice, Quot.sound
* `Dendron.C18_childless_root_partial`: propext, Classical.choice, Quot.sound
* `Dendron.C18_consistent_iff`: propext, Classical.choice, Quot.sound
* `Dendron.C19_subtree_exists_unique`: propext, Classical.choice, Quot.sound
* `Dendron.C19_depth_first`: propext, Quot.sound
* `Dendron.C20_depth_first_reverse`: propext, Quot.sound
* `Dendron.C21_children`: propext
* `Dendron.C21_siblings`: propext
* `Dendron.C21_siblings_of_root`: propext
* `Dendron.C21_ancestors`: propext
* `Dendron.C22_stable_depth_first_partial`: propext, Quot.sound
* `Dendron.C22_runs_past_subtree`: propext, Quot.sound
* `Dendron.C22_not_double_ended`: propext, Classical.choice, Quot.sound
* `Dendron.C22_exact`: propext, Classical.choice, Quot.sound
* `Dendron.C22_never_double_ended`: propext, Classical.choice, Quot.sound
* `Dendron.C22_one_ended_iff`: propext, Classical.choice, Quot.sound
* `Dendron.C23_shallow_depth_first`: propext, Quot.sound
* `Dendron.C23_unlimited_is_depth_first`: propext, Quot.sound
* `Dendron.C24_breadth_first`: propext, Classical.choice, Quot.sound
* `Dendron.C24_every_node_once`: propext, Classical.choice, Quot.sound
* `Dendron.C25_internal_hint_wrong`: propext
* `Dendron.C25_size_hint_depth_first`: propext, Quot.sound
* `Dendron.C25_size_hint_breadth_first`: propext, Classical.choice, Quot.sound
* `Dendron.C25_size_hint_siblings`: propext, Quot.sound
* `Dendron.C25_size_hint_shallow_partial`: propext, Quot.sound
* `Dendron.C25_shallow_upper_bound_wrong`: propext, Quot.sound
* `Dendron.C25_size_hint_stable_partial`: propext, Quot.sound
* `Dendron.C25_shallow_exact`: propext, Classical.choice, Quot.sound
* `Dendron.C25_stable_always_violated`: propext, Classical.choice, Quot.sound
* `Dendron.C25_stable_siblings_always_violated`: propext, Classical.choice, Quot.sound
* `Dendron.C26_close_current`: propext, Quot.sound
* `Dendron.C26_close_current_stable_partial`: propext, Quot.sound
* `Dendron.C26_close_current_shallow`: propext, Quot.sound
* `Dendron.C26_event_close_current_diverges`: propext
* `Dendron.C26_event_close_current_partial`: propext
* `Dendron.C26_stable_open`: propext, Quot.sound
* `Dendron.C26_stable_always_violated`: propext, Classical.choice, Quot.sound
* `Dendron.C26_event_exact`: propext, Classical.choice, Quot.sound
* `Dendron.C27_stable_siblings_partial`: propext, Quot.sound
* `Dendron.C27_preceding_wrong`: propext, Classical.choice, Quot.sound
* `Dendron.C27_not_double_ended`: propext
* `Dendron.C27_exact`: propext, Quot.sound
* `Dendron.C27_double_ended_iff`: propext, Classical.choice, Quot.sound
* `Dendron.C27_one_ended_iff`: propext, Classical.choice, Quot.sound
* `Dendron.C27_root`: propext
* `Dendron.C28_peek`: propext
* `Dendron.C28_peek_breadth_first`: propext, Classical.choice, Quot.sound
* `Dendron.C29_data_exists_unique`: propext, Quot.sound
* `Dendron.C29_canonical`: propext, Classical.choice, Quot.sound
* `Dendron.C29_to_events`: propext, Classical.choice, Quot.sound
* `Dendron.C30_round_trip`: propext, Classical.choice, Quot.sound
* `Dendron.C30_collect_traversal`: propext, Classical.choice, Quot.sound
* `Dendron.C30_round_trip_wide`: propext, Classical.choice, Quot.sound
* `Dendron.C30_collect_traversal_wide`: propext, Classical.choice, Quot.sound
* `Dendron.C31_wellformed`: propext, Classical.choice, Quot.sound
* `Dendron.C31_accepts`: propext, Classical.choice, Quot.sound
* `Dendron.C31_flags`: propext, Classical.choice, Quot.sound
* `Dendron.C31_next`: propext, Classical.choice, Quot.sound
* `Dendron.C31_finish`: propext, Classical.choice, Quot.sound
* `Dendron.C31_from_events`: propext, Classical.choice, Quot.sound
* `Dendron.C31_from_events_as`: propext, Classical.choice, Quot.sound
* `Dendron.C31_from_events_tree`: propext, Classical.choice, Quot.sound
* `Dendron.C31_from_dft_events`: propext, Classical.choice, Quot.sound
* `Dendron.C31_from_dft_events_borrowed`: propext, Classical.choice, Quot.sound
* `Dendron.C31_from_events_wide`: propext, Classical.choice, Quot.sound
* `Dendron.C31_from_events_as_wide`: propext, Classical.choice, Quot.sound
* `Dendron.C31_from_events_tree_wide`: propext, Classical.choice, Quot.sound
* `Dendron.C31_from_dft_events_wide`: propext, Classical.choice, Quot.sound
* `Dendron.C31_from_dft_events_borrowed_wide`: propext, Classical.choice, Quot.sound
* `Dendron.C32_open`: propext
* `Dendron.C32_close_partial`: propext
* `Dendron.C32_close_outcome`: propext, Classical.choice, Quot.sound
* `Dendron.C32_close_always_violated`: propext, Classical.choice, Quot.sound
* `Dendron.C32_violated`: propext
* `Dendron.C32_close_fails_always`: propext, Quot.sound
* `Dendron.C32_close_fails_wide`: propext, Classical.choice, Quot.sound
* `Dendron.C33_inside_partial`: propext, Classical.choice, Quot.sound
* `Dendron.C33_root_partial`: propext, Classical.choice, Quot.sound
* `Dendron.C33_always_violated`: propext, Classical.choice, Quot.sound
* `Dendron.C33_violated`: propext, Quot.sound
* `Dendron.C33_undisturbed_partial`: propext, Classical.choice, Quot.sound
* `Dendron.C33_undisturbed_next_partial`: propext, Classical.choice, Quot.sound
* `Dendron.C33_root_undisturbed`: propext, Classical.choice, Quot.sound
* `Dendron.C33_root_undisturbed_next`: propext, Classical.choice, Quot.sound
* `Dendron.C34_copies`: propext, Classical.choice, Quot.sound
* `Dendron.C34_fails`: propext, Classical.choice, Quot.sound
* `Dendron.C34_equal`: propext, Classical.choice, Quot.sound
* `Dendron.C34_tree`: propext, Classical.choice, Quot.sound
* `Dendron.C34_tree_fails`: propext, Classical.choice, Quot.sound
* `Dendron.C34_copies_wide`: propext, Classical.choice, Quot.sound
* `Dendron.C34_fails_wide`: propext, Classical.choice, Quot.sound
* `Dendron.C34_equal_wide`: propext, Classical.choice, Quot.sound
* `Dendron.C34_tree_wide`: propext, Classical.choice, Quot.sound
* `Dendron.C34_tree_fails_wide`: propext, Classical.choice, Quot.sound
* `Dendron.C35_partial`: propext, Classical.choice, Quot.sound
* `Dendron.C35_equal_partial`: propext, Classical.choice, Quot.sound
* `Dendron.C35_inside_endless`: propext, Classical.choice, Quot.sound
* `Dendron.C35_inside_first`: propext, Classical.choice, Quot.sound
* `Dendron.C35_violated_endless`: propext, Classical.choice, Quot.sound
* `Dendron.C35_violated_endless_demo`: propext, Classical.choice, Quot.sound
* `Dendron.C35_violated_copy`: propext, Quot.sound
* `Dendron.C35_wide_partial`: propext, Classical.choice, Quot.sound
* `Dendron.C35_equal_wide_partial`: propext, Classical.choice, Quot.sound
* `Dendron.C36_try_eq`: propext, Classical.choice, Quot.sound
* `Dendron.C36_fails_iff`: propext, Classical.choice, Quot.sound
* `Dendron.C36_decides`: propext, Classical.choice, Quot.sound
* `Dendron.C36_same_node`: propext
* `Dendron.C36_tree`: propext, Classical.choice, Quot.sound
* `Dendron.C36_equivalence`: propext, Classical.choice, Quot.sound
* `Dendron.C37_exclusive`: propext, Classical.choice, Quot.sound
* `Dendron.C38_grant`: propext, Classical.choice, Quot.sound
* `Dendron.C38_prohibition`: propext, Classical.choice, Quot.sound
* `Dendron.C38_hot`: propext, Classical.choice, Quot.sound
* `Dendron.C38_frozen`: propext, Classical.choice, Quot.sound
* `Dendron.C39_drop_handle`: propext, Classical.choice, Quot.sound
* `Dendron.C39_drop_token`: propext, Classical.choice, Quot.sound
* `Dendron.C39_neutral`: propext, Classical.choice, Quot.sound
* `Dendron.C40_valid_iff`: propext, Classical.choice, Quot.sound
* `Dendron.C40_wrong_token`: propext, Classical.choice, Quot.sound
* `Dendron.C40_wrong_bundle`: propext, Classical.choice, Quot.sound
* `Dendron.C40_right_bundle`: propext, Classical.choice, Quot.sound
* `Dendron.C41_prohibited_partial`: propext, Classical.choice, Quot.sound
* `Dendron.C41_prohibited_wide_partial`: propext, Classical.choice, Quot.sound
* `Dendron.C41_violated`: propext
* `Dendron.C42_locks_exact`: propext, Classical.choice, Quot.sound
* `Dendron.C42_edits_keep_handles`: propext
* `Dendron.C42_hot_moves`: propext, Classical.choice, Quot.sound
* `Dendron.C43_reachable_partial`: propext, Classical.choice, Quot.sound
* `Dendron.C43_reachable_wide_partial`: propext, Classical.choice, Quot.sound
* `Dendron.C43_step_partial`: propext, Classical.choice, Quot.sound
* `Dendron.C43_violated`: propext
* `Dendron.C44_noLeak_partial`: propext, Classical.choice, Quot.sound
* `Dendron.C44_empty_partial`: propext, Classical.choice, Quot.sound
* `Dendron.C44_step_partial`: propext, Classical.choice, Quot.sound
* `Dendron.C44_violated`: propext
* `Dendron.C45_node_partial`: propext, Classical.choice, Quot.sound
* `Dendron.C45_alive_partial`: propext, Classical.choice, Quot.sound
* `Dendron.C45_tree_partial`: propext, Classical.choice, Quot.sound
* `Dendron.C45_violated`: propext
* `Dendron.C46_counts`: propext, Classical.choice, Quot.sound
* `Dendron.C46_noPanic_partial`: propext, Classical.choice, Quot.sound
* `Dendron.C46_drop`: propext, Classical.choice, Quot.sound
* `Dendron.C46_violated`: propext
* `Dendron.C46_stale_violated`: propext
* `Dendron.C47_tree_partial`: propext, Classical.choice, Quot.sound
* `Dendron.C47_node_partial`: propext, Classical.choice, Quot.sound
* `Dendron.C48_data`: propext, Classical.choice, Quot.sound
* `Dendron.C48_borrow`: propext, Classical.choice, Quot.sound
* `Dendron.C48_alive_partial`: propext, Classical.choice, Quot.sound
* `Dendron.C48_violated`: propext
* `Dendron.C49_drawing`: propext, Classical.choice, Quot.sound
* `Dendron.C49_chunks`: propext, Classical.choice, Quot.sound
* `Dendron.C49_shape`: propext, Classical.choice, Quot.sound
* `Dendron.C49_borrowed`: propext, Classical.choice, Quot.sound
* `Dendron.C49_lines`: propext, Classical.choice, Quot.sound
* `Dendron.C49_line_count`: propext
* `Dendron.C50_tree_node`: propext, Classical.choice, Quot.sound
* `Dendron.C50_tree`: propext, Classical.choice, Quot.sound
* `Dendron.C50_tree_node_wide`: propext, Classical.choice, Quot.sound
* `Dendron.C50_tree_wide`: propext, Classical.choice, Quot.sound
* `Dendron.C51_restored`: propext, Classical.choice, Quot.sound
* `Dendron.C51_untouched`: propext, Classical.choice, Quot.sound
* `Dendron.C51_kept`: propext, Classical.choice, Quot.sound
* `Dendron.C51_drop_again`: propext, Classical.choice, Quot.sound
* `Dendron.C51_nav_drop`: propext, Classical.choice, Quot.sound
* `Dendron.C51_places`: propext, Classical.choice, Quot.sound
* `Dendron.C51_reads_reach`: propext
* `Dendron.C51_places_wide`: propext, Classical.choice, Quot.sound
* `Dendron.C52_items`: propext, Classical.choice, Quot.sound
* `Dendron.C52_first_error`: propext, Classical.choice, Quot.sound
* `Dendron.C53_root_borrowed_partial`: propext
* `Dendron.C53_no_place_partial`: propext, Classical.choice, Quot.sound
* `Dendron.C53_outcome`: propext, Classical.choice, Quot.sound
* `Dendron.C53_inside_first`: propext, Classical.choice, Quot.sound
* `Dendron.C53_inside_before`: propext, Classical.choice, Quot.sound
* `Dendron.C53_inside_endless`: propext, Classical.choice, Quot.sound
* `Dendron.C53_violated`: propext, Quot.sound
* `Dendron.C53_no_place_wide_partial`: propext, Classical.choice, Quot.sound
* `Dendron.C53_outcome_wide`: propext, Classical.choice, Quot.sound
* `Dendron.C54_tree_right`: propext, Classical.choice, Quot.sound
* `Dendron.C54_shallow_depth_first`: propext, Classical.choice, Quot.sound
* `Dendron.C54_stable_depth_first_partial`: propext, Classical.choice, Quot.sound
* `Dendron.C54_breadth_first`: propext, Classical.choice, Quot.sound
* `Dendron.C54_siblings_partial`: propext, Classical.choice, Quot.sound
* `Dendron.C55_next_plain`: propext, Classical.choice, Quot.sound
* `Dendron.C55_next_stable`: propext, Classical.choice, Quot.sound
* `Dendron.C55_make_stable_siblings`: propext, Classical.choice, Quot.sound
* `Dendron.C55_clone`: propext, Classical.choice, Quot.sound
* `Dendron.C55_peek`: propext, Classical.choice, Quot.sound
* `Dendron.C55_close_current`: propext, Classical.choice, Quot.sound
* `Dendron.C55_depth_first_loop`: propext, Classical.choice, Quot.sound
* `Dendron.C55_children_ancestors_loop`: propext, Classical.choice, Quot.sound
* `Dendron.C55_siblings_loop`: propext, Classical.choice, Quot.sound
* `Dendron.C55_stable_loop`: propext, Classical.choice, Quot.sound
* `Dendron.C55_traverser_prohibits`: propext, Classical.choice, Quot.sound
* `Dendron.C55_owns_pending`: propext, Quot.sound
* `Dendron.C55_exhausted_owns_nothing`: propext
* `Dendron.C55_next_forward_wide`: propext, Classical.choice, Quot.sound
* `Dendron.C55_next_backward_wide`: propext, Classical.choice, Quot.sound
* `Dendron.C55_next_stable_wide`: propext, Classical.choice, Quot.sound
* `Dendron.C55_clone_wide`: propext, Classical.choice, Quot.sound
* `Dendron.C55_peek_wide`: propext, Classical.choice, Quot.sound
* `Dendron.C55_close_current_wide`: propext, Classical.choice, Quot.sound
* `Dendron.C55_forward_loop_wide`: propext, Classical.choice, Quot.sound
* `Dendron.C55_backward_loop_wide`: propext, Classical.choice, Quot.sound
* `Dendron.C55_stable_loop_wide`: propext, Classical.choice, Quot.sound
* `Dendron.C56_local`: propext, Classical.choice, Quot.sound
* `Dendron.C56_subtree_partial`: propext, Classical.choice, Quot.sound
* `Dendron.C56_frozen_name_wrong`: none
* `Dendron.C56_tree`: propext, Classical.choice, Quot.sound
* `Dendron.C56_node_weak`: propext, Classical.choice, Quot.sound
* `Dendron.C56_tree_weak`: propext, Classical.choice, Quot.sound
* `Dendron.C56_local_wide`: propext, Classical.choice, Quot.sound
* `Dendron.C56_node_weak_wide`: propext, Classical.choice, Quot.sound
* `Dendron.C56_tree_weak_wide`: propext, Classical.choice, Quot.sound
* `Dendron.C57_tree_partial`: propext, Classical.choice, Quot.sound
* `Dendron.C57_tree_panics`: propext, Classical.choice, Quot.sound
* `Dendron.C57_tree_violated`: propext, Classical.choice, Quot.sound
* `Dendron.C57_node_partial`: propext, Classical.choice, Quot.sound
* `Dendron.C57_node_panics`: propext, Classical.choice, Quot.sound
* `Dendron.C57_node_violated`: propext, Classical.choice, Quot.sound
* `Dendron.C58_last_value`: propext, Classical.choice, Quot.sound
* `Dendron.C58_guards`: propext, Classical.choice, Quot.sound
* `Dendron.C58_borrow`: propext, Classical.choice, Quot.sound
* `Dendron.C58_borrow_mut`: propext, Classical.choice, Quot.sound
* `Dendron.C58_stable`: propext, Classical.choice, Quot.sound
* `Dendron.C59_tree`: propext, Classical.choice, Quot.sound
* `Dendron.C59_node`: propext, Classical.choice, Quot.sound
* `Dendron.C59_chain`: propext, Classical.choice, Quot.sound
* `Dendron.C59_empty`: propext, Classical.choice, Quot.sound
* `Dendron.C59_upgrade`: propext, Classical.choice, Quot.sound
* `Dendron.C60_create`: propext, Classical.choice, Quot.sound
* `Dendron.C60_replace`: propext, Classical.choice, Quot.sound
* `Dendron.C60_move`: propext, Classical.choice, Quot.sound
* `Dendron.C60_clone`: propext, Classical.choice, Quot.sound
* `Dendron.C60_clone_tree`: propext, Classical.choice, Quot.sound
* `Dendron.C60_clone_insert_outside`: propext, Classical.choice, Quot.sound
* `Dendron.C60_clone_insert_inside`: propext, Classical.choice, Quot.sound
* `Dendron.C60_eq`: propext, Classical.choice, Quot.sound
* `Dendron.C60_clone_insert_wide`: propext, Classical.choice, Quot.sound
* `Dendron.C60_create_wide`: propext, Classical.choice, Quot.sound
* `Dendron.C60_replace_wide`: propext, Classical.choice, Quot.sound
* `Dendron.C60_move_wide`: propext, Classical.choice, Quot.sound
* `Dendron.C60_clone_wide`: propext, Classical.choice, Quot.sound
* `Dendron.C60_clone_tree_wide`: propext, Classical.choice, Quot.sound
* `Dendron.C61_depth_first`: propext, Classical.choice, Quot.sound
* `Dendron.C61_depth_first_reverse`: propext, Classical.choice, Quot.sound
* `Dendron.C61_siblings`: propext, Classical.choice, Quot.sound
* `Dendron.C61_siblings_reverse`: propext, Classical.choice, Quot.sound
* `Dendron.C61_ancestors`: propext, Classical.choice, Quot.sound
* `Dendron.C61_depth_first_wide`: propext, Classical.choice, Quot.sound
* `Dendron.C61_siblings_wide`: propext, Classical.choice, Quot.sound
* `Dendron.C61_ancestors_wide`: propext, Classical.choice, Quot.sound
* `Dendron.C61_depth_first_reverse_wide`: propext, Classical.choice, Quot.sound
* `Dendron.C61_siblings_reverse_wide`: propext, Classical.choice, Quot.sound
* `Dendron.C62_shown`: propext, Classical.choice, Quot.sound
* `Dendron.C62_refines`: propext, Classical.choice, Quot.sound
* `Dendron.C62_history`: propext, Classical.choice, Quot.sound
* `Dendron.C62_deterministic`: propext, Classical.choice, Quot.sound
* `Dendron.C62_exact`: propext, Classical.choice, Quot.sound
* `Dendron.C62_room`: propext, Classical.choice, Quot.sound
* `Dendron.C62_programs`: propext, Classical.choice, Quot.sound
* `Dendron.C63_drop`: propext, Classical.choice, Quot.sound
* `Dendron.C63_account`: propext, Classical.choice, Quot.sound
* `Dendron.C63_order`: propext, Classical.choice, Quot.sound
* `Dendron.C63_survivors`: propext, Classical.choice, Quot.sound
* `Dendron.C63_cycle`: propext, Classical.choice, Quot.sound
* `Dendron.C63_no_leak`: propext, Classical.choice, Quot.sound
* `Dendron.C64_detach_violation`: propext, Classical.choice, Quot.sound
* `Dendron.C64_move_violation`: propext, Classical.choice, Quot.sound
* `Dendron.C64_detach_partial`: propext, Classical.choice, Quot.sound
* `Dendron.C64_move_partial`: propext, Quot.sound
* `Dendron.C64_detach_exact`: propext, Classical.choice, Quot.sound
* `Dendron.C64_detach_returns`: propext, Classical.choice, Quot.sound
* `Dendron.C64_detach_panics`: propext, Classical.choice, Quot.sound
* `Dendron.C65_prefix`: propext, Classical.choice, Quot.sound
* `Dendron.C65_all`: propext, Classical.choice, Quot.sound
* `Dendron.C65_ok_complete`: propext, Classical.choice, Quot.sound
* `Dendron.C65_returns`: propext, Classical.choice, Quot.sound
* `Dendron.C66_forward`: propext, Classical.choice, Quot.sound
* `Dendron.C66_eq`: propext, Classical.choice, Quot.sound
* `Dendron.C67_counting_faithful`: propext
* `Dendron.C67_non_allocating_quadratic`: propext, Classical.choice, Quot.sound
* `Dendron.C67_non_allocating_at_least`: propext, Classical.choice, Quot.sound
* `Dendron.C67_quadratic_attained`: propext, Classical.choice, Quot.sound
* `Dendron.C67_allocating_linear`: propext, Classical.choice, Quot.sound
* `Dendron.C67_detach_linear`: propext, Classical.choice, Quot.sound
* `Dendron.C67_move_other_linear`: propext, Classical.choice, Quot.sound
* `Dendron.C67_move_same_constant`: propext, Quot.sound
* `Dendron.C68_history`: propext, Classical.choice, Quot.sound
* `Dendron.C68_push`: propext, Classical.choice, Quot.sound
* `Dendron.C68_deterministic`: propext, Classical.choice, Quot.sound
* `Dendron.C68_with_root`: propext, Classical.choice, Quot.sound
* `Dendron.C68_finish`: propext, Classical.choice, Quot.sound
* `Dendron.C68_drop`: propext, Classical.choice, Quot.sound
* `Dendron.C68_undisturbed`: propext, Classical.choice, Quot.sound
* `Dendron.C68_undisturbed_next`: propext, Classical.choice, Quot.sound
* `Dendron.C69_others`: propext, Classical.choice, Quot.sound
* `Dendron.C69_others_history`: propext, Classical.choice, Quot.sound
* `Dendron.C69_depends`: propext, Classical.choice, Quot.sound
* `Dendron.C69_commute`: propext, Classical.choice, Quot.sound
* `Dendron.C70_handles`: propext, Classical.choice, Quot.sound
* `Dendron.C70_bundle`: propext, Classical.choice, Quot.sound
* `Dendron.C70_create_detach`: propext, Classical.choice, Quot.sound
* `Dendron.C70_parent_replace`: propext, Classical.choice, Quot.sound
* `Dendron.C70_child_replace`: propext, Classical.choice, Quot.sound
* `Dendron.C70_move_back`: propext, Classical.choice, Quot.sound
* `Dendron.C71_drawing_injective`: propext, Classical.choice, Quot.sound
* `Dendron.C71_empty_text`: propext, Classical.choice, Quot.sound
* `Dendron.C71_newline`: propext, Classical.choice, Quot.sound
* `Dendron.C71_events_injective`: propext, Classical.choice, Quot.sound
* `Dendron.C71_print`: propext, Classical.choice, Quot.sound
* `Dendron.C71_agree`: propext, Classical.choice, Quot.sound
* `Dendron.C71_reach`: propext, Classical.choice, Quot.sound
