{
 "claims": [
  {
   "property": "C01",
   "status": "proved",
   "theorems": [
    "CoEcs.Props.C01_live_handles_alive",
    "CoEcs.Props.C01_no_ub"
   ],
   "note": "All create/recycle/reserve/flush histories with reservations flushed before the next create/recycle, ids not exhausted (2^32)."
  },
  {
   "property": "C02",
   "status": "partial",
   "theorems": [
    "CoEcs.Props.C02_generation_after",
    "CoEcs.Props.C02_destroyed_stay_dead_partial",
    "CoEcs.Props.C02_wrap",
    "CoEcs.Props.C02_violated",
    "CoEcs.Props.C02_every_handle_violated"
   ],
   "note": "Violated after 2^32 recycles of one id (C02_violated), and for every destroyed handle after every history: creations and destructions that give out no new id bring it back to life, and the next create returns it again (C02_every_handle_violated). Holds while the id is recycled fewer than 2^32 times (C02_destroyed_stay_dead_partial)."
  },
  {
   "property": "C03",
   "status": "proved",
   "theorems": [
    "CoEcs.Props.C03_create_fresh",
    "CoEcs.Props.C03_reserve_fresh",
    "CoEcs.Props.C03_live_unique"
   ],
   "note": "All protocol-respecting histories."
  },
  {
   "property": "C04",
   "status": "proved",
   "theorems": [
    "CoEcs.Props.C04_concurrent_reserve",
    "CoEcs.Props.C04_no_ub",
    "CoEcs.Props.C04_same_pool_as_sequential"
   ],
   "note": "All interleavings of the atomic steps of any number of concurrent reserve calls."
  },
  {
   "property": "C05",
   "status": "partial",
   "theorems": [
    "CoEcs.Props.C05_violated_duplicate",
    "CoEcs.Props.C05_violated_not_alive",
    "CoEcs.Props.C05_violated_lost",
    "CoEcs.Props.C05_partial",
    "CoEcs.Props.C05_create_violated",
    "CoEcs.Props.C05_destroy_violated"
   ],
   "note": "Exact: holds when reservations are flushed before create/destroy (C05_partial); every create or destroy with a reservation pending goes wrong, after any history (C05_create_violated, C05_destroy_violated)."
  },
  {
   "property": "C06",
   "status": "partial",
   "theorems": [
    "CoEcs.Props.C06_sparse_map_refines_partial",
    "CoEcs.Props.C06_violated_full",
    "CoEcs.Props.C06_violated_moved_from"
   ],
   "note": "Refinement to a finite map for every key width while the map does not hold all 2^w keys; violated for the full map and after a move."
  },
  {
   "property": "C07",
   "status": "partial",
   "theorems": [
    "CoEcs.Props.C07_sparse_iteration_partial",
    "CoEcs.Props.C07_violated_full"
   ],
   "note": "Same side condition; violated for the full map."
  },
  {
   "property": "C08",
   "status": "proved",
   "theorems": [
    "CoEcs.Props.C08_hash_map_refines",
    "CoEcs.Props.C08_default_hash_map_refines"
   ],
   "note": "All hash functions, all operation sequences, termination included, from power-of-two bucket counts."
  },
  {
   "property": "C09",
   "status": "proved",
   "theorems": [
    "CoEcs.Props.C09_hash_map_iteration"
   ],
   "note": "Iteration and size after every operation sequence."
  },
  {
   "property": "C10",
   "status": "partial",
   "theorems": [
    "CoEcs.Props.C10_violated_unless_power_of_two",
    "CoEcs.Props.C10_violated_reserve_zero",
    "CoEcs.Props.C10_violated_six_buckets",
    "CoEcs.Props.C10_violated_range_constructor",
    "CoEcs.Props.C10_power_of_two_partial"
   ],
   "note": "Violated: exactly the powers of two work; witnesses for reserve(0), six buckets, and the iterator-pair constructor."
  },
  {
   "property": "C11",
   "status": "proved",
   "theorems": [
    "CoEcs.Props.C11_test",
    "CoEcs.Props.C11_eq_iff",
    "CoEcs.Props.C11_hash",
    "CoEcs.Props.C11_limit_initial_blocks"
   ],
   "note": "All set/unset histories; equality and hash depend only on content (default initial block count)."
  },
  {
   "property": "C12",
   "status": "proved",
   "theorems": [
    "CoEcs.Props.C12_type_ids"
   ],
   "note": "All lookup sequences over at most 2^32 distinct names, any hash function."
  },
  {
   "property": "C13",
   "status": "proved",
   "theorems": [
    "CoEcs.Props.C13_slots_disjoint"
   ],
   "note": "All component lists with distinct ids; entity column included."
  },
  {
   "property": "C14",
   "status": "partial",
   "theorems": [
    "CoEcs.Props.C14_violated",
    "CoEcs.Props.C14_in_buffer_partial",
    "CoEcs.Props.C14_of_aligned_partial",
    "CoEcs.Props.C14_in_buffer_iff_partial"
   ],
   "note": "Violated by a concrete component list; the exact condition is that entries and padding take at most 16384 bytes; it holds when all slots are aligned, and when alignments divide 8 and all earlier sizes (e.g. listed by descending alignment)."
  },
  {
   "property": "C15",
   "status": "partial",
   "theorems": [
    "CoEcs.Props.C15_violated",
    "CoEcs.Props.C15_aligned_partial",
    "CoEcs.Props.C15_aligned_iff_partial"
   ],
   "note": "Violated by int+double; the exact condition is that each alignment divides the entries per chunk times the sizes before; it holds when alignments divide 8 and all earlier sizes."
  },
  {
   "property": "C16",
   "status": "proved",
   "theorems": [
    "CoEcs.Props.C16_create_get_round_trip",
    "CoEcs.Props.C16_create_outcome"
   ],
   "note": "All protocol-respecting histories of any number of registries, including throwing calls."
  },
  {
   "property": "C17",
   "status": "proved",
   "theorems": [
    "CoEcs.Props.C17_destroy_only_that_entity",
    "CoEcs.Props.C17_handle_resolves_to_own_row"
   ],
   "note": "All histories; a destroy that returns. Whether it can be undefined behaviour is C19."
  },
  {
   "property": "C18",
   "status": "proved",
   "theorems": [
    "CoEcs.Props.C18_set_one_component",
    "CoEcs.Props.C18_remove_one_component",
    "CoEcs.Props.C18_assign_one_component",
    "CoEcs.Props.C18_set_remove_outcome"
   ],
   "note": "All histories; set, remove, assignment and get_or_insert."
  },
  {
   "property": "C19",
   "status": "partial",
   "theorems": [
    "CoEcs.Props.C19_live_storage_violated",
    "CoEcs.Props.C19_only_trailing_empty_partial",
    "CoEcs.Props.C19_destroy_undefined_exactly_partial",
    "CoEcs.Props.C19_few_chunks_partial"
   ],
   "note": "Violated by five entities in three chunks; cause and exact condition given; holds for all histories with at most two chunks per archetype."
  },
  {
   "property": "C20",
   "status": "partial",
   "theorems": [
    "CoEcs.Props.C20_failed_create_violated",
    "CoEcs.Props.C20_failed_set_violated",
    "CoEcs.Props.C20_failed_same_answers_partial"
   ],
   "note": "Violated for every throwing create and set: a null archetype pointer stays in the map, so iterating any view is undefined behaviour, and create keeps the entity id it took. Proved instead: all entities and the size are unchanged and the history goes on."
  },
  {
   "property": "C21",
   "status": "proved",
   "theorems": [
    "CoEcs.Props.C21_clone_copies",
    "CoEcs.Props.C21_clone_succeeds",
    "CoEcs.Props.C21_copy_copies",
    "CoEcs.Props.C21_move_transfers",
    "CoEcs.Props.C21_copy_move_outcome"
   ],
   "note": "All histories of any number of registries; failing copies are C53."
  },
  {
   "property": "C22",
   "status": "proved",
   "theorems": [
    "CoEcs.Props.C22_archetype_iff_components"
   ],
   "note": "All histories."
  },
  {
   "property": "C23",
   "status": "partial",
   "theorems": [
    "CoEcs.Props.C23_each_after_failure_violated",
    "CoEcs.Props.C23_each_visits_matching_partial",
    "CoEcs.Props.C23_each_undefined_exactly_partial"
   ],
   "note": "Full statement for histories in which no component list was too large for a chunk; in every reachable state iteration is undefined exactly if the map holds a null pointer. Violated (undefined behaviour) after a create or set that threw insufficient_chunk_size."
  },
  {
   "property": "C24",
   "status": "partial",
   "theorems": [
    "CoEcs.Props.C24_single_after_failure_violated",
    "CoEcs.Props.C24_single_partial"
   ],
   "note": "Full statement for histories in which no component list was too large for a chunk; violated after a creation that threw."
  },
  {
   "property": "C25",
   "status": "proved",
   "theorems": [
    "CoEcs.Props.C25_parallel_for",
    "CoEcs.Props.C25_par_each",
    "CoEcs.Props.C25_executions_exist",
    "CoEcs.Props.C25_par_each_executions_exist"
   ],
   "note": "Every range length and batch size, every interleaving of the tasks."
  },
  {
   "property": "C26",
   "status": "partial",
   "theorems": [
    "CoEcs.Props.C26_failed_clone_exact_violated",
    "CoEcs.Props.C26_built_and_destroyed_once_partial",
    "CoEcs.Props.C26_destruction_defined",
    "CoEcs.Props.C26_failed_copy_leaks_violated"
   ],
   "note": "Violated by failed copies (leak): in every reachable state a failed clone adds exactly one object never destroyed for the handle and for each component copied before the first one that cannot be copied (C26_failed_clone_exact_violated). Proved for all histories without a failed copy; destruction never touches empty storage in any history."
  },
  {
   "property": "C27",
   "status": "partial",
   "theorems": [
    "CoEcs.Props.C27_reserved_alive_partial",
    "CoEcs.Props.C27_reserved_unusable_violated",
    "CoEcs.Props.C27_sync_partial",
    "CoEcs.Props.C27_clone_into_reserved_partial"
   ],
   "note": "Violated for every reserved entity not yet filled by clone or move; alive after sync; usable after clone."
  },
  {
   "property": "C28",
   "status": "partial",
   "theorems": [
    "CoEcs.Props.C28_histories_refine_partial",
    "CoEcs.Props.C28_flush_applies_partial",
    "CoEcs.Props.C28_apply_is_direct",
    "CoEcs.Props.C28_flush_defined_partial",
    "CoEcs.Props.C28_flush_undefined_violated",
    "CoEcs.Props.C28_flush_idle"
   ],
   "note": "All histories of direct calls, recordings by any number of threads, flushes and thread ends refine abstract maps; a flush that returns applied the commands like direct calls. Violated only in that a flush may be undefined (an empty trailing chunk as in C19, in the registry or in a staging registry); that this is the only cause is proved."
  },
  {
   "property": "C29",
   "status": "proved",
   "theorems": [
    "CoEcs.Props.C29_recording_is_invisible"
   ],
   "note": "Every state, every command, also when recording throws."
  },
  {
   "property": "C30",
   "status": "partial",
   "theorems": [
    "CoEcs.Props.C30_one_registry_partial",
    "CoEcs.Props.C30_wrong_registry_violated",
    "CoEcs.Props.C30_lost_violated",
    "CoEcs.Props.C30_foreign_violated"
   ],
   "note": "Violated in every state with a command for another registry: flush(r) plays it into r, and its own registry never sees it (C30_lost_violated, C30_foreign_violated). Proved when all queued commands are for one registry."
  },
  {
   "property": "C31",
   "status": "partial",
   "theorems": [
    "CoEcs.Props.C31_creations_released_partial",
    "CoEcs.Props.C31_staging_grows_violated"
   ],
   "note": "Violated: set on a live entity never destroys its staging entity, so staging grows without bound (any n). Staging entities of creations are released."
  },
  {
   "property": "C32",
   "status": "partial",
   "theorems": [
    "CoEcs.Props.C32_violated",
    "CoEcs.Props.C32_violated_symmetry",
    "CoEcs.Props.C32_allows_sound_partial",
    "CoEcs.Props.C32_component_patterns_exact",
    "CoEcs.Props.C32_merge_union",
    "CoEcs.Props.C32_queries",
    "CoEcs.Props.C32_system_pattern"
   ],
   "note": "Violated for whole-registry read patterns (user-defined systems) and asymmetric for empty patterns; sound for every pattern a function system can have, exact and symmetric for component patterns."
  },
  {
   "property": "C33",
   "status": "proved",
   "theorems": [
    "CoEcs.Props.C33_each_system_once",
    "CoEcs.Props.C33_fuel_irrelevant"
   ],
   "note": "All stages and all executions."
  },
  {
   "property": "C34",
   "status": "proved",
   "theorems": [
    "CoEcs.Props.C34_no_conflict_at_the_same_time"
   ],
   "note": "All schedules built from function systems, every reachable state of construction plus any number of runs."
  },
  {
   "property": "C35",
   "status": "partial",
   "theorems": [
    "CoEcs.Props.C35_first_fit",
    "CoEcs.Props.C35_order",
    "CoEcs.Props.C35_overtaken_violated",
    "CoEcs.Props.C35_violated",
    "CoEcs.Props.C35_in_order_partial"
   ],
   "note": "Violated, and exactly known when: the batches are the first fit of the systems (C35_first_fit); of two conflicting systems the one in the earlier batch always runs first (C35_order), so every stage in which the first fit puts the later one into an earlier batch runs them in the wrong order in every execution (C35_overtaken_violated). Holds when conflicting is transitive on the stage (C35_in_order_partial)."
  },
  {
   "property": "C36",
   "status": "partial",
   "theorems": [
    "CoEcs.Props.C36_violated",
    "CoEcs.Props.C36_main_runs_partial",
    "CoEcs.Props.C36_one_batch_partial"
   ],
   "note": "Violated: runs once per batch; exact count proved, one batch iff-condition given for component patterns."
  },
  {
   "property": "C37",
   "status": "partial",
   "theorems": [
    "CoEcs.Props.C37_violated",
    "CoEcs.Props.C37_violated_example"
   ],
   "note": "Violated for every schedule: second executor has no parallel systems."
  },
  {
   "property": "C38",
   "status": "proved",
   "theorems": [
    "CoEcs.Props.C38_batch_deterministic"
   ],
   "note": "All batches of all executors of function systems, all interleavings, termination included."
  },
  {
   "property": "C39",
   "status": "proved",
   "theorems": [
    "CoEcs.Props.C39_stages_are_barriers",
    "CoEcs.Props.C39_executor_exists"
   ],
   "note": "All schedules, any number of runs, all executions."
  },
  {
   "property": "C40",
   "status": "proved",
   "theorems": [
    "CoEcs.Props.C40_nothing_lost_or_duplicated",
    "CoEcs.Props.C40_at_all_times",
    "CoEcs.Props.C40_memory_safe",
    "CoEcs.Props.C40_steal_takes_the_oldest"
   ],
   "note": "All interleavings of one owner and any number of thieves under sequential consistency; capacities that are powers of two at least 2."
  },
  {
   "property": "C41",
   "status": "partial",
   "theorems": [
    "CoEcs.Props.C41_sequential_deque",
    "CoEcs.Props.C41_operations",
    "CoEcs.Props.C41_violated",
    "CoEcs.Props.C41_capacity_violated"
   ],
   "note": "Refinement to a list for power-of-two capacities; violated for every other even capacity, though the constructor accepts it (C41_capacity_violated), so the condition is exact."
  },
  {
   "property": "C42",
   "status": "partial",
   "theorems": [
    "CoEcs.Props.C42_violated",
    "CoEcs.Props.C42_violated_many_children",
    "CoEcs.Props.C42_flat_partial",
    "CoEcs.Props.C42_completes_partial",
    "CoEcs.Props.C42_calm_partial",
    "CoEcs.Props.C42_calm_completes_partial",
    "CoEcs.Props.C42_one_worker_partial",
    "CoEcs.Props.C42_late_child_violated",
    "CoEcs.Props.C42_two_checkers_violated"
   ],
   "note": "Violated for three-level trees and for 65535 children; proved for one level of fewer children, all interleavings, with completeness. For trees of any depth proved under a condition on single steps (Calm): a completed task with a parent gets no further children, and no second thread is between its decrement and its load when a task becomes completed; each half of the condition is shown necessary by a violation. In particular proved for a pool with one worker whose tasks create children of running tasks only."
  },
  {
   "property": "C43",
   "status": "partial",
   "theorems": [
    "CoEcs.Props.C43_destroys",
    "CoEcs.Props.C43_violated",
    "CoEcs.Props.C43_no_pending_destroyed_partial",
    "CoEcs.Props.C43_window"
   ],
   "note": "Violated with 4096 outstanding tasks; exact description of what an allocation destroys."
  },
  {
   "property": "C44",
   "status": "partial",
   "theorems": [
    "CoEcs.Props.C44_violated",
    "CoEcs.Props.C44_violated_empty_buffer",
    "CoEcs.Props.C44_well_placed_partial",
    "CoEcs.Props.C44_full_violated",
    "CoEcs.Props.C44_dealloc_accepted_partial"
   ],
   "note": "Violated when allocating from an exactly full (or empty) buffer: every request is then granted behind the buffer, in every history that fills it (C44_full_violated), so the condition is exact. Proved for all histories that allocate only while a byte remains."
  },
  {
   "property": "C45",
   "status": "partial",
   "theorems": [
    "CoEcs.Props.C45_violated_empty_allocation",
    "CoEcs.Props.C45_violated_move",
    "CoEcs.Props.C45_dealloc_restores_partial"
   ],
   "note": "Violated by the move constructor (offset lost) and by zero-byte allocations at the very end; proved for all other histories returning to the same live allocations."
  },
  {
   "property": "C46",
   "status": "proved",
   "theorems": [
    "CoEcs.Props.C46_linear_well_placed",
    "CoEcs.Props.C46_linear_failure"
   ],
   "note": "All sequences of allocations and resets; failure exactly when nothing fits."
  },
  {
   "property": "C47",
   "status": "proved",
   "theorems": [
    "CoEcs.Props.C47_type_name",
    "CoEcs.Props.C47_clang",
    "CoEcs.Props.C47_gcc",
    "CoEcs.Props.C47_injective"
   ],
   "note": "Every spelling; the surrounding text of __PRETTY_FUNCTION__ for clang and gcc is trusted."
  },
  {
   "property": "C48",
   "status": "partial",
   "theorems": [
    "CoEcs.Props.C48_set_from_reference_partial",
    "CoEcs.Props.C48_same_type_partial",
    "CoEcs.Props.C48_other_value_violated",
    "CoEcs.Props.C48_dangling_violated",
    "CoEcs.Props.C48_exact",
    "CoEcs.Props.C48_all_but_two_partial",
    "CoEcs.Props.C48_own_component_violated"
   ],
   "note": "Violated; C48_exact says for every state and every referenced entity what is stored: the value unless the reference belongs to the entity itself (dangling, or the component of the entity that takes its place) or to the entity that takes its place (dangling). C48_own_component_violated: a reference to an own component is wrong in every state unless two values happen to be equal."
  },
  {
   "property": "C49",
   "status": "partial",
   "theorems": [
    "CoEcs.Props.C49_ref_archetype_terminates_violated",
    "CoEcs.Props.C49_ref_archetype_agrees",
    "CoEcs.Props.C49_entity_get",
    "CoEcs.Props.C49_entity_violated",
    "CoEcs.Props.C49_get_has_agree",
    "CoEcs.Props.C49_dead_handles",
    "CoEcs.Props.C49_visit_agrees",
    "CoEcs.Props.C49_get_or_insert_agrees",
    "CoEcs.Props.C49_ref_has_terminates_violated"
   ],
   "note": "Violated by entity_ref::has and archetype() of references (noexcept) on dead handles; all other observers agree in all reachable states, archetype() lists exactly the components of a live entity. For the type entity get (const) succeeds while has is false, in every state (C49_entity_violated)."
  },
  {
   "property": "C50",
   "status": "proved",
   "theorems": [
    "CoEcs.Props.C50_size_counts",
    "CoEcs.Props.C50_size_step"
   ],
   "note": "All histories."
  },
  {
   "property": "C51",
   "status": "proved",
   "theorems": [
    "CoEcs.Props.C51_cmp_lt",
    "CoEcs.Props.C51_cmp_eq",
    "CoEcs.Props.C51_cmp_gt",
    "CoEcs.Props.C51_cmp_trans"
   ],
   "note": "Comparison is a total order consistent with equality."
  },
  {
   "property": "C52",
   "status": "proved",
   "theorems": [
    "CoEcs.Props.C52_component_list",
    "CoEcs.Props.C52_same_components_same_key"
   ],
   "note": "All insert/erase sequences."
  },
  {
   "property": "C53",
   "status": "partial",
   "theorems": [
    "CoEcs.Props.C53_full_chunk_violated",
    "CoEcs.Props.C53_full_chunk_somewhere_violated",
    "CoEcs.Props.C53_failed_clone_breaks_destroy_violated",
    "CoEcs.Props.C53_failed_clone_leaks_id_violated",
    "CoEcs.Props.C53_failed_clone_same_answers_partial"
   ],
   "note": "Violated: every failed clone leaks the id it took (C53_failed_clone_leaks_id_violated), and every one that fails while the last chunk of the archetype is full leaves an empty chunk behind, after which destroying any entity of the archetype that is not the last of its chunk is undefined (C53_full_chunk_violated; such an entity exists whenever a chunk holds two, C53_full_chunk_somewhere_violated). Proved: answers and size are unchanged."
  },
  {
   "property": "C54",
   "status": "partial",
   "theorems": [
    "CoEcs.Props.C54_commands_only_partial",
    "CoEcs.Props.C54_same_handle_violated",
    "CoEcs.Props.C54_direct_violated"
   ],
   "note": "Violated in every state: a direct creation after the first recorded one gets its handle or a dead one (C54_direct_violated). Proved when only commands create and destroy between flushes."
  },
  {
   "property": "C55",
   "status": "proved",
   "theorems": [
    "CoEcs.Props.C55_issued_valid",
    "CoEcs.Props.C55_invalid_dead"
   ],
   "note": "All protocol-respecting histories before id exhaustion."
  },
  {
   "property": "C56",
   "status": "partial",
   "theorems": [
    "CoEcs.Props.C56_any_pair_violated",
    "CoEcs.Props.C56_no_conflict_partial",
    "CoEcs.Props.C56_violated",
    "CoEcs.Props.C56_no_main_partial"
   ],
   "note": "Violated by every stage with a main-thread system that conflicts with a parallel one: any parallel and any main-thread system of a stage run at the same time in some execution (C56_any_pair_violated). Holds for all other stages (C56_no_conflict_partial)."
  },
  {
   "property": "C57",
   "status": "partial",
   "theorems": [
    "CoEcs.Props.C57_violated",
    "CoEcs.Props.C57_schedule_deterministic_partial",
    "CoEcs.Props.C57_conflict_violated",
    "CoEcs.Props.C57_readers_partial",
    "CoEcs.Props.C57_reader_ends_violated"
   ],
   "note": "Violated by every schedule in which a main-thread system conflicts with a parallel one of its stage and both write something: there are bodies for which, from every start state, two executions differ (C57_conflict_violated). If none conflicts: one outcome for every schedule, run count and interleaving (commands as a fixed function of the data). If in every conflict one system only reads: all executions that end, end with the same data (C57_readers_partial), but whether a reader returns may depend on the order (C57_reader_ends_violated)."
  },
  {
   "property": "C58",
   "status": "proved",
   "theorems": [
    "CoEcs.Props.C58_registries_refine_maps"
   ],
   "note": "All histories of any number of registries, by a representation relation over pool, sparse table, archetype map, archetypes and chunks."
  },
  {
   "property": "C59",
   "status": "proved",
   "theorems": [
    "CoEcs.Props.C59_each_writes_matching"
   ],
   "note": "All reachable registries in which each returns (when it does is C23). The callback must not change the structure of the registry."
  },
  {
   "property": "C60",
   "status": "proved",
   "theorems": [
    "CoEcs.Props.C60_par_each_agrees"
   ],
   "note": "All reachable registries, worker counts and interleavings; undefined exactly if each is. Calls of the callback are atomic steps of the tasks."
  },
  {
   "property": "C61",
   "status": "partial",
   "theorems": [
    "CoEcs.Props.C61_remove_words_partial",
    "CoEcs.Props.C61_remove_doubles_partial",
    "CoEcs.Props.C61_remove_throws_violated",
    "CoEcs.Props.C61_iff",
    "CoEcs.Props.C61_remove_mixed_partial",
    "CoEcs.Props.C61_remove_vectors_partial",
    "CoEcs.Props.C61_chars_violated"
   ],
   "note": "Violated: removing a 4-byte component from an entity with a 16-aligned component of 16368 bytes throws. Proved for all histories when sizes are multiples of 4 and alignments divide 8, in any mixture, and when sizes are multiples of 8 and alignments divide 16; C61_iff gives the exact condition on the component types, and C61_chars_violated shows that arrays of char break it."
  },
  {
   "property": "C62",
   "status": "partial",
   "theorems": [
    "CoEcs.Props.C62_ended_thread_violated",
    "CoEcs.Props.C62_living_threads_partial"
   ],
   "note": "Violated: after a thread with a buffer has ended every flush is undefined (dangling pointer in the global list). Proved while no such thread ends."
  },
  {
   "property": "C63",
   "status": "proved",
   "theorems": [
    "CoEcs.Props.C63_failed_flush"
   ],
   "note": "Every reachable state and every failing command."
  },
  {
   "property": "C64",
   "status": "partial",
   "theorems": [
    "CoEcs.Props.C64_record_order_violated",
    "CoEcs.Props.C64_one_thread_order_partial",
    "CoEcs.Props.C64_last_value_violated",
    "CoEcs.Props.C64_different_entities_partial"
   ],
   "note": "Violated in every reachable state with two buffers and nothing recorded, if the flush returns: buffers are played in the order of their registration, so of two assignments to one component the one recorded first can win (C64_last_value_violated). Proved for the commands of one thread, and for several threads whose commands are about different entities: there every order that keeps the order of each thread has the same effect."
  },
  {
   "property": "C65",
   "status": "partial",
   "theorems": [
    "CoEcs.Props.C65_create_words_partial",
    "CoEcs.Props.C65_set_words_partial",
    "CoEcs.Props.C65_create_doubles_partial",
    "CoEcs.Props.C65_set_doubles_partial",
    "CoEcs.Props.C65_order_violated",
    "CoEcs.Props.C65_iff",
    "CoEcs.Props.C65_common_violated"
   ],
   "note": "Violated: [A,B] fits, [B,A] does not, and after [A,B] was created [B,A] does. Proved for all histories when sizes are multiples of 4 and alignments divide 4: the sum of the sizes decides; likewise, with 4 bytes more once an alignment is 8, when sizes are multiples of 8 and alignments divide 8. C65_iff gives the exact condition on the component types; C65_common_violated breaks it with the alignments of int and double."
  },
  {
   "property": "C66",
   "status": "proved",
   "theorems": [
    "CoEcs.Props.C66_at_most_once",
    "CoEcs.Props.C66_one_place",
    "CoEcs.Props.C66_workers_exist",
    "CoEcs.Props.C66_workers_stay"
   ],
   "note": "All programs, worker counts and interleavings (sequentially consistent steps); includes that workers only look at workers that exist."
  },
  {
   "property": "C67",
   "status": "partial",
   "theorems": [
    "CoEcs.Props.C67_violated",
    "CoEcs.Props.C67_destructor_partial",
    "CoEcs.Props.C67_joined_partial"
   ],
   "note": "Violated for every number of workers: workers that looked into the queues before a task was submitted stop without looking again, and nobody empties the owner's queue. Proved: tasks submitted by workers are always run; all tasks are when every function joins what it forked (parallel_for, stages) with less than 65535 children per task."
  },
  {
   "property": "C68",
   "status": "partial",
   "theorems": [
    "CoEcs.Props.C68_violated",
    "CoEcs.Props.C68_fork_join_ends_partial",
    "CoEcs.Props.C68_defined_partial",
    "CoEcs.Props.C68_joined_ends_partial",
    "CoEcs.Props.C68_every_pool_violated",
    "CoEcs.Props.C68_circle_violated"
   ],
   "note": "Violated in every pool: a child submitted to a parent that is already completed makes a counter pass zero, and the wait never returns though all tasks have been executed (C68_every_pool_violated, even with one worker); and in every pool with a background worker, a worker that helps while it waits takes a task which waits for the task below it on its own stack (C68_circle_violated). Proved for fork-join programs, hence nested parallel_for and stages: they end under every fair schedule, for every number of workers, and no step is undefined."
  },
  {
   "property": "C69",
   "status": "partial",
   "theorems": [
    "CoEcs.Props.C69_every_pool_violated",
    "CoEcs.Props.C69_violated",
    "CoEcs.Props.C69_wait_partial",
    "CoEcs.Props.C69_structured_partial"
   ],
   "note": "Violated in every pool, whatever the number of workers (C69_every_pool_violated), and sequentially: a child R of G that gets a child after it completed is counted twice, and wait(G) returns before G was called. Proved for fork-join programs with less than 65535 children per task."
  },
  {
   "property": "C70",
   "status": "partial",
   "theorems": [
    "CoEcs.Props.C70_in_vain_violated",
    "CoEcs.Props.C70_first_violated",
    "CoEcs.Props.C70_violated",
    "CoEcs.Props.C70_no_wait_partial"
   ],
   "note": "Violated: waiting while another worker executes the task releases the semaphore without bound. This is so in every state of every pool in which a thread waits and there is nothing to take (C70_in_vain_violated), and in every pool with a background worker for every program that begins by submitting a task and waiting for it (C70_first_violated). Proved while nobody waits."
  },
  {
   "property": "C71",
   "status": "partial",
   "theorems": [
    "CoEcs.Props.C71_idle_violated",
    "CoEcs.Props.C71_first_violated",
    "CoEcs.Props.C71_violated",
    "CoEcs.Props.C71_alone_partial",
    "CoEcs.Props.C71_only_throw"
   ],
   "note": "Violated: std::terminate when a background worker takes the task. In every pool with a background worker, every program that begins by submitting a task that throws can be terminated (C71_first_violated), and so can every program that reaches a state in which the oldest task of the owning thread throws while a background worker looks for work (C71_idle_violated). Proved: never with one worker; only exceptions terminate."
  },
  {
   "property": "C72",
   "status": "partial",
   "theorems": [
    "CoEcs.Props.C72_violated",
    "CoEcs.Props.C72_own_threads_partial",
    "CoEcs.Props.C72_exactly_own_threads"
   ],
   "note": "Violated: other threads get undefined behaviour. Proved exactly: a thread is served iff it constructed the living pool or is one of its workers."
  },
  {
   "property": "C73",
   "status": "partial",
   "theorems": [
    "CoEcs.Props.C73_forever_violated",
    "CoEcs.Props.C73_violated",
    "CoEcs.Props.C73_terminates_violated",
    "CoEcs.Props.C73_second_pool_partial"
   ],
   "note": "Violated after every history: _instance keeps pointing to the pool that was not constructed, and nothing the program does with pools has any effect from then on (C73_forever_violated), or the program is terminated. Proved for a second pool while one lives."
  },
  {
   "property": "C74",
   "status": "partial",
   "theorems": [
    "CoEcs.Props.C74_new_component_violated",
    "CoEcs.Props.C74_get_or_insert_violated",
    "CoEcs.Props.C74_others_unchanged_partial",
    "CoEcs.Props.C74_present_partial"
   ],
   "note": "Violated whenever the component is new: set_impl has moved the entity to the new archetype before the constructor runs, so the entity has the component but there is no object; get, set, remove, destroy and the destructor of the registry are then undefined (or do not succeed). Proved: everything else is unchanged, and nothing happens if the component was present."
  },
  {
   "property": "C75",
   "status": "partial",
   "theorems": [
    "CoEcs.Props.C75_violated_iff_erased",
    "CoEcs.Props.C75_without_erase_partial"
   ],
   "note": "Violated: erase_impl moves out of the last bucket of the run and never destroys the object there, so exactly one destructor call is missing for every key erased (proved as an equation for all histories). Proved: no object is used outside of its lifetime; without erasing a present key all objects are destroyed exactly once."
  },
  {
   "property": "C76",
   "status": "partial",
   "theorems": [
    "CoEcs.Props.C76_violated_iff_growing"
   ],
   "note": "Violated exactly when the insertion grows the table: reserve frees the element before the arguments are read. Proved: otherwise it is insertion of copies."
  },
  {
   "property": "C77",
   "status": "partial",
   "theorems": [
    "CoEcs.Props.C77_violated",
    "CoEcs.Props.C77_bounded_partial"
   ],
   "note": "Violated: for every bound, a history with at most two entities at any time and one at the end leaves more chunks than the bound (induction over rounds of create and destroy): the chunk of the destroyed entity is empty but not the last one, so it is neither freed nor filled again. Proved for all runs: (chunks - 1) * capacity is at most the number of stored entities plus the number of operations that took an entity out; without such operations no chunk is wasted."
  },
  {
   "property": "C78",
   "status": "partial",
   "theorems": [
    "CoEcs.Props.C78_violated",
    "CoEcs.Props.C78_never_all_violated",
    "CoEcs.Props.C78_two_entities_violated",
    "CoEcs.Props.C78_survivor_violated",
    "CoEcs.Props.C78_one_entity_violated",
    "CoEcs.Props.C78_others_partial"
   ],
   "note": "Violated: with at least two entities in the only chunk of a matching archetype the iteration is undefined, with at least two in any chunk it is undefined or leaves an entity it has not visited (both for every history); witnesses for two entities, for a survivor, and for a single entity alone in the last chunk. Proved: the callback may destroy entities that do not match."
  },
  {
   "property": "C79",
   "status": "partial",
   "theorems": [
    "CoEcs.Props.C79_iteration_undisturbed",
    "CoEcs.Props.C79_flush_applies_partial",
    "CoEcs.Props.C79_flush_throws_only",
    "CoEcs.Props.C79_destroy_matching_partial",
    "CoEcs.Props.C79_flush_undefined_violated"
   ],
   "note": "Proved for all histories and decision functions: the iteration is not disturbed; if the flush returns, exactly the decided changes have been made to exactly the matching entities; it throws only insufficient_chunk_size, never if the callback only destroys. Violated: the flush may be undefined (trailing empty chunk, as C19), witness."
  },
  {
   "property": "C80",
   "status": "partial",
   "theorems": [
    "CoEcs.Props.C80_new_archetypes_violated",
    "CoEcs.Props.C80_rehash_violated",
    "CoEcs.Props.C80_others_partial",
    "CoEcs.Props.C80_table"
   ],
   "note": "Violated when an operation needs a new archetype: witnesses where the bucket of the view is displaced and where the map of archetypes is moved to a larger table. Proved for all histories, views and callbacks whose operations need no new archetype; and for all callbacks that an iteration which ends normally leaves the map of archetypes as large as it was, so operations that make it grow cannot be done in callbacks (C80_table)."
  },
  {
   "property": "C81",
   "status": "partial",
   "theorems": [
    "CoEcs.Props.C81_race_violated",
    "CoEcs.Props.C81_stale_violated",
    "CoEcs.Props.C81_stages_violated"
   ],
   "note": "Violated: the counter of a task is only accessed with memory_order_relaxed, so completion orders nothing. Three executions: reading what the task wrote is a data race; reading an atomic gives the value from before the task; two tasks run one after the other with a wait in between have a data race (this is how batches and stages are separated)."
  },
  {
   "property": "C82",
   "status": "partial",
   "theorems": [
    "CoEcs.Props.C82_growth_violated",
    "CoEcs.Props.C82_partial",
    "CoEcs.Props.C82_small_partial"
   ],
   "note": "Violated when the queue grows: push stores the pointer to the new array with memory_order_relaxed and no release fence in between, so a thief can get the pointer without the contents of the array: a data race. Proved until the queue grows for the first time, for all operations of the owner, any number of thieves and all executions: no data race, every item is received at most once, none is lost; it never grows if no more is pushed than its capacity."
  },
  {
   "property": "C83",
   "status": "partial",
   "theorems": [
    "CoEcs.Props.C83_lost_violated",
    "CoEcs.Props.C83_race_violated",
    "CoEcs.Props.C83_partial"
   ],
   "note": "Violated: wait() orders nothing, so the flush may read a stale cursor (ids and generations get out of step, and a created entity is not alive) or race with a reservation on the list of free ids. Proved for any number of threads and reservations when the end of the reservations is signalled with release and noticed with acquire."
  },
  {
   "property": "C84",
   "status": "partial",
   "theorems": [
    "CoEcs.Props.C84_violated_iff_leaks",
    "CoEcs.Props.C84_violated",
    "CoEcs.Props.C84_without_throw_partial"
   ],
   "note": "The answers are right in every history. Violated for lifetimes: a copy constructor that throws loses the elements copied so far (the destructor of the table does not run, ~buckets frees memory only), and erase loses objects (C75); the number lost is given exactly. Proved without these."
  },
  {
   "property": "C85",
   "status": "partial",
   "theorems": [
    "CoEcs.Props.C85_stage_reference_violated",
    "CoEcs.Props.C85_moved_violated",
    "CoEcs.Props.C85_constant_system_violated",
    "CoEcs.Props.C85_careful_partial"
   ],
   "note": "Violated in three ways: begin_stage invalidates earlier stage references (for every growth policy); stages keep the address of the schedule they were begun in, so end_stage returns the wrong, possibly destroyed one after a move; a callable passed as a const lvalue is stored by reference. Proved for callers who avoid these."
  },
  {
   "property": "C86",
   "status": "proved",
   "theorems": [
    "CoEcs.Props.C86_turns",
    "CoEcs.Props.C86_handles",
    "CoEcs.Props.C86_needs_both"
   ],
   "note": "Proved for arbitrary programs (all memory orders) that take turns, then for all histories of calls on a pool, whose answers are those of Model/HandlePool."
  },
  {
   "property": "C87",
   "status": "proved",
   "theorems": [
    "CoEcs.Props.C87_rounds",
    "CoEcs.Props.C87_schedule",
    "CoEcs.Props.C87_needs_both",
    "CoEcs.Props.C87_needs_declared"
   ],
   "note": "Says what is missing in C81: with a wait that acquires what the tasks released, the access patterns are enough. The library's own wait does not do this (C81)."
  },
  {
   "property": "C88",
   "status": "partial",
   "theorems": [
    "CoEcs.Props.C88_violated_growth",
    "CoEcs.Props.C88_violated",
    "CoEcs.Props.C88_temp_vectors_partial",
    "CoEcs.Props.C88_parallel_for",
    "CoEcs.Props.C88_growth_unprotected",
    "CoEcs.Props.C88_needs_order",
    "CoEcs.Props.C88_violated_threads",
    "CoEcs.Props.C88_violated_overflow"
   ],
   "note": "Full statement false: a vector that grows takes its new storage before it gives the old one back, which leaves the new storage unprotected (three push_backs lose the first element). Proved for vectors that take storage once and in scope order, as parallel_for does, with a byte left."
  },
  {
   "property": "C89",
   "status": "proved",
   "theorems": [
    "CoEcs.Props.C89_par_each_rows",
    "CoEcs.Props.C89_par_each_registry",
    "CoEcs.Props.C89_defined",
    "CoEcs.Props.C89_needs_own_row"
   ],
   "note": "Built on C87 (rounds of parallel work); that a callback keeps to its entry is needed (C89_needs_own_row)."
  },
  {
   "property": "C90",
   "status": "proved",
   "theorems": [
    "CoEcs.Props.C90_queues",
    "CoEcs.Props.C90_answers_distinct",
    "CoEcs.Props.C90_tasks",
    "CoEcs.Props.C90_tasks_need_both"
   ],
   "note": "Built on C86 (threads that take turns). Without turns the queue with growth and the tasks race (C80-C82). Fewer than 65535 calls on tasks, as the counter of a task has 16 bits."
  },
  {
   "property": "C91",
   "status": "partial",
   "theorems": [
    "CoEcs.Props.C91_same_archetype",
    "CoEcs.Props.C91_undefined_violated",
    "CoEcs.Props.C91_single_entity_violated",
    "CoEcs.Props.C91_other_entity_violated",
    "CoEcs.Props.C91_move_within_partial",
    "CoEcs.Props.C91_every_position_partial"
   ],
   "note": "False. Undefined behaviour whenever the last chunk is neither empty nor full and the entity is in it or is not the last of its chunk, as for the only entity of a registry; with a full last chunk the reserved entity becomes a second name of another entity. C91_every_position_partial settles every position, an empty last chunk included: right, a second name of another entity, or undefined. Missing: the property itself where it is false."
  },
  {
   "property": "C92",
   "status": "partial",
   "theorems": [
    "CoEcs.Props.C92_filled_twice_violated",
    "CoEcs.Props.C92_stale_violated",
    "CoEcs.Props.C92_destroyed_violated",
    "CoEcs.Props.C92_foreign_violated",
    "CoEcs.Props.C92_move_violated",
    "CoEcs.Props.C92_first_fill_partial"
   ],
   "note": "False. The second filling succeeds, leaves the old entry stored under the same handle and does not count it; filling a destroyed one replaces the components of the entity that now has its id or, if the id is free, stores and counts an entry of a dead handle; the same for moves to another registry. Proved: the first filling by a copy is right and affects no other handle. The same holds for reserved entities of other registries, whose ids were never given out here (C92_foreign_violated). Missing: the rejection, which is false."
  },
  {
   "property": "C93",
   "status": "partial",
   "theorems": [
    "CoEcs.Props.C93_independent_partial",
    "CoEcs.Props.C93_one_batch",
    "CoEcs.Props.C93_threads_violated",
    "CoEcs.Props.C93_order_violated",
    "CoEcs.Props.C93_next_handle_violated",
    "CoEcs.Props.C93_new_handles_violated"
   ],
   "note": "False. Systems that only take a command_writer are always put into one batch, and two that set the same component leave the value of the thread whose buffer is later. Handles of new entities, and of the next entity after destructions, depend on the threads too. Proved: if no system changes what another uses, the contents are the same up to the names of the new entities, and no execution ends with a missing entity unless all do. Missing: the handles."
  },
  {
   "property": "C94",
   "status": "partial",
   "theorems": [
    "CoEcs.Props.C94_flush_partial",
    "CoEcs.Props.C94_last_partial",
    "CoEcs.Props.C94_throw_partial",
    "CoEcs.Props.C94_ends",
    "CoEcs.Props.C94_late_violated",
    "CoEcs.Props.C94_no_buffer_violated",
    "CoEcs.Props.C94_creation_violated"
   ],
   "note": "False. On a thread without a buffer the destructor locks the mutex the flush holds; commands recorded for the command of a later buffer wait for the next flush; and an entity created by a destructor reserves its id after sync and before the destroyed id is recycled, so that it is never alive and later creations return dead handles. Proved for destructors that create nothing: the flush ends, and a flush that returns has executed what was recorded, in the order described, all of it when the buffer of the flushing thread is the last. Missing: destructors run by remove and set."
  },
  {
   "property": "C95",
   "status": "partial",
   "theorems": [
    "CoEcs.Props.C95_commands_partial",
    "CoEcs.Props.C95_own_order",
    "CoEcs.Props.C95_entities",
    "CoEcs.Props.C95_needs_both",
    "CoEcs.Props.C95_one_writer_violated",
    "CoEcs.Props.C95_rounds"
   ],
   "note": "Proved where the end of a batch is signalled with release and noticed with acquire, and every thread uses its own buffer: no race, and the result is that of some order of whole calls, for which own order, distinct ids and liveness are proved; and a general theorem on rounds of work that share counters. False as the library is: its wait is relaxed (C81, C83), and a command_writer that a system hands to par_each writes one buffer from several threads, a data race."
  },
  {
   "property": "C96",
   "status": "partial",
   "theorems": [
    "CoEcs.Props.C96_forget",
    "CoEcs.Props.C96_get_is_load",
    "CoEcs.Props.C96_load_unique",
    "CoEcs.Props.C96_no_alias",
    "CoEcs.Props.C96_one_call",
    "CoEcs.Props.C96_no_leave",
    "CoEcs.Props.C96_refs_stay_partial",
    "CoEcs.Props.C96_violated_other_moves",
    "CoEcs.Props.C96_violated_refers_to_other",
    "CoEcs.Props.C96_violated_buffer_freed"
   ],
   "note": "Proved: addresses of different components differ; get is a load from the address; calls that throw or take no entity out of its place (create, clone, copy, assignments) keep all addresses; otherwise at most one other entity, of the same component types, changes its address, and it takes that of the leaving one; a reference stays valid in every history in which no entity with the same component types leaves. False in general: destroying an entity moves the last one of the archetype, after which an old reference dangles, refers to a component of a later entity, or points into a freed buffer."
  },
  {
   "property": "C97",
   "status": "partial",
   "theorems": [
    "CoEcs.Props.C97_returned_complete",
    "CoEcs.Props.C97_nothing_after_return",
    "CoEcs.Props.C97_without_exceptions",
    "CoEcs.Props.C97_left_of_exceptions",
    "CoEcs.Props.C97_commands",
    "CoEcs.Props.C97_alone_partial",
    "CoEcs.Props.C97_violated_still_running",
    "CoEcs.Props.C97_violated_runs_beside_itself",
    "CoEcs.Props.C97_violated_undefined",
    "CoEcs.Props.C97_violated_never_run",
    "CoEcs.Props.C97_one_at_a_time_partial",
    "CoEcs.Props.C97_every_schedule_violated",
    "CoEcs.Props.C97_every_init_stage_violated",
    "CoEcs.Props.C97_exact"
   ],
   "note": "Proved: a call that returns has run its systems exactly once whatever earlier calls left; nothing of a call happens after it has returned; only calls that threw leave tasks; before the first exception no step is undefined; commands are neither lost nor executed twice; without background workers nothing of a call happens after its end and no step is ever undefined. With background workers this holds exactly for the schedules in which no system may run beside another one (C97_exact, C97_one_at_a_time_partial). For every other schedule it is false: execute_batch does not wait when a system throws on the main thread, so systems go on after run_once has ended, run beside the same system in the next call, or use the destroyed executor (always possible when create_executor throws). Without workers, what is left stays in the queue for good, without bound."
  },
  {
   "property": "C98",
   "status": "partial",
   "theorems": [
    "CoEcs.Props.C98_destructors_partial",
    "CoEcs.Props.C98_in_use",
    "CoEcs.Props.C98_no_calls",
    "CoEcs.Props.C98_violated_same_types",
    "CoEcs.Props.C98_violated_create",
    "CoEcs.Props.C98_violated_remove",
    "CoEcs.Props.C98_violated_remove_target",
    "CoEcs.Props.C98_violated_set",
    "CoEcs.Props.C98_violated_set_other",
    "CoEcs.Props.C98_violated_self"
   ],
   "note": "Proved (any nesting): if the destructors use only tables (sets of component types) that no running call uses, and values dropped by remove call nothing, the calls have exactly the effect of the plain calls, inner ones first; entities of tables in use are untouched meanwhile; without such destructors the model is the plain one. False otherwise: a destructor that destroys an entity with the same types makes swap_erase work on an empty entry; one that creates such an entity gets it destroyed while it stays alive; values dropped by remove that destroy any entity invalidate the reference to the location, or the new location; a replaced value that adds a component to its entity makes set write to another entity or to dead storage."
  },
  {
   "property": "C99",
   "status": "partial",
   "theorems": [
    "CoEcs.Props.C99_ids_partial",
    "CoEcs.Props.C99_violated_read_early",
    "CoEcs.Props.C99_violated_equal_names",
    "CoEcs.Props.C99_violated_unloaded"
   ],
   "note": "Partial: proved for reads that come after the initialiser of their variable, different names for different types, and as long as the library that first named a type stays loaded. Each of the three conditions is shown necessary: an id read early is 0 and is the id of another type (C99_violated_read_early), two types of one name share an id (C99_violated_equal_names), initialising a type whose first library is gone reads freed characters (C99_violated_unloaded); all three for every hash function."
  },
  {
   "property": "C100",
   "status": "partial",
   "theorems": [
    "CoEcs.Props.C100_set_value",
    "CoEcs.Props.C100_command_value",
    "CoEcs.Props.C100_get_or_insert",
    "CoEcs.Props.C100_same_value_partial",
    "CoEcs.Props.C100_violated_twice",
    "CoEcs.Props.C100_violated_command",
    "CoEcs.Props.C100_violated_vector",
    "CoEcs.Props.C100_violated_nested"
   ],
   "note": "Partial: the value is determined exactly in all cases (C100_set_value, C100_command_value, C100_get_or_insert), and is one value for types where C(args...) and C{args...} agree and C{x} copies x. In general the code violates it: for every type and arguments where braces and parentheses differ, calling set twice leaves two different values (C100_violated_twice; std::vector<int> with 3, 5 in C100_violated_vector), call and command differ (C100_violated_command), and a command wraps the value once more when the component is present (C100_violated_nested)."
  },
  {
   "property": "C101",
   "status": "partial",
   "theorems": [
    "CoEcs.Props.C101_each_partial",
    "CoEcs.Props.C101_visit_partial",
    "CoEcs.Props.C101_visit_violated",
    "CoEcs.Props.C101_visit_dead"
   ],
   "note": "Partial: proved for each, with the exact list of calls and the exact state left behind. visit is proved for functions that do not throw; a function that throws for some component of the entity terminates the program in every reachable state, since chunk::visit is noexcept (C101_visit_violated). par_each is treated in C106."
  },
  {
   "property": "C102",
   "status": "partial",
   "theorems": [
    "CoEcs.Props.C102_violated",
    "CoEcs.Props.C102_wait_forever_violated",
    "CoEcs.Props.C102_refines_partial",
    "CoEcs.Props.C102_wait_partial",
    "CoEcs.Props.C102_fresh",
    "CoEcs.Props.C102_own_ring",
    "CoEcs.Props.C102_ring_distance"
   ],
   "note": "Partial, the property is false: finish reads the task after the decrement that lets wait return. For every ring size of at least 3 a program that never has more than two unfinished tasks and reuses only elements of completed tasks gets a wait that returns before a child was called (C102_violated) or one that never returns (C102_wait_forever_violated). Proved under the stronger condition Settled (execute of the task and of its descendants has returned before its element is reused): the rings refine the model without reuse (C102_refines_partial), hence wait is sound for one level of children (C102_wait_partial). The load of the counter and the read of _parent are one step; sequentially consistent memory."
  },
  {
   "property": "C103",
   "status": "partial",
   "theorems": [
    "CoEcs.Props.C103_constructor_partial",
    "CoEcs.Props.C103_insert_partial",
    "CoEcs.Props.C103_no_throw",
    "CoEcs.Props.C103_insert_violated",
    "CoEcs.Props.C103_grow_partial",
    "CoEcs.Props.C103_grow_copies_partial",
    "CoEcs.Props.C103_grow_violated",
    "CoEcs.Props.C103_erase_partial",
    "CoEcs.Props.C103_erase_violated",
    "CoEcs.Props.C103_sparse"
   ],
   "note": "Partial, the property is false for element types with throwing moves. Proved for the sparse map (C103_sparse) and, for the hash map, when the construction of the element or the first operation after it throws (C103_constructor_partial). In every other case the theorems say what is left: an insertion that throws later has put the new element in and lost an unrelated one (C103_insert_partial, witness C103_insert_violated); a growth that throws keeps all keys but has emptied the values moved before it (C103_grow_partial, C103_grow_violated); an erasure that throws while shifting always leaves an element that iteration shows and no lookup finds (C103_erase_partial, C103_erase_violated). Assumed: an operation that throws changes neither of its objects; hash, equality and allocation of the bucket arrays do not throw. operator[] of the sparse map is noexcept, so an exception there ends the program."
  },
  {
   "property": "C104",
   "status": "partial",
   "theorems": [
    "CoEcs.Props.C104_registry_usable_partial",
    "CoEcs.Props.C104_needs_chunk",
    "CoEcs.Props.C104_size_partial",
    "CoEcs.Props.C104_next_call_partial",
    "CoEcs.Props.C104_iteration_partial",
    "CoEcs.Props.C104_archetype_violated",
    "CoEcs.Props.C104_generation_violated",
    "CoEcs.Props.C104_location_violated",
    "CoEcs.Props.C104_location_copy_violated",
    "CoEcs.Props.C104_move_violated",
    "CoEcs.Props.C104_sync_violated"
   ],
   "note": "Partial, the property is false for five allocations. Proved for histories with any number of failures at the others (search set, growth of the archetype map, key, chunk, archetype, free list): all answers are those of the contents (C104_registry_usable_partial), the size is the number of entities (C104_size_partial), later calls are undefined only for the reason of C19 (C104_next_call_partial), iteration is exact unless an archetype could not be allocated (C104_iteration_partial); a destroy that cannot record the free id is complete, the id is lost. Violated: a failed archetype leaves a null pointer in the map, so every iteration is undefined behaviour (C104_archetype_violated); a failed generation shifts ids against generations, so the next creation returns a dead entity that the following creation revives (C104_generation_violated); the location of a new entity is inserted by a noexcept operator, so the program ends (C104_location_violated, and for clone, copy and move C104_location_copy_violated); a move that cannot record the free id loses the entity in both registries and leaves a row with the old handle in the destination (C104_move_violated); a sync that fails half way makes a handle alive that was never issued when it is repeated (C104_sync_violated). Assumed: a vector whose growth fails is unchanged."
  },
  {
   "property": "C105",
   "status": "partial",
   "theorems": [
    "CoEcs.Props.C105_stack_partial",
    "CoEcs.Props.C105_live_violated",
    "CoEcs.Props.C105_moved_from_violated",
    "CoEcs.Props.C105_assign_violated",
    "CoEcs.Props.C105_linear_partial",
    "CoEcs.Props.C105_linear_violated"
   ],
   "note": "Partial, the property is false. Proved for any number of stack allocators moved only while they have no live allocations (and used under the conditions of C44): each one's allocations are well placed in the buffer it holds and no byte belongs to two (C105_stack_partial); a linear allocator's target carries on correctly (C105_linear_partial). Violated in general: a stack allocator moved with anything live hands all the live memory out again in one request, because the offset is not moved (C105_live_violated, for every such history); move assignment keeps the target's own offset, which wastes the bytes before it or grants requests outside the buffer (C105_assign_violated); the object moved from has size 0 and still grants requests, since the remaining space wraps around (C105_moved_from_violated); a linear allocator moved from hands out the same memory as the target (C105_linear_violated)."
  },
  {
   "property": "C106",
   "status": "partial",
   "theorems": [
    "CoEcs.Props.C106_outcome",
    "CoEcs.Props.C106_no_exception_lost",
    "CoEcs.Props.C106_defined_partial",
    "CoEcs.Props.C106_over_partial",
    "CoEcs.Props.C106_alone_partial",
    "CoEcs.Props.C106_terminated_violated",
    "CoEcs.Props.C106_dangling_violated"
   ],
   "note": "Partial, the property is false in every pool with background workers. Proved: the outcome of every call (C106_outcome), no exception is lost (C106_no_exception_lost); no step is undefined and nothing is left of a call if the elements the function throws for are in the first batch (C106_defined_partial, C106_over_partial); the full property without background workers (C106_alone_partial). Violated for every call that throws for any element of a range with at least as many elements (chunks) as workers: it can terminate the program (C106_terminated_violated); and for every call that throws outside of the first batch: it can end with a task left in the queue that refers to what the call destroyed (C106_dangling_violated), so the condition is exact."
  },
  {
   "property": "C107",
   "status": "partial",
   "theorems": [
    "CoEcs.Props.C107_after_partial",
    "CoEcs.Props.C107_joined_partial",
    "CoEcs.Props.C107_alone_partial",
    "CoEcs.Props.C107_violated",
    "CoEcs.Props.C107_one_background_violated",
    "CoEcs.Props.C107_two_workers_partial",
    "CoEcs.Props.C107_iff"
   ],
   "note": "Partial, the property is false in every pool with background workers. Violated in every pool with two or more of them by a stage of two systems one of which calls parallel_for (C107_violated), and with one of them by a program that waits for one of two tasks (C107_one_background_violated). Proved for every number of workers: what a worker takes from its own queue on top of a call that waits was submitted after that call began (fork-join programs, C107_after_partial), and by this very call if every function joins what it forks (C107_joined_partial); hence the property holds without background workers (C107_alone_partial). For programs of nothing but parallel_for and stages in any nesting the property holds exactly in pools of one or two workers (C107_two_workers_partial, C107_iff)."
  },
  {
   "property": "C108",
   "status": "partial",
   "theorems": [
    "CoEcs.Props.C108_alone_partial",
    "CoEcs.Props.C108_two_workers_partial",
    "CoEcs.Props.C108_violated",
    "CoEcs.Props.C108_iff"
   ],
   "note": "Partial, the property is false in every pool with two or more background workers: for every m a stage of m systems, each with a parallel_for over one batch, reaches a state in which worker 1 is inside of all m systems at once (C108_violated, every n ≥ 3, every m). Proved for n = 1 and programs in which every function joins what it forks (C108_alone_partial), and for n = 2 and parallel_for and stages in any nesting (C108_two_workers_partial); together C108_iff: the bound holds exactly for n ≤ 2."
  },
  {
   "property": "C109",
   "status": "partial",
   "theorems": [
    "CoEcs.Props.C109_resolve",
    "CoEcs.Props.C109_entity_partial",
    "CoEcs.Props.C109_references",
    "CoEcs.Props.C109_iff",
    "CoEcs.Props.C109_violated",
    "CoEcs.Props.C109_find_violated",
    "CoEcs.Props.C109_set_violated"
   ],
   "note": "Partial, the property is false for two references: the only viable functions are the built-in comparisons of the results of operator bool, so in every reachable state any two references to live entities, of whatever registries, are equal and neither is less (C109_violated); std::find stops at the first element (C109_find_violated) and a std::set keeps only the first (C109_set_violated). Proved if one operand is an entity (C109_entity_partial); C109_iff is the exact condition."
  },
  {
   "property": "C110",
   "status": "partial",
   "theorems": [
    "CoEcs.Props.C110_exact",
    "CoEcs.Props.C110_once_partial",
    "CoEcs.Props.C110_violated",
    "CoEcs.Props.C110_ended_violated",
    "CoEcs.Props.C110_throw_violated",
    "CoEcs.Props.C110_called"
   ],
   "note": "Partial, the property is false. C110_exact: the function of a task is destroyed by the 4096th submission of its thread after its own or by the end of the thread, executed or not; so every thread that lives holds the functions of its last 4096 tasks (C110_violated). After the end of a thread (main included, whose thread_local ring goes before the static pool) executing one of its tasks is undefined (C110_ended_violated); after a submit in which storing the function threw, the end of the thread is undefined whatever the program does (C110_throw_violated). Proved: no function is destroyed twice, all of an ended thread are destroyed (C110_once_partial), and the right function is called within the window (C110_called)."
  },
  {
   "property": "C111",
   "status": "partial",
   "theorems": [
    "CoEcs.Props.C111_views_partial",
    "CoEcs.Props.C111_registry_violated",
    "CoEcs.Props.C111_last_violated",
    "CoEcs.Props.C111_order_violated"
   ],
   "note": "Partial, the property is false for const registry&: the trait names the state of registry& (system.hpp:257), which declares write access to everything; system_const_registry_state is used nowhere. C111_registry_violated: in every schedule and execution no system that reads anything runs beside one with a const registry&; C111_last_violated: it is the last of its batch; C111_order_violated: whether a command writer runs beside it depends on the order. Proved for systems that read through views (C111_views_partial): one batch, and an execution in which all of them run at once."
  },
  {
   "property": "C112",
   "status": "partial",
   "theorems": [
    "CoEcs.Props.C112_first",
    "CoEcs.Props.C112_again_partial",
    "CoEcs.Props.C112_empty_violated",
    "CoEcs.Props.C112_growth_violated",
    "CoEcs.Props.C112_missed_violated",
    "CoEcs.Props.C112_displaced_violated",
    "CoEcs.Props.C112_exact",
    "CoEcs.Props.C112_chunks_violated",
    "CoEcs.Props.C112_whole_partial"
   ],
   "note": "Violated, because std::views::filter keeps the beginning it found first. For all histories: a range first iterated when no archetype matches shows nothing as long as the map of archetypes does not grow (C112_empty_violated), and once the map has grown every further use of an iterated range is undefined (C112_growth_violated). The chunks of the archetype in the kept bucket come first whether or not it matches (C112_chunks_violated). Witnesses: an entity that is missed; a displaced bucket after which a loop over the range ends the program (component_not_found thrown in the noexcept chunk_view::begin()). Proved for all histories: the first iteration is that of the view at that moment (C112_first), and so is every further one after operations that need no new archetype (C112_again_partial). C112_exact says for every reachable state what a kept range does: undefined if its bucket is empty, the end of the program if the archetype there does not match, otherwise the entries from that bucket on; C112_whole_partial gives the condition under which this is everything."
  },
  {
   "property": "C113",
   "status": "partial",
   "theorems": [
    "CoEcs.Props.C113_types",
    "CoEcs.Props.C113_storage_violated",
    "CoEcs.Props.C113_storage_partial"
   ],
   "note": "The decision is proved for all lists (C113_types). The storage part is violated: the local variable of create_impl is of a class whose bases are not virtual and occur again and again; objects of the same class need different addresses, so with n types at least 2^(n-3) bytes of stack are taken, 8 MiB for 26 types (C113_storage_violated, for every placement of the objects). Up to three types a single byte is enough (C113_storage_partial). What a compiler does with the unused variable when it optimises is not modelled."
  },
  {
   "property": "C114",
   "status": "partial",
   "theorems": [
    "CoEcs.Props.C114_entity",
    "CoEcs.Props.C114_component",
    "CoEcs.Props.C114_quoted",
    "CoEcs.Props.C114_sizes",
    "CoEcs.Props.C114_kinds",
    "CoEcs.Props.C114_chunk_partial",
    "CoEcs.Props.C114_total_violated",
    "CoEcs.Props.C114_exceeds_violated"
   ],
   "note": "Proved: messages identify the kind (C114_kinds), the handle (C114_entity), the name (C114_component), which is quoted (C114_quoted), and the two sizes (C114_sizes); the first size is always above that of a chunk, and there is a message exactly if the archetype cannot be made (C114_chunk_partial). Violated: the size called total size of the components is never that, for any list of components (C114_total_violated): the handle and the remainders of archetype.hpp:241 are counted too. One component of 16380 bytes is said to exceed 16384 bytes (C114_exceeds_violated)."
  },
  {
   "property": "C115",
   "status": "partial",
   "theorems": [
    "CoEcs.Props.C115_exact",
    "CoEcs.Props.C115_registry_partial",
    "CoEcs.Props.C115_violated",
    "CoEcs.Props.C115_everything_violated",
    "CoEcs.Props.C115_entity_ref_violated",
    "CoEcs.Props.C115_const_entity_ref",
    "CoEcs.Props.C115_each",
    "CoEcs.Props.C115_elements"
   ],
   "note": "C115_exact says for every type of object and every list of view arguments whether some chain of calls changes the registry. Violated: archetypes() of a const registry leads to non-const archetypes, as a const std::unique_ptr points to non-const (C115_violated); in every reachable state every component of every entity can be overwritten in this way (C115_everything_violated). A const entity_ref gives references to non-const for two or more components, to const for one (C115_entity_ref_violated). The pairs of a const map of archetypes cannot be modified (C115_elements). Proved: a const registry is not changed by chains without archetypes() (C115_registry_partial); const_entity_ref, const archetypes and views of const arguments give no access (C115_exact, C115_const_entity_ref); the functions each accepts (C115_each). The chunks() of a const view do give access if an argument is not const (C115_exact)."
  },
  {
   "property": "C116",
   "status": "partial",
   "theorems": [
    "CoEcs.Props.C116_each_partial",
    "CoEcs.Props.C116_partial",
    "CoEcs.Props.C116_violated",
    "CoEcs.Props.C116_next_handle_violated"
   ],
   "note": "Proved for calls none of which throws insufficient_chunk_size or is undefined: outcomes and contents are those given entity by entity (C116_each_partial), so they do not depend on the order (C116_partial). Violated: set on two entities succeeds in one order and throws in the other, as the order in which types were combined decides whether an archetype can be made (C116_violated); after destroying two entities the next handle depends on the order (C116_next_handle_violated)."
  },
  {
   "property": "C117",
   "status": "partial",
   "theorems": [
    "CoEcs.Props.C117_value_partial",
    "CoEcs.Props.C117_others_partial",
    "CoEcs.Props.C117_key_partial",
    "CoEcs.Props.C117_key_violated",
    "CoEcs.Props.C117_reserve_partial",
    "CoEcs.Props.C117_present_partial",
    "CoEcs.Props.C117_twice_violated"
   ],
   "note": "Keys can be written, as value_type is std::pair<key_type, mapped_type> with a non-const key. Proved: writing values (C117_value_partial), writing a new key with the same hash (C117_key_partial), the other entries and iteration (C117_others_partial), and everything once the table is rebuilt by reserve or growth (C117_reserve_partial). Violated for every map, every iterator and every new key with another hash: the key is neither found nor erased (C117_key_violated); it can be inserted again and is then there twice (C117_twice_violated). Exact for a key that another entry has: which of the two is found depends on the hashes and the probe sequence (C117_present_partial)."
  },
  {
   "property": "C118",
   "status": "partial",
   "theorems": [
    "CoEcs.Props.C118_value_partial",
    "CoEcs.Props.C118_key_exact",
    "CoEcs.Props.C118_key_partial",
    "CoEcs.Props.C118_key_violated",
    "CoEcs.Props.C118_taken_violated"
   ],
   "note": "Keys can be written, as the iterators are those of a vector of pairs with non-const keys. Proved: writing values (C118_value_partial); exactly when a new key is found afterwards, and that the other keys are (C118_key_exact); if it is found, all further calls are right (C118_key_partial). Violated for every map and every key above the capacity: it is not found, and if it was written over the last entry, erasing any other key writes outside the array (C118_key_violated). Also violated for every key that another entry has: the old value is found and size() counts a key that is gone (C118_taken_violated)."
  },
  {
   "property": "C119",
   "status": "partial",
   "theorems": [
    "CoEcs.Props.C119_unique",
    "CoEcs.Props.C119_partial",
    "CoEcs.Props.C119_two_partial",
    "CoEcs.Props.C119_violated"
   ],
   "note": "Proved for histories in which every component list fitted (C119_partial), and for two views, also with different components (C119_two_partial). There is only one such order (C119_unique). Violated after a creation that threw, where every view is undefined behaviour (C119_violated)."
  },
  {
   "property": "C120",
   "status": "partial",
   "theorems": [
    "CoEcs.Props.C120_partial",
    "CoEcs.Props.C120_destroy_violated",
    "CoEcs.Props.C120_create_violated",
    "CoEcs.Props.C120_views_partial",
    "CoEcs.Props.C120_set_held_partial"
   ],
   "note": "Proved for calls that need no new archetype, after histories in which every component list fitted: a creation keeps the order of all others, and the other calls that of all but the entity and at most one more (C120_partial); views keep the order of all, also par_each (C120_views_partial), and so does set of a component the entity has (C120_set_held_partial). Violated by destroy, where the last entity takes the place of the first (C120_destroy_violated), and by a creation that needs a new archetype, where two entities with other component sets change their order (C120_create_violated). Missing: value types without values; clone and moves between registries."
  }
 ]
}