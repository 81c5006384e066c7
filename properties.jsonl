{"id": "C01", "title": "Live handles stay alive until destroyed", "statement": "A handle returned by create() is alive from that moment, and stays alive across any further creates, destroys of other entities and synced reservations, until that very handle is destroyed.", "quantifier": "every finite sequence of handle-pool operations (create, recycle, reserve followed by flush), of any length and in any order, in which no id counter is exhausted", "why_tests_cant": "the claim ranges over all histories; a test exercises a handful of fixed sequences", "anchors": ["include/co_ecs/detail/handle.hpp: handle_pool::create, alive, recycle, reserve, flush"]}
{"id": "C02", "title": "Destroyed handles stay dead", "statement": "Once a handle has been destroyed, alive() answers false for it for the rest of the registry's life, whatever is created or destroyed afterwards.", "quantifier": "every history and every handle destroyed in it, including histories that recycle the same id arbitrarily many times", "why_tests_cant": "the generation counter is 32 bits wide: a counterexample needs 2^32 recycles of one id, far beyond a test, and absence of revival for shorter histories is a statement about all of them", "anchors": ["include/co_ecs/detail/handle.hpp: handle_pool::recycle, alive"]}
{"id": "C03", "title": "Live handles are unique", "statement": "create() never returns a handle that compares equal to one that is currently alive, and no two live entities share an id.", "quantifier": "every history of create/recycle/reserve+flush operations", "why_tests_cant": "the property is an invariant over unbounded histories and free-list shapes", "anchors": ["include/co_ecs/detail/handle.hpp: handle_pool::create"]}
{"id": "C04", "title": "Concurrent reserve() hands out distinct handles", "statement": "When several threads call reserve() at the same time, all returned handles are pairwise distinct and none of them equals a live handle; after the next sync() every one of them is alive and every previously live handle is still alive.", "quantifier": "every number of threads, every number of reserve calls and every interleaving of their atomic steps, from every reachable pool state", "why_tests_cant": "schedules are unbounded; a test run observes a few of them", "anchors": ["include/co_ecs/detail/handle.hpp: handle_pool::reserve, flush"]}
{"id": "C05", "title": "Reservations may be mixed freely with create and destroy", "statement": "Between a reserve() and the following sync(), create() and destroy() may be used: created handles are alive, distinct from reserved ones, and all reserved handles become alive at sync().", "quantifier": "every interleaving of reserve, create, destroy and sync calls on one registry", "why_tests_cant": "requires all orders of operations and free-list states", "anchors": ["include/co_ecs/detail/handle.hpp: handle_pool::create, reserve, recycle, flush", "include/co_ecs/base_registry.hpp: reserve, sync"]}
{"id": "C06", "title": "Sparse map behaves as a finite map", "statement": "A sparse_map answers contains/find/at/operator[]/size/erase/clear exactly like a mathematical finite map from keys to values, and never touches memory outside its arrays.", "quantifier": "every sequence of operations with arbitrary keys and values, for every unsigned key width", "why_tests_cant": "needs all operation sequences and all key widths, including a map holding every key of its key type", "anchors": ["include/co_ecs/detail/sparse_table.hpp: emplace, find, at, erase, clear, size"]}
{"id": "C07", "title": "Sparse map iteration visits every entry once", "statement": "Iterating a sparse_map yields every stored key exactly once with its current value and nothing else.", "quantifier": "every sequence of operations", "why_tests_cant": "order of the dense array depends on the erase history", "anchors": ["include/co_ecs/detail/sparse_table.hpp: begin, end, erase"]}
{"id": "C08", "title": "Hash map behaves as a finite map", "statement": "hash_map operations (emplace, insert, insert_or_assign, operator[], at, find, contains, erase, clear, reserve, growth and shrinking included) answer exactly like a finite map, for any hash function, and every operation terminates.", "quantifier": "every hash function (including constant ones), every key and value, every operation sequence starting from a power-of-two bucket count of at least 2", "why_tests_cant": "collisions, displacement chains, wrap-around and rehashing interact; tests sample a few hash values", "anchors": ["include/co_ecs/detail/hash_table.hpp: _emplace_impl, erase_impl, find_impl, reserve"]}
{"id": "C09", "title": "Hash map iteration and size agree with content", "statement": "Iterating a hash_map yields every stored entry exactly once, and size() is the number of entries.", "quantifier": "every hash function and operation sequence", "why_tests_cant": "depends on all table layouts", "anchors": ["include/co_ecs/detail/hash_table.hpp: begin, end, size, fast_forward"]}
{"id": "C10", "title": "Every bucket count accepted by the hash map works", "statement": "Any bucket count that the constructor or reserve() accepts yields a table on which emplace and find work and terminate.", "quantifier": "every bucket count value and operation sequence", "why_tests_cant": "the set of accepted counts is infinite and the failure mode is non-termination or out-of-bounds access", "anchors": ["include/co_ecs/detail/hash_table.hpp: hash_table(size_type), reserve"]}
{"id": "C11", "title": "Component-set equality and hash depend only on content", "statement": "Two bit sets built by any sequences of set/unset/clear compare equal exactly when they contain the same positions, and equal sets have equal hashes; test() reports exactly the positions currently set.", "quantifier": "all pairs of construction histories and all positions", "why_tests_cant": "equality is over block vectors, so it needs every history to end in a canonical form", "anchors": ["include/co_ecs/detail/dynamic_bitset.hpp: set, test, operator==, hash", "include/co_ecs/component.hpp: component_set"]}
{"id": "C12", "title": "Component ids identify type names", "statement": "id lookup returns the same id for the same type name for the life of the program, distinct ids for distinct names, and the ids handed out are consecutive from zero.", "quantifier": "every sequence of lookups over any set of names", "why_tests_cant": "the map of names grows with the program; tests use a few types", "anchors": ["include/co_ecs/component.hpp: type_registry::id"]}
{"id": "C13", "title": "Component storage never overlaps", "statement": "In every archetype the storage of different components, of different entries and of the entity column never overlap.", "quantifier": "every list of component sizes and alignments and every pair of (component, entry) slots", "why_tests_cant": "sizes and alignments are unbounded inputs", "anchors": ["include/co_ecs/archetype.hpp: init_blocks, add_block, get_max_size"]}
{"id": "C14", "title": "Component storage lies inside the chunk buffer", "statement": "Every slot of every component for every admissible entry index lies inside the 16384-byte chunk buffer.", "quantifier": "every list of component sizes and alignments accepted by the archetype, every entry index below the chunk capacity", "why_tests_cant": "the violating combinations are rare and no test fills such a chunk", "anchors": ["include/co_ecs/archetype.hpp: get_max_size, aligned_components_size, add_block"]}
{"id": "C15", "title": "Components are stored at suitably aligned addresses", "statement": "Every component object is placed at an address that is a multiple of its type's alignment.", "quantifier": "every list of component types and every entry index", "why_tests_cant": "misalignment depends on the number of entries per chunk and on component order; x86 does not trap", "anchors": ["include/co_ecs/archetype.hpp: add_block", "include/co_ecs/chunk.hpp: chunk_buffer, ptr_unchecked_impl"]}
{"id": "C16", "title": "Create/get round trip with frame", "statement": "After create with given components the new entity is alive, has exactly those components with exactly those values, and every other entity is unchanged.", "quantifier": "every reachable registry state, every component list and values", "why_tests_cant": "frame condition ranges over all other entities and archetypes", "anchors": ["include/co_ecs/base_registry.hpp: create_impl, get_impl, has", "include/co_ecs/archetype.hpp: emplace"]}
{"id": "C17", "title": "Destroy affects only the destroyed entity", "statement": "destroy(e) makes e dead and leaves every other live entity alive with the same components and values, and its handle resolves to its own data.", "quantifier": "every reachable registry state and every live entity", "why_tests_cant": "swap-erase relocates another entity; which one depends on the whole history", "anchors": ["include/co_ecs/base_registry.hpp: destroy", "include/co_ecs/archetype.hpp: swap_erase", "include/co_ecs/chunk.hpp: swap_erase"]}
{"id": "C18", "title": "Set and remove affect exactly one component of one entity", "statement": "set<C>(v) makes C present with value v, remove<C>() makes it absent; all other components of the entity and all components of all other entities keep their presence and values.", "quantifier": "every reachable registry state, entity, component and value", "why_tests_cant": "moves between archetypes relocate two entities; needs all states", "anchors": ["include/co_ecs/base_registry.hpp: set_impl, remove", "include/co_ecs/entity_ref.hpp: set, remove"]}
{"id": "C19", "title": "Registry operations never read outside live storage", "statement": "No sequence of create/set/remove/destroy/clone on live entities makes the registry access a storage slot that holds no entity.", "quantifier": "every finite operation sequence on one registry", "why_tests_cant": "the failing sequences need several chunks of one archetype emptied in a particular order", "anchors": ["include/co_ecs/chunk.hpp: swap_erase", "include/co_ecs/archetype.hpp: swap_erase, ensure_free_chunk"]}
{"id": "C20", "title": "A failed create or set leaves the registry usable", "statement": "If create or set throws insufficient_chunk_size, the registry is as before the call: later views, lookups and operations work and no entity id is consumed.", "quantifier": "every registry state and every oversized component list", "why_tests_cant": "needs every continuation after the exception, not just the throw itself", "anchors": ["include/co_ecs/archetype.hpp: ensure_archetype, ensure_archetype_added, get_max_size", "include/co_ecs/base_registry.hpp: create_impl"]}
{"id": "C21", "title": "Clone copies, move transfers", "statement": "clone(e) yields a new live entity with equal components and leaves e and all others unchanged; moving e to another registry yields there an entity with e's components and values, makes e dead here and changes nothing else.", "quantifier": "every pair of reachable registries and every live entity", "why_tests_cant": "frame over two registries and all relocations", "anchors": ["include/co_ecs/base_registry.hpp: clone, copy, move", "include/co_ecs/archetype.hpp: copy, move"]}
{"id": "C22", "title": "Entities of equal component sets share one storage table", "statement": "Two entities with the same set of components are stored in the same archetype whatever the order in which components were listed or added, and archetypes of different sets are different.", "quantifier": "all histories leading to the same component set", "why_tests_cant": "depends on set equality over all histories", "anchors": ["include/co_ecs/archetype.hpp: archetypes::ensure_archetype, ensure_archetype_added, ensure_archetype_removed"]}
{"id": "C23", "title": "Views visit exactly the matching entities", "statement": "view<Args...>.each calls the function exactly once for every live entity that has all components of Args, with that entity's own handle and current values, and for no other entity.", "quantifier": "every reachable registry state and every component list", "why_tests_cant": "iteration order and chunk structure depend on the history", "anchors": ["include/co_ecs/view.hpp: each, chunks, match", "include/co_ecs/chunk.hpp: chunk_view"]}
{"id": "C24", "title": "single() is some exactly when a match exists", "statement": "single() returns a value exactly when at least one live entity matches, and the value belongs to a matching entity.", "quantifier": "every reachable registry state and component list", "why_tests_cant": "must hold with empty chunks and archetypes left behind by any history", "anchors": ["include/co_ecs/view.hpp: single", "include/co_ecs/registry.hpp: single"]}
{"id": "C25", "title": "Parallel iteration covers each element exactly once", "statement": "parallel_for and view::par_each apply the function to every element exactly once, for every number of workers and elements.", "quantifier": "every worker count, element count and schedule of the submitted tasks", "why_tests_cant": "needs all pairs of sizes and all schedules", "anchors": ["include/co_ecs/thread_pool/parallel_for.hpp: parallel_for", "include/co_ecs/view.hpp: par_each"]}
{"id": "C26", "title": "Component objects are constructed and destroyed exactly once", "statement": "Every storage slot that is read, assigned or destroyed holds a constructed object, no slot is constructed twice without destruction in between, and after the registry is destroyed no constructed object is left.", "quantifier": "every operation sequence that stays within the preconditions of the API", "why_tests_cant": "lifetime balance is a property of all paths", "anchors": ["include/co_ecs/chunk.hpp: emplace_back, pop_back, swap_erase, move, copy, ~chunk"]}
{"id": "C27", "title": "Reserved entities are usable after sync", "statement": "After sync() every entity returned by reserve() is alive and the registry accepts it in has/get/set/destroy.", "quantifier": "every reachable registry state and number of reservations", "why_tests_cant": "needs every state and every following operation", "anchors": ["include/co_ecs/base_registry.hpp: reserve, sync, get_location"]}
{"id": "C28", "title": "Flushing commands equals applying them directly", "statement": "After flush(registry) the registry's observable content equals that obtained by applying the recorded commands directly, buffer by buffer, in the order recorded.", "quantifier": "every list of recorded commands (create, clone, set, remove, destroy) in any number of buffers and every reachable registry", "why_tests_cant": "unbounded command sequences referencing entities created by earlier commands", "anchors": ["include/co_ecs/command.hpp: command_buffer::flush, play_commands, command_*"]}
{"id": "C29", "title": "Recorded commands have no effect before flush", "statement": "Recording commands changes no entity, component or handle status observable in the registry until flush.", "quantifier": "every command list and registry state", "why_tests_cant": "frame over all observations", "anchors": ["include/co_ecs/command.hpp: command_writer, command_entity_ref"]}
{"id": "C30", "title": "Commands apply only to the registry they were recorded for", "statement": "flush(r) executes exactly the commands that were recorded through a command_writer of r.", "quantifier": "every set of registries, buffers and commands", "why_tests_cant": "needs several registries and all distributions of commands", "anchors": ["include/co_ecs/command.hpp: command_buffer::flush"]}
{"id": "C31", "title": "Command buffers release their staging data", "statement": "After flush, the staging storage of every buffer holds no entity, so memory does not grow with the number of flushed commands.", "quantifier": "every command sequence", "why_tests_cant": "growth is only visible over long histories", "anchors": ["include/co_ecs/command.hpp: command_set, command_entity_ref::set"]}
{"id": "C32", "title": "The access-pattern check admits only compatible systems", "statement": "allows(a, b) is true only if no component (nor the registry as a whole) is written by one of the patterns and accessed by the other; for patterns of component views it is true exactly in that case, and symmetric.", "quantifier": "all pairs of access patterns over all component ids", "why_tests_cant": "infinite domain of patterns", "anchors": ["include/co_ecs/system/access.hpp: access_pattern_t::allows, reads, writes, operator&="]}
{"id": "C33", "title": "Every parallel system runs exactly once per stage run", "statement": "Every system added to a stage appears in exactly one batch of the executor, so runs exactly once per run.", "quantifier": "every list of systems with arbitrary access patterns", "why_tests_cant": "unbounded lists of patterns", "anchors": ["include/co_ecs/system/stage.hpp: stage::create_executor"]}
{"id": "C34", "title": "Systems running at the same time do not conflict", "statement": "Any two systems of the same batch have no write/read or write/write conflict on any component or on the registry.", "quantifier": "every list of systems with arbitrary access patterns obtainable from system arguments", "why_tests_cant": "unbounded lists of patterns; races show up only on some schedules", "anchors": ["include/co_ecs/system/stage.hpp: stage::create_executor", "include/co_ecs/system/access.hpp"]}
{"id": "C35", "title": "Conflicting systems of a stage run in the order they were added", "statement": "If two systems of one stage conflict, the one added first completes before the other starts.", "quantifier": "every list of systems", "why_tests_cant": "needs all lists; a short test stage keeps the order by luck", "anchors": ["include/co_ecs/system/stage.hpp: stage::create_executor"]}
{"id": "C36", "title": "Main-thread systems run exactly once per stage run", "statement": "Every system added with the main-thread policy runs exactly once each time its stage runs.", "quantifier": "every number of main-thread and parallel systems", "why_tests_cant": "depends on the number of batches", "anchors": ["include/co_ecs/system/stage.hpp: stage_executor::run, execute_batch"]}
{"id": "C37", "title": "An executor can be created repeatedly from one schedule", "statement": "create_executor called again on the same schedule yields an executor that runs the same systems.", "quantifier": "every schedule", "why_tests_cant": "needs all schedules", "anchors": ["include/co_ecs/system/stage.hpp: stage::create_executor", "include/co_ecs/system/schedule.hpp: schedule::create_executor"]}
{"id": "C38", "title": "Parallel execution of a batch is deterministic", "statement": "If systems touch only the components they declare, every interleaving of the steps of the systems of a conflict-free batch ends in the same state as running them one after another.", "quantifier": "every batch, every interleaving of atomic steps", "why_tests_cant": "all schedules", "anchors": ["include/co_ecs/system/stage.hpp: stage_executor::execute_batch", "include/co_ecs/system/access.hpp"]}
{"id": "C39", "title": "Stages are barriers and commands become visible at the end of a run", "statement": "run_once runs the stages in order, each starting after all parallel systems of the previous one finished, and flushes commands once after the last stage; the init stage runs once at construction and is flushed before the first run.", "quantifier": "every schedule and every number of runs", "why_tests_cant": "ordering over all schedules", "anchors": ["include/co_ecs/system/schedule.hpp: schedule_executor"]}
{"id": "C40", "title": "Work-stealing queue loses and duplicates nothing", "statement": "Every pushed item is returned by exactly one pop or steal or is still in the queue, under any interleaving of one owner and any number of thieves.", "quantifier": "every number of thieves and every sequentially consistent interleaving of the atomic steps of push, pop and steal, including growth", "why_tests_cant": "schedules are unbounded and failures need rare interleavings", "anchors": ["include/co_ecs/detail/work_stealing_queue.hpp: push, pop, steal, array::grow"]}
{"id": "C41", "title": "Work-stealing queue order", "statement": "Used by one thread, pop returns the most recently pushed remaining item and steal the oldest remaining one, and both return nothing exactly when the queue is empty, whatever the number of growths.", "quantifier": "every sequence of push/pop/steal and every even or power-of-two initial capacity", "why_tests_cant": "wrap-around and growth at every offset", "anchors": ["include/co_ecs/detail/work_stealing_queue.hpp: push, pop, steal, array"]}
{"id": "C42", "title": "Waiting for a task waits for its children", "statement": "wait(parent) returns only when the parent's and all its children's functions have returned.", "quantifier": "every number of children, every tree depth and every interleaving of finish steps", "why_tests_cant": "schedules; the double-propagation race needs two threads between two instructions", "anchors": ["include/co_ecs/thread_pool/task.hpp: task_t, finish, is_completed", "include/co_ecs/thread_pool/thread_pool.hpp: worker::wait"]}
{"id": "C43", "title": "Submitting a task never destroys a pending task", "statement": "allocate() returns storage that no unfinished task occupies.", "quantifier": "every number of outstanding tasks", "why_tests_cant": "needs more than 4096 outstanding tasks", "anchors": ["include/co_ecs/thread_pool/task.hpp: task_pool::allocate"]}
{"id": "C44", "title": "Stack allocator returns disjoint, aligned, in-bounds memory", "statement": "Every successful allocation is aligned as requested, lies inside the buffer and overlaps no live allocation nor its bookkeeping byte.", "quantifier": "every buffer address and size, every sequence of sizes, power-of-two alignments up to 128 and LIFO deallocations", "why_tests_cant": "addresses, sizes and sequences are unbounded; the failing case needs an exactly full buffer", "anchors": ["include/co_ecs/detail/allocator/stack_allocator.hpp: allocate, deallocate"]}
{"id": "C45", "title": "Stack allocator deallocation restores the previous state", "statement": "Deallocating the most recent allocation restores the allocator to the state before that allocation, and this survives moving the allocator.", "quantifier": "every state, size and alignment", "why_tests_cant": "all states", "anchors": ["include/co_ecs/detail/allocator/stack_allocator.hpp: allocate, deallocate, move constructor"]}
{"id": "C46", "title": "Linear allocator returns disjoint, aligned, in-bounds memory", "statement": "Every successful allocation is aligned, inside the buffer and disjoint from all earlier ones since the last reset; failure changes nothing.", "quantifier": "every buffer, every sequence of sizes and alignments", "why_tests_cant": "unbounded sequences", "anchors": ["include/co_ecs/detail/allocator/linear_allocator.hpp: allocate, reset"]}
{"id": "C47", "title": "Type names are extracted exactly", "statement": "The extracted type name equals the compiler's spelling of the type, so different spellings give different component names.", "quantifier": "every type spelling", "why_tests_cant": "all spellings", "anchors": ["include/co_ecs/type_meta.hpp: type_name", "include/co_ecs/detail/macro.hpp"]}
{"id": "C48", "title": "set may take arguments read from the registry", "statement": "set<C>(x) stores the value x had when set was called, even if x is a reference to a component of this or another entity in the registry.", "quantifier": "every registry state, entity and referenced component", "why_tests_cant": "aliasing depends on which entity is relocated", "anchors": ["include/co_ecs/entity_ref.hpp: set", "include/co_ecs/base_registry.hpp: set_impl"]}
{"id": "C49", "title": "Observers agree", "statement": "has<C>, get<C>, get_or_insert<C> and visit agree: get succeeds exactly for the components for which has is true, otherwise throws component_not_found; dead handles give entity_not_found; visit reports each component exactly once.", "quantifier": "every reachable registry state, handle and component", "why_tests_cant": "all states and handles", "anchors": ["include/co_ecs/base_registry.hpp: has, get_impl, visit", "include/co_ecs/entity_ref.hpp: get, has, get_or_insert, visit", "include/co_ecs/chunk.hpp: component_fetch"]}
{"id": "C50", "title": "size() counts the entities", "statement": "registry.size() is the number of entities created and not yet destroyed or moved away; empty() is size()==0.", "quantifier": "every history", "why_tests_cant": "all histories, including failed operations", "anchors": ["include/co_ecs/registry.hpp: size, empty"]}
{"id": "C51", "title": "Handles are totally ordered", "statement": "Comparison of handles is a strict total order consistent with equality, ordering first by id and then by generation.", "quantifier": "all triples of handles", "why_tests_cant": "algebraic law over all triples", "anchors": ["include/co_ecs/detail/handle.hpp: operator<=>"]}
{"id": "C52", "title": "Component lists are duplicate-free", "statement": "A component list never holds a component twice; insert/erase/contains behave as on a finite set and keep the order of the remaining components.", "quantifier": "every sequence of insert and erase", "why_tests_cant": "all sequences", "anchors": ["include/co_ecs/component.hpp: component_meta_set"]}
{"id": "C53", "title": "Cloning that fails leaves the registry usable", "statement": "If clone throws because a component is not copyable, later operations on the other entities behave as if clone had not been called.", "quantifier": "every reachable registry and every continuation", "why_tests_cant": "requires the storage shape at the moment of failure (a full last chunk)", "anchors": ["include/co_ecs/chunk.hpp: copy", "include/co_ecs/archetype.hpp: copy, ensure_free_chunk", "include/co_ecs/base_registry.hpp: clone"]}
{"id": "C54", "title": "A schedule may mix commands and direct registry access", "statement": "A system that uses command_writer and a later system (or a later stage) that uses registry& directly can run in one run_once: all created entities are distinct and alive after it.", "quantifier": "every schedule with such systems and every registry state", "why_tests_cant": "needs particular free-list states and orders", "anchors": ["include/co_ecs/system/schedule.hpp: run_once", "include/co_ecs/command.hpp: command_writer::create", "include/co_ecs/detail/handle.hpp"]}
{"id": "C55", "title": "The invalid handle is never issued and never alive", "statement": "Every handle returned by create or reserve satisfies valid(); the value handle::invalid (and only it) is not valid and is never alive.", "quantifier": "every history of create/recycle/reserve/flush before the 32-bit id space is exhausted", "why_tests_cant": "all histories", "anchors": ["include/co_ecs/detail/handle.hpp: handle::invalid, handle::valid, handle_pool::create, reserve, alive"]}
{"id": "C56", "title": "Main-thread systems do not conflict with the systems running beside them", "statement": "While a main-thread system of a stage runs, no parallel system that conflicts with it is running.", "quantifier": "every stage and every execution", "why_tests_cant": "needs a conflicting pair to overlap in time", "anchors": ["include/co_ecs/system/stage.hpp: add_system (main_thread), stage_executor::execute_batch"]}
{"id": "C57", "title": "Running a schedule is deterministic", "statement": "If systems touch only the components they declare, the component data after constructing an executor and any number of run_once calls does not depend on the timing of the threads, and equals the result of a single thread executing everything in submission order.", "quantifier": "every schedule, every number of runs, every interleaving of atomic steps", "why_tests_cant": "all schedules", "anchors": ["include/co_ecs/system/stage.hpp: stage_executor::run, execute_batch", "include/co_ecs/system/schedule.hpp: schedule_executor"]}
{"id": "C58", "title": "Registries refine maps from handles to components", "statement": "For any number of registries and any history of create, destroy, set, remove, assignment, get_or_insert, clone, copy, move, reserve and sync, including calls that throw, every registry answers get and has exactly as an abstract map from handles to component values that is updated from the operations and their outcomes alone.", "quantifier": "every finite history over any number of registries that respects the reserve/sync protocol, all component types and values", "why_tests_cant": "induction over histories and over the chunk, archetype, hash table, sparse table and handle pool states", "anchors": ["include/co_ecs/base_registry.hpp", "include/co_ecs/registry.hpp", "include/co_ecs/entity_ref.hpp", "include/co_ecs/archetype.hpp", "include/co_ecs/chunk.hpp"]}
{"id": "C59", "title": "Writing through a view changes exactly the matching entities", "statement": "After each(func) where func writes through its references, exactly the components written of exactly the matching entities have the values func left there, computed from that entity's values before; every other component, entity and handle is unchanged and the registry is one that single assignments could have produced.", "quantifier": "every reachable registry, every component list, every function and set of written components", "why_tests_cant": "a frame over all entities, chunks and archetypes left by any history", "anchors": ["include/co_ecs/view.hpp: each", "include/co_ecs/chunk.hpp: chunk_view"]}
{"id": "C60", "title": "par_each agrees with each", "statement": "For every number of workers and every interleaving of the tasks, par_each calls the function with the same arguments as each, up to order, and leaves the registry with the same observable contents.", "quantifier": "every reachable registry, view, writing function, worker count and interleaving", "why_tests_cant": "needs all schedules and chunk structures", "anchors": ["include/co_ecs/view.hpp: par_each", "include/co_ecs/thread_pool/parallel_for.hpp: parallel_for"]}
{"id": "C61", "title": "Removing a component always fits", "statement": "entity_ref::remove<C> on an entity that has C never throws insufficient_chunk_size: an entity that fits in a chunk still fits with one component fewer.", "quantifier": "every reachable registry, entity, component and all sizes and alignments of the component types", "why_tests_cant": "the padding depends on the order in which components were added and on all sizes and alignments", "anchors": ["include/co_ecs/base_registry.hpp: remove", "include/co_ecs/archetype.hpp: get_max_size"]}
{"id": "C62", "title": "Flushing works after a recording thread has ended", "statement": "A thread may record commands and end; a later flush by another thread still executes (or discards) the commands and has defined behaviour.", "quantifier": "every history of recordings, thread ends and flushes", "why_tests_cant": "the lifetime of thread-local buffers against a global list; tests flush from the recording thread", "anchors": ["include/co_ecs/command.hpp: command_buffer, get, flush"]}
{"id": "C63", "title": "A flush that throws can be resumed", "statement": "If a command throws during flush, the commands before it have been applied exactly once, the failing one has no effect, the commands after it stay queued in order, and a later flush goes on with them.", "quantifier": "every reachable state of registries and buffers and every failing command", "why_tests_cant": "exception safety at every position of every queue", "anchors": ["include/co_ecs/command.hpp: play_commands, flush"]}
{"id": "C64", "title": "Commands are executed in the order recorded", "statement": "flush executes commands in the order in which they were recorded, also across threads whose recordings are ordered by synchronisation.", "quantifier": "every history of recordings by any number of threads", "why_tests_cant": "depends on the order in which threads registered their buffers", "anchors": ["include/co_ecs/command.hpp: flush"]}
{"id": "C65", "title": "Whether an entity fits depends only on its set of component types", "statement": "Whether create or set succeeds or throws insufficient_chunk_size depends only on the set of component types of the resulting entity, not on the order in which they are given nor on the earlier history of the registry.", "quantifier": "every reachable registry, every component list and all sizes and alignments", "why_tests_cant": "needs all orders, alignments and earlier archetypes", "anchors": ["include/co_ecs/archetype.hpp: get_max_size, ensure_archetype", "include/co_ecs/base_registry.hpp: create, set"]}
{"id": "C66", "title": "A task is executed at most once", "statement": "However tasks are pushed, popped and stolen, the function of a submitted task is called at most once, by one worker, and a task is never in two queues nor in two calls at a time.", "quantifier": "every program that submits and waits in any nesting, every number of workers and every interleaving of all their steps", "why_tests_cant": "schedules; the interleavings of pop, steal, wait and the workers' loops are unbounded", "anchors": ["include/co_ecs/thread_pool/thread_pool.hpp: worker::run, get_task, submit, wait", "include/co_ecs/thread_pool/task.hpp: execute"]}
{"id": "C67", "title": "Destroying the pool runs every submitted task", "statement": "When ~thread_pool returns, the function of every task that was submitted has been called exactly once and has returned.", "quantifier": "every program, every number of workers and every interleaving up to the end of the destructor", "why_tests_cant": "a race between the last look of a worker into the queues and the stop flag; and the owner's queue", "anchors": ["include/co_ecs/thread_pool/thread_pool.hpp: ~thread_pool, worker::run, stop, join"]}
{"id": "C68", "title": "Waiting never deadlocks", "statement": "If every task that is submitted can be completed, wait(task) returns under every fair schedule: a thread that waits and helps with other tasks never blocks the completion of the task it waits for.", "quantifier": "every program, number of workers and fair schedule", "why_tests_cant": "a liveness property of infinite executions", "anchors": ["include/co_ecs/thread_pool/thread_pool.hpp: worker::wait, get_task", "include/co_ecs/thread_pool/parallel_for.hpp: parallel_for", "include/co_ecs/system/stage.hpp: execute_batch"]}
{"id": "C69", "title": "When wait returns, the task and its children have run", "statement": "wait(task) returns only after the functions of the task and of all tasks submitted with it as parent have been called, once, and have returned.", "quantifier": "every program and interleaving of a pool with any number of workers", "why_tests_cant": "counters are decremented along chains of parents by many threads", "anchors": ["include/co_ecs/thread_pool/thread_pool.hpp: worker::wait", "include/co_ecs/thread_pool/task.hpp: finish, is_completed"]}
{"id": "C70", "title": "The semaphore never exceeds its maximum", "statement": "The count of the pool's counting semaphore stays bounded by the number of submitted tasks, so release() never exceeds the maximum (which is undefined behaviour).", "quantifier": "every program and interleaving", "why_tests_cant": "needs unboundedly long waits", "anchors": ["include/co_ecs/thread_pool/thread_pool.hpp: wake_worker, wait"]}
{"id": "C71", "title": "An exception thrown by a task reaches the thread that waits", "statement": "If the function of a task throws, the program is not terminated: the exception is delivered to the thread that waits for the task.", "quantifier": "every program, worker count and interleaving", "why_tests_cant": "depends on which worker takes the task", "anchors": ["include/co_ecs/thread_pool/thread_pool.hpp: worker::run, execute", "include/co_ecs/thread_pool/task.hpp: execute"]}
{"id": "C72", "title": "The pool can be used from every thread", "statement": "While a pool exists, submit and wait through it have defined behaviour from every thread and are served by a worker of that pool that no other thread uses.", "quantifier": "every history of pools being constructed and destroyed by any threads", "why_tests_cant": "thread-local pointers left over from earlier pools or never set", "anchors": ["include/co_ecs/thread_pool/thread_pool.hpp: current_worker, _instance, thread_pool, ~thread_pool, get"]}
{"id": "C73", "title": "A pool that could not be constructed leaves nothing behind", "statement": "If the constructor of thread_pool throws, the state is as before: a pool can be constructed later and get() works.", "quantifier": "every history and every point at which starting a thread may fail", "why_tests_cant": "needs failures of the operating system", "anchors": ["include/co_ecs/thread_pool/thread_pool.hpp: thread_pool, start"]}
{"id": "C74", "title": "A component constructor that throws leaves the registry usable", "statement": "If the constructor of a component throws in set or get_or_insert, every entity keeps its components and values, and the registry can be used and destroyed as before.", "quantifier": "every reachable registry, every entity and component, present or new", "why_tests_cant": "needs throwing constructors at every point of every history; the damage shows only in later operations", "anchors": ["include/co_ecs/entity_ref.hpp: set, get_or_insert", "include/co_ecs/base_registry.hpp: set_impl"]}
{"id": "C75", "title": "Objects stored in the hash map are destroyed exactly once", "statement": "Every object the hash map constructs in its buckets is destroyed exactly once, by erase, clear, growth or the destructor of the map, and no object is used before its construction or after its destruction.", "quantifier": "every hash function, every power-of-two bucket count, every list of calls", "why_tests_cant": "raw memory: the error depends on which buckets the objects moved through, and is invisible for types with trivial destructors", "anchors": ["include/co_ecs/detail/hash_table.hpp: erase_impl, _emplace_impl, reserve, clear, ~hash_table"]}
{"id": "C76", "title": "Insertion arguments may refer to elements of the same map", "statement": "insert, insert_or_assign and emplace with arguments that are references to elements of the map behave as with copies of these elements.", "quantifier": "every reachable map, every element", "why_tests_cant": "only fails when the insertion happens to grow the table", "anchors": ["include/co_ecs/detail/hash_table.hpp: emplace_impl, emplace_or_assign_impl, reserve"]}
{"id": "C77", "title": "Storage is bounded by the number of entities", "statement": "However long a registry is used, the number of chunks of an archetype is bounded by the number of entities that exist at the same time (the chunks of destroyed entities are freed or used again).", "quantifier": "every history of operations, every component type", "why_tests_cant": "the number of chunks is not visible through the API and a leak only shows after unboundedly many operations", "anchors": ["include/co_ecs/archetype.hpp: swap_erase, ensure_free_chunk", "include/co_ecs/chunk.hpp: swap_erase"]}
{"id": "C78", "title": "A view callback may destroy the entity it is called for", "statement": "An iteration over a view whose callback destroys the entity it is called for visits every matching entity once and leaves none of them; nothing is undefined.", "quantifier": "every history of operations, every view, every component type", "why_tests_cant": "what the loop reads after the callback has moved entities depends on how the entities are spread over chunks; reading past the end of a chunk goes unnoticed in a test", "anchors": ["include/co_ecs/view.hpp: each", "include/co_ecs/detail/views.hpp: join", "include/co_ecs/chunk.hpp: chunk_view, swap_erase", "include/co_ecs/archetype.hpp: swap_erase"]}
{"id": "C79", "title": "Changes recorded by a view callback are made to exactly the matching entities", "statement": "When a view callback records changes (set, remove, destroy) of the entity it is called for through a command writer and the buffers are flushed after the iteration, every entity that matched at the beginning is changed as the callback decided from its components, and no other entity is changed; recording does not disturb the iteration.", "quantifier": "every history of direct and recorded operations, every view, every decision function of the callback", "why_tests_cant": "combines arbitrary histories, arbitrary callbacks and the order in which commands of different entities are replayed", "anchors": ["include/co_ecs/view.hpp: each", "include/co_ecs/command.hpp: command_writer, command_entity_ref, command_buffer::flush"]}
{"id": "C80", "title": "A view callback may change entities the view does not show", "statement": "A callback of a view may create, destroy, set and remove on entities that match the view neither before nor after the operation: the callback is still called exactly once for every matching entity with its components, and the registry ends as the operations alone would leave it.", "quantifier": "every history, every view, every callback whose operations concern entities outside of the view", "why_tests_cant": "depends on bucket positions and growth of the archetype map, hence on the set of all component combinations ever used", "anchors": ["include/co_ecs/view.hpp: each", "include/co_ecs/detail/hash_table.hpp: iterator_impl, emplace_impl, reserve", "include/co_ecs/archetype.hpp: ensure_archetype"]}
{"id": "C81", "title": "What a task did happens before wait() returns", "statement": "When wait(t) has returned, everything the function of t did happens before what the waiting thread does next: it reads the values the task has written, without data race, and so do the tasks it submits afterwards.", "quantifier": "every program of tasks and every execution the C++ memory model allows with the memory orders in the source", "why_tests_cant": "depends on executions that weakly ordered hardware and optimising compilers may produce; on x86 the operations happen to be ordered", "anchors": ["include/co_ecs/thread_pool/task.hpp: task_t(), finish, is_completed", "include/co_ecs/thread_pool/thread_pool.hpp: worker::wait, worker::submit"]}
{"id": "C82", "title": "Stealing is ordered after what it depends on", "statement": "With the memory orders in the source the work-stealing queue has no data race: a thief sees the array it steals from initialised, gets each pushed item at most once across all threads, and everything the owner did before pushing an item happens before what its receiver does with it.", "quantifier": "every sequence of push and pop of the owner, any number of thieves, and every execution the C++ memory model allows with the memory orders in the source", "why_tests_cant": "depends on executions that weakly ordered hardware and optimising compilers may produce", "anchors": ["include/co_ecs/detail/work_stealing_queue.hpp: push, steal, pop, array, grow"]}
{"id": "C83", "title": "Handles reserved in parallel are usable after the synchronisation", "statement": "Tasks on several threads may reserve entity handles at the same time. No two reservations give the same id; each gives a free id with its current generation or a new id. After waiting for the tasks and flushing the pool all reserved handles are alive, none of their ids is free, no id is lost, and later creations give handles that are alive. There is no data race.", "quantifier": "every pool, any number of threads and reservations, and every execution the C++ memory model allows with the memory orders in the source", "why_tests_cant": "depends on interleavings and on executions that weakly ordered hardware and optimising compilers may produce", "anchors": ["include/co_ecs/detail/handle.hpp: reserve, flush, create, alive", "include/co_ecs/thread_pool/thread_pool.hpp: wait", "include/co_ecs/thread_pool/task.hpp: finish, is_completed"]}
{"id": "C84", "title": "Hash maps are values: copies are independent and nothing leaks", "statement": "Hash maps may be copied, assigned, moved and swapped in any order with other calls. A copy has the content of its source and later changes of one do not show in the other; a move takes the content and leaves an empty usable map; move assignment exchanges; self-assignment changes nothing. If copying an element throws, all maps are as before. Every element constructed is destroyed exactly once.", "quantifier": "every history of calls over any number of maps, every hash function, every element copy that throws", "why_tests_cant": "histories over several maps, bucket layouts and the place of the exception are unbounded; lost objects do not show in results", "anchors": ["include/co_ecs/detail/hash_table.hpp: copy/move constructors, assignment operators, swap, ~hash_table, class buckets"]}
{"id": "C85", "title": "Schedules can be built piecewise, moved, and outlived", "statement": "A stage returned by begin_stage can be given systems as long as its schedule (or what the schedule was moved into) exists, also after further stages were begun. end_stage returns the schedule the stage belongs to. Systems are taken over when they are added: an executor made from a schedule runs the systems added before, also after the schedule and the objects passed to add_system are gone.", "quantifier": "every history of constructing, moving and destroying schedules, beginning stages, adding systems of every form, making and running executors, for every growth policy of std::vector", "why_tests_cant": "use of dangling references is undefined behaviour that often passes unnoticed; it depends on the capacity the vector happens to have and on the interleaving of lifetimes", "anchors": ["include/co_ecs/system/schedule.hpp: begin_stage, add_init_system, create_executor", "include/co_ecs/system/stage.hpp: add_system, end_stage, into_system_interface, _schedule", "include/co_ecs/system/system.hpp: system<F>, system_executor<F>"]}
{"id": "C86", "title": "A pool of handles may be used by several threads, one at a time", "statement": "All operations of the pool except reserve ask for exclusive use. If threads take turns and each passes the pool on with a release operation that the next one acquires, then the relaxed orders inside suffice: there is no data race, and every call answers as if a single thread had made all calls in that order. Both halves of the synchronisation are needed.", "quantifier": "any number of threads, any calls by each of them, every execution of the C++ memory model (machine of Model/Weak), every initial pool; and in general every program", "why_tests_cant": "stale values and races permitted by the memory model do not show up on strong hardware, and executions are unbounded", "anchors": ["include/co_ecs/detail/handle.hpp: create, alive, recycle, reserve, flush"]}
{"id": "C87", "title": "Batches that do not conflict need nothing but a proper wait", "statement": "If the threads that run a batch start after a release/acquire signal of the main thread, and the main thread goes on after a release/acquire signal of each of them, then a schedule whose systems keep to the components they declare has no data race in the C++ memory model, however the systems of a batch are dealt to the threads, and the components end with the values a single thread produces that runs every system when it is submitted. Both signals are needed, and so is that systems keep to their declarations.", "quantifier": "every schedule obtained from system arguments whose main-thread systems do not conflict with their stage, all bodies within the declared patterns, every number of runs and of threads, every way to deal systems to threads, every execution of the C++ memory model (machine of Model/Weak); and in general all rounds of separate programs", "why_tests_cant": "races and stale values permitted by the memory model do not show up on strong hardware; schedules, bodies and executions are unbounded", "anchors": ["include/co_ecs/system/stage.hpp: stage::create_executor, stage_executor::execute_batch", "include/co_ecs/system/access.hpp: access_pattern_t::allows", "include/co_ecs/thread_pool/thread_pool.hpp: worker::wait"]}
{"id": "C88", "title": "Temporary vectors hold what was put into them", "statement": "Vectors that take their storage from the temporary allocator of a thread, and whose scopes are nested, hold at all times the elements put into them; no assertion is violated, an operation that throws changes nothing, and all storage is given back when no vector is left. In particular the batches of parallel_for stay intact while the calling thread runs other tasks that call parallel_for themselves, and each call leaves the allocator as it found it.", "quantifier": "all buffers, all memory contents, all element sizes and alignments up to 128, all histories of creating, reserving, appending, assigning and destroying, all nestings of parallel_for calls", "why_tests_cant": "whether storage overlaps depends on the whole history of a thread's allocations, including those of tasks it runs while waiting", "anchors": ["include/co_ecs/detail/allocator/temp_allocator.hpp: temp_allocator", "include/co_ecs/detail/allocator/stack_allocator.hpp: stack_allocator", "include/co_ecs/thread_pool/parallel_for.hpp: parallel_for"]}
{"id": "C89", "title": "Parallel iteration in C++ memory is iteration", "statement": "When each call of par_each touches, of what other calls touch, only the entry it is made for, calls of par_each one after the other have no data race in the C++ memory model, whichever threads run the batches, and leave memory as calls of each would; in particular the components of the entities are those of the registry after each.", "quantifier": "all registries in all histories, all views, all callbacks that keep to their entry, all numbers of workers and threads, all ways the batches are dealt, all executions of the weak memory machine", "why_tests_cant": "the outcomes depend on which write a read sees and on the interleaving of the operations of callbacks, which a test cannot enumerate", "anchors": ["include/co_ecs/view.hpp: par_each", "include/co_ecs/thread_pool/parallel_for.hpp: parallel_for"]}
{"id": "C90", "title": "Queues and tasks are sound when used one thread at a time", "statement": "When threads take turns, with release and acquire between turns, calls of push, pop and steal on the queues of the workers have no data race in the C++ memory model, also when arrays grow, and answer as double-ended queues do; and creating tasks with parents, ending them and asking is_completed has no data race and is_completed tells exactly whether the function of the task and of everything under it has returned.", "quantifier": "all numbers of threads, all calls by each of them on the queues of all workers and on trees of tasks of any depth, all initial capacities that are powers of two, all executions of the weak memory machine", "why_tests_cant": "a test runs a few interleavings on one processor; which write a load may read and the growth of arrays at every position of every queue cannot be enumerated", "anchors": ["include/co_ecs/thread_pool/work_stealing_queue.hpp: push, pop, steal", "include/co_ecs/thread_pool/task.hpp: task_t, execute, is_completed"]}
{"id": "C91", "title": "Moving an entity to a reserved entity of its own registry", "statement": "Moving an entity to a reserved entity of the same registry gives the reserved entity the components of the moved one, ends the moved one and leaves every other entity as it was.", "quantifier": "all reachable registries, all entities at all positions of all chunks, all reserved entities", "why_tests_cant": "the outcome depends on the position of the entity and on how full the last chunk is; the only assertion against it is in another overload and is compiled out in release builds", "anchors": ["include/co_ecs/base_registry.hpp: move(ent, dest, placeholder)", "include/co_ecs/entity_ref.hpp: move(destination, placeholder)", "include/co_ecs/archetype.hpp: move"]}
{"id": "C92", "title": "A reserved entity can be filled only once and only while it is reserved", "statement": "Copying or cloning into a reserved entity that was already filled, or that was destroyed, is rejected and leaves the registry as it was.", "quantifier": "all reachable pairs of registries, also the same one twice, all entities with copyable components, all handles whose id is in use", "why_tests_cant": "the handle remains a copyable value after its use, so any later call in any history may pass it again; a test tries a few", "anchors": ["include/co_ecs/base_registry.hpp: copy(ent, dest, placeholder), clone(ent, placeholder), set_location", "include/co_ecs/entity_ref.hpp: copy, clone"]}
{"id": "C93", "title": "Commands of systems that run in parallel do not depend on the threads", "statement": "When the systems of one batch record commands, the contents of the registry after the flush are the same whichever threads run the systems and however their calls are interleaved.", "quantifier": "all reachable states with empty buffers, all batches of systems, all lists of calls that create, clone, set, remove and destroy, also on entities just created, all assignments of systems to threads, all interleavings", "why_tests_cant": "the work-stealing pool decides which thread runs a system and buffers are flushed in the order in which threads first recorded, so a test sees a few of the assignments", "anchors": ["include/co_ecs/command.hpp: command_buffer::get, flush, command_writer, command_entity_ref", "include/co_ecs/system/system.hpp: system_command_writer_state::access_pattern", "include/co_ecs/system/stage.hpp: create_executor, execute_batch"]}
{"id": "C94", "title": "Destructors of components may record commands during a flush", "statement": "If the destructor of a component records commands when a flush destroys the entity (an owner destroying what it owns, or a component leaving a new entity behind), the flush executes them too: it ends, every recorded command is executed once in the order recorded, and handles of created entities become valid.", "quantifier": "all reachable registries, buffers of any number of threads, queued commands and destructors (any function from component and value to calls), and every choice of the flushing thread", "why_tests_cant": "it depends on which thread flushes, in which order threads made their buffers, on the free ids of the registry and on chains of destructions of any length", "anchors": ["include/co_ecs/command.hpp: command_buffer::get, flush, play_commands, command_buffer()", "include/co_ecs/base_registry.hpp: destroy", "include/co_ecs/detail/handle.hpp: reserve, recycle, flush"]}
{"id": "C95", "title": "Workers may record commands at the same time", "statement": "Systems of one batch run on several threads and record commands, each through a command_writer; the main thread flushes after the batch. There is no data race; the flush executes exactly the commands recorded, those of one buffer in the order in which they were recorded; the entities handed out are distinct and alive after the flush. This is so in the memory of C++, where operations on atomic counters with relaxed order are not ordered with anything else.", "quantifier": "all numbers of workers, sequences of calls (which may depend on the entities got so far), pools, and executions of the C++ memory model, with every value a relaxed operation may see", "why_tests_cant": "a test sees the executions of one machine, and a missing order between threads shows on few of them, if any", "anchors": ["include/co_ecs/command.hpp: command_writer, command_buffer::push, flush, play_commands", "include/co_ecs/detail/handle.hpp: reserve, flush", "include/co_ecs/view.hpp: par_each"]}
{"id": "C96", "title": "References to components stay valid", "statement": "A reference returned by get<C>() for an entity refers to that component, and to nothing else, as long as the entity exists and keeps its component types, whatever happens to other entities.", "quantifier": "all histories of calls on any number of registries, all component types, entities and chunk sizes", "why_tests_cant": "whether an address survives depends on which entity of the archetype leaves and on where the chunks are at that time; a test that reads through an invalid reference usually still finds the old bytes", "anchors": ["include/co_ecs/chunk.hpp: swap_erase, ptr_unchecked", "include/co_ecs/archetype.hpp: emplace, swap_erase, move, ensure_free_chunk", "include/co_ecs/base_registry.hpp: get, destroy, set, remove"]}
{"id": "C97", "title": "A run that ends with an exception is over", "statement": "When run_once or create_executor ends with an exception thrown by a system, no system of that call is being executed or will be; the executor may be run again, each later run executes every system exactly once and nothing else, and executors may be destroyed. Commands recorded by the systems that ran are executed by the next flush.", "quantifier": "all schedules and programs that create, run and destroy executors, numbers of workers, systems that throw at any execution, and interleavings", "why_tests_cant": "what is left of a call depends on which systems the workers had taken when the exception was thrown, and it shows only in later calls or after the executor is gone", "anchors": ["include/co_ecs/system/stage.hpp: execute_batch", "include/co_ecs/system/schedule.hpp: schedule_executor, run_once", "include/co_ecs/thread_pool/thread_pool.hpp: wait, get_task", "include/co_ecs/thread_pool/task.hpp: execute"]}
{"id": "C98", "title": "Destructors of components may call the registry", "statement": "When destroy, set, get<C>() = v or remove releases the value of a component, the destructor of the value (or the destructor of the old value in its assignment operator) may itself destroy, create or change other entities of the registry, and so may the destructors of those. The calls have the effect they have one after the other, and every entity that is alive afterwards can be used.", "quantifier": "all histories, all component types and values, all functions from released values to calls, nested to any depth", "why_tests_cant": "it depends on which table each of the entities is stored in, on the place of the entity in its chunk and of its entry in the location map, and on the depth of the nesting", "anchors": ["include/co_ecs/chunk.hpp: swap_erase, pop_back, destroy_at", "include/co_ecs/archetype.hpp: swap_erase, move", "include/co_ecs/base_registry.hpp: destroy, remove, set_impl", "include/co_ecs/entity_ref.hpp: set"]}
{"id": "C99", "title": "Component ids are right at every moment of the program", "statement": "Whenever component ids are used - before main, in initialisers of other global objects, in libraries that are loaded and unloaded - two uses give the same id exactly when they are for the same type, and a component list contains exactly the types it was made of.", "quantifier": "all orders in which initialisers, reads, constructions of lists, queries and unloadings happen; all types, names and hash functions", "why_tests_cant": "The order of the initialisers is chosen by compiler and linker; a test binary runs one order, has no libraries, and reads ids after main has begun.", "anchors": ["include/co_ecs/component.hpp:22-70", "include/co_ecs/component.hpp:145-178", "include/co_ecs/component.hpp:276-406", "include/co_ecs/type_meta.hpp:10-27", "include/co_ecs/detail/macro.hpp:20-45"]}
{"id": "C100", "title": "set gives one value, whatever was there", "statement": "e.set<C>(args...) gives the component the same value whether or not the entity had C before, and whether it is called on the entity or recorded as a command and flushed; get_or_insert<C>(args...) gives that value if it inserts.", "quantifier": "all reachable states, entities, component types with arbitrary constructors, all arguments", "why_tests_cant": "Tests use aggregates for which parentheses and braces agree; the statement is about every type a user may register, including those with initializer-list constructors.", "anchors": ["include/co_ecs/entity_ref.hpp:143-185", "include/co_ecs/command.hpp:160-175"]}
{"id": "C101", "title": "Exceptions of functions given to each and visit reach the caller", "statement": "If a function passed to each or visit throws, the exception reaches the caller; the function has not been called again, what it had written is kept, nothing else has changed, and the registry can be used as before.", "quantifier": "all reachable states, all view arguments, all functions (any sequence of writes to the components given, any condition for throwing), all entities", "why_tests_cant": "Tests do not throw from callbacks; the claim is about every position of the throwing call and about the usability of the registry afterwards.", "anchors": ["include/co_ecs/view.hpp:104-128", "include/co_ecs/chunk.hpp:190-202", "include/co_ecs/chunk.hpp:258-271", "include/co_ecs/base_registry.hpp:118-134"]}
{"id": "C102", "title": "The storage of a task is not reused while a thread still uses it", "statement": "When wait for a task has returned, the program may go on submitting tasks: as long as no unfinished task is overwritten, wait for any task still returns only after the functions of the task and of its children have returned, and it does return.", "quantifier": "every ring size, every program that reuses only elements of completed tasks, every interleaving of the steps of finish with later submissions", "why_tests_cant": "A thread has to be suspended between two instructions of finish while another submits 4096 tasks.", "anchors": ["include/co_ecs/thread_pool/task.hpp: finish, task_pool::allocate", "include/co_ecs/thread_pool/thread_pool.hpp: worker::submit, worker::wait"]}
{"id": "C103", "title": "A call on a map that throws leaves the map as it was", "statement": "If an insertion into a hash map or sparse map, or an erasure from a hash map, ends with an exception thrown by an operation of the elements, the map afterwards holds exactly what it held before the call and answers every later call accordingly.", "quantifier": "every hash function, every history of calls, every operation of the elements (construction, swap, move) that may throw, every later sequence of calls", "why_tests_cant": "The damage depends on which of the moves of one call throws and on how the keys lie in the buckets; tests use types whose moves do not throw.", "anchors": ["include/co_ecs/detail/hash_table.hpp: emplace_impl, _emplace_impl, _emplace_or_assign_impl, reserve, erase_impl", "include/co_ecs/detail/sparse_table.hpp: emplace"]}
{"id": "C104", "title": "Running out of memory leaves the registry usable", "statement": "If memory runs out during a create, destroy, set, get_or_insert, remove, clone, copy or move, the call ends with std::bad_alloc, every entity is as before the call (for a destroy: the entity is gone or as before), and all later calls, including iteration, behave as the contents say.", "quantifier": "every history of registry calls in which any number of calls run out of memory at any of their allocations, every later call", "why_tests_cant": "Tests do not make allocations fail; the damage depends on which of several allocations of one call fails and shows only in later calls.", "anchors": ["include/co_ecs/detail/handle.hpp: create, recycle, flush", "include/co_ecs/archetype.hpp: ensure_archetype, ensure_archetype_added, ensure_archetype_removed, ensure_free_chunk", "include/co_ecs/base_registry.hpp: create_impl, destroy, set_impl, remove, set_location, clone, copy, move", "include/co_ecs/detail/sparse_table.hpp: operator[]"]}
{"id": "C105", "title": "Allocators can be moved", "statement": "After a stack or linear allocator was moved, by construction or assignment, the target owns the buffer with what was allocated from it: later allocations lie in the buffer and overlap no live one, and the source, having no buffer, grants nothing.", "quantifier": "every number of allocators, every history of creations, allocations, deallocations, resets, writes, move constructions and move assignments, every buffer size and alignment", "why_tests_cant": "The tests never move an allocator; the damage needs live allocations at the time of the move and a later request of the right size.", "anchors": ["include/co_ecs/detail/allocator/stack_allocator.hpp: move constructor, move assignment, allocate", "include/co_ecs/detail/allocator/linear_allocator.hpp: move constructor, move assignment, allocate"]}
{"id": "C106", "title": "Parallel iteration is over when it has ended", "statement": "If the function given to parallel_for or par_each throws, the exception reaches the caller and the program is not terminated. When the call has ended, by returning or with an exception, the function is not called any more and nothing that belonged to the call is used; if it returned, the function was called with every element exactly once and never threw.", "quantifier": "for every number of workers, every sequence of calls with any ranges, every function and set of elements it throws for, and every interleaving of the threads", "why_tests_cant": "Which worker takes the batch with the exception is a matter of timing; a test that sees the exception in the caller says nothing about the runs in which a background worker takes the batch, or in which a queued batch is executed after the stack frame it refers to is gone.", "anchors": ["include/co_ecs/thread_pool/parallel_for.hpp:13-52", "include/co_ecs/view.hpp:132-148", "include/co_ecs/thread_pool/thread_pool.hpp:66-93", "include/co_ecs/thread_pool/task.hpp:26-49"]}
{"id": "C107", "title": "Nothing else is executed in the middle of a call that waits", "statement": "While a function waits for tasks that it has submitted (in wait, at the end of parallel_for or par_each, or of a stage), the thread that executes it runs only tasks which this call submitted, directly or through tasks it submitted.  So no other system and no unrelated batch is entered in the middle of a system, and what a system keeps locked or thread-local across parallel_for is not seen by others on the same thread.", "quantifier": "for every number of workers, every program of submit and wait, and every interleaving of the threads", "why_tests_cant": "Which task a waiting worker steals depends on the order in which three threads look into the queues; a test that never sees a system inside of another one says nothing about other runs.", "anchors": ["include/co_ecs/thread_pool/thread_pool.hpp:81-93", "include/co_ecs/thread_pool/thread_pool.hpp:148-170", "include/co_ecs/thread_pool/thread_pool.hpp:183-188", "include/co_ecs/thread_pool/work_stealing_queue.hpp:78-125", "include/co_ecs/system/stage.hpp:163-184"]}
{"id": "C108", "title": "The stack of a worker is bounded by the nesting of the program", "statement": "The number of task functions that a worker has entered and not left at the same time is at most the depth to which the program nests submit (parallel_for in a system in a stage: two), so the call stack does not grow with the number of systems of a stage or of batches of a parallel_for, and a program of fixed nesting cannot overflow the stack of a thread.", "quantifier": "for every number of workers, every program of parallel_for and stages, and every interleaving of the threads", "why_tests_cant": "How deep a waiting worker stacks stolen tasks depends on the schedule; a test shows the depth of some runs, never the largest one.", "anchors": ["include/co_ecs/thread_pool/thread_pool.hpp:81-93", "include/co_ecs/thread_pool/thread_pool.hpp:148-170", "include/co_ecs/thread_pool/thread_pool.hpp:183-188", "include/co_ecs/thread_pool/work_stealing_queue.hpp:78-125"]}
{"id": "C109", "title": "References to entities compare like the entities they refer to", "statement": "entity_ref and const_entity_ref can be treated as the entity they refer to (documentation of operator entity); so ==, < and <=> applied to references, or to a reference and an entity, give what they give for the entities: references are equal exactly if they refer to the same entity, std::find finds an equal one, and a std::set of references keeps one element per entity.", "quantifier": "for all operands of the three types and all handles in them, and for all live entities in every state reached by every history", "why_tests_cant": "The comparison compiles and is right for many pairs (an entity against a reference, a reference against itself); which function is called depends on overload resolution, and the result for all pairs of handles is not seen in a few.", "anchors": ["include/co_ecs/entity_ref.hpp:325-347", "include/co_ecs/entity_ref.hpp:466-488", "include/co_ecs/detail/handle.hpp:57-60"]}
{"id": "C110", "title": "A completed task releases what its function holds", "statement": "The function given to submit, with everything it has captured, is destroyed exactly once, and when the task has been completed; the storage of tasks may be used until the pool has run or dropped them, also when the submitting thread ends or storing a function throws.", "quantifier": "for any number of threads, every history of submissions (also ones in which storing the function throws), executions and ends of threads", "why_tests_cant": "A function that is kept alive looks like one that was destroyed unless the captured object is watched; the ring has 4096 elements per thread, and the end of threads with tasks pending is not tested.", "anchors": ["include/co_ecs/thread_pool/task.hpp:18-29", "include/co_ecs/thread_pool/task.hpp:54", "include/co_ecs/thread_pool/task.hpp:60-78"]}
{"id": "C111", "title": "Systems that only read can run at the same time", "statement": "Systems that have no write access to components, that is, whose parameters are views of const components, const registry& and command writers, do not keep each other from running in parallel.", "quantifier": "for every stage and schedule, any number of systems with any parameters, in any order, and every execution", "why_tests_cant": "Systems that are run one after the other give the same results; only the batches, or timing, show it. What the batches are depends on the order and on the parameters of all systems of a stage.", "anchors": ["include/co_ecs/system/system.hpp:223-258", "include/co_ecs/system/access.hpp:44-56", "include/co_ecs/system/stage.hpp:74-103"]}
{"id": "C112", "title": "A range obtained from a view shows what matches each time it is iterated", "statement": "A range returned by view::each() or view::chunks() may be kept: every time it is iterated, it shows exactly the entities that match then, as a new range of the same view would, and iterating it is defined.", "quantifier": "for all histories of a registry, all views, all moments at which the range is first iterated, and all operations between two iterations", "why_tests_cant": "Whether the second iteration goes wrong depends on which bucket of the map of archetypes the first one found, on where later archetypes are placed and on when the map grows; all of this depends on the component identifiers and on the whole history.", "anchors": ["include/co_ecs/view.hpp:88-102", "include/co_ecs/view.hpp:150-160", "include/co_ecs/view.hpp:172-186", "include/co_ecs/detail/hash_table.hpp:176-258"]}
{"id": "C113", "title": "The check that component types differ decides exactly that and takes no storage worth mentioning", "statement": "A call of create compiles exactly if its component types are pairwise different, and the object the check is made with does not grow faster than the arguments of the call.", "quantifier": "for all lists of component types of any length", "why_tests_cant": "A test can only instantiate the template for some lists. Programs that must not compile are not run at all, and the storage the check takes doubles with every further type, so it goes unnoticed for the few components tests use.", "anchors": ["include/co_ecs/detail/type_traits.hpp:50-84", "include/co_ecs/base_registry.hpp:140-150"]}
{"id": "C114", "title": "The message of an exception tells what went wrong", "statement": "From the message of an exception of the library one can tell which of the three kinds it is, and the handle of the entity, the name of the component type, or the two sizes concerned; and what the message says is true: the size it gives as total size of the components is that, and exceeds that of a chunk.", "quantifier": "for all handles, type names, and lists of component types", "why_tests_cant": "That no two handles or names give the same message is a statement about all pairs; whether the sizes are right depends on sizes, alignments and order of all components.", "anchors": ["include/co_ecs/exceptions.hpp:12-82", "include/co_ecs/archetype.hpp:198-251"]}
{"id": "C115", "title": "Constness is not lost", "statement": "From a const registry, a const reference to an entity or a const view no chain of calls of public members, without casts, leads to a change of the registry or to a reference to a non-const component; a function whose parameters are all references to const can be run on a const registry, and only such a function.", "quantifier": "for all chains of calls of any length, all lists of view arguments, and all reachable registries", "why_tests_cant": "That something does not compile or cannot be reached is a statement about all chains of calls; a test can only try some.", "anchors": ["include/co_ecs/registry.hpp:38-170", "include/co_ecs/base_registry.hpp:76-135", "include/co_ecs/entity_ref.hpp:31-343", "include/co_ecs/entity_ref.hpp:355-484", "include/co_ecs/view.hpp:39-157", "include/co_ecs/view_arguments.hpp:17-37", "include/co_ecs/chunk.hpp:190-223", "include/co_ecs/archetype.hpp:375-398"]}
{"id": "C116", "title": "Calls on different entities commute", "statement": "Destroying entities and setting, removing, assigning and getting-or-inserting components of different entities can be done in any order: every call ends the same way, the registries hold the same entities, components and values afterwards, and the next entity created gets the same handle.", "quantifier": "for all reachable states, all finite sequences of such calls on pairwise different live entities of any registries, and all permutations", "why_tests_cant": "The number of states and permutations is unbounded; entities share archetypes, chunks and the table of locations, and a call for one entity moves rows of others.", "anchors": ["include/co_ecs/base_registry.hpp:55-67", "include/co_ecs/base_registry.hpp:140-192", "include/co_ecs/entity_ref.hpp:140-205", "include/co_ecs/archetype.hpp:199-224"]}
{"id": "C117", "title": "What is written through an iterator of a hash map is in the map", "statement": "After the pair an iterator of a hash_map points to is overwritten, the map answers all further calls as the map in which this entry was replaced; or the type of iterators does not allow it.", "quantifier": "for all hash functions, all histories of calls, all iterators, all keys and values written, and all further calls", "why_tests_cant": "Whether a key is found again depends on its hash and on all entries in its probe sequence; a test with few small keys sees only some of these.", "anchors": ["include/co_ecs/detail/hash_table.hpp:42", "include/co_ecs/detail/hash_table.hpp:175-260", "include/co_ecs/detail/hash_table.hpp:610-626", "include/co_ecs/detail/hash_table.hpp:687-739", "include/co_ecs/detail/hash_table.hpp:851-872"]}
{"id": "C118", "title": "What is written through an iterator of a sparse map is in the map", "statement": "After the pair an iterator of a sparse_map points to is overwritten, the map answers all further calls as the map in which this entry was replaced; or the type of iterators does not allow it.", "quantifier": "for all widths of keys, all histories of calls, all iterators, all keys and values written, and all further calls", "why_tests_cant": "Whether a key is found again depends on stale entries of the array of positions, that is on the whole history; a test with small keys in a young map finds keys that were never inserted.", "anchors": ["include/co_ecs/detail/sparse_table.hpp:22-31", "include/co_ecs/detail/sparse_table.hpp:73-112", "include/co_ecs/detail/sparse_table.hpp:163-221", "include/co_ecs/detail/sparse_table.hpp:270-288"]}
{"id": "C119", "title": "All views of a registry go through its entities in one order", "statement": "In every state there is one order of the entities of a registry such that each view, whatever its arguments and its function, visits those entities that it shows in this order, single() gives the first of them, and writing through a view keeps the order; so views that ask for the same components can be gone through side by side.", "quantifier": "for all histories of calls, all lists of arguments of views in any order and with or without the entity, all functions, and all components they write", "why_tests_cant": "The order comes from the hash values of the component sets, the history of the hash map and the moves between chunks; a test sees the order of a few views in one state and cannot tell that it is the same for all of them.", "anchors": ["include/co_ecs/view.hpp:64-86", "include/co_ecs/view.hpp:90-128", "include/co_ecs/view.hpp:163-186", "include/co_ecs/chunk.hpp:308-462"]}
{"id": "C120", "title": "Calls on one entity keep the order of the others", "statement": "A call that creates, destroys or changes one entity leaves the other entities of the registry in the order in which the views showed them before.", "quantifier": "for all histories of calls, all registries, all entities, components and values, and all of create, destroy, set and remove", "why_tests_cant": "Whether two entities that take no part in a call change their order depends on the place of the entity in its chunk, on who is last in its archetype, and on collisions in the table of archetypes; tests look at few entities with one component set.", "anchors": ["include/co_ecs/base_registry.hpp:55-67", "include/co_ecs/base_registry.hpp:140-195", "include/co_ecs/archetype.hpp:59-70", "include/co_ecs/view.hpp:163-186", "include/co_ecs/detail/hash_table.hpp:809-845"]}
