# Formal model of co_ecs in Lean 4

Everything in this directory is about the C++ sources in `/repo/include/co_ecs`
at the pinned commit.  The code is read as text; nothing was compiled or run.

## Layout

* `properties.jsonl` : the properties (C01 ...), stated over the public API.
* `lean/Verif/Model/*` : the model, one file per header or group of functions.
  Every definition cites the file and lines it models and says where it simplifies.
* `lean/Verif/Spec/*` : small independent specifications (finite maps, abstract
  registry, ...) used in the statements.
* `lean/Verif/Proofs/*` : helper lemmas and invariants.
* `lean/Verif/Props/*` : the property theorems, named after the properties, each
  followed by an `example` that meets its hypotheses on a concrete case.
* `MANIFEST.json` : property -> theorem names and status.
* `seeded/LOG.jsonl` : mutation-testing log.

## Conventions of the model

* C++ functions become total computable Lean functions.  Three outcomes are kept
  apart wherever the code can produce them: a normal result, a C++ exception
  (which carries the state the object is left in), and undefined behaviour
  (`ub`: out-of-bounds index, read of an unconstructed slot, null dereference,
  violated `assert`).  Loops `while (true)` take a fuel argument; running out of fuel is
  a separate outcome (`none`) and theorems show that it does not happen.
* Fixed-width integers are kept where the width matters (generations and ids are
  taken modulo 2^32, sparse-table sizes modulo 2^w, task counters modulo 2^16,
  `size_t` subtraction modulo 2^64 in the stack allocator).  Elsewhere `size_t` is `Nat`.
* Where the code violates a property, the negation is proved for a concrete
  witness (theorem name contains `_violated`) and the strongest part that holds is proved with the
  suffix `_partial`.

## Trusted base

* Lean 4.33.0 kernel; axioms at most `propext`, `Classical.choice`, `Quot.sound`.
  No own axioms, no `sorry`, no `native_decide`, no `bv_decide`.
* The correspondence between the C++ text and the model (by reading; each definition
  cites its lines).
* The C++ standard library (vector, deque, optional, function, atomics, align) behaves as specified.

## Modelled and not modelled

Modelled: `detail/handle.hpp`, `detail/sparse_table.hpp`, `detail/hash_table.hpp`,
`detail/dynamic_bitset.hpp`, `detail/bits.hpp`, `detail/work_stealing_queue.hpp`,
the three allocators (sequentially), `component.hpp`, `type_meta.hpp` (name extraction),
`chunk.hpp`, `archetype.hpp`, `base_registry.hpp`, `registry.hpp`, `entity_ref.hpp`,
`view.hpp`, `command.hpp`, `system/access.hpp`, `system/stage.hpp`, `system/schedule.hpp`,
`thread_pool/task.hpp`, `thread_pool/parallel_for.hpp`, `thread_pool/thread_pool.hpp`.

The concurrent models interleave sequentially consistent steps, except `Model/Weak` and the models on top of it,
which give the memory orders of the source their C++20 meaning (values out of thin air excluded) and make data
races an outcome. They cover tasks, the queue, `submit`/`wait` of a worker (C81, C82, C90), the handle pool (C83, C86), schedules (C87) and
parallel iteration (C89). `Props/WeakLitmus` checks the machine against the usual litmus tests: message passing by orders,
by read-modify-write and by fences, release sequences, store buffering, coherence, atomicity of read-modify-write, races.

Not modelled: template meta-programming and overload resolution, memory orderings weaker than
sequential consistency in the other concurrent models, operating-system threads, allocation
failure, exceptions thrown by user-provided move operations (the `component` concept
requires them to be `noexcept`; `create` moves finished objects in, so only the constructors
called by `set` and `get_or_insert` matter, `Model/Throwing`), exceptions of copy constructors other than
the failed copies of `Model/Registry`, `type_name` of MSVC. In `Model/ViewChange` the capacity of the vector of chunks is not modelled: every insertion
into it invalidates the iterator.

## Plan per property

| Property | Model | Proof |
|---|---|---|
| C01 | `Model/HandlePool` : pool with 32-bit ids/generations | invariant by induction over operation lists |
| C02 | same | counting invariant on generations; negation for 2^32 recycles by induction (`_violated`) |
| C03 | same | free-list invariant (no duplicates, disjoint from live) |
| C04 | `Model/HandlePoolConc` : threads, each reserve split into its two atomic steps | invariant over all interleavings |
| C05 | `Model/HandlePool` | violated for every call with a reservation pending; partial: synced protocol (C01/C03) |
| C06, C07 | `Model/SparseTable` parametric in key width | refinement to a finite map; violated at 2^w entries (witness w=8 by general argument) |
| C08, C09 | `Model/HashTable` with arbitrary hash function | Robin-Hood invariant, refinement to a finite map, termination of all loops |
| C10 | same | violated: non-termination for every fuel and ub witnesses; partial = C08 |
| C11 | `Model/Bitset` | canonical-form invariant |
| C12 | `Model/TypeRegistry` on the hash-table model | induction over lookups |
| C13-C15 | `Model/Layout` : `get_max_size`, `add_block`, address computation | induction over the component list; C14/C15 violated with concrete component lists, partial under a divisibility condition |
| C16-C22, C49, C50 | `Model/Chunk`, `Archetype`, `Registry` composed of the models above | representation invariant preserved by every operation; observers related through rows |
| C19, C20, C53 | same | violated: concrete operation lists ending in `ub`; partial: no `ub` under a stated condition |
| C23, C24, C59, C60 | `Model/View`, `Spec/View` | the locations visited are exactly the matching slots; writes are assignments, so histories continue; permutation invariance for par_each |
| C25 | `Model/ParallelFor` | list partition lemma + permutation for every schedule |
| C26 | slot states (raw / live / moved) in `Model/Chunk` | part of the representation invariant; ~chunk |
| C27 | `Model/Registry` | violated: `std::out_of_range`; partial: alive after sync |
| C28-C31, C62-C64 | `Model/Command`, `Spec/Command`: families of registries, buffers of threads, staging registries | representation relation for buffers (queue and staging entities against abstract commands), induction over histories with flushes; violations by concrete histories |
| C66, C67, C69 | `Model/ThreadPool`: programs that submit and wait, workers with call stacks, queues, stop flags, destructor | invariant over all steps (where every task is); C67 violated for every number of workers, C69 by a sequential program; partial for fork-join programs by counting the decrements that are still owed |
| C68 | same, infinite fair executions (`Spec/ThreadPool`) | violated in pools of every size: a state no continuation leaves (`Stuck.forever`); partial for fork-join programs: some thread need not wait (recursion on the time calls began), and what it does lowers the work left |
| C70, C71 | same | violated: a loop that can be repeated from every state with a thread that waits in vain, `std::terminate`; partial: counting invariant |
| C72, C73 | `Model/PoolThreads` | invariant over histories of pools; violated by concrete histories |
| C74 | `Model/Throwing` | what `set_impl` leaves behind, from the representation invariant; violated for every new component |
| C75, C76 | `Model/HashLife` (bucket memory with object lifetimes) | simulation of the table without lifetimes; count of objects that are never destroyed, as an invariant over all calls |
| C77 | `Model/Archetype`, `Model/Registry` | negation by induction over rounds of create and destroy; bound by a potential (free entries outside the last chunk) that every operation raises by at most one |
| C78 | `Model/ViewChange`: iterators of buckets, chunks and entries kept apart, advanced on the registry the callback left | violated for every history by following the chunk sizes: an entry the loop has passed is filled again and never emptied; partial: changes the view does not see |
| C79 | `Spec/Deferred`: iteration whose callback records commands | by C29 the entries read are unchanged; the recorded commands of different entities commute into one update per entity; flush by C28/C63; violated: the flush may be undefined |
| C80 | `Model/ViewChange`, `Spec/ViewOthers`: operations of a callback on other entities | every operation changes at most the archetype the entity leaves and the one it enters, and leaves the map alone if that exists; then the iteration is undisturbed; violated: two concrete callbacks |
| C81 | `Model/Weak`: view-based machine for C++ atomics; `Model/WeakPool`: tasks, queues and workers with their memory orders | violated: three concrete executions, for both readings of seq_cst read-modify-writes |
| C82 | `Model/Weak`, `Model/WeakPool`, clients in `Spec/WeakQueue` | violated: a concrete execution with three submissions to a queue of capacity two; until it grows: the programs are an automaton (`Proofs/WeakQueueCode`), invariant over all its executions on what each thread and each message knows (`Proofs/WeakQueue`, `-Steps`, `-Inv`) |
| C83 | `Model/Weak`, `Model/WeakHandles`, `Spec/WeakHandles` | violated: concrete executions. Positive part: invariant over all executions of the weak machine; every reservation is a claim (free index or fresh number), claims are injective and cover what was handed out |
| C84 | `Model/HashCopy` on `Model/HashLife` | refinement of a family of tables to a list of finite maps; lost objects counted; violated: exact count and witness |
| C85 | `Model/Builder` (buffers, addresses, references) | refinement to schedules that own their parts, for careful callers; violated: three witnesses, the first for every growth policy |
| C86 | `Model/WeakHandles`, sequential semantics in `Spec/WeakTurns` | invariant of turn taking for arbitrary programs on the weak machine; simulation of `Model/HandlePool` by the programs |
| C87 | `Spec/WeakRounds`, `Spec/WeakSchedule` (schedules of `Model/Schedule` as rounds on `Model/Weak`) | invariant of rounds for arbitrary separate programs on the weak machine; batches of `createExecutor` give separate programs; any dealing of jobs equals the sequential order |
| C88 | `Model/TempAlloc`, `Spec/TempAlloc` (std::vector over the stack allocator; reference vectors) | invariant tying the live blocks of `Model/Alloc` to the vectors in scope, induction over histories and over nestings of calls; negation by concrete growth and universally for growth of the newest vector |
| C89 | `Spec/WeakEach` (the calls of a view as programs of the weak machine; memory mirroring a registry) | entries of a view are distinct, so calls touch disjoint objects and form rounds of C87; mirror kept call by call by comparing the program of a call with `Model/View` |
| C90 | `Spec/WeakDeque` and `Spec/WeakTasks` (calls, their answers in terms of lists and trees) on the programs of `Model/WeakPool` | plain-memory representation of a queue (array ring holds the list) and of a forest of tasks (counter = own + unfinished children) kept by each call; C86 transfers to all executions |
| C91 | `Model/MoveWithin` (`moveSelf`: the archetype is source and destination of the same move) | where the entry goes and what swap-erase then does, by cases on the last chunk; negations for every such position, the rest by the representation invariant |
| C92 | `Model/Registry` (`copyInto`, `cloneInto`), `Model/View` (`tupleAt`) | `Rep.copyInto_any`: effect of the copy on entries and locations for any handle whose id has been given out; observers computed from the location alone, as the representation invariant is lost |
| C93 | `Spec/ParallelRecord` (`SRec`, `BatchRun`, `Independent`, `SameEffect`) over `Model/Command`, `Model/Schedule` | ghost numbers of systems in the queues; every part of the contents that a system uses is as if only that system had recorded (`frame`); the commands of a system in two executions correspond under a one-to-one relation of handles (`same_contents`) |
| C94 | `Model/Reentrant` (`Hook`, `calls`, `Cmd.execWith`, `flushFrom`) over `Model/Command` | every step refines a step of an abstract machine on queues and contents (`HRun`); the executed sequence is the fixed point `q ++ recorded` by induction over the run; it ends because entities present plus queued creations decrease with every destruction |
| C95 | `Model/WeakCommand` (`pushCmd`, `recordCall`, `flushCmds`) on the machine of `Model/Weak`, with `reserve` and `flush` of `Model/WeakHandles` (`Prog.on`) | `C95_rounds`: rounds whose workers share counters changed by read-modify-write operations have no race and are interleavings on plain memory (`MixRounds`); these are simulated by runs of whole calls (`Sim`: a reservation takes place at the cursor if it finds a free id, else at the id counter) |
| C96 | `Model/Buffers`: the registry operations with the buffers of the chunks (`BReg`), `addr` gives the address of a component, `PointsTo` what is there; forgetting the buffers gives `Model/Registry` | per operation `Ev` (buffers are only appended or the last one given up), `Moves` (which locations change), joined in `BInv.addr_step`; induction over histories |
| C97 | `Model/Unwind`: programs that construct, run and destroy executors; any system may throw at any execution; one queue, from which workers take the oldest and the waiting main thread the newest task | transitions in normal form (`Tr`), invariants on queue (`QInv`), counts (`CInv`), calls (`KInv`), and for one worker `AInv`: the newest task belongs to the current batch; `SoloInv` for schedules without systems beside each other, and a driver (`Drv`) that brings every other schedule to an exception with tasks left |
| C98 | `Model/Destructors`: destroy, remove, set and assignment split where values are released; the references held by running functions are checked after every inner call | calls do not depend on archetypes of other tables (`run_over`), so an erased entry can be carried through the inner calls (`Carries`); induction on the depth (`runs`) |
| C99 | Model/StartUp: the variable template component_id::value with its dynamic initialiser as an event, reads of zero before it, the host's map of names with string views into the library that first named the type, component lists made from ids as they are at that time. | Proofs/StartUp: after any prefix of events the registry of names is the list of names in order of first initialisation (regInv_id, from the hash-table refinement of C08), initialised variables hold positions in the final list, every list has the ids its variables had; boot_run is the induction over events. |
| C100 | Model/SetArgs: set, get_or_insert and the flushed command with the constructors of the type as parameters: parentheses (construct_at), braces (C{...}), and braces around a value of the type. | setArgs_eq reduces set(args...) to the set of Model/Registry with the value chosen by has; the rest follows from C18 and the Rep invariant. |
| C101 | Model/Callback: each and visit with a function that writes a list of values and may then throw; outcomes returned, threw, terminated and undefined are kept apart. Also archetype() of references (C49). | Proofs/Callback: induction over the entries of the view with the Rep invariant (tryLocs_spec), over the component blocks for visit (visitLoop_spec); reachability because every write is an assignment (Assigns). |
| C102 | Model/TaskReuse: task_t* as element of the ring of a thread, allocate overwriting it, and the steps of execute/finish of each task through such pointers. | Proofs/TaskReuse: RingSim, a simulation to Model/Task; every task that is an ancestor of an unfinished execution is still in its element. The witnesses are built by induction over the number of tasks between the two uses of the element. |
| C103 | Model/HashThrow: the loops of Model/HashTable with a number of element operations that succeed before one throws; what is written into the table stays. | Proofs/HashThrow: the loop invariant of the insertion gives, at every moment, a well-formed table that lacks the element in the local variable. For the erasure: positions and uniqueness survive, and the probe sequence of the element after the hole ends at the hole. |
| C104 | Model/OutOfMemory: for every allocation of create, destroy, set, get_or_insert, remove, clone, copy, move and flush the state an exception leaves behind. | Proofs/OutOfMemory: each such state satisfies the invariant of Proofs/History with the same contents, so the induction over histories goes through with failing calls added (Spec/OutOfMemory, MemReach). |
| C105 | Model/AllocMove: several allocators with the live allocations of each, over one memory; both kinds of move as written. | Proofs/AllocMove: each allocator satisfies the invariant of C44 and the buffers are apart; every action keeps that. |
| C106 | Model/ParThrow | calls one after the other with exceptions caught; tasks with the elements they have left; a task of a call that is over is undefined behaviour. Invariant in Proofs/ParThrow: the queue is sorted, and while the first task of a call is queued no background worker executes one of its tasks; outcome by permutation, defined iff the throwing elements are in the first batch; both violations from every clean state. |
| C107 | Model/ThreadPool | two concrete schedules, the same in every larger pool (`runFew_steps`). Positive part: invariant in Proofs/Nested (`NestInv`): queues are sorted by submission, a stolen task is older than all that is left in the queue it came from, and tasks of calls that still run are submitted in the order in which the calls began; so the newest item of the own queue belongs to the innermost call. Two workers: invariant in Proofs/Leapfrog (`LeapInv`): a call that looks for work has a task of its own in the queue or on the other worker, or nothing can be taken until it has its answer; a task stolen on top of it belongs to a call at or above one of its own tasks; then induction over the times of the calls. |
| C108 | Model/ThreadPool, Spec/ThreadPool (`Prog.depth`) | n ≤ 2: by C107 every task on a stack is a descendant of the one below it, and the level of a task (Proofs/Depth, `LevInv`) is bounded by the depth of the program. n ≥ 3: a schedule with a parameter (`dive`, one more system on the stack in 15 steps; `dive_all` by induction on the number of systems). |
| C109 | Model/EntityRef (overload resolution among the member, the reversed member and the built-in comparisons) | C109_resolve by cases on the types of the operands; then cases on validity, with C51 for the order of handles. Trusted: the rules of overload resolution as transcribed. |
| C110 | Model/TaskLife (rings of all threads, functions by thread and number) | Invariant `LifeInv`: every ring is the result of that many allocations (C43), the destroyed functions are known exactly and listed once. Negations hold in every reachable state. |
| C111 | Model/Access (parameters of systems and their patterns), Model/Schedule | `ReadOnlyArg` says what const allows, apart from the patterns. C111_views_partial by first fit (C35_first_fit): nobody refuses anybody. The violation follows from C34 since the pattern is that of a writer. |
| C112 | `Model/ViewRange.lean`: the range is its arguments and the bucket `filter` keeps; `seekBucket` is the search of `begin()`, `chunksAt` an iteration from a bucket without asking the predicate there. | `Proofs/ViewRange.lean`: the search stops where the iteration of the view begins; operations that need no new archetype leave the map and the component sets (by `Still` for a component nobody has). Props in `Props/ViewRange.lean`. |
| C113 | `Model/UniqueTypes.lean`: the template as a recursive decision, the list of objects an object of the class consists of, and what the language demands of their addresses. | Induction over the length; counting the objects of the class of the last two types and the pigeonhole principle. `Props/UniqueTypes.lean`. |
| C114 | `Model/Messages.lean`: messages as lists of characters, numbers in decimal digits. | Round trip: the digits of a number can be read back, and end where something else begins. The sizes by induction over the components. `Props/Messages.lean`. |
| C115 | `Model/ConstAccess.lean`: for each class the overloads with the constness they need and give; a program is a chain of calls. | Invariant of chains in one direction, a chain for each type of object in the other; the write through a const registry is shown equal to the assignment of the registry model. `Props/ConstAccess.lean`. |
| C116 | `Spec/Commute.lean`: the calls on one entity, how each should end for the components of that entity, and the contents after calls on different entities, given pointwise. | Each call's outcome and effect from the refinement of C58, induction over the calls, then permutation invariance of the pointwise contents. `Props/Commute.lean`. |
| C117 | `Model/HashIter.lean`: the pair in a bucket is overwritten, stored hash and probe length are not. | After the write the table represents the new map for the hash function that gives the new key the hash of the old one; lookups of other keys and rebuilding do not see the difference. `Props/HashIter.lean`. |
| C118 | `Model/SparseIter.lean`: the pair in the dense vector is overwritten, the array of positions is not. | Membership of the new map in the vector, then a case distinction on the stale position. `Props/SparseIter.lean`. |
| C119 | Views as in C23; `Spec/ViewOrder.lean`: one list of entities, filtered by `has`. | The locations of a view are those of the view without arguments, filtered by the archetype; assignments keep component sets and sizes of chunks. `Props/ViewOrder.lean`. |
| C120 | Calls as in C80; `Spec/ViewOrder.lean`: the order of C119. | The locations of a view are sorted by archetype, chunk and entry, so entities that stay where they are keep their order. `Props/OrderKept.lean`, `Props/OrderViews.lean`. |
| C61, C65 | `Model/Layout`, `Model/Registry` | violated: concrete sizes and alignments; partial: no padding (or four bytes once, with alignment 8), the size is a sum |
| C32 | `Model/Access`, `Spec/Conflict` | soundness for every pattern that is not "reads the whole registry", exact for component patterns; violated for the rest |
| C34 | `Model/Schedule` machine (main thread + submitted tasks) | invariant over all reachable states |
| C33, C35-C37 | `Model/Schedule` | permutation by induction on rounds, event counts over all traces; C35: equal to a first fit (`Spec/FirstFit`), which decides the order of every pair; C36, C37 violated, partial statements |
| C38, C57 | `Spec/Interleave`, `Model/ParallelExec` | strong diamond property of the machine, hence one outcome; C57 violated by every conflicting main-thread system: two executions built around the pair (`Proofs/Noncommuting`) |
| C39 | `Model/Schedule` traces | every trace splits at the `wait`s into the segments of the stages |
| C56 | `Model/Schedule` | violated: for every pair a reachable state in which both run (`Proofs/FirstFit`); otherwise by an invariant on code and tasks |
| C40 | `Model/WsQueue` interleaving machine | invariant over reachable states |
| C41 | sequential queue functions | refinement to a list |
| C42, C43 | `Model/Task`, `Spec/TaskTree` | counter invariant over interleavings; violated for 3-level trees, 2^16 children and 4096 tasks; any depth under calm steps: the counter equals what threads and children still owe |
| C44-C46 | `Model/Alloc` | arithmetic invariants; C44/C45 violated when exactly full / moved |
| C47 | `Model/TypeName` | string lemma |
| C48 | `Model/Registry` with reference arguments | violated; exact: which entities may be referred to, from the places left after a relocation (`Proofs/SetFrom`) |
| C58 | `Spec/Registry`: families of registries, abstract maps | representation relation `Rep`, one lemma per operation, induction over histories |
| C51 | `Model/HandlePool` comparison | order laws |
| C52 | `Model/Component` | invariant |
| C55 | `Model/HandlePool` | invariant by induction over histories |
| C54 | `Model/Command` (a run is a history of recordings, direct calls and one flush) | violated in every state; partial: commands only |

## Status and findings per property

Theorem names are in `MANIFEST.json`. "Partial" means that the full statement fails for the code (a theorem
named `_violated` proves it) or is proved under a condition only.

* **C01** (proved). All create/recycle/reserve/flush histories with reservations flushed before the next create/recycle, ids not exhausted (2^32).
* **C02** (partial). Violated after 2^32 recycles of one id (C02_violated), and for every destroyed handle after every history: creations and destructions that give out no new id bring it back to life, and the next create returns it again (C02_every_handle_violated). Holds while the id is recycled fewer than 2^32 times (C02_destroyed_stay_dead_partial).
* **C03** (proved). All protocol-respecting histories.
* **C04** (proved). All interleavings of the atomic steps of any number of concurrent reserve calls.
* **C05** (partial). Exact: holds when reservations are flushed before create/destroy (C05_partial); every create or destroy with a reservation pending goes wrong, after any history (C05_create_violated, C05_destroy_violated).
* **C06** (partial). Refinement to a finite map for every key width while the map does not hold all 2^w keys; violated for the full map and after a move.
* **C07** (partial). Same side condition; violated for the full map.
* **C08** (proved). All hash functions, all operation sequences, termination included, from power-of-two bucket counts.
* **C09** (proved). Iteration and size after every operation sequence.
* **C10** (partial). Violated: exactly the powers of two work; witnesses for reserve(0), six buckets, and the iterator-pair constructor.
* **C11** (proved). All set/unset histories; equality and hash depend only on content (default initial block count).
* **C12** (proved). All lookup sequences over at most 2^32 distinct names, any hash function.
* **C13** (proved). All component lists with distinct ids; entity column included.
* **C14** (partial). Violated by a concrete component list; the exact condition is that entries and padding take at most 16384 bytes; it holds when all slots are aligned, and when alignments divide 8 and all earlier sizes (e.g. listed by descending alignment).
* **C15** (partial). Violated by int+double; the exact condition is that each alignment divides the entries per chunk times the sizes before; it holds when alignments divide 8 and all earlier sizes.
* **C16** (proved). All protocol-respecting histories of any number of registries, including throwing calls.
* **C17** (proved). All histories; a destroy that returns. Whether it can be undefined behaviour is C19.
* **C18** (proved). All histories; set, remove, assignment and get_or_insert.
* **C19** (partial). Violated by five entities in three chunks; cause and exact condition given; holds for all histories with at most two chunks per archetype.
* **C20** (partial). Violated for every throwing create and set: a null archetype pointer stays in the map, so iterating any view is undefined behaviour, and create keeps the entity id it took. Proved instead: all entities and the size are unchanged and the history goes on.
* **C21** (proved). All histories of any number of registries; failing copies are C53.
* **C22** (proved). All histories.
* **C23** (partial). Full statement for histories in which no component list was too large for a chunk; in every reachable state iteration is undefined exactly if the map holds a null pointer. Violated (undefined behaviour) after a create or set that threw insufficient_chunk_size.
* **C24** (partial). Full statement for histories in which no component list was too large for a chunk; violated after a creation that threw.
* **C25** (proved). Every range length and batch size, every interleaving of the tasks.
* **C26** (partial). Violated by failed copies (leak): in every reachable state a failed clone adds exactly one object never destroyed for the handle and for each component copied before the first one that cannot be copied (C26_failed_clone_exact_violated). Proved for all histories without a failed copy; destruction never touches empty storage in any history.
* **C27** (partial). Violated for every reserved entity not yet filled by clone or move; alive after sync; usable after clone.
* **C28** (partial). All histories of direct calls, recordings by any number of threads, flushes and thread ends refine abstract maps; a flush that returns applied the commands like direct calls. Violated only in that a flush may be undefined (an empty trailing chunk as in C19, in the registry or in a staging registry); that this is the only cause is proved.
* **C29** (proved). Every state, every command, also when recording throws.
* **C30** (partial). Violated in every state with a command for another registry: flush(r) plays it into r, and its own registry never sees it (C30_lost_violated, C30_foreign_violated). Proved when all queued commands are for one registry.
* **C31** (partial). Violated: set on a live entity never destroys its staging entity, so staging grows without bound (any n). Staging entities of creations are released.
* **C32** (partial). Violated for whole-registry read patterns (user-defined systems) and asymmetric for empty patterns; sound for every pattern a function system can have, exact and symmetric for component patterns.
* **C33** (proved). All stages and all executions.
* **C34** (proved). All schedules built from function systems, every reachable state of construction plus any number of runs.
* **C35** (partial). Violated, and exactly known when: the batches are the first fit of the systems (C35_first_fit); of two conflicting systems the one in the earlier batch always runs first (C35_order), so every stage in which the first fit puts the later one into an earlier batch runs them in the wrong order in every execution (C35_overtaken_violated). Holds when conflicting is transitive on the stage (C35_in_order_partial).
* **C36** (partial). Violated: runs once per batch; exact count proved, one batch iff-condition given for component patterns.
* **C37** (partial). Violated for every schedule: second executor has no parallel systems.
* **C38** (proved). All batches of all executors of function systems, all interleavings, termination included.
* **C39** (proved). All schedules, any number of runs, all executions.
* **C40** (proved). All interleavings of one owner and any number of thieves under sequential consistency; capacities that are powers of two at least 2.
* **C41** (partial). Refinement to a list for power-of-two capacities; violated for every other even capacity, though the constructor accepts it (C41_capacity_violated), so the condition is exact.
* **C42** (partial). Violated for three-level trees and for 65535 children; proved for one level of fewer children, all interleavings, with completeness. For trees of any depth proved under a condition on single steps (Calm): a completed task with a parent gets no further children, and no second thread is between its decrement and its load when a task becomes completed; each half of the condition is shown necessary by a violation. In particular proved for a pool with one worker whose tasks create children of running tasks only.
* **C43** (partial). Violated with 4096 outstanding tasks; exact description of what an allocation destroys.
* **C44** (partial). Violated when allocating from an exactly full (or empty) buffer: every request is then granted behind the buffer, in every history that fills it (C44_full_violated), so the condition is exact. Proved for all histories that allocate only while a byte remains.
* **C45** (partial). Violated by the move constructor (offset lost) and by zero-byte allocations at the very end; proved for all other histories returning to the same live allocations.
* **C46** (proved). All sequences of allocations and resets; failure exactly when nothing fits.
* **C47** (proved). Every spelling; the surrounding text of __PRETTY_FUNCTION__ for clang and gcc is trusted.
* **C48** (partial). Violated; C48_exact says for every state and every referenced entity what is stored: the value unless the reference belongs to the entity itself (dangling, or the component of the entity that takes its place) or to the entity that takes its place (dangling). C48_own_component_violated: a reference to an own component is wrong in every state unless two values happen to be equal.
* **C49** (partial). Violated by entity_ref::has and archetype() of references (noexcept) on dead handles; all other observers agree in all reachable states, archetype() lists exactly the components of a live entity. For the type entity get (const) succeeds while has is false, in every state (C49_entity_violated).
* **C50** (proved). All histories.
* **C51** (proved). Comparison is a total order consistent with equality.
* **C52** (proved). All insert/erase sequences.
* **C53** (partial). Violated: every failed clone leaks the id it took (C53_failed_clone_leaks_id_violated), and every one that fails while the last chunk of the archetype is full leaves an empty chunk behind, after which destroying any entity of the archetype that is not the last of its chunk is undefined (C53_full_chunk_violated; such an entity exists whenever a chunk holds two, C53_full_chunk_somewhere_violated). Proved: answers and size are unchanged.
* **C54** (partial). Violated in every state: a direct creation after the first recorded one gets its handle or a dead one (C54_direct_violated). Proved when only commands create and destroy between flushes.
* **C55** (proved). All protocol-respecting histories before id exhaustion.
* **C56** (partial). Violated by every stage with a main-thread system that conflicts with a parallel one: any parallel and any main-thread system of a stage run at the same time in some execution (C56_any_pair_violated). Holds for all other stages (C56_no_conflict_partial).
* **C57** (partial). Violated by every schedule in which a main-thread system conflicts with a parallel one of its stage and both write something: there are bodies for which, from every start state, two executions differ (C57_conflict_violated). If none conflicts: one outcome for every schedule, run count and interleaving (commands as a fixed function of the data). If in every conflict one system only reads: all executions that end, end with the same data (C57_readers_partial), but whether a reader returns may depend on the order (C57_reader_ends_violated).
* **C58** (proved). All histories of any number of registries, by a representation relation over pool, sparse table, archetype map, archetypes and chunks.
* **C59** (proved). All reachable registries in which each returns (when it does is C23). The callback must not change the structure of the registry.
* **C60** (proved). All reachable registries, worker counts and interleavings; undefined exactly if each is. Calls of the callback are atomic steps of the tasks.
* **C61** (partial). Violated: removing a 4-byte component from an entity with a 16-aligned component of 16368 bytes throws. Proved for all histories when sizes are multiples of 4 and alignments divide 8, in any mixture, and when sizes are multiples of 8 and alignments divide 16; C61_iff gives the exact condition on the component types, and C61_chars_violated shows that arrays of char break it.
* **C62** (partial). Violated: after a thread with a buffer has ended every flush is undefined (dangling pointer in the global list). Proved while no such thread ends.
* **C63** (proved). Every reachable state and every failing command.
* **C64** (partial). Violated in every reachable state with two buffers and nothing recorded, if the flush returns: buffers are played in the order of their registration, so of two assignments to one component the one recorded first can win (C64_last_value_violated). Proved for the commands of one thread, and for several threads whose commands are about different entities: there every order that keeps the order of each thread has the same effect.
* **C65** (partial). Violated: [A,B] fits, [B,A] does not, and after [A,B] was created [B,A] does. Proved for all histories when sizes are multiples of 4 and alignments divide 4: the sum of the sizes decides; likewise, with 4 bytes more once an alignment is 8, when sizes are multiples of 8 and alignments divide 8. C65_iff gives the exact condition on the component types; C65_common_violated breaks it with the alignments of int and double.
* **C66** (proved). All programs, worker counts and interleavings (sequentially consistent steps); includes that workers only look at workers that exist.
* **C67** (partial). Violated for every number of workers: workers that looked into the queues before a task was submitted stop without looking again, and nobody empties the owner's queue. Proved: tasks submitted by workers are always run; all tasks are when every function joins what it forked (parallel_for, stages) with less than 65535 children per task.
* **C68** (partial). Violated in every pool: a child submitted to a parent that is already completed makes a counter pass zero, and the wait never returns though all tasks have been executed (C68_every_pool_violated, even with one worker); and in every pool with a background worker, a worker that helps while it waits takes a task which waits for the task below it on its own stack (C68_circle_violated). Proved for fork-join programs, hence nested parallel_for and stages: they end under every fair schedule, for every number of workers, and no step is undefined.
* **C69** (partial). Violated in every pool, whatever the number of workers (C69_every_pool_violated), and sequentially: a child R of G that gets a child after it completed is counted twice, and wait(G) returns before G was called. Proved for fork-join programs with less than 65535 children per task.
* **C70** (partial). Violated: waiting while another worker executes the task releases the semaphore without bound. This is so in every state of every pool in which a thread waits and there is nothing to take (C70_in_vain_violated), and in every pool with a background worker for every program that begins by submitting a task and waiting for it (C70_first_violated). Proved while nobody waits.
* **C71** (partial). Violated: std::terminate when a background worker takes the task. In every pool with a background worker, every program that begins by submitting a task that throws can be terminated (C71_first_violated), and so can every program that reaches a state in which the oldest task of the owning thread throws while a background worker looks for work (C71_idle_violated). Proved: never with one worker; only exceptions terminate.
* **C72** (partial). Violated: other threads get undefined behaviour. Proved exactly: a thread is served iff it constructed the living pool or is one of its workers.
* **C73** (partial). Violated after every history: _instance keeps pointing to the pool that was not constructed, and nothing the program does with pools has any effect from then on (C73_forever_violated), or the program is terminated. Proved for a second pool while one lives.
* **C74** (partial). Violated whenever the component is new: set_impl has moved the entity to the new archetype before the constructor runs, so the entity has the component but there is no object; get, set, remove, destroy and the destructor of the registry are then undefined (or do not succeed). Proved: everything else is unchanged, and nothing happens if the component was present.
* **C75** (partial). Violated: erase_impl moves out of the last bucket of the run and never destroys the object there, so exactly one destructor call is missing for every key erased (proved as an equation for all histories). Proved: no object is used outside of its lifetime; without erasing a present key all objects are destroyed exactly once.
* **C76** (partial). Violated exactly when the insertion grows the table: reserve frees the element before the arguments are read. Proved: otherwise it is insertion of copies.
* **C77** (partial). Violated: for every bound, a history with at most two entities at any time and one at the end leaves more chunks than the bound (induction over rounds of create and destroy): the chunk of the destroyed entity is empty but not the last one, so it is neither freed nor filled again. Proved for all runs: (chunks - 1) * capacity is at most the number of stored entities plus the number of operations that took an entity out; without such operations no chunk is wasted.
* **C78** (partial). Violated: with at least two entities in the only chunk of a matching archetype the iteration is undefined, with at least two in any chunk it is undefined or leaves an entity it has not visited (both for every history); witnesses for two entities, for a survivor, and for a single entity alone in the last chunk. Proved: the callback may destroy entities that do not match.
* **C79** (partial). Proved for all histories and decision functions: the iteration is not disturbed; if the flush returns, exactly the decided changes have been made to exactly the matching entities; it throws only insufficient_chunk_size, never if the callback only destroys. Violated: the flush may be undefined (trailing empty chunk, as C19), witness.
* **C80** (partial). Violated when an operation needs a new archetype: witnesses where the bucket of the view is displaced and where the map of archetypes is moved to a larger table. Proved for all histories, views and callbacks whose operations need no new archetype; and for all callbacks that an iteration which ends normally leaves the map of archetypes as large as it was, so operations that make it grow cannot be done in callbacks (C80_table).
* **C81** (partial). Violated: the counter of a task is only accessed with memory_order_relaxed, so completion orders nothing. Three executions: reading what the task wrote is a data race; reading an atomic gives the value from before the task; two tasks run one after the other with a wait in between have a data race (this is how batches and stages are separated).
* **C82** (partial). Violated when the queue grows: push stores the pointer to the new array with memory_order_relaxed and no release fence in between, so a thief can get the pointer without the contents of the array: a data race. Proved until the queue grows for the first time, for all operations of the owner, any number of thieves and all executions: no data race, every item is received at most once, none is lost; it never grows if no more is pushed than its capacity.
* **C83** (partial). Violated: wait() orders nothing, so the flush may read a stale cursor (ids and generations get out of step, and a created entity is not alive) or race with a reservation on the list of free ids. Proved for any number of threads and reservations when the end of the reservations is signalled with release and noticed with acquire.
* **C84** (partial). The answers are right in every history. Violated for lifetimes: a copy constructor that throws loses the elements copied so far (the destructor of the table does not run, ~buckets frees memory only), and erase loses objects (C75); the number lost is given exactly. Proved without these.
* **C85** (partial). Violated in three ways: begin_stage invalidates earlier stage references (for every growth policy); stages keep the address of the schedule they were begun in, so end_stage returns the wrong, possibly destroyed one after a move; a callable passed as a const lvalue is stored by reference. Proved for callers who avoid these.
* **C86** (proved). Proved for arbitrary programs (all memory orders) that take turns, then for all histories of calls on a pool, whose answers are those of Model/HandlePool.
* **C87** (proved). Says what is missing in C81: with a wait that acquires what the tasks released, the access patterns are enough. The library's own wait does not do this (C81).
* **C88** (partial). Full statement false: a vector that grows takes its new storage before it gives the old one back, which leaves the new storage unprotected (three push_backs lose the first element). Proved for vectors that take storage once and in scope order, as parallel_for does, with a byte left.
* **C89** (proved). Built on C87 (rounds of parallel work); that a callback keeps to its entry is needed (C89_needs_own_row).
* **C90** (proved). Built on C86 (threads that take turns). Without turns the queue with growth and the tasks race (C80-C82). Fewer than 65535 calls on tasks, as the counter of a task has 16 bits.
* **C91** (partial). False. Undefined behaviour whenever the last chunk is neither empty nor full and the entity is in it or is not the last of its chunk, as for the only entity of a registry; with a full last chunk the reserved entity becomes a second name of another entity. C91_every_position_partial settles every position, an empty last chunk included: right, a second name of another entity, or undefined. Missing: the property itself where it is false.
* **C92** (partial). False. The second filling succeeds, leaves the old entry stored under the same handle and does not count it; filling a destroyed one replaces the components of the entity that now has its id or, if the id is free, stores and counts an entry of a dead handle; the same for moves to another registry. Proved: the first filling by a copy is right and affects no other handle. The same holds for reserved entities of other registries, whose ids were never given out here (C92_foreign_violated). Missing: the rejection, which is false.
* **C93** (partial). False. Systems that only take a command_writer are always put into one batch, and two that set the same component leave the value of the thread whose buffer is later. Handles of new entities, and of the next entity after destructions, depend on the threads too. Proved: if no system changes what another uses, the contents are the same up to the names of the new entities, and no execution ends with a missing entity unless all do. Missing: the handles.
* **C94** (partial). False. On a thread without a buffer the destructor locks the mutex the flush holds; commands recorded for the command of a later buffer wait for the next flush; and an entity created by a destructor reserves its id after sync and before the destroyed id is recycled, so that it is never alive and later creations return dead handles. Proved for destructors that create nothing: the flush ends, and a flush that returns has executed what was recorded, in the order described, all of it when the buffer of the flushing thread is the last. Missing: destructors run by remove and set.
* **C95** (partial). Proved where the end of a batch is signalled with release and noticed with acquire, and every thread uses its own buffer: no race, and the result is that of some order of whole calls, for which own order, distinct ids and liveness are proved; and a general theorem on rounds of work that share counters. False as the library is: its wait is relaxed (C81, C83), and a command_writer that a system hands to par_each writes one buffer from several threads, a data race.
* **C96** (partial). Proved: addresses of different components differ; get is a load from the address; calls that throw or take no entity out of its place (create, clone, copy, assignments) keep all addresses; otherwise at most one other entity, of the same component types, changes its address, and it takes that of the leaving one; a reference stays valid in every history in which no entity with the same component types leaves. False in general: destroying an entity moves the last one of the archetype, after which an old reference dangles, refers to a component of a later entity, or points into a freed buffer.
* **C97** (partial). Proved: a call that returns has run its systems exactly once whatever earlier calls left; nothing of a call happens after it has returned; only calls that threw leave tasks; before the first exception no step is undefined; commands are neither lost nor executed twice; without background workers nothing of a call happens after its end and no step is ever undefined. With background workers this holds exactly for the schedules in which no system may run beside another one (C97_exact, C97_one_at_a_time_partial). For every other schedule it is false: execute_batch does not wait when a system throws on the main thread, so systems go on after run_once has ended, run beside the same system in the next call, or use the destroyed executor (always possible when create_executor throws). Without workers, what is left stays in the queue for good, without bound.
* **C98** (partial). Proved (any nesting): if the destructors use only tables (sets of component types) that no running call uses, and values dropped by remove call nothing, the calls have exactly the effect of the plain calls, inner ones first; entities of tables in use are untouched meanwhile; without such destructors the model is the plain one. False otherwise: a destructor that destroys an entity with the same types makes swap_erase work on an empty entry; one that creates such an entity gets it destroyed while it stays alive; values dropped by remove that destroy any entity invalidate the reference to the location, or the new location; a replaced value that adds a component to its entity makes set write to another entity or to dead storage.
* **C99** (partial). Partial: proved for reads that come after the initialiser of their variable, different names for different types, and as long as the library that first named a type stays loaded. Each of the three conditions is shown necessary: an id read early is 0 and is the id of another type (C99_violated_read_early), two types of one name share an id (C99_violated_equal_names), initialising a type whose first library is gone reads freed characters (C99_violated_unloaded); all three for every hash function.
* **C100** (partial). Partial: the value is determined exactly in all cases (C100_set_value, C100_command_value, C100_get_or_insert), and is one value for types where C(args...) and C{args...} agree and C{x} copies x. In general the code violates it: for every type and arguments where braces and parentheses differ, calling set twice leaves two different values (C100_violated_twice; std::vector<int> with 3, 5 in C100_violated_vector), call and command differ (C100_violated_command), and a command wraps the value once more when the component is present (C100_violated_nested).
* **C101** (partial). Partial: proved for each, with the exact list of calls and the exact state left behind. visit is proved for functions that do not throw; a function that throws for some component of the entity terminates the program in every reachable state, since chunk::visit is noexcept (C101_visit_violated). par_each is treated in C106.
* **C102** (partial). Partial, the property is false: finish reads the task after the decrement that lets wait return. For every ring size of at least 3 a program that never has more than two unfinished tasks and reuses only elements of completed tasks gets a wait that returns before a child was called (C102_violated) or one that never returns (C102_wait_forever_violated). Proved under the stronger condition Settled (execute of the task and of its descendants has returned before its element is reused): the rings refine the model without reuse (C102_refines_partial), hence wait is sound for one level of children (C102_wait_partial). The load of the counter and the read of _parent are one step; sequentially consistent memory.
* **C103** (partial). Partial, the property is false for element types with throwing moves. Proved for the sparse map (C103_sparse) and, for the hash map, when the construction of the element or the first operation after it throws (C103_constructor_partial). In every other case the theorems say what is left: an insertion that throws later has put the new element in and lost an unrelated one (C103_insert_partial, witness C103_insert_violated); a growth that throws keeps all keys but has emptied the values moved before it (C103_grow_partial, C103_grow_violated); an erasure that throws while shifting always leaves an element that iteration shows and no lookup finds (C103_erase_partial, C103_erase_violated). Assumed: an operation that throws changes neither of its objects; hash, equality and allocation of the bucket arrays do not throw. operator[] of the sparse map is noexcept, so an exception there ends the program.
* **C104** (partial). Partial, the property is false for five allocations. Proved for histories with any number of failures at the others (search set, growth of the archetype map, key, chunk, archetype, free list): all answers are those of the contents (C104_registry_usable_partial), the size is the number of entities (C104_size_partial), later calls are undefined only for the reason of C19 (C104_next_call_partial), iteration is exact unless an archetype could not be allocated (C104_iteration_partial); a destroy that cannot record the free id is complete, the id is lost. Violated: a failed archetype leaves a null pointer in the map, so every iteration is undefined behaviour (C104_archetype_violated); a failed generation shifts ids against generations, so the next creation returns a dead entity that the following creation revives (C104_generation_violated); the location of a new entity is inserted by a noexcept operator, so the program ends (C104_location_violated, and for clone, copy and move C104_location_copy_violated); a move that cannot record the free id loses the entity in both registries and leaves a row with the old handle in the destination (C104_move_violated); a sync that fails half way makes a handle alive that was never issued when it is repeated (C104_sync_violated). Assumed: a vector whose growth fails is unchanged.
* **C105** (partial). Partial, the property is false. Proved for any number of stack allocators moved only while they have no live allocations (and used under the conditions of C44): each one's allocations are well placed in the buffer it holds and no byte belongs to two (C105_stack_partial); a linear allocator's target carries on correctly (C105_linear_partial). Violated in general: a stack allocator moved with anything live hands all the live memory out again in one request, because the offset is not moved (C105_live_violated, for every such history); move assignment keeps the target's own offset, which wastes the bytes before it or grants requests outside the buffer (C105_assign_violated); the object moved from has size 0 and still grants requests, since the remaining space wraps around (C105_moved_from_violated); a linear allocator moved from hands out the same memory as the target (C105_linear_violated).
* **C106** (partial). Partial, the property is false in every pool with background workers. Proved: the outcome of every call (C106_outcome), no exception is lost (C106_no_exception_lost); no step is undefined and nothing is left of a call if the elements the function throws for are in the first batch (C106_defined_partial, C106_over_partial); the full property without background workers (C106_alone_partial). Violated for every call that throws for any element of a range with at least as many elements (chunks) as workers: it can terminate the program (C106_terminated_violated); and for every call that throws outside of the first batch: it can end with a task left in the queue that refers to what the call destroyed (C106_dangling_violated), so the condition is exact.
* **C107** (partial). Partial, the property is false in every pool with background workers. Violated in every pool with two or more of them by a stage of two systems one of which calls parallel_for (C107_violated), and with one of them by a program that waits for one of two tasks (C107_one_background_violated). Proved for every number of workers: what a worker takes from its own queue on top of a call that waits was submitted after that call began (fork-join programs, C107_after_partial), and by this very call if every function joins what it forks (C107_joined_partial); hence the property holds without background workers (C107_alone_partial). For programs of nothing but parallel_for and stages in any nesting the property holds exactly in pools of one or two workers (C107_two_workers_partial, C107_iff).
* **C108** (partial). Partial, the property is false in every pool with two or more background workers: for every m a stage of m systems, each with a parallel_for over one batch, reaches a state in which worker 1 is inside of all m systems at once (C108_violated, every n ≥ 3, every m). Proved for n = 1 and programs in which every function joins what it forks (C108_alone_partial), and for n = 2 and parallel_for and stages in any nesting (C108_two_workers_partial); together C108_iff: the bound holds exactly for n ≤ 2.
* **C109** (partial). Partial, the property is false for two references: the only viable functions are the built-in comparisons of the results of operator bool, so in every reachable state any two references to live entities, of whatever registries, are equal and neither is less (C109_violated); std::find stops at the first element (C109_find_violated) and a std::set keeps only the first (C109_set_violated). Proved if one operand is an entity (C109_entity_partial); C109_iff is the exact condition.
* **C110** (partial). Partial, the property is false. C110_exact: the function of a task is destroyed by the 4096th submission of its thread after its own or by the end of the thread, executed or not; so every thread that lives holds the functions of its last 4096 tasks (C110_violated). After the end of a thread (main included, whose thread_local ring goes before the static pool) executing one of its tasks is undefined (C110_ended_violated); after a submit in which storing the function threw, the end of the thread is undefined whatever the program does (C110_throw_violated). Proved: no function is destroyed twice, all of an ended thread are destroyed (C110_once_partial), and the right function is called within the window (C110_called).
* **C111** (partial). Partial, the property is false for const registry&: the trait names the state of registry& (system.hpp:257), which declares write access to everything; system_const_registry_state is used nowhere. C111_registry_violated: in every schedule and execution no system that reads anything runs beside one with a const registry&; C111_last_violated: it is the last of its batch; C111_order_violated: whether a command writer runs beside it depends on the order. Proved for systems that read through views (C111_views_partial): one batch, and an execution in which all of them run at once.
* **C112** (partial). Violated, because std::views::filter keeps the beginning it found first. For all histories: a range first iterated when no archetype matches shows nothing as long as the map of archetypes does not grow (C112_empty_violated), and once the map has grown every further use of an iterated range is undefined (C112_growth_violated). The chunks of the archetype in the kept bucket come first whether or not it matches (C112_chunks_violated). Witnesses: an entity that is missed; a displaced bucket after which a loop over the range ends the program (component_not_found thrown in the noexcept chunk_view::begin()). Proved for all histories: the first iteration is that of the view at that moment (C112_first), and so is every further one after operations that need no new archetype (C112_again_partial). C112_exact says for every reachable state what a kept range does: undefined if its bucket is empty, the end of the program if the archetype there does not match, otherwise the entries from that bucket on; C112_whole_partial gives the condition under which this is everything.
* **C113** (partial). The decision is proved for all lists (C113_types). The storage part is violated: the local variable of create_impl is of a class whose bases are not virtual and occur again and again; objects of the same class need different addresses, so with n types at least 2^(n-3) bytes of stack are taken, 8 MiB for 26 types (C113_storage_violated, for every placement of the objects). Up to three types a single byte is enough (C113_storage_partial). What a compiler does with the unused variable when it optimises is not modelled.
* **C114** (partial). Proved: messages identify the kind (C114_kinds), the handle (C114_entity), the name (C114_component), which is quoted (C114_quoted), and the two sizes (C114_sizes); the first size is always above that of a chunk, and there is a message exactly if the archetype cannot be made (C114_chunk_partial). Violated: the size called total size of the components is never that, for any list of components (C114_total_violated): the handle and the remainders of archetype.hpp:241 are counted too. One component of 16380 bytes is said to exceed 16384 bytes (C114_exceeds_violated).
* **C115** (partial). C115_exact says for every type of object and every list of view arguments whether some chain of calls changes the registry. Violated: archetypes() of a const registry leads to non-const archetypes, as a const std::unique_ptr points to non-const (C115_violated); in every reachable state every component of every entity can be overwritten in this way (C115_everything_violated). A const entity_ref gives references to non-const for two or more components, to const for one (C115_entity_ref_violated). The pairs of a const map of archetypes cannot be modified (C115_elements). Proved: a const registry is not changed by chains without archetypes() (C115_registry_partial); const_entity_ref, const archetypes and views of const arguments give no access (C115_exact, C115_const_entity_ref); the functions each accepts (C115_each). The chunks() of a const view do give access if an argument is not const (C115_exact).
* **C116** (partial). Proved for calls none of which throws insufficient_chunk_size or is undefined: outcomes and contents are those given entity by entity (C116_each_partial), so they do not depend on the order (C116_partial). Violated: set on two entities succeeds in one order and throws in the other, as the order in which types were combined decides whether an archetype can be made (C116_violated); after destroying two entities the next handle depends on the order (C116_next_handle_violated).
* **C117** (partial). Keys can be written, as value_type is std::pair<key_type, mapped_type> with a non-const key. Proved: writing values (C117_value_partial), writing a new key with the same hash (C117_key_partial), the other entries and iteration (C117_others_partial), and everything once the table is rebuilt by reserve or growth (C117_reserve_partial). Violated for every map, every iterator and every new key with another hash: the key is neither found nor erased (C117_key_violated); it can be inserted again and is then there twice (C117_twice_violated). Exact for a key that another entry has: which of the two is found depends on the hashes and the probe sequence (C117_present_partial).
* **C118** (partial). Keys can be written, as the iterators are those of a vector of pairs with non-const keys. Proved: writing values (C118_value_partial); exactly when a new key is found afterwards, and that the other keys are (C118_key_exact); if it is found, all further calls are right (C118_key_partial). Violated for every map and every key above the capacity: it is not found, and if it was written over the last entry, erasing any other key writes outside the array (C118_key_violated). Also violated for every key that another entry has: the old value is found and size() counts a key that is gone (C118_taken_violated).
* **C119** (partial). Proved for histories in which every component list fitted (C119_partial), and for two views, also with different components (C119_two_partial). There is only one such order (C119_unique). Violated after a creation that threw, where every view is undefined behaviour (C119_violated).
* **C120** (partial). Proved for calls that need no new archetype, after histories in which every component list fitted: a creation keeps the order of all others, and the other calls that of all but the entity and at most one more (C120_partial); views keep the order of all, also par_each (C120_views_partial), and so does set of a component the entity has (C120_set_held_partial). Violated by destroy, where the last entity takes the place of the first (C120_destroy_violated), and by a creation that needs a new archetype, where two entities with other component sets change their order (C120_create_violated). Missing: value types without values; clone and moves between registries.
