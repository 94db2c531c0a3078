# Formal model of lo48576/dendron in Lean 4

Everything under `lean/Verif/` is one Lake library without further dependencies (Mathlib is not used).
`/repo` is read as text only.

## Layout

* `Verif/Model/*`   the code, function by function (every definition cites file and lines).
* `Verif/Spec/*`    the vocabulary of the English properties (ordered child lists, rose trees, event
                    sequences, deque schedules, handle histories, line drawings), independent of the
                    model's helper functions.
* `Verif/Proofs/*`  lemmas.
* `Verif/Props/*`   the property theorems, named after the property (`C14_...`), with concrete instances
                    of their hypotheses beside them.  Suffix `_partial`: a part of the property is
                    missing (the docstring says which); `_violated...`/`_wrong`: a proved refutation of
                    the full property, by a concrete program or for a class of states.
* `Verif/Conformance/*`  the crate's own tests and documentation examples, run on the model (see
                    "Validation of the model"); no theorem depends on them.
* `tools/*`         generate `MANIFEST.json` and `AXIOMS.md`.
* `seeded/LOG.jsonl` wrong programs and the theorems that reject them.

## What is modelled

| model file | code |
|----|----|
| `Model/Basic` | `src/node/internal.rs` (core links, neighbors, cyclic `prev_sibling_cyclic`, getters), `src/anchor.rs`, `DftEvent::next`/`prev` |
| `Model/Lock` | `src/tree/lock.rs` (aggregated counter, tokens) |
| `Model/Member` | `src/node/membership.rs`, `Rc`/`Weak` counting, `TreeCore::drop` (`src/tree.rs` 60-140) |
| `Model/Edit` | `src/node/edit.rs` except cloning: creation, detach, replace, insertions, moves |
| `Model/Query` | getters and counts of `src/node/plain.rs` (`hot.rs` and `frozen.rs` forward to it) |
| `Model/NodeApi` | the methods of `src/node/plain.rs`, `hot.rs`, `src/tree.rs` that check a token and call `edit.rs` |
| `Model/Traverse` | `src/traverse/*.rs` (all traversers: depth-first, reverse, stable, shallow, breadth-first with and without allocation, siblings, stable siblings, ancestors, double-ended use, `peek`, `size_hint`, `close_current`) |
| `Model/Prog`, `Model/WTraverse` | the same traversers once more with every handle cloned, moved and dropped, as programs run on the program state |
| `Model/World` | what a program holds (plain/hot/frozen handles, `Tree`s, tokens) and every public call that gets, copies, converts, drops handles, navigates, edits, borrows or writes data |
| `Model/Serial` | `src/serial.rs`: `to_events`, conversions of events, `src/node/internal.rs` `try_eq` |
| `Model/Builder` | `src/serial.rs`: `TreeBuilder`, all `FromIterator`s; `try_clone_subtree`, `try_clone_tree`, `try_clone_insert_subtree` |
| `Model/Pretty` | `src/node/debug_print/pretty.rs` (line writer, traversal, padding) |
| `Model/Sink` | the same printer on a formatter whose calls may fail, with data formatting that may react to failures |
| `Model/Reentry` | the freeing functions of `Model/Member` with a record of the moments at which `T::drop` runs, and weak-handle upgrades made from there |
| `Model/Cascade` | the freeing functions and `detach_subtree`/`try_detach_insert_subtree` once more with the destructor of the data called where Rust runs it, dropping what the data owns, with the borrow flags of memberships and the trees being destroyed |
| `Model/Data` | `try_borrow_data`, `try_borrow_data_mut` and the guards they return (`src/node/internal.rs` 362-392), on top of `Model/World` |
| `Model/Debug` | `src/node/debug_print/debug.rs`, `src/tree/debug_print.rs`, `Debug` of nodes, trees and weak handles: the structured value handed to the formatter |
| `Model/Panicking` | the panicking variants: `try_` method and `expect` |
| `Model/Cost` | breadth-first traversers, `detach_subtree`, `try_detach_insert_subtree` with a step counter or a budget |
| `Model/Macro` | `src/macros.rs`: what the expansions of `tree_node!` and `tree!` do |

### Modelling decisions and simplifications

* **Heap.** `Rc<NodeCore>`/`Rc<TreeCore>` allocations are natural-number ids that are never reused.
  A heap is a record of total functions from ids to fields (`data`, `parent`, `firstChild`, `next`,
  `prevCyc`, `numCh`, membership, tree root, lock count, number of `Rc<TreeCore>` held outside the
  memberships).  `data n = none` means "not allocated or already freed"; `Weak::upgrade` is "filter
  by alive".
* **Reference counting.** A node is freed when nothing refers to it strongly any more: no `NodeLink`
  (membership `Strong`), no tree root, no `first_child`/`next_sibling` of a living node, no local
  variable (explicit `pins`).  A tree core is dropped when no `Tree`/temporary `Rc` and no `Strong`
  membership refers to it; its `Drop` loop is modelled.  In link surgery
  (`Model/Edit`) every overwritten strong link and every local variable that owns a link is dropped where
  the code drops it, and the node is freed if that was the last reference; the parameter `held` lists the
  links owned by local variables of the callers.  `Proofs/Loose` has the same functions without these
  drops (suffix `L`); `Proofs/Strict*` prove that in the states the theorems speak of nothing is freed
  by them, so that both agree.
* **Panics / divergence.** All functions are total, in `Except Fault`; `expect`, `unreachable!`,
  `assert!`, `debug_assert!` (the debug build is modelled) are `Fault.panic`, loops carry fuel and
  report `Fault.diverge` when it runs out; the theorems show this does not happen (or, for the defects,
  that it does for every amount of fuel).
* **Integers.** `isize` lock counts are bounded (panic on overflow as in the code); histories assume
  `Room`: lock counters of living trees stay below 2^62 in absolute value.  `usize` saturation of merged
  closing events is modelled.  `num_children`, `tree_refcount`, `aggregated_count` are unbounded naturals
  (overflow would need 2^64 live objects).
* **Granularity.** One step of a history is one API call.  Calls of a builder, a clone or a macro
  expansion are sequences of such steps; each single call of a builder can be interleaved with other calls of the
  program (C68), a clone or a macro expansion is one call.  In
  C19-C28 and C54 a traverser is a state machine over node ids and its handles are not counted; C55 runs
  the same traversers with every handle counted and ties the two together.
* **Not modelled.** `T::drop`/`T::clone`/`T::eq`/`Display` side effects (data is a plain value; equality
  and text are parameters), `RefCell` borrow flags of internal cells (all internal borrows are released
  before the function returns; only memberships stay borrowed while foreign code can run, and `Model/Cascade`
  has these flags), real memory,
  threads (all types are `!Send`), `Debug`/`Display` of error types, the layout chosen by
  the standard library's `debug_struct`, failures of the formatter behind the structured `Debug` printers, calls of the API
  made from inside `T::drop` other than upgrading weak handles (`Model/Reentry`) and dropping things (`Model/Cascade`), the parsing of macro patterns, `mem::forget` of handles, the time taken by memory allocation, `VecDeque` growth and freeing
  (`Model/Cost` counts loop iterations and iterator calls).

### Validation of the model

The crate cannot be run here, but its authors recorded what it does: in `tests/*.rs`, in the test modules of
`src/serial.rs` and `src/node/edit.rs`, and in the examples of the documentation.  `Verif/Conformance/Tests.lean`
and `Verif/Conformance/Doc.lean` transcribe all of these that are about modelled behaviour, call by call, into
programs over the API of the model; each call is made only if the program holds the handles and tokens it
needs, and the build evaluates every assertion in the kernel (`decide +kernel`).  These are tests of the model,
not proofs about it: they show that where the crate's behaviour is on record, the model behaves the same.
Left out are `AdoptAs`/`InsertAs` conversions between types, `println!` of `Debug` output without an assertion, the
140000 nodes of two drop tests (30 here), and comparing trees with data of different types (same type here).

## Histories

`Reach w` (`Spec/World`): the state `w` is reached from the empty one by calls the program can make with
the values it holds, excluding the calls with a *known defect* (`SafeCall`: detaching, replacing or moving
the last of several siblings, moving below itself, moving a root to another tree unless it is the only node of a tree without `Tree`
handles, moving to a sibling position of a root).  `ReachW w` (`Spec/Wide`) also allows the calls that take the last of several
siblings away, as long as no later call relies on the stale `last_child` they leave; the proofs
(`Proofs/Sim*`, `WorldWide`, `WideFacts`) carry the invariant of a repaired state that differs only in
previous-sibling pointers of first children.  `ReachAny` has no exclusion.  Properties that the code violates after such calls are
proved for `ReachW` or `Reach`, refuted for `ReachAny` and marked partial.

## Per property

| id | what is modelled and how it is proved |
|----|----|
| C01-C03 | `WF h ch`: one child list per node, doubly linked cyclic list segments; getters computed from it; invariant of all edits and of all `Reach` histories; refuted for `ReachAny` (detaching the last child) |
| C04 | memberships/roots agree; invariant of all edits and histories |
| C05-C09 | each edit: `WF h ch -> op h = ok h' and WF h' ch'` with explicit `ch'`, frame conditions |
| C10-C11 | same, error cases exact; refuted for a childless last child (stale cyclic link), partial otherwise |
| C12-C13 | detach: forward structure always right; full coherence refuted for every last child with predecessors in every state (`*_always_violated`), proved otherwise |
| C14-C18 | moves: proved where right, refuted for every state where wrong (stale pointers, loops, failed moves, moved roots: `C18_consistent_iff`); every outcome of a move settled (`C17_outcome`) |
| C19-C28 | traversers as state machines; `Yields` relation; rose-tree induction; deque schedules for double-ended ones; the stable ones are exactly two blind cursors (`twoCursors`), with iff-theorems when they are right |
| C29, C52 | serializer against the canonical event list of a rose tree |
| C30-C33 | builder against prefixes of event lists (`Describes`); invariant `BState` relating open nodes to frames; all collecting impls; C32 and C33 refuted for every builder state outside the proved cases; what a failing `close` leaves is also settled for every state whatsoever and among other calls (`Props/CloseAny`), and C33 is also shown with any other calls between the events that leave the subtree alone (`Props/BuildersAt`); `C30`/`C31` also in the histories with wrong `last_child` answers (`_wide`, invariant `Grown`: what is built is new, the rest is as before) |
| C34-C35, C53 | copying loop against the builder invariant and the unchanged source; every destination inside the source, with and without borrowed data (invariant `Chase`: the traverser stays a fixed distance behind the builder); `C34_*_wide` (nodes and `Tree` values), `C31_*_wide` for `HotNode`, `FrozenNode`, `Tree` and depth-first events in the histories with wrong `last_child` answers; `C35_*wide*`, `C53_*wide*` there too, for places outside the source (invariant `Graft`: everything but the child list of one node is as before) |
| C36 | `try_eq` against structural equality, two traversals in lockstep |
| C37-C42 | lock counters and tokens; history invariant `Inv` over a `World` of handles |
| C43-C48 | reference-count invariant and the literal `Drop` loop |
| C49 | pretty printer line machine against a recursive drawing of the rose tree |
| C50 | macro expansion against the tree of the literal; also in the histories that take last siblings away (`Props/WideMacro`: the run of the macro as a stack of open nodes over the abstract machine) |
| C51 | all histories of any calls followed by calls that create, edit and write nothing; each such call changes only counts, or something held is gone for good; the counts are determined by what is held; in the wider histories, places stay whatever is dropped |
| C54 | iterator calls interleaved with arbitrary other calls (`During`); each `next` depends only on the links inside the prohibited tree, which no step changes |
| C55 | the code of the traversers as programs over handles (`Prog`), run with `World.exec`; an ownership judgement (`Uses`) shows each program uses only handles it owns and ends with exactly those of its result; sound for every reachable state, also of the histories that take last siblings away (`Prog.sound_wide`: forward iterators unconditionally, the others in a tree whose last children are right) |
| C56 | the structured value a printer hands to the formatter, against the rose tree of the subtree and the parent/sibling relations; weak handles by reading calls that restore the state, also in the wider histories (`WideDebug`) |
| C57 | the freeing functions with the list of destructor moments, proved to free the same as the plain ones; order against the rose tree of the tree, answers of upgrades at each moment |
| C58 | program states with the guards they hold; a frame lemma for every function of the model (data and borrow flags of every node unchanged or freed), induction over histories |
| C59 | all states reached by any calls (no shape assumed); an invariant kept by every function of the model: no node and no tree is alive without an owner |
| C60 | the `try_` calls followed by `expect`; the exact failure conditions of each, in reachable states, also in those with wrong `last_child` answers (`C60_*_wide`) |
| C61 | the traversers with their handles (`Model/WTraverse`) interleaved with arbitrary safe calls (`Walk`); invariant: the handles in the iterator are alive, one step of `next` relates its look-ahead to the item returned; also in the histories that may take last siblings away (`WalkW`, by `Prog.sound_wide`): without conditions for the forward iterators, under a correct `last_child` where the backward ones ask for it |
| C62 | an abstract machine of ordered trees (`Spec/Machine`), independent of the model; representation relation `Shows`; simulation of every call (`Inv.plays`, extended to stale pointers by the similarity of `Proofs/Sim*`), determinism by cases, realisation of abstract programs by induction with the set of parents whose last child was taken away |
| C63 | nested execution with context (`Nest`: local links, borrowed memberships, dying trees) against sequential ordinary drops (`Drops`); simulation invariant between the heap in the middle of a cascade and the world in which the tree is already gone (`Ctx`), induction on the number of living nodes |
| C64 | the same edits with the destructor; the exact outcome of detach_subtree by commuting the destructors with the membership loop (Proofs/Cascade{Sim,Late,Loop,World}); the panic proved for every state of the shape described; equality of moves with the plain edit where nothing is destroyed |
| C65 | the line writer once more with a formatter that may refuse any call and data formatting as a strategy; simulation: up to the first failure it does what `Model/Pretty` does; invariant (an incomplete indent has enough blocks) for freedom from panics |
| C66 | forward links suffice for the forward traversers; corollaries over `ReachW` |
| C67 | counting copies of the loops, proved equal to the modelled functions after erasing the counter; exact cost of a scan per level, bounds by induction on the tree; budgeted edits: enough budget iff at least 2N |
| C68 | programs with a list of builders (`ReachB`), whose handles are counted among those held; each builder call simulated by steps of the machine of C62; a zipper invariant (`FedState`) for builders left alone |
| C69 | on the machine of C62: which trees a call involves (`Involves`), sameness of one tree in two states (`SameTree`); a frame lemma and a congruence lemma for each elementary change, composed over all transitions; commutation from both |
| C70 | on the machine of C62: each pair of calls is played in the abstract and its composition shown to be the identity (up to the names of the next node and tree); the second call is possible because the machine's calls are (C62) |
| C71 | unique decoding: the second character of a line tells a block of the prefix from the end of it, so the lines of a list of children split in one way only (induction on the trees); the events are a bracketing; both combined with C29, C36 and C49 over `ReachW` |

## Trusted base

The Lean 4.33.0 kernel; the axioms `propext`, `Classical.choice`, `Quot.sound` and no others (per theorem
in `AXIOMS.md`, generated from `#print axioms`); the faithfulness of the transcription in `Verif/Model`
and of the vocabulary in `Verif/Spec`.
