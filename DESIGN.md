# Formal model of `dync` in Lean 4 — design

Subject: `elrnv/dync` at the pinned commit in `/repo` (crates `dync` and `dync-derive`).
Everything below is about a *model* of that code written in Lean; the code itself is never run.

## 1. Trusted base

* Lean 4.33.0's kernel, and the three standard axioms `propext`, `Classical.choice`, `Quot.sound`.
  `Verif/Audit.lean` runs during the build: it goes through every theorem in the namespace `Dync` and
  fails if one depends on any other axiom. No `sorry`, no `native_decide`, no `bv_decide`.
  Computations inside proofs use `decide` (also `decide +kernel`), i.e. the kernel.
* The transcription of the Rust source into the model (each definition cites file and lines).
* The assumptions about the outside of `/repo` listed in section 3, and the simplifications in section 5.

## 2. Architecture of the model

| module | models |
|---|---|
| `Rust` | outcomes (`ok`, `panic why`, `ub`, `abort`), the state monad `M σ α = σ → Res α × σ` (state survives a panic), unwinding, `usize` arithmetic (wrapping in release, panicking in debug) |
| `StdModel` | the pieces of `std` the crate calls: allocator (live blocks with layouts), `Vec` growth policy, `Vec` and slice methods |
| `Elem` | `src/elem.rs` |
| `VecVoid` | `src/vec_void.rs` and the `VecVoid` parts of `src/vec_copy.rs` and `src/lib.rs` |
| `VecCopy`, `CopyValue` | `src/vec_copy.rs`, `src/copy_value.rs`, `src/meta.rs` |
| `SliceCopy` | `src/slice_copy.rs`, `src/index_slice.rs` |
| `Traits` | `src/traits.rs`, boxed parts of `src/bytes.rs`, builtin tables |
| `Value` | `src/value.rs` |
| `VecDyn` | `src/vec_dyn.rs`, `src/slice.rs` |
| `Convert` | `clone_from` of raw parts, dynamic tables, `src/vtable.rs`, `Meta` |
| `MacroRules` | `from_dyn!`, `into_dyn!` of `src/lib.rs`: which invocations expand |
| `Borrow` | signatures of the safe functions that hand out views: lifetimes |
| `SendSync` | the `Send`/`Sync` impls and auto-trait inference |
| `Numeric` | `src/macros.rs` and the `numeric` feature |
| `Derive`, `DeriveItems` | `dync-derive/src/lib.rs`: `dync_trait`, `dync_mod`, options, emitted items |
| `Sig` | `dync-derive/src/lib.rs`: `dync_trait_method` |
| `History`, `HistoryDyn` | programs over several containers and values, and their counterpart on plain `Vec`s |
| `Safety` | programs without restrictions on copy containers and their views, and what they read |
| `Ledger` | programs with a count of the values they own |
| `Ownership` | which values a variable holds, which are passed in, which programs C69 covers |
| `Machine` | what programs over copy containers do, on element lists and capacities (specification of C70) |
| `DynMachine` | what programs over `VecDyn`, `BoxValue` and `SmallValue` do, on element lists, capacities and calls of user code (specification of C71) |
| `Forgotten` | what a program forgets by conversions to wrong types (specification of C72) |
| `ViewSpec` | programs on mutable views as programs on plain slices (specification of C74) |
| `Pointers` | mutable views as addresses in one shared memory, with a record of all accesses and their alignment (C76) |
| `Compare`, `CompareSpec` | `PartialEq`, `Hash`, `Debug` again, with arbitrary user code; std's `debug_list`; a formatter that collects text (C77) |
| `Tables`, `TablesSpec` | the boxes of virtual tables: who owns, clones, moves and frees them (C78) |
| `CopyWholeSpec` | the machine of C70 with `with_size`, `with_type_from`, `extend`, `collect` and programs on views (C82) |
| `Whole`, `WholeSpec` | programs that use all of `VecDyn`, values, views, comparison, hashing, printing and table conversions, and what they do (C79) |
| `Threads`, `ThreadsSpec` | schedules of several threads that run such programs on one heap, and when they keep apart (C80) |
| `TracesSpec` | which calls of a schedule conflict, and reorderings that keep the order of conflicting calls (C81) |
| `Interactive`, `InteractiveSpec` | programs and threads that choose every step from what they have seen, and the same on the machines of C79 and C82 (C83) |
| `Iterators`, `IteratorsSpec` | `extend` and `collect` with iterators that are user code, and the same on the machine of C82 (C84) |
| `HeldViews`, `HeldViewsSpec` | programs that hold any number of mutable views at once, as pointers into one memory, and the same with a list for every view (C85) |
| `HeldDyn`, `HeldDynSpec` | the same for views of non-`Copy` elements, with destructors and clones that may panic (C86) |
| `Parallel`, `ParallelSpec` | threads with views of their own and shared views, interleaved at every access to a byte, and each thread alone with lists (C87) |
| `DynParallel`, `DynParallelSpec` | the same for views of non-`Copy` elements, with destructors and clones running in the threads (C90) |
| `LossSpec`, `LossLemmas`, `LossDyn`, `LossQuiet` | the list of calls that lose the content of a container, and what each step of the machines of C70 and C71 leaves (C91) |
| `AnyGrowth` | the functions that grow or allocate, over an arbitrary choice of capacities by `Vec` (C92) |
| `TablePanic` | the functions that run `build_vtable`, `Clone` or `From` of a table, with table code that acts on user state and may panic; equal to the plain ones for code that just returns (C93) |
| `Aliasing`, `AliasingSpec` | Stacked Borrows, and programs over the references that the library makes (C89) |
| `Unchecked`, `UncheckedSpec` | the `unsafe` accessors and the bytes of the raw parts, on addresses, and the same on a list (C88) |
| `RepoTests` | the programs in the crate's tests, doc comments and examples, run on the model (section 7) |
| `ViewDyn`, `ViewDynSpec` | programs on mutable views of values with destructors, and the same on plain slices and on containers whose content was lost (specification of C75) |
| `Spec`, `SpecDyn` | specification vocabulary, independent of the model's helpers |
| `*Lemmas*`, `History*Step`, `*Panic`, `ElemFixed`, `LedgerStep`, `LedgerSim`, `Runs`, `SafetySlice*`, `NoUb`, `VecVoidExact`, `Own*`, `MachineLemmas*`, `DynMachineLemmas*`, `DynMachineUb`, `DynFrame`, `Balance*`, `ViewLemmas`, `ViewDynLemmas*`, `PointersLemmas*`, `CompareLemmas`, `TablesLemmas*`, `WholeLemmas`, `WholeUb`, `ThreadsLemmas`, `TracesLemmas`, `DynParallelLemmas*` | helper lemmas (`SafetySlice2`, `SafetyLemmas7` define which programs C67 covers) |
| `Nested`, `NestedLemmas*` | elements that are `VecDyn` again, to any depth: `Drop`, `Clone`, `with_type`, `with_capacity`, `push_as`, `into_vec`, `from_vec`, `get_ref_as`, `get_mut_as`, `clear`, `append`, `rotate_left`, `rotate_right` (`src/vec_dyn.rs`) and programs of them (C98) |
| `NestedMemory` | the buffers of containers of containers at each level, counted (C100) |
| `NestedMemory2` | what a program with panics leaks at each level (`Act.leaked`, `leakedBy`) and that it leaks nothing else (C100) |
| `NestedCompare`, `NestedCompareLemmas*` | `PartialEq`, `Hash` and `Debug` of `VecDyn` (`src/vec_dyn.rs`) with elements that are `VecDyn` again (C99) |
| `Props/*` | the property theorems, their specifications and non-vacuity examples |
| `Audit` | axiom check |

Representation choices.

* A byte is `MaybeUninit<u8>`, i.e. `Option UInt8` (`none` = uninitialised). A value of a Rust type
  `T` is modelled by its byte image: a list of `size_of::<T>()` bytes.
* Rust types are the indices of a type environment `TyEnv` giving `size_of`, `align_of` and the
  user-supplied `Drop`, `Clone`, `PartialEq`, `Hash`, `Debug` behaviour. The index is the `TypeId`.
  The environment is universally quantified: every theorem holds for all types with a legal layout
  (alignment `2^k`, `k ≤ 29`, dividing the size).
* User code (`drop`, `clone`, ...) is an arbitrary state transformer that may panic, over an
  arbitrary user state.
* The heap records which blocks are live and with which `Layout`. The bytes of a block are stored
  with its unique owner (aliasing is the subject of `Aliasing`, C89, and not modelled elsewhere);
  deallocation with a wrong layout, of a dead block, or reads outside the initialised part give `ub`.
* `&mut self` methods are state transformers on `self`; the state after a panic is part of the
  result, so panic-safety is expressible.
* A build profile `Cfg` (`debug`) switches `debug_assert!` and overflow checks.

## 3. Assumptions about code outside `/repo`

* `std::vec::Vec` growth: `RawVec::grow_amortized` (new capacity `max(2*cap, required, m)` with
  `m = 8` for 1-byte, `4` for up to 1024-byte, `1` for larger elements), `with_capacity(n)` gives
  exactly `n`, `clone_from`, `append`, `resize_with`, `truncate`, `clear` as in std's source.
  Panic on capacity overflow (`> isize::MAX` bytes). Allocation failure is not modelled.
  C92 does without the first two: there the capacities are any that keep the documented promise.
* Slice methods (`chunks_exact`, `split_at`, `rotate_left/right`, `copy_from_slice`,
  `swap_with_slice`, range indexing) as documented by std, including their panics.
* 64-bit target: `usize` is 64 bits wide.
* `TypeId::of` is injective; two uses of one type have one layout.
* `syn`/`quote` parse and print as documented (derive model works on abstract syntax).

## 4. Plan per property

| id | model | proof |
|---|---|---|
| C01 | `VecVoid.fromVec`, `intoVecUnchecked`, `VecCopy`, `VecDyn` | equational, representation predicate |
| C02 | every typed accessor | decision logic stated outright (iff) |
| C03 | histories of container ops | invariant by induction over the op list |
| C04 | all constructors | iff on `size = 0` |
| C05 | `pushAs` | refinement to list append |
| C06 | `VecVoid.push`, `VecCopy.push`, `VecDyn.push` | expected false when size ≠ alignment: exact characterisation, `_partial` for size = alignment, counterexample |
| C07 | `extend`, `fromIter` | induction over the iterator; same restriction as C06 |
| C08 | `append` | refinement |
| C09 | `resize` | refinement, induction on the number of pushes |
| C10 | `clear`, `fill` | refinement |
| C11 | `rotate_*` on vec and slice | refinement, tearing impossible |
| C12 | `copy_from_slice` | refinement; documented extension is false: counterexample |
| C13 | `reserve` | arithmetic; false exactly for (size 3, align 1, cap 1): exact characterisation |
| C14 | op histories | simulation with a list machine, induction |
| C15 | `VecVoid.clone` | exact heap effect |
| C16 | `VecDyn.clone` | user-code trace = `mapM clone` |
| C17 | multi-container machine with ledger | multiset conservation invariant |
| C18 | same | false for failing conversions: counterexamples; `_partial` without them |
| C19 | `clear`/`resize`/`drop` with panicking drop | `drop` proved; `clear`, `resize` refuted |
| C20 | `push_cloned`, `clone`, `resize`, `fill` with panicking clone | `resize`, `fill`, `clone` proved; `push_cloned` refuted |
| C21 | heap with layouts | invariant over histories; `VecDyn::push` refuted for alignment > 1 |
| C22 | `ElementBytesMut::swap` | refinement; `i = j` out of range does not panic |
| C23 | `split_at` | refinement |
| C24 | `chunks_exact(_mut)` | refinement |
| C25 | `ScaleRange`, `subslice` | refinement for half-open kinds; inclusive refuted with exact result |
| C26 | `iter`, `get`, `len` | equational |
| C27 | index functions in both profiles | debug proved; release: exact characterisation of wrap-around, `get_ref` is `ub` |
| C28 | `PartialEq` | exact characterisation (common prefix), refuted |
| C29 | `Hash` | values proved, containers refuted |
| C30 | `Value` eq | iff + equivalence laws |
| C31 | `BoxValue` | round trip, heap effect |
| C32 | `SmallValue` | iff `size = 8`; "fits" refuted |
| C33 | `ValueMut` | decision logic |
| C34 | `CopyValueMut` | decision logic |
| C35 | `upcast` | equational; ties to the derive model |
| C36 | generated vtable | list-index lemma over arbitrary trait lists |
| C37 | generated `From` | same |
| C38 | `union_children` | equals transitive closure on acyclic maps; diverges on cycles |
| C39 | `Trait::from(Path)` | exact recognised set; refuted for other spellings |
| C40 | `eval_align!` | total on legal alignments; `limited_stack` refuted above 8192 |
| C41 | `ElemInfo` | arithmetic |
| C42 | numeric dispatch | case analysis over the dispatch list |
| C43 | auto-trait table | auto-trait inference over struct fields; `SliceCopy` refuted |
| C44 | type rewriting of the macro | structural induction; refuted, partial |
| C45 | post-panic states | refuted for rotate; exact post state |
| C46 | `with_type_from`, `Meta` | equational |
| C47 | raw parts | equational |
| C48 | mutable views | lens laws on element lists |
| C49 | `Display` of a number in a value | exact text, through `Nat`/`Int` decimal expansion |
| C50 | `Display` of a container | refuted (panics and prints to stdout); exact behaviour |
| C51 | `cast_into_vec` | exact dispatch; refuted for `usize`/`isize` |
| C52 | argument checks of `dync_trait_method` | exact set of accepted signatures; refuted |
| C53 | programs over `VecDyn`, `BoxValue`, `SmallValue` | simulation with typed vectors, arbitrary user code |
| C54 | the same with caught panics | simulation including post-panic states |
| C55 | the same | a ledger of values, conserved step by step |
| C56 | `Debug` | exact text |
| C57 | `VecVoid::clone_from` | exact; refuted for different types |
| C58 | dynamic tables, `from_dyn!`, `into_dyn!` | macro matcher; exact set of accepted inputs; refuted |
| C59 | lifetimes of views | outlives-closure over signatures, programs; refuted for two functions |
| C60 | raw parts in safe code | exact condition for undefined behaviour; refuted |
| C61 | `Meta` | invariant; refuted by forging |
| C62 | `VTableRef` | equational; equality refuted |
| C63 | emitted items against the declarations of `src/traits.rs` | exact condition under which they are accepted |
| C64 | options | emitted items as a function of the options; hygiene |
| C65 | recursion of `dync_mod` | rank function; divergence from any cycle |
| C66 | functions in builtin tables | equational |
| C67 | arbitrary programs on copy containers and views, panics caught | invariant over all operations (every container healthy or lost); refuted in four cases |
| C68 | outcome of every index operation in both build modes | arithmetic modulo 2^64; whole elements iff the size divides 2^64 |
| C69 | arbitrary programs over `VecDyn`, `BoxValue`, `SmallValue` with panicking destructors and clones | triples that exclude undefined behaviour and carry an account of owned values and blocks (`NoUb`, `Own`, `Eff`); refuted in five cases |
| C70 | every program over `VecCopy`, without restriction | simulation by the machine of `Machine`: outcome, contents, capacities, live and leaked blocks; exact conditions for undefined behaviour and leaks |
| C71 | every program over `VecDyn`, `BoxValue`, `SmallValue`, without restriction, user code panicking anywhere | simulation by the machine of `DynMachine`: outcome, user calls in order, contents, capacities, live and leaked blocks; exact condition for undefined behaviour |
| C72 | programs whose calls all return: destroyed + owned + forgotten = passed in + cloned; live blocks are owned or forgotten | weights of machine states, one lemma per operation, then C71 |
| C73 | which generated byte signatures are valid types | structural induction on types; exact characterisation |
| C74 | programs on mutable views, with nested views, do what they do on plain slices | simulation by induction on the program; one combinator lemma per kind of view |
| C75 | the same for elements with destructors and `Clone`, including the order of all user code and the boxes of assigned values | simulation by induction on the program, with the world (heap, user state) shared between nested views (`M.share`) |
| C76 | programs on views as pointers: every access is inside the view and aligned, other memory is unchanged, the outcome is that on bytes | simulation between memory and bytes (`PtrSim`) by induction on the program; offsets stay multiples of the alignment even if they wrap, since the alignment divides `2^64` |
| C77 | comparing, hashing and printing with user code that may panic, keep state or fail | each loop is characterised by the first call that does not answer as expected (`Through`); text by induction over nested `PadAdapter`s |
| C78 | every virtual table is freed exactly once, except after four kinds of panics | Hoare triples with a postcondition for panics; the invariant lists the live tables as those of the owners and the lost ones; view programs by induction |
| C79 | whole programs of containers, values, views, comparison, hashing and printing do what a machine over typed lists does | one step lemma for each kind of step from C71, C75 and C77; the tables keep the law `TableLaw` that they run the user's code (`RunsUserFns`) |
| C80 | threads that share containers only for reading do not interfere, under every schedule | every machine step respects a relation between states that the running thread cannot tell apart (`UserRespects.whole`), parametric in the relation on user state; both the interleaved run and the runs alone follow the machine by C79 |
| C81 | reordering calls that do not conflict changes nothing any thread can see | two adjacent turns that do not conflict commute on the machine (each respects the relation of C80, leaks are additive); induction over the first turn of the one schedule, moved to the front of the other; C79 for the step from machine to model |
| C82 | whole programs on copyable containers with iterators and views do what the machine over typed lists does | the step lemmas of C70 and C74 for typed containers; a lost container is followed through a view program by `SProg.lost_run`; `extend` and `collect` are inductions over the values with `Agrees` as invariant |
| C83 | the same for programs and threads that decide what to do next from what they have seen | induction over the number of steps with the step theorems of C79 and C82; for threads the invariant of C80 (`one_turn`), with the same history in the schedule and alone, so that the choices agree |
| C84 | `extend` and `collect` with any iterator | simulation of every call by the machine of C82 (`InStep`, `ApartFrom`: the container taken out of the variables stays apart from them); what the machine does is an induction over the items (`pull_left`) |
| C85 | views held at once | simulation by induction over programs (`HProg.sim`); parts lie one behind the other in the view (`Laid`, `keeps_parts`); order of use by locality of the lists (`LocalTo`) |
| C86 | views of values with destructors held at once | simulation (`KProg.sim`) from C75 for one view and the layout of parts of C85; nothing lost or doubled by counting values over all lists (`KProg.moves`) |
| C87 | threads on parts of containers | each thread keeps a private run that agrees with the memory on the bytes it owns or sees (`Solo`, `Together`), step by step over any schedule; which bytes it touches from the accesses recorded in C85 (`TProg.sim`); parts from C86 |
| C88 | unchecked access and raw bytes | simulation by a list over programs that keep the contract (`RawProg.sim`); outside of it, bounds and alignment of the one access |
| C89 | aliasing rules | invariant on the stack of every byte (`AInv`: which references are held, what is below them), kept by every access and every reference made; induction over programs (`AProg.agree`). Refutations follow the stack of one byte (`Bad`) |
| C90 | threads on parts of containers with destructors | as C87, with the simulation of C86 for what a thread does on its own views and clones from shared ones (`DTProg.sim`) |
| C91 | calls that lose the content | case split over the operations of the machines of C70 and C71 (`step_loss`, `dstep_loss`, `dstep_kept`), carried to the code by `C70_step` and `C71_step`; when a buffer can grow from `growth` and the size of allocations |
| C92 | other capacity policies of `Vec` | the growing functions again, over an arbitrary policy; equal to the model for the policy of section 3 (`…P_std`); three-way case split on the chosen number of units (whole elements, split element, too large) |
| C93 | panics of table code | each function is "make with the table `()`, then run table code, freeing the memory if it panics" (`thenTable`, `…T_eq`); the theorems on the plain functions give the rest |
| C94 | public helper traits | case split of `drop_as_aligned` on the argument; a table of another type built by a safe implementation of `VTable` |
| C95 | amortised growth | per operation of the machines of C70 and C71: the capacity stays, or is at least doubled because it was needed (`step_modest`, `dynStep_grows`); carried to the code by `C70_step` and `C71_step`; induction over programs with the capacity as potential; with the upper bound of `nextCap`, the capacity after a program (`C95_bounded`) |
| C96 | stable buffers | relation `Kept` between a container and heap before and after a call (same buffer, capacity and heap, or larger capacity, or content lost), proved compositionally for every function of `vec_void.rs`, `vec_copy.rs` and `vec_dyn.rs` through `bind`, loops and unwinding; induction over programs with C95 |
| C97 | error of a refused assignment | `cloneFromOtherE` returns the error as a value and is linked to `cloneFromOther` by `C97_same_call`; the text is a function of the two type ids and of their debug text, and is shown to be injective |
| C98 | containers of containers | `TyEnv.nest` makes, from the type environment of the elements, the one whose type is their container; iterated to any depth. Invariant `Forest`: the values of each level are held by a variable, in exactly one container above, or leaked. Induction on the depth for `drop` and `clone`, on the program for the rest; the specification is nested lists |
| C99 | comparing, hashing and printing containers of containers | `UserFns.nest` makes the user code of one level from that of the level below. `Lifts`: code on the nested state does what code on the user's state does, and changes nothing else; closed under all combinators, induction on the depth. Text: induction on the depth over the lines that each level prints |
| C100 | the memory of containers of containers | Specification: `listsAt` (lists of a level in a nested list), `finished` and `copied` (those that dropping and cloning get through before a panic). Induction on the depth over the invariant `Forest` of C98; the number of live blocks of each level's heap |

## 5. Not modelled, and simplifications

* Aliasing of references is modelled in `Aliasing` (C89) only, which knows bytes, references and nothing else of the library. Pointer
  provenance of raw pointers is not modelled. Addresses, and with them the alignment of references, are modelled for views
  of copy containers (`Pointers`, C76); elsewhere memory is a block and an offset.
  `Props/Borrow.lean` treats lifetimes, on signatures only.
* Allocation failure. Reallocation always moves to a fresh block, which only makes stale pointers more visible.
* Virtual tables are values in all modules but `Tables` (C78), which models the boxes that hold them and nothing
  else: what a function does to elements is a parameter there. Destructors of user-written tables do not panic.
  Apart from `TablePanic` (C93) the other modules take `build_vtable`, `Clone` and `From` of tables to be plain
  functions.
* `PartialEq`, `Hash` and `Debug` of element types are pure functions in C28–C30, C49 and C56 and arbitrary
  state transformers that may panic in C77 (`Compare`); `Clone`, `clone_from` and `Drop` are arbitrary state
  transformers that may panic everywhere. User code does not change an element through a shared reference
  (interior mutability) except in C89.
* `RVec.push` on capacity overflow does not drop the pushed value; the one caller that pushes a value with drop
  glue into a vector that may be full (`push_as`) uses `RVec.pushOwned`, which drops it while unwinding as Rust does.
  `vec![value; n]` drops `value` the same way if there is no room for `n` elements.
* C69 says nothing about the state after an abort of the process (a panic while unwinding).
* `Debug` output in C56 is without the alternate flag `{:#?}`; C77 has both. Hasher state is the sequence of bytes fed to it.
* `macro_rules` inputs are token trees whose types are plain paths without generic arguments.
* Derive: syntax is abstract (`syn` is trusted); case conversion (`heck`) is tabulated for the seven method
  names that occur; attributes and visibilities of the emitted items are left out.
* C79: the tables before and after `upcast` have one type; a hasher or formatter is not looked at after a panic.
* C83: a program sees what its steps return and which of them panic (not the panic's payload); threads do not talk to each other
  while they run.
* C82: the iterator given to `extend` or `collect` is a list of values and a lower size hint, which may be wrong.
* C84: the iterator is user code, whose state is part of the state of the user's code; it does not touch the containers of the
  program (extending a container with values of that container is not possible in Rust, since it is borrowed). `into_iter` comes
  before everything else and is left out. The number of items asked for is bounded by a number that is arbitrary; for iterators
  that end it does not matter (`C84_bound`), and one that never ends keeps `extend` from returning.
* C85: a `CopyValueMut` is a view of one element, so `swap` and `copy` between values are calls on two views. The iterators of
  `chunks_exact_mut` and `iter` are collected before the parts are used. Programs that Rust does not accept (use of a view while its
  parts are held, two borrows of one view) do nothing in the model.
* C86: as C85. What is done with one view is the model of C75 on the bytes of the view, read from and written back to the memory.
  The accesses recorded are one read and one write of the whole view, and those of the elements cloned from (`C86_accesses`): an upper
  bound of what the code accesses. User code does not reach the views while it runs: elements are `'static`, so they hold no reference to
  them.
* C87: accesses to single bytes happen one after the other (sequential consistency). Without races this is what Rust and the hardware
  guarantee, and that there are none is what the theorem shows. A call is any sequence of byte accesses that alone has the effect
  of the call and stays within the bytes that the call accesses (`CarriesOut`); that the calls can be written like this is
  `C87_possible`. Tables are not part of this memory (they are not written by views). Elements are
  bytes: a pointer in an element is not followed, and that elements may be used by other threads at all is
  C43. Starting and joining the threads is what `std::thread::scope` does and comes before and after the accesses.
* C90: as C86 and C87. Every thread has a state of user code and an allocator of its own (thread-local variables; an allocator
  that serves each thread as if it were alone); user code that talks to other threads while it runs is not covered. A call may access
  any byte of the views it is given, since this is what is recorded in C86.
* C88: what the code does with a reference from `get_unchecked_mut` or `get_bytes_mut` is one function of the old value. For `VecDyn`
  no destructor is part of it, so assigning through the reference is reading the old value, which the user drops, and writing.
* C89: the rules are those of Stacked Borrows, which are not final; a lenient variant is treated too. No protectors (a reference given to a
  function must stay valid until it returns). The raw pointer of a container counts as an exclusive reference, which allows less
  than the rules for raw pointers do. `get_ref` out of range, which is undefined for another reason (C27), panics here, so that what
  remains undefined is due to aliasing. Containers do not grow while the program runs (nothing of them is borrowed then);
  elements have a size. The iterators are collected before the references are used.
* C80, C81: one call of the library is one atomic step of a schedule, so data races inside calls are not modelled; that they cannot
  occur rests on Rust's `&`/`&mut` rules and the `Send`/`Sync` impls (C43). User code keeps its state in
  thread-local variables (`ThreadLocal`; `C80_thread_local` shows that any code qualifies once every thread has its own copy of its
  state). In C80 which thread may use which variable is fixed for a schedule; C81 lets threads hand
  containers over, and says nothing about two schedules in which conflicting calls come in different orders.
* Test modules, examples and benches of `/repo` have no properties; most are run on the model instead (section 7). Benches are left out.
* Containers of containers (C98): the programs consist of `with_type`, `with_capacity`, `push_as`, `clone`, `drop`, `into_vec` (the vector becomes variables), `from_vec` (of a vector made of variables with exactly the room for them), `get_ref_as` (to clone an element) and `get_mut_as` (to exchange an element and a variable) at each level, `clear`, and `append`, `rotate_left` and `rotate_right` (by at most the length) where the elements are containers themselves. The user's `Drop` may panic except while `clear` runs (`ClearsCalmly`, a condition on the run with nested lists). Each level has an address space of its own. The byte image of a container stands for the container; a container that grows gets a new image. When no image is left, or a buffer would exceed the address space, the process is taken to end. Comparing, hashing and printing them (C99) uses tables built for the element type, which are added to the containers of C98 where they are used.

## 6. Findings

Where the code does not have a property, the property is stated in full as `def Cxx…_full : Prop`, its
negation is proved (`…_refuted`) from a concrete reachable state, and the strongest true form is proved next to
it (`…_partial`, or an exact characterisation). The findings, by theorem:

| theorem | what happens |
|---|---|
| `C06_veccopy_push_refuted`, `C07_veccopy_refuted` | untyped `push`/`extend`/`collect` of `VecCopy` panic for every type with size ≠ alignment |
| `C06_vecdyn_push_refuted`, `C21_vecdyn_push_refuted` | `VecDyn::push` frees the box with alignment 1: undefined for alignment > 1 |
| `C08`, `C09`, `C13` `…_refuted` | growth leaves a capacity that is no multiple of the element size (e.g. 3-byte elements, capacity 1); the assertion fails and the content is lost |
| `C92_reserve_needs_more`, `C92_clone_needs_more` | with a standard library that picks other capacities (within its documentation), `reserve`, `append`, `resize` panic and lose the content, and `clone` panics, for types with size ≠ alignment |
| `C93_upcast_loses`, `C93_value_upcast_loses` | if `From` or `Clone` of a table panics in `upcast`, the destructors of the elements never run; a `BoxValue` leaks its memory too |
| `C94_drop_refuted` | `drop_as_aligned` is safe to call and frees boxed bytes with whatever alignment it is given |
| `C94_table_refuted`, `C94_table_drop_refuted` | `VTable` is a safe trait: an implementation for `T` may return the functions of another type, which then run on the elements |
| `C11_veccopy_rotate_refuted`, `C40_limited_refuted` | rotation panics for alignment > 8192 |
| `C45_rotate_refuted` | rotation by more than the length empties the container and changes its type to `()` |
| `C12_veccopy_refuted` | `copy_from_slice` does not extend, contrary to its documentation |
| `C18_*_refuted` | failing downcasts, `SmallValue::try_new`, wrong-type `into_vec` and a panicking `clone` leak |
| `C19_clear_refuted`, `C19_resize_refuted` | a panicking destructor leaves dropped elements in the container: dropped twice |
| `C20_push_cloned_refuted` | a panicking `Clone` in `push_cloned` loses the content |
| `C22`–`C24`, `C27` `…_refuted` | `swap(i, i)` out of range; byte offsets wrap in release builds; `get_ref` out of range is undefined there |
| `C25_refuted` | inclusive ranges end inside an element |
| `C28_refuted`, `C28_transitive_refuted`, `C29_vecdyn_refuted` | equality compares the common prefix; equal containers with different hashes |
| `C30_eq_impl_refuted` | values are `Eq` if their table has only `PartialEq` |
| `C32_fits_refuted` | `SmallValue` accepts size 8 only |
| `C37`, `C38`, `C39` `…_refuted`, `C63_trait_eq_alone`, `C63_mod_clash`, `C63_mod_generics` | derive: `Eq` without `PartialEq`, shadowed names, paths, collisions, parameters |
| `C65_returns_iff` | cyclic inheritance overflows the stack of the compiler |
| `C64_suffix_ignored` | options that do nothing |
| `C43_*_refuted` | `Slice`, `ValueRef`, `SliceCopy`, `SliceCopyMut` are `Send`/`Sync` although their elements need not be |
| `C44_*_refuted`, `C52_refuted` | signature translation leaves `Self` in place; the check for unsupported types is inverted |
| `C89_refuted_*` | elements with interior mutability reached through views, value references or virtual tables: the reference is made from one to plain bytes, so writing to the cell (a `RefCell` does so when compared) is undefined |
| `C73_exceptions` | `impl Trait` becomes an unsized argument; `&T` with two bounds becomes `&dyn A + B`; `T: A + B` becomes `Box<dyn A + B>` |
| `C50_*`, `C51_refuted` | `Display` panics or prints to stdout; `usize` is cast to nothing |
| `C57_clone_from_refuted` | `clone_from` keeps the destination's type |
| `C58_*_refuted` | macro arms that never match; conversion with the wrong table leaks |
| `C59_refuted`, `C59_programs_refuted` | `Slice::from_slice`, `SliceCopy::from_slice` return views with unbounded lifetime |
| `C60_*_refuted`, `C61_*_refuted` | safe functions on raw parts and public fields of `Meta` allow undefined behaviour |
| `C62_eq_refuted` | equal tables, unequal references |
| `C67_refuted_push_unit` | any build: after a caught panic has emptied a container, an untyped push of `()` reads outside the value (undefined) |
| `C67_refuted_rotate_inclusive` | any build: rotating a view made with an inclusive range mixes the bytes of different elements |
| `C98_clear_panic`, `C98_clear_condition` | `clear` of a container of containers panics in a destructor after an inner container has been dropped: dropping the outer container then is undefined behaviour (double free in safe code) |
| `C69_clear_refuted`, `C69_resize_refuted` | programs in which a caught panic of a destructor leads to a second destructor call on another value |
| `C69_push_alignment_refuted`, `C69_push_unit_refuted`, `C69_get_wraps_refuted` | undefined behaviour and torn values in programs over `VecDyn` |
| `C70_leaks_iff`, `C70_torn_iff` | in debug builds a buffer leaks when a container of three-byte unaligned elements grows from capacity 1 to 2, and when an untyped value whose size is not its alignment is pushed |
| `C70_ub_iff` | an untyped push of `()` to a container whose content was lost in a caught panic is undefined, also in debug builds |
| `C78_losses_happen` | the virtual table leaks if the destructor of an element panics while its container or value is destroyed, or if upcasting an owned value panics |
| `C67_refuted_get_wraps`, `C67_refuted_get_ref` | release builds: torn values and undefined behaviour by out-of-range indices |

## 7. How the theorems were tested

Seeded faults: in a scratch copy one definition of the model is edited as a realistic bug would, and everything
is rebuilt. A proof that no longer checks is replaced by a hole and the build goes on, until all modules are
reached. `theorems_failed` in `seeded/LOG.jsonl` lists the property theorems whose proofs then rest on a hole,
directly or through lemmas; `lemmas_failed` counts the proofs replaced. An empty list with a filled
`theorems_tightened` is a fault that was missed and led to a stronger or additional statement; an empty list with
neither has a `note` saying why (for instance, that the edit does not change behaviour).

What this shows is limited. A listed theorem is one whose proof, as written, no longer goes through. That it is
false for the edited model was not proved in each case: a theorem can be listed because it uses a lemma that
broke, and a different proof might still exist. The list is therefore an upper bound on the theorems that the
fault refutes. Entries marked `(specification)` edit what the theorems compare the program with, not the program.

The crate's own tests: `RepoTests` has the programs of the test modules, the doc comments, `tests/soundness.rs`
and `examples/convert.rs` as programs of the model. Evaluated by the kernel, each one does what it asserts, in
debug and in release builds, and leaves no heap block and no owner of an `Rc` behind. The programs that are
left out are named there. The traits that the crate defines with its macros in tests, examples and benches
compile according to C63. These are checks of the transcription, not of the properties.
