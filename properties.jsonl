{"id": "C01", "title": "Vec round trip", "statement": "Converting any Vec<T> of a non-zero-sized T into a VecCopy or VecDyn and back with into_vec::<T> yields a vector with exactly the same elements in the same order, in the same heap block, with no element cloned, dropped or reallocated (only a zero-capacity vector receives a fresh allocation).", "quantifier": "for every element type layout (any size, any alignment up to 2^29), every vector length and every capacity", "why_tests_cant": "the conversion re-scales length and capacity by the size/alignment ratio of the element type; a test samples a few ratios only", "anchors": ["src/vec_void.rs: VecVoid::from_vec, VecVoid::into_vec_unchecked, VecVoid::into_valid_vec", "src/vec_copy.rs: VecCopy::from_vec, VecCopy::into_vec", "src/vec_dyn.rs: VecDyn::from_vec, VecDyn::into_vec"]}
{"id": "C02", "title": "Typed access succeeds exactly on the stored type", "statement": "Every typed accessor (check, check_ref, check_mut, as_slice_as, as_mut_slice_as, iter_as, get_as, get_ref_as, get_mut_as, push_as, fill, resize, copy_into_vec, append_copy_to_vec, into_vec, append) returns, whenever it returns at all (growth that fails is the subject of C06 to C09), Some exactly when the requested type is the element type of the container; on a mismatch it returns None and a borrowed container is unchanged.", "quantifier": "for every pair of types, every container content and every argument (index in range)", "why_tests_cant": "there are unboundedly many types and contents; the dangerous case is reinterpretation of bytes at another type", "anchors": ["src/vec_copy.rs: check, check_ref, check_mut, as_slice_as, get_as, push_as, resize, fill, append", "src/vec_dyn.rs: check, resize, fill, append", "src/slice_copy.rs: SliceCopy::check, as_slice, get_as"]}
{"id": "C03", "title": "Element type is fixed for the life of a container", "statement": "After any sequence of API calls none of which panics, element_type_id, element_size and the element alignment of a container are the ones it was constructed with.", "quantifier": "for every finite sequence of mutating calls with arbitrary arguments", "why_tests_cant": "histories are unbounded and each call rebuilds the type record from a temporary vector", "anchors": ["src/vec_void.rs: apply_aligned_unchecked, apply_unchecked, from_vec_override", "src/vec_copy.rs: element_type_id"]}
{"id": "C04", "title": "Zero-sized element types are rejected at construction", "statement": "Every container constructor (from_vec, with_type, with_capacity, with_size, from_slice, with_type_from) panics if the element type has size zero and succeeds otherwise; in particular no reachable container has a zero element size.", "quantifier": "for every element type and constructor argument", "why_tests_cant": "a test names particular zero-sized types; the later code divides by the element size for every type", "anchors": ["src/vec_copy.rs: from_vec_non_copy, with_type_from", "src/vec_dyn.rs: from_vec", "src/vec_void.rs: from_vec_override"]}
{"id": "C05", "title": "push_as appends exactly the given element", "statement": "push_as::<T>(x) on a container of T makes its content equal to the old content followed by x, for VecCopy and VecDyn, and never panics (below the address-space limit).", "quantifier": "for every T, content, capacity and x", "why_tests_cant": "A push may or may not grow the buffer, and growth converts between element counts and alignment-sized units. Tests sample a few capacities and types; an error shows only at particular ratios of size, alignment, length and capacity.", "anchors": ["src/vec_copy.rs: push_as", "src/vec_dyn.rs: push_as", "src/vec_void.rs: apply_unchecked, from_vec"]}
{"id": "C06", "title": "Untyped push appends exactly the given value", "statement": "VecCopy::push(value) and VecDyn::push(value) of a value whose type is the element type make the content equal to the old content followed by that value.", "quantifier": "for every element type (any size and alignment), content, capacity and value", "why_tests_cant": "The library's own tests use only element types for which this path happens to work; which types fail is a question about all sizes and alignments.", "anchors": ["src/vec_copy.rs: VecCopy::push", "src/vec_dyn.rs: VecDyn::push", "src/vec_void.rs: VecVoid::push"]}
{"id": "C07", "title": "Extending and collecting untyped values", "statement": "Extending a VecCopy with an iterator of values of the element type appends exactly these values in order, and collecting a non-empty iterator produces a container with exactly these values; an empty collect panics.", "quantifier": "for every element type and every finite iterator of values", "why_tests_cant": "The iterator may yield any number of values and the buffer may grow at any of them. Tests run a few short iterators.", "anchors": ["src/vec_copy.rs: Extend::extend, FromIterator::from_iter"]}
{"id": "C08", "title": "append moves all elements", "statement": "a.append(&mut b) with equal element types makes a = old a ++ old b, leaves b empty with the same element type and its buffer, and neither drops nor clones anything; with different types it returns None and both are unchanged.", "quantifier": "for every pair of containers of every type", "why_tests_cant": "Lengths and capacities of two containers interact while one of them grows. Tests cover a few pairs, and cannot see that nothing was dropped or cloned for all of them.", "anchors": ["src/vec_copy.rs: append", "src/vec_dyn.rs: append", "src/vec_void.rs: VecVoid::append"]}
{"id": "C09", "title": "resize matches Vec::resize", "statement": "resize(n, v) with the right type yields the first min(n,len) old elements followed by max(0,n-len) copies (clones) of v; VecDyn drops exactly the truncated elements and the passed value; with the wrong type nothing changes.", "quantifier": "for every content, n and value", "why_tests_cant": "The new length is arbitrary, and growing, shrinking and keeping the length run different code. Tests pick some lengths for some types.", "anchors": ["src/vec_copy.rs: resize", "src/vec_dyn.rs: resize", "src/vec_void.rs: reserve, truncate"]}
{"id": "C10", "title": "clear and fill", "statement": "clear empties the container, keeps its type and capacity and (VecDyn) drops each element once in order; fill(v) replaces every element by v, keeping the length, and is None on a wrong type.", "quantifier": "for every content and value", "why_tests_cant": "The content has any length and the destructors are arbitrary code; a test observes the drops of a few elements of one type.", "anchors": ["src/vec_copy.rs: clear, fill", "src/vec_dyn.rs: clear, fill", "src/vec_void.rs: clear"]}
{"id": "C11", "title": "rotate_left / rotate_right permute elements as on Vec", "statement": "rotate_left(mid) with mid<=len yields content[mid..] ++ content[..mid]; rotate_right(k) with k<=len is its inverse; both keep every element intact.", "quantifier": "for every element type, content and rotation amount", "why_tests_cant": "rotation is done on alignment-sized chunks, so a boundary error would tear elements for some size/alignment ratio only", "anchors": ["src/vec_copy.rs: rotate_left, rotate_right", "src/vec_void.rs: rotate_left, rotate_right", "src/slice_copy.rs: SliceCopyMut::rotate_left, rotate_right"]}
{"id": "C12", "title": "copy_from_slice / clone_from_slice", "statement": "VecCopy::copy_from_slice(s) makes the content start with s, extending the container if s is longer (as documented); SliceCopyMut::copy_from_slice and SliceMut::clone_from_slice overwrite all elements by the corresponding elements of s and panic on a length mismatch.", "quantifier": "for every content and slice", "why_tests_cant": "The two lengths are independent and unbounded, so that shorter, equal and longer sources all occur at every size.", "anchors": ["src/vec_copy.rs: copy_from_slice", "src/slice_copy.rs: SliceCopyMut::copy_from_slice", "src/slice.rs: SliceMut::clone_from_slice"]}
{"id": "C13", "title": "reserve never alters the content", "statement": "reserve(n) returns with the same content and a capacity of at least len+n (below the address-space limit).", "quantifier": "for every element type, content, capacity and n", "why_tests_cant": "depends on the arithmetic interplay of the allocator growth policy with the element size; fails only at one specific layout and capacity", "anchors": ["src/vec_copy.rs: reserve", "src/vec_void.rs: reserve, from_vec_override"]}
{"id": "C14", "title": "A history of VecCopy operations behaves like the same history on Vec<T>", "statement": "For any finite sequence of VecCopy operations (push_as, resize, reserve, clear, fill, append, rotate, clone, typed writes, swaps ...) the observable content after every step equals that of the same sequence executed on Vec<T>, and no step is undefined behaviour.", "quantifier": "for every element type and every finite sequence of operations with arbitrary arguments", "why_tests_cant": "Tests run a few fixed histories. The claim is about all sequences of operations, in which the state left by one operation is the input of the next.", "anchors": ["src/vec_copy.rs", "src/vec_void.rs"]}
{"id": "C15", "title": "VecCopy::clone is an independent equal copy", "statement": "Cloning a VecCopy yields a container with equal content, type and capacity in a different heap block; the original and its block are unchanged, and both can be dropped afterwards.", "quantifier": "for every content and capacity", "why_tests_cant": "clone temporarily aliases the source buffer through a second Vec; a double free would depend on the path", "anchors": ["src/vec_void.rs: impl Clone for VecVoid", "src/vec_copy.rs: derive(Clone)"]}
{"id": "C16", "title": "VecDyn::clone clones each element once, in order", "statement": "Cloning a VecDyn calls the element type's Clone exactly once per element in index order, puts the results in a new block in the same order and leaves the source content untouched.", "quantifier": "for every element type with an arbitrary (stateful) Clone and every content", "why_tests_cant": "The element's Clone may keep state, so that order and number of its calls matter for every content, not only for the counters of a test type.", "anchors": ["src/vec_dyn.rs: impl Clone for VecDyn", "src/traits.rs: clone_into_raw_bytes"]}
{"id": "C17", "title": "No element is dropped twice", "statement": "Over any sequence of VecDyn and Value operations with non-panicking user code, every element created (given to the library or produced by Clone) is dropped at most once, and at any time is in exactly one place: alive in one container/value, handed back to the caller, dropped, or leaked.", "quantifier": "for every finite sequence of operations over any number of containers and values", "why_tests_cant": "ownership moves through raw byte copies that the compiler does not track; histories are unbounded", "anchors": ["src/vec_dyn.rs: Drop, clear, push, push_cloned, append, resize, into_vec", "src/value.rs: Drop, downcast, into_raw_parts, assign, swap"]}
{"id": "C18", "title": "Nothing is leaked", "statement": "If every container and value is eventually dropped or consumed, every element created has been dropped or handed back to the caller, also when a typed conversion fails.", "quantifier": "for every finite sequence of operations", "why_tests_cant": "the leaking paths are the failing typed conversions, which tests do not observe", "anchors": ["src/vec_dyn.rs: into_vec", "src/value.rs: BoxValue::downcast, SmallValue::downcast, SmallValue::try_new"]}
{"id": "C19", "title": "A panicking element destructor never causes a double drop", "statement": "If the destructor of an element panics during clear, resize, or drop of a VecDyn, no element is dropped a second time later.", "quantifier": "for every content and every position at which a destructor panics", "why_tests_cant": "Any destructor call may be the one that panics, after any history; tests place a panic at a few positions.", "anchors": ["src/vec_dyn.rs: clear, resize, Drop"]}
{"id": "C20", "title": "A panicking Clone leaves the container intact", "statement": "If the element's Clone panics inside push_cloned, resize, fill or clone, the container afterwards still holds its previous elements with its type (for resize: plus the clones made so far), and can be dropped normally.", "quantifier": "for every content and every crash point", "why_tests_cant": "Any call of Clone may be the one that panics, after any history; tests place a panic at a few positions.", "anchors": ["src/vec_dyn.rs: push_cloned, clone, resize, fill", "src/vec_void.rs: apply_aligned_unchecked, resize_with"]}
{"id": "C21", "title": "Allocator contract", "statement": "Every heap block allocated by or handed to the library is deallocated at most once and with exactly the size and alignment it was allocated with.", "quantifier": "for every sequence of operations and every element type", "why_tests_cant": "Usual allocators ignore the layout given to dealloc, so a wrong size or alignment passes every test silently.", "anchors": ["src/vec_void.rs: Drop, aligned_vec_unchecked", "src/copy_value.rs: DropAsAligned", "src/vec_dyn.rs: push", "src/value.rs: into_raw_parts"]}
{"id": "C22", "title": "swap exchanges two elements", "statement": "swap(i,j) on a container or mutable slice exchanges elements i and j and nothing else, and panics if an index is out of range.", "quantifier": "for every content and indices", "why_tests_cant": "Byte ranges are computed from two indices and the element size. Tests try a few index pairs, rarely the equal, reversed or out-of-range ones for all sizes.", "anchors": ["src/lib.rs: ElementBytesMut::swap", "src/slice_copy.rs: SliceCopyMut::swap"]}
{"id": "C23", "title": "split_at partitions a slice", "statement": "split_at(mid) yields two slices with the first mid and the remaining elements, of the same type; it panics if mid > len.", "quantifier": "for every slice and mid", "why_tests_cant": "Every split point of every length is a case, including 0, the length and everything beyond it, for all element sizes.", "anchors": ["src/slice_copy.rs: split_at", "src/slice.rs: split_at"]}
{"id": "C24", "title": "chunks_exact", "statement": "chunks_exact(k) yields len/k slices of exactly k elements each whose concatenation is the longest prefix of the slice of a length divisible by k; chunks_exact_mut writes through to the same elements.", "quantifier": "for every slice and k>0", "why_tests_cant": "Every pair of a length and a chunk size is a case, including chunk sizes that do not divide the length.", "anchors": ["src/slice_copy.rs: chunks_exact, chunks_exact_mut"]}
{"id": "C25", "title": "subslice selects the elements of the range", "statement": "subslice(range) returns exactly the elements whose index lies in the range, for all Rust range kinds (a..b, a.., ..b, .., a..=b, ..=b), and panics if the range is out of bounds.", "quantifier": "for every slice, element size and range", "why_tests_cant": "Six range kinds times all bounds times all element sizes. The inclusive kinds are scaled rightly only for one-byte elements, which a test with bytes would not notice.", "anchors": ["src/index_slice.rs: ScaleRange", "src/slice_copy.rs: subslice, into_subslice"]}
{"id": "C26", "title": "iter, get, len and typed views agree", "statement": "iter() yields len() values; the i-th is get(i); its downcast to the element type is the i-th element of as_slice_as; iter_mut/get_mut address the same element.", "quantifier": "for every content and index", "why_tests_cant": "Agreement of several views is a claim about all contents and all indices at once; tests compare them on a few vectors.", "anchors": ["src/vec_copy.rs: iter, get_ref, len, byte_chunks", "src/vec_dyn.rs: iter, get", "src/slice_copy.rs: iter, get, len"]}
{"id": "C27", "title": "An out-of-range access panics", "statement": "get_ref, get_mut, get, get_as, split_at, subslice, swap, rotate with an index outside the container panic (in debug and in release builds) and never touch memory outside the content.", "quantifier": "for every content, every index up to usize::MAX, both build profiles", "why_tests_cant": "The index is multiplied by the element size, so that the failing indices may be near 2^64 divided by any size. Tests try an index or two past the end.", "anchors": ["src/vec_copy.rs: get_ref, get_mut", "src/lib.rs: index_byte_slice", "src/index_slice.rs", "src/slice_copy.rs: split_at"]}
{"id": "C28", "title": "Container equality is element-wise equality", "statement": "VecDyn == VecDyn (Slice, SliceMut likewise) holds exactly when both have the same length and equal elements at every index; in particular it is an equivalence relation when the element type's equality is.", "quantifier": "for every pair of contents", "why_tests_cant": "The pairs on which the code answers wrongly have different lengths and a common prefix; tests usually compare containers of the same length.", "anchors": ["src/vec_dyn.rs: PartialEq, Eq", "src/slice.rs: PartialEq"]}
{"id": "C29", "title": "Equal implies equal hash", "statement": "If two VecDyn (values, slices) are equal then they feed the same data to any hasher.", "quantifier": "for every pair of contents and every hasher", "why_tests_cant": "The claim relates the results of two operations on all pairs of containers and all hashers.", "anchors": ["src/vec_dyn.rs: Hash, PartialEq", "src/value.rs: Hash, PartialEq"]}
{"id": "C30", "title": "Value equality", "statement": "Two untyped values are equal exactly if they have the same type and are equal under this type's PartialEq; hence == is reflexive/symmetric/transitive whenever the types' own == is, and comparing never reinterprets bytes at another type.", "quantifier": "for every pair of values of any types", "why_tests_cant": "The claim ranges over all pairs of types and over user code for equality; tests compare values of two or three types.", "anchors": ["src/value.rs: PartialEq"]}
{"id": "C31", "title": "BoxValue round trip and life cycle", "statement": "BoxValue::new(x).downcast::<T>() returns x for the right T and None otherwise; dropping a BoxValue drops x once and frees its block with the layout of T; clone_value produces an independent value holding T::clone(x).", "quantifier": "for every type layout including zero-sized, and every value", "why_tests_cant": "Size and alignment of the value are arbitrary and decide about the heap block; a wrong layout passes silently with usual allocators.", "anchors": ["src/value.rs: BoxValue", "src/copy_value.rs: DropAsAligned", "src/bytes.rs: box_into_box_bytes"]}
{"id": "C32", "title": "SmallValue stores exactly pointer-sized values", "statement": "SmallValue::try_new succeeds for every value that fits into a usize (as documented) and downcast returns that value; it returns None for larger values.", "quantifier": "for every type size", "why_tests_cant": "Every size and alignment is a case; the ones between one byte and a pointer, and sizes that are no power of two, are the ones tests leave out.", "anchors": ["src/value.rs: SmallValue::try_new, new, downcast", "src/bytes.rs: try_into_usize, try_from_usize"]}
{"id": "C33", "title": "ValueMut swap, assign and clone_from", "statement": "swap exchanges the two referents iff types agree; assign stores the new value and drops the old one exactly once iff types agree; clone_from_other clones into the referent; on a type mismatch the referents are unchanged.", "quantifier": "for every pair of values", "why_tests_cant": "The claim ranges over all pairs of types, all values, and user code for Clone and Drop whose calls have to be counted.", "anchors": ["src/value.rs: ValueMut::swap, assign, clone_from_other"]}
{"id": "C34", "title": "CopyValueMut copy and swap", "statement": "copy overwrites the referent iff types agree (None and unchanged otherwise); swap exchanges the referents iff types agree.", "quantifier": "for every pair of values", "why_tests_cant": "The claim ranges over all pairs of types, including different types of the same size, and all values.", "anchors": ["src/copy_value.rs: CopyValueMut::copy, swap"]}
{"id": "C35", "title": "Upcasting preserves content and behaviour", "statement": "upcast of a container, slice or value keeps content, type and capacity, and the functions reachable from the new virtual table are the functions of the same element type.", "quantifier": "for every content and every virtual table", "why_tests_cant": "Content, element type and both virtual tables are arbitrary; a test upcasts one table of one type.", "anchors": ["src/vec_copy.rs: upcast_with", "src/vec_dyn.rs: upcast", "src/value.rs: upcast", "src/slice_copy.rs: upcast"]}
{"id": "C36", "title": "Generated virtual table accessors return the right function", "statement": "For the virtual table generated for a trait with any set of supported supertraits, each accessor (drop_fn, clone_fn, clone_from_fn, clone_into_raw_fn, eq_fn, hash_fn, fmt_fn) returns the function built for exactly that method of the element type.", "quantifier": "for every set of supertraits and every inheritance structure", "why_tests_cant": "Users write the traits, so that the set of tables is unbounded; a test instantiates the macro for a few of them.", "anchors": ["dync-derive/src/lib.rs: construct_dync_items, vtable_struct_def, TraitData"]}
{"id": "C37", "title": "Generated upcast conversions fill the base table correctly", "statement": "The generated From conversion of a derived table into each of its base tables puts in every slot of the base table the function for the method the base declares at this slot.", "quantifier": "for every supertrait graph", "why_tests_cant": "Users write the traits, and the inheritance graph can be any graph; a test expands the macro for a few of them.", "anchors": ["dync-derive/src/lib.rs: construct_dync_items (From impls)", "src/traits.rs: CloneVTable, EqVTable, ..."]}
{"id": "C38", "title": "Inherited traits are available transitively", "statement": "In a dync_mod module, the virtual table of a trait gives access to exactly the methods of all traits it inherits from, directly or transitively, plus drop, independent of declaration order.", "quantifier": "for every acyclic supertrait graph", "why_tests_cant": "Users write the traits, and the inheritance graph can be any graph, declared in any order; a test expands the macro for a few of them.", "anchors": ["dync-derive/src/lib.rs: flatten_inheritance, union_children, fill_drop_for_inheritance"]}
{"id": "C39", "title": "Every supported std supertrait written by the user is honoured", "statement": "For each supported std trait, writing it as a supertrait under any path that names it makes the functionality available in the generated virtual table.", "quantifier": "for every spelling of a path", "why_tests_cant": "A trait can be named by any path, through any re-export or prefix; a test uses the usual ones.", "anchors": ["dync-derive/src/lib.rs: From<Path> for Trait, From<String> for Trait"]}
{"id": "C40", "title": "Alignment dispatch", "statement": "For every alignment a Rust type can have, the internal dispatch selects a plain type whose size and alignment both equal that alignment; operations never fail because of the alignment of the element type.", "quantifier": "for all alignments 2^0..2^29", "why_tests_cant": "Alignments go up to 2^29, and the rotations use a shorter dispatch table than all other operations. Tests use a few small alignments.", "anchors": ["src/elem.rs: eval_align, T0..T29", "src/vec_void.rs: rotate_left, rotate_right"]}
{"id": "C41", "title": "Element size bookkeeping is exact", "statement": "For every Rust type layout the recorded element information reproduces size_of exactly (size in alignment units times alignment), and equal type ids imply equal layouts.", "quantifier": "for all legal layouts", "why_tests_cant": "Every pair of a size and an alignment that Rust allows is a case.", "anchors": ["src/elem.rs: ElemInfo::new, num_bytes", "src/meta.rs"]}
{"id": "C42", "title": "Numeric cast", "statement": "cast_into_vec::<T> on a numeric container whose element type is one of u8, i8, u16, i16, u32, i32, u64, i64, f32, f64 yields one output per element in order, namely the numeric cast or zero if the cast fails; on any other element type VecDyn gives None and VecCopy an empty vector.", "quantifier": "for every content and numeric type", "why_tests_cant": "Contents are unbounded, and the outcome of a cast depends on the pair of types and on the value, with failing values among 2^64.", "anchors": ["src/macros.rs: call_numeric_buffer_fn", "src/vec_copy.rs: cast_into_vec", "src/vec_dyn.rs: cast_into_vec"]}
{"id": "C43", "title": "Untyped containers are Send/Sync only if the element type is", "statement": "A dync container, slice, value or reference can be sent to (shared with) another thread only if its statically typed counterpart (Vec<T>, Box<T>, &[T], &mut [T], &T, &mut T) could be; in particular a shared view only if the elements are Sync. A generated table claims Send/Sync exactly for traits inheriting from Send/Sync.", "quantifier": "for every container kind, virtual table and element type", "why_tests_cant": "Whether a type may cross threads is decided at compile time, for all types; a test that compiles shows it for one type, and no run shows that a program does not compile.", "anchors": ["src/value.rs", "src/vec_dyn.rs", "src/slice.rs", "src/slice_copy.rs: SliceCopy, SliceCopyMut"]}
{"id": "C44", "title": "Byte-signature translation never lets Self through", "statement": "The function signature generated by dync_trait_method for a trait method contains no occurrence of Self or of the trait's generics: every occurrence is translated to bytes or the macro reports an error; types not mentioning Self are unchanged.", "quantifier": "for every method signature", "why_tests_cant": "Types nest without bound, and Self may occur anywhere inside them; a test expands the macro for a few signatures.", "anchors": ["dync-derive/src/lib.rs: dync_fn_sig, type_to_bytes, check_for_unsupported_self"]}
{"id": "C45", "title": "A panicking call leaves the container usable", "statement": "If an operation panics because of its arguments (index or rotation amount out of range, size mismatch), the container keeps its content and type.", "quantifier": "for every operation, content and failing argument", "why_tests_cant": "Any operation may fail, after any history, with any of the failing arguments; tests try one failing argument per operation.", "anchors": ["src/vec_void.rs: apply_aligned_unchecked", "src/vec_copy.rs: rotate_left, push, reserve"]}
{"id": "C46", "title": "with_type_from", "statement": "with_type_from(x) for a container, slice or value x creates an empty container of exactly x's element type, accepting elements of that type.", "quantifier": "for every source", "why_tests_cant": "The source may be any container, slice or value of any element layout.", "anchors": ["src/vec_copy.rs: with_type_from", "src/meta.rs: From impls"]}
{"id": "C47", "title": "Raw parts round trip", "statement": "into_raw_parts followed by from_raw_parts (as used by into_dyn!/from_dyn!) gives back the same container, slice or value with nothing dropped, cloned or freed in between.", "quantifier": "for every container/value", "why_tests_cant": "Content and layout are arbitrary, and that nothing was dropped, cloned or freed is not visible in a result.", "anchors": ["src/lib.rs: into_dyn, from_dyn", "src/vec_dyn.rs: into_raw_parts", "src/value.rs: into_raw_parts"]}
{"id": "C48", "title": "Writes through mutable views are visible and local", "statement": "Writing element i through any mutable view (get_mut_as, get_mut, iter_mut, as_mut_slice_as, subslice_mut, chunks_exact_mut, split) changes exactly element i of the container.", "quantifier": "for every content, index and value", "why_tests_cant": "That a write changes nothing else is a claim about all other elements, for every view, index and element size.", "anchors": ["src/vec_copy.rs: get_mut_as, as_mut_slice", "src/slice_copy.rs: get_mut, subslice_mut"]}
{"id": "C49", "title": "Displaying a numeric container", "statement": "Display on a VecCopy of one of the ten supported numeric types writes every element in order, each followed by one space, to the given formatter and nothing anywhere else.", "quantifier": "for every numeric type, content and non-failing formatter", "why_tests_cant": "Contents are unbounded, and that nothing is written elsewhere does not show in the formatter's output.", "anchors": ["src/vec_copy.rs: impl Display, reinterpret_display", "src/macros.rs: call_numeric_buffer_fn"]}
{"id": "C50", "title": "Displaying never panics and writes only to the formatter", "statement": "Formatting a VecCopy with Display returns the formatter's error instead of panicking, and does not write to standard output.", "quantifier": "for every element type, content and formatter behaviour", "why_tests_cant": "formatter failures at every write are crash points a test has to pick one by one", "anchors": ["src/vec_copy.rs: impl Display, reinterpret_display"]}
{"id": "C51", "title": "Casting loses no element for any primitive integer type", "statement": "cast_into_vec on a container of any primitive integer type (including usize and isize) returns as many values as the container has elements.", "quantifier": "for every primitive integer element type and content", "why_tests_cant": "Tests exercise the types their author thought of; there are types that the code leaves out.", "anchors": ["src/macros.rs: call_numeric_buffer_fn", "src/vec_copy.rs: cast_into_vec"]}
{"id": "C52", "title": "Signatures that need no translation are accepted", "statement": "dync_trait_method accepts every non-generic method signature without where clause, qualifiers or by-value mut receiver whose argument and return types do not mention Self.", "quantifier": "for every method signature", "why_tests_cant": "Types nest without bound; a test expands the macro for a few signatures.", "anchors": ["dync-derive/src/lib.rs: dync_fn_sig, check_for_unsupported_self, check_for_unsupported_generics"]}
{"id": "C53", "title": "Programs over VecDyn and untyped values behave like programs over Vec<T> and Box<T>", "statement": "A program over any number of VecDyn containers, BoxValues and SmallValues (create, clone, convert, append, push, resize, fill, clear, rotate, swap, assign, read, drop) observes the same results as the same program over Vec<T>, Box<T> and T, calls the same Clone and Drop code on the same values in the same order, and never reaches undefined behaviour, as long as it keeps to the limits of the library: element counts that fit into memory, untyped push only for one-byte types, rotation only for alignments up to 8192, conversions only to the right type, no growth of 3-byte elements to exactly two.", "quantifier": "for every program of any length over any number of variables and types, and all user code", "why_tests_cant": "Histories over many variables are unbounded, and the user's Clone and Drop are arbitrary code that may keep state.", "anchors": ["src/vec_dyn.rs: VecDyn", "src/vec_copy.rs: VecCopy", "src/value.rs: BoxValue, SmallValue, ValueRef, ValueMut"]}
{"id": "C54", "title": "Programs that catch panics behave like typed programs", "statement": "A program over VecDyn containers, BoxValues and SmallValues in which every operation is wrapped in catch_unwind, and whose Clone code may panic at any call, sees the same results and the same panics as the program over Vec<T>, Box<T> and T, runs the same Clone and Drop code in the same order (including what runs while unwinding), and is left with the same values; exceptions: Clone panicking inside VecDyn::clone or push_cloned, rotation by more than the length, swap of an out-of-range index with itself, and index computations that overflow in release builds.", "quantifier": "for every program, every panic schedule of the user's Clone code, and every out-of-range index", "why_tests_cant": "Every call of user code may panic, in every history; the number of combinations is unbounded and tests place a panic at a few points.", "anchors": ["src/vec_dyn.rs: VecDyn", "src/vec_copy.rs: VecCopy", "src/value.rs: BoxValue, SmallValue, ValueRef, ValueMut"]}
{"id": "C55", "title": "Every value is dropped exactly once or still owned", "statement": "In every program over VecDyn containers, BoxValues and SmallValues that keeps to the limits listed in C53 and C54, also if Clone code panics and the panics are caught, the values whose destructor ran together with the values still held by the program's variables are exactly, as a multiset, the values that were passed in by value together with the values made by Clone. So no value is dropped twice and none is lost; when all variables are dropped or consumed, every value was dropped exactly once and no memory is left.", "quantifier": "for all programs (finite sequences of operations on any number of variables), all element types, all Clone code (panicking at any call) and all destructors that return", "why_tests_cant": "A test runs a few programs with a drop counter; the claim is a conservation law over all histories and all positions at which user code may panic.", "anchors": ["src/vec_dyn.rs: VecDyn, Drop, Clone, resize, fill, push_as, push_cloned, append, cast_into_vec, clone_into_vec", "src/value.rs: BoxValue, SmallValue, ValueMut::assign, clone_from_other, swap", "src/vec_copy.rs: append, clear, rotate_left, swap"]}
{"id": "C56", "title": "Debug output is that of the typed value", "statement": "{:?} of a VecDyn or of an untyped slice with elements e1, ..., en prints [d1, ..., dn] where di is what {:?} of the typed element prints, as for Vec<T>; {:?} of a BoxValue, SmallValue, ValueRef or ValueMut prints what {:?} of the typed value prints. It never panics.", "quantifier": "for all element types, all elements and all Debug implementations", "why_tests_cant": "A test compares the output for a few values of a few types; Debug is arbitrary user code that may write several pieces or fail between any two.", "anchors": ["src/vec_dyn.rs: Debug for VecDyn", "src/slice.rs: Debug for Slice, SliceMut", "src/value.rs: Debug for Value, ValueRef, ValueMut", "src/traits.rs: DebugBytes"]}
{"id": "C57", "title": "clone_from of raw parts equals assignment of a clone", "statement": "For the type-erased vectors handed out by into_raw_parts, a.clone_from(&b) leaves a in the state of b.clone(): same element type, same elements in the same order; b and all other memory are unchanged, and the old buffer of a is reused or released.", "quantifier": "for all element types of a and b, all contents, lengths and capacities, both build modes", "why_tests_cant": "A test clones a few vectors of one type into each other; the claim is about every pair of types, lengths and capacities and about the memory that is kept or released.", "anchors": ["src/vec_void.rs: Clone::clone_from, apply_aligned_unchecked", "src/vec_copy.rs: into_raw_parts", "src/vec_dyn.rs: into_raw_parts"]}
{"id": "C58", "title": "Conversions to and from dynamic tables are lossless and checked", "statement": "into_dyn! turns a container or a slice into one with a dynamic table without changing content or element type; from_dyn! turns an owned container back exactly if its table has the requested type and gives the original container, and otherwise panics without losing elements or memory. Both macros accept every container kind of the crate and every path to a trait.", "quantifier": "for all containers, slices, table types, elements, and for all invocations of the two macros (all container names, all paths)", "why_tests_cant": "A test converts a few containers for one trait; which of the unboundedly many invocations expand, and what happens to the elements for every pair of table types, is not a finite question.", "anchors": ["src/lib.rs: from_dyn, into_dyn", "src/vec_dyn.rs: into_raw_parts, from_raw_parts", "src/vec_copy.rs: into_raw_parts, from_raw_parts", "src/slice.rs: into_raw_parts, from_raw_parts", "src/slice_copy.rs: into_raw_parts, from_raw_parts"]}
{"id": "C59", "title": "Views never outlive the memory they refer to", "statement": "With the safe functions of the crate a program cannot get a view (a slice, a reference to an element, an iterator) that is still usable after the memory it refers to was released, and cannot get a mutable view next to another view of the same memory.", "quantifier": "for all lifetimes and all chains of calls of the safe view-returning functions", "why_tests_cant": "The borrow checker decides by the signatures alone, for every program at once; a test (even a compile-fail test) covers one program.", "anchors": ["src/slice.rs: from_slice, from_raw_parts and all methods returning views", "src/slice_copy.rs: from_slice and all methods returning views", "src/vec_copy.rs: all methods returning views", "src/vec_dyn.rs: all methods returning views", "src/value.rs: ValueRef, ValueMut", "src/copy_value.rs: CopyValueRef, CopyValueMut"]}
{"id": "C60", "title": "The safe raw-parts functions cannot break memory", "statement": "Taking a value, container or slice apart with the safe into_raw_parts functions and letting go of the parts, or using them in safe code, never causes undefined behaviour and never changes the bytes of an element (the comment in bytes.rs promises that the bytes cannot be modified or inspected in safe code).", "quantifier": "for all element types, values, containers, slices and all bytes written", "why_tests_cant": "A test tries one value of one type; whether memory is released with the right layout depends on the size and alignment of every type.", "anchors": ["src/value.rs: BoxValue::into_raw_parts, SmallValue::into_raw_parts", "src/slice_copy.rs: SliceCopyMut::into_raw_parts", "src/bytes.rs: comment on Bytes"]}
{"id": "C61", "title": "The table of a container is that of its element type", "statement": "Every container made by safe code runs, for its elements, the destructor and clone function of their own type: the virtual table stored in a container was built for the element type of the container.", "quantifier": "for all element types, tables and all ways to obtain the type information passed to with_type_from", "why_tests_cant": "A test makes containers the intended way; the claim is about everything the public fields of Meta allow.", "anchors": ["src/meta.rs: Meta and its From impls", "src/vec_dyn.rs: with_type_from", "src/vec_copy.rs: with_type_from"]}
{"id": "C62", "title": "A table reference behaves like its table", "statement": "Reading, taking, converting to an owned table or cloning a table reference gives the same table, whether it borrows or owns the table, and two references are equal if their tables are equal.", "quantifier": "for all tables, table types and table equality functions, both kinds of reference on both sides", "why_tests_cant": "A test compares a few references; the claim is about every table and every combination of kinds.", "anchors": ["src/vtable.rs: VTableRef, take, into_owned, as_ref, Clone, PartialEq"]}
{"id": "C63", "title": "Generated code compiles, with exactly the listed exceptions", "statement": "For a module of traits with distinct names that are not names of std traits and without cyclic inheritance, the items generated by dync_mod are accepted by the compiler (every Has* impl has the right methods, types, supertraits and unsafe marker, every table constructor and conversion passes arguments of the right types, nothing is implemented twice) if and only if no trait takes parameters and no name collides with a generated name. For a single trait, the items generated by dync_trait are accepted if and only if PartialEq is written next to Eq.", "quantifier": "for all modules of traits of any size, all supertrait graphs, all names", "why_tests_cant": "Compile tests cover a few hand-written modules; the set of modules and supertrait combinations is infinite.", "anchors": ["dync-derive/src/lib.rs: construct_dync_items, vtable_struct_def, dync_mod, dync_trait", "src/traits.rs: Has*, *VTable, *Bytes"]}
{"id": "C64", "title": "Macro options and hygiene", "statement": "The crate named by the last dync_crate_name option is used in every path of the generated code, and no other option changes anything (suffix and build_vtable_only included). All paths in generated code lead into that crate or to items generated for the traits of the module. A trait called like a std trait is taken for that trait.", "quantifier": "for all lists of options, all traits and modules on which the macro returns", "why_tests_cant": "The property is about every path in the output for every input; tests look at a few expansions.", "anchors": ["dync-derive/src/lib.rs: Config, DynAttrib, construct_dync_items, Trait::prefix, From<String> for Trait"]}
{"id": "C65", "title": "The macro returns exactly on acyclic modules, within linear depth", "statement": "dync_mod returns on a module of traits (with distinct ordinary names, none naming itself) if and only if inheritance is acyclic; then its recursion is never deeper than the number of traits plus one. On cyclic inheritance it recurses without end, so the compiler never reports the cycle.", "quantifier": "for all modules of any size and all inheritance graphs", "why_tests_cant": "Termination on all inputs and non-termination on others are not testable; a test shows that the macro returned once.", "anchors": ["dync-derive/src/lib.rs: flatten_inheritance, union_children, fill_and_flatten_trait_map_from_mod"]}
{"id": "C66", "title": "Functions in the builtin tables are those of the element type", "statement": "Every function in a builtin table, called on slices of the size of the element type, does what the element type's Drop, Clone, PartialEq, Hash or Debug does on these values, and nothing else. On a slice of another length it panics before running any code of the element type; only clone_into_raw with a destination of the wrong length first makes a clone, which it drops.", "quantifier": "for all element types, all slices of all lengths, all behaviours of user code including panics", "why_tests_cant": "Tests call the functions through containers, always with the right lengths and well-behaved types.", "anchors": ["src/traits.rs: *Bytes impls, *VTable, Has* impls", "src/bytes.rs: from_bytes, from_bytes_mut, box_into_box_bytes"]}
{"id": "C67", "title": "Safe code never reaches undefined behaviour nor sees anything but stored values", "statement": "Whatever a program does with copy containers in safe code (any number of containers and element types, views of views, any indices, every panic caught and the containers used again), it never runs into undefined behaviour or an abort, and every value it reads, through any accessor, is a value of the type it is read at: one that was stored at that type or made from such by the program's own closures, never a mixture of bytes. After any such program every container can be dropped. False in four cases, each with a witness: an untyped push of () into a container whose content was lost by a caught panic; rotating a view made with an inclusive range; and in release builds the untyped get_ref/get_mut past the end, and indices whose byte offset exceeds usize.", "quantifier": "for all programs of any length, all element types, layouts, sizes and validity predicates, all values, indices, closures and panic points, debug and release builds", "why_tests_cant": "Memory safety is a claim about every program and index; a passing test of one program says nothing about another, and torn values need not be noticed.", "anchors": ["src/vec_copy.rs: VecCopy", "src/vec_void.rs: VecVoid", "src/slice_copy.rs: SliceCopyMut", "src/copy_value.rs: CopyValueMut::copy"]}
{"id": "C68", "title": "Every index operation has an exactly known outcome", "statement": "In debug builds an index operation on a view (get, swap, split_at, chunks_exact, rotate, half-open subslice) does what the same operation on a slice of the elements does, or panics, leaving the content unchanged. In release builds byte offsets are computed modulo 2^64: the operation works on the window at the wrapped offset if that window lies inside the content and panics otherwise; only VecCopy::get_ref has undefined behaviour instead of the panic. Reading with get yields nothing but whole elements, for every slice and index, if and only if the element size is a power of two (for element sizes of which two fit into isize::MAX bytes; of larger ones no slice holds more than one element).", "quantifier": "for all element types, contents, indices and ranges of any kind, both build modes", "why_tests_cant": "The interesting indices are near multiples of 2^64 divided by the element size, in release builds; no test suite enumerates them, and the equivalence is about all element sizes.", "anchors": ["src/slice_copy.rs: get, get_mut, swap, split_at, chunks_exact, subslice, rotate_left, rotate_right", "src/lib.rs: ElementBytes, ElementBytesMut::swap", "src/index_slice.rs: ScaleRange", "src/vec_copy.rs: get_ref", "src/vec_dyn.rs: get, get_mut"]}
{"id": "C69", "title": "No value is destroyed twice, whatever user code panics", "statement": "A program that uses VecDyn containers, BoxValue and SmallValue through the safe API, with user destructors and Clone implementations that may panic at any call and every panic caught, has no undefined behaviour, never sees bytes that are not a value of the type they are shown at, and never destroys a value twice or while a variable still holds it: at any time each value was destroyed, or is held, at most as often as it was passed in or returned by a clone.", "quantifier": "for all programs (sequences of operations on any number of variables), all element types and values, all destructors and Clone implementations including which calls panic, both build modes", "why_tests_cant": "Needs every interleaving of operations with every choice of panicking destructor or clone call; a test exercises one panic at one place, and a double drop of a trivial value goes unnoticed.", "anchors": ["src/vec_dyn.rs: VecDyn (all methods), Drop, Clone", "src/vec_copy.rs: resize, append, rotate_left, fill", "src/vec_void.rs: apply, clone_from, push, append", "src/value.rs: BoxValue, SmallValue, ValueMut::assign, swap, clone_from_other", "src/traits.rs: DropBytes, CloneBytes"]}
{"id": "C70", "title": "What every program over copy containers does, exactly", "statement": "For every program over VecCopy containers (creating, cloning, dropping, appending, converting to and from Vec, pushing, resizing, reserving, clearing, filling, copying, rotating, swapping, and typed and untyped reading and writing, with any sizes, indices and amounts and every panic caught), a small machine that only knows element lists, element types and capacities predicts every returned value, every panic, the content, type and capacity of every container afterwards, how many buffers are live and how many leaked, and whether the program is undefined. In particular: a call is undefined exactly when it is an untyped get or get_mut with an index that is out of range after multiplication modulo 2^64 in a release build, or an untyped push of () to a container whose content was lost by an earlier caught panic; only calls that panic lose content; and in debug builds a call leaks a buffer exactly when it grows a container of three-byte unaligned elements from capacity one to two, or pushes an untyped value whose size is not its alignment.", "quantifier": "for all programs (sequences of operations on any number of variables), element types of every size and alignment without destructor, all values, all sizes, indices and amounts up to usize::MAX, both build modes", "why_tests_cant": "Needs every sequence of calls with every size and index, including those near usize::MAX and those after caught panics; tests use a few small containers and cannot see leaked buffers or undefined behaviour.", "anchors": ["src/vec_copy.rs: VecCopy (all methods)", "src/vec_void.rs: VecVoid, apply, resize_with, push, append, rotate_left, rotate_right", "src/slice_copy.rs: SliceCopyMut::swap, copy_from_slice, rotate_left, rotate_right", "src/copy_value.rs: CopyValueMut::copy"]}
{"id": "C71", "title": "What every program over cloning containers and untyped values does, exactly", "statement": "For every program over VecDyn containers, BoxValue and SmallValue (creating, cloning, dropping, converting back, appending, typed pushes, pushes of clones and of boxes, resizing, filling, clearing, rotating, swapping, and reading, cloning, assigning, exchanging and clone_from on elements and values), with any sizes, indices and amounts, with user destructors and Clone implementations that may panic at any call, and with every panic caught, a small machine that only knows lists of elements, element types and capacities predicts every returned value, every panic and abort, the calls of user code with their arguments in order, the content, type and capacity of every variable afterwards, and how many blocks of memory are live and leaked. The only undefined calls are pushes of a box: of a value whose alignment is not one, or of a boxed () to a container whose content was lost in an earlier caught panic.", "quantifier": "for all programs (sequences of operations on any number of variables), element types of every size and alignment, all values, all sizes, indices and amounts up to usize::MAX, all destructors and Clone implementations including which calls panic, both build modes", "why_tests_cant": "Needs every sequence of calls with every choice of panicking user code; the order of destructor calls, values lost after a caught panic and leaked blocks are not visible to tests of results.", "anchors": ["src/vec_dyn.rs: VecDyn (all methods), Drop, Clone", "src/vec_copy.rs: push_as, append, rotate_left, rotate_right", "src/vec_void.rs: apply, resize_with, push, append, clone_from", "src/value.rs: BoxValue, SmallValue, ValueRef, ValueMut::assign, swap, clone_from_other", "src/traits.rs: DropBytes, CloneBytes"]}
{"id": "C72", "title": "Without a panic no value and no memory is lost", "statement": "In every program over VecDyn containers, BoxValue and SmallValue whose calls all return (nothing panics), each value that was passed in by value or returned by a user Clone is, at any time, destroyed exactly once, or owned by exactly one variable, or was in a container or value that the program converted to a wrong type with into_vec or downcast, which return None and forget it. The live blocks of memory are those of the variables and one for every box forgotten in this way. So a program without wrong conversions that leaves its variables empty has destroyed every value exactly once and freed all memory. In release builds this is for indices and amounts whose byte offsets do not exceed usize::MAX; a rotation by a wrapping amount is a counterexample otherwise.", "quantifier": "for all programs (sequences of operations on any number of variables) that run without a panic, element types of every size and alignment including zero-sized values, all values, all destructors and Clone implementations, both build modes", "why_tests_cant": "Conservation is about every sequence of moves, clones, exchanges and drops; a forgotten destructor call or a leaked block changes no result that a test looks at.", "anchors": ["src/vec_dyn.rs: VecDyn (all methods), Drop, Clone", "src/vec_copy.rs: push_as, append, rotate_left, rotate_right, into_vec", "src/vec_void.rs: apply, resize_with, push, append, clone_from", "src/value.rs: BoxValue, SmallValue, downcast, ValueMut::assign, swap, clone_from_other", "src/traits.rs: DropBytes, CloneBytes"]}
{"id": "C73", "title": "Generated byte signatures are valid Rust, with exactly the listed exceptions", "statement": "If dync_trait_method accepts a method signature whose argument and return types are valid, then the argument and return types of the generated signature are valid too (they can be written down without an ambiguous +, every trait object names at most one trait that is not an auto trait, and values of the type have a known size), exactly if no argument or return type is impl Trait, no type parameter used as a type has two bounds that are not auto traits, and no type parameter behind a reference or pointer has more than one bound.", "quantifier": "for every accepted method signature without where clause, with any number of arguments and type parameters with distinct names, types of any depth, and every set of auto traits", "why_tests_cant": "The grammar of types and bounds is unbounded, and an invalid signature shows only when a user writes the one that triggers it.", "anchors": ["dync-derive/src/lib.rs: dync_trait_method, dync_fn_sig, process_generics, process_generic_type_path, generic_ref_to_trait_object, type_to_bytes"]}
{"id": "C74", "title": "Programs on mutable views behave like the same programs on plain slices", "statement": "Run any program on the mutable untyped view of a container of copies: reads, typed and untyped writes, writes through iterators and typed slices, swaps, rotations, copies from slices, and programs nested in subslices, in both halves of a split and in exact chunks. It returns the values that the same program reads on a plain mutable slice of the elements, or panics if that one does. In both cases the elements afterwards are those of the plain slice. The container keeps its buffer, its capacity and its element type, and no memory is allocated or freed. This holds for ranges that are half open (any range for one-byte elements), chunk sizes whose byte size fits into usize, and, without debug assertions, byte offsets that fit into usize.", "quantifier": "for every element type that is not zero-sized, all contents, all programs of any length and nesting depth, in both build modes", "why_tests_cant": "Views of views interact through offsets into the same bytes; a wrong offset shows only for some combination of element size, nesting and position. The programs are unbounded.", "anchors": ["src/slice_copy.rs: SliceCopyMut, subslice_mut, split_at, chunks_exact_mut, iter, get, get_mut, swap, rotate_left, rotate_right, copy_from_slice, as_slice", "src/vec_copy.rs: as_mut_slice", "src/copy_value.rs: CopyValueMut::copy", "src/lib.rs: ElementBytesMut::swap"]}
{"id": "C75", "title": "Programs on mutable views of values with destructors behave like the same programs on plain slices", "statement": "Run any program on the mutable untyped view of a container of values that are cloned and destroyed: reads, swaps, rotations, typed assignment, arbitrary safe code on the typed slice, assigning a boxed value, cloning into one or every element, clone_from_slice, and programs nested in subslices, in both halves of a split and in exact chunks. It returns the values that the same program reads on a plain mutable slice, or panics if that one does. In both cases the elements afterwards are those of the plain slice, and the same destructors and clones have run in the same order. A value of another type changes no element and is destroyed. The container keeps its buffer and capacity, other containers and values are untouched, and all memory of temporary boxes is freed, except for the one box in which a destructor panics. On a container that lost its content to an earlier panic such a program panics as soon as it asks for the number of elements; what it can do before that (in a release build it reads values of type () at any index) is described exactly, and the container does not change. Ranges, chunk sizes and offsets are limited as for copies.", "quantifier": "for every element type that is not zero-sized, all contents, all destructors and Clone implementations (also panicking ones), all programs of any length and nesting depth, any state of the other variables, in both build modes", "why_tests_cant": "A value destroyed twice or not at all, or a clone made into the wrong element of a nested view, shows only for some combination of nesting, position and panic; the programs and the user code are unbounded.", "anchors": ["src/slice.rs: SliceMut, get_mut, get_as, as_slice, iter, subslice_mut, split_at, chunks_exact_mut, swap, rotate_left, rotate_right, clone_from_slice", "src/value.rs: ValueMut::assign, clone_from_other, BoxValue::new, Drop for BoxValue", "src/vec_dyn.rs: as_mut_slice"]}
{"id": "C76", "title": "Every access through a mutable view stays inside the view, is aligned, and leaves other memory alone", "statement": "Take a mutable untyped view as what it is at run time, an address and a number of bytes, and run any program on it: typed and untyped reads and writes, swaps, rotations, copies from slices, and programs nested in subslices, in both halves of a split and in exact chunks. Every byte it reads or writes lies in the view. Every access through a reference to the element type is at an address aligned for that type. All memory outside the view is unchanged, in particular every other block of the allocator. The outcome and the bytes in the view are those of the same program on a copy of the bytes, so parts of a view that share memory do not interfere. This also holds where an index or a range wraps around in a release build, and if the program panics half way.", "quantifier": "for every element type, all memory contents, all addresses and lengths of the view (the address aligned for the element type, as every allocator gives it), all programs of any length and nesting depth, all indices, ranges and chunk sizes, in both build modes", "why_tests_cant": "An access one byte past the end or at a misaligned address usually goes unnoticed at run time, and depends on the nesting, the index and the size and alignment of the type, all unbounded.", "anchors": ["src/slice_copy.rs: SliceCopyMut, get_as, as_slice, get_mut, iter, subslice_mut, split_at, chunks_exact_mut, swap, rotate_left, rotate_right, copy_from_slice", "src/lib.rs: ElementBytes, ElementBytesMut::swap", "src/bytes.rs: from_bytes, from_bytes_mut", "src/vec_copy.rs: as_mut_slice"]}
{"id": "C77", "title": "Comparing, hashing and printing run the element's own code once per element, in order, and nothing else", "statement": "Let the element type's PartialEq, Hash and Debug be arbitrary code: it may panic, keep state of its own, report a formatting error. Comparing two containers or slices of one type calls the element's equality on the pairs in order, up to the shorter length; the first call that does not return true is the last one, and its outcome, false or a panic, is that of the whole. For different element types no user code runs. Hashing calls the element's Hash in order on the given hasher and stops at a panic. Printing with {:?} or {:#?} does to any formatter what std's debug_list does with the elements' own Debug code, so that the text is that of the typed vector, in one line or one indented element per line. Values and references make exactly one call, and none if two compared types differ. If the user's equality is a plain function, this is the plain element-wise comparison.", "quantifier": "for every element type and every behaviour of its PartialEq, Hash and Debug including panics, state and errors, all containers, slices, boxed, inline and borrowed values with any contents, all hashers and formatters", "why_tests_cant": "The number and order of the calls made before a panic depends on where in an unbounded sequence the user code first answers differently; tests use types with derived, effect-free implementations.", "anchors": ["src/vec_dyn.rs: PartialEq, Hash, Debug", "src/slice.rs: PartialEq, Debug of Slice and SliceMut", "src/value.rs: PartialEq, Hash, Debug, impl_value_ref_traits", "src/traits.rs: eq_bytes, hash_bytes, fmt_bytes"]}
{"id": "C78", "title": "Every virtual table is freed exactly once, and the panics that leak one are known exactly", "statement": "Every container and owned value keeps its virtual table in a box of its own; views and references borrow that box or own a copy. In every program that creates, clones, upcasts, converts to and from trait objects, takes apart, pushes, assigns and destroys containers and values, and uses views and references in any nesting (subviews, iterators, clones, upcasts, with_type_from, clone_value), with arbitrary user code that may panic while building, cloning or converting tables, cloning elements or destroying them: no table is used after it was freed or freed twice, two owners never share a table, and no table is ever modified. A table that no owner in scope holds exists only as the result of a panic of one of four kinds: an element's destructor while a VecDyn, a boxed or an inline value is destroyed, pushed to a container of another type, or assigned over; or cloning or converting the table while an owned value (not a container) is upcast. Each of these loses exactly one table. Everything done through views and references loses none, whatever panics. So if none of the four happened, all tables are freed once the last owner is gone.", "quantifier": "for all programs of any length, all nestings of views, every behaviour of user code including panics at any call", "why_tests_cant": "A leak or a double free of a table depends on which of unboundedly many calls panics and on which views own their table at that time; tests run without panicking table code and do not observe table memory.", "anchors": ["src/vtable.rs: VTableRef, Ptr", "src/vec_copy.rs: from_vec_non_copy, clone_with, with_type_from, upcast, into_vec", "src/vec_dyn.rs: Drop, upcast, into_vec, push", "src/value.rs: SmallValue and BoxValue upcast, into_raw_parts, Drop, downcast, clone_value, upcast_ref", "src/slice_copy.rs: reborrow, upcast, into_iter, into_subslice", "src/lib.rs: from_dyn, into_dyn"]}
{"id": "C79", "title": "Whole programs of containers and values behave like plain typed data, with arbitrary user code and caught panics", "statement": "Take a program of any length over VecDyn containers and owned values that creates, fills, converts, clones, moves, drops and type checks them, makes new containers of the type of another one, works on mutable views in any nesting, converts virtual tables, and compares, hashes and prints containers, values and single elements; the element types' Drop, Clone, PartialEq, Hash and Debug are arbitrary code that keeps state and may panic at any call, and every step may be caught. What the program sees at every step (results, panics, elements read, the state of the hasher, the text written, the return values of fmt), the contents of all variables and the sequence of calls of user code are those of a simple machine over typed lists, in which views are list programs, == calls the user's == pair by pair until one differs, hash feeds every element to the hasher in order and Debug prints std's list. The number of leaked blocks is exactly that of the machine after every step, also after panics. If user code is safe code and no boxed value is pushed, the program has no undefined behaviour.", "quantifier": "for all element types, all user code, all programs of any length and nesting of views, all panics, debug and release builds; excluded are the ranges excluded in C75", "why_tests_cant": "The interplay of steps after a caught panic (half-cloned containers, hashers and formatters in mid-use, tables converted before) has unboundedly many combinations; tests check single calls with well-behaved element types.", "anchors": ["src/vec_dyn.rs: VecDyn, with_type_from, check, upcast, PartialEq, Hash, Debug", "src/value.rs: BoxValue, SmallValue, ValueRef: upcast, PartialEq, Hash, Debug", "src/slice.rs: SliceMut", "src/traits.rs: eq_bytes, hash_bytes, fmt_bytes"]}
{"id": "C80", "title": "Threads that share containers only for reading behave under every schedule as if each ran alone", "statement": "Let several threads run programs like those of C79 in one process: each thread changes only containers and values that no other thread uses, and any number of threads may at the same time read a container that nobody changes (clone it or elements of it, compare, hash, print or index it, make a new container of its type). The element types' Drop, Clone, PartialEq, Hash and Debug are arbitrary code that keeps its state in thread-local variables and may panic at any call. Then, in whatever order the calls of the threads are interleaved, every thread sees at every step exactly what it would have seen running alone, the program runs to the end exactly if every thread alone would, at the end every container a thread can see has the contents it would have had, and the thread-local state is the same. So two schedules of the same threads cannot be told apart by any thread.", "quantifier": "for all schedules of any length, all numbers of threads, all element types and thread-local user code, all programs of C79, all panics, debug and release builds; one call of the library is one step of a schedule", "why_tests_cant": "The number of interleavings grows exponentially and tests see the few that the scheduler happens to choose; here all threads allocate from the same heap and share the containers' buffers and tables.", "anchors": ["src/vec_dyn.rs: VecDyn: Send, Sync", "src/value.rs: BoxValue, SmallValue: Send, Sync", "src/slice.rs: Slice, SliceMut", "src/traits.rs: HasSend, HasSync"]}
{"id": "C81", "title": "Only the order of conflicting calls of threads matters", "statement": "Let several threads run programs like those of C79 in one process, handing containers to each other and sharing them in any way, each call being one step. Two calls conflict if they are made by the same thread or one of them changes a container or value that the other one uses. Take any schedule that runs to the end and put its calls in any other order that keeps the order of all conflicting calls. Then that order runs to the end too, every thread sees exactly the same at every one of its calls, including which calls panic, all containers and values have the same contents at the end, the thread-local state of the element types' code is the same, and exactly as many memory blocks are leaked. If both orders are in the range of C75, one runs to the end exactly if the other one does.", "quantifier": "for all schedules of any length, all reorderings, all numbers of threads and all ways of sharing containers, all element types and thread-local user code, all programs of C79, all panics, debug and release builds", "why_tests_cant": "Whether a program depends on the scheduler would have to be tested for every interleaving, of which there are exponentially many; the claim also covers calls that panic half way and leave containers damaged.", "anchors": ["src/vec_dyn.rs: VecDyn: Send, Sync", "src/value.rs: BoxValue, SmallValue: Send, Sync", "src/slice.rs: Slice, SliceMut", "src/traits.rs: HasSend, HasSync"]}
{"id": "C82", "title": "Whole programs on copyable containers do what a machine over typed lists does", "statement": "Take any program that works on copyable untyped containers with all of: creating them empty, with capacity, from vectors and slices, filled, or with the type of another container; all methods that change them; extending them from an iterator and collecting an iterator of untyped values into a new one; and programs on mutable views of them. Panics are caught and the program goes on. Then every step returns, panics or is undefined exactly as a simple machine over lists of typed elements says, shows exactly the same values with their types, and leaves exactly the containers and lost memory blocks of the machine. On that machine: extending appends all values in order if they have the right type; otherwise it panics, with exactly the values before the first one of another type appended, or with the content of the container lost. Collecting gives exactly the values of the iterator, all of one type, or panics and changes no container. Neither these two nor the constructors nor programs on views in range are ever undefined.", "quantifier": "for all programs of any length, all element types, sizes and alignments, all contents, iterators and (wrong) size hints, all programs on views with byte offsets in range, all allocators' answers within the limits of the address space, debug and release builds, all panics", "why_tests_cant": "The claim is about every history with caught panics, including the use of containers whose content was lost by an earlier panic and iterators whose size hints are wrong.", "anchors": ["src/vec_copy.rs: VecCopy::with_size, with_type_from, push, reserve, impl Extend, impl FromIterator", "src/slice_copy.rs: SliceCopyMut", "src/copy_value.rs: CopyValueRef"]}
{"id": "C83", "title": "Programs and threads that decide what to do next from what they have seen, and may never end, keep all these promises", "statement": "The programs of C79, C80 and C82 may choose every step from the results and panics of their earlier steps, and need not end. For every number of steps, such a program does in these steps exactly what the machine over typed data says: it sees the same values and panics, makes the same choices, and leaves the same containers and values and lost memory blocks. A program that only takes safe steps and whose element types' code is defined never reaches undefined behaviour, however long it runs. Several threads that keep to the rules of C80, each deciding from what it has itself seen, see under every schedule exactly what each would see alone in as many turns, and so make the same choices; whether all run to the end, and what each one sees, depends only on how many turns each has and not on their order.", "quantifier": "for all programs, that is, all functions from what has been seen to the next step, all numbers of steps, all schedules, all numbers of threads, all element types and (thread-local) user code, all panics, debug and release builds; excluded are the ranges excluded in C75", "why_tests_cant": "A program that reacts to what it sees has infinitely many runs, and a server has infinitely long ones; tests run fixed sequences of calls to their end.", "anchors": ["src/vec_dyn.rs: VecDyn", "src/vec_copy.rs: VecCopy", "src/value.rs: BoxValue, SmallValue", "src/slice.rs: SliceMut", "src/slice_copy.rs: SliceCopyMut"]}
{"id": "C84", "title": "Extending and collecting from any iterator keeps exactly the items it got, whatever the iterator does", "statement": "The iterator given to extend or collect of copyable untyped containers is arbitrary user code: asking it for its size hint or its next item and dropping it may have effects and may panic. Programs with such iterators, with all panics caught, do what the machine of C82 with the same user code says: they return, panic, abort and read as the machine does, and the user's code ends in the same state. On the machine, extending asks for the size hint once, then for items until the iterator ends or panics, an item has another type, or there is no room for it; it does not ask again after that, and drops the iterator exactly once. All items of the right type that it got are then in the container in order, also after a panic of the iterator or an item of another type, unless the container has lost its content because there was no room. Collecting gives the first item and all later ones, all of one type, or it panics (or aborts, if the iterator panics while it is dropped during a panic) and no container changes; at most one memory block is lost. With an iterator whose own code is defined neither is ever undefined.", "quantifier": "for all iterators with any state, effects and panics in every one of their calls, all size hints, all element types, contents, programs and histories, debug and release builds; iterators that do not end are followed for any number of items", "why_tests_cant": "Iterators are user code: tests use a few iterators of the standard library, which neither panic nor have effects, and cannot try a panic at every call.", "anchors": ["src/vec_copy.rs: impl Extend<CopyValueRef> for VecCopy, impl FromIterator<CopyValueRef> for VecCopy"]}
{"id": "C85", "title": "Mutable views held at the same time are separate lists", "statement": "A program may hold any number of mutable views at once: views of different containers, and the parts that split_at, chunks_exact_mut, iter and subslice_mut hand out together, nested to any depth. It may use them in any order, exchange values between them (swap) and copy values from one to another (copy). It does what it does if every view is a list of its own: it reads the same values or panics like it, and afterwards each view, and each container, has the elements of its list with the parts put together again, also after a panic. A view that the program does not name keeps its bytes. Programs that name different views give the same reads and the same memory in either order. All accesses are aligned and lie in one of the views, for every placement of the blocks by the allocator.", "quantifier": "for all programs, all numbers of views and parts, all nestings, contents, indices, chunk sizes and ranges (in the range stated in C74), in both build modes, for all allocators", "why_tests_cant": "tests hold a few parts of one slice; aliasing between parts shows only for particular positions, sizes and orders of use, and a test sees one placement in memory", "anchors": ["src/slice_copy.rs: SliceCopyMut::split_at, chunks_exact_mut, iter, subslice_mut, get_mut", "src/copy_value.rs: CopyValueMut::swap, copy", "src/vec_copy.rs: VecCopy::as_mut_slice"]}
{"id": "C86", "title": "Mutable views of values with destructors held at the same time are separate lists", "statement": "A program may hold any number of mutable views of non-Copy elements at once: views of different containers, and the parts that split_at, chunks_exact_mut, iter and subslice_mut hand out together, nested to any depth. It may run any program on each of them, exchange values between them (swap), and clone a value or all elements of one view into another (clone_from_other, clone_from_slice). It does what it does if every view is a list of its own, also if a destructor or Clone panics while other views are held: the same reads or the same end, the same elements in each view and each container, the same destructors and clones in the same order, and at most one leaked box. A view that is not changed, or only cloned from, keeps its bytes. All accesses are aligned and lie in views that are held. A program that only reads and exchanges values runs no code of the elements, and no value is lost or doubled.", "quantifier": "for all programs, all user code (also panicking), all numbers of views and parts, all nestings, contents, indices, chunk sizes and ranges (in the range stated in C74), in both build modes, for all allocators", "why_tests_cant": "a duplicated or lost value shows as a double drop or a leak only for particular positions and panics while several parts are held; tests hold a few parts and do not panic in between", "anchors": ["src/slice.rs: SliceMut::split_at, chunks_exact_mut, iter, subslice_mut, get, get_mut, clone_from_slice", "src/value.rs: ValueMut::swap, assign, clone_from_other", "src/slice_copy.rs: SliceCopyMut::split_at, chunks_exact_mut, subslice_mut", "src/vec_dyn.rs: VecDyn::as_mut_slice"]}
{"id": "C87", "title": "Threads that work on parts of containers at the same time never race", "statement": "Mutable views of Copy elements, among them the parts of one container that split_at, chunks_exact_mut, iter and subslice_mut hand out together, may be given to different threads, while other containers are read by all of them. Each thread runs any program on its views, with panics caught, and decides from what it has seen what to do next. However the single memory accesses of the threads are interleaved: at no time are two threads about to access the same byte with one of them writing it; each thread sees what it sees alone, with a list for every view; it ends after as many accesses as it makes alone; the memory and all results do not depend on the schedule; bytes outside of the views that the threads own never change. When all threads have ended, the container that was taken apart has the elements that the threads left in the parts, in their order.", "quantifier": "for all numbers of threads and views, all programs of the threads, all ways of taking a view apart, all ways of carrying out a call as accesses to single bytes, all schedules of these accesses, all contents and placements of the containers, in both build modes", "why_tests_cant": "a data race shows only under particular schedules, and its effects depend on compiler and hardware; tests run few schedules and no test can show that there is no race", "anchors": ["src/slice_copy.rs: SliceCopyMut::split_at, chunks_exact_mut, iter, subslice_mut, swap, rotate_left, rotate_right, copy_from_slice, get, get_mut; SliceCopy", "src/copy_value.rs: CopyValueMut::swap, copy", "src/vec_copy.rs: VecCopy::as_mut_slice, as_slice"]}
{"id": "C88", "title": "Used as documented, unchecked access and raw bytes behave like safe access to a list", "statement": "Code that mixes the unsafe get_unchecked_ref and get_unchecked_mut, the bytes of the raw parts (get_bytes, get_bytes_mut, byte_chunks, byte_chunks_mut) and programs on mutable views, and keeps to the documented contract (the right type, an index below the length, bytes replaced by those of a value), does what it does with a plain list of the elements: the same reads or the same panic, the same elements afterwards. Every access is aligned and inside of the elements, and no other memory changes. With another type S, get_unchecked_ref::<S>(i) reads chunk i of the size of S of the bytes of all elements; the access stays inside the elements exactly if i + 1 such chunks fit, and is aligned wherever the allocator puts the buffer exactly if the alignment of S divides that of the elements.", "quantifier": "for all element types, contents, indices, sequences of such calls (checked indices in the range stated in C74), for all allocators, in both build modes", "why_tests_cant": "tests run on one allocator whose blocks are aligned better than asked for, so a misaligned or overlong access does not show; they use a few types and indices", "anchors": ["src/vec_copy.rs: VecCopy::get_unchecked_ref, get_unchecked_mut; VecVoid::byte_chunks, byte_chunks_mut, get_bytes, get_bytes_mut", "src/vec_dyn.rs: VecDyn::get_unchecked_ref, get_unchecked_mut, into_raw_parts", "src/lib.rs: ElementBytes, ElementBytesMut"]}
{"id": "C89", "title": "The references that the library hands out obey Rust's aliasing rules", "statement": "A program that the borrow checker accepts, holding any number of shared and exclusive views, value references and typed references to parts of containers at once, never breaks the aliasing rules that compilers rely on (an exclusive reference is the only way to its bytes while it is used; bytes behind a shared reference do not change): it does the same as if memory were plain bytes. True for all element types without interior mutability, and for all types if the program takes its typed references from containers directly (as_slice_as, get_ref_as and the like). False otherwise: views and value references are references to plain bytes, so reaching a Cell, RefCell or atomic through one of them, by downcast, get_as or a function of a virtual table (comparison, Debug, hash, clone), and writing to it is undefined; in the strict form of the rules already making the reference is. Writing to a cell through a typed reference from the container ends all views of the element that are held.", "quantifier": "for all element types, contents, any number of containers, all programs over references (any nesting, any order of uses, caught panics), for the rules of Stacked Borrows and for a lenient variant, in both build modes", "why_tests_cant": "undefined behaviour of this kind does not show in a run; it lets an optimiser change the program, and checkers like Miri see only the runs of the test suite, which has no element with interior mutability", "anchors": ["src/slice.rs: Slice, SliceMut", "src/slice_copy.rs: SliceCopy, SliceCopyMut", "src/value.rs: ValueRef, ValueMut", "src/vec_copy.rs: VecCopy views and accessors; VecVoid::get_bytes, byte_chunks", "src/vec_dyn.rs: VecDyn views and accessors", "src/bytes.rs: Bytes::from_bytes, as_bytes", "src/traits.rs: CloneBytes and the other table functions"]}
{"id": "C90", "title": "Threads that work on parts of containers of values with destructors never race", "statement": "Mutable views of non-Copy elements, among them the parts of one container that split_at, chunks_exact_mut, iter and subslice_mut hand out together, may be given to different threads, while other containers are read by all of them and cloned from (clone_from_other, clone_from_slice). Destructors and Clone run in the threads and may panic; panics are caught, and each thread decides from what it has seen what to do next. However the single memory accesses of the threads are interleaved: at no time are two threads about to access the same byte with one of them writing it; each thread sees what it sees alone, with a list for every view, with the same destructors and clones in the same order and as many leaked boxes; it ends after as many accesses as it makes alone; the memory and all results do not depend on the schedule; bytes outside of the views that the threads own never change, among them those of the containers that are cloned from. When all threads have ended, the container that was taken apart has the values that the threads left in the parts, in their order.", "quantifier": "for all numbers of threads and views, all programs of the threads, all user code that keeps its state in its thread (also panicking), all ways of taking a view apart, all ways of carrying out a call as accesses to single bytes, all schedules of these accesses, all contents and placements of the containers, in both build modes", "why_tests_cant": "a data race shows only under particular schedules, and a value that is dropped twice because of one only if a clone or a destructor panics at that moment; tests run few schedules and do not panic in the middle of them", "anchors": ["src/slice.rs: SliceMut::split_at, chunks_exact_mut, iter, subslice_mut, get, get_mut, clone_from_slice; Slice", "src/value.rs: ValueMut::swap, assign, clone_from_other", "src/vec_dyn.rs: VecDyn::as_mut_slice, as_slice"]}
{"id": "C91", "title": "Which failing calls lose the content of a container", "statement": "A call that panics may leave a VecCopy or a VecDyn as an empty container of () that has forgotten its elements and its element type. This happens exactly in these cases, each of which panics: push_as, push, push_cloned, resize, reserve or append when the larger buffer would exceed the largest allocation (append then loses both containers); reserve, resize, append and push_cloned when a full container of one [u8; 3]-like element grows to two; push of an untyped value whose size is not its alignment; push_cloned when Clone panics; rotate_left and rotate_right by more than the length, for alignments up to 8192. No call that returns makes a container of () of a container of another type. One further failing call empties a container: append of it to a full container of one [u8; 3]-like element. If any other call panics, every VecCopy has its elements, its type and its buffer size as before the call, and so has every VecDyn if it is not user code that panics.", "quantifier": "for all operations, all containers and element types, all values of the other variables, all arguments for which the product of a number of elements and their size does not silently wrap around, all user code (for the last sentence: that does not panic), in both build modes", "why_tests_cant": "the list is the result of following every operation through every failure, for all lengths and capacities; failing allocations of more than half of the address space and panics within Clone are not in unit tests, and a test can show that one call loses the content but not that no other does", "anchors": ["src/vec_copy.rs: VecCopy::push_as, push, reserve, resize, append, rotate_left, rotate_right", "src/vec_dyn.rs: VecDyn::push_as, push, push_cloned, resize, append, rotate_left, rotate_right", "src/vec_void.rs: VecVoid::apply_aligned_unchecked, apply_unchecked, reserve, append, push, resize_with, rotate_left, rotate_right"]}
{"id": "C92", "title": "Which results depend on how Vec chooses capacities", "statement": "The standard library only promises that a growing Vec has room for at least what was asked for; it does not say which capacity it picks. Creating a container (with_type, with_capacity, with_size, from_vec, from_slice), push_as, and every call whose elements fit into the present capacity work with any choice of capacities: they end in a healthy container with exactly the expected elements and room for what was asked, and fail only when the chosen capacity does not fit into the address space. reserve, resize, append, clone and with_type_from count capacity in alignment-sized units and need more than the promise: they succeed, with content intact, exactly if the chosen number of units is a whole number of elements. If it is not they panic; then reserve, resize and append lose the content (append the content of both containers) and one block leaks, while clone leaves its source as it was and leaks the new block. No choice is harmful for element types as large as their alignment, and choices that keep multiples multiples (such as plain doubling) are harmless for all types; the choices of the current library are harmful in exactly one case.", "quantifier": "for every capacity policy that keeps Vec's documented promise (an arbitrary function of the heap, the layout, the old capacity and the need), every type layout, every content and every requested size", "why_tests_cant": "A test runs with the policy of the one standard library it was compiled against; whether the code relies on undocumented details of that policy shows only with a different library.", "anchors": ["src/vec_void.rs: VecVoid::reserve, VecVoid::append, VecVoid::from_vec, VecVoid::from_vec_override, VecVoid::into_valid_vec, VecVoid::apply_aligned_unchecked, impl Clone for VecVoid", "src/vec_copy.rs: VecCopy::reserve, VecCopy::resize, VecCopy::append, VecCopy::push_as, VecCopy::with_type_from, VecCopy::with_capacity, VecCopy::from_slice"]}
{"id": "C93", "title": "What a panic of table code does to elements and memory", "statement": "Code of virtual tables runs inside of the library: build_vtable when a container or a value is made, Clone of a table when one is cloned, From when one is upcast. In each of these functions it runs once, last, after all elements are in their place. If it returns, the result has the elements and the table that it returned. If it panics, the panic is passed on; the memory of the new container (for upcast: of the container itself) is freed, exactly once, and other containers are untouched, but the elements in it are forgotten: no destructor runs for values taken over by from_vec, cloned by clone, from_slice and with_size, or held by an upcast VecDyn. A BoxValue that is made, cloned or upcast loses its memory as well; a SmallValue has none. If the function panics before its table code would run, the table code does not run.", "quantifier": "for all element types and contents, all table code (an arbitrary function on the state of user code that returns or panics), all element clones, in both build modes", "why_tests_cant": "A test would need a table type whose build_vtable, Clone or From panics, in each of the functions, and would have to observe both the allocator and destructors that do not run.", "anchors": ["src/vec_copy.rs: VecCopy::with_type, with_capacity, with_size, from_slice, from_vec, from_vec_non_copy, with_type_from, upcast, upcast_with, clone_with, impl Clone", "src/vec_dyn.rs: VecDyn::clone, upcast, with_size, from_slice", "src/value.rs: SmallValue::try_new, BoxValue::new, SmallValue::upcast, BoxValue::upcast, ValueRef::clone_value, ValueRef::clone_small_value", "src/vtable.rs: VTable::build_vtable"]}
{"id": "C94", "title": "What safe code can do with the public helper traits", "statement": "DropAsAligned, VTable, HasDrop and HasClone are public traits that need no unsafe. drop_as_aligned(n) on boxed bytes either frees exactly their memory, or panics and changes nothing (n is no power of two up to 2^29), or frees nothing (n exceeds the number of bytes); it should never be undefined behaviour, and a container made with any implementation of VTable should destroy and clone its elements with the code of their own type.", "quantifier": "for all boxed bytes and arguments of drop_as_aligned; for all implementations of VTable by choice of another type's builtin table, all element types and contents", "why_tests_cant": "Whether a safe interface can be misused is a claim about all programs that call or implement it; tests contain only programs that use it as intended.", "anchors": ["src/copy_value.rs: DropAsAligned::drop_as_aligned", "src/vtable.rs: VTable::build_vtable", "src/traits.rs: HasDrop, HasClone, DropVTable, CloneVTable", "src/vec_copy.rs: VecCopy::from_vec_non_copy", "src/elem.rs: eval_align"]}
{"id": "C95", "title": "Growing a container is amortised", "statement": "Along every program over VecCopy containers, and over VecDyn containers and values, that catches panics and goes on, the capacity of a container never shrinks. A call that changes it at least doubles it, happens only if more elements are needed than there is room for, and makes room for at most twice as many elements as are needed, or for eight; so the capacity after a program is the one before it, or bounded by this for the last call that changed it. If the last such call had to make room for N elements and the capacity was c at the beginning, all r such calls together satisfy 2^(r-1) * c < N, and the elements that were in the container when these calls began, which are the ones copied to a larger buffer, are fewer than 2N - whatever clear, append, rotate, failing or panicking calls happen in between. A VecDyn resize whose clone panics may keep the room it has made.", "quantifier": "for all element types, contents, capacities, programs of any length, both build modes, all user code with panics at any call", "why_tests_cant": "The bound is about programs of any length and any mixture of calls; a benchmark or a test measures some of them, and a growth by a constant amount shows only asymptotically.", "anchors": ["src/vec_void.rs: reserve, append, push, apply_unchecked", "src/vec_copy.rs: VecCopy::push_as, push, reserve, resize, append", "src/vec_dyn.rs: VecDyn::push_as, push, push_cloned, resize, append"]}
{"id": "C96", "title": "The elements of a container stay where they are until it grows", "statement": "Along every program over VecCopy containers, and over VecDyn containers and values, that catches panics and goes on, a container has its elements in the same buffer as long as no call has changed its capacity: clear, truncation, rotation, resizing, pushes into free room, appending from and to it, writing elements, calls that refuse or panic, and the round trip through Vec neither move nor copy them. A call on VecCopy containers that creates, clones, converts and drops none, and under which every container keeps its content and its capacity, calls the allocator not at all. So as many pushes as there is room for all succeed without a call of the allocator and without moving an element.", "quantifier": "for all element types, contents, capacities, programs of any length, both build modes, all user code with panics at any call", "why_tests_cant": "That no call in any history moves the buffer is a statement about all programs; a test sees that one address did not change in one run, and allocators often return the address that was just freed.", "anchors": ["src/vec_void.rs: from_vec, from_vec_override, apply_aligned, apply_unchecked, reserve, append, push, rotate_left, rotate_right, truncate, resize_with, clear", "src/vec_copy.rs: VecCopy::from_vec, into_vec, push_as, push, reserve, resize, append", "src/vec_dyn.rs: VecDyn::from_vec, into_vec, push_as, push, push_cloned, resize, append"]}
{"id": "C97", "title": "A refused assignment says which types did not match", "statement": "Assigning through a reference to a dynamic value (clone_from_other) fails exactly if the two types differ. Then nothing at all happens, and the error carries the type of the place as the expected one and the type of the other value as the actual one, never the other way round, and it never is the error about values that are too large. Two errors with the same displayed text are the same error, so the text tells which type was found and which one was expected, in this order, if the debug text of a type id tells which one it is; and the text of a mismatch is one line.", "quantifier": "for all value types, values, user code and panics of Clone, all debug texts of type ids without a bracket before a space", "why_tests_cant": "A test compares one message for one pair of types; swapped roles of the two types, or two errors that look alike, show only for the pairs that are tried.", "anchors": ["src/value.rs: Error, Display for Error", "src/value.rs: ValueMut::clone_from_other"]}
{"id": "C98", "title": "Containers of containers behave as nested lists, to any depth", "statement": "A program that makes values, puts them in containers, puts those containers in containers and so on, clones and drops what it has, clones or exchanges elements in place, moves all containers of one container to the end of another, rotates containers, clears them (if the user's Drop does not panic then; it may elsewhere) takes containers apart again into vectors and makes containers of vectors, sees what it would see with nested lists: each step returns or panics as there, the user's Clone and Drop run on the same values in the same order, and afterwards each variable holds the nested list it should. Cloning is deep: a clone shares no buffer with the original. Nothing is dropped twice or used after being dropped, also when the user's code panics in the middle and the program goes on. If nothing panicked and all variables are gone, no container and no memory is left at any level. The condition on clear is needed: if clear panics after the first inner container has been dropped, dropping the outer one is undefined behaviour, whatever they hold.", "quantifier": "every depth of nesting, every program of with_type, with_capacity, push, append, rotate, clear, clone, drop, element access, into_vec and from_vec at all levels, every content, every user Clone and Drop including ones that panic, both build modes", "why_tests_cant": "Tests use one or two levels and a handful of elements. A shallow clone, a missed destructor call or a buffer freed by the wrong level shows only as a double free or leak at some depth and for some place of a panic.", "anchors": ["src/vec_dyn.rs: Drop for VecDyn", "src/vec_dyn.rs: Clone for VecDyn", "src/vec_dyn.rs: with_type, with_capacity, push_as, append, rotate_left, rotate_right, clear, into_vec, from_vec, get_ref_as, get_mut_as", "src/traits.rs: CloneVTable, CloneBytes, DropBytes"]}
{"id": "C99", "title": "Comparing, hashing and printing containers of containers go through all levels", "statement": "Comparing two containers of containers calls the user's == on the same pairs in the same order as comparing nested lists element by element, up to the end of the shorter list at each level and until a pair differs or the user's code panics. If the user's == is a plain function, the answer is true exactly when the two agree at every place that both have, at all levels; lengths are not compared at any level. A clone equals its original if the user's clones do. Hashing feeds the values from left to right to the hasher, each once, and nothing else, so that the hash does not depend on how the values are grouped. Printing gives the text of nested lists, on one line with {:?} and with each level indented by four more spaces with {:#?}. None of these changes a container at any level.", "quantifier": "every depth of nesting, all contents, every user PartialEq, Hash and Debug including ones that keep state, fail or panic, every hasher and formatter, after every program on nested containers", "why_tests_cant": "Tests compare a few small nested containers. Whether the recursion stops at the right pair, with the right state, and whether the indentation adds up, at every depth, is no finite set of cases.", "anchors": ["src/vec_dyn.rs: PartialEq for VecDyn", "src/vec_dyn.rs: Hash for VecDyn", "src/vec_dyn.rs: Debug for VecDyn", "src/traits.rs: PartialEqBytes, HashBytes, DebugBytes"]}
{"id": "C100", "title": "Containers of containers own exactly one buffer each, and a panic leaks exactly the ones around it", "statement": "Take a program with values, containers of them, containers of such containers and so on. If nothing in it panics, then at each level there are exactly as many buffers as there are containers of that level in the program's variables. If user code panics in it, any number of times, there is besides them exactly one buffer for each container leaked by one of those panics, and nothing else. Dropping a container of containers frees at each level exactly one buffer for each container that has been dropped completely: all of them if nothing panics, and if the user's Drop panics, those before the value that panicked, but not the containers around it or after it. Cloning makes at each level exactly one buffer for each container that has been cloned completely; if the user's Clone panics, the new buffer of the outermost container is freed again while the inner clones that were complete are leaked.", "quantifier": "every depth, every program with any number of panics (but none of Drop inside clear), every nested list, every user state and every user Drop and Clone, also panicking ones", "why_tests_cant": "The number of buffers at each level depends on the whole nesting and on the place of the panic; a test can look at a few depths and at a few places only, and memory that is leaked is not visible in any result.", "anchors": ["src/vec_dyn.rs: Drop for VecDyn, Clone for VecDyn, with_type, push_as, append, clear, into_vec"]}
