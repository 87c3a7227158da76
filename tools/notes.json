{
 "C06": {
  "note": "The full claim is false: VecCopy::push panics for every type whose size differs from its alignment (the pushed bytes are cut into units of the alignment), and VecDyn::push frees the box with alignment 1, which is undefined behaviour for alignment > 1. Proved: the exact domain where it works, and what happens outside."
 },
 "C07": {
  "note": "False for the same types as C06 (every element goes through push). Proved for types with size = alignment; empty collect and foreign types characterised."
 },
 "C08": {
  "note": "The only obstruction is the capacity bookkeeping of VecVoid (BadGrowth: a buffer whose capacity in alignment units is not a multiple of the element size). Proved whenever this does not occur; refuted with a concrete container. The _exact theorem decides every call on healthy containers."
 },
 "C09": {
  "note": "As C08 for growing. Shrinking VecDyn is proved without restriction, with arbitrary user code. The _exact theorem decides every call on healthy containers whose new length fits into the address space."
 },
 "C11": {
  "note": "False for alignment > 8192 (the stack-limited dispatch has no arm). Proved for all other types."
 },
 "C12": {
  "note": "The documentation of VecCopy::copy_from_slice promises extension; the code panics unless the lengths agree. Proved for equal lengths; every other length panics."
 },
 "C13": {
  "note": "False exactly in the BadGrowth case (e.g. 3-byte elements of alignment 1, capacity 1): std's growth yields a capacity that is no multiple of the element size. Proved otherwise; the bad case is characterised. The _exact theorem decides every call on healthy containers whose new length fits into the address space."
 },
 "C14": {
  "note": "Proved for histories in which every step stays in the domain where the single operations are correct; refuted in general by the operations of C06-C13."
 },
 "C17": {
  "note": "Proved for all VecDyn programs without the undefined behaviour of C06; the general statement is false because of C19."
 },
 "C18": {
  "note": "Proved for all programs without failing typed conversions; refuted: a failing BoxValue/SmallValue downcast, SmallValue::try_new and VecDyn::into_vec leak, as does a panicking clone."
 },
 "C19": {
  "note": "True for drop of containers and values; refuted for clear and resize, which leave dropped elements in the container."
 },
 "C20": {
  "note": "True for clone, resize, fill, constructors; refuted for push_cloned, which loses the whole content."
 },
 "C21": {
  "note": "Proved for all VecDyn programs except VecDyn::push of a value with alignment > 1, which frees a block with the wrong layout (refutation)."
 },
 "C22": {
  "note": "Exact result for indices in range; out of range it panics except for swap(i, i) and, in release builds, indices whose byte offset wraps around."
 },
 "C23": {
  "note": "Exact for mid <= len; out of range it panics unless the byte offset wraps around in a release build."
 },
 "C24": {
  "note": "Exact unless k * element size overflows in a release build."
 },
 "C25": {
  "note": "Exact for half-open ranges; inclusive ranges stop inside an element (exact result given), which makes later calls panic."
 },
 "C27": {
  "note": "Proved for typed access and for debug builds; refuted in release builds (get_ref is undefined behaviour, byte offsets wrap around)."
 },
 "C28": {
  "note": "The code compares the common prefix only. Exact characterisation, reflexivity and symmetry proved; full claim and transitivity refuted."
 },
 "C29": {
  "note": "True for values; for containers refuted by C28, true if the lengths agree."
 },
 "C30": {
  "note": "The characterisation and the three laws are proved; marked partial because the crate implements Eq for values whose table has only PartialEq, so reflexivity can fail (refutation)."
 },
 "C32": {
  "note": "Exact: succeeds iff the size is 8. The documented 'fits into a usize' is refuted for smaller sizes."
 },
 "C37": {
  "note": "Proved for dync_mod and for dync_trait without Eq as a supertrait lacking PartialEq; refuted there: the generated conversion calls a function the table lacks."
 },
 "C38": {
  "note": "Proved for all modules with unambiguous names; refuted for shadowed std names and for self:: paths."
 },
 "C39": {
  "note": "Proved: the exact set of spellings that are recognised; all other spellings of std traits are silently ignored (refutation)."
 },
 "C40": {
  "note": "The full dispatch is total and exact; the stack-limited one fails above 8192 (refutation)."
 },
 "C43": {
  "note": "Exact table of what is Send/Sync; refuted for Slice, ValueRef, SliceCopy, SliceCopyMut and for a user trait named Send."
 },
 "C44": {
  "note": "Proved for the type constructors the macro handles; refuted for Option<Self>, tuples, slices, associated types and trait bounds."
 },
 "C45": {
  "note": "Refuted by rotate with an amount out of range, which replaces the content by an empty vector of () (exact post state given). C91 lists all calls that lose the content and proves that all others keep it."
 },
 "C50": {
  "note": "Refuted; the theorems give the exact behaviour."
 },
 "C51": {
  "note": "Refuted: usize and isize are not in the dispatch list, the result is empty."
 },
 "C52": {
  "note": "Refuted: the check asserts the opposite of what is meant. Proved: the exact set of accepted argument types."
 },
 "C57": {
  "note": "True if the element types agree; otherwise the destination keeps its own type (refutation)."
 },
 "C58": {
  "note": "Conversions proved exact; the macros reject documented forms (refutation), the set of accepted inputs is characterised."
 },
 "C59": {
  "note": "Proved for all functions but Slice::from_slice and SliceCopy::from_slice, whose result lifetime is unbounded (refutation)."
 },
 "C60": {
  "note": "Refuted; exact condition under which dropping raw parts is undefined."
 },
 "C61": {
  "note": "True as long as Meta values are not built by hand; Meta has public fields, so safe code can forge one (refutation)."
 },
 "C62": {
  "note": "All but equality of a borrowed with an owned reference."
 },
 "C67": {
  "note": "Proved for all programs but those with the four listed operations; each of these is refuted by a concrete program."
 },
 "C69": {
  "note": "Proved for all programs but those with the listed operations (clear/resize with a panicking destructor, push of a BoxValue of alignment other than 1, the type (), and wrapping indices in release builds); each of these is refuted by a concrete program."
 },
 "C89": {
  "note": "The full claim is false for element types with interior mutability: references to them made from views, value references or in virtual tables come from references to plain bytes. Proved: no program breaks the rules for other element types, nor for any type if typed references are taken from containers; the ways to break them, for every container, element and cell."
 },
 "C91": {
  "note": "For VecDyn the part on calls that keep the content is for user code that does not panic (what remains after a panic of user code is C54 and C71)."
 },
 "C92": {
  "note": "VecDyn uses the same reserve and append; its clone goes through the shallow clone treated here."
 },
 "C93": {
  "note": "The effects of table code on user state are arbitrary; it does not call back into the container that is being made."
 },
 "C94": {
  "note": "Refuted for drop_as_aligned (any supported alignment but that of the memory, not above the number of bytes) and for tables (a safe implementation of VTable may return the functions of another type). Proved: exactly when drop_as_aligned is undefined and what it does otherwise; the table part for implementations that pick the type itself."
 },
 "C95": {
  "note": "The policy of Vec is that of section 3 of DESIGN.md (at least double; C92 treats others). Growth is counted per call; only a VecDyn resize whose number of units wraps around in a release build may move the buffer more than once in one call."
 },
 "C96": {
  "note": "Every reallocation of the model moves to a fresh block, so 'in the same buffer' does not depend on what the allocator's realloc does. A container whose content was lost in a panic (only values () are left of it) has no buffer; reserve on it allocates, panics and leaks (C70), which is why the theorem on the allocator speaks of containers with content."
 },
 "C97": {
  "note": "C97_same_call links the function with its error to the one that the other theorems use. ValueTooLarge is returned by no function of the crate. A formatter that fails and the derived Debug of Error are not modelled."
 },
 "C98": {
  "note": "Elements are VecDyn with a table for Drop and Clone. Each level has an address space of its own; the byte image of a container tells which container it is (two live ones differ, since their buffers do). The process is taken to end when there is no image left for a new container or a buffer would exceed the address space. What a panic in Drop or Clone leaks is counted in C100. Runs in which the user's Drop panics inside clear are excluded (ClearsCalmly; panics elsewhere are not); C98_clear_panic says what it leads to. Other functions of nested containers are not part of the programs; PartialEq, Hash and Debug are those of C99."
 },
 "C99": {
  "note": "The containers of C98 have a table with Drop and Clone only; the entries for PartialEq, Hash and Debug are added where they are used, as with_type builds them for the same type. That lengths are not compared is the behaviour of the code (C28); the property says so."
 },
 "C100": {
  "note": "The containers and programs of C98, with its restrictions (ClearsCalmly). C100_program is about programs in which no action panics, C100_leaks about all of them. C100_drop and C100_clone are about any state that such programs reach, also after panics; that a panic inside clear leads to more than leaks is in C98_clear_panic."
 }
}