import Verif.VecDyn
import Verif.Spec
/-!
# Specification vocabulary for values and non-`Copy` containers

A virtual table is *lawful* for a type if its entries do what the type's own methods do.  An owned
value *is* a box or an inline word holding a given element.  None of these definitions is used by
the model.
-/
namespace Dync
variable {U V : Type}

/-- The `drop` entry runs the destructor of `t`. -/
def LawfulDrop [HasDrop U V] (Γ : TyEnv U) (t : TyId) (vt : V) : Prop :=
  ∀ b : Bytes, b.length = Γ.size t → HasDrop.dropFn vt b = Γ.drop t b

/-- The `clone` entries run `Clone` of `t`: `clone_fn` puts the clone into a new block of the layout of
`t`, `clone_into_raw_fn` into the destination, `clone_from_fn` is `clone_from`. -/
structure LawfulClone [HasClone U V] (Γ : TyEnv U) (t : TyId) (vt : V) : Prop where
  clone_ok : ∀ {b b' : Bytes} {w : World U} {u'}, b.length = Γ.size t →
    Γ.clone t b w.user = (.ok b', u') →
    HasClone.cloneFn vt b w =
      (.ok ⟨(w.heap.alloc (Γ.layout t)).1, b'⟩, ⟨(w.heap.alloc (Γ.layout t)).2, u'⟩)
  clone_panic : ∀ {b : Bytes} {w : World U} {u' y}, b.length = Γ.size t →
    Γ.clone t b w.user = (.panic y, u') → HasClone.cloneFn vt b w = (.panic y, { w with user := u' })
  raw_ok : ∀ {b b' d : Bytes} {u u'}, b.length = Γ.size t → d.length = Γ.size t →
    Γ.clone t b u = (.ok b', u') → HasClone.cloneIntoRawFn vt b (d, u) = (.ok (), (b', u'))
  raw_panic : ∀ {b d : Bytes} {u u' y}, b.length = Γ.size t → d.length = Γ.size t →
    Γ.clone t b u = (.panic y, u') → HasClone.cloneIntoRawFn vt b (d, u) = (.panic y, (d, u'))
  /-- destination of another length: the clone is dropped again and the call panics -/
  raw_len : ∀ {b b' d : Bytes} {u u' u''}, b.length = Γ.size t → d.length ≠ Γ.size t →
    Γ.clone t b u = (.ok b', u') → Γ.drop t b' u' = (.ok (), u'') →
    HasClone.cloneIntoRawFn vt b (d, u) = (.panic .lenMismatch, (d, u''))
  from_eq : ∀ {b d : Bytes} {u}, b.length = Γ.size t → d.length = Γ.size t →
    HasClone.cloneFromFn vt b (d, u) = Γ.cloneFrom t b (d, u)

/-- The `eq` entry is `==` of `t`. -/
def LawfulEq [HasPartialEq V] (Γ : TyEnv U) (t : TyId) (vt : V) : Prop :=
  ∀ a b : Bytes, a.length = Γ.size t → b.length = Γ.size t → HasPartialEq.eqFn vt a b = .ok (Γ.eq t a b)
/-- The `hash` entry is `Hash` of `t`. -/
def LawfulHash [HasHash V] (Γ : TyEnv U) (t : TyId) (vt : V) : Prop :=
  ∀ a : Bytes, a.length = Γ.size t → HasHash.hashFn vt a = .ok (Γ.hash t a)
/-- The `fmt` entry is `Debug` of `t`. -/
def LawfulDebug [HasDebug V] (Γ : TyEnv U) (t : TyId) (vt : V) : Prop :=
  ∀ a : Bytes, a.length = Γ.size t → HasDebug.fmtFn vt a = .ok (Γ.fmt t a)

/-- `p` owns the block of a `Box<T>`: a live block of the layout of `T`, none for zero-sized `T`. -/
def OwnsBlock (Γ : TyEnv U) (h : Heap) (t : TyId) (p : Ptr) : Prop :=
  (Γ.size t = 0 ∧ p = none) ∨ (0 < Γ.size t ∧ ∃ i, p = some i ∧ h.live i = some (Γ.layout t))

/-- `v` is a healthy boxed untyped value holding the element `x` of type `t`. -/
structure IsBox (Γ : TyEnv U) (h : Heap) (t : TyId) (x : Bytes) (v : BoxValue V) : Prop where
  type_id : v.type_id = t
  align : v.alignment = Γ.align t
  bytes : v.bytes.bytes = x
  length : x.length = Γ.size t
  block : OwnsBlock Γ h t v.bytes.ptr

/-- `v` is a healthy inline untyped value holding the element `x` of type `t`. -/
structure IsSmall (Γ : TyEnv U) (t : TyId) (x : Bytes) (v : SmallValue V) : Prop where
  type_id : v.type_id = t
  align : v.alignment = Γ.align t
  bytes : v.bytes.bytes = x
  length : x.length = Γ.size t
  size : Γ.size t = 8

/-- `v` refers to the element `x` of type `t`. -/
structure IsRef (Γ : TyEnv U) (t : TyId) (x : Bytes) (v : ValueRef V) : Prop where
  type_id : v.type_id = t
  align : v.alignment = Γ.align t
  bytes : v.bytes = x
  length : x.length = Γ.size t

/-! ### `Vec<T>` operations that run user code, on plain lists

The state is the content of the vector and the user state. -/

namespace TVec

/-- `for x in xs { v.push(x.clone()) }`: a panic keeps the clones made so far. -/
def extendClones (Γ : TyEnv U) (t : TyId) : List Bytes → List Bytes → U → Res Unit × (List Bytes × U)
  | [], es, u => (.ok (), (es, u))
  | x :: xs, es, u =>
    match Γ.clone t x u with
    | (.ok c, u') => extendClones Γ t xs (es ++ [c]) u'
    | (.panic y, u') => (.panic y, (es, u'))
    | (.ub, u') => (.ub, (es, u'))
    | (.abort, u') => (.abort, (es, u'))

/-- `for _ in 0..n { v.push(x.clone()) }`. -/
def pushClones (Γ : TyEnv U) (t : TyId) (x : Bytes) (n : Nat) (es : List Bytes) (u : U) :
    Res Unit × (List Bytes × U) := extendClones Γ t (List.replicate n x) es u

/-- `for v in vec.iter_mut() { *v = x.clone() }`: each old element is dropped after the clone that
replaces it was made; a panic keeps the elements assigned so far. -/
def fill (Γ : TyEnv U) (t : TyId) (x : Bytes) : List Bytes → U → Res Unit × (List Bytes × U)
  | [], u => (.ok (), ([], u))
  | e :: es, u =>
    match Γ.clone t x u with
    | (.ok c, u1) =>
      match Γ.drop t e u1 with
      | (.ok _, u2) => ((fill Γ t x es u2).1, (c :: (fill Γ t x es u2).2.1, (fill Γ t x es u2).2.2))
      | (.panic y, u2) => (.panic y, (c :: es, u2))
      | (.ub, u2) => (.ub, (c :: es, u2))
      | (.abort, u2) => (.abort, (c :: es, u2))
    | (.panic y, u1) => (.panic y, (e :: es, u1))
    | (.ub, u1) => (.ub, (e :: es, u1))
    | (.abort, u1) => (.abort, (e :: es, u1))

/-- `dst.clone_from_slice(src)` on equally long slices. -/
def cloneFrom (Γ : TyEnv U) (t : TyId) : List Bytes → List Bytes → U → Res Unit × (List Bytes × U)
  | d :: ds, s :: ss, u =>
    match Γ.cloneFrom t s (d, u) with
    | (.ok _, (d', u')) =>
      ((cloneFrom Γ t ds ss u').1, (d' :: (cloneFrom Γ t ds ss u').2.1, (cloneFrom Γ t ds ss u').2.2))
    | (.panic y, (d', u')) => (.panic y, (d' :: ds, u'))
    | (.ub, (d', u')) => (.ub, (d' :: ds, u'))
    | (.abort, (d', u')) => (.abort, (d' :: ds, u'))
  | ds, _, u => (.ok (), (ds, u))

/-- The end of the scope of a by-value argument `x`: its destructor runs; if the scope is left by a
panic, a second panic in that destructor aborts. -/
def thenDropArg (Γ : TyEnv U) (t : TyId) (x : Bytes) (o : Res Unit × (List Bytes × U)) :
    Res Unit × (List Bytes × U) :=
  match o.1 with
  | .ok _ => ((Γ.drop t x o.2.2).1, (o.2.1, (Γ.drop t x o.2.2).2))
  | .panic y =>
    (match (Γ.drop t x o.2.2).1 with
      | .ok _ => .panic y
      | .panic _ => .abort
      | .ub => .ub
      | .abort => .abort, (o.2.1, (Γ.drop t x o.2.2).2))
  | .ub => (.ub, o.2)
  | .abort => (.abort, o.2)

end TVec

end Dync
