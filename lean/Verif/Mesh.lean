import Verif.Basic

/-!
# Model of src/include/Mesh.hpp

`MeshDimension<D>` is its array of side lengths `Fin D → ℕ`; `Mesh<T,D,Alloc>` is the record `Mesh D V`.
-/

namespace Intp

variable {D : ℕ} {V : Type}

/-- `std::array` access `a[i]` with a run-time index. -/
def dimGet {α : Type} (a : Fin D → α) (i : ℕ) : M α :=
  if h : i < D then .ok (a ⟨i, h⟩) else .error .oob

/-- `MeshDimension::size` (Mesh.hpp:36-40): the product of all side lengths. -/
def dimsSize (dims : Fin D → ℕ) : ℕ := (List.finRange D).foldl (fun s d => s * dims d) 1

/-- `MeshDimension::dim_acc_size` (Mesh.hpp:45-51): product of the last `k` side lengths. -/
def dimAccSize (dims : Fin D → ℕ) (k : ℕ) : M ℕ :=
  loop 0 k 1 fun d das => do
    let i ← subM D (d + 1)
    let x ← dimGet dims i
    pure (das * x)

/-- Body of the loop of `indexing` (Mesh.hpp:90-93) for `dim - d - 1 = r`; state is `(ind, sub_mesh_size)`. -/
def indexingStep (dims a : Fin D → ℕ) (acc : ℕ × ℕ) (r : Fin D) : ℕ × ℕ :=
  (acc.1 + a r * acc.2, acc.2 * dims r)

/-- `MeshDimension::indexing` (Mesh.hpp:87-95). `Fin.rev d` is `dim - d - 1`. -/
def indexing (dims a : Fin D → ℕ) : ℕ :=
  ((List.finRange D).foldl (fun acc d => indexingStep dims a acc d.rev) (0, 1)).1

/-- `MeshDimension::indexing_safe` (Mesh.hpp:69-85); the variadic overload (lines 64-67) packs its arguments
into an index array and calls this one. -/
def indexingSafe (c : Cfg) (dims a : Fin D → ℕ) : M ℕ := do
  let r ← (List.finRange D).foldlM (fun (acc : ℕ × ℕ) d => do
    assertM c (decide (a d.rev < dims d.rev))
    pure (indexingStep dims a acc d.rev)) ((0 : ℕ), (1 : ℕ))
  pure r.1

/-- `MeshDimension::dimwise_indices` (Mesh.hpp:102-111).  The local `indices` starts uninitialised in C++; every
entry is written before it is returned, the model starts from zeros. -/
def dimwiseIndices (dims : Fin D → ℕ) (total : ℕ) : M (Fin D → ℕ) := do
  let r ← (List.finRange D).foldlM (fun (acc : (Fin D → ℕ) × ℕ) d => do
    let m ← modM acc.2 (dims d.rev)
    let q ← divN acc.2 (dims d.rev)
    pure (Function.update acc.1 d.rev m, q)) ((fun _ => 0 : Fin D → ℕ), total)
  pure r.1

/-- `Mesh<T, D, Alloc>` (Mesh.hpp:125-383): row-major `storage_` and `dimension_`. -/
structure Mesh (D : ℕ) (V : Type) where
  dims : Fin D → ℕ
  storage : List V

namespace Mesh

/-- `explicit Mesh(const MeshDimension<dim>&)` (Mesh.hpp:249-253): storage filled with `val_type{}`. -/
def mk' [Zero V] (dims : Fin D → ℕ) : Mesh D V := ⟨dims, List.replicate (dimsSize dims) 0⟩

/-- `explicit Mesh(std::pair<InputIter, InputIter>)` for 1D (Mesh.hpp:265-274). -/
def ofList (l : List V) : Mesh 1 V := ⟨fun _ => l.length, l⟩

/-- `Mesh::size` (Mesh.hpp:286). -/
def size (m : Mesh D V) : ℕ := m.storage.length

/-- `Mesh::resize` (Mesh.hpp:300-303): storage keeps its prefix and is padded.  With `default_init_allocator` the
padding is uninitialised; the model pads with `fill`, and no theorem depends on its value. -/
def resize (m : Mesh D V) (sizes : Fin D → ℕ) (fill : V) : Mesh D V :=
  ⟨sizes, (m.storage ++ List.replicate (dimsSize sizes - m.storage.length) fill).take (dimsSize sizes)⟩

/-- `operator()(index_type) const` (Mesh.hpp:321-323), unchecked indexing into the storage vector. -/
def get (m : Mesh D V) (a : Fin D → ℕ) : M V := rd m.storage (indexing m.dims a)

/-- `operator()(index_type)` used on the left of an assignment (Mesh.hpp:317-319). -/
def set (m : Mesh D V) (a : Fin D → ℕ) (v : V) : M (Mesh D V) := do
  let s ← wr m.storage (indexing m.dims a) v
  pure ⟨m.dims, s⟩

/-- variadic `operator()(Indices...) const` (Mesh.hpp:312-315), through `indexing_safe`. -/
def getSafe (c : Cfg) (m : Mesh D V) (a : Fin D → ℕ) : M V := do
  let i ← indexingSafe c m.dims a
  rd m.storage i

/-- variadic `operator()(Indices...)` used on the left of an assignment (Mesh.hpp:307-310). -/
def setSafe (c : Cfg) (m : Mesh D V) (a : Fin D → ℕ) (v : V) : M (Mesh D V) := do
  let i ← indexingSafe c m.dims a
  let s ← wr m.storage i v
  pure ⟨m.dims, s⟩

/-- `iter_indices(const_iterator)` (Mesh.hpp:372-375); an iterator is its distance from `begin()`. -/
def iterIndices (m : Mesh D V) (pos : ℕ) : M (Fin D → ℕ) := dimwiseIndices m.dims pos

end Mesh

/-- `skip_iterator<U>` (Mesh.hpp:138-239): `ptr_` as an offset from `storage_.data()`, and `step_length_`. -/
structure SkipIter where
  ptr : ℤ
  step : ℤ
  deriving DecidableEq, Repr

namespace SkipIter

/-- `operator++` (Mesh.hpp:174-177). -/
def inc (it : SkipIter) : SkipIter := ⟨it.ptr + it.step, it.step⟩
/-- `operator--` (Mesh.hpp:186-189). -/
def dec (it : SkipIter) : SkipIter := ⟨it.ptr - it.step, it.step⟩
/-- `operator+=`, `operator+` (Mesh.hpp:198-208). -/
def add (it : SkipIter) (n : ℤ) : SkipIter := ⟨it.ptr + n * it.step, it.step⟩
/-- `operator-=`, `operator-(n)` (Mesh.hpp:210-217). -/
def sub (it : SkipIter) (n : ℤ) : SkipIter := ⟨it.ptr - n * it.step, it.step⟩
/-- `operator-(skip_iterator)` (Mesh.hpp:219-221); C++ `/` truncates towards zero. -/
def diff (a b : SkipIter) : ℤ := Int.tdiv (a.ptr - b.ptr) a.step
/-- `operator==` (Mesh.hpp:166-169). -/
def eq (a b : SkipIter) : Bool := a.ptr == b.ptr && a.step == b.step
/-- `operator<` (Mesh.hpp:227-229). -/
def lt (a b : SkipIter) : Bool := decide (diff b a > 0)
/-- `operator*` (Mesh.hpp:163). -/
def deref (m : Mesh D V) (it : SkipIter) : M V :=
  if it.ptr < 0 then .error .oob else rd m.storage it.ptr.toNat
/-- `operator[]` (Mesh.hpp:223-225). -/
def at' (m : Mesh D V) (it : SkipIter) (n : ℤ) : M V :=
  if it.ptr + n * it.step < 0 then .error .oob else rd m.storage (it.ptr + n * it.step).toNat

end SkipIter

namespace Mesh

/-- Offset and stride of `begin(dim_ind, indices)` (Mesh.hpp:342-348). -/
def lineBegin (c : Cfg) (m : Mesh D V) (d : Fin D) (a : Fin D → ℕ) : M (ℕ × ℕ) := do
  let off ← indexingSafe c m.dims (Function.update a d 0)
  let k ← subM D (d.val + 1)
  let step ← dimAccSize m.dims k
  pure (off, step)

/-- Offset and stride of `end(dim_ind, indices)` (Mesh.hpp:349-355). -/
def lineEnd (m : Mesh D V) (d : Fin D) (a : Fin D → ℕ) : M (ℕ × ℕ) := do
  let off := indexing m.dims (Function.update a d (m.dims d))
  let k ← subM D (d.val + 1)
  let step ← dimAccSize m.dims k
  pure (off, step)

/-- `begin(dim_ind, indices)` as an iterator object. -/
def beginIter (c : Cfg) (m : Mesh D V) (d : Fin D) (a : Fin D → ℕ) : M SkipIter := do
  let r ← m.lineBegin c d a
  pure ⟨r.1, r.2⟩

/-- `end(dim_ind, indices)` as an iterator object. -/
def endIter (m : Mesh D V) (d : Fin D) (a : Fin D → ℕ) : M SkipIter := do
  let r ← m.lineEnd d a
  pure ⟨r.1, r.2⟩

/-- `iter_indices(skip_iterator)` (Mesh.hpp:377-382). -/
def skipIterIndices (m : Mesh D V) (it : SkipIter) : M (Fin D → ℕ) :=
  if it.ptr < 0 then .error .wrap else dimwiseIndices m.dims it.ptr.toNat

end Mesh

end Intp
