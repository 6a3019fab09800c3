import Verif.Mesh

/-!
# Mesh.hpp in 64-bit arithmetic

`Mesh.lean` computes sizes and offsets with unbounded numbers.  Here the sums and products of Mesh.hpp are taken modulo `2 ^ 64`, and pointers are
formed only inside the buffer or one past its end.
-/

namespace Intp.Word

variable {D : ℕ} {V : Type}

/-- Number of values of `size_t`. -/
abbrev wordSize : ℕ := 2 ^ 64

/-- `a + b` on `size_t`. -/
def add (a b : ℕ) : ℕ := (a + b) % wordSize

/-- `a * b` on `size_t`. -/
def mul (a b : ℕ) : ℕ := (a * b) % wordSize

/-- `MeshDimension::size` (Mesh.hpp:36-40). -/
def dimsSize (dims : Fin D → ℕ) : ℕ := (List.finRange D).foldl (fun s d => mul s (dims d)) 1

/-- `MeshDimension::dim_acc_size` (Mesh.hpp:45-51). -/
def dimAccSize (dims : Fin D → ℕ) (k : ℕ) : M ℕ :=
  loop 0 k 1 fun d das => do
    let i ← subM D (d + 1)
    let x ← dimGet dims i
    pure (mul das x)

/-- Body of the loop of `indexing` (Mesh.hpp:90-93); state is `(ind, sub_mesh_size)`. -/
def indexingStep (dims a : Fin D → ℕ) (acc : ℕ × ℕ) (r : Fin D) : ℕ × ℕ :=
  (add acc.1 (mul (a r) acc.2), mul acc.2 (dims r))

/-- `MeshDimension::indexing` (Mesh.hpp:87-95). -/
def indexing (dims a : Fin D → ℕ) : ℕ :=
  ((List.finRange D).foldl (fun acc d => indexingStep dims a acc d.rev) (0, 1)).1

/-- `MeshDimension::indexing_safe` (Mesh.hpp:69-85). -/
def indexingSafe (c : Cfg) (dims a : Fin D → ℕ) : M ℕ := do
  let r ← (List.finRange D).foldlM (fun (acc : ℕ × ℕ) d => do
    assertM c (decide (a d.rev < dims d.rev))
    pure (indexingStep dims a acc d.rev)) ((0 : ℕ), (1 : ℕ))
  pure r.1

/-- `explicit Mesh(const MeshDimension<dim>&)` (Mesh.hpp:249-253). -/
def mk' [Zero V] (dims : Fin D → ℕ) : Mesh D V := ⟨dims, List.replicate (dimsSize dims) 0⟩

/-- variadic `operator()(Indices...) const` (Mesh.hpp:312-315). -/
def getSafe (c : Cfg) (m : Mesh D V) (a : Fin D → ℕ) : M V := do
  let i ← indexingSafe c m.dims a
  rd m.storage i

/-- `storage_.data() + i`: a pointer outside the buffer and not one past its end is undefined. -/
def ptr (m : Mesh D V) (i : ℤ) : M ℤ :=
  if 0 ≤ i ∧ i ≤ m.storage.length then .ok i else .error .oob

/-- `begin(dim_ind, indices)` (Mesh.hpp:342-348); the conversion of the stride to `ptrdiff_t` is modulo `2 ^ 64`. -/
def beginIter (c : Cfg) (m : Mesh D V) (d : Fin D) (a : Fin D → ℕ) : M SkipIter := do
  let off ← indexingSafe c m.dims (Function.update a d 0)
  let p ← ptr m off
  let k ← subM D (d.val + 1)
  let step ← dimAccSize m.dims k
  pure ⟨p, if step < 2 ^ 63 then step else (step : ℤ) - 2 ^ 64⟩

/-- `end(dim_ind, indices)` (Mesh.hpp:349-355). -/
def endIter (m : Mesh D V) (d : Fin D) (a : Fin D → ℕ) : M SkipIter := do
  let off := indexing m.dims (Function.update a d (m.dims d))
  let p ← ptr m off
  let k ← subM D (d.val + 1)
  let step ← dimAccSize m.dims k
  pure ⟨p, if step < 2 ^ 63 then step else (step : ℤ) - 2 ^ 64⟩

/-- `operator++` of `skip_iterator` (Mesh.hpp:174-177). -/
def inc (m : Mesh D V) (it : SkipIter) : M SkipIter := do
  let p ← ptr m (it.ptr + it.step)
  pure ⟨p, it.step⟩

/-- `operator*` of `skip_iterator` (Mesh.hpp:163). -/
def deref (m : Mesh D V) (it : SkipIter) : M V := SkipIter.deref m it

/-- The elements met by `for (auto it = m.begin(d, a); it != m.end(d, a); ++it)`, with at most `fuel` steps; `end` is evaluated every time, as in
mesh-test.cpp:44. -/
def collectGo (m : Mesh D V) (d : Fin D) (a : Fin D → ℕ) : ℕ → SkipIter → List V → M (List V)
  | 0, _, vs => .ok vs
  | fuel + 1, it, vs => do
    let e ← endIter m d a
    if it.eq e then .ok vs
    else do
      let v ← deref m it
      let it ← inc m it
      collectGo m d a fuel it (vs ++ [v])

/-- The loop of `collectGo`, started at `begin`; one step more than there are elements, so that the loop ends at `end`. -/
def collect (c : Cfg) (m : Mesh D V) (d : Fin D) (a : Fin D → ℕ) : M (List V) := do
  let it ← beginIter c m d a
  collectGo m d a (m.dims d + 1) it []

end Intp.Word
