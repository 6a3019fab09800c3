import Verif.FloatModel

/-!
# Memory left uninitialised by `Mesh::resize` (Mesh.hpp:300-303, util.hpp:278-302)

The control point meshes use `default_init_allocator` (BSpline.hpp:45-50): `storage_.resize(n)` leaves new elements uninitialised.  The definitions
of this file are those of `InterpolationTemplate.lean`, and of `FloatModel.lean` for arbitrary arithmetic, with the new elements given by an arbitrary
function (`junk`) instead of zero.
-/

namespace Intp

variable {K V : Type} [Field K] [LinearOrder K] [FloorRing K] [AddCommGroup V] [Module K V] {D : ℕ}

/-- `Mesh::resize` (Mesh.hpp:300-303): the storage keeps its prefix; element `i` of the padding is `junk i`. -/
def Mesh.resizeJ (m : Mesh D V) (sizes : Fin D → ℕ) (junk : ℕ → V) : Mesh D V :=
  ⟨sizes, (m.storage ++ (List.range (dimsSize sizes - m.storage.length)).map junk).take (dimsSize sizes)⟩

namespace Template

/-- One iteration of the loop over the dimensions (InterpolationTemplate.hpp:503-572) on `(old_weight, new_weight)`. -/
def solveDimJ (c : Cfg) (s : Solver K) (junk : ℕ → V) (st : Mesh (D + 1) V × Mesh (D + 1) V) : M (Mesh (D + 1) V × Mesh (D + 1) V) := do
  let new := if D = 0 then st.2 else st.2.resizeJ (rightShift st.1.dims) junk
  let hs ← divN st.1.size (st.1.dims (Fin.last D))
  solveBlock c s 0 hs (st.1, new)

/-- Loop over the dimensions (InterpolationTemplate.hpp:501-573) on `(weights, weights_tmp)`; `junk d` is what iteration `d` finds in
new memory. -/
def solveDimsJ (c : Cfg) (solvers : Fin (D + 1) → Solver K) (junk : ℕ → ℕ → V) (st : Mesh (D + 1) V × Mesh (D + 1) V) :
    M (Mesh (D + 1) V × Mesh (D + 1) V) :=
  (List.finRange (D + 1)).foldlM (fun st d =>
    if d.val % 2 = 0 then solveDimJ c (solvers d.rev) (junk d.val) st
    else do
      let r ← solveDimJ c (solvers d.rev) (junk d.val) (st.2, st.1)
      pure (r.2, r.1)) st

/-- `solve_for_control_points_` (InterpolationTemplate.hpp:448-580); `junk0` is found by `weights_tmp.resize` (line 491). -/
def solveForControlPointsJ (c : Cfg) (junk0 : ℕ → V) (junk : ℕ → ℕ → V) (t : Template (D + 1) K V) (fm : Mesh (D + 1) V) :
    M (Mesh (D + 1) V) := do
  let w ← initWeights c t.base.spline.order t.base.periodicity t.dims fm
  let tmp : Mesh (D + 1) V := Mesh.mk' fun _ => 1
  let tmp := if D = 0 then tmp else tmp.resizeJ t.dims junk0
  let st ← solveDimsJ c t.solvers junk (w, tmp)
  if (D + 1) % 2 = 0 ∨ D = 0 then pure st.1 else pure st.2

end Template

/-- `InterpolationFunction(periodicity, f_mesh, x_ranges...)` (Interpolation.hpp:92-101) with the memory contents of
`solveForControlPointsJ`. -/
def InterpFn.constructJ (c : Cfg) (junk0 : ℕ → V) (junk : ℕ → ℕ → V) (order : ℕ) (per : Fin (D + 1) → Bool) (fm : Mesh (D + 1) V)
    (x : Fin (D + 1) → XRange K) : M (InterpFn (D + 1) K V) := do
  let t ← Template.construct c order per fm.dims x
  let w ← t.solveForControlPointsJ c junk0 junk fm
  pure { t.base with spline := t.base.spline.loadCtrlPts w }

/-! ## arbitrary arithmetic -/

namespace Fl

variable {K V : Type} [ValArith V] [ScaleArith K V] {D : ℕ}

/-- One iteration of the loop over the dimensions (InterpolationTemplate.hpp:503-572). -/
def solveDimJ (c : Cfg) (s : Solver K) (junk : ℕ → V) (st : Mesh (D + 1) V × Mesh (D + 1) V) : M (Mesh (D + 1) V × Mesh (D + 1) V) := do
  let new := if D = 0 then st.2 else st.2.resizeJ (Template.rightShift st.1.dims) junk
  let hs ← divN st.1.size (st.1.dims (Fin.last D))
  loop 0 hs (st.1, new) fun j st => solveLine c s j st

/-- Loop over the dimensions (InterpolationTemplate.hpp:501-573). -/
def solveDimsJ (c : Cfg) (solvers : Fin (D + 1) → Solver K) (junk : ℕ → ℕ → V) (st : Mesh (D + 1) V × Mesh (D + 1) V) :
    M (Mesh (D + 1) V × Mesh (D + 1) V) :=
  (List.finRange (D + 1)).foldlM (fun st d =>
    if d.val % 2 = 0 then solveDimJ c (solvers d.rev) (junk d.val) st
    else do
      let r ← solveDimJ c (solvers d.rev) (junk d.val) (st.2, st.1)
      pure (r.2, r.1)) st

/-- `solve_for_control_points_` (InterpolationTemplate.hpp:448-580). -/
def solveForControlPointsJ (c : Cfg) (junk0 : ℕ → V) (junk : ℕ → ℕ → V) (t : Template (D + 1) K V) (fm : Mesh (D + 1) V) :
    M (Mesh (D + 1) V) := do
  let w ← initWeights c t.base.spline.order t.base.periodicity t.dims fm
  let tmp : Mesh (D + 1) V := Mesh.mk' fun _ => 1
  let tmp := if D = 0 then tmp else tmp.resizeJ t.dims junk0
  let st ← solveDimsJ c t.solvers junk (w, tmp)
  if (D + 1) % 2 = 0 ∨ D = 0 then pure st.1 else pure st.2

/-- `InterpolationFunction(periodicity, f_mesh, x_ranges...)` (Interpolation.hpp:92-101). -/
def constructJ [CoordArith K] (w : Bool) (c : Cfg) (junk0 : ℕ → V) (junk : ℕ → ℕ → V) (order : ℕ) (per : Fin (D + 1) → Bool) (fm : Mesh (D + 1) V)
    (x : Fin (D + 1) → XRange K) : M (InterpFn (D + 1) K V) := do
  let t ← constructT w c order per fm.dims x
  let w ← solveForControlPointsJ c junk0 junk t fm
  pure { t.base with spline := t.base.spline.loadCtrlPts w }

end Fl

end Intp
