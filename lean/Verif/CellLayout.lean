import Verif.InterpolationTemplate

/-!
# Model of the control point layout chosen by `INTP_CELL_LAYOUT` (BSpline.hpp, Interpolation.hpp)

`dim` is `D + 1`.  `control_points_` is a mesh with one more dimension (BSpline.hpp:51-58).  The other members of the objects are those of the
default layout, so that a spline in cell layout is a `BSpline` whose own `ctrl` is never looked at, together with the mesh of cells.
-/

namespace Intp

variable {D : ℕ}

namespace Cell

variable {V : Type}

/-- `cell_container_dim` (BSpline.hpp:679-685).  In a periodic dimension `size - order + order` is computed with unsigned integers, so that it
is `size` even if the difference wraps; only in other dimensions a wrap is an error. -/
def dims (order : ℕ) (per : Fin (D + 1) → Bool) (n : Fin (D + 1) → ℕ) : M (Fin (D + 2) → ℕ) := do
  let a ← tabM fun d : Fin (D + 1) =>
    if d = Fin.last D then pure (n d + if per d then order else 0)
    else if per d then pure (n d)
    else subM (n d) order
  pure (Fin.snoc (α := fun _ => ℕ) a ((order + 1) ^ D))

/-- The control point stored at `cell_ind_arr` (BSpline.hpp:717-728), `sh` is `local_shift_ind`; `Fin.rev d` is `dim - 2 - d`. -/
def source (n : Fin (D + 1) → ℕ) (ci : Fin (D + 2) → ℕ) (sh : Fin D → ℕ) : M (Fin (D + 1) → ℕ) :=
  tabM fun d : Fin (D + 1) => modM (ci d.castSucc + if h : d.val < D then sh (Fin.rev ⟨d.val, h⟩) else 0) (n d)

/-- Loop over the last dimension of the cell container (BSpline.hpp:713-730); `ci` is `cell_ind_arr`. -/
def fillPoint (order : ℕ) (ctrl : Mesh (D + 1) V) (ci : Fin (D + 2) → ℕ) (cell : Mesh (D + 2) V) : M (Mesh (D + 2) V) :=
  loop 0 (dimsSize fun _ : Fin D => order + 1) cell fun i cell => do
    let sh ← dimwiseIndices (fun _ : Fin D => order + 1) i
    let cp ← source ctrl.dims ci sh
    let v ← ctrl.get cp
    cell.set (Function.update ci (Fin.last (D + 1)) i) v

/-- `fill_cell(begin, end)` (BSpline.hpp:701-733); `line_end` is as many steps after `line_begin` as the line has elements (`C04`). -/
def fill (c : Cfg) (order lineSize : ℕ) (ctrl : Mesh (D + 1) V) (b e : ℕ) (cell : Mesh (D + 2) V) : M (Mesh (D + 2) V) :=
  loop b e cell fun h cell => do
    let a ← dimwiseIndices cell.dims (h * lineSize)
    let it ← cell.lineBegin c (Fin.last D).castSucc a
    loop 0 (cell.dims (Fin.last D).castSucc) cell fun k cell => do
      let ci ← cell.iterIndices (it.1 + k * it.2)
      fillPoint order ctrl ci cell

/-- `generate_cell_layout` (BSpline.hpp:677-758), single thread. -/
def generate [Zero V] (c : Cfg) (order : ℕ) (per : Fin (D + 1) → Bool) (ctrl : Mesh (D + 1) V) : M (Mesh (D + 2) V) := do
  let cd ← dims order per ctrl.dims
  let lineSize := cd (Fin.last D).castSucc * cd (Fin.last (D + 1))
  let cell : Mesh (D + 2) V := Mesh.mk' cd
  let hs ← divN cell.size lineSize
  fill c order lineSize ctrl 0 hs cell

end Cell

variable {K V : Type} [Field K] [LinearOrder K] [FloorRing K] [AddCommGroup V] [Module K V]

/-- `BSpline` with `INTP_CELL_LAYOUT` (BSpline.hpp:630-640); `spline.ctrl` is not part of the object and never used. -/
structure CellSpline (D : ℕ) (K V : Type) where
  spline : BSpline (D + 1) K V
  cell : Mesh (D + 2) V

namespace CellSpline

/-- `ind_arr` (BSpline.hpp:263-268, 321-326, 434-439). -/
def cellIndex (b : CellSpline D K V) (segs : Fin (D + 1) → K × ℕ) : M (Fin (D + 2) → ℕ) := do
  let a ← tabM fun d => subM (segs d).2 b.spline.order
  pure (Fin.snoc (α := fun _ => ℕ) a 0)

/-- Product of an initial value with the basis values of all dimensions for combined index `i` (BSpline.hpp:329-333, `combined_ind` is the
second component). -/
def scale {W : Type} [AddCommGroup W] [Module K W] (order : ℕ) (base : Fin (D + 1) → List K) (i : ℕ) (v : W) : M W := do
  let r ← (List.finRange (D + 1)).foldlM (fun (acc : W × ℕ) d => do
    let m ← modM acc.2 (order + 1)
    let e ← rd (base d) m
    let q ← divN acc.2 (order + 1)
    pure (e • acc.1, q)) (v, i)
  pure r.1

/-- `operator()` (BSpline.hpp:305-335, 367), cell layout. -/
def eval (c : Cfg) (b : CellSpline D K V) (x : Fin (D + 1) → K × ℕ) : M V := do
  let segs ← tabM fun d => b.spline.getKnotIter' d (x d).1 (x d).2
  let base ← tabM fun d => baseSplineValue b.spline.order (b.spline.knots d) (segs d).2 (segs d).1 b.spline.order
  let ind ← b.cellIndex segs
  let it ← b.cell.lineBegin c (Fin.last (D + 1)) ind
  loop 0 ((b.spline.order + 1) ^ (D + 1)) 0 fun i v => do
    let p ← rd b.cell.storage (it.1 + i * it.2)
    let w ← scale b.spline.order base i p
    pure (v + w)

/-- Loop body filling the local buffers of `derivative_at` (BSpline.hpp:441-455); `off`, `step` are those of `cell_iter`. -/
def derivFillBody (b : CellSpline D K V) (base : Fin (D + 1) → List K) (off step i : ℕ)
    (st : Mesh (D + 1) K × Mesh (D + 1) V) : M (Mesh (D + 1) K × Mesh (D + 1) V) := do
  let a ← BSpline.localIndices (b.spline.order + 1) (fun _ : Fin (D + 1) => false) i
  let coef ← (List.finRange (D + 1)).foldlM (fun (acc : K) d => do
    let e ← rd (base d) (a d)
    pure (acc * e)) (1 : K)
  let sv ← st.1.set a coef
  let v ← rd b.cell.storage (off + i * step)
  let cv ← st.2.set a v
  pure (sv, cv)

/-- `derivative_at` (BSpline.hpp:393-455, 489-532), cell layout; see `BSpline.derivativeAt`. -/
def derivativeAt (c : Cfg) (b : CellSpline D K V) (x : Fin (D + 1) → K × ℕ × ℕ) : M V := do
  if ∃ d, b.spline.order < (x d).2.2 then pure 0
  else do
    let p : Fin (D + 1) → ℕ := fun d => b.spline.order - (x d).2.2
    let segs ← tabM fun d => b.spline.getKnotIter' d (x d).1 (x d).2.1
    let base ← tabM fun d => baseSplineValue b.spline.order (b.spline.knots d) (segs d).2 (segs d).1 (p d)
    let ind ← b.cellIndex segs
    let it ← b.cell.lineBegin c (Fin.last (D + 1)) ind
    let st ← loop 0 ((b.spline.order + 1) ^ (D + 1)) (Mesh.mk' fun _ => b.spline.order + 1, Mesh.mk' fun _ => b.spline.order + 1)
      fun i st => b.derivFillBody base it.1 it.2 i st
    let cv ← (List.finRange (D + 1)).foldlM (fun m d => b.spline.derivReduceDim c segs d (p d) m) st.2
    loop 0 st.1.size 0 fun i v => do
      let sv ← rd st.1.storage i
      let q ← rd cv.storage i
      pure (v + sv • q)

/-- `calculate_cell_dim_from_knots` (BSpline.hpp:667-675). -/
def dimsFromKnots (b : CellSpline D K V) : M (Fin (D + 2) → ℕ) := do
  let a ← tabM fun d : Fin (D + 1) => do
    let k ← subM (b.spline.knots d).length (b.spline.order + 1)
    subM k (if d = Fin.last D then 0 else b.spline.order)
  pure (Fin.snoc (α := fun _ => ℕ) a ((b.spline.order + 1) ^ D))

/-- `pre_calc_coef` (BSpline.hpp:250-270): the captures of the lambda, `base_spline_values_1d` and `total_offset`. -/
def preCalcCoef (b : CellSpline D K V) (x : Fin (D + 1) → K × ℕ) : M ((Fin (D + 1) → List K) × ℕ) := do
  let segs ← tabM fun d => b.spline.getKnotIter' d (x d).1 (x d).2
  let base ← tabM fun d => baseSplineValue b.spline.order (b.spline.knots d) (segs d).2 (segs d).1 b.spline.order
  let ind ← b.cellIndex segs
  let cd ← b.dimsFromKnots
  pure (base, indexing cd ind)

/-- The lambda returned by `pre_calc_coef` (BSpline.hpp:273-295), called with the spline `b`. -/
def proxyCall (p : (Fin (D + 1) → List K) × ℕ) (b : CellSpline D K V) : M V :=
  loop 0 (b.cell.dims (Fin.last (D + 1)) * (b.spline.order + 1)) 0 fun i v => do
    let coef ← if D = 0 then rd (p.1 0) i else scale b.spline.order p.1 i (1 : K)
    let q ← rd b.cell.storage (p.2 + i)
    pure (v + coef • q)

end CellSpline

/-- `InterpolationFunction` with `INTP_CELL_LAYOUT`: the members other than the control points, and the mesh of cells. -/
structure CellFn (D : ℕ) (K V : Type) where
  fn : InterpFn (D + 1) K V
  cell : Mesh (D + 2) V

namespace CellFn

/-- The underlying spline. -/
def spline (f : CellFn D K V) : CellSpline D K V := ⟨f.fn.spline, f.cell⟩

/-- `operator()` (Interpolation.hpp:135-146, 297-300), cell layout. -/
def call (c : Cfg) (f : CellFn D K V) (x : Fin (D + 1) → K) : M V := do
  let h ← tabM fun d => f.fn.hint d (x d)
  f.spline.eval c fun d => (x d, h d)

/-- `derivative` (Interpolation.hpp:177-181, 302-319), cell layout. -/
def derivative (c : Cfg) (f : CellFn D K V) (x : Fin (D + 1) → K) (m : Fin (D + 1) → ℕ) : M V := do
  let h ← tabM fun d => f.fn.hint d (x d)
  f.spline.derivativeAt c fun d => (x d, h d, m d)

/-- `eval_proxy` (Interpolation.hpp:499-505). -/
def evalProxy (f : CellFn D K V) (x : Fin (D + 1) → K) : M ((Fin (D + 1) → List K) × ℕ) := do
  let h ← tabM fun d => f.fn.hint d (x d)
  f.spline.preCalcCoef fun d => (x d, h d)

end CellFn

namespace Template

/-- `interpolate(f_mesh) const&` (InterpolationTemplate.hpp:118-125) with `load_ctrlPts` of the cell layout (BSpline.hpp:229-232). -/
def interpolateCell (c : Cfg) (t : Template (D + 1) K V) (fm : Mesh (D + 1) V) : M (CellFn D K V) := do
  let w ← t.solveForControlPoints c fm
  let cell ← Cell.generate c t.base.spline.order t.base.spline.periodicity w
  pure ⟨t.base, cell⟩

/-- `eval_proxy` of a template (InterpolationTemplate.hpp:148-167): that of `base_`, whose control points are an empty mesh (BSpline.hpp:178-179). -/
def evalProxy (t : Template (D + 1) K V) (x : Fin (D + 1) → K) : M ((Fin (D + 1) → List K) × ℕ) :=
  (⟨t.base, ⟨fun _ => 0, []⟩⟩ : CellFn D K V).evalProxy x

end Template

end Intp
