import Verif.CellLayout
import Verif.FloatModel

/-!
# The control point layout of `INTP_CELL_LAYOUT` over arbitrary arithmetic

The functions of `CellLayout.lean` that compute with coordinates or values, again, over types of which only the operations are known, with the
operations in the order of the source.  `Cell.generate` only moves control points and is shared.
-/

namespace Intp.Fl

open CoordArith ScaleArith

variable {K V : Type} [CoordArith K] [ValArith V] [ScaleArith K V] {D : ℕ}

omit [CoordArith K] in
/-- `coef = *cell_iter; for (d …) coef *= base_spline_values_1d[d][combined_ind % (order + 1)]` (BSpline.hpp:329-333); `coef` is a value and
`combined_ind` the second component. -/
def cellScale (order : ℕ) (base : Fin (D + 1) → List K) (i : ℕ) (v : V) : M V := do
  let r ← (List.finRange (D + 1)).foldlM (fun (acc : V × ℕ) d => do
    let m ← modM acc.2 (order + 1)
    let e ← rd (base d) m
    let q ← divN acc.2 (order + 1)
    pure (e • acc.1, q)) (v, i)
  pure r.1

/-- The same loop in the lambda of `pre_calc_coef` (BSpline.hpp:283-291), where `coef` is a coordinate and starts with 1. -/
def cellCoef (order : ℕ) (base : Fin (D + 1) → List K) (i : ℕ) : M K := do
  let r ← (List.finRange (D + 1)).foldlM (fun (acc : K × ℕ) d => do
    let m ← modM acc.2 (order + 1)
    let e ← rd (base d) m
    let q ← divN acc.2 (order + 1)
    pure (acc.1 * e, q)) ((1 : K), i)
  pure r.1

/-- `operator()` (BSpline.hpp:305-335, 367), cell layout. -/
def cellEval (c : Cfg) (b : CellSpline D K V) (x : Fin (D + 1) → K × ℕ) : M V := do
  let segs ← tabM fun d => getKnotIter' b.spline d (x d).1 (x d).2
  let base ← tabM fun d => baseSplineValue b.spline.order (b.spline.knots d) (segs d).2 (segs d).1 b.spline.order
  let ind ← b.cellIndex segs
  let it ← b.cell.lineBegin c (Fin.last (D + 1)) ind
  loop 0 ((b.spline.order + 1) ^ (D + 1)) 0 fun i v => do
    let p ← rd b.cell.storage (it.1 + i * it.2)
    let w ← cellScale b.spline.order base i p
    pure (v + w)

/-- Loop body filling the local buffers of `derivative_at` (BSpline.hpp:441-455); `off`, `step` are those of `cell_iter`. -/
def cellDerivFillBody (b : CellSpline D K V) (base : Fin (D + 1) → List K) (off step i : ℕ)
    (st : Mesh (D + 1) K × Mesh (D + 1) V) : M (Mesh (D + 1) K × Mesh (D + 1) V) := do
  let a ← BSpline.localIndices (b.spline.order + 1) (fun _ : Fin (D + 1) => false) i
  let coef ← (List.finRange (D + 1)).foldlM (fun (acc : K) d => do
    let e ← rd (base d) (a d)
    pure (acc * e)) (1 : K)
  let sv ← st.1.set a coef
  let v ← rd b.cell.storage (off + i * step)
  let cv ← st.2.set a v
  pure (sv, cv)

/-- `derivative_at` (BSpline.hpp:393-455, 489-532), cell layout. -/
def cellDerivativeAt (c : Cfg) (b : CellSpline D K V) (x : Fin (D + 1) → K × ℕ × ℕ) : M V := do
  if ∃ d, b.spline.order < (x d).2.2 then pure 0
  else do
    let p : Fin (D + 1) → ℕ := fun d => b.spline.order - (x d).2.2
    let segs ← tabM fun d => getKnotIter' b.spline d (x d).1 (x d).2.1
    let base ← tabM fun d => baseSplineValue b.spline.order (b.spline.knots d) (segs d).2 (segs d).1 (p d)
    let ind ← b.cellIndex segs
    let it ← b.cell.lineBegin c (Fin.last (D + 1)) ind
    let st ← loop 0 ((b.spline.order + 1) ^ (D + 1)) (Mesh.mk' fun _ => b.spline.order + 1, Mesh.mk' fun _ => b.spline.order + 1)
      fun i st => cellDerivFillBody b base it.1 it.2 i st
    let cv ← (List.finRange (D + 1)).foldlM (fun m d => derivReduceDim c b.spline segs d (p d) m) st.2
    loop 0 st.1.size 0 fun i v => do
      let sv ← rd st.1.storage i
      let q ← rd cv.storage i
      pure (v + sv • q)

/-- `pre_calc_coef` (BSpline.hpp:250-270): the captures of the lambda, `base_spline_values_1d` and `total_offset`. -/
def preCalcCoef (b : CellSpline D K V) (x : Fin (D + 1) → K × ℕ) : M ((Fin (D + 1) → List K) × ℕ) := do
  let segs ← tabM fun d => getKnotIter' b.spline d (x d).1 (x d).2
  let base ← tabM fun d => baseSplineValue b.spline.order (b.spline.knots d) (segs d).2 (segs d).1 b.spline.order
  let ind ← b.cellIndex segs
  let cd ← b.dimsFromKnots
  pure (base, indexing cd ind)

/-- The lambda returned by `pre_calc_coef` (BSpline.hpp:273-295), called with the spline `b`. -/
def proxyCall (p : (Fin (D + 1) → List K) × ℕ) (b : CellSpline D K V) : M V :=
  loop 0 (b.cell.dims (Fin.last (D + 1)) * (b.spline.order + 1)) 0 fun i v => do
    let coef ← if D = 0 then rd (p.1 0) i else cellCoef b.spline.order p.1 i
    let q ← rd b.cell.storage (p.2 + i)
    pure (v + coef • q)

/-- `operator()` of the interpolation function (Interpolation.hpp:135-146, 297-300), cell layout. -/
def cellCall (c : Cfg) (f : CellFn D K V) (x : Fin (D + 1) → K) : M V := do
  let h ← tabM fun d => hint f.fn d (x d)
  cellEval c f.spline fun d => (x d, h d)

/-- `derivative` of the interpolation function (Interpolation.hpp:177-181, 302-319), cell layout. -/
def cellDerivative (c : Cfg) (f : CellFn D K V) (x : Fin (D + 1) → K) (m : Fin (D + 1) → ℕ) : M V := do
  let h ← tabM fun d => hint f.fn d (x d)
  cellDerivativeAt c f.spline fun d => (x d, h d, m d)

/-- `eval_proxy` (Interpolation.hpp:499-505). -/
def evalProxy (f : CellFn D K V) (x : Fin (D + 1) → K) : M ((Fin (D + 1) → List K) × ℕ) := do
  let h ← tabM fun d => hint f.fn d (x d)
  preCalcCoef f.spline fun d => (x d, h d)

/-- `interpolate(f_mesh) const&` (InterpolationTemplate.hpp:118-125) with `load_ctrlPts` of the cell layout (BSpline.hpp:229-232). -/
def interpolateCell (c : Cfg) (t : Template (D + 1) K V) (fm : Mesh (D + 1) V) : M (CellFn D K V) := do
  let w ← solveForControlPoints c t fm
  let cell ← Cell.generate c t.base.spline.order t.base.spline.periodicity w
  pure ⟨t.base, cell⟩

/-- `eval_proxy` of a template (InterpolationTemplate.hpp:148-167): that of `base_`, whose control points are an empty mesh (BSpline.hpp:178-179). -/
def templateProxy (t : Template (D + 1) K V) (x : Fin (D + 1) → K) : M ((Fin (D + 1) → List K) × ℕ) :=
  evalProxy (⟨t.base, ⟨fun _ => 0, []⟩⟩ : CellFn D K V) x

end Intp.Fl
