import Verif.FloatModel

/-!
# Function objects without knots or without control points

`InterpolationFunction() = default`, `interpolate(f_mesh) &&` and `interpolate(interp, f_mesh)` when solving throws, in any arithmetic.
-/

namespace Intp.Fl

variable {K V : Type} [CoordArith K] [ValArith V] [ScaleArith K V] {D : ℕ}

/-- `InterpolationFunction() = default` (Interpolation.hpp:123-125) through `BSpline()` (BSpline.hpp:178-186): no dimension periodic, no knots, no control
points.  `dx_` and `uniform_` are not initialised, and so arbitrary; `range_` is arbitrary as well, though zero. -/
def defaultFn (order : ℕ) (range : Fin D → K × K) (dx : Fin D → K) (uniform : Fin D → Bool) : InterpFn D K V :=
  ⟨⟨order, fun _ => false, fun _ => [], ⟨fun _ => 0, []⟩, range⟩, dx, uniform⟩

/-- `interpolate(f_mesh) const&` (InterpolationTemplate.hpp:118-125). -/
def interpolateT (c : Cfg) (t : Template (D + 1) K V) (fm : Mesh (D + 1) V) : M (InterpFn (D + 1) K V) := do
  let w ← solveForControlPoints c t fm
  pure { t.base with spline := t.base.spline.loadCtrlPts w }

/-- `interpolate(f_mesh) &&` (InterpolationTemplate.hpp:127-133): the result and the template after it.  The implicit move constructor leaves the vectors of
`base_` (knots, elements of the control points) empty and copies the rest. -/
def interpolateMoveT (c : Cfg) (t : Template (D + 1) K V) (fm : Mesh (D + 1) V) : M (InterpFn (D + 1) K V × Template (D + 1) K V) := do
  let w ← solveForControlPoints c t fm
  let b : InterpFn (D + 1) K V := { t.base with spline := t.base.spline.loadCtrlPts w }
  pure (b, { t with base := { t.base with spline := { t.base.spline with knots := fun _ => [], ctrl := ⟨w.dims, []⟩ } } })

/-- `interpolate(interp, f_mesh) const&` (InterpolationTemplate.hpp:135-143) when `solve_for_control_points_` ends with `w`, which may be an exception: the
way the call ends, and what `interp` holds afterwards. -/
def interpolateIntoT (t : Template (D + 1) K V) (interp : InterpFn (D + 1) K V) (w : M (Mesh (D + 1) V)) : M Unit × InterpFn (D + 1) K V :=
  let interp := { interp with
    spline := { interp.spline with
      order := t.base.spline.order, periodicity := t.base.spline.periodicity, knots := t.base.spline.knots,
      ctrl := t.base.spline.ctrl, range := t.base.spline.range },
    dx := t.base.dx, uniform := t.base.uniform }
  match w with
  | .ok w => (.ok (), { interp with spline := interp.spline.loadCtrlPts w })
  | .error e => (.error e, interp)

end Intp.Fl
