import Verif.TestSuite
import Verif.CellLayout

/-!
# Validation of the model: the project's own tests in cell layout

The checks of `TestSuite` with `INTP_CELL_LAYOUT` and, for interpolation, without dummy points; so the tests are built (test/CMakeLists.txt:46-47).  Tests in three dimensions are left out for their size.  The lines
given are those of test/src/bspline-test.cpp and test/src/interpolation-test.cpp.
-/

namespace Intp.TestSuite

namespace Spline

/-- The constructor from control points and knots (BSpline.hpp:188-210) in cell layout. -/
def mkC {D : ℕ} (per : Fin (D + 1) → Bool) (ctrl : Mesh (D + 1) ℚ) (kn : Fin (D + 1) → List ℚ) : M (CellSpline D ℚ ℚ) := do
  let g ← BSpline.ofParts cfgN 3 per ctrl kn
  let cell ← Cell.generate cfgN 3 per ctrl
  pure ⟨g, cell⟩

/-- Values at points; without hints the search begins at `order`. -/
def runC {D : ℕ} (per : Fin (D + 1) → Bool) (ctrl : Mesh (D + 1) ℚ) (kn : Fin (D + 1) → List ℚ) (xs : List (Fin (D + 1) → ℚ)) : M (List ℚ) := do
  let g ← mkC per ctrl kn
  xs.mapM fun x => g.eval cfgN fun d => (x d, 3)

/-- Derivatives at points. -/
def runCD {D : ℕ} (per : Fin (D + 1) → Bool) (ctrl : Mesh (D + 1) ℚ) (kn : Fin (D + 1) → List ℚ) (m : Fin (D + 1) → ℕ) (xs : List (Fin (D + 1) → ℚ)) :
    M (List ℚ) := do
  let g ← mkC per ctrl kn
  xs.mapM fun x => g.derivativeAt cfgN fun d => (x d, 3, m d)

/-- Values through `pre_calc_coef`. -/
def runCP {D : ℕ} (per : Fin (D + 1) → Bool) (ctrl : Mesh (D + 1) ℚ) (kn : Fin (D + 1) → List ℚ) (xs : List (Fin (D + 1) → ℚ)) : M (List ℚ) := do
  let g ← mkC per ctrl kn
  xs.mapM fun x => do
    let p ← g.preCalcCoef fun d => (x d, 3)
    CellSpline.proxyCall p g

/-- 1D (bspline-test.cpp:70-74). -/
example : (passes tol (runC ![false] ⟨![5], cp⟩ ![knots] coords1) vals1) = true := by decide +kernel

/-- 2D (119-123). -/
example : (passes tol (runC ![false, false] ⟨![5, 5], cp2⟩ ![knots, knots] coords2) vals2) = true := by decide +kernel

/-- 2D, second dimension periodic (230-236). -/
example : (passes tol (runC ![false, true] ⟨![5, 5], cp2⟩ ![knots, knots2] coords2) vals2p) = true := by decide +kernel

/-- Derivative of order 0 (255-262). -/
example : (passes tol (runCD ![false] ⟨![5], cp⟩ ![knots] ![0] coords1) vals1) = true := by decide +kernel

/-- First derivative (267-274). -/
example : (passes tol (runCD ![false] ⟨![5], cp⟩ ![knots] ![1] coords1) vals1d1) = true := by decide +kernel

/-- Second derivative (279-286). -/
example : (passes tol (runCD ![false] ⟨![5], cp⟩ ![knots] ![2] coords1) vals1d2) = true := by decide +kernel

/-- Derivative of orders 2, 0 (306-315). -/
example : (passes tol (runCD ![false, false] ⟨![5, 5], cp2⟩ ![knots, knots] ![2, 0] coords2) vals2d20) = true := by decide +kernel

/-- Derivative of orders 1, 1 (320-329). -/
example : (passes tol (runCD ![false, false] ⟨![5, 5], cp2⟩ ![knots, knots] ![1, 1] coords2) vals2d11) = true := by decide +kernel

/-- Derivative of orders 1, 1 with a periodic dimension (342-351). -/
example : (passes tol (runCD ![false, true] ⟨![5, 5], cp2⟩ ![knots, knots2] ![1, 1] coords2) vals2p11) = true := by decide +kernel

/-- Proxy (357-365). -/
example : (passes tol (runCP ![false] ⟨![5], cp⟩ ![knots] coords1) vals1) = true := by decide +kernel

end Spline

namespace Interp

/-- `InterpolationFunction(per, mesh, ranges...)` in cell layout. -/
def mkC {D : ℕ} (o : ℕ) (per : Fin (D + 1) → Bool) (fm : Mesh (D + 1) ℚ) (x : Fin (D + 1) → XRange ℚ) : M (CellFn D ℚ ℚ) := do
  let t ← Template.construct (V := ℚ) cfgN o per fm.dims x
  t.interpolateCell cfgN fm

/-- Values at points. -/
def runC {D : ℕ} (o : ℕ) (per : Fin (D + 1) → Bool) (fm : Mesh (D + 1) ℚ) (x : Fin (D + 1) → XRange ℚ) (xs : List (Fin (D + 1) → ℚ)) : M (List ℚ) := do
  let g ← mkC o per fm x
  xs.mapM (g.call cfgN)

/-- The same with `at`. -/
def runCAt {D : ℕ} (o : ℕ) (per : Fin (D + 1) → Bool) (fm : Mesh (D + 1) ℚ) (x : Fin (D + 1) → XRange ℚ) (xs : List (Fin (D + 1) → ℚ)) : M (List ℚ) := do
  let g ← mkC o per fm x
  xs.mapM fun x => do
    g.fn.boundaryCheck x
    g.call cfgN x

/-- The same with `derivative_at`. -/
def runCD {D : ℕ} (o : ℕ) (per : Fin (D + 1) → Bool) (fm : Mesh (D + 1) ℚ) (x : Fin (D + 1) → XRange ℚ) (m : Fin (D + 1) → ℕ)
    (xs : List (Fin (D + 1) → ℚ)) : M (List ℚ) := do
  let g ← mkC o per fm x
  xs.mapM fun x => do
    g.fn.boundaryCheck x
    g.derivative cfgN x m

/-- Order 0 (interpolation-test.cpp:65-67): the datum at the rounded coordinate. -/
example : (passes tol (runC 0 ![false] (Mesh.ofList (data cfgN false)) (fun _ => (.uniform 0 12)) coords1) (coords1.map fun x => f.getD ⌊x 0 + 1 / 2⌋.toNat 0)) = true := by decide +kernel

/-- Order 1 (74-76). -/
example : (passes tol (runC 1 ![false] (Mesh.ofList (data cfgN false)) (fun _ => (.uniform 0 12)) coords1) (coords1.map fun x => linear grid false (x 0))) = true := by decide +kernel

/-- Order 3 (83-85). -/
example : (passes tol (runC 3 ![false] (Mesh.ofList (data cfgN false)) (fun _ => (.uniform 0 6)) coordsHalf) vals1) = true := by decide +kernel

/-- Extrapolation (92-97). -/
example : (within tol (runC 3 ![false] (Mesh.ofList (data cfgN false)) (fun _ => (.uniform 0 6)) [![-1/2], ![13/2]]) [-6.3167718907512755, -4.508470210464194]) = true := by decide +kernel

/-- Order 1, periodic (361-363). -/
example : (passes tol (runC 1 ![true] (Mesh.ofList (data cfgN true)) (fun _ => (.uniform 0 12)) coords1) (coords1.map fun x => linear grid true (x 0))) = true := by decide +kernel

/-- Order 4, periodic (370-372). -/
example : (passes tol (runC 4 ![true] (Mesh.ofList (data cfgN true)) (fun _ => (.uniform 0 12)) coords1) vals1p) = true := by decide +kernel

/-- Periodic, one period to the left and to the right (379-384). -/
example : (within tol (runC 4 ![true] (Mesh.ofList (data cfgN true)) (fun _ => (.uniform 0 12)) [fun _ => (coords1.headD 0) 0 - 12, fun _ => (coords1.headD 0) 0 + 12]) [vals1p.getD 0 0, vals1p.getD 0 0]) = true := by decide +kernel

/-- First derivative (439-442). -/
example : (passes tol (runCD 3 ![false] (Mesh.ofList (data cfgN false)) (fun _ => (.uniform 0 6)) ![1] coordsHalf) vals1d1) = true := by decide +kernel

/-- First derivative, periodic (455-461). -/
example : (passes tol (runCD 4 ![true] (Mesh.ofList (data cfgN true)) (fun _ => (.uniform 0 12)) ![1] coords1) vals1pd1) = true := by decide +kernel

/-- Order 1 over explicit coordinates (559-561). -/
example : (passes tol (runC 1 ![false] (Mesh.ofList (data cfgN false)) (fun _ => (.coords inputCoords)) coords1) (coords1.map fun x => linear inputCoords false (x 0))) = true := by decide +kernel

/-- Order 3 over explicit coordinates (568-570). -/
example : (passes tol (runC 3 ![false] (Mesh.ofList (data cfgN false)) (fun _ => (.coords inputCoords)) coords1) vals1n) = true := by decide +kernel

/-- Order 1 over explicit periodic coordinates (614-616). -/
example : (passes tol (runC 1 ![true] (Mesh.ofList (data cfgN true)) (fun _ => (.coords inputCoords)) coords1) (coords1.map fun x => linear inputCoords true (x 0))) = true := by decide +kernel

/-- Order 4 over explicit periodic coordinates (623-625). -/
example : (passes tol (runC 4 ![true] (Mesh.ofList (data cfgN true)) (fun _ => (.coords inputCoords)) coords1) vals1np) = true := by decide +kernel

/-- 2D (151-152). -/
example : (passes tol (runC 3 ![false, false] ⟨![5, 5], f2⟩ ![.uniform 0 4, .uniform 0 4] coords2) vals2) = true := by decide +kernel

/-- 2D, `at(-1, 1)` throws (160). -/
example : (err? (runCAt 3 ![false, false] ⟨![5, 5], f2⟩ ![.uniform 0 4, .uniform 0 4] [![-1, 1]]) == some .domainError) = true := by decide +kernel

/-- 2D, second dimension periodic (414-416). -/
example : (passes tol (runC 3 ![false, true] ⟨![5, 4], f2y⟩ ![.uniform 0 4, .uniform 0 4] coords2) vals2p) = true := by decide +kernel

/-- 2D, derivative of orders 2, 1 (478-483). -/
example : (passes tol (runCD 3 ![false, false] ⟨![5, 5], f2⟩ ![.uniform 0 4, .uniform 0 4] ![2, 1] coords2) vals2d21) = true := by decide +kernel

/-- 2D, first dimension periodic, second with explicit coordinates (663-665). -/
example : (passes tol (runC 3 ![true, false] ⟨![4, 5], f2x⟩ ![.uniform 0 4, .coords coordsFor2] coords2) vals2pn) = true := by decide +kernel

/-- Order 0, periodic (314, 352-354). -/
example : (passes tol (runC 0 ![true] (Mesh.ofList (data cfgN true)) (fun _ => (.uniform 0 12)) coords1) (coords1.map fun x => f.getD ⌊x 0 + 1 / 2⌋.toNat 0)) = true := by decide +kernel

end Interp

end Intp.TestSuite
