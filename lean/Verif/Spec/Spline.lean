import Verif.BSpline
import Verif.Proofs.Basis
import Verif.Proofs.BaseSpline

/-!
# Specification of tensor-product splines

What a spline object means: well-formedness of its data and the weight of every control point at a point.
-/

namespace Intp

open Finset Polynomial

variable {K V : Type} [Field K] [LinearOrder K] [AddCommGroup V] [Module K V] {D : ℕ}

namespace BSpline

/-- Knots of dimension `d` as a function. -/
def kn (b : BSpline D K V) (d : Fin D) : ℕ → K := knotFn (b.knots d)

/-- Index of the last segment of the domain. -/
def last (b : BSpline D K V) (d : Fin D) : ℕ := (b.knots d).length - b.order - 2

/-- A spline object in a usable state: storage of the right size, sorted knots, non-degenerate first and last segment,
matching numbers of knots and control points.  Knot `0` need not be in order with the others (`first` says so if the order is `0`; for
larger orders the value of knot `0` does not matter, and small periodic splines have an arbitrary value there). -/
structure WF (b : BSpline D K V) : Prop where
  ctrl : b.ctrl.storage.length = ∏ d, b.ctrl.dims d
  mono : ∀ d i j, 1 ≤ i → i ≤ j → j < (b.knots d).length → b.kn d i ≤ b.kn d j
  len : ∀ d, 2 * b.order + 2 ≤ (b.knots d).length
  first : ∀ d, b.kn d b.order < b.kn d (b.order + 1)
  lastSeg : ∀ d, b.kn d (b.last d) < b.kn d (b.last d + 1)
  aper : ∀ d, b.periodicity d = false → (b.knots d).length = b.ctrl.dims d + b.order + 1
  per : ∀ d, b.periodicity d = true → 0 < b.ctrl.dims d ∧ (b.range d).1 < (b.range d).2

/-- `w` is the coordinate `x` brought into the range `[first, second]` of a periodic dimension (`x` itself in other dimensions).
Coordinates left of the range go to `(first, second]`, all others to `[first, second)`. -/
def IsWrap (b : BSpline D K V) (d : Fin D) (x w : K) : Prop :=
  if b.periodicity d then
    (∃ k : ℤ, w = x + k * ((b.range d).2 - (b.range d).1)) ∧
      if x < (b.range d).1 then (b.range d).1 < w ∧ w ≤ (b.range d).2 else (b.range d).1 ≤ w ∧ w < (b.range d).2
  else w = x

/-- The control point that the basis function with index `i` multiplies. -/
def ctrlOf (b : BSpline D K V) (d : Fin D) (i : ℕ) : ℕ := if b.periodicity d then i % b.ctrl.dims d else i

/-- Weight of control point `J` of dimension `d`, `m`-th derivative, on segment `s`, at `x`: the sum of the derivatives of the
polynomial pieces of all basis functions that multiply it. -/
noncomputable def weight (b : BSpline D K V) (d : Fin D) (s m : ℕ) (x : K) (J : ℕ) : K :=
  ∑ i ∈ (Finset.range (s + 1)).filter (fun i => b.ctrlOf d i = J), (derivative^[m] (pieceP (b.kn d) s b.order i)).eval x

/-- Tensor-product value for given weights: `∑_J (∏_d w_d(J_d)) C_J`. -/
def tensorVal (dims : Fin D → ℕ) (w : Fin D → ℕ → K) (C : (Fin D → ℕ) → V) : V :=
  ∑ J ∈ Fintype.piFinset (fun d => Finset.range (dims d)), (∏ d, w d (J d)) • C J

end BSpline

end Intp
