import Verif.Spec.Interp
import Mathlib.Data.Rat.Cast.Defs

/-!
# Vocabulary for approximation: where functions are compared, how dense the data points are, which axes have known constants
-/

namespace Intp

variable {K : Type} [Field K] [LinearOrder K]

/-- The coordinates of a dimension at which an interpolation is compared with the interpolated function: from the first to the last data
point, and all coordinates if the dimension is periodic. -/
def XRange.dom (N : ℕ) (per : Bool) (x : XRange K) : Set K := {y | per = false → x.node N 0 ≤ y ∧ y ≤ x.node N (N - 1)}

/-- Neighbouring data points are at most `H` apart. -/
def XRange.Gap (N : ℕ) (x : XRange K) (H : K) : Prop := ∀ i, i + 1 < N → x.node N (i + 1) - x.node N i ≤ H

/-- Neighbouring data points are at least `h` apart. -/
def XRange.MinGap (N : ℕ) (x : XRange K) (h : K) : Prop := ∀ i, i + 1 < N → h ≤ x.node N (i + 1) - x.node N i

/-- Dimensions of low order: order 1 with any coordinates, orders 2 and 3 with uniform coordinates, orders 4 to 6 with uniform coordinates if
the dimension is periodic. -/
def XRange.Low (o : ℕ) (per : Bool) (x : XRange K) : Prop :=
  o = 1 ∨ (∃ a b, x = .uniform a b) ∧ (o = 2 ∨ o = 3 ∨ per = true ∧ 4 ≤ o ∧ o ≤ 6)

/-- Bound of the inverse of the matrix of a dimension of low order: 1 for order 1, 10 for orders 2 and 3, 50 for orders 4 to 6. -/
def stab (o : ℕ) : ℚ := if o = 1 then 1 else if o ≤ 3 then 10 else 50

end Intp
