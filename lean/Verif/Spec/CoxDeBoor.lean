import Mathlib.Algebra.Order.Field.Basic

/-!
# Specification: B-spline basis functions

Textbook definitions, independent of the model.  Division by zero is `0` (Lean's convention, which is the usual convention
for repeated knots).
-/

namespace Intp

variable {K : Type} [Field K] [LinearOrder K]

/-- Cox–de Boor recursion: the B-spline of degree `k` with index `i` on the knots `t`, at `x`. -/
def cox (t : ℕ → K) : ℕ → ℕ → K → K
  | 0, i, x => if t i ≤ x ∧ x < t (i + 1) then 1 else 0
  | k + 1, i, x =>
    (x - t i) / (t (i + k + 1) - t i) * cox t k i x +
    (t (i + k + 2) - x) / (t (i + k + 2) - t (i + 1)) * cox t k (i + 1) x

/-- Cox–de Boor recursion with the usual convention at the right end `T` of the domain: there the degree-0 functions are the indicators of
the half-open segments `(t i, t (i+1)]`, everywhere else of `[t i, t (i+1))`. -/
def coxC (T : K) (t : ℕ → K) : ℕ → ℕ → K → K
  | 0, i, x => if (if x = T then t i < x ∧ x ≤ t (i + 1) else t i ≤ x ∧ x < t (i + 1)) then 1 else 0
  | k + 1, i, x =>
    (x - t i) / (t (i + k + 1) - t i) * coxC T t k i x +
    (t (i + k + 2) - x) / (t (i + k + 2) - t (i + 1)) * coxC T t k (i + 1) x

/-- Away from the right end this is the plain recursion. -/
theorem coxC_eq_cox {T x : K} (h : x ≠ T) (t : ℕ → K) : ∀ k i, coxC T t k i x = cox t k i x
  | 0, i => by simp [coxC, cox, h]
  | k + 1, i => by rw [coxC, cox, coxC_eq_cox h t k i, coxC_eq_cox h t k (i + 1)]

/-- The polynomial piece of the B-spline of degree `k`, index `i`, on the segment `[t s, t (s+1))`, at `x`: same recursion, started from
the indicator of the segment. -/
def piece (t : ℕ → K) (s : ℕ) : ℕ → ℕ → K → K
  | 0, i, _ => if i = s then 1 else 0
  | k + 1, i, x =>
    (x - t i) / (t (i + k + 1) - t i) * piece t s k i x +
    (t (i + k + 2) - x) / (t (i + k + 2) - t (i + 1)) * piece t s k (i + 1) x

/-- The function a knot vector (a list) stands for; `0` beyond its end. -/
def knotFn (l : List K) (i : ℕ) : K := l.getD i 0

end Intp
