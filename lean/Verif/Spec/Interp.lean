import Verif.Interpolation
import Verif.Proofs.BaseSpline

/-!
# Specification of interpolation problems

Data points of a dimension and the inputs for which the library is meant to work.
-/

namespace Intp

variable {K V : Type} [Field K] [LinearOrder K] {D : ℕ}

/-- Coordinate of data point `i` of a dimension with `N` data points (a periodic dimension counts its first point twice, once at each end
of the period). -/
def XRange.node (N : ℕ) : XRange K → ℕ → K
  | .uniform a b, i => a + (i : K) * ((b - a) / ((N : K) - 1))
  | .coords l, i => l.getD i 0

/-- A dimension the library handles for splines of order `o`, with `N` data points: an interval with `first < last` or strictly increasing
coordinates, and enough points.  Explicit coordinates of a non-periodic dimension need a positive order. -/
structure XRange.Valid (o N : ℕ) (per : Bool) (x : XRange K) : Prop where
  periodic : per = true → 2 * (o / 2) + 2 ≤ N
  aperiodic : per = false → o + 1 ≤ N ∧ 2 ≤ N
  uniform : ∀ a b, x = .uniform a b → a < b
  coords : ∀ l, x = .coords l → l.length = N ∧ (∀ i, i + 1 < N → l.getD i 0 < l.getD (i + 1) 0) ∧ (per = false → 1 ≤ o)

/-- An interpolation problem: order, periodicity and coordinates per dimension, and a mesh of data of size `dims`. -/
def ValidAxes (c : Cfg) (order : ℕ) (per : Fin D → Bool) (dims : Fin D → ℕ) (x : Fin D → XRange K) : Prop :=
  ∀ d, (x d).Valid order (pointNum c (per d) (dims d)) (per d)

/-- Coordinates of the data point with index `I` in the data mesh. -/
def nodeAt (c : Cfg) (per : Fin D → Bool) (dims : Fin D → ℕ) (x : Fin D → XRange K) (I : Fin D → ℕ) : Fin D → K :=
  fun d => (x d).node (pointNum c (per d) (dims d)) (I d)

open Classical in
/-- The segment that contains `x`. -/
noncomputable def segAt (o : ℕ) (t : List K) (x : K) : ℕ :=
  if h : ∃ s, IsSeg (knotFn t) o (t.length - o - 2) x s then h.choose else o

/-- The data point that row `r` of the linear system belongs to: rows of a periodic dimension are rotated by `order / 2`. -/
def nodeOfRow (o : ℕ) (per : Bool) (n r : ℕ) : ℕ := (r + (n - (if per then o / 2 else 0) % n)) % n

/-- The image of a dimension's coordinates under `u ↦ α u + β`. -/
def XRange.affine (α β : K) : XRange K → XRange K
  | .uniform a b => .uniform (α * a + β) (α * b + β)
  | .coords l => .coords (l.map fun u => α * u + β)

/-- The `N` equispaced coordinates from `a` to `b`. -/
def equispaced (N : ℕ) (a b : K) : List K := (List.range N).map fun i : ℕ => a + (i : K) * ((b - a) / ((N : K) - 1))

/-- Value at `y` of the polynomial with coefficients `cf`, of degree below `E d` in variable `d`. -/
def polyAt [AddCommGroup V] [Module K V] (E : Fin D → ℕ) (cf : (Fin D → ℕ) → V) (y : Fin D → K) : V :=
  ∑ e ∈ Fintype.piFinset (fun d => Finset.range (E d)), (∏ d, y d ^ e d) • cf e

end Intp
