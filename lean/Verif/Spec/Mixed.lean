import Mathlib.Analysis.Calculus.IteratedDeriv.Defs

/-!
# Mixed derivatives of functions of several real variables
-/

namespace Intp

/-- Mixed derivative of `f` at `y`: `m d` derivatives along each dimension `d`, within the set `S d`, those of the last dimension taken first. -/
noncomputable def mixedDeriv : {D : ℕ} → (Fin D → Set ℝ) → (Fin D → ℕ) → ((Fin D → ℝ) → ℝ) → (Fin D → ℝ) → ℝ
  | 0, _, _, f, y => f y
  | _ + 1, S, m, f, y =>
    iteratedDerivWithin (m 0) (fun t => mixedDeriv (Fin.tail S) (Fin.tail m) (fun z => f (Fin.cons t z)) (Fin.tail y)) (S 0) (y 0)

/-- The orders of the derivatives along the dimensions after `d`. -/
def after {D : ℕ} (m : Fin D → ℕ) (d e : Fin D) : ℕ := if d < e then m e else 0

end Intp
