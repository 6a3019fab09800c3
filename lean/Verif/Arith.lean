import Verif.InterpolationTemplate

/-!
# Coordinate and value types without laws

The classes here describe a numeric type by its operations.  No law is assumed apart from one on comparisons, so that they cover `float`, `double` and `long double` with
any rounding mode, nan and infinities.  The exact arithmetic of the rest of the model is one instance (`exactCoord`, `exactVal`).
-/

namespace Intp

/-- Operations of `coord_type` used by the library.  A division may report `divZero` (the exact arithmetic does, floating point does not), a
conversion to `size_t` may be undefined (`badCast`); nothing else can go wrong in an operation. -/
class CoordArith (K : Type) extends Zero K, One K, Add K, Sub K, Mul K, LT K, LE K where
  /-- `a < b` -/
  decLt : ∀ a b : K, Decidable (a < b)
  /-- `a <= b` -/
  decLe : ∀ a b : K, Decidable (a ≤ b)
  /-- `static_cast<coord_type>(n)` of a `size_t` -/
  ofNat : ℕ → K
  /-- `coord_type{.5}` -/
  half : K
  /-- `a / b` -/
  div : K → K → M K
  /-- `std::fmod(a, b)` -/
  fmod : K → K → M K
  /-- `static_cast<size_type>(std::ceil(a))` -/
  ceilSize : K → M ℕ
  /-- Divisions can fail. -/
  divErr : Prop
  div_err : ∀ a b, Spec (div a b) (fun _ => True) (fun e => e = .divZero ∧ divErr)
  fmod_err : ∀ a b, Spec (fmod a b) (fun _ => True) (fun e => e = .divZero ∧ divErr)
  ceil_err : ∀ a, Spec (ceilSize a) (fun _ => True) (· = .badCast)
  /-- The only law: `a <= b` and `b < a` are never both true. -/
  le_not_lt : ∀ a b : K, a ≤ b → ¬ b < a

instance {K : Type} [CoordArith K] (a b : K) : Decidable (a < b) := CoordArith.decLt a b
instance {K : Type} [CoordArith K] (a b : K) : Decidable (a ≤ b) := CoordArith.decLe a b

/-- Operations of `val_type` alone. -/
class ValArith (V : Type) extends Zero V, Add V, Sub V

/-- Products and quotients of `val_type` with `coord_type`. -/
class ScaleArith (K V : Type) extends SMul K V where
  /-- `v / a` -/
  divV : V → K → M V
  /-- Divisions can fail. -/
  divErrV : Prop
  divV_err : ∀ v a, Spec (divV v a) (fun _ => True) (fun e => e = .divZero ∧ divErrV)

section Exact

variable (K V : Type) [Field K] [LinearOrder K] [FloorRing K] [AddCommGroup V] [Module K V]

/-- The exact arithmetic of the other parts of the model. -/
@[reducible] def exactCoord : CoordArith K where
  decLt a b := inferInstance
  decLe a b := inferInstance
  ofNat n := n
  half := 1 / 2
  div := divM
  fmod := fmodM
  ceilSize a := .ok ⌈a⌉.toNat
  divErr := True
  div_err a b := by unfold divM; split <;> simp [Spec]
  fmod_err a b := by unfold fmodM; split <;> simp [Spec]
  ceil_err a := trivial
  le_not_lt a b h := not_lt.2 h

/-- Exact arithmetic of the values. -/
@[reducible] def exactVal : ValArith V where

/-- Exact arithmetic of the values. -/
@[reducible] def exactScale : ScaleArith K V where
  divV := divV
  divErrV := True
  divV_err a b := by unfold Intp.divV; split <;> simp [Spec]

end Exact

end Intp
