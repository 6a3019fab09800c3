import Verif.Arith

/-!
# Rounded arithmetic, seen from the results

What is assumed of a floating-point type when the error of a computation is bounded after the fact: whenever the result of a subtraction or product is
finite, its operands were finite and the result is exact up to the relative error `u` and the absolute error `η`.  Nothing is assumed in advance on the
size of the numbers.  `Verif/Proofs/F64Back.lean` shows this for the `double` of `Verif/Float64.lean`.
-/

namespace Intp

/-- `coord_type` as a rounded version of the exact numbers `F`. -/
structure BackK (K F : Type) [CoordArith K] [Field F] [LinearOrder F] where
  /-- The number that is represented; means something for finite numbers only. -/
  val : K → F
  /-- Neither an infinity nor a nan. -/
  Fin : K → Prop
  /-- Relative error of an operation. -/
  u : F
  /-- Absolute error of an operation that underflows. -/
  η : F
  u_nonneg : 0 ≤ u
  η_nonneg : 0 ≤ η
  sub : ∀ a b, Fin (a - b) → Fin a ∧ Fin b ∧ |val a - val b - val (a - b)| ≤ u * |val (a - b)| + η
  mul : ∀ a b, Fin (a * b) → Fin a ∧ Fin b ∧ |val (a * b) - val a * val b| ≤ u * |val a * val b| + η
  /-- The quotient by an infinite number may be finite, hence the assumption on `b`. -/
  div : ∀ a b z, CoordArith.div a b = .ok z → Fin z → Fin b → Fin a ∧ val b ≠ 0 ∧ |val z - val a / val b| ≤ u * |val z| + η

/-- `val_type` as a rounded version of the exact numbers `F`, with the errors of the coordinates `R`. -/
structure BackV {K F : Type} [CoordArith K] [Field F] [LinearOrder F] (R : BackK K F) (V : Type) [ValArith V] [ScaleArith K V] where
  val : V → F
  Fin : V → Prop
  sub : ∀ a b, Fin (a - b) → Fin a ∧ Fin b ∧ |val a - val b - val (a - b)| ≤ R.u * |val (a - b)| + R.η
  smul : ∀ (a : K) (v : V), Fin (a • v) → R.Fin a ∧ Fin v ∧ |val (a • v) - R.val a * val v| ≤ R.u * |R.val a * val v| + R.η
  div : ∀ (v : V) (a : K) (z : V), ScaleArith.divV v a = .ok z → Fin z → R.Fin a →
    Fin v ∧ R.val a ≠ 0 ∧ |val z - val v / R.val a| ≤ R.u * |val z| + R.η

end Intp
