import Verif.FloatModel

/-!
# Rounded arithmetic

What is assumed of a floating-point type when errors are bounded: every operation returns the exact result up to a relative error `u` and, for
products and quotients, an absolute error `η` (underflow), as long as the exact result is in range.  `Verif/Proofs/F64Round.lean` shows this for the
`double` of `Verif/Float64.lean`.
-/

namespace Intp

/-- `coord_type` as a rounded version of the exact numbers `F`. -/
structure RoundK (K F : Type) [CoordArith K] [Field F] [LinearOrder F] where
  /-- The number that is represented; means something for finite numbers only. -/
  val : K → F
  /-- Neither an infinity nor a nan. -/
  Finite : K → Prop
  /-- Exact results of this size do not overflow. -/
  Fits : F → Prop
  /-- Relative error of an operation. -/
  u : F
  /-- Absolute error of a product or quotient that underflows. -/
  η : F
  u_nonneg : 0 ≤ u
  u_lt_one : u < 1
  η_nonneg : 0 ≤ η
  fits_mono : ∀ x y, |x| ≤ |y| → Fits y → Fits x
  finite_zero : Finite 0
  val_zero : val 0 = 0
  finite_one : Finite 1
  val_one : val 1 = 1
  add : ∀ a b, Finite a → Finite b → Fits (val a + val b) →
    Finite (a + b) ∧ |val (a + b) - (val a + val b)| ≤ u * |val a + val b|
  sub : ∀ a b, Finite a → Finite b → Fits (val a - val b) →
    Finite (a - b) ∧ |val (a - b) - (val a - val b)| ≤ u * |val a - val b|
  mul : ∀ a b, Finite a → Finite b → Fits (val a * val b) →
    Finite (a * b) ∧ |val (a * b) - val a * val b| ≤ u * |val a * val b| + η ∧ (0 ≤ val a * val b → 0 ≤ val (a * b))
  div : ∀ a b, Finite a → Finite b → val b ≠ 0 → Fits (val a / val b) →
    Ok (CoordArith.div a b) fun z => Finite z ∧ |val z - val a / val b| ≤ u * |val a / val b| + η ∧ (0 ≤ val a / val b → 0 ≤ val z)
  lt : ∀ a b, Finite a → Finite b → (a < b ↔ val a < val b)
  le : ∀ a b, Finite a → Finite b → (a ≤ b ↔ val a ≤ val b)

/-- `val_type` as a rounded version of the exact numbers `F`, with the errors of the coordinates `R`. -/
structure RoundV {K F : Type} [CoordArith K] [Field F] [LinearOrder F] (R : RoundK K F) (V : Type) [ValArith V] [ScaleArith K V] where
  val : V → F
  Finite : V → Prop
  finite_zero : Finite 0
  val_zero : val 0 = 0
  add : ∀ a b, Finite a → Finite b → R.Fits (val a + val b) →
    Finite (a + b) ∧ |val (a + b) - (val a + val b)| ≤ R.u * |val a + val b|
  smul : ∀ a v, R.Finite a → Finite v → R.Fits (R.val a * val v) →
    Finite (a • v) ∧ |val (a • v) - R.val a * val v| ≤ R.u * |R.val a * val v| + R.η

/-- The further operations of `derivative_at`: differences and quotients of values, and conversion of small integers. -/
structure RoundD {K F V : Type} [CoordArith K] [Field F] [LinearOrder F] [ValArith V] [ScaleArith K V] {R : RoundK K F} (S : RoundV R V) : Prop where
  ofNat : ∀ n, n ≤ 2 ^ 20 → R.Finite (CoordArith.ofNat n) ∧ R.val (CoordArith.ofNat n) = n
  sub : ∀ a b, S.Finite a → S.Finite b → R.Fits (S.val a - S.val b) →
    S.Finite (a - b) ∧ |S.val (a - b) - (S.val a - S.val b)| ≤ R.u * |S.val a - S.val b|
  divV : ∀ v a, S.Finite v → R.Finite a → R.val a ≠ 0 → R.Fits (S.val v / R.val a) →
    Ok (ScaleArith.divV v a) fun z => S.Finite z ∧ |S.val z - S.val v / R.val a| ≤ R.u * |S.val v / R.val a| + R.η

/-- The spline object whose data are the exact numbers that those of `b` represent. -/
def BSpline.exact {K F V : Type} [CoordArith K] [Field F] [LinearOrder F] [ValArith V] [ScaleArith K V] {D : ℕ} (R : RoundK K F) (S : RoundV R V)
    (b : BSpline D K V) : BSpline D F F where
  order := b.order
  periodicity := b.periodicity
  knots d := (b.knots d).map R.val
  ctrl := ⟨b.ctrl.dims, b.ctrl.storage.map S.val⟩
  range d := (R.val (b.range d).1, R.val (b.range d).2)

end Intp
