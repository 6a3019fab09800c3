import Verif.Arith
import Mathlib.Data.Rat.Floor
import Mathlib.Algebra.Order.Field.Rat

/-!
# IEEE 754 binary64

`double` as an instance of `CoordArith`: rounding to nearest even with 53 bits, subnormal numbers, overflow, infinities and nan.
Simplification: there is one zero, so that the sign of a zero divisor is not seen.
-/

namespace Intp

/-- A `double`. -/
inductive F64
  | nan
  | inf (neg : Bool)
  | fin (q : ℚ)
  deriving DecidableEq

namespace F64

/-- `2 ^ e` -/
def pow2 (e : ℤ) : ℚ := if 0 ≤ e then ((2 ^ e.toNat : ℕ) : ℚ) else 1 / ((2 ^ (-e).toNat : ℕ) : ℚ)

/-- The exponent `e` with `2 ^ e ≤ |q| < 2 ^ (e + 1)`. -/
def expo (q : ℚ) : ℤ :=
  let g : ℤ := (q.num.natAbs.log2 : ℤ) - (q.den.log2 : ℤ)
  if pow2 g ≤ |q| then g else g - 1

/-- The nearest integer, to even in the middle. -/
def nearest (m : ℚ) : ℤ :=
  let f := m.num / (m.den : ℤ)
  let r := m - f
  if r < 1 / 2 then f else if 1 / 2 < r then f + 1 else if f % 2 = 0 then f else f + 1

/-- Exponent of the last place of the numbers near `q`. -/
def last (q : ℚ) : ℤ := max (expo q - 52) (-1074)

/-- Rounding without overflow. -/
def rnd (q : ℚ) : ℚ := if q = 0 then 0 else (nearest (q / pow2 (last q)) : ℚ) * pow2 (last q)

/-- Rounding of an exact result. -/
def round (q : ℚ) : F64 :=
  let r := rnd q
  if pow2 1024 ≤ |r| then .inf (decide (r < 0)) else .fin r

/-- `a + b` -/
def add : F64 → F64 → F64
  | nan, _ => nan
  | _, nan => nan
  | inf s, inf t => if s = t then inf s else nan
  | inf s, fin _ => inf s
  | fin _, inf t => inf t
  | fin a, fin b => round (a + b)

/-- `-a` -/
def neg : F64 → F64
  | nan => nan
  | inf s => inf (!s)
  | fin a => fin (-a)

/-- Sign of a number that is not zero. -/
def isNeg (q : ℚ) : Bool := decide (q < 0)

/-- `a * b` -/
def mul : F64 → F64 → F64
  | nan, _ => nan
  | _, nan => nan
  | inf s, inf t => inf (s ^^ t)
  | inf s, fin b => if b = 0 then nan else inf (s ^^ isNeg b)
  | fin a, inf t => if a = 0 then nan else inf (isNeg a ^^ t)
  | fin a, fin b => round (a * b)

/-- `a / b` -/
def div : F64 → F64 → F64
  | nan, _ => nan
  | _, nan => nan
  | inf _, inf _ => nan
  | inf s, fin b => inf (s ^^ isNeg b)
  | fin _, inf _ => fin 0
  | fin a, fin b => if b = 0 then if a = 0 then nan else inf (isNeg a) else round (a / b)

/-- `std::fmod(a, b)`, which is exact. -/
def fmod : F64 → F64 → F64
  | nan, _ => nan
  | _, nan => nan
  | inf _, _ => nan
  | fin a, inf _ => fin a
  | fin a, fin b => if b = 0 then nan else
      let m := a / b
      let k : ℤ := if m < 0 then -((-m).num / ((-m).den : ℤ)) else m.num / (m.den : ℤ)
      fin (a - k * b)

/-- `a < b` -/
def lt : F64 → F64 → Bool
  | nan, _ => false
  | _, nan => false
  | inf s, inf t => s && !t
  | inf s, fin _ => s
  | fin _, inf t => !t
  | fin a, fin b => decide (a < b)

/-- `a <= b` -/
def le : F64 → F64 → Bool
  | nan, _ => false
  | _, nan => false
  | inf s, inf t => s || !t
  | inf s, fin _ => s
  | fin _, inf t => !t
  | fin a, fin b => decide (a ≤ b)

/-- `static_cast<std::size_t>(std::ceil(a))`: undefined unless the truncated value fits in 64 bits. -/
def ceilSize : F64 → M ℕ
  | nan => .error .badCast
  | inf _ => .error .badCast
  | fin q =>
    let c : ℤ := -((-q).num / (q.den : ℤ))
    if 0 ≤ c ∧ c < 2 ^ 64 then .ok c.toNat else .error .badCast

instance : CoordArith F64 where
  zero := fin 0
  one := fin 1
  add := add
  sub a b := add a (neg b)
  mul := mul
  lt a b := lt a b = true
  le a b := le a b = true
  decLt a b := inferInstanceAs (Decidable (lt a b = true))
  decLe a b := inferInstanceAs (Decidable (le a b = true))
  ofNat n := round n
  half := fin (1 / 2)
  div a b := .ok (div a b)
  fmod a b := .ok (fmod a b)
  ceilSize := ceilSize
  divErr := False
  div_err _ _ := trivial
  fmod_err _ _ := trivial
  ceil_err a := by
    unfold ceilSize
    cases a with
    | nan => rfl
    | inf s => rfl
    | fin q => dsimp only; split <;> trivial
  le_not_lt a b := by
    show le a b = true → ¬ lt b a = true
    unfold le lt
    cases a <;> cases b <;> simp
    rename_i s t
    cases s <;> cases t <;> simp

instance : ValArith F64 where
  sub a b := add a (neg b)

instance : ScaleArith F64 F64 where
  smul := mul
  divV v a := .ok (div v a)
  divErrV := False
  divV_err _ _ := trivial

end F64

end Intp
