import Verif.Float64

/-!
# IEEE 754 binary64 with both zeros

`Float64.lean` has one zero.  Here is `double` with two, as a further instance of `CoordArith`.
-/

namespace Intp

/-- A `double` with the sign of zeros.  If `report` is set, a division by the negative zero is not carried out but reported as `divZero`; this is
used to say that a run of the code has no such division, the type of the code is `S64 false`. -/
inductive S64 (report : Bool)
  | nan
  | inf (neg : Bool)
  /-- the number `q`; `neg` is the sign if `q` is zero and means nothing otherwise -/
  | fin (q : ℚ) (neg : Bool)
  deriving DecidableEq

namespace S64

variable {report : Bool}

/-- The `double` of `Float64.lean`: the sign of zeros is lost. -/
def forget : S64 report → F64
  | nan => .nan
  | inf s => .inf s
  | fin q _ => .fin q

/-- Sign bit. -/
def sign (q : ℚ) (s : Bool) : Bool := if q = 0 then s else decide (q < 0)

/-- An exact result `q` with rounding; `s` is the sign if the outcome is zero. -/
def round (q : ℚ) (s : Bool) : S64 report :=
  match F64.round q with
  | .nan => nan
  | .inf t => inf t
  | .fin r => fin r s

/-- `a + b`: an exact zero is negative only if both numbers are negative zeros. -/
def add : S64 report → S64 report → S64 report
  | nan, _ => nan
  | _, nan => nan
  | inf s, inf t => if s = t then inf s else nan
  | inf s, fin _ _ => inf s
  | fin _ _, inf t => inf t
  | fin a s, fin b t => round (a + b) (sign a s && sign b t)

/-- `-a` -/
def neg : S64 report → S64 report
  | nan => nan
  | inf s => inf (!s)
  | fin a s => fin (-a) (!s)

/-- `a * b` -/
def mul : S64 report → S64 report → S64 report
  | nan, _ => nan
  | _, nan => nan
  | inf s, inf t => inf (s ^^ t)
  | inf s, fin b t => if b = 0 then nan else inf (s ^^ sign b t)
  | fin a s, inf t => if a = 0 then nan else inf (sign a s ^^ t)
  | fin a s, fin b t => round (a * b) (sign a s ^^ sign b t)

/-- `a / b` -/
def div : S64 report → S64 report → S64 report
  | nan, _ => nan
  | _, nan => nan
  | inf _, inf _ => nan
  | inf s, fin b t => inf (s ^^ sign b t)
  | fin a s, inf t => fin 0 (sign a s ^^ t)
  | fin a s, fin b t => if b = 0 then if a = 0 then nan else inf (sign a s ^^ t) else round (a / b) (sign a s ^^ sign b t)

/-- `-0.0` -/
def isNegZero : S64 report → Bool
  | fin q s => decide (q = 0) && s
  | _ => false

/-- `a / b`, with report. -/
def divM (a b : S64 report) : M (S64 report) := if report && b.isNegZero then .error .divZero else .ok (div a b)

/-- `std::fmod(a, b)`: a zero has the sign of `a`. -/
def fmod : S64 report → S64 report → S64 report
  | nan, _ => nan
  | _, nan => nan
  | inf _, _ => nan
  | fin a s, inf _ => fin a s
  | fin a s, fin b _ =>
    match F64.fmod (.fin a) (.fin b) with
    | .fin r => fin r (sign a s)
    | _ => nan

/-- `a < b`: zeros are equal. -/
def lt (a b : S64 report) : Bool := F64.lt a.forget b.forget

/-- `a <= b` -/
def le (a b : S64 report) : Bool := F64.le a.forget b.forget

instance : CoordArith (S64 report) where
  zero := fin 0 false
  one := fin 1 false
  add := add
  sub a b := add a (neg b)
  mul := mul
  lt a b := lt a b = true
  le a b := le a b = true
  decLt a b := inferInstanceAs (Decidable (lt a b = true))
  decLe a b := inferInstanceAs (Decidable (le a b = true))
  ofNat n := round n false
  half := fin (1 / 2) false
  div := divM
  fmod a b := .ok (fmod a b)
  ceilSize a := F64.ceilSize a.forget
  divErr := report = true
  div_err a b := by
    unfold divM
    split
    · rename_i h
      exact ⟨rfl, by cases report <;> simp_all⟩
    · trivial
  fmod_err _ _ := trivial
  ceil_err a := CoordArith.ceil_err a.forget
  le_not_lt a b := CoordArith.le_not_lt a.forget b.forget

instance : ValArith (S64 report) where
  sub a b := add a (neg b)

instance : ScaleArith (S64 report) (S64 report) where
  smul := mul
  divV := divM
  divErrV := report = true
  divV_err a b := CoordArith.div_err a b

end S64

end Intp
