import Verif.FloatModel
import Verif.Float64

/-!
# Ranges whose ends are not of type `coord_type`

The ends of the range of a uniform dimension may be of any arithmetic type `T_` (Interpolation.hpp:322-327), for example `int` or `float`.
`x_range.second - x_range.first` (line 336) is then computed in `T_` (after the integral promotions) and converted to `coord_type` only for the
division; elsewhere (lines 340, 344, 351, 357) the ends themselves are converted.
-/

namespace Intp

/-- An integer type: signedness and number of bits. -/
structure IntTy where
  signed : Bool
  bits : ℕ
  deriving DecidableEq

namespace IntTy

/-- `int` -/
def int : IntTy := ⟨true, 32⟩

/-- `unsigned` -/
def uint : IntTy := ⟨false, 32⟩

/-- The values of the type. -/
def Has (t : IntTy) (z : ℤ) : Prop := if t.signed then -2 ^ (t.bits - 1) ≤ z ∧ z < 2 ^ (t.bits - 1) else 0 ≤ z ∧ z < 2 ^ t.bits

instance (t : IntTy) (z : ℤ) : Decidable (t.Has z) := by unfold Has; infer_instance

/-- Conversion of an integer to the type: modulo `2 ^ bits` (for signed types as all compilers do and C++20 demands). -/
def wrap (t : IntTy) (z : ℤ) : ℤ := if t.signed then (z + 2 ^ (t.bits - 1)) % 2 ^ t.bits - 2 ^ (t.bits - 1) else z % 2 ^ t.bits

/-- The integral promotions: types narrower than `int` become `int`. -/
def promote (t : IntTy) : IntTy := if t.bits < 32 then int else t

/-- `b - a` in the promoted type: modulo `2 ^ bits` if that is unsigned, undefined on overflow if it is signed. -/
def sub (t : IntTy) (b a : ℤ) : M ℤ :=
  if t.promote.signed then if t.promote.Has (b - a) then .ok (b - a) else .error .overflow else .ok (t.promote.wrap (b - a))

/-- `std::common_type` of two integer types: the type itself if they agree, else the usual arithmetic conversions. -/
def common (s t : IntTy) : IntTy :=
  if s = t then s else
    let s := s.promote
    let t := t.promote
    if s.signed = t.signed then ⟨s.signed, max s.bits t.bits⟩
    else if s.signed then if t.bits < s.bits then s else t
    else if s.bits < t.bits then t else s

end IntTy

namespace F64

/-- Rounding of an exact result to binary32 (24 bits), without overflow. -/
def rnd32 (q : ℚ) : ℚ :=
  if q = 0 then 0 else (nearest (q / pow2 (max (expo q - 23) (-149))) : ℚ) * pow2 (max (expo q - 23) (-149))

/-- `b - a` of two `float`s, as a `double`. -/
def sub32 (b a : ℚ) : F64 := if pow2 128 ≤ |rnd32 (b - a)| then .inf (decide (rnd32 (b - a) < 0)) else .fin (rnd32 (b - a))

/-- Conversion of an integer to `double`. -/
def ofInt (z : ℤ) : F64 := round z

end F64

/-- The range given for one dimension: the ends converted to `coord_type` and their difference in their own type, or coordinates. -/
inductive XRangeT (K : Type)
  | ends (a b : K) (diff : M K)
  | coords (l : List K)

namespace XRangeT

variable {K : Type}

/-- A pair of `coord_type` numbers. -/
def plain [CoordArith K] : XRange K → XRangeT K
  | .uniform a b => .ends a b (.ok (b - a))
  | .coords l => .coords l

/-- A pair of integers of the same type; `conv` is the conversion to `coord_type`. -/
def ints (conv : ℤ → K) (t : IntTy) (a b : ℤ) : XRangeT K := .ends (conv a) (conv b) (do
  let u ← t.sub b a
  pure (conv u))

/-- A pair of integers of types `s` and `t` given to the one-dimensional constructor, which converts both to their common type
(Interpolation.hpp:58-66). -/
def ints1 (conv : ℤ → K) (s t : IntTy) (a b : ℤ) : XRangeT K := ints conv (s.common t) ((s.common t).wrap a) ((s.common t).wrap b)

/-- A pair of `float`s where `coord_type` is `double`. -/
def floats (a b : ℚ) : XRangeT F64 := .ends (.fin a) (.fin b) (.ok (F64.sub32 b a))

/-- The same numbers as a pair of `coord_type` numbers. -/
def toK : XRangeT K → XRange K
  | .ends a b _ => .uniform a b
  | .coords l => .coords l

end XRangeT

namespace Fl

variable {K V : Type} [CoordArith K] {D : ℕ}

/-- `create_knot_vector_` (Interpolation.hpp:322-360 and 362-464), the difference of the ends being computed in their own type. -/
def createKnotVectorT (c : Cfg) (dims : Fin D → ℕ) (x : Fin D → XRangeT K) (st : InterpFn D K V × (Fin D → List K)) (d : Fin D) :
    M (InterpFn D K V × (Fin D → List K)) :=
  match x d with
  | .ends a b diff => do
    let n := pointNum c (st.1.periodicity d) (dims d)
    let m ← subM n 1
    let u ← diff
    let dx ← CoordArith.div u (CoordArith.ofNat m)
    let xs ← uniformKnots st.1.spline.order n (st.1.periodicity d) a b dx
    let s ← st.1.spline.loadKnots d xs
    pure (⟨s, Function.update st.1.dx d dx, Function.update st.1.uniform d true⟩, st.2)
  | .coords l => do
    let r ← coordKnots c st.1.spline.order (dims d) (st.1.periodicity d) l
    let s ← st.1.spline.loadKnots d r.1
    pure (⟨s, st.1.dx, Function.update st.1.uniform d false⟩, Function.update st.2 d r.2)

/-- Constructor for partial construction (Interpolation.hpp:109-121) with `create_knots_` (466-480). -/
def partialConstructT (c : Cfg) (order : ℕ) (per : Fin D → Bool) (dims : Fin D → ℕ) (x : Fin D → XRangeT K) :
    M (InterpFn D K V × (Fin D → List K)) :=
  (List.finRange D).foldlM (createKnotVectorT c dims x) (blank order per, fun _ => [])

/-- Constructor of the template (InterpolationTemplate.hpp:60-79) with `build_solver_` (254-446). -/
def constructTT (w : Bool) (c : Cfg) (order : ℕ) (per : Fin D → Bool) (dims : Fin D → ℕ) (x : Fin D → XRangeT K) : M (Template D K V) := do
  let r ← partialConstructT c order per dims x
  let dims' ← adjustDims c per dims
  let vals ← tabM fun d => precalc r.1 d
  let solvers ← tabM fun d => do
    let m ← assemble w c r.1 (r.2 d) d (dims' d) (vals d)
    ofMat c m
  pure ⟨r.2, dims', r.1, solvers⟩

/-- `InterpolationFunction(periodicity, f_mesh, x_ranges...)` (Interpolation.hpp:92-101). -/
def constructR [ValArith V] [ScaleArith K V] (w : Bool) (c : Cfg) (order : ℕ) (per : Fin (D + 1) → Bool) (fm : Mesh (D + 1) V)
    (x : Fin (D + 1) → XRangeT K) : M (InterpFn (D + 1) K V) := do
  let t ← constructTT w c order per fm.dims x
  let w ← solveForControlPoints c t fm
  pure { t.base with spline := t.base.spline.loadCtrlPts w }

end Fl

end Intp
