import Verif.BSpline
import Verif.BandLU

/-!
# Model of src/include/Interpolation.hpp

`InterpolationFunction<T, D, O, U>`: knot construction from data coordinates, hints, evaluation with and without range check.
Conversions `size_t → coord_type` are exact, `static_cast<size_type>` of a coordinate is exact for every non-negative integer.
-/

namespace Intp

variable {K V : Type} [Field K] [LinearOrder K] [FloorRing K] [AddCommGroup V] [Module K V] {D : ℕ}

/-- Argument `x_ranges` of one dimension: a pair of numbers (Interpolation.hpp:321-327) or a pair of iterators
(Interpolation.hpp:364-373), the latter represented by the list of coordinates between them. -/
inductive XRange (K : Type)
  | uniform (a b : K)
  | coords (l : List K)

/-- `xs[i] = x_range.first + (i - 0.5 * extra) * dx` (Interpolation.hpp:344-347 and 351-354). -/
def uniformKnot (a dx : K) (extra i : ℕ) : K := a + ((i : K) - 1 / 2 * (extra : K)) * dx

/-- Number `n` of data points including the duplicated one of periodic dimensions (Interpolation.hpp:330-334). -/
def pointNum (c : Cfg) (periodic : Bool) (meshSize : ℕ) : ℕ := meshSize + if c.noDummy && periodic then 1 else 0

/-- `dx_[dim_ind]` (Interpolation.hpp:335-336). -/
def uniformStep (n : ℕ) (a b : K) : M K := do
  let m ← subM n 1
  divM (b - a) (m : K)

/-- Periodic part of the uniform `create_knot_vector_` (Interpolation.hpp:338-348). -/
def uniformKnotsPeriodic (order n : ℕ) (a dx : K) : M (List K) :=
  let extra := 2 * order + (1 - order % 2)
  loop 0 (n + extra) (List.replicate (n + extra) a) fun i xs => wr xs i (uniformKnot a dx extra i)

/-- Aperiodic part of the uniform `create_knot_vector_` (Interpolation.hpp:338-340 and 349-359). -/
def uniformKnotsAperiodic (order n : ℕ) (a b dx : K) : M (List K) := do
  let extra := order + 1
  let hi ← subM (n + extra) (order + 1)
  let xs ← loop (order + 1) hi (List.replicate (n + extra) a) fun i xs => wr xs i (uniformKnot a dx extra i)
  loop hi (n + extra) xs fun i xs => wr xs i b

/-- Knot vector of a uniform dimension (Interpolation.hpp:338-359). -/
def uniformKnots (order n : ℕ) (periodic : Bool) (a b dx : K) : M (List K) :=
  if periodic then uniformKnotsPeriodic order n a dx else uniformKnotsAperiodic order n a b dx

/-- `input_coord.back()`. -/
def backM (l : List K) : M K := do
  let i ← subM l.length 1
  rd l i

/-- Periodic part of the non-uniform `create_knot_vector_` (Interpolation.hpp:401-417); dereferencing the input iterator at distance `k`
is `rd l k`.  Returns the knots and `input_coord`. -/
def coordKnotsPeriodic (order : ℕ) (l : List K) : M (List K × List K) := do
  let n := l.length
  let x0 ← rd l 0
  let st ← loop (order + 1) (order + n) (List.replicate (n + 2 * order + (1 - order % 2)) (0 : K), [x0]) fun i st => do
    let present ← rd l (i - order)
    let back ← backM st.2
    let xs ← wr st.1 i (if order % 2 = 0 then 1 / 2 * (back + present) else present)
    pure (xs, st.2 ++ [present])
  let back ← backM st.2
  let front ← rd st.2 0
  let period := back - front
  let xs ← loop 0 (order + 1) st.1 fun i xs => do
    let k ← subM (n + i) 1
    let u ← rd xs k
    let xs ← wr xs i (u - period)
    let k1 ← subM xs.length (i + 1)
    let k2 ← subM xs.length (i + n)
    let v ← rd xs k2
    wr xs k1 (v + period)
  pure (xs, st.2)

/-- State of the aperiodic non-uniform loop: position of `it`, `xs`, `input_coord`, `window_sum`. -/
structure CoordSt (K : Type) where
  pos : ℕ
  xs : List K
  ic : List K
  sum : K

/-- Aperiodic part of the non-uniform `create_knot_vector_` (Interpolation.hpp:418-447). -/
def coordKnotsAperiodic (order : ℕ) (l : List K) : M (List K × List K) := do
  let n := l.length
  let lk ← rd l 0
  let xs ← loop 0 (order + 1) (List.replicate (n + order + 1) (0 : K)) fun i xs => wr xs i lk
  let st ← loop 1 order (⟨0, xs, [lk], 0⟩ : CoordSt K) fun i st => do
    let v ← rd l (st.pos + 1)
    let ic := st.ic ++ [v]
    let u ← rd ic i
    pure ⟨st.pos + 1, st.xs, ic, st.sum + u⟩
  let st ← loop (order + 1) n st fun i st => do
    let v ← rd l (st.pos + 1)
    let ic := st.ic ++ [v]
    let i1 ← subM i 1
    let u ← rd ic i1
    let sum := st.sum + u
    let w ← divM sum (order : K)
    let xs ← wr st.xs i w
    let i2 ← subM i order
    let z ← rd ic i2
    pure ⟨st.pos + 1, xs, ic, sum - z⟩
  let rk ← rd l (st.pos + 1)
  let xs ← loop n (n + order + 1) st.xs fun i xs => wr xs i rk
  pure (xs, st.ic ++ [rk])

/-- Check of the coordinates (Interpolation.hpp:448-454). -/
def checkMonotonic (c : Cfg) (ic : List K) : M Unit := do
  let hi ← subM ic.length 1
  loop 0 hi () fun i _ => do
    let a ← rd ic i
    let b ← rd ic (i + 1)
    assertM c (decide (a < b))

/-- The two cases of the non-uniform `create_knot_vector_` (Interpolation.hpp:401-447). -/
def coordKnotsRaw (order : ℕ) (periodic : Bool) (l : List K) : M (List K × List K) :=
  if periodic then coordKnotsPeriodic order l else coordKnotsAperiodic order l

/-- Knot vector and `input_coord` of a non-uniform dimension (Interpolation.hpp:364-454). -/
def coordKnots (c : Cfg) (order meshSize : ℕ) (periodic : Bool) (l : List K) : M (List K × List K) := do
  assertM c (decide (l.length = pointNum c periodic meshSize))
  let r ← coordKnotsRaw order periodic l
  checkMonotonic c r.2
  pure r

/-- `InterpolationFunction<T, D, O, U>` (Interpolation.hpp:18, 269-273): `spline_`, `dx_`, `uniform_`.  `dx_` of a non-uniform dimension is
uninitialised in C++ and never read; the model keeps its initial value. -/
structure InterpFn (D : ℕ) (K V : Type) where
  spline : BSpline D K V
  dx : Fin D → K
  uniform : Fin D → Bool

namespace InterpFn

/-- `periodicity` (Interpolation.hpp:248-250). -/
def periodicity (f : InterpFn D K V) (d : Fin D) : Bool := f.spline.periodicity d

/-- `range` (Interpolation.hpp:254-258, BSpline.hpp `range`). -/
def range (f : InterpFn D K V) (d : Fin D) : K × K := f.spline.range d

/-- `create_knot_vector_` (Interpolation.hpp:321-464), both overloads; the state is the object and `input_coords`. -/
def createKnotVector (c : Cfg) (dims : Fin D → ℕ) (x : Fin D → XRange K) (st : InterpFn D K V × (Fin D → List K)) (d : Fin D) :
    M (InterpFn D K V × (Fin D → List K)) :=
  match x d with
  | .uniform a b => do
    let n := pointNum c (st.1.periodicity d) (dims d)
    let dx ← uniformStep n a b
    let xs ← uniformKnots st.1.spline.order n (st.1.periodicity d) a b dx
    let s ← st.1.spline.loadKnots d xs
    pure (⟨s, Function.update st.1.dx d dx, Function.update st.1.uniform d true⟩, st.2)
  | .coords l => do
    let r ← coordKnots c st.1.spline.order (dims d) (st.1.periodicity d) l
    let s ← st.1.spline.loadKnots d r.1
    pure (⟨s, st.1.dx, Function.update st.1.uniform d false⟩, Function.update st.2 d r.2)

/-- An object before its knots are loaded: `spline_(periodicity)` (BSpline.hpp:178-179, Interpolation.hpp:117), no knots and no control
points (`control_points_(size_type{})`). -/
def blank (order : ℕ) (per : Fin D → Bool) : InterpFn D K V :=
  ⟨⟨order, per, fun _ => [], ⟨fun _ => 0, []⟩, fun _ => (0, 0)⟩, fun _ => 0, fun _ => false⟩

/-- Constructor for partial construction (Interpolation.hpp:109-121) with `create_knots_` (466-480); `input_coords` starts empty
(InterpolationTemplate.hpp:64). -/
def partialConstruct (c : Cfg) (order : ℕ) (per : Fin D → Bool) (dims : Fin D → ℕ) (x : Fin D → XRange K) :
    M (InterpFn D K V × (Fin D → List K)) :=
  (List.finRange D).foldlM (createKnotVector c dims x) (blank order per, fun _ => [])

/-- Hint of one dimension (Interpolation.hpp:281-294 and 306-317). -/
def hint (f : InterpFn D K V) (d : Fin D) (x : K) : M ℕ :=
  if f.uniform d then do
    let m ← subM (f.spline.knots d).length (f.spline.order + 2)
    let q ← divM (x - (f.range d).1) (f.dx d)
    let u := max 0 (q - if f.periodicity d then 1 else 1 / 2 * ((f.spline.order + 1 : ℕ) : K))
    pure (min m (⌈u⌉.toNat + f.spline.order))
  else pure f.spline.order

/-- `operator()` (Interpolation.hpp:135-146), through `call_op_helper` (297-300). -/
def call (f : InterpFn D K V) (x : Fin D → K) : M V := do
  let h ← tabM fun d => f.hint d (x d)
  f.spline.eval fun d => (x d, h d)

/-- `boundary_check_` (Interpolation.hpp:482-491). -/
def boundaryCheck (f : InterpFn D K V) (x : Fin D → K) : M Unit :=
  (List.finRange D).foldlM (fun _ d =>
    if !f.periodicity d && (decide (x d < (f.range d).1) || decide (x d > (f.range d).2)) then .error .domainError else .ok ()) ()

/-- `at` (Interpolation.hpp:153-156, 163-169). -/
def at' (f : InterpFn D K V) (x : Fin D → K) : M V := do
  f.boundaryCheck x
  f.call x

/-- `derivative` (Interpolation.hpp:177-181) through `derivative_helper` (302-319). -/
def derivative (c : Cfg) (f : InterpFn D K V) (x : Fin D → K) (m : Fin D → ℕ) : M V := do
  let h ← tabM fun d => f.hint d (x d)
  f.spline.derivativeAt c fun d => (x d, h d, m d)

/-- `derivative_at` (Interpolation.hpp:213-218). -/
def derivativeAt (c : Cfg) (f : InterpFn D K V) (x : Fin D → K) (m : Fin D → ℕ) : M V := do
  f.boundaryCheck x
  f.derivative c x m

end InterpFn

end Intp
