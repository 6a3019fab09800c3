import Verif.Arith

/-!
# The model over arbitrary arithmetic

The functions of `BSpline.lean`, `BandLU.lean`, `Interpolation.lean` and `InterpolationTemplate.lean` that compute with coordinates or values, again,
over types of which only the operations are known (`Verif/Arith.lean`), with the operations in the order of the source.  Functions that only
move data are shared with the exact model.  `Verif/Props/Float.lean` proves that with exact arithmetic the two are the same.
-/

namespace Intp.Fl

open CoordArith ScaleArith

variable {K V : Type} [CoordArith K] [ValArith V] [ScaleArith K V] {D : ℕ}

/-! ## BandLU.hpp -/

/-- `iter[i] -= a * iter[j]` on a strided line. -/
def lineSubMul (buf : List V) (off step i j : ℕ) (a : K) : M (List V) := do
  let vi ← rd buf (off + i * step)
  let vj ← rd buf (off + j * step)
  wr buf (off + i * step) (vi - a • vj)

/-- `iter[j] /= a` on a strided line. -/
def lineDiv (buf : List V) (off step j : ℕ) (a : K) : M (List V) := do
  let vj ← rd buf (off + j * step)
  let v ← ScaleArith.divV vj a
  wr buf (off + j * step) v

/-- `BandLU<BandMatrix>::compute_impl` (BandLU.hpp:103-118). -/
def bandCompute (c : Cfg) (m : BandMatrix K) : M (BandMatrix K) := do
  let n := m.n
  let p := m.p
  let q := m.q
  let n1 ← subM n 1
  loop 0 n1 m fun k a => do
    let a ← loop (k + 1) (min (k + p + 1) n) a fun i a => do
      let x ← a.get c i k
      let d ← a.get c k k
      let z ← div x d
      a.set c i k z
    loop (k + 1) (min (k + q + 1) n) a fun j a =>
      loop (k + 1) (min (k + p + 1) n) a fun i a => do
        let x ← a.get c i j
        let l ← a.get c i k
        let u ← a.get c k j
        a.set c i j (x - l * u)

/-- `BandLU<BandMatrix>::solve_in_place_impl` (BandLU.hpp:120-143). -/
def bandSolve (c : Cfg) (lu : BandMatrix K) (buf : List V) (off step : ℕ) : M (List V) := do
  let n := lu.n
  let p := lu.p
  let q := lu.q
  let buf ← loop 0 n buf fun j buf =>
    loop (j + 1) (min (j + p + 1) n) buf fun i buf => do
      let a ← lu.get c i j
      lineSubMul buf off step i j a
  loopDown n buf fun j buf => do
    let d ← lu.get c j j
    let buf ← lineDiv buf off step j d
    loop (if j < q then 0 else j - q) j buf fun i buf => do
      let a ← lu.get c i j
      lineSubMul buf off step i j a

/-- `BandLU<ExtendedBandMatrix>::compute_impl` (BandLU.hpp:159-213). -/
def extCompute (c : Cfg) (m : ExtBandMatrix K) : M (ExtBandMatrix K) := do
  let n := m.n
  let p := m.p
  let q := m.q
  let n1 ← subM n 1
  loop 0 n1 m fun k a => do
    let nq ← subM n q
    let np ← subM n p
    let a ← loop (k + 1) (min (k + p + 1) n) a fun i a => do
      let x ← a.mainGet c i k
      let d ← a.mainGet c k k
      let z ← div x d
      a.mainSet c i k z
    let a ← loop (max nq (k + p + 1)) n a fun i a => do
      let x ← a.sideGet c i k
      let d ← a.mainGet c k k
      let z ← div x d
      a.sideSet c i k z
    let a ← loop (k + 1) (min (k + q + 1) n) a fun j a =>
      loop (k + 1) (min (k + p + 1) n) a fun i a => do
        let x ← a.mainGet c i j
        let l ← a.mainGet c i k
        let u ← a.mainGet c k j
        a.mainSet c i j (x - l * u)
    let a ← loop (k + 1) (min (k + p + 1) n) a fun i a =>
      loop (max np (k + q + 1)) n a fun j a => do
        let x ← a.get c i j
        let l ← a.mainGet c i k
        let u ← a.sideGet c k j
        a.set c i j (x - l * u)
    let a ← loop (k + 1) (min (k + q + 1) n) a fun j a =>
      loop (max nq (k + p + 1)) n a fun i a => do
        let x ← a.get c i j
        let l ← a.sideGet c i k
        let u ← a.mainGet c k j
        a.set c i j (x - l * u)
    let np1 ← subM n (p + 1)
    let nq1 ← subM n (q + 1)
    if k < max np1 nq1 then
      loop (max nq (k + p + 1)) n a fun i a =>
        loop (max np (k + q + 1)) n a fun j a => do
          let x ← a.mainGet c i j
          let l ← a.sideGet c i k
          let u ← a.sideGet c k j
          a.mainSet c i j (x - l * u)
    else pure a

/-- `BandLU<ExtendedBandMatrix>::solve_in_place_impl` (BandLU.hpp:215-259). -/
def extSolve (c : Cfg) (lu : ExtBandMatrix K) (buf : List V) (off step : ℕ) : M (List V) := do
  let n := lu.n
  let p := lu.p
  let q := lu.q
  let buf ← loop 0 n buf fun j buf => do
    let buf ← loop (j + 1) (min (j + p + 1) n) buf fun i buf => do
      let a ← lu.mainGet c i j
      lineSubMul buf off step i j a
    let np1 ← subM n (p + 1)
    if j < np1 then do
      let nq ← subM n q
      loop (max nq (j + p + 1)) n buf fun i buf => do
        let a ← lu.sideGet c i j
        lineSubMul buf off step i j a
    else pure buf
  loopDown n buf fun j buf => do
    let d ← lu.mainGet c j j
    let buf ← lineDiv buf off step j d
    let buf ← loop (if j < q then 0 else j - q) j buf fun i buf => do
      let a ← lu.mainGet c i j
      lineSubMul buf off step i j a
    let np1 ← subM n (p + 1)
    if j > np1 then do
      let hi ← subM j q
      loop 0 hi buf fun i buf => do
        let a ← lu.sideGet c i j
        lineSubMul buf off step i j a
    else pure buf

/-! ## BSpline.hpp -/

/-- First summand of the update in `base_spline_value` (BSpline.hpp:100-103). -/
def baseLeftTerm (t : List K) (x : K) (j a left right : ℕ) (b : List K) : M K :=
  if j = 0 then pure 0 else do
    let v ← rd b a
    let l ← rd t left
    let r ← rd t (right - 1)
    div (v * (x - l)) (r - l)

/-- Second summand of the update in `base_spline_value` (BSpline.hpp:104-107). -/
def baseRightTerm (order : ℕ) (t : List K) (x : K) (a left right : ℕ) (b : List K) : M K :=
  if a = order then pure 0 else do
    let v ← rd b (a + 1)
    let r ← rd t right
    let l ← rd t (left + 1)
    div (v * (r - x)) (r - l)

/-- Body of the inner loop of `base_spline_value` (BSpline.hpp:95-108). -/
def baseSplineBody (order : ℕ) (t : List K) (s : ℕ) (x : K) (i idxBegin j : ℕ) (b : List K) : M (List K) := do
  let left ← itAdd t.length s (-((i : ℤ) - j))
  let right ← itAdd t.length s ((j : ℤ) + 1)
  let u ← baseLeftTerm t x j (idxBegin + j) left right b
  let w ← baseRightTerm order t x (idxBegin + j) left right b
  wr b (idxBegin + j) (u + w)

/-- `base_spline_value` (BSpline.hpp:83-111). -/
def baseSplineValue (order : ℕ) (t : List K) (s : ℕ) (x : K) (p : ℕ) : M (List K) := do
  let b ← wr (List.replicate (order + 1) (0 : K)) order 1
  loop 1 (p + 1) b fun i b => do
    let idxBegin ← subM order i
    loop 0 (i + 1) b fun j b => baseSplineBody order t s x i idxBegin j b

/-- `std::upper_bound(first, first + len, x)` as bisection (libstdc++ `__upper_bound`). -/
def upperBoundGo (t : List K) (x : K) : ℕ → ℕ → ℕ → M ℕ
  | 0, first, _ => .ok first
  | fuel + 1, first, len =>
    if len = 0 then .ok first
    else do
      let half := len / 2
      let v ← rd t (first + half)
      if x < v then upperBoundGo t x fuel first half
      else upperBoundGo t x fuel (first + half + 1) (len - half - 1)

/-- `std::upper_bound(begin + lo, begin + hi, x)`; a reversed range is undefined behaviour. -/
def upperBound (t : List K) (lo hi : ℕ) (x : K) : M ℕ :=
  if hi < lo then .error .oob else upperBoundGo t x (hi - lo) lo (hi - lo)

/-- Wrap of a periodic coordinate into `range` (BSpline.hpp:130-136). -/
def wrapCoord (range : K × K) (x : K) : M K := do
  let period := range.2 - range.1
  let f ← fmod (x - range.1) period
  pure (range.1 + f + (if x < range.1 then period else 0))

/-- Segment choice of `get_knot_iter` (BSpline.hpp:146-156). -/
def findSegment (order : ℕ) (t : List K) (x : K) (hint last : ℕ) : M ℕ := do
  let iter ← itAdd t.length 0 hint
  let a ← rd t iter
  let hit ← if a ≤ x then do
      let b ← rd t (iter + 1)
      pure (decide (x < b))
    else pure false
  if hit then pure iter
  else do
    let lo ← itAdd t.length 0 (order + 1)
    let hi ← itAdd t.length 0 (last + 1)
    let u ← upperBound t lo hi x
    itAdd t.length u (-1)

/-- `get_knot_iter(dim_ind, x, hint, last)` (BSpline.hpp:125-157). -/
def getKnotIter (b : BSpline D K V) (d : Fin D) (x : K) (hint last : ℕ) : M (K × ℕ) := do
  let _ ← itAdd (b.knots d).length 0 hint
  let x ← if b.periodicity d then wrapCoord (b.range d) x else pure x
  let s ← findSegment b.order (b.knots d) x hint last
  pure (x, s)

/-- `get_knot_iter(dim_ind, x, hint)` (BSpline.hpp:159-163). -/
def getKnotIter' (b : BSpline D K V) (d : Fin D) (x : K) (hint : ℕ) : M (K × ℕ) := do
  let a ← subM (b.knots d).length b.order
  let last ← subM a 2
  getKnotIter b d x hint last

/-- Loop body of `operator()` (BSpline.hpp:338-364), default layout. -/
def evalBody (b : BSpline D K V) (segs : Fin D → K × ℕ) (base : Fin D → List K) (i : ℕ) (v : V) : M V := do
  let a ← dimwiseIndices (fun _ : Fin D => b.order + 1) i
  let r ← (List.finRange D).foldlM (fun (acc : K × (Fin D → ℕ)) d => do
    let e ← rd (base d) (a d)
    let k ← b.ctrlIndex d (segs d).2 (a d)
    pure (acc.1 * e, Function.update acc.2 d k)) ((1 : K), a)
  let c ← b.ctrl.get r.2
  pure (v + r.1 • c)

/-- `operator()(coord_with_hints)` (BSpline.hpp:305-368), default layout. -/
def eval (b : BSpline D K V) (x : Fin D → K × ℕ) : M V := do
  let segs ← tabM fun d => getKnotIter' b d (x d).1 (x d).2
  let base ← tabM fun d => baseSplineValue b.order (b.knots d) (segs d).2 (segs d).1 b.order
  loop 0 ((b.order + 1) ^ D) 0 fun i v => evalBody b segs base i v

/-- Loop body filling the local buffers of `derivative_at` (BSpline.hpp:457-486). -/
def derivFillBody (b : BSpline D K V) (segs : Fin D → K × ℕ) (base : Fin D → List K) (i : ℕ)
    (st : Mesh D K × Mesh D V) : M (Mesh D K × Mesh D V) := do
  let a ← BSpline.localIndices (b.order + 1) (fun _ : Fin D => false) i
  let r ← (List.finRange D).foldlM (fun (acc : K × (Fin D → ℕ)) d => do
    let e ← rd (base d) (a d)
    let k ← b.ctrlIndex d (segs d).2 (a d)
    pure (acc.1 * e, Function.update acc.2 d k)) ((1 : K), (fun _ => 0 : Fin D → ℕ))
  let sv ← st.1.set a r.1
  let c ← b.ctrl.get r.2
  let cv ← st.2.set a c
  pure (sv, cv)

/-- One assignment of the derivative reduction (BSpline.hpp:511-517). -/
def derivReduceBody (order : ℕ) (t : List K) (s : ℕ) (off step k j : ℕ) (buf : List V) : M (List V) := do
  let i ← subM (order + j) k
  let i1 ← subM i 1
  let hi ← rd buf (off + i * step)
  let lo ← rd buf (off + i1 * step)
  let tj ← rd t (s + j)
  let q ← subM (s + j) k
  let tjk ← rd t q
  let v ← ScaleArith.divV ((ofNat k : K) • (hi - lo)) (tj - tjk)
  wr buf (off + i * step) v

/-- Derivative reduction of one line (BSpline.hpp:504-518). -/
def derivReduceLine (order : ℕ) (t : List K) (s p off step : ℕ) (buf : List V) : M (List V) :=
  loopDown (order - p) buf fun kk buf =>
    loopDown (p + kk + 1) buf fun jj buf =>
      derivReduceBody order t s off step (p + kk + 1) (jj + 1) buf

/-- Derivative reduction along dimension `d` over all lines (BSpline.hpp:489-520). -/
def derivReduceDim (c : Cfg) (b : BSpline D K V) (segs : Fin D → K × ℕ) (d : Fin D) (p : ℕ) (m : Mesh D V) : M (Mesh D V) := do
  if p = b.order then pure m
  else do
    let hs ← divN m.size (m.dims d)
    loop 0 hs m fun i m => do
      let a ← BSpline.localIndices (b.order + 1) (fun dd => decide (dd = d)) i
      let r ← m.lineBegin c d a
      let buf ← derivReduceLine b.order (b.knots d) (segs d).2 p r.1 r.2 m.storage
      pure ⟨m.dims, buf⟩

/-- `derivative_at(coord_deriOrder_hint_tuple)` (BSpline.hpp:393-532), default layout. -/
def derivativeAtH (c : Cfg) (b : BSpline D K V) (x : Fin D → K × ℕ × ℕ) : M V := do
  if ∃ d, b.order < (x d).2.2 then pure 0
  else do
    let p : Fin D → ℕ := fun d => b.order - (x d).2.2
    let segs ← tabM fun d => getKnotIter' b d (x d).1 (x d).2.1
    let base ← tabM fun d => baseSplineValue b.order (b.knots d) (segs d).2 (segs d).1 (p d)
    let st ← loop 0 ((b.order + 1) ^ D) (Mesh.mk' fun _ => b.order + 1, Mesh.mk' fun _ => b.order + 1)
      fun i st => derivFillBody b segs base i st
    let cv ← (List.finRange D).foldlM (fun m d => derivReduceDim c b segs d (p d) m) st.2
    loop 0 st.1.size 0 fun i v => do
      let sv ← rd st.1.storage i
      let q ← rd cv.storage i
      pure (v + sv • q)

/-! ## Interpolation.hpp -/

/-- `xs[i] = x_range.first + (i - 0.5 * extra) * dx` (Interpolation.hpp:344-347 and 351-354). -/
def uniformKnot (a dx : K) (extra i : ℕ) : K := a + (ofNat i - half * ofNat extra) * dx

/-- `dx_[dim_ind]` (Interpolation.hpp:335-336). -/
def uniformStep (n : ℕ) (a b : K) : M K := do
  let m ← subM n 1
  div (b - a) (ofNat m)

/-- Periodic part of the uniform `create_knot_vector_` (Interpolation.hpp:338-348). -/
def uniformKnotsPeriodic (order n : ℕ) (a dx : K) : M (List K) :=
  let extra := 2 * order + (1 - order % 2)
  loop 0 (n + extra) (List.replicate (n + extra) a) fun i xs => wr xs i (uniformKnot a dx extra i)

/-- Aperiodic part of the uniform `create_knot_vector_` (Interpolation.hpp:338-340 and 349-359). -/
def uniformKnotsAperiodic (order n : ℕ) (a b dx : K) : M (List K) := do
  let extra := order + 1
  let hi ← subM (n + extra) (order + 1)
  let xs ← loop (order + 1) hi (List.replicate (n + extra) a) fun i xs => wr xs i (uniformKnot a dx extra i)
  loop hi (n + extra) xs fun i xs => wr xs i b

/-- Knots of a uniform dimension. -/
def uniformKnots (order n : ℕ) (periodic : Bool) (a b dx : K) : M (List K) :=
  if periodic then uniformKnotsPeriodic order n a dx else uniformKnotsAperiodic order n a b dx

/-- Periodic part of the non-uniform `create_knot_vector_` (Interpolation.hpp:401-417). -/
def coordKnotsPeriodic (order : ℕ) (l : List K) : M (List K × List K) := do
  let n := l.length
  let x0 ← rd l 0
  let st ← loop (order + 1) (order + n) (List.replicate (n + 2 * order + (1 - order % 2)) (0 : K), [x0]) fun i st => do
    let present ← rd l (i - order)
    let back ← backM st.2
    let xs ← wr st.1 i (if order % 2 = 0 then half * (back + present) else present)
    pure (xs, st.2 ++ [present])
  let back ← backM st.2
  let front ← rd st.2 0
  let period := back - front
  let xs ← loop 0 (order + 1) st.1 fun i xs => do
    let k ← subM (n + i) 1
    let u ← rd xs k
    let xs ← wr xs i (u - period)
    let k1 ← subM xs.length (i + 1)
    let k2 ← subM xs.length (i + n)
    let v ← rd xs k2
    wr xs k1 (v + period)
  pure (xs, st.2)

/-- Aperiodic part of the non-uniform `create_knot_vector_` (Interpolation.hpp:418-447). -/
def coordKnotsAperiodic (order : ℕ) (l : List K) : M (List K × List K) := do
  let n := l.length
  let lk ← rd l 0
  let xs ← loop 0 (order + 1) (List.replicate (n + order + 1) (0 : K)) fun i xs => wr xs i lk
  let st ← loop 1 order (⟨0, xs, [lk], 0⟩ : CoordSt K) fun i st => do
    let v ← rd l (st.pos + 1)
    let ic := st.ic ++ [v]
    let u ← rd ic i
    pure ⟨st.pos + 1, st.xs, ic, st.sum + u⟩
  let st ← loop (order + 1) n st fun i st => do
    let v ← rd l (st.pos + 1)
    let ic := st.ic ++ [v]
    let i1 ← subM i 1
    let u ← rd ic i1
    let sum := st.sum + u
    let w ← div sum (ofNat order)
    let xs ← wr st.xs i w
    let i2 ← subM i order
    let z ← rd ic i2
    pure ⟨st.pos + 1, xs, ic, sum - z⟩
  let rk ← rd l (st.pos + 1)
  let xs ← loop n (n + order + 1) st.xs fun i xs => wr xs i rk
  pure (xs, st.ic ++ [rk])

/-- Check of the coordinates (Interpolation.hpp:448-454). -/
def checkMonotonic (c : Cfg) (ic : List K) : M Unit := do
  let hi ← subM ic.length 1
  loop 0 hi () fun i _ => do
    let a ← rd ic i
    let b ← rd ic (i + 1)
    assertM c (decide (a < b))

/-- The two cases of the non-uniform `create_knot_vector_` (Interpolation.hpp:401-447). -/
def coordKnotsRaw (order : ℕ) (periodic : Bool) (l : List K) : M (List K × List K) :=
  if periodic then coordKnotsPeriodic order l else coordKnotsAperiodic order l

/-- Knot vector and `input_coord` of a non-uniform dimension (Interpolation.hpp:364-454). -/
def coordKnots (c : Cfg) (order meshSize : ℕ) (periodic : Bool) (l : List K) : M (List K × List K) := do
  assertM c (decide (l.length = pointNum c periodic meshSize))
  let r ← coordKnotsRaw order periodic l
  checkMonotonic c r.2
  pure r

/-- `create_knot_vector_` (Interpolation.hpp:321-464), both overloads. -/
def createKnotVector (c : Cfg) (dims : Fin D → ℕ) (x : Fin D → XRange K) (st : InterpFn D K V × (Fin D → List K)) (d : Fin D) :
    M (InterpFn D K V × (Fin D → List K)) :=
  match x d with
  | .uniform a b => do
    let n := pointNum c (st.1.periodicity d) (dims d)
    let dx ← uniformStep n a b
    let xs ← uniformKnots st.1.spline.order n (st.1.periodicity d) a b dx
    let s ← st.1.spline.loadKnots d xs
    pure (⟨s, Function.update st.1.dx d dx, Function.update st.1.uniform d true⟩, st.2)
  | .coords l => do
    let r ← coordKnots c st.1.spline.order (dims d) (st.1.periodicity d) l
    let s ← st.1.spline.loadKnots d r.1
    pure (⟨s, st.1.dx, Function.update st.1.uniform d false⟩, Function.update st.2 d r.2)

/-- An object before its knots are loaded (BSpline.hpp:178-179, Interpolation.hpp:117). -/
def blank (order : ℕ) (per : Fin D → Bool) : InterpFn D K V :=
  ⟨⟨order, per, fun _ => [], ⟨fun _ => 0, []⟩, fun _ => (0, 0)⟩, fun _ => 0, fun _ => false⟩

/-- Constructor for partial construction (Interpolation.hpp:109-121) with `create_knots_` (466-480). -/
def partialConstruct (c : Cfg) (order : ℕ) (per : Fin D → Bool) (dims : Fin D → ℕ) (x : Fin D → XRange K) :
    M (InterpFn D K V × (Fin D → List K)) :=
  (List.finRange D).foldlM (createKnotVector c dims x) (blank order per, fun _ => [])

/-- `std::max(coord_type{0.}, u)`, which is `(0 < u) ? u : 0`. -/
def maxZero (u : K) : K := if 0 < u then u else 0

/-- Hint of one dimension (Interpolation.hpp:281-294 and 306-317).  Simplification: the sum of the converted number and `order` does not
wrap around (a `double` below `2^64` is at most `2^64 - 2048`). -/
def hint (f : InterpFn D K V) (d : Fin D) (x : K) : M ℕ :=
  if f.uniform d then do
    let m ← subM (f.spline.knots d).length (f.spline.order + 2)
    let q ← div (x - (f.range d).1) (f.dx d)
    let k ← ceilSize (maxZero (q - if f.periodicity d then 1 else half * ofNat (f.spline.order + 1)))
    pure (min m (k + f.spline.order))
  else pure f.spline.order

/-- `operator()` (Interpolation.hpp:135-146). -/
def call (f : InterpFn D K V) (x : Fin D → K) : M V := do
  let h ← tabM fun d => hint f d (x d)
  eval f.spline fun d => (x d, h d)

/-- `boundary_check_` (Interpolation.hpp:482-491). -/
def boundaryCheck (f : InterpFn D K V) (x : Fin D → K) : M Unit :=
  (List.finRange D).foldlM (fun _ d =>
    if !f.periodicity d && (decide (x d < (f.range d).1) || decide (x d > (f.range d).2)) then .error .domainError else .ok ()) ()

/-- `at` (Interpolation.hpp:153-156, 163-169). -/
def at' (f : InterpFn D K V) (x : Fin D → K) : M V := do
  boundaryCheck f x
  call f x

/-- `derivative` (Interpolation.hpp:177-181). -/
def derivative (c : Cfg) (f : InterpFn D K V) (x : Fin D → K) (m : Fin D → ℕ) : M V := do
  let h ← tabM fun d => hint f d (x d)
  derivativeAtH c f.spline fun d => (x d, h d, m d)

/-- `derivative_at` (Interpolation.hpp:213-218). -/
def derivativeAt (c : Cfg) (f : InterpFn D K V) (x : Fin D → K) (m : Fin D → ℕ) : M V := do
  boundaryCheck f x
  derivative c f x m

/-! ## InterpolationTemplate.hpp -/

/-- `coef_mat.emplace` (InterpolationTemplate.hpp:297-305). -/
def coefMat (periodic : Bool) (n bw : ℕ) : M (CoefMat K) :=
  if periodic then do
    let m ← ExtBandMatrix.mk' n bw bw
    pure (.ext m)
  else pure (.band (BandMatrix.mk' n bw bw))

/-- `solver.compute(std::get<matrix_t>(coef_mat))` (InterpolationTemplate.hpp:428-434). -/
def ofMat (c : Cfg) (m : CoefMat K) : M (Solver K) :=
  match m with
  | .band m => do
    let s ← LUState.compute (bandCompute c) (LUState.empty (BandMatrix.mk' 0 0 0)) m
    pure (.band s)
  | .ext m => do
    let s ← LUState.compute (extCompute c)
      (LUState.empty ⟨0, 0, 0, Mesh.mk' fun _ => 0, Mesh.mk' fun _ => 0, Mesh.mk' fun _ => 0⟩) m
    pure (.ext s)

/-- `solver.solve(old_iter_begin)` (InterpolationTemplate.hpp:527-529) on a strided line. -/
def solve (c : Cfg) (s : Solver K) (buf : List V) (off step : ℕ) : M (List V) :=
  match s with
  | .band s => bandSolve c s.store buf off step
  | .ext s => extSolve c s.store buf off step

/-- `BandMatrix::operator()(i, j) = v` (BandMatrix.hpp:50-54).  Outside the band `i + q_ - j` wraps around or exceeds the width of the band, and
`bands_(j, i + q_ - j)` is the element of the buffer at `j (1 + p + q) + (i + q - j)` modulo `2 ^ 64` (Mesh.hpp:87-95), where the sum is less than the
length of the buffer and so below `2 ^ 64`.  With `w` this is what happens, without `w` wrapping is the error `wrap` of the other parts of the model. -/
def bandSet (w : Bool) (c : Cfg) (m : BandMatrix K) (i j : ℕ) (v : K) : M (BandMatrix K) :=
  if w = true ∧ ¬ (j + m.p ≥ i ∧ i + m.q ≥ j) then do
    assertM c false
    let s ← wr m.bands.storage (j * m.bands.dims 1 + (i + m.q) - j) v
    pure { m with bands := ⟨m.bands.dims, s⟩ }
  else m.set c i j v

/-- `coef_mat(i, j) = v`. -/
def matSet (w : Bool) (c : Cfg) (m : CoefMat K) (i j : ℕ) (v : K) : M (CoefMat K) :=
  match m with
  | .band m => do let m ← bandSet w c m i j v; pure (.band m)
  | .ext m => do let m ← m.set c i j v; pure (.ext m)

/-- The loop over `s_num` (InterpolationTemplate.hpp:383-418). -/
def rowWrite (w : Bool) (c : Cfg) (order n i ki s : ℕ) (periodic : Bool) (vals : List K) (m : CoefMat K) : M (CoefMat K) :=
  loop 0 s m fun j m => do
    let row ← modM (i + if periodic then bandWidth order periodic else 0) n
    let k ← subM ki order
    let col ← modM (k + j) n
    let v ← rd vals j
    matSet w c m row col v

/-- `spline.base_spline_value(d, knots_begin + ki, x)`. -/
def baseAt (b : BSpline D K V) (d : Fin D) (ki : ℕ) (x : K) : M (List K) := do
  let it ← itAdd (b.knots d).length 0 ki
  baseSplineValue b.order (b.knots d) it x b.order

/-- Base spline values for a data point of a uniform aperiodic dimension (InterpolationTemplate.hpp:347-360). -/
def uniformBase (f : InterpFn D K V) (d : Fin D) (i ki : ℕ) (vals : List K) : M (List K) :=
  if f.periodicity d then pure vals
  else if ki ≤ 2 * f.spline.order + 1 then baseAt f.spline d ki ((f.range d).1 + ofNat i * f.dx d)
  else do
    let t ← subM (f.spline.knots d).length (2 * f.spline.order + 2)
    if ki ≥ t then baseAt f.spline d ki ((f.range d).1 + ofNat i * f.dx d) else pure vals

/-- `knot_ind` of a non-uniform dimension (InterpolationTemplate.hpp:365-377). -/
def knotIndCoord (f : InterpFn D K V) (coords : List K) (d : Fin D) (i : ℕ) (x : K) : M ℕ :=
  if f.periodicity d then pure (i + f.spline.order)
  else if i = 0 then pure f.spline.order
  else do
    let l1 ← subM coords.length 1
    if i = l1 then itAdd (f.spline.knots d).length (f.spline.knots d).length (-((f.spline.order : ℤ) + 2))
    else do
      let m ← subM (f.spline.knots d).length (f.spline.order + 1)
      let r ← getKnotIter f.spline d x (i + 1) (min m (i + f.spline.order))
      pure r.2

/-- `knot_ind` and base spline values of data point `i` (InterpolationTemplate.hpp:341-380). -/
def rowData (f : InterpFn D K V) (coords : List K) (d : Fin D) (i : ℕ) (vals : List K) : M (ℕ × List K) :=
  if f.uniform d then do
    let ki ← knotIndUniform f.spline.order (f.spline.knots d).length i (f.periodicity d)
    let vals ← uniformBase f d i ki vals
    pure (ki, vals)
  else do
    let x ← rd coords i
    let ki ← knotIndCoord f coords d i x
    let vals ← baseAt f.spline d ki x
    pure (ki, vals)

/-- Body of the loop over the data points (InterpolationTemplate.hpp:316-420). -/
def assembleBody (w : Bool) (c : Cfg) (f : InterpFn D K V) (coords : List K) (d : Fin D) (n i : ℕ) (st : CoefMat K × List K) :
    M (CoefMat K × List K) :=
  if f.periodicity d = false ∧ (i = 0 ∨ i + 1 = n) then do
    let m ← matSet w c st.1 i i 1
    pure (m, st.2)
  else do
    let inner ← isInternal f.spline.order n i
    let r ← rowData f coords d i st.2
    let m ← rowWrite w c f.spline.order n i r.1 (sNum f.spline.order (f.periodicity d) (f.uniform d) inner) (f.periodicity d) r.2 st.1
    pure (m, r.2)

/-- Coefficient matrix of dimension `d` (InterpolationTemplate.hpp:287-420) for `n` unknowns. -/
def assemble (w : Bool) (c : Cfg) (f : InterpFn D K V) (coords : List K) (d : Fin D) (n : ℕ) (vals : List K) : M (CoefMat K) := do
  let m ← coefMat (f.periodicity d) n (bandWidth f.spline.order (f.periodicity d))
  let st ← loop 0 n (m, vals) fun i st => assembleBody w c f coords d n i st
  pure st.1

/-- Pre-calculated base spline values (InterpolationTemplate.hpp:266-280). -/
def precalc (f : InterpFn D K V) (d : Fin D) : M (List K) :=
  if f.periodicity d && f.uniform d then do
    let t ← rd (f.spline.knots d) f.spline.order
    baseAt f.spline d f.spline.order (t + ofNat (1 - f.spline.order % 2) * f.dx d * half)
  else pure []

/-- Constructor (InterpolationTemplate.hpp:60-79) with `build_solver_` (254-446). -/
def constructT (w : Bool) (c : Cfg) (order : ℕ) (per : Fin D → Bool) (dims : Fin D → ℕ) (x : Fin D → XRange K) : M (Template D K V) := do
  let r ← partialConstruct c order per dims x
  let dims' ← adjustDims c per dims
  let vals ← tabM fun d => precalc r.1 d
  let solvers ← tabM fun d => do
    let m ← assemble w c r.1 (r.2 d) d (dims' d) (vals d)
    ofMat c m
  pure ⟨r.2, dims', r.1, solvers⟩

/-- Copy of the data into `weights` (InterpolationTemplate.hpp:450-488). -/
def initWeights (c : Cfg) (order : ℕ) (per : Fin D → Bool) (dims : Fin D → ℕ) (fm : Mesh D V) : M (Mesh D V) :=
  loop 0 fm.size (Mesh.mk' dims) fun pos w => do
    let a ← fm.iterIndices pos
    let r ← Template.weightIndex c order per dims a
    if r.1 then do
      let v ← rd fm.storage pos
      w.set r.2 v
    else pure w

/-- Body of the loop of `solve_and_rearrange_block` (InterpolationTemplate.hpp:518-544). -/
def solveLine (c : Cfg) (s : Solver K) (j : ℕ) (st : Mesh (D + 1) V × Mesh (D + 1) V) : M (Mesh (D + 1) V × Mesh (D + 1) V) := do
  let n := st.1.dims (Fin.last D)
  let a ← dimwiseIndices st.1.dims (j * n)
  let o ← st.1.lineBegin c (Fin.last D) a
  let w ← st.2.lineBegin c 0 (Template.rightShift a)
  let buf ← solve c s st.1.storage o.1 o.2
  if D = 0 then pure (⟨st.1.dims, buf⟩, st.2)
  else do
    let nbuf ← Template.copyLine n o.1 o.2 w.1 w.2 buf st.2.storage
    pure (⟨st.1.dims, buf⟩, ⟨st.2.dims, nbuf⟩)

/-- One iteration of the loop over the dimensions (InterpolationTemplate.hpp:503-572). -/
def solveDim (c : Cfg) (s : Solver K) (st : Mesh (D + 1) V × Mesh (D + 1) V) : M (Mesh (D + 1) V × Mesh (D + 1) V) := do
  let new := if D = 0 then st.2 else st.2.resize (Template.rightShift st.1.dims) 0
  let hs ← divN st.1.size (st.1.dims (Fin.last D))
  loop 0 hs (st.1, new) fun j st => solveLine c s j st

/-- Loop over the dimensions (InterpolationTemplate.hpp:501-573). -/
def solveDims (c : Cfg) (solvers : Fin (D + 1) → Solver K) (st : Mesh (D + 1) V × Mesh (D + 1) V) :
    M (Mesh (D + 1) V × Mesh (D + 1) V) :=
  (List.finRange (D + 1)).foldlM (fun st d =>
    if d.val % 2 = 0 then solveDim c (solvers d.rev) st
    else do
      let r ← solveDim c (solvers d.rev) (st.2, st.1)
      pure (r.2, r.1)) st

/-- `solve_for_control_points_` (InterpolationTemplate.hpp:448-580). -/
def solveForControlPoints (c : Cfg) (t : Template (D + 1) K V) (fm : Mesh (D + 1) V) : M (Mesh (D + 1) V) := do
  let w ← initWeights c t.base.spline.order t.base.periodicity t.dims fm
  let tmp : Mesh (D + 1) V := Mesh.mk' fun _ => 1
  let tmp := if D = 0 then tmp else tmp.resize t.dims 0
  let st ← solveDims c t.solvers (w, tmp)
  if (D + 1) % 2 = 0 ∨ D = 0 then pure st.1 else pure st.2

/-- `InterpolationFunction(periodicity, f_mesh, x_ranges...)` (Interpolation.hpp:92-101). -/
def construct (w : Bool) (c : Cfg) (order : ℕ) (per : Fin (D + 1) → Bool) (fm : Mesh (D + 1) V) (x : Fin (D + 1) → XRange K) :
    M (InterpFn (D + 1) K V) := do
  let t ← constructT w c order per fm.dims x
  let w ← solveForControlPoints c t fm
  pure { t.base with spline := t.base.spline.loadCtrlPts w }

end Intp.Fl
