import Verif.Interpolation

/-!
# Model of src/include/InterpolationTemplate.hpp (C++17 branch, single thread)

The multi-threaded variant of the line sweep is in `Verif/MultiThread.lean`.
-/

namespace Intp

variable {K V : Type} [Field K] [LinearOrder K] [FloorRing K] [AddCommGroup V] [Module K V] {D : ℕ}

/-- `std::variant` of the two matrix types (InterpolationTemplate.hpp:294-305). -/
inductive CoefMat (K : Type)
  | band (m : BandMatrix K)
  | ext (m : ExtBandMatrix K)

/-- `coef_mat.emplace` (InterpolationTemplate.hpp:297-305). -/
def CoefMat.mk' (periodic : Bool) (n bw : ℕ) : M (CoefMat K) :=
  if periodic then do
    let m ← ExtBandMatrix.mk' n bw bw
    pure (.ext m)
  else pure (.band (BandMatrix.mk' n bw bw))

/-- `std::visit([..](auto& m) { m(row, col) = v; }, coef_mat)` (InterpolationTemplate.hpp:323, 393-397). -/
def CoefMat.set (c : Cfg) (m : CoefMat K) (row col : ℕ) (v : K) : M (CoefMat K) :=
  match m with
  | .band m => do
    let m ← m.set c row col v
    pure (.band m)
  | .ext m => do
    let m ← m.set c row col v
    pure (.ext m)

/-- `EitherSolver` (InterpolationTemplate.hpp:191): a `std::variant` of the two solver types. -/
inductive Solver (K : Type)
  | band (s : LUState (BandMatrix K))
  | ext (s : LUState (ExtBandMatrix K))

/-- `solver.compute(std::get<matrix_t>(coef_mat))` (InterpolationTemplate.hpp:428-434) on the freshly emplaced solver (69-77), whose kind is
that of the matrix (both follow `periodicity`). -/
def Solver.ofMat (c : Cfg) (m : CoefMat K) : M (Solver K) :=
  match m with
  | .band m => do
    let s ← LUState.compute (BandMatrix.computeImpl c) (LUState.empty (BandMatrix.mk' 0 0 0)) m
    pure (.band s)
  | .ext m => do
    let s ← LUState.compute (ExtBandMatrix.computeImpl c)
      (LUState.empty ⟨0, 0, 0, Mesh.mk' fun _ => 0, Mesh.mk' fun _ => 0, Mesh.mk' fun _ => 0⟩) m
    pure (.ext s)

/-- `solver.solve(old_iter_begin)` (InterpolationTemplate.hpp:527-529) on a strided line. -/
def Solver.solve (c : Cfg) (s : Solver K) (buf : List V) (off step : ℕ) : M (List V) :=
  match s with
  | .band s => s.solve (BandMatrix.solveInPlace c) buf off step
  | .ext s => s.solve (ExtBandMatrix.solveInPlace c) buf off step

/-- `band_width` (InterpolationTemplate.hpp:291). -/
def bandWidth (order : ℕ) (periodic : Bool) : ℕ := if periodic then order / 2 else if order = 0 then 0 else order - 1

/-- `is_internal` (InterpolationTemplate.hpp:337-339). -/
def isInternal (order n i : ℕ) : M Bool :=
  if i > order / 2 then do
    let h ← subM n (order / 2 + 1)
    pure (decide (i < h))
  else pure false

/-- `knot_ind` of a uniform dimension (InterpolationTemplate.hpp:342-346). -/
def knotIndUniform (order knotNum i : ℕ) (periodic : Bool) : M ℕ :=
  if periodic then pure (i + order)
  else do
    let m ← subM knotNum (order + 2)
    pure (min m (if i > order / 2 then i + (order + 1) / 2 else order))

/-- `spline.base_spline_value(d, knots_begin + ki, x)`. -/
def baseAt (b : BSpline D K V) (d : Fin D) (ki : ℕ) (x : K) : M (List K) := do
  let it ← itAdd (b.knots d).length 0 ki
  baseSplineValue b.order (b.knots d) it x b.order

/-- Base spline values for the data point `x = range.first + i * dx` of a uniform aperiodic dimension (InterpolationTemplate.hpp:347-360);
`vals` are the values of the previous data point. -/
def uniformBase (f : InterpFn D K V) (d : Fin D) (i ki : ℕ) (vals : List K) : M (List K) :=
  if f.periodicity d then pure vals
  else if ki ≤ 2 * f.spline.order + 1 then baseAt f.spline d ki ((f.range d).1 + (i : K) * f.dx d)
  else do
    let t ← subM (f.spline.knots d).length (2 * f.spline.order + 2)
    if ki ≥ t then baseAt f.spline d ki ((f.range d).1 + (i : K) * f.dx d) else pure vals

/-- `knot_ind` of a non-uniform dimension (InterpolationTemplate.hpp:365-377); `get_knot_iter` takes its coordinate by reference, but
this happens only in aperiodic dimensions, where it does not change. -/
def knotIndCoord (f : InterpFn D K V) (coords : List K) (d : Fin D) (i : ℕ) (x : K) : M ℕ :=
  if f.periodicity d then pure (i + f.spline.order)
  else if i = 0 then pure f.spline.order
  else do
    let l1 ← subM coords.length 1
    if i = l1 then itAdd (f.spline.knots d).length (f.spline.knots d).length (-((f.spline.order : ℤ) + 2))
    else do
      let m ← subM (f.spline.knots d).length (f.spline.order + 1)
      let r ← f.spline.getKnotIter d x (i + 1) (min m (i + f.spline.order))
      pure r.2

/-- `knot_ind` and base spline values of data point `i` (InterpolationTemplate.hpp:341-380). -/
def rowData (f : InterpFn D K V) (coords : List K) (d : Fin D) (i : ℕ) (vals : List K) : M (ℕ × List K) :=
  if f.uniform d then do
    let ki ← knotIndUniform f.spline.order (f.spline.knots d).length i (f.periodicity d)
    let vals ← uniformBase f d i ki vals
    pure (ki, vals)
  else do
    let x ← rd coords i
    let ki ← knotIndCoord f coords d i x
    let vals ← baseAt f.spline d ki x
    pure (ki, vals)

/-- `s_num` (InterpolationTemplate.hpp:383-386). -/
def sNum (order : ℕ) (periodic uniform internal : Bool) : ℕ :=
  if periodic then order ||| 1 else if order = 1 then 1 else if uniform && internal then order ||| 1 else order + 1

/-- Write of one row of the matrix (InterpolationTemplate.hpp:387-419). -/
def rowWrite (c : Cfg) (order n i ki s : ℕ) (periodic : Bool) (vals : List K) (m : CoefMat K) : M (CoefMat K) :=
  loop 0 s m fun j m => do
    let row ← modM (i + if periodic then bandWidth order periodic else 0) n
    let k ← subM ki order
    let col ← modM (k + j) n
    let v ← rd vals j
    m.set c row col v

/-- Body of the loop over the data points (InterpolationTemplate.hpp:316-420); the state is the matrix and
`base_spline_vals_per_dim[d]`. -/
def assembleBody (c : Cfg) (f : InterpFn D K V) (coords : List K) (d : Fin D) (n i : ℕ) (st : CoefMat K × List K) :
    M (CoefMat K × List K) :=
  if f.periodicity d = false ∧ (i = 0 ∨ i + 1 = n) then do
    let m ← st.1.set c i i 1
    pure (m, st.2)
  else do
    let inner ← isInternal f.spline.order n i
    let r ← rowData f coords d i st.2
    let m ← rowWrite c f.spline.order n i r.1 (sNum f.spline.order (f.periodicity d) (f.uniform d) inner) (f.periodicity d) r.2 st.1
    pure (m, r.2)

/-- Coefficient matrix of dimension `d` (InterpolationTemplate.hpp:287-420) for `n` unknowns. -/
def assemble (c : Cfg) (f : InterpFn D K V) (coords : List K) (d : Fin D) (n : ℕ) (vals : List K) : M (CoefMat K) := do
  let m ← CoefMat.mk' (f.periodicity d) n (bandWidth f.spline.order (f.periodicity d))
  let st ← loop 0 n (m, vals) fun i st => assembleBody c f coords d n i st
  pure st.1

/-- Pre-calculated base spline values (InterpolationTemplate.hpp:266-280), `[]` standing for the uninitialised array. -/
def precalc (f : InterpFn D K V) (d : Fin D) : M (List K) :=
  if f.periodicity d && f.uniform d then do
    let t ← rd (f.spline.knots d) f.spline.order
    baseAt f.spline d f.spline.order (t + ((1 - f.spline.order % 2 : ℕ) : K) * f.dx d * (1 / 2))
  else pure []

/-- Number of unknowns per dimension (InterpolationTemplate.hpp:255-265). -/
def adjustDims (c : Cfg) (per : Fin D → Bool) (dims : Fin D → ℕ) : M (Fin D → ℕ) :=
  if c.noDummy then pure dims else tabM fun d => subM (dims d) (if per d then 1 else 0)

/-- `InterpolationFunctionTemplate<T, D, O, U>` (InterpolationTemplate.hpp:33, 182-188, 252). -/
structure Template (D : ℕ) (K V : Type) where
  coords : Fin D → List K
  dims : Fin D → ℕ
  base : InterpFn D K V
  solvers : Fin D → Solver K

namespace Template

/-- Constructor (InterpolationTemplate.hpp:60-79) with `build_solver_` (254-446). -/
def construct (c : Cfg) (order : ℕ) (per : Fin D → Bool) (dims : Fin D → ℕ) (x : Fin D → XRange K) : M (Template D K V) := do
  let r ← InterpFn.partialConstruct c order per dims x
  let dims' ← adjustDims c per dims
  let vals ← tabM fun d => precalc r.1 d
  let solvers ← tabM fun d => do
    let m ← assemble c r.1 (r.2 d) d (dims' d) (vals d)
    Solver.ofMat c m
  pure ⟨r.2, dims', r.1, solvers⟩

/-- Index of a data point in `weights`, and whether it is kept (InterpolationTemplate.hpp:453-461 and 465-479). -/
def weightIndex (c : Cfg) (order : ℕ) (per : Fin D → Bool) (dims : Fin D → ℕ) (a : Fin D → ℕ) : M (Bool × (Fin D → ℕ)) :=
  (List.finRange D).foldlM (fun (acc : Bool × (Fin D → ℕ)) d =>
    if per d then do
      let keep := acc.1 && (c.noDummy || decide (acc.2 d ≠ dims d))
      let k ← modM (acc.2 d + dims d + order / 2) (dims d)
      pure (keep, Function.update acc.2 d k)
    else pure acc) (true, a)

/-- Copy of the data into `weights` (InterpolationTemplate.hpp:450-488). -/
def initWeights (c : Cfg) (order : ℕ) (per : Fin D → Bool) (dims : Fin D → ℕ) (fm : Mesh D V) : M (Mesh D V) :=
  loop 0 fm.size (Mesh.mk' dims) fun pos w => do
    let a ← fm.iterIndices pos
    let r ← weightIndex c order per dims a
    if r.1 then do
      let v ← rd fm.storage pos
      w.set r.2 v
    else pure w

/-- `array_right_shift` (InterpolationTemplate.hpp:493-499). -/
def rightShift (a : Fin (D + 1) → ℕ) : Fin (D + 1) → ℕ := fun d => a ⟨(d.val + (D + 1) - 1) % (D + 1), Nat.mod_lt _ (Nat.succ_pos D)⟩

/-- Copy of a solved line into the rotated mesh (InterpolationTemplate.hpp:537-543); `old_iter_end` is `line_size` steps after
`old_iter_begin` (`C04`). -/
def copyLine (n off step noff nstep : ℕ) (old new : List V) : M (List V) :=
  loop 0 n new fun k new => do
    let v ← rd old (off + k * step)
    wr new (noff + k * nstep) v

/-- Body of the loop of `solve_and_rearrange_block` (InterpolationTemplate.hpp:518-544); the state is `(old_weight, new_weight)`. -/
def solveLine (c : Cfg) (s : Solver K) (j : ℕ) (st : Mesh (D + 1) V × Mesh (D + 1) V) : M (Mesh (D + 1) V × Mesh (D + 1) V) := do
  let n := st.1.dims (Fin.last D)
  let a ← dimwiseIndices st.1.dims (j * n)
  let o ← st.1.lineBegin c (Fin.last D) a
  let w ← st.2.lineBegin c 0 (rightShift a)
  let buf ← s.solve c st.1.storage o.1 o.2
  if D = 0 then pure (⟨st.1.dims, buf⟩, st.2)
  else do
    let nbuf ← copyLine n o.1 o.2 w.1 w.2 buf st.2.storage
    pure (⟨st.1.dims, buf⟩, ⟨st.2.dims, nbuf⟩)

/-- `solve_and_rearrange_block(begin, end)` (InterpolationTemplate.hpp:516-545). -/
def solveBlock (c : Cfg) (s : Solver K) (b e : ℕ) (st : Mesh (D + 1) V × Mesh (D + 1) V) : M (Mesh (D + 1) V × Mesh (D + 1) V) :=
  loop b e st fun j st => solveLine c s j st

/-- One iteration of the loop over the dimensions (InterpolationTemplate.hpp:503-572) on `(old_weight, new_weight)`. -/
def solveDim (c : Cfg) (s : Solver K) (st : Mesh (D + 1) V × Mesh (D + 1) V) : M (Mesh (D + 1) V × Mesh (D + 1) V) := do
  let new := if D = 0 then st.2 else st.2.resize (rightShift st.1.dims) 0
  let hs ← divN st.1.size (st.1.dims (Fin.last D))
  solveBlock c s 0 hs (st.1, new)

/-- Loop over the dimensions (InterpolationTemplate.hpp:501-573) on `(weights, weights_tmp)`; `Fin.rev d` is `dim - 1 - d`. -/
def solveDims (c : Cfg) (solvers : Fin (D + 1) → Solver K) (st : Mesh (D + 1) V × Mesh (D + 1) V) :
    M (Mesh (D + 1) V × Mesh (D + 1) V) :=
  (List.finRange (D + 1)).foldlM (fun st d =>
    if d.val % 2 = 0 then solveDim c (solvers d.rev) st
    else do
      let r ← solveDim c (solvers d.rev) (st.2, st.1)
      pure (r.2, r.1)) st

/-- `solve_for_control_points_` (InterpolationTemplate.hpp:448-580). -/
def solveForControlPoints (c : Cfg) (t : Template (D + 1) K V) (fm : Mesh (D + 1) V) : M (Mesh (D + 1) V) := do
  let w ← initWeights c t.base.spline.order t.base.periodicity t.dims fm
  let tmp : Mesh (D + 1) V := Mesh.mk' fun _ => 1
  let tmp := if D = 0 then tmp else tmp.resize t.dims 0
  let st ← solveDims c t.solvers (w, tmp)
  if (D + 1) % 2 = 0 ∨ D = 0 then pure st.1 else pure st.2

/-- `interpolate(f_mesh) const&` (InterpolationTemplate.hpp:118-125). -/
def interpolate (c : Cfg) (t : Template (D + 1) K V) (fm : Mesh (D + 1) V) : M (InterpFn (D + 1) K V) := do
  let w ← t.solveForControlPoints c fm
  pure { t.base with spline := t.base.spline.loadCtrlPts w }

/-- `interpolate(interp, f_mesh) const&` (InterpolationTemplate.hpp:135-143): `interp = base_` overwrites every member of `interp` (the
implicit copy assignment), then the control points are loaded.  The result is the new value of `interp`. -/
def interpolateInto (c : Cfg) (t : Template (D + 1) K V) (interp : InterpFn (D + 1) K V) (fm : Mesh (D + 1) V) :
    M (InterpFn (D + 1) K V) := do
  let interp := { interp with
    spline := { interp.spline with
      order := t.base.spline.order, periodicity := t.base.spline.periodicity, knots := t.base.spline.knots,
      ctrl := t.base.spline.ctrl, range := t.base.spline.range },
    dx := t.base.dx, uniform := t.base.uniform }
  let w ← t.solveForControlPoints c fm
  pure { interp with spline := interp.spline.loadCtrlPts w }

/-- `interpolate(f_mesh) &&` (InterpolationTemplate.hpp:127-133): the result, and the template after the call, whose `base_` has been moved
from (modelled as having no knots and no control points). -/
def interpolateMove (c : Cfg) (t : Template (D + 1) K V) (fm : Mesh (D + 1) V) : M (InterpFn (D + 1) K V × Template (D + 1) K V) := do
  let w ← t.solveForControlPoints c fm
  let b : InterpFn (D + 1) K V := { t.base with spline := t.base.spline.loadCtrlPts w }
  pure (b, { t with base := { t.base with spline := { t.base.spline with knots := fun _ => [], ctrl := ⟨w.dims, []⟩ } } })

end Template

namespace InterpFn

/-- `InterpolationFunction(periodicity, f_mesh, x_ranges...)` (Interpolation.hpp:92-101). -/
def construct (c : Cfg) (order : ℕ) (per : Fin (D + 1) → Bool) (fm : Mesh (D + 1) V) (x : Fin (D + 1) → XRange K) :
    M (InterpFn (D + 1) K V) := do
  let t ← Template.construct c order per fm.dims x
  let r ← t.interpolateMove c fm
  pure r.1

/-- The 1D constructor from a pair of iterators over values (Interpolation.hpp:58-66). -/
def construct1 (c : Cfg) (order : ℕ) (per : Bool) (values : List V) (x : XRange K) : M (InterpFn 1 K V) :=
  construct c order (fun _ => per) (Mesh.ofList values) fun _ => x

/-- `InterpolationFunction1D(f_range, periodicity)` (Interpolation.hpp:518-533): default coordinates. -/
def construct1D (c : Cfg) (order : ℕ) (per : Bool) (values : List V) : M (InterpFn 1 K V) :=
  construct1 c order per values (.uniform 0 ((values.length : K) - if c.noDummy && per then 0 else 1))

end InterpFn

namespace Template

/-- `InterpolationFunctionTemplate1D(f_length, periodicity)` (InterpolationTemplate.hpp:590-597): default coordinates. -/
def construct1D (c : Cfg) (order : ℕ) (per : Bool) (fLength : ℕ) : M (Template 1 K V) := do
  let m ← subM fLength 1
  construct c order (fun _ => per) (fun _ => fLength) fun _ => .uniform 0 (m : K)

end Template

end Intp
