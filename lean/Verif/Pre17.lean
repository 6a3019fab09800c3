import Verif.InterpolationTemplate

/-!
# Model of the pre-C++17 branches of src/include/InterpolationTemplate.hpp (single thread)

Without C++17 the solver of a dimension is held in a hand-written tagged union and every matrix is assembled in an `ExtendedBandMatrix`.
`rowData`, `isInternal`, `sNum`, `precalc`, `adjustDims`, `initWeights` and `copyLine` are shared by both branches.
-/

namespace Intp

variable {K V : Type} [Field K] [LinearOrder K] [FloorRing K] [AddCommGroup V] [Module K V] {D : ℕ}

/-- `static_cast<BandMatrix&&>(coef_mat)` (InterpolationTemplate.hpp:440-442): the base subobject. -/
def ExtBandMatrix.toBand (m : ExtBandMatrix K) : BandMatrix K := ⟨m.n, m.p, m.q, m.bands⟩

/-- Pre-C++17 `EitherSolver` (InterpolationTemplate.hpp:195-248): `is_active_`, `is_periodic_`, and the live member of the anonymous union,
`none` when no member has been constructed. -/
structure EitherSolver (K : Type) where
  isActive : Bool
  isPeriodic : Bool
  member : Option (Solver K)

namespace EitherSolver

/-- `EitherSolver()` (InterpolationTemplate.hpp:198, 245-247). -/
def default : EitherSolver K := ⟨false, false, none⟩

/-- A solver as left by its default constructor (BandLU.hpp:28). -/
def fresh (periodic : Bool) : Solver K :=
  if periodic then .ext (LUState.empty ⟨0, 0, 0, Mesh.mk' fun _ => 0, Mesh.mk' fun _ => 0, Mesh.mk' fun _ => 0⟩)
  else .band (LUState.empty (BandMatrix.mk' 0 0 0))

/-- `EitherSolver(bool)` (InterpolationTemplate.hpp:200-207). -/
def ofPeriodic (periodic : Bool) : EitherSolver K := ⟨true, periodic, some (fresh periodic)⟩

/-- `operator=(bool)` (InterpolationTemplate.hpp:208-222). -/
def assign (e : EitherSolver K) (periodic : Bool) : M (EitherSolver K) :=
  if e.isActive then .error .switchSolver else pure ⟨true, periodic, some (fresh periodic)⟩

/-- `EitherSolver(const EitherSolver&) {}` (InterpolationTemplate.hpp:227): the default member initialisers run, no union member is
constructed.  It is also what a move runs, since no move constructor is declared. -/
def copy (_ : EitherSolver K) : EitherSolver K := ⟨false, false, none⟩

/-- Access to `solver_periodic` (InterpolationTemplate.hpp:438, 532). -/
def periodicMember (e : EitherSolver K) : M (LUState (ExtBandMatrix K)) :=
  match e.member with
  | some (.ext s) => pure s
  | _ => .error .deadMember

/-- Access to `solver_aperiodic` (InterpolationTemplate.hpp:440, 534). -/
def aperiodicMember (e : EitherSolver K) : M (LUState (BandMatrix K)) :=
  match e.member with
  | some (.band s) => pure s
  | _ => .error .deadMember

/-- `~EitherSolver` (InterpolationTemplate.hpp:230-238): the state of the union afterwards; the destructor of a member that is not alive is
undefined behaviour. -/
def destroy (e : EitherSolver K) : M (Option (Solver K)) :=
  if e.isActive then
    if e.isPeriodic then do
      let _ ← e.periodicMember
      pure none
    else do
      let _ ← e.aperiodicMember
      pure none
  else pure e.member

end EitherSolver

/-- Copy constructor of the `std::variant` of solvers of the C++17 branch (InterpolationTemplate.hpp:191): the live alternative is copied
memberwise (BandLU.hpp:57-58, BandMatrix.hpp:79-97, Mesh.hpp:254). -/
def Solver.copy : Solver K → Solver K
  | .band s => .band ⟨s.computed, ⟨s.store.n, s.store.p, s.store.q, ⟨s.store.bands.dims, s.store.bands.storage⟩⟩⟩
  | .ext s => .ext ⟨s.computed, ⟨s.store.n, s.store.p, s.store.q, ⟨s.store.bands.dims, s.store.bands.storage⟩,
      ⟨s.store.right.dims, s.store.right.storage⟩, ⟨s.store.bottom.dims, s.store.bottom.storage⟩⟩⟩

/-- Implicit copy constructor of `InterpolationFunctionTemplate` in the C++17 branch. -/
def Template.copy (t : Template D K V) : Template D K V := ⟨t.coords, t.dims, t.base, fun d => (t.solvers d).copy⟩

namespace Pre17

/-- Write of one row of the matrix (InterpolationTemplate.hpp:387, 398-408). -/
def rowWrite (c : Cfg) (order n i ki s : ℕ) (periodic : Bool) (vals : List K) (m : ExtBandMatrix K) : M (ExtBandMatrix K) :=
  loop 0 s m fun j m =>
    if periodic then do
      let row ← modM (i + bandWidth order periodic) n
      let k ← subM ki order
      let col ← modM (k + j) n
      let v ← rd vals j
      m.set c row col v
    else do
      let k ← subM ki order
      let v ← rd vals j
      m.mainSet c i (k + j) v

/-- Body of the loop over the data points (InterpolationTemplate.hpp:316-420). -/
def assembleBody (c : Cfg) (f : InterpFn D K V) (coords : List K) (d : Fin D) (n i : ℕ) (st : ExtBandMatrix K × List K) :
    M (ExtBandMatrix K × List K) :=
  if f.periodicity d = false ∧ (i = 0 ∨ i + 1 = n) then do
    let m ← st.1.mainSet c i i 1
    pure (m, st.2)
  else do
    let inner ← isInternal f.spline.order n i
    let r ← rowData f coords d i st.2
    let m ← rowWrite c f.spline.order n i r.1 (sNum f.spline.order (f.periodicity d) (f.uniform d) inner) (f.periodicity d) r.2 st.1
    pure (m, r.2)

/-- Coefficient matrix of dimension `d` (InterpolationTemplate.hpp:287-291, 306-309, 316-420): always an extended band matrix. -/
def assemble (c : Cfg) (f : InterpFn D K V) (coords : List K) (d : Fin D) (n : ℕ) (vals : List K) : M (ExtBandMatrix K) := do
  let m ← ExtBandMatrix.mk' n (bandWidth f.spline.order (f.periodicity d)) (bandWidth f.spline.order (f.periodicity d))
  let st ← loop 0 n (m, vals) fun i st => assembleBody c f coords d n i st
  pure st.1

/-- `solvers_[d] = periodic` and `compute` (InterpolationTemplate.hpp:435-443). -/
def compute (c : Cfg) (e : EitherSolver K) (periodic : Bool) (m : ExtBandMatrix K) : M (EitherSolver K) := do
  let e ← e.assign periodic
  if periodic then do
    let s ← e.periodicMember
    let s ← LUState.compute (ExtBandMatrix.computeImpl c) s m
    pure { e with member := some (.ext s) }
  else do
    let s ← e.aperiodicMember
    let s ← LUState.compute (BandMatrix.computeImpl c) s m.toBand
    pure { e with member := some (.band s) }

/-- `InterpolationFunctionTemplate` (InterpolationTemplate.hpp:33, 182-188, 252) with the pre-C++17 solver wrapper. -/
structure Template (D : ℕ) (K V : Type) where
  coords : Fin D → List K
  dims : Fin D → ℕ
  base : InterpFn D K V
  solvers : Fin D → EitherSolver K

namespace Template

/-- Constructor (InterpolationTemplate.hpp:60-79) with `build_solver_` (254-446); `solvers_{}` is inactive until `build_solver_`. -/
def construct (c : Cfg) (order : ℕ) (per : Fin D → Bool) (dims : Fin D → ℕ) (x : Fin D → XRange K) : M (Template D K V) := do
  let r ← InterpFn.partialConstruct c order per dims x
  let dims' ← adjustDims c per dims
  let vals ← tabM fun d => precalc r.1 d
  let solvers ← tabM fun d => do
    let m ← assemble c r.1 (r.2 d) d (dims' d) (vals d)
    compute c EitherSolver.default (r.1.periodicity d) m
  pure ⟨r.2, dims', r.1, solvers⟩

/-- Implicit copy constructor: memberwise; it is also used for moves of `solvers_`. -/
def copy (t : Template D K V) : Template D K V := { t with solvers := fun d => (t.solvers d).copy }

/-- Call of the solver (InterpolationTemplate.hpp:531-535). -/
def solve (c : Cfg) (e : EitherSolver K) (periodic : Bool) (buf : List V) (off step : ℕ) : M (List V) :=
  if periodic then do
    let s ← e.periodicMember
    s.solve (ExtBandMatrix.solveInPlace c) buf off step
  else do
    let s ← e.aperiodicMember
    s.solve (BandMatrix.solveInPlace c) buf off step

/-- Body of the loop of `solve_and_rearrange_block` (InterpolationTemplate.hpp:518-544). -/
def solveLine (c : Cfg) (e : EitherSolver K) (periodic : Bool) (j : ℕ) (st : Mesh (D + 1) V × Mesh (D + 1) V) :
    M (Mesh (D + 1) V × Mesh (D + 1) V) := do
  let n := st.1.dims (Fin.last D)
  let a ← dimwiseIndices st.1.dims (j * n)
  let o ← st.1.lineBegin c (Fin.last D) a
  let w ← st.2.lineBegin c 0 (Intp.Template.rightShift a)
  let buf ← solve c e periodic st.1.storage o.1 o.2
  if D = 0 then pure (⟨st.1.dims, buf⟩, st.2)
  else do
    let nbuf ← Intp.Template.copyLine n o.1 o.2 w.1 w.2 buf st.2.storage
    pure (⟨st.1.dims, buf⟩, ⟨st.2.dims, nbuf⟩)

/-- `solve_and_rearrange_block(begin, end)` (InterpolationTemplate.hpp:516-545). -/
def solveBlock (c : Cfg) (e : EitherSolver K) (periodic : Bool) (b n : ℕ) (st : Mesh (D + 1) V × Mesh (D + 1) V) :
    M (Mesh (D + 1) V × Mesh (D + 1) V) :=
  loop b n st fun j st => solveLine c e periodic j st

/-- One iteration of the loop over the dimensions (InterpolationTemplate.hpp:503-572). -/
def solveDim (c : Cfg) (e : EitherSolver K) (periodic : Bool) (st : Mesh (D + 1) V × Mesh (D + 1) V) : M (Mesh (D + 1) V × Mesh (D + 1) V) := do
  let new := if D = 0 then st.2 else st.2.resize (Intp.Template.rightShift st.1.dims) 0
  let hs ← divN st.1.size (st.1.dims (Fin.last D))
  solveBlock c e periodic 0 hs (st.1, new)

/-- Loop over the dimensions (InterpolationTemplate.hpp:501-573). -/
def solveDims (c : Cfg) (solvers : Fin (D + 1) → EitherSolver K) (per : Fin (D + 1) → Bool) (st : Mesh (D + 1) V × Mesh (D + 1) V) :
    M (Mesh (D + 1) V × Mesh (D + 1) V) :=
  (List.finRange (D + 1)).foldlM (fun st d =>
    if d.val % 2 = 0 then solveDim c (solvers d.rev) (per d.rev) st
    else do
      let r ← solveDim c (solvers d.rev) (per d.rev) (st.2, st.1)
      pure (r.2, r.1)) st

/-- `solve_for_control_points_` (InterpolationTemplate.hpp:448-580). -/
def solveForControlPoints (c : Cfg) (t : Template (D + 1) K V) (fm : Mesh (D + 1) V) : M (Mesh (D + 1) V) := do
  let w ← Intp.Template.initWeights c t.base.spline.order t.base.periodicity t.dims fm
  let tmp : Mesh (D + 1) V := Mesh.mk' fun _ => 1
  let tmp := if D = 0 then tmp else tmp.resize t.dims 0
  let st ← solveDims c t.solvers t.base.periodicity (w, tmp)
  if (D + 1) % 2 = 0 ∨ D = 0 then pure st.1 else pure st.2

/-- `interpolate(f_mesh) const&` (InterpolationTemplate.hpp:118-125). -/
def interpolate (c : Cfg) (t : Template (D + 1) K V) (fm : Mesh (D + 1) V) : M (InterpFn (D + 1) K V) := do
  let w ← t.solveForControlPoints c fm
  pure { t.base with spline := t.base.spline.loadCtrlPts w }

/-- `~InterpolationFunctionTemplate`: the state of every union after its destructor. -/
def destroy (t : Template D K V) : M (Fin D → Option (Solver K)) := tabM fun d => (t.solvers d).destroy

end Template

/-- `InterpolationFunction(periodicity, f_mesh, x_ranges...)` (Interpolation.hpp:92-101), from a temporary template.  The member function
called is `interpolate(f_mesh) &&`, which moves the base out of the temporary; the result is that of `interpolate`. -/
def constructFn (c : Cfg) (order : ℕ) (per : Fin (D + 1) → Bool) (fm : Mesh (D + 1) V) (x : Fin (D + 1) → XRange K) :
    M (InterpFn (D + 1) K V) := do
  let t ← Template.construct c order per fm.dims x
  t.interpolate c fm

end Pre17

end Intp
