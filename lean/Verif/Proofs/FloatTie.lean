import Verif.FloatModel

/-!
# With exact arithmetic the model over arbitrary arithmetic is the exact model
-/

namespace Intp.Fl

set_option linter.unusedSectionVars false

variable {K V : Type} [Field K] [LinearOrder K] [FloorRing K] [AddCommGroup V] [Module K V] {D : ℕ}

attribute [local instance] exactCoord exactVal exactScale

theorem tie_lineSubMul (buf : List V) (off step i j : ℕ) (a : K) :
    @lineSubMul K V (exactVal V) (exactScale K V) buf off step i j a = Intp.lineSubMul buf off step i j a := rfl

theorem tie_lineDiv (buf : List V) (off step j : ℕ) (a : K) :
    @lineDiv K V (exactScale K V) buf off step j a = Intp.lineDiv buf off step j a := rfl

theorem tie_bandCompute (c : Cfg) (m : BandMatrix K) : @bandCompute K (exactCoord K) c m = m.computeImpl c := rfl

theorem tie_extCompute (c : Cfg) (m : ExtBandMatrix K) : @extCompute K (exactCoord K) c m = m.computeImpl c := rfl

theorem tie_bandSolve (c : Cfg) (m : BandMatrix K) (buf : List V) (off step : ℕ) :
    @bandSolve K V (exactVal V) (exactScale K V) c m buf off step = m.solveInPlace c buf off step := rfl

theorem tie_extSolve (c : Cfg) (m : ExtBandMatrix K) (buf : List V) (off step : ℕ) :
    @extSolve K V (exactVal V) (exactScale K V) c m buf off step = m.solveInPlace c buf off step := rfl

theorem tie_baseSplineBody (order : ℕ) (t : List K) (s : ℕ) (x : K) (i idxBegin j : ℕ) (b : List K) :
    @baseSplineBody K (exactCoord K) order t s x i idxBegin j b = Intp.baseSplineBody order t s x i idxBegin j b := rfl

theorem tie_baseSplineValue (order : ℕ) (t : List K) (s : ℕ) (x : K) (p : ℕ) :
    @baseSplineValue K (exactCoord K) order t s x p = Intp.baseSplineValue order t s x p := rfl

theorem tie_upperBoundGo (t : List K) (x : K) : ∀ fuel first len,
    @upperBoundGo K (exactCoord K) t x fuel first len = Intp.upperBoundGo t x fuel first len
  | 0, _, _ => rfl
  | fuel + 1, first, len => by
    unfold upperBoundGo Intp.upperBoundGo
    simp only [tie_upperBoundGo t x fuel]

theorem tie_findSegment (order : ℕ) (t : List K) (x : K) (hint last : ℕ) :
    @findSegment K (exactCoord K) order t x hint last = BSpline.findSegment order t x hint last := by
  unfold findSegment BSpline.findSegment upperBound Intp.upperBound
  simp only [tie_upperBoundGo]

theorem tie_wrapCoord (r : K × K) (x : K) : @wrapCoord K (exactCoord K) r x = BSpline.wrapCoord r x := rfl

theorem tie_getKnotIter (b : BSpline D K V) (d : Fin D) (x : K) (hint last : ℕ) :
    @getKnotIter K V (exactCoord K) D b d x hint last = b.getKnotIter d x hint last := by
  unfold getKnotIter BSpline.getKnotIter
  simp only [tie_findSegment, tie_wrapCoord]

theorem tie_getKnotIter' (b : BSpline D K V) (d : Fin D) (x : K) (hint : ℕ) :
    @getKnotIter' K V (exactCoord K) D b d x hint = b.getKnotIter' d x hint := by
  unfold getKnotIter' BSpline.getKnotIter'
  simp only [tie_getKnotIter]

theorem tie_evalBody (b : BSpline D K V) (segs : Fin D → K × ℕ) (base : Fin D → List K) (i : ℕ) (v : V) :
    @evalBody K V (exactCoord K) (exactVal V) (exactScale K V) D b segs base i v = b.evalBody segs base i v := rfl

theorem tie_eval (b : BSpline D K V) (x : Fin D → K × ℕ) :
    @eval K V (exactCoord K) (exactVal V) (exactScale K V) D b x = b.eval x := by
  unfold eval BSpline.eval
  simp only [tie_getKnotIter', tie_baseSplineValue, tie_evalBody]

theorem tie_derivFillBody (b : BSpline D K V) (segs : Fin D → K × ℕ) (base : Fin D → List K) (i : ℕ) (st : Mesh D K × Mesh D V) :
    @derivFillBody K V (exactCoord K) D b segs base i st = b.derivFillBody segs base i st := rfl

theorem tie_derivReduceBody (order : ℕ) (t : List K) (s : ℕ) (off step k j : ℕ) (buf : List V) :
    @derivReduceBody K V (exactCoord K) (exactVal V) (exactScale K V) order t s off step k j buf =
      BSpline.derivReduceBody order t s off step k j buf := rfl

theorem tie_derivReduceLine (order : ℕ) (t : List K) (s p off step : ℕ) (buf : List V) :
    @derivReduceLine K V (exactCoord K) (exactVal V) (exactScale K V) order t s p off step buf =
      BSpline.derivReduceLine order t s p off step buf := by
  unfold derivReduceLine BSpline.derivReduceLine
  simp only [tie_derivReduceBody]

theorem tie_derivReduceDim (c : Cfg) (b : BSpline D K V) (segs : Fin D → K × ℕ) (d : Fin D) (p : ℕ) (m : Mesh D V) :
    @derivReduceDim K V (exactCoord K) (exactVal V) (exactScale K V) D c b segs d p m = b.derivReduceDim c segs d p m := by
  unfold derivReduceDim BSpline.derivReduceDim
  simp only [tie_derivReduceLine]

theorem tie_derivativeAtH (c : Cfg) (b : BSpline D K V) (x : Fin D → K × ℕ × ℕ) :
    @derivativeAtH K V (exactCoord K) (exactVal V) (exactScale K V) D c b x = b.derivativeAt c x := by
  unfold derivativeAtH BSpline.derivativeAt
  simp only [tie_getKnotIter', tie_baseSplineValue, tie_derivFillBody, tie_derivReduceDim]

theorem tie_maxZero (u : K) : @maxZero K (exactCoord K) u = max 0 u := by
  unfold maxZero
  split
  · rename_i h; exact (max_eq_right (le_of_lt h)).symm
  · rename_i h; exact (max_eq_left (not_lt.1 h)).symm

theorem tie_hint (f : InterpFn D K V) (d : Fin D) (x : K) : @hint K V (exactCoord K) D f d x = f.hint d x := by
  unfold hint InterpFn.hint
  simp only [tie_maxZero]
  rfl

theorem tie_call (f : InterpFn D K V) (x : Fin D → K) :
    @call K V (exactCoord K) (exactVal V) (exactScale K V) D f x = f.call x := by
  unfold call InterpFn.call
  simp only [tie_hint, tie_eval]

theorem tie_boundaryCheck (f : InterpFn D K V) (x : Fin D → K) : @boundaryCheck K V (exactCoord K) D f x = f.boundaryCheck x := rfl

theorem tie_derivative (c : Cfg) (f : InterpFn D K V) (x : Fin D → K) (m : Fin D → ℕ) :
    @derivative K V (exactCoord K) (exactVal V) (exactScale K V) D c f x m = f.derivative c x m := by
  unfold derivative InterpFn.derivative
  simp only [tie_hint, tie_derivativeAtH]

theorem tie_createKnotVector (c : Cfg) (dims : Fin D → ℕ) (x : Fin D → XRange K) (st : InterpFn D K V × (Fin D → List K)) (d : Fin D) :
    @createKnotVector K V (exactCoord K) D c dims x st d = InterpFn.createKnotVector c dims x st d := by
  unfold createKnotVector InterpFn.createKnotVector
  cases x d with
  | uniform a b => rfl
  | coords l => rfl

theorem tie_partialConstruct (c : Cfg) (order : ℕ) (per : Fin D → Bool) (dims : Fin D → ℕ) (x : Fin D → XRange K) :
    @partialConstruct K V (exactCoord K) D c order per dims x = InterpFn.partialConstruct c order per dims x := by
  unfold partialConstruct InterpFn.partialConstruct
  congr 1

theorem tie_coefMat (per : Bool) (n bw : ℕ) : @coefMat K (exactCoord K) per n bw = CoefMat.mk' per n bw := rfl

theorem tie_ofMat (c : Cfg) (m : CoefMat K) : @ofMat K (exactCoord K) c m = Solver.ofMat c m := by
  cases m <;> rfl

theorem tie_solve (c : Cfg) (s : Solver K) (buf : List V) (off step : ℕ) :
    @solve K V (exactVal V) (exactScale K V) c s buf off step = s.solve c buf off step := by
  cases s <;> rfl

theorem tie_baseAt (b : BSpline D K V) (d : Fin D) (ki : ℕ) (x : K) : @baseAt K V (exactCoord K) D b d ki x = Intp.baseAt b d ki x := rfl

theorem tie_knotIndCoord (f : InterpFn D K V) (coords : List K) (d : Fin D) (i : ℕ) (x : K) :
    @knotIndCoord K V (exactCoord K) D f coords d i x = Intp.knotIndCoord f coords d i x := by
  unfold knotIndCoord Intp.knotIndCoord
  simp only [tie_getKnotIter]

theorem tie_uniformBase (f : InterpFn D K V) (d : Fin D) (i ki : ℕ) (vals : List K) :
    @uniformBase K V (exactCoord K) D f d i ki vals = Intp.uniformBase f d i ki vals := by
  unfold uniformBase Intp.uniformBase
  simp only [tie_baseAt]
  rfl

theorem tie_rowData (f : InterpFn D K V) (coords : List K) (d : Fin D) (i : ℕ) (vals : List K) :
    @rowData K V (exactCoord K) D f coords d i vals = Intp.rowData f coords d i vals := by
  unfold rowData Intp.rowData
  simp only [tie_uniformBase, tie_knotIndCoord, tie_baseAt]

theorem tie_matSet (c : Cfg) (m : CoefMat K) (i j : ℕ) (v : K) : matSet false c m i j v = m.set c i j v := by
  unfold matSet bandSet CoefMat.set
  cases m <;> simp

theorem tie_rowWrite (c : Cfg) (order n i ki s : ℕ) (periodic : Bool) (vals : List K) (m : CoefMat K) :
    rowWrite false c order n i ki s periodic vals m = Intp.rowWrite c order n i ki s periodic vals m := by
  unfold rowWrite Intp.rowWrite
  simp only [tie_matSet]

theorem tie_assembleBody (c : Cfg) (f : InterpFn D K V) (coords : List K) (d : Fin D) (n i : ℕ) (st : CoefMat K × List K) :
    @assembleBody K V (exactCoord K) D false c f coords d n i st = Intp.assembleBody c f coords d n i st := by
  unfold assembleBody Intp.assembleBody
  simp only [tie_rowData, tie_rowWrite, tie_matSet]

theorem tie_assemble (c : Cfg) (f : InterpFn D K V) (coords : List K) (d : Fin D) (n : ℕ) (vals : List K) :
    @assemble K V (exactCoord K) D false c f coords d n vals = Intp.assemble c f coords d n vals := by
  unfold assemble Intp.assemble
  simp only [tie_assembleBody, tie_coefMat]

theorem tie_precalc (f : InterpFn D K V) (d : Fin D) : @precalc K V (exactCoord K) D f d = Intp.precalc f d := by
  unfold precalc Intp.precalc
  simp only [tie_baseAt]
  rfl

theorem tie_constructT (c : Cfg) (order : ℕ) (per : Fin D → Bool) (dims : Fin D → ℕ) (x : Fin D → XRange K) :
    @constructT K V (exactCoord K) D false c order per dims x = Template.construct c order per dims x := by
  unfold constructT Template.construct
  simp only [tie_partialConstruct, tie_precalc, tie_assemble, tie_ofMat]

theorem tie_initWeights (c : Cfg) (order : ℕ) (per : Fin D → Bool) (dims : Fin D → ℕ) (fm : Mesh D V) :
    @initWeights V (exactVal V) D c order per dims fm = Template.initWeights c order per dims fm := rfl

theorem tie_solveLine (c : Cfg) (s : Solver K) (j : ℕ) (st : Mesh (D + 1) V × Mesh (D + 1) V) :
    @solveLine K V (exactVal V) (exactScale K V) D c s j st = Template.solveLine c s j st := by
  unfold solveLine Template.solveLine
  simp only [tie_solve]

theorem tie_solveDim (c : Cfg) (s : Solver K) (st : Mesh (D + 1) V × Mesh (D + 1) V) :
    @solveDim K V (exactVal V) (exactScale K V) D c s st = Template.solveDim c s st := by
  unfold solveDim Template.solveDim Template.solveBlock
  simp only [tie_solveLine]

theorem tie_solveDims (c : Cfg) (s : Fin (D + 1) → Solver K) (st : Mesh (D + 1) V × Mesh (D + 1) V) :
    @solveDims K V (exactVal V) (exactScale K V) D c s st = Template.solveDims c s st := by
  unfold solveDims Template.solveDims
  simp only [tie_solveDim]

theorem tie_solveForControlPoints (c : Cfg) (t : Template (D + 1) K V) (fm : Mesh (D + 1) V) :
    @solveForControlPoints K V (exactVal V) (exactScale K V) D c t fm = t.solveForControlPoints c fm := by
  unfold solveForControlPoints Template.solveForControlPoints
  simp only [tie_solveDims, tie_initWeights]

theorem tie_construct (c : Cfg) (order : ℕ) (per : Fin (D + 1) → Bool) (fm : Mesh (D + 1) V) (x : Fin (D + 1) → XRange K) :
    @construct K V (exactCoord K) (exactVal V) (exactScale K V) D false c order per fm x = InterpFn.construct c order per fm x := by
  unfold construct InterpFn.construct Template.interpolateMove
  simp only [tie_constructT, tie_solveForControlPoints]
  congr 1
  funext t
  cases t.solveForControlPoints c fm <;> rfl

theorem tie_at' (f : InterpFn D K V) (x : Fin D → K) :
    @at' K V (exactCoord K) (exactVal V) (exactScale K V) D f x = f.at' x := by
  unfold at' InterpFn.at'
  simp only [tie_call, tie_boundaryCheck]

theorem tie_derivativeAt (c : Cfg) (f : InterpFn D K V) (x : Fin D → K) (m : Fin D → ℕ) :
    @derivativeAt K V (exactCoord K) (exactVal V) (exactScale K V) D c f x m = f.derivativeAt c x m := by
  unfold derivativeAt InterpFn.derivativeAt
  simp only [tie_derivative, tie_boundaryCheck]

end Intp.Fl
