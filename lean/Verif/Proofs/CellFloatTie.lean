import Verif.CellFloat
import Verif.Proofs.FloatTie

/-!
# The model of the cell layout over exact arithmetic is an instance of the one over arbitrary arithmetic
-/

namespace Intp.Fl

variable {K V : Type} [Field K] [LinearOrder K] [FloorRing K] [AddCommGroup V] [Module K V] {D : ℕ}

attribute [local instance] exactCoord exactVal exactScale

theorem tie_cellScale (order : ℕ) (base : Fin (D + 1) → List K) (i : ℕ) (v : V) :
    @cellScale K V (exactScale K V) D order base i v = CellSpline.scale order base i v := rfl

theorem tie_cellCoef (order : ℕ) (base : Fin (D + 1) → List K) (i : ℕ) :
    @cellCoef K (exactCoord K) D order base i = CellSpline.scale order base i (1 : K) := by
  unfold cellCoef CellSpline.scale
  have : ∀ (e a : K), @HMul.hMul K K K (@instHMul K (exactCoord K).toMul) a e = e • a := fun e a => mul_comm a e
  simp only [this]

theorem tie_cellEval (c : Cfg) (b : CellSpline D K V) (x : Fin (D + 1) → K × ℕ) :
    @cellEval K V (exactCoord K) (exactVal V) (exactScale K V) D c b x = b.eval c x := by
  unfold cellEval CellSpline.eval
  simp only [tie_getKnotIter', tie_baseSplineValue]
  rfl

omit [AddCommGroup V] [Module K V] in
theorem tie_cellDerivFillBody (b : CellSpline D K V) (base : Fin (D + 1) → List K) (off step i : ℕ) (st : Mesh (D + 1) K × Mesh (D + 1) V) :
    @cellDerivFillBody K V (exactCoord K) D b base off step i st = b.derivFillBody base off step i st := rfl

theorem tie_cellDerivativeAt (c : Cfg) (b : CellSpline D K V) (x : Fin (D + 1) → K × ℕ × ℕ) :
    @cellDerivativeAt K V (exactCoord K) (exactVal V) (exactScale K V) D c b x = b.derivativeAt c x := by
  unfold cellDerivativeAt CellSpline.derivativeAt
  simp only [tie_getKnotIter', tie_baseSplineValue, tie_derivReduceDim, tie_cellDerivFillBody]

theorem tie_preCalcCoef (b : CellSpline D K V) (x : Fin (D + 1) → K × ℕ) :
    @preCalcCoef K V (exactCoord K) D b x = b.preCalcCoef x := by
  unfold preCalcCoef CellSpline.preCalcCoef
  simp only [tie_getKnotIter', tie_baseSplineValue]

theorem tie_proxyCall (p : (Fin (D + 1) → List K) × ℕ) (b : CellSpline D K V) :
    @proxyCall K V (exactCoord K) (exactVal V) (exactScale K V) D p b = CellSpline.proxyCall p b := by
  unfold proxyCall CellSpline.proxyCall
  simp only [tie_cellCoef]

theorem tie_cellCall (c : Cfg) (f : CellFn D K V) (x : Fin (D + 1) → K) :
    @cellCall K V (exactCoord K) (exactVal V) (exactScale K V) D c f x = f.call c x := by
  unfold cellCall CellFn.call
  simp only [tie_hint, tie_cellEval]

theorem tie_cellDerivative (c : Cfg) (f : CellFn D K V) (x : Fin (D + 1) → K) (m : Fin (D + 1) → ℕ) :
    @cellDerivative K V (exactCoord K) (exactVal V) (exactScale K V) D c f x m = f.derivative c x m := by
  unfold cellDerivative CellFn.derivative
  simp only [tie_hint, tie_cellDerivativeAt]

theorem tie_evalProxy (f : CellFn D K V) (x : Fin (D + 1) → K) :
    @evalProxy K V (exactCoord K) D f x = f.evalProxy x := by
  unfold evalProxy CellFn.evalProxy
  simp only [tie_hint, tie_preCalcCoef]

theorem tie_interpolateCell (c : Cfg) (t : Template (D + 1) K V) (fm : Mesh (D + 1) V) :
    @interpolateCell K V (exactVal V) (exactScale K V) D c t fm = t.interpolateCell c fm := by
  unfold interpolateCell Template.interpolateCell
  simp only [tie_solveForControlPoints]

theorem tie_templateProxy (t : Template (D + 1) K V) (x : Fin (D + 1) → K) :
    @templateProxy K V (exactCoord K) D t x = t.evalProxy x := tie_evalProxy _ _

end Intp.Fl
