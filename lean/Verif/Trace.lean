import Verif.InterpolationTemplate

/-!
# Model of the trace of the coefficient matrices (`INTP_TRACE`, InterpolationTemplate.hpp:282-284, 311-314, 409-418, 422-425)

A line `[TRACE] {row, col} -> value` is a triple.
-/

namespace Intp

variable {K V : Type} [Field K] [LinearOrder K] [FloorRing K] [AddCommGroup V] [Module K V] {D : ℕ}

/-- A line of the trace. -/
abbrev TraceLine (K : Type) := ℕ × ℕ × K

/-- Write of one row of the matrix with its trace (InterpolationTemplate.hpp:387-419).  The trace computes the row on its own (411-415). -/
def rowWriteT (c : Cfg) (order n i ki s : ℕ) (periodic : Bool) (vals : List K) (st : CoefMat K × List (TraceLine K)) :
    M (CoefMat K × List (TraceLine K)) :=
  loop 0 s st fun j st => do
    let row ← modM (i + if periodic then bandWidth order periodic else 0) n
    let k ← subM ki order
    let col ← modM (k + j) n
    let v ← rd vals j
    let m ← st.1.set c row col v
    let trow ← if periodic then modM (i + bandWidth order periodic) n else pure i
    pure (m, st.2 ++ [(trow, col, v)])

/-- Body of the loop over the data points with its trace (InterpolationTemplate.hpp:316-420); nothing is printed for the first and the last row of a
non-periodic dimension (`continue`, 328). -/
def assembleBodyT (c : Cfg) (f : InterpFn D K V) (coords : List K) (d : Fin D) (n i : ℕ) (st : (CoefMat K × List K) × List (TraceLine K)) :
    M ((CoefMat K × List K) × List (TraceLine K)) :=
  if f.periodicity d = false ∧ (i = 0 ∨ i + 1 = n) then do
    let m ← st.1.1.set c i i 1
    pure ((m, st.1.2), st.2)
  else do
    let inner ← isInternal f.spline.order n i
    let r ← rowData f coords d i st.1.2
    let m ← rowWriteT c f.spline.order n i r.1 (sNum f.spline.order (f.periodicity d) (f.uniform d) inner) (f.periodicity d) r.2 (st.1.1, st.2)
    pure ((m.1, r.2), m.2)

/-- Coefficient matrix of dimension `d` and its trace, with the lines printed before (313) and after (423-424) the loop. -/
def assembleT (c : Cfg) (f : InterpFn D K V) (coords : List K) (d : Fin D) (n : ℕ) (vals : List K) : M (CoefMat K × List (TraceLine K)) := do
  let m ← CoefMat.mk' (f.periodicity d) n (bandWidth f.spline.order (f.periodicity d))
  let st ← loop 0 n ((m, vals), [(0, 0, 1)]) fun i st => assembleBodyT c f coords d n i st
  pure (st.1.1, st.2 ++ [(n - 1, n - 1, 1)])

/-- Constructor of the template (InterpolationTemplate.hpp:60-79, 254-446) in a build with `INTP_TRACE`: the template, and for each dimension the matrix that
was factored and the trace. -/
def Template.constructTrace (c : Cfg) (order : ℕ) (per : Fin D → Bool) (dims : Fin D → ℕ) (x : Fin D → XRange K) :
    M (Template D K V × (Fin D → CoefMat K × List (TraceLine K))) := do
  let r ← InterpFn.partialConstruct c order per dims x
  let dims' ← adjustDims c per dims
  let vals ← tabM fun d => precalc r.1 d
  let solvers ← tabM fun d => do
    let m ← assembleT c r.1 (r.2 d) d (dims' d) (vals d)
    let s ← Solver.ofMat c m.1
    pure (s, m)
  pure (⟨r.2, dims', r.1, fun d => (solvers d).1⟩, fun d => (solvers d).2)

/-- Entering the lines of a trace into a matrix, in order. -/
def replay (c : Cfg) (m : CoefMat K) (tr : List (TraceLine K)) : M (CoefMat K) :=
  tr.foldlM (fun m l => m.set c l.1 l.2.1 l.2.2) m

end Intp
