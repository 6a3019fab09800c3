import Verif.Proofs.Trace
import Mathlib.Data.Rat.Floor

/-!
# C112: the trace of the coefficient matrices
-/

namespace Intp

variable {K V : Type} [Field K] [LinearOrder K] [FloorRing K] [AddCommGroup V] [Module K V] {D : ℕ}

/-- What one dimension prints, for the matrix `u.1` that is then factored. -/
def TraceOf (c : Cfg) (order : ℕ) (per : Bool) (n : ℕ) (u : CoefMat K × List (TraceLine K)) : Prop :=
  ∃ m0 w, CoefMat.mk' per n (bandWidth order per) = .ok m0 ∧ u.2 = (0, 0, 1) :: w ++ [(n - 1, n - 1, 1)] ∧
    (per = true → replay c m0 w = .ok u.1) ∧ (per = false → 2 ≤ n → replay c m0 u.2 = .ok u.1)

/-- **C112, partial.**  A build with `INTP_TRACE` constructs what a build without it does, or fails like it.  For a non-periodic dimension of at least two points,
entering the printed lines into a matrix of zeros gives the matrix that is factored.  For a periodic dimension this holds without the first
and the last line.

Missing: the lines of periodic dimensions being the matrix, which is false (`TraceExample.trace_wrong`). -/
theorem trace_partial (c : Cfg) (order : ℕ) (per : Fin D → Bool) (dims : Fin D → ℕ) (x : Fin D → XRange K) :
    MRel (fun p (t : Template D K V) => p.1 = t ∧ ∀ d, Solver.ofMat c (p.2 d).1 = .ok (t.solvers d) ∧
        TraceOf c t.base.spline.order (t.base.periodicity d) (t.dims d) (p.2 d))
      (Template.constructTrace c order per dims x) (Template.construct c order per dims x) := by
  unfold Template.constructTrace Template.construct
  refine MRel.bind (R := Eq) (MRel.refl (fun _ => rfl) _) ?_
  rintro r _ rfl
  refine MRel.bind (R := Eq) (MRel.refl (fun _ => rfl) _) ?_
  rintro dims' _ rfl
  refine MRel.bind (R := Eq) (MRel.refl (fun _ => rfl) _) ?_
  rintro vals _ rfl
  refine MRel.bind (MRel.tabM (R := fun d (a : Solver K × (CoefMat K × List (TraceLine K))) b => a.1 = b ∧ Solver.ofMat c a.2.1 = .ok b ∧
    TraceOf c r.1.spline.order (r.1.periodicity d) (dims' d) a.2) fun d => ?_) ?_
  · refine MRel.bind (assembleT_rel c r.1 (r.2 d) d (dims' d) (vals d)) ?_
    rintro u m ⟨rfl, hu⟩
    cases hs : Solver.ofMat c u.1 with
    | error e => exact rfl
    | ok s => exact ⟨rfl, hs, hu⟩
  · intro a b hab
    exact ⟨by simp only [fun d => (hab d).1], fun d => (hab d).2⟩

namespace TraceExample

/-- Entry of the matrix. -/
def entry (c : Cfg) (m : CoefMat ℚ) (i j : ℕ) : M ℚ :=
  match m with
  | .band m => m.get c i j
  | .ext m => m.get c i j

/-- **C112 is false** for periodic dimensions: of order 2 with six points (five unknowns) the last line says that the last entry is 1; it is 3/4. -/
theorem trace_wrong : (do
    let r ← Template.constructTrace (V := ℚ) ⟨true, false⟩ 2 ![true] ![6] ![.uniform 0 5]
    let e ← entry ⟨true, false⟩ (r.2 0).1 4 4
    pure ((r.2 0).2.getLast?, e) : M (Option (ℕ × ℕ × ℚ) × ℚ)) = .ok (some (4, 4, 1), 3 / 4) := by decide +kernel

/-- A non-periodic dimension: all lines of the trace for order 2 and five points. -/
example : (do
    let r ← Template.constructTrace (V := ℚ) ⟨true, false⟩ 2 ![false] ![5] ![.uniform 0 4]
    pure (r.2 0).2 : M (List (ℕ × ℕ × ℚ))) = .ok [(0, 0, 1), (1, 0, 1 / 9), (1, 1, 28 / 45), (1, 2, 4 / 15), (2, 1, 1 / 10), (2, 2, 4 / 5), (2, 3, 1 / 10),
    (3, 2, 4 / 15), (3, 3, 28 / 45), (3, 4, 1 / 9), (4, 4, 1)] := by decide +kernel

end TraceExample

end Intp
