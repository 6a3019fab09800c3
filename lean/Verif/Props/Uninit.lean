import Verif.Proofs.MTMain
import Verif.Props.Float
import Mathlib.Data.Rat.Floor

/-!
# C66: uninitialised memory does not reach the results
-/

namespace Intp

section

variable {K V : Type} [CoordArith K] [ValArith V] [ScaleArith K V] {D : ℕ}

omit [CoordArith K] in
/-- **C66, any arithmetic.**  Whatever the new elements of the auxiliary mesh contain after `resize` (also nan), solving for the control points
gives the same control points, bit by bit, or fails in the same way.  This holds for every template (every solver, also a wrong or singular
one), every arithmetic and data of any shape. -/
theorem uninitialised_irrelevant_any (c : Cfg) (junk0 : ℕ → V) (junk : ℕ → ℕ → V) (t : Template (D + 1) K V) (fm : Mesh (D + 1) V) :
    Fl.solveForControlPointsJ c junk0 junk t fm = Fl.solveForControlPoints c t fm :=
  Fl.solveForControlPointsJ_eq c junk0 junk t fm

/-- **C66, any arithmetic.**  The interpolating function constructed is the same object. -/
theorem construct_uninitialised_any (w : Bool) (c : Cfg) (junk0 : ℕ → V) (junk : ℕ → ℕ → V) (order : ℕ) (per : Fin (D + 1) → Bool)
    (fm : Mesh (D + 1) V) (x : Fin (D + 1) → XRange K) :
    Fl.constructJ w c junk0 junk order per fm x = Fl.construct w c order per fm x := by
  unfold Fl.constructJ Fl.construct
  cases Fl.constructT (V := V) w c order per fm.dims x with
  | error e => rfl
  | ok t => rw [ok_bind, ok_bind, uninitialised_irrelevant_any]

end

section

variable {K V : Type} [Field K] [LinearOrder K] [IsStrictOrderedRing K] [FloorRing K] [AddCommGroup V] [Module K V] {D : ℕ}

/-- **C66, exact arithmetic.**  Whatever the new elements of the auxiliary mesh contain after `resize`, solving for the control points gives
the same control points or fails in the same way.  This holds for every template (every solver, also a wrong or singular one) and for data of
any shape. -/
theorem uninitialised_irrelevant (c : Cfg) (junk0 : ℕ → V) (junk : ℕ → ℕ → V) (t : Template (D + 1) K V) (fm : Mesh (D + 1) V) :
    t.solveForControlPointsJ c junk0 junk fm = t.solveForControlPoints c fm := by
  rw [← Fl.tie_solveForControlPointsJ, ← Fl.tie_solveForControlPoints]
  exact @uninitialised_irrelevant_any K V (exactVal V) (exactScale K V) D c junk0 junk t fm

/-- **C66, exact arithmetic.**  The interpolating function constructed is the same object. -/
theorem construct_uninitialised_irrelevant (c : Cfg) (junk0 : ℕ → V) (junk : ℕ → ℕ → V) (order : ℕ) (per : Fin (D + 1) → Bool)
    (fm : Mesh (D + 1) V) (x : Fin (D + 1) → XRange K) :
    InterpFn.constructJ c junk0 junk order per fm x = InterpFn.construct c order per fm x := by
  unfold InterpFn.constructJ InterpFn.construct
  cases Template.construct c order per fm.dims x with
  | error e => rfl
  | ok t =>
    rw [ok_bind, ok_bind, uninitialised_irrelevant]
    unfold Template.interpolateMove
    cases t.solveForControlPoints c fm <;> rfl

end

/-- **C66 in `double`** without assertions, for data of any size for which the library is meant: the construction succeeds with the same
function whatever the new elements contain, also if all of them are nan. -/
theorem uninitialised_double {D : ℕ} (c : Cfg) (hc : c.assertions = false) (o : ℕ) (per : Fin (D + 1) → Bool) (fm : Mesh (D + 1) F64)
    (x : Fin (D + 1) → XRange F64) (hs : ∀ d, SizesOk c o (per d) (fm.dims d) (x d)) (hf : fm.storage.length = ∏ d, fm.dims d) :
    ∃ g : InterpFn (D + 1) F64 F64, ∀ junk0 junk, Fl.constructJ true c junk0 junk o per fm x = .ok g := by
  obtain ⟨g, hg⟩ := double_construct c hc o per fm x hs hf
  exact ⟨g, fun junk0 junk => by rw [construct_uninitialised_any, hg]⟩

/-- The auxiliary mesh does contain junk: of the 6 elements of a 2 × 3 mesh resized from one element, five are whatever memory held. -/
example : ((Mesh.mk' fun _ => 1 : Mesh 2 ℚ).resizeJ ![2, 3] fun i => 100 + i).storage = [0, 100, 101, 102, 103, 104] := by decide +kernel

/-- Two dimensions, order 2, one periodic axis, junk in every sweep: construction succeeds (and hence gives the control points of C66). -/
example : (InterpFn.constructJ (K := ℚ) (V := ℚ) (D := 1) ⟨true, false⟩ (fun i => 100 + i) (fun d i => 7 * d - i) 2 ![true, false]
    ⟨![4, 3], [1, 2, 3, 4, 5, 6, 7, 8, 0, 1, 2, 3]⟩ ![.uniform 0 1, .uniform 0 2]).isOk = true := by decide +kernel

end Intp
