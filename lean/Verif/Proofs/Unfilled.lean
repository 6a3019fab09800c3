import Verif.Unfilled
import Verif.Proofs.FloatBuild

/-!
# Evaluation of function objects without knots or without control points
-/

namespace Intp.Fl

variable {K V : Type} [CoordArith K] [ValArith V] [ScaleArith K V] {D : ℕ}

theorem spec_true {α : Type} (m : M α) : Spec m (fun _ => True) (fun _ => True) := by cases m <;> exact True.intro

theorem fails_of_spec {α : Type} {m : M α} (h : Spec m (fun _ => False) (fun _ => True)) (v : α) : m ≠ .ok v := fun e => by rw [e] at h; exact h

/-- No segment is found among too few knots. -/
theorem segs_fail {b : BSpline D K V} {d : Fin D} (h : (b.knots d).length < b.order + 2) {y : Fin D → K × ℕ} :
    Spec (tabM fun d => getKnotIter' b d (y d).1 (y d).2) (fun _ => False) (fun _ => True) := by
  cases ht : tabM fun d => getKnotIter' b d (y d).1 (y d).2 with
  | error e => trivial
  | ok segs =>
    have := tabM_ok_inv ht d
    unfold getKnotIter' at this
    cases h1 : subM (b.knots d).length b.order with
    | error e => rw [h1] at this; cases this
    | ok a =>
      rw [h1, ok_bind] at this
      cases h2 : subM a 2 with
      | error e => rw [h2] at this; cases this
      | ok l =>
        unfold subM at h1 h2
        split at h1 <;> simp at h1
        split at h2 <;> simp at h2
        omega

/-- A loop whose first step fails. -/
theorem loop_fails {σ : Type} {n : ℕ} (hn : 0 < n) {s : σ} {f : ℕ → σ → M σ} (h : ∀ i s, Spec (f i s) (fun _ => False) (fun _ => True)) :
    Spec (loop 0 n s f) (fun _ => False) (fun _ => True) :=
  Spec.imp (Spec.loop (P := fun k _ => k = 0) (Nat.zero_le _) rfl fun i s _ _ _ => Spec.imp (h i s) fun _ h => h.elim) fun _ h => by omega

theorem get_empty {m : Mesh D V} (h : m.storage = []) (a : Fin D → ℕ) : Spec (m.get a) (fun _ => False) (fun _ => True) := by
  unfold Mesh.get rd
  rw [h]
  simp [Spec]

theorem eval_fails {b : BSpline D K V} (h : (∃ d, (b.knots d).length < b.order + 2) ∨ b.ctrl.storage = []) (y : Fin D → K × ℕ) :
    Spec (eval b y) (fun _ => False) (fun _ => True) := by
  unfold eval
  rcases h with ⟨d, h⟩ | h
  · exact Spec.bind (segs_fail h) fun _ h => h.elim
  · refine Spec.bind (spec_true _) fun segs _ => Spec.bind (spec_true _) fun base _ => loop_fails (by positivity) fun i v => ?_
    unfold evalBody
    exact Spec.bind (spec_true _) fun a _ => Spec.bind (spec_true _) fun r _ => Spec.bind (get_empty h _) fun _ h => h.elim

theorem derivativeAtH_fails (c : Cfg) {b : BSpline D K V} (h : (∃ d, (b.knots d).length < b.order + 2) ∨ b.ctrl.storage = []) {y : Fin D → K × ℕ × ℕ}
    (hm : ∀ d, (y d).2.2 ≤ b.order) : Spec (derivativeAtH c b y) (fun _ => False) (fun _ => True) := by
  unfold derivativeAtH
  rw [if_neg fun ⟨d, hd⟩ => absurd (hm d) (by omega)]
  rcases h with ⟨d, h⟩ | h
  · exact Spec.bind (segs_fail (y := fun d => ((y d).1, (y d).2.1)) h) fun _ h => h.elim
  · refine Spec.bind (spec_true _) fun segs _ => Spec.bind (spec_true _) fun base _ => Spec.bind (loop_fails (by positivity) fun i v => ?_) fun _ h => h.elim
    unfold derivFillBody
    exact Spec.bind (spec_true _) fun a _ => Spec.bind (spec_true _) fun r _ => Spec.bind (spec_true _) fun sv _ =>
      Spec.bind (get_empty h _) fun _ h => h.elim

theorem partialConstruct_ctrl (c : Cfg) (o : ℕ) (per : Fin D → Bool) (dims : Fin D → ℕ) (x : Fin D → XRange K) :
    Spec (partialConstruct (V := V) c o per dims x) (fun r => r.1.spline.ctrl.storage = []) (fun _ => True) := by
  unfold partialConstruct
  refine Spec.foldFin (P := fun _ (r : InterpFn D K V × (Fin D → List K)) => r.1.spline.ctrl.storage = []) rfl fun d st hst => ?_
  unfold createKnotVector
  have load : ∀ (t : List K), Spec (st.1.spline.loadKnots d t) (fun s => s.ctrl.storage = []) (fun _ => True) := fun t => by
    unfold BSpline.loadKnots
    exact Spec.bind (spec_true _) fun _ _ => Spec.bind (spec_true _) fun _ _ => Spec.bind (spec_true _) fun _ _ => Spec.bind (spec_true _) fun _ _ => Spec.pure hst
  cases x d with
  | uniform a b => exact Spec.bind (spec_true _) fun _ _ => Spec.bind (spec_true _) fun t _ => Spec.bind (load t) fun s hs => Spec.pure hs
  | coords l => exact Spec.bind (spec_true _) fun t _ => Spec.bind (load t.1) fun s hs => Spec.pure hs

theorem constructT_ctrl {w : Bool} {c : Cfg} {o : ℕ} {per : Fin D → Bool} {dims : Fin D → ℕ} {x : Fin D → XRange K} {t : Template D K V}
    (h : constructT w c o per dims x = .ok t) : t.base.spline.ctrl.storage = [] := by
  refine Spec.get (E := fun _ => True) (Q := fun t : Template D K V => t.base.spline.ctrl.storage = []) ?_ h
  unfold constructT
  exact Spec.bind (partialConstruct_ctrl c o per dims x) fun r hr => Spec.bind (spec_true _) fun _ _ => Spec.bind (spec_true _) fun _ _ =>
    Spec.bind (spec_true _) fun _ _ => Spec.pure hr

end Intp.Fl
