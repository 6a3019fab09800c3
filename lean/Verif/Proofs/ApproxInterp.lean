import Verif.Proofs.Approx
import Verif.Proofs.LowOrder
import Mathlib.Algebra.Field.Periodic
import Mathlib.Analysis.Normed.Group.Bounded
import Mathlib.Topology.Order.Compact
import Mathlib.Analysis.Calculus.IteratedDeriv.Lemmas

/-!
# Distance of a smooth function of several variables from its interpolation
-/

namespace Intp

open Finset BSpline

theorem derivSeq_of_contDiffOn {S : Set ℝ} (hS : UniqueDiffOn ℝ S) {N : ℕ} {φ : ℝ → ℝ} (h : ContDiffOn ℝ N φ S) {M : ℝ}
    (hM : ∀ t ∈ S, |iteratedDerivWithin N φ S t| ≤ M) : DerivSeq S N (fun k => iteratedDerivWithin k φ S) M := by
  refine ⟨fun k hk t ht => ?_, hM⟩
  have := (h.differentiableOn_iteratedDerivWithin (m := k) (by exact_mod_cast hk) hS) t ht
  rw [iteratedDerivWithin_succ]
  exact this.hasDerivWithinAt

theorem XRange.Valid.dom_unique {o N : ℕ} {per : Bool} {x : XRange ℝ} (h : x.Valid o N per) : UniqueDiffOn ℝ (x.dom N per) := by
  cases per with
  | true =>
    rw [show x.dom N true = Set.univ from Set.eq_univ_of_forall fun z hz => by simp at hz]
    exact uniqueDiffOn_univ
  | false =>
    have h2 := h.N_two
    have : x.dom N false = Set.Icc (x.node N 0) (x.node N (N - 1)) := by
      ext z; exact ⟨fun hz => hz rfl, fun hz _ => hz⟩
    rw [this]
    exact uniqueDiffOn_Icc (h.node_lt (by omega) (by omega))

/-- Error of the interpolation of a smooth function. -/
theorem InterpFn.Done.approx {D : ℕ} {c : Cfg} {o : ℕ} {per : Fin D → Bool} {dims : Fin D → ℕ} {x : Fin D → XRange ℝ} {g : InterpFn D ℝ ℝ}
    {C F : (Fin D → ℕ) → ℝ} (h : g.Done c o per dims x C) (hv : ValidAxes c o per dims x) (hE : CtrlEqs c o per dims x F C) (ho : 1 ≤ o) {μ : Fin D → ℝ}
    (hμ : ∀ d, RowsInv (nOf c per dims d) ((x d).mat o (pointNum c (per d) (dims d)) (per d)) (μ d)) {H M : Fin D → ℝ}
    (hH : ∀ d, (x d).Gap (pointNum c (per d) (dims d)) (H d)) {f : (Fin D → ℝ) → ℝ}
    (hf : ∀ d z, (∀ e, z e ∈ (x e).dom (pointNum c (per e) (dims e)) (per e)) →
      ContDiffOn ℝ (o + 1 : ℕ) (fun t => f (Function.update z d t)) ((x d).dom (pointNum c (per d) (dims d)) (per d)) ∧
      ∀ t ∈ (x d).dom (pointNum c (per d) (dims d)) (per d),
        |iteratedDerivWithin (o + 1) (fun t => f (Function.update z d t)) ((x d).dom (pointNum c (per d) (dims d)) (per d)) t| ≤ M d)
    (hP : ∀ d z t, per d = true → f (Function.update z d (t + ((x d).node (pointNum c (per d) (dims d)) (pointNum c (per d) (dims d) - 1) -
      (x d).node (pointNum c (per d) (dims d)) 0))) = f (Function.update z d t))
    (hF : ∀ I, InRange (nOf c per dims) I → F I = f (nodeAt c per dims x I)) {y : Fin D → ℝ}
    (hy : ∀ d, y d ∈ (x d).dom (pointNum c (per d) (dims d)) (per d)) :
    |f y - g.spline.val C (fun _ => 0) y| ≤
      ∑ d, (∏ e ∈ univ.filter (· < d), μ e) * ((1 + μ d) * (M d / (o + 1).factorial * ((2 * (o : ℝ) - 1) * H d) ^ (o + 1))) := by
  choose B hB1 hB2 _ using fun d => (hμ d).inverse
  rw [h.val_eq, hE.cardinal_eq hB1 (fun _ => 0) y]
  have hrow : ∀ d r, r < nOf c per dims d → nodeOfRow o (per d) (nOf c per dims d) r < nOf c per dims d := fun d r hr => (row_nodeOfRow hr).1
  have hN : ∀ d, nOf c per dims d ≤ pointNum c (per d) (dims d) := fun d => by unfold nOf unk; omega
  rw [tensorVal_congr (C' := fun r => f fun d => (x d).node (pointNum c (per d) (dims d)) (nodeOfRow o (per d) (nOf c per dims d) (r d)))
    (fun r hr => hF _ fun d => hrow d _ (hr d)) fun _ _ _ => rfl]
  have hleb : ∀ d, ∑ r ∈ Finset.range (nOf c per dims d), |cardinal (nOf c per dims d) (B d) ((x d).wt o (pointNum c (per d) (dims d)) (per d) 0 (y d)) r| ≤ μ d :=
    fun d => cardinal_lebesgue (hB2 d) (hμ d) ((hv d).wt_unity (hy d))
  refine tensor_err (X := fun d r => (x d).node (pointNum c (per d) (dims d)) (nodeOfRow o (per d) (nOf c per dims d) r))
    (S := fun d => (x d).dom (pointNum c (per d) (dims d)) (per d)) hleb hy
    (fun d r hr => (hv d).node_dom ((hrow d r hr).trans_le (hN d))) fun d z hz => ?_
  obtain ⟨h1, h2⟩ := hf d z hz
  have := (hv d).cardinal_err ho (hH d) (derivSeq_of_contDiffOn (hv d).dom_unique h1 h2) (fun hper t => by
      simp only [iteratedDerivWithin_zero]
      exact hP d z t hper) (ν := nodeOfRow o (per d) (nOf c per dims d)) (fun r hr => (hrow d r hr).trans_le (hN d))
    (fun r J hr hJ => h.mat_row hv d hr hJ) (hB1 d) (hleb d) (hy d)
  simp only [iteratedDerivWithin_zero] at this
  exact this

/-- The last derivative of a function that is smooth on an interval, or smooth and periodic, is bounded. -/
theorem exists_deriv_bound {n : ℕ} {per : Bool} {a b : ℝ} (hab : a < b) {f : ℝ → ℝ} {S : Set ℝ} (hS : S = {t | per = false → a ≤ t ∧ t ≤ b})
    (hs : ContDiffOn ℝ n f S) (hp : per = true → ∀ t, f (t + (b - a)) = f t) : ∃ M, 0 ≤ M ∧ ∀ t ∈ S, |iteratedDerivWithin n f S t| ≤ M := by
  have hun : UniqueDiffOn ℝ S := by
    cases hper : per with
    | true =>
      rw [show S = Set.univ by rw [hS]; exact Set.eq_univ_of_forall fun z hz => by simp [hper] at hz]
      exact uniqueDiffOn_univ
    | false =>
      rw [show S = Set.Icc a b by rw [hS]; exact Set.ext fun z => ⟨fun hz => hz hper, fun hz _ => hz⟩]
      exact uniqueDiffOn_Icc hab
  have hsub : Set.Icc a b ⊆ S := by rw [hS]; exact fun t ht _ => ht
  have hcont := (hs.continuousOn_iteratedDerivWithin (m := n) le_rfl hun).mono hsub
  obtain ⟨M, hM⟩ := (isCompact_Icc (a := a) (b := b)).exists_bound_of_continuousOn hcont
  have hbound : ∀ t ∈ S, |iteratedDerivWithin n f S t| ≤ M := fun t ht => by
    cases hper : per with
    | false => rw [hS] at ht; exact hM t (ht hper)
    | true =>
      have huniv : S = Set.univ := by rw [hS]; exact Set.eq_univ_of_forall fun z hz => by simp [hper] at hz
      rw [huniv, iteratedDerivWithin_univ]
      have hper' : Function.Periodic (iteratedDeriv n f) (b - a) := fun t => by
        have := congrFun (iteratedDeriv_comp_add_const n f (b - a)) t
        rw [← this]
        congr 1
        exact funext (hp hper)
      obtain ⟨u, hu, e⟩ := Function.Periodic.exists_mem_Ico hper' (sub_pos.2 hab) t a
      rw [e]
      have := hM u ⟨hu.1, by have := hu.2; linarith⟩
      rwa [huniv, iteratedDerivWithin_univ] at this
  exact ⟨M, (norm_nonneg _).trans (hM a ⟨le_rfl, hab.le⟩), hbound⟩

/-- Stability. -/
theorem CtrlEqs.stable {K : Type} [Field K] [LinearOrder K] [IsStrictOrderedRing K] [FloorRing K] {D : ℕ} {c : Cfg} {o : ℕ} {per : Fin D → Bool}
    {dims : Fin D → ℕ} {x : Fin D → XRange K} {C F : (Fin D → ℕ) → K} (hv : ValidAxes c o per dims x)
    (hE : CtrlEqs c o per dims x F C) {μ : Fin D → K} (hμ : ∀ d, RowsInv (nOf c per dims d) ((x d).mat o (pointNum c (per d) (dims d)) (per d)) (μ d)) {A : K}
    (hF : ∀ I, InRange (nOf c per dims) I → |F I| ≤ A) {y : Fin D → K} (hy : ∀ d, (x d).InDom (pointNum c (per d) (dims d)) (per d) (y d)) :
    |tensorVal (nOf c per dims) (fun d => (x d).wt o (pointNum c (per d) (dims d)) (per d) 0 (y d)) C| ≤ (∏ d, μ d) * A := by
  choose B hB1 hB2 _ using fun d => (hμ d).inverse
  rw [hE.cardinal_eq hB1 (fun _ => 0) y]
  have hA : 0 ≤ A := (abs_nonneg _).trans (hF (fun _ => 0) fun d => (hv d).unk_pos)
  refine (tensor_abs fun r hr => hF _ fun d => (row_nodeOfRow (hr d)).1).trans (mul_le_mul_of_nonneg_right ?_ hA)
  exact prod_le_prod (fun d _ => sum_nonneg fun _ _ => abs_nonneg _) fun d _ => cardinal_lebesgue (hB2 d) (hμ d) ((hv d).wt_unity (hy d))

/-- Differences of solutions. -/
theorem CtrlEqs.sub {K V : Type} [Field K] [LinearOrder K] [IsStrictOrderedRing K] [FloorRing K] [AddCommGroup V] [Module K V] {D : ℕ} {c : Cfg} {o : ℕ} {per : Fin D → Bool}
    {dims : Fin D → ℕ} {x : Fin D → XRange K} {C C' F F' : (Fin D → ℕ) → V} (h : CtrlEqs c o per dims x F C) (h' : CtrlEqs c o per dims x F' C') :
    CtrlEqs c o per dims x (fun I => F I - F' I) fun J => C J - C' J := fun I hI => by
  have := tensorVal_lin (dims := fun d => unk (per d) (pointNum c (per d) (dims d))) (w := fun d => (x d).mat o (pointNum c (per d) (dims d)) (per d)
      ((I d + rowShift o (per d)) % unk (per d) (pointNum c (per d) (dims d)))) (C₁ := C) (C₂ := C') 1 (-1)
  simp only [one_smul, neg_smul, ← sub_eq_add_neg] at this
  rw [this, h I hI, h' I hI]

theorem tensorVal_sub {K V : Type} [Field K] [AddCommGroup V] [Module K V] {D : ℕ} (dims : Fin D → ℕ) (w : Fin D → ℕ → K)
    (C C' : (Fin D → ℕ) → V) : tensorVal dims w C - tensorVal dims w C' = tensorVal dims w fun J => C J - C' J := by
  unfold tensorVal
  rw [← sum_sub_distrib]
  exact sum_congr rfl fun J _ => (smul_sub _ _ _).symm

end Intp
