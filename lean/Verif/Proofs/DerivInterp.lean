import Verif.Proofs.DerivApprox
import Verif.Proofs.ApproxInterp
import Verif.Spec.Mixed

/-!
# Distance of the mixed derivatives of a smooth function from those of its interpolation
-/

namespace Intp

open Finset BSpline

theorem tail_after_zero {D : ℕ} (m : Fin (D + 1) → ℕ) : Fin.tail (after m 0) = Fin.tail m := by
  funext e
  simp [Fin.tail, after, Fin.succ_pos]

theorem tail_after_succ {D : ℕ} (m : Fin (D + 1) → ℕ) (d : Fin D) : Fin.tail (after m d.succ) = after (Fin.tail m) d := by
  funext e
  simp [Fin.tail, after]

theorem after_self {D : ℕ} (m : Fin D → ℕ) (d : Fin D) : after m d d = 0 := by simp [after]

theorem mixedDeriv_after_zero {D : ℕ} (S : Fin (D + 1) → Set ℝ) (m : Fin (D + 1) → ℕ) (f : (Fin (D + 1) → ℝ) → ℝ) (y : Fin (D + 1) → ℝ) (t : ℝ) :
    mixedDeriv S (after m 0) f (Function.update y 0 t) = mixedDeriv (Fin.tail S) (Fin.tail m) (fun z => f (Fin.cons t z)) (Fin.tail y) := by
  rw [mixedDeriv, after_self, iteratedDerivWithin_zero, tail_after_zero, Function.update_self, Fin.tail_update_zero]

theorem mixedDeriv_after_succ {D : ℕ} (S : Fin (D + 1) → Set ℝ) (m : Fin (D + 1) → ℕ) (f : (Fin (D + 1) → ℝ) → ℝ) (a : ℝ) (z : Fin D → ℝ) (d : Fin D) (t : ℝ) :
    mixedDeriv S (after m d.succ) f (Function.update (Fin.cons a z : Fin (D + 1) → ℝ) d.succ t) =
      mixedDeriv (Fin.tail S) (after (Fin.tail m) d) (fun z => f (Fin.cons a z)) (Function.update z d t) := by
  rw [mixedDeriv, show after m d.succ 0 = 0 by simp [after], iteratedDerivWithin_zero, tail_after_succ, ← Fin.cons_update, Fin.tail_cons, Fin.cons_zero]

/-- Functions that agree on two hyperplanes have the same derivatives along them. -/
theorem mixedDeriv_update_congr : ∀ {D : ℕ} {S : Fin D → Set ℝ} {m : Fin D → ℕ} {f : (Fin D → ℝ) → ℝ} {d : Fin D} {a b : ℝ}, m d = 0 →
    (∀ z, f (Function.update z d a) = f (Function.update z d b)) → ∀ z, mixedDeriv S m f (Function.update z d a) = mixedDeriv S m f (Function.update z d b)
  | 0, _, _, _, d, _, _, _, _, _ => d.elim0
  | D + 1, S, m, f, d, a, b, hm, hf, z => by
    revert hm hf
    refine Fin.cases (fun hm hf => ?_) (fun d hm hf => ?_) d
    · rw [mixedDeriv, mixedDeriv, hm, iteratedDerivWithin_zero, iteratedDerivWithin_zero]
      simp only [Function.update_self, Fin.tail_update_zero]
      congr 1
      funext z
      have := hf (Fin.cons a z)
      rwa [Fin.update_cons_zero, Fin.update_cons_zero] at this
    · rw [mixedDeriv, mixedDeriv, Function.update_of_ne (Fin.succ_ne_zero d).symm, Function.update_of_ne (Fin.succ_ne_zero d).symm]
      congr 1
      funext t
      rw [Fin.tail_update_succ, Fin.tail_update_succ]
      refine mixedDeriv_update_congr (m := Fin.tail m) hm (fun z => ?_) _
      have := hf (Fin.cons t z)
      rwa [← Fin.cons_update, ← Fin.cons_update] at this

/-- Errors of the dimensions add up, for mixed derivatives. -/
theorem tensor_errD : ∀ {D : ℕ} {n : Fin D → ℕ} {w : Fin D → ℕ → ℝ} {X : Fin D → ℕ → ℝ} {S : Fin D → Set ℝ} {m : Fin D → ℕ} {y : Fin D → ℝ}
    {f : (Fin D → ℝ) → ℝ} {μ κ : Fin D → ℝ}, (∀ d, ∑ r ∈ Finset.range (n d), |w d r| ≤ μ d) → (∀ d, y d ∈ S d) → (∀ d r, r < n d → X d r ∈ S d) →
    (∀ d (z : Fin D → ℝ), (∀ e, z e ∈ S e) →
      |iteratedDerivWithin (m d) (fun t => mixedDeriv S (after m d) f (Function.update z d t)) (S d) (y d) -
        ∑ r ∈ Finset.range (n d), w d r * mixedDeriv S (after m d) f (Function.update z d (X d r))| ≤ κ d) →
    |mixedDeriv S m f y - tensorVal n w fun r => f fun d => X d (r d)| ≤ ∑ d, (∏ e ∈ univ.filter (· < d), μ e) * κ d
  | 0, n, w, X, S, m, y, f, μ, κ, _, _, _, _ => by
    unfold tensorVal
    simp only [univ_eq_empty, prod_empty, one_smul, sum_empty]
    rw [Fintype.piFinset_of_isEmpty, univ_unique, sum_singleton, mixedDeriv]
    have : ∀ z : Fin 0 → ℝ, f y - f z = 0 := fun z => by rw [Subsingleton.elim z y, sub_self]
    rw [this, abs_zero]
  | D + 1, n, w, X, S, m, y, f, μ, κ, hμ, hy, hX, hκ => by
    have hμ0 : ∀ d, 0 ≤ μ d := fun d => (sum_nonneg fun _ _ => abs_nonneg _).trans (hμ d)
    set L : ℝ → ℝ := fun t => mixedDeriv (Fin.tail S) (Fin.tail m) (fun z => f (Fin.cons t z)) (Fin.tail y) with hL
    have ih : ∀ r, r < n 0 → |L (X 0 r) - tensorVal (fun d => n d.succ) (fun d => w d.succ)
        fun J => f (Fin.cons (X 0 r) fun d => X d.succ (J d))| ≤ ∑ d, (∏ e ∈ univ.filter (· < d), μ (Fin.succ e)) * κ d.succ := fun r hr => by
      refine tensor_errD (n := fun d => n d.succ) (w := fun d => w d.succ) (X := fun d => X d.succ) (S := Fin.tail S) (m := Fin.tail m) (y := Fin.tail y)
        (f := fun z => f (Fin.cons (X 0 r) z)) (μ := fun d => μ d.succ) (κ := fun d => κ d.succ) (fun d => hμ _) (fun d => hy _) (fun d => hX _) fun d z hz => ?_
      have := hκ d.succ (Fin.cons (X 0 r) z) (fun e => by
        refine Fin.cases ?_ (fun e => ?_) e
        · exact hX 0 r hr
        · exact hz e)
      simp only [mixedDeriv_after_succ] at this
      exact this
    have h1 := hκ 0 y hy
    simp only [mixedDeriv_after_zero] at h1
    have e1 : tensorVal n w (fun r => f fun d => X d (r d)) = ∑ r ∈ Finset.range (n 0), w 0 r * tensorVal (fun d => n d.succ) (fun d => w d.succ)
        fun J => f (Fin.cons (X 0 r) fun d => X d.succ (J d)) := by
      rw [tensorVal_insert 0]
      refine sum_congr rfl fun r _ => ?_
      rw [smul_eq_mul]
      congr 1
      refine tensorVal_congr (fun J _ => ?_) fun _ _ _ => rfl
      congr 1
      funext d
      refine Fin.cases ?_ (fun e => ?_) d
      · simp
      · simp
    have h2 : |∑ r ∈ Finset.range (n 0), w 0 r * (L (X 0 r) - tensorVal (fun d => n d.succ) (fun d => w d.succ)
        fun J => f (Fin.cons (X 0 r) fun d => X d.succ (J d)))| ≤ μ 0 * ∑ d, (∏ e ∈ univ.filter (· < d), μ (Fin.succ e)) * κ d.succ := by
      have hpos : 0 ≤ ∑ d, (∏ e ∈ univ.filter (· < d), μ (Fin.succ e)) * κ d.succ := by
        refine sum_nonneg fun d _ => mul_nonneg (prod_nonneg fun e _ => hμ0 _) ?_
        exact (abs_nonneg _).trans (hκ d.succ y hy)
      refine (abs_sum_le_sum_abs _ _).trans (le_trans ?_ (mul_le_mul_of_nonneg_right (hμ 0) hpos))
      rw [sum_mul]
      refine sum_le_sum fun r hr => ?_
      rw [abs_mul]
      exact mul_le_mul_of_nonneg_left (ih r (Finset.mem_range.1 hr)) (abs_nonneg _)
    have e2 : mixedDeriv S m f y - tensorVal n w (fun r => f fun d => X d (r d)) =
        (iteratedDerivWithin (m 0) L (S 0) (y 0) - ∑ r ∈ Finset.range (n 0), w 0 r * L (X 0 r)) +
        ∑ r ∈ Finset.range (n 0), w 0 r * (L (X 0 r) - tensorVal (fun d => n d.succ) (fun d => w d.succ)
        fun J => f (Fin.cons (X 0 r) fun d => X d.succ (J d))) := by
      rw [e1, mixedDeriv]
      simp only [mul_sub, sum_sub_distrib]; ring
    rw [e2, Fin.sum_univ_succ]
    refine (abs_add_le _ _).trans (add_le_add ?_ ?_)
    · have : univ.filter (fun e : Fin (D + 1) => e < 0) = ∅ := by
        refine filter_false_of_mem fun e _ => by simp
      rw [this, prod_empty, one_mul]
      exact h1
    · refine h2.trans (le_of_eq ?_)
      rw [mul_sum]
      refine sum_congr rfl fun d _ => ?_
      rw [← mul_assoc]
      congr 1
      have : univ.filter (fun e : Fin (D + 1) => e < d.succ) = insert 0 ((univ.filter (· < d)).map (Fin.succEmb D)) := by
        ext e
        refine Fin.cases ?_ (fun e => ?_) e
        · simp
        · simp [Fin.succ_ne_zero]
      rw [this, prod_insert (by simp [Fin.succ_ne_zero]), prod_map]
      rfl

/-- Error of the derivatives of the interpolation of a smooth function. -/
theorem InterpFn.Done.approxD {D : ℕ} {c : Cfg} {o : ℕ} {per : Fin D → Bool} {dims : Fin D → ℕ} {x : Fin D → XRange ℝ} {g : InterpFn D ℝ ℝ}
    {C F : (Fin D → ℕ) → ℝ} (h : g.Done c o per dims x C) (hv : ValidAxes c o per dims x) (hE : CtrlEqs c o per dims x F C) (ho : 1 ≤ o) {μ : Fin D → ℝ}
    (hμ : ∀ d, RowsInv (nOf c per dims d) ((x d).mat o (pointNum c (per d) (dims d)) (per d)) (μ d)) {H γ M : Fin D → ℝ}
    (hH : ∀ d, (x d).Gap (pointNum c (per d) (dims d)) (H d)) (hγ : ∀ d, 0 < γ d) (hg : ∀ d, (x d).MinGap (pointNum c (per d) (dims d)) (γ d))
    {S : Fin D → Set ℝ} (hS : ∀ d, S d = (x d).dom (pointNum c (per d) (dims d)) (per d)) {m : Fin D → ℕ} (hm : ∀ d, m d ≤ o) {f : (Fin D → ℝ) → ℝ}
    (hf : ∀ d z, (∀ e, z e ∈ S e) → ContDiffOn ℝ (o + 1 : ℕ) (fun t => mixedDeriv S (after m d) f (Function.update z d t)) (S d) ∧
      ∀ t ∈ S d, |iteratedDerivWithin (o + 1) (fun t => mixedDeriv S (after m d) f (Function.update z d t)) (S d) t| ≤ M d)
    (hP : ∀ d z t, per d = true → f (Function.update z d (t + ((x d).node (pointNum c (per d) (dims d)) (pointNum c (per d) (dims d) - 1) -
      (x d).node (pointNum c (per d) (dims d)) 0))) = f (Function.update z d t))
    (hF : ∀ I, InRange (nOf c per dims) I → F I = f (nodeAt c per dims x I)) {y : Fin D → ℝ} (hy : ∀ d, y d ∈ S d) :
    |mixedDeriv S m f y - g.spline.val C m y| ≤ ∑ d, (∏ e ∈ univ.filter (· < d), (2 * (o : ℝ) / γ e) ^ m e * μ e) *
      ((2 * (o : ℝ) / γ d) ^ m d * ((1 + μ d) * (M d / (o + 1).factorial * ((2 * (o : ℝ) - 1) * H d) ^ (o + 1)))) := by
  choose B hB1 hB2 _ using fun d => (hμ d).inverse
  rw [h.val_eq, hE.cardinal_eq hB1 m y]
  have hrow : ∀ d r, r < nOf c per dims d → nodeOfRow o (per d) (nOf c per dims d) r < nOf c per dims d := fun d r hr => (row_nodeOfRow hr).1
  have hN : ∀ d, nOf c per dims d ≤ pointNum c (per d) (dims d) := fun d => by unfold nOf unk; omega
  rw [tensorVal_congr (C' := fun r => f fun d => (x d).node (pointNum c (per d) (dims d)) (nodeOfRow o (per d) (nOf c per dims d) (r d)))
    (fun r hr => hF _ fun d => hrow d _ (hr d)) fun _ _ _ => rfl]
  have hy' : ∀ d, y d ∈ (x d).dom (pointNum c (per d) (dims d)) (per d) := fun d => by rw [← hS d]; exact hy d
  have hμ0 : ∀ d, 0 ≤ μ d := fun d => (sum_nonneg fun _ _ => abs_nonneg _).trans (cardinal_lebesgue (hB2 d) (hμ d) ((hv d).wt_unity (hy' d)))
  have hleb : ∀ d, ∑ r ∈ Finset.range (nOf c per dims d), |cardinal (nOf c per dims d) (B d) ((x d).wt o (pointNum c (per d) (dims d)) (per d) (m d) (y d)) r| ≤
      (2 * (o : ℝ) / γ d) ^ m d * μ d :=
    fun d => cardinal_lebesgueD (hB2 d) (hμ d) ((hv d).wt_deriv ho (hγ d) (hg d) (hy' d) (m d)) (hμ0 d)
  refine tensor_errD (X := fun d r => (x d).node (pointNum c (per d) (dims d)) (nodeOfRow o (per d) (nOf c per dims d) r)) (S := S) hleb hy
    (fun d r hr => by rw [hS d]; exact (hv d).node_dom ((hrow d r hr).trans_le (hN d))) fun d z hz => ?_
  obtain ⟨h1, h2⟩ := hf d z hz
  have hSd := hS d
  rw [hSd] at h1 h2 ⊢
  have := (hv d).cardinal_errD ho (hH d) (hγ d) (hg d) (derivSeq_of_contDiffOn (hv d).dom_unique h1 h2) (fun hper t => by
      simp only [iteratedDerivWithin_zero]
      exact mixedDeriv_update_congr (after_self m d) (fun z => hP d z t hper) z) (ν := nodeOfRow o (per d) (nOf c per dims d))
    (fun r hr => (hrow d r hr).trans_le (hN d)) (fun r J hr hJ => h.mat_row hv d hr hJ) (hB1 d) (hm d) (hleb d) (hy' d)
  simp only [iteratedDerivWithin_zero] at this
  exact this

end Intp
