import Verif.Proofs.DominantUniform

/-!
# Axes with a dominant matrix
-/

namespace Intp

open Finset BSpline

/-- Linear interpolation: the matrix is diagonal up to rounding. -/
theorem linear_dom {sol : Solver F64} {n : ℕ} {W : ℕ → ℕ → ℚ} {κ : ℚ} (h : RowsNear sol 1 n W κ) (h1 : ∀ i, i < n → ∑ J ∈ range n, W i J = 1)
    (hκ : κ / 2 ^ 53 ≤ 1 / 90) : RowsDom n W (fun _ => 1 / 2) (1 / 4) (1 / 10) κ := by
  obtain ⟨A, lu, C0, -, -, -, -, hA⟩ := h
  have key : ∀ i, i < n → ∑ J ∈ (range n).erase i, |W i J| ≤ κ / 2 ^ 53 := by
    intro i hi
    refine le_trans ?_ (hA i hi)
    refine le_trans (sum_le_sum fun J hJ => ?_) (sum_le_sum_of_subset_of_nonneg (erase_subset _ _) fun _ _ _ => abs_nonneg _)
    rw [Fl.entries_neg (by have := (mem_erase.1 hJ).1; unfold InBand; omega), zero_sub, abs_neg]
  have hdiag : ∀ i, i < n → |W i i - 1| ≤ κ / 2 ^ 53 := by
    intro i hi
    have := h1 i hi
    rw [← add_sum_erase _ _ (mem_range.2 hi)] at this
    rw [show W i i - 1 = -∑ J ∈ (range n).erase i, W i J by linarith, abs_neg]
    exact (abs_sum_le_sum_abs _ _).trans (key i hi)
  refine ⟨fun _ => by norm_num, fun _ => by norm_num, by norm_num, by norm_num, by norm_num, by linarith, fun i hi => ?_, fun i hi => ?_⟩
  · unfold wsum
    rw [← range_eq_Ico, ← sum_mul, ← add_sum_erase _ _ (mem_range.2 hi)]
    have h2 := key i hi
    have h3 := abs_le.1 (hdiag i hi)
    rw [abs_of_nonneg (show 0 ≤ W i i by linarith)]
    linarith
  · unfold marg
    rw [← range_eq_Ico, ← sum_mul, ← add_sum_erase _ _ (mem_range.2 hi), if_pos rfl,
      sum_congr rfl fun J hJ => if_neg (mem_erase.1 hJ).1, sum_neg_distrib]
    have h2 := key i hi
    have h3 := abs_le.1 (hdiag i hi)
    have h4 := le_abs_self (W i i)
    linarith

/-- A uniform dimension of order 1, 2 or 3. -/
theorem uniform_dom {o n : ℕ} {a H κ : ℚ} (hH : 0 < H) (ho : 1 ≤ o ∧ o ≤ 3) (hn : o + 1 ≤ n)
    (h1 : ∀ i, i < n → (∀ J, 0 ≤ exRow o n a H i J) ∧ ∑ J ∈ range n, exRow o n a H i J = 1) (hκ : κ / 2 ^ 53 ≤ 1 / 90) :
    RowsDom n (exRow o n a H) (domW o n) (1 / 4) (1 / 10) κ := by
  refine ⟨fun J => (domW_bounds o n J).1, fun J => (domW_bounds o n J).2, by norm_num, by norm_num, by norm_num, by linarith, fun i hi => ?_, fun i hi => ?_⟩
  · rw [← (h1 i hi).2]
    unfold wsum
    rw [← range_eq_Ico]
    refine sum_le_sum fun J _ => ?_
    rw [abs_of_nonneg ((h1 i hi).1 J)]
    exact mul_le_of_le_one_right ((h1 i hi).1 J) (domW_bounds o n J).2
  · have := uniform_marg (a := a) hH.ne' ho hn hi
    linarith

end Intp
