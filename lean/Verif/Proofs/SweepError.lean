import Verif.Proofs.SolveSweep
import Mathlib.Tactic.Positivity

/-!
# Errors of solving along the axes one after the other
-/

namespace Intp

open Finset BSpline

variable {D : ℕ} {F : Type} [Field F] [LinearOrder F] [IsStrictOrderedRing F]

/-- Weights that are not negative and sum to one do not increase differences. -/
theorem tensor_sup {dims : Fin D → ℕ} {w : Fin D → ℕ → F} (h0 : ∀ d J, J < dims d → 0 ≤ w d J) (h1 : ∀ d, ∑ J ∈ range (dims d), w d J = 1)
    {f g : (Fin D → ℕ) → F} {ε : F} (h : ∀ a, InRange dims a → |f a - g a| ≤ ε) : |tensorVal dims w f - tensorVal dims w g| ≤ ε := by
  unfold tensorVal
  rw [← sum_sub_distrib]
  refine (abs_sum_le_sum_abs _ _).trans ?_
  have hs : ∑ J ∈ Fintype.piFinset (fun d => range (dims d)), ∏ d, w d (J d) = 1 := by
    rw [← Finset.prod_univ_sum]
    exact prod_eq_one fun d _ => h1 d
  calc ∑ J ∈ Fintype.piFinset (fun d => range (dims d)), |(∏ d, w d (J d)) • f J - (∏ d, w d (J d)) • g J|
      ≤ ∑ J ∈ Fintype.piFinset (fun d => range (dims d)), (∏ d, w d (J d)) * ε := by
        refine sum_le_sum fun J hJ => ?_
        have hJ' : ∀ d, J d < dims d := fun d => mem_range.1 (Fintype.mem_piFinset.1 hJ d)
        rw [smul_eq_mul, smul_eq_mul, ← mul_sub, abs_mul, abs_of_nonneg (prod_nonneg fun d _ => h0 d _ (hJ' d))]
        exact mul_le_mul_of_nonneg_left (h J hJ') (prod_nonneg fun d _ => h0 d _ (hJ' d))
    _ = ε := by rw [← sum_mul, hs, one_mul]

/-- If every line of the `k`-th array is what the weights of its axis make of the line of the next array, up to `ε M + τ` with `M` the largest number
of the next array, then the tensor product of the weights applied to the last array is the first array up to the sum of the errors. -/
theorem sweep_error {dims : Fin (D + 1) → ℕ} {W : Fin (D + 1) → ℕ → ℕ → F} (h0 : ∀ d i J, i < dims d → J < dims d → 0 ≤ W d i J)
    (h1 : ∀ d i, i < dims d → ∑ J ∈ range (dims d), W d i J = 1) {G : ℕ → (Fin (D + 1) → ℕ) → F} {ε τ C : F} (hε : 0 ≤ ε) (hτ : 0 ≤ τ)
    (hC : ∀ a, InRange dims a → |G (D + 1) a| ≤ C) (hC0 : 0 ≤ C) (hp : (1 + ε) ^ (D + 1) ≤ 2)
    (hstep : ∀ (d : Fin (D + 1)) M, (∀ a, InRange dims a → |G (d.rev + 1) a| ≤ M) → ∀ a, InRange dims a →
      |G d.rev a - ∑ j ∈ range (dims d), W d (a d) j * G (d.rev + 1) (Function.update a d j)| ≤ ε * M + τ)
    {I : Fin (D + 1) → ℕ} (hI : InRange dims I) :
    |tensorVal dims (fun d => W d (I d)) (G (D + 1)) - G 0 I| ≤ (D + 1) * (ε * (2 * (C + (D + 1) * τ)) + τ) := by
  -- sizes
  have hupd : ∀ (a : Fin (D + 1) → ℕ) (d : Fin (D + 1)) j, InRange dims a → j < dims d → InRange dims (Function.update a d j) := by
    intro a d j ha hj e
    by_cases he : e = d
    · subst he; rw [Function.update_self]; exact hj
    · rw [Function.update_of_ne he]; exact ha e
  have hM : ∀ m, m ≤ D + 1 → ∀ a, InRange dims a → |G (D + 1 - m) a| ≤ (1 + ε) ^ m * (C + m * τ) := by
    intro m
    induction m with
    | zero => intro _ a ha; simpa using hC a ha
    | succ m ih =>
      intro hm a ha
      have ih := ih (by omega)
      set M := (1 + ε) ^ m * (C + m * τ) with hMd
      have hM0 : 0 ≤ M := by positivity
      have hd : ((⟨D - (D - m), by omega⟩ : Fin (D + 1)).rev : ℕ) = D - m := by rw [Fin.val_rev]; simp only; omega
      have key := hstep ⟨D - (D - m), by omega⟩ M (by rw [hd, show D - m + 1 = D + 1 - m by omega]; exact ih) a ha
      set d : Fin (D + 1) := ⟨D - (D - m), by omega⟩
      rw [hd, show D - m + 1 = D + 1 - m by omega] at key
      have hs : |∑ j ∈ range (dims d), W d (a d) j * G (D + 1 - m) (Function.update a d j)| ≤ M := by
        refine (abs_sum_le_sum_abs _ _).trans ?_
        calc ∑ j ∈ range (dims d), |W d (a d) j * G (D + 1 - m) (Function.update a d j)| ≤ ∑ j ∈ range (dims d), W d (a d) j * M := by
              refine sum_le_sum fun j hj => ?_
              rw [mem_range] at hj
              have := h0 d (a d) j (ha d) hj
              rw [abs_mul, abs_of_nonneg this]
              exact mul_le_mul_of_nonneg_left (ih _ (hupd a d j ha hj)) this
          _ = M := by rw [← sum_mul, h1 d _ (ha d), one_mul]
      rw [show D + 1 - (m + 1) = D - m by omega]
      have h2 : |G (D - m) a| ≤ M + (ε * M + τ) := by
        have := abs_add_le (G (D - m) a - ∑ j ∈ range (dims d), W d (a d) j * G (D + 1 - m) (Function.update a d j))
          (∑ j ∈ range (dims d), W d (a d) j * G (D + 1 - m) (Function.update a d j))
        rw [sub_add_cancel] at this
        linarith
      refine h2.trans ?_
      have hp1 : (1 : F) ≤ (1 + ε) ^ (m + 1) := one_le_pow₀ (by linarith)
      have : (1 + ε) ^ (m + 1) * (C + ((m + 1 : ℕ) : F) * τ) = (1 + ε) * M + (1 + ε) ^ (m + 1) * τ := by
        rw [hMd]; push_cast; ring
      rw [this]
      have := mul_le_mul_of_nonneg_right hp1 hτ
      linarith
  have hM2 : ∀ k, k ≤ D + 1 → ∀ a, InRange dims a → |G k a| ≤ 2 * (C + (D + 1) * τ) := by
    intro k hk a ha
    have := hM (D + 1 - k) (by omega) a ha
    rw [show D + 1 - (D + 1 - k) = k by omega] at this
    refine this.trans (mul_le_mul ((pow_le_pow_right₀ (by linarith) (by omega)).trans hp) ?_ (by positivity) (by norm_num))
    have : ((D + 1 - k : ℕ) : F) ≤ (D : F) + 1 := by exact_mod_cast (show D + 1 - k ≤ D + 1 by omega)
    have := mul_le_mul_of_nonneg_right this hτ
    linarith
  -- the intermediate values
  set B := 2 * (C + (D + 1) * τ) with hB
  let w : ℕ → Fin (D + 1) → ℕ → F := fun k d => if (d.rev : ℕ) < k then W d (I d) else fun J => if J = I d then 1 else 0
  have hw0 : ∀ k d J, J < dims d → 0 ≤ w k d J := by
    intro k d J hJ
    simp only [w]
    split
    · exact h0 d _ J (hI d) hJ
    · show (0 : F) ≤ if J = I d then 1 else 0
      split <;> norm_num
  have hw1 : ∀ k d, ∑ J ∈ range (dims d), w k d J = 1 := by
    intro k d
    simp only [w]
    split
    · exact h1 d _ (hI d)
    · rw [Finset.sum_ite_eq' (range (dims d)) (I d) fun _ => (1 : F), if_pos (mem_range.2 (hI d))]
  have hT : ∀ k, k ≤ D + 1 → |tensorVal dims (w k) (G k) - G 0 I| ≤ k * (ε * B + τ) := by
    intro k
    induction k with
    | zero =>
      intro _
      have e : w 0 = fun d J => if J = I d then (1 : F) else 0 := by
        funext d J; simp [w]
      rw [e, Template.tensor_delta hI, sub_self, abs_zero, Nat.cast_zero, zero_mul]
    | succ k ih =>
      intro hk
      have ih := ih (by omega)
      set d : Fin (D + 1) := (⟨k, by omega⟩ : Fin (D + 1)).rev with hd
      have hrev : (d.rev : ℕ) = k := by rw [hd, Fin.rev_rev]
      let Op : (Fin (D + 1) → ℕ) → F := fun a => ∑ j ∈ range (dims d), W d (a d) j * G (k + 1) (Function.update a d j)
      have e : tensorVal dims (w (k + 1)) (G (k + 1)) = tensorVal dims (w k) Op := by
        refine Template.tensor_step d (hI d) (fun e he => ?_) (fun J => ?_) (A := W d (I d)) ?_ fun a ha => ?_
        · have : (e.rev : ℕ) ≠ k := fun h => he (by rw [hd, ← Fin.rev_rev e]; congr 1; exact Fin.ext h)
          simp only [w]
          by_cases hlt : (e.rev : ℕ) < k
          · rw [if_pos hlt, if_pos (by omega)]
          · rw [if_neg hlt, if_neg (by omega)]
        · simp only [w]; rw [if_neg (by omega)]
        · simp only [w]; rw [if_pos (by omega)]
        · simp only [Op, Function.update_self, Function.update_idem, smul_eq_mul]
      have h2 : |tensorVal dims (w k) Op - tensorVal dims (w k) (G k)| ≤ ε * B + τ := by
        refine tensor_sup (hw0 k) (hw1 k) fun a ha => ?_
        have := hstep d B (by rw [hrev]; exact hM2 _ hk) a ha
        rw [hrev, abs_sub_comm] at this
        exact this
      rw [e]
      have := abs_add_le (tensorVal dims (w k) Op - tensorVal dims (w k) (G k)) (tensorVal dims (w k) (G k) - G 0 I)
      rw [sub_add_sub_cancel] at this
      push_cast
      linarith
  have := hT (D + 1) le_rfl
  have e : w (D + 1) = fun d => W d (I d) := by
    funext d J
    simp only [w]
    rw [if_pos (by omega)]
  rw [e] at this
  push_cast at this
  exact this

end Intp
