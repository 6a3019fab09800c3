import Verif.Proofs.SweepError
import Verif.Proofs.DominantAxis

/-!
# Tensor products whose weights and coefficients change a little
-/

namespace Intp

open Finset BSpline

variable {D : ℕ} {F : Type} [Field F] [LinearOrder F] [IsStrictOrderedRing F]

/-- Size of a tensor product. -/
theorem tensor_abs {dims : Fin D → ℕ} {w : Fin D → ℕ → F} {f : (Fin D → ℕ) → F} {C : F} (h : ∀ a, InRange dims a → |f a| ≤ C) :
    |tensorVal dims w f| ≤ (∏ d, ∑ J ∈ range (dims d), |w d J|) * C := by
  unfold tensorVal
  refine (abs_sum_le_sum_abs _ _).trans ?_
  rw [Finset.prod_univ_sum, sum_mul]
  refine sum_le_sum fun J hJ => ?_
  rw [smul_eq_mul, abs_mul, Finset.abs_prod]
  exact mul_le_mul_of_nonneg_left (h J fun d => mem_range.1 (Fintype.mem_piFinset.1 hJ d)) (prod_nonneg fun d _ => abs_nonneg _)

/-- Changing the weights of one axis. -/
theorem tensor_axis {dims : Fin D → ℕ} {w : Fin D → ℕ → F} {f : (Fin D → ℕ) → F} {C θ : F} {d : Fin D} {u v : ℕ → F}
    (h : ∀ a, InRange dims a → |f a| ≤ C) (hC : 0 ≤ C) (h1 : ∀ e, e ≠ d → ∑ J ∈ range (dims e), |w e J| = 1) (huv : ∑ J ∈ range (dims d), |u J - v J| ≤ θ) :
    |tensorVal dims (Function.update w d u) f - tensorVal dims (Function.update w d v) f| ≤ θ * C := by
  have e : tensorVal dims (Function.update w d u) f - tensorVal dims (Function.update w d v) f =
      tensorVal dims (Function.update w d fun J => u J - v J) f := by
    unfold tensorVal
    rw [← sum_sub_distrib]
    refine sum_congr rfl fun J _ => ?_
    have hp : ∀ z : ℕ → F, ∏ e, Function.update w d z e (J e) = z (J d) * ∏ e ∈ univ.erase d, w e (J e) := fun z => by
      rw [← Finset.mul_prod_erase _ _ (mem_univ d), Function.update_self]
      refine congrArg _ (prod_congr rfl fun e he => ?_)
      rw [Function.update_of_ne (Finset.ne_of_mem_erase he)]
    rw [hp, hp, hp, ← sub_smul, ← sub_mul]
  rw [e]
  refine (tensor_abs h).trans ?_
  rw [← Finset.mul_prod_erase _ _ (mem_univ d), Function.update_self, prod_eq_one fun e he => by
    rw [Function.update_of_ne (Finset.ne_of_mem_erase he)]
    exact h1 e (Finset.ne_of_mem_erase he), mul_one]
  exact mul_le_mul_of_nonneg_right huv hC

/-- Changing the weights of all axes. -/
theorem tensor_weights {dims : Fin D → ℕ} {u v : Fin D → ℕ → F} {f : (Fin D → ℕ) → F} {C θ : F} (h : ∀ a, InRange dims a → |f a| ≤ C) (hC : 0 ≤ C)
    (hu : ∀ d, ∑ J ∈ range (dims d), |u d J| = 1) (hv : ∀ d, ∑ J ∈ range (dims d), |v d J| = 1)
    (huv : ∀ d, ∑ J ∈ range (dims d), |u d J - v d J| ≤ θ) : |tensorVal dims u f - tensorVal dims v f| ≤ D * θ * C := by
  let w : ℕ → Fin D → ℕ → F := fun k d => if (d : ℕ) < k then u d else v d
  have key : ∀ k, k ≤ D → |tensorVal dims (w k) f - tensorVal dims v f| ≤ k * θ * C := by
    intro k
    induction k with
    | zero =>
      intro _
      have : w 0 = v := by funext d; simp [w]
      rw [this]; simp
    | succ k ih =>
      intro hk
      have ih := ih (by omega)
      set d : Fin D := ⟨k, by omega⟩
      have e1 : w (k + 1) = Function.update (w k) d (u d) := by
        funext e
        by_cases he : e = d
        · subst he; rw [Function.update_self]; simp only [w]; rw [if_pos (show (d : ℕ) < k + 1 from Nat.lt_succ_self k)]
        · rw [Function.update_of_ne he]
          have : (e : ℕ) ≠ k := fun h => he (Fin.ext h)
          simp only [w]
          by_cases hlt : (e : ℕ) < k
          · rw [if_pos hlt, if_pos (by omega)]
          · rw [if_neg hlt, if_neg (by omega)]
      have e2 : w k = Function.update (w k) d (v d) := by
        have : w k d = v d := by simp only [w]; rw [if_neg (show ¬ (d : ℕ) < k from lt_irrefl k)]
        rw [← this, Function.update_eq_self]
      have hstep : |tensorVal dims (w (k + 1)) f - tensorVal dims (w k) f| ≤ θ * C := by
        rw [e1]
        conv_lhs => rw [e2]
        rw [Function.update_idem]
        refine tensor_axis h hC (fun e _ => ?_) (huv d)
        simp only [w]
        split
        · exact hu e
        · exact hv e
      have := abs_add_le (tensorVal dims (w (k + 1)) f - tensorVal dims (w k) f) (tensorVal dims (w k) f - tensorVal dims v f)
      rw [sub_add_sub_cancel] at this
      push_cast
      linarith
  have := key D le_rfl
  have e : w D = u := by funext d; simp only [w]; rw [if_pos d.isLt]
  rwa [e] at this

/-- The rows `W` determine their coefficients: coefficients are at most `μ` times the largest of the values. -/
def RowsInv (n : ℕ) (W : ℕ → ℕ → F) (μ : F) : Prop :=
  ∀ (z : ℕ → F) (M : F), (∀ i, i < n → |∑ j ∈ range n, W i j * z j| ≤ M) → ∀ i, i < n → |z i| ≤ μ * M

/-- The same for tensor products. -/
theorem tensor_inv {dims : Fin D → ℕ} {W : Fin D → ℕ → ℕ → F} {μ : F} (hW : ∀ d, RowsInv (dims d) (W d) μ) {f : (Fin D → ℕ) → F} {M : F}
    (h : ∀ I, InRange dims I → |tensorVal dims (fun d => W d (I d)) f| ≤ M) {I : Fin D → ℕ} (hI : InRange dims I) : |f I| ≤ μ ^ D * M := by
  let w : ℕ → (Fin D → ℕ) → Fin D → ℕ → F := fun k a d => if (d : ℕ) < k then W d (a d) else fun J => if J = a d then 1 else 0
  have hupd : ∀ (a : Fin D → ℕ) (d : Fin D) j, InRange dims a → j < dims d → InRange dims (Function.update a d j) := by
    intro a d j ha hj e
    by_cases he : e = d
    · subst he; rw [Function.update_self]; exact hj
    · rw [Function.update_of_ne he]; exact ha e
  have key : ∀ m, m ≤ D → ∀ a, InRange dims a → |tensorVal dims (w (D - m) a) f| ≤ μ ^ m * M := by
    intro m
    induction m with
    | zero =>
      intro _ a ha
      have e : w (D - 0) a = fun d => W d (a d) := by funext d; simp only [w]; rw [if_pos (by have := d.isLt; omega)]
      rw [e, pow_zero, one_mul]
      exact h a ha
    | succ m ih =>
      intro hm a ha
      have ih := ih (by omega)
      obtain ⟨k, hk⟩ : ∃ k, D - m = k + 1 := ⟨D - m - 1, by omega⟩
      rw [hk] at ih
      rw [show D - (m + 1) = k by omega]
      set d : Fin D := ⟨k, by omega⟩ with hd
      have hline : ∀ i, i < dims d → ∑ j ∈ range (dims d), W d i j * tensorVal dims (w k (Function.update a d j)) f =
          tensorVal dims (w (k + 1) (Function.update a d i)) f := by
        intro i hi
        unfold tensorVal
        simp_rw [mul_sum]
        rw [sum_comm]
        refine sum_congr rfl fun J hJ => ?_
        have hJd : J d < dims d := mem_range.1 (Fintype.mem_piFinset.1 hJ d)
        have e1 : ∀ j, ∏ e, w k (Function.update a d j) e (J e) = (if J d = j then 1 else 0) * ∏ e ∈ univ.erase d, w k a e (J e) := by
          intro j
          rw [← Finset.mul_prod_erase _ _ (mem_univ d)]
          congr 1
          · simp only [w]; rw [if_neg (show ¬ (d : ℕ) < k from lt_irrefl k), Function.update_self]
          · refine prod_congr rfl fun e he => ?_
            simp only [w]
            rw [Function.update_of_ne (Finset.ne_of_mem_erase he)]
        have e2 : ∏ e, w (k + 1) (Function.update a d i) e (J e) = W d i (J d) * ∏ e ∈ univ.erase d, w k a e (J e) := by
          rw [← Finset.mul_prod_erase _ _ (mem_univ d)]
          congr 1
          · simp only [w]; rw [if_pos (show (d : ℕ) < k + 1 from Nat.lt_succ_self k), Function.update_self]
          · refine prod_congr rfl fun e he => ?_
            have hne := Finset.ne_of_mem_erase he
            have : (e : ℕ) ≠ k := fun h => hne (Fin.ext h)
            simp only [w]
            rw [Function.update_of_ne hne]
            by_cases hlt : (e : ℕ) < k
            · rw [if_pos hlt, if_pos (by omega)]
            · rw [if_neg hlt, if_neg (by omega)]
        rw [e2]
        simp_rw [e1]
        rw [Finset.sum_eq_single (J d)]
        · rw [if_pos rfl, one_mul, smul_eq_mul, smul_eq_mul, mul_assoc]
        · intro j _ hj
          rw [if_neg (Ne.symm hj), zero_mul, zero_smul, mul_zero]
        · intro hc; exact absurd (mem_range.2 hJd) hc
      have := hW d (fun j => tensorVal dims (w k (Function.update a d j)) f) (μ ^ m * M) (fun i hi => by
        rw [hline i hi]
        exact ih _ (hupd a d i ha hi)) (a d) (ha d)
      simp only [Function.update_eq_self] at this
      rw [pow_succ', mul_assoc]
      exact this
  have := key D le_rfl I hI
  rw [Nat.sub_self] at this
  have e : w 0 I = fun d J => if J = I d then (1 : F) else 0 := by funext d J; simp [w]
  rwa [e, Template.tensor_delta hI] at this

/-- Two tensor products with nearby weights, whose coefficients solve nearly the same equations. -/
theorem tensor_near {dims : Fin D → ℕ} {u v : Fin D → ℕ → F} {W : Fin D → ℕ → ℕ → F} {f g : (Fin D → ℕ) → F} {b : (Fin D → ℕ) → F} {C θ ε μ : F}
    (hC : ∀ a, InRange dims a → |f a| ≤ C) (hC0 : 0 ≤ C) (hu : ∀ d, (∀ J, J < dims d → 0 ≤ u d J) ∧ ∑ J ∈ range (dims d), u d J = 1)
    (hv : ∀ d, (∀ J, J < dims d → 0 ≤ v d J) ∧ ∑ J ∈ range (dims d), v d J = 1) (huv : ∀ d, ∑ J ∈ range (dims d), |u d J - v d J| ≤ θ)
    (hW : ∀ d, RowsInv (dims d) (W d) μ) (hf : ∀ I, InRange dims I → |tensorVal dims (fun d => W d (I d)) f - b I| ≤ ε)
    (hg : ∀ I, InRange dims I → tensorVal dims (fun d => W d (I d)) g = b I) : |tensorVal dims u f - tensorVal dims v g| ≤ D * θ * C + μ ^ D * ε := by
  have habs : ∀ w : ℕ → F, ∀ n, (∀ J, J < n → 0 ≤ w J) ∧ ∑ J ∈ range n, w J = 1 → ∑ J ∈ range n, |w J| = 1 := fun w n h => by
    rw [← h.2]
    exact sum_congr rfl fun J hJ => abs_of_nonneg (h.1 J (mem_range.1 hJ))
  have h1 := tensor_weights hC hC0 (fun d => habs _ _ (hu d)) (fun d => habs _ _ (hv d)) huv
  have h2 : |tensorVal dims v f - tensorVal dims v g| ≤ μ ^ D * ε := by
    refine tensor_sup (fun d => (hv d).1) (fun d => (hv d).2) fun a ha => ?_
    refine tensor_inv (f := fun a => f a - g a) hW (fun I hI => ?_) ha
    have e : tensorVal dims (fun d => W d (I d)) (fun a => f a - g a) = tensorVal dims (fun d => W d (I d)) f - b I := by
      rw [← hg I hI]
      unfold tensorVal
      rw [← sum_sub_distrib]
      exact sum_congr rfl fun J _ => smul_sub _ _ _
    rw [e]
    exact hf I hI
  have := abs_add_le (tensorVal dims u f - tensorVal dims v f) (tensorVal dims v f - tensorVal dims v g)
  rw [sub_add_sub_cancel] at this
  linarith

/-- `tensor_axis` for weights of any sign. -/
theorem tensor_axisD {dims : Fin D → ℕ} {w : Fin D → ℕ → F} {f : (Fin D → ℕ) → F} {C θ : F} {Λ : Fin D → F} {d : Fin D} {u v : ℕ → F}
    (h : ∀ a, InRange dims a → |f a| ≤ C) (hC : 0 ≤ C) (h1 : ∀ e, e ≠ d → ∑ J ∈ range (dims e), |w e J| ≤ Λ e)
    (huv : ∑ J ∈ range (dims d), |u J - v J| ≤ Λ d * θ) :
    |tensorVal dims (Function.update w d u) f - tensorVal dims (Function.update w d v) f| ≤ (∏ d, Λ d) * (θ * C) := by
  have e : tensorVal dims (Function.update w d u) f - tensorVal dims (Function.update w d v) f =
      tensorVal dims (Function.update w d fun J => u J - v J) f := by
    unfold tensorVal
    rw [← sum_sub_distrib]
    refine sum_congr rfl fun J _ => ?_
    have hp : ∀ z : ℕ → F, ∏ e, Function.update w d z e (J e) = z (J d) * ∏ e ∈ univ.erase d, w e (J e) := fun z => by
      rw [← Finset.mul_prod_erase _ _ (mem_univ d), Function.update_self]
      refine congrArg _ (prod_congr rfl fun e he => ?_)
      rw [Function.update_of_ne (Finset.ne_of_mem_erase he)]
    rw [hp, hp, hp, ← sub_smul, ← sub_mul]
  rw [e]
  refine (tensor_abs h).trans ?_
  rw [← Finset.mul_prod_erase _ _ (mem_univ d), Function.update_self, ← Finset.mul_prod_erase _ Λ (mem_univ d)]
  have h2 : ∏ e ∈ univ.erase d, ∑ J ∈ range (dims e), |Function.update w d (fun J => u J - v J) e J| ≤ ∏ e ∈ univ.erase d, Λ e :=
    prod_le_prod (fun e _ => sum_nonneg fun J _ => abs_nonneg _) fun e he => by
      rw [Function.update_of_ne (Finset.ne_of_mem_erase he)]
      exact h1 e (Finset.ne_of_mem_erase he)
  have h3 : 0 ≤ ∏ e ∈ univ.erase d, ∑ J ∈ range (dims e), |Function.update w d (fun J => u J - v J) e J| :=
    prod_nonneg fun e _ => sum_nonneg fun J _ => abs_nonneg _
  have h4 := mul_le_mul huv h2 h3 ((sum_nonneg fun J _ => abs_nonneg _).trans huv)
  calc _ ≤ Λ d * θ * (∏ e ∈ univ.erase d, Λ e) * C := mul_le_mul_of_nonneg_right h4 hC
    _ = _ := by ring

/-- `tensor_weights` for weights of any sign. -/
theorem tensor_weightsD {dims : Fin D → ℕ} {u v : Fin D → ℕ → F} {f : (Fin D → ℕ) → F} {C θ : F} {Λ : Fin D → F} (h : ∀ a, InRange dims a → |f a| ≤ C) (hC : 0 ≤ C)
    (hu : ∀ d, ∑ J ∈ range (dims d), |u d J| ≤ Λ d) (hv : ∀ d, ∑ J ∈ range (dims d), |v d J| ≤ Λ d)
    (huv : ∀ d, ∑ J ∈ range (dims d), |u d J - v d J| ≤ Λ d * θ) : |tensorVal dims u f - tensorVal dims v f| ≤ (∏ d, Λ d) * (D * θ * C) := by
  let w : ℕ → Fin D → ℕ → F := fun k d => if (d : ℕ) < k then u d else v d
  have key : ∀ k, k ≤ D → |tensorVal dims (w k) f - tensorVal dims v f| ≤ (∏ d, Λ d) * (k * θ * C) := by
    intro k
    induction k with
    | zero =>
      intro _
      have : w 0 = v := by funext d; simp [w]
      rw [this]; simp
    | succ k ih =>
      intro hk
      have ih := ih (by omega)
      set d : Fin D := ⟨k, by omega⟩
      have e1 : w (k + 1) = Function.update (w k) d (u d) := by
        funext e
        by_cases he : e = d
        · subst he; rw [Function.update_self]; simp only [w]; rw [if_pos (show (d : ℕ) < k + 1 from Nat.lt_succ_self k)]
        · rw [Function.update_of_ne he]
          have : (e : ℕ) ≠ k := fun h => he (Fin.ext h)
          simp only [w]
          by_cases hlt : (e : ℕ) < k
          · rw [if_pos hlt, if_pos (by omega)]
          · rw [if_neg hlt, if_neg (by omega)]
      have e2 : w k = Function.update (w k) d (v d) := by
        have : w k d = v d := by simp only [w]; rw [if_neg (show ¬ (d : ℕ) < k from lt_irrefl k)]
        rw [← this, Function.update_eq_self]
      have hstep : |tensorVal dims (w (k + 1)) f - tensorVal dims (w k) f| ≤ (∏ d, Λ d) * (θ * C) := by
        rw [e1]
        conv_lhs => rw [e2]
        rw [Function.update_idem]
        refine tensor_axisD h hC (fun e _ => ?_) (huv d)
        simp only [w]
        split
        · exact hu e
        · exact hv e
      have := abs_add_le (tensorVal dims (w (k + 1)) f - tensorVal dims (w k) f) (tensorVal dims (w k) f - tensorVal dims v f)
      rw [sub_add_sub_cancel] at this
      push_cast
      linarith
  have := key D le_rfl
  have e : w D = u := by funext d; simp only [w]; rw [if_pos d.isLt]
  rwa [e] at this

/-- `tensor_near` for weights of any sign. -/
theorem tensor_nearD {dims : Fin D → ℕ} {u v : Fin D → ℕ → F} {W : Fin D → ℕ → ℕ → F} {f g : (Fin D → ℕ) → F} {b : (Fin D → ℕ) → F} {C θ ε μ : F} {Λ : Fin D → F}
    (hC : ∀ a, InRange dims a → |f a| ≤ C) (hC0 : 0 ≤ C) (hu : ∀ d, ∑ J ∈ range (dims d), |u d J| ≤ Λ d)
    (hv : ∀ d, ∑ J ∈ range (dims d), |v d J| ≤ Λ d) (huv : ∀ d, ∑ J ∈ range (dims d), |u d J - v d J| ≤ Λ d * θ) (hε : 0 ≤ μ ^ D * ε)
    (hW : ∀ d, RowsInv (dims d) (W d) μ) (hf : ∀ I, InRange dims I → |tensorVal dims (fun d => W d (I d)) f - b I| ≤ ε)
    (hg : ∀ I, InRange dims I → tensorVal dims (fun d => W d (I d)) g = b I) : |tensorVal dims u f - tensorVal dims v g| ≤ (∏ d, Λ d) * (D * θ * C + μ ^ D * ε) := by
  have h1 := tensor_weightsD hC hC0 hu hv huv
  have hsub : ∀ w : Fin D → ℕ → F, tensorVal dims w f - tensorVal dims w g = tensorVal dims w fun a => f a - g a := fun w => by
    unfold tensorVal
    rw [← sum_sub_distrib]
    exact sum_congr rfl fun J _ => (smul_sub _ _ _).symm
  have h2 : |tensorVal dims v f - tensorVal dims v g| ≤ (∏ d, Λ d) * (μ ^ D * ε) := by
    rw [hsub]
    refine (tensor_abs (C := μ ^ D * ε) fun a ha => ?_).trans (mul_le_mul_of_nonneg_right (prod_le_prod (fun d _ => sum_nonneg fun J _ => abs_nonneg _) fun d _ => hv d) hε)
    refine tensor_inv (f := fun a => f a - g a) hW (fun I hI => ?_) ha
    rw [← hsub, hg I hI]
    exact hf I hI
  have := abs_add_le (tensorVal dims u f - tensorVal dims v f) (tensorVal dims v f - tensorVal dims v g)
  rw [sub_add_sub_cancel] at this
  linarith

/-- Dominant rows determine their coefficients. -/
theorem RowsDom.inv {n : ℕ} {W : ℕ → ℕ → ℚ} {w : ℕ → ℚ} {ω δ κ : ℚ} (h : RowsDom n W w ω δ κ) (hκ : 0 ≤ κ) : RowsInv n W (1 / δ) := by
  intro z M hM i hi
  have hδ : 0 < δ := (one_div_pos.2 (pow_pos two_pos 40)).trans_le h.δ40
  have hw : ∀ j, 0 < w j := fun j => ((one_div_pos.2 (pow_pos two_pos 100)).trans_le h.ω0).trans_le (h.w0 j)
  obtain ⟨m, hm, hmax⟩ := exists_max_image (range n) (fun j => |z j| / w j) ⟨i, mem_range.2 hi⟩
  have hm' := mem_range.1 hm
  set R := |z m| / w m with hR
  have hR0 : 0 ≤ R := div_nonneg (abs_nonneg _) (hw m).le
  have hz : ∀ j, j < n → |z j| ≤ R * w j := fun j hj => (div_le_iff₀ (hw j)).1 (hmax j (mem_range.2 hj))
  have hzm : |z m| = R * w m := by rw [hR, div_mul_cancel₀ _ (hw m).ne']
  have hmar := h.mar m hm'
  have h1 := hM m hm'
  have hκ' : 0 ≤ κ / 2 ^ 53 := div_nonneg hκ (by positivity)
  have hsum : ∑ j ∈ range n, W m j * z j = W m m * z m + ∑ j ∈ (range n).erase m, W m j * z j := (add_sum_erase _ _ hm).symm
  have hoff : |∑ j ∈ (range n).erase m, W m j * z j| ≤ R * ∑ j ∈ (range n).erase m, |W m j| * w j := by
    refine (abs_sum_le_sum_abs _ _).trans ?_
    rw [mul_sum]
    refine sum_le_sum fun j hj => ?_
    rw [abs_mul]
    have := mul_le_mul_of_nonneg_left (hz j (mem_range.1 (mem_erase.1 hj).2)) (abs_nonneg (W m j))
    linarith
  have hRM : R * δ ≤ M := by
    have h2 := abs_sub_abs_le_abs_sub (W m m * z m) (-∑ j ∈ (range n).erase m, W m j * z j)
    rw [sub_neg_eq_add, ← hsum, abs_neg, abs_mul, hzm] at h2
    have h3 : R * δ ≤ R * (|W m m| * w m - ∑ j ∈ (range n).erase m, |W m j| * w j) := by
      refine mul_le_mul_of_nonneg_left ?_ hR0
      refine le_trans ?_ (le_trans hmar (le_of_eq ?_))
      · linarith
      · unfold marg
        rw [← range_eq_Ico, ← add_sum_erase _ _ hm, if_pos rfl, sub_eq_add_neg, ← sum_neg_distrib]
        refine congrArg _ (sum_congr rfl fun j hj => ?_)
        rw [if_neg (mem_erase.1 hj).1, neg_mul]
    rw [mul_sub] at h3
    have : |W m m| * (R * w m) = R * (|W m m| * w m) := by ring
    linarith
  have h4 := hz i hi
  have h5 : R * w i ≤ R := mul_le_of_le_one_right hR0 (h.w1 i)
  rw [one_div, inv_mul_eq_div, le_div_iff₀ hδ]
  have h6 := mul_le_mul_of_nonneg_right (h4.trans h5) hδ.le
  linarith

end Intp
