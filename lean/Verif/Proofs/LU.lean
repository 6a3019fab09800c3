import Mathlib.LinearAlgebra.Matrix.Block
import Mathlib.LinearAlgebra.Matrix.ToLinearEquiv
import Mathlib.LinearAlgebra.Matrix.Determinant.Basic
import Mathlib.Algebra.BigOperators.Intervals
import Mathlib.Tactic.LinearCombination
import Mathlib.Algebra.BigOperators.Fin

/-! # Mathematics of LU factorisation without pivoting (no model here) -/

namespace Intp

open Finset

variable {K V : Type} [Field K] [AddCommGroup V] [Module K V]

/-- One elimination step on an infinite array. -/
def luStep (k : ℕ) (A : ℕ → ℕ → K) : ℕ → ℕ → K := fun i j =>
  if k < i ∧ j = k then A i k / A k k
  else if k < i ∧ k < j then A i j - (A i k / A k k) * A k j else A i j

/-- Unit lower triangular part. -/
def lwP (C : ℕ → ℕ → K) (i m : ℕ) : K := if i = m then 1 else if m < i then C i m else 0

/-- Upper triangular part. -/
def upP (C : ℕ → ℕ → K) (m j : ℕ) : K := if m ≤ j then C m j else 0

/-- `C` is `A` after `k` elimination steps, on indices below `n`. -/
def LUInv (n : ℕ) (A : ℕ → ℕ → K) (k : ℕ) (C : ℕ → ℕ → K) : Prop :=
  ∀ i j, i < n → j < n → A i j = ∑ m ∈ range k, lwP C i m * upP C m j + if k ≤ i ∧ k ≤ j then C i j else 0

theorem LUInv.zero (n : ℕ) (A : ℕ → ℕ → K) : LUInv n A 0 A := by
  intro i j _ _; simp

theorem LUInv.congr {n k : ℕ} {A C C' : ℕ → ℕ → K} (hk : k ≤ n) (h : LUInv n A k C)
    (e : ∀ i j, i < n → j < n → C i j = C' i j) : LUInv n A k C' := by
  intro i j hi hj
  rw [h i j hi hj, e i j hi hj]
  congr 1
  apply Finset.sum_congr rfl
  intro m hm
  have := mem_range.1 hm
  unfold lwP upP
  rw [e i m hi (by omega), e m j (by omega) hj]

theorem LUInv.step {n k : ℕ} {A C : ℕ → ℕ → K} (h : LUInv n A k C)
    (hp : C k k ≠ 0 ∨ ∀ i, k < i → i < n → C i k = 0) : LUInv n A (k + 1) (luStep k C) := by
  intro i j hi hj
  rw [h i j hi hj, sum_range_succ]
  have hsum : ∑ m ∈ range k, lwP C i m * upP C m j = ∑ m ∈ range k, lwP (luStep k C) i m * upP (luStep k C) m j := by
    apply Finset.sum_congr rfl
    intro m hm
    have hm := mem_range.1 hm
    have e1 : luStep k C i m = C i m := by
      unfold luStep; rw [if_neg (by omega), if_neg (by omega)]
    have e2 : luStep k C m j = C m j := by
      unfold luStep; rw [if_neg (by omega), if_neg (by omega)]
    unfold lwP upP; rw [e1, e2]
  rw [← hsum, add_assoc]
  congr 1
  have hcancel : k < i → C i k / C k k * C k k = C i k := by
    intro hki
    rcases hp with hp | hp
    · field_simp
    · rw [hp i hki hi]; simp
  unfold lwP upP luStep
  rcases lt_trichotomy i k with hik | rfl | hik
  · rw [if_neg (by omega), if_neg (show i ≠ k by omega), if_neg (by omega), zero_mul, zero_add,
      if_neg (show ¬ (k + 1 ≤ i ∧ k + 1 ≤ j) by omega)]
  · simp
  · rcases lt_trichotomy j k with hjk | rfl | hjk
    · rw [if_neg (by omega), if_neg (show ¬ k ≤ j by omega), if_neg (show ¬ (k + 1 ≤ i ∧ k + 1 ≤ j) by omega)]; simp
    · have h1 : i ≠ j := by omega
      simp [h1, hik, hik.le, hcancel hik]
    · have h1 : i ≠ k := by omega
      have h2 : j ≠ k := by omega
      have h3 : k + 1 ≤ i := hik
      have h4 : k + 1 ≤ j := hjk
      simp [h1, h2, hik, hjk, hik.le, hjk.le, h3, h4]

/-- The leading `r × r` block. -/
def lead (A : ℕ → ℕ → K) (r : ℕ) : Matrix (Fin r) (Fin r) K := Matrix.of fun i j => A i j

theorem LUInv.det_lead {n k r : ℕ} {A C : ℕ → ℕ → K} (h : LUInv n A k C) (hr : r ≤ k + 1) (hrn : r ≤ n) :
    (lead A r).det = ∏ m ∈ range r, C m m := by
  have hfac : lead A r = (Matrix.of fun i j : Fin r => lwP C i j) * (Matrix.of fun i j : Fin r => upP C i j) := by
    ext i j
    rw [Matrix.mul_apply]
    simp only [lead, Matrix.of_apply]
    rw [Fin.sum_univ_eq_sum_range (fun m => lwP C i m * upP C m j) r]
    rw [h i j (by omega) (by omega)]
    have e1 : ∑ m ∈ range k, lwP C i m * upP C m j + (if k ≤ i.val ∧ k ≤ j.val then C i j else 0) =
        ∑ m ∈ range (k + 1), lwP C i m * upP C m j := by
      rw [sum_range_succ]
      congr 1
      have := i.isLt; have := j.isLt
      unfold lwP upP
      by_cases hik : i.val = k
      · by_cases hjk : k ≤ j.val
        · simp [hik, hjk]
        · simp [hjk]
      · rw [if_neg (by omega), if_neg hik, if_neg (by omega)]; simp
    rw [e1]
    symm
    apply Finset.sum_subset
    · intro m; simp only [mem_range]; omega
    · intro m _ hm
      rw [mem_range, not_lt] at hm
      have := i.isLt
      unfold lwP
      rw [if_neg (by omega), if_neg (by omega), zero_mul]
  rw [hfac, Matrix.det_mul, Matrix.det_of_isLowerTriangular, Matrix.det_of_isUpperTriangular]
  · simp only [Matrix.of_apply]
    rw [Fin.prod_univ_eq_prod_range (fun m => lwP C m m) r, Fin.prod_univ_eq_prod_range (fun m => upP C m m) r]
    simp [lwP, upP]
  · intro i j hij
    have : j < i := hij
    simp only [Matrix.of_apply, upP]
    rw [if_neg]; rw [not_le]; exact this
  · intro i j hij
    have hij : i < j := hij
    simp only [Matrix.of_apply, lwP]
    have : i.val < j.val := hij
    rw [if_neg (by omega), if_neg (by omega)]

/-- The completed factorisation. -/
theorem LUInv.final {n : ℕ} {A C : ℕ → ℕ → K} (hn : 0 < n) (h : LUInv n A (n - 1) C) :
    LUInv n A n C := by
  intro i j hi hj
  rw [h i j hi hj]
  conv_rhs => rw [show n = (n - 1) + 1 by omega, sum_range_succ]
  rw [if_neg (show ¬ (n - 1 + 1 ≤ i ∧ n - 1 + 1 ≤ j) by omega), add_zero]
  congr 1
  unfold lwP upP
  by_cases hin : i = n - 1
  · subst hin
    by_cases hjn : j = n - 1
    · subst hjn; simp
    · rw [if_neg (by omega), if_neg (show ¬ n - 1 ≤ j by omega)]; simp
  · rw [if_neg (by omega), if_neg hin, if_neg (by omega)]; simp

/-! ## substitution -/

/-- Forward substitution has processed columns below `j`. -/
def FwdInv (n : ℕ) (C : ℕ → ℕ → K) (b0 : ℕ → V) (j : ℕ) (b : ℕ → V) : Prop :=
  ∀ i < n, b0 i = b i + ∑ m ∈ range (min j i), C i m • b m

theorem FwdInv.zero (n : ℕ) (C : ℕ → ℕ → K) (b : ℕ → V) : FwdInv n C b 0 b := by intro i _; simp

theorem FwdInv.step {n j : ℕ} {C : ℕ → ℕ → K} {b0 b b' : ℕ → V} (h : FwdInv n C b0 j b) (hjn : j < n)
    (hb : ∀ i < n, b' i = if j < i then b i - C i j • b j else b i) : FwdInv n C b0 (j + 1) b' := by
  intro i hi
  rw [h i hi]
  by_cases hij : j < i
  · rw [hb i hi, if_pos hij, show min (j + 1) i = j + 1 by omega, show min j i = j by omega, sum_range_succ,
      hb j hjn, if_neg (lt_irrefl _)]
    have : ∑ m ∈ range j, C i m • b' m = ∑ m ∈ range j, C i m • b m := by
      apply Finset.sum_congr rfl
      intro m hm
      have := mem_range.1 hm
      rw [hb m (by omega), if_neg (by omega)]
    rw [this]; abel
  · rw [hb i hi, if_neg hij, show min (j + 1) i = i by omega, show min j i = i by omega]
    congr 1
    apply Finset.sum_congr rfl
    intro m hm
    have := mem_range.1 hm
    rw [hb m (by omega), if_neg (by omega)]

/-- Backward substitution has processed columns `≥ j`, whose pivots are nonzero. -/
def BwdInv (n : ℕ) (C : ℕ → ℕ → K) (y : ℕ → V) (j : ℕ) (b : ℕ → V) : Prop :=
  (∀ i < n, y i = (if i < j then b i else 0) + ∑ m ∈ Ico (max i j) n, C i m • b m) ∧
    ∀ r, j ≤ r → r < n → C r r ≠ 0

theorem BwdInv.zero (n : ℕ) (C : ℕ → ℕ → K) (b : ℕ → V) : BwdInv n C b n b := by
  refine ⟨?_, fun r h1 h2 => absurd h2 (by omega)⟩
  intro i hi; rw [if_pos hi, max_eq_right hi.le]; simp

theorem BwdInv.step {n j : ℕ} {C : ℕ → ℕ → K} {y b b' : ℕ → V} (h : BwdInv n C y (j + 1) b) (hjn : j < n)
    (hC : C j j ≠ 0)
    (hb : ∀ i < n, b' i = if i < j then b i - C i j • (C j j)⁻¹ • b j else if i = j then (C j j)⁻¹ • b j else b i) :
    BwdInv n C y j b' := by
  refine ⟨?_, fun r h1 h2 => ?_⟩
  rotate_left
  · rcases Nat.eq_or_lt_of_le h1 with rfl | h1
    · exact hC
    · exact h.2 r h1 h2
  replace h := h.1
  intro i hi
  rw [h i hi]
  have hcong : ∀ lo, j < lo → ∑ m ∈ Ico lo n, C i m • b' m = ∑ m ∈ Ico lo n, C i m • b m := by
    intro lo hlo
    apply Finset.sum_congr rfl
    intro m hm
    have := mem_Ico.1 hm
    rw [hb m (by omega), if_neg (by omega), if_neg (by omega)]
  rcases lt_trichotomy i j with hij | rfl | hij
  · rw [if_pos (by omega), if_pos hij, max_eq_right (by omega), max_eq_right (by omega),
      Finset.sum_eq_sum_Ico_succ_bot hjn, hcong _ (by omega), hb i hi, if_pos hij, hb j hjn, if_neg (lt_irrefl _),
      if_pos rfl]
    abel
  · rw [if_pos (by omega), if_neg (lt_irrefl _), max_eq_right (by omega), max_self,
      Finset.sum_eq_sum_Ico_succ_bot hjn, hcong _ (by omega), hb i hi, if_neg (lt_irrefl _), if_pos rfl, smul_smul,
      mul_inv_cancel₀ hC, one_smul, zero_add]
  · rw [if_neg (by omega), if_neg (by omega), max_eq_left (by omega), max_eq_left (by omega), hcong _ hij]

/-- Forward then backward substitution solves the system. -/
theorem lu_solves {n : ℕ} {A C : ℕ → ℕ → K} {b y x : ℕ → V} (h : LUInv n A n C) (hf : FwdInv n C b n y)
    (hb : BwdInv n C y 0 x) : ∀ i < n, ∑ j ∈ range n, A i j • x j = b i := by
  intro i hi
  have hU : ∀ m < n, y m = ∑ j ∈ range n, upP C m j • x j := by
    intro m hm
    rw [hb.1 m hm, if_neg (by omega), zero_add, max_eq_left (Nat.zero_le _)]
    apply Finset.sum_subset_zero_on_sdiff
    · intro a; simp only [mem_Ico, mem_range]; omega
    · intro a ha
      simp only [mem_sdiff, mem_range, mem_Ico] at ha
      unfold upP; rw [if_neg (by omega), zero_smul]
    · intro a ha
      have := mem_Ico.1 ha
      unfold upP; rw [if_pos (by omega)]
  have hL : b i = ∑ m ∈ range n, lwP C i m • y m := by
    rw [hf i hi, min_eq_right hi.le]
    rw [← Finset.sum_range_add_sum_Ico (fun m => lwP C i m • y m) hi.le, Finset.sum_eq_sum_Ico_succ_bot hi,
      add_comm]
    congr 1
    · apply Finset.sum_congr rfl
      intro m hm
      have := mem_range.1 hm
      unfold lwP; rw [if_neg (by omega), if_pos (by omega)]
    · rw [Finset.sum_eq_zero]
      · unfold lwP; simp
      · intro m hm
        have := mem_Ico.1 hm
        unfold lwP; rw [if_neg (by omega), if_neg (by omega), zero_smul]
  rw [hL]
  have : ∀ j ∈ range n, A i j • x j = ∑ m ∈ range n, (lwP C i m * upP C m j) • x j := by
    intro j hj
    rw [h i j hi (mem_range.1 hj), if_neg (by omega), add_zero, Finset.sum_smul]
  rw [Finset.sum_congr rfl this, Finset.sum_comm]
  apply Finset.sum_congr rfl
  intro m hm
  rw [hU m (mem_range.1 hm), Finset.smul_sum]
  exact Finset.sum_congr rfl fun j _ => by rw [mul_smul]

/-! ## regularity of leading blocks -/

theorem lead_det_ne_zero_of_diag_dom [LinearOrder K] [IsStrictOrderedRing K] {n : ℕ} {A : ℕ → ℕ → K}
    (h : ∀ i < n, ∑ j ∈ (range n).erase i, |A i j| < |A i i|) {r : ℕ} (hr : r ≤ n) : (lead A r).det ≠ 0 := by
  intro h0
  obtain ⟨v, hv, hAv⟩ := Matrix.exists_mulVec_eq_zero_iff.2 h0
  have hne : (univ : Finset (Fin r)).Nonempty := by
    by_contra hc
    rw [Finset.not_nonempty_iff_eq_empty] at hc
    apply hv; funext i
    exact absurd (mem_univ i) (by rw [hc]; simp)
  obtain ⟨i, _, hi⟩ := Finset.exists_max_image univ (fun i => |v i|) hne
  have hvi : 0 < |v i| := by
    rcases (abs_nonneg (v i)).eq_or_lt with h | h
    · exfalso; apply hv; funext j
      have := hi j (mem_univ j)
      rw [← h] at this
      exact abs_nonpos_iff.1 this
    · exact h
  have e : ∑ j : Fin r, A i j * v j = 0 := by
    have := congrFun hAv i
    simpa [Matrix.mulVec, dotProduct, lead] using this
  rw [← Finset.add_sum_erase _ _ (mem_univ i)] at e
  have e' : A i i * v i = -∑ j ∈ univ.erase i, A i j * v j := by linear_combination e
  have h1 : |A i i| * |v i| ≤ (∑ j ∈ univ.erase i, |A i j|) * |v i| := by
    rw [← abs_mul, e', abs_neg, Finset.sum_mul]
    refine (Finset.abs_sum_le_sum_abs _ _).trans (Finset.sum_le_sum fun j _ => ?_)
    rw [abs_mul]
    exact mul_le_mul_of_nonneg_left (hi j (mem_univ j)) (abs_nonneg _)
  have h2 : ∑ j ∈ univ.erase i, |A i (j : Fin r)| ≤ ∑ j ∈ (range n).erase i.val, |A i j| := by
    have : ∑ j ∈ univ.erase i, |A i (j : Fin r)| = ∑ j ∈ (univ.erase i).map Fin.valEmbedding, |A i j| := by
      rw [Finset.sum_map]; rfl
    rw [this]
    apply Finset.sum_le_sum_of_subset_of_nonneg
    · intro m hm
      rw [mem_map] at hm
      obtain ⟨j, hj, rfl⟩ := hm
      rw [mem_erase, mem_range]
      refine ⟨fun hji => Finset.ne_of_mem_erase hj (Fin.ext hji), ?_⟩
      have := j.isLt; simp; omega
    · intros; exact abs_nonneg _
  have h3 := h i (by omega)
  have h4 := le_of_mul_le_mul_right h1 hvi
  linarith

end Intp
