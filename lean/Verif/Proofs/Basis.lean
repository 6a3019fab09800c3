import Verif.Spec.CoxDeBoor
import Mathlib.Algebra.Polynomial.Derivative
import Mathlib.Algebra.Polynomial.Degree.Lemmas
import Mathlib.Algebra.Polynomial.Module.Basic
import Mathlib.Algebra.BigOperators.Group.Finset.Basic
import Mathlib.Algebra.Order.BigOperators.Ring.Finset
import Mathlib.Tactic.Ring
import Mathlib.Tactic.Linarith
import Mathlib.Tactic.LinearCombination
import Mathlib.Tactic.FieldSimp

/-!
# B-spline algebra: pieces of basis functions

Everything is stated for one segment `s`; `Nondeg t s p` says that the knots a degree `p` piece divides by differ.
-/

namespace Intp

open Finset Polynomial

variable {K V : Type} [Field K] [LinearOrder K] [AddCommGroup V] [Module K V]

/-- Knots left of the segment are below knots right of it, within reach `p`. -/
def Nondeg (t : ℕ → K) (s p : ℕ) : Prop := ∀ i j, s < i + p → i ≤ s → s < j → j ≤ s + p → t i < t j

theorem Nondeg.mono {t : ℕ → K} {s p q : ℕ} (h : Nondeg t s p) (hq : q ≤ p) : Nondeg t s q :=
  fun i j h1 h2 h3 h4 => h i j (by omega) h2 h3 (by omega)

theorem piece_zero_of_lt (t : ℕ → K) (s : ℕ) (x : K) : ∀ (k i : ℕ), s < i → piece t s k i x = 0
  | 0, i, h => by simp [piece]; omega
  | k + 1, i, h => by
    simp [piece, piece_zero_of_lt t s x k i h, piece_zero_of_lt t s x k (i + 1) (by omega)]

theorem piece_zero_of_gt (t : ℕ → K) (s : ℕ) (x : K) : ∀ (k i : ℕ), i + k < s → piece t s k i x = 0
  | 0, i, h => by simp [piece]; omega
  | k + 1, i, h => by
    simp [piece, piece_zero_of_gt t s x k i (by omega), piece_zero_of_gt t s x k (i + 1) (by omega)]

theorem piece_support {t : ℕ → K} {s : ℕ} {x : K} {k i : ℕ} (h : piece t s k i x ≠ 0) : i ≤ s ∧ s ≤ i + k := by
  constructor
  · by_contra hc; exact h (piece_zero_of_lt t s x k i (by omega))
  · by_contra hc; exact h (piece_zero_of_gt t s x k i (by omega))

/-- On the segment, the Cox–de Boor function is its piece. -/
theorem cox_eq_piece {t : ℕ → K} {N : ℕ} (hm : ∀ i j, i ≤ j → j < N → t i ≤ t j) {s : ℕ} {x : K}
    (hs : s + 1 < N) (h1 : t s ≤ x) (h2 : x < t (s + 1)) :
    ∀ (k i : ℕ), i + k + 1 < N → cox t k i x = piece t s k i x
  | 0, i, hi => by
    simp only [cox, piece]
    by_cases h : i = s
    · subst h; simp [h1, h2]
    · rw [if_neg h, if_neg]
      rintro ⟨h3, h4⟩
      rcases Nat.lt_or_gt_of_ne h with h5 | h5
      · exact absurd (lt_of_le_of_lt (le_trans (hm (i + 1) s h5 (by omega)) h1) h4) (lt_irrefl _)
      · exact absurd (lt_of_le_of_lt h3 (lt_of_lt_of_le h2 (hm (s + 1) i h5 (by omega)))) (lt_irrefl _)
  | k + 1, i, hi => by
    simp only [cox, piece]
    rw [cox_eq_piece hm hs h1 h2 k i (by omega), cox_eq_piece hm hs h1 h2 k (i + 1) (by omega)]

/-! ## Pieces as polynomials -/

/-- `piece` as a polynomial. -/
noncomputable def pieceP (t : ℕ → K) (s : ℕ) : ℕ → ℕ → K[X]
  | 0, i => if i = s then 1 else 0
  | k + 1, i =>
    C (t (i + k + 1) - t i)⁻¹ * (X - C (t i)) * pieceP t s k i +
    C (t (i + k + 2) - t (i + 1))⁻¹ * (C (t (i + k + 2)) - X) * pieceP t s k (i + 1)

theorem pieceP_eval (t : ℕ → K) (s : ℕ) (x : K) : ∀ (k i : ℕ), (pieceP t s k i).eval x = piece t s k i x
  | 0, i => by simp only [pieceP, piece]; split <;> simp
  | k + 1, i => by
    simp only [pieceP, piece, eval_add, eval_mul, eval_C, eval_sub, eval_X, pieceP_eval t s x k]
    ring

theorem pieceP_zero_of_lt (t : ℕ → K) (s : ℕ) : ∀ (k i : ℕ), s < i → pieceP t s k i = 0
  | 0, i, h => by simp [pieceP]; omega
  | k + 1, i, h => by
    simp [pieceP, pieceP_zero_of_lt t s k i h, pieceP_zero_of_lt t s k (i + 1) (by omega)]

theorem pieceP_zero_of_gt (t : ℕ → K) (s : ℕ) : ∀ (k i : ℕ), i + k < s → pieceP t s k i = 0
  | 0, i, h => by simp [pieceP]; omega
  | k + 1, i, h => by
    simp [pieceP, pieceP_zero_of_gt t s k i (by omega), pieceP_zero_of_gt t s k (i + 1) (by omega)]

theorem pieceP_natDegree_le (t : ℕ → K) (s : ℕ) : ∀ (k i : ℕ), (pieceP t s k i).natDegree ≤ k
  | 0, i => by simp only [pieceP]; split <;> simp
  | k + 1, i => by
    have h1 := pieceP_natDegree_le t s k i
    have h2 := pieceP_natDegree_le t s k (i + 1)
    simp only [pieceP]
    refine (natDegree_add_le _ _).trans (max_le ?_ ?_)
    · refine natDegree_mul_le.trans ?_
      have : (C (t (i + k + 1) - t i)⁻¹ * (X - C (t i)) : K[X]).natDegree ≤ 1 :=
        (natDegree_C_mul_le _ _).trans (natDegree_X_sub_C_le _)
      omega
    · refine natDegree_mul_le.trans ?_
      have : (C (t (i + k + 2) - t (i + 1))⁻¹ * (C (t (i + k + 2)) - X) : K[X]).natDegree ≤ 1 := by
        refine (natDegree_C_mul_le _ _).trans ((natDegree_sub_le _ _).trans ?_)
        simp
      omega

/-- Derivative of a piece. -/
theorem pieceP_derivative {t : ℕ → K} {s : ℕ} : ∀ (k i : ℕ), Nondeg t s (k + 1) →
    derivative (pieceP t s (k + 1) i) =
      C ((k + 1 : ℕ) : K) * (C (t (i + k + 1) - t i)⁻¹ * pieceP t s k i
        - C (t (i + k + 2) - t (i + 1))⁻¹ * pieceP t s k (i + 1))
  | 0, i, _ => by
    have h0 : ∀ i, derivative (pieceP t s 0 i) = 0 := by intro i; simp only [pieceP]; split <;> simp
    have e0 : pieceP t s (0 + 1) i =
      C (t (i + 0 + 1) - t i)⁻¹ * (X - C (t i)) * pieceP t s 0 i +
      C (t (i + 0 + 2) - t (i + 1))⁻¹ * (C (t (i + 0 + 2)) - X) * pieceP t s 0 (i + 1) := rfl
    rw [e0]
    simp only [derivative_add, derivative_mul, derivative_C, derivative_sub, derivative_X, h0]
    simp
    ring
  | k + 1, i, hn => by
    have ih0 := pieceP_derivative k i (hn.mono (by omega))
    have ih1 := pieceP_derivative k (i + 1) (hn.mono (by omega))
    have key : pieceP t s k (i + 1) = 0 ∨
        ((t (i + (k + 1) + 1) - t i)⁻¹ * (t (i + (k + 1) + 1) - t i) = 1 ∧
         (t (i + (k + 1) + 2) - t (i + 1))⁻¹ * (t (i + (k + 1) + 2) - t (i + 1)) = 1) := by
      by_cases h : i + 1 ≤ s ∧ s ≤ i + 1 + k
      · right
        have h1 := hn i (i + (k + 1) + 1) (by omega) (by omega) (by omega) (by omega)
        have h2 := hn (i + 1) (i + (k + 1) + 2) (by omega) (by omega) (by omega) (by omega)
        exact ⟨inv_mul_cancel₀ (sub_ne_zero.2 h1.ne'), inv_mul_cancel₀ (sub_ne_zero.2 h2.ne')⟩
      · left
        rw [not_and_or] at h
        rcases h with h | h
        · exact pieceP_zero_of_lt t s k _ (by omega)
        · exact pieceP_zero_of_gt t s k _ (by omega)
    have key2 : C ((t (i + (k + 1) + 1) - t i)⁻¹ * (t (i + (k + 1) + 1) - t i)) * pieceP t s k (i + 1) =
        C ((t (i + (k + 1) + 2) - t (i + 1))⁻¹ * (t (i + (k + 1) + 2) - t (i + 1))) * pieceP t s k (i + 1) := by
      rcases key with h | ⟨h1, h2⟩
      · rw [h]; simp
      · rw [h1, h2]
    have e1 : pieceP t s (k + 1) i = C (t (i + k + 1) - t i)⁻¹ * (X - C (t i)) * pieceP t s k i +
      C (t (i + k + 2) - t (i + 1))⁻¹ * (C (t (i + k + 2)) - X) * pieceP t s k (i + 1) := rfl
    have e2 : pieceP t s (k + 1) (i + 1) = C (t (i + 1 + k + 1) - t (i + 1))⁻¹ * (X - C (t (i + 1))) * pieceP t s k (i + 1) +
      C (t (i + 1 + k + 2) - t (i + 1 + 1))⁻¹ * (C (t (i + 1 + k + 2)) - X) * pieceP t s k (i + 1 + 1) := rfl
    have e0 : pieceP t s (k + 1 + 1) i =
      C (t (i + (k + 1) + 1) - t i)⁻¹ * (X - C (t i)) * pieceP t s (k + 1) i +
      C (t (i + (k + 1) + 2) - t (i + 1))⁻¹ * (C (t (i + (k + 1) + 2)) - X) * pieceP t s (k + 1) (i + 1) := rfl
    rw [e0]
    simp only [derivative_add, derivative_mul, derivative_C, derivative_sub, derivative_X, ih0, ih1]
    rw [e1, e2]
    have i1 : i + 1 + k + 1 = i + k + 2 := by omega
    have i2 : i + 1 + k + 2 = i + k + 3 := by omega
    have i3 : i + (k + 1) + 1 = i + k + 2 := by omega
    have i4 : i + (k + 1) + 2 = i + k + 3 := by omega
    have i5 : i + 1 + 1 = i + 2 := by omega
    rw [i3, i4] at key2
    simp only [i1, i2, i3, i4, i5]
    simp only [C_mul, C_sub] at key2
    simp only [C_sub, Nat.cast_add, Nat.cast_one, C_add, C_1]
    set P := pieceP t s k (i + 1)
    linear_combination (-(C (k : K)) - 1) * C (t (i + k + 2) - t (i + 1))⁻¹ * key2

/-- Iterated derivative of a piece, one step. -/
theorem pieceP_iterate_derivative {t : ℕ → K} {s : ℕ} (k i m : ℕ) (hn : Nondeg t s (k + 1)) (x : K) :
    (derivative^[m + 1] (pieceP t s (k + 1) i)).eval x =
      ((k + 1 : ℕ) : K) * ((t (i + k + 1) - t i)⁻¹ * (derivative^[m] (pieceP t s k i)).eval x
        - (t (i + k + 2) - t (i + 1))⁻¹ * (derivative^[m] (pieceP t s k (i + 1))).eval x) := by
  rw [Function.iterate_succ_apply, pieceP_derivative k i hn]
  rw [iterate_derivative_C_mul, iterate_derivative_sub, iterate_derivative_C_mul, iterate_derivative_C_mul]
  simp

/-! ## Sums against control points -/

/-- Control points of the derivative (degree `k`). -/
def dctrl (t : ℕ → K) (k : ℕ) (c : ℕ → V) (i : ℕ) : V :=
  ((k : K) * (t (i + k) - t i)⁻¹) • (c i - c (i - 1))

/-- One differentiation step of a sum over pieces. -/
theorem sum_deriv_step {t : ℕ → K} {s : ℕ} (k m : ℕ) (hk : k + 1 ≤ s) (hn : Nondeg t s (k + 1)) (x : K) (c : ℕ → V) :
    ∑ i ∈ range (s + 1), (derivative^[m + 1] (pieceP t s (k + 1) i)).eval x • c i =
      ∑ i ∈ range (s + 1), (derivative^[m] (pieceP t s k i)).eval x • dctrl t (k + 1) c i := by
  set f : ℕ → K := fun i => (derivative^[m] (pieceP t s k i)).eval x with hf
  set a : ℕ → K := fun i => (t (i + k + 1) - t i)⁻¹ with ha
  have e : ∀ i, (derivative^[m + 1] (pieceP t s (k + 1) i)).eval x = ((k + 1 : ℕ) : K) * (a i * f i - a (i + 1) * f (i + 1)) := by
    intro i; rw [pieceP_iterate_derivative k i m hn x]
    simp only [ha, hf]
    rw [show i + 1 + k + 1 = i + k + 2 by omega]
  have f0 : f 0 = 0 := by simp only [hf]; rw [pieceP_zero_of_gt t s k 0 (by omega)]; simp
  have fs : f (s + 1) = 0 := by simp only [hf]; rw [pieceP_zero_of_lt t s k _ (by omega)]; simp
  have h1 : ∑ i ∈ range (s + 1), (((k + 1 : ℕ) : K) * (a i * f i - a (i + 1) * f (i + 1))) • c i =
      ∑ i ∈ range (s + 1), (((k + 1 : ℕ) : K) * (a i * f i)) • c i
        - ∑ i ∈ range (s + 1), (((k + 1 : ℕ) : K) * (a (i + 1) * f (i + 1))) • c i := by
    rw [← sum_sub_distrib]
    refine sum_congr rfl fun i _ => ?_
    rw [← sub_smul, mul_sub]
  have h2 : ∑ i ∈ range (s + 1), (((k + 1 : ℕ) : K) * (a (i + 1) * f (i + 1))) • c i =
      ∑ i ∈ range (s + 1), (((k + 1 : ℕ) : K) * (a i * f i)) • c (i - 1) := by
    rw [sum_range_succ, fs, sum_range_succ' (fun i => (((k + 1 : ℕ) : K) * (a i * f i)) • c (i - 1)), f0]
    simp
  simp only [e]
  rw [h1, h2, ← sum_sub_distrib]
  refine sum_congr rfl fun i _ => ?_
  rw [← smul_sub, dctrl, smul_smul]
  congr 1
  simp only [ha]
  rw [show i + (k + 1) = i + k + 1 by omega]
  ring

/-- Control points of the `m`-th derivative of a degree `k` spline (lists degrees `k, k-1, …`). -/
def dctrlIter (t : ℕ → K) : ℕ → ℕ → (ℕ → V) → ℕ → V
  | 0, _, c => c
  | m + 1, k, c => dctrlIter t m (k - 1) (dctrl t k c)

theorem sum_deriv_iter {t : ℕ → K} {s : ℕ} (x : K) : ∀ (m k : ℕ) (c : ℕ → V), m ≤ k → k ≤ s → Nondeg t s k →
    ∑ i ∈ range (s + 1), (derivative^[m] (pieceP t s k i)).eval x • c i =
      ∑ i ∈ range (s + 1), piece t s (k - m) i x • dctrlIter t m k c i
  | 0, k, c, _, _, _ => by simp [dctrlIter, pieceP_eval]
  | m + 1, 0, c, h, _, _ => by omega
  | m + 1, k + 1, c, h, hs, hn => by
    rw [sum_deriv_step k m hs hn x c, sum_deriv_iter x m k _ (by omega) (by omega) (hn.mono (by omega))]
    simp [dctrlIter]

/-- A degree `k` basis sum raised from degree `k - 1` (one de Boor step). -/
theorem sum_piece_succ {t : ℕ → K} {s : ℕ} (k : ℕ) (hk : k + 1 ≤ s) (x : K) (c : ℕ → V) :
    ∑ i ∈ range (s + 1), piece t s (k + 1) i x • c i =
      ∑ i ∈ range (s + 1), piece t s k i x •
        (((x - t i) / (t (i + k + 1) - t i)) • c i + ((t (i + k + 1) - x) / (t (i + k + 1) - t i)) • c (i - 1)) := by
  set f : ℕ → K := fun i => piece t s k i x with hf
  have f0 : f 0 = 0 := piece_zero_of_gt t s x k 0 (by omega)
  have fs : f (s + 1) = 0 := piece_zero_of_lt t s x k _ (by omega)
  set w : ℕ → K := fun i => (t (i + k + 1) - x) / (t (i + k + 1) - t i) with hw
  have h1 : ∑ i ∈ range (s + 1), piece t s (k + 1) i x • c i =
      ∑ i ∈ range (s + 1), ((x - t i) / (t (i + k + 1) - t i) * f i) • c i +
      ∑ i ∈ range (s + 1), (w (i + 1) * f (i + 1)) • c i := by
    rw [← sum_add_distrib]
    refine sum_congr rfl fun i _ => ?_
    rw [← add_smul]
    congr 1
    simp only [piece, hf, hw]
    rw [show i + 1 + k + 1 = i + k + 2 by omega]
  have h2 : ∑ i ∈ range (s + 1), (w (i + 1) * f (i + 1)) • c i =
      ∑ i ∈ range (s + 1), (w i * f i) • c (i - 1) := by
    rw [sum_range_succ, fs, sum_range_succ' (fun i => (w i * f i) • c (i - 1)), f0]
    simp
  rw [h1, h2, ← sum_add_distrib]
  refine sum_congr rfl fun i _ => ?_
  rw [smul_add, smul_smul, smul_smul, mul_comm, mul_comm (w i)]

/-- Partition of unity. -/
theorem sum_piece_eq_one {t : ℕ → K} {s : ℕ} (x : K) : ∀ (k : ℕ), k ≤ s → Nondeg t s k →
    ∑ i ∈ range (s + 1), piece t s k i x = 1
  | 0, _, _ => by
    simp only [piece]
    rw [Finset.sum_ite_eq' (range (s + 1)) s]
    simp
  | k + 1, hk, hn => by
    have h := sum_piece_succ k hk x (V := K) (t := t) (s := s) (fun _ => 1)
    simp only [smul_eq_mul, mul_one] at h
    rw [h, ← sum_piece_eq_one x k (by omega) (hn.mono (by omega))]
    refine sum_congr rfl fun i _ => ?_
    by_cases h0 : piece t s k i x = 0
    · rw [h0, zero_mul]
    · obtain ⟨h1, h2⟩ := piece_support h0
      have := hn i (i + k + 1) (by omega) (by omega) (by omega) (by omega)
      have h3 : t (i + k + 1) - t i ≠ 0 := sub_ne_zero.2 this.ne'
      rw [← add_div, show x - t i + (t (i + k + 1) - x) = t (i + k + 1) - t i by ring, div_self h3, mul_one]

/-- Non-negativity on the closed segment. -/
theorem piece_nonneg [IsStrictOrderedRing K] {t : ℕ → K} {s : ℕ} {x : K} {p : ℕ}
    (hl : ∀ i, s < i + p → i ≤ s → t i ≤ x) (hr : ∀ j, s < j → j ≤ s + p → x ≤ t j) :
    ∀ (k i : ℕ), k ≤ p → 0 ≤ piece t s k i x
  | 0, i, _ => by simp only [piece]; split <;> simp
  | k + 1, i, hk => by
    simp only [piece]
    have h1 := piece_nonneg hl hr k i (by omega)
    have h2 := piece_nonneg hl hr k (i + 1) (by omega)
    refine add_nonneg ?_ ?_
    · by_cases h0 : piece t s k i x = 0
      · rw [h0, mul_zero]
      · obtain ⟨h3, h4⟩ := piece_support h0
        have ha := hl i (by omega) h3
        have hb := hr (i + k + 1) (by omega) (by omega)
        exact mul_nonneg (div_nonneg (by linarith) (by linarith)) h1
    · by_cases h0 : piece t s k (i + 1) x = 0
      · rw [h0, mul_zero]
      · obtain ⟨h3, h4⟩ := piece_support h0
        have ha := hl (i + 1) (by omega) h3
        have hb := hr (i + k + 2) (by omega) (by omega)
        exact mul_nonneg (div_nonneg (by linarith) (by linarith)) h2

/-- Sums over the `order + 1` local indices and over all indices up to the segment agree. -/
theorem sum_local {f : ℕ → V} {s p : ℕ} (hp : p ≤ s) (hf : ∀ i, i + p < s → f i = 0) :
    ∑ j ∈ range (p + 1), f (s - p + j) = ∑ i ∈ range (s + 1), f i := by
  have h := sum_range_add f (s - p) (p + 1)
  rw [show s - p + (p + 1) = s + 1 by omega] at h
  rw [h, sum_eq_zero (s := range (s - p)), zero_add]
  intro i hi
  exact hf i (by have := mem_range.1 hi; omega)

/-- Sums over all indices up to the segment and over all indices below `n` agree. -/
theorem sum_upto {f : ℕ → V} {s n : ℕ} (hn : s < n) (hf : ∀ i, s < i → f i = 0) :
    ∑ i ∈ range (s + 1), f i = ∑ i ∈ range n, f i := by
  refine sum_subset (fun i hi => ?_) (fun i _ hi => hf i ?_)
  · simp only [mem_range] at hi ⊢; omega
  · simpa using hi

end Intp
