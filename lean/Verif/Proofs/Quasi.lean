import Verif.Proofs.Marsden

/-!
# Coefficients of polynomials in the B-spline basis

Coefficient `i` of a polynomial of degree at most the order depends only on its Taylor coefficients anywhere, with bounds in terms of the distance of the knots
`i + 1, …, i + order` from there.
-/

namespace Intp

open Finset BSpline Polynomial

section
variable {K : Type} [Field K] [LinearOrder K] [IsStrictOrderedRing K]

/-- Coefficient `i` of the polynomial `P` in the B-spline basis of degree `p`. -/
noncomputable def bcoef (t : ℕ → K) (p i : ℕ) (P : K[X]) : K := ∑ e ∈ range (p + 1), P.coeff e * monoCoef t p e i

theorem bcoef_add (t : ℕ → K) (p i : ℕ) (P Q : K[X]) : bcoef t p i (P + Q) = bcoef t p i P + bcoef t p i Q := by
  unfold bcoef
  rw [← sum_add_distrib]
  exact sum_congr rfl fun e _ => by rw [coeff_add, add_mul]

theorem bcoef_sub (t : ℕ → K) (p i : ℕ) (P Q : K[X]) : bcoef t p i (P - Q) = bcoef t p i P - bcoef t p i Q := by
  unfold bcoef
  rw [← sum_sub_distrib]
  exact sum_congr rfl fun e _ => by rw [coeff_sub, sub_mul]

theorem bcoef_smul (t : ℕ → K) (p i : ℕ) (a : K) (P : K[X]) : bcoef t p i (C a * P) = a * bcoef t p i P := by
  unfold bcoef
  rw [mul_sum]
  exact sum_congr rfl fun e _ => by rw [coeff_C_mul, mul_assoc]

theorem bcoef_sum {ι : Type} (t : ℕ → K) (p i : ℕ) (s : Finset ι) (P : ι → K[X]) : bcoef t p i (∑ k ∈ s, P k) = ∑ k ∈ s, bcoef t p i (P k) := by
  unfold bcoef
  rw [sum_comm]
  exact sum_congr rfl fun e _ => by rw [finset_sum_coeff, sum_mul]

/-- Polynomials are reproduced. -/
theorem sum_bcoef {t : ℕ → K} {s p : ℕ} (hp : p ≤ s) (hn : Nondeg t s p) {P : K[X]} (hP : P.natDegree ≤ p) (x : K) :
    ∑ i ∈ range (s + 1), piece t s p i x * bcoef t p i P = P.eval x := by
  have hinf : Infinite K := inferInstance
  unfold bcoef
  simp_rw [mul_sum]
  rw [sum_comm, eval_eq_sum_range' (show P.natDegree < p + 1 by omega)]
  refine sum_congr rfl fun e he => ?_
  have := congrArg (eval x) (sum_monoCoef hp hn (e := e) (by have := mem_range.1 he; omega))
  rw [eval_finsetSum, eval_pow, eval_X] at this
  rw [← this, mul_sum]
  refine sum_congr rfl fun i _ => ?_
  rw [eval_mul, eval_C, pieceP_eval]
  ring

/-- Coefficients of `(x - z) ^ p`. -/
theorem bcoef_pow (t : ℕ → K) (p i : ℕ) (z : K) : bcoef t p i ((X - C z) ^ p) = ∏ r ∈ range p, (t (i + 1 + r) - z) := by
  set Q : K[X] := ∏ r ∈ range p, ((X : K[X]) - C (t (i + 1 + r))) with hQ
  have hdeg : Q.natDegree < p + 1 := by
    rw [hQ, natDegree_prod_of_monic _ _ fun r _ => monic_X_sub_C _]
    simp
  have e1 : ∏ r ∈ range p, (t (i + 1 + r) - z) = (-1) ^ p * Q.eval z := by
    rw [hQ, eval_prod]
    have : ((-1 : K) ^ p) = ∏ _r ∈ range p, (-1 : K) := by rw [prod_const, card_range]
    rw [this, ← prod_mul_distrib]
    refine prod_congr rfl fun r _ => ?_
    rw [eval_sub, eval_X, eval_C]; ring
  rw [e1, eval_eq_sum_range' hdeg, mul_sum, ← sum_range_reflect]
  unfold bcoef monoCoef
  rw [← hQ]
  refine sum_congr rfl fun e he => ?_
  have hep : e ≤ p := by have := mem_range.1 he; omega
  have hc : (p.choose e : K) ≠ 0 := by exact_mod_cast (Nat.choose_pos hep).ne'
  rw [sub_eq_add_neg, ← C_neg, coeff_X_add_C_pow, show p + 1 - 1 - e = p - e by omega]
  have h1 : ((-1 : K) ^ e) * (-1) ^ e = 1 := by rw [← mul_pow]; simp
  have h2 : ((-1 : K) ^ p) = (-1) ^ (p - e) * (-1) ^ e := by rw [← pow_add]; congr 1; omega
  have h3 : ((-1 : K) ^ e) ≠ 0 := pow_ne_zero _ (by simp)
  rw [neg_pow z, h2]
  field_simp
  rw [pow_two, h1, mul_one]

/-- Coefficients of products of linear factors. -/
theorem prod_coeff_le {a : ℕ → K} {ρ : K} : ∀ {p : ℕ}, (∀ r, r < p → |a r| ≤ ρ) → ∀ k,
    |(∏ r ∈ range p, ((X : K[X]) + C (a r))).coeff k| ≤ ((X + C ρ) ^ p).coeff k
  | 0, _, k => by
    rw [range_zero, prod_empty, pow_zero, coeff_one]
    split <;> simp
  | p + 1, h, k => by
    have ih := prod_coeff_le (p := p) (fun r hr => h r (by omega))
    have hp := h p (by omega)
    have hρ : 0 ≤ ρ := (abs_nonneg _).trans hp
    rw [prod_range_succ, pow_succ]
    have hmul : ∀ {A B : K} , |A| ≤ B → |A * a p| ≤ B * ρ := fun {A B} hA => by
      rw [abs_mul]
      exact mul_le_mul hA hp (abs_nonneg _) ((abs_nonneg _).trans hA)
    cases k with
    | zero =>
      rw [mul_add, mul_add, coeff_add, coeff_add, coeff_mul_X_zero, coeff_mul_X_zero, coeff_mul_C, coeff_mul_C, zero_add, zero_add]
      exact hmul (ih 0)
    | succ k =>
      rw [mul_add, mul_add, coeff_add, coeff_add, coeff_mul_X, coeff_mul_X, coeff_mul_C, coeff_mul_C]
      exact (abs_add_le _ _).trans (add_le_add (ih k) (hmul (ih (k + 1))))

/-- Coefficients of `(x - τ) ^ e` from the differences of the knots and `τ`. -/
theorem bcoef_coeff (t : ℕ → K) {p i : ℕ} {τ : K} {e : ℕ} (he : e ≤ p) :
    (p.choose e : K) * bcoef t p i ((X - C τ) ^ e) = (∏ r ∈ range p, ((X : K[X]) + C (t (i + 1 + r) - τ))).coeff (p - e) := by
  have hinf : Infinite K := inferInstance
  have key : ∑ k ∈ range (p + 1), C ((p.choose k : K) * bcoef t p i ((X - C τ) ^ k)) * X ^ (p - k) = ∏ r ∈ range p, ((X : K[X]) + C (t (i + 1 + r) - τ)) := by
    refine Polynomial.funext fun u => ?_
    have e1 := bcoef_pow t p i (τ - u)
    have e2 : ((X : K[X]) - C (τ - u)) ^ p = ∑ k ∈ range (p + 1), C ((p.choose k : K) * u ^ (p - k)) * (X - C τ) ^ k := by
      rw [show (X : K[X]) - C (τ - u) = (X - C τ) + C u by rw [C_sub]; ring, add_pow]
      refine sum_congr rfl fun k _ => ?_
      rw [C_mul, C_pow, map_natCast]; ring
    rw [e2, bcoef_sum] at e1
    rw [eval_finsetSum, eval_prod]
    have e3 : ∏ r ∈ range p, eval u ((X : K[X]) + C (t (i + 1 + r) - τ)) = ∏ r ∈ range p, (t (i + 1 + r) - (τ - u)) := by
      refine prod_congr rfl fun r _ => ?_
      rw [eval_add, eval_X, eval_C]; ring
    rw [e3, ← e1]
    refine sum_congr rfl fun k _ => ?_
    rw [bcoef_smul, eval_mul, eval_C, eval_pow, eval_X]; ring
  have hco := congrArg (fun P : K[X] => P.coeff (p - e)) key
  simp only [finset_sum_coeff, coeff_C_mul, coeff_X_pow] at hco
  rw [sum_eq_single e] at hco
  · rw [if_pos rfl, mul_one] at hco
    exact hco
  · intro k hk hne
    rw [if_neg (by have := mem_range.1 hk; omega), mul_zero]
  · intro hc
    exact absurd (mem_range.2 (by omega)) hc

/-- Coefficients of `(x - τ) ^ e`. -/
theorem bcoef_bound {t : ℕ → K} {p i : ℕ} {τ ρ : K} (h : ∀ r, r < p → |t (i + 1 + r) - τ| ≤ ρ) {e : ℕ} (he : e ≤ p) :
    |bcoef t p i ((X - C τ) ^ e)| ≤ ρ ^ e := by
  have hb := prod_coeff_le (a := fun r => t (i + 1 + r) - τ) h (p - e)
  rw [← bcoef_coeff t he, coeff_X_add_C_pow, show p - (p - e) = e by omega, Nat.choose_symm he, abs_mul, mul_comm] at hb
  have hc : (0 : K) < p.choose e := by exact_mod_cast Nat.choose_pos he
  rw [abs_of_pos hc] at hb
  exact le_of_mul_le_mul_right hb hc

end

end Intp
