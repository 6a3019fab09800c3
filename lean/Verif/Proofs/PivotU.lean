import Verif.Proofs.PivotA
import Mathlib.Data.ZMod.Basic
import Mathlib.Order.Interval.Finset.Basic
import Mathlib.Data.Int.Interval
import Mathlib.Algebra.BigOperators.Finprod
import Mathlib.Algebra.BigOperators.Field
import Mathlib.Algebra.Polynomial.Derivative
import Mathlib.LinearAlgebra.Matrix.ToLinearEquiv

/-!
# Uniform periodic dimensions never meet a zero pivot

With `u y (m) = (y (m-1) + y (m+1)) / 2` on the grid of half steps, the values of the B-splines of degree `k` are the coefficients of `p_k(u)`,
where `p_k = X p_{k-1} + (1 - X²) p_{k-1}' / k`.  The coefficients of `p_k` are non-negative, which makes the circulant matrix of the dimension
positive definite.
-/

namespace Intp

open Finset Polynomial

variable {K : Type} [Field K] [LinearOrder K] [IsStrictOrderedRing K] [FloorRing K]

/-- Weights of the `j`-th power of the averaging operator. -/
def avgW : ℕ → ℤ → K
  | 0, m => if m = 0 then 1 else 0
  | j + 1, m => (avgW j (m + 1) + avgW j (m - 1)) / 2

theorem avgW_support : ∀ (j : ℕ) (m : ℤ), (j : ℤ) < |m| → avgW (K := K) j m = 0
  | 0, m, h => if_neg (by rintro rfl; simp at h)
  | j + 1, m, h => by
    push_cast at h
    rw [avgW, avgW_support j (m + 1) (by rw [lt_abs] at h ⊢; omega), avgW_support j (m - 1) (by rw [lt_abs] at h ⊢; omega)]; simp

theorem avgW_neg : ∀ (j : ℕ) (m : ℤ), avgW (K := K) j (-m) = avgW j m
  | 0, m => by simp [avgW]
  | j + 1, m => by
    rw [avgW, avgW, ← avgW_neg j (m + 1), ← avgW_neg j (m - 1), show -(m + 1) = -m - 1 by ring, show -(m - 1) = -m + 1 by ring, add_comm]

/-- Commutator identity, in the form needed for the recursion of the B-spline values. -/
theorem avgW_diff : ∀ (j : ℕ) (m : ℤ), (m : K) * (avgW j (m + 1) - avgW j (m - 1)) / 2 =
    -((j : K) + 1) * avgW (j + 1) m + (j : K) * avgW (j - 1) m
  | 0, m => by
    simp only [avgW, Nat.cast_zero, zero_mul, add_zero, zero_add]
    by_cases h1 : m + 1 = 0
    · obtain rfl : m = -1 := by omega
      norm_num
    · by_cases h2 : m - 1 = 0
      · obtain rfl : m = 1 := by omega
        norm_num
      · rw [if_neg h1, if_neg h2]; simp
  | j + 1, m => by
    have a := avgW_diff j (m + 1)
    have b := avgW_diff j (m - 1)
    push_cast at a b ⊢
    simp only [show m + 1 - 1 = m by ring, show m - 1 + 1 = m by ring, show m + 1 + 1 = m + 2 by ring, show m - 1 - 1 = m - 2 by ring] at a b
    have e2 : avgW (K := K) (j + 2) m = (avgW (j + 1) (m + 1) + avgW (j + 1) (m - 1)) / 2 := rfl
    have e1 : avgW (K := K) (j + 1) (m + 1) = (avgW j (m + 2) + avgW j m) / 2 := by
      show (avgW j (m + 1 + 1) + avgW j (m + 1 - 1)) / 2 = _
      rw [show m + 1 - 1 = m by ring, show m + 1 + 1 = m + 2 by ring]
    have e0 : avgW (K := K) (j + 1) (m - 1) = (avgW j m + avgW j (m - 2)) / 2 := by
      show (avgW j (m - 1 + 1) + avgW j (m - 1 - 1)) / 2 = _
      rw [show m - 1 + 1 = m by ring, show m - 1 - 1 = m - 2 by ring]
    have e3 : (j : K) * avgW j m = (j : K) * ((avgW (j - 1) (m + 1) + avgW (j - 1) (m - 1)) / 2) := by
      cases j with
      | zero => simp
      | succ j => rfl
    show (m : K) * (avgW (j + 1) (m + 1) - avgW (j + 1) (m - 1)) / 2 = -((j : K) + 1 + 1) * avgW (j + 2) m + ((j : K) + 1) * avgW j m
    rw [e1] at a e2 ⊢
    rw [e0] at b e2 ⊢
    rw [e2]
    linear_combination (1 / 2) * a + (1 / 2) * b - e3

/-- `p(u)` as a sequence of weights. -/
noncomputable def evW (p : K[X]) (m : ℤ) : K := p.sum fun j c => c * avgW j m

theorem evW_add (p q : K[X]) (m : ℤ) : evW (p + q) m = evW p m + evW q m :=
  sum_add_index p q _ (fun _ => zero_mul _) fun _ _ _ => add_mul _ _ _

theorem evW_monomial (j : ℕ) (c : K) (m : ℤ) : evW (monomial j c) m = c * avgW j m := sum_monomial_index _ _ (zero_mul _)

/-- Recursion of the polynomials. -/
noncomputable def stepP (k : ℕ) (p : K[X]) : K[X] := X * p + C ((k : K)⁻¹) * ((1 - X ^ 2) * derivative p)

theorem stepP_add (k : ℕ) (p q : K[X]) : stepP k (p + q) = stepP k p + stepP k q := by
  unfold stepP; rw [derivative_add]; ring

theorem stepP_monomial (k j : ℕ) (c : K) : stepP k (monomial j c) = monomial (j + 1) (c - (k : K)⁻¹ * (j * c)) + monomial (j - 1) ((k : K)⁻¹ * (j * c)) := by
  unfold stepP
  rw [derivative_monomial, sub_mul, one_mul, mul_sub, C_mul_monomial, X_mul_monomial, ← monomial_one_right_eq_X_pow, monomial_mul_monomial,
    C_mul_monomial, one_mul]
  cases j with
  | zero => simp
  | succ j =>
    rw [Nat.add_sub_cancel, show 2 + j = j + 1 + 1 by omega, mul_comm c, monomial_sub]
    ring

/-- The recursion of B-spline values on the half-step grid. -/
def stepW (k : ℕ) (f : ℤ → K) (m : ℤ) : K := (((k : K) + 1 + m) * f (m + 1) + ((k : K) + 1 - m) * f (m - 1)) / (2 * k)

theorem evW_stepP {k : ℕ} (hk : 0 < k) (p : K[X]) (m : ℤ) : evW (stepP k p) m = stepW k (evW p) m := by
  have hk' : (k : K) ≠ 0 := by exact_mod_cast hk.ne'
  induction p using Polynomial.induction_on' with
  | add p q hp hq =>
    rw [stepP_add, evW_add, hp, hq]
    unfold stepW
    rw [evW_add, evW_add]
    field_simp
    ring
  | monomial j c =>
    rw [stepP_monomial, evW_add, evW_monomial, evW_monomial]
    unfold stepW
    rw [evW_monomial, evW_monomial]
    have h := avgW_diff (K := K) j m
    have h2 : avgW (K := K) (j + 1) m = (avgW j (m + 1) + avgW j (m - 1)) / 2 := rfl
    field_simp
    rw [h2] at h ⊢
    linear_combination (-2 * c) * h

/-- The polynomials of degree-`k` B-splines; `e` is the degree at which the recursion starts from `1`. -/
noncomputable def symP (e : ℕ) : ℕ → K[X]
  | 0 => 1
  | k + 1 => stepP (e + k + 1) (symP e k)

theorem symP_coeff (e k j : ℕ) : (symP (K := K) e (k + 1)).coeff j =
    (if j = 0 then 0 else (1 - ((e + k + 1 : ℕ) : K)⁻¹ * (j - 1)) * (symP e k).coeff (j - 1)) + ((e + k + 1 : ℕ) : K)⁻¹ * ((j + 1) * (symP e k).coeff (j + 1)) := by
  rw [symP, stepP, coeff_add, coeff_C_mul, sub_mul, one_mul, coeff_sub, coeff_derivative]
  rcases j with _ | _ | j
  · simp [mul_comm]
  · rw [show X ^ 2 * derivative (symP (K := K) e k) = X * (X * derivative (symP e k)) by ring]
    simp [coeff_X_mul, mul_comm]
  · rw [show j + 1 + 1 = j + 2 from rfl, coeff_X_pow_mul, coeff_derivative, show j + 2 = (j + 1) + 1 from rfl, coeff_X_mul]
    simp only [Nat.add_sub_cancel]
    rw [if_neg (by omega)]
    push_cast
    ring

theorem symP_spec (e : ℕ) : ∀ k : ℕ, (∀ j, 0 ≤ (symP (K := K) e k).coeff j) ∧ (∀ j, k < j → (symP (K := K) e k).coeff j = 0) ∧
    (∀ j, (j + k) % 2 = 1 → (symP (K := K) e k).coeff j = 0) ∧ 0 < (symP (K := K) e k).coeff (k % 2)
  | 0 => by
    refine ⟨fun j => ?_, fun j hj => ?_, fun j hj => ?_, ?_⟩
    · rw [symP, coeff_one]; split <;> simp
    · rw [symP, coeff_one, if_neg (by omega)]
    · rw [symP, coeff_one, if_neg (by omega)]
    · simp [symP]
  | k + 1 => by
    obtain ⟨h1, h2, h3, h4⟩ := symP_spec e k
    have hk : (0 : K) < ((e + k + 1 : ℕ) : K) := by exact_mod_cast Nat.succ_pos _
    have hki := inv_pos.2 hk
    have hp : ∀ j : ℕ, 0 ≤ (if j = 0 then 0 else (1 - ((e + k + 1 : ℕ) : K)⁻¹ * ((j : K) - 1)) * (symP e k).coeff (j - 1)) := by
      intro j
      split
      · exact le_rfl
      · rename_i hj
        by_cases hjk : j ≤ k + 1
        · refine mul_nonneg ?_ (h1 _)
          rw [sub_nonneg, inv_mul_le_one₀ hk]
          have : (j : K) ≤ (k : K) + 1 := by exact_mod_cast hjk
          have he : (0 : K) ≤ (e : K) := Nat.cast_nonneg _
          push_cast
          linarith
        · rw [h2 _ (by omega), mul_zero]
    have hq : ∀ j : ℕ, 0 ≤ ((e + k + 1 : ℕ) : K)⁻¹ * (((j : K) + 1) * (symP e k).coeff (j + 1)) := fun j =>
      mul_nonneg hki.le (mul_nonneg (by positivity) (h1 _))
    refine ⟨fun j => ?_, fun j hj => ?_, fun j hj => ?_, ?_⟩
    · rw [symP_coeff]; exact add_nonneg (hp j) (hq j)
    · rw [symP_coeff, if_neg (by omega), h2 (j - 1) (by omega), h2 (j + 1) (by omega)]; simp
    · rw [symP_coeff, h3 (j + 1) (by omega)]
      by_cases hj0 : j = 0
      · rw [if_pos hj0]; simp
      · rw [if_neg hj0, h3 (j - 1) (by omega)]; simp
    · rw [symP_coeff]
      rcases Nat.mod_two_eq_zero_or_one k with hk2 | hk2
      · rw [show (k + 1) % 2 = 1 by omega, if_neg (by omega)]
        rw [hk2] at h4
        refine add_pos_of_pos_of_nonneg ?_ (hq 1)
        simpa using h4
      · rw [show (k + 1) % 2 = 0 by omega, if_pos rfl]
        rw [hk2] at h4
        simp only [Nat.cast_zero, zero_add, one_mul]
        exact mul_pos hki h4

/-! ## the averaging operator on a cycle -/

section

variable {M : ℕ} [NeZero M]

/-- Averaging of the two neighbours. -/
def avgOp (y : ZMod M → K) (z : ZMod M) : K := (y (z + 1) + y (z - 1)) / 2

theorem avgOp_adj (y w : ZMod M → K) : ∑ z, y z * avgOp w z = ∑ z, avgOp y z * w z := by
  have h1 : ∑ z, y z * w (z + 1) = ∑ z, y (z - 1) * w z := by
    rw [← Equiv.sum_comp (Equiv.addRight (1 : ZMod M)) fun z => y (z - 1) * w z]
    simp
  have h2 : ∑ z, y z * w (z - 1) = ∑ z, y (z + 1) * w z := by
    rw [← Equiv.sum_comp (Equiv.addRight (1 : ZMod M)) fun z => y z * w (z - 1)]
    simp
  have e1 : ∑ z, y z * avgOp w z = (∑ z, y z * w (z + 1) + ∑ z, y z * w (z - 1)) / 2 := by
    rw [← sum_add_distrib, sum_div]
    exact sum_congr rfl fun z _ => by unfold avgOp; ring
  have e2 : ∑ z, avgOp y z * w z = (∑ z, y (z + 1) * w z + ∑ z, y (z - 1) * w z) / 2 := by
    rw [← sum_add_distrib, sum_div]
    exact sum_congr rfl fun z _ => by unfold avgOp; ring
  rw [e1, e2, h1, h2, add_comm]

theorem avgOp_adj_iter (y w : ZMod M → K) : ∀ j : ℕ, ∑ z, y z * avgOp^[j] w z = ∑ z, avgOp^[j] y z * w z
  | 0 => rfl
  | j + 1 => by
    rw [Function.iterate_succ_apply', avgOp_adj, avgOp_adj_iter (avgOp y) w j, ← Function.iterate_succ_apply]

theorem avgOp_even_nonneg (y : ZMod M → K) (j : ℕ) : 0 ≤ ∑ z, y z * avgOp^[2 * j] y z := by
  rw [show 2 * j = j + j by omega, Function.iterate_add_apply, avgOp_adj_iter]
  exact sum_nonneg fun z _ => mul_self_nonneg _

theorem sum_Icc_shift {F : ℤ → K} {H : ℤ} (hF : ∀ m, H ≤ |m| → F m = 0) :
    ∑ m ∈ Icc (-H) H, F (m - 1) = ∑ m ∈ Icc (-H) H, F m ∧ ∑ m ∈ Icc (-H) H, F (m + 1) = ∑ m ∈ Icc (-H) H, F m := by
  have h0 : ∑ᶠ m, F m = ∑ m ∈ Icc (-H) H, F m := finsum_eq_sum_of_support_subset _ fun m hm => by
    rw [coe_Icc, Set.mem_Icc, ← abs_le]
    by_contra hc
    exact hm (hF m (by omega))
  have h1 : ∑ᶠ m, F (m - 1) = ∑ m ∈ Icc (-H) H, F (m - 1) := finsum_eq_sum_of_support_subset _ fun m hm => by
    rw [coe_Icc, Set.mem_Icc]
    by_contra hc
    refine hm (hF _ ?_)
    rw [le_abs]; omega
  have h2 : ∑ᶠ m, F (m + 1) = ∑ m ∈ Icc (-H) H, F (m + 1) := finsum_eq_sum_of_support_subset _ fun m hm => by
    rw [coe_Icc, Set.mem_Icc]
    by_contra hc
    refine hm (hF _ ?_)
    rw [le_abs]; omega
  exact ⟨by rw [← h1, ← h0]; exact finsum_comp_equiv (Equiv.subRight (1 : ℤ)) (f := F),
    by rw [← h2, ← h0]; exact finsum_comp_equiv (Equiv.addRight (1 : ℤ)) (f := F)⟩

theorem avgOp_iter (y : ZMod M → K) (H : ℕ) : ∀ (j : ℕ) (z : ZMod M), j ≤ H →
    avgOp^[j] y z = ∑ m ∈ Icc (-(H : ℤ)) H, avgW j m * y (z + m)
  | 0, z, _ => by
    rw [sum_eq_single 0]
    · simp [avgW]
    · intro m _ hm; simp [avgW, hm]
    · intro h; exact absurd (mem_Icc.2 ⟨by omega, by omega⟩) h
  | j + 1, z, hj => by
    rw [Function.iterate_succ_apply', show avgOp (avgOp^[j] y) z = (avgOp^[j] y (z + 1) + avgOp^[j] y (z - 1)) / 2 from rfl]
    rw [avgOp_iter y H j (z + 1) (by omega), avgOp_iter y H j (z - 1) (by omega)]
    have s1 := (sum_Icc_shift (F := fun m => avgW j m * y (z + 1 + m)) (H := H) fun m hm => by
      rw [avgW_support j m (by omega), zero_mul]).1
    have s2 := (sum_Icc_shift (F := fun m => avgW j m * y (z - 1 + m)) (H := H) fun m hm => by
      rw [avgW_support j m (by omega), zero_mul]).2
    rw [← s1, ← s2, ← sum_add_distrib, sum_div]
    refine sum_congr rfl fun m _ => ?_
    rw [avgW]
    push_cast
    rw [show z + 1 + ((m : ZMod M) - 1) = z + m by ring, show z - 1 + ((m : ZMod M) + 1) = z + m by ring]
    ring

/-- The operator `p(u)`. -/
theorem evW_conv (p : K[X]) (y : ZMod M → K) {H : ℕ} (hp : p.natDegree ≤ H) (z : ZMod M) :
    ∑ m ∈ Icc (-(H : ℤ)) H, evW p m * y (z + m) = ∑ j ∈ range (H + 1), p.coeff j * avgOp^[j] y z := by
  have e : ∀ m, evW p m = ∑ j ∈ range (H + 1), p.coeff j * avgW j m := fun m =>
    sum_over_range' p (f := fun j c => c * avgW j m) (fun _ => zero_mul _) (H + 1) (by omega)
  simp only [e, sum_mul]
  rw [sum_comm]
  refine sum_congr rfl fun j hj => ?_
  rw [avgOp_iter y H j z (by have := mem_range.1 hj; omega), mul_sum]
  exact sum_congr rfl fun m _ => by ring

/-- Positive definiteness. -/
theorem evW_pos (e h : ℕ) (y : ZMod M → K) :
    (symP (K := K) e (2 * h)).coeff 0 * ∑ z, y z * y z ≤ ∑ z, y z * ∑ j ∈ range (2 * h + 1), (symP (K := K) e (2 * h)).coeff j * avgOp^[j] y z := by
  obtain ⟨h1, -, h3, -⟩ := symP_spec (K := K) e (2 * h)
  have e1 : ∑ z, y z * ∑ j ∈ range (2 * h + 1), (symP (K := K) e (2 * h)).coeff j * avgOp^[j] y z =
      ∑ j ∈ range (2 * h + 1), (symP (K := K) e (2 * h)).coeff j * ∑ z, y z * avgOp^[j] y z := by
    simp only [mul_sum]
    rw [sum_comm]
    exact sum_congr rfl fun j _ => sum_congr rfl fun z _ => by ring
  rw [e1]
  refine le_trans (le_of_eq ?_) (single_le_sum (f := fun j => (symP (K := K) e (2 * h)).coeff j * ∑ z, y z * avgOp^[j] y z) (fun j _ => ?_)
    (mem_range.2 (Nat.succ_pos _)))
  · rfl
  · rcases Nat.mod_two_eq_zero_or_one j with hj | hj
    · refine mul_nonneg (h1 j) ?_
      rw [show j = 2 * (j / 2) by omega]
      exact avgOp_even_nonneg y _
    · rw [h3 j (by omega), zero_mul]

end

/-! ## values of uniform B-splines -/

theorem evW_neg (p : K[X]) (m : ℤ) : evW p (-m) = evW p m := by unfold evW; simp only [avgW_neg]

theorem evW_support {p : K[X]} {d : ℕ} (hp : p.natDegree ≤ d) {m : ℤ} (hm : (d : ℤ) < |m|) : evW p m = 0 := by
  unfold evW
  refine sum_eq_zero fun j hj => ?_
  have := le_natDegree_of_mem_supp j hj
  show p.coeff j * avgW j m = 0
  rw [avgW_support j m (by omega), mul_zero]

theorem symP_natDegree (e k : ℕ) : (symP (K := K) e k).natDegree ≤ k :=
  natDegree_le_iff_coeff_eq_zero.2 fun j hj => (symP_spec e k).2.1 j hj

theorem evW_one (m : ℤ) : evW (1 : K[X]) m = if m = 0 then 1 else 0 := by
  rw [← monomial_zero_one, evW_monomial, one_mul]; rfl

omit [LinearOrder K] [IsStrictOrderedRing K] [FloorRing K] in
theorem piece_congr_le {t u : ℕ → K} {s B : ℕ} (h : ∀ l, l ≤ B → t l = u l) (x : K) : ∀ k i : ℕ, i + k + 1 ≤ B + 1 →
    (i + k + 1 ≤ B ∨ k = 0) → piece t s k i x = piece u s k i x
  | 0, i, _, _ => rfl
  | k + 1, i, h1, h2 => by
    rw [piece, piece, piece_congr_le h x k i (by omega) (by omega), piece_congr_le h x k (i + 1) (by omega) (by omega), h i (by omega),
      h (i + k + 1) (by omega), h (i + 1) (by omega), h (i + k + 2) (by omega)]

theorem piece_uniform {a dx : K} (hdx : dx ≠ 0) {o q : ℕ} (hq : q ≤ 1) : ∀ d j : ℕ,
    piece (uniformKnot a dx (2 * o + (1 - q))) o (q + d) j a = evW (symP q d) (2 * ((o : ℤ) - j) - 2 * q - d)
  | 0, j => by
    rw [symP, evW_one]
    obtain rfl | rfl : q = 0 ∨ q = 1 := by omega
    · simp only [Nat.add_zero, piece]
      by_cases h : j = o
      · rw [if_pos h, if_pos (by omega)]
      · rw [if_neg h, if_neg (by omega)]
    · simp only [Nat.add_zero, piece, uniformKnot]
      by_cases h : j = o
      · rw [if_pos h, if_neg (by omega), if_neg (by omega), h]; push_cast; ring
      · rw [if_neg h]
        by_cases h' : j + 1 = o
        · rw [if_pos h', if_pos (by omega), ← h']
          push_cast
          rw [mul_zero, zero_add, mul_one]
          convert div_self hdx using 2 <;> ring
        · rw [if_neg h', if_neg (by omega)]; ring
  | d + 1, j => by
    rw [symP, evW_stepP (by omega), show q + (d + 1) = q + d + 1 by omega, piece, piece_uniform hdx hq d j, piece_uniform hdx hq d (j + 1)]
    unfold stepW
    have e1 : (2 * ((o : ℤ) - j) - 2 * q - (d + 1 : ℕ)) + 1 = 2 * ((o : ℤ) - j) - 2 * q - d := by push_cast; ring
    have e2 : (2 * ((o : ℤ) - j) - 2 * q - (d + 1 : ℕ)) - 1 = 2 * ((o : ℤ) - (j + 1 : ℕ)) - 2 * q - d := by push_cast; ring
    rw [e1, e2]
    generalize evW (symP (K := K) q d) (2 * ((o : ℤ) - j) - 2 * q - d) = A
    generalize evW (symP (K := K) q d) (2 * ((o : ℤ) - (j + 1 : ℕ)) - 2 * q - d) = B
    unfold uniformKnot
    have hk : ((q : K) + d + 1) ≠ 0 := by exact_mod_cast (Nat.succ_ne_zero (q + d))
    have hq' : ((1 - q : ℕ) : K) = 1 - q := by rw [Nat.cast_sub hq, Nat.cast_one]
    have d1 : a + (((j + (q + d) + 1 : ℕ) : K) - 1 / 2 * ((2 * o + (1 - q) : ℕ) : K)) * dx - (a + ((j : K) - 1 / 2 * ((2 * o + (1 - q) : ℕ) : K)) * dx) =
        ((q : K) + d + 1) * dx := by push_cast; ring
    have d2 : a + (((j + (q + d) + 2 : ℕ) : K) - 1 / 2 * ((2 * o + (1 - q) : ℕ) : K)) * dx - (a + (((j + 1 : ℕ) : K) - 1 / 2 * ((2 * o + (1 - q) : ℕ) : K)) * dx) =
        ((q : K) + d + 1) * dx := by push_cast; ring
    rw [d1, d2]
    push_cast
    rw [hq']
    field_simp
    ring

/-- The matrix of a uniform periodic dimension is a circulant of B-spline values. -/
theorem XRange.Valid.mat_uniform {o N : ℕ} {a b : K} (h : (XRange.uniform a b).Valid o N true) {r J : ℕ} (hr : r < N - 1) :
    (XRange.uniform a b).mat o N true r J = ∑ j ∈ range (o + 1), if ((r + (N - 1 - o / 2 % (N - 1))) % (N - 1) + j) % (N - 1) = J then
      evW (symP (o % 2) (2 * (o / 2))) (2 * ((o / 2 : ℕ) - (j : ℤ))) else 0 := by
  have hp := h.periodic rfl
  have ax := h.pAxis
  set n := N - 1 with hn
  have hu : unk true N = n := rfl
  have e : ((n : ℕ) : K) = (N : K) - 1 := by rw [hn, Nat.cast_sub (by omega)]; simp
  have hk : (XRange.uniform a b).knots o (unk true N) true = arr (n + 1 + (2 * o + (1 - o % 2)))
      (uniformKnot a ((b - a) / ((N : K) - 1)) (2 * o + (1 - o % 2))) := by rw [← e]; rfl
  have hi : nodeOfRow o true n r < n := Nat.mod_lt _ (by omega)
  have hseg := KMono.segAt h.kmono h.knots_length_le (ax.segOfNode (nodeOfRow o true n r) hi)
  unfold XRange.mat
  rw [hu] at hseg ax ⊢
  rw [hseg]
  rw [show (XRange.uniform a b).knots o n true = (XRange.uniform a b).knots o (unk true N) true from rfl, hk] at ax ⊢
  change PAxis o n _ (uNode a ((b - a) / ((N : K) - 1))) at ax
  unfold colRow
  refine sum_congr rfl fun j hj => ?_
  have hj' : j ≤ o := by have := mem_range.1 hj; omega
  have hs := up_shift ax hi j
  rw [show nodeOfRow o true n r + o - o + j = nodeOfRow o true n r + j by omega] at hs ⊢
  have e1 : nodeOfRow o true n r = (r + (n - o / 2 % n)) % n := by unfold nodeOfRow; simp
  rw [show (XRange.uniform a b).node N (nodeOfRow o true n r) = uNode a ((b - a) / ((N : K) - 1)) (nodeOfRow o true n r) from rfl, hs,
    piece_congr_le (u := uniformKnot a ((b - a) / ((N : K) - 1)) (2 * o + (1 - o % 2))) (B := 2 * o + 1) (fun l hl => knotFn_arr _ (by omega)) a o j
      (by omega) (by omega)]
  have := piece_uniform (a := a) h.step_pos.ne' (o := o) (q := o % 2) (by omega) (2 * (o / 2)) j
  rw [show o % 2 + 2 * (o / 2) = o by omega] at this
  rw [this, e1]
  congr 2
  push_cast
  omega

/-- All leading blocks of the matrix of a uniform periodic dimension are regular. -/
theorem XRange.Valid.regular_uniform {o N : ℕ} {a b : K} (h : (XRange.uniform a b).Valid o N true) :
    Regular (N - 1) ((XRange.uniform a b).mat o N true) := by
  have hp := h.periodic rfl
  set n := N - 1 with hn
  set P := symP (K := K) (o % 2) (2 * (o / 2)) with hP
  set H := o / 2 with hH
  intro R hR hdet
  obtain ⟨v, hv0, hv⟩ := Matrix.exists_mulVec_eq_zero_iff.2 hdet
  haveI : NeZero (2 * n) := ⟨by omega⟩
  set yv : ℕ → K := fun J => if hJ : J < R + 1 then v ⟨J, hJ⟩ else 0 with hyv
  set y : ZMod (2 * n) → K := fun z => if z.val % 2 = 0 then yv (z.val / 2) else 0 with hy
  have y_even : ∀ k : ℕ, y ((2 * k : ℕ) : ZMod (2 * n)) = yv (k % n) := by
    intro k
    simp only [hy]
    rw [ZMod.val_natCast, Nat.mul_mod_mul_left, if_pos (by omega), Nat.mul_div_cancel_left _ (by norm_num)]
  have y_odd : ∀ k : ℤ, k % 2 = 1 → y ((k : ℤ) : ZMod (2 * n)) = 0 := by
    intro k hk
    simp only [hy]
    rw [if_neg]
    intro hc
    have e1 : ((((k : ℤ) : ZMod (2 * n)).val : ℕ) : ℤ) = k % ((2 * n : ℕ) : ℤ) := ZMod.val_intCast k
    have e2 : (k % ((2 * n : ℕ) : ℤ)) % 2 = k % 2 := Int.emod_emod_of_dvd k ⟨n, by push_cast; ring⟩
    omega
  have hrow : ∀ i, i < R + 1 → ∑ m ∈ Icc (-((2 * H : ℕ) : ℤ)) ((2 * H : ℕ) : ℤ), evW P m * y (((2 * i : ℕ) : ZMod (2 * n)) + m) = 0 := by
    intro i hi
    have e0 : ∑ J ∈ range n, (XRange.uniform a b).mat o N true i J * yv J = 0 := by
      have h1 := congrFun hv ⟨i, hi⟩
      rw [Matrix.mulVec, dotProduct] at h1
      simp only [lead, Matrix.of_apply, Pi.zero_apply] at h1
      rw [← h1, ← sum_subset (range_mono (show R + 1 ≤ n by omega)) (fun J _ hJ => by
        have : ¬ J < R + 1 := fun hc => hJ (mem_range.2 hc)
        simp only [hyv]
        rw [dif_neg this, mul_zero]), ← Fin.sum_univ_eq_sum_range (fun J => (XRange.uniform a b).mat o N true i J * yv J) (R + 1)]
      refine sum_congr rfl fun J _ => ?_
      simp only [hyv]
      rw [dif_pos J.isLt]
    have hw : ∑ j ∈ range (2 * H + 1), evW P (2 * ((H : ℕ) - (j : ℤ))) * yv (((i + (n - H % n)) % n + j) % n) = 0 := by
      rw [← e0]
      have e1 : ∀ J ∈ range n, (XRange.uniform a b).mat o N true i J * yv J = ∑ j ∈ range (o + 1),
          if ((i + (n - H % n)) % n + j) % n = J then evW P (2 * ((H : ℕ) - (j : ℤ))) * yv J else 0 := by
        intro J _
        rw [h.mat_uniform (by omega), sum_mul]
        exact sum_congr rfl fun j _ => by rw [ite_mul, zero_mul]
      rw [sum_congr rfl e1, sum_comm]
      refine Eq.trans (sum_subset (range_mono (show 2 * H + 1 ≤ o + 1 by omega)) fun j hj hj' => ?_) (sum_congr rfl fun j _ => ?_)
      · have h1 := mem_range.1 hj
        have h2 : ¬ j < 2 * H + 1 := fun hc => hj' (mem_range.2 hc)
        rw [evW_support (symP_natDegree _ _) (by rw [lt_abs]; push_cast; omega), zero_mul]
      · rw [sum_ite_eq, if_pos (mem_range.2 (Nat.mod_lt _ (by omega)))]
    have hterm : ∀ j : ℕ, evW P (2 * ((H : ℕ) - (j : ℤ))) * yv (((i + (n - H % n)) % n + j) % n) =
        evW P (2 * ((j : ℤ) - (H : ℕ))) * y (((2 * i : ℕ) : ZMod (2 * n)) + ((2 * ((j : ℤ) - (H : ℕ)) : ℤ) : ZMod (2 * n))) := by
      intro j
      rw [← y_even, ← evW_neg, show -(2 * ((H : ℕ) - (j : ℤ))) = 2 * ((j : ℤ) - (H : ℕ)) by ring]
      congr 2
      have e1 : ((2 * ((i + (n - H % n)) % n) : ℕ) : ZMod (2 * n)) = ((2 * (i + (n - H % n)) : ℕ) : ZMod (2 * n)) := by
        rw [← Nat.mul_mod_mul_left, ZMod.natCast_mod]
      have e2 : ((2 * n : ℕ) : ZMod (2 * n)) = 0 := ZMod.natCast_self _
      rw [mul_add, Nat.cast_add, e1, Nat.mod_eq_of_lt (show H < n by omega)]
      push_cast [Nat.cast_sub (show H ≤ n by omega)] at e2 ⊢
      linear_combination e2
    rw [← hw]
    symm
    refine sum_bij_ne_zero (fun j _ _ => 2 * ((j : ℤ) - (H : ℕ))) ?_ ?_ ?_ ?_
    · intro j hj _
      have := mem_range.1 hj
      rw [mem_Icc]
      push_cast
      omega
    · intro j _ _ j' _ _ he
      omega
    · intro m hm hne
      rw [mem_Icc] at hm
      push_cast at hm
      have hev : m % 2 = 0 := by
        by_contra hc
        apply hne
        have := y_odd (2 * i + m) (by omega)
        push_cast at this ⊢
        rw [this, mul_zero]
      have hm2 : 2 * ((((m / 2 + H).toNat : ℕ) : ℤ) - (H : ℕ)) = m := by omega
      refine ⟨(m / 2 + H).toNat, mem_range.2 (by omega), ?_, hm2⟩
      rw [hterm, hm2]
      exact hne
    · intro j hj _
      exact hterm j
  have hzero : ∑ z, y z * ∑ j ∈ range (2 * H + 1), P.coeff j * avgOp^[j] y z = 0 := by
    refine sum_eq_zero fun z _ => ?_
    by_cases hz : y z = 0
    · rw [hz, zero_mul]
    · have h1 : z.val % 2 = 0 := by
        by_contra hc
        exact hz (by simp only [hy]; rw [if_neg hc])
      have h2 : z.val / 2 < R + 1 := by
        by_contra hc
        apply hz
        simp only [hy, hyv]
        rw [if_pos h1, dif_neg hc]
      rw [← evW_conv P y (symP_natDegree _ _) z]
      have h3 := hrow _ h2
      rw [show 2 * (z.val / 2) = z.val by omega, ZMod.natCast_zmod_val] at h3
      rw [h3, mul_zero]
  have hle := evW_pos (K := K) (o % 2) H y
  rw [hzero] at hle
  have hc0 : 0 < P.coeff 0 := by
    have := (symP_spec (K := K) (o % 2) (2 * H)).2.2.2
    rwa [show 2 * H % 2 = 0 by omega] at this
  have hsq : ∑ z, y z * y z = 0 := le_antisymm (nonpos_of_mul_nonpos_right hle hc0) (sum_nonneg fun z _ => mul_self_nonneg _)
  apply hv0
  funext J
  have h1 := (sum_eq_zero_iff_of_nonneg fun z _ => mul_self_nonneg (y z)).1 hsq ((2 * J.val : ℕ) : ZMod (2 * n)) (mem_univ _)
  have h2 := mul_self_eq_zero.1 h1
  rw [y_even, Nat.mod_eq_of_lt (by omega)] at h2
  simp only [hyv] at h2
  rwa [dif_pos J.isLt] at h2

end Intp
