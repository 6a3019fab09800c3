import Verif.Proofs.Approx
import Verif.Proofs.SpanMin

/-!
# Distance of the derivatives of a smooth function from the derivatives of its interpolation, in one dimension
-/

namespace Intp

open Finset BSpline Polynomial

/-- Derivatives of polynomials are reproduced. -/
theorem sum_bcoefD {K : Type} [Field K] [LinearOrder K] [IsStrictOrderedRing K] {t : ℕ → K} {s p : ℕ} (hp : p ≤ s) (hn : Nondeg t s p) {P : K[X]}
    (hP : P.natDegree ≤ p) (m : ℕ) (y : K) :
    ∑ i ∈ Finset.range (s + 1), (derivative^[m] (pieceP t s p i)).eval y * bcoef t p i P = (derivative^[m] P).eval y := by
  have hinf : Infinite K := inferInstance
  have e : ∑ i ∈ Finset.range (s + 1), C (bcoef t p i P) * pieceP t s p i = P := by
    refine Polynomial.funext fun z => ?_
    rw [eval_finsetSum, ← sum_bcoef hp hn hP z]
    refine sum_congr rfl fun i _ => ?_
    rw [eval_mul, eval_C, pieceP_eval]; ring
  conv_rhs => rw [← e]
  rw [iterate_derivative_sum, eval_finsetSum]
  refine sum_congr rfl fun i _ => ?_
  rw [iterate_derivative_C_mul, eval_mul, eval_C]; ring

theorem taylorP_selfD (F : ℕ → ℝ → ℝ) {m p : ℕ} (hm : m ≤ p) (τ : ℝ) : (derivative^[m] (taylorP F (p + 1) τ)).eval τ = F m τ := by
  unfold taylorP
  rw [iterate_derivative_sum, eval_finsetSum, Finset.sum_eq_single m]
  · rw [iterate_derivative_C_mul, iterate_derivative_X_sub_pow_self, eval_mul, eval_C, eval_natCast]
    have : (m.factorial : ℝ) ≠ 0 := by positivity
    field_simp
  · intro k _ hk
    rw [iterate_derivative_C_mul, iterate_derivative_X_sub_pow, nsmul_eq_mul, eval_mul, eval_mul, eval_pow, eval_sub, eval_X, eval_C, eval_C, sub_self]
    rcases lt_or_gt_of_ne hk with h | h
    · rw [Nat.descFactorial_of_lt h]; simp
    · rw [zero_pow (by omega)]; simp
  · intro h
    exact absurd (Finset.mem_range.2 (by omega)) h

/-- Derivatives of splines approximate derivatives of functions. -/
theorem DerivSeq.approxD {S : Set ℝ} (hS : S.OrdConnected) {M : ℝ} {p : ℕ} {F : ℕ → ℝ → ℝ} (h : DerivSeq S (p + 1) F M) {y : ℝ} (hy : y ∈ S)
    {t : ℕ → ℝ} {s : ℕ} (hp : p ≤ s) (hn : Nondeg t s p) {τ : ℕ → ℝ} {δ : ℝ} {m : ℕ} (hm : m ≤ p)
    (hτ : ∀ i, i ≤ s → s ≤ i + p → τ i ∈ S ∧ ∃ ρ, 0 ≤ ρ ∧ (∀ r, r < p → |t (i + 1 + r) - τ i| ≤ ρ) ∧ |τ i - y| + ρ ≤ δ) :
    |F m y - ∑ i ∈ Finset.range (s + 1), (derivative^[m] (pieceP t s p i)).eval y * bcoef t p i (taylorP F (p + 1) (τ i))| ≤
      (∑ i ∈ Finset.range (s + 1), |(derivative^[m] (pieceP t s p i)).eval y|) * (M / (p + 1).factorial * δ ^ (p + 1)) := by
  have e1 := sum_bcoefD hp hn (taylorP_degree F p y) m y
  rw [taylorP_selfD F hm] at e1
  rw [← e1, ← sum_sub_distrib]
  refine (abs_sum_le_sum_abs _ _).trans ?_
  rw [sum_mul]
  refine sum_le_sum fun i hi => ?_
  rw [← mul_sub, abs_mul]
  by_cases h0 : (derivative^[m] (pieceP t s p i)).eval y = 0
  · rw [h0, abs_zero, zero_mul, zero_mul]
  · have hsup : i ≤ s ∧ s ≤ i + p := by
      by_contra hc
      rw [not_and_or] at hc
      rcases hc with hc | hc
      · exact h0 (by rw [pieceP_zero_of_lt t s p _ (by omega)]; simp)
      · exact h0 (by rw [pieceP_zero_of_gt t s p _ (by omega)]; simp)
    obtain ⟨k1, ρ, k2, k3, k4⟩ := hτ i hsup.1 hsup.2
    exact mul_le_mul_of_nonneg_left (h.coef hS k1 hy k3 k2 k4) (abs_nonneg _)

section
variable {K : Type} [Field K] [LinearOrder K] [IsStrictOrderedRing K] [FloorRing K]

/-- Derivatives of the pieces at a point of a dimension. -/
theorem XRange.Valid.axis_deriv {o N : ℕ} {per : Bool} {x : XRange K} (h : x.Valid o N per) (ho : 1 ≤ o) {γ : K} (hγ : 0 < γ) (hg : x.MinGap N γ) {y w : K} {s : ℕ}
    (hp : AxisPt o N per x y w s) (m : ℕ) :
    ∑ i ∈ Finset.range (s + 1), |(derivative^[m] (pieceP (x.kt o N per) s o i)).eval w| ≤ (2 * (o : K) / γ) ^ m := by
  have hm : KMono (x.knots o (unk per N) per) := h.kmono
  have hlo := hp.lo
  have hhi := hp.hi
  refine sum_abs_deriv hγ m o hp.lo hp.nd (fun j i hj => ?_) fun j i hj h1 h2 => ?_
  · exact piece_nonneg (p := o) (fun j hj0 hj => (hm j s (by omega) hj (by omega)).trans hp.le)
      (fun j hj hj' => hp.ge.trans (hm _ _ (by omega) hj (by omega))) j i hj
  · have h3 := h.seg_min ho hg hp.lo hp.hi
    have h4 : x.kt o N per (s + 1) ≤ x.kt o N per (i + j + 1) := hm _ _ (by omega) (by omega) (by omega)
    have h5 : x.kt o N per i ≤ x.kt o N per s := hm _ _ (by omega) (by omega) (by omega)
    linarith

/-- Sum of the absolute values of the weights of derivatives. -/
theorem XRange.Valid.wt_deriv {o N : ℕ} {per : Bool} {x : XRange K} (h : x.Valid o N per) (ho : 1 ≤ o) {γ : K} (hγ : 0 < γ) (hg : x.MinGap N γ) {y : K}
    (hy : x.InDom N per y) (m : ℕ) : ∑ J ∈ Finset.range (unk per N), |x.wt o N per m y J| ≤ (2 * (o : K) / γ) ^ m := by
  obtain ⟨w, s, hp, -⟩ := h.axisPt hy
  let σ : ℕ → K := fun J => if 0 ≤ x.wt o N per m y J then 1 else -1
  have hσ : ∀ r, |σ r| ≤ 1 := fun r => by simp only [σ]; split <;> simp
  have e : ∑ J ∈ Finset.range (unk per N), |x.wt o N per m y J| = ∑ J ∈ Finset.range (unk per N), x.wt o N per m y J * σ J := by
    refine sum_congr rfl fun r _ => ?_
    simp only [σ]
    split
    · rename_i h; rw [abs_of_nonneg h, mul_one]
    · rename_i h; rw [abs_of_neg (not_le.1 h)]; ring
  rw [e, hp.sumD]
  refine le_trans (sum_le_sum fun i _ => ?_) (h.axis_deriv ho hγ hg hp m)
  refine (le_abs_self _).trans ?_
  rw [abs_mul]
  exact mul_le_of_le_one_right (abs_nonneg _) (hσ _)

omit [FloorRing K] in
/-- Sum of the absolute values of the combination, for any weights. -/
theorem cardinal_lebesgueD {n : ℕ} {A B : ℕ → ℕ → K} {u : ℕ → K} (hB : ∀ i < n, ∀ j < n, ∑ k ∈ Finset.range n, A i k * B k j = if i = j then 1 else 0)
    {μ Λ : K} (hA : RowsInv n A μ) (hu : ∑ J ∈ Finset.range n, |u J| ≤ Λ) (hμ : 0 ≤ μ) : ∑ r ∈ Finset.range n, |cardinal n B u r| ≤ Λ * μ := by
  let σ : ℕ → K := fun r => if 0 ≤ cardinal n B u r then 1 else -1
  have hσ : ∀ r, |σ r| ≤ 1 := fun r => by simp only [σ]; split <;> simp
  have e : ∑ r ∈ Finset.range n, |cardinal n B u r| = ∑ r ∈ Finset.range n, cardinal n B u r * σ r := by
    refine sum_congr rfl fun r _ => ?_
    simp only [σ]
    split
    · rename_i h; rw [abs_of_nonneg h, mul_one]
    · rename_i h; rw [abs_of_neg (not_le.1 h)]; ring
  rw [e, cardinal_sum]
  have hz := hA (fun J => ∑ r ∈ Finset.range n, B J r * σ r) 1 (fun i hi => by
    have : ∑ j ∈ Finset.range n, A i j * ∑ r ∈ Finset.range n, B j r * σ r = σ i := by
      simp_rw [mul_sum]
      rw [sum_comm]
      simp_rw [← mul_assoc, ← sum_mul]
      rw [sum_congr rfl fun j hj => by rw [hB i hi j (Finset.mem_range.1 hj)]]
      rw [Finset.sum_eq_single i]
      · rw [if_pos rfl, one_mul]
      · intro j _ hj
        rw [if_neg (Ne.symm hj), zero_mul]
      · intro hc
        exact absurd (Finset.mem_range.2 hi) hc
    rw [this]
    exact hσ i)
  calc ∑ J ∈ Finset.range n, u J * ∑ r ∈ Finset.range n, B J r * σ r ≤ ∑ J ∈ Finset.range n, |u J| * μ := by
        refine sum_le_sum fun J hJ => ?_
        refine (le_abs_self _).trans ?_
        rw [abs_mul]
        refine mul_le_mul_of_nonneg_left ?_ (abs_nonneg _)
        have := hz J (Finset.mem_range.1 hJ)
        rwa [mul_one] at this
    _ ≤ Λ * μ := by rw [← sum_mul]; exact mul_le_mul_of_nonneg_right hu hμ

end

/-- One dimension: splines whose derivatives are close to those of a smooth function. -/
theorem XRange.Valid.approxD {o N : ℕ} {per : Bool} {x : XRange ℝ} (h : x.Valid o N per) (ho : 1 ≤ o) {H γ : ℝ} (hH : x.Gap N H) (hγ : 0 < γ) (hg : x.MinGap N γ)
    {F : ℕ → ℝ → ℝ} {M : ℝ} (hF : DerivSeq (x.dom N per) (o + 1) F M) (hP : per = true → ∀ t, F 0 (t + (x.node N (N - 1) - x.node N 0)) = F 0 t) :
    ∃ ξ : ℕ → ℝ, ∀ m ≤ o, ∀ y ∈ x.dom N per, |F m y - ∑ J ∈ Finset.range (unk per N), x.wt o N per m y J * ξ J| ≤
      (2 * (o : ℝ) / γ) ^ m * (M / (o + 1).factorial * ((2 * (o : ℝ) - 1) * H) ^ (o + 1)) := by
  refine ⟨fun J => bcoef (x.kt o N per) o J (taylorP F (o + 1) (midKnot o (x.kt o N per) J)), fun m hm y hy => ?_⟩
  obtain ⟨w, s, hp, h0⟩ := h.axisPt hy
  have hPm : per = true → ∀ t, F m (t + (x.node N (N - 1) - x.node N 0)) = F m t := fun hper => by
    subst hper
    have hu : x.dom N true = Set.univ := Set.eq_univ_of_forall fun z hz => by simp at hz
    rw [hu] at hF
    exact hF.periodic (hP rfl) m (by omega)
  rw [hp.per_eq hPm, hp.sumD, sum_congr rfl fun i hi => by rw [h.mid_wrap ho hF hP hp (Finset.mem_range.1 hi)]]
  refine (hF.approxD (x.dom_ordConnected N per) (hp.mem_dom hy) hp.lo hp.nd (τ := midKnot o (x.kt o N per)) hm fun i hi1 hi2 => h.mid_near ho hH hp hi1 hi2).trans
    (mul_le_mul_of_nonneg_right (h.axis_deriv ho hγ hg hp m) ?_)
  have hM : 0 ≤ M := (abs_nonneg _).trans (hF.bound y hy)
  have hH0 := h.gap_pos hH
  have ho' : (1 : ℝ) ≤ o := by exact_mod_cast ho
  have : 0 ≤ (2 * (o : ℝ) - 1) * H := mul_nonneg (by linarith) hH0.le
  positivity

/-- One dimension: error of the combination of the data for a derivative. -/
theorem XRange.Valid.cardinal_errD {o N : ℕ} {per : Bool} {x : XRange ℝ} (h : x.Valid o N per) (ho : 1 ≤ o) {H γ : ℝ} (hH : x.Gap N H) (hγ : 0 < γ)
    (hg : x.MinGap N γ) {F : ℕ → ℝ → ℝ} {M : ℝ}
    (hF : DerivSeq (x.dom N per) (o + 1) F M) (hP : per = true → ∀ t, F 0 (t + (x.node N (N - 1) - x.node N 0)) = F 0 t) {A B : ℕ → ℕ → ℝ} {μ : ℝ}
    {ν : ℕ → ℕ} (hν : ∀ r, r < unk per N → ν r < N) (hA : ∀ r J, r < unk per N → J < unk per N → A r J = x.wt o N per 0 (x.node N (ν r)) J)
    (hB : ∀ i < unk per N, ∀ j < unk per N, ∑ k ∈ Finset.range (unk per N), B i k * A k j = if i = j then 1 else 0) {m : ℕ} (hm : m ≤ o)
    {y : ℝ} (hμ : ∑ r ∈ Finset.range (unk per N), |cardinal (unk per N) B (x.wt o N per m y) r| ≤ (2 * (o : ℝ) / γ) ^ m * μ) (hy : y ∈ x.dom N per) :
    |F m y - ∑ r ∈ Finset.range (unk per N), cardinal (unk per N) B (x.wt o N per m y) r * F 0 (x.node N (ν r))| ≤
      (2 * (o : ℝ) / γ) ^ m * ((1 + μ) * (M / (o + 1).factorial * ((2 * (o : ℝ) - 1) * H) ^ (o + 1))) := by
  obtain ⟨ξ, hξ⟩ := h.approxD ho hH hγ hg hF hP
  set ε := M / (o + 1).factorial * ((2 * (o : ℝ) - 1) * H) ^ (o + 1) with hε
  have e1 := cardinal_spline (u := x.wt o N per m y) hB ξ
  have h1 := hξ m hm y hy
  have hε0 : 0 ≤ ε := by
    have := hξ 0 (by omega) y hy
    rw [pow_zero, one_mul] at this
    exact (abs_nonneg _).trans this
  rw [← e1] at h1
  have h2 : |∑ r ∈ Finset.range (unk per N), cardinal (unk per N) B (x.wt o N per m y) r *
      (F 0 (x.node N (ν r)) - ∑ J ∈ Finset.range (unk per N), A r J * ξ J)| ≤ (2 * (o : ℝ) / γ) ^ m * μ * ε := by
    refine (abs_sum_le_sum_abs _ _).trans ?_
    refine le_trans ?_ (mul_le_mul_of_nonneg_right hμ hε0)
    rw [sum_mul]
    refine sum_le_sum fun r hr => ?_
    rw [abs_mul]
    refine mul_le_mul_of_nonneg_left ?_ (abs_nonneg _)
    have hr' := Finset.mem_range.1 hr
    rw [sum_congr rfl fun J hJ => by rw [hA r J hr' (Finset.mem_range.1 hJ)]]
    have := hξ 0 (by omega) _ (h.node_dom (hν r hr'))
    rwa [pow_zero, one_mul] at this
  have e2 : F m y - ∑ r ∈ Finset.range (unk per N), cardinal (unk per N) B (x.wt o N per m y) r * F 0 (x.node N (ν r)) =
      (F m y - ∑ r ∈ Finset.range (unk per N), cardinal (unk per N) B (x.wt o N per m y) r * ∑ J ∈ Finset.range (unk per N), A r J * ξ J) -
      ∑ r ∈ Finset.range (unk per N), cardinal (unk per N) B (x.wt o N per m y) r * (F 0 (x.node N (ν r)) - ∑ J ∈ Finset.range (unk per N), A r J * ξ J) := by
    simp only [mul_sub, sum_sub_distrib]; ring
  rw [e2]
  refine (abs_sub _ _).trans ?_
  linarith

end Intp
