import Verif.Proofs.Quasi
import Mathlib.Algebra.BigOperators.Field
import Mathlib.Analysis.Calculus.MeanValue
import Mathlib.Analysis.Calculus.Deriv.Pow
import Mathlib.Analysis.Calculus.ContDiff.Basic
import Mathlib.Analysis.Calculus.IteratedDeriv.Defs

/-!
# Taylor's formula for a sequence of derivatives, and approximation of functions by splines
-/

namespace Intp

open Finset BSpline Polynomial Set

/-- `F 0, F 1, …, F N` are successive derivatives on `S`, the last one bounded by `M`. -/
structure DerivSeq (S : Set ℝ) (N : ℕ) (F : ℕ → ℝ → ℝ) (M : ℝ) : Prop where
  deriv : ∀ k, k < N → ∀ t ∈ S, HasDerivWithinAt (F k) (F (k + 1) t) S t
  bound : ∀ t ∈ S, |F N t| ≤ M

theorem DerivSeq.shift {S : Set ℝ} {N : ℕ} {F : ℕ → ℝ → ℝ} {M : ℝ} (h : DerivSeq S N F M) {e : ℕ} (he : e ≤ N) :
    DerivSeq S (N - e) (fun k => F (k + e)) M :=
  ⟨fun k hk t ht => by
    have := h.deriv (k + e) (by omega) t ht
    rwa [show k + e + 1 = k + 1 + e by omega] at this, fun t ht => by
    show |F (N - e + e) t| ≤ M
    rw [show N - e + e = N by omega]; exact h.bound t ht⟩

/-- A function with a small derivative along a segment. -/
theorem small_along {S : Set ℝ} (hS : S.OrdConnected) {G G' : ℝ → ℝ} (hG : ∀ t ∈ S, HasDerivWithinAt G (G' t) S t) {τ y : ℝ} (hτ : τ ∈ S) (hy : y ∈ S)
    (h0 : G τ = 0) {c : ℝ} {N : ℕ} (hb : ∀ t ∈ S, |G' t| ≤ c * ((N : ℝ) + 1) * |t - τ| ^ N) : |G y| ≤ c * |y - τ| ^ (N + 1) := by
  set r := |y - τ| with hr
  have hr0 : 0 ≤ r := abs_nonneg _
  obtain ⟨σ, hσ', hyσ⟩ : ∃ σ : ℝ, (σ = 1 ∧ τ ≤ y ∨ σ = -1 ∧ y ≤ τ) ∧ y = τ + σ * r := by
    rcases le_total τ y with h | h
    · exact ⟨1, .inl ⟨rfl, h⟩, by rw [hr, abs_of_nonneg (by linarith)]; ring⟩
    · exact ⟨-1, .inr ⟨rfl, h⟩, by rw [hr, abs_of_nonpos (by linarith)]; ring⟩
  clear_value r
  have hσ : |σ| = 1 := by rcases hσ' with ⟨rfl, -⟩ | ⟨rfl, -⟩ <;> simp
  have hmem : ∀ u ∈ Icc 0 r, τ + σ * u ∈ S := by
    rintro u ⟨hu0, hu1⟩
    rcases hσ' with ⟨rfl, h⟩ | ⟨rfl, h⟩
    · exact hS.out hτ hy ⟨by linarith, by linarith⟩
    · exact hS.out hy hτ ⟨by linarith, by linarith⟩
  have hd : ∀ u ∈ Icc 0 r, HasDerivWithinAt (fun u => G (τ + σ * u)) (G' (τ + σ * u) * σ) (Icc 0 r) u := by
    intro u hu
    refine (hG _ (hmem u hu)).comp u ?_ hmem
    have := ((hasDerivAt_id u).const_mul σ).const_add τ
    rw [mul_one] at this
    exact this.hasDerivWithinAt
  have := image_norm_le_of_norm_deriv_right_le_deriv_boundary (f := fun u => G (τ + σ * u)) (f' := fun u => G' (τ + σ * u) * σ) (a := 0) (b := r)
    (B := fun u => c * u ^ (N + 1)) (B' := fun u => c * (((N : ℝ) + 1) * u ^ N)) (fun u hu => (hd u hu).continuousWithinAt)
    (fun u hu => (hd u ⟨hu.1, hu.2.le⟩).mono_of_mem_nhdsWithin (Icc_mem_nhdsGE_of_mem hu)) (by simp [h0]) (fun u => by
      have := (hasDerivAt_pow (N + 1) u).const_mul c
      push_cast at this
      simpa using this) (fun u hu => by
      rw [Real.norm_eq_abs, abs_mul, hσ, mul_one]
      have := hb _ (hmem u ⟨hu.1, hu.2.le⟩)
      rw [add_sub_cancel_left, abs_mul, hσ, one_mul, abs_of_nonneg hu.1] at this
      linarith) (x := r) ⟨hr0, le_rfl⟩
  rw [Real.norm_eq_abs] at this
  rwa [← hyσ] at this

/-- Taylor's formula. -/
theorem DerivSeq.taylor {S : Set ℝ} (hS : S.OrdConnected) {M : ℝ} : ∀ {N : ℕ} {F : ℕ → ℝ → ℝ}, DerivSeq S N F M → ∀ {τ y : ℝ}, τ ∈ S → y ∈ S →
    |F 0 y - ∑ k ∈ Finset.range N, F k τ / k.factorial * (y - τ) ^ k| ≤ M / N.factorial * |y - τ| ^ N
  | 0, F, h, τ, y, hτ, hy => by simpa using h.bound y hy
  | N + 1, F, h, τ, y, hτ, hy => by
    have ih : ∀ t ∈ S, |F 1 t - ∑ k ∈ Finset.range N, F (k + 1) τ / k.factorial * (t - τ) ^ k| ≤ M / N.factorial * |t - τ| ^ N := fun t ht =>
      DerivSeq.taylor hS (N := N) (F := fun k => F (k + 1)) (h.shift (e := 1) (by omega)) hτ ht
    refine small_along hS (G := fun y => F 0 y - ∑ k ∈ Finset.range (N + 1), F k τ / k.factorial * (y - τ) ^ k)
      (G' := fun t => F 1 t - ∑ k ∈ Finset.range N, F (k + 1) τ / k.factorial * (t - τ) ^ k) (fun t ht => ?_) hτ hy ?_ (N := N) (fun t ht => ?_)
    · refine (h.deriv 0 (by omega) t ht).sub ?_
      have hs : HasDerivAt (fun y => ∑ k ∈ Finset.range (N + 1), F k τ / k.factorial * (y - τ) ^ k)
          (∑ k ∈ Finset.range (N + 1), F k τ / k.factorial * (k * (t - τ) ^ (k - 1))) t := by
        refine HasDerivAt.fun_sum fun k _ => ?_
        have := (((hasDerivAt_id t).sub_const τ).pow k).const_mul (F k τ / k.factorial)
        simpa using this
      have e : ∑ k ∈ Finset.range (N + 1), F k τ / k.factorial * (k * (t - τ) ^ (k - 1)) =
          ∑ k ∈ Finset.range N, F (k + 1) τ / k.factorial * (t - τ) ^ k := by
        rw [sum_range_succ']
        simp only [Nat.cast_zero, zero_mul, mul_zero, add_zero]
        refine sum_congr rfl fun k _ => ?_
        rw [Nat.add_sub_cancel, Nat.factorial_succ]
        have h1 : (k.factorial : ℝ) ≠ 0 := by exact_mod_cast k.factorial_ne_zero
        have h2 : ((k : ℝ) + 1) ≠ 0 := by positivity
        push_cast
        field_simp
      rw [e] at hs
      exact hs.hasDerivWithinAt
    · simp only [sub_self]
      rw [sum_range_succ']
      simp
    · refine (ih t ht).trans (le_of_eq ?_)
      rw [Nat.factorial_succ]
      have h1 : (N.factorial : ℝ) ≠ 0 := by exact_mod_cast N.factorial_ne_zero
      have h2 : ((N : ℝ) + 1) ≠ 0 := by positivity
      push_cast
      field_simp

/-- Taylor polynomial of degree below `N`. -/
noncomputable def taylorP (F : ℕ → ℝ → ℝ) (N : ℕ) (τ : ℝ) : ℝ[X] := ∑ k ∈ Finset.range N, C (F k τ / k.factorial) * (X - C τ) ^ k

theorem taylorP_degree (F : ℕ → ℝ → ℝ) (p : ℕ) (τ : ℝ) : (taylorP F (p + 1) τ).natDegree ≤ p := by
  unfold taylorP
  refine natDegree_sum_le_of_forall_le _ _ fun k hk => ?_
  refine (natDegree_C_mul_le _ _).trans ?_
  rw [natDegree_pow, natDegree_X_sub_C, mul_one]
  have := Finset.mem_range.1 hk
  omega

theorem taylorP_self (F : ℕ → ℝ → ℝ) (p : ℕ) (τ : ℝ) : (taylorP F (p + 1) τ).eval τ = F 0 τ := by
  unfold taylorP
  rw [eval_finsetSum, sum_range_succ']
  simp

/-- A Taylor polynomial expanded elsewhere. -/
theorem taylorP_move (F : ℕ → ℝ → ℝ) (N : ℕ) (y τ : ℝ) :
    taylorP F N y = ∑ e ∈ Finset.range N, C ((∑ k ∈ Finset.range (N - e), F (k + e) y / k.factorial * (τ - y) ^ k) / e.factorial) * (X - C τ) ^ e := by
  unfold taylorP
  have h1 : ∀ k, ((X : ℝ[X]) - C y) ^ k = ∑ e ∈ Finset.range (k + 1), C ((τ - y) ^ (k - e) * (k.choose e : ℝ)) * (X - C τ) ^ e := fun k => by
    rw [show (X : ℝ[X]) - C y = (X - C τ) + C (τ - y) by rw [C_sub]; ring, add_pow]
    refine sum_congr rfl fun e _ => ?_
    rw [C_mul, C_pow, map_natCast]; ring
  simp_rw [h1, mul_sum]
  have h2 : ∀ e, C ((∑ k ∈ Finset.range (N - e), F (k + e) y / k.factorial * (τ - y) ^ k) / e.factorial) * (X - C τ) ^ e =
      ∑ k ∈ Finset.range (N - e), C (F (k + e) y / k.factorial * (τ - y) ^ k / e.factorial) * (X - C τ) ^ e := fun e => by
    rw [Finset.sum_div, map_sum, sum_mul]
  simp_rw [h2]
  rw [Finset.sum_sigma', Finset.sum_sigma']
  refine Finset.sum_bij' (fun a _ => ⟨a.2, a.1 - a.2⟩) (fun b _ => ⟨b.2 + b.1, b.1⟩) ?_ ?_ ?_ ?_ ?_
  · rintro ⟨k, e⟩ h
    simp only [Finset.mem_sigma, Finset.mem_range] at h ⊢
    omega
  · rintro ⟨e, k⟩ h
    simp only [Finset.mem_sigma, Finset.mem_range] at h ⊢
    omega
  · rintro ⟨k, e⟩ h
    simp only [Finset.mem_sigma, Finset.mem_range] at h
    simp only [Sigma.mk.injEq, heq_eq_eq, and_true]
    omega
  · rintro ⟨e, k⟩ h
    simp
  · rintro ⟨k, e⟩ h
    simp only [Finset.mem_sigma, Finset.mem_range] at h
    have hek : e ≤ k := by omega
    simp only
    rw [show k - e + e = k by omega, ← mul_assoc, ← C_mul]
    congr 2
    rw [Nat.choose_eq_factorial_div_factorial hek, Nat.cast_div (Nat.factorial_mul_factorial_dvd_factorial hek) (by positivity)]
    have h1 : (k.factorial : ℝ) ≠ 0 := by exact_mod_cast k.factorial_ne_zero
    have h2 : (e.factorial : ℝ) ≠ 0 := by exact_mod_cast e.factorial_ne_zero
    have h3 : ((k - e).factorial : ℝ) ≠ 0 := by exact_mod_cast (k - e).factorial_ne_zero
    push_cast
    field_simp

/-- The coefficients of two Taylor polynomials differ little. -/
theorem DerivSeq.coef {S : Set ℝ} (hS : S.OrdConnected) {M : ℝ} {p : ℕ} {F : ℕ → ℝ → ℝ} (h : DerivSeq S (p + 1) F M) {τ y : ℝ} (hτ : τ ∈ S)
    (hy : y ∈ S) {t : ℕ → ℝ} {i : ℕ} {ρ δ : ℝ} (hρ : ∀ r, r < p → |t (i + 1 + r) - τ| ≤ ρ) (hρ0 : 0 ≤ ρ) (hδ : |τ - y| + ρ ≤ δ) :
    |bcoef t p i (taylorP F (p + 1) y) - bcoef t p i (taylorP F (p + 1) τ)| ≤ M / (p + 1).factorial * δ ^ (p + 1) := by
  have hM : 0 ≤ M := (abs_nonneg _).trans (h.bound τ hτ)
  rw [taylorP_move F (p + 1) y τ]
  unfold taylorP
  rw [← bcoef_sub, ← sum_sub_distrib, bcoef_sum]
  have hterm : ∀ e ∈ Finset.range (p + 1), |bcoef t p i (C ((∑ k ∈ Finset.range (p + 1 - e), F (k + e) y / k.factorial * (τ - y) ^ k) / e.factorial) * (X - C τ) ^ e -
      C (F e τ / e.factorial) * (X - C τ) ^ e)| ≤ M / (p + 1).factorial * (ρ ^ e * |τ - y| ^ (p + 1 - e) * ((p + 1).choose e)) := by
    intro e he
    have hep : e ≤ p := by have := Finset.mem_range.1 he; omega
    rw [← sub_mul, ← C_sub, bcoef_smul, ← sub_div, abs_mul, abs_div]
    have h1 := DerivSeq.taylor hS (h.shift (e := e) (by omega)) hy hτ
    simp only [zero_add] at h1
    rw [abs_sub_comm] at h1
    have h2 := bcoef_bound (t := t) (i := i) hρ hep
    have h3 : |(e.factorial : ℝ)| = e.factorial := abs_of_nonneg (by positivity)
    rw [h3]
    have h4 : (0 : ℝ) < e.factorial := by positivity
    refine (mul_le_mul (div_le_div_of_nonneg_right h1 h4.le) h2 (abs_nonneg _) (by positivity)).trans (le_of_eq ?_)
    have hek : e ≤ p + 1 := by omega
    rw [Nat.choose_eq_factorial_div_factorial hek, Nat.cast_div (Nat.factorial_mul_factorial_dvd_factorial hek) (by positivity)]
    have h5 : ((p + 1).factorial : ℝ) ≠ 0 := by positivity
    have h6 : ((p + 1 - e).factorial : ℝ) ≠ 0 := by positivity
    push_cast
    field_simp
  refine (abs_sum_le_sum_abs _ _).trans ((sum_le_sum hterm).trans ?_)
  rw [← mul_sum]
  refine mul_le_mul_of_nonneg_left ?_ (by positivity)
  have h7 : (ρ + |τ - y|) ^ (p + 1) ≤ δ ^ (p + 1) := pow_le_pow_left₀ (by positivity) (by linarith) _
  rw [add_pow] at h7
  refine le_trans ?_ h7
  rw [sum_range_succ _ (p + 1)]
  have : 0 ≤ ρ ^ (p + 1) * |τ - y| ^ (p + 1 - (p + 1)) * ((p + 1).choose (p + 1) : ℝ) := by positivity
  linarith

/-- Splines approximate functions: a spline whose coefficients are those of Taylor polynomials. -/
theorem DerivSeq.approx {S : Set ℝ} (hS : S.OrdConnected) {M : ℝ} {p : ℕ} {F : ℕ → ℝ → ℝ} (h : DerivSeq S (p + 1) F M) {y : ℝ} (hy : y ∈ S)
    {t : ℕ → ℝ} {s : ℕ} (hp : p ≤ s) (hn : Nondeg t s p) {τ : ℕ → ℝ} {δ : ℝ} (hpos : ∀ i, 0 ≤ piece t s p i y)
    (hτ : ∀ i, i ≤ s → s ≤ i + p → τ i ∈ S ∧ ∃ ρ, 0 ≤ ρ ∧ (∀ r, r < p → |t (i + 1 + r) - τ i| ≤ ρ) ∧ |τ i - y| + ρ ≤ δ) :
    |F 0 y - ∑ i ∈ Finset.range (s + 1), piece t s p i y * bcoef t p i (taylorP F (p + 1) (τ i))| ≤ M / (p + 1).factorial * δ ^ (p + 1) := by
  have e1 := sum_bcoef hp hn (taylorP_degree F p y) y
  rw [taylorP_self] at e1
  have e2 := sum_piece_eq_one y p hp hn
  rw [← e1, ← sum_sub_distrib]
  refine (abs_sum_le_sum_abs _ _).trans ?_
  rw [← one_mul (M / _ * _), ← e2, sum_mul]
  refine sum_le_sum fun i hi => ?_
  rw [← mul_sub, abs_mul, abs_of_nonneg (hpos i)]
  by_cases h0 : piece t s p i y = 0
  · rw [h0, zero_mul, zero_mul]
  · obtain ⟨h1, h2⟩ := piece_support h0
    obtain ⟨k1, ρ, k2, k3, k4⟩ := hτ i h1 h2
    exact mul_le_mul_of_nonneg_left (h.coef hS k1 hy k3 k2 k4) (hpos i)

end Intp
