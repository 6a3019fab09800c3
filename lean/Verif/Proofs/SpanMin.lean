import Verif.Proofs.Spans
import Verif.Proofs.Affine

/-!
# Lengths of the segments between knots, and sums of derivatives of basis functions
-/

namespace Intp

open Finset BSpline Polynomial

variable {K : Type} [Field K] [LinearOrder K] [IsStrictOrderedRing K] [FloorRing K]

theorem XRange.Valid.minGap_le {o N : ℕ} {per : Bool} {x : XRange K} (h : x.Valid o N per) {γ : K} (hγ : x.MinGap N γ) {a : ℕ} :
    ∀ m, a + m < N → (m : K) * γ ≤ x.node N (a + m) - x.node N a
  | 0, _ => by simp
  | m + 1, hm => by
    have h1 := minGap_le h hγ m (by omega : a + m < N)
    have h2 := hγ (a + m) (by omega)
    push_cast
    rw [← Nat.add_assoc]
    linarith

/-- Segments between knots are no shorter than the smallest distance of data points. -/
theorem XRange.Valid.seg_min {o N : ℕ} {per : Bool} {x : XRange K} (h : x.Valid o N per) (ho : 1 ≤ o) {γ : K} (hγ : x.MinGap N γ) {s : ℕ} (h1 : o ≤ s)
    (h2 : s + o + 1 < (x.knots o (unk per N) per).length) : γ ≤ x.kt o N per (s + 1) - x.kt o N per s := by
  have ho' : (0 : K) < o := by exact_mod_cast ho
  have hlen := h.knots_length
  unfold XRange.kt
  cases hp : per with
  | false =>
    subst hp
    have h3 := h.aperiodic rfl
    have hN : unk false N = N := rfl
    rw [if_neg (by simp), hN] at hlen
    rw [hN] at h2
    rw [h.knots_aper ho (by rw [hN]; omega), h.knots_aper ho (by rw [hN]; omega)]
    have hX : ∀ i j, i < j → j < N → x.node N i < x.node N j := fun i j h1 h2 => h.node_lt h1 h2
    have hg : ∀ i, i + 1 < N → γ ≤ x.node N (i + 1) - x.node N i := hγ
    by_cases e1 : s = o
    · subst e1
      rw [caKnot_low (i := s) le_rfl]
      have a1 := hg 0 (by omega)
      rw [zero_add] at a1
      by_cases e2 : s + 1 < N
      · rw [caKnot_mid (by omega) e2, show s + 1 - s = 1 by omega]
        have := (avg_bounds hX ho (k := 1) (by omega)).1
        linarith
      · rw [caKnot_high (by omega) (by omega)]
        have := h.node_le (a := 1) (b := N - 1) (by omega) (by omega)
        linarith
    · by_cases e2 : s + 1 < N
      · rw [caKnot_mid (i := s + 1) (by omega) e2, caKnot_mid (i := s) (by omega) (by omega), ← sub_div, le_div_iff₀ ho']
        rw [show s - o + o = s by omega, show s + 1 - o + o = s + 1 by omega, sum_Ico_succ_top (by omega : s + 1 - o ≤ s),
          sum_eq_sum_Ico_succ_bot (by omega : s - o < s), show s - o + 1 = s + 1 - o by omega]
        have := h.minGap_le hγ (a := s - o) o (by omega)
        rw [show s - o + o = s by omega] at this
        linarith
      · rw [caKnot_high (i := s + 1) (by omega) (by omega), caKnot_mid (i := s) (by omega) (by omega)]
        have a1 := (avg_bounds hX ho (k := s - o) (by omega)).2
        have a2 := hg (N - 2) (by omega)
        rw [show s - o + o - 1 = N - 2 by omega] at a1
        rw [show N - 2 + 1 = N - 1 by omega] at a2
        linarith
  | true =>
    subst hp
    have h3 := h.periodic rfl
    have hn : unk true N = N - 1 := rfl
    rw [if_pos rfl] at hlen
    rw [h.knots_per (by omega) (by omega), h.knots_per (by omega) (by omega)]
    have hg : ∀ i, i + 1 < N → γ ≤ x.node N (i + 1) - x.node N i := hγ
    set X := x.node N with hX
    by_cases e1 : s = o
    · subst e1
      rw [cpKnot_mid (by omega) (by omega), cpKnot_low le_rfl, cpMid_eq (by omega) (by omega), cpMid_eq (by omega) (by omega)]
      have a1 := hg 0 (by omega)
      have a2 := hg (unk true N - 1) (by omega)
      rw [show unk true N - 1 + 1 = unk true N by omega] at a2
      rw [show s + unk true N - s - 1 = unk true N - 1 by omega, show s + unk true N - s = unk true N by omega, show s + 1 - s - 1 = 0 by omega,
        show s + 1 - s = 0 + 1 by omega]
      split <;> linarith
    · by_cases e2 : s < unk true N + o
      · rw [cpKnot_mid (by omega) (by omega), cpKnot_mid (by omega) (by omega), cpMid_eq (by omega) (by omega), cpMid_eq (by omega) (by omega)]
        have a1 := hg (s - o - 1) (by omega)
        have a2 := hg (s - o) (by omega)
        rw [show s - o - 1 + 1 = s - o by omega] at a1
        rw [show s + 1 - o - 1 = s - o by omega, show s + 1 - o = s - o + 1 by omega]
        split <;> linarith
      · have e3 : s = unk true N + o := by omega
        rw [cpKnot_high (j := s + 1) (by omega) (by omega), cpKnot_mid (j := s) (by omega) (by omega), cpMid_eq (by omega) (by omega), cpMid_eq (by omega) (by omega)]
        have a1 := hg (s - o - 1) (by omega)
        have a2 := hg 0 (by omega)
        rw [show s - o - 1 + 1 = s - o by omega] at a1
        rw [show s + 1 - unk true N - o - 1 = 0 by omega, show s + 1 - unk true N - o = 0 + 1 by omega]
        rw [show s - o = unk true N by omega] at a1 ⊢
        split <;> linarith

omit [FloorRing K] in
/-- Sum of the absolute values of derivatives of the pieces of a segment. -/
theorem sum_abs_deriv {t : ℕ → K} {s : ℕ} {γ y : K} (hγ : 0 < γ) : ∀ (m k : ℕ), k ≤ s → Nondeg t s k → (∀ j i, j ≤ k → 0 ≤ piece t s j i y) →
    (∀ j i, j < k → i ≤ s → s ≤ i + j → γ ≤ t (i + j + 1) - t i) →
    ∑ i ∈ Finset.range (s + 1), |(derivative^[m] (pieceP t s k i)).eval y| ≤ (2 * (k : K) / γ) ^ m
  | 0, k, hk, hn, h0, hg => by
    rw [pow_zero, ← sum_piece_eq_one y k hk hn]
    refine le_of_eq (sum_congr rfl fun i _ => ?_)
    rw [Function.iterate_zero, id, pieceP_eval, abs_of_nonneg (h0 k i le_rfl)]
  | m + 1, 0, hk, hn, h0, hg => by
    have : ∀ i, derivative^[m + 1] (pieceP t s 0 i) = 0 := fun i => by
      rw [iterate_derivative_eq_zero]
      have := pieceP_natDegree_le t s 0 i
      omega
    simp [this]
  | m + 1, k + 1, hk, hn, h0, hg => by
    have ih := sum_abs_deriv (γ := γ) (y := y) hγ m k (by omega) (hn.mono (by omega)) (fun j i hj => h0 j i (by omega)) fun j i hj => hg j i (by omega)
    set f : ℕ → K := fun i => (derivative^[m] (pieceP t s k i)).eval y with hf
    have fs : f (s + 1) = 0 := by simp only [hf]; rw [pieceP_zero_of_lt t s k _ (by omega)]; simp
    have hb : ∀ i, |(t (i + k + 1) - t i)⁻¹ * f i| ≤ γ⁻¹ * |f i| := fun i => by
      by_cases e : i ≤ s ∧ s ≤ i + k
      · have := hg k i (by omega) e.1 e.2
        rw [abs_mul, abs_of_pos (inv_pos.2 (by linarith : 0 < t (i + k + 1) - t i))]
        exact mul_le_mul_of_nonneg_right (inv_anti₀ hγ this) (abs_nonneg _)
      · have : f i = 0 := by
          simp only [hf]
          rw [not_and_or] at e
          rcases e with e | e
          · rw [pieceP_zero_of_lt t s k _ (by omega)]; simp
          · rw [pieceP_zero_of_gt t s k _ (by omega)]; simp
        simp [this]
    have hstep : ∀ i, |(derivative^[m + 1] (pieceP t s (k + 1) i)).eval y| ≤ ((k + 1 : ℕ) : K) * γ⁻¹ * (|f i| + |f (i + 1)|) := fun i => by
      rw [pieceP_iterate_derivative k i m hn y, abs_mul, abs_of_nonneg (Nat.cast_nonneg _), mul_assoc]
      refine mul_le_mul_of_nonneg_left ((abs_sub _ _).trans ?_) (Nat.cast_nonneg _)
      have h1 := hb i
      have h2 := hb (i + 1)
      rw [show i + 1 + k + 1 = i + k + 2 by omega] at h2
      rw [mul_add]
      exact add_le_add h1 h2
    have hsh : ∑ i ∈ Finset.range (s + 1), |f (i + 1)| ≤ ∑ i ∈ Finset.range (s + 1), |f i| := by
      have e1 := Finset.sum_range_succ (fun i => |f i|) (s + 1)
      rw [Finset.sum_range_succ', fs, abs_zero, add_zero] at e1
      have := abs_nonneg (f 0)
      linarith
    calc ∑ i ∈ Finset.range (s + 1), |(derivative^[m + 1] (pieceP t s (k + 1) i)).eval y|
        ≤ ∑ i ∈ Finset.range (s + 1), ((k + 1 : ℕ) : K) * γ⁻¹ * (|f i| + |f (i + 1)|) := sum_le_sum fun i _ => hstep i
      _ = ((k + 1 : ℕ) : K) * γ⁻¹ * (∑ i ∈ Finset.range (s + 1), |f i| + ∑ i ∈ Finset.range (s + 1), |f (i + 1)|) := by rw [← mul_sum, sum_add_distrib]
      _ ≤ ((k + 1 : ℕ) : K) * γ⁻¹ * (2 * (2 * (k : K) / γ) ^ m) := by
          refine mul_le_mul_of_nonneg_left ?_ (by positivity)
          linarith
      _ ≤ (2 * ((k + 1 : ℕ) : K) / γ) ^ (m + 1) := by
          rw [pow_succ]
          have h3 : (2 * (k : K) / γ) ^ m ≤ (2 * ((k + 1 : ℕ) : K) / γ) ^ m := by
            refine pow_le_pow_left₀ (by positivity) (div_le_div_of_nonneg_right ?_ hγ.le) _
            push_cast; linarith
          have h4 : 0 ≤ 2 * ((k + 1 : ℕ) : K) / γ := by positivity
          calc ((k + 1 : ℕ) : K) * γ⁻¹ * (2 * (2 * (k : K) / γ) ^ m) = (2 * (k : K) / γ) ^ m * (2 * ((k + 1 : ℕ) : K) / γ) := by
                rw [div_eq_mul_inv (2 * ((k + 1 : ℕ) : K))]; ring
            _ ≤ _ := mul_le_mul_of_nonneg_right h3 h4

end Intp
