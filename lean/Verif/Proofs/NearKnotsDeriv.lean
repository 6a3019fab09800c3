import Verif.Proofs.NearKnots
import Verif.Proofs.SpanMin

/-!
# Derivatives of basis functions of two knot vectors that are near each other
-/

namespace Intp

open Finset Polynomial

variable {F : Type} [Field F] [LinearOrder F] [IsStrictOrderedRing F]

/-- A point lies in its segment. -/
theorem IsSeg.within {t : ℕ → F} {o n s : ℕ} {x : F} (hs : IsSeg t o (n - 1) x s) (hn : o < n) (hx : t o ≤ x ∧ x ≤ t n) :
    o ≤ s ∧ s < n ∧ t s ≤ x ∧ x ≤ t (s + 1) := by
  obtain ⟨a1, a2, a3, a4⟩ := hs
  refine ⟨a1, by omega, ?_, ?_⟩
  · rcases a3 with rfl | a3
    · exact hx.1
    · exact a3
  · rcases a4 with e | a4
    · rw [show s + 1 = n by omega]; exact hx.2
    · exact a4.le

/-- Segments of both vectors, if those of the second are at least `3 γ` long. -/
theorem KnotsNear.gaps {t t' : ℕ → F} {o n : ℕ} {δ g γ : F} (h : KnotsNear t t' o n δ g) (hγ : 0 < γ) (hgap : ∀ i, o ≤ i → i < n → 3 * γ ≤ t' (i + 1) - t' i)
    {i : ℕ} (h1 : o ≤ i) (h2 : i < n) : γ ≤ t (i + 1) - t i ∧ γ ≤ t' (i + 1) - t' i := by
  have a1 := hgap i h1 h2
  have a2 := h.gap i h1 h2
  have a3 := h.small
  have a4 := abs_le.1 (h.near i (by omega))
  have a5 := abs_le.1 (h.near (i + 1) (by omega))
  constructor <;> linarith

theorem KnotsNear.crossD {t t' : ℕ → F} {o n : ℕ} {δ g Γ : F} (h : KnotsNear t t' o n δ g) (hΓ : 0 < Γ)
    (hgap : ∀ i, o ≤ i → i < n → 6 * (o : F) / Γ ≤ t' (i + 1) - t' i) {x : F} (hx : t o ≤ x ∧ x ≤ t n) (hx' : t' o ≤ x ∧ x ≤ t' n)
    {s s' : ℕ} (hs : IsSeg t o (n - 1) x s) (hs' : IsSeg t' o (n - 1) x s') : ∀ m p, m < p → p ≤ o →
    ∑ J ∈ range n, |(derivative^[m] (pieceP t s p J)).eval x - (derivative^[m] (pieceP t' s' p J)).eval x| ≤ Γ ^ m * (p * (8 * δ / g))
  | 0, p, hmp, hpo => by
    rw [pow_zero, one_mul]
    refine le_trans (le_of_eq (sum_congr rfl fun J _ => ?_)) (h.crossP hx hx' hs hs' hmp hpo)
    rw [Function.iterate_zero, id, id, pieceP_eval, pieceP_eval]
  | m + 1, 0, hmp, hpo => by omega
  | m + 1, k + 1, hmp, hpo => by
    have ih := h.crossD hΓ hgap hx hx' hs hs' m k (by omega) (by omega)
    obtain ⟨s1, s2, s3, s4⟩ := hs.within h.hn hx
    obtain ⟨r1, r2, r3, r4⟩ := hs'.within h.hn hx'
    have hg := h.pos
    have hδ : 0 ≤ δ := (abs_nonneg _).trans (h.near 0 (by omega))
    have ho : (0 : F) < o := by exact_mod_cast h.ho
    set γ := 2 * (o : F) / Γ with hγd
    have hγ : 0 < γ := by positivity
    have hgs := fun i h1 h2 => h.gaps (i := i) hγ (fun i h1 h2 => by
      refine le_trans (le_of_eq ?_) (hgap i h1 h2)
      rw [hγd]; ring) h1 h2
    have span : ∀ q i j, j < o → o ≤ q → q < n → i ≤ q → q ≤ i + j →
        γ ≤ t (i + j + 1) - t i ∧ γ ≤ t' (i + j + 1) - t' i ∧ g ≤ t' (i + j + 1) - t' i := fun q i j hj q1 q2 q3 q4 => by
      have a1 := h.mono i q q3 (by omega)
      have a2 := h.mono (q + 1) (i + j + 1) (by omega) (by omega)
      have b1 := h.mono' i q q3 (by omega)
      have b2 := h.mono' (q + 1) (i + j + 1) (by omega) (by omega)
      have c := hgs q q1 q2
      have d := h.gap q q1 q2
      refine ⟨by linarith [c.1], by linarith [c.2], by linarith⟩
    have hnd : Nondeg t s (k + 1) := fun i j a1 a2 a3 a4 => by
      have b1 := h.mono i s a2 (by omega)
      have b2 := h.mono (s + 1) j (by omega) (by omega)
      have := (hgs s s1 s2).1
      linarith
    have hnd' : Nondeg t' s' (k + 1) := fun i j a1 a2 a3 a4 => by
      have b1 := h.mono' i s' a2 (by omega)
      have b2 := h.mono' (s' + 1) j (by omega) (by omega)
      have := (hgs s' r1 r2).2
      linarith
    set f : ℕ → F := fun i => (derivative^[m] (pieceP t s k i)).eval x with hf
    set f' : ℕ → F := fun i => (derivative^[m] (pieceP t' s' k i)).eval x with hf'
    have f0 : ∀ i, ¬ (i ≤ s ∧ s ≤ i + k) → f i = 0 := fun i e => by
      simp only [hf]
      rw [not_and_or] at e
      rcases e with e | e
      · rw [pieceP_zero_of_lt t s k _ (by omega)]; simp
      · rw [pieceP_zero_of_gt t s k _ (by omega)]; simp
    have f0' : ∀ i, ¬ (i ≤ s' ∧ s' ≤ i + k) → f' i = 0 := fun i e => by
      simp only [hf']
      rw [not_and_or] at e
      rcases e with e | e
      · rw [pieceP_zero_of_lt t' s' k _ (by omega)]; simp
      · rw [pieceP_zero_of_gt t' s' k _ (by omega)]; simp
    have hsum' : ∑ i ∈ Finset.range n, |f' i| ≤ Γ ^ m := by
      have := sum_abs_deriv (y := x) hγ m k (by omega) (hnd'.mono (by omega))
        (fun j i hj => piece_nonneg (p := o) (fun j h1 h2 => (h.mono' j s' h2 (by omega)).trans r3) (fun j h1 h2 => r4.trans (h.mono' _ _ h1 (by omega))) j i (by omega))
        (fun j i hj h1 h2 => (span s' i j (by omega) r1 r2 h1 h2).2.1)
      have e : ∑ i ∈ Finset.range n, |f' i| = ∑ i ∈ Finset.range (s' + 1), |f' i| := by
        refine (sum_subset (range_mono (by omega)) fun i _ hi => ?_).symm
        rw [f0' i (by rw [Finset.mem_range] at hi; omega), abs_zero]
      rw [e]
      refine this.trans (pow_le_pow_left₀ (by positivity) ?_ m)
      rw [hγd, div_div_eq_mul_div, div_le_iff₀ (by positivity)]
      have : (k : F) ≤ o := by exact_mod_cast (by omega : k ≤ o)
      nlinarith
    set φ : ℕ → F := fun i => |(t (i + k + 1) - t i)⁻¹ * f i - (t' (i + k + 1) - t' i)⁻¹ * f' i| with hφ
    have hφ1 : ∀ i, φ i ≤ γ⁻¹ * (|f i - f' i| + 2 * δ / g * |f' i|) := fun i => by
      have hq0 : 0 ≤ 2 * δ / g := by positivity
      by_cases e : ∃ q, o ≤ q ∧ q < n ∧ i ≤ q ∧ q ≤ i + k
      · obtain ⟨q, q1, q2, q3, q4⟩ := e
        obtain ⟨c1, c2, c3⟩ := span q i k (by omega) q1 q2 q3 q4
        have n1 := h.near i (by omega)
        have n2 := h.near (i + k + 1) (by omega)
        set A := t (i + k + 1) - t i with hA
        set A' := t' (i + k + 1) - t' i with hA'
        have hA0 : 0 < A := by linarith
        have hA0' : 0 < A' := by linarith
        have hd : |A' - A| ≤ 2 * δ := by
          have : A' - A = (t i - t' i) - (t (i + k + 1) - t' (i + k + 1)) := by rw [hA, hA']; ring
          rw [this]
          exact (abs_sub _ _).trans (by linarith)
        have e1 : A⁻¹ * f i - A'⁻¹ * f' i = A⁻¹ * ((f i - f' i) + (A' - A) / A' * f' i) := by field_simp; ring
        have e2 : |(A' - A) / A'| ≤ 2 * δ / g := by
          rw [abs_div, abs_of_pos hA0']
          exact div_le_div₀ (by linarith) hd hg c3
        simp only [hφ]
        rw [← hA, ← hA', e1, abs_mul, abs_of_pos (inv_pos.2 hA0)]
        refine mul_le_mul (inv_anti₀ hγ c1) ((abs_add_le _ _).trans (add_le_add le_rfl ?_)) (abs_nonneg _) (inv_pos.2 hγ).le
        rw [abs_mul]
        exact mul_le_mul_of_nonneg_right e2 (abs_nonneg _)
      · have z1 : f i = 0 := f0 i fun hc => e ⟨s, s1, s2, hc⟩
        have z2 : f' i = 0 := f0' i fun hc => e ⟨s', r1, r2, hc⟩
        simp only [hφ, z1, z2]
        simp
    have hstep : ∀ i, |(derivative^[m + 1] (pieceP t s (k + 1) i)).eval x - (derivative^[m + 1] (pieceP t' s' (k + 1) i)).eval x| ≤
        ((k + 1 : ℕ) : F) * (φ i + φ (i + 1)) := fun i => by
      rw [pieceP_iterate_derivative k i m hnd x, pieceP_iterate_derivative k i m hnd' x, ← mul_sub, abs_mul, abs_of_nonneg (Nat.cast_nonneg _)]
      refine mul_le_mul_of_nonneg_left ?_ (Nat.cast_nonneg _)
      simp only [hφ]
      rw [show i + 1 + k + 1 = i + k + 2 by omega]
      have : ∀ a b c d : F, |(a - b) - (c - d)| ≤ |a - c| + |b - d| := fun a b c d => by
        rw [show (a - b) - (c - d) = (a - c) - (b - d) by ring]; exact abs_sub _ _
      exact this _ _ _ _
    have top : φ n = 0 := by
      simp only [hφ]
      rw [f0 n (by omega), f0' n (by omega)]
      simp
    have hsh : ∑ i ∈ Finset.range n, φ (i + 1) ≤ ∑ i ∈ Finset.range n, φ i := by
      have e1 := Finset.sum_range_succ φ n
      rw [Finset.sum_range_succ', top, add_zero] at e1
      have : 0 ≤ φ 0 := abs_nonneg _
      linarith
    have hφs : ∑ i ∈ Finset.range n, φ i ≤ γ⁻¹ * (Γ ^ m * (k * (8 * δ / g)) + 2 * δ / g * Γ ^ m) := by
      refine (sum_le_sum fun i _ => hφ1 i).trans ?_
      rw [← mul_sum, sum_add_distrib, ← mul_sum]
      refine mul_le_mul_of_nonneg_left (add_le_add ih (mul_le_mul_of_nonneg_left hsum' (by positivity))) (inv_pos.2 hγ).le
    have hko : ((k + 1 : ℕ) : F) ≤ o := by exact_mod_cast hpo
    have hm0 : 0 < Γ ^ m := pow_pos hΓ m
    have hz : 0 ≤ δ / g := by positivity
    calc ∑ i ∈ Finset.range n, |(derivative^[m + 1] (pieceP t s (k + 1) i)).eval x - (derivative^[m + 1] (pieceP t' s' (k + 1) i)).eval x|
        ≤ ∑ i ∈ Finset.range n, ((k + 1 : ℕ) : F) * (φ i + φ (i + 1)) := sum_le_sum fun i _ => hstep i
      _ ≤ ((k + 1 : ℕ) : F) * (2 * (γ⁻¹ * (Γ ^ m * (k * (8 * δ / g)) + 2 * δ / g * Γ ^ m))) := by
          rw [← mul_sum, sum_add_distrib]
          exact mul_le_mul_of_nonneg_left (by linarith) (Nat.cast_nonneg _)
      _ ≤ (o : F) * (2 * (γ⁻¹ * (Γ ^ m * (k * (8 * δ / g)) + 2 * δ / g * Γ ^ m))) := by
          refine mul_le_mul_of_nonneg_right hko ?_
          positivity
      _ = Γ ^ (m + 1) * ((8 * k + 2) * (δ / g)) := by
          rw [hγd, pow_succ]
          field_simp
      _ ≤ Γ ^ (m + 1) * (((k + 1 : ℕ) : F) * (8 * δ / g)) := by
          refine mul_le_mul_of_nonneg_left ?_ (pow_pos hΓ _).le
          have : ((k + 1 : ℕ) : F) * (8 * δ / g) = (8 * k + 8) * (δ / g) := by push_cast; ring
          rw [this]
          exact mul_le_mul_of_nonneg_right (by linarith) hz

/-- Distances of knots, if the first and the last `o + 1` knots coincide. -/
theorem KnotsNear.steep {t t' : ℕ → F} {o n : ℕ} {δ g Γ : F} (h : KnotsNear t t' o n δ g) (hΓ : 0 < Γ)
    (hgap : ∀ i, o ≤ i → i < n → 6 * (o : F) / Γ ≤ t' (i + 1) - t' i) (hl : ∀ i, i ≤ o → t i = t o) (hr : ∀ i, n ≤ i → i ≤ n + o → t i = t n)
    {i k : ℕ} (hk : k ≤ o) (hik : i + k ≤ n + o) (hlt : t i < t (i + k)) : 2 * (k : F) ≤ Γ * (t (i + k) - t i) := by
  have ho : (0 : F) < o := by exact_mod_cast h.ho
  have h1 : i < n := by
    by_contra hc
    rw [hr i (by omega) (by omega), hr (i + k) (by omega) hik] at hlt
    exact lt_irrefl _ hlt
  have h2 : o < i + k := by
    by_contra hc
    rw [hl i (by omega), hl (i + k) (by omega)] at hlt
    exact lt_irrefl _ hlt
  have hn := h.hn
  have hk0 : 0 < k := by
    rcases Nat.eq_zero_or_pos k with rfl | hc
    · exact absurd hlt (lt_irrefl _)
    · exact hc
  have h3 := (h.gaps (γ := 2 * (o : F) / Γ) (by positivity) (fun i h1 h2 => by
    refine le_trans (le_of_eq ?_) (hgap i h1 h2)
    ring) (i := max i o) (le_max_right _ _) (by omega)).1
  have h4 := h.mono i (max i o) (le_max_left _ _) (by omega)
  have h5 := h.mono (max i o + 1) (i + k) (by omega) hik
  have h6 : 2 * (o : F) / Γ ≤ t (i + k) - t i := by linarith
  rw [div_le_iff₀ hΓ] at h6
  have h7 : (k : F) ≤ o := by exact_mod_cast hk
  linarith

end Intp
