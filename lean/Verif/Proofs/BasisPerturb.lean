import Verif.Proofs.Basis
import Mathlib.Tactic.Positivity

/-!
# Basis functions when knots and point move a little
-/

namespace Intp

open Finset

variable {F : Type} [Field F] [LinearOrder F] [IsStrictOrderedRing F]

/-- Position of a point between two knots when all three move. -/
theorem ratio_perturb {a b x a' b' x' δ g : F} (h1 : a ≤ x) (h2 : x ≤ b) (h3 : a < b) (ha : |a - a'| ≤ δ) (hb : |b - b'| ≤ δ) (hx : |x - x'| ≤ δ)
    (hg : 0 < g) (hg' : g ≤ b' - a') : |(x - a) / (b - a) - (x' - a') / (b' - a')| ≤ 2 * δ / g := by
  have hD : 0 < b - a := sub_pos.2 h3
  have hD' : 0 < b' - a' := hg.trans_le hg'
  have hδ : 0 ≤ δ := (abs_nonneg _).trans ha
  set ω := (x - a) / (b - a) with hω
  have e0 : x - a = ω * (b - a) := by rw [hω, div_mul_cancel₀ _ hD.ne']
  have o0 : 0 ≤ ω := div_nonneg (by linarith) hD.le
  have o1 : ω ≤ 1 := (div_le_one hD).2 (by linarith)
  have e1 : ω - (x' - a') / (b' - a') = ((x - x') - (1 - ω) * (a - a') - ω * (b - b')) / (b' - a') := by
    rw [eq_div_iff hD'.ne', sub_mul, div_mul_cancel₀ _ hD'.ne']
    linear_combination (-1 : F) * e0
  rw [e1, abs_div, abs_of_pos hD']
  refine div_le_div₀ (by linarith) ?_ hg hg'
  have t1 := abs_sub ((x - x') - (1 - ω) * (a - a')) (ω * (b - b'))
  have t2 := abs_sub (x - x') ((1 - ω) * (a - a'))
  rw [abs_mul, abs_of_nonneg o0] at t1
  rw [abs_mul (1 - ω), abs_of_nonneg (show 0 ≤ 1 - ω by linarith)] at t2
  have m1 := mul_le_mul_of_nonneg_left hb o0
  have m2 := mul_le_mul_of_nonneg_left ha (show 0 ≤ 1 - ω by linarith)
  linarith

/-- If the positions between the knots change by at most `ρ`, the basis functions of degree `k` change by at most `2 k ρ` in total. -/
theorem piece_perturb {t t' : ℕ → F} {s p : ℕ} {x x' ρ : F} (hp : p ≤ s) (hl : ∀ i, s < i + p → i ≤ s → t i ≤ x) (hr : ∀ j, s < j → j ≤ s + p → x ≤ t j)
    (hl' : ∀ i, s < i + p → i ≤ s → t' i ≤ x') (hr' : ∀ j, s < j → j ≤ s + p → x' ≤ t' j) (hn : Nondeg t s p) (hn' : Nondeg t' s p)
    (hω : ∀ i j, s < i + p → i ≤ s → s < j → j ≤ s + p → |(x - t i) / (t j - t i) - (x' - t' i) / (t' j - t' i)| ≤ ρ) :
    ∀ k, k ≤ p → ∑ i ∈ range (s + 1), |piece t s k i x - piece t' s k i x'| ≤ k * (2 * ρ)
  | 0, _ => by
    rw [sum_eq_zero fun i _ => by simp [piece]]
    simp
  | k + 1, hk => by
    have ih := piece_perturb hp hl hr hl' hr' hn hn' hω k (by omega)
    set f := fun i => piece t s k i x with hf
    set f' := fun i => piece t' s k i x' with hf'
    set ω := fun i => (x - t i) / (t (i + k + 1) - t i) with hωd
    set ω' := fun i => (x' - t' i) / (t' (i + k + 1) - t' i) with hωd'
    -- the complement
    have hc : ∀ i, piece t s (k + 1) i x = ω i * f i + (1 - ω (i + 1)) * f (i + 1) := by
      intro i
      rw [piece]
      refine congrArg₂ (· + ·) rfl ?_
      by_cases h0 : piece t s k (i + 1) x = 0
      · rw [hf]; simp only [h0, mul_zero]
      · obtain ⟨a1, a2⟩ := piece_support h0
        have := hn (i + 1) (i + k + 2) (by omega) a1 (by omega) (by omega)
        have hne : t (i + k + 2) - t (i + 1) ≠ 0 := (sub_pos.2 this).ne'
        simp only [hωd, hf]
        rw [show i + 1 + k + 1 = i + k + 2 by omega]
        congr 1
        field_simp
        ring
    have hc' : ∀ i, piece t' s (k + 1) i x' = ω' i * f' i + (1 - ω' (i + 1)) * f' (i + 1) := by
      intro i
      rw [piece]
      refine congrArg₂ (· + ·) rfl ?_
      by_cases h0 : piece t' s k (i + 1) x' = 0
      · rw [hf']; simp only [h0, mul_zero]
      · obtain ⟨a1, a2⟩ := piece_support h0
        have := hn' (i + 1) (i + k + 2) (by omega) a1 (by omega) (by omega)
        have hne : t' (i + k + 2) - t' (i + 1) ≠ 0 := (sub_pos.2 this).ne'
        simp only [hωd', hf']
        rw [show i + 1 + k + 1 = i + k + 2 by omega]
        congr 1
        field_simp
        ring
    have f0 : ∀ i, 0 ≤ f i := fun i => piece_nonneg hl hr k i (by omega)
    have fs : ∑ i ∈ range (s + 1), f i = 1 := sum_piece_eq_one x k (by omega) (hn.mono (by omega))
    have top : f (s + 1) = 0 := piece_zero_of_lt t s x k _ (by omega)
    have top' : f' (s + 1) = 0 := piece_zero_of_lt t' s x' k _ (by omega)
    set a := fun i => |ω i * f i - ω' i * f' i|
    set b := fun i => |(1 - ω i) * f i - (1 - ω' i) * f' i|
    have hb0 : b (s + 1) = 0 := by simp only [b, top, top', mul_zero, sub_self, abs_zero]
    have hstep : ∀ i ∈ range (s + 1), a i + b i ≤ |f i - f' i| + 2 * ρ * f i := by
      intro i hi
      have hi : i ≤ s := by have := mem_range.1 hi; omega
      by_cases hz : i + k < s
      · have z1 : f i = 0 := piece_zero_of_gt t s x k i hz
        have z2 : f' i = 0 := piece_zero_of_gt t' s x' k i hz
        simp only [a, b, z1, z2, mul_zero, sub_self, abs_zero, add_zero, le_refl]
      · have hρ := hω i (i + k + 1) (by omega) hi (by omega) (by omega)
        have hlt := sub_pos.2 (hn' i (i + k + 1) (by omega) hi (by omega) (by omega))
        have o0 : 0 ≤ ω' i := div_nonneg (sub_nonneg.2 (hl' i (by omega) hi)) hlt.le
        have o1 : ω' i ≤ 1 := (div_le_one hlt).2 (by have := hr' (i + k + 1) (by omega) (by omega); linarith)
        have ha : a i ≤ ω' i * |f i - f' i| + ρ * f i := by
          have e : ω i * f i - ω' i * f' i = ω' i * (f i - f' i) + (ω i - ω' i) * f i := by ring
          simp only [a]
          rw [e]
          refine (abs_add_le _ _).trans ?_
          rw [abs_mul, abs_mul, abs_of_nonneg o0, abs_of_nonneg (f0 i)]
          exact add_le_add le_rfl (mul_le_mul_of_nonneg_right hρ (f0 i))
        have hb : b i ≤ (1 - ω' i) * |f i - f' i| + ρ * f i := by
          have e : (1 - ω i) * f i - (1 - ω' i) * f' i = (1 - ω' i) * (f i - f' i) + -((ω i - ω' i) * f i) := by ring
          simp only [b]
          rw [e]
          refine (abs_add_le _ _).trans ?_
          rw [abs_mul, abs_neg, abs_mul, abs_of_nonneg (show 0 ≤ 1 - ω' i by linarith), abs_of_nonneg (f0 i)]
          exact add_le_add le_rfl (mul_le_mul_of_nonneg_right hρ (f0 i))
        linarith
    calc ∑ i ∈ range (s + 1), |piece t s (k + 1) i x - piece t' s (k + 1) i x'|
        ≤ ∑ i ∈ range (s + 1), (a i + b (i + 1)) := by
          refine sum_le_sum fun i _ => ?_
          rw [hc, hc']
          have e : ω i * f i + (1 - ω (i + 1)) * f (i + 1) - (ω' i * f' i + (1 - ω' (i + 1)) * f' (i + 1)) =
            (ω i * f i - ω' i * f' i) + ((1 - ω (i + 1)) * f (i + 1) - (1 - ω' (i + 1)) * f' (i + 1)) := by ring
          rw [e]
          exact abs_add_le _ _
      _ ≤ ∑ i ∈ range (s + 1), (a i + b i) := by
          rw [sum_add_distrib, sum_add_distrib]
          refine add_le_add le_rfl ?_
          have h1 := sum_range_succ' b (s + 1)
          have h2 := sum_range_succ b (s + 1)
          rw [h2, hb0, add_zero] at h1
          have h3 : 0 ≤ b 0 := abs_nonneg _
          linarith
      _ ≤ ∑ i ∈ range (s + 1), (|f i - f' i| + 2 * ρ * f i) := sum_le_sum hstep
      _ ≤ _ := by
          rw [sum_add_distrib, ← mul_sum, fs]
          push_cast
          linarith

/-- The two together, for knots of which the two around the segment are `g` apart. -/
theorem piece_near {t t' : ℕ → F} {s p n : ℕ} {x x' δ g : F} (hp : p ≤ s) (hm : ∀ i j, s < i + p → i ≤ j → j ≤ s + p → t i ≤ t j)
    (hm' : ∀ i j, s < i + p → i ≤ j → j ≤ s + p → t' i ≤ t' j) (h0 : 0 < p) (hx : t s ≤ x ∧ x ≤ t (s + 1)) (hx' : t' s ≤ x' ∧ x' ≤ t' (s + 1))
    (hlt : t s < t (s + 1)) (hg : 0 < g) (hg' : g ≤ t' (s + 1) - t' s) (hδ : ∀ i, s < i + p → i ≤ s + p → |t i - t' i| ≤ δ) (hxδ : |x - x'| ≤ δ)
    (hn : s < n) : ∑ i ∈ range n, |piece t s p i x - piece t' s p i x'| ≤ p * (4 * δ / g) := by
  have hl : ∀ i, s < i + p → i ≤ s → t i ≤ x := fun i a b => (hm i s a b (by omega)).trans hx.1
  have hr : ∀ j, s < j → j ≤ s + p → x ≤ t j := fun j a b => hx.2.trans (hm (s + 1) j (by omega) (by omega) b)
  have hl' : ∀ i, s < i + p → i ≤ s → t' i ≤ x' := fun i a b => (hm' i s a b (by omega)).trans hx'.1
  have hr' : ∀ j, s < j → j ≤ s + p → x' ≤ t' j := fun j a b => hx'.2.trans (hm' (s + 1) j (by omega) (by omega) b)
  have hnd : Nondeg t s p := fun i j a b c e => ((hm i s a b (by omega)).trans_lt hlt).trans_le (hm (s + 1) j (by omega) (by omega) e)
  have hgap : ∀ i j, s < i + p → i ≤ s → s < j → j ≤ s + p → g ≤ t' j - t' i := fun i j a b c e => by
    have := hm' i s a b (by omega)
    have := hm' (s + 1) j (by omega) (by omega) e
    linarith
  have hnd' : Nondeg t' s p := fun i j a b c e => by have := hgap i j a b c e; linarith
  have key := piece_perturb (ρ := 2 * δ / g) hp hl hr hl' hr' hnd hnd' (fun i j a b c e =>
    ratio_perturb (hl i a b) (hr j c e) (hnd i j a b c e) (hδ i a (by omega)) (hδ j (by omega) e) hxδ hg (hgap i j a b c e)) p le_rfl
  have e1 : ∑ i ∈ range (s + 1), |piece t s p i x - piece t' s p i x'| = ∑ i ∈ range n, |piece t s p i x - piece t' s p i x'| := by
    refine sum_subset (range_mono (by omega)) fun i _ hi => ?_
    have hi : s < i := by rw [mem_range] at hi; omega
    rw [piece_zero_of_lt _ _ _ _ _ hi, piece_zero_of_lt _ _ _ _ _ hi, sub_self, abs_zero]
  rw [← e1]
  refine key.trans (le_of_eq ?_)
  ring

end Intp
