import Verif.Proofs.F64Round
import Mathlib.Tactic.Ring
import Mathlib.Algebra.Ring.Int.Parity

/-! # `F64.rnd` picks the nearest number with 53 bits, the even one in the middle -/

namespace Intp.F64

theorem nearest_le (m : ℚ) (k : ℤ) : |(nearest m : ℚ) - m| ≤ |(k : ℚ) - m| := by
  by_cases h : k = nearest m
  · rw [h]
  · have h1 := nearest_spec m
    have h2 : (1 : ℚ) ≤ |(k : ℚ) - nearest m| := by
      have : 1 ≤ |k - nearest m| := Int.one_le_abs (sub_ne_zero.2 h)
      exact_mod_cast this
    have h3 : |(k : ℚ) - nearest m| ≤ |(k : ℚ) - m| + |(nearest m : ℚ) - m| := by
      have := abs_sub_le (k : ℚ) m (nearest m)
      rwa [abs_sub_comm m] at this
    linarith

/-- In the middle of two integers the even one is taken. -/
theorem nearest_even {m : ℚ} {k : ℤ} (hk : k ≠ nearest m) (h : |(k : ℚ) - m| = |(nearest m : ℚ) - m|) :
    Even (nearest m) ∧ |k - nearest m| = 1 := by
  have h1 := nearest_spec m
  have h2 : 1 ≤ |k - nearest m| := Int.one_le_abs (sub_ne_zero.2 hk)
  have h2' : (1 : ℚ) ≤ |(k : ℚ) - nearest m| := by exact_mod_cast h2
  have h3 : |(k : ℚ) - nearest m| ≤ |(k : ℚ) - m| + |(nearest m : ℚ) - m| := by
    have := abs_sub_le (k : ℚ) m (nearest m)
    rwa [abs_sub_comm m] at this
  have h4 : |(nearest m : ℚ) - m| = 1 / 2 := by linarith
  have h5 : |(k : ℚ) - nearest m| = 1 := by linarith
  refine ⟨?_, by exact_mod_cast h5⟩
  have f1 := Int.floor_le m
  have f2 := Int.lt_floor_add_one m
  unfold nearest at h4 ⊢
  simp only [div_eq_floor] at h4 ⊢
  split at h4
  · rename_i hr
    rw [abs_sub_comm, abs_of_nonneg (by linarith)] at h4
    linarith
  · rename_i hr
    split at h4
    · rename_i hr'
      push_cast at h4
      rw [abs_of_nonneg (by linarith)] at h4
      linarith
    · rename_i hr'
      rw [if_neg hr, if_neg hr']
      split
      · rename_i he; exact Int.even_iff.2 he
      · rename_i he
        have : Odd ⌊m⌋ := by rw [Int.odd_iff]; omega
        exact this.add_one

/-- Numbers with 53 bits and exponents bounded below only. -/
def Rep (z : ℚ) : Prop := ∃ m e : ℤ, |m| < 2 ^ 53 ∧ -1074 ≤ e ∧ z = m * (2 : ℚ) ^ e

theorem rep_zero : Rep 0 := ⟨0, 0, by norm_num, by norm_num, by simp⟩

/-- A significand with one more unit is allowed. -/
theorem Rep.of_le {m e : ℤ} (hm : |m| ≤ 2 ^ 53) (he : -1074 ≤ e) : Rep (m * (2 : ℚ) ^ e) := by
  rcases hm.lt_or_eq with h | h
  · exact ⟨m, e, h, he, rfl⟩
  · have h2 : (2 : ℚ) ^ (e + 1) = 2 ^ e * 2 := zpow_add_one₀ (by norm_num) e
    rcases abs_eq (by norm_num : (0 : ℤ) ≤ 2 ^ 53) |>.1 h with rfl | rfl
    · refine ⟨2 ^ 52, e + 1, by norm_num, by omega, ?_⟩
      rw [h2]; push_cast; ring
    · refine ⟨-2 ^ 52, e + 1, by norm_num, by omega, ?_⟩
      rw [h2]; push_cast; ring

theorem last_ge (q : ℚ) : -1074 ≤ last q := le_max_right _ _

theorem abs_div_last {q : ℚ} (hq : q ≠ 0) : |q / 2 ^ last q| < 2 ^ 53 := by
  have h := (expo_spec hq).2
  have hp : (0 : ℚ) < 2 ^ last q := by positivity
  rw [abs_div, abs_of_pos hp, div_lt_iff₀ hp]
  refine h.trans_le ?_
  have : (2 : ℚ) ^ 53 * 2 ^ last q = 2 ^ (53 + last q) := by rw [zpow_add₀ (by norm_num)]; norm_cast
  rw [this]
  refine zpow_le_zpow_right₀ (by norm_num) ?_
  have : expo q - 52 ≤ last q := le_max_left _ _
  omega

theorem rep_rnd (q : ℚ) : Rep (rnd q) := by
  unfold rnd
  split
  · exact rep_zero
  · rename_i hq
    rw [pow2_eq]
    refine Rep.of_le ?_ (last_ge q)
    have h1 := abs_div_last hq
    have h2 := nearest_spec (q / 2 ^ last q)
    have h3 : |(nearest (q / 2 ^ last q) : ℚ)| < 2 ^ 53 + 1 := by
      have := abs_add_le ((nearest (q / 2 ^ last q) : ℚ) - q / 2 ^ last q) (q / 2 ^ last q)
      rw [sub_add_cancel] at this
      linarith
    have h4 : |nearest (q / 2 ^ last q)| < 2 ^ 53 + 1 := by exact_mod_cast h3
    omega

/-- A number with 53 bits is a multiple of the last place, or smaller than all numbers with the exponent of `q`. -/
theorem Rep.cases {z q : ℚ} (hz : Rep z) (hq : q ≠ 0) : (∃ k : ℤ, z = k * (2 : ℚ) ^ last q) ∨ (last q = expo q - 52 ∧ |z| < 2 ^ expo q) := by
  obtain ⟨m, e, hm, he, rfl⟩ := hz
  by_cases h : last q ≤ e
  · left
    obtain ⟨n, hn⟩ := Int.eq_ofNat_of_zero_le (show 0 ≤ e - last q by omega)
    refine ⟨m * 2 ^ n, ?_⟩
    rw [show e = (n : ℤ) + last q by omega, zpow_add₀ (by norm_num)]
    push_cast
    rw [zpow_natCast]; ring
  · right
    have hl : last q = expo q - 52 := by unfold last at h ⊢; omega
    refine ⟨hl, ?_⟩
    rw [abs_mul, abs_of_pos (show (0 : ℚ) < 2 ^ e by positivity)]
    have h1 : |(m : ℚ)| < 2 ^ (53 : ℤ) := by exact_mod_cast hm
    calc |(m : ℚ)| * 2 ^ e < 2 ^ (53 : ℤ) * 2 ^ e := mul_lt_mul_of_pos_right h1 (by positivity)
      _ = 2 ^ (53 + e) := (zpow_add₀ (by norm_num) _ _).symm
      _ ≤ 2 ^ expo q := zpow_le_zpow_right₀ (by norm_num) (by omega)

theorem rnd_eq {q : ℚ} (hq : q ≠ 0) : rnd q = nearest (q / 2 ^ last q) * (2 : ℚ) ^ last q := by
  unfold rnd
  rw [if_neg hq, pow2_eq]

theorem scale_sub {q Δ : ℚ} (hΔ : 0 < Δ) (k : ℤ) : |(k : ℚ) * Δ - q| = |(k : ℚ) - q / Δ| * Δ := by
  rw [← abs_of_pos hΔ, ← abs_mul, abs_of_pos hΔ]
  congr 1
  field_simp

theorem rnd_le_mult {q : ℚ} (hq : q ≠ 0) (k : ℤ) : |rnd q - q| ≤ |(k : ℚ) * 2 ^ last q - q| := by
  have hp : (0 : ℚ) < 2 ^ last q := by positivity
  rw [rnd_eq hq, scale_sub hp, scale_sub hp]
  exact mul_le_mul_of_nonneg_right (nearest_le _ _) hp.le

/-- A smaller number is further away. -/
theorem rnd_lt_small {z q : ℚ} (hq : q ≠ 0) (hl : last q = expo q - 52) (hz : |z| < 2 ^ expo q) : |rnd q - q| < |z - q| := by
  have h1 := (expo_spec hq).1
  have hk : (2 : ℚ) ^ expo q = 4503599627370496 * 2 ^ last q := by
    rw [show (4503599627370496 : ℚ) = 2 ^ 52 by norm_num, hl, ← zpow_natCast, ← zpow_add₀ (by norm_num)]; congr 1; push_cast; ring
  have h2 : |rnd q - q| ≤ |q| - 2 ^ expo q := by
    rcases le_total 0 q with h0 | h0
    · have := rnd_le_mult hq (2 ^ 52)
      push_cast at this
      rw [← hk] at this
      rw [abs_of_nonneg h0] at h1 ⊢
      rw [abs_sub_comm (2 ^ expo q) q, abs_of_nonneg (by linarith : 0 ≤ q - 2 ^ expo q)] at this
      exact this
    · have := rnd_le_mult hq (-2 ^ 52)
      push_cast at this
      rw [neg_mul, ← hk] at this
      rw [abs_of_nonpos h0] at h1 ⊢
      rw [abs_of_nonneg (by linarith : 0 ≤ -2 ^ expo q - q)] at this
      linarith
  have h3 : |q| - |z| ≤ |z - q| := by
    rw [abs_sub_comm]; exact abs_sub_abs_le_abs_sub q z
  linarith

theorem rnd_nearest {z : ℚ} (hz : Rep z) (q : ℚ) : |rnd q - q| ≤ |z - q| := by
  by_cases hq : q = 0
  · subst hq; rw [rnd_zero]; simp
  rcases hz.cases hq with ⟨k, rfl⟩ | ⟨h1, h2⟩
  · exact rnd_le_mult hq k
  · exact (rnd_lt_small hq h1 h2).le

theorem rnd_of_rep {z : ℚ} (hz : Rep z) : rnd z = z := by
  have := rnd_nearest hz z
  rw [sub_self, abs_zero] at this
  exact sub_eq_zero.1 (abs_eq_zero.1 (le_antisymm this (abs_nonneg _)))

theorem rnd_tie {z q : ℚ} (hz : Rep z) (hne : z ≠ rnd q) (h : |z - q| = |rnd q - q|) :
    ∃ m e : ℤ, rnd q = (2 * m : ℤ) * (2 : ℚ) ^ e ∧ |z - rnd q| = 2 ^ e := by
  by_cases hq : q = 0
  · subst hq; rw [rnd_zero] at hne h; simp at h; exact absurd h hne
  rcases hz.cases hq with ⟨k, rfl⟩ | ⟨h1, h2⟩
  · have hp : (0 : ℚ) < 2 ^ last q := by positivity
    have hr := rnd_eq hq
    have hk : k ≠ nearest (q / 2 ^ last q) := by
      rintro rfl; exact hne hr.symm
    rw [hr, scale_sub hp, scale_sub hp] at h
    obtain ⟨h1, h2⟩ := nearest_even hk (mul_right_cancel₀ hp.ne' h)
    obtain ⟨m, hm⟩ := h1
    refine ⟨m, last q, ?_, ?_⟩
    · rw [hr, hm]; congr 2; ring
    · rw [hr, ← sub_mul, abs_mul, abs_of_pos hp]
      have : |(k : ℚ) - nearest (q / 2 ^ last q)| = 1 := by exact_mod_cast h2
      rw [this, one_mul]
  · exact absurd h (rnd_lt_small hq h1 h2).ne'

theorem rnd_mono {p q : ℚ} (h : p ≤ q) : rnd p ≤ rnd q := by
  by_contra hc
  have hc := not_le.1 hc
  have h1 := rnd_nearest (rep_rnd q) p
  have h2 := rnd_nearest (rep_rnd p) q
  have hpq : p ≠ q := by rintro rfl; exact lt_irrefl _ hc
  have hlt : p < q := lt_of_le_of_ne h hpq
  -- the midpoint is between `q` and `p`
  have m1 : (rnd p + rnd q) / 2 ≤ p := by
    by_contra hm
    have hm := not_le.1 hm
    have : |rnd q - p| < |rnd p - p| := by
      rw [abs_of_pos (by linarith : 0 < rnd p - p), abs_lt]
      constructor <;> linarith
    linarith
  have m2 : q ≤ (rnd p + rnd q) / 2 := by
    by_contra hm
    have hm := not_le.1 hm
    have : |rnd p - q| < |rnd q - q| := by
      rw [abs_sub_comm (rnd q), abs_of_pos (by linarith : 0 < q - rnd q), abs_lt]
      constructor <;> linarith
    linarith
  linarith

theorem rep_neg {z : ℚ} (hz : Rep z) : Rep (-z) := by
  obtain ⟨m, e, h1, h2, rfl⟩ := hz
  exact ⟨-m, e, by rwa [abs_neg], h2, by push_cast; ring⟩

theorem expo_neg (q : ℚ) : expo (-q) = expo q := by
  unfold expo; simp

theorem last_neg (q : ℚ) : last (-q) = last q := by unfold last; rw [expo_neg]

theorem rep_big : Rep (2 ^ 1024 - 2 ^ 971) := ⟨2 ^ 53 - 1, 971, by norm_num, by norm_num, by decide +kernel⟩

theorem rnd_big : rnd (2 ^ 1024 - 2 ^ 970) = 2 ^ 1024 ∧ rnd (-(2 ^ 1024 - 2 ^ 970)) = -2 ^ 1024 :=
  ⟨by decide +kernel, by decide +kernel⟩

theorem pow_facts : (2 : ℚ) ^ 971 = 2 * 2 ^ 970 := by decide +kernel

/-- The threshold of overflow. -/
theorem overflow_iff (q : ℚ) : pow2 1024 ≤ |rnd q| ↔ (2 : ℚ) ^ 1024 - 2 ^ 970 ≤ |q| := by
  have e : pow2 1024 = (2 : ℚ) ^ 1024 := by decide +kernel
  have h971 := pow_facts
  have hm : (0 : ℚ) < 2 ^ 970 ∧ (2 : ℚ) ^ 970 < 2 ^ 1024 - 2 ^ 971 := ⟨by decide +kernel, by decide +kernel⟩
  have b1 := rnd_big.1
  have b2 := rnd_big.2
  have r1 := rep_big
  rw [e]
  generalize (2 : ℚ) ^ 1024 = A at *
  generalize (2 : ℚ) ^ 971 = B at *
  generalize (2 : ℚ) ^ 970 = C at *
  have r2 := rep_neg r1
  constructor
  · intro h
    by_contra hc
    have hc := not_le.1 hc
    have n1 := rnd_nearest r1 q
    have n2 := rnd_nearest r2 q
    rw [abs_lt] at hc
    have key : |rnd q| < A := by
      rw [abs_lt]
      constructor
      · by_cases hq : -(A - B) ≤ q
        · have := rnd_mono hq
          rw [rnd_of_rep r2] at this
          linarith
        · have hq := not_le.1 hq
          rw [abs_of_pos (by linarith : 0 < -(A - B) - q), abs_le] at n2
          linarith
      · by_cases hq : q ≤ A - B
        · have := rnd_mono hq
          rw [rnd_of_rep r1] at this
          linarith
        · have hq := not_le.1 hq
          rw [abs_of_neg (by linarith : A - B - q < 0), abs_le] at n1
          linarith
    linarith
  · intro h
    rcases le_abs.1 h with h | h
    · have := rnd_mono h
      rw [b1] at this
      exact this.trans (le_abs_self _)
    · have := rnd_mono (show q ≤ -(A - C) by linarith)
      rw [b2] at this
      exact le_trans (by linarith) (neg_le_abs (rnd q))

end Intp.F64
