import Verif.Proofs.PerAxes

/-!
# Wrapping coordinates of other periods in `double`
-/

namespace Intp

open Finset BSpline

theorem zero_isDouble : IsDouble 0 := isDouble_of_round (show F64.round 0 = .fin 0 by decide +kernel)

/-- A coordinate that lies `k` periods away from `x0` is wrapped to a number near `x0`. -/
theorem fl_wrap {lo hi x x0 B : ℚ} {K : ℕ} {k : ℤ} (dlo : IsDouble lo) (dhi : IsDouble hi) (hxd : IsDouble x) (hlo : |lo| ≤ 3 * B) (hhi : |hi| ≤ 3 * B)
    (hlt : lo < hi) (hP : hi - lo ≤ 3 * B) (hK : |k| ≤ K) (hx : x = x0 + k * (hi - lo)) (h1 : k = 0 ∧ lo ≤ x0 ∨ lo + 16 * ((K + 1) * B / 2 ^ 53) ≤ x0)
    (h2 : x0 + 16 * ((K + 1) * B / 2 ^ 53) ≤ hi) (hbig : 16 * ((K + 1) * B) ≤ 2 ^ 1023) :
    ∃ u, Fl.wrapCoord (.fin lo, .fin hi) (F64.fin x) = .ok (.fin u) ∧ IsDouble u ∧ lo ≤ u ∧ u < hi ∧ |u - x0| ≤ 16 * ((K + 1) * B / 2 ^ 53) := by
  obtain ⟨Z, hZ⟩ : ∃ Z, (2 : ℚ) ^ 1023 = Z := ⟨_, rfl⟩
  rw [hZ] at hbig
  have hle : ∀ q : ℚ, q ≤ Z → q ≤ 2 ^ 1023 := fun q h => by rw [hZ]; exact h
  clear hZ
  have hB0 : 0 < B := by linarith
  have hK0 : (0 : ℚ) ≤ K := Nat.cast_nonneg _
  have hkq : |(k : ℚ)| ≤ K := by exact_mod_cast hK
  obtain ⟨hk1, hk2⟩ := abs_le.1 hkq
  -- the unit of the estimates
  set ε := B / 2 ^ 53 with hε
  have hε0 : 0 < ε := by positivity
  set η := (K : ℚ) * ε with hη
  have hη0 : 0 ≤ η := by positivity
  have e0 : (K + 1) * B / 2 ^ 53 = η + ε := by rw [hη, hε]; ring
  rw [e0] at h1 h2 ⊢
  have hx0 : lo ≤ x0 := by 
    rcases h1 with h | h
    · exact h.2
    · linarith
  have hPK : |(k : ℚ) * (hi - lo)| ≤ 3 * (K * B) := by
    rw [abs_mul, abs_of_pos (show 0 < hi - lo by linarith)]
    have := mul_le_mul hkq hP (by linarith) hK0
    linarith
  obtain ⟨g1, g2⟩ := abs_le.1 hPK
  have hxl : |x - lo| ≤ 3 * ((K + 1) * B) := by
    rw [abs_le]; constructor <;> linarith
  have hKB : 0 ≤ K * B := by positivity
  have hKB2 : 16 * B ≤ Z := by linarith
  obtain ⟨p, a1, a2, a3, a4⟩ := fl_sub dhi dlo (hle _ (by
    rw [abs_of_pos (by linarith)]
    linarith))
  obtain ⟨z, b1, b2, b3, b4⟩ := fl_sub hxd dlo (hle _ (by linarith))
  have a3' : |p - (hi - lo)| ≤ 3 * ε := by
    refine a3.trans ?_
    rw [abs_of_pos (by linarith), hε]
    have := div_le_div_of_nonneg_right hP (show (0 : ℚ) ≤ 2 ^ 53 by norm_num)
    linarith
  have b3' : |z - (x - lo)| ≤ 3 * (η + ε) := by
    refine b3.trans ?_
    rw [← e0]
    have := div_le_div_of_nonneg_right hxl (show (0 : ℚ) ≤ 2 ^ 53 by norm_num)
    linarith
  have hp0 : 0 < p := by
    have := abs_le.1 a3'
    linarith
  have hkp : |(k : ℚ) * (p - (hi - lo))| ≤ 3 * η := by
    rw [abs_mul]
    have := mul_le_mul hkq a3' (abs_nonneg _) hK0
    rw [hη]; linarith
  obtain ⟨c1, c2⟩ := abs_le.1 hkp
  obtain ⟨b5, b6⟩ := abs_le.1 b3'
  obtain ⟨a5, a6⟩ := abs_le.1 a3'
  -- distance from `lo` up to rounding
  set δ := z - k * p with hδ
  have d1 : |δ - (x0 - lo)| ≤ 6 * η + 3 * ε := by
    have e1 : δ - (x0 - lo) = z - (x - lo) - k * (p - (hi - lo)) := by rw [hδ, hx]; ring
    rw [e1, abs_le]; constructor <;> linarith
  obtain ⟨d3, d4⟩ := abs_le.1 d1
  have d0 : 0 ≤ δ ∧ (k ≠ 0 → 10 * η + 13 * ε ≤ δ) := by
    rcases h1 with ⟨rfl, h⟩ | h
    · refine ⟨?_, fun h => absurd rfl h⟩
      rw [hδ, b4, hx]
      simp only [Int.cast_zero, zero_mul, sub_zero, add_zero]
      exact F64.rnd_nonneg (by linarith)
    · exact ⟨by linarith, fun _ => by linarith⟩
  have d2 : δ + 10 * η + 10 * ε ≤ p := by linarith
  obtain ⟨r, j, r1, r2, r3, r4, r5, r6⟩ := double_fmod b2 a2 hp0.ne'
  rw [abs_of_pos hp0] at r3
  obtain ⟨r7, r8⟩ := abs_lt.1 r3
  have hself : ∀ q : ℚ, IsDouble q → |q| ≤ 16 * B → F64.round q = .fin q := fun q hq hb => by
    rw [F64.round_fits, F64.rnd_of_rep hq.rep]
    show |q| ≤ 2 ^ (1023 : ℤ)
    exact_mod_cast hle _ (hb.trans hKB2)
  have hε8 : ε ≤ B / 2 ^ 10 := by rw [hε]; exact div_le_div_of_nonneg_left hB0.le (by norm_num) (by norm_num)
  obtain ⟨l1, l2⟩ := abs_le.1 hlo
  obtain ⟨l3, l4⟩ := abs_le.1 hhi
  by_cases hside : x < lo
  · have hk : k ≤ -1 := by
      by_contra hc
      have : (0 : ℚ) ≤ k := by exact_mod_cast (by omega : 0 ≤ k)
      have := mul_nonneg this (show 0 ≤ hi - lo by linarith)
      linarith
    have hK1 : (1 : ℚ) ≤ K := by
      have : (k : ℚ) ≤ -1 := by exact_mod_cast hk
      linarith
    have hεη : ε ≤ η := le_mul_of_one_le_left hε0.le hK1
    have hz : z ≤ 0 := by
      rw [b4]
      have := F64.rnd_mono (show x - lo ≤ 0 by linarith)
      rwa [F64.rnd_of_rep zero_isDouble.rep] at this
    have hr0 := r5 hz
    have dpos := d0.2 (by omega)
    have hr : r = δ - p := by
      have e1 : r - δ = (k - j : ℚ) * p := by rw [r2, hδ]; ring
      have k1 : ((k : ℚ) - j) * p < 0 * p := by rw [← e1]; linarith
      have k2 : (-2 : ℚ) * p < (k - j) * p := by rw [← e1]; linarith
      have k3 := lt_of_mul_lt_mul_right k1 hp0.le
      have k4 := lt_of_mul_lt_mul_right k2 hp0.le
      have k5 : k - j = -1 := by
        have h3 : k - j < 0 := by exact_mod_cast k3
        have h4 : -2 < k - j := by exact_mod_cast k4
        omega
      have k6 : (k : ℚ) - j = -1 := by exact_mod_cast k5
      rw [k6] at e1
      linarith
    have hs0 : |lo + r| ≤ 7 * B := by rw [abs_le]; constructor <;> linarith
    obtain ⟨s, s1, s2, s3, s4⟩ := fl_add dlo r6 (hle _ (by linarith))
    have s3' : |s - (lo + r)| ≤ 7 * ε := by
      refine s3.trans ?_
      rw [hε]
      have := div_le_div_of_nonneg_right hs0 (show (0 : ℚ) ≤ 2 ^ 53 by norm_num)
      linarith
    obtain ⟨s5, s6⟩ := abs_le.1 s3'
    have hv0 : |s + p| ≤ 4 * B := by rw [abs_le]; constructor <;> linarith
    obtain ⟨v, v1, v2, v3, v4⟩ := fl_add s2 a2 (hle _ (by linarith))
    have v3' : |v - (s + p)| ≤ 4 * ε := by
      refine v3.trans ?_
      rw [hε]
      have := div_le_div_of_nonneg_right hv0 (show (0 : ℚ) ≤ 2 ^ 53 by norm_num)
      linarith
    obtain ⟨v5, v6⟩ := abs_le.1 v3'
    refine ⟨v, ?_, v2, by linarith, by linarith, ?_⟩
    · unfold Fl.wrapCoord
      simp only
      rw [a1, b1, r1, ok_bind, s1, if_pos ((double_ops x lo 0).2.2.2.2.2.2.1.2 hside), v1]
      rfl
    · rw [abs_le]; constructor <;> linarith
  · have hside' := not_lt.1 hside
    have hk : 0 ≤ k := by
      by_contra hc
      have h5 : (k : ℚ) ≤ -1 := by exact_mod_cast (by omega : k ≤ -1)
      have := mul_le_mul_of_nonneg_right h5 (show 0 ≤ hi - lo by linarith)
      linarith
    have hz : 0 ≤ z := by rw [b4]; exact F64.rnd_nonneg (by linarith)
    have hr0 := r4 hz
    have hr : r = δ := by
      have e1 : r - δ = (k - j : ℚ) * p := by rw [r2, hδ]; ring
      have k1 : ((k : ℚ) - j) * p < 1 * p := by rw [← e1]; linarith
      have k2 : (-1 : ℚ) * p < (k - j) * p := by rw [← e1]; linarith
      have k3 := lt_of_mul_lt_mul_right k1 hp0.le
      have k4 := lt_of_mul_lt_mul_right k2 hp0.le
      have k5 : k - j = 0 := by
        have h3 : k - j < 1 := by exact_mod_cast k3
        have h4 : -1 < k - j := by exact_mod_cast k4
        omega
      have k6 : (k : ℚ) - j = 0 := by exact_mod_cast k5
      rw [k6] at e1
      linarith
    have hs0 : |lo + r| ≤ 4 * B := by rw [abs_le]; constructor <;> linarith
    obtain ⟨s, s1, s2, s3, s4⟩ := fl_add dlo r6 (hle _ (by linarith))
    have s3' : |s - (lo + r)| ≤ 4 * ε := by
      refine s3.trans ?_
      rw [hε]
      have := div_le_div_of_nonneg_right hs0 (show (0 : ℚ) ≤ 2 ^ 53 by norm_num)
      linarith
    obtain ⟨s5, s6⟩ := abs_le.1 s3'
    refine ⟨s, ?_, s2, ?_, by linarith, ?_⟩
    · unfold Fl.wrapCoord
      simp only
      rw [a1, b1, r1, ok_bind, s1, if_neg (fun hc => hside ((double_ops x lo 0).2.2.2.2.2.2.1.1 hc))]
      have : (F64.fin s + 0 : F64) = .fin s := by
        show (F64.fin s + F64.fin 0 : F64) = _
        rw [F64.add_fin, add_zero]
        refine hself s s2 ?_
        rw [abs_le]; obtain ⟨t1, t2⟩ := abs_le.1 hs0; constructor <;> linarith
      rw [this]
      rfl
    · rw [s4]
      have := F64.rnd_mono (show lo ≤ lo + r by linarith)
      rwa [F64.rnd_of_rep dlo.rep] at this
    · rw [abs_le]; constructor <;> linarith

end Intp
