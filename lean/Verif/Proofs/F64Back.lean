import Verif.Backward
import Verif.Proofs.F64Round

/-! # `double` satisfies the laws of `Verif/Backward.lean` -/

namespace Intp.F64

theorem rnd_error_res (q : ℚ) : |rnd q - q| ≤ u * |rnd q| + η := by
  by_cases hq : q = 0
  · subst hq; rw [rnd_zero]; simp; exact η_pos.le
  by_cases h : -1074 ≤ expo q - 52
  · have hl : last q = expo q - 52 := max_eq_left h
    have h0 : (0 : ℚ) < 2 ^ last q := by positivity
    have h1 : (2 : ℚ) ^ last q / 2 = u * 2 ^ expo q := by
      rw [hl]; unfold u
      rw [← zpow_add₀ (by norm_num), div_eq_iff (by norm_num), ← zpow_add_one₀ (by norm_num)]
      congr 1; ring
    have h2 : (2 : ℚ) ^ expo q = 2 ^ 52 * 2 ^ last q := by
      rw [hl, ← zpow_natCast, ← zpow_add₀ (by norm_num)]
      congr 1; push_cast; ring
    have h3 : (2 : ℚ) ^ expo q ≤ |rnd q| := by
      have e : rnd q = (nearest (q / 2 ^ last q) : ℚ) * 2 ^ last q := by unfold rnd; rw [if_neg hq, pow2_eq]
      rw [e, abs_mul, abs_of_pos h0, h2]
      refine mul_le_mul_of_nonneg_right ?_ h0.le
      have h4 : (2 : ℚ) ^ 52 ≤ |q / 2 ^ last q| := by
        rw [abs_div, abs_of_pos h0, le_div_iff₀ h0, ← h2]; exact (expo_spec hq).1
      have h5 := nearest_spec (q / 2 ^ last q)
      have h6 : (2 : ℚ) ^ 52 - 1 / 2 ≤ |(nearest (q / 2 ^ last q) : ℚ)| := by
        have := abs_sub_abs_le_abs_sub (q / 2 ^ last q) (nearest (q / 2 ^ last q) : ℚ)
        rw [abs_sub_comm] at this
        linarith
      have h7 : (2 : ℤ) ^ 52 - 1 < |nearest (q / 2 ^ last q)| := by
        have : ((2 ^ 52 - 1 : ℤ) : ℚ) < ((|nearest (q / 2 ^ last q)| : ℤ) : ℚ) := by
          push_cast; linarith
        exact_mod_cast this
      have h8 : (2 : ℤ) ^ 52 ≤ |nearest (q / 2 ^ last q)| := by omega
      exact_mod_cast h8
    refine (rnd_half q).trans ?_
    rw [h1]
    have := mul_le_mul_of_nonneg_left h3 u_pos.le
    have := η_pos
    linarith
  · refine (rnd_half q).trans ?_
    have : last q = -1074 := max_eq_right (by omega)
    rw [this]
    have h2 : (2 : ℚ) ^ (-1074 : ℤ) / 2 = η := by
      unfold η
      rw [div_eq_iff (by norm_num), ← zpow_add_one₀ (by norm_num)]; rfl
    rw [h2]
    have := mul_nonneg u_pos.le (abs_nonneg (rnd q))
    linarith

/-- Neither an infinity nor a nan. -/
def IsFin : F64 → Prop
  | fin _ => True
  | _ => False

theorem isFin_iff {a : F64} : a.IsFin ↔ ∃ q, a = .fin q := by
  cases a <;> simp [IsFin]

theorem round_isFin {q : ℚ} (h : (round q).IsFin) : round q = .fin (rnd q) := by
  unfold round at *
  simp only at *
  split at h
  · exact h.elim
  · rename_i hc; rw [if_neg hc]

theorem sub_back {a b : F64} (h : (a - b).IsFin) :
    a.IsFin ∧ b.IsFin ∧ |toRat a - toRat b - toRat (a - b)| ≤ u * |toRat (a - b)| + η := by
  have key : ∀ a b : F64, (add a (neg b)).IsFin → a.IsFin ∧ b.IsFin := by
    rintro (_ | s | a) (_ | t | b) h <;> simp only [add, neg] at h <;>
      first | exact False.elim h | (split at h <;> exact False.elim h) | exact ⟨trivial, trivial⟩
  obtain ⟨ha, hb⟩ := key a b h
  refine ⟨ha, hb, ?_⟩
  obtain ⟨a, rfl⟩ := isFin_iff.1 ha
  obtain ⟨b, rfl⟩ := isFin_iff.1 hb
  rw [sub_fin] at *
  rw [round_isFin h, abs_sub_comm]
  exact rnd_error_res _

theorem mul_back {a b : F64} (h : (a * b).IsFin) :
    a.IsFin ∧ b.IsFin ∧ |toRat (a * b) - toRat a * toRat b| ≤ u * |toRat a * toRat b| + η := by
  have key : ∀ a b : F64, (mul a b).IsFin → a.IsFin ∧ b.IsFin := by
    rintro (_ | s | a) (_ | t | b) h <;> simp only [mul] at h <;>
      first | exact False.elim h | (split at h <;> exact False.elim h) | exact ⟨trivial, trivial⟩
  obtain ⟨ha, hb⟩ := key a b h
  refine ⟨ha, hb, ?_⟩
  obtain ⟨a, rfl⟩ := isFin_iff.1 ha
  obtain ⟨b, rfl⟩ := isFin_iff.1 hb
  rw [mul_fin] at *
  rw [round_isFin h]
  exact rnd_error _

theorem div_back {a b : F64} (h : (div a b).IsFin) (hb : b.IsFin) :
    a.IsFin ∧ toRat b ≠ 0 ∧ |toRat (div a b) - toRat a / toRat b| ≤ u * |toRat (div a b)| + η := by
  obtain ⟨b, rfl⟩ := isFin_iff.1 hb
  rcases a with _ | s | a
  · exact h.elim
  · exact h.elim
  · by_cases h0 : b = 0
    · exfalso
      unfold div at h
      simp only [if_pos h0] at h
      split at h <;> exact h.elim
    · have e : div (fin a) (fin b) = round (a / b) := by unfold div; simp only [if_neg h0]
      rw [e] at h ⊢
      refine ⟨trivial, h0, ?_⟩
      rw [round_isFin h]
      exact rnd_error_res _

/-- `double` as coordinate type. -/
def coordBack : BackK F64 ℚ where
  val := toRat
  Fin := IsFin
  u := u
  η := η
  u_nonneg := u_pos.le
  η_nonneg := η_pos.le
  sub _ _ := sub_back
  mul _ _ := mul_back
  div a b z h hz hb := by
    cases h
    exact div_back hz hb

/-- `double` as value type. -/
def valueBack : BackV coordBack F64 where
  val := toRat
  Fin := IsFin
  sub _ _ := sub_back
  smul a v h := mul_back h
  div v a z h hz hb := by
    cases h
    exact div_back hz hb

end Intp.F64
