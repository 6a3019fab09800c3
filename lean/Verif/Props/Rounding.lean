import Mathlib.Data.EReal.Inv
import Verif.Proofs.F64Nearest
import Verif.Proofs.RoundEval
import Verif.Proofs.FloatSafe
import Verif.Props.Spline

/-!
# C72–C75: accuracy

C72 says that the `double` of `Verif/Float64.lean` rounds as IEEE 754 asks for.  C73 and C74 bound the errors of basis functions and of evaluation:
first for any arithmetic with bounded rounding errors (`RoundK`, `RoundV` in `Verif/Rounding.lean`), then for `double`.
-/

namespace Intp

open Finset

/-! ## C72: rounding -/

/-- The finite numbers of IEEE 754 binary64. -/
def IsDouble (z : ℚ) : Prop := ∃ m e : ℤ, |m| < 2 ^ 53 ∧ -1074 ≤ e ∧ e ≤ 971 ∧ z = m * (2 : ℚ) ^ e

theorem IsDouble.rep {z : ℚ} (h : IsDouble z) : F64.Rep z := by
  obtain ⟨m, e, h1, h2, -, h4⟩ := h
  exact ⟨m, e, h1, h2, h4⟩

theorem IsDouble.grid {z : ℚ} (h : IsDouble z) : F64.Grid z := by
  obtain ⟨m, e, -, h2, -, rfl⟩ := h
  exact F64.grid_of_last m h2

theorem F64.Rep.isDouble {z : ℚ} (h : F64.Rep z) (hz : |z| < 2 ^ (1024 : ℤ)) : IsDouble z := by
  obtain ⟨m, e, h1, h2, rfl⟩ := h
  by_cases he : e ≤ 971
  · exact ⟨m, e, h1, h2, he, rfl⟩
  · obtain ⟨n, hn⟩ := Int.eq_ofNat_of_zero_le (show 0 ≤ e - 971 by omega)
    have e1 : (m : ℚ) * 2 ^ e = ((m * 2 ^ n : ℤ) : ℚ) * 2 ^ (971 : ℤ) := by
      rw [show e = (n : ℤ) + 971 by omega, zpow_add₀ (by norm_num)]
      push_cast
      rw [zpow_natCast]; ring
    refine ⟨m * 2 ^ n, 971, ?_, by norm_num, le_rfl, e1⟩
    rw [e1, abs_mul, abs_of_pos (show (0 : ℚ) < 2 ^ (971 : ℤ) by positivity), show (1024 : ℤ) = 53 + 971 by norm_num, zpow_add₀ (by norm_num)] at hz
    have h3 := lt_of_mul_lt_mul_right hz (by positivity)
    exact_mod_cast h3

/-- **C72.** An exact result below the threshold of overflow is rounded to a `double`, to the nearest of all, and to the one with even significand if
two are equally near.  The error is at most `2 ^ -53` relative to the result if this is not subnormal, and at most `2 ^ -1075` otherwise. -/
theorem double_round (q : ℚ) (hq : |q| < 2 ^ 1024 - 2 ^ 970) :
    ∃ r, F64.round q = .fin r ∧ IsDouble r ∧ (∀ z, IsDouble z → |r - q| ≤ |z - q|) ∧
      (∀ z, IsDouble z → z ≠ r → |z - q| = |r - q| → ∃ m e : ℤ, r = (2 * m : ℤ) * (2 : ℚ) ^ e ∧ |z - r| = 2 ^ e) ∧
      ((2 : ℚ) ^ (-1022 : ℤ) ≤ |q| → |r - q| ≤ 2 ^ (-53 : ℤ) * |q|) ∧ (|q| < (2 : ℚ) ^ (-1022 : ℤ) → |r - q| ≤ 2 ^ (-1075 : ℤ)) := by
  have h1 : ¬ F64.pow2 1024 ≤ |F64.rnd q| := fun h => absurd ((F64.overflow_iff q).1 h) (not_le.2 hq)
  refine ⟨F64.rnd q, ?_, ?_, fun z hz => F64.rnd_nearest hz.rep q, fun z hz => F64.rnd_tie hz.rep, fun h => ?_, fun h => ?_⟩
  · unfold F64.round
    simp only
    rw [if_neg h1]
  · refine (F64.rep_rnd q).isDouble ?_
    rw [not_le, F64.pow2_eq] at h1
    exact h1
  · have h0 : q ≠ 0 := by
      rintro rfl
      rw [abs_zero] at h
      exact absurd (show (0 : ℚ) < 2 ^ (-1022 : ℤ) by positivity) (not_lt.2 h)
    refine F64.rnd_normal h0 ?_
    have := h.trans_lt (F64.expo_spec h0).2
    have := (zpow_lt_zpow_iff_right₀ (by norm_num : (1 : ℚ) < 2)).1 this
    omega
  · by_cases h0 : q = 0
    · subst h0; rw [F64.rnd_zero, sub_zero, abs_zero]; positivity
    refine (F64.rnd_half q).trans ?_
    have := (F64.expo_spec h0).1.trans_lt h
    have := (zpow_lt_zpow_iff_right₀ (by norm_num : (1 : ℚ) < 2)).1 this
    have hl : F64.last q = -1074 := max_eq_right (by omega)
    rw [hl, div_le_iff₀ (by norm_num), ← zpow_add_one₀ (by norm_num)]
    exact le_of_eq rfl

/-- **C72.** From the threshold on the result is infinite, with the right sign. -/
theorem double_round_overflow (q : ℚ) (hq : 2 ^ 1024 - 2 ^ 970 ≤ |q|) : F64.round q = .inf (decide (q < 0)) := by
  unfold F64.round
  simp only
  have h1 := (F64.overflow_iff q).2 hq
  rw [if_pos h1]
  congr 1
  rw [decide_eq_decide]
  have hp : 0 < F64.pow2 1024 := by decide +kernel
  constructor
  · intro h
    by_contra hc
    exact absurd (F64.rnd_nonneg (not_lt.1 hc)) (not_le.2 h)
  · intro h
    have := F64.rnd_mono h.le
    rw [F64.rnd_zero] at this
    refine lt_of_le_of_ne this fun h0 => ?_
    rw [h0, abs_zero] at h1
    linarith

/-- **C72.** Rounding is monotone and leaves `double`s as they are. -/
theorem double_round_mono {p q r s : ℚ} (h : p ≤ q) (hp : F64.round p = .fin r) (hq : F64.round q = .fin s) :
    r ≤ s ∧ (IsDouble p → r = p) := by
  unfold F64.round at hp hq
  simp only at hp hq
  split at hp
  · cases hp
  · split at hq
    · cases hq
    · cases hp; cases hq
      exact ⟨F64.rnd_mono h, fun h => F64.rnd_of_rep h.rep⟩

/-- What `round` leaves unchanged is a `double`. -/
theorem isDouble_of_round {z : ℚ} (h : F64.round z = .fin z) : IsDouble z := by
  by_cases hq : |z| < 2 ^ 1024 - 2 ^ 970
  · obtain ⟨r, h1, h2, -⟩ := double_round z hq
    rw [h] at h1
    cases h1
    exact h2
  · rw [double_round_overflow z (not_lt.1 hq)] at h
    cases h

/-- `v` is what IEEE 754 asks for when the exact result is `q`. -/
def RoundsTo (q : ℚ) (v : F64) : Prop :=
  (|q| < 2 ^ 1024 - 2 ^ 970 → ∃ r, v = .fin r ∧ IsDouble r ∧ (∀ z, IsDouble z → |r - q| ≤ |z - q|) ∧
    (∀ z, IsDouble z → z ≠ r → |z - q| = |r - q| → ∃ m e : ℤ, r = (2 * m : ℤ) * (2 : ℚ) ^ e ∧ |z - r| = 2 ^ e)) ∧
  (2 ^ 1024 - 2 ^ 970 ≤ |q| → v = .inf (decide (q < 0)))

theorem roundsTo_round (q : ℚ) : RoundsTo q (F64.round q) :=
  ⟨fun h => let ⟨r, h1, h2, h3, h4, _⟩ := double_round q h; ⟨r, h1, h2, h3, h4⟩, double_round_overflow q⟩

/-- The outcome of rounding is determined by this. -/
theorem RoundsTo.eq_round {q : ℚ} {v : F64} (h : RoundsTo q v) : v = F64.round q := by
  by_cases hq : |q| < 2 ^ 1024 - 2 ^ 970
  · obtain ⟨r, rfl, h2, h3, h4⟩ := h.1 hq
    obtain ⟨s, g1, g2, g3, g4, -⟩ := double_round q hq
    rw [g1]
    by_contra hne
    have hne' : r ≠ s := fun e => hne (by rw [e])
    have he : |r - q| = |s - q| := le_antisymm (h3 s g2) (g3 r h2)
    obtain ⟨m, e, a1, a2⟩ := h4 s g2 hne'.symm he.symm
    obtain ⟨m', e', b1, b2⟩ := g4 r h2 hne' he
    have hee : e = e' := by
      rw [abs_sub_comm s r] at a2
      exact zpow_right_injective₀ (by norm_num : (0 : ℚ) < 2) (by norm_num) (a2.symm.trans b2)
    subst hee
    have hp : (0 : ℚ) < 2 ^ e := by positivity
    rw [a1, b1, ← sub_mul, abs_mul, abs_of_pos hp] at b2
    have h1 : |((2 * m : ℤ) : ℚ) - (2 * m' : ℤ)| = 1 := mul_right_cancel₀ hp.ne' (b2.trans (one_mul _).symm)
    have h2 : |2 * m - 2 * m'| = 1 := by exact_mod_cast h1
    rcases abs_eq (by norm_num : (0 : ℤ) ≤ 1) |>.1 h2 with h | h <;> omega
  · rw [h.2 (not_lt.1 hq), double_round_overflow q (not_lt.1 hq)]

/-- **C72.** The operations on finite numbers, on coordinates and on values: sums, differences, products, quotients and conversions of integers are
rounded in this way; comparisons are exact. -/
theorem double_ops (a b : ℚ) (n : ℕ) :
    RoundsTo (a + b) (F64.fin a + F64.fin b) ∧ RoundsTo (a - b) (F64.fin a - F64.fin b) ∧ RoundsTo (a * b) (F64.fin a * F64.fin b) ∧
    RoundsTo (a * b) (F64.fin a • F64.fin b) ∧
    (b ≠ 0 → (∃ v, CoordArith.div (F64.fin a) (F64.fin b) = .ok v ∧ RoundsTo (a / b) v) ∧
      ∃ v, ScaleArith.divV (F64.fin a) (F64.fin b) = .ok v ∧ RoundsTo (a / b) v) ∧
    RoundsTo n (CoordArith.ofNat n) ∧ (F64.fin a < F64.fin b ↔ a < b) ∧ (F64.fin a ≤ F64.fin b ↔ a ≤ b) := by
  refine ⟨?_, ?_, ?_, ?_, fun hb => ⟨⟨_, F64.div_fin hb, roundsTo_round _⟩, ⟨_, ?_, roundsTo_round _⟩⟩, roundsTo_round _, ?_, ?_⟩
  · rw [F64.add_fin]; exact roundsTo_round _
  · rw [F64.sub_fin]; exact roundsTo_round _
  · rw [F64.mul_fin]; exact roundsTo_round _
  · show RoundsTo (a * b) (F64.fin a * F64.fin b)
    rw [F64.mul_fin]; exact roundsTo_round _
  · exact F64.div_fin hb
  · show F64.lt (.fin a) (.fin b) = true ↔ a < b
    unfold F64.lt
    exact decide_eq_true_iff
  · show F64.le (.fin a) (.fin b) = true ↔ a ≤ b
    unfold F64.le
    exact decide_eq_true_iff

/-- **C72.** Operations on coordinates and operations on values are the same operations on `double`, and the constants are what they should be. -/
theorem double_ops_same :
    (CoordArith.toAdd : Add F64) = ValArith.toAdd ∧ (CoordArith.toSub : Sub F64) = ValArith.toSub ∧ (CoordArith.toZero : Zero F64) = ValArith.toZero ∧
    (∀ a b : F64, a • b = a * b) ∧ (∀ a b : F64, ScaleArith.divV a b = CoordArith.div a b) ∧
    (CoordArith.toZero.zero : F64) = .fin 0 ∧ (CoordArith.toOne.one : F64) = .fin 1 ∧ (CoordArith.half : F64) = .fin (1 / 2) :=
  ⟨rfl, rfl, rfl, fun _ _ => rfl, fun _ _ => rfl, rfl, rfl, rfl⟩

/-- **C72.** `std::fmod` is exact: the remainder of the quotient rounded towards zero, which is a `double`. -/
theorem double_fmod {a b : ℚ} (ha : IsDouble a) (hb : IsDouble b) (h0 : b ≠ 0) :
    ∃ (r : ℚ) (k : ℤ), CoordArith.fmod (F64.fin a) (F64.fin b) = .ok (.fin r) ∧ r = a - k * b ∧ |r| < |b| ∧ (0 ≤ a → 0 ≤ r) ∧ (a ≤ 0 → r ≤ 0) ∧
      IsDouble r := by
  -- the quotient towards zero
  set k : ℤ := if a / b < 0 then -⌊-(a / b)⌋ else ⌊a / b⌋ with hk
  have hfm : CoordArith.fmod (F64.fin a) (F64.fin b) = .ok (.fin (a - k * b)) := by
    show Except.ok (F64.fmod (.fin a) (.fin b)) = _
    unfold F64.fmod
    simp only [F64.div_eq_floor, if_neg h0]
    rw [hk]
  have hr : a - k * b = (a / b - k) * b := by rw [sub_mul, div_mul_cancel₀ _ h0]
  have hb0 : 0 < |b| := abs_pos.2 h0
  have hq : |a / b - k| < 1 ∧ (0 ≤ a / b → 0 ≤ a / b - k) ∧ (a / b ≤ 0 → a / b - k ≤ 0) ∧ |a / b - k| ≤ |a / b| := by
    rw [hk]
    split
    · rename_i h
      push_cast
      have h1 := Int.floor_le (-(a / b))
      have h2 := Int.lt_floor_add_one (-(a / b))
      have h3 : (0 : ℚ) ≤ ⌊-(a / b)⌋ := by exact_mod_cast Int.floor_nonneg.2 (by linarith)
      refine ⟨abs_lt.2 ⟨by linarith, by linarith⟩, fun h' => by linarith, fun _ => by linarith, ?_⟩
      rw [abs_of_neg h]
      exact abs_le.2 ⟨by linarith, by linarith⟩
    · rename_i h
      have h := not_lt.1 h
      have h1 := Int.floor_le (a / b)
      have h2 := Int.lt_floor_add_one (a / b)
      have h3 : (0 : ℚ) ≤ ⌊a / b⌋ := by exact_mod_cast Int.floor_nonneg.2 h
      refine ⟨abs_lt.2 ⟨by linarith, by linarith⟩, fun _ => by linarith, fun h' => by linarith, ?_⟩
      rw [abs_of_nonneg h]
      exact abs_le.2 ⟨by linarith, by linarith⟩
  obtain ⟨q1, q2, q3, q4⟩ := hq
  have hrb : |a - k * b| < |b| := by
    rw [hr, abs_mul]
    exact (mul_lt_mul_of_pos_right q1 hb0).trans_eq (one_mul _)
  have hra : |a - k * b| ≤ |a| := by
    rw [hr, abs_mul]
    refine (mul_le_mul_of_nonneg_right q4 hb0.le).trans_eq ?_
    rw [← abs_mul, div_mul_cancel₀ _ h0]
  refine ⟨_, k, hfm, rfl, hrb, fun h => ?_, fun h => ?_, ?_⟩
  · rw [hr]
    rcases lt_or_gt_of_ne h0 with hb' | hb'
    · exact mul_nonneg_of_nonpos_of_nonpos (q3 (div_nonpos_of_nonneg_of_nonpos h hb'.le)) hb'.le
    · exact mul_nonneg (q2 (div_nonneg h hb'.le)) hb'.le
  · rw [hr]
    rcases lt_or_gt_of_ne h0 with hb' | hb'
    · exact mul_nonpos_of_nonneg_of_nonpos (q2 (div_nonneg_of_nonpos h hb'.le)) hb'.le
    · exact mul_nonpos_of_nonpos_of_nonneg (q3 (div_nonpos_of_nonpos_of_nonneg h hb'.le)) hb'.le
  · obtain ⟨m, e, m1, e1, e2, rfl⟩ := ha
    obtain ⟨m', e', m1', e1', e2', rfl⟩ := hb
    have key : ∀ (f : ℤ) (n : ℤ) (x : ℚ), |n| < 2 ^ 53 → -1074 ≤ f → f ≤ 971 → |x| ≤ |(n : ℚ) * 2 ^ f| → (∃ z : ℤ, x = z * 2 ^ f) → IsDouble x := by
      rintro f n x h1 h2 h3 h4 ⟨z, rfl⟩
      have hp : (0 : ℚ) < 2 ^ f := by positivity
      rw [abs_mul, abs_mul, abs_of_pos hp] at h4
      have h5 := le_of_mul_le_mul_right h4 hp
      have h6 : |z| ≤ |n| := by exact_mod_cast h5
      exact ⟨z, f, h6.trans_lt h1, h2, h3, rfl⟩
    rcases le_total e e' with h | h
    · refine key e m _ m1 e1 e2 hra ⟨m - k * (m' * 2 ^ (e' - e).toNat), ?_⟩
      have : (2 : ℚ) ^ e' = 2 ^ (e' - e).toNat * 2 ^ e := by
        rw [← zpow_natCast, Int.toNat_of_nonneg (by omega), ← zpow_add₀ (by norm_num)]; congr 1; ring
      rw [this]; push_cast; ring
    · refine key e' m' _ m1' e1' e2' hrb.le ⟨m * 2 ^ (e - e').toNat - k * m', ?_⟩
      have : (2 : ℚ) ^ e = 2 ^ (e - e').toNat * 2 ^ e' := by
        rw [← zpow_natCast, Int.toNat_of_nonneg (by omega), ← zpow_add₀ (by norm_num)]; congr 1; ring
      rw [this]; push_cast; ring

/-- **C72.** `static_cast<std::size_t>(std::ceil(q))` is the least integer not below `q` if it fits, and undefined otherwise. -/
theorem double_ceil (q : ℚ) : CoordArith.ceilSize (F64.fin q) = if -1 < q ∧ q ≤ 2 ^ 64 - 1 then .ok ⌈q⌉₊ else .error .badCast := by
  show F64.ceilSize (.fin q) = _
  unfold F64.ceilSize
  have e : -((-q).num / (q.den : ℤ)) = ⌈q⌉ := by
    rw [← Rat.neg_den q, F64.div_eq_floor, Int.floor_neg, neg_neg]
  simp only [e]
  have h1 : (0 ≤ ⌈q⌉ ∧ ⌈q⌉ < 2 ^ 64) ↔ (-1 < q ∧ q ≤ 2 ^ 64 - 1) := by
    constructor
    · rintro ⟨h, h'⟩
      refine ⟨?_, ?_⟩
      · have := Int.ceil_lt_add_one q
        have : (0 : ℚ) ≤ ⌈q⌉ := by exact_mod_cast h
        linarith
      · have h2 := Int.le_ceil q
        have : ⌈q⌉ ≤ 2 ^ 64 - 1 := by omega
        have : (⌈q⌉ : ℚ) ≤ 2 ^ 64 - 1 := by exact_mod_cast this
        linarith
    · rintro ⟨h, h'⟩
      refine ⟨?_, ?_⟩
      · have h2 := Int.le_ceil q
        have : (-1 : ℚ) < ⌈q⌉ := h.trans_le h2
        have : (-1 : ℤ) < ⌈q⌉ := by exact_mod_cast this
        omega
      · have : ⌈q⌉ ≤ 2 ^ 64 - 1 := Int.ceil_le.2 (h'.trans (le_of_eq (by norm_num)))
        omega
  by_cases h : -1 < q ∧ q ≤ 2 ^ 64 - 1
  · rw [if_pos h, if_pos (h1.2 h), Int.ceil_toNat]
  · rw [if_neg h, if_neg (fun g => h (h1.1 g))]

/-- The extended real number that a `double` other than nan stands for. -/
noncomputable def F64.toE : F64 → EReal
  | .nan => 0
  | .inf s => if s then ⊥ else ⊤
  | .fin q => ((q : ℝ) : EReal)

/-- **C72.** Nan and infinities: nan spreads and compares false; results with an infinite operand are those of the extended real numbers, or nan where these are
indeterminate; a number divided by zero is infinite with the sign of the number (there is one zero). -/
theorem double_special (a b : F64) :
    -- nan
    (a = .nan ∨ b = .nan → a + b = .nan ∧ a - b = .nan ∧ a * b = .nan ∧ CoordArith.div a b = .ok .nan ∧
      CoordArith.fmod a b = .ok .nan ∧ ¬ a < b ∧ ¬ a ≤ b) ∧
    -- comparisons
    (a ≠ .nan → b ≠ .nan → ((a < b ↔ a.toE < b.toE) ∧ (a ≤ b ↔ a.toE ≤ b.toE))) ∧
    -- operations on infinities
    (a ≠ .nan → b ≠ .nan → (∃ s, a = .inf s ∨ b = .inf s) →
      (if ∃ s, a = .inf s ∧ b = .inf (!s) then a + b = .nan else a + b ≠ .nan ∧ (a + b).toE = a.toE + b.toE) ∧
      (if ∃ s, a = .inf s ∧ b = .inf s then a - b = .nan else a - b ≠ .nan ∧ (a - b).toE = a.toE - b.toE) ∧
      (if a = .fin 0 ∨ b = .fin 0 then a * b = .nan else a * b ≠ .nan ∧ (a * b).toE = a.toE * b.toE) ∧
      (∃ v, CoordArith.div a b = .ok v ∧
        if ∃ s t, a = .inf s ∧ b = .inf t then v = .nan else v ≠ .nan ∧ (b ≠ .fin 0 → v.toE = a.toE / b.toE))) ∧
    -- division by zero
    (∀ q, a = .fin q → b = .fin 0 → CoordArith.div a b = .ok (if q = 0 then .nan else .inf (decide (q < 0)))) ∧
    -- remainders
    ((∃ s, a = .inf s) ∨ b = .fin 0 → CoordArith.fmod a b = .ok .nan) ∧ (∀ q s, a = .fin q → b = .inf s → CoordArith.fmod a b = .ok a) := by
  classical
  refine ⟨?_, ?_, ?_, ?_, ?_, ?_⟩
  · rintro (rfl | rfl)
    · refine ⟨rfl, rfl, rfl, rfl, rfl, ?_, ?_⟩ <;> (intro h; cases h)
    · cases a <;> (refine ⟨rfl, rfl, rfl, rfl, rfl, ?_, ?_⟩ <;> (intro h; cases h))
  · intro ha hb
    show (F64.lt a b = true ↔ _) ∧ (F64.le a b = true ↔ _)
    cases a with
    | nan => exact absurd rfl ha
    | inf s =>
      cases b with
      | nan => exact absurd rfl hb
      | inf t => cases s <;> cases t <;> simp [F64.lt, F64.le, F64.toE]
      | fin q => cases s <;> simp [F64.lt, F64.le, F64.toE, EReal.bot_lt_coe]
    | fin p =>
      cases b with
      | nan => exact absurd rfl hb
      | inf t => cases t <;> simp [F64.lt, F64.le, F64.toE, EReal.coe_lt_top]
      | fin q => simp [F64.lt, F64.le, F64.toE]
  · intro ha hb hi
    have e1 : a + b = F64.add a b := rfl
    have e2 : a - b = F64.add a (F64.neg b) := rfl
    have e3 : a * b = F64.mul a b := rfl
    have e4 : CoordArith.div a b = .ok (F64.div a b) := rfl
    rw [e1, e2, e3, e4]
    cases a with
    | nan => exact absurd rfl ha
    | inf s =>
      cases b with
      | nan => exact absurd rfl hb
      | inf t => cases s <;> cases t <;> simp [F64.add, F64.neg, F64.mul, F64.div, F64.toE]
      | fin q =>
        rcases lt_trichotomy q 0 with h | h | h
        · cases s <;> simp [F64.add, F64.neg, F64.mul, F64.div, F64.toE, F64.isNeg, h, h.ne]
          · exact ⟨(EReal.top_mul_coe_of_neg (by exact_mod_cast h)).symm, (EReal.top_div_of_neg_ne_bot (by exact_mod_cast h) (EReal.coe_ne_bot _)).symm⟩
          · exact ⟨(EReal.bot_mul_coe_of_neg (by exact_mod_cast h)).symm, (EReal.bot_div_of_neg_ne_bot (by exact_mod_cast h) (EReal.coe_ne_bot _)).symm⟩
        · cases s <;> simp [F64.add, F64.neg, F64.mul, F64.div, F64.toE, F64.isNeg, h]
        · cases s <;> simp [F64.add, F64.neg, F64.mul, F64.div, F64.toE, F64.isNeg, h.ne', not_lt.2 h.le]
          · exact ⟨(EReal.top_mul_coe_of_pos (by exact_mod_cast h)).symm, (EReal.top_div_of_pos_ne_top (by exact_mod_cast h) (EReal.coe_ne_top _)).symm⟩
          · exact ⟨(EReal.bot_mul_coe_of_pos (by exact_mod_cast h)).symm, (EReal.bot_div_of_pos_ne_top (by exact_mod_cast h) (EReal.coe_ne_top _)).symm⟩
    | fin p =>
      cases b with
      | nan => exact absurd rfl hb
      | inf t =>
        rcases lt_trichotomy p 0 with h | h | h
        · cases t <;> simp [F64.add, F64.neg, F64.mul, F64.div, F64.toE, F64.isNeg, h, h.ne]
          · exact (EReal.coe_mul_top_of_neg (by exact_mod_cast h)).symm
          · exact (EReal.coe_mul_bot_of_neg (by exact_mod_cast h)).symm
        · cases t <;> simp [F64.add, F64.neg, F64.mul, F64.div, F64.toE, F64.isNeg, h]
        · cases t <;> simp [F64.add, F64.neg, F64.mul, F64.div, F64.toE, F64.isNeg, h.ne', not_lt.2 h.le]
          · exact (EReal.coe_mul_top_of_pos (by exact_mod_cast h)).symm
          · exact (EReal.coe_mul_bot_of_pos (by exact_mod_cast h)).symm
      | fin q => obtain ⟨s, h | h⟩ := hi <;> cases h
  · rintro q rfl rfl
    show Except.ok (F64.div (.fin q) (.fin 0)) = _
    unfold F64.div F64.isNeg
    simp
  · rintro (⟨s, rfl⟩ | rfl)
    · cases b <;> rfl
    · cases a with
      | fin q =>
        show Except.ok (F64.fmod (.fin q) (.fin 0)) = _
        unfold F64.fmod
        simp
      | _ => rfl
  · rintro q s rfl rfl
    rfl

/-! ## C73: basis functions -/

section
variable {K F : Type} [CoordArith K] [Field F] [LinearOrder F] [IsStrictOrderedRing F]

/-- **C73.** For a coordinate in segment `s` of a sorted knot vector, with segments at least `h` long and knots at most `W` apart, `base_spline_value` computes in any
arithmetic with relative rounding error `u` and underflow `η` values that are not negative and differ from those of the basis functions (`piece`, which
`basis_is_cox_de_boor` ties to the recursion) by at most `((1 - u)^(-5p) - 1)` times the exact value and an absolute error, which is zero without underflow. -/
theorem rounded_basis (R : RoundK K F) {order p : ℕ} {t : List K} {s : ℕ} {x : K} (hp : p ≤ order) (h1 : order ≤ s) (h2 : s + order < t.length)
    (ht : ∀ v ∈ t, R.Finite v) (hx : R.Finite x)
    (hm : ∀ i j, 1 ≤ i → i ≤ j → j < t.length → knotFn (t.map R.val) i ≤ knotFn (t.map R.val) j)
    (hl : knotFn (t.map R.val) s ≤ R.val x) (hr : R.val x ≤ knotFn (t.map R.val) (s + 1)) {h W : F} (hh : 0 < h)
    (hs : h ≤ knotFn (t.map R.val) (s + 1) - knotFn (t.map R.val) s)
    (hW : knotFn (t.map R.val) (t.length - 1) - knotFn (t.map R.val) 1 ≤ W) (hfW : R.Fits (4 * W)) (hf2 : R.Fits 2)
    (hB : (1 - R.u)⁻¹ ^ (5 * order) * (1 + (2 ^ (order + 1) - 2) * (R.η * (1 / h + 1))) ≤ 2) :
    ∃ b, Fl.baseSplineValue order t s x p = .ok b ∧ b.length = order + 1 ∧ ∀ a, a ≤ order → ∃ v, b[a]? = some v ∧ R.Finite v ∧ 0 ≤ R.val v ∧
      |R.val v - piece (knotFn (t.map R.val)) s p (s - order + a) (R.val x)| ≤
        ((1 - R.u)⁻¹ ^ (5 * p) - 1) * piece (knotFn (t.map R.val)) s p (s - order + a) (R.val x) +
        (1 - R.u)⁻¹ ^ (5 * p) * ((2 ^ (p + 1) - 2) * (R.η * (1 / h + 1))) := by
  have hnd : Nondeg (knotFn (t.map R.val)) s order :=
    nondeg_of_mono (fun i j a b c => hm i j a b (by simpa using c)) (by linarith) h1 (by simpa using h2)
  have hO : order = 0 ∨ s + 1 < t.length := by omega
  rcases hO with rfl | hO
  · -- order 0
    obtain rfl : p = 0 := by omega
    obtain ⟨b, hb, hb1, hb2⟩ := (Fl.baseSplineValue_near R (order := 0) (t := t) (s := s) (x := x) (p := 0) (W := W) h1 h2 ht hx hnd le_rfl (by omega) (by omega) hh (by omega) hB hfW hf2).exists
    refine ⟨b, hb, hb1, fun a ha => ?_⟩
    obtain ⟨v, v1, v2, v3⟩ := hb2 a ha
    exact ⟨v, v1, v2, v3.left, v3.abs_sub R.one_le_g (R.absErr_nonneg hh _)⟩
  · obtain ⟨b, hb, hb1, hb2⟩ := (Fl.baseSplineValue_near R (W := W) h1 h2 ht hx hnd hp
      (fun i a b => (hm i s (by omega) b (by omega)).trans hl) (fun j a b => hr.trans (hm (s + 1) j (by omega) a (by omega))) hh
      (fun i j a b c d => by
        have e1 := hm i s (by omega) b (by omega)
        have e2 := hm (s + 1) j (by omega) c (by omega)
        have e3 := hm 1 i (by omega) (by omega) (by omega)
        have e4 := hm j (t.length - 1) (by omega) (by omega) (by omega)
        constructor <;> linarith) hB hfW hf2).exists
    refine ⟨b, hb, hb1, fun a ha => ?_⟩
    obtain ⟨v, v1, v2, v3⟩ := hb2 a ha
    exact ⟨v, v1, v2, v3.left, v3.abs_sub R.one_le_g (R.absErr_nonneg hh _)⟩

end

/-! ## C74: evaluation -/

section
variable {K F V : Type} [CoordArith K] [Field F] [LinearOrder F] [IsStrictOrderedRing F] [FloorRing F] [ValArith V] [ScaleArith K V] {D : ℕ}

/-- **C74.** Let the data of a spline be finite, `b.exact` the spline of the exact numbers they represent, well-formed, with segments at least `h`
long and knots at most `W` apart, and the control points at most `C`.  At a point of the domain (in periodic dimensions: after wrapping, `w`, in the range)
`operator()` in any arithmetic with relative rounding error `u` and underflow `η` returns a finite number that differs from the exact value of the
spline by at most `((1 - u)^(-k) - 1) C` and an absolute error, which is zero without underflow.  `k` is `D (5 order + 1) + 1 + (order + 1)^D`. -/
theorem rounded_eval (R : RoundK K F) (S : RoundV R V) {b : BSpline D K V} {x : Fin D → K × ℕ} {w : Fin D → K} {C h W : F}
    (he : (b.exact R S).WF) (hb : b.Bounded R S C) (hp : b.Pt R S x w) (hs : (b.exact R S).Spaced h W) {k : ℕ}
    (hk : k = D * (5 * b.order + 1) + 1 + (b.order + 1) ^ D) {E : F} (hE : E = D * (2 * ((2 ^ (b.order + 1) - 2) * (R.η * (1 / h + 1))) + R.η))
    (hB : (1 - R.u)⁻¹ ^ (D * (5 * b.order + 1)) * (1 + E) ≤ 2) (hfW : R.Fits (4 * W)) (hf2 : R.Fits 2)
    (hfC : R.Fits ((1 - R.u)⁻¹ ^ k * (C + (b.order + 1) ^ D * (E * C + R.η)))) :
    ∃ y v, (b.exact R S).eval (fun d => (R.val (w d), (x d).2)) = .ok y ∧ Fl.eval b x = .ok v ∧ S.Finite v ∧
      |S.val v - y| ≤ ((1 - R.u)⁻¹ ^ k - 1) * C + (1 - R.u)⁻¹ ^ k * ((b.order + 1) ^ D * (E * C + R.η)) := by
  subst hk
  subst hE
  obtain ⟨y, hy, h⟩ := BSpline.Fl.eval_near R S he hb hp hs hB hfW hf2 hfC
  obtain ⟨v, hv, hv1, hv2⟩ := h.exists
  exact ⟨y, v, hy, hv, hv1, hv2⟩

end

/-! ## `double` -/

theorem g_bound (k : ℕ) (hk : k ≤ 2 ^ 50) : (1 - F64.u)⁻¹ ^ k ≤ 1 + 6 / 5 * (k * F64.u) := by
  have hu := F64.u_pos
  have hk' : (k : ℚ) * F64.u ≤ 1 / 8 := by
    have : (k : ℚ) ≤ 2 ^ 50 := by exact_mod_cast hk
    rw [F64.u_eq]
    calc (k : ℚ) * (1 / 2 ^ 53) ≤ 2 ^ 50 * (1 / 2 ^ 53) := mul_le_mul_of_nonneg_right this (by positivity)
      _ = 1 / 8 := by norm_num
  have h1 : (1 : ℚ) + k * (-F64.u) ≤ (1 + -F64.u) ^ k := one_add_mul_le_pow (by rw [F64.u_eq]; norm_num) k
  have h2 : 0 < 1 - k * F64.u := by linarith
  have h0 : (0 : ℚ) ≤ k * F64.u := by positivity
  rw [inv_pow, inv_eq_one_div]
  have h3 : 1 - k * F64.u ≤ (1 - F64.u) ^ k := by rw [sub_eq_add_neg 1 F64.u]; linarith
  rw [div_le_iff₀ (by linarith)]
  nlinarith

/-- **C73.** In `double`, for knots at most `2 ^ 1000` and a segment at least `2 ^ -900` long, the values of the basis functions of order up to 50 are computed with
a relative error of `6 p · 2 ^ -53` and an absolute error of `2 ^ -120`. -/
theorem double_basis {order p : ℕ} (t : List ℚ) {s : ℕ} {x : ℚ} (hp : p ≤ order) (ho : order ≤ 50) (h1 : order ≤ s) (h2 : s + order < t.length)
    (ht : ∀ v ∈ t, IsDouble v ∧ |v| ≤ 2 ^ 1000) (hx : IsDouble x)
    (hm : ∀ i j, 1 ≤ i → i ≤ j → j < t.length → knotFn t i ≤ knotFn t j)
    (hl : knotFn t s ≤ x) (hr : x ≤ knotFn t (s + 1)) (hs : 1 / 2 ^ 900 ≤ knotFn t (s + 1) - knotFn t s) :
    ∃ b : List ℚ, Fl.baseSplineValue order (t.map F64.fin) s (.fin x) p = .ok (b.map F64.fin) ∧ b.length = order + 1 ∧
      ∀ a, a ≤ order → 0 ≤ b.getD a 0 ∧
        |b.getD a 0 - piece (knotFn t) s p (s - order + a) x| ≤ 6 * p / 2 ^ 53 * piece (knotFn t) s p (s - order + a) x + 1 / 2 ^ 120 := by
  have hmap : (t.map F64.fin).map F64.coord.val = t := by
    rw [List.map_map]
    exact (List.map_congr_left fun a _ => rfl).trans (List.map_id t)
  have hlen : (t.map F64.fin).length = t.length := List.length_map _
  have hkn : ∀ i, |knotFn t i| ≤ 2 ^ 1000 := by
    intro i
    unfold knotFn
    rw [List.getD_eq_getElem?_getD]
    cases h : t[i]? with
    | none => exact le_of_eq_of_le abs_zero (pow_nonneg zero_le_two _)
    | some v => exact (ht v (List.mem_of_getElem? h)).2
  have hη : F64.η * (1 / (1 / 2 ^ 900) + 1) ≤ 1 / 2 ^ 174 := by decide +kernel
  have hη0 : 0 ≤ F64.η * (1 / (1 / 2 ^ 900) + 1) := by decide +kernel
  have herr : ∀ q : ℕ, q ≤ 50 → (2 ^ (q + 1) - 2 : ℚ) * (F64.η * (1 / (1 / 2 ^ 900) + 1)) ≤ 1 / 2 ^ 123 := by
    intro q hq
    have : (2 : ℚ) ^ (q + 1) ≤ 2 ^ 51 := pow_le_pow_right₀ (by norm_num) (by omega)
    calc (2 ^ (q + 1) - 2 : ℚ) * (F64.η * (1 / (1 / 2 ^ 900) + 1)) ≤ 2 ^ 51 * (1 / 2 ^ 174) :=
          mul_le_mul (by linarith) hη hη0 (by positivity)
      _ = 1 / 2 ^ 123 := by norm_num
  have hg : ∀ q : ℕ, q ≤ 50 → (1 - F64.u)⁻¹ ^ (5 * q) ≤ 1 + 6 * q / 2 ^ 53 := by
    intro q hq
    have := g_bound (5 * q) (by omega)
    rw [F64.u_eq] at this ⊢
    push_cast at this
    refine this.trans (le_of_eq (by ring))
  have hg2 : ∀ q : ℕ, q ≤ 50 → (1 - F64.u)⁻¹ ^ (5 * q) ≤ 3 / 2 := by
    intro q hq
    refine (hg q hq).trans ?_
    have : (q : ℚ) ≤ 50 := by exact_mod_cast hq
    have h : (6 * q / 2 ^ 53 : ℚ) ≤ 6 * 50 / 2 ^ 53 := by gcongr
    have h' : (6 * 50 / 2 ^ 53 : ℚ) ≤ 1 / 2 := by norm_num
    linarith
  obtain ⟨b, hb, hb1, hb2⟩ := rounded_basis F64.coord (t := t.map F64.fin) (x := .fin x) (h := 1 / 2 ^ 900) (W := 2 * 2 ^ 1000) hp h1 (by rw [hlen]; exact h2)
    (fun v hv => by obtain ⟨q, hq, rfl⟩ := List.mem_map.1 hv; exact (ht q hq).1.grid) hx.grid
    (by rw [hmap, hlen]; exact hm) (by rw [hmap]; exact hl) (by rw [hmap]; exact hr) (by positivity) (by rw [hmap]; exact hs)
    (by rw [hmap, hlen]
        have a1 := abs_le.1 (hkn (t.length - 1))
        have a2 := abs_le.1 (hkn 1)
        generalize (2 : ℚ) ^ 1000 = A at *
        linarith)
    (by show |(4 * (2 * 2 ^ 1000) : ℚ)| ≤ 2 ^ (1023 : ℤ); decide +kernel) (by show |(2 : ℚ)| ≤ 2 ^ (1023 : ℤ); decide +kernel)
    (by
      have a1 := hg2 order ho
      have a2 := herr order ho
      have a3 : (1 / 2 ^ 123 : ℚ) ≤ 1 / 3 := by norm_num
      have a4 : 0 ≤ (2 ^ (order + 1) - 2 : ℚ) * (F64.η * (1 / (1 / 2 ^ 900) + 1)) := by
        refine mul_nonneg ?_ hη0
        have : (2 : ℚ) ^ 1 ≤ 2 ^ (order + 1) := pow_le_pow_right₀ (by norm_num) (by omega)
        linarith
      refine (mul_le_mul a1 (by linarith [show (2 ^ (order + 1) - 2 : ℚ) * (F64.η * (1 / (1 / 2 ^ 900) + 1)) ≤ 1 / 3 from a2.trans a3] :
        1 + (2 ^ (order + 1) - 2 : ℚ) * (F64.η * (1 / (1 / 2 ^ 900) + 1)) ≤ 1 + 1 / 3) (by linarith) (by norm_num)).trans (by norm_num))
  rw [hmap] at hb2
  refine ⟨b.map F64.toRat, ?_, by simpa using hb1, fun a ha => ?_⟩
  · rw [hb]
    congr 1
    refine List.ext_getElem? fun a => ?_
    by_cases ha : a ≤ order
    · obtain ⟨v, v1, v2, -⟩ := hb2 a ha
      obtain ⟨q, rfl, -⟩ := F64.finite_iff.1 v2
      rw [List.map_map, List.getElem?_map, v1]; rfl
    · rw [List.getElem?_eq_none (by omega), List.getElem?_eq_none (by simp; omega)]
  · obtain ⟨v, v1, v2, v3, v4⟩ := hb2 a ha
    have e : (b.map F64.toRat).getD a 0 = F64.toRat v := by
      rw [List.getD_eq_getElem?_getD, List.getElem?_map, v1]; rfl
    rw [e]
    refine ⟨v3, v4.trans ?_⟩
    set P := piece (knotFn t) s p (s - order + a) (F64.coord.val (.fin x)) with hP
    have hPx : piece (knotFn t) s p (s - order + a) x = P := rfl
    rw [hPx]
    have hP0 : 0 ≤ P := piece_nonneg (p := order) (fun i a b => (hm i s (by omega) b (by omega)).trans hl)
      (fun j a b => hr.trans (hm (s + 1) j (by omega) a (by omega))) p _ hp
    have a1 := mul_le_mul_of_nonneg_right (hg p (by omega)) hP0
    have a2 := herr p (by omega)
    have a4 : 0 ≤ (2 ^ (p + 1) - 2 : ℚ) * (F64.η * (1 / (1 / 2 ^ 900) + 1)) := by
      refine mul_nonneg ?_ hη0
      have : (2 : ℚ) ^ 1 ≤ 2 ^ (p + 1) := pow_le_pow_right₀ (by norm_num) (by omega)
      linarith
    have a3 := mul_le_mul (hg2 p (by omega)) a2 a4 (by norm_num)
    have a5 : (3 / 2 * (1 / 2 ^ 123) : ℚ) ≤ 1 / 2 ^ 120 := by norm_num
    have e1 : F64.coord.u = F64.u := rfl
    have e2 : F64.coord.η = F64.η := rfl
    rw [e1, e2]
    linarith

/-- The spline of the exact numbers that the data of a spline of `double`s represent. -/
abbrev BSpline.rat {D : ℕ} (b : BSpline D F64 F64) : BSpline D ℚ ℚ := b.exact F64.coord F64.value

/-- A spline of `double`s in usable state, with sizes and distances that are not extreme; `C` bounds the control points. -/
structure DoubleSpline {D : ℕ} (b : BSpline D F64 F64) (C : ℚ) : Prop where
  wf : b.rat.WF
  knots : ∀ d, ∀ v ∈ b.knots d, ∃ q, v = .fin q ∧ IsDouble q ∧ |q| ≤ 2 ^ 1000
  gaps : ∀ d i, b.order ≤ i → i ≤ b.rat.last d → b.rat.kn d i < b.rat.kn d (i + 1) → 1 / 2 ^ 900 ≤ b.rat.kn d (i + 1) - b.rat.kn d i
  ctrl : ∀ v ∈ b.ctrl.storage, ∃ q, v = .fin q ∧ IsDouble q ∧ |q| ≤ C
  bound : 0 ≤ C ∧ C ≤ 2 ^ 1000
  order : b.order ≤ 50
  small : D * (5 * b.order + 1) + 1 + (b.order + 1) ^ D ≤ 2 ^ 50

/-- A point of the domain: `w` is the coordinate after the wrapping of periodic dimensions, as computed. -/
structure DoublePt {D : ℕ} (b : BSpline D F64 F64) (x : Fin D → F64) (w : Fin D → ℚ) : Prop where
  wrap : ∀ d, if b.periodicity d then Fl.wrapCoord (b.range d) (x d) = .ok (.fin (w d)) else x d = .fin (w d)
  double : ∀ d, IsDouble (w d)
  dom : ∀ d, b.rat.kn d b.order ≤ w d ∧ w d ≤ b.rat.kn d (b.rat.last d + 1)
  range : ∀ d, b.periodicity d = true → (b.rat.range d).1 ≤ w d ∧ w d < (b.rat.range d).2

theorem DoubleSpline.kn_abs {D : ℕ} {b : BSpline D F64 F64} {C : ℚ} (hb : DoubleSpline b C) (d : Fin D) (i : ℕ) : |b.rat.kn d i| ≤ 2 ^ 1000 := by
  unfold BSpline.kn knotFn
  rw [List.getD_eq_getElem?_getD]
  have e : b.rat.knots d = (b.knots d).map F64.toRat := rfl
  rw [e, List.getElem?_map]
  cases h : (b.knots d)[i]? with
  | none => exact le_of_eq_of_le abs_zero (pow_nonneg zero_le_two _)
  | some v =>
    obtain ⟨q, rfl, -, hq⟩ := hb.knots d v (List.mem_of_getElem? h)
    exact hq

theorem DoubleSpline.bounded {D : ℕ} {b : BSpline D F64 F64} {C : ℚ} (hb : DoubleSpline b C) : b.Bounded F64.coord F64.value C :=
  ⟨fun d v hv => by obtain ⟨q, rfl, hq, -⟩ := hb.knots d v hv; exact hq.grid,
    fun v hv => by obtain ⟨q, rfl, hq, hq'⟩ := hb.ctrl v hv; exact ⟨hq.grid, hq'⟩⟩

theorem DoubleSpline.spaced {D : ℕ} {b : BSpline D F64 F64} {C : ℚ} (hb : DoubleSpline b C) : b.rat.Spaced (1 / 2 ^ 900) (2 * 2 ^ 1000) :=
  ⟨by positivity, hb.gaps, fun d => by
    have a1 := abs_le.1 (hb.kn_abs d ((b.rat.knots d).length - 1))
    have a2 := abs_le.1 (hb.kn_abs d 1)
    clear hb
    generalize (2 : ℚ) ^ 1000 = B at *
    linarith⟩

theorem DoublePt.pt {D : ℕ} {b : BSpline D F64 F64} {C : ℚ} (hb : DoubleSpline b C) {x : Fin D → F64} {w : Fin D → ℚ} (hp : DoublePt b x w)
    {h : Fin D → ℕ} (hh : ∀ d, b.order ≤ h d ∧ h d ≤ b.rat.last d) : b.Pt F64.coord F64.value (fun d => (x d, h d)) (fun d => .fin (w d)) := by
  refine ⟨fun d => ?_, fun d => (hp.double d).grid, fun d => hp.dom d, fun d hd => hp.range d hd, fun d => ?_⟩
  · have := hp.wrap d
    split
    · rename_i hper; rw [if_pos hper] at this; exact this
    · rename_i hper; rw [if_neg hper] at this; exact this.symm
  · exact hb.wf.validHint (hh d).1 (hh d).2 _

theorem DoubleSpline.shaped {D : ℕ} {b : BSpline D F64 F64} {C : ℚ} (hb : DoubleSpline b C) : Fl.Shaped b := by
  have hlen : ∀ d, (b.rat.knots d).length = (b.knots d).length := fun d => List.length_map _
  have hord : b.rat.order = b.order := rfl
  refine ⟨fun d => by rw [← hlen, ← hord]; exact hb.wf.len d, ?_, fun d => ?_, fun d hd => ?_⟩
  · have := hb.wf.ctrl
    have e : b.rat.ctrl.storage.length = b.ctrl.storage.length := List.length_map _
    rw [e] at this
    exact this
  · by_cases hper : b.periodicity d = true
    · exact (hb.wf.per d hper).1
    · have h1 := hb.wf.aper d (Bool.eq_false_iff.2 hper)
      have h2 := hb.wf.len d
      have h3 : b.rat.ctrl.dims d = b.ctrl.dims d := rfl
      omega
  · have h1 := hb.wf.aper d hd
    rw [hlen] at h1
    exact h1.le

/-- The hints of an interpolation function are valid. -/
theorem DoubleSpline.hints {D : ℕ} {f : InterpFn D F64 F64} {C : ℚ} (hb : DoubleSpline f.spline C) {x : Fin D → F64} {h : Fin D → ℕ}
    (ht : (tabM fun d => Fl.hint f d (x d)) = .ok h) (d : Fin D) : f.spline.order ≤ h d ∧ h d ≤ f.spline.rat.last d := by
  obtain ⟨h1, h2⟩ := (Fl.hint_safe (E := fun _ => True) (fun _ => trivial) hb.shaped d (fun _ => trivial) (x d)).get (tabM_ok_inv ht d)
  refine ⟨h1, ?_⟩
  have hlen : (f.spline.rat.knots d).length = (f.spline.knots d).length := List.length_map _
  have hord : f.spline.rat.order = f.spline.order := rfl
  unfold BSpline.last
  rw [hlen, hord]; omega

theorem small_err {P : ℚ} (h0 : 0 ≤ P) (h1 : P ≤ 1 / 2 ^ 174) (hη : F64.η ≤ 1 / 2 ^ 174) {D o : ℕ} (hD : D ≤ 2 ^ 50) (ho : o ≤ 50) :
    0 ≤ D * (2 * ((2 ^ (o + 1) - 2) * P) + F64.η) ∧ D * (2 * ((2 ^ (o + 1) - 2) * P) + F64.η) ≤ 1 / 2 ^ 60 := by
  have hη0 := F64.η_pos
  have q1 : (2 : ℚ) ^ 1 ≤ 2 ^ (o + 1) := pow_le_pow_right₀ (by norm_num) (by omega)
  have q2 : (2 : ℚ) ^ (o + 1) ≤ 2 ^ 51 := pow_le_pow_right₀ (by norm_num) (by omega)
  have hA0 : 0 ≤ (2 ^ (o + 1) - 2) * P := mul_nonneg (by linarith) h0
  have hA1 : (2 ^ (o + 1) - 2) * P ≤ 1 / 2 ^ 123 := by
    calc (2 ^ (o + 1) - 2) * P ≤ 2 ^ 51 * (1 / 2 ^ 174) := mul_le_mul (by linarith) h1 h0 (by positivity)
      _ = 1 / 2 ^ 123 := by norm_num
  have hD' : (D : ℚ) ≤ 2 ^ 50 := by exact_mod_cast hD
  refine ⟨by positivity, ?_⟩
  calc (D : ℚ) * (2 * ((2 ^ (o + 1) - 2) * P) + F64.η) ≤ 2 ^ 50 * (2 * (1 / 2 ^ 123) + 1 / 2 ^ 174) :=
        mul_le_mul hD' (by linarith) (by positivity) (by positivity)
    _ ≤ 1 / 2 ^ 60 := by norm_num

private lemma final_err {G N E C η u k Z : ℚ} (hG : G ≤ 1 + 6 / 5 * (k * u)) (hG2 : G ≤ 5 / 4) (hN0 : 0 ≤ N) (hN : N ≤ k) (hE0 : 0 ≤ E)
    (hE : E ≤ u) (hC : 0 ≤ C) (hη : 0 ≤ η) (hZ : 5 / 4 * η ≤ Z) : (G - 1) * C + G * (N * (E * C + η)) ≤ 3 * (k * u * C) + k * Z := by
  have hk : 0 ≤ k := hN0.trans hN
  have s1 : (G - 1) * C ≤ 6 / 5 * (k * u) * C := mul_le_mul_of_nonneg_right (by linarith) hC
  have hq : 0 ≤ E * C + η := by positivity
  have s2 : G * (N * (E * C + η)) ≤ 5 / 4 * (k * (E * C + η)) :=
    mul_le_mul hG2 (mul_le_mul_of_nonneg_right hN hq) (by positivity) (by norm_num)
  have s4 : k * (E * C) ≤ k * (u * C) := mul_le_mul_of_nonneg_left (mul_le_mul_of_nonneg_right hE hC) hk
  have s6 : k * (5 / 4 * η) ≤ k * Z := mul_le_mul_of_nonneg_left hZ hk
  have s9 : 0 ≤ k * (u * C) := mul_nonneg hk (mul_nonneg (hE0.trans hE) hC)
  nlinarith

private lemma final_fits {G N E C η B L : ℚ} (hG2 : G ≤ 5 / 4) (hN0 : 0 ≤ N) (hN : N ≤ 2 ^ 50) (hE0 : 0 ≤ E) (hE : E ≤ 1 / 2 ^ 60)
    (hC : 0 ≤ C) (hCB : C ≤ B) (hη : 0 ≤ η) (hη1 : η ≤ 1) (hL : 5 / 4 * (B + 2 ^ 50 * (1 / 2 ^ 60 * B + 1)) ≤ L) :
    G * (C + N * (E * C + η)) ≤ L := by
  have hB := hC.trans hCB
  have e1 : E * C + η ≤ 1 / 2 ^ 60 * B + 1 := add_le_add (mul_le_mul hE hCB hC (by positivity)) hη1
  have e2 : N * (E * C + η) ≤ 2 ^ 50 * (1 / 2 ^ 60 * B + 1) := mul_le_mul hN e1 (by positivity) (by positivity)
  exact (mul_le_mul hG2 (add_le_add hCB e2) (by positivity) (by norm_num)).trans hL

/-- **C74.** In `double`, a spline is evaluated with an error of at most `3 k · 2 ^ -53` times the largest control point, plus `k · 2 ^ -1074`, where
`k = D (5 order + 1) + 1 + (order + 1)^D`; the hints only have to be valid. -/
theorem double_eval {D : ℕ} {b : BSpline D F64 F64} {C : ℚ} (hb : DoubleSpline b C) {x : Fin D → F64} {w : Fin D → ℚ} (hp : DoublePt b x w)
    {h : Fin D → ℕ} (hh : ∀ d, b.order ≤ h d ∧ h d ≤ b.rat.last d) {k : ℕ} (hk : k = D * (5 * b.order + 1) + 1 + (b.order + 1) ^ D) :
    ∃ y v, b.rat.eval (fun d => (w d, h d)) = .ok y ∧ Fl.eval b (fun d => (x d, h d)) = .ok (.fin v) ∧
      |v - y| ≤ 3 * k / 2 ^ 53 * C + k / 2 ^ 1074 := by
  have hu0 := F64.u_pos
  have hη0 := F64.η_pos
  obtain ⟨hC0, hC1⟩ := hb.bound
  have hk50 : k ≤ 2 ^ 50 := hk ▸ hb.small
  have hD : D ≤ 2 ^ 50 := by
    have h1 : D ≤ D * (5 * b.order + 1) := Nat.le_mul_of_pos_right D (by omega)
    exact le_trans (by rw [hk]; omega) hk50
  obtain ⟨hE0, hE1⟩ := small_err (P := F64.η * (1 / (1 / 2 ^ 900) + 1)) (by decide +kernel) (by decide +kernel) (by decide +kernel) hD hb.order
  obtain ⟨E, hE⟩ : ∃ E : ℚ, E = D * (2 * ((2 ^ (b.order + 1) - 2) * (F64.η * (1 / (1 / 2 ^ 900) + 1))) + F64.η) := ⟨_, rfl⟩
  rw [← hE] at hE0 hE1
  -- growth
  have hG := g_bound k hk50
  have hk51 : (k : ℚ) ≤ 2 ^ 50 := by exact_mod_cast hk50
  have hku : (k : ℚ) * F64.u ≤ 1 / 8 := by
    rw [F64.u_eq]
    calc (k : ℚ) * (1 / 2 ^ 53) ≤ 2 ^ 50 * (1 / 2 ^ 53) := mul_le_mul_of_nonneg_right hk51 (by positivity)
      _ = 1 / 8 := by norm_num
  have hg1 : 1 ≤ (1 - F64.u)⁻¹ := one_le_g F64.u_pos.le (by rw [F64.u_eq]; norm_num)
  have hG1 : 1 ≤ (1 - F64.u)⁻¹ ^ k := one_le_pow₀ hg1
  have hG2 : (1 - F64.u)⁻¹ ^ k ≤ 5 / 4 := hG.trans (by clear hC1 hE; linarith)
  have hN0 : 0 ≤ ((b.order : ℚ) + 1) ^ D := pow_nonneg (Nat.cast_add_one_pos _).le _
  have hNk : ((b.order : ℚ) + 1) ^ D ≤ k := by
    have : (b.order + 1) ^ D ≤ k := by rw [hk]; omega
    exact_mod_cast this
  have main := rounded_eval F64.coord F64.value (b := b) (x := fun d => (x d, h d)) (w := fun d => .fin (w d)) (C := C) (h := 1 / 2 ^ 900) (W := 2 * 2 ^ 1000)
    hb.wf hb.bounded (hp.pt hb hh) hb.spaced hk (E := E) hE ?_ ?_ ?_ ?_
  · obtain ⟨y, v, h1, h2, h3, h4⟩ := main
    obtain ⟨q, rfl, -⟩ := F64.finite_iff.1 h3
    refine ⟨y, q, h1, h2, h4.trans ?_⟩
    have s7 : (3 : ℚ) * k / 2 ^ 53 * C = 3 * (k * F64.u * C) := by rw [F64.u_eq]; ring
    have s8 : (k : ℚ) / 2 ^ 1074 = k * (1 / 2 ^ 1074) := by rw [mul_one_div]
    rw [s7, s8]
    exact final_err hG hG2 hN0 hNk hE0 (hE1.trans (by rw [F64.u_eq]; norm_num)) hC0 hη0.le (by decide +kernel)
  · show (1 - F64.u)⁻¹ ^ (D * (5 * b.order + 1)) * (1 + E) ≤ 2
    have : (1 - F64.u)⁻¹ ^ (D * (5 * b.order + 1)) ≤ (1 - F64.u)⁻¹ ^ k := pow_le_pow_right₀ hg1 (by rw [hk]; omega)
    have e1 : (1 / 2 ^ 60 : ℚ) ≤ 1 / 2 := by norm_num
    clear hC1 hE
    calc (1 - F64.u)⁻¹ ^ (D * (5 * b.order + 1)) * (1 + E) ≤ 5 / 4 * (1 + 1 / 2) :=
          mul_le_mul (this.trans hG2) (by linarith) (by linarith) (by norm_num)
      _ ≤ 2 := by norm_num
  · show |(4 * (2 * 2 ^ 1000) : ℚ)| ≤ 2 ^ (1023 : ℤ); decide +kernel
  · show |(2 : ℚ)| ≤ 2 ^ (1023 : ℤ); decide +kernel
  · show |(1 - F64.u)⁻¹ ^ k * (C + ((b.order : ℚ) + 1) ^ D * (E * C + F64.η))| ≤ 2 ^ (1023 : ℤ)
    have hq : 0 ≤ C + ((b.order : ℚ) + 1) ^ D * (E * C + F64.η) := add_nonneg hC0 (mul_nonneg hN0 (add_nonneg (mul_nonneg hE0 hC0) hη0.le))
    rw [abs_of_nonneg (mul_nonneg (zero_le_one.trans hG1) hq)]
    exact final_fits hG2 hN0 (hNk.trans hk51) hE0 hE1 hC0 hC1 hη0.le (by decide +kernel) (by decide +kernel)

/-- **C74.** The same for `operator()` of an interpolation function, whose hints are computed in `double` too: whenever it returns a value. -/
theorem double_call {D : ℕ} {f : InterpFn D F64 F64} {C : ℚ} (hb : DoubleSpline f.spline C) {x : Fin D → F64} {w : Fin D → ℚ}
    (hp : DoublePt f.spline x w) {v : F64} (hv : Fl.call f x = .ok v) {k : ℕ} (hk : k = D * (5 * f.spline.order + 1) + 1 + (f.spline.order + 1) ^ D) :
    ∃ y q, f.spline.rat.eval (fun d => (w d, f.spline.order)) = .ok y ∧ v = .fin q ∧ |q - y| ≤ 3 * k / 2 ^ 53 * C + k / 2 ^ 1074 := by
  unfold Fl.call at hv
  cases ht : (tabM fun d => Fl.hint f d (x d)) with
  | error e => rw [ht] at hv; cases hv
  | ok h =>
    rw [ht, ok_bind] at hv
    have hh := hb.hints ht
    obtain ⟨y, q, h1, h2, h3⟩ := double_eval hb hp hh hk
    rw [h2] at hv
    cases hv
    obtain ⟨Cf, hC⟩ := Mesh.exists_holds f.spline.rat.ctrl hb.wf.ctrl
    rw [hb.wf.eval_val (fun d => hb.wf.validHint (hh d).1 (hh d).2 _) hC] at h1
    refine ⟨y, q, ?_, rfl, h3⟩
    rw [hb.wf.eval_val (fun d => hb.wf.validHint le_rfl (hb.wf.last_ge d) _) hC]
    exact h1

/-! ## C75: wrapping of periodic coordinates -/

theorem fl_add {a b : ℚ} (ha : IsDouble a) (hb : IsDouble b) (h : |a + b| ≤ 2 ^ 1023) :
    ∃ r, (F64.fin a + F64.fin b : F64) = .fin r ∧ IsDouble r ∧ |r - (a + b)| ≤ |a + b| / 2 ^ 53 ∧ r = F64.rnd (a + b) := by
  have hf : F64.Fits (a + b) := by
    show |a + b| ≤ 2 ^ (1023 : ℤ)
    exact_mod_cast h
  refine ⟨F64.rnd (a + b), by rw [F64.add_fin, F64.round_fits hf], ?_, ?_, rfl⟩
  · have h1 : |a + b| < 2 ^ 1024 - 2 ^ 970 := h.trans_lt (by decide +kernel)
    obtain ⟨r, h2, h3, -⟩ := double_round (a + b) h1
    rw [F64.round_fits hf] at h2
    cases h2
    exact h3
  · refine (F64.rnd_error_grid (ha.grid.add hb.grid)).trans (le_of_eq ?_)
    rw [F64.u_eq]; ring

theorem IsDouble.neg {a : ℚ} (ha : IsDouble a) : IsDouble (-a) := by
  obtain ⟨m, e, h1, h2, h3, rfl⟩ := ha
  exact ⟨-m, e, by rwa [abs_neg], h2, h3, by push_cast; ring⟩

theorem fl_sub {a b : ℚ} (ha : IsDouble a) (hb : IsDouble b) (h : |a - b| ≤ 2 ^ 1023) :
    ∃ r, (F64.fin a - F64.fin b : F64) = .fin r ∧ IsDouble r ∧ |r - (a - b)| ≤ |a - b| / 2 ^ 53 ∧ r = F64.rnd (a - b) := by
  have := fl_add ha hb.neg (by rwa [← sub_eq_add_neg])
  rw [← sub_eq_add_neg, F64.add_fin, ← sub_eq_add_neg, ← F64.sub_fin] at this
  exact this

private lemma wrap_bound_right {lo P p z x f s B U : ℚ} {k : ℤ} (hU0 : 0 ≤ U) (hU : U ≤ 1 / 1000) (hP : 0 ≤ P) (hp : |p - P| ≤ U * P) (hz : |z - (x - lo)| ≤ U * |x - lo|)
    (hf : f = z - k * p) (hfp : |f| < p) (hkz : |(k : ℚ) * p| ≤ |z|) (hlo : |lo| ≤ B) (hPB : P ≤ 2 * B) (hs : |s - (lo + f)| ≤ U * |lo + f|) :
    |s - (x - k * P)| ≤ U * (3 * |x - lo| + 4 * B) ∧ |lo + f| ≤ 4 * B ∧ p ≤ 3 * B := by
  have hp' := abs_le.1 hp
  have hB : 0 ≤ B := (abs_nonneg _).trans hlo
  have hUP : U * P ≤ 1 / 1000 * P := mul_le_mul_of_nonneg_right hU hP
  have hp1 : p ≤ 1001 / 1000 * P := by linarith
  have hp2 : 999 / 1000 * P ≤ p := by linarith
  have hzx : |z| ≤ 1001 / 1000 * |x - lo| := by
    have h1 : U * |x - lo| ≤ 1 / 1000 * |x - lo| := mul_le_mul_of_nonneg_right hU (abs_nonneg _)
    have h2 := abs_sub_abs_le_abs_sub z (x - lo)
    linarith
  have hkP : |(k : ℚ)| * P ≤ 3 / 2 * |x - lo| := by
    rw [abs_mul, abs_of_nonneg (show 0 ≤ p by linarith)] at hkz
    have := mul_le_mul_of_nonneg_left hp2 (abs_nonneg (k : ℚ))
    have hx0 := abs_nonneg (x - lo)
    nlinarith
  have hlf : |lo + f| ≤ 4 * B := by
    have := abs_add_le lo f
    linarith
  refine ⟨?_, hlf, by linarith⟩
  have e : s - (x - k * P) = (s - (lo + f)) + (z - (x - lo)) + -(k * (p - P)) := by rw [hf]; ring
  rw [e]
  have h1 : |-((k : ℚ) * (p - P))| ≤ U * (3 / 2 * |x - lo|) := by
    rw [abs_neg, abs_mul]
    calc |(k : ℚ)| * |p - P| ≤ |(k : ℚ)| * (U * P) := mul_le_mul_of_nonneg_left hp (abs_nonneg _)
      _ = U * (|(k : ℚ)| * P) := by ring
      _ ≤ U * (3 / 2 * |x - lo|) := mul_le_mul_of_nonneg_left hkP hU0
  have h2 : U * |lo + f| ≤ U * (4 * B) := mul_le_mul_of_nonneg_left hlf hU0
  have h3 := abs_add_le (s - (lo + f)) (z - (x - lo))
  have h4 := abs_add_le ((s - (lo + f)) + (z - (x - lo))) (-(k * (p - P)))
  have h5 : 0 ≤ U * |x - lo| := mul_nonneg hU0 (abs_nonneg _)
  nlinarith

private lemma wrap_bound_left {lo P p z x f s w B U : ℚ} {k : ℤ} (hU0 : 0 ≤ U) (hU : U ≤ 1 / 1000) (hP : 0 ≤ P) (hp : |p - P| ≤ U * P) (hz : |z - (x - lo)| ≤ U * |x - lo|)
    (hf : f = z - k * p) (hfp : |f| < p) (hkz : |(k : ℚ) * p| ≤ |z|) (hlo : |lo| ≤ B) (hPB : P ≤ 2 * B) (hs : |s - (lo + f)| ≤ U * |lo + f|)
    (hf0 : f ≤ 0) (hw : |w - (s + p)| ≤ U * |s + p|) :
    |w - (x - (k - 1 : ℤ) * P)| ≤ U * (3 * |x - lo| + 10 * B) ∧ |s + p| ≤ 4 * B := by
  obtain ⟨h1, h2, h3⟩ := wrap_bound_right hU0 hU hP hp hz hf hfp hkz hlo hPB hs
  have hB : 0 ≤ B := (abs_nonneg _).trans hlo
  have hp' := abs_le.1 hp
  have hUP : U * P ≤ 1 / 1000 * P := mul_le_mul_of_nonneg_right hU hP
  have hp1 : p ≤ 1001 / 1000 * P := by linarith
  have hsp : |s + p| ≤ 16 / 5 * B := by
    have e : s + p = (lo + (f + p)) + (s - (lo + f)) := by ring
    rw [e]
    have a1 := abs_add_le (lo + (f + p)) (s - (lo + f))
    have a2 := abs_add_le lo (f + p)
    have a3 : |f + p| ≤ p := abs_le.2 ⟨by have := abs_lt.1 hfp; linarith, by linarith⟩
    have a4 : U * |lo + f| ≤ 1 / 1000 * (4 * B) := mul_le_mul hU h2 (abs_nonneg _) (by norm_num)
    linarith
  refine ⟨?_, by linarith⟩
  have e : w - (x - (k - 1 : ℤ) * P) = (w - (s + p)) + (s - (x - k * P)) + (p - P) := by push_cast; ring
  rw [e]
  have b1 := abs_add_le ((w - (s + p)) + (s - (x - k * P))) (p - P)
  have b2 := abs_add_le (w - (s + p)) (s - (x - k * P))
  have b3 : U * |s + p| ≤ U * (16 / 5 * B) := mul_le_mul_of_nonneg_left hsp hU0
  have b4 : U * P ≤ U * (2 * B) := mul_le_mul_of_nonneg_left hPB hU0
  have b5 : 0 ≤ U * B := mul_nonneg hU0 hB
  nlinarith

private lemma rnd_between {lo hi q : ℚ} (h1 : IsDouble lo) (h2 : IsDouble hi) (h3 : lo ≤ q) (h4 : q ≤ hi) : lo ≤ F64.rnd q ∧ F64.rnd q ≤ hi := by
  have a := F64.rnd_mono h3
  have b := F64.rnd_mono h4
  rw [F64.rnd_of_rep h1.rep] at a
  rw [F64.rnd_of_rep h2.rep] at b
  exact ⟨a, b⟩

/-- **C75.** In `double`, a periodic coordinate is wrapped to a number that differs from it by a multiple of the exact period up to an error of
`(3 |x - lo| + 10 B) 2 ^ -53`, `B` the larger of `|lo|`, `|hi|`.  The result is in `[lo, hi]` if the period, and for coordinates on the left also `2 lo - hi`,
are `double`s. -/
theorem double_wrap {lo hi x B : ℚ} (hlo : IsDouble lo) (hhi : IsDouble hi) (hx : IsDouble x) (hlt : lo < hi) (hx1 : |x| ≤ 2 ^ 1000) (hB1 : B ≤ 2 ^ 1000)
    (hloB : |lo| ≤ B) (hhiB : |hi| ≤ B) :
    ∃ (w : ℚ) (k : ℤ), Fl.wrapCoord (F64.fin lo, F64.fin hi) (F64.fin x) = .ok (.fin w) ∧ IsDouble w ∧
      |w - (x - k * (hi - lo))| ≤ (3 * |x - lo| + 10 * B) / 2 ^ 53 ∧
      (IsDouble (hi - lo) → lo ≤ x ∨ IsDouble (2 * lo - hi) → lo ≤ w ∧ w ≤ hi) := by
  obtain ⟨T, hT⟩ : ∃ T : ℚ, T = 2 ^ 1000 := ⟨_, rfl⟩
  have hbig : 16 * T ≤ 2 ^ 1023 := by rw [hT]; decide +kernel
  rw [← hT] at hx1 hB1
  clear hT
  have hB0 : 0 ≤ B := (abs_nonneg _).trans hloB
  have hT0 : 0 ≤ T := hB0.trans hB1
  have hlo' := abs_le.1 hloB
  have hhi' := abs_le.1 hhiB
  have hx' := abs_le.1 hx1
  have hU0 : (0 : ℚ) ≤ 1 / 2 ^ 53 := by norm_num
  have hU1 : (1 / 2 ^ 53 : ℚ) ≤ 1 / 1000 := by norm_num
  obtain ⟨p, hp1, hp2, hp3, hp4⟩ := fl_sub hhi hlo (le_trans (abs_le.2 ⟨by linarith, by linarith⟩) hbig : |hi - lo| ≤ 2 ^ 1023)
  obtain ⟨z, hz1, hz2, hz3, hz4⟩ := fl_sub hx hlo (le_trans (abs_le.2 ⟨by linarith, by linarith⟩) hbig : |x - lo| ≤ 2 ^ 1023)
  have hPB : hi - lo ≤ 2 * B := by linarith
  have hPpos : 0 < hi - lo := by linarith
  rw [abs_of_pos hPpos, div_eq_inv_mul, ← one_div] at hp3
  rw [div_eq_inv_mul, ← one_div] at hz3
  have hp0 : 0 < p := by
    have := abs_le.1 hp3
    have : (1 : ℚ) / 2 ^ 53 * (hi - lo) ≤ 1 / 1000 * (hi - lo) := mul_le_mul_of_nonneg_right hU1 hPpos.le
    linarith
  obtain ⟨f, k, hf1, hf2, hf3, hf4, hf5, hf6⟩ := double_fmod hz2 hp2 hp0.ne'
  rw [abs_of_pos hp0] at hf3
  have hkz : |(k : ℚ) * p| ≤ |z| := by
    have e : (k : ℚ) * p = z - f := by rw [hf2]; ring
    rcases le_total 0 z with h | h
    · have h1 := hf4 h
      have h2 := (abs_lt.1 hf3).2
      have h3 : (-1 : ℚ) * p < k * p := by rw [e]; linarith
      have h4 := lt_of_mul_lt_mul_right h3 hp0.le
      have h5 : (-1 : ℤ) < k := by exact_mod_cast h4
      have h6 : (0 : ℚ) ≤ k := by exact_mod_cast (by omega : 0 ≤ k)
      rw [abs_of_nonneg (mul_nonneg h6 hp0.le), abs_of_nonneg h, e]; linarith
    · have h1 := hf5 h
      have h2 := (abs_lt.1 hf3).1
      have h3 : (k : ℚ) * p < 1 * p := by rw [e]; linarith
      have h4 := lt_of_mul_lt_mul_right h3 hp0.le
      have h5 : k < 1 := by exact_mod_cast h4
      have h6 : (k : ℚ) ≤ 0 := by exact_mod_cast (by omega : k ≤ 0)
      rw [abs_of_nonpos (mul_nonpos_of_nonpos_of_nonneg h6 hp0.le), abs_of_nonpos h, e]; linarith
  -- a first use of the bounds, to see that nothing overflows
  have hlf : |lo + f| ≤ 4 * B := (wrap_bound_right hU0 hU1 hPpos.le hp3 hz3 hf2 hf3 hkz hloB hPB
    (by rw [sub_self, abs_zero]; positivity : |lo + f - (lo + f)| ≤ _)).2.1
  obtain ⟨s, hs1, hs2, hs3, hs4⟩ := fl_add hlo hf6 (hlf.trans (le_trans (by linarith) hbig))
  rw [div_eq_inv_mul, ← one_div] at hs3
  have hm : (3 * |x - lo| + 10 * B) / 2 ^ 53 = 1 / 2 ^ 53 * (3 * |x - lo| + 10 * B) := by rw [div_eq_inv_mul, ← one_div]
  rw [hm]
  by_cases hside : x < lo
  · have hf0 : f ≤ 0 := by
      refine hf5 ?_
      rw [hz4]
      have := F64.rnd_mono (show x - lo ≤ 0 by linarith)
      rwa [F64.rnd_zero] at this
    have hsp : |s + p| ≤ 4 * B := (wrap_bound_left (w := s + p) hU0 hU1 hPpos.le hp3 hz3 hf2 hf3 hkz hloB hPB hs3 hf0
      (by rw [sub_self, abs_zero]; positivity)).2
    obtain ⟨w, hw1, hw2, hw3, hw4⟩ := fl_add hs2 hp2 (hsp.trans (le_trans (by linarith) hbig))
    rw [div_eq_inv_mul, ← one_div] at hw3
    refine ⟨w, k - 1, ?_, hw2, (wrap_bound_left hU0 hU1 hPpos.le hp3 hz3 hf2 hf3 hkz hloB hPB hs3 hf0 hw3).1, fun hd hd' => ?_⟩
    · unfold Fl.wrapCoord
      simp only
      rw [hp1, hz1, hf1, ok_bind, hs1, if_pos ((double_ops x lo 0).2.2.2.2.2.2.1.2 hside), hw1]
      rfl
    · have hd' : IsDouble (2 * lo - hi) := hd'.resolve_left (not_le.2 hside)
      have hpe : p = hi - lo := by rw [hp4, F64.rnd_of_rep hd.rep]
      have h1 := (abs_lt.1 hf3).1
      obtain ⟨s5, s6⟩ := rnd_between hd' hlo (show 2 * lo - hi ≤ lo + f by linarith) (show lo + f ≤ lo by linarith)
      rw [← hs4] at s5 s6
      obtain ⟨w5, w6⟩ := rnd_between hlo hhi (show lo ≤ s + p by linarith) (show s + p ≤ hi by linarith)
      rw [← hw4] at w5 w6
      exact ⟨w5, w6⟩
  · have hside' := not_lt.1 hside
    have hf0 : 0 ≤ f := by
      refine hf4 ?_
      rw [hz4]
      exact F64.rnd_nonneg (by linarith)
    refine ⟨s, k, ?_, hs2, ?_, fun hd _ => ?_⟩
    · unfold Fl.wrapCoord
      simp only
      rw [hp1, hz1, hf1, ok_bind, hs1, if_neg (fun h => hside ((double_ops x lo 0).2.2.2.2.2.2.1.1 h))]
      have e : (F64.fin s + 0 : F64) = F64.fin s := by
        show (F64.fin s + F64.fin 0 : F64) = _
        rw [F64.add_fin, add_zero]
        have hs5 : |s| ≤ 2 ^ 1023 := by
          have h1 := abs_sub_abs_le_abs_sub s (lo + f)
          have h2 : (1 : ℚ) / 2 ^ 53 * |lo + f| ≤ 1 / 1000 * |lo + f| := mul_le_mul_of_nonneg_right hU1 (abs_nonneg _)
          exact le_trans (by linarith) hbig
        rw [F64.round_fits (by show |s| ≤ 2 ^ (1023 : ℤ); exact_mod_cast hs5), F64.rnd_of_rep hs2.rep]
      rw [e]
      rfl
    · refine (wrap_bound_right hU0 hU1 hPpos.le hp3 hz3 hf2 hf3 hkz hloB hPB hs3).1.trans (mul_le_mul_of_nonneg_left (by linarith) hU0)
    · have hpe : p = hi - lo := by rw [hp4, F64.rnd_of_rep hd.rep]
      have h1 := (abs_lt.1 hf3).2
      have := rnd_between hlo hhi (show lo ≤ lo + f by linarith) (show lo + f ≤ hi by linarith)
      rwa [← hs4] at this

/-- **C75.** Otherwise the result can be outside: for the range from -0.228 to 0.783 the coordinate just below the range is wrapped to a number above it. -/
theorem double_wrap_outside : ∃ lo hi x w : ℚ, IsDouble lo ∧ IsDouble hi ∧ IsDouble x ∧ lo < hi ∧ x < lo ∧
    Fl.wrapCoord (F64.fin lo, F64.fin hi) (F64.fin x) = .ok (.fin w) ∧ hi < w :=
  ⟨(-8214565720323785 / 2 ^ 55), (7052637016462197 / 2 ^ 53), (-4107282860161893 / 2 ^ 54), (3526318508231099 / 2 ^ 52), isDouble_of_round (by decide +kernel), isDouble_of_round (by decide +kernel), isDouble_of_round (by decide +kernel),
    by decide +kernel, by decide +kernel, by decide +kernel, by decide +kernel⟩

/-! ## Examples -/

/-- C72: `1/10` is rounded up, half way between two `double`s the even one is taken, small results become subnormal, and large ones infinite. -/
example : F64.round (1 / 10) = .fin (3602879701896397 / 2 ^ 55) ∧ F64.round (2 ^ 53 + 1) = .fin (2 ^ 53) ∧ F64.round (2 ^ 53 + 3) = .fin (2 ^ 53 + 4) ∧
    F64.round (5 / 3 / 2 ^ 1074) = .fin (2 / 2 ^ 1074) ∧ F64.round (1 / 2 ^ 1075) = .fin 0 ∧ F64.round (-2 ^ 1024) = .inf true ∧
    F64.round (2 ^ 1024 - 2 ^ 970) = .inf false ∧ F64.round (2 ^ 1024 - 2 ^ 970 - 1) = .fin (2 ^ 1024 - 2 ^ 971) := by
  decide +kernel

/-- C73: a case in which every hypothesis holds and the values have to be rounded. -/
example : ∃ b : List ℚ, Fl.baseSplineValue 2 ([0, 0, 0, 1, 3, 3, 3].map F64.fin) 3 (.fin (5 / 4)) 2 = .ok (b.map F64.fin) ∧ b.length = 3 ∧
    ∀ a, a ≤ 2 → 0 ≤ b.getD a 0 ∧ |b.getD a 0 - piece (knotFn [0, 0, 0, 1, 3, 3, 3]) 3 2 (3 - 2 + a) (5 / 4)| ≤
      6 * (2 : ℕ) / 2 ^ 53 * piece (knotFn [0, 0, 0, 1, 3, 3, 3]) 3 2 (3 - 2 + a) (5 / 4) + 1 / 2 ^ 120 :=
  double_basis [0, 0, 0, 1, 3, 3, 3] le_rfl (by norm_num) (by norm_num) (by decide)
    (fun v hv => ⟨isDouble_of_round (by revert v; decide +kernel), by revert v; decide +kernel⟩)
    (isDouble_of_round (by decide +kernel)) (kmono_of_pairwise (by decide +kernel)) (by decide +kernel) (by decide +kernel) (by decide +kernel)

/-- The values computed there; the first is `49/96` exactly. -/
example : Fl.baseSplineValue 2 ([0, 0, 0, 1, 3, 3, 3].map F64.fin) 3 (.fin (5 / 4)) 2 =
      .ok [.fin (4597424619607381 / 2 ^ 53), .fin (8538074293556565 / 2 ^ 54), .fin (1 / 64)] ∧
    piece (knotFn [0, 0, 0, 1, 3, 3, 3]) 3 2 1 (5 / 4 : ℚ) = 49 / 96 := by
  decide +kernel

/-- C74: a spline of `double`s with one periodic dimension. -/
def exDouble : BSpline 2 F64 F64 where
  order := 2
  periodicity := ![false, true]
  knots := ![[.fin 0, .fin 0, .fin 0, .fin 1, .fin 3, .fin 3, .fin 3], [.fin (-2), .fin (-1), .fin 0, .fin 1, .fin 2, .fin 3, .fin 4, .fin 5, .fin 6]]
  ctrl := ⟨![4, 3], [.fin 1, .fin 0, .fin 3, .fin (-4), .fin (3602879701896397 / 2 ^ 55), .fin 2, .fin 7, .fin 0, .fin 9, .fin 1, .fin 11, .fin (-2)]⟩
  range := ![(.fin 0, .fin 3), (.fin 0, .fin 3)]

theorem exDouble_ok : DoubleSpline exDouble 11 where
  wf :=
    { ctrl := by decide +kernel
      mono := by
        intro d; fin_cases d
        · exact kmono_of_pairwise (l := [0, 0, 0, 1, 3, 3, 3]) (by decide +kernel)
        · exact kmono_of_pairwise (l := [-2, -1, 0, 1, 2, 3, 4, 5, 6]) (by decide +kernel)
      len := by decide +kernel
      first := by decide +kernel
      lastSeg := by decide +kernel
      aper := by decide +kernel
      per := by decide +kernel }
  knots := fun d v hv => by
    have h : ∀ d, ∀ v ∈ exDouble.knots d, v = .fin v.toRat ∧ F64.round v.toRat = .fin v.toRat ∧ |v.toRat| ≤ 2 ^ 1000 := by decide +kernel
    obtain ⟨h1, h2, h3⟩ := h d v hv
    exact ⟨v.toRat, h1, isDouble_of_round h2, h3⟩
  gaps := by
    intro d i h1 h2
    change 2 ≤ i at h1
    fin_cases d
    · change i ≤ 3 at h2
      interval_cases i <;> decide +kernel
    · change i ≤ 5 at h2
      interval_cases i <;> decide +kernel
  ctrl := fun v hv => by
    have h : ∀ v ∈ exDouble.ctrl.storage, v = .fin v.toRat ∧ F64.round v.toRat = .fin v.toRat ∧ |v.toRat| ≤ 11 := by decide +kernel
    obtain ⟨h1, h2, h3⟩ := h v hv
    exact ⟨v.toRat, h1, isDouble_of_round h2, h3⟩
  bound := by decide +kernel
  order := by decide
  small := by decide

theorem exDouble_pt : DoublePt exDouble ![.fin (3 / 2), .fin (29 / 4)] ![3 / 2, 5 / 4] where
  wrap := by decide +kernel
  double := fun d => isDouble_of_round (by revert d; decide +kernel)
  dom := by decide +kernel
  range := by decide +kernel

/-- C74: the bound for this spline and this point. -/
example : ∃ y v, exDouble.rat.eval (fun d => (![3 / 2, 5 / 4] d, ![2, 4] d)) = .ok y ∧
    Fl.eval exDouble (fun d => (![.fin (3 / 2), .fin (29 / 4)] d, ![2, 4] d)) = .ok (.fin v) ∧ |v - y| ≤ 3 * (32 : ℕ) / 2 ^ 53 * 11 + (32 : ℕ) / 2 ^ 1074 :=
  double_eval exDouble_ok exDouble_pt (h := ![2, 4]) (by decide +kernel) rfl

/-- The two values are not equal. -/
example : (do let v ← Fl.eval exDouble ![(.fin (3 / 2), 2), (.fin (29 / 4), 4)]
              let y ← exDouble.rat.eval ![(3 / 2, 2), (5 / 4, 4)]
              pure (decide (v.toRat ≠ y))) = .ok true := by decide +kernel

/-- C75: hypotheses and outcome for `-1/10` in the range from 0 to 3. -/
example : ∃ (w : ℚ) (k : ℤ), Fl.wrapCoord (F64.fin 0, F64.fin 3) (F64.fin (-3602879701896397 / 2 ^ 55)) = .ok (.fin w) ∧ IsDouble w ∧
    |w - (-3602879701896397 / 2 ^ 55 - k * (3 - 0))| ≤ (3 * |-3602879701896397 / 2 ^ 55 - (0 : ℚ)| + 10 * 3) / 2 ^ 53 ∧ 0 ≤ w ∧ w ≤ 3 := by
  obtain ⟨w, k, h1, h2, h3, h4⟩ := double_wrap (lo := 0) (hi := 3) (x := -3602879701896397 / 2 ^ 55) (B := 3) (isDouble_of_round (by decide +kernel))
    (isDouble_of_round (by decide +kernel)) (isDouble_of_round (by decide +kernel)) (by norm_num) (by decide +kernel) (by decide +kernel) (by norm_num) (by norm_num)
  exact ⟨w, k, h1, h2, h3, h4 (isDouble_of_round (by decide +kernel)) (Or.inr (isDouble_of_round (by decide +kernel)))⟩

/-- C72: `fmod`. -/
example : CoordArith.fmod (F64.fin (-29 / 4)) (F64.fin 3) = .ok (.fin (-5 / 4)) ∧ CoordArith.ceilSize (F64.fin (29 / 4)) = .ok 8 ∧
    CoordArith.ceilSize (F64.fin (2 ^ 64)) = .error .badCast := by decide +kernel

end Intp
