import Verif.Proofs.RoundInterp
import Verif.Proofs.RoundUniform

/-!
# Elimination in `double` of a matrix with dominant diagonal

The columns are weighted by `w`.  The weighted margin by which the diagonal entry of a row exceeds the other entries decreases by rounding only, the weighted
sum of a row grows by rounding only.
-/

namespace Intp

open Finset

/-- Weighted sum of row `i` from column `k` on. -/
def wsum (q : ℕ → ℕ → ℚ) (w : ℕ → ℚ) (n k i : ℕ) : ℚ := ∑ j ∈ Ico k n, |q i j| * w j

/-- Weighted margin of the diagonal entry of row `i`, from column `k` on. -/
def marg (q : ℕ → ℕ → ℚ) (w : ℕ → ℚ) (n k i : ℕ) : ℚ := ∑ j ∈ Ico k n, (if j = i then |q i j| else -|q i j|) * w j

section
variable {a a' : ℕ → ℕ → ℚ} {w : ℕ → ℚ} {n k i : ℕ}

theorem wsum_nonneg (hw : ∀ j, 0 ≤ w j) : 0 ≤ wsum a w n k i := sum_nonneg fun j _ => mul_nonneg (abs_nonneg _) (hw j)

theorem marg_le_wsum (hw : ∀ j, 0 ≤ w j) : marg a w n k i ≤ wsum a w n k i := by
  refine sum_le_sum fun j _ => mul_le_mul_of_nonneg_right ?_ (hw j)
  have := abs_nonneg (a i j)
  split <;> linarith

theorem wsum_congr (h : ∀ j, j < n → a' i j = a i j) : wsum a' w n k i = wsum a w n k i :=
  sum_congr rfl fun j hj => by rw [h j (mem_Ico.1 hj).2]

theorem marg_congr (h : ∀ j, j < n → a' i j = a i j) : marg a' w n k i = marg a w n k i :=
  sum_congr rfl fun j hj => by rw [h j (mem_Ico.1 hj).2]

theorem wsum_succ (h : k < n) : wsum a w n k i = |a i k| * w k + wsum a w n (k + 1) i := by
  unfold wsum; rw [sum_eq_sum_Ico_succ_bot h]

theorem marg_succ (h : k < n) (hi : k < i) : marg a w n k i = -|a i k| * w k + marg a w n (k + 1) i := by
  unfold marg; rw [sum_eq_sum_Ico_succ_bot h, if_neg (by omega)]

theorem marg_self (h : k < n) : marg a w n k k = |a k k| * w k - wsum a w n (k + 1) k := by
  unfold marg wsum
  rw [sum_eq_sum_Ico_succ_bot h, if_pos rfl, sub_eq_add_neg, ← sum_neg_distrib]
  congr 1
  refine sum_congr rfl fun j hj => ?_
  rw [if_neg (by have := (mem_Ico.1 hj).1; omega)]
  ring

/-- One entry of the weighted sum. -/
theorem entry_le_wsum (hw : ∀ j, 0 ≤ w j) {j : ℕ} (h1 : k ≤ j) (h2 : j < n) : |a i j| * w j ≤ wsum a w n k i :=
  single_le_sum (f := fun j => |a i j| * w j) (fun j _ => mul_nonneg (abs_nonneg _) (hw j)) (mem_Ico.2 ⟨h1, h2⟩)

/-- A row after one step of the elimination. -/
theorem marg_step (hw : ∀ j, 0 ≤ w j) (hki : k < i) (hi : i < n) {f ε : ℚ} (hf : |a i k| = |f| * |a k k|)
    (he : ∑ j ∈ Ico (k + 1) n, |a' i j - (a i j - f * a k j)| * w j ≤ ε) :
    marg a w n k i + |f| * marg a w n k k ≤ marg a' w n (k + 1) i + ε ∧ wsum a' w n (k + 1) i + |f| * marg a w n k k ≤ wsum a w n k i + ε := by
  have hk : k < n := by omega
  rw [marg_self hk, marg_succ hk hki, wsum_succ hk, hf]
  have tri : ∀ j, |a' i j| ≤ |a i j| + |f| * |a k j| + |a' i j - (a i j - f * a k j)| ∧ |a i j| ≤ |a' i j| + |f| * |a k j| + |a' i j - (a i j - f * a k j)| := by
    intro j
    rw [← abs_mul]
    constructor
    · have h1 := abs_add_le (a i j - f * a k j) (a' i j - (a i j - f * a k j))
      have h2 := abs_sub (a i j) (f * a k j)
      rw [add_sub_cancel] at h1
      linarith
    · have h1 := abs_sub (a' i j + f * a k j) (a' i j - (a i j - f * a k j))
      have h2 := abs_add_le (a' i j) (f * a k j)
      rw [show a' i j + f * a k j - (a' i j - (a i j - f * a k j)) = a i j by ring] at h1
      linarith
  have e : |f| * wsum a w n (k + 1) k = ∑ j ∈ Ico (k + 1) n, |f| * |a k j| * w j := by
    unfold wsum; rw [mul_sum]; exact sum_congr rfl fun j _ => by ring
  have h1 : marg a w n (k + 1) i ≤ marg a' w n (k + 1) i + ∑ j ∈ Ico (k + 1) n, |f| * |a k j| * w j + ∑ j ∈ Ico (k + 1) n, |a' i j - (a i j - f * a k j)| * w j := by
    unfold marg
    rw [← sum_add_distrib, ← sum_add_distrib]
    refine sum_le_sum fun j _ => ?_
    rw [← add_mul, ← add_mul]
    refine mul_le_mul_of_nonneg_right ?_ (hw j)
    split
    · exact (tri j).2
    · have := (tri j).1; linarith
  have h2 : wsum a' w n (k + 1) i ≤ wsum a w n (k + 1) i + ∑ j ∈ Ico (k + 1) n, |f| * |a k j| * w j + ∑ j ∈ Ico (k + 1) n, |a' i j - (a i j - f * a k j)| * w j := by
    unfold wsum
    rw [← sum_add_distrib, ← sum_add_distrib]
    refine sum_le_sum fun j _ => ?_
    rw [← add_mul, ← add_mul]
    exact mul_le_mul_of_nonneg_right (tri j).1 (hw j)
  rw [← e] at h1 h2
  constructor <;> linarith

end

/-- Subtraction of any two finite numbers. -/
theorem fl_sub' {a b : ℚ} (h : |a - b| ≤ 2 ^ 1023) :
    ∃ r, (F64.fin a - F64.fin b : F64) = .fin r ∧ IsDouble r ∧ |r - (a - b)| ≤ |a - b| / 2 ^ 53 + 1 / 2 ^ 1074 := by
  obtain ⟨r, r1, r2, r3⟩ := fl_mul (a := a - b) (b := 1) (by rwa [mul_one])
  refine ⟨r, ?_, r2, by rwa [mul_one] at r3⟩
  rw [← r1, F64.sub_fin, F64.mul_fin, mul_one]

/-- One updated entry. -/
theorem upd_round {a l b f : ℚ} (hl : |l - f| ≤ |f| / 2 ^ 53 + 1 / 2 ^ 1074) (ha1 : |a| ≤ 2 ^ 1000) (hb : |b| ≤ 2 ^ 1000) (hfb : |f| * |b| ≤ 2 ^ 1000) :
    ∃ r, (F64.fin a - F64.fin l * F64.fin b : F64) = .fin r ∧ IsDouble r ∧ |r - (a - f * b)| ≤ (|a| + 4 * (|f| * |b|)) / 2 ^ 53 + 4 * (1 + |b|) / 2 ^ 1074 := by
  have hη : (0 : ℚ) ≤ 1 / 2 ^ 1074 := one_div_nonneg.2 (pow_nonneg zero_le_two _)
  have hη1 : (1 : ℚ) / 2 ^ 1074 ≤ 1 := by decide +kernel
  have e4 : 4 * (1 + |b|) / 2 ^ 1074 = 4 * (1 + |b|) * (1 / 2 ^ 1074) := by rw [mul_one_div]
  rw [e4]
  have hb0 := abs_nonneg b
  have hf0 := abs_nonneg f
  have ha0 := abs_nonneg a
  have hl1 : |l| ≤ |f| + |f| / 2 ^ 53 + 1 / 2 ^ 1074 := by
    have := abs_sub_abs_le_abs_sub l f
    generalize (1 : ℚ) / 2 ^ 1074 = η at *
    linarith
  have hfb0 : 0 ≤ |f| * |b| := by positivity
  have hlb : |l * b| ≤ |f| * |b| + |f| * |b| / 2 ^ 53 + |b| * (1 / 2 ^ 1074) := by
    rw [abs_mul]
    refine (mul_le_mul_of_nonneg_right hl1 hb0).trans (le_of_eq ?_)
    generalize (1 : ℚ) / 2 ^ 1074 = η
    ring
  have hbη : |b| * (1 / 2 ^ 1074) ≤ 1 := by
    have : (2 : ℚ) ^ 1000 * (1 / 2 ^ 1074) ≤ 1 := by decide +kernel
    exact (mul_le_mul_of_nonneg_right hb hη).trans this
  have hbη0 : 0 ≤ |b| * (1 / 2 ^ 1074) := mul_nonneg hb0 hη
  have hlb' : |l * b| ≤ 2 ^ 1001 := by
    have : (2 : ℚ) ^ 1000 + 2 ^ 1000 / 2 ^ 53 + 1 ≤ 2 ^ 1001 := by decide +kernel
    refine le_trans (hlb.trans ?_) this
    exact add_le_add (add_le_add hfb (div_le_div_of_nonneg_right hfb (by positivity))) hbη
  obtain ⟨p, p1, p2, p3⟩ := fl_mul (a := l) (b := b) (hlb'.trans (by decide +kernel))
  have hp : |p| ≤ |l * b| + |l * b| / 2 ^ 53 + 1 / 2 ^ 1074 := by
    have := abs_sub_abs_le_abs_sub p (l * b)
    generalize (1 : ℚ) / 2 ^ 1074 = η at *
    linarith
  have hap : |a - p| ≤ |a| + |p| := abs_sub _ _
  have hbig : |a - p| ≤ 2 ^ 1023 := by
    have h1 : (2 : ℚ) ^ 1000 + (2 ^ 1001 + 2 ^ 1001 / 2 ^ 53 + 1) ≤ 2 ^ 1023 := by decide +kernel
    refine hap.trans (le_trans (add_le_add ha1 (hp.trans ?_)) h1)
    exact add_le_add (add_le_add hlb' (div_le_div_of_nonneg_right hlb' (by positivity))) hη1
  obtain ⟨r, r1, r2, r3⟩ := fl_sub' hbig
  refine ⟨r, by rw [p1, r1], r2, ?_⟩
  have t1 : |r - (a - f * b)| ≤ |r - (a - p)| + |p - l * b| + |l - f| * |b| := by
    rw [← abs_mul]
    have e : r - (a - f * b) = (r - (a - p)) - (p - l * b) - (l - f) * b := by ring
    rw [e]
    have h1 := abs_sub (r - (a - p) - (p - l * b)) ((l - f) * b)
    have h2 := abs_sub (r - (a - p)) (p - l * b)
    linarith
  have t2 : |l - f| * |b| ≤ |f| * |b| / 2 ^ 53 + |b| * (1 / 2 ^ 1074) := by
    refine (mul_le_mul_of_nonneg_right hl hb0).trans (le_of_eq ?_)
    generalize (1 : ℚ) / 2 ^ 1074 = η
    ring
  rw [show 4 * (1 + |b|) * (1 / 2 ^ 1074) = 4 * (1 / 2 ^ 1074) + 4 * (|b| * (1 / 2 ^ 1074)) by generalize (1 : ℚ) / 2 ^ 1074 = η; ring]
  generalize |b| * (1 / 2 ^ 1074) = θ at *
  generalize (1 : ℚ) / 2 ^ 1074 = η at *
  generalize |f| * |b| = g at *
  linarith

/-- Number of the first `k` steps that change row `i`. -/
noncomputable def touch (Pat : ℕ → ℕ → Prop) (k i : ℕ) : ℕ := by
  classical exact #{m ∈ range k | m < i ∧ Pat i m}

theorem touch_zero (Pat : ℕ → ℕ → Prop) (i : ℕ) : touch Pat 0 i = 0 := by simp [touch]

theorem touch_pos {Pat : ℕ → ℕ → Prop} {k i : ℕ} (h : k < i ∧ Pat i k) : touch Pat (k + 1) i = touch Pat k i + 1 := by
  unfold touch
  rw [range_add_one, filter_insert, if_pos h, card_insert_of_notMem (by simp)]

theorem touch_neg {Pat : ℕ → ℕ → Prop} {k i : ℕ} (h : ¬ (k < i ∧ Pat i k)) : touch Pat (k + 1) i = touch Pat k i := by
  unfold touch
  rw [range_add_one, filter_insert, if_neg h]

theorem touch_le_card {Pat : ℕ → ℕ → Prop} {k i : ℕ} {T : Finset ℕ} (h : ∀ m, m < k → m < i → Pat i m → m ∈ T) : touch Pat k i ≤ #T := by
  classical
  unfold touch
  refine Finset.card_le_card fun m hm => ?_
  have := Finset.mem_filter.1 hm
  exact h m (mem_range.1 this.1) this.2.1 this.2.2

theorem touch_band (p q k i : ℕ) : touch (InBand p q) k i ≤ p := by
  have h : #(Ico (i - p) i) = i - (i - p) := Nat.card_Ico _ _
  refine (touch_le_card (T := Ico (i - p) i) fun m _ h1 h2 => ?_).trans (by omega)
  unfold InBand at h2
  exact mem_Ico.2 (by omega)

end Intp
