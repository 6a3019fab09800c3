import Verif.Float64
import Verif.Rounding
import Mathlib.Tactic.Positivity
import Mathlib.Tactic.Linarith
import Mathlib.Tactic.FieldSimp
import Mathlib.Tactic.NormNum
import Mathlib.Algebra.Order.Field.Power

/-! # The rounding of `double` is a rounding to nearest -/

namespace Intp.F64

theorem pow2_eq (e : ℤ) : pow2 e = (2 : ℚ) ^ e := by
  unfold pow2
  split
  · rename_i h
    obtain ⟨n, rfl⟩ := Int.eq_ofNat_of_zero_le h
    simp
  · rename_i h
    obtain ⟨n, hn⟩ := Int.eq_ofNat_of_zero_le (show 0 ≤ -e by omega)
    rw [show e = -(n : ℤ) by omega]
    simp

theorem expo_spec {q : ℚ} (hq : q ≠ 0) : (2 : ℚ) ^ expo q ≤ |q| ∧ |q| < (2 : ℚ) ^ (expo q + 1) := by
  unfold expo
  simp only [pow2_eq]
  set a := q.num.natAbs with ha
  set b := q.den with hb
  have ha0 : a ≠ 0 := by rw [ha]; simpa using hq
  have hb0 : b ≠ 0 := q.den_nz
  have hab : |q| = (a : ℚ) / b := by
    conv_lhs => rw [← Rat.num_div_den q]
    rw [abs_div, Nat.abs_cast]
    congr 1
    rw [ha, Nat.cast_natAbs, Int.cast_abs]
  have h1 : (2 : ℚ) ^ a.log2 ≤ a := by exact_mod_cast Nat.log2_self_le ha0
  have h2 : (a : ℚ) < 2 ^ (a.log2 + 1) := by exact_mod_cast Nat.lt_log2_self
  have h3 : (2 : ℚ) ^ b.log2 ≤ b := by exact_mod_cast Nat.log2_self_le hb0
  have h4 : (b : ℚ) < 2 ^ (b.log2 + 1) := by exact_mod_cast Nat.lt_log2_self
  have hbp : (0 : ℚ) < b := by exact_mod_cast Nat.pos_of_ne_zero hb0
  have hup : |q| < (2 : ℚ) ^ ((a.log2 : ℤ) - b.log2 + 1) := by
    rw [hab, div_lt_iff₀ hbp]
    calc (a : ℚ) < 2 ^ (a.log2 + 1) := h2
      _ = (2 : ℚ) ^ ((a.log2 : ℤ) - b.log2 + 1) * 2 ^ b.log2 := by
        rw [← zpow_natCast, ← zpow_natCast, ← zpow_add₀ (by norm_num)]; congr 1; push_cast; ring
      _ ≤ _ := mul_le_mul_of_nonneg_left h3 (by positivity)
  have hlo : (2 : ℚ) ^ ((a.log2 : ℤ) - b.log2 - 1) ≤ |q| := by
    rw [hab, le_div_iff₀ hbp]
    calc (2 : ℚ) ^ ((a.log2 : ℤ) - b.log2 - 1) * b ≤ (2 : ℚ) ^ ((a.log2 : ℤ) - b.log2 - 1) * 2 ^ (b.log2 + 1) :=
          mul_le_mul_of_nonneg_left h4.le (by positivity)
      _ = 2 ^ a.log2 := by
        rw [← zpow_natCast, ← zpow_natCast, ← zpow_add₀ (by norm_num)]; congr 1; push_cast; ring
      _ ≤ a := h1
  split
  · rename_i h
    exact ⟨h, hup⟩
  · rename_i h
    refine ⟨hlo, ?_⟩
    rw [sub_add_cancel]
    exact not_le.1 h

theorem div_eq_floor (m : ℚ) : m.num / (m.den : ℤ) = ⌊m⌋ := (Rat.floor_def _).symm

theorem nearest_spec (m : ℚ) : |(nearest m : ℚ) - m| ≤ 1 / 2 := by
  unfold nearest
  simp only [div_eq_floor]
  have h1 := Int.floor_le m
  have h2 := Int.lt_floor_add_one m
  rw [abs_le]
  split
  · constructor <;> linarith
  · split
    · push_cast; constructor <;> linarith
    · split
      · constructor <;> linarith
      · push_cast; constructor <;> linarith

theorem nearest_int (z : ℤ) : nearest z = z := by
  unfold nearest
  simp only [div_eq_floor, Int.floor_intCast, sub_self]
  rw [if_pos (by norm_num)]

theorem nearest_nonneg {m : ℚ} (h : 0 ≤ m) : 0 ≤ nearest m := by
  have h0 : 0 ≤ ⌊m⌋ := Int.floor_nonneg.2 h
  unfold nearest
  simp only [div_eq_floor]
  split
  · exact h0
  · split
    · omega
    · split <;> omega

/-- Multiples of the smallest positive number. -/
def Grid (q : ℚ) : Prop := ∃ z : ℤ, q = z * (2 : ℚ) ^ (-1074 : ℤ)

theorem Grid.add {a b : ℚ} (ha : Grid a) (hb : Grid b) : Grid (a + b) := by
  obtain ⟨x, rfl⟩ := ha
  obtain ⟨y, rfl⟩ := hb
  exact ⟨x + y, by push_cast; ring⟩

theorem Grid.neg {a : ℚ} (ha : Grid a) : Grid (-a) := by
  obtain ⟨x, rfl⟩ := ha
  exact ⟨-x, by push_cast; ring⟩

theorem grid_zero : Grid 0 := ⟨0, by simp⟩

theorem grid_int (n : ℤ) : Grid n := ⟨n * 2 ^ 1074, by
  push_cast
  rw [mul_assoc, ← zpow_natCast, ← zpow_add₀ (by norm_num)]
  simp⟩

theorem grid_of_last (z : ℤ) {e : ℤ} (he : -1074 ≤ e) : Grid ((z : ℚ) * (2 : ℚ) ^ e) := by
  obtain ⟨n, hn⟩ := Int.eq_ofNat_of_zero_le (show 0 ≤ e + 1074 by omega)
  refine ⟨z * 2 ^ n, ?_⟩
  rw [show e = (n : ℤ) + (-1074) by omega, zpow_add₀ (by norm_num)]
  push_cast
  rw [zpow_natCast]; ring

theorem rnd_grid (q : ℚ) : Grid (rnd q) := by
  unfold rnd
  split
  · exact grid_zero
  · rw [pow2_eq]
    exact grid_of_last _ (le_max_right _ _)

theorem rnd_nonneg {q : ℚ} (h : 0 ≤ q) : 0 ≤ rnd q := by
  unfold rnd
  split
  · exact le_rfl
  · rw [pow2_eq]
    have h1 : (0 : ℚ) < 2 ^ last q := by positivity
    exact mul_nonneg (by exact_mod_cast nearest_nonneg (div_nonneg h h1.le)) h1.le

/-- Half a unit in the last place. -/
theorem rnd_half (q : ℚ) : |rnd q - q| ≤ (2 : ℚ) ^ last q / 2 := by
  unfold rnd
  have h1 : (0 : ℚ) < 2 ^ last q := by positivity
  split
  · rename_i h; subst h; simp; positivity
  · rw [pow2_eq]
    have := nearest_spec (q / 2 ^ last q)
    have e : (nearest (q / 2 ^ last q) : ℚ) * 2 ^ last q - q = ((nearest (q / 2 ^ last q) : ℚ) - q / 2 ^ last q) * 2 ^ last q := by
      field_simp
    rw [e, abs_mul, abs_of_pos h1]
    calc _ ≤ 1 / 2 * (2 : ℚ) ^ last q := mul_le_mul_of_nonneg_right this h1.le
      _ = _ := by ring

/-- `2 ^ -53` -/
def u : ℚ := (2 : ℚ) ^ (-53 : ℤ)

/-- `2 ^ -1075` -/
def η : ℚ := (2 : ℚ) ^ (-1075 : ℤ)

theorem u_pos : 0 < u := by unfold u; positivity
theorem η_pos : 0 < η := by unfold η; positivity
theorem u_eq : u = 1 / 2 ^ 53 := by unfold u; rw [zpow_neg, one_div]; norm_cast

theorem rnd_zero : rnd 0 = 0 := by unfold rnd; simp

theorem rnd_normal {q : ℚ} (hq : q ≠ 0) (h : -1074 ≤ expo q - 52) : |rnd q - q| ≤ u * |q| := by
  refine (rnd_half q).trans ?_
  have : last q = expo q - 52 := max_eq_left h
  rw [this]
  have h1 := (expo_spec hq).1
  calc (2 : ℚ) ^ (expo q - 52) / 2 = u * 2 ^ expo q := by
        unfold u
        rw [← zpow_add₀ (by norm_num), div_eq_iff (by norm_num), ← zpow_add_one₀ (by norm_num)]
        congr 1; ring
    _ ≤ u * |q| := mul_le_mul_of_nonneg_left h1 u_pos.le

/-- Rounding of any number. -/
theorem rnd_error (q : ℚ) : |rnd q - q| ≤ u * |q| + η := by
  by_cases hq : q = 0
  · subst hq; rw [rnd_zero]; simp; exact η_pos.le
  by_cases h : -1074 ≤ expo q - 52
  · have := rnd_normal hq h
    have := η_pos
    linarith
  · refine (rnd_half q).trans ?_
    have : last q = -1074 := max_eq_right (by omega)
    rw [this]
    have h2 : (2 : ℚ) ^ (-1074 : ℤ) / 2 = η := by
      unfold η
      rw [div_eq_iff (by norm_num), ← zpow_add_one₀ (by norm_num)]; rfl
    rw [h2]
    have := mul_nonneg u_pos.le (abs_nonneg q)
    linarith

/-- Rounding of a multiple of the smallest positive number. -/
theorem rnd_error_grid {q : ℚ} (hg : Grid q) : |rnd q - q| ≤ u * |q| := by
  by_cases hq : q = 0
  · subst hq; rw [rnd_zero]; simp
  by_cases h : -1074 ≤ expo q - 52
  · exact rnd_normal hq h
  · have hl : last q = -1074 := max_eq_right (by omega)
    obtain ⟨z, hz⟩ := hg
    have : rnd q = q := by
      unfold rnd
      rw [if_neg hq, pow2_eq, hl]
      have : q / 2 ^ (-1074 : ℤ) = (z : ℚ) := by
        rw [hz, mul_div_assoc, div_self (by positivity), mul_one]
      rw [this, nearest_int, ← hz]
    rw [this]; simp
    exact mul_nonneg u_pos.le (abs_nonneg q)

/-- Sizes that do not overflow. -/
def Fits (q : ℚ) : Prop := |q| ≤ (2 : ℚ) ^ (1023 : ℤ)

theorem round_fits {q : ℚ} (h : Fits q) : round q = .fin (rnd q) := by
  unfold round
  simp only [pow2_eq]
  rw [if_neg]
  rw [not_le]
  have h1 := rnd_error q
  have h2 : |rnd q| ≤ |rnd q - q| + |q| := by
    have := abs_add_le (rnd q - q) q
    rwa [sub_add_cancel] at this
  unfold Fits at h
  have h3 : u ≤ 1 / 4 := by rw [u_eq]; norm_num
  have h4 : η ≤ 1 / 4 := by
    unfold η
    rw [zpow_neg, ← one_div]
    refine one_div_le_one_div_of_le (by norm_num) ?_
    calc (4 : ℚ) = 2 ^ (2 : ℤ) := by norm_num
      _ ≤ 2 ^ (1075 : ℤ) := zpow_le_zpow_right₀ (by norm_num) (by norm_num)
  have h5 : (2 : ℚ) ^ (1024 : ℤ) = 2 * 2 ^ (1023 : ℤ) := by
    rw [show (1024 : ℤ) = 1 + 1023 by norm_num, zpow_add₀ (by norm_num)]; norm_num
  have h6 : (1 : ℚ) ≤ 2 ^ (1023 : ℤ) := one_le_zpow₀ (by norm_num) (by norm_num)
  rw [h5]
  have h7 := mul_le_mul h3 h (abs_nonneg q) (by norm_num : (0 : ℚ) ≤ 1 / 4)
  clear h5
  generalize (2 : ℚ) ^ (1023 : ℤ) = B at *
  linarith

/-- The number a `double` stands for. -/
def toRat : F64 → ℚ
  | fin q => q
  | _ => 0

/-- Finite `double`s are multiples of the smallest positive one. -/
def Finite : F64 → Prop
  | fin q => Grid q
  | _ => False

theorem finite_iff {a : F64} : a.Finite ↔ ∃ q, a = .fin q ∧ Grid q := by
  constructor
  · intro h
    cases a with
    | fin q => exact ⟨q, rfl, h⟩
    | nan => exact h.elim
    | inf s => exact h.elim
  · rintro ⟨q, rfl, h⟩; exact h

theorem add_fin (a b : ℚ) : (fin a + fin b : F64) = round (a + b) := by
  show round (a + b) = _
  rw [add_comm]
theorem sub_fin (a b : ℚ) : (fin a - fin b : F64) = round (a - b) := by
  show round (a + -b) = _
  rw [sub_eq_add_neg]
theorem mul_fin (a b : ℚ) : (fin a * fin b : F64) = round (a * b) := by
  show round (a * b) = _
  rw [mul_comm]
theorem div_fin {a b : ℚ} (hb : b ≠ 0) : (CoordArith.div (fin a) (fin b) : M F64) = .ok (round (a / b)) := by
  show (.ok (div (fin a) (fin b)) : M F64) = _
  unfold div
  simp only
  rw [if_neg hb]

theorem add_lemma {x y : F64} (hx : x.Finite) (hy : y.Finite) (hf : Fits (toRat x + toRat y)) :
    (x + y).Finite ∧ |toRat (x + y) - (toRat x + toRat y)| ≤ u * |toRat x + toRat y| := by
  obtain ⟨a, rfl, ha⟩ := finite_iff.1 hx
  obtain ⟨b, rfl, hb⟩ := finite_iff.1 hy
  rw [add_fin, round_fits (q := a + b) hf]
  exact ⟨rnd_grid _, rnd_error_grid (ha.add hb)⟩

theorem mul_lemma {x y : F64} (hx : x.Finite) (hy : y.Finite) (hf : Fits (toRat x * toRat y)) :
    (x * y).Finite ∧ |toRat (x * y) - toRat x * toRat y| ≤ u * |toRat x * toRat y| + η ∧ (0 ≤ toRat x * toRat y → 0 ≤ toRat (x * y)) := by
  obtain ⟨a, rfl, ha⟩ := finite_iff.1 hx
  obtain ⟨b, rfl, hb⟩ := finite_iff.1 hy
  rw [mul_fin, round_fits (q := a * b) hf]
  exact ⟨rnd_grid _, rnd_error _, fun h => rnd_nonneg h⟩

/-- `double` as coordinate type. -/
def coord : RoundK F64 ℚ where
  val := toRat
  Finite := Finite
  Fits := Fits
  u := u
  η := η
  u_nonneg := u_pos.le
  u_lt_one := by rw [u_eq]; norm_num
  η_nonneg := η_pos.le
  fits_mono x y h hy := h.trans hy
  finite_zero := grid_zero
  val_zero := rfl
  finite_one := grid_int 1
  val_one := rfl
  add _ _ := add_lemma
  sub x y hx hy hf := by
    obtain ⟨a, rfl, ha⟩ := finite_iff.1 hx
    obtain ⟨b, rfl, hb⟩ := finite_iff.1 hy
    rw [sub_fin, round_fits (q := a - b) hf]
    exact ⟨rnd_grid _, rnd_error_grid (by rw [sub_eq_add_neg]; exact ha.add hb.neg)⟩
  mul _ _ := mul_lemma
  div x y hx hy h0 hf := by
    obtain ⟨a, rfl, ha⟩ := finite_iff.1 hx
    obtain ⟨b, rfl, hb⟩ := finite_iff.1 hy
    rw [div_fin (b := b) h0, round_fits (q := a / b) hf]
    exact ⟨rnd_grid _, rnd_error _, fun h => rnd_nonneg h⟩
  lt x y hx hy := by
    obtain ⟨a, rfl, ha⟩ := finite_iff.1 hx
    obtain ⟨b, rfl, hb⟩ := finite_iff.1 hy
    show F64.lt (fin a) (fin b) = true ↔ a < b
    unfold F64.lt
    exact decide_eq_true_iff
  le x y hx hy := by
    obtain ⟨a, rfl, ha⟩ := finite_iff.1 hx
    obtain ⟨b, rfl, hb⟩ := finite_iff.1 hy
    show F64.le (fin a) (fin b) = true ↔ a ≤ b
    unfold F64.le
    exact decide_eq_true_iff

/-- `double` as value type. -/
def value : RoundV coord F64 where
  val := toRat
  Finite := Finite
  finite_zero := grid_zero
  val_zero := rfl
  add _ _ := add_lemma
  smul a v ha hv hf := ⟨(mul_lemma ha hv hf).1, (mul_lemma ha hv hf).2.1⟩

end Intp.F64
