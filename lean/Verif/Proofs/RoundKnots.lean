import Verif.Proofs.RoundInterp
import Verif.Proofs.FloatLinear

/-!
# Knots of explicit coordinates in `double`

The knots of a non-periodic dimension are averages of `order` coordinates, computed from a running sum.  The error of the running sum grows with the
number of additions and subtractions.
-/

namespace Intp

open Finset BSpline

/-- Division in `double`. -/
theorem fl_div {a b : ℚ} (hb0 : b ≠ 0) (h : |a / b| ≤ 2 ^ 1023) :
    ∃ r, (CoordArith.div (F64.fin a) (F64.fin b) : M F64) = .ok (.fin r) ∧ IsDouble r ∧ |r - a / b| ≤ |a / b| / 2 ^ 53 + 1 / 2 ^ 1074 := by
  have hf : F64.Fits (a / b) := by
    show |a / b| ≤ 2 ^ (1023 : ℤ)
    exact_mod_cast h
  refine ⟨F64.rnd (a / b), by rw [F64.div_fin hb0, F64.round_fits hf], ?_, ?_⟩
  · have h1 : |a / b| < 2 ^ 1024 - 2 ^ 970 := h.trans_lt (by decide +kernel)
    obtain ⟨r, h2, h3, -⟩ := double_round (a / b) h1
    rw [F64.round_fits hf] at h2
    cases h2
    exact h3
  · refine (F64.rnd_error (a / b)).trans ?_
    have h1 : F64.u * |a / b| = |a / b| / 2 ^ 53 := by rw [F64.u_eq]; ring
    have h2 : F64.η ≤ 1 / 2 ^ 1074 := by decide +kernel
    rw [h1]
    generalize (1 : ℚ) / 2 ^ 1074 = a at *
    linarith

theorem isDouble_nat {n : ℕ} (h : n < 2 ^ 53) : IsDouble n := ⟨n, 0, by rw [Nat.abs_cast]; exact_mod_cast h, by norm_num, by norm_num, by simp⟩

theorem fl_ofNat {n : ℕ} (h : n < 2 ^ 53) : (CoordArith.ofNat n : F64) = .fin n := by
  show F64.round n = _
  have hd := isDouble_nat h
  have hb : |(n : ℚ)| ≤ 2 ^ 1023 := by
    rw [Nat.abs_cast]
    have h1 : (n : ℚ) ≤ 2 ^ 53 := by exact_mod_cast h.le
    have h2 : (2 : ℚ) ^ 53 ≤ 2 ^ 1023 := pow_le_pow_right₀ (by norm_num) (by norm_num)
    exact h1.trans h2
  have h1 : |(n : ℚ)| < 2 ^ 1024 - 2 ^ 970 := hb.trans_lt (by decide +kernel)
  obtain ⟨r, h2, -⟩ := double_round n h1
  rw [h2, (double_round_mono le_rfl h2 h2).2 hd]

/-- One more addition or subtraction in a running sum of size `M`. -/
theorem run_step {q S x y r M : ℚ} {m : ℕ} (hM : 0 ≤ M) (hq : |q - S| ≤ M * ((1 + 1 / 2 ^ 53) ^ m - 1)) (hy : |y| ≤ M) (hyS : y = S + x)
    (hr : |r - (q + x)| ≤ |q + x| / 2 ^ 53) : |r - y| ≤ M * ((1 + 1 / 2 ^ 53) ^ (m + 1) - 1) := by
  have h1 : |q + x - y| ≤ M * ((1 + 1 / 2 ^ 53) ^ m - 1) := by rw [hyS]; convert hq using 2; ring
  have h2 : |q + x| ≤ M * ((1 + 1 / 2 ^ 53) ^ m - 1) + M := by
    have := abs_add_le (q + x - y) y
    rw [sub_add_cancel] at this
    linarith
  have h3 := abs_add_le (r - (q + x)) (q + x - y)
  rw [sub_add_sub_cancel] at h3
  rw [pow_succ]
  generalize (1 + 1 / 2 ^ 53 : ℚ) ^ m = E at *
  norm_num at hr ⊢
  nlinarith

section
variable {o n : ℕ} {l : List F64} {X : ℕ → ℚ} {B : ℚ}

/-- Coordinates of a dimension: finite numbers of size at most `B`. -/
structure CoordsIn (l : List F64) (n : ℕ) (X : ℕ → ℚ) (B : ℚ) : Prop where
  len : l.length = n
  get : ∀ i, i < n → l[i]? = some (.fin (X i))
  dbl : ∀ i, i < n → IsDouble (X i)
  le : ∀ i, i < n → |X i| ≤ B

theorem CoordsIn.sum_le (h : CoordsIn l n X B) (hB : 0 ≤ B) {a b : ℕ} (hb : b ≤ n) (hab : b ≤ a + o) : |∑ k ∈ Ico a b, X k| ≤ o * B := by
  refine (abs_sum_le_sum_abs _ _).trans ((sum_le_card_nsmul _ _ B fun k hk => h.le k ((mem_Ico.1 hk).2.trans_le hb)).trans ?_)
  rw [Nat.card_Ico, nsmul_eq_mul]
  exact mul_le_mul_of_nonneg_right (by exact_mod_cast (by omega : b - a ≤ o)) hB

theorem CoordsIn.rd_take (h : CoordsIn l n X B) {i k : ℕ} (hi : i < k) (hk : k ≤ n) : rd (l.take k) i = .ok (.fin (X i)) := by
  rw [rd_eq_ok_iff, List.getElem?_take, if_pos hi]
  exact h.get i (by omega)

private lemma pow_small {n m : ℕ} (hn : n ≤ 2 ^ 49) (hm : m ≤ 2 * n) : (1 + 1 / 2 ^ 53 : ℚ) ^ m - 1 ≤ 4 / 3 * (m / 2 ^ 53) ∧ (1 + 1 / 2 ^ 53 : ℚ) ^ m ≤ 2 := by
  have hm' : (m : ℚ) ≤ 2 ^ 50 := by exact_mod_cast (by omega : m ≤ 2 ^ 50)
  have hs : (m : ℚ) * (1 / 2 ^ 53) ≤ 1 / 4 := by linarith
  have := pow_bound (u := 1 / 2 ^ 53) (by norm_num) hs
  refine ⟨this.trans (le_of_eq (by ring)), by linarith⟩

/-- The running sum of `create_knot_vector_`: the knots and their errors. -/
theorem CoordsIn.knots (h : CoordsIn l n X B) (ho : 1 ≤ o ∧ o ≤ 50) (hn : o + 1 ≤ n) (hn49 : n ≤ 2 ^ 49) (hB : B ≤ 2 ^ 1000) :
    Ok (Fl.coordKnotsAperiodic o l) fun r => r.2 = l ∧ r.1.length = n + o + 1 ∧ (∀ u, u ≤ o → r.1[u]? = some (.fin (X 0))) ∧
      (∀ u, n ≤ u → u ≤ n + o → r.1[u]? = some (.fin (X (n - 1)))) ∧
      ∀ u, o < u → u < n → ∃ q, r.1[u]? = some (.fin q) ∧ IsDouble q ∧ |q - (∑ k ∈ Ico (u - o) u, X k) / o| ≤ 4 * n * B / 2 ^ 53 + 1 / 2 ^ 1074 := by
  have hB0 : 0 ≤ B := (abs_nonneg _).trans (h.le 0 (by omega))
  have hlen := h.len
  have ho0 : (0 : ℚ) < o := by exact_mod_cast ho.1
  have ho50 : (o : ℚ) ≤ 50 := by exact_mod_cast ho.2
  set M : ℚ := o * B with hM
  have hM0 : 0 ≤ M := mul_nonneg ho0.le hB0
  have hMB : 2 * M ≤ 2 ^ 1023 := by
    have h1 : (2 : ℚ) * (50 * 2 ^ 1000) ≤ 2 ^ 1023 := by decide +kernel
    have h2 : M ≤ 50 * 2 ^ 1000 := mul_le_mul ho50 hB hB0 (by norm_num)
    generalize (2 : ℚ) ^ 1000 = A at *
    generalize (2 : ℚ) ^ 1023 = A' at *
    linarith
  -- the exact sum plus the error fits
  have hfit : ∀ {q S x : ℚ} {m : ℕ}, m ≤ 2 * n → |q - S| ≤ M * ((1 + 1 / 2 ^ 53) ^ m - 1) → |S + x| ≤ M → |q + x| ≤ M * (1 + 1 / 2 ^ 53) ^ m ∧ |q + x| ≤ 2 ^ 1023 := by
    intro q S x m hm h1 h2
    have h3 := abs_add_le (q - S) (S + x)
    rw [← add_assoc, sub_add_cancel] at h3
    have h4 : |q + x| ≤ M * (1 + 1 / 2 ^ 53) ^ m := by linarith
    refine ⟨h4, ?_⟩
    have := mul_le_mul_of_nonneg_left (pow_small hn49 hm).2 hM0
    generalize (2 : ℚ) ^ 1023 = A' at *
    linarith
  unfold Fl.coordKnotsAperiodic
  dsimp only
  have hrd : ∀ i, i < n → rd l i = .ok (.fin (X i)) := fun i hi => rd_eq_ok_iff.2 (h.get i hi)
  rw [hrd 0 (by omega), ok_bind]
  refine Spec.bind (Fl.Spec.loopN (P := fun i (xs : List F64) => xs.length = n + o + 1 ∧ ∀ u, u < i → xs[u]? = some (.fin (X 0))) (by omega)
    ⟨by rw [List.length_replicate, hlen], fun u hu => absurd hu (by omega)⟩ fun i xs _ hi ⟨hx, hu⟩ => ?_) fun xs ⟨hx, hx0⟩ => ?_
  · rw [wr_ok (by omega)]
    refine Spec.ok ⟨List.length_set.trans hx, fun u hui => ?_⟩
    rw [List.getElem?_set]
    by_cases e : i = u
    · rw [if_pos e, if_pos (by omega)]
    · rw [if_neg e]; exact hu u (by omega)
  have htake : ∀ k, k < n → l.take k ++ [.fin (X k)] = l.take (k + 1) := fun k hk => by
    rw [List.take_add_one, h.get k hk]; rfl
  have h1 : [F64.fin (X 0)] = l.take 1 := by rw [← htake 0 (by omega)]; rfl
  refine Spec.bind (Fl.Spec.loopN (P := fun i (st : CoordSt F64) => st.pos + 1 = i ∧ st.xs = xs ∧ st.ic = l.take i ∧
    ∃ q, st.sum = .fin q ∧ IsDouble q ∧ |q - ∑ k ∈ Ico 1 i, X k| ≤ M * ((1 + 1 / 2 ^ 53) ^ (i - 1) - 1)) ho.1
    ⟨rfl, rfl, h1, 0, rfl, ⟨0, 0, by norm_num, by norm_num, by norm_num, by norm_num⟩, by simp⟩ fun i st hi1 hi2 ⟨p1, p2, p3, q, p4, p5, p6⟩ => ?_)
    fun st ⟨p1, p2, p3, q, p4, p5, p6⟩ => ?_
  · rw [p1, hrd i (by omega), ok_bind, p3, htake i (by omega), h.rd_take (by omega) (by omega), ok_bind, p4]
    have hS : ∑ k ∈ Ico 1 (i + 1), X k = ∑ k ∈ Ico 1 i, X k + X i := sum_Ico_succ_top hi1 _
    have hSle : |∑ k ∈ Ico 1 (i + 1), X k| ≤ M := h.sum_le hB0 (by omega) (by omega)
    obtain ⟨f1, f2⟩ := hfit (x := X i) (by omega) p6 (by rw [← hS]; exact hSle)
    obtain ⟨r, r1, r2, r3, -⟩ := fl_add p5 (h.dbl i (by omega)) f2
    refine Spec.pure ⟨by show i + 1 = i + 1; rfl, p2, rfl, r, r1, r2, ?_⟩
    have := run_step hM0 p6 hSle hS r3
    rwa [show i - 1 + 1 = i + 1 - 1 by omega] at this
  refine Spec.bind (Fl.Spec.loopN (P := fun i (st : CoordSt F64) => st.pos + 2 = i ∧ st.xs.length = n + o + 1 ∧ st.ic = l.take (i - 1) ∧
    (∀ u, u ≤ o → st.xs[u]? = some (.fin (X 0))) ∧
    (∀ u, o < u → u < i → ∃ q, st.xs[u]? = some (.fin q) ∧ IsDouble q ∧ |q - (∑ k ∈ Ico (u - o) u, X k) / o| ≤ 4 * n * B / 2 ^ 53 + 1 / 2 ^ 1074) ∧
    ∃ q, st.sum = .fin q ∧ IsDouble q ∧ |q - ∑ k ∈ Ico (i - o) (i - 1), X k| ≤ M * ((1 + 1 / 2 ^ 53) ^ (o - 1 + 2 * (i - (o + 1))) - 1))
    (by rw [hlen]; exact hn) ⟨by omega, by rw [p2]; exact hx, p3, fun u hu => by rw [p2]; exact hx0 u (by omega), fun u h1 h2 => absurd h1 (by omega), q, p4, p5, ?_⟩
    fun i st hi1 hi2 ⟨p1, p2, p3, p7, p8, q, p4, p5, p6⟩ => ?_) fun st ⟨p1, p2, p3, p7, p8, _⟩ => ?_
  · rw [show o + 1 - o = 1 by omega, show o + 1 - 1 = o by omega, Nat.sub_self, Nat.mul_zero, Nat.add_zero]
    exact p6
  · rw [hlen] at hi2
    rw [show st.pos + 1 = i - 1 by omega, hrd (i - 1) (by omega), ok_bind, subM_ok (by omega), ok_bind, p3, htake (i - 1) (by omega),
      show i - 1 + 1 = i by omega, h.rd_take (by omega) (by omega), ok_bind, p4, fl_ofNat (by omega)]
    have hS : ∑ k ∈ Ico (i - o) i, X k = ∑ k ∈ Ico (i - o) (i - 1), X k + X (i - 1) := by
      have := sum_Ico_succ_top (show i - o ≤ i - 1 by omega) X
      rwa [show i - 1 + 1 = i by omega] at this
    have hSle : |∑ k ∈ Ico (i - o) i, X k| ≤ M := h.sum_le hB0 (by omega) (by omega)
    obtain ⟨f1, f2⟩ := hfit (x := X (i - 1)) (by omega) p6 (by rw [← hS]; exact hSle)
    obtain ⟨r, r1, r2, r3, -⟩ := fl_add p5 (h.dbl (i - 1) (by omega)) f2
    have e1 := run_step hM0 p6 hSle hS r3
    rw [r1]
    -- the quotient
    obtain ⟨f3, f4⟩ := hfit (x := 0) (q := r) (by omega) e1 (by rw [add_zero]; exact hSle)
    rw [add_zero] at f3 f4
    have hro : |r / o| = |r| / o := by rw [abs_div, abs_of_pos ho0]
    have ho1 : (1 : ℚ) ≤ o := by exact_mod_cast ho.1
    obtain ⟨v, v1, v2, v3⟩ := fl_div (a := r) (b := o) ho0.ne' (by rw [hro]; exact (div_le_self (abs_nonneg _) ho1).trans f4)
    rw [v1, ok_bind, wr_ok (by omega), ok_bind, subM_ok (by omega), ok_bind, h.rd_take (by omega) (by omega), ok_bind]
    have hS2 : ∑ k ∈ Ico (i + 1 - o) (i + 1 - 1), X k = ∑ k ∈ Ico (i - o) i, X k + -X (i - o) := by
      have := sum_eq_sum_Ico_succ_bot (show i - o < i by omega) X
      rw [show i + 1 - 1 = i by omega, show i + 1 - o = i - o + 1 by omega, this]; ring
    have hSle2 : |∑ k ∈ Ico (i + 1 - o) (i + 1 - 1), X k| ≤ M := h.sum_le hB0 (by omega) (by omega)
    obtain ⟨f5, f6⟩ := hfit (x := -X (i - o)) (by omega) e1 (by rw [← hS2]; exact hSle2)
    obtain ⟨z, z1, z2, z3, -⟩ := fl_sub r2 (h.dbl (i - o) (by omega)) (by rw [sub_eq_add_neg]; exact f6)
    rw [sub_eq_add_neg r] at z3
    refine Spec.pure ⟨by show i - 1 + 2 = i + 1; omega, List.length_set.trans p2, by show l.take i = l.take (i + 1 - 1); rw [show i + 1 - 1 = i by omega],
      fun u hu => ?_, fun u h1 h2 => ?_, z, z1, z2, ?_⟩
    · show (st.xs.set i _)[u]? = _
      rw [List.getElem?_set, if_neg (by omega)]; exact p7 u hu
    · show ∃ q, (st.xs.set i _)[u]? = _ ∧ _
      rw [List.getElem?_set]
      by_cases hui : i = u
      · subst hui
        refine ⟨v, by rw [if_pos rfl, if_pos (by omega)], v2, ?_⟩
        have t1 := abs_add_le (v - r / o) (r / o - (∑ k ∈ Ico (i - o) i, X k) / o)
        rw [sub_add_sub_cancel, ← sub_div, abs_div, abs_of_pos ho0] at t1
        have t2 : |r - ∑ k ∈ Ico (i - o) i, X k| / o ≤ B * ((1 + 1 / 2 ^ 53) ^ (o - 1 + 2 * (i - (o + 1)) + 1) - 1) := by
          rw [div_le_iff₀ ho0]; refine e1.trans (le_of_eq ?_); rw [hM]; ring
        have t3 : |r / o| ≤ B * (1 + 1 / 2 ^ 53) ^ (o - 1 + 2 * (i - (o + 1)) + 1) := by
          rw [hro, div_le_iff₀ ho0]; refine f3.trans (le_of_eq ?_); rw [hM]; ring
        obtain ⟨s1, -⟩ := pow_small (m := o - 1 + 2 * (i - (o + 1)) + 1 + 1) hn49 (by omega)
        have s2 : ((o - 1 + 2 * (i - (o + 1)) + 1 + 1 : ℕ) : ℚ) ≤ 2 * n := by exact_mod_cast (by omega : o - 1 + 2 * (i - (o + 1)) + 1 + 1 ≤ 2 * n)
        have s3 : (1 + 1 / 2 ^ 53 : ℚ) ^ (o - 1 + 2 * (i - (o + 1)) + 1 + 1) - 1 ≤ 4 * n / 2 ^ 53 := by
          refine s1.trans ?_
          have hn0 : (0 : ℚ) ≤ n := Nat.cast_nonneg n
          have := div_le_div_of_nonneg_right s2 (pow_nonneg zero_le_two 53)
          have e : (4 : ℚ) * n / 2 ^ 53 = 2 * (2 * n / 2 ^ 53) := by ring
          have : 0 ≤ 2 * (n : ℚ) / 2 ^ 53 := div_nonneg (mul_nonneg zero_le_two hn0) (pow_nonneg zero_le_two 53)
          rw [e]
          linarith
        have s4 := mul_le_mul_of_nonneg_left s3 hB0
        rw [pow_succ] at s4
        generalize (1 + 1 / 2 ^ 53 : ℚ) ^ (o - 1 + 2 * (i - (o + 1)) + 1) = Y at *
        have s5 : |r / o| / 2 ^ 53 ≤ B * Y / 2 ^ 53 := div_le_div_of_nonneg_right t3 (pow_nonneg zero_le_two 53)
        have e5 : B * (Y * (1 + 1 / 2 ^ 53) - 1) = B * (Y - 1) + B * Y / 2 ^ 53 := by ring
        have e6 : 4 * n * B / 2 ^ 53 = B * (4 * n / 2 ^ 53) := by ring
        rw [e6]
        rw [e5] at s4
        generalize (1 : ℚ) / 2 ^ 1074 = a at *
        linarith
      · rw [if_neg hui]; exact p8 u h1 (by omega)
    · have := run_step hM0 e1 hSle2 hS2 z3
      rwa [show o - 1 + 2 * (i - (o + 1)) + 1 + 1 = o - 1 + 2 * (i + 1 - (o + 1)) by omega] at this
  · rw [hlen] at p1 p3 p8 ⊢
    rw [show st.pos + 1 = n - 1 by omega, hrd (n - 1) (by omega), ok_bind]
    refine Spec.bind (Fl.Spec.loopN (P := fun i (xs : List F64) => xs.length = n + o + 1 ∧ (∀ u, u < n → xs[u]? = st.xs[u]?) ∧
      ∀ u, n ≤ u → u < i → xs[u]? = some (.fin (X (n - 1)))) (by omega) ⟨p2, fun _ _ => rfl, fun u h1 h2 => absurd h1 (by omega)⟩
      fun i xs hi1 hi2 ⟨g1, g2, g3⟩ => ?_) fun xs ⟨g1, g2, g3⟩ => Spec.pure ⟨?_, g1, fun u hu => ?_, fun u h1 h2 => g3 u h1 (by omega), fun u h1 h2 => ?_⟩
    · rw [wr_ok (by omega)]
      refine Spec.ok ⟨List.length_set.trans g1, fun u hu => ?_, fun u h1 h2 => ?_⟩
      · rw [List.getElem?_set, if_neg (by omega)]; exact g2 u hu
      · rw [List.getElem?_set]
        by_cases hui : i = u
        · rw [if_pos hui, if_pos (by omega)]
        · rw [if_neg hui]; exact g3 u h1 (by omega)
    · show st.ic ++ [_] = l
      rw [p3, htake (n - 1) (by omega), show n - 1 + 1 = n by omega, List.take_of_length_le hlen.le]
    · show xs[u]? = _
      rw [g2 u (by omega)]; exact p7 u hu
    · show ∃ q, xs[u]? = _ ∧ _
      rw [g2 u (by omega)]; exact p8 u h1 h2

/-! ## Coordinates that are well separated -/

/-- Coordinates are at least `h` apart, and `h` is large compared to the rounding of the coordinates. -/
structure Separated (n : ℕ) (X : ℕ → ℚ) (B h : ℚ) : Prop where
  step : ∀ i, i + 1 < n → X i + h ≤ X (i + 1)
  big : 16 * n * B / 2 ^ 53 ≤ h
  least : 1 / 2 ^ 800 ≤ h

variable {h : ℚ}

theorem Separated.pos (hs : Separated n X B h) : 0 < h := lt_of_lt_of_le (one_div_pos.2 (pow_pos two_pos _)) hs.least

theorem Separated.le (hs : Separated n X B h) {i : ℕ} : ∀ {j}, i ≤ j → j < n → X i + (j - i) * h ≤ X j := by
  intro j
  induction j with
  | zero => intro h1 h2; rw [Nat.le_zero.1 h1]; simp
  | succ j ih =>
    intro h1 h2
    rcases Nat.lt_or_ge j i with h3 | h3
    · rw [show i = j + 1 by omega]; simp
    · have := ih h3 (by omega)
      have := hs.step j h2
      push_cast
      linarith

theorem Separated.mono (hs : Separated n X B h) {i j : ℕ} (h1 : i ≤ j) (h2 : j < n) : X i ≤ X j := by
  have := hs.le h1 h2
  have h3 : (0 : ℚ) ≤ j - i := by rw [sub_nonneg]; exact_mod_cast h1
  have := mul_nonneg h3 hs.pos.le
  linarith

theorem Separated.lt (hs : Separated n X B h) {i j : ℕ} (h1 : i < j) (h2 : j < n) : X i + h ≤ X j :=
  (hs.step i (by omega)).trans (hs.mono h1 h2)

/-- Bounds of an average. -/
theorem Separated.avg (hs : Separated n X B h) (ho : 1 ≤ o) {u : ℕ} (hu : o ≤ u) (hun : u ≤ n) :
    (∑ k ∈ Ico (u - o) u, X k) / o ≤ X (u - 1) - (o - 1) * h / o ∧ X (u - o) + (o - 1) * h / o ≤ (∑ k ∈ Ico (u - o) u, X k) / o := by
  have ho0 : (0 : ℚ) < o := by exact_mod_cast ho
  constructor
  · have e : ∑ k ∈ Ico (u - o) u, X k = ∑ k ∈ Ico (u - o) (u - 1), X k + X (u - 1) := by
      have := sum_Ico_succ_top (show u - o ≤ u - 1 by omega) X
      rwa [show u - 1 + 1 = u by omega] at this
    have h1 := sum_le_card_nsmul (Ico (u - o) (u - 1)) X (X (u - 1) - h) fun k hk => by
      have := hs.lt (mem_Ico.1 hk).2 (by omega)
      linarith
    rw [Nat.card_Ico, show u - 1 - (u - o) = o - 1 by omega, nsmul_eq_mul, Nat.cast_sub ho, Nat.cast_one] at h1
    rw [div_le_iff₀ ho0, e, sub_mul, div_mul_cancel₀ _ ho0.ne']
    nlinarith
  · have e := sum_eq_sum_Ico_succ_bot (show u - o < u by omega) X
    have h1 := card_nsmul_le_sum (Ico (u - o + 1) u) X (X (u - o) + h) fun k hk => hs.lt (by have := (mem_Ico.1 hk).1; omega)
      ((mem_Ico.1 hk).2.trans_le hun)
    rw [Nat.card_Ico, show u - (u - o + 1) = o - 1 by omega, nsmul_eq_mul, Nat.cast_sub ho, Nat.cast_one] at h1
    rw [le_div_iff₀ ho0, e, add_mul, div_mul_cancel₀ _ ho0.ne']
    nlinarith

/-- Knots near the averages of separated coordinates. -/
structure NearKnots (o n : ℕ) (X : ℕ → ℚ) (h : ℚ) (T : ℕ → ℚ) : Prop where
  left : ∀ u, u ≤ o → T u = X 0
  right : ∀ u, n ≤ u → u ≤ n + o → T u = X (n - 1)
  near : ∀ u, o < u → u < n → |T u - (∑ k ∈ Ico (u - o) u, X k) / o| ≤ h / 3
  one : o = 1 → ∀ u, 1 < u → u < n → T u = X (u - 1)

variable {T : ℕ → ℚ}

theorem NearKnots.gap (ht : NearKnots o n X h T) (hs : Separated n X B h) (ho : 1 ≤ o) (hn : o + 1 ≤ n) {u : ℕ} (h1 : o ≤ u) (h2 : u < n) :
    T u + h / 4 ≤ T (u + 1) := by
  have hpos := hs.pos
  have ho0 : (0 : ℚ) < o := by exact_mod_cast ho
  have ho1 : (1 : ℚ) ≤ o := by exact_mod_cast ho
  have hm : 0 ≤ (o - 1) * h / o := div_nonneg (mul_nonneg (by linarith) hpos.le) ho0.le
  by_cases c1 : u = o
  · rw [c1, ht.left o le_rfl]
    by_cases c2 : o + 1 = n
    · rw [c2, ht.right n le_rfl (by omega)]
      have := hs.lt (i := 0) (j := n - 1) (by omega) (by omega)
      linarith
    · have a := abs_le.1 (ht.near (o + 1) (by omega) (by omega))
      have b := (hs.avg ho (u := o + 1) (by omega) (by omega)).2
      have c := hs.lt (i := 0) (j := o + 1 - o) (by omega) (by omega)
      linarith
  · have a := abs_le.1 (ht.near u (by omega) h2)
    by_cases c2 : u + 1 = n
    · rw [c2, ht.right n le_rfl (by omega)]
      have b := (hs.avg ho (u := u) (by omega) (by omega)).1
      have c := hs.lt (i := u - 1) (j := n - 1) (by omega) (by omega)
      linarith
    · have a' := abs_le.1 (ht.near (u + 1) (by omega) (by omega))
      have e : (∑ k ∈ Ico (u + 1 - o) (u + 1), X k) / o = (∑ k ∈ Ico (u - o) u, X k) / o + (X u - X (u - o)) / o := by
        rw [← add_div]
        congr 1
        rw [sum_Ico_succ_top (by omega), sum_eq_sum_Ico_succ_bot (show u - o < u by omega), show u + 1 - o = u - o + 1 by omega]
        ring
      have b := hs.le (i := u - o) (j := u) (by omega) h2
      have c : h ≤ (X u - X (u - o)) / o := by
        rw [le_div_iff₀ ho0]
        rw [Nat.cast_sub (by omega)] at b
        linarith
      linarith

theorem NearKnots.mono (ht : NearKnots o n X h T) (hs : Separated n X B h) (ho : 1 ≤ o) (hn : o + 1 ≤ n) {i : ℕ} : ∀ {j}, i ≤ j → j ≤ n + o → T i ≤ T j := by
  intro j
  induction j with
  | zero => intro h1 _; rw [Nat.le_zero.1 h1]
  | succ j ih =>
    intro h1 h2
    rcases Nat.lt_or_ge j i with h3 | h3
    · rw [show i = j + 1 by omega]
    · refine (ih h3 (by omega)).trans ?_
      by_cases c1 : j < o
      · rw [ht.left j (by omega), ht.left (j + 1) (by omega)]
      · by_cases c2 : j < n
        · have := ht.gap hs ho hn (u := j) (by omega) c2
          have := hs.pos
          linarith
        · rw [ht.right j (by omega) (by omega), ht.right (j + 1) (by omega) (by omega)]

theorem NearKnots.node (ht : NearKnots o n X h T) (hs : Separated n X B h) (ho : 1 ≤ o) (hn : o + 1 ≤ n) {i : ℕ} (h0 : 0 < i) (h1 : i + 1 < n) :
    NodeSeg T o n i (X i) := by
  have hpos := hs.pos
  by_cases c1 : o = 1
  · subst c1
    refine ⟨i + 1, by omega, h1, by omega, by omega, ?_, ?_, fun _ => ?_⟩
    · rw [ht.one rfl (i + 1) (by omega) h1]; rfl
    · have := ht.gap hs ho hn (u := i + 1) (by omega) h1
      rw [ht.one rfl (i + 1) (by omega) h1, show i + 1 - 1 = i by omega] at this
      linarith
    · rw [ht.one rfl (i + 1) (by omega) h1]; rfl
  · have ho0 : (0 : ℚ) < o := by exact_mod_cast ho
    have ho2 : (2 : ℚ) ≤ o := by exact_mod_cast (by omega : 2 ≤ o)
    have hm : h / 2 ≤ (o - 1) * h / o := by
      rw [le_div_iff₀ ho0]
      nlinarith
    have lo : T (i + 1) ≤ X i := by
      by_cases c2 : i + 1 ≤ o
      · rw [ht.left _ c2]; exact hs.mono (Nat.zero_le _) (by omega)
      · have a := abs_le.1 (ht.near (i + 1) (by omega) h1)
        have b := (hs.avg ho (u := i + 1) (by omega) (by omega)).1
        rw [show i + 1 - 1 = i by omega] at b
        linarith
    have hi : X i < T (min n (i + o)) := by
      by_cases c2 : i + o < n
      · rw [min_eq_right (by omega)]
        have a := abs_le.1 (ht.near (i + o) (by omega) c2)
        have b := (hs.avg ho (u := i + o) (by omega) (by omega)).2
        rw [show i + o - o = i by omega] at a b
        linarith
      · rw [min_eq_left (by omega), ht.right n le_rfl (by omega)]
        have := hs.lt (i := i) (j := n - 1) (by omega) (by omega)
        linarith
    have hoi : T o ≤ X i := by rw [ht.left o le_rfl]; exact hs.mono (Nat.zero_le _) (by omega)
    -- the segment
    classical
    obtain ⟨k, k1, k2, k3, k4⟩ : ∃ k, o ≤ k ∧ k < min n (i + o) ∧ T k ≤ X i ∧ X i < T (k + 1) := by
      have hex : ∃ j, o < j ∧ X i < T j := ⟨min n (i + o), by omega, hi⟩
      set j := Nat.find hex with hj
      obtain ⟨j1, j2⟩ := Nat.find_spec hex
      have hjm : j ≤ min n (i + o) := Nat.find_min' hex ⟨by omega, hi⟩
      refine ⟨j - 1, by omega, by omega, ?_, by rw [show j - 1 + 1 = j by omega]; exact j2⟩
      by_cases c : j = o + 1
      · rw [c]; exact hoi
      · have := Nat.find_min hex (m := j - 1) (by omega)
        push Not at this
        exact this (by omega)
    refine ⟨k, k1, by omega, ?_, by omega, k3, k4, fun e => absurd e c1⟩
    by_contra hc
    have := ht.mono hs ho hn (i := k + 1) (j := i + 1) (by omega) (by omega)
    linarith

/-- The knots of separated coordinates, as computed. -/
theorem CoordsIn.nearKnots (hc : CoordsIn l n X B) (hs : Separated n X B h) (ho : 1 ≤ o ∧ o ≤ 50) (hn : o + 1 ≤ n) (hn49 : n ≤ 2 ^ 49) (hB : B ≤ 2 ^ 1000) :
    Ok (Fl.coordKnotsAperiodic o l) fun r => r.2 = l ∧ ∃ T : List ℚ, r.1 = T.map F64.fin ∧ T.length = n + o + 1 ∧ NearKnots o n X h (knotFn T) ∧
      ∀ v ∈ T, IsDouble v ∧ |v| ≤ B := by
  have hlen := hc.len
  have hone : o = 1 → Spec (Fl.coordKnotsAperiodic o l) (fun r => ∀ u, 2 ≤ u → u < l.length → r.1[u]? = l[u - 1]?) (fun _ => False) := by
    rintro rfl
    refine Fl.coordKnots_one (by omega) fun a ha => ?_
    obtain ⟨i, hi, e⟩ := List.mem_iff_getElem.1 ha
    have := hc.get i (by omega)
    rw [List.getElem?_eq_getElem hi, e] at this
    cases this
    have hd := hc.dbl i (by omega)
    have hb : |X i| < 2 ^ 1024 - 2 ^ 970 := ((hc.le i (by omega)).trans hB).trans_lt (by decide +kernel)
    obtain ⟨r, h2, -⟩ := double_round (X i) hb
    have hr : F64.round (X i) = .fin (X i) := by rw [h2, (double_round_mono le_rfl h2 h2).2 hd]
    refine ⟨?_, ?_, ?_⟩
    · show F64.round (0 + X i) = _
      rw [zero_add]; exact hr
    · show F64.round (X i + -X i) = .fin 0
      rw [add_neg_cancel]; decide +kernel
    · show (CoordArith.div (F64.fin (X i)) (CoordArith.ofNat 1) : M F64) = _
      rw [fl_ofNat (by norm_num), F64.div_fin (by norm_num), Nat.cast_one, div_one, hr]
  obtain ⟨r, hr, h1, h2, h3, h4, h5⟩ := (hc.knots ho hn hn49 hB).exists
  rw [hr]
  have hall : ∀ u, u < n + o + 1 → ∃ q, r.1[u]? = some (.fin q) ∧ IsDouble q := fun u hu => by
    by_cases c1 : u ≤ o
    · exact ⟨_, h3 u c1, hc.dbl 0 (by omega)⟩
    · by_cases c2 : u < n
      · obtain ⟨q, q1, q2, -⟩ := h5 u (by omega) c2
        exact ⟨q, q1, q2⟩
      · exact ⟨_, h4 u (by omega) (by omega), hc.dbl (n - 1) (by omega)⟩
  have hval : ∀ {u q}, r.1[u]? = some (.fin q) → knotFn (r.1.map F64.toRat) u = q := fun e => by
    unfold knotFn
    rw [List.getD_eq_getElem?_getD, List.getElem?_map, e]
    rfl
  have hnear : NearKnots o n X h (knotFn (r.1.map F64.toRat)) := by
    refine ⟨fun u hu => hval (h3 u hu), fun u a b => hval (h4 u a b), fun u a b => ?_, fun e u a b => ?_⟩
    · obtain ⟨q, q1, -, q3⟩ := h5 u a b
      rw [hval q1]
      refine q3.trans ?_
      have b1 := hs.big
      have b2 := hs.least
      have b3 : (12 : ℚ) * (1 / 2 ^ 1074) ≤ 1 / 2 ^ 800 := by decide +kernel
      have e1 : 16 * n * B / 2 ^ 53 = 4 * (4 * n * B / 2 ^ 53) := by ring
      rw [e1] at b1
      generalize (1 : ℚ) / 2 ^ 1074 = a1 at *
      generalize (1 : ℚ) / 2 ^ 800 = a2 at *
      generalize 4 * n * B / 2 ^ 53 = a3 at *
      linarith
    · have := (hone e).get hr u (by omega) (by omega)
      rw [hc.get (u - 1) (by omega)] at this
      exact hval this
  refine Spec.ok ⟨h1, r.1.map F64.toRat, ?_, by rw [List.length_map, h2], hnear, fun v hv => ?_⟩
  · rw [List.map_map]
    refine (List.map_id _).symm.trans (List.map_congr_left fun v hv => ?_)
    obtain ⟨u, hu, e⟩ := List.mem_iff_getElem.1 hv
    obtain ⟨q, q1, -⟩ := hall u (by omega)
    rw [List.getElem?_eq_getElem hu, e] at q1
    cases q1
    rfl
  · obtain ⟨u, hu, e⟩ := List.mem_iff_getElem.1 hv
    rw [List.length_map] at hu
    obtain ⟨q, q1, q2⟩ := hall u (by omega)
    have e2 : v = q := by
      rw [List.getElem_map] at e
      rw [← e, ← hval q1]
      unfold knotFn
      rw [List.getD_eq_getElem?_getD, List.getElem?_map, List.getElem?_eq_getElem hu]
      rfl
    rw [e2]
    refine ⟨q2, ?_⟩
    have m1 := hnear.mono hs ho.1 hn (i := 0) (j := u) (by omega) (by omega)
    have m2 := hnear.mono hs ho.1 hn (i := u) (j := n + o) (by omega) (by omega)
    rw [hnear.left 0 (by omega), hval q1] at m1
    rw [hnear.right (n + o) (by omega) le_rfl, hval q1] at m2
    have a1 := abs_le.1 (hc.le 0 (by omega))
    have a2 := abs_le.1 (hc.le (n - 1) (by omega))
    exact abs_le.2 ⟨by linarith, by linarith⟩

end

end Intp
