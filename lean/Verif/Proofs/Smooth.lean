import Verif.Proofs.Deriv

/-! # Smoothness across knots, periodic shift, sums of weights -/

namespace Intp

open Finset Polynomial

variable {K V : Type} [Field K] [LinearOrder K] [AddCommGroup V] [Module K V] {D : ℕ}

/-- Pieces left and right of a knot of multiplicity `m` agree there in degree at least `m`. -/
theorem piece_knot_eq {t : ℕ → K} {r m : ℕ} (h1 : t r < t (r + m)) (h2 : t (r + m) < t (r + m + 1))
    (hm : ∀ j, r < j → j ≤ r + m → t j = t (r + m)) : ∀ (k i : ℕ), m ≤ k →
    piece t r k i (t (r + m)) = piece t (r + m) k i (t (r + m)) := by
  have hr : ∀ j i, j ≤ m → piece t (r + m) j i (t (r + m)) = if i + j = r + m then 1 else 0 := by
    intro j
    induction j with
    | zero => intro i _; simp [piece]
    | succ j ih =>
      intro i hj
      rw [piece, ih i (by omega), ih (i + 1) (by omega)]
      by_cases hi : i + (j + 1) = r + m
      · rw [if_neg (by omega), if_pos (by omega), if_pos hi, mul_zero, zero_add, mul_one, hm (i + 1) (by omega) (by omega),
          show i + j + 2 = r + m + 1 by omega]
        exact div_self (sub_ne_zero.2 h2.ne')
      · rw [if_neg (show ¬ (i + 1 + j = r + m) by omega), if_neg hi]
        by_cases hi' : i + j = r + m
        · rw [if_pos hi', hm i (by omega) (by omega)]; simp
        · rw [if_neg hi']; simp
  have hl : ∀ j i, j ≤ m → piece t r j i (t (r + m)) = if i = r then 1 else 0 := by
    intro j
    induction j with
    | zero => intro i _; simp [piece]
    | succ j ih =>
      intro i hj
      rw [piece, ih i (by omega), ih (i + 1) (by omega)]
      by_cases hi : i = r
      · subst hi
        rw [if_pos rfl, if_neg (by omega), mul_one, mul_zero, add_zero, hm (i + j + 1) (by omega) (by omega)]
        exact div_self (sub_ne_zero.2 h1.ne')
      · rw [if_neg hi, mul_zero, zero_add]
        by_cases hi' : i + 1 = r
        · rw [if_pos hi', hm (i + j + 2) (by omega) (by omega)]; simp
        · rw [if_neg hi', mul_zero]
  intro k
  induction k with
  | zero =>
    intro i hk
    obtain rfl : m = 0 := by omega
    simp
  | succ k ih =>
    intro i hk
    by_cases hmk : m ≤ k
    · rw [piece, piece, ih i hmk, ih (i + 1) hmk]
    · obtain rfl : m = k + 1 := by omega
      rw [hl (k + 1) i le_rfl, hr (k + 1) i le_rfl]
      by_cases hi : i = r
      · subst hi; simp
      · rw [if_neg hi, if_neg (by omega)]

/-- Derivatives of the pieces left and right of a knot of multiplicity `m` agree there up to order `k - m`. -/
theorem pieceP_knot_eq {t : ℕ → K} {r m : ℕ} (h1 : t r < t (r + m)) (h2 : t (r + m) < t (r + m + 1))
    (hm : ∀ j, r < j → j ≤ r + m → t j = t (r + m)) : ∀ (q k i : ℕ), q + m ≤ k → Nondeg t r k → Nondeg t (r + m) k →
    (derivative^[q] (pieceP t r k i)).eval (t (r + m)) = (derivative^[q] (pieceP t (r + m) k i)).eval (t (r + m))
  | 0, k, i, hk, _, _ => by
    simp only [Function.iterate_zero, id_eq, pieceP_eval]
    exact piece_knot_eq h1 h2 hm k i (by omega)
  | q + 1, 0, i, hk, _, _ => by omega
  | q + 1, k + 1, i, hk, n1, n2 => by
    rw [pieceP_iterate_derivative k i q n1, pieceP_iterate_derivative k i q n2,
      pieceP_knot_eq h1 h2 hm q k i (by omega) (n1.mono (by omega)) (n2.mono (by omega)),
      pieceP_knot_eq h1 h2 hm q k (i + 1) (by omega) (n1.mono (by omega)) (n2.mono (by omega))]

/-- Shifting knots, segment and coordinate by a period (only the knots within reach matter). -/
theorem piece_shift {t : ℕ → K} {n s p : ℕ} {P : K} (hp : p ≤ s) (ht : ∀ i, s < i + p → i ≤ s + p → t (i + n) = t i + P) (x : K) :
    ∀ (k i : ℕ), k ≤ p → piece t (s + n) k (i + n) (x + P) = piece t s k i x
  | 0, i, _ => by simp [piece]
  | k + 1, i, hk => by
    by_cases hi : i ≤ s ∧ s ≤ i + (k + 1)
    · rw [piece, piece, show i + n + 1 = i + 1 + n by omega, show i + n + k + 1 = i + k + 1 + n by omega,
        show i + n + k + 2 = i + k + 2 + n by omega, piece_shift hp ht x k i (by omega), piece_shift hp ht x k (i + 1) (by omega)]
      congr 1
      · by_cases h0 : piece t s k i x = 0
        · rw [h0, mul_zero, mul_zero]
        · obtain ⟨a1, a2⟩ := piece_support h0
          rw [ht i (by omega) (by omega), ht (i + k + 1) (by omega) (by omega)]
          congr 2 <;> ring
      · by_cases h0 : piece t s k (i + 1) x = 0
        · rw [h0, mul_zero, mul_zero]
        · obtain ⟨a1, a2⟩ := piece_support h0
          rw [ht (i + 1) (by omega) (by omega), ht (i + k + 2) (by omega) (by omega)]
          congr 2 <;> ring
    · have z : ∀ s i (t : ℕ → K) y, ¬ (i ≤ s ∧ s ≤ i + (k + 1)) → piece t s (k + 1) i y = 0 := by
        intro s i t y h
        by_contra hc
        exact h (piece_support hc)
      rw [z _ _ _ _ hi, z _ _ _ _ (by omega)]

theorem pieceP_shift {t : ℕ → K} {n s p : ℕ} {P : K} (hp : p ≤ s) (ht : ∀ i, s < i + p → i ≤ s + p → t (i + n) = t i + P)
    (hn : Nondeg t s p) (hn' : Nondeg t (s + n) p) (x : K) :
    ∀ (q k i : ℕ), k ≤ p →
      (derivative^[q] (pieceP t (s + n) k (i + n))).eval (x + P) = (derivative^[q] (pieceP t s k i)).eval x
  | 0, k, i, hk => by
    simp only [Function.iterate_zero, id_eq, pieceP_eval]
    exact piece_shift hp ht x k i hk
  | q + 1, 0, i, _ => by
    have h0 : ∀ s i, derivative (pieceP t s 0 i) = 0 := by intro s i; simp only [pieceP]; split <;> simp
    rw [Function.iterate_succ_apply, Function.iterate_succ_apply, h0, h0]; simp
  | q + 1, k + 1, i, hk => by
    rw [pieceP_iterate_derivative k i q (hn.mono hk), pieceP_iterate_derivative k (i + n) q (hn'.mono hk),
      show i + n + 1 = i + 1 + n by omega, show i + n + k + 1 = i + k + 1 + n by omega,
      show i + n + k + 2 = i + k + 2 + n by omega, pieceP_shift hp ht hn hn' x q k i (by omega),
      pieceP_shift hp ht hn hn' x q k (i + 1) (by omega)]
    congr 1
    congr 1
    · by_cases h : i ≤ s ∧ s ≤ i + k
      · rw [ht i (by omega) (by omega), ht (i + k + 1) (by omega) (by omega)]
        congr 2; ring
      · have : pieceP t s k i = 0 := by
          rw [not_and_or] at h
          rcases h with h | h
          · exact pieceP_zero_of_lt t s k i (by omega)
          · exact pieceP_zero_of_gt t s k i (by omega)
        rw [this]; simp
    · by_cases h : i + 1 ≤ s ∧ s ≤ i + 1 + k
      · rw [ht (i + 1) (by omega) (by omega), ht (i + k + 2) (by omega) (by omega)]
        congr 2; ring
      · have : pieceP t s k (i + 1) = 0 := by
          rw [not_and_or] at h
          rcases h with h | h
          · exact pieceP_zero_of_lt t s k _ (by omega)
          · exact pieceP_zero_of_gt t s k _ (by omega)
        rw [this]; simp

namespace BSpline

variable {b : BSpline D K V}

theorem weight_zero (b : BSpline D K V) (d : Fin D) (s : ℕ) (x : K) (J : ℕ) :
    b.weight d s 0 x J = ∑ i ∈ (Finset.range (s + 1)).filter (fun i => b.ctrlOf d i = J), piece (b.kn d) s b.order i x := by
  unfold weight; simp [pieceP_eval]

/-- In a non-periodic dimension the weight of control point `J` is the `J`-th piece. -/
theorem weight_aper {d : Fin D} (hp : b.periodicity d = false) (s m : ℕ) (x : K) (J : ℕ) :
    b.weight d s m x J = (derivative^[m] (pieceP (b.kn d) s b.order J)).eval x := by
  unfold weight ctrlOf
  simp only [hp, Bool.false_eq_true, if_false]
  rw [sum_filter, Finset.sum_ite_eq' (Finset.range (s + 1)) J]
  split
  · rfl
  · rename_i h
    rw [pieceP_zero_of_lt _ _ _ _ (by simpa using h)]; simp

variable [IsStrictOrderedRing K] [FloorRing K]

/-- Sum of the weights of all control points against any function of the control point. -/
theorem WF.sum_weight (h : b.WF) {d : Fin D} {s m : ℕ} (hs : s ≤ b.last d) (x : K) (c : ℕ → V) :
    ∑ J ∈ Finset.range (b.ctrl.dims d), b.weight d s m x J • c J =
      ∑ i ∈ Finset.range (s + 1), (derivative^[m] (pieceP (b.kn d) s b.order i)).eval x • c (b.ctrlOf d i) := by
  rw [← Finset.sum_fiberwise_of_maps_to (s := Finset.range (s + 1)) (t := Finset.range (b.ctrl.dims d)) (g := b.ctrlOf d)
    (fun i hi => by
      rw [mem_range] at hi ⊢
      exact h.ctrlOf_lt (by omega))]
  refine sum_congr rfl fun J _ => ?_
  unfold weight
  rw [sum_smul]
  refine sum_congr rfl fun i hi => ?_
  rw [(mem_filter.1 hi).2]

end BSpline
end Intp
