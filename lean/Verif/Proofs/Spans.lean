import Verif.Proofs.Cardinal
import Verif.Spec.Approx

/-!
# Distances of knots in terms of the distances of neighbouring data points
-/

namespace Intp

open Finset BSpline

variable {K : Type} [Field K] [LinearOrder K] [IsStrictOrderedRing K] [FloorRing K]

theorem XRange.Valid.N_two {o N : ℕ} {per : Bool} {x : XRange K} (h : x.Valid o N per) : 2 ≤ N := by
  cases per
  · exact (h.aperiodic rfl).2
  · have := h.periodic rfl; omega

theorem XRange.Valid.gap_pos {o N : ℕ} {per : Bool} {x : XRange K} (h : x.Valid o N per) {H : K} (hH : x.Gap N H) : 0 < H := by
  have h2 := h.N_two
  have h1 := h.node_lt (i := 0) (j := 1) (by omega) (by omega)
  have := hH 0 (by omega)
  rw [zero_add] at this
  linarith

theorem XRange.Valid.gap_le {o N : ℕ} {per : Bool} {x : XRange K} (h : x.Valid o N per) {H : K} (hH : x.Gap N H) {b : ℕ} (m : ℕ) :
    ∀ {a : ℕ}, a < N → b < N → a ≤ b + m → x.node N a - x.node N b ≤ (m : K) * H := by
  have h0 := h.gap_pos hH
  induction m with
  | zero =>
    intro a ha hb hab
    rcases Nat.eq_or_lt_of_le hab with e | e
    · rw [e, Nat.add_zero, sub_self, Nat.cast_zero, zero_mul]
    · have := h.node_lt (i := a) (j := b) (by omega) hb
      rw [Nat.cast_zero, zero_mul]; linarith
  | succ m ih =>
    intro a ha hb hab
    push_cast
    cases a with
    | zero =>
      have := ih (a := 0) ha hb (by omega)
      linarith
    | succ a =>
      have := ih (a := a) (by omega) hb (by omega)
      have := hH a ha
      linarith

theorem XRange.Valid.node_le {o N : ℕ} {per : Bool} {x : XRange K} (h : x.Valid o N per) {a b : ℕ} (h1 : a ≤ b) (h2 : b < N) : x.node N a ≤ x.node N b := by
  rcases Nat.eq_or_lt_of_le h1 with e | e
  · rw [e]
  · exact (h.node_lt e h2).le

/-- Interior knots of a non-periodic dimension lie among the data points they are averages of. -/
theorem XRange.Valid.knot_between {o N : ℕ} {x : XRange K} (h : x.Valid o N false) (ho : 1 ≤ o) {k : ℕ} (h1 : o < k) (h2 : k < N) :
    x.node N (k - o) ≤ x.kt o N false k ∧ x.kt o N false k ≤ x.node N (k - 1) := by
  have hN : unk false N = N := rfl
  unfold XRange.kt
  rw [hN]
  cases x with
  | uniform a b =>
    have hk : (XRange.uniform a b).knots o N false = arr (N + (o + 1)) (uaKnot o N a b ((b - a) / ((N : K) - 1))) := rfl
    rw [hk, knotFn_arr _ (by omega)]
    unfold uaKnot
    rw [if_neg (by omega), if_pos h2]
    have hdx := h.step_pos
    unfold uniformKnot XRange.node
    simp only
    rw [Nat.cast_sub (by omega), Nat.cast_sub (by omega)]
    have ho' : (1 : K) ≤ o := by exact_mod_cast ho
    push_cast
    constructor
    · have := mul_le_mul_of_nonneg_right (show ((k : K) - o) ≤ k - 1 / 2 * (o + 1) by linarith) hdx.le
      linarith
    · have := mul_le_mul_of_nonneg_right (show (k - 1 / 2 * (o + 1)) ≤ ((k : K) - 1) by linarith) hdx.le
      linarith
  | coords l =>
    have hk : (XRange.coords l).knots o N false = arr (N + (o + 1)) (caKnot o N (knotFn l)) := rfl
    rw [hk, knotFn_arr _ (by omega), caKnot_mid h1 h2]
    have := avg_bounds (X := knotFn l) (n := N) (fun i j h1 h2 => h.strict h1 h2) ho (k := k - o) (by omega)
    rw [show k - o + o - 1 = k - 1 by omega] at this
    exact this

/-- Gaps of the knots of a periodic dimension. -/
theorem XRange.Valid.knot_gap {o N : ℕ} {x : XRange K} (h : x.Valid o N true) {H : K} (hH : x.Gap N H) (ho : 1 ≤ o) {j : ℕ} (h1 : 1 ≤ j)
    (h2 : j + 1 < (x.knots o (unk true N) true).length) : x.kt o N true (j + 1) - x.kt o N true j ≤ H := by
  have ax := h.pAxis
  have hb := ax.big
  have hlen := ax.len
  have hn : unk true N = N - 1 := rfl
  have hmid : ∀ j, o ≤ j → j < unk true N + o → x.kt o N true (j + 1) - x.kt o N true j ≤ H := by
    intro j h1 h2
    unfold XRange.kt
    cases x with
    | uniform a b =>
      have e : ((unk true N : ℕ) : K) = (N : K) - 1 := by rw [hn, Nat.cast_sub (by omega)]; simp
      have hk : (XRange.uniform a b).knots o (unk true N) true = arr (unk true N + 1 + (2 * o + (1 - o % 2)))
        (uniformKnot a ((b - a) / ((N : K) - 1)) (2 * o + (1 - o % 2))) := by rw [← e]; rfl
      rw [hk, knotFn_arr _ (by omega), knotFn_arr _ (by omega)]
      have := hH 0 (by omega)
      unfold XRange.node at this
      simp only at this
      unfold uniformKnot
      push_cast at this ⊢
      linarith
    | coords l =>
      have hk : (XRange.coords l).knots o (unk true N) true = arr (unk true N + 1 + 2 * o + (1 - o % 2)) (cpKnot o (unk true N) (knotFn l)) := rfl
      rw [hk, knotFn_arr _ (by omega), knotFn_arr _ (by omega)]
      have hg : ∀ i, i + 1 < N → knotFn l (i + 1) - knotFn l i ≤ H := hH
      by_cases e : j = o
      · subst e
        rw [cpKnot_mid (by omega) (by omega), cpKnot_low le_rfl, cpMid_eq (by omega) (by omega), cpMid_eq (by omega) (by omega)]
        have a1 := hg 0 (by omega)
        have a2 := hg (unk true N - 1) (by omega)
        rw [show unk true N - 1 + 1 = unk true N by omega] at a2
        rw [show j + unk true N - j - 1 = unk true N - 1 by omega, show j + unk true N - j = unk true N by omega, show j + 1 - j - 1 = 0 by omega,
          show j + 1 - j = 0 + 1 by omega]
        split <;> linarith
      · rw [cpKnot_mid (by omega) (by omega), cpKnot_mid (by omega) (by omega), cpMid_eq (by omega) (by omega), cpMid_eq (by omega) (by omega)]
        have a1 := hg (j - o - 1) (by omega)
        have a2 := hg (j - o) (by omega)
        rw [show j - o - 1 + 1 = j - o by omega] at a1
        rw [show j + 1 - o - 1 = j - o by omega, show j + 1 - o = j - o + 1 by omega]
        split <;> linarith
  by_cases e1 : j < o
  · have s1 := ax.shift j (.inl h1) (by omega)
    have s2 := ax.shift (j + 1) (.inl (by omega)) (by omega)
    have := hmid (j + unk true N) (by omega) (by omega)
    unfold XRange.kt at this ⊢
    rw [show j + unk true N + 1 = j + 1 + unk true N by omega, s1, s2] at this
    linarith
  · by_cases e2 : j < unk true N + o
    · exact hmid j (by omega) e2
    · have s1 := ax.shift (j - unk true N) (.inl (by omega)) (by omega)
      have s2 := ax.shift (j - unk true N + 1) (.inl (by omega)) (by omega)
      have := hmid (j - unk true N) (by omega) (by omega)
      unfold XRange.kt at this ⊢
      rw [show j - unk true N + unk true N = j by omega] at s1
      rw [show j - unk true N + 1 + unk true N = j + 1 by omega] at s2
      rw [s1, s2]
      linarith

/-- Distance of knots `order` apart. -/
theorem XRange.Valid.span {o N : ℕ} {per : Bool} {x : XRange K} (h : x.Valid o N per) {H : K} (hH : x.Gap N H) (ho : 1 ≤ o) {k : ℕ} (h1 : 1 ≤ k)
    (h2 : k + o < (x.knots o (unk per N) per).length) : x.kt o N per (k + o) - x.kt o N per k ≤ (2 * (o : K) - 1) * H := by
  have h0 := h.gap_pos hH
  have ho' : (1 : K) ≤ o := by exact_mod_cast ho
  cases per with
  | false =>
    have ax := h.aAxis
    have hN : unk false N = N := rfl
    have hlen := ax.len
    have h3 := (h.aperiodic rfl).1
    rw [hN] at ax
    have up : ∀ j, 1 ≤ j → j ≤ N + o → x.kt o N false j ≤ x.node N (min (j - 1) (N - 1)) := by
      intro j hj1 hj2
      by_cases e1 : j ≤ o
      · rw [show x.kt o N false j = x.node N 0 from ax.left j e1]; exact h.node_le (Nat.zero_le _) (by omega)
      · by_cases e2 : j < N
        · rw [show min (j - 1) (N - 1) = j - 1 by omega]; exact (h.knot_between ho (by omega) e2).2
        · rw [show x.kt o N false j = x.node N (N - 1) from ax.right j (by omega) hj2, show min (j - 1) (N - 1) = N - 1 by omega]
    have dn : ∀ j, j ≤ N + o → x.node N (min (j - o) (N - 1)) ≤ x.kt o N false j := by
      intro j hj2
      by_cases e1 : j ≤ o
      · rw [show x.kt o N false j = x.node N 0 from ax.left j e1, show min (j - o) (N - 1) = 0 by omega]
      · by_cases e2 : j < N
        · rw [show min (j - o) (N - 1) = j - o by omega]; exact (h.knot_between ho (by omega) e2).1
        · rw [show x.kt o N false j = x.node N (N - 1) from ax.right j (by omega) hj2]; exact h.node_le (by omega) (by omega)
    have a1 := up (k + o) (by omega) (by omega)
    have a2 := dn k (by omega)
    have a3 := h.gap_le hH (2 * o - 1) (a := min (k + o - 1) (N - 1)) (b := min (k - o) (N - 1)) (by omega) (by omega) (by omega)
    rw [Nat.cast_sub (by omega)] at a3
    push_cast at a3
    linarith
  | true =>
    have key : ∀ m, k + m < (x.knots o (unk true N) true).length → x.kt o N true (k + m) - x.kt o N true k ≤ m * H := by
      intro m
      induction m with
      | zero => intro _; simp
      | succ m ih =>
        intro hm
        have a1 := ih (by omega)
        have a2 := h.knot_gap hH ho (j := k + m) (by omega) hm
        push_cast
        rw [← Nat.add_assoc]
        linarith
    have := key o h2
    have : (o : K) * H ≤ (2 * o - 1) * H := mul_le_mul_of_nonneg_right (by linarith) h0.le
    linarith

end Intp
