import Verif.Proofs.PivotU
import Mathlib.Tactic.FieldSimp
import Mathlib.Tactic.IntervalCases

/-!
# Periodic dimensions with explicit coordinates, order at most 3

The coefficient matrix becomes strictly diagonally dominant after scaling its columns by the distance of suitable knots.
-/

namespace Intp

open Finset

variable {K : Type} [Field K] [LinearOrder K] [IsStrictOrderedRing K] [FloorRing K]

omit [FloorRing K] in
/-- Diagonal dominance after scaling the columns with positive factors. -/
theorem lead_det_ne_zero_of_scaled {n : ℕ} {A : ℕ → ℕ → K} {v : ℕ → K} (hA : ∀ i < n, ∀ j, 0 ≤ A i j) (hv : ∀ j < n, 0 < v j)
    (h : ∀ i < n, ∑ j ∈ (range n).erase i, A i j * v j < A i i * v i) {r : ℕ} (hr : r ≤ n) : (lead A r).det ≠ 0 := by
  have h1 : (lead (fun i j => A i j * v j) r).det ≠ 0 := by
    refine lead_det_ne_zero_of_diag_dom (n := n) (fun i hi => ?_) hr
    rw [abs_of_nonneg (mul_nonneg (hA i hi i) (hv i hi).le)]
    refine lt_of_le_of_lt (le_of_eq (sum_congr rfl fun j hj => ?_)) (h i hi)
    exact abs_of_nonneg (mul_nonneg (hA i hi j) (hv j (mem_range.1 (mem_of_mem_erase hj))).le)
  intro h0
  apply h1
  have : lead (fun i j => A i j * v j) r = lead A r * Matrix.diagonal (fun j : Fin r => v j) := by
    ext i j
    rw [Matrix.mul_diagonal]
    rfl
  rw [this, Matrix.det_mul, h0, zero_mul]

/-- The row of a periodic dimension in terms of the pieces. -/
theorem XRange.Valid.mat_periodic {o N : ℕ} {x : XRange K} (h : x.Valid o N true) {r J : ℕ} (hr : r < N - 1) :
    x.mat o N true r J = ∑ a ∈ range (o + 1), if (nodeOfRow o true (N - 1) r + a) % (N - 1) = J then
      piece (knotFn (x.knots o (N - 1) true)) (nodeOfRow o true (N - 1) r + o) o (nodeOfRow o true (N - 1) r + a)
        (x.node N (nodeOfRow o true (N - 1) r)) else 0 := by
  have ax := h.pAxis
  have hp := h.periodic rfl
  have hu : unk true N = N - 1 := rfl
  have hi : nodeOfRow o true (N - 1) r < N - 1 := Nat.mod_lt _ (by omega)
  have hseg := KMono.segAt h.kmono h.knots_length_le (ax.segOfNode (nodeOfRow o true (N - 1) r) hi)
  unfold XRange.mat
  rw [hu] at hseg ⊢
  rw [hseg]
  unfold colRow
  refine sum_congr rfl fun j hj => ?_
  rw [show nodeOfRow o true (N - 1) r + o - o + j = nodeOfRow o true (N - 1) r + j by omega]

theorem nodeOfRow_add {o n r : ℕ} (hr : r < n) (ho : o / 2 < n) : (nodeOfRow o true n r + o / 2) % n = r := by
  unfold nodeOfRow
  rw [if_pos rfl, Nat.mod_eq_of_lt ho, Nat.mod_add_mod, show r + (n - o / 2) + o / 2 = r + n by omega, Nat.add_mod_right, Nat.mod_eq_of_lt hr]

/-- Regularity from weighted dominance of the middle piece at every data point. -/
theorem XRange.Valid.regular_of_dom {o N : ℕ} {x : XRange K} (h : x.Valid o N true) {v : ℕ → K} (hv : ∀ j < N - 1, 0 < v j)
    (hd : ∀ i < N - 1, ∑ a ∈ (range (o + 1)).erase (o / 2), piece (knotFn (x.knots o (N - 1) true)) (i + o) o (i + a) (x.node N i) * v ((i + a) % (N - 1)) <
      piece (knotFn (x.knots o (N - 1) true)) (i + o) o (i + o / 2) (x.node N i) * v ((i + o / 2) % (N - 1))) :
    Regular (N - 1) (x.mat o N true) := by
  have hp := h.periodic rfl
  have ax := h.pAxis
  have hu : unk true N = N - 1 := rfl
  rw [hu] at ax
  set n := N - 1 with hn
  set T := knotFn (x.knots o n true) with hT
  have hlen := ax.len
  have hnn : ∀ i < n, ∀ a ≤ o, 0 ≤ piece T (i + o) o (i + a) (x.node N i) := by
    intro i hi a ha
    have hx := ax.node i hi
    refine piece_nonneg (p := o) (fun l h1 h2 => ?_) (fun l h1 h2 => ?_) o _ le_rfl
    · exact (ax.kmono l (i + o) (by omega) h2 (by omega)).trans hx.1
    · exact hx.2.le.trans (ax.kmono (i + o + 1) l (by omega) h1 (by omega))
  intro R hR
  refine lead_det_ne_zero_of_scaled (n := n) (v := v) (fun r hr J => ?_) hv (fun r hr => ?_) (by omega)
  · rw [h.mat_periodic hr]
    refine sum_nonneg fun a ha => ?_
    split
    · exact hnn _ (Nat.mod_lt _ (by omega)) a (by have := mem_range.1 ha; omega)
    · exact le_rfl
  · have hi : nodeOfRow o true n r < n := Nat.mod_lt _ (by omega)
    have hdiag := nodeOfRow_add (o := o) hr (by omega)
    have key := hd _ hi
    rw [hdiag] at key
    refine lt_of_le_of_lt ?_ (lt_of_lt_of_le key ?_)
    · have e : ∀ J ∈ (range n).erase r, x.mat o N true r J * v J = ∑ a ∈ (range (o + 1)).erase (o / 2),
          if (nodeOfRow o true n r + a) % n = J then
            piece T (nodeOfRow o true n r + o) o (nodeOfRow o true n r + a) (x.node N (nodeOfRow o true n r)) * v J else 0 := by
        intro J hJ
        have hJ' := (mem_erase.1 hJ).1
        rw [h.mat_periodic hr, sum_mul, ← add_sum_erase _ _ (mem_range.2 (show o / 2 < o + 1 by omega)), hdiag, if_neg (Ne.symm hJ'), zero_mul, zero_add]
        exact sum_congr rfl fun a _ => by rw [ite_mul, zero_mul]
      rw [sum_congr rfl e, sum_comm]
      refine sum_le_sum fun a ha => ?_
      rw [sum_ite_eq]
      split
      · exact le_rfl
      · exact mul_nonneg (hnn _ hi a (by have := mem_range.1 (mem_of_mem_erase ha); omega)) (hv _ (Nat.mod_lt _ (by omega))).le
    · refine mul_le_mul_of_nonneg_right ?_ (hv r hr).le
      rw [h.mat_periodic hr]
      refine le_trans (le_of_eq ?_) (single_le_sum (f := fun a => if (nodeOfRow o true n r + a) % n = r then
        piece T (nodeOfRow o true n r + o) o (nodeOfRow o true n r + a) (x.node N (nodeOfRow o true n r)) else 0) (fun a ha => ?_)
        (mem_range.2 (show o / 2 < o + 1 by omega)))
      · simp only [hdiag, if_true]
      · split
        · exact hnn _ hi a (by have := mem_range.1 ha; omega)
        · exact le_rfl

omit [LinearOrder K] [IsStrictOrderedRing K] [FloorRing K] in
theorem dom_order_two {T : ℕ → K} {i : ℕ} {x : K} (h1 : T (i + 3) - T (i + 1) ≠ 0) (h2 : T (i + 3) - T (i + 2) ≠ 0) (h3 : T (i + 4) - T (i + 2) ≠ 0) :
    piece T (i + 2) 2 (i + 1) x * (T (i + 3) - T (i + 2)) - piece T (i + 2) 2 i x * (T (i + 2) - T (i + 1)) -
      piece T (i + 2) 2 (i + 2) x * (T (i + 4) - T (i + 3)) = 2 * (x - T (i + 2)) * (T (i + 3) - x) / (T (i + 3) - T (i + 2)) := by
  simp only [piece, Nat.add_assoc, Nat.reduceAdd, Nat.add_left_cancel_iff, show ¬ i = i + 2 by omega, show ¬ i = i + 3 by omega, sub_self, zero_div, zero_mul,
    if_true, if_false, mul_zero, zero_add, add_zero, mul_one, Nat.reduceEqDiff]
  field_simp
  ring

omit [LinearOrder K] [IsStrictOrderedRing K] [FloorRing K] in
theorem dom_order_three {T : ℕ → K} {i : ℕ} (h1 : T (i + 4) - T (i + 1) ≠ 0) (h2 : T (i + 4) - T (i + 2) ≠ 0) (h3 : T (i + 4) - T (i + 3) ≠ 0)
    (h4 : T (i + 5) - T (i + 2) ≠ 0) (h5 : T (i + 5) - T (i + 3) ≠ 0) :
    piece T (i + 3) 3 (i + 1) (T (i + 3)) * (T (i + 4) - T (i + 2)) - piece T (i + 3) 3 i (T (i + 3)) * (T (i + 3) - T (i + 1)) -
      piece T (i + 3) 3 (i + 2) (T (i + 3)) * (T (i + 5) - T (i + 3)) = (T (i + 3) - T (i + 2)) * (T (i + 4) - T (i + 3)) *
        ((T (i + 3) - T (i + 1)) / (T (i + 4) - T (i + 1)) + (T (i + 5) - T (i + 3)) / (T (i + 5) - T (i + 2))) / (T (i + 4) - T (i + 2)) := by
  simp only [piece, Nat.add_assoc, Nat.reduceAdd, Nat.add_left_cancel_iff, show ¬ i = i + 2 by omega, show ¬ i = i + 3 by omega, sub_self, zero_div, zero_mul,
    if_true, if_false, mul_zero, zero_add, add_zero, mul_one, Nat.reduceEqDiff]
  field_simp
  ring

/-- With explicit coordinates and even order, data points lie strictly inside their segments. -/
theorem cpKnot_lt_node {o n : ℕ} {X : ℕ → K} (hX : ∀ i, i < n → X i < X (i + 1)) (ho : o % 2 = 0) {i : ℕ} (hi : i < n) :
    cpKnot o n X (i + o) < X i := by
  by_cases h0 : i = 0
  · subst h0
    rw [cpKnot_low (by omega), cpMid_eq (by omega) (by omega), show 0 + o + n - o - 1 = n - 1 by omega, show 0 + o + n - o = n by omega, if_pos ho]
    have := hX (n - 1) (by omega)
    rw [show n - 1 + 1 = n by omega] at this
    linarith
  · rw [cpKnot_mid (by omega) (by omega), cpMid_eq (by omega) (by omega), show i + o - o - 1 = i - 1 by omega, show i + o - o = i by omega, if_pos ho]
    have := hX (i - 1) (by omega)
    rw [show i - 1 + 1 = i by omega] at this
    linarith

/-- All leading blocks of the matrix of a periodic dimension with explicit coordinates are regular, for orders up to 3. -/
theorem XRange.Valid.regular_coords {o N : ℕ} {l : List K} (h : (XRange.coords l).Valid o N true) (ho : o ≤ 3) :
    Regular (N - 1) ((XRange.coords l).mat o N true) := by
  have hp := h.periodic rfl
  have ax := h.pAxis
  have hc := h.coords l rfl
  have hu : unk true N = N - 1 := rfl
  rw [hu] at ax
  have hlen := ax.len
  have hbig := ax.big
  -- the scaling factors repeat with the period
  have hper : ∀ d e i : ℕ, 1 ≤ d → d ≤ e → i + e < ((XRange.coords l).knots o (N - 1) true).length →
      i < 2 * (N - 1) →
      knotFn ((XRange.coords l).knots o (N - 1) true) (i % (N - 1) + e) - knotFn ((XRange.coords l).knots o (N - 1) true) (i % (N - 1) + d) =
      knotFn ((XRange.coords l).knots o (N - 1) true) (i + e) - knotFn ((XRange.coords l).knots o (N - 1) true) (i + d) := by
    intro d e i h1 h2 h3 h4
    by_cases h5 : i < N - 1
    · rw [Nat.mod_eq_of_lt h5]
    · have e1 : i % (N - 1) = i - (N - 1) := by rw [Nat.mod_eq_sub_mod (by omega), Nat.mod_eq_of_lt (by omega)]
      have a1 := ax.shift (i - (N - 1) + e) (.inl (by omega)) (by omega)
      have a2 := ax.shift (i - (N - 1) + d) (.inl (by omega)) (by omega)
      rw [show i - (N - 1) + e + (N - 1) = i + e by omega] at a1
      rw [show i - (N - 1) + d + (N - 1) = i + d by omega] at a2
      rw [e1, a1, a2]
      ring
  set T := knotFn ((XRange.coords l).knots o (N - 1) true) with hT
  have hinc : ∀ i j, 1 ≤ i → i < j → j < ((XRange.coords l).knots o (N - 1) true).length → T i < T j := fun i j h1 h2 h3 =>
    strict_of_succ (f := T) (lo := 1) (hi := ((XRange.coords l).knots o (N - 1) true).length - 1) (fun k h4 h5 => ax.inc k (.inl h4) (by omega)) h1 h2 (by omega)
  clear_value T
  interval_cases o
  · -- order 0
    refine h.regular_of_dom (v := fun _ => 1) (fun _ _ => one_pos) fun i hi => ?_
    simp [piece]
  · -- order 1
    refine h.regular_of_dom (v := fun _ => 1) (fun _ _ => one_pos) fun i hi => ?_
    have hx := ax.odd rfl i hi
    rw [← hT] at hx
    have h0 : T (i + 1) < T (i + 2) := hinc _ _ (by omega) (by omega) (by omega)
    rw [show (range (1 + 1)).erase (1 / 2) = {1} from rfl, sum_singleton, ← hT, hx, piece_top_zero le_rfl rfl, zero_mul]
    refine mul_pos ?_ one_pos
    simp only [piece, Nat.add_assoc, Nat.reduceAdd, Nat.reduceDiv, Nat.add_zero, if_true]
    rw [mul_one, if_neg (by omega), mul_zero, zero_add]
    exact div_pos (by linarith) (by linarith)
  · -- order 2
    refine h.regular_of_dom (v := fun j => T (j + 2) - T (j + 1)) (fun j hj => sub_pos.2 (hinc _ _ (by omega) (by omega) (by omega))) fun i hi => ?_
    have hx := ax.node i hi
    rw [← hT] at hx
    have hlt : T (i + 2) < (XRange.coords l).node N i := by
      have e1 : T (i + 2) = cpKnot 2 (N - 1) (knotFn l) (i + 2) := by rw [hT]; exact knotFn_arr _ (by omega)
      rw [e1]
      exact cpKnot_lt_node (X := knotFn l) (fun k hk => hc.2.1 k (by omega)) rfl hi
    rw [show (range (2 + 1)).erase (2 / 2) = {0, 2} from rfl, sum_pair (by norm_num), ← hT]
    simp only [Nat.reduceDiv, Nat.add_zero]
    rw [hper 1 2 i le_rfl (by omega) (by omega) (by omega), hper 1 2 (i + 1) le_rfl (by omega) (by omega) (by omega),
      hper 1 2 (i + 2) le_rfl (by omega) (by omega) (by omega)]
    have a1 := hinc (i + 1) (i + 2) (by omega) (by omega) (by omega)
    have a2 := hinc (i + 2) (i + 3) (by omega) (by omega) (by omega)
    have a3 := hinc (i + 3) (i + 4) (by omega) (by omega) (by omega)
    have key := dom_order_two (T := T) (i := i) (x := (XRange.coords l).node N i) (by linarith) (by linarith) (by linarith)
    have hpos : 0 < 2 * ((XRange.coords l).node N i - T (i + 2)) * (T (i + 3) - (XRange.coords l).node N i) / (T (i + 3) - T (i + 2)) :=
      div_pos (mul_pos (mul_pos two_pos (sub_pos.2 hlt)) (sub_pos.2 hx.2)) (sub_pos.2 a2)
    rw [← key] at hpos
    rw [show i + 1 + 1 = i + 2 by omega, show i + 1 + 2 = i + 3 by omega, show i + 2 + 2 = i + 4 by omega, show i + 2 + 1 = i + 3 by omega]
    linarith
  · -- order 3
    refine h.regular_of_dom (v := fun j => T (j + 3) - T (j + 1)) (fun j hj => sub_pos.2 (hinc _ _ (by omega) (by omega) (by omega))) fun i hi => ?_
    have hx := ax.odd rfl i hi
    rw [← hT] at hx
    rw [show (range (3 + 1)).erase (3 / 2) = {0, 2, 3} from rfl, sum_insert (by decide), sum_pair (by norm_num), ← hT, hx,
      piece_top_zero (by norm_num) rfl, zero_mul, add_zero]
    simp only [Nat.reduceDiv, Nat.add_zero]
    rw [hper 1 3 i le_rfl (by omega) (by omega) (by omega), hper 1 3 (i + 1) le_rfl (by omega) (by omega) (by omega),
      hper 1 3 (i + 2) le_rfl (by omega) (by omega) (by omega)]
    have a1 := hinc (i + 1) (i + 2) (by omega) (by omega) (by omega)
    have a2 := hinc (i + 2) (i + 3) (by omega) (by omega) (by omega)
    have a3 := hinc (i + 3) (i + 4) (by omega) (by omega) (by omega)
    have a4 := hinc (i + 4) (i + 5) (by omega) (by omega) (by omega)
    have key := dom_order_three (T := T) (i := i) (by linarith) (by linarith) (by linarith) (by linarith) (by linarith)
    have hpos : 0 < (T (i + 3) - T (i + 2)) * (T (i + 4) - T (i + 3)) *
        ((T (i + 3) - T (i + 1)) / (T (i + 4) - T (i + 1)) + (T (i + 5) - T (i + 3)) / (T (i + 5) - T (i + 2))) / (T (i + 4) - T (i + 2)) :=
      div_pos (mul_pos (mul_pos (sub_pos.2 a2) (sub_pos.2 a3)) (add_pos (div_pos (by linarith) (by linarith)) (div_pos (by linarith) (by linarith))))
        (by linarith)
    rw [← key] at hpos
    rw [show i + 1 + 1 = i + 2 by omega, show i + 1 + 3 = i + 4 by omega, show i + 2 + 3 = i + 5 by omega, show i + 2 + 1 = i + 3 by omega]
    linarith

end Intp
