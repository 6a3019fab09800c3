import Verif.Proofs.TotalPos
import Verif.Proofs.Construct

/-!
# Clamped dimensions never meet a zero pivot
-/

namespace Intp

open Finset

variable {K : Type} [Field K] [LinearOrder K] [IsStrictOrderedRing K] [FloorRing K]

section

variable {o n : ℕ} {t : List K} {X : ℕ → K}

/-- All knots are ordered, also the first one. -/
theorem AAxis.mono (h : AAxis o n t X) {i j : ℕ} (hij : i ≤ j) (hj : j ≤ n + o) : knotFn t i ≤ knotFn t j := by
  have hb := h.big
  have hl := h.len
  rcases Nat.eq_zero_or_pos i with rfl | hi
  · rcases Nat.eq_zero_or_pos j with rfl | hj'
    · exact le_rfl
    · refine le_trans ?_ (h.kmono 1 j le_rfl hj' (by omega))
      rcases Nat.eq_zero_or_pos o with rfl | ho
      · exact (h.inc 0 le_rfl (by omega)).le
      · rw [h.left 0 (by omega), h.left 1 (by omega)]
  · exact h.kmono i j hi hij (by omega)

/-- The knots, continued by the last one. -/
def AAxis.ext (_ : AAxis o n t X) (i : ℕ) : K := knotFn t (min i (n + o))

theorem AAxis.ext_mono (h : AAxis o n t X) : Monotone h.ext := fun i j hij => h.mono (min_le_min hij le_rfl) (min_le_right _ _)

theorem AAxis.ext_eq (h : AAxis o n t X) {i : ℕ} (hi : i ≤ n + o) : h.ext i = knotFn t i := by
  unfold AAxis.ext
  rw [min_eq_left hi]

theorem AAxis.ki_strict (h : AAxis o n t X) (hX : ∀ i j, i < j → j < n → X i < X j) {i : ℕ} (h1 : 0 < i) (h2 : i + 1 < n) :
    knotFn t (h.ki i) ≤ X i ∧ X i < knotFn t (h.ki i + 1) := by
  obtain ⟨a, b, c, d⟩ := h.ki_spec i
  constructor
  · rcases c with c | c
    · rw [c, h.left o le_rfl]; exact (hX 0 i h1 (by omega)).le
    · exact c
  · rcases d with d | d
    · rw [d, show n - 1 + 1 = n by omega, h.right n le_rfl (by omega)]; exact hX i (n - 1) (by omega) (by omega)
    · exact d

/-- An interior row of the matrix holds the values of the basis functions. -/
theorem AAxis.colRow_eq (h : AAxis o n t X) (hX : ∀ i j, i < j → j < n → X i < X j) {i : ℕ} (h1 : 0 < i) (h2 : i + 1 < n) {J : ℕ} (hJ : J < n) :
    colRow (knotFn t) o n (h.ki i) (X i) J = cox h.ext o J (X i) := by
  have hk := h.ki_bounds i
  have hs := h.ki_strict hX h1 h2
  have e1 : colRow (knotFn t) o n (h.ki i) (X i) J = piece (knotFn t) (h.ki i) o J (X i) := by
    unfold colRow
    by_cases hJ' : h.ki i - o ≤ J ∧ J ≤ h.ki i
    · rw [sum_eq_single (J - (h.ki i - o))]
      · rw [show h.ki i - o + (J - (h.ki i - o)) = J by omega, Nat.mod_eq_of_lt hJ, if_pos rfl]
      · intro a ha hne
        rw [mem_range] at ha
        rw [Nat.mod_eq_of_lt (by omega), if_neg (by omega)]
      · intro hc
        rw [mem_range] at hc
        omega
    · have e0 : piece (knotFn t) (h.ki i) o J (X i) = 0 := by
        by_contra hne
        have := piece_support hne
        omega
      rw [e0]
      refine sum_eq_zero fun a ha => ?_
      rw [mem_range] at ha
      rw [Nat.mod_eq_of_lt (by omega), if_neg (by omega)]
  rw [e1, ← cox_eq_piece (N := n + o + 1) (fun i j hij hj => h.mono hij (by omega)) (by omega) hs.1 hs.2 o J (by omega)]
  have := cox_congr (t := knotFn t) (u := h.ext) (e := 0) (e' := 0) (X i) o J fun j hj => (h.ext_eq (by omega)).symm
  simpa using this

/-- The matrix of a clamped dimension is regular, and so are all its leading blocks. -/
theorem AAxis.regular (h : AAxis o n t X) (hX : ∀ i j, i < j → j < n → X i < X j) {A : ℕ → ℕ → K}
    (hA : ∀ i, i < n → ∀ J, J < n → A i J = colRow (knotFn t) o n (h.ki i) (X i) J) {r : ℕ} (hr : r < n) : 0 < (lead A (r + 1)).det := by
  have h2 := h.two
  have hb := h.big
  have key : ∀ r, r + 1 < n → 0 < (lead A (r + 1)).det := by
    intro r hr
    have e : (lead A (r + 1)).det = (colloc h.ext o (fun b : Fin r => b.val + 1) (fun a : Fin r => X (a.val + 1))).det := by
      rw [Matrix.det_succ_row_zero, Finset.sum_eq_single 0, ← Matrix.det_transpose (colloc _ _ _ _)]
      · have e0 : lead A (r + 1) 0 0 = 1 := by
          show A ((0 : Fin (r + 1)) : ℕ) ((0 : Fin (r + 1)) : ℕ) = 1
          rw [hA _ (by simp; omega) _ (by simp; omega)]
          have := h.ends (i := 0) (.inl rfl) (J := 0) (by omega)
          simpa using this
        rw [e0]
        simp only [Fin.val_zero, pow_zero, one_mul]
        congr 1
        ext i j
        simp only [Matrix.submatrix_apply, Fin.succAbove_zero, Matrix.transpose_apply]
        show A (i.succ : ℕ) (j.succ : ℕ) = cox h.ext o (j.val + 1) (X (i.val + 1))
        rw [Fin.val_succ, Fin.val_succ, hA _ (by omega) _ (by omega)]
        exact h.colRow_eq hX (by omega) (by omega) (by omega)
      · intro j _ hj
        have e0 : lead A (r + 1) 0 j = 0 := by
          show A ((0 : Fin (r + 1)) : ℕ) (j : ℕ) = 0
          rw [hA _ (by simp; omega) _ (by omega)]
          have := h.ends (i := 0) (.inl rfl) (J := j) (by omega)
          rw [if_neg (fun hc : j.val = 0 => hj (Fin.ext hc))] at this
          simpa using this
        rw [e0, mul_zero, zero_mul]
      · intro hc; simp at hc
    rw [e]
    refine colloc_det_pos h.ext_mono (fun a b hab => hX _ _ (by have := Fin.lt_def.1 hab; omega) (by omega))
      (fun a b hab => by have := Fin.lt_def.1 hab; show a.val + 1 < b.val + 1; omega) (fun a => ?_) fun a => ?_
    · have hk := h.ki_bounds (a.val + 1)
      have hs := h.ki_strict hX (i := a.val + 1) (by omega) (by omega)
      exact ⟨h.ki (a.val + 1), by rw [h.ext_eq (by omega)]; exact hs.1, by rw [h.ext_eq (by omega)]; exact hs.2⟩
    · rw [h.ext_eq (by omega), h.ext_eq (by omega)]
      exact ⟨h.sw1 _ (by omega) (by omega), h.sw2 _ (by omega) (by omega)⟩
  by_cases hr' : r + 1 < n
  · exact key r hr'
  · obtain ⟨q, rfl⟩ : ∃ q, r = q + 1 := ⟨r - 1, by omega⟩
    have e : (lead A (q + 1 + 1)).det = (lead A (q + 1)).det := by
      rw [Matrix.det_succ_row _ (Fin.last (q + 1)), Finset.sum_eq_single (Fin.last (q + 1))]
      · have e0 : lead A (q + 1 + 1) (Fin.last (q + 1)) (Fin.last (q + 1)) = 1 := by
          show A (Fin.last (q + 1) : ℕ) (Fin.last (q + 1) : ℕ) = 1
          rw [Fin.val_last, hA _ hr _ hr, h.ends (.inr (by omega)) hr, if_pos rfl]
        rw [e0, Fin.val_last, ← two_mul, pow_mul]
        simp only [even_two, Even.neg_pow, one_pow, one_mul]
        congr 1
        ext i j
        simp only [Matrix.submatrix_apply, Fin.succAbove_last]
        rfl
      · intro j _ hj
        have e0 : lead A (q + 1 + 1) (Fin.last (q + 1)) j = 0 := by
          show A (Fin.last (q + 1) : ℕ) (j : ℕ) = 0
          rw [Fin.val_last, hA _ hr _ (by omega), h.ends (.inr (by omega)) (by omega), if_neg]
          intro hc
          exact hj (Fin.ext hc)
        rw [e0, mul_zero, zero_mul]
      · intro hc; simp at hc
    rw [e]
    exact key q (by omega)

end

theorem XRange.Valid.node_lt {o N : ℕ} {per : Bool} {x : XRange K} (h : x.Valid o N per) {i j : ℕ} (hij : i < j) (hj : j < N) :
    x.node N i < x.node N j := by
  cases x with
  | uniform a b =>
    have hs := h.step_pos
    have : (i : K) < (j : K) := by exact_mod_cast hij
    simp only [XRange.node]
    nlinarith
  | coords l => exact h.strict hij hj

/-- The matrix of a valid non-periodic dimension has positive leading minors. -/
theorem XRange.Valid.lead_pos {o N : ℕ} {x : XRange K} (h : x.Valid o N false) {r : ℕ} (hr : r < N) :
    0 < (lead (x.mat o N false) (r + 1)).det := by
  refine AAxis.regular h.aAxis (fun i j hij hj => h.node_lt hij hj) (fun i hi J hJ => ?_) hr
  have hi' : i < N := hi
  have e := nodeOfRow_shift (o := o) (per := false) (n := unk false N) hi
  rw [show (i + rowShift o false) % unk false N = i by simpa [rowShift] using Nat.mod_eq_of_lt hi] at e
  unfold XRange.mat
  rw [e, KMono.segAt h.kmono h.knots_length_le]
  have := h.aAxis.segOfNode i hi
  exact this

end Intp
