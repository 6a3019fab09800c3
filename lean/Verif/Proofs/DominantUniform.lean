import Verif.Proofs.DominantAxis

/-!
# Uniform dimensions of order 1, 2 and 3 are dominant

With the weight `1/4` for the two ends and `1` elsewhere the collocation matrix of a uniform dimension is dominant by at least `1/9`, for every number of
points.  Rows of long dimensions are moved to a dimension with ten points.
-/

namespace Intp

open Finset BSpline

section
variable {K : Type} [Field K] [LinearOrder K] [IsStrictOrderedRing K]

/-- Moving knots, segment and coordinate by an affine map (only the knots within reach matter). -/
theorem piece_affine {t t' : ℕ → K} {n s p : ℕ} {P H : K} (hH : H ≠ 0) (hp : p ≤ s) (ht : ∀ i, s < i + p → i ≤ s + p → t (i + n) = t' i * H + P) (x : K) :
    ∀ (k i : ℕ), k ≤ p → piece t (s + n) k (i + n) (x * H + P) = piece t' s k i x
  | 0, i, _ => by simp [piece]
  | k + 1, i, hk => by
    have q : ∀ u v y : K, (y * H + P - (u * H + P)) / (v * H + P - (u * H + P)) = (y - u) / (v - u) := fun u v y => by
      rw [add_sub_add_right_eq_sub, add_sub_add_right_eq_sub, ← sub_mul, ← sub_mul, mul_div_mul_right _ _ hH]
    have q' : ∀ u v y : K, (v * H + P - (y * H + P)) / (v * H + P - (u * H + P)) = (v - y) / (v - u) := fun u v y => by
      rw [add_sub_add_right_eq_sub, add_sub_add_right_eq_sub, ← sub_mul, ← sub_mul, mul_div_mul_right _ _ hH]
    by_cases hi : i ≤ s ∧ s ≤ i + (k + 1)
    · rw [piece, piece, show i + n + 1 = i + 1 + n by omega, show i + n + k + 1 = i + k + 1 + n by omega,
        show i + n + k + 2 = i + k + 2 + n by omega, piece_affine hH hp ht x k i (by omega), piece_affine hH hp ht x k (i + 1) (by omega)]
      congr 1
      · by_cases h0 : piece t' s k i x = 0
        · rw [h0, mul_zero, mul_zero]
        · obtain ⟨a1, a2⟩ := piece_support h0
          rw [ht i (by omega) (by omega), ht (i + k + 1) (by omega) (by omega), q]
      · by_cases h0 : piece t' s k (i + 1) x = 0
        · rw [h0, mul_zero, mul_zero]
        · obtain ⟨a1, a2⟩ := piece_support h0
          rw [ht (i + 1) (by omega) (by omega), ht (i + k + 2) (by omega) (by omega), q']
    · have z : ∀ s i (t : ℕ → K) y, ¬ (i ≤ s ∧ s ≤ i + (k + 1)) → piece t s (k + 1) i y = 0 := by
        intro s i t y h
        by_contra hc
        exact h (piece_support hc)
      rw [z _ _ _ _ hi, z _ _ _ _ (by omega)]

end

variable {o n : ℕ} {a H : ℚ}

/-- A row of the exact matrix, moved to another number of points and another range. -/
theorem exRow_move (hH : H ≠ 0) {n' i i' m : ℕ} (hn' : o + 1 ≤ n') (hi : i = i' + m) (hk : uaKi o n i = uaKi o n' i' + m)
    (hg : ∀ u, uaKi o n' i' < u + o → u ≤ uaKi o n' i' + o → gridKnot o n (u + m) = gridKnot o n' u + 2 * m) (J : ℕ) :
    exRow o n a H i (J + m) = exRow o n' 0 1 i' J := by
  unfold exRow
  have e : gridPt a H (2 * i) = gridPt 0 1 (2 * i') * H + (a + m * H) := by
    unfold gridPt; rw [hi]; push_cast; ring
  rw [hk, e]
  refine piece_affine (p := o) hH (uaKi_bounds hn' i').1 (fun u h1 h2 => ?_) _ o J le_rfl
  unfold exKnot
  rw [hg u h1 h2]
  unfold gridPt
  push_cast
  ring

/-- Weights of the columns. -/
def domW (o n J : ℕ) : ℚ := if J = 0 ∨ J + 1 = n then 1 / 4 else if o = 3 ∧ n = 5 ∧ (J = 1 ∨ J = 3) then 3 / 4 else 1

theorem domW_bounds (o n J : ℕ) : 1 / 4 ≤ domW o n J ∧ domW o n J ≤ 1 := by
  unfold domW; split_ifs <;> norm_num

/-- Dominance of a row, from the columns that meet it. -/
def winMarg (o n i : ℕ) : ℚ :=
  ∑ j ∈ range (o + 1), (if uaKi o n i - o + j = i then |exRow o n 0 1 i (uaKi o n i - o + j)| else -|exRow o n 0 1 i (uaKi o n i - o + j)|) *
    domW o n (uaKi o n i - o + j)

theorem winMarg_small : ∀ o : Fin 3, ∀ n : Fin 11, ∀ i : Fin 11, (o : ℕ) + 2 ≤ n → (i : ℕ) < n → 1 / 9 ≤ winMarg (o + 1) n i := by decide +kernel

/-- A row has the same dominance as one of a dimension with at most ten points. -/
theorem marg_move (hH : H ≠ 0) (ho : 1 ≤ o) {n' i i' m : ℕ} (hn : o + 1 ≤ n) (hn' : o + 1 ≤ n') (hi : i = i' + m) (hk : uaKi o n i = uaKi o n' i' + m)
    (hg : ∀ u, uaKi o n' i' < u + o → u ≤ uaKi o n' i' + o → gridKnot o n (u + m) = gridKnot o n' u + 2 * m)
    (hw : ∀ j, j ≤ o → domW o n (uaKi o n' i' - o + j + m) = domW o n' (uaKi o n' i' - o + j)) :
    marg (exRow o n a H) (domW o n) n 0 i = winMarg o n' i' := by
  obtain ⟨k1, k2⟩ := uaKi_bounds hn i
  obtain ⟨k1', k2'⟩ := uaKi_bounds hn' i'
  unfold marg winMarg
  rw [← range_eq_Ico]
  have hz : ∀ J ∈ range n, J ∉ Ico (uaKi o n i - o) (uaKi o n i + 1) →
      (if J = i then |exRow o n a H i J| else -|exRow o n a H i J|) * domW o n J = 0 := fun J _ hJ => by
    have : exRow o n a H i J = 0 := by
      by_contra hne
      have := piece_support hne
      rw [mem_Ico] at hJ
      omega
    rw [this]
    simp
  rw [← sum_subset (s₁ := Ico (uaKi o n i - o) (uaKi o n i + 1)) (fun J hJ => by rw [mem_Ico] at hJ; rw [mem_range]; omega) hz, sum_Ico_eq_sum_range,
    show uaKi o n i + 1 - (uaKi o n i - o) = o + 1 by omega]
  refine sum_congr rfl fun j hj => ?_
  rw [mem_range] at hj
  have e : uaKi o n i - o + j = uaKi o n' i' - o + j + m := by omega
  rw [e, exRow_move hH hn' hi hk hg, hw j (by omega)]
  congr 1
  by_cases h : uaKi o n' i' - o + j = i'
  · rw [if_pos h, if_pos (by omega)]
  · rw [if_neg h, if_neg (by omega)]

/-- Dominance of uniform dimensions of order 1, 2 and 3. -/
theorem uniform_marg (hH : H ≠ 0) (ho : 1 ≤ o ∧ o ≤ 3) (hn : o + 1 ≤ n) {i : ℕ} (hi : i < n) : 1 / 9 ≤ marg (exRow o n a H) (domW o n) n 0 i := by
  have hsm : ∀ n' i', o + 1 ≤ n' → n' ≤ 10 → i' < n' → 1 / 9 ≤ winMarg o n' i' := fun n' i' h1 h2 h3 => by
    have := winMarg_small ⟨o - 1, by omega⟩ ⟨n', by omega⟩ ⟨i', by omega⟩ (by show o - 1 + 2 ≤ n'; omega) h3
    rwa [show o - 1 + 1 = o by omega] at this
  have hK : ∀ N I, (o / 2 < I ∧ uaKi o N I = min (N - 1) (I + (o + 1) / 2)) ∨ (I ≤ o / 2 ∧ uaKi o N I = min (N - 1) o) := fun N I => by
    unfold uaKi
    by_cases h : I > o / 2
    · exact .inl ⟨h, by rw [if_pos h]⟩
    · exact .inr ⟨by omega, by rw [if_neg h]⟩
  by_cases hs : n ≤ 10
  · rw [marg_move (i := i) (n' := n) (i' := i) (m := 0) hH ho.1 hn hn rfl rfl (fun u _ _ => rfl) fun j _ => rfl]
    exact hsm n i hn hs hi
  · have hw : ∀ J J', (J = 0 ∨ J + 1 = n ↔ J' = 0 ∨ J' + 1 = 10) → domW o n J = domW o 10 J' := fun J J' h => by
      unfold domW
      rw [if_congr h rfl rfl, if_neg (show ¬ (o = 3 ∧ n = 5 ∧ (J = 1 ∨ J = 3)) by omega), if_neg (show ¬ (o = 3 ∧ 10 = 5 ∧ (J' = 1 ∨ J' = 3)) by omega)]
    have move : ∀ i' m, i = i' + m → i' < 10 → (m = 0 ∧ i ≤ 4 ∨ m = n - 10 ∧ 4 ≤ i' ∨ i' = 4 ∧ m + 10 ≤ n) → 1 / 9 ≤ marg (exRow o n a H) (domW o n) n 0 i := by
      intro i' m h1 h2 h3
      have k1 := hK n i
      have k2 := hK 10 i'
      rw [marg_move (i := i) (n' := 10) (i' := i') (m := m) hH ho.1 hn (by omega) h1 (by omega) (fun u h2 h3 => by unfold gridKnot; split_ifs <;> omega)
        fun j hj => hw _ _ (by omega)]
      exact hsm 10 i' (by omega) le_rfl h2
    by_cases h1 : i ≤ 4
    · exact move i 0 rfl (by omega) (by omega)
    · by_cases h2 : n ≤ i + 6
      · exact move (i + 10 - n) (n - 10) (by omega) (by omega) (by omega)
      · exact move 4 (i - 4) (by omega) (by omega) (by omega)

end Intp
