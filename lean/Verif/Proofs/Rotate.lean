import Verif.Proofs.Linear

/-!
# Rotation of the start of a period
-/

namespace Intp

open Finset Polynomial BSpline

variable {K V : Type} [Field K] [LinearOrder K]

/-- Pieces on translated knots. -/
theorem pieceP_translate {t u : ℕ → K} {P : K} {a s p : ℕ} (h : ∀ i, s < i + p → i ≤ s + p → u (i + a) = t i + P) :
    ∀ k i, k ≤ p → (pieceP u (s + a) k (i + a)).comp (X + C P) = pieceP t s k i
  | 0, i, _ => by
    simp only [pieceP]
    by_cases e : i = s
    · rw [if_pos e, if_pos (by omega)]; simp
    · rw [if_neg e, if_neg (by omega)]; simp
  | k + 1, i, hk => by
    have ih0 := pieceP_translate h k i (by omega)
    have ih1 := pieceP_translate h k (i + 1) (by omega)
    rw [show i + 1 + a = i + a + 1 by omega] at ih1
    simp only [pieceP, add_comp, mul_comp, sub_comp, C_comp, X_comp, ih0, ih1]
    have e1 : C (u (i + a + k + 1) - u (i + a))⁻¹ * (X + C P - C (u (i + a))) * pieceP t s k i =
        C (t (i + k + 1) - t i)⁻¹ * (X - C (t i)) * pieceP t s k i := by
      by_cases c : i ≤ s ∧ s ≤ i + k
      · rw [show i + a + k + 1 = i + k + 1 + a by omega, h i (by omega) (by omega), h (i + k + 1) (by omega) (by omega),
          add_sub_add_right_eq_sub, C_add, add_sub_add_right_eq_sub]
      · have : pieceP t s k i = 0 := by
          by_cases c1 : i ≤ s
          · exact pieceP_zero_of_gt t s k i (by omega)
          · exact pieceP_zero_of_lt t s k i (by omega)
        rw [this, mul_zero, mul_zero]
    have e2 : C (u (i + a + k + 2) - u (i + a + 1))⁻¹ * (C (u (i + a + k + 2)) - (X + C P)) * pieceP t s k (i + 1) =
        C (t (i + k + 2) - t (i + 1))⁻¹ * (C (t (i + k + 2)) - X) * pieceP t s k (i + 1) := by
      by_cases c : i + 1 ≤ s ∧ s ≤ i + 1 + k
      · rw [show i + a + k + 2 = i + k + 2 + a by omega, show i + a + 1 = i + 1 + a by omega, h (i + 1) (by omega) (by omega),
          h (i + k + 2) (by omega) (by omega), add_sub_add_right_eq_sub, C_add, add_sub_add_right_eq_sub]
      · have : pieceP t s k (i + 1) = 0 := by
          by_cases c1 : i + 1 ≤ s
          · exact pieceP_zero_of_gt t s k _ (by omega)
          · exact pieceP_zero_of_lt t s k _ (by omega)
        rw [this, mul_zero, mul_zero]
    rw [e1, e2]

theorem pieceP_translate_eval {t u : ℕ → K} {P : K} {a s p : ℕ} (h : ∀ i, s < i + p → i ≤ s + p → u (i + a) = t i + P) (i m : ℕ) (y : K) :
    (derivative^[m] (pieceP u (s + a) p (i + a))).eval (y + P) = (derivative^[m] (pieceP t s p i)).eval y := by
  rw [← pieceP_translate h p i le_rfl, show (X + C P : K[X]) = C 1 * X + C P by simp, iterate_derivative_comp_affine]
  simp

omit [LinearOrder K] in
/-- Two sequences with the same period agree if they agree on one period. -/
theorem agree_of_period {t u : ℕ → K} {P : K} {L n a : ℕ} (hn : 0 < n) (ht : ∀ i, 1 ≤ i → i + n < L → t (i + n) = t i + P)
    (hu : ∀ i, 1 ≤ i → i + n < L → u (i + n) = u i + P) (ha1 : 1 ≤ a) (ha2 : a + n ≤ L) (h : ∀ j, a ≤ j → j < a + n → t j = u j) :
    ∀ j, 1 ≤ j → j < L → t j = u j := by
  have up : ∀ j, a ≤ j → j < L → t j = u j := by
    intro j
    induction j using Nat.strong_induction_on with
    | _ j ih =>
      intro h1 h2
      by_cases c : j < a + n
      · exact h j h1 c
      · have e1 := ht (j - n) (by omega) (by omega)
        have e2 := hu (j - n) (by omega) (by omega)
        rw [show j - n + n = j by omega] at e1 e2
        rw [e1, e2, ih (j - n) (by omega) (by omega) (by omega)]
  intro j
  induction hk : L - j using Nat.strong_induction_on generalizing j with
  | _ k ih =>
    intro h1 h2
    by_cases c : a ≤ j
    · exact up j c h2
    · have e1 := ht j h1 (by omega)
      have e2 := hu j h1 (by omega)
      rw [ih _ (by omega) (j + n) rfl (by omega) (by omega), e2] at e1
      exact (add_right_cancel e1).symm

/-- Coordinates continued periodically. -/
def nodeExt (X : ℕ → K) (n i : ℕ) : K := X (i % n) + ((i / n : ℕ) : K) * (X n - X 0)

omit [LinearOrder K] in
theorem nodeExt_add (X : ℕ → K) {n : ℕ} (hn : 0 < n) (i : ℕ) : nodeExt X n (i + n) = nodeExt X n i + (X n - X 0) := by
  unfold nodeExt
  rw [Nat.add_mod_right, Nat.add_div_right _ hn]
  push_cast
  ring

omit [LinearOrder K] in
theorem nodeExt_le (X : ℕ → K) {n i : ℕ} (hn : 0 < n) (hi : i ≤ n) : nodeExt X n i = X i := by
  unfold nodeExt
  rcases Nat.lt_or_eq_of_le hi with h | rfl
  · rw [Nat.mod_eq_of_lt h, Nat.div_eq_of_lt h]; simp
  · rw [Nat.mod_self, Nat.div_self hn]; simp

/-- Knots of a periodic axis, continued periodically. -/
def midExt (o : ℕ) (X : ℕ → K) (n i : ℕ) : K :=
  if o % 2 = 0 then 1 / 2 * (nodeExt X n (i - 1) + nodeExt X n i) else nodeExt X n i

variable [IsStrictOrderedRing K]

omit [LinearOrder K] [IsStrictOrderedRing K] in
theorem midExt_add [NeZero (2 : K)] (o : ℕ) (X : ℕ → K) {n i : ℕ} (hn : 0 < n) (hi : 1 ≤ i) : midExt o X n (i + n) = midExt o X n i + (X n - X 0) := by
  unfold midExt
  split
  · rw [show i + n - 1 = i - 1 + n by omega, nodeExt_add X hn, nodeExt_add X hn]
    field_simp
    ring
  · exact nodeExt_add X hn i

variable [FloorRing K]

theorem XRange.Valid.knot_midExt {o N : ℕ} {x : XRange K} (h : x.Valid o N true) (ho : 1 ≤ o) {j : ℕ} (h1 : 1 ≤ j)
    (h2 : j < (x.knots o (unk true N) true).length) :
    knotFn (x.knots o (unk true N) true) j = midExt o (x.node N) (unk true N) (j + unk true N - o) - (x.node N (unk true N) - x.node N 0) := by
  have ax := h.pAxis
  have al := ax.len
  have ab := ax.big
  refine agree_of_period (t := knotFn (x.knots o (unk true N) true))
    (u := fun j => midExt o (x.node N) (unk true N) (j + unk true N - o) - (x.node N (unk true N) - x.node N 0)) (n := unk true N) (a := o + 1)
    (by omega) (fun i a c => ax.shift i (.inl a) c) (fun i a c => ?_) (by omega) (by omega) (fun j h3 h4 => ?_) j h1 h2
  · rw [show i + unk true N + unk true N - o = i + unk true N - o + unk true N by omega, midExt_add o _ (by omega) (by omega)]
    ring
  · rw [show j + unk true N - o = j - o + unk true N by omega, midExt_add o _ (by omega) (by omega), add_sub_cancel_right,
      h.knots_per (by omega) (by omega), cpKnot_mid (by omega) (by omega)]
    unfold cpMid midExt
    rw [if_pos ⟨by omega, by omega⟩, nodeExt_le _ (by omega) (by omega), nodeExt_le _ (by omega) (by omega)]

omit [FloorRing K] in
theorem nodeExt_rotate {X X' : ℕ → K} {n m : ℕ} (hn : 0 < n) (h : ∀ i, i ≤ n → X' i = nodeExt X n (i + m)) (i : ℕ) :
    nodeExt X' n i = nodeExt X n (i + m) := by
  have hP : X' n - X' 0 = X n - X 0 := by
    rw [h n le_rfl, h 0 (by omega), Nat.zero_add, Nat.add_comm n m, nodeExt_add X hn]; ring
  induction i using Nat.strong_induction_on with
  | _ i ih =>
    by_cases c : i < n
    · rw [nodeExt_le X' hn c.le, h i c.le]
    · obtain ⟨j, rfl⟩ : ∃ j, i = j + n := ⟨i - n, by omega⟩
      rw [nodeExt_add X' hn, ih j (by omega), hP, show j + n + m = j + m + n by omega, nodeExt_add X hn]

namespace BSpline

variable [AddCommGroup V] [Module K V] {D : ℕ} {b b' : BSpline D K V}

omit [IsStrictOrderedRing K] [FloorRing K] [AddCommGroup V] [Module K V] in
/-- Weights in segments that are translates of each other. -/
theorem weight_translate {b₁ b₂ : BSpline D K V} {d : Fin D} {n a s : ℕ} {P : K} (ho : b₂.order = b₁.order) (hp₁ : b₁.periodicity d = true)
    (hp₂ : b₂.periodicity d = true) (hn₁ : b₁.ctrl.dims d = n) (hn₂ : b₂.ctrl.dims d = n) (hs : b₁.order ≤ s)
    (h : ∀ i, s < i + b₁.order → i ≤ s + b₁.order → b₂.kn d (i + a) = b₁.kn d i + P) (q : ℕ) (z : K) {J : ℕ} (hJ : J < n) :
    b₂.weight d (s + a) q (z + P) ((J + a) % n) = b₁.weight d s q z J := by
  unfold weight
  rw [sum_filter, sum_filter, show s + a + 1 = a + (s + 1) by omega, sum_range_add, sum_eq_zero, zero_add]
  · refine sum_congr rfl fun i _ => ?_
    have : b₂.ctrlOf d (a + i) = (J + a) % n ↔ b₁.ctrlOf d i = J := by
      unfold ctrlOf
      simp only [hp₁, hp₂, if_true, hn₁, hn₂]
      rw [Nat.add_comm a i]
      constructor
      · intro e
        have : i ≡ J [MOD n] := Nat.ModEq.add_right_cancel' a e
        rw [this, Nat.mod_eq_of_lt hJ]
      · intro e
        rw [← e, Nat.mod_add_mod]
    by_cases c : b₁.ctrlOf d i = J
    · rw [if_pos c, if_pos (this.2 c), ho, Nat.add_comm a i]
      exact pieceP_translate_eval h i q z
    · rw [if_neg c, if_neg fun e => c (this.1 e)]
  · intro i hi
    rw [mem_range] at hi
    rw [ho, pieceP_zero_of_gt _ _ _ _ (by omega)]; simp

/-- One periodic dimension of two splines, the second starting `m` segments later. -/
structure RotateDim (b b' : BSpline D K V) (d : Fin D) (m : ℕ) : Prop where
  order : b'.order = b.order
  dims : b'.ctrl.dims d = b.ctrl.dims d
  len : (b'.knots d).length = (b.knots d).length
  lt : m < b.ctrl.dims d
  period : (b'.range d).2 - (b'.range d).1 = (b.range d).2 - (b.range d).1
  kn1 : ∀ j, 1 ≤ j → j + m < (b.knots d).length → b'.kn d j = b.kn d (j + m)
  kn2 : ∀ j, 1 ≤ j → j + (b.ctrl.dims d - m) < (b.knots d).length → b'.kn d (j + (b.ctrl.dims d - m)) = b.kn d j + ((b.range d).2 - (b.range d).1)

theorem RotateDim.wAt {d : Fin D} {m : ℕ} (hM : RotateDim b b' d m) (h : b.WF) (h' : b'.WF) (hs : b.Simple d) (hs' : b'.Simple d)
    (hk : b.PerKnots d) (hk' : b'.PerKnots d) {q : ℕ} (hq : q < b.order) (y : K) {J : ℕ} (hJ : J < b.ctrl.dims d) :
    b.wAt d q y ((J + m) % b.ctrl.dims d) = b'.wAt d q y J := by
  set n := b.ctrl.dims d with hn
  set P := (b.range d).2 - (b.range d).1 with hP
  have hlen := hk.len
  have hmn := hM.lt
  have hlast : b.last d = (b.knots d).length - b.order - 2 := by unfold last; omega
  have hlast' : b'.last d = b.last d := by rw [hlast]; unfold last; rw [hM.order, hM.len]
  have hL : n + 2 * b.order + 1 ≤ (b.knots d).length := by rw [hlen]; split <;> omega
  -- a representative in the range of `b'`
  have hlt' := (h'.per d hk'.per).2
  have hP' : 0 < P := by have := hM.period; linarith
  obtain ⟨z, k, hz, hz1, hz2⟩ : ∃ (z : K) (k : ℤ), y = z + k * P ∧ (b'.range d).1 ≤ z ∧ z ≤ (b'.range d).2 := by
    refine ⟨y - ⌊(y - (b'.range d).1) / P⌋ * P, ⌊(y - (b'.range d).1) / P⌋, by ring, ?_, ?_⟩
    · have := Int.floor_le ((y - (b'.range d).1) / P)
      rw [le_div_iff₀ hP'] at this
      linarith
    · have := (Int.lt_floor_add_one ((y - (b'.range d).1) / P)).le
      rw [div_le_iff₀ hP'] at this
      have e : (b'.range d).2 = (b'.range d).1 + P := by have := hM.period; linarith
      rw [e]
      linarith
  have p1 : ∀ J, b.wAt d q y J = b.wAt d q z J := fun J => by rw [hz]; exact h.wAt_periodic hk k z J (.inl hq)
  have p2 : b'.wAt d q y J = b'.wAt d q z J := by
    have := h'.wAt_periodic hk' k z (q := q) J (.inl (by rw [hM.order]; exact hq))
    rw [hM.period] at this
    rw [hz]; exact this
  rw [p1, p2]
  obtain ⟨i, hi, h1, h2⟩ := exists_between (f := fun i => b'.kn d (i + b.order)) (y := z) (N := n + 1) (by omega)
    (by simpa [← hM.order, ← hk'.fst] using hz1) (by rw [hk'.snd, hM.dims, hM.order] at hz2; exact hz2)
  set s := i + b.order with hsd
  rw [show i + 1 + b.order = s + 1 by omega] at h2
  rw [h'.wAt_closed hs' (fun _ => hk') (by rw [hM.order]; exact hq) (s := s) (by rw [hM.order]; omega) (by rw [hlast']; omega) (.inr h1) (.inr h2)]
  by_cases c : s + m < n + b.order
  · have e1 := hM.kn1 s (by omega) (by omega)
    have e2 := hM.kn1 (s + 1) (by omega) (by omega)
    rw [h.wAt_closed hs (fun _ => hk) hq (s := s + m) (by omega) (by omega) (.inr (by rw [← e1]; exact h1))
      (.inr (by rw [show s + m + 1 = s + 1 + m by omega, ← e2]; exact h2))]
    have := weight_translate (b₁ := b') (b₂ := b) (d := d) (n := n) (a := m) (s := s) (P := 0) hM.order.symm hk'.per hk.per hM.dims rfl
      (by rw [hM.order]; omega) (fun j a1 a2 => by rw [add_zero]; rw [hM.order] at a1 a2; exact (hM.kn1 j (by omega) (by omega)).symm) q z hJ
    rw [add_zero] at this
    exact this
  · have hs0 : s + m - n + (n - m) = s := by omega
    have e1 := hM.kn2 (s + m - n) (by omega) (by omega)
    have e2 := hM.kn2 (s + m - n + 1) (by omega) (by omega)
    rw [hs0] at e1
    rw [show s + m - n + 1 + (n - m) = s + 1 by omega] at e2
    have hJ' : (J + m) % n < n := Nat.mod_lt _ (by omega)
    have p3 := h.wAt_periodic hk (-1) z (q := q) ((J + m) % n) (.inl hq)
    have ez : z + ((-1 : ℤ) : K) * ((b.range d).2 - (b.range d).1) = z - P := by push_cast; ring
    rw [← p3, ez, h.wAt_closed hs (fun _ => hk) hq (s := s + m - n) (by omega) (by omega) (.inr (by linarith)) (.inr (by linarith))]
    have := weight_translate (b₁ := b) (b₂ := b') (d := d) (n := n) (a := n - m) (s := s + m - n) (P := P) hM.order hk.per hk'.per rfl hM.dims
      (by omega) (fun j a1 a2 => hM.kn2 j (by omega) (by omega)) q (z - P) hJ'
    rw [sub_add_cancel, hs0] at this
    rw [← this]
    congr 1
    rw [Nat.mod_add_mod, show J + m + (n - m) = J + n by omega, Nat.add_mod_right, Nat.mod_eq_of_lt hJ]

end BSpline

end Intp
