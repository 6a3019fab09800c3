import Verif.Proofs.Tensor
import Verif.Proofs.Affine

/-!
# Mirror image of an axis
-/

namespace Intp

open Finset Polynomial BSpline

variable {K V : Type} [Field K] [LinearOrder K]

/-- Pieces on mirrored knots. -/
theorem pieceP_mirror {t t' : ℕ → K} {β : K} {L s p : ℕ} (hp : p ≤ s) (hs : s + p + 2 ≤ L)
    (h : ∀ j, 1 ≤ j → j + 2 ≤ L → t' j = β - t (L - 1 - j)) :
    ∀ k i, k ≤ p → i + k + 2 ≤ L → (pieceP t' (L - 2 - s) k (L - 2 - k - i)).comp (C (-1) * X + C β) = pieceP t s k i
  | 0, i, _, hi => by
    simp only [pieceP]
    by_cases e : i = s
    · rw [if_pos e, if_pos (by omega)]; simp
    · rw [if_neg e, if_neg (by omega)]; simp
  | k + 1, i, hk, hi => by
    have ih0 := pieceP_mirror hp hs h k i (by omega) (by omega)
    have ih1 := pieceP_mirror hp hs h k (i + 1) (by omega) (by omega)
    obtain ⟨i', hi'⟩ : ∃ i', i' = L - 2 - (k + 1) - i := ⟨_, rfl⟩
    rw [show L - 2 - k - i = i' + 1 by omega] at ih0
    rw [show L - 2 - k - (i + 1) = i' by omega] at ih1
    rw [← hi']
    simp only [pieceP, add_comp, mul_comp, sub_comp, C_comp, X_comp, ih0, ih1]
    have e1 : C (t' (i' + k + 1) - t' i')⁻¹ * (C (-1) * X + C β - C (t' i')) * pieceP t s k (i + 1) =
        C (t (i + k + 2) - t (i + 1))⁻¹ * (C (t (i + k + 2)) - X) * pieceP t s k (i + 1) := by
      by_cases c : i + 1 ≤ s
      · rw [h i' (by omega) (by omega), h (i' + k + 1) (by omega) (by omega), show L - 1 - i' = i + k + 2 by omega,
          show L - 1 - (i' + k + 1) = i + 1 by omega, show β - t (i + 1) - (β - t (i + k + 2)) = t (i + k + 2) - t (i + 1) by ring]
        simp only [map_sub, map_neg, map_one]
        ring
      · rw [pieceP_zero_of_lt t s k (i + 1) (by omega), mul_zero, mul_zero]
    have e2 : C (t' (i' + k + 2) - t' (i' + 1))⁻¹ * (C (t' (i' + k + 2)) - (C (-1) * X + C β)) * pieceP t s k i =
        C (t (i + k + 1) - t i)⁻¹ * (X - C (t i)) * pieceP t s k i := by
      by_cases c : 1 ≤ i ∧ i ≤ s
      · rw [h (i' + 1) (by omega) (by omega), h (i' + k + 2) (by omega) (by omega), show L - 1 - (i' + 1) = i + k + 1 by omega,
          show L - 1 - (i' + k + 2) = i by omega, show β - t i - (β - t (i + k + 1)) = t (i + k + 1) - t i by ring]
        simp only [map_sub, map_neg, map_one]
        ring
      · by_cases hi0 : i = 0
        · subst hi0
          rw [pieceP_zero_of_gt t s k 0 (by omega), mul_zero, mul_zero]
        · rw [pieceP_zero_of_lt t s k i (by omega), mul_zero, mul_zero]
    rw [e1, e2, add_comm]

theorem pieceP_mirror_eval {t t' : ℕ → K} {β : K} {L s p : ℕ} (hp : p ≤ s) (hs : s + p + 2 ≤ L)
    (h : ∀ j, 1 ≤ j → j + 2 ≤ L → t' j = β - t (L - 1 - j)) {i : ℕ} (hi : i + p + 2 ≤ L) (m : ℕ) (y : K) :
    (derivative^[m] (pieceP t' (L - 2 - s) p (L - 2 - p - i))).eval (β - y) = (-1) ^ m * (derivative^[m] (pieceP t s p i)).eval y := by
  rw [← pieceP_mirror hp hs h p i le_rfl hi, iterate_derivative_comp_affine, eval_mul, eval_C, eval_comp, ← mul_assoc, ← mul_pow]
  simp
  congr 1
  ring

variable [IsStrictOrderedRing K] [FloorRing K] [AddCommGroup V] [Module K V] {D : ℕ}

namespace BSpline

variable {b b' : BSpline D K V}

/-- Weights may be computed in either of the segments that meet at a simple knot. -/
theorem WF.wSeg_closed (h : b.WF) {d : Fin D} (hs : b.Simple d) {q : ℕ} (hq : q < b.order) {s : ℕ} {z : K} (h1 : b.order ≤ s) (h2 : s ≤ b.last d)
    (h3 : s = b.order ∨ b.kn d s ≤ z) (h4 : s = b.last d ∨ z ≤ b.kn d (s + 1)) (J : ℕ) : b.wSeg d q z J = b.weight d s q z J := by
  unfold wSeg
  by_cases c : s = b.last d ∨ z < b.kn d (s + 1)
  · rw [h.segOf_eq ⟨h1, h2, h3, c⟩]
  · push Not at c
    have e : z = b.kn d (s + 1) := le_antisymm (h4.resolve_left c.1) c.2
    have hs1 := hs (s + 1) (by omega) (by omega)
    rw [h.segOf_eq (s := s + 1) ⟨by omega, by omega, .inr e.ge, .inr (e ▸ hs1)⟩, weight_eq_wP, weight_eq_wP, e]
    exact (h.wP_knot h1 (by omega) (hs s h1 h2) hs1 (fun j a c => by rw [show j = s + 1 by omega]) (by omega)).symm

theorem WF.wAt_closed (h : b.WF) {d : Fin D} (hs : b.Simple d) (hper : b.periodicity d = true → b.PerKnots d) {q : ℕ} (hq : q < b.order)
    {s : ℕ} {z : K} (h1 : b.order ≤ s) (h2 : s ≤ b.last d) (h3 : (b.periodicity d = false ∧ s = b.order) ∨ b.kn d s ≤ z)
    (h4 : (b.periodicity d = false ∧ s = b.last d) ∨ z ≤ b.kn d (s + 1)) (J : ℕ) : b.wAt d q z J = b.weight d s q z J := by
  cases hp : b.periodicity d with
  | false =>
    have : b.wrapOf d z = z := by unfold wrapOf; simp [hp]
    unfold wAt
    rw [this]
    exact h.wSeg_closed hs hq h1 h2 (h3.imp (·.2) id) (h4.imp (·.2) id) J
  | true =>
    have h3' : b.kn d s ≤ z := by simpa [hp] using h3
    have h4' : z ≤ b.kn d (s + 1) := by simpa [hp] using h4
    have hk := hper hp
    have hlt := (h.per d hp).2
    have hlen := hk.len
    have hll := h.last_lt d
    have hw : ∀ z, (b.range d).1 ≤ z → z < (b.range d).2 → b.wAt d q z J = b.wSeg d q z J := fun z a c => by
      unfold wAt
      rw [h.wrapOf_eq (w := z)]
      unfold IsWrap
      rw [if_pos hp]
      refine ⟨⟨0, by simp⟩, ?_⟩
      rw [if_neg (not_lt.2 a)]
      exact ⟨a, c⟩
    have hz1 : (b.range d).1 ≤ z := by
      rw [hk.fst]; exact (h.mono d _ _ (by omega) h1 (by omega)).trans h3'
    rcases lt_trichotomy z (b.range d).2 with c | c | c
    · rw [hw z hz1 c]
      exact h.wSeg_closed hs hq h1 h2 (.inr h3') (.inr h4') J
    · have e := h.wAt_periodic hk (-1) z (q := q) J (.inl hq)
      rw [← e, show z + ((-1 : ℤ) : K) * ((b.range d).2 - (b.range d).1) = (b.range d).1 by rw [c]; push_cast; ring, hw _ le_rfl hlt,
        ← h.seam hk (.inl hq), ← c]
      exact h.wSeg_closed hs hq h1 h2 (.inr h3') (.inr h4') J
    · have hsn : b.ctrl.dims d + b.order ≤ s := by
        by_contra hc
        have := h.mono d (s + 1) (b.ctrl.dims d + b.order) (by omega) (by omega) (by split at hlen <;> omega)
        rw [hk.snd] at c
        exact absurd (lt_of_lt_of_le c h4') (not_lt.2 this)
      have hlast : b.last d = (b.knots d).length - b.order - 2 := by unfold last; omega
      have hse : s = b.ctrl.dims d + b.order := by split at hlen <;> omega
      have hL : s + 1 < (b.knots d).length := by omega
      subst hse
      have e := h.wAt_periodic hk (-1) z (q := q) J (.inl hq)
      have e' : z + ((-1 : ℤ) : K) * ((b.range d).2 - (b.range d).1) = z - ((b.range d).2 - (b.range d).1) := by push_cast; ring
      have hsh := hk.shift (b.order + 1) (by omega) (by omega)
      rw [show b.order + 1 + b.ctrl.dims d = b.ctrl.dims d + b.order + 1 by omega] at hsh
      have hup : b.kn d (b.order + 1) ≤ (b.range d).2 := by
        rw [hk.snd]
        have := (h.per d hp).1
        exact h.mono d _ _ (by omega) (by omega) (by omega)
      by_cases cz : z - ((b.range d).2 - (b.range d).1) < (b.range d).2
      · rw [← e, e', hw _ (by linarith) cz, h.wSeg_closed hs hq le_rfl (h.last_ge d) (.inl rfl) (.inr (by linarith)) J, weight_eq_wP, weight_eq_wP,
          ← h.wP_shift hk]
        congr 1
        ring
      · have ez : z - ((b.range d).2 - (b.range d).1) = (b.range d).2 := by linarith
        have e2 := h.wAt_periodic hk (-2) z (q := q) J (.inl hq)
        rw [← e2, show z + ((-2 : ℤ) : K) * ((b.range d).2 - (b.range d).1) = (b.range d).1 by push_cast; linarith, hw _ le_rfl hlt,
          ← h.seam hk (.inl hq), h.wSeg_closed hs hq le_rfl (h.last_ge d) (.inl rfl) (.inr (by linarith)) J, weight_eq_wP, weight_eq_wP,
          ← h.wP_shift hk]
        congr 1
        linarith

/-- One dimension of two splines, with mirrored knots. -/
structure MirrorDim (b b' : BSpline D K V) (d : Fin D) (β : K) : Prop where
  order : b'.order = b.order
  per : b'.periodicity d = b.periodicity d
  dims : b'.ctrl.dims d = b.ctrl.dims d
  len : (b'.knots d).length = (b.knots d).length
  kn : ∀ j, 1 ≤ j → j + 2 ≤ (b.knots d).length → b'.kn d j = β - b.kn d ((b.knots d).length - 1 - j)

/-- The control point that takes the place of control point `J`. -/
def mirrorIx (b : BSpline D K V) (d : Fin D) (J : ℕ) : ℕ := b.ctrlOf d (b.last d - J)

theorem WF.ctrlOf_mirror (h : b.WF) {d : Fin D} (hper : b.periodicity d = true → b.PerKnots d) {i J : ℕ} (hi : i ≤ b.last d) (hJ : J < b.ctrl.dims d) :
    b.ctrlOf d (b.last d - i) = b.mirrorIx d J ↔ b.ctrlOf d i = J := by
  have hll := h.last_lt d
  have hlast : b.last d = (b.knots d).length - b.order - 2 := by unfold last; omega
  unfold mirrorIx ctrlOf
  cases hp : b.periodicity d with
  | false =>
    have := h.aper d hp
    simp only [Bool.false_eq_true, if_false]
    omega
  | true =>
    have hlen := (hper hp).len
    have hn := (h.per d hp).1
    have hl : b.ctrl.dims d - 1 ≤ b.last d := by split at hlen <;> omega
    simp only [if_true]
    have key : (b.last d - i) % b.ctrl.dims d = (b.last d - J) % b.ctrl.dims d ↔ i % b.ctrl.dims d = J % b.ctrl.dims d := by
      change Nat.ModEq _ _ _ ↔ Nat.ModEq _ _ _
      constructor
      · intro hc
        have h1 := (hc.add_right (i + J))
        rw [show b.last d - i + (i + J) = b.last d + J by omega, show b.last d - J + (i + J) = b.last d + i by omega] at h1
        exact (Nat.ModEq.add_left_cancel' _ h1).symm
      · intro hc
        have h1 : Nat.ModEq (b.ctrl.dims d) (b.last d - i + (i + J)) (b.last d - J + (i + J)) := by
          rw [show b.last d - i + (i + J) = b.last d + J by omega, show b.last d - J + (i + J) = b.last d + i by omega]
          exact (hc.symm).add_left _
        exact Nat.ModEq.add_right_cancel' _ h1
    rw [key, Nat.mod_eq_of_lt hJ]

omit [IsStrictOrderedRing K] [FloorRing K] [AddCommGroup V] [Module K V] in
theorem weight_last (b : BSpline D K V) {d : Fin D} {s : ℕ} (hs : s ≤ b.last d) (m : ℕ) (x : K) (J : ℕ) :
    b.weight d s m x J = ∑ i ∈ Finset.range (b.last d + 1), if b.ctrlOf d i = J then (derivative^[m] (pieceP (b.kn d) s b.order i)).eval x else 0 := by
  unfold weight
  rw [sum_filter]
  refine Finset.sum_subset (fun i hi => ?_) fun i hi hi' => ?_
  · rw [mem_range] at *; omega
  · rw [mem_range] at *
    rw [pieceP_zero_of_lt _ _ _ _ (by omega)]; simp

theorem MirrorDim.weight {d : Fin D} {β : K} (hM : MirrorDim b b' d β) (h : b.WF) (hper : b.periodicity d = true → b.PerKnots d) {s : ℕ}
    (h1 : b.order ≤ s) (h2 : s ≤ b.last d) (m : ℕ) (z : K) {J : ℕ} (hJ : J < b.ctrl.dims d) :
    b'.weight d (b.last d + b.order - s) m (β - z) (b.mirrorIx d J) = (-1) ^ m * b.weight d s m z J := by
  have hlast : b.last d = (b.knots d).length - b.order - 2 := by unfold last; omega
  have hlast' : b'.last d = b.last d := by rw [hlast]; unfold last; rw [hM.order, hM.len]
  have hll := h.last_lt d
  have hlg := h.last_ge d
  rw [weight_last _ h2, weight_last _ (by omega), mul_sum, hlast', ← sum_range_reflect]
  refine sum_congr rfl fun i hi => ?_
  rw [mem_range] at hi
  have hco : b'.ctrlOf d = b.ctrlOf d := by unfold ctrlOf; rw [hM.per, hM.dims]
  rw [show b.last d + 1 - 1 - i = b.last d - i by omega, hco]
  by_cases c : b.ctrlOf d i = J
  · rw [if_pos c, if_pos ((h.ctrlOf_mirror hper (by omega) hJ).2 c), hM.order]
    have := pieceP_mirror_eval (t := b.kn d) (t' := b'.kn d) (β := β) (L := (b.knots d).length) (s := s) (p := b.order) h1 (by omega) hM.kn
      (i := i) (by omega) m z
    rw [← this]
    rw [show (b.knots d).length - 2 - s = b.last d + b.order - s by omega, show (b.knots d).length - 2 - b.order - i = b.last d - i by omega]
  · rw [if_neg c, if_neg (fun hc => c ((h.ctrlOf_mirror hper (by omega) hJ).1 hc)), mul_zero]

theorem MirrorDim.wAt {d : Fin D} {β : K} (hM : MirrorDim b b' d β) (h : b.WF) (h' : b'.WF) (hs : b.Simple d) (hs' : b'.Simple d)
    (hper : b.periodicity d = true → b.PerKnots d) (hper' : b'.periodicity d = true → b'.PerKnots d) {q : ℕ} (hq : q < b.order)
    (y : K) {J : ℕ} (hJ : J < b.ctrl.dims d) : b'.wAt d q (β - y) (b.mirrorIx d J) = (-1) ^ q * b.wAt d q y J := by
  have hlast : b.last d = (b.knots d).length - b.order - 2 := by unfold last; omega
  have hlast' : b'.last d = b.last d := by rw [hlast]; unfold last; rw [hM.order, hM.len]
  have hll := h.last_lt d
  have hlg := h.last_ge d
  have main : ∀ w s, b.order ≤ s → s ≤ b.last d → ((b.periodicity d = false ∧ s = b.order) ∨ b.kn d s ≤ w) →
      ((b.periodicity d = false ∧ s = b.last d) ∨ w ≤ b.kn d (s + 1)) → b'.wAt d q (β - w) (b.mirrorIx d J) = (-1) ^ q * b.wAt d q w J := by
    intro w s h1 h2 h3 h4
    have k1 := hM.kn (b.last d + b.order - s) (by omega) (by omega)
    have k2 := hM.kn (b.last d + b.order - s + 1) (by omega) (by omega)
    rw [show (b.knots d).length - 1 - (b.last d + b.order - s) = s + 1 by omega] at k1
    rw [show (b.knots d).length - 1 - (b.last d + b.order - s + 1) = s by omega] at k2
    rw [h.wAt_closed hs hper hq h1 h2 h3 h4, ← hM.weight h hper h1 h2 q w hJ]
    refine h'.wAt_closed hs' hper' (by rw [hM.order]; exact hq) (by rw [hM.order]; omega) (by omega) ?_ ?_ _
    · rw [hM.per, hM.order, k1]
      rcases h4 with h4 | h4
      · exact .inl ⟨h4.1, by omega⟩
      · exact .inr (by linarith)
    · rw [hM.per, k2]
      rcases h3 with h3 | h3
      · exact .inl ⟨h3.1, by omega⟩
      · exact .inr (by linarith)
  cases hp : b.periodicity d with
  | false =>
    obtain ⟨a1, a2, a3, a4⟩ := h.isSeg_segOf d y
    exact main y _ a1 a2 (a3.imp (fun e => ⟨hp, e⟩) id) (a4.imp (fun e => ⟨hp, e⟩) le_of_lt)
  | true =>
    have hk := hper hp
    have hk' := hper' (by rw [hM.per]; exact hp)
    have hlen := hk.len
    have hw := h.isWrap_wrapOf d y
    unfold IsWrap at hw
    rw [if_pos hp] at hw
    obtain ⟨⟨k, hk1⟩, hw⟩ := hw
    set w := b.wrapOf d y
    have hw1 : (b.range d).1 ≤ w := by
      split at hw
      · exact hw.1.le
      · exact hw.1
    have hw2 : w ≤ (b.range d).2 := by
      split at hw
      · exact hw.2
      · exact hw.2.le
    have hP : (b'.range d).2 - (b'.range d).1 = (b.range d).2 - (b.range d).1 := by
      have e1 := hk'.shift 1 le_rfl (by rw [hM.len, hM.dims]; split at hlen <;> omega)
      have e2 := hk.shift ((b.knots d).length - 2 - b.ctrl.dims d) (by split at hlen <;> omega) (by omega)
      rw [hM.dims] at e1
      rw [hM.kn _ (by omega) (by split at hlen <;> omega), hM.kn _ (by omega) (by omega)] at e1
      rw [show (b.knots d).length - 2 - b.ctrl.dims d + b.ctrl.dims d = (b.knots d).length - 1 - 1 by split at hlen <;> omega] at e2
      rw [show (b.knots d).length - 1 - (1 + b.ctrl.dims d) = (b.knots d).length - 2 - b.ctrl.dims d by omega] at e1
      linarith
    have p1 : b.wAt d q w J = b.wAt d q y J := by rw [hk1]; exact h.wAt_periodic hk k y J (.inl hq)
    have p2 : b'.wAt d q (β - w) (b.mirrorIx d J) = b'.wAt d q (β - y) (b.mirrorIx d J) := by
      have := h'.wAt_periodic hk' (-k) (β - y) (q := q) (b.mirrorIx d J) (by rw [hM.order]; exact .inl hq)
      rw [← this, hP, hk1]
      congr 1
      push_cast
      ring
    rw [← p1, ← p2]
    obtain ⟨a1, a2, a3, a4⟩ := h.isSeg_segOf d w
    refine main w _ a1 a2 (.inr ?_) (.inr ?_)
    · rcases a3 with a3 | a3
      · rw [a3, ← hk.fst]; exact hw1
      · exact a3
    · rcases a4 with a4 | a4
      · rw [a4]
        refine hw2.trans ?_
        rw [hk.snd]
        exact h.mono d _ _ (by omega) (by split at hlen <;> omega) (by omega)
      · exact a4.le

end BSpline

omit [FloorRing K] in
/-- Periodic knots are mirrored if those of one period are. -/
theorem mirror_of_period {t t' : ℕ → K} {β P : K} {L n a : ℕ} (hn : 0 < n) (ht : ∀ i, 1 ≤ i → i + n < L → t (i + n) = t i + P)
    (ht' : ∀ i, 1 ≤ i → i + n < L → t' (i + n) = t' i + P) (ha1 : 1 ≤ a) (ha2 : a + n + 1 ≤ L)
    (h : ∀ j, a ≤ j → j < a + n → t' j = β - t (L - 1 - j)) :
    ∀ j, 1 ≤ j → j + 2 ≤ L → t' j = β - t (L - 1 - j) := by
  have up : ∀ j, a ≤ j → j + 2 ≤ L → t' j = β - t (L - 1 - j) := by
    intro j
    induction j using Nat.strong_induction_on with
    | _ j ih =>
      intro h1 h2
      by_cases c : j < a + n
      · exact h j h1 c
      · have e1 := ht' (j - n) (by omega) (by omega)
        have e2 := ht (L - 1 - j) (by omega) (by omega)
        rw [show j - n + n = j by omega, ih (j - n) (by omega) (by omega) (by omega)] at e1
        rw [show L - 1 - j + n = L - 1 - (j - n) by omega] at e2
        linarith
  intro j
  induction hk : L - j using Nat.strong_induction_on generalizing j with
  | _ k ih =>
    intro h1 h2
    by_cases c : a ≤ j
    · exact up j c h2
    · have e1 := ht' j h1 (by omega)
      have e2 := ht (L - 1 - (j + n)) (by omega) (by omega)
      rw [ih _ (by omega) (j + n) rfl (by omega) (by omega)] at e1
      rw [show L - 1 - (j + n) + n = L - 1 - j by omega] at e2
      linarith

/-- Mirrored data coordinates give mirrored knots. -/
theorem XRange.Valid.knots_mirror {o N : ℕ} {per : Bool} {x x' : XRange K} (h : x.Valid o N per) (h' : x'.Valid o N per) (ho : 1 ≤ o) {β : K}
    (hX : ∀ i, i < N → x'.node N i = β - x.node N (N - 1 - i)) :
    ∀ j, 1 ≤ j → j + 2 ≤ (x.knots o (unk per N) per).length →
      knotFn (x'.knots o (unk per N) per) j = β - knotFn (x.knots o (unk per N) per) ((x.knots o (unk per N) per).length - 1 - j) := by
  have hl : (x'.knots o (unk per N) per).length = (x.knots o (unk per N) per).length := h'.knots_length.trans h.knots_length.symm
  have hlen := h.knots_length
  cases hp : per with
  | true =>
    subst hp
    have h2 := h.periodic rfl
    have ax := h.pAxis
    have ax' := h'.pAxis
    have hN : unk true N = N - 1 := rfl
    have al := ax.len
    have hP : x'.node N (unk true N) - x'.node N 0 = x.node N (unk true N) - x.node N 0 := by
      rw [hX _ (by omega), hX 0 (by omega), show N - 1 - unk true N = 0 by omega, show N - 1 - 0 = unk true N by omega]; ring
    rcases Nat.mod_two_eq_zero_or_one o with he | he
    · refine mirror_of_period (n := unk true N) (a := o + 1) (by omega) (fun i a c => ax.shift i (.inl a) c)
        (fun i a c => hP ▸ ax'.shift i (.inl a) (by rw [hl]; exact c)) (by omega) (by omega) fun j h3 h4 => ?_
      rw [h'.knots_per (by omega) (by omega), h.knots_per (by omega) (by omega), cpKnot_mid (by omega) (by omega), cpKnot_mid (by omega) (by omega),
        cpMid_eq (by omega) (by omega), cpMid_eq (by omega) (by omega), if_pos he, if_pos he, hX _ (by omega), hX _ (by omega),
        show N - 1 - (j - o - 1) = (x.knots o (unk true N) true).length - 1 - j - o by omega,
        show N - 1 - (j - o) = (x.knots o (unk true N) true).length - 1 - j - o - 1 by omega]
      ring
    · refine mirror_of_period (n := unk true N) (a := o) (by omega) (fun i a c => ax.shift i (.inl a) c)
        (fun i a c => hP ▸ ax'.shift i (.inl a) (by rw [hl]; exact c)) (by omega) (by omega) fun j h3 h4 => ?_
      have e := ax'.odd he (j - o) (by omega)
      rw [show j - o + o = j by omega] at e
      rw [← e, hX _ (by omega)]
      by_cases c : j = o
      · rw [c]
        have e2 := ax.shift o (.inl ho) (by omega)
        have e3 := ax.odd he 0 (by omega)
        rw [show 0 + o = o by omega] at e3
        rw [show (x.knots o (unk true N) true).length - 1 - o = o + unk true N by omega, e2, ← e3, show N - 1 - (o - o) = unk true N by omega]
        ring
      · have e2 := ax.odd he (N - 1 - (j - o)) (by omega)
        rw [e2, show N - 1 - (j - o) + o = (x.knots o (unk true N) true).length - 1 - j by omega]
  | false =>
    subst hp
    have h2 := h.aperiodic rfl
    have hN : unk false N = N := rfl
    rw [if_neg (by simp), hN] at hlen
    intro j hj1 hj2
    have hj : j < (x.knots o (unk false N) false).length := by omega
    rw [h'.knots_aper ho (by omega), h.knots_aper ho (by omega)]
    have ho' : (o : K) ≠ 0 := by exact_mod_cast (by omega : o ≠ 0)
    rw [hN] at hj ⊢
    have hL : (x.knots o N false).length = N + (o + 1) := hlen
    rw [hL] at hj ⊢
    by_cases c1 : j ≤ o
    · rw [caKnot_low c1, caKnot_high (by omega) (by omega), hX 0 (by omega)]
      rfl
    · by_cases c2 : j < N
      · rw [caKnot_mid (by omega) c2, caKnot_mid (by omega) (by omega), sum_congr rfl fun i hi => hX i (by have := mem_Ico.1 hi; omega), sum_sub_distrib,
          sub_div]
        have hs : ∑ i ∈ Ico (j - o) (j - o + o), x.node N (N - 1 - i) =
            ∑ i ∈ Ico (N + (o + 1) - 1 - j - o) (N + (o + 1) - 1 - j - o + o), x.node N i := by
          rw [sum_Ico_eq_sum_range, sum_Ico_eq_sum_range, ← sum_range_reflect]
          refine sum_congr (by congr 1; omega) fun i hi => ?_
          rw [mem_range] at hi
          congr 1
          omega
        rw [hs]
        simp [ho']
      · rw [caKnot_high (by omega) (by omega), caKnot_low (by omega), hX _ (by omega)]
        congr 2
        omega

omit [LinearOrder K] [IsStrictOrderedRing K] [FloorRing K] in
/-- Control points renumbered in one dimension. -/
theorem tensorVal_renumber (d : Fin (D + 1)) (dims : Fin (D + 1) → ℕ) (w : Fin (D + 1) → ℕ → K) (C : (Fin (D + 1) → ℕ) → V) {σ : ℕ → ℕ}
    (h1 : ∀ j, j < dims d → σ j < dims d) (h2 : ∀ j, j < dims d → σ (σ j) = j) :
    tensorVal dims w (fun J => C (Function.update J d (σ (J d)))) = tensorVal dims (Function.update w d fun j => w d (σ j)) C := by
  rw [tensorVal_insert d, tensorVal_insert d]
  refine sum_nbij' σ σ ?_ ?_ ?_ ?_ ?_
  · intro j hj; rw [mem_range] at *; exact h1 j hj
  · intro j hj; rw [mem_range] at *; exact h1 j hj
  · intro j hj; exact h2 j (mem_range.1 hj)
  · intro j hj; exact h2 j (mem_range.1 hj)
  · intro j hj
    simp [h2 j (mem_range.1 hj)]

end Intp
