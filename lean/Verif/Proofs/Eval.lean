import Verif.Spec.Spline
import Verif.Proofs.Line
import Mathlib.Algebra.BigOperators.Fin

/-! # `operator()` computes the tensor-product sum -/

namespace Intp

open Finset Polynomial

theorem loop_sum {V : Type} [AddCommGroup V] {n : ℕ} {f : ℕ → V → M V} {g : ℕ → V} (h : ∀ i, i < n → ∀ v, f i v = .ok (v + g i)) (v0 : V) :
    loop 0 n v0 f = .ok (v0 + ∑ i ∈ range n, g i) := by
  apply Ok.eq
  refine Spec.loop (P := fun i v => v = v0 + ∑ i ∈ range i, g i) (Nat.zero_le _) (by simp) ?_
  intro i v _ hi hv
  rw [h i hi, hv]
  refine Spec.ok ?_
  rw [sum_range_succ, add_assoc]

variable {K V : Type} [Field K] {D : ℕ}

/-- The coefficient/index fold of the evaluation loops. -/
theorem fold_coef {E : Fin D → M K} {I : Fin D → M ℕ} {e : Fin D → K} {ind : Fin D → ℕ}
    (hE : ∀ d, E d = .ok (e d)) (hI : ∀ d, I d = .ok (ind d)) (a0 : Fin D → ℕ) :
    (List.finRange D).foldlM (fun (acc : K × (Fin D → ℕ)) d => do
      let x ← E d
      let k ← I d
      pure (acc.1 * x, Function.update acc.2 d k)) ((1 : K), a0) = (.ok (∏ d, e d, ind) : M _) := by
  have key : ∀ (l : List (Fin D)) (c : K) (a : Fin D → ℕ), l.foldlM (fun (acc : K × (Fin D → ℕ)) d => do
      let x ← E d
      let k ← I d
      pure (acc.1 * x, Function.update acc.2 d k)) (c, a) =
        (.ok (c * (l.map e).prod, fun d => if d ∈ l then ind d else a d) : M _) := by
    intro l
    induction l with
    | nil => intro c a; simp [pure_eq_ok]
    | cons d l ih =>
      intro c a
      rw [List.foldlM_cons]
      simp only [hE, hI, ok_bind, pure_eq_ok]
      simp only [hE, hI, ok_bind, pure_eq_ok] at ih
      rw [ih]
      congr 2
      · simp [mul_assoc]
      · funext d'
        by_cases h1 : d' ∈ l
        · simp [h1]
        · by_cases h2 : d' = d
          · subst h2; simp
          · simp [h1, h2]
  rw [key]
  congr 2
  · rw [one_mul, ← List.ofFn_eq_map, List.prod_ofFn]
  · funext d; simp

variable [LinearOrder K] [IsStrictOrderedRing K] [FloorRing K] [AddCommGroup V] [Module K V]

namespace BSpline

variable {b : BSpline D K V}

theorem WF.last_ge (h : b.WF) (d : Fin D) : b.order ≤ b.last d := by have := h.len d; unfold last; omega
theorem WF.last_lt (h : b.WF) (d : Fin D) : b.last d + b.order + 1 < (b.knots d).length := by
  have := h.len d; unfold last; omega

theorem WF.kmono (h : b.WF) (d : Fin D) : KMono (b.knots d) := h.mono d

/-- Every coordinate has a wrapped coordinate. -/
theorem WF.exists_wrap (h : b.WF) (d : Fin D) (x : K) : ∃ w, b.IsWrap d x w := by
  unfold IsWrap
  by_cases hp : b.periodicity d = true
  · simp only [hp, if_true]
    exact ⟨wrapFn (b.range d) x, wrapFn_shift _ _, wrapFn_mem (h.per d hp).2 x⟩
  · simp only [hp]; exact ⟨x, rfl⟩

/-- Wrapped coordinates are unique. -/
theorem WF.wrap_unique (h : b.WF) {d : Fin D} {x w w' : K} (hw : b.IsWrap d x w) (hw' : b.IsWrap d x w') : w = w' := by
  unfold IsWrap at hw hw'
  by_cases hp : b.periodicity d = true
  · simp only [hp, if_true] at hw hw'
    have hlt := (h.per d hp).2
    obtain ⟨⟨k, hk⟩, h1⟩ := hw
    obtain ⟨⟨k', hk'⟩, h1'⟩ := hw'
    set r := b.range d
    have hP : 0 < r.2 - r.1 := sub_pos.2 hlt
    have hd : w - w' = ((k - k' : ℤ) : K) * (r.2 - r.1) := by rw [hk, hk']; push_cast; ring
    have hb : -(r.2 - r.1) < w - w' ∧ w - w' < r.2 - r.1 := by
      split at h1
      · rename_i hx; rw [if_pos hx] at h1'; constructor <;> linarith [h1.1, h1.2, h1'.1, h1'.2]
      · rename_i hx; rw [if_neg hx] at h1'; constructor <;> linarith [h1.1, h1.2, h1'.1, h1'.2]
    rw [hd] at hb
    have h2 : (-1 : K) < ((k - k' : ℤ) : K) := by
      by_contra hc; have := not_lt.1 hc; nlinarith [hb.1]
    have h3 : ((k - k' : ℤ) : K) < 1 := by
      by_contra hc; have := not_lt.1 hc; nlinarith [hb.2]
    have h4 : (-1 : ℤ) < k - k' := by exact_mod_cast h2
    have h5 : k - k' < (1 : ℤ) := by exact_mod_cast h3
    have : k = k' := by omega
    rw [hk, hk', this]
  · simp only [hp] at hw hw'
    exact (by simpa using hw : w = x).trans (by simpa using hw' : w' = x).symm

theorem WF.wrapCoord_eq (h : b.WF) {d : Fin D} {x w : K} (hw : b.IsWrap d x w) :
    (if b.periodicity d then wrapCoord (b.range d) x else pure x : M K) = .ok w := by
  by_cases hp : b.periodicity d = true
  · rw [if_pos hp, wrapCoord_ok (h.per d hp).2]
    congr 1
    refine h.wrap_unique (d := d) (x := x) ?_ hw
    unfold IsWrap
    rw [if_pos hp]
    exact ⟨wrapFn_shift _ _, wrapFn_mem (h.per d hp).2 x⟩
  · rw [if_neg hp]
    unfold IsWrap at hw
    rw [if_neg hp] at hw
    rw [hw]; rfl

/-- A point resolved into wrapped coordinates and segments, for hints that are valid. -/
structure At (b : BSpline D K V) (x : Fin D → K) (w : Fin D → K) (s : Fin D → ℕ) : Prop where
  wrap : ∀ d, b.IsWrap d (x d) (w d)
  seg : ∀ d, IsSeg (b.kn d) b.order (b.last d) (w d) (s d)

theorem WF.exists_at (h : b.WF) (x : Fin D → K) : ∃ w s, b.At x w s := by
  choose w hw using fun d => h.exists_wrap d (x d)
  choose s hs using fun d => exists_isSeg (h.kmono d) (w d) (h.last_ge d) (by have := h.last_lt d; omega)
  exact ⟨w, s, hw, hs⟩

theorem WF.getKnotIter'_eq (h : b.WF) {d : Fin D} {x w : K} {s hint : ℕ} (hw : b.IsWrap d x w)
    (hs : IsSeg (b.kn d) b.order (b.last d) w s) (hh : ValidHint (b.knots d) b.order (b.last d) w hint) :
    b.getKnotIter' d x hint = .ok (w, s) := by
  have h1 := h.len d
  unfold getKnotIter' getKnotIter
  rw [subM_ok (by omega), ok_bind, subM_ok (by omega), ok_bind]
  have hl : (b.knots d).length - b.order - 2 = b.last d := rfl
  rw [hl, itAdd_ok (r := hint) (by omega) (by have := hh.1; omega), ok_bind]
  have e := h.wrapCoord_eq hw
  by_cases hp : b.periodicity d = true
  · rw [if_pos hp] at e
    simp only [hp, if_true, e, ok_bind]
    rw [findSegment_eq (h.kmono d) (by have := h.last_lt d; omega) hh hs]; rfl
  · rw [if_neg hp] at e
    simp only [hp] at e ⊢
    have : x = w := by simpa [pure_eq_ok] using e
    subst this
    simp only [ok_bind, pure_eq_ok]
    rw [findSegment_eq (h.kmono d) (by have := h.last_lt d; omega) hh hs]; rfl

theorem WF.ctrlIndex_eq (h : b.WF) {d : Fin D} {s a : ℕ} (h1 : b.order ≤ s) (h2 : s ≤ b.last d) :
    b.ctrlIndex d s a = .ok (b.ctrlOf d (s - b.order + a)) := by
  have h3 := h.last_lt d
  unfold ctrlIndex
  have : b.ctrlShift d s = .ok (s - b.order) := by
    unfold ctrlShift
    by_cases h0 : s = 0
    · rw [if_pos h0]; simp [pure_eq_ok, h0]
    · rw [if_neg h0, if_neg (by omega), subM_ok h1]
  rw [this, ok_bind]
  unfold ctrlOf
  by_cases hp : b.periodicity d = true
  · rw [if_pos hp, if_pos hp, modM_ok (by have := (h.per d hp).1; omega), add_comm]
  · rw [if_neg hp, if_neg hp, add_comm]; rfl

theorem WF.ctrlOf_lt (h : b.WF) {d : Fin D} {i : ℕ} (hi : i ≤ b.last d) : b.ctrlOf d i < b.ctrl.dims d := by
  unfold ctrlOf
  by_cases hp : b.periodicity d = true
  · rw [if_pos hp]; exact Nat.mod_lt _ (h.per d hp).1
  · rw [if_neg hp]
    have h1 := h.aper d (by simpa using hp)
    have h2 := h.last_lt d
    have h3 := h.len d
    unfold last at *
    omega

/-- Sum over local indices as weight of a control point. -/
theorem WF.weight_eq (b : BSpline D K V) (d : Fin D) {s m : ℕ} (h1 : b.order ≤ s) (x : K) (J : ℕ) :
    ∑ a ∈ (Finset.range (b.order + 1)).filter (fun a => b.ctrlOf d (s - b.order + a) = J),
      (derivative^[m] (pieceP (b.kn d) s b.order (s - b.order + a))).eval x = b.weight d s m x J := by
  unfold weight
  rw [sum_filter, sum_filter]
  refine sum_local (f := fun i => if b.ctrlOf d i = J then (derivative^[m] (pieceP (b.kn d) s b.order i)).eval x else 0) h1 ?_
  intro i hi
  split
  · rw [pieceP_zero_of_gt _ _ _ _ hi]; simp
  · rfl

/-- From local sums to weights of control points. -/
theorem WF.local_sum (h : b.WF) {x w : Fin D → K} {s : Fin D → ℕ} (hat : b.At x w s) (m : Fin D → ℕ) (C : (Fin D → ℕ) → V) :
    ∑ a ∈ box (fun _ : Fin D => b.order + 1),
      (∏ d, (derivative^[m d] (pieceP (b.kn d) (s d) b.order (s d - b.order + a d))).eval (w d)) •
        C (fun d => b.ctrlOf d (s d - b.order + a d)) =
      tensorVal b.ctrl.dims (fun d => b.weight d (s d) (m d) (w d)) C := by
  have := tensor_push (m := fun _ : Fin D => b.order + 1) (n := b.ctrl.dims)
    (fun d a => (derivative^[m d] (pieceP (b.kn d) (s d) b.order (s d - b.order + a))).eval (w d))
    (fun d a => b.ctrlOf d (s d - b.order + a))
    (fun d a ha => h.ctrlOf_lt (by have := (hat.seg d).1; have := (hat.seg d).2.1; omega)) C
  rw [this]
  unfold tensorVal
  refine sum_congr rfl fun J _ => ?_
  congr 1
  refine prod_congr rfl fun d _ => ?_
  exact WF.weight_eq b d (hat.seg d).1 (w d) (J d)

theorem WF.seg_nondeg (h : b.WF) {x w : Fin D → K} {s : Fin D → ℕ} (hat : b.At x w s) (d : Fin D) :
    Nondeg (b.kn d) (s d) b.order := by
  have h1 := (hat.seg d).2.1
  have h2 := h.last_lt d
  exact nondeg_of_mono (h.kmono d) (IsSeg.nondeg (h.kmono d) (by omega) (h.first d) (h.lastSeg d) (hat.seg d)) (hat.seg d).1 (by omega)

/-- `operator()`. -/
theorem WF.eval_eq (h : b.WF) {x : Fin D → K × ℕ} {w : Fin D → K} {s : Fin D → ℕ} (hat : b.At (fun d => (x d).1) w s)
    (hh : ∀ d, ValidHint (b.knots d) b.order (b.last d) (w d) (x d).2) {C : (Fin D → ℕ) → V}
    (hC : b.ctrl.Holds b.ctrl.dims C) :
    b.eval x = .ok (tensorVal b.ctrl.dims (fun d => b.weight d (s d) 0 (w d)) C) := by
  unfold eval
  rw [tabM_ok (g := fun d => (w d, s d)) (fun d => h.getKnotIter'_eq (hat.wrap d) (hat.seg d) (hh d)), ok_bind]
  rw [tabM_ok (g := fun d => arr (b.order + 1) fun a => piece (b.kn d) (s d) b.order (s d - b.order + a) (w d)) ?_, ok_bind]
  · rw [loop_sum (g := fun i => (∏ d, piece (b.kn d) (s d) b.order (s d - b.order + decode (fun _ : Fin D => b.order + 1) i d) (w d)) •
      C (fun d => b.ctrlOf d (s d - b.order + decode (fun _ : Fin D => b.order + 1) i d)))]
    · congr 1
      rw [zero_add, ← h.local_sum hat (fun _ => 0) C]
      have e : (b.order + 1) ^ D = ∏ _d : Fin D, (b.order + 1) := by simp
      rw [e, sum_decode (fun _ : Fin D => b.order + 1) (fun a => (∏ d, piece (b.kn d) (s d) b.order (s d - b.order + a d) (w d)) •
        C (fun d => b.ctrlOf d (s d - b.order + a d)))]
      refine sum_congr rfl fun a _ => ?_
      congr 1
      refine prod_congr rfl fun d _ => ?_
      simp [pieceP_eval]
    · intro i _ v
      have hlt : ∀ d : Fin D, decode (fun _ : Fin D => b.order + 1) i d < b.order + 1 :=
        fun d => decode_inRange (dims := fun _ : Fin D => b.order + 1) (fun _ => Nat.succ_pos _) d
      unfold evalBody
      rw [dimwiseIndices_ok (dims := fun _ : Fin D => b.order + 1) (fun _ => Nat.succ_pos _), ok_bind]
      rw [fold_coef (fun d => rd_arr _ (hlt d)) (fun d => h.ctrlIndex_eq (hat.seg d).1 (hat.seg d).2.1), ok_bind]
      simp only
      rw [hC.get, ok_bind]
      · rfl
      · intro d
        exact h.ctrlOf_lt (by have := (hat.seg d).1; have := (hat.seg d).2.1; have := hlt d; omega)
  · intro d
    have h1 := (hat.seg d).2.1
    have h2 := h.last_lt d
    exact baseSplineValue_ok (hat.seg d).1 (by simp only; omega) (h.seg_nondeg hat d) le_rfl

end BSpline
end Intp
