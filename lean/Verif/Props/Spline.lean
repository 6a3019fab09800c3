import Verif.Proofs.Analysis
import Mathlib.Analysis.Calculus.ContDiff.Basic
import Mathlib.Analysis.Calculus.ContDiff.Operations
import Mathlib.Analysis.Calculus.IteratedDeriv.Defs
import Mathlib.Analysis.Convex.Combination
import Mathlib.Data.Rat.Floor
import Mathlib.Tactic.IntervalCases

/-!
# Properties of spline evaluation (C18-C26)

`b.WF` says the spline object is usable: sorted knots, non-degenerate first and last segment, matching sizes (Spec/Spline.lean).
`b.ctrl.Holds b.ctrl.dims C` says that the control point at multi-index `J` is `C J`.  `ValidHint` is what C17 calls a valid hint.
-/

namespace Intp

open Finset Polynomial

section Field

variable {K V : Type} [Field K] [LinearOrder K] [IsStrictOrderedRing K] [FloorRing K] [AddCommGroup V] [Module K V] {D : ℕ}

namespace BSpline

variable {b : BSpline D K V}

/-- Basis functions of the specification on the segment found by the search. -/
theorem WF.coxC_eq_piece (h : b.WF) {d : Fin D} {w : K} {s : ℕ} (hs : IsSeg (b.kn d) b.order (b.last d) w s)
    (h1 : b.kn d b.order ≤ w) (h2 : w ≤ b.kn d (b.last d + 1)) :
    ∀ k i, i + k + 1 < (b.knots d).length → coxC (b.kn d (b.last d + 1)) (b.kn d) k i w = piece (b.kn d) s k i w
  | 0, i, hi => by
    obtain ⟨a1, a2, a3, a4⟩ := hs
    have hl := h.last_lt d
    have h3 : b.kn d s ≤ w := by rcases a3 with rfl | h3; exacts [h1, h3]
    simp only [coxC, piece]
    congr 1
    rw [eq_iff_iff]
    by_cases hT : w = b.kn d (b.last d + 1)
    · have hsl : s = b.last d := by
        rcases a4 with h4 | h4
        · exact h4
        · exact absurd (lt_of_lt_of_le h4 (h.mono d (s + 1) (b.last d + 1) (by omega) (by omega) (by omega))) (by rw [hT]; exact lt_irrefl _)
      rw [if_pos hT]
      constructor
      · rintro ⟨c1, c2⟩
        by_contra hne
        rcases Nat.lt_or_gt_of_ne hne with hlt | hlt
        · have := h.mono d (i + 1) s (by omega) hlt (by omega)
          have h5 := h.lastSeg d
          rw [← hsl] at h5 hT
          exact absurd (lt_of_lt_of_le h5 (hT ▸ c2.trans this)) (lt_irrefl _)
        · have := h.mono d (s + 1) i (by omega) hlt (by omega)
          rw [hsl, ← hT] at this
          exact absurd (lt_of_le_of_lt this c1) (lt_irrefl _)
      · rintro rfl
        rw [hsl, hT]
        exact ⟨h.lastSeg d, le_rfl⟩
    · rw [if_neg hT]
      have h4 : w < b.kn d (s + 1) := by
        rcases a4 with rfl | h4
        · exact lt_of_le_of_ne h2 hT
        · exact h4
      constructor
      · rintro ⟨c1, c2⟩
        by_contra hne
        rcases Nat.lt_or_gt_of_ne hne with hlt | hlt
        · exact absurd (lt_of_lt_of_le c2 ((h.mono d (i + 1) s (by omega) hlt (by omega)).trans h3)) (lt_irrefl _)
        · exact absurd (lt_of_le_of_lt (le_trans (h.mono d (s + 1) i (by omega) hlt (by omega)) c1) h4) (lt_irrefl _)
      · rintro rfl; exact ⟨h3, h4⟩
  | k + 1, i, hi => by
    rw [coxC, piece, h.coxC_eq_piece hs h1 h2 k i (by omega), h.coxC_eq_piece hs h1 h2 k (i + 1) (by omega)]

end BSpline

/-- **C18.** The value of a spline at a point of its domain is the sum over all basis functions of the product of their values times the
control point they multiply.  A periodic dimension has more basis functions than control points, and basis function `i` multiplies
control point `i` modulo the number of control points.  The points `x` may be anything that wraps to a point `w` of the domain. -/
theorem spline_value {b : BSpline D K V} (h : b.WF) {C : (Fin D → ℕ) → V} (hC : b.ctrl.Holds b.ctrl.dims C) {x : Fin D → K × ℕ} {w : Fin D → K}
    (hw : ∀ d, b.IsWrap d (x d).1 (w d)) (hdom : ∀ d, b.kn d b.order ≤ w d ∧ w d ≤ b.kn d (b.last d + 1))
    (hint : ∀ d, ValidHint (b.knots d) b.order (b.last d) (w d) (x d).2) :
    b.eval x = .ok (∑ I ∈ Fintype.piFinset (fun d => range (b.last d + 1)),
      (∏ d, coxC (b.kn d (b.last d + 1)) (b.kn d) b.order (I d) (w d)) •
        C fun d => if b.periodicity d then I d % b.ctrl.dims d else I d) := by
  choose s hs using fun d => exists_isSeg (h.kmono d) (w d) (h.last_ge d) (by have := h.last_lt d; omega)
  rw [h.eval_eq ⟨hw, hs⟩ hint hC]
  congr 1
  refine Eq.trans ?_ (tensor_push (m := fun d => b.last d + 1) (n := b.ctrl.dims)
    (fun d i => coxC (b.kn d (b.last d + 1)) (b.kn d) b.order i (w d)) (fun d i => b.ctrlOf d i)
    (fun d a ha => h.ctrlOf_lt (by omega)) C).symm
  refine sum_congr rfl fun J _ => ?_
  congr 1
  refine prod_congr rfl fun d _ => ?_
  have hl := h.last_lt d
  have hsl := (hs d).2.1
  simp only [BSpline.weight_zero, sum_filter]
  rw [← Finset.sum_subset (s₁ := range (s d + 1)) (s₂ := range (b.last d + 1))]
  · refine sum_congr rfl fun i hi => ?_
    rw [mem_range] at hi
    rw [h.coxC_eq_piece (hs d) (hdom d).1 (hdom d).2 _ _ (by omega)]
  · intro i hi; rw [mem_range] at *; omega
  · intro i hi hi'
    rw [mem_range] at *
    rw [h.coxC_eq_piece (hs d) (hdom d).1 (hdom d).2 _ _ (by omega), piece_zero_of_lt _ _ _ _ _ (by omega), ite_self]

/-- C18 for splines without periodic dimensions, inside the half-open domain, with the plain Cox–de Boor functions. -/
theorem spline_value_nonperiodic {b : BSpline D K V} (h : b.WF) (hp : ∀ d, b.periodicity d = false) {C : (Fin D → ℕ) → V}
    (hC : b.ctrl.Holds b.ctrl.dims C) {x : Fin D → K × ℕ}
    (hdom : ∀ d, b.kn d b.order ≤ (x d).1 ∧ (x d).1 < b.kn d (b.ctrl.dims d))
    (hint : ∀ d, (x d).2 + 1 < (b.knots d).length) :
    b.eval x = .ok (∑ J ∈ Fintype.piFinset (fun d => range (b.ctrl.dims d)),
      (∏ d, cox (b.kn d) b.order (J d) (x d).1) • C J) := by
  have hl : ∀ d, b.last d + 1 = b.ctrl.dims d := fun d => by
    have := h.aper d (hp d)
    have := h.len d
    unfold BSpline.last; omega
  rw [spline_value h hC (w := fun d => (x d).1) (fun d => by simp [BSpline.IsWrap, hp])
    (fun d => ⟨(hdom d).1, by rw [hl]; exact (hdom d).2.le⟩)
    (fun d => ⟨hint d, .inr (.inl ⟨(hdom d).1, by show _ < b.kn d _; rw [hl]; exact (hdom d).2⟩)⟩)]
  simp only [hp, Bool.false_eq_true, if_false]
  congr 1
  rw [show (fun d => range (b.last d + 1)) = fun d => range (b.ctrl.dims d) from funext fun d => by rw [hl]]
  refine sum_congr rfl fun J _ => ?_
  congr 1
  refine prod_congr rfl fun d _ => coxC_eq_cox ?_ _ _ _
  rw [hl]; exact (hdom d).2.ne

/-- **C19.** Value and derivatives do not depend on which valid hints are passed. -/
theorem hint_independent {b : BSpline D K V} (h : b.WF) (cfg : Cfg) (x w : Fin D → K) (hw : ∀ d, b.IsWrap d (x d) (w d)) (m hint hint' : Fin D → ℕ)
    (h1 : ∀ d, ValidHint (b.knots d) b.order (b.last d) (w d) (hint d))
    (h2 : ∀ d, ValidHint (b.knots d) b.order (b.last d) (w d) (hint' d)) :
    (∃ v, (b.eval fun d => (x d, hint d)) = .ok v ∧ (b.eval fun d => (x d, hint' d)) = .ok v) ∧
    ∃ v, (b.derivativeAt cfg fun d => (x d, hint d, m d)) = .ok v ∧ (b.derivativeAt cfg fun d => (x d, hint' d, m d)) = .ok v := by
  obtain ⟨C, hC⟩ := Mesh.exists_holds b.ctrl h.ctrl
  have hw' : ∀ d, b.wrapOf d (x d) = w d := fun d => h.wrapOf_eq (hw d)
  refine ⟨⟨_, h.eval_val ?_ hC, h.eval_val ?_ hC⟩, ⟨_, h.derivativeAt_val cfg ?_ hC, h.derivativeAt_val cfg ?_ hC⟩⟩ <;>
    intro d <;> simp only [hw']
  · exact h1 d
  · exact h2 d
  · exact h1 d
  · exact h2 d

/-- **C20.** On every product of segments there are polynomials `P d J` (of degree at most the spline order) in the coordinate of each dimension such
that `operator()` is `∑_J (∏_d P d (J d)) C_J` and, for every tuple of derivative orders, `derivative_at` is the mixed derivative of that expression. -/
theorem derivative_at_is_derivative {b : BSpline D K V} (h : b.WF) {C : (Fin D → ℕ) → V} (hC : b.ctrl.Holds b.ctrl.dims C) (cfg : Cfg)
    (s : Fin D → ℕ) :
    ∃ P : Fin D → ℕ → K[X], (∀ d J, (P d J).natDegree ≤ b.order) ∧
      ∀ (x w : Fin D → K) (hint : Fin D → ℕ), b.At x w s → (∀ d, ValidHint (b.knots d) b.order (b.last d) (w d) (hint d)) →
        (b.eval fun d => (x d, hint d)) =
          .ok (∑ J ∈ Fintype.piFinset (fun d => range (b.ctrl.dims d)), (∏ d, (P d (J d)).eval (w d)) • C J) ∧
        ∀ m : Fin D → ℕ, (b.derivativeAt cfg fun d => (x d, hint d, m d)) =
          .ok (∑ J ∈ Fintype.piFinset (fun d => range (b.ctrl.dims d)), (∏ d, (derivative^[m d] (P d (J d))).eval (w d)) • C J) := by
  refine ⟨fun d J => b.wP d (s d) J, fun d J => b.wP_natDegree_le d _ _, fun x w hint hat hh => ⟨?_, fun m => ?_⟩⟩
  · rw [h.eval_eq (x := fun d => (x d, hint d)) hat hh hC]
    unfold BSpline.tensorVal
    simp only [BSpline.weight_eq_wP, Function.iterate_zero, id_eq]
  · have hw' : ∀ d, b.wrapOf d (x d) = w d := fun d => h.wrapOf_eq (hat.wrap d)
    have hs' : ∀ d, b.segOf d (w d) = s d := fun d => h.segOf_eq (hat.seg d)
    rw [h.derivativeAt_val cfg (x := fun d => (x d, hint d, m d)) (by simpa only [hw'] using hh) hC]
    unfold BSpline.val BSpline.tensorVal BSpline.wAt BSpline.wSeg
    simp only [BSpline.weight_eq_wP, hw', hs']

/-- **C21.** Derivative order 0 in every dimension gives the value. -/
theorem derivative_order_zero {b : BSpline D K V} (h : b.WF) (cfg : Cfg) (x w : Fin D → K) (hw : ∀ d, b.IsWrap d (x d) (w d)) (hint : Fin D → ℕ)
    (hh : ∀ d, ValidHint (b.knots d) b.order (b.last d) (w d) (hint d)) :
    ∃ v, (b.derivativeAt cfg fun d => (x d, hint d, 0)) = .ok v ∧ (b.eval fun d => (x d, hint d)) = .ok v := by
  obtain ⟨C, hC⟩ := Mesh.exists_holds b.ctrl h.ctrl
  have hw' : ∀ d, b.wrapOf d (x d) = w d := fun d => h.wrapOf_eq (hw d)
  exact ⟨_, h.derivativeAt_val cfg (by simpa only [hw'] using hh) hC, h.eval_val (by simpa only [hw'] using hh) hC⟩

omit [IsStrictOrderedRing K] in
/-- C21, second part: a derivative order above the spline order gives zero, at every coordinate, with any hint, for any spline object. -/
theorem derivative_order_exceeds (b : BSpline D K V) (cfg : Cfg) (x : Fin D → K × ℕ × ℕ) (hx : ∃ d, b.order < (x d).2.2) :
    b.derivativeAt cfg x = .ok 0 := by
  unfold BSpline.derivativeAt
  rw [if_pos hx, pure_eq_ok]

/-- **C23.** At a point of the domain (closed) the value lies in every convex set that contains the control points. -/
theorem convex_hull {b : BSpline D K V} (h : b.WF) {C : (Fin D → ℕ) → V} (hC : b.ctrl.Holds b.ctrl.dims C) {x : Fin D → K × ℕ} {w : Fin D → K}
    (hw : ∀ d, b.IsWrap d (x d).1 (w d)) (hdom : ∀ d, b.kn d b.order ≤ w d ∧ w d ≤ b.kn d (b.last d + 1))
    (hint : ∀ d, ValidHint (b.knots d) b.order (b.last d) (w d) (x d).2) (S : Set V) (hS : Convex K S)
    (hmem : ∀ J, (∀ d, J d < b.ctrl.dims d) → C J ∈ S) :
    ∃ v, b.eval x = .ok v ∧ v ∈ S := by
  choose s hs using fun d => exists_isSeg (h.kmono d) (w d) (h.last_ge d) (by have := h.last_lt d; omega)
  have hat : b.At (fun d => (x d).1) w s := ⟨hw, hs⟩
  refine ⟨_, h.eval_eq hat hint hC, ?_⟩
  refine hS.sum_mem ?_ ?_ fun J hJ => hmem J fun d => mem_range.1 (Fintype.mem_piFinset.1 hJ d)
  · intro J _
    refine prod_nonneg fun d _ => ?_
    simp only [BSpline.weight_zero]
    refine sum_nonneg fun i _ => ?_
    obtain ⟨a1, a2, a3, a4⟩ := hs d
    have hl := h.last_lt d
    have h3 : b.kn d (s d) ≤ w d := by
      rcases a3 with e | h3
      · rw [e]; exact (hdom d).1
      · exact h3
    have h4 : w d ≤ b.kn d (s d + 1) := by
      rcases a4 with e | h4
      · rw [e]; exact (hdom d).2
      · exact h4.le
    exact piece_nonneg (p := b.order) (fun j hj0 hj => (h.mono d j (s d) (by omega) hj (by omega)).trans h3)
      (fun j hj hj' => h4.trans (h.mono d _ _ (by omega) hj (by omega))) b.order i le_rfl
  · rw [← Finset.prod_univ_sum]
    refine prod_eq_one fun d _ => ?_
    exact h.sum_weight_one (hs d).1 (hs d).2.1 (h.seg_nondeg hat d) (w d)

/-- C23 for scalar data: bounds on the control points are bounds on the value. -/
theorem convex_hull_bounds {b : BSpline D K K} (h : b.WF) {C : (Fin D → ℕ) → K} (hC : b.ctrl.Holds b.ctrl.dims C) {x : Fin D → K × ℕ} {w : Fin D → K}
    (hw : ∀ d, b.IsWrap d (x d).1 (w d)) (hdom : ∀ d, b.kn d b.order ≤ w d ∧ w d ≤ b.kn d (b.last d + 1))
    (hint : ∀ d, ValidHint (b.knots d) b.order (b.last d) (w d) (x d).2) {lo hi : K}
    (hb : ∀ J, (∀ d, J d < b.ctrl.dims d) → lo ≤ C J ∧ C J ≤ hi) :
    ∃ v, b.eval x = .ok v ∧ lo ≤ v ∧ v ≤ hi := by
  obtain ⟨v, h1, h2⟩ := convex_hull h hC hw hdom hint (Set.Icc lo hi) (convex_Icc lo hi) hb
  exact ⟨v, h1, h2.1, h2.2⟩

/-- **C24.** Two splines that differ in the control point `J` only have the same value and the same derivatives at every point of the domain that
is, in some dimension `d`, outside the supports `[t_i, t_{i+order+1})` of all basis functions `i` that multiply control point `J d`
(a non-periodic dimension has only one such `i`, namely `J d`; no point of the domain is left of the support of function `0`). -/
theorem local_control {b : BSpline D K V} (h : b.WF) {m' : Mesh D V} (hm : m'.dims = b.ctrl.dims) {C C' : (Fin D → ℕ) → V}
    (hC : b.ctrl.Holds b.ctrl.dims C) (hC' : m'.Holds m'.dims C') {J : Fin D → ℕ} (hJ : ∀ I, I ≠ J → C I = C' I) (cfg : Cfg)
    {x : Fin D → K × ℕ} {w : Fin D → K} (hw : ∀ d, b.IsWrap d (x d).1 (w d))
    (hint : ∀ d, ValidHint (b.knots d) b.order (b.last d) (w d) (x d).2) {d : Fin D}
    (hdom : b.kn d b.order ≤ w d ∧ w d < b.kn d (b.last d + 1))
    (hsup : ∀ i, i ≤ b.last d → (if b.periodicity d then i % b.ctrl.dims d else i) = J d →
      (0 < i ∧ w d < b.kn d i) ∨ b.kn d (i + b.order + 1) ≤ w d) :
    (∃ v, b.eval x = .ok v ∧ (b.loadCtrlPts m').eval x = .ok v) ∧
    ∀ m : Fin D → ℕ, ∃ v, (b.derivativeAt cfg fun d => ((x d).1, (x d).2, m d)) = .ok v ∧
      ((b.loadCtrlPts m').derivativeAt cfg fun d => ((x d).1, (x d).2, m d)) = .ok v := by
  set b' := b.loadCtrlPts m' with hb'
  have hd : b'.ctrl.dims = b.ctrl.dims := hm
  have h' : b'.WF := by
    refine ⟨hC'.2.1, h.mono, h.len, h.first, h.lastSeg, fun d hp => ?_, fun d hp => ?_⟩
    · rw [hd]; exact h.aper d hp
    · rw [hd]; exact h.per d hp
  choose s hs using fun d => exists_isSeg (h.kmono d) (w d) (h.last_ge d) (by have := h.last_lt d; omega)
  have hat : b.At (fun d => (x d).1) w s := ⟨hw, hs⟩
  have hw' : ∀ d, b.wrapOf d (x d).1 = w d := fun d => h.wrapOf_eq (hw d)
  have hw'' : ∀ d, b'.wrapOf d (x d).1 = w d := hw'
  have hwt : ∀ m J, b'.wAt d m (x d).1 J = b.wAt d m (x d).1 J := by
    intro m J
    unfold BSpline.wAt BSpline.wSeg BSpline.weight BSpline.ctrlOf
    rw [hd]; rfl
  have hwtall : ∀ d m J, b'.wAt d m (x d).1 J = b.wAt d m (x d).1 J := by
    intro d m J
    unfold BSpline.wAt BSpline.wSeg BSpline.weight BSpline.ctrlOf
    rw [hd]; rfl
  have hz : ∀ m, b.wAt d m (x d).1 (J d) = 0 := by
    intro m
    unfold BSpline.wAt BSpline.wSeg BSpline.weight
    rw [hw' d, h.segOf_eq (hs d)]
    refine sum_eq_zero fun i hi => ?_
    rw [mem_filter, mem_range] at hi
    obtain ⟨a1, a2, a3, a4⟩ := hs d
    have hl := h.last_lt d
    have hz : pieceP (b.kn d) (s d) b.order i = 0 := by
      by_cases hc : i + b.order < s d
      · exact pieceP_zero_of_gt _ _ _ _ hc
      · exfalso
        have h3 : b.kn d (s d) ≤ w d := by
          rcases a3 with e | h3
          · rw [e]; exact hdom.1
          · exact h3
        have h4 : w d < b.kn d (s d + 1) := by
          rcases a4 with e | h4
          · rw [e]; exact hdom.2
          · exact h4
        rcases hsup i (by omega) hi.2 with ⟨_, e⟩ | e
        · exact absurd (lt_of_lt_of_le e (le_trans (h.mono d i (s d) (by omega) (by omega) (by omega)) h3)) (lt_irrefl _)
        · exact absurd (lt_of_lt_of_le h4 (le_trans (h.mono d (s d + 1) (i + b.order + 1) (by omega) (by omega) (by omega)) e)) (lt_irrefl _)
    rw [hz]; simp
  have key : ∀ m, b'.val C' m (fun d => (x d).1) = b.val C m fun d => (x d).1 := by
    intro m
    unfold BSpline.val BSpline.tensorVal
    rw [hd]
    refine sum_congr rfl fun I _ => ?_
    by_cases hI : I = J
    · rw [hI, prod_eq_zero (mem_univ d), prod_eq_zero (mem_univ d), zero_smul, zero_smul]
      · exact hz _
      · simp only [hwt]; exact hz _
    · rw [hJ I hI]
      congr 1
      exact prod_congr rfl fun c _ => hwtall c _ _
  refine ⟨⟨_, h.eval_val (by simpa only [hw'] using hint) hC, ?_⟩, fun m => ⟨_, h.derivativeAt_val cfg (by simpa only [hw'] using hint) hC, ?_⟩⟩
  · rw [h'.eval_val (fun d => by rw [hw'']; exact hint d) (C := C') hC', key]
  · rw [h'.derivativeAt_val cfg (fun d => by simp only [hw'']; exact hint d) (C := C') hC', key]

/-- **C25.** In a periodic dimension with periodic knots, moving the coordinate by a multiple of the period changes neither the value nor
derivatives of order below the spline order (for even spline orders: derivatives of any order) — whatever valid hints are used. -/
theorem evaluation_periodic {b : BSpline D K V} (h : b.WF) (cfg : Cfg) {d : Fin D} (hk : b.PerKnots d) {x x' : Fin D → K × ℕ × ℕ} (k : ℤ)
    (hx : ∀ c, (x' c).1 = if c = d then (x c).1 + k * ((b.range c).2 - (b.range c).1) else (x c).1)
    (hm : ∀ c, (x' c).2.2 = (x c).2.2) (hlt : (x d).2.2 < b.order ∨ b.order % 2 = 0)
    (h1 : ∀ c w, b.IsWrap c (x c).1 w → ValidHint (b.knots c) b.order (b.last c) w (x c).2.1)
    (h2 : ∀ c w, b.IsWrap c (x' c).1 w → ValidHint (b.knots c) b.order (b.last c) w (x' c).2.1) :
    ∃ v, b.derivativeAt cfg x = .ok v ∧ b.derivativeAt cfg x' = .ok v := by
  obtain ⟨C, hC⟩ := Mesh.exists_holds b.ctrl h.ctrl
  refine ⟨_, h.derivativeAt_val cfg (fun c => h1 c _ (h.isWrap_wrapOf c _)) hC, ?_⟩
  rw [h.derivativeAt_val cfg (fun c => h2 c _ (h.isWrap_wrapOf c _)) hC]
  congr 1
  refine sum_congr rfl fun J _ => ?_
  congr 1
  refine prod_congr rfl fun c _ => ?_
  simp only [hx, hm]
  split
  · rename_i e; subst e
    exact h.wAt_periodic hk k _ _ hlt
  · rfl

/-- C25 for the value, at every spline order. -/
theorem value_periodic {b : BSpline D K V} (h : b.WF) {d : Fin D} (hk : b.PerKnots d) {x x' : Fin D → K × ℕ} (k : ℤ)
    (hx : ∀ c, (x' c).1 = if c = d then (x c).1 + k * ((b.range c).2 - (b.range c).1) else (x c).1)
    (h1 : ∀ c w, b.IsWrap c (x c).1 w → ValidHint (b.knots c) b.order (b.last c) w (x c).2)
    (h2 : ∀ c w, b.IsWrap c (x' c).1 w → ValidHint (b.knots c) b.order (b.last c) w (x' c).2) :
    ∃ v, b.eval x = .ok v ∧ b.eval x' = .ok v := by
  obtain ⟨C, hC⟩ := Mesh.exists_holds b.ctrl h.ctrl
  refine ⟨_, h.eval_val (fun c => h1 c _ (h.isWrap_wrapOf c _)) hC, ?_⟩
  rw [h.eval_val (fun c => h2 c _ (h.isWrap_wrapOf c _)) hC]
  congr 1
  refine sum_congr rfl fun J _ => ?_
  congr 1
  refine prod_congr rfl fun c _ => ?_
  simp only [hx]
  split
  · rename_i e; subst e
    exact h.wAt_periodic hk k _ _ (by omega)
  · rfl

/-- **C26.** In a non-periodic dimension one polynomial expression (of degree at most the spline order) gives the value on the first segment and
everywhere to its left, another one the value on the last segment and everywhere to its right: evaluation continues the end pieces. -/
theorem out_of_range_extends {b : BSpline D K V} (h : b.WF) {d : Fin D} (hp : b.periodicity d = false) (x : Fin D → K × ℕ)
    (hint : ∀ c, b.order ≤ (x c).2 ∧ (x c).2 ≤ b.last c) :
    ∃ (L R : ℕ → K[X]) (c : ℕ → V), (∀ J, (L J).natDegree ≤ b.order ∧ (R J).natDegree ≤ b.order) ∧
      (∀ y, y < b.kn d (b.order + 1) →
        b.eval (Function.update x d (y, (x d).2)) = .ok (∑ J ∈ range (b.ctrl.dims d), (L J).eval y • c J)) ∧
      ∀ y, b.kn d (b.last d) ≤ y →
        b.eval (Function.update x d (y, (x d).2)) = .ok (∑ J ∈ range (b.ctrl.dims d), (R J).eval y • c J) := by
  obtain ⟨C, hC⟩ := Mesh.exists_holds b.ctrl h.ctrl
  have hl1 := h.last_ge d
  have hl2 := h.last_lt d
  have ew : ∀ y, b.wrapOf d y = y := fun y => by unfold BSpline.wrapOf; simp [hp]
  have key : ∀ y s, IsSeg (b.kn d) b.order (b.last d) y s →
      b.eval (Function.update x d (y, (x d).2)) =
        .ok (∑ J ∈ range (b.ctrl.dims d), (b.wP d s J).eval y •
          ∑ I ∈ (box b.ctrl.dims).filter (fun I => I d = J), (∏ c ∈ univ.erase d, b.wAt c 0 (x c).1 (I c)) • C I) := by
    intro y s hs
    rw [h.eval_val (fun c => ?_) hC]
    · congr 1
      unfold BSpline.val BSpline.tensorVal
      rw [← sum_fiberwise_of_maps_to (s := Fintype.piFinset fun d => range (b.ctrl.dims d)) (t := range (b.ctrl.dims d)) (g := fun I => I d)
        (fun I hI => Fintype.mem_piFinset.1 hI d)]
      refine sum_congr rfl fun J _ => ?_
      rw [smul_sum]
      refine sum_congr rfl fun I hI => ?_
      rw [smul_smul, ← mul_prod_erase _ _ (mem_univ d)]
      simp only [Function.update_self]
      congr 2
      · unfold BSpline.wAt BSpline.wSeg
        rw [ew, h.segOf_eq hs, BSpline.weight_eq_wP, (mem_filter.1 hI).2]; rfl
      · refine prod_congr rfl fun c hc => ?_
        rw [Function.update_of_ne (ne_of_mem_erase hc)]
    · by_cases hc : c = d
      · subst hc
        rw [Function.update_self]
        exact h.validHint (hint c).1 (hint c).2 _
      · rw [Function.update_of_ne hc]
        exact h.validHint (hint c).1 (hint c).2 _
  refine ⟨fun J => b.wP d b.order J, fun J => b.wP d (b.last d) J, _, fun J => ⟨b.wP_natDegree_le _ _ _, b.wP_natDegree_le _ _ _⟩,
    fun y hy => key y b.order ⟨le_rfl, hl1, .inl rfl, .inr hy⟩, fun y hy => key y (b.last d) ⟨hl1, le_rfl, .inr hy, .inl rfl⟩⟩

end Field

section Real

variable {V : Type} [NormedAddCommGroup V] [NormedSpace ℝ V] {D : ℕ}

/-- **C20, over the reals.** At a point whose coordinate in dimension `d` is not (wrapped to) a knot, the function `y ↦ derivative_at` along
dimension `d` is differentiable and its derivative is `derivative_at` with the derivative order of dimension `d` raised by one.  Hence every
`derivative_at` is an iterated partial derivative of `operator()` (`derivative_order_zero`). -/
theorem derivative_at_hasDerivAt {b : BSpline D ℝ V} (h : b.WF) (cfg : Cfg) (x : Fin D → ℝ × ℕ × ℕ) {d : Fin D} {w : ℝ}
    (hw : b.IsWrap d (x d).1 w) (hne : ∀ i, i < (b.knots d).length → b.kn d i ≠ w)
    (hper : b.periodicity d = true → w ≠ (b.range d).1 ∧ w ≠ (b.range d).2)
    (hint : ∀ c, b.order ≤ (x c).2.1 ∧ (x c).2.1 ≤ b.last c) :
    ∃ (F : ℝ → V) (F' : V), (∀ y, b.derivativeAt cfg (Function.update x d (y, (x d).2)) = .ok (F y)) ∧
      b.derivativeAt cfg (Function.update x d ((x d).1, (x d).2.1, (x d).2.2 + 1)) = .ok F' ∧ HasDerivAt F F' (x d).1 := by
  obtain ⟨C, hC⟩ := Mesh.exists_holds b.ctrl h.ctrl
  have ew : b.wrapOf d (x d).1 = w := h.wrapOf_eq hw
  have hl := h.last_lt d
  refine ⟨fun y => b.val C (fun c => (x c).2.2) (Function.update (fun c => (x c).1) d y),
    b.val C (Function.update (fun c => (x c).2.2) d ((x d).2.2 + 1)) (fun c => (x c).1), fun y => ?_, ?_,
    BSpline.val_hasDerivAt fun J => h.wAt_hasDerivAt_of_ne (x0 := (x d).1) ⟨fun i h1 h2 => ?_, fun hp => ?_⟩ _ J⟩
  · rw [h.derivativeAt_val cfg (fun c => ?_) hC]
    · congr 2
      · funext c; by_cases hc : c = d
        · subst hc; simp
        · simp [hc]
      · funext c; by_cases hc : c = d
        · subst hc; simp
        · simp [hc]
    · by_cases hc : c = d
      · subst hc; rw [Function.update_self]; exact h.validHint (hint c).1 (hint c).2 _
      · rw [Function.update_of_ne hc]; exact h.validHint (hint c).1 (hint c).2 _
  · rw [h.derivativeAt_val cfg (fun c => ?_) hC]
    · congr 2
      · funext c; by_cases hc : c = d
        · subst hc; simp
        · simp [hc]
      · funext c; by_cases hc : c = d
        · subst hc; simp
        · simp [hc]
    · by_cases hc : c = d
      · subst hc; rw [Function.update_self]; exact h.validHint (hint c).1 (hint c).2 _
      · rw [Function.update_of_ne hc]; exact h.validHint (hint c).1 (hint c).2 _
  · rw [ew]; exact hne i (by omega)
  · rw [ew]; exact hper hp

theorem BSpline.WF.wAt_contDiff {b : BSpline D ℝ V} (h : b.WF) {d : Fin D} (hs : b.Smooth d) (J : ℕ) :
    ∀ n q : ℕ, q + n < b.order → ContDiff ℝ n fun t => b.wAt d q t J
  | 0, q, hq => by
    rw [Nat.cast_zero, contDiff_zero]
    exact h.wAt_continuous hs hq J
  | n + 1, q, hq => by
    have hd : ∀ t, HasDerivAt (fun t => b.wAt d q t J) (b.wAt d (q + 1) t J) t := fun t => h.wAt_hasDerivAt hs (by omega) J t
    rw [Nat.cast_add, Nat.cast_one, contDiff_succ_iff_deriv]
    refine ⟨fun t => (hd t).differentiableAt, by simp, ?_⟩
    rw [show deriv (fun t => b.wAt d q t J) = fun t => b.wAt d (q + 1) t J from funext fun t => (hd t).deriv]
    exact h.wAt_contDiff hs J n (q + 1) (by omega)

/-- **C22.** A spline of order at least one whose interior knots are simple (and whose periodic dimensions have periodic knots) is, as a function of
all its coordinates on the whole space, `order - 1` times continuously differentiable; in particular it is continuous, also across the ends of
the range and across the seams of periodic dimensions. -/
theorem spline_smooth {b : BSpline D ℝ V} (h : b.WF) (hs : ∀ d, b.Smooth d) (ho : 1 ≤ b.order) :
    ∃ F : (Fin D → ℝ) → V, ContDiff ℝ (b.order - 1 : ℕ) F ∧ Continuous F ∧
      ∀ (x : Fin D → ℝ) (hint : Fin D → ℕ), (∀ d w, b.IsWrap d (x d) w → ValidHint (b.knots d) b.order (b.last d) w (hint d)) →
        (b.eval fun d => (x d, hint d)) = .ok (F x) := by
  obtain ⟨C, hC⟩ := Mesh.exists_holds b.ctrl h.ctrl
  have hF : ContDiff ℝ (b.order - 1 : ℕ) fun x => b.val C (fun _ => 0) x := by
    unfold BSpline.val BSpline.tensorVal
    refine ContDiff.sum fun J _ => ContDiff.smul (contDiff_prod fun d _ => ?_) contDiff_const
    exact (h.wAt_contDiff (hs d) (J d) (b.order - 1) 0 (by omega)).comp (contDiff_apply ℝ ℝ d)
  exact ⟨fun x => b.val C (fun _ => 0) x, hF, hF.continuous,
    fun x hint hh => h.eval_val (x := fun d => (x d, hint d)) (fun d => hh d _ (h.isWrap_wrapOf d _)) hC⟩

/-- C22 for derivatives: `derivative_at` with all derivative orders below the spline order is continuous in the whole space. -/
theorem derivative_continuous {b : BSpline D ℝ V} (h : b.WF) (hs : ∀ d, b.Smooth d) (cfg : Cfg) (m : Fin D → ℕ) (hm : ∀ d, m d < b.order) :
    ∃ F : (Fin D → ℝ) → V, Continuous F ∧
      ∀ (x : Fin D → ℝ) (hint : Fin D → ℕ), (∀ d w, b.IsWrap d (x d) w → ValidHint (b.knots d) b.order (b.last d) w (hint d)) →
        (b.derivativeAt cfg fun d => (x d, hint d, m d)) = .ok (F x) := by
  obtain ⟨C, hC⟩ := Mesh.exists_holds b.ctrl h.ctrl
  exact ⟨fun x => b.val C m x, BSpline.val_continuous fun d J => h.wAt_continuous (hs d) (hm d) J,
    fun x hint hh => h.derivativeAt_val cfg (x := fun d => (x d, hint d, m d)) (fun d => hh d _ (h.isWrap_wrapOf d _)) hC⟩

end Real

section Field2

variable {K V : Type} [Field K] [LinearOrder K] [IsStrictOrderedRing K] [FloorRing K] [AddCommGroup V] [Module K V] {D : ℕ}

/-- C22 at a knot of multiplicity `m` (`t_r < t_{r+1} = ... = t_{r+m} < t_{r+m+1}`): the polynomials of C20 on the two adjacent segments agree
there together with their derivatives up to order `order - m`. -/
theorem pieces_agree_at_knot {b : BSpline D K V} (h : b.WF) {d : Fin D} {r m : ℕ} (h0 : b.order ≤ r) (h2 : r + m ≤ b.last d)
    (hl : b.kn d r < b.kn d (r + m)) (hr : b.kn d (r + m) < b.kn d (r + m + 1))
    (hm : ∀ j, r < j → j ≤ r + m → b.kn d j = b.kn d (r + m)) :
    ∃ P Q : ℕ → K[X],
      (∀ y J, b.kn d r ≤ y → y < b.kn d (r + m) → b.wSeg d 0 y J = (P J).eval y) ∧
      (∀ y J, b.kn d (r + m) ≤ y → y < b.kn d (r + m + 1) → b.wSeg d 0 y J = (Q J).eval y) ∧
      ∀ q J, q + m ≤ b.order → (derivative^[q] (P J)).eval (b.kn d (r + m)) = (derivative^[q] (Q J)).eval (b.kn d (r + m)) := by
  have hm0 : 0 < m := by
    rcases Nat.eq_zero_or_pos m with rfl | h; exacts [absurd hl (lt_irrefl _), h]
  refine ⟨fun J => b.wP d r J, fun J => b.wP d (r + m) J, fun y J h3 h4 => ?_, fun y J h3 h4 => ?_, fun q J hq => h.wP_knot (by omega) h2 hl hr hm hq⟩
  · unfold BSpline.wSeg
    rw [h.segOf_eq ⟨h0, by omega, .inr h3, .inr (by rw [hm (r + 1) (by omega) (by omega)]; exact h4)⟩, BSpline.weight_eq_wP]; rfl
  · unfold BSpline.wSeg
    rw [h.segOf_eq ⟨by omega, h2, .inr h3, .inr h4⟩, BSpline.weight_eq_wP]; rfl

end Field2

/-! ## A concrete spline meets the hypotheses: order 2, a clamped dimension with 4 and a periodic one with 3 control points -/

/-- Sorted lists are monotone knot functions. -/
theorem kmono_of_pairwise {K : Type} [Field K] [LinearOrder K] {l : List K} (h : l.Pairwise (· ≤ ·)) (i j : ℕ) (_ : 1 ≤ i) (hij : i ≤ j) (hj : j < l.length) :
    knotFn l i ≤ knotFn l j := by
  unfold knotFn
  rcases hij.eq_or_lt with rfl | hlt
  · exact le_rfl
  · have e : ∀ i (hi : i < l.length), l.getD i 0 = l[i] := fun i hi => by simp [List.getD, hi]
    rw [e j hj, e i (by omega)]
    exact List.pairwise_iff_getElem.1 h i j (by omega) hj hlt

/-- The example. -/
def exSpline : BSpline 2 ℚ ℚ where
  order := 2
  periodicity := ![false, true]
  knots := ![[0, 0, 0, 1, 2, 2, 2], [-2, -1, 0, 1, 2, 3, 4, 5, 6]]
  ctrl := ⟨![4, 3], [1, 0, 3, -4, 5, 2, 7, 0, 9, 1, 11, -2]⟩
  range := ![(0, 2), (0, 3)]

theorem exSpline_wf : exSpline.WF where
  ctrl := by decide +kernel
  mono := by
    intro d; fin_cases d
    · exact kmono_of_pairwise (l := [0, 0, 0, 1, 2, 2, 2]) (by decide +kernel)
    · exact kmono_of_pairwise (l := [-2, -1, 0, 1, 2, 3, 4, 5, 6]) (by decide +kernel)
  len := by decide +kernel
  first := by decide +kernel
  lastSeg := by decide +kernel
  aper := by decide +kernel
  per := by decide +kernel

theorem exSpline_perKnots : exSpline.PerKnots 1 where
  per := rfl
  len := rfl
  shift := by
    intro i h1 h2
    have h3 : i < 6 := by change i + 3 < 9 at h2; omega
    interval_cases i <;> decide +kernel
  fst := by decide +kernel
  snd := by decide +kernel

theorem exSpline_simple : ∀ d, exSpline.Simple d := by
  intro d i h1 h2
  change 2 ≤ i at h1
  fin_cases d
  · change i ≤ 3 at h2
    interval_cases i <;> decide +kernel
  · change i ≤ 5 at h2
    interval_cases i <;> decide +kernel

/-- Values of the example: inside, two periods away, outside to the left, and a mixed derivative. -/
example : exSpline.eval ![(1 / 2, 2), (5 / 4, 3)] = .ok (191 / 64) ∧ exSpline.eval ![(1 / 2, 3), (5 / 4 + 6, 2)] = .ok (191 / 64) ∧
    exSpline.eval ![(-1, 2), (-1, 2)] = .ok (31 / 2) ∧
    exSpline.derivativeAt ⟨true, false⟩ ![(1 / 2, 2, 1), (1 / 4, 2, 1)] = .ok (3 / 2) := by
  decide +kernel

/-- The same spline over the reals, for the statements about derivatives and smoothness. -/
noncomputable def exSplineR : BSpline 2 ℝ ℝ where
  order := 2
  periodicity := ![false, true]
  knots := ![[0, 0, 0, 1, 2, 2, 2], [-2, -1, 0, 1, 2, 3, 4, 5, 6]]
  ctrl := ⟨![4, 3], [1, 0, 3, -4, 5, 2, 7, 0, 9, 1, 11, -2]⟩
  range := ![(0, 2), (0, 3)]

theorem exSplineR_wf : exSplineR.WF where
  ctrl := by simp [exSplineR, Fin.prod_univ_two]
  mono := by
    intro d; fin_cases d
    · exact kmono_of_pairwise (l := [0, 0, 0, 1, 2, 2, 2]) (by norm_num)
    · exact kmono_of_pairwise (l := [-2, -1, 0, 1, 2, 3, 4, 5, 6]) (by norm_num)
  len := by intro d; fin_cases d <;> simp [exSplineR]
  first := by intro d; fin_cases d <;> simp [exSplineR, BSpline.kn, knotFn]
  lastSeg := by intro d; fin_cases d <;> norm_num [exSplineR, BSpline.kn, knotFn, BSpline.last]
  aper := by intro d; fin_cases d <;> simp [exSplineR]
  per := by intro d; fin_cases d <;> simp [exSplineR]

theorem exSplineR_smooth : ∀ d, exSplineR.Smooth d := by
  intro d
  constructor
  · intro i h1 h2
    change 2 ≤ i at h1
    fin_cases d
    · change i ≤ 3 at h2
      interval_cases i <;> norm_num [exSplineR, BSpline.kn, knotFn]
    · change i ≤ 5 at h2
      interval_cases i <;> norm_num [exSplineR, BSpline.kn, knotFn]
  · fin_cases d
    · intro h; simp [exSplineR] at h
    · intro _
      refine ⟨rfl, rfl, ?_, rfl, rfl⟩
      intro i h1 h2
      have h3 : i < 6 := by change i + 3 < 9 at h2; omega
      interval_cases i <;> norm_num [exSplineR, BSpline.kn, knotFn]

/-- The point (1/2, 1/4) is not on a knot. -/
example : (∀ i, i < (exSplineR.knots 0).length → exSplineR.kn 0 i ≠ 1 / 2) ∧ exSplineR.IsWrap 0 (1 / 2) (1 / 2) := by
  constructor
  · intro i hi
    change i < 7 at hi
    interval_cases i <;> norm_num [exSplineR, BSpline.kn, knotFn]
  · simp [BSpline.IsWrap, exSplineR]

end Intp
