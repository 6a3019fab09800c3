import Verif.Proofs.Weights
import Mathlib.Analysis.Calculus.Deriv.Polynomial
import Mathlib.Analysis.Calculus.Deriv.Mul
import Mathlib.Analysis.Calculus.Deriv.Add
import Mathlib.Data.Real.Archimedean

/-!
# Continuity and derivatives over the real numbers
-/

namespace Intp

open Finset Polynomial Filter Topology Set

variable {V : Type} [NormedAddCommGroup V] [NormedSpace ℝ V] {D : ℕ}

theorem hasDerivAt_glue {F : ℝ → ℝ} {x0 lo hi : ℝ} {g g' : ℝ → ℝ} {L : ℝ} (hlo : lo < x0) (hhi : x0 < hi)
    (hR : ∀ x, x0 ≤ x → x < hi → F x = g x) (hL : ∀ x, lo < x → x ≤ x0 → F x = g' x)
    (h1 : HasDerivAt g L x0) (h2 : HasDerivAt g' L x0) : HasDerivAt F L x0 := by
  have a : HasDerivWithinAt F L (Ici x0) x0 := by
    refine h1.hasDerivWithinAt.congr_of_eventuallyEq ?_ (hR x0 le_rfl hhi)
    filter_upwards [self_mem_nhdsWithin, mem_nhdsWithin_of_mem_nhds (Iio_mem_nhds hhi)] with x hx hx'
    exact hR x hx hx'
  have c : HasDerivWithinAt F L (Iic x0) x0 := by
    refine h2.hasDerivWithinAt.congr_of_eventuallyEq ?_ (hL x0 hlo le_rfl)
    filter_upwards [self_mem_nhdsWithin, mem_nhdsWithin_of_mem_nhds (Ioi_mem_nhds hlo)] with x hx hx'
    exact hL x hx' hx
  have := c.union a
  rwa [Iic_union_Ici, hasDerivWithinAt_univ] at this

theorem continuousAt_glue {F : ℝ → ℝ} {x0 lo hi : ℝ} {g g' : ℝ → ℝ} (hlo : lo < x0) (hhi : x0 < hi)
    (hR : ∀ x, x0 ≤ x → x < hi → F x = g x) (hL : ∀ x, lo < x → x ≤ x0 → F x = g' x)
    (h1 : ContinuousAt g x0) (h2 : ContinuousAt g' x0) : ContinuousAt F x0 := by
  have a : ContinuousWithinAt F (Ici x0) x0 := by
    refine h1.continuousWithinAt.congr_of_eventuallyEq ?_ (hR x0 le_rfl hhi)
    filter_upwards [self_mem_nhdsWithin, mem_nhdsWithin_of_mem_nhds (Iio_mem_nhds hhi)] with x hx hx'
    exact hR x hx hx'
  have c : ContinuousWithinAt F (Iic x0) x0 := by
    refine h2.continuousWithinAt.congr_of_eventuallyEq ?_ (hL x0 hlo le_rfl)
    filter_upwards [self_mem_nhdsWithin, mem_nhdsWithin_of_mem_nhds (Ioi_mem_nhds hlo)] with x hx hx'
    exact hL x hx' hx
  have := c.union a
  rwa [Iic_union_Ici, continuousWithinAt_univ] at this

theorem hasDerivAt_poly (g : ℝ[X]) (q : ℕ) (x : ℝ) :
    HasDerivAt (fun x => (derivative^[q] g).eval x) ((derivative^[q + 1] g).eval x) x := by
  rw [Function.iterate_succ_apply']
  exact Polynomial.hasDerivAt _ _

namespace BSpline

variable {b : BSpline D ℝ V}

/-- Interior knots simple, and periodic dimensions built from periodic knots. -/
def Smooth (b : BSpline D ℝ V) (d : Fin D) : Prop := b.Simple d ∧ (b.periodicity d = true → b.PerKnots d)

theorem WF.wAt_continuous (h : b.WF) {d : Fin D} (hs : b.Smooth d) {q : ℕ} (hq : q < b.order) (J : ℕ) :
    Continuous fun x => b.wAt d q x J := by
  rw [continuous_iff_continuousAt]
  intro x0
  obtain ⟨lo, hi, gL, gR, l1, l2, l3, l4, l5, _⟩ := h.local_at (d := d) x0 (.inl hs)
  refine continuousAt_glue (g := fun x => (derivative^[q] (gR J)).eval x) (g' := fun x => (derivative^[q] (gL J)).eval x) l1 l2 ?_ ?_
    (hasDerivAt_poly _ _ _).continuousAt (hasDerivAt_poly _ _ _).continuousAt
  · intro x h1 h2
    rcases h1.eq_or_lt with rfl | h1
    · exact (l5 q J hq).2.symm
    · exact l3 q J x h1 h2
  · intro x h1 h2
    rcases h2.eq_or_lt with rfl | h2
    · exact (l5 q J hq).1.symm
    · exact l4 q J x h1 h2

theorem WF.wAt_hasDerivAt (h : b.WF) {d : Fin D} (hs : b.Smooth d) {q : ℕ} (hq : q + 1 < b.order) (J : ℕ) (x0 : ℝ) :
    HasDerivAt (fun x => b.wAt d q x J) (b.wAt d (q + 1) x0 J) x0 := by
  obtain ⟨lo, hi, gL, gR, l1, l2, l3, l4, l5, _⟩ := h.local_at (d := d) x0 (.inl hs)
  refine hasDerivAt_glue (g := fun x => (derivative^[q] (gR J)).eval x) (g' := fun x => (derivative^[q] (gL J)).eval x) l1 l2 ?_ ?_ ?_ ?_
  · intro x h1 h2
    rcases h1.eq_or_lt with rfl | h1
    · exact (l5 q J (by omega)).2.symm
    · exact l3 q J x h1 h2
  · intro x h1 h2
    rcases h2.eq_or_lt with rfl | h2
    · exact (l5 q J (by omega)).1.symm
    · exact l4 q J x h1 h2
  · rw [← (l5 (q + 1) J hq).2]; exact hasDerivAt_poly _ _ _
  · rw [← (l5 (q + 1) J hq).1]; exact hasDerivAt_poly _ _ _

/-- At a coordinate that is not a knot all derivatives exist. -/
theorem WF.wAt_hasDerivAt_of_ne (h : b.WF) {d : Fin D} {x0 : ℝ}
    (hc : (∀ i, b.order < i → i ≤ b.last d → b.kn d i ≠ b.wrapOf d x0) ∧
        (b.periodicity d = true → b.wrapOf d x0 ≠ (b.range d).1 ∧ b.wrapOf d x0 ≠ (b.range d).2)) (q J : ℕ) :
    HasDerivAt (fun x => b.wAt d q x J) (b.wAt d (q + 1) x0 J) x0 := by
  obtain ⟨lo, hi, gL, gR, l1, l2, l3, l4, _, l6⟩ := h.local_at (d := d) x0 (.inr hc)
  obtain ⟨rfl, l6⟩ := l6 hc
  refine hasDerivAt_glue (g := fun x => (derivative^[q] (gL J)).eval x) (g' := fun x => (derivative^[q] (gL J)).eval x) l1 l2 ?_ ?_ ?_ ?_
  · intro x h1 h2
    rcases h1.eq_or_lt with rfl | h1
    · exact (l6 q J).symm
    · exact l3 q J x h1 h2
  · intro x h1 h2
    rcases h2.eq_or_lt with rfl | h2
    · exact (l6 q J).symm
    · exact l4 q J x h1 h2
  · rw [← l6]; exact hasDerivAt_poly _ _ _
  · rw [← l6]; exact hasDerivAt_poly _ _ _

/-- Differentiating the tensor product along one dimension. -/
theorem val_hasDerivAt {C : (Fin D → ℕ) → V} {m : Fin D → ℕ} {x : Fin D → ℝ} {d : Fin D}
    (hw : ∀ J, HasDerivAt (fun t => b.wAt d (m d) t J) (b.wAt d (m d + 1) (x d) J) (x d)) :
    HasDerivAt (fun t => b.val C m (Function.update x d t)) (b.val C (Function.update m d (m d + 1)) x) (x d) := by
  have e : ∀ (m' : Fin D → ℕ) (y : Fin D → ℝ) (t : ℝ) (q : ℕ), (∀ c, c ≠ d → m' c = m c) → m' d = q → (∀ c, c ≠ d → y c = x c) → y d = t →
      b.val C m' y = ∑ J ∈ Fintype.piFinset (fun d => Finset.range (b.ctrl.dims d)),
        (b.wAt d q t (J d) * ∏ c ∈ Finset.univ.erase d, b.wAt c (m c) (x c) (J c)) • C J := by
    intro m' y t q h1 h2 h3 h4
    refine Finset.sum_congr rfl fun J _ => ?_
    rw [← Finset.mul_prod_erase _ _ (Finset.mem_univ d)]
    simp only [h2, h4]
    congr 2
    refine Finset.prod_congr rfl fun c hc => ?_
    rw [h1 c (Finset.ne_of_mem_erase hc), h3 c (Finset.ne_of_mem_erase hc)]
  have e1 : (fun t => b.val C m (Function.update x d t)) = fun t => ∑ J ∈ Fintype.piFinset (fun d => Finset.range (b.ctrl.dims d)),
        (b.wAt d (m d) t (J d) * ∏ c ∈ Finset.univ.erase d, b.wAt c (m c) (x c) (J c)) • C J := by
    funext t
    exact e m _ t (m d) (fun _ _ => rfl) rfl (fun c hc => Function.update_of_ne hc _ _) (Function.update_self _ _ _)
  rw [e1, e (Function.update m d (m d + 1)) x (x d) (m d + 1) (fun c hc => Function.update_of_ne hc _ _) (Function.update_self _ _ _)
    (fun _ _ => rfl) rfl]
  refine HasDerivAt.fun_sum fun J _ => ?_
  exact ((hw (J d)).mul_const _).smul_const _

theorem val_continuous {C : (Fin D → ℕ) → V} {m : Fin D → ℕ} (hw : ∀ d J, Continuous fun t => b.wAt d (m d) t J) :
    Continuous fun x => b.val C m x := by
  unfold val tensorVal
  refine continuous_finsetSum _ fun J _ => ?_
  refine Continuous.smul (continuous_finsetProd _ fun d _ => ?_) continuous_const
  exact (hw d (J d)).comp (continuous_apply d)

end BSpline
end Intp
