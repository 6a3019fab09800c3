import Verif.Proofs.PivotA
import Verif.Proofs.PivotC
import Verif.Props.Coords

/-!
# Construction never meets a zero pivot (C29, C55)
-/

namespace Intp

open Finset Polynomial

variable {K V : Type} [Field K] [LinearOrder K] [IsStrictOrderedRing K] [FloorRing K] [AddCommGroup V] [Module K V] {D : ℕ}

/-- **C29, matrices.**  Every leading minor of the coefficient matrix of a non-periodic dimension is positive, so elimination without
pivoting never divides by zero. -/
theorem aperiodic_minors_pos {o N : ℕ} {x : XRange K} (h : x.Valid o N false) {r : ℕ} (hr : r < N) :
    0 < (lead (x.mat o N false) (r + 1)).det := h.lead_pos hr

/-- **C29.**  If no dimension is periodic, construction succeeds for all valid coordinates and all data. -/
theorem aperiodic_construct_ok (c : Cfg) {o : ℕ} {fm : Mesh (D + 1) V} {x : Fin (D + 1) → XRange K} (hm : fm.WF)
    (hN : ∀ d, o + 1 ≤ fm.dims d ∧ 2 ≤ fm.dims d)
    (hx : ∀ d, (∃ a b, x d = .uniform a b ∧ a < b) ∨
      ∃ l, x d = .coords l ∧ l.length = fm.dims d ∧ (∀ i, i + 1 < l.length → l.getD i 0 < l.getD (i + 1) 0) ∧ 1 ≤ o) :
    ∃ g, InterpFn.construct c o (fun _ => false) fm x = .ok g := by
  have hpt : ∀ k, pointNum c false k = k := fun k => by unfold pointNum; simp
  have hv : ValidAxes c o (fun _ => false) fm.dims x := by
    intro d
    rw [hpt]
    refine ⟨by simp, fun _ => hN d, ?_, ?_⟩
    · intro a b e
      rcases hx d with ⟨a', b', e', h⟩ | ⟨l, e', -⟩
      · rw [e] at e'; cases e'; exact h
      · rw [e] at e'; cases e'
    · intro l e
      rcases hx d with ⟨a', b', e', h⟩ | ⟨l', e', h1, h2, h3⟩
      · rw [e] at e'; cases e'
      · rw [e] at e'; cases e'
        exact ⟨h1, fun i hi => h2 i (by omega), fun _ => h3⟩
  refine (construct_ok_iff c hm hv).2 fun d r hr => ?_
  rw [hpt] at hr ⊢
  have := hv d
  rw [hpt] at this
  exact (this.lead_pos hr).ne'

/-- **C29, data of a polynomial.**  Without periodic dimensions, samples of a polynomial of degree at most `order` are always interpolated,
and by that polynomial. -/
theorem aperiodic_polynomial (c : Cfg) {o : ℕ} {l f : List K} (ho : 1 ≤ o) (hl : o + 1 ≤ l.length) (hf : f.length = l.length)
    (hinc : ∀ i, i + 1 < l.length → l.getD i 0 < l.getD (i + 1) 0) {P : K[X]} (hP : P.natDegree ≤ o)
    (hv : ∀ i < l.length, f.getD i 0 = P.eval (l.getD i 0)) :
    ∃ g, InterpFn.construct1 c o false f (.coords l) = .ok g ∧ ∀ y, g.call (fun _ => y) = .ok (P.eval y) := by
  have hw : (Mesh.ofList f).WF := by unfold Mesh.WF Mesh.ofList; simp
  obtain ⟨g, hg⟩ := aperiodic_construct_ok c (o := o) (fm := Mesh.ofList f) (x := fun _ => .coords l) hw
    (fun _ => by show o + 1 ≤ f.length ∧ 2 ≤ f.length; omega) (fun _ => .inr ⟨l, rfl, hf.symm, hinc, ho⟩)
  have hval : (XRange.coords l).Valid o f.length false :=
    ⟨by simp, fun _ => by omega, (fun a b e => by cases e), fun l' e => by cases e; exact ⟨hf.symm, fun i hi => hinc i (by omega), fun _ => ho⟩⟩
  exact ⟨g, hg, polynomial_reproduction_1d c hval hP (fun i hi => hv i (by omega)) hg⟩

/-- The hypotheses hold for a mesh with a uniform and a very uneven dimension. -/
example : ∃ g, InterpFn.construct (K := ℚ) ⟨true, false⟩ 3 (fun _ => false)
    (⟨![4, 5], [1, 2, 3, 4, 5, 6, 7, 8, 9, 10, 11, 12, 13, 14, 15, 16, 17, 18, 19, 20]⟩ : Mesh 2 ℚ)
    ![.uniform 0 1, .coords [0, 1 / 100, 1, 50, 51]] = .ok g := by
  refine aperiodic_construct_ok _ (by unfold Mesh.WF; decide) (fun d => ?_) (fun d => ?_)
  · fin_cases d <;> simp
  · fin_cases d
    · exact .inl ⟨0, 1, rfl, by norm_num⟩
    · refine .inr ⟨_, rfl, rfl, fun i hi => ?_, by norm_num⟩
      have hi' : i < 4 := by simp at hi; omega
      interval_cases i <;> norm_num

/-- **C55, matrices.**  No leading block of the coefficient matrix of a periodic dimension is singular if the dimension is uniform (any
order) or the order is at most 3 (any coordinates).  Missing: explicit coordinates of uneven spacing with order 4 and more. -/
theorem periodic_minors_partial {o N : ℕ} {x : XRange K} (h : x.Valid o N true) (hx : (∃ a b, x = .uniform a b) ∨ o ≤ 3) {r : ℕ} (hr : r < N - 1) :
    (lead (x.mat o N true) (r + 1)).det ≠ 0 := by
  cases x with
  | uniform a b => exact h.regular_uniform r hr
  | coords l =>
    rcases hx with ⟨a, b, e⟩ | ho
    · cases e
    · exact h.regular_coords ho r hr

/-- **C55.**  Construction succeeds for all data on every mixture of non-periodic dimensions, uniform periodic dimensions and, if the order is
at most 3, periodic dimensions with arbitrary increasing coordinates.  Missing: as for `periodic_minors_partial`. -/
theorem periodic_construct_ok_partial (c : Cfg) {o : ℕ} {per : Fin (D + 1) → Bool} {fm : Mesh (D + 1) V} {x : Fin (D + 1) → XRange K} (hm : fm.WF)
    (hv : ValidAxes c o per fm.dims x) (hx : ∀ d, per d = true → (∃ a b, x d = .uniform a b) ∨ o ≤ 3) :
    ∃ g, InterpFn.construct c o per fm x = .ok g := by
  refine (construct_ok_iff c hm hv).2 fun d r hr => ?_
  have h := hv d
  cases hp : per d with
  | false =>
    rw [hp] at h hr
    exact (h.lead_pos hr).ne'
  | true =>
    rw [hp] at h hr
    exact periodic_minors_partial h (hx d hp) hr

/-- **C55, with the values.**  On the same meshes the constructed function exists and takes the data at every node. -/
theorem periodic_interpolates_partial (c : Cfg) {o : ℕ} {per : Fin (D + 1) → Bool} {fm : Mesh (D + 1) V} {x : Fin (D + 1) → XRange K} (hm : fm.WF)
    (hv : ValidAxes c o per fm.dims x) (hx : ∀ d, per d = true → (∃ a b, x d = .uniform a b) ∨ o ≤ 3) :
    ∃ g, InterpFn.construct c o per fm x = .ok g ∧ ∀ I J : Fin (D + 1) → ℕ, (∀ d, I d < pointNum c (per d) (fm.dims d)) →
      (∀ d, J d = if per d = true ∧ I d + 1 = pointNum c (per d) (fm.dims d) then 0 else I d) →
      ∃ v, fm.get J = .ok v ∧ g.call (nodeAt c per fm.dims x I) = .ok v := by
  obtain ⟨g, hg⟩ := periodic_construct_ok_partial c hm hv hx
  exact ⟨g, hg, fun I J hI hJ => interpolation_condition c hm hv hg hI hJ⟩

/-- The hypotheses hold for a periodic dimension of very uneven spacing beside a non-periodic one, with cubic splines. -/
example : ∃ g, InterpFn.construct (K := ℚ) ⟨true, false⟩ 3 ![true, false]
    (⟨![5, 4], [1, 2, 3, 4, 5, 6, 7, 8, 9, 10, 11, 12, 13, 14, 15, 16, 17, 18, 19, 20]⟩ : Mesh 2 ℚ)
    ![.coords [0, 1 / 100, 1, 50, 51], .uniform 0 1] = .ok g := by
  refine periodic_construct_ok_partial _ (by unfold Mesh.WF; decide) (fun d => ?_) (fun d _ => .inr le_rfl)
  fin_cases d
  · refine ⟨fun _ => by decide, fun h => by simp at h, (fun a b e => by simp at e), fun l e => ?_⟩
    simp at e
    subst e
    refine ⟨rfl, fun i hi => ?_, fun h => by simp at h⟩
    have hi' : i < 4 := by simp [pointNum] at hi; omega
    interval_cases i <;> norm_num
  · refine ⟨fun h => by simp at h, fun _ => by decide, (fun a b e => ?_), fun l e => by simp at e⟩
    simp at e
    rw [← e.1, ← e.2]
    norm_num

/-- The hypotheses hold for a uniform periodic dimension with splines of order 6 and the fewest points allowed. -/
example : ∃ g, InterpFn.construct (K := ℚ) ⟨true, false⟩ 6 (fun _ => true) (Mesh.ofList [(3 : ℚ), 1, 4, 1, 5, 9, 2, 3]) (fun _ => .uniform 0 7) = .ok g := by
  refine periodic_construct_ok_partial _ (by unfold Mesh.WF Mesh.ofList; decide) (fun d => ?_) (fun d _ => .inl ⟨_, _, rfl⟩)
  refine ⟨fun _ => by simp [pointNum, Mesh.ofList], fun h => by simp at h, (fun a b e => ?_), fun l e => by simp at e⟩
  simp at e
  rw [← e.1, ← e.2]
  norm_num

end Intp
