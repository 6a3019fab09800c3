import Verif.Proofs.ApproxInterp
import Verif.Props.Pivot
import Mathlib.Analysis.SpecialFunctions.Trigonometric.Deriv
import Mathlib.Analysis.SpecialFunctions.Trigonometric.Basic
import Mathlib.Analysis.SpecificLimits.Basic
import Mathlib.Algebra.Field.Periodic
import Mathlib.Order.Interval.Finset.Fin

/-!
# Properties of interpolation as an approximation: projection, stability, best approximation, order of convergence (C99–C101)
-/

namespace Intp

open Finset BSpline

section
variable {K V : Type} [Field K] [LinearOrder K] [IsStrictOrderedRing K] [FloorRing K] [AddCommGroup V] [Module K V] {D : ℕ}

/-! ## C99 -/

/-- **C99, splines are reproduced.**  Let `g₀` be an interpolation, and `S` the same object with any control points.  Interpolating the values of
`S` at the data points gives exactly the object `S`. -/
theorem interpolation_projection (c : Cfg) {o : ℕ} {per : Fin (D + 1) → Bool} {fm₀ fm : Mesh (D + 1) V} {x : Fin (D + 1) → XRange K} (hm₀ : fm₀.WF)
    (hv : ValidAxes c o per fm₀.dims x) {g₀ : InterpFn (D + 1) K V} (hg₀ : InterpFn.construct c o per fm₀ x = .ok g₀) {W : Mesh (D + 1) V} (hW : W.WF)
    (hWd : W.dims = g₀.spline.ctrl.dims) (hm : fm.WF) (hd : fm.dims = fm₀.dims)
    (hf : ∀ I, InRange fm.dims I → InterpFn.call { g₀ with spline := g₀.spline.loadCtrlPts W } (nodeAt c per fm.dims x I) = fm.get I) :
    InterpFn.construct c o per fm x = .ok { g₀ with spline := g₀.spline.loadCtrlPts W } := by
  obtain ⟨F₀, hF₀⟩ := fm₀.exists_holds hm₀
  obtain ⟨hr, C₀, hC₀, -⟩ := (InterpFn.construct_spec (c := c) hv rfl hF₀).get hg₀
  obtain ⟨F, hF⟩ := fm.exists_holds hm
  have hv' : ValidAxes c o per fm.dims x := by rw [hd]; exact hv
  obtain ⟨g, hg⟩ := (construct_ok_iff c hm hv').2 (by rw [hd]; exact hr)
  obtain ⟨-, C, hC, hE⟩ := (InterpFn.construct_spec (c := c) hv' rfl hF).get hg
  obtain ⟨CW, hCW⟩ := W.exists_holds hW
  rw [hWd, show g₀.spline.ctrl.dims = nOf c per fm₀.dims from hC₀.ctrl.1, ← hd] at hCW
  have hS : InterpFn.Done c o per fm.dims x { g₀ with spline := g₀.spline.loadCtrlPts W } CW := by
    obtain ⟨ic, hic⟩ := hC₀.built
    rw [← hd] at hic
    exact hic.withCtrl hCW
  have hES : CtrlEqs c o per fm.dims x F CW := by
    intro I hI
    have hin : InRange fm.dims I := fun d => by
      have h1 : I d < nOf c per fm.dims d := hI d
      have := hv'.dims_eq d
      unfold nOf at *
      omega
    have := hf I hin
    rw [hS.call hv', hF.get hin] at this
    injection this with this
    rw [← this, hS.val_eq]
    exact tensorVal_congr (fun _ _ => rfl) fun d J hJ => hS.mat_eq hv' d (hI d) hJ
  rw [hg]
  -- the two objects share everything but the control points
  unfold InterpFn.construct at hg hg₀
  rw [hd] at hg
  cases ht : Template.construct (V := V) c o per fm₀.dims x with
  | error e => rw [ht, error_bind] at hg; simp at hg
  | ok t =>
    rw [ht, ok_bind] at hg hg₀
    unfold Template.interpolateMove at hg hg₀
    cases h1 : t.solveForControlPoints c fm with
    | error e => rw [h1] at hg; simp [error_bind] at hg
    | ok w =>
      cases h0 : t.solveForControlPoints c fm₀ with
      | error e => rw [h0] at hg₀; simp [error_bind] at hg₀
      | ok w₀ =>
        rw [h1] at hg
        rw [h0] at hg₀
        simp only [ok_bind, pure_eq_ok, Except.ok.injEq] at hg hg₀
        have hw : w = W := by
          have e1 : g.spline.ctrl = w := by rw [← hg]; rfl
          rw [← e1]
          exact Mesh.ext_holds (fun d => (hv' d).unk_pos) hC.ctrl hCW fun J hJ => AllRegular.unique hv' (by rw [hd]; exact hr) hE hES (fun _ _ => rfl) hJ
        rw [← hg, ← hg₀, hw]
        rfl

/-- **C99, sampling an interpolation.**  Interpolating the values an interpolation takes at its own data points gives the same object. -/
theorem interpolation_idempotent (c : Cfg) {o : ℕ} {per : Fin (D + 1) → Bool} {fm₀ fm : Mesh (D + 1) V} {x : Fin (D + 1) → XRange K} (hm₀ : fm₀.WF)
    (hv : ValidAxes c o per fm₀.dims x) {g : InterpFn (D + 1) K V} (hg : InterpFn.construct c o per fm₀ x = .ok g) (hm : fm.WF) (hd : fm.dims = fm₀.dims)
    (hf : ∀ I, InRange fm.dims I → g.call (nodeAt c per fm.dims x I) = fm.get I) : InterpFn.construct c o per fm x = .ok g := by
  obtain ⟨F₀, hF₀⟩ := fm₀.exists_holds hm₀
  obtain ⟨-, C₀, hC₀, -⟩ := (InterpFn.construct_spec (c := c) hv rfl hF₀).get hg
  exact interpolation_projection c hm₀ hv hg (W := g.spline.ctrl) (by
    have := hC₀.ctrl.2.1
    unfold Mesh.WF
    rw [this, hC₀.ctrl.1]) rfl hm hd hf

/-! ## C100 -/

/-- **C100, stability.**  For dimensions of low order, data that differ by at most `ε` have interpolations that differ by at most
`stab o ^ D ε` between the data points. -/
theorem interpolation_stable (c : Cfg) {o : ℕ} {per : Fin (D + 1) → Bool} {f₁ f₂ : Mesh (D + 1) K} {x : Fin (D + 1) → XRange K} (h₁ : f₁.WF) (h₂ : f₂.WF)
    (hd : f₂.dims = f₁.dims) (hv : ValidAxes c o per f₁.dims x) (hl : ∀ d, (x d).Low o (per d)) {g₁ g₂ : InterpFn (D + 1) K K}
    (hg₁ : InterpFn.construct c o per f₁ x = .ok g₁) (hg₂ : InterpFn.construct c o per f₂ x = .ok g₂) {ε : K}
    (hε : ∀ I v₁ v₂, InRange f₁.dims I → f₁.get I = .ok v₁ → f₂.get I = .ok v₂ → |v₁ - v₂| ≤ ε) {y : Fin (D + 1) → K}
    (hy : ∀ d, y d ∈ (x d).dom (pointNum c (per d) (f₁.dims d)) (per d)) :
    ∃ v₁ v₂, g₁.call y = .ok v₁ ∧ g₂.call y = .ok v₂ ∧ |v₁ - v₂| ≤ (stab o : K) ^ (D + 1) * ε := by
  obtain ⟨F₁, hF₁⟩ := f₁.exists_holds h₁
  obtain ⟨-, C₁, hC₁, hE₁⟩ := (InterpFn.construct_spec (c := c) hv rfl hF₁).get hg₁
  obtain ⟨F₂, hF₂⟩ := f₂.exists_holds h₂
  rw [hd] at hF₂
  obtain ⟨-, C₂, hC₂, hE₂⟩ := (InterpFn.construct_spec (c := c) hv hd hF₂).get hg₂
  refine ⟨_, _, hC₁.call hv y, hC₂.call hv y, ?_⟩
  rw [hC₁.val_eq, hC₂.val_eq, tensorVal_sub]
  have := (hE₁.sub hE₂).stable hv (μ := fun _ => (stab o : K)) (fun d => (hv d).lowInv (hl d)) (A := ε) (fun I hI => by
    have hin : InRange f₁.dims I := fun d => by
      have h1 := hI d
      have := hv.dims_eq d
      unfold nOf at *
      omega
    exact hε I _ _ hin (hF₁.get hin) (hF₂.get hin)) hy
  rwa [prod_const, card_univ, Fintype.card_fin] at this

/-- **C100, bounds.**  For dimensions of low order, data of size at most `A` have an interpolation of size at most `stab o ^ D A` between the data points. -/
theorem interpolation_bounded (c : Cfg) {o : ℕ} {per : Fin (D + 1) → Bool} {fm : Mesh (D + 1) K} {x : Fin (D + 1) → XRange K} (hm : fm.WF)
    (hv : ValidAxes c o per fm.dims x) (hl : ∀ d, (x d).Low o (per d)) {A : K} (hA : ∀ I v, InRange fm.dims I → fm.get I = .ok v → |v| ≤ A) :
    ∃ g, InterpFn.construct c o per fm x = .ok g ∧ ∀ y, (∀ d, y d ∈ (x d).dom (pointNum c (per d) (fm.dims d)) (per d)) →
      ∃ v, g.call y = .ok v ∧ |v| ≤ (stab o : K) ^ (D + 1) * A := by
  obtain ⟨g, hg⟩ := periodic_construct_ok_partial c hm hv (fun d hp => by
    rcases hl d with h | ⟨h, -⟩
    · right; omega
    · left; exact h)
  refine ⟨g, hg, fun y hy => ?_⟩
  obtain ⟨F, hF⟩ := fm.exists_holds hm
  obtain ⟨-, C, hC, hE⟩ := (InterpFn.construct_spec (c := c) hv rfl hF).get hg
  refine ⟨_, hC.call hv y, ?_⟩
  rw [hC.val_eq]
  have := hE.stable hv (μ := fun _ => (stab o : K)) (fun d => (hv d).lowInv (hl d)) (A := A) (fun I hI => by
    have hin : InRange fm.dims I := fun d => by
      have h1 := hI d
      have := hv.dims_eq d
      unfold nOf at *
      omega
    exact hA I _ hin (hF.get hin)) hy
  rwa [prod_const, card_univ, Fintype.card_fin] at this

/-- **C100, nearly best approximation.**  For dimensions of low order, the interpolation `g` of a function `f` is, between the data points, as close
to `f` as any spline `S` on the same knots, up to the factor `1 + stab o ^ D`. -/
theorem interpolation_near_best (c : Cfg) {o : ℕ} {per : Fin (D + 1) → Bool} {fm : Mesh (D + 1) K} {x : Fin (D + 1) → XRange K} (hm : fm.WF)
    (hv : ValidAxes c o per fm.dims x) (hl : ∀ d, (x d).Low o (per d)) {f : (Fin (D + 1) → K) → K}
    (hf : ∀ I, InRange fm.dims I → fm.get I = .ok (f (nodeAt c per fm.dims x I))) {g : InterpFn (D + 1) K K} (hg : InterpFn.construct c o per fm x = .ok g)
    {W : Mesh (D + 1) K} (hW : W.WF) (hWd : W.dims = g.spline.ctrl.dims) {ε : K}
    (hS : ∀ z, (∀ d, z d ∈ (x d).dom (pointNum c (per d) (fm.dims d)) (per d)) →
      ∃ s, InterpFn.call { g with spline := g.spline.loadCtrlPts W } z = .ok s ∧ |f z - s| ≤ ε)
    {y : Fin (D + 1) → K} (hy : ∀ d, y d ∈ (x d).dom (pointNum c (per d) (fm.dims d)) (per d)) :
    ∃ v, g.call y = .ok v ∧ |f y - v| ≤ (1 + (stab o : K) ^ (D + 1)) * ε := by
  obtain ⟨F, hF⟩ := fm.exists_holds hm
  obtain ⟨-, C, hC, hE⟩ := (InterpFn.construct_spec (c := c) hv rfl hF).get hg
  obtain ⟨CW, hCW⟩ := W.exists_holds hW
  rw [hWd, show g.spline.ctrl.dims = nOf c per fm.dims from hC.ctrl.1] at hCW
  have hD : InterpFn.Done c o per fm.dims x { g with spline := g.spline.loadCtrlPts W } CW := by
    obtain ⟨ic, hic⟩ := hC.built
    exact hic.withCtrl hCW
  have hval : ∀ z, InterpFn.call { g with spline := g.spline.loadCtrlPts W } z =
      .ok (tensorVal (nOf c per fm.dims) (fun d => (x d).wt o (pointNum c (per d) (fm.dims d)) (per d) 0 (z d)) CW) := fun z => by rw [hD.call hv, hD.val_eq]
  have hES : CtrlEqs c o per fm.dims x (fun I => tensorVal (nOf c per fm.dims)
      (fun d => (x d).wt o (pointNum c (per d) (fm.dims d)) (per d) 0 (nodeAt c per fm.dims x I d)) CW) CW := fun I hI =>
    tensorVal_congr (fun _ _ => rfl) fun d J hJ => hD.mat_eq hv d (hI d) hJ
  have hdist : ∀ z, (∀ d, z d ∈ (x d).dom (pointNum c (per d) (fm.dims d)) (per d)) →
      |f z - tensorVal (nOf c per fm.dims) (fun d => (x d).wt o (pointNum c (per d) (fm.dims d)) (per d) 0 (z d)) CW| ≤ ε := fun z hz => by
    obtain ⟨s, h1, h2⟩ := hS z hz
    rw [hval] at h1
    injection h1 with h1
    rwa [h1]
  refine ⟨_, hC.call hv y, ?_⟩
  rw [hC.val_eq]
  have key := (hE.sub hES).stable hv (μ := fun _ => (stab o : K)) (fun d => (hv d).lowInv (hl d)) (A := ε) (fun I hI => by
    have hin : InRange fm.dims I := fun d => by
      have h1 := hI d
      have := hv.dims_eq d
      unfold nOf at *
      omega
    have h1 := hf I hin
    rw [hF.get hin] at h1
    injection h1 with h1
    rw [h1]
    refine hdist _ fun d => (hv d).node_dom ?_
    have h1 := hI d
    unfold nOf unk at h1
    omega) hy
  rw [prod_const, card_univ, Fintype.card_fin, ← tensorVal_sub] at key
  have h2 := hdist y hy
  rw [abs_le] at *
  constructor <;> linarith

end

/-! ## C101 -/

variable {D : ℕ}

/-- **C101, order of convergence.**  Let `f` be a function of several real variables, periodic in the periodic dimensions, whose derivatives of order
`o + 1` along each dimension `d` exist, are continuous and bounded by `M d`.  For dimensions of low order whose neighbouring data points are at most `H d`
apart, the interpolation of the values of `f` exists and differs from `f` by a multiple of `M d (H d) ^ (o + 1)`, summed over the dimensions, with constants
that depend on the order and the number of dimensions only. -/
theorem interpolation_converges (c : Cfg) {o : ℕ} {per : Fin (D + 1) → Bool} {fm : Mesh (D + 1) ℝ} {x : Fin (D + 1) → XRange ℝ} (hm : fm.WF)
    (hv : ValidAxes c o per fm.dims x) (hl : ∀ d, (x d).Low o (per d)) {H M : Fin (D + 1) → ℝ} (hH : ∀ d, (x d).Gap (pointNum c (per d) (fm.dims d)) (H d))
    {f : (Fin (D + 1) → ℝ) → ℝ}
    (hs : ∀ d z, (∀ e, z e ∈ (x e).dom (pointNum c (per e) (fm.dims e)) (per e)) →
      ContDiffOn ℝ (o + 1 : ℕ) (fun t => f (Function.update z d t)) ((x d).dom (pointNum c (per d) (fm.dims d)) (per d)) ∧
      ∀ t ∈ (x d).dom (pointNum c (per d) (fm.dims d)) (per d),
        |iteratedDerivWithin (o + 1) (fun t => f (Function.update z d t)) ((x d).dom (pointNum c (per d) (fm.dims d)) (per d)) t| ≤ M d)
    (hp : ∀ d z t, per d = true → f (Function.update z d (t + ((x d).node (pointNum c (per d) (fm.dims d)) (pointNum c (per d) (fm.dims d) - 1) -
      (x d).node (pointNum c (per d) (fm.dims d)) 0))) = f (Function.update z d t))
    (hf : ∀ I, InRange fm.dims I → fm.get I = .ok (f (nodeAt c per fm.dims x I))) :
    ∃ g, InterpFn.construct c o per fm x = .ok g ∧ ∀ y, (∀ d, y d ∈ (x d).dom (pointNum c (per d) (fm.dims d)) (per d)) →
      ∃ v, g.call y = .ok v ∧
        |f y - v| ≤ ∑ d : Fin (D + 1), (stab o : ℝ) ^ (d : ℕ) * ((1 + stab o) * (M d / (o + 1).factorial * ((2 * (o : ℝ) - 1) * H d) ^ (o + 1))) := by
  obtain ⟨g, hg⟩ := periodic_construct_ok_partial c hm hv (fun d hp => by
    rcases hl d with h | ⟨h, -⟩
    · right; omega
    · left; exact h)
  refine ⟨g, hg, fun y hy => ?_⟩
  obtain ⟨F, hF⟩ := fm.exists_holds hm
  obtain ⟨-, C, hC, hE⟩ := (InterpFn.construct_spec (c := c) hv rfl hF).get hg
  refine ⟨_, hC.call hv y, ?_⟩
  have ho : 1 ≤ o := by
    rcases hl 0 with h | ⟨-, h⟩ <;> omega
  have := hC.approx hv hE ho (μ := fun _ => (stab o : ℝ)) (fun d => (hv d).lowInv (hl d)) hH hs hp (fun I hI => by
    have hin : InRange fm.dims I := fun d => by
      have h1 := hI d
      have := hv.dims_eq d
      unfold nOf at *
      omega
    have h1 := hf I hin
    rw [hF.get hin] at h1
    injection h1 with h1) hy
  refine this.trans (le_of_eq (sum_congr rfl fun d _ => ?_))
  rw [prod_const, show (univ.filter (· < d)).card = (d : ℕ) by rw [filter_gt_eq_Iio, Fin.card_Iio]]

/-- The interval that is compared, for a dimension given by its ends. -/
theorem dom_uniform {K : Type} [Field K] [LinearOrder K] [IsStrictOrderedRing K] {a b : K} {N : ℕ} {per : Bool} (hN : 2 ≤ N) :
    (XRange.uniform a b).dom N per = {t | per = false → a ≤ t ∧ t ≤ b} ∧ (XRange.uniform a b).node N (N - 1) - (XRange.uniform a b).node N 0 = b - a := by
  have h1 : ((N : K) - 1) ≠ 0 := by
    have : (2 : K) ≤ N := by exact_mod_cast hN
    linarith
  have h2 : (XRange.uniform a b).node N (N - 1) = b := by
    simp only [XRange.node]
    rw [Nat.cast_sub (by omega), Nat.cast_one, mul_div_cancel₀ _ h1]
    ring
  have h3 : (XRange.uniform a b).node N 0 = a := by simp [XRange.node]
  unfold XRange.dom
  rw [h2, h3]
  exact ⟨rfl, rfl⟩

/-- **C101, one dimension.**  A function `f` on `[a, b]` with `o + 1` continuous derivatives, the last of size at most `M`, sampled at `N` equally spaced
points: the distance of the interpolation from `f` is at most a constant times `M ((b - a) / (N - 1)) ^ (o + 1)`. -/
theorem uniform_rate (c : Cfg) {o : ℕ} {per : Bool} {a b : ℝ} (hl : (XRange.uniform a b).Low o per) (hab : a < b) {fm : Mesh 1 ℝ} (hm : fm.WF) {N : ℕ}
    (hN : N = pointNum c per (fm.dims 0)) (hNp : per = true → 2 * (o / 2) + 2 ≤ N) (hNa : per = false → o + 1 ≤ N) {f : ℝ → ℝ} {M : ℝ} {S : Set ℝ}
    (hS : S = {t | per = false → a ≤ t ∧ t ≤ b}) (hs : ContDiffOn ℝ (o + 1 : ℕ) f S) (hM : ∀ t ∈ S, |iteratedDerivWithin (o + 1) f S t| ≤ M)
    (hp : per = true → ∀ t, f (t + (b - a)) = f t) (hf : ∀ i < fm.dims 0, fm.get (fun _ => i) = .ok (f (a + i * ((b - a) / ((N : ℝ) - 1))))) :
    ∃ g, InterpFn.construct c o (fun _ => per) fm (fun _ => .uniform a b) = .ok g ∧ ∀ y ∈ S, ∃ v, g.call (fun _ => y) = .ok v ∧
      |f y - v| ≤ (1 + stab o) * (M / (o + 1).factorial * ((2 * (o : ℝ) - 1) * ((b - a) / ((N : ℝ) - 1))) ^ (o + 1)) := by
  have ho : 1 ≤ o := by rcases hl with h | ⟨-, h⟩ <;> omega
  have h2 : 2 ≤ N := by cases per <;> simp at hNp hNa <;> omega
  have hdim : ∀ d : Fin 1, fm.dims d = fm.dims 0 := fun d => by rw [Subsingleton.elim d 0]
  have hv : ValidAxes c o (fun _ => per) fm.dims (fun _ => XRange.uniform a b) := fun d => by
    rw [hdim d, ← hN]
    exact ⟨hNp, fun h => ⟨hNa h, h2⟩, fun _ _ h => by injection h with h h'; rw [← h, ← h']; exact hab, fun _ h => by simp at h⟩
  obtain ⟨hdom, hlen⟩ := dom_uniform (a := a) (b := b) (per := per) h2
  rw [← hS] at hdom
  have hup : ∀ (z : Fin 1 → ℝ) (d : Fin 1) t, Function.update z d t 0 = t := fun z d t => by rw [Subsingleton.elim d 0]; exact Function.update_self ..
  obtain ⟨g, hg, h⟩ := interpolation_converges c hm hv (fun _ => hl) (H := fun _ => (b - a) / ((N : ℝ) - 1)) (M := fun _ => M) (f := fun z => f (z 0))
    (fun d => by
      rw [hdim d, ← hN]
      intro i _
      simp only [XRange.node]
      push_cast
      apply le_of_eq
      ring)
    (fun d z _ => by
      rw [hdim d, ← hN, hdom]
      simp only [hup]
      exact ⟨hs, hM⟩)
    (fun d z t h => by
      rw [hdim d, ← hN, hlen]
      simp only [hup]
      exact hp h t)
    (fun I hI => by
      have : I = fun _ => I 0 := funext fun (d : Fin 1) => by rw [Subsingleton.elim d 0]
      rw [this, hf (I 0) (hI 0)]
      simp only [nodeAt, XRange.node]
      rw [← hN])
  refine ⟨g, hg, fun y hy => ?_⟩
  obtain ⟨v, h1, h2⟩ := h (fun _ => y) (fun d => by rw [hdim d, ← hN, hdom]; exact hy)
  refine ⟨v, h1, h2.trans (le_of_eq ?_)⟩
  simp

/-- **C101, convergence.**  As the number of equally spaced sampling points of a function with `o + 1` continuous derivatives grows, the interpolations
converge to the function, uniformly on the whole interval. -/
theorem uniform_limit (c : Cfg) {o : ℕ} {per : Bool} {a b : ℝ} (hl : (XRange.uniform a b).Low o per) (hab : a < b) {f : ℝ → ℝ}
    (hs : ContDiffOn ℝ (o + 1 : ℕ) f {t | per = false → a ≤ t ∧ t ≤ b}) (hp : per = true → ∀ t, f (t + (b - a)) = f t) {ε : ℝ} (hε : 0 < ε) :
    ∃ n₀, ∀ fm : Mesh 1 ℝ, fm.WF → n₀ ≤ fm.dims 0 →
      (∀ i < fm.dims 0, fm.get (fun _ => i) = .ok (f (a + i * ((b - a) / ((pointNum c per (fm.dims 0) : ℝ) - 1))))) →
      ∃ g, InterpFn.construct c o (fun _ => per) fm (fun _ => .uniform a b) = .ok g ∧
        ∀ y, (per = false → a ≤ y ∧ y ≤ b) → ∃ v, g.call (fun _ => y) = .ok v ∧ |f y - v| ≤ ε := by
  set S : Set ℝ := {t | per = false → a ≤ t ∧ t ≤ b} with hS
  obtain ⟨M, hM0, hbound⟩ := exists_deriv_bound hab hS hs hp
  have ho : 1 ≤ o := by rcases hl with h | ⟨-, h⟩ <;> omega
  -- the bound tends to zero
  have hlim : Filter.Tendsto (fun n : ℕ => (1 + (stab o : ℝ)) * (M / (o + 1).factorial * ((2 * (o : ℝ) - 1) * ((b - a) / (((n + 1 : ℕ) : ℝ)))) ^ (o + 1)))
      Filter.atTop (nhds 0) := by
    have h1 : Filter.Tendsto (fun n : ℕ => (b - a) / (((n + 1 : ℕ) : ℝ))) Filter.atTop (nhds 0) :=
      (tendsto_const_div_atTop_nhds_zero_nat (b - a)).comp (Filter.tendsto_add_atTop_nat 1)
    have h2 := (((h1.const_mul (2 * (o : ℝ) - 1)).pow (o + 1)).const_mul (M / (o + 1).factorial)).const_mul (1 + (stab o : ℝ))
    simpa using h2
  obtain ⟨n₁, hn₁⟩ := (hlim.eventually (ge_mem_nhds hε)).exists_forall_of_atTop
  refine ⟨n₁ + 2 * o + 4, fun fm hm hn hf => ?_⟩
  have hNle : fm.dims 0 ≤ pointNum c per (fm.dims 0) := by unfold pointNum; omega
  obtain ⟨g, hg, h⟩ := uniform_rate c hl hab hm rfl (fun _ => by omega) (fun _ => by omega) hS hs hbound hp hf
  refine ⟨g, hg, fun y hy => ?_⟩
  obtain ⟨v, h1, h2⟩ := h y hy
  refine ⟨v, h1, h2.trans ?_⟩
  have := hn₁ (pointNum c per (fm.dims 0) - 2) (by omega)
  rw [show pointNum c per (fm.dims 0) - 2 + 1 = pointNum c per (fm.dims 0) - 1 by omega, Nat.cast_sub (by omega), Nat.cast_one] at this
  exact this

/-! ## Concrete cases -/

namespace ApproxExample

/-- 5 × 5 data as in `InterpExample`, on equally spaced points in both dimensions. -/
def x : Fin 2 → XRange ℚ := ![.uniform 0 6, .uniform 0 4]

theorem valid : ValidAxes InterpExample.cfg 3 InterpExample.per InterpExample.data.dims x := by
  intro d
  fin_cases d
  · exact ⟨by simp [InterpExample.per], fun _ => by simp [pointNum, InterpExample.cfg, InterpExample.data],
      fun a b h => by injection h with h1 h2; subst h1 h2; norm_num, by simp [x]⟩
  · exact ⟨fun _ => by simp [pointNum, InterpExample.cfg, InterpExample.data], by simp [InterpExample.per],
      fun a b h => by injection h with h1 h2; subst h1 h2; norm_num, by simp [x]⟩

theorem low : ∀ d, (x d).Low 3 (InterpExample.per d) := fun d => by
  fin_cases d
  · exact .inr ⟨⟨0, 6, rfl⟩, .inr (.inl rfl)⟩
  · exact .inr ⟨⟨0, 4, rfl⟩, .inr (.inl rfl)⟩

/-- Data between -7 and 7 give values between -700 and 700. -/
example : ∃ g, InterpFn.construct InterpExample.cfg 3 InterpExample.per InterpExample.data x = .ok g ∧
    ∀ y, (∀ d, y d ∈ (x d).dom 5 (InterpExample.per d)) → ∃ v, g.call y = .ok v ∧ |v| ≤ 700 := by
  obtain ⟨g, hg, h⟩ := interpolation_bounded InterpExample.cfg (by rfl) valid low (A := 7) (by
    have hall : ∀ v ∈ InterpExample.data.storage, |v| ≤ 7 := by decide +kernel
    intro I v _ hv
    unfold Mesh.get rd at hv
    split at hv
    · rename_i w hw
      have e : w = v := by injection hv
      rw [← e]
      exact hall _ (List.mem_of_getElem? hw)
    · simp at hv)
  refine ⟨g, hg, fun y hy => ?_⟩
  obtain ⟨v, h1, h2⟩ := h y hy
  refine ⟨v, h1, h2.trans ?_⟩
  norm_num [stab]

/-- Other control points: 5 × 4 values. -/
def W : Mesh 2 ℚ := ⟨![5, 4], [1, 0, 2, -1, 3, 1, 1, 0, 5, 2, 7, 1, -2, 0, 0, 4, 1, 1, 6, 2]⟩

/-- The spline with control points `W` is found again from its values at the 25 data points. -/
example : W.WF ∧ (do
    let g ← InterpFn.construct InterpExample.cfg 3 InterpExample.per InterpExample.data x
    let S := { g with spline := g.spline.loadCtrlPts W }
    let vals ← (List.range 25).mapM fun k => S.call ![(k / 5 : ℕ) * (3 / 2), (k % 5 : ℕ)]
    let g' ← InterpFn.construct InterpExample.cfg 3 InterpExample.per ⟨InterpExample.data.dims, vals⟩ x
    pure (decide (g.spline.ctrl.storage = W.storage), g'.spline.ctrl.storage) : M (Bool × List ℚ)) = .ok (false, W.storage) := by
  refine ⟨rfl, ?_⟩
  decide +kernel

/-- `n + 1` samples of the sine over a full period. -/
noncomputable def sine (n : ℕ) : Mesh 1 ℝ := ⟨fun _ => n + 1, (List.range (n + 1)).map fun i : ℕ => Real.sin (0 + (i : ℝ) * ((2 * Real.pi - 0) / (((n + 1 : ℕ) : ℝ) - 1)))⟩

/-- The periodic cubic interpolation of the sine with `n ≥ 3` subintervals differs from the sine by at most `(11 / 24) (10 π / n) ^ 4`, everywhere. -/
example (n : ℕ) (hn : 3 ≤ n) : ∃ g, InterpFn.construct InterpExample.cfg 3 (fun _ => true) (sine n) (fun _ => .uniform 0 (2 * Real.pi)) = .ok g ∧
    ∀ y : ℝ, ∃ v, g.call (fun _ => y) = .ok v ∧ |Real.sin y - v| ≤ 11 / 24 * (10 * Real.pi / n) ^ 4 := by
  obtain ⟨g, hg, h⟩ := uniform_rate InterpExample.cfg (o := 3) (per := true) (a := 0) (b := 2 * Real.pi) (fm := sine n) (N := n + 1) (f := Real.sin) (M := 1)
    (S := Set.univ) (.inr ⟨⟨_, _, rfl⟩, .inr (.inl rfl)⟩) (by positivity)
    (by simp [Mesh.WF, sine]) (by simp [pointNum, sine, InterpExample.cfg]) (fun _ => by omega) (by simp) (by ext; simp) Real.contDiff_sin.contDiffOn
    (fun t _ => by
      rw [iteratedDerivWithin_univ, iteratedDeriv_succ, iteratedDeriv_succ, iteratedDeriv_succ, iteratedDeriv_succ, iteratedDeriv_zero]
      simp [Real.abs_sin_le_one])
    (fun _ t => by rw [sub_zero, Real.sin_add_two_pi])
    (fun i hi => by
      have hi' : i < n + 1 := hi
      have e : indexing (sine n).dims (fun _ : Fin 1 => i) = i := by
        rw [indexing_succ, indexing_zero]
        simp
      rw [Mesh.get, e, rd]
      simp only [sine, List.getElem?_map, List.getElem?_range hi', Option.map_some])
  refine ⟨g, hg, fun y => ?_⟩
  obtain ⟨v, h1, h2⟩ := h y trivial
  refine ⟨v, h1, h2.trans (le_of_eq ?_)⟩
  have : (n : ℝ) ≠ 0 := by positivity
  norm_num [stab, Nat.factorial]
  ring

end ApproxExample

end Intp
