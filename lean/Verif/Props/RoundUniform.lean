import Verif.Proofs.InterpAxes

/-!
# C79, with uniform dimensions

Each dimension is given by explicit coordinates or by the two ends of its range; no dimension is periodic.
-/

namespace Intp

open Finset BSpline

/-- **C79**, conditions on the inputs only.  `y d` is a coordinate of data point `I d`: the coordinate itself if the dimension is given by coordinates, any
`double` of the range within `8 B / 2^53` of `a + i (b - a) / (n - 1)` if it is uniform.  `R` bounds the quotient of the size of the coordinates and the step of
the uniform dimensions (`0` is possible if there are none). -/
theorem double_interpolates_axes {D : ℕ} (w : Bool) (c : Cfg) {o : ℕ} (ho : 1 ≤ o ∧ o ≤ 50) {fm : Mesh (D + 1) F64} (hfm : fm.WF)
    (hn : ∀ d, o + 1 ≤ fm.dims d) {x : Fin (D + 1) → XRange F64} {P : Fin (D + 1) → ℕ → ℚ → Prop} {r : Fin (D + 1) → ℚ}
    (hx : ∀ d, GoodAxis (fm.dims d) (x d) (P d) (r d)) {R : ℚ} (hr : ∀ d, r d ≤ R)
    {t : Template (D + 1) F64 F64} (ht : Fl.constructT w c o (fun _ => false) fm.dims x = .ok t)
    {g : InterpFn (D + 1) F64 F64} (hg : Fl.construct w c o (fun _ => false) fm x = .ok g)
    {C : ℚ} (hC : ∀ v ∈ g.spline.ctrl.storage, ∃ q, v = .fin q ∧ IsDouble q ∧ |q| ≤ C) (hC1 : 0 ≤ C ∧ C ≤ 2 ^ 1000)
    {G : ℚ} (hG : ∀ d, FactorsIn c (t.solvers d) (fm.dims d) (o - 1) G) {E : ℚ} (hE : E = (D + 1) * o * (4 * G + 8 + 64 * R)) (hE1 : E ≤ 2 ^ 50)
    {k : ℕ} (hk : k = (D + 1) * (5 * o + 1) + 1 + (o + 1) ^ (D + 1)) (hk1 : k ≤ 2 ^ 50) {I : Fin (D + 1) → ℕ} (hI : InRange fm.dims I)
    {y : Fin (D + 1) → ℚ} (hy : ∀ d, P d (I d) (y d)) :
    ∃ v q, Fl.call g (fun d => .fin (y d)) = .ok (.fin v) ∧ fm.get I = .ok (.fin q) ∧ |v - q| ≤ (3 * k + 2 * E) / 2 ^ 53 * C + 1 / 2 ^ 100 := by
  obtain ⟨htd, hord, hper, hok, hax⟩ := axisNear_of ho hn hx ht
  choose T hT using hax
  unfold Fl.construct at hg
  rw [ht, ok_bind] at hg
  obtain ⟨W, hW, hg⟩ : ∃ W, Fl.solveForControlPoints c t fm = .ok W ∧
      (.ok { t.base with spline := t.base.spline.loadCtrlPts W } : M (InterpFn (D + 1) F64 F64)) = .ok g := by
    cases h : Fl.solveForControlPoints c t fm with
    | error e => rw [h] at hg; cases hg
    | ok W => rw [h, ok_bind] at hg; exact ⟨W, rfl, hg⟩
  have hg := (Except.ok.inj hg).symm
  have gsp : g.spline = t.base.spline.loadCtrlPts W := by rw [hg]
  have hb : DoubleSpline g.spline C := by
    rw [gsp] at hC ⊢
    exact axes_spline ho hfm hn htd hord hper hok hT hW hC hC1 (hk ▸ hk1)
  have gord : g.spline.order = o := by rw [gsp]; exact hord
  have gper : ∀ d, g.spline.periodicity d = false := fun d => by rw [gsp]; exact hper d
  have gkn : ∀ d, g.spline.rat.kn d = knotFn (T d) := fun d => by
    unfold BSpline.kn
    have : g.spline.rat.knots d = (t.base.spline.knots d).map F64.toRat := by rw [gsp]; rfl
    rw [this, (hT d).knots, List.map_map]
    exact congrArg knotFn (List.map_id _)
  have hlast : ∀ d, g.spline.rat.last d = fm.dims d - 1 := fun d => by
    have := hn d
    unfold BSpline.last
    rw [show g.spline.rat.knots d = (t.base.spline.knots d).map F64.toRat by rw [gsp]; rfl, (hT d).knots, List.length_map, List.length_map, (hT d).len,
      show g.spline.rat.order = o from gord]
    omega
  have hG0 : 0 ≤ G := by
    obtain ⟨lu, Cf, -, -, h⟩ := hG 0
    refine le_trans ?_ (h ⟨0, by have := hn 0; omega⟩)
    positivity
  have hR0 : 0 ≤ R := (hx 0).small.2.trans (hr 0)
  choose b1 b2 b3 hh hw using fun d => (hT d).pt (I d) (y d) (hI d) (hy d)
  choose Wm s w0 w1 w2 w3 w4 using hw
  have hshift : Template.shiftIx t.base.spline.order t.base.periodicity fm.dims I = I := by
    funext d
    unfold Template.shiftIx rowShift
    rw [show t.base.periodicity d = false from hper d]
    simp only [Bool.false_eq_true, if_false, add_zero]
    exact Nat.mod_eq_of_lt (hI d)
  have ho0 : (0 : ℚ) ≤ o := Nat.cast_nonneg _
  have hDε : ((D : ℚ) + 1) * ((o * (4 * G + 1) + (7 * o + 64 * (o * R))) / 2 ^ 53) = E / 2 ^ 53 := by rw [hE]; ring
  obtain ⟨v, q, h1, h2, h3⟩ := interp_core hfm (fun d => by rw [htd]; have := hn d; omega) (fun d => by rw [htd, show t.base.periodicity d = false from hper d]; simp)
    hW hg hb (Wm := Wm) (fun d i J hi _ => w0 d i J (by rw [htd] at hi; exact hi)) (fun d i hi => by rw [htd] at hi ⊢; exact w1 d i hi)
    (ε := (o * (4 * G + 1) + (7 * o + 64 * (o * R))) / 2 ^ 53) (by positivity)
    (by rw [hDε, div_le_iff₀ (by positivity)]; exact hE1.trans (by norm_num))
    (fun d => by
      rw [htd]
      refine ((w2 d).mono ?_).solves ho (by have := hn d; omega) (hx d).small.1 (hG d)
      have := mul_le_mul_of_nonneg_left (hr d) ho0
      linarith)
    (k := k) (by rw [hk, hord]) (I := I) (by rw [htd]; exact hI) (x := fun d => .fin (y d)) (w := y)
    ⟨fun d => by rw [gper d]; rfl, b1, fun d => by
      have := hn d
      rw [gkn, gord, hlast, show fm.dims d - 1 + 1 = fm.dims d by omega]
      exact ⟨b2 d, b3 d⟩, fun d h => by rw [gper d] at h; cases h⟩
    (fun d J hJ => by
      have e := wAt_aper hb.wf (show g.spline.rat.periodicity d = false from gper d) (x := y d) (s := s d)
        (by rw [gkn, show g.spline.rat.order = o from gord, hlast]; exact w3 d) J
      rw [e, gkn, show g.spline.rat.order = o from gord, htd, hshift, w4])
    (fun d => by rw [hg]; exact hh d)
  refine ⟨v, q, h1, h2, h3.trans (le_of_eq ?_)⟩
  rw [hDε]; ring

/-- **C79**, when elimination leaves no negative entry: the error does not depend on the growth of the factors. -/
theorem double_interpolates_axes_positive {D : ℕ} (w : Bool) (c : Cfg) {o : ℕ} (ho : 1 ≤ o ∧ o ≤ 50) {fm : Mesh (D + 1) F64} (hfm : fm.WF)
    (hn : ∀ d, o + 1 ≤ fm.dims d) {x : Fin (D + 1) → XRange F64} {P : Fin (D + 1) → ℕ → ℚ → Prop} {r : Fin (D + 1) → ℚ}
    (hx : ∀ d, GoodAxis (fm.dims d) (x d) (P d) (r d)) {R : ℚ} (hr : ∀ d, r d ≤ R)
    {t : Template (D + 1) F64 F64} (ht : Fl.constructT w c o (fun _ => false) fm.dims x = .ok t)
    {g : InterpFn (D + 1) F64 F64} (hg : Fl.construct w c o (fun _ => false) fm x = .ok g)
    {C : ℚ} (hC : ∀ v ∈ g.spline.ctrl.storage, ∃ q, v = .fin q ∧ IsDouble q ∧ |q| ≤ C) (hC1 : 0 ≤ C ∧ C ≤ 2 ^ 1000)
    (hG : ∀ d, FactorsPos c (t.solvers d) (fm.dims d) (o - 1)) {E : ℚ} (hE : E = (D + 1) * o * (16 + 64 * R)) (hE1 : E ≤ 2 ^ 50)
    {k : ℕ} (hk : k = (D + 1) * (5 * o + 1) + 1 + (o + 1) ^ (D + 1)) (hk1 : k ≤ 2 ^ 50) {I : Fin (D + 1) → ℕ} (hI : InRange fm.dims I)
    {y : Fin (D + 1) → ℚ} (hy : ∀ d, P d (I d) (y d)) :
    ∃ v q, Fl.call g (fun d => .fin (y d)) = .ok (.fin v) ∧ fm.get I = .ok (.fin q) ∧ |v - q| ≤ (3 * k + 2 * E) / 2 ^ 53 * C + 1 / 2 ^ 100 := by
  obtain ⟨htd, hord, hper, hok, hax⟩ := axisNear_of ho hn hx ht
  refine double_interpolates_axes w c ho hfm hn hx hr ht hg hC hC1 (G := 2) (fun d => ?_) (by rw [hE]; ring) hE1 hk hk1 hI hy
  obtain ⟨T, hT⟩ := hax d
  obtain ⟨W, w1, w2⟩ := hT.rows
  refine w2.growth ho (by have := hn d; omega) (hx d).small.1 w1 ?_ (hG d)
  have ho0 : (0 : ℚ) ≤ o := Nat.cast_nonneg _
  have hR0 : 0 ≤ R := (hx 0).small.2.trans (hr 0)
  have h1 : (o : ℚ) * r d ≤ o * R := mul_le_mul_of_nonneg_left (hr d) ho0
  have h2 : 1 * ((o : ℚ) * (16 + 64 * R)) ≤ (D + 1) * (o * (16 + 64 * R)) :=
    mul_le_mul_of_nonneg_right (by have : (0 : ℚ) ≤ D := Nat.cast_nonneg _; linarith) (by positivity)
  rw [div_le_iff₀ (by positivity)]
  rw [hE] at hE1
  have h3 : (7 * (o : ℚ) + 64 * (o * r d)) ≤ 2 ^ 50 := by nlinarith
  exact h3.trans (by norm_num)

/-! ## A case: order 2, six equidistant points of `[0, 1]` in the first dimension, four uneven coordinates in the second -/

namespace RoundUniformExample

def cfg : Cfg := ⟨true, false⟩
def xs : List ℚ := [0, 1 / 2, 7 / 4, 3]
def X : ℕ → ℚ := fun i => xs.getD i 0
def values : List ℚ := [1, -2, 1 / 2, 4, 3, 1, 0, 2, -1, 5, 3 / 4, 2, 2, 1, 1, -3, 0, 1, 7, 2, -1 / 4, 6, 3, 1]
def data : Mesh 2 F64 := ⟨![6, 4], values.map F64.fin⟩
def range : Fin 2 → XRange F64 := ![.uniform (.fin 0) (.fin 1), .coords (xs.map F64.fin)]

def template : M (Template 2 F64 F64) := Fl.constructT false cfg 2 (fun _ => false) data.dims range
def fn : M (InterpFn 2 F64 F64) := Fl.construct false cfg 2 (fun _ => false) data range

/-- Factors of a solver, if every entry of the band is finite, not negative and not large. -/
def posB (n p : ℕ) (s : Solver F64) : Bool :=
  match s with
  | .band lu => decide (∀ i < n, ∀ j < n, i ≤ j + p ∧ j ≤ i + p →
      (match lu.store.get cfg i j with
        | .ok v => decide (v = .fin v.toRat ∧ 0 ≤ v.toRat ∧ v.toRat ≤ 2 ^ 400)
        | .error _ => false) = true)
  | _ => false

theorem pos_of {n p : ℕ} {s : Solver F64} (h : posB n p s = true) : FactorsPos cfg s n p := by
  unfold posB at h
  cases s with
  | band lu =>
    dsimp only at h
    have h := of_decide_eq_true h
    refine ⟨lu, fun i j => match lu.store.get cfg i j with | .ok v => v.toRat | .error _ => 0, rfl, fun i j hi hj hb => ?_⟩
    have := h i hi j hj hb
    dsimp only
    cases e : lu.store.get cfg i j with
    | ok v => rw [e] at this; exact ⟨congrArg Except.ok (of_decide_eq_true this).1, (of_decide_eq_true this).2⟩
    | error e' => rw [e] at this; cases this
  | _ => cases h

/-- Coordinates of the data points: a double next to `i / 5`, and coordinate `j`. -/
def P : Fin 2 → ℕ → ℚ → Prop := ![fun i x => IsDouble x ∧ 0 ≤ x ∧ x ≤ 1 ∧ |x - (0 + i * (1 / 5))| ≤ 8 * 1 / 2 ^ 53, fun i x => x = X i]

theorem good : ∀ d, GoodAxis (data.dims d) (range d) (P d) (![5, 0] d) := by
  intro d
  match d with
  | 0 =>
    refine GoodAxis.uniform (B := 1) (H := 1 / 5) ⟨by decide, by decide, ?_, ?_, by norm_num, by norm_num, by decide +kernel, by show (1 / 5 : ℚ) * ((6 : ℕ) - 1) = 1 - 0; norm_num, by norm_num,
      by decide +kernel⟩ (by show (1 : ℚ) ≤ 5 * (1 / 5); norm_num)
    · exact isDouble_of_round (show F64.round 0 = .fin 0 by decide +kernel)
    · exact isDouble_of_round (show F64.round 1 = .fin 1 by decide +kernel)
  | 1 =>
    refine GoodAxis.coords (X := X) (B := 3) (h := 1 / 2) ⟨rfl, fun i hi => ?_, fun i hi => ?_, fun i hi => ?_⟩ (by decide +kernel) ⟨fun i hi => ?_, by norm_num [data], by decide +kernel⟩
      (by decide)
    all_goals have hi : i < 4 := by first | exact hi | exact (Nat.lt_succ_self i).trans hi
    · interval_cases i <;> rfl
    · have : F64.round (X i) = .fin (X i) := by interval_cases i <;> decide +kernel
      exact isDouble_of_round this
    · interval_cases i <;> decide +kernel
    · rename_i h4
      have h4 : i + 1 < 4 := h4
      have : i < 3 := by omega
      interval_cases i <;> decide +kernel

/-- Every hypothesis of `double_interpolates_axes_positive` (hence of `double_interpolates_axes`) holds. -/
theorem hypotheses : ∃ t g, template = .ok t ∧ fn = .ok g ∧ (∀ d, FactorsPos cfg (t.solvers d) (data.dims d) (2 - 1)) ∧
    (∀ v ∈ g.spline.ctrl.storage, ∃ q, v = .fin q ∧ IsDouble q ∧ |q| ≤ 32) := by
  have h : (match template, fn with
    | .ok t, .ok g => (posB 6 1 (t.solvers 0) && posB 4 1 (t.solvers 1)) &&
      decide (∀ v ∈ g.spline.ctrl.storage, v = .fin v.toRat ∧ F64.round v.toRat = v ∧ |v.toRat| ≤ 32)
    | _, _ => false) = true := by decide +kernel
  cases ht : template with
  | error e => rw [ht] at h; cases h
  | ok t =>
    cases hg : fn with
    | error e => rw [ht, hg] at h; cases h
    | ok g =>
      rw [ht, hg] at h
      dsimp only at h
      rw [Bool.and_eq_true, Bool.and_eq_true] at h
      refine ⟨t, g, rfl, rfl, fun d => ?_, fun v hv => ?_⟩
      · match d with
        | 0 => exact pos_of h.1.1
        | 1 => exact pos_of h.1.2
      · obtain ⟨h1, h2, h3⟩ := of_decide_eq_true h.2 v hv
        exact ⟨_, h1, isDouble_of_round (h2.trans h1), h3⟩

example : ∃ g, fn = .ok g ∧ ∀ (i : Fin 6) (j : Fin 4) (z : ℚ), IsDouble z → 0 ≤ z → z ≤ 1 → |z - i / 5| ≤ 1 / 2 ^ 50 →
    ∃ v, Fl.call g ![.fin z, .fin (X j)] = .ok (.fin v) ∧ |v - values.getD (4 * i + j) 0| ≤ 1 / 2 ^ 34 := by
  obtain ⟨t, g, ht, hg, hF, hC⟩ := hypotheses
  refine ⟨g, hg, fun i j z z1 z2 z3 z4 => ?_⟩
  obtain ⟨v, q, h1, h2, h3⟩ := double_interpolates_axes_positive false cfg (o := 2) (by omega) (fm := data) rfl (by decide) good (R := 5)
    (fun d => by match d with | 0 => exact le_rfl | 1 => show (0 : ℚ) ≤ 5; norm_num) ht hg hC (by constructor <;> decide +kernel) hF rfl (by norm_num) rfl (by norm_num) (I := ![i, j]) (fun d => by
      match d with
      | 0 => exact i.isLt
      | 1 => exact j.isLt) (y := ![z, X j]) (fun d => by
      match d with
      | 0 => exact ⟨z1, z2, z3, by show |z - (0 + (i : ℕ) * (1 / 5))| ≤ _; rw [zero_add, mul_one_div]; exact z4.trans (by norm_num)⟩
      | 1 => rfl)
  have e : (fun d => F64.fin ((![z, X j] : Fin 2 → ℚ) d)) = ![.fin z, .fin (X j)] := by
    funext d
    match d with
    | 0 => rfl
    | 1 => rfl
  rw [e] at h1
  have hq : ∀ (i : Fin 6) (j : Fin 4), data.get ![i, j] = .ok (.fin (values.getD (4 * i + j) 0)) := by decide +kernel
  rw [hq i j] at h2
  cases h2
  refine ⟨v, h1, h3.trans ?_⟩
  norm_num

end RoundUniformExample

end Intp
