import Verif.Proofs.DominantRows
import Verif.Props.RoundUniform

/-!
# C84: interpolation of order 1, 2 and 3 over uniform dimensions in `double`

Nothing is assumed about the factors or the control points: the constructor succeeds, the control points are bounded by the data, and the data are
reproduced.  Dimensions with explicit coordinates are included for linear interpolation.
-/

namespace Intp

open Finset BSpline

/-- The constructor succeeds on good axes, with and without assertions, whatever the data are. -/
theorem double_construct_ok {D : ℕ} (w : Bool) (c : Cfg) {o : ℕ} (ho : 1 ≤ o ∧ o ≤ 50) {fm : Mesh (D + 1) F64} (hfm : fm.WF)
    (hn : ∀ d, o + 1 ≤ fm.dims d) {x : Fin (D + 1) → XRange F64} {P : Fin (D + 1) → ℕ → ℚ → Prop} {r : Fin (D + 1) → ℚ}
    (hx : ∀ d, GoodAxis (fm.dims d) (x d) (P d) (r d)) :
    ∃ t g W, Fl.constructT w c o (fun _ => false) fm.dims x = .ok t ∧ Fl.solveForControlPoints c t fm = .ok W ∧
      Fl.construct w c o (fun _ => false) fm x = .ok g ∧ g = { t.base with spline := t.base.spline.loadCtrlPts W } := by
  obtain ⟨t, ht, -⟩ := (template_ok (w := w) (c := c) ho hn hx).exists
  obtain ⟨htd, hord, hper, hok, -⟩ := axisNear_of ho hn hx ht
  have hs : Ok (Fl.solveForControlPoints c t fm) (Fl.MeshOk t.dims) :=
    Fl.solveForControlPoints_safe (fun h => h.elim id id) (fun d => by rw [htd]; have := hn d; omega) hok
      (fun d => by rw [htd, show t.base.periodicity d = false from hper d]; simp) hfm
  obtain ⟨W, hW, -⟩ := hs.exists
  refine ⟨t, _, W, ht, hW, ?_, rfl⟩
  unfold Fl.construct
  rw [ht, ok_bind, hW, ok_bind]
  rfl

/-- Factors and control points are bounded, without any assumption on them. -/
theorem double_small_bounded {D : ℕ} (w : Bool) (c : Cfg) {o : ℕ} (ho : 1 ≤ o ∧ o ≤ 3) {fm : Mesh (D + 1) F64} (hfm : fm.WF)
    (hn : ∀ d, o + 1 ≤ fm.dims d) {x : Fin (D + 1) → XRange F64} {P : Fin (D + 1) → ℕ → ℚ → Prop} {r : Fin (D + 1) → ℚ}
    (hx : ∀ d, GoodAxis (fm.dims d) (x d) (P d) (r d)) (hlin : ∀ d, (x d).isUniform = true ∨ o = 1) {R : ℚ} (hr : ∀ d, r d ≤ R)
    {F : ℚ} (hF : ∀ v ∈ fm.storage, ∃ q, v = .fin q ∧ |q| ≤ F) (hF0 : 1 / 2 ^ 800 ≤ F) (hF1 : 20 ^ (D + 1) * F ≤ 2 ^ 900)
    (hE1 : (D + 1) * o * (80 * o + 8 + 64 * R) ≤ 2 ^ 46) :
    ∃ (t : Template (D + 1) F64 F64) (g : InterpFn (D + 1) F64 F64), Fl.constructT w c o (fun _ => false) fm.dims x = .ok t ∧ Fl.construct w c o (fun _ => false) fm x = .ok g ∧
      (∀ d, FactorsIn c (t.solvers d) (fm.dims d) (o - 1) (20 * o)) ∧
      ∀ v ∈ g.spline.ctrl.storage, ∃ q, v = .fin q ∧ IsDouble q ∧ |q| ≤ 20 ^ (D + 1) * F := by
  have ho50 : 1 ≤ o ∧ o ≤ 50 := by omega
  obtain ⟨t, g, W, ht, hW, hg, hgW⟩ := double_construct_ok w c ho50 hfm hn hx
  obtain ⟨htd, hord, hper, hok, hax⟩ := axisNear_of ho50 hn hx ht
  have ho0 : (0 : ℚ) ≤ o := Nat.cast_nonneg _
  have ho1 : (1 : ℚ) ≤ o := by exact_mod_cast ho.1
  have hR0 : 0 ≤ R := (hx 0).small.2.trans (hr 0)
  have hκ : ∀ d, (7 * o + 64 * (o * r d)) / 2 ^ 53 ≤ (1 : ℚ) / 90 := fun d => by
    clear hF hF0 hF1
    have h1 : (o : ℚ) * r d ≤ o * R := mul_le_mul_of_nonneg_left (hr d) ho0
    have h2 : 1 * ((o : ℚ) * (80 * o + 8 + 64 * R)) ≤ (D + 1) * (o * (80 * o + 8 + 64 * R)) :=
      mul_le_mul_of_nonneg_right (by have : (0 : ℚ) ≤ D := Nat.cast_nonneg _; linarith) (by positivity)
    rw [div_le_iff₀ (by positivity)]
    have h3 : (0 : ℚ) ≤ o * (80 * o) := by positivity
    have h4 : (7 * (o : ℚ) + 64 * (o * r d)) ≤ 2 ^ 46 := by nlinarith
    exact h4.trans (by norm_num)
  have hdom : ∀ d, ∃ (Wm : ℕ → ℕ → ℚ) (wt : ℕ → ℚ), RowsNear (t.solvers d) o (fm.dims d) Wm (7 * o + 64 * (o * r d)) ∧
      RowsDom (fm.dims d) Wm wt (1 / 4) (1 / 10) (7 * o + 64 * (o * r d)) := fun d => by
    rcases hlin d with hu | rfl
    · obtain ⟨a, H, hH, hun, hrows⟩ := uniRows_of ho50 hn hx ht hu
      exact ⟨_, _, hrows, uniform_dom hH ho (hn d) hun (hκ d)⟩
    · obtain ⟨T, hT⟩ := hax d
      obtain ⟨Wm, w1, w2⟩ := hT.rows
      exact ⟨Wm, _, w2, linear_dom w2 w1 (hκ d)⟩
  choose Wm wt hrows hd using hdom
  have hfac : ∀ d, FactorsIn c (t.solvers d) (fm.dims d) (o - 1) (20 * o) := fun d => by
    have := (hrows d).domFactors (c := c) (hd d) ho50 (hx d).small.1
    rwa [show (5 * (o : ℚ) / (1 / 4)) = 20 * o by ring] at this
  have hbd : ∀ d, AxisBounded c (t.solvers d) (t.dims d) 20 := fun d => by
    have := (hrows d).domBounded (c := c) (hd d) ho50 (hx d).small.1
    rw [htd]
    rwa [show (2 / (1 / 10) : ℚ) = 20 by norm_num] at this
  have hC : ∀ v ∈ g.spline.ctrl.storage, ∃ q, v = .fin q ∧ IsDouble q ∧ |q| ≤ 20 ^ (D + 1) * F := by
    rw [hgW]
    exact ctrl_bounded hfm (fun d => by rw [htd]; have := hn d; omega)
      (fun d => by rw [htd, show t.base.periodicity d = false from hper d]; simp) hW (by norm_num) hbd hF0 hF1 hF
  exact ⟨t, g, ht, hg, hfac, hC⟩

/-- **C84.** -/
theorem double_interpolates_small {D : ℕ} (w : Bool) (c : Cfg) {o : ℕ} (ho : 1 ≤ o ∧ o ≤ 3) {fm : Mesh (D + 1) F64} (hfm : fm.WF)
    (hn : ∀ d, o + 1 ≤ fm.dims d) {x : Fin (D + 1) → XRange F64} {P : Fin (D + 1) → ℕ → ℚ → Prop} {r : Fin (D + 1) → ℚ}
    (hx : ∀ d, GoodAxis (fm.dims d) (x d) (P d) (r d)) (hlin : ∀ d, (x d).isUniform = true ∨ o = 1) {R : ℚ} (hr : ∀ d, r d ≤ R)
    {F : ℚ} (hF : ∀ v ∈ fm.storage, ∃ q, v = .fin q ∧ |q| ≤ F) (hF0 : 1 / 2 ^ 800 ≤ F) (hF1 : 20 ^ (D + 1) * F ≤ 2 ^ 900)
    {E : ℚ} (hE : E = (D + 1) * o * (80 * o + 8 + 64 * R)) (hE1 : E ≤ 2 ^ 46) {k : ℕ} (hk : k = (D + 1) * (5 * o + 1) + 1 + (o + 1) ^ (D + 1))
    (hk1 : k ≤ 2 ^ 50) :
    ∃ g, Fl.construct w c o (fun _ => false) fm x = .ok g ∧ (∀ v ∈ g.spline.ctrl.storage, ∃ q, v = .fin q ∧ IsDouble q ∧ |q| ≤ 20 ^ (D + 1) * F) ∧
      ∀ I, InRange fm.dims I → ∀ y : Fin (D + 1) → ℚ, (∀ d, P d (I d) (y d)) → ∃ v q, Fl.call g (fun d => .fin (y d)) = .ok (.fin v) ∧
        fm.get I = .ok (.fin q) ∧ |v - q| ≤ (3 * k + 2 * E) / 2 ^ 53 * (20 ^ (D + 1) * F) + 1 / 2 ^ 100 := by
  have ho50 : 1 ≤ o ∧ o ≤ 50 := by omega
  obtain ⟨t, g, ht, hg, hfac, hC⟩ := double_small_bounded w c ho hfm hn hx hlin hr hF hF0 hF1 (hE ▸ hE1)
  have hF' : 0 ≤ F := (one_div_nonneg.2 (pow_nonneg zero_le_two _)).trans hF0
  refine ⟨g, hg, hC, fun I hI y hy => ?_⟩
  refine double_interpolates_axes w c ho50 hfm hn hx hr ht hg hC ⟨mul_nonneg (pow_nonneg (by norm_num) _) hF', hF1.trans (by decide +kernel)⟩ hfac
    (by rw [hE]; ring) (hE1.trans (by norm_num)) hk hk1 hI hy

/-! ## A case: cubic interpolation, 101 points of `[0, 1]` by 7 points of `[0, 3]`, any data of size at most 1 -/

namespace RoundSmallExample

def range : Fin 2 → XRange F64 := ![.uniform (.fin 0) (.fin 1), .uniform (.fin 0) (.fin 3)]

def P : Fin 2 → ℕ → ℚ → Prop := ![fun i x => IsDouble x ∧ 0 ≤ x ∧ x ≤ 1 ∧ |x - (0 + i * (1 / 100))| ≤ 8 * 1 / 2 ^ 53,
  fun i x => IsDouble x ∧ 0 ≤ x ∧ x ≤ 3 ∧ |x - (0 + i * (1 / 2))| ≤ 8 * 3 / 2 ^ 53]

theorem good : ∀ d, GoodAxis (![101, 7] d) (range d) (P d) (![100, 6] d) := by
  have h0 : IsDouble 0 := isDouble_of_round (show F64.round 0 = .fin 0 by decide +kernel)
  intro d
  match d with
  | 0 =>
    exact GoodAxis.uniform (B := 1) (H := 1 / 100) ⟨by decide, by decide, h0, isDouble_of_round (show F64.round 1 = .fin 1 by decide +kernel), by norm_num,
      by norm_num, by decide +kernel, by show (1 / 100 : ℚ) * ((101 : ℕ) - 1) = 1 - 0; norm_num, by norm_num, by decide +kernel⟩
      (by show (1 : ℚ) ≤ 100 * (1 / 100); norm_num)
  | 1 =>
    exact GoodAxis.uniform (B := 3) (H := 1 / 2) ⟨by decide, by decide, h0, isDouble_of_round (show F64.round 3 = .fin 3 by decide +kernel), by norm_num,
      by norm_num, by decide +kernel, by show (1 / 2 : ℚ) * ((7 : ℕ) - 1) = 3 - 0; norm_num, by norm_num, by decide +kernel⟩
      (by show (3 : ℚ) ≤ 6 * (1 / 2); norm_num)

example (w : Bool) (c : Cfg) (data : Mesh 2 F64) (hd : data.dims = ![101, 7]) (hw : data.WF) (h1 : ∀ v ∈ data.storage, ∃ q, v = .fin q ∧ |q| ≤ 1) :
    ∃ g, Fl.construct w c 3 (fun _ => false) data range = .ok g ∧ (∀ v ∈ g.spline.ctrl.storage, ∃ q, v = .fin q ∧ |q| ≤ 400) ∧
      ∀ (i : Fin 101) (j : Fin 7) (z : ℚ), IsDouble z → 0 ≤ z → z ≤ 1 → |z - i / 100| ≤ 1 / 2 ^ 50 →
        ∃ v q, Fl.call g ![.fin z, .fin (j / 2)] = .ok (.fin v) ∧ data.get ![i, j] = .ok (.fin q) ∧ |v - q| ≤ 1 / 2 ^ 27 := by
  obtain ⟨g, hg, hC, h⟩ := double_interpolates_small w c (o := 3) (by omega) hw (by rw [hd]; decide) (by rw [hd]; exact good)
    (fun d => .inl (by match d with | 0 => rfl | 1 => rfl)) (R := 100) (fun d => by match d with | 0 => exact le_rfl | 1 => show (6 : ℚ) ≤ 100; norm_num)
    (F := 1) h1 (by decide +kernel) (by decide +kernel) rfl (by norm_num) rfl (by norm_num)
  refine ⟨g, hg, fun v hv => ?_, fun i j z z1 z2 z3 z4 => ?_⟩
  · obtain ⟨q, q1, -, q2⟩ := hC v hv
    exact ⟨q, q1, q2.trans (by norm_num)⟩
  · obtain ⟨v, q, e1, e2, e3⟩ := h ![i, j] (by
      rw [hd]
      intro d
      match d with
      | 0 => exact i.isLt
      | 1 => exact j.isLt) ![z, j / 2] (fun d => by
      match d with
      | 0 => exact ⟨z1, z2, z3, by show |z - (0 + (i : ℕ) * (1 / 100))| ≤ _; rw [zero_add, mul_one_div]; exact z4.trans (by norm_num)⟩
      | 1 =>
        have h2 : ∀ j : Fin 7, F64.round (j / 2 : ℚ) = .fin (j / 2) ∧ (0 : ℚ) ≤ j / 2 ∧ (j / 2 : ℚ) ≤ 3 := by decide +kernel
        refine ⟨isDouble_of_round (h2 j).1, (h2 j).2.1, (h2 j).2.2, ?_⟩
        show |(j : ℚ) / 2 - (0 + (j : ℕ) * (1 / 2))| ≤ _
        rw [zero_add, mul_one_div, sub_self, abs_zero]
        norm_num)
    have e : (fun d => F64.fin ((![z, j / 2] : Fin 2 → ℚ) d)) = ![.fin z, .fin (j / 2)] := by
      funext d
      match d with
      | 0 => rfl
      | 1 => rfl
    rw [e] at e1
    exact ⟨v, q, e1, e2, e3.trans (by norm_num)⟩

end RoundSmallExample

end Intp
