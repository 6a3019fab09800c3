import Verif.Proofs.NearAxis
import Verif.Props.Pivot
import Verif.Props.RoundSmall

/-!
# C85: interpolation in `double` is near exact interpolation, at every point

The exact function is the one the library would build over the rational numbers, without rounding, from the same coordinates and the same data.
-/

namespace Intp

open Finset BSpline

/-- The exact values of the data. -/
def Mesh.rat {D : ℕ} (m : Mesh D F64) : Mesh D ℚ := ⟨m.dims, m.storage.map F64.toRat⟩

/-- **C85.**  `G` bounds the growth of the factors, `C` the control points, `μ` the condition number of the exact interpolation problem of each dimension:
coefficients are at most `μ` times the largest value they produce at the data points. -/
theorem double_near_exact {D : ℕ} (w : Bool) (c : Cfg) {o : ℕ} (ho : 1 ≤ o ∧ o ≤ 50) {fm : Mesh (D + 1) F64} (hfm : fm.WF)
    (hn : ∀ d, o + 1 ≤ fm.dims d) {x : Fin (D + 1) → XRange F64} {ρ : ℚ} (hx : ∀ d, RatioAxis (fm.dims d) (x d) ρ)
    {t : Template (D + 1) F64 F64} (ht : Fl.constructT w c o (fun _ => false) fm.dims x = .ok t)
    {g : InterpFn (D + 1) F64 F64} (hg : Fl.construct w c o (fun _ => false) fm x = .ok g)
    {C : ℚ} (hC : ∀ v ∈ g.spline.ctrl.storage, ∃ q, v = .fin q ∧ IsDouble q ∧ |q| ≤ C) (hC1 : 0 ≤ C ∧ C ≤ 2 ^ 1000)
    {G : ℚ} (hG : ∀ d, FactorsIn c (t.solvers d) (fm.dims d) (o - 1) G) {E : ℚ} (hE : E = (D + 1) * o * (4 * G + 8 + 64 * ρ)) (hE1 : E ≤ 2 ^ 50)
    {k : ℕ} (hk : k = (D + 1) * (5 * o + 1) + 1 + (o + 1) ^ (D + 1)) (hk1 : k ≤ 2 ^ 50)
    {μ : ℚ} (hμ : ∀ d, ∀ (z : ℕ → ℚ) (M : ℚ), (∀ i, i < fm.dims d → |∑ j ∈ range (fm.dims d), (x d).rat.mat o (fm.dims d) false i j * z j| ≤ M) →
      ∀ i, i < fm.dims d → |z i| ≤ μ * M) :
    ∃ gx, InterpFn.construct c o (fun _ => false) fm.rat (fun d => (x d).rat) = .ok gx ∧
      ∀ y : Fin (D + 1) → ℚ, (∀ d, IsDouble (y d) ∧ (x d).rat.node (fm.dims d) 0 ≤ y d ∧ y d ≤ (x d).rat.node (fm.dims d) (fm.dims d - 1)) →
        ∃ v q, Fl.call g (fun d => .fin (y d)) = .ok (.fin v) ∧ gx.call y = .ok q ∧
          |v - q| ≤ (3 * k + 64 * ((D + 1) * o * ρ) + μ ^ (D + 1) * (2 * E)) / 2 ^ 53 * C + (1 + μ ^ (D + 1)) / 2 ^ 101 := by
  obtain ⟨htd, hord, hper, hok, hax⟩ := axisExact_of ho hn hx ht
  choose T P κ hT hX using hax
  unfold Fl.construct at hg
  rw [ht, ok_bind] at hg
  obtain ⟨W, hW, hg⟩ : ∃ W, Fl.solveForControlPoints c t fm = .ok W ∧
      (.ok { t.base with spline := t.base.spline.loadCtrlPts W } : M (InterpFn (D + 1) F64 F64)) = .ok g := by
    cases h : Fl.solveForControlPoints c t fm with
    | error e => rw [h] at hg; cases hg
    | ok W => rw [h, ok_bind] at hg; exact ⟨W, rfl, hg⟩
  have hg := (Except.ok.inj hg).symm
  have gsp : g.spline = t.base.spline.loadCtrlPts W := by rw [hg]
  have hb : DoubleSpline g.spline C := by
    rw [gsp] at hC ⊢
    exact axes_spline ho hfm hn htd hord hper hok hT hW hC hC1 (hk ▸ hk1)
  have gord : g.spline.order = o := by rw [gsp]; exact hord
  have gper : ∀ d, g.spline.periodicity d = false := fun d => by rw [gsp]; exact hper d
  have gkn : ∀ d, g.spline.rat.kn d = knotFn (T d) := fun d => by
    unfold BSpline.kn
    have : g.spline.rat.knots d = (t.base.spline.knots d).map F64.toRat := by rw [gsp]; rfl
    rw [this, (hT d).knots, List.map_map]
    exact congrArg knotFn (List.map_id _)
  have hlast : ∀ d, g.spline.rat.last d = fm.dims d - 1 := fun d => by
    have := hn d
    unfold BSpline.last
    rw [show g.spline.rat.knots d = (t.base.spline.knots d).map F64.toRat by rw [gsp]; rfl, (hT d).knots, List.length_map, List.length_map, (hT d).len,
      show g.spline.rat.order = o from gord]
    omega
  have hG0 : 0 ≤ G := by
    obtain ⟨lu, Cf, -, -, h⟩ := hG 0
    refine le_trans ?_ (h ⟨0, by have := hn 0; omega⟩)
    positivity
  have hρ0 : 0 ≤ ρ := (hx 0).nonneg (by have := hn 0; omega)
  have hbig : ∀ d, fm.dims d ≤ 2 ^ 49 := fun d => by
    obtain ⟨_, _, h, _⟩ := (hx d).good hρ0
    exact h.small.1
  have ho0 : (0 : ℚ) ≤ o := Nat.cast_nonneg _
  have hshift : ∀ I, InRange fm.dims I → Template.shiftIx t.base.spline.order t.base.periodicity fm.dims I = I := by
    intro I hI
    funext d
    unfold Template.shiftIx rowShift
    rw [show t.base.periodicity d = false from hper d]
    simp only [Bool.false_eq_true, if_false, add_zero]
    exact Nat.mod_eq_of_lt (hI d)
  have hDε : ((D : ℚ) + 1) * ((o * (4 * G + 1) + (7 * o + 64 * (o * ρ))) / 2 ^ 53) = E / 2 ^ 53 := by rw [hE]; ring
  -- the control points nearly solve the exact equations
  obtain ⟨Cf, hdims, hCh, hCb, hres⟩ := ctrl_residual hfm (fun d => by rw [htd]; have := hn d; omega)
    (fun d => by rw [htd, show t.base.periodicity d = false from hper d]; simp) hW hg hb (Wm := fun d => (x d).rat.mat o (fm.dims d) false)
    (fun d i J hi hJ => by rw [htd] at hi hJ; exact (mat_unity ho.1 (hX d).valid hi).1 J hJ)
    (fun d i hi => by rw [htd] at hi ⊢; exact (mat_unity ho.1 (hX d).valid hi).2)
    (ε := (o * (4 * G + 1) + (7 * o + 64 * (o * ρ))) / 2 ^ 53) (by positivity)
    (by rw [hDε, div_le_iff₀ (by positivity)]; exact hE1.trans (by norm_num))
    (fun d => by rw [htd]; exact (hX d).rows.solves ho (by have := hn d; omega) (hbig d) (hG d))
  rw [htd] at hdims hCb hres
  -- exact interpolation
  have hpt : ∀ k, pointNum c false k = k := fun k => by unfold pointNum; simp
  have hv : ValidAxes c o (fun _ => false) fm.rat.dims fun d => (x d).rat := fun d => by
    rw [hpt]; exact (hX d).valid
  have hxm : fm.rat.WF := by
    unfold Mesh.WF Mesh.rat
    rw [List.length_map]
    exact hfm
  obtain ⟨gx, hgx⟩ := (construct_ok_iff c hxm hv).2 fun d r hr => by
    rw [hpt] at hr ⊢
    have := hv d
    rw [hpt] at this
    exact (this.lead_pos hr).ne'
  choose! F hF hF1 using hres
  have hholds : fm.rat.Holds fm.rat.dims F := by
    refine ⟨rfl, hxm, fun I hI => ?_⟩
    have h1 := hF I hI
    unfold Mesh.get at h1 ⊢
    show rd (fm.storage.map F64.toRat) _ = _
    rw [rd_map, show indexing fm.rat.dims I = indexing fm.dims I from rfl, h1]
    rfl
  obtain ⟨-, Cx, hD, hEq⟩ := (InterpFn.construct_spec hv (fm := fm.rat) rfl hholds).get hgx
  refine ⟨gx, hgx, fun y hy => ?_⟩
  obtain ⟨v, hv1, hv2⟩ := call_near hb hCh (k := k) (by rw [hk, gord]) (x := fun d => .fin (y d)) (w := y)
    ⟨fun d => by rw [gper d]; rfl, fun d => (hy d).1, fun d => by
      have := hn d
      rw [gkn, gord, hlast, show fm.dims d - 1 + 1 = fm.dims d by omega, (hX d).left, (hX d).right]
      exact (hy d).2, fun d h => by rw [gper d] at h; cases h⟩
    (fun d => by rw [hg]; exact (hX d).hint (y d) (hy d).1 (hy d).2.1 (hy d).2.2)
  refine ⟨v, _, hv1, hD.call hv y, ?_⟩
  -- weights of both splines at `y`
  have xwf := hD.wf hv
  have xkn : ∀ d, gx.spline.kn d = (x d).rat.kx o (fm.dims d) := fun d => by
    unfold BSpline.kn
    rw [hD.knots, hpt]; rfl
  have xord : gx.spline.order = o := hD.order
  have xlast : ∀ d, gx.spline.last d = fm.dims d - 1 := fun d => by
    have h1 : ((x d).rat.knots o (fm.dims d) false).length = fm.dims d + o + 1 := (hX d).valid.aAxis.len
    unfold BSpline.last
    rw [hD.knots, hpt, xord]
    show ((x d).rat.knots o (fm.dims d) false).length - o - 2 = _
    rw [h1]; omega
  have xdims : gx.spline.ctrl.dims = fm.dims := by
    funext d
    rw [hD.dims_eq, hpt]; rfl
  choose s hs using fun d => exists_seg (T := knotFn (T d)) (o := o) (last := fm.dims d - 1) (by have := hn d; omega) (y d)
  choose s' hs' using fun d => exists_seg (T := (x d).rat.kx o (fm.dims d)) (o := o) (last := fm.dims d - 1) (by have := hn d; omega) (y d)
  have wf : ∀ d J, g.spline.rat.wAt d 0 (y d) J = piece (knotFn (T d)) (s d) o J (y d) := fun d J => by
    have e := wAt_aper hb.wf (show g.spline.rat.periodicity d = false from gper d) (x := y d) (s := s d)
      (by rw [gkn, show g.spline.rat.order = o from gord, hlast]; exact hs d) J
    rw [e, gkn, show g.spline.rat.order = o from gord]
  have wx : ∀ d J, gx.spline.wAt d 0 (y d) J = piece ((x d).rat.kx o (fm.dims d)) (s' d) o J (y d) := fun d J => by
    have e := wAt_aper xwf (show gx.spline.periodicity d = false by rw [hD.pers]) (x := y d) (s := s' d)
      (by rw [xkn, xord, xlast]; exact hs' d) J
    rw [e, xkn, xord]
  have hu : ∀ d, (∀ J, J < fm.dims d → 0 ≤ g.spline.rat.wAt d 0 (y d) J) ∧ ∑ J ∈ range (fm.dims d), g.spline.rat.wAt d 0 (y d) J = 1 := fun d => by
    have := seg_unity (hT d).mono (hT d).len (hn d) (fun i h1 h2 => by
      have := (hT d).gap i h1 h2
      have h9 : (0 : ℚ) < 1 / 2 ^ 900 := one_div_pos.2 (pow_pos two_pos _)
      generalize (1 : ℚ) / 2 ^ 900 = z at *
      linarith) (by rw [(hX d).left]; exact (hy d).2.1) (by rw [(hX d).right]; exact (hy d).2.2) (hs d)
    exact ⟨fun J _ => by rw [wf]; exact this.1 J, by rw [sum_congr rfl fun J _ => wf d J]; exact this.2⟩
  have hvx : ∀ d, (∀ J, J < fm.dims d → 0 ≤ gx.spline.wAt d 0 (y d) J) ∧ ∑ J ∈ range (fm.dims d), gx.spline.wAt d 0 (y d) J = 1 := fun d => by
    have ax : AAxis o (fm.dims d) ((x d).rat.knots o (fm.dims d) false) ((x d).rat.node (fm.dims d)) := (hX d).valid.aAxis
    obtain ⟨e1, e2⟩ := kx_ends ho.1 (hX d).valid
    have hm : KMono ((x d).rat.knots o (fm.dims d) false) := (hX d).valid.kmono
    have := seg_unity hm ax.len (hn d) ax.inc (by rw [show knotFn ((x d).rat.knots o (fm.dims d) false) o = _ from e1]; exact (hy d).2.1)
      (by rw [show knotFn ((x d).rat.knots o (fm.dims d) false) (fm.dims d) = _ from e2]; exact (hy d).2.2) (hs' d)
    exact ⟨fun J _ => by rw [wx]; exact this.1 J, by rw [sum_congr rfl fun J _ => wx d J]; exact this.2⟩
  have hnear := tensor_near (dims := fm.dims) (u := fun d => g.spline.rat.wAt d 0 (y d)) (v := fun d => gx.spline.wAt d 0 (y d))
    (W := fun d => (x d).rat.mat o (fm.dims d) false) (f := Cf) (g := Cx) (b := F) hCb hC1.1 hu hvx (θ := 64 * (o * ρ) / 2 ^ 53)
    (fun d => by
      rw [sum_congr rfl fun J _ => by rw [wf d J, wx d J]]
      exact (hX d).cross (y d) (s d) (s' d) (hy d).2.1 (hy d).2.2 (hs d) (hs' d))
    (μ := μ) hμ (fun I hI => by
      have := hF1 I hI
      rw [hshift I hI] at this
      exact this)
    (fun I hI => by
      have e : (fun d => unk ((fun _ : Fin (D + 1) => false) d) (pointNum c ((fun _ : Fin (D + 1) => false) d) (fm.rat.dims d))) = fm.dims := by
        funext d
        show unk false (pointNum c false (fm.dims d)) = _
        rw [hpt]; rfl
      have h1 := hEq I (by rw [e]; exact hI)
      rw [e] at h1
      rw [← h1]
      congr 1
      funext d
      show _ = (x d).rat.mat o (pointNum c false (fm.dims d)) false ((I d + rowShift o false) % unk false (pointNum c false (fm.dims d)))
      rw [hpt]
      unfold rowShift unk
      simp only [Bool.false_eq_true, if_false, add_zero, Nat.sub_zero]
      rw [Nat.mod_eq_of_lt (hI d)])
  rw [hdims] at hv2
  have hval : gx.spline.val Cx (fun _ => 0) y = tensorVal fm.dims (fun d => gx.spline.wAt d 0 (y d)) Cx := by
    unfold BSpline.val
    rw [xdims]
  rw [hval]
  have tri := abs_add_le (v - tensorVal fm.dims (fun d => g.spline.rat.wAt d 0 (y d)) Cf)
    (tensorVal fm.dims (fun d => g.spline.rat.wAt d 0 (y d)) Cf - tensorVal fm.dims (fun d => gx.spline.wAt d 0 (y d)) Cx)
  rw [sub_add_sub_cancel] at tri
  refine tri.trans ((add_le_add hv2 hnear).trans (le_of_eq ?_))
  rw [hDε]
  push_cast
  ring

/-- **C85** for order 1 to 3 over uniform dimensions (and linear interpolation over coordinates): nothing is assumed about factors, control points or
condition numbers. -/
theorem double_near_small {D : ℕ} (w : Bool) (c : Cfg) {o : ℕ} (ho : 1 ≤ o ∧ o ≤ 3) {fm : Mesh (D + 1) F64} (hfm : fm.WF)
    (hn : ∀ d, o + 1 ≤ fm.dims d) {x : Fin (D + 1) → XRange F64} {ρ : ℚ} (hx : ∀ d, RatioAxis (fm.dims d) (x d) ρ)
    (hlin : ∀ d, (x d).isUniform = true ∨ o = 1)
    {F : ℚ} (hF : ∀ v ∈ fm.storage, ∃ q, v = .fin q ∧ |q| ≤ F) (hF0 : 1 / 2 ^ 800 ≤ F) (hF1 : 20 ^ (D + 1) * F ≤ 2 ^ 900)
    {E : ℚ} (hE : E = (D + 1) * o * (80 * o + 8 + 64 * ρ)) (hE1 : E ≤ 2 ^ 46) {k : ℕ} (hk : k = (D + 1) * (5 * o + 1) + 1 + (o + 1) ^ (D + 1))
    (hk1 : k ≤ 2 ^ 50) :
    ∃ g gx, Fl.construct w c o (fun _ => false) fm x = .ok g ∧ InterpFn.construct c o (fun _ => false) fm.rat (fun d => (x d).rat) = .ok gx ∧
      ∀ y : Fin (D + 1) → ℚ, (∀ d, IsDouble (y d) ∧ (x d).rat.node (fm.dims d) 0 ≤ y d ∧ y d ≤ (x d).rat.node (fm.dims d) (fm.dims d - 1)) →
        ∃ v q, Fl.call g (fun d => .fin (y d)) = .ok (.fin v) ∧ gx.call y = .ok q ∧
          |v - q| ≤ (3 * k + 64 * ((D + 1) * o * ρ) + 10 ^ (D + 1) * (2 * E)) / 2 ^ 53 * (20 ^ (D + 1) * F) + (1 + 10 ^ (D + 1)) / 2 ^ 101 := by
  have ho50 : 1 ≤ o ∧ o ≤ 50 := by omega
  have hρ0 : 0 ≤ ρ := (hx 0).nonneg (by have := hn 0; omega)
  choose P r hgood hr using fun d => (hx d).good hρ0
  obtain ⟨t, g, ht, hg, hfac, hC⟩ := double_small_bounded w c ho hfm hn hgood hlin hr hF hF0 hF1 (hE ▸ hE1)
  obtain ⟨-, -, -, -, hax⟩ := axisExact_of ho50 hn hx ht
  have hF' : 0 ≤ F := (one_div_nonneg.2 (pow_nonneg zero_le_two _)).trans hF0
  have hκ0 : (0 : ℚ) ≤ 7 * o + 64 * (o * ρ) := by
    clear hF hF0 hF1 hC
    positivity
  have hκ : (7 * o + 64 * (o * ρ)) / 2 ^ 53 ≤ (1 : ℚ) / 90 := by
    clear hF hF0 hF1 hC
    have h2 : 1 * ((o : ℚ) * (80 * o + 8 + 64 * ρ)) ≤ (D + 1) * (o * (80 * o + 8 + 64 * ρ)) :=
      mul_le_mul_of_nonneg_right (by have : (0 : ℚ) ≤ D := Nat.cast_nonneg _; linarith) (by positivity)
    rw [div_le_iff₀ (by positivity)]
    rw [hE] at hE1
    have h3 : (0 : ℚ) ≤ o * (80 * o) := by positivity
    have h4 : (7 * (o : ℚ) + 64 * (o * ρ)) ≤ 2 ^ 46 := by nlinarith
    exact h4.trans (by norm_num)
  obtain ⟨gx, hgx, h⟩ := double_near_exact w c ho50 hfm hn hx ht hg hC ⟨mul_nonneg (pow_nonneg (by norm_num) _) hF', hF1.trans (by decide +kernel)⟩ hfac
    (by rw [hE]; ring) (hE1.trans (by norm_num)) hk hk1 (μ := 10) (fun d => by
      obtain ⟨T, P, κ, hT, hX⟩ := hax d
      have hun := fun i hi => mat_unity ho.1 hX.valid (i := i) hi
      rcases hlin d with hu | rfl
      · obtain ⟨a, H, hH, hex⟩ : ∃ a H, 0 < H ∧ ∀ i J, i < fm.dims d → J < fm.dims d →
            (x d).rat.mat o (fm.dims d) false i J = exRow o (fm.dims d) a H i J := by
          have hd := hx d
          generalize x d = xd at hd hu ⊢
          cases hd with
          | coords => cases hu
          | uniform h _ => exact ⟨_, _, h.pos, (uniform_exact ho.1 (hn d) h.pos h.step).2.2.2.2.2⟩
        have hrow : ∀ i, i < fm.dims d → (∀ J, 0 ≤ exRow o (fm.dims d) a H i J) ∧ ∑ J ∈ range (fm.dims d), exRow o (fm.dims d) a H i J = 1 := fun i hi => by
          refine ⟨fun J => ?_, by rw [← (hun i hi).2]; exact (sum_congr rfl fun J hJ => hex i J hi (mem_range.1 hJ)).symm⟩
          rcases Nat.lt_or_ge J (fm.dims d) with hJ | hJ
          · rw [← hex i J hi hJ]; exact (hun i hi).1 J hJ
          · refine le_of_eq (by_contra fun hne => ?_)
            have := (piece_support (Ne.symm hne)).1
            have := (piece_support (Ne.symm hne)).2
            have := (uaKi_bounds (hn d) i).2
            omega
        have := (uniform_dom hH ho (hn d) hrow hκ).inv hκ0
        norm_num at this
        intro z M hz
        refine this z M fun i hi => ?_
        have e : ∑ J ∈ range (fm.dims d), exRow o (fm.dims d) a H i J * z J = ∑ J ∈ range (fm.dims d), (x d).rat.mat o (fm.dims d) false i J * z J :=
          sum_congr rfl fun J hJ => by rw [hex i J hi (mem_range.1 hJ)]
        rw [e]
        exact hz i hi
      · have := (linear_dom hX.rows (fun i hi => (hun i hi).2) (by exact_mod_cast hκ)).inv (by exact_mod_cast hκ0)
        norm_num at this
        exact this)
  exact ⟨g, gx, hg, hgx, h⟩

/-! ## A case: cubic interpolation, 101 points of `[0, 1]` by 7 points of `[0, 3]`, any data of size at most 1 -/

namespace RoundNearExample

open RoundSmallExample (range)

theorem ratio : ∀ d, RatioAxis (![101, 7] d) (range d) 100 := by
  have h0 : IsDouble 0 := isDouble_of_round (show F64.round 0 = .fin 0 by decide +kernel)
  intro d
  match d with
  | 0 =>
    exact RatioAxis.uniform (B := 1) (H := 1 / 100) ⟨by decide, by decide, h0, isDouble_of_round (show F64.round 1 = .fin 1 by decide +kernel), by norm_num,
      by norm_num, by decide +kernel, by show (1 / 100 : ℚ) * ((101 : ℕ) - 1) = 1 - 0; norm_num, by norm_num, by decide +kernel⟩
      (by norm_num)
  | 1 =>
    exact RatioAxis.uniform (B := 3) (H := 1 / 2) ⟨by decide, by decide, h0, isDouble_of_round (show F64.round 3 = .fin 3 by decide +kernel), by norm_num,
      by norm_num, by decide +kernel, by show (1 / 2 : ℚ) * ((7 : ℕ) - 1) = 3 - 0; norm_num, by norm_num, by decide +kernel⟩
      (by norm_num)

example (w : Bool) (c : Cfg) (data : Mesh 2 F64) (hd : data.dims = ![101, 7]) (hw : data.WF) (h1 : ∀ v ∈ data.storage, ∃ q, v = .fin q ∧ |q| ≤ 1) :
    ∃ g gx, Fl.construct w c 3 (fun _ => false) data range = .ok g ∧
      InterpFn.construct c 3 (fun _ => false) data.rat ![.uniform 0 1, .uniform 0 3] = .ok gx ∧
      ∀ a b : ℚ, IsDouble a → IsDouble b → 0 ≤ a → a ≤ 1 → 0 ≤ b → b ≤ 3 →
        ∃ v q, Fl.call g ![.fin a, .fin b] = .ok (.fin v) ∧ gx.call ![a, b] = .ok q ∧ |v - q| ≤ 1 / 2 ^ 20 := by
  obtain ⟨g, gx, hg, hgx, h⟩ := double_near_small w c (o := 3) (by omega) hw (by rw [hd]; decide) (by rw [hd]; exact ratio)
    (fun d => .inl (by match d with | 0 => rfl | 1 => rfl)) (F := 1) h1 (by decide +kernel) (by decide +kernel) rfl (by norm_num) rfl (by norm_num)
  have e : (fun d => (RoundSmallExample.range d).rat) = ![XRange.uniform 0 1, .uniform 0 3] := by
    funext d
    match d with
    | 0 => rfl
    | 1 => rfl
  rw [e] at hgx
  refine ⟨g, gx, hg, hgx, fun a b ha hb a0 a1 b0 b1 => ?_⟩
  obtain ⟨v, q, e1, e2, e3⟩ := h ![a, b] (fun d => by
    rw [hd]
    match d with
    | 0 =>
      refine ⟨ha, ?_, ?_⟩
      · show (0 : ℚ) + ((0 : ℕ) : ℚ) * ((1 - 0) / ((101 : ℕ) - 1)) ≤ a
        rw [Nat.cast_zero, zero_mul, zero_add]; exact a0
      · show a ≤ (0 : ℚ) + ((101 - 1 : ℕ) : ℚ) * ((1 - 0) / ((101 : ℕ) - 1))
        norm_num; exact a1
    | 1 =>
      refine ⟨hb, ?_, ?_⟩
      · show (0 : ℚ) + ((0 : ℕ) : ℚ) * ((3 - 0) / ((7 : ℕ) - 1)) ≤ b
        rw [Nat.cast_zero, zero_mul, zero_add]; exact b0
      · show b ≤ (0 : ℚ) + ((7 - 1 : ℕ) : ℚ) * ((3 - 0) / ((7 : ℕ) - 1))
        norm_num; exact b1)
  have e' : (fun d => F64.fin ((![a, b] : Fin 2 → ℚ) d)) = ![.fin a, .fin b] := by
    funext d
    match d with
    | 0 => rfl
    | 1 => rfl
  rw [e'] at e1
  exact ⟨v, q, e1, e2, e3.trans (by norm_num)⟩

/-- Linear interpolation over the coordinates of `RoundInterpExample`, any data of size at most 1. -/
example (w : Bool) (c : Cfg) (data : Mesh 1 F64) (hd : data.dims = fun _ => 5) (hw : data.WF) (h1 : ∀ v ∈ data.storage, ∃ q, v = .fin q ∧ |q| ≤ 1) :
    ∃ g gx, Fl.construct w c 1 (fun _ => false) data (fun _ => .coords (RoundInterpExample.xs.map F64.fin)) = .ok g ∧
      InterpFn.construct c 1 (fun _ => false) data.rat (fun _ => .coords RoundInterpExample.xs) = .ok gx ∧
      ∀ a : ℚ, IsDouble a → RoundInterpExample.X 0 ≤ a → a ≤ RoundInterpExample.X 4 →
        ∃ v q, Fl.call g (fun _ => .fin a) = .ok (.fin v) ∧ gx.call (fun _ => a) = .ok q ∧ |v - q| ≤ 1 / 2 ^ 30 := by
  obtain ⟨g, gx, hg, hgx, h⟩ := double_near_small w c (o := 1) (x := fun _ => .coords (RoundInterpExample.xs.map F64.fin)) (ρ := 50) (by omega) hw
    (by rw [hd]; decide) (fun d => by
      rw [hd]
      exact .coords RoundInterpExample.coordsIn (by decide +kernel) RoundInterpExample.separated (by norm_num) (by norm_num))
    (fun d => .inr rfl) (F := 1) h1 (by decide +kernel) (by decide +kernel) rfl (by norm_num) rfl (by norm_num)
  refine ⟨g, gx, hg, by rw [← hgx]; rfl, fun a ha a0 a1 => ?_⟩
  obtain ⟨v, q, e1, e2, e3⟩ := h (fun _ => a) (fun d => by rw [hd]; exact ⟨ha, a0, a1⟩)
  exact ⟨v, q, e1, e2, e3.trans (by norm_num)⟩

end RoundNearExample

end Intp
