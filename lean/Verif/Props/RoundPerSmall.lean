import Verif.Proofs.PerDominant
import Verif.Proofs.ParamLU
import Verif.Props.RoundPeriodic

/-!
# C90: interpolation of low order with periodic uniform dimensions in `double`

Nothing is assumed about the factors or the control points.  Periodic uniform dimensions are covered up to order 6, the other dimensions as in C84.
-/

namespace Intp

open Finset BSpline

/-- Dimensions whose matrix is dominant: periodic up to order 6, otherwise uniform up to order 3 or linear. -/
def LowDim (o : ℕ) (per : Bool) (x : XRange F64) : Prop := if per then o ≤ 6 else o ≤ 3 ∧ (x.isUniform = true ∨ o = 1)

theorem FactorsIn.weaken {c : Cfg} {s : Solver F64} {n p : ℕ} {G G' : ℚ} (h : FactorsIn c s n p G) (hG : G ≤ G') : FactorsIn c s n p G' := by
  obtain ⟨lu, C, h1, h2, h3⟩ := h
  exact ⟨lu, C, h1, h2, fun i => (h3 i).trans hG⟩

/-- The pivots of a dominant matrix are not zero. -/
theorem DomInv.pivot {n : ℕ} {Pat : ℕ → ℕ → Prop} {w : ℕ → ℚ} {ω δ : ℚ} {C : ℕ → ℕ → F64} {mm : ℕ → ℕ → ℚ} (h : DomInv n Pat w δ (n - 1) C mm) (hp : DomPars n Pat w ω δ)
    {i : ℕ} (hi : i < n) (hd : Pat i i) : C i i ≠ .fin 0 := by
  intro h0
  have h1 := h.mar2 hp (m := i) (i := i) (by omega) le_rfl hi
  have h2 := h.now i hi
  rw [show min (n - 1) i = i by omega] at h2
  rw [h2] at h1
  have h3 : marg (Fl.entries F64.toRat Pat C) w n i i ≤ 0 := by
    unfold marg
    refine sum_nonpos fun J hJ => ?_
    have hw := (hp.wpos J).le
    split
    · rename_i e
      rw [e, Fl.entries_pos hd, h0]
      simp [F64.toRat]
    · have := mul_nonneg (abs_nonneg (Fl.entries F64.toRat Pat C i J)) hw
      linarith
  have := hp.δpos
  linarith

theorem RowsNear.domPivots {sol : Solver F64} {o n : ℕ} {W : ℕ → ℕ → ℚ} {κ ω δ : ℚ} {w : ℕ → ℚ} {c : Cfg} (h : RowsNear sol o n W κ) (hd : RowsDom n W w ω δ κ)
    (ho : 1 ≤ o ∧ o ≤ 50) (hn49 : n ≤ 2 ^ 49) : Fl.PivNot (· = F64.fin 0) c sol := by
  obtain ⟨lu, C0, mm, rfl, hlu, hm⟩ := h.dom hd ho hn49
  intro j x hj hx
  have hj' : j < n := hlu.1 ▸ hj
  have hb : InBand (o - 1) (o - 1) j j := by unfold InBand; omega
  rw [show lu.get c j j = _ from hlu.get c hj' hj' hb] at hx
  cases hx
  exact hm.pivot (hd.pars ho hn49) hj' hb

theorem RowsExt.domPivots {sol : Solver F64} {p n : ℕ} {W : ℕ → ℕ → ℚ} {κ ω δ : ℚ} {w : ℕ → ℚ} {c : Cfg} (h : RowsExt sol p n W κ) (hd : RowsDom n W w ω δ κ)
    (hn : n * (16 / 2 ^ 53 : ℚ) ≤ δ / 8) (hn49 : n ≤ 2 ^ 49) : Fl.PivNot (· = F64.fin 0) c sol := by
  obtain ⟨lu, C0, mm, rfl, hlu, hm⟩ := h.dom hd hn hn49
  intro j x hj hx
  have hj' : j < n := hlu.2.2.1 ▸ hj
  have hb : InBand p p j j := by unfold InBand; omega
  rw [show lu.mainGet c j j = _ from hlu.mainGet c hj' hj' hb] at hx
  cases hx
  exact hm.pivot (hd.parsExt hn hn49) hj' (.inl hb)

/-- Factors and solutions of each dimension. -/
theorem low_axes {D : ℕ} {w : Bool} {c : Cfg} {o : ℕ} (ho : 1 ≤ o) {per : Fin D → Bool} {dims : Fin D → ℕ} {x : Fin D → XRange F64}
    {P : Fin D → ℕ → ℚ → Prop} {r : Fin D → ℚ} (hx : ∀ d, GoodDim c o (dims d) (per d) (x d) (P d) (r d)) (hlow : ∀ d, LowDim o (per d) (x d))
    {t : Template D F64 F64} (ht : Fl.constructT w c o per dims x = .ok t) (hκ : ∀ d, (7 * o + 128 * o * r d) / 2 ^ 53 ≤ (1 : ℚ) / 500)
    (hn : ∀ d, per d = true → t.dims d ≤ 2 ^ 40) (d : Fin D) :
    FactorsOf c o (per d) (t.solvers d) (t.dims d) (2 + 6 / domMargin o) ∧ AxisBounded c (t.solvers d) (t.dims d) (2 / domMargin o) ∧
      Fl.PivNot (· = F64.fin 0) c (t.solvers d) := by
  have ho50 : 1 ≤ o ∧ o ≤ 50 := by
    have := hlow d
    unfold LowDim at this
    split at this <;> omega
  have hsh := shape_dims (c := c) ho50 hx
  obtain ⟨hbase, htd, -⟩ := Fl.constructT_solvers hsh ht
  obtain ⟨vals, hv, hsol⟩ := Fl.constructT_rows hsh ht d
  have ax := hbase.ax d
  have hxd := hx d
  have hpd : t.base.spline.periodicity d = per d := by rw [hbase.peri]
  have hr0 := (hx d).r0
  have hU := fun a b => Fl.constructT_uniform (a := a) (b := b) (d := d) ht
  have hκd := hκ d
  have hld := hlow d
  have hnd := hn d
  have ho0 : (0 : ℚ) ≤ o := Nat.cast_nonneg _
  rw [htd] at hsol hnd ⊢
  dsimp only at hsol hnd ⊢
  generalize x d = y at hxd ax hU hld
  generalize per d = q at hxd ax hpd hsol hU hld hnd ⊢
  generalize P d = p at hxd
  generalize r d = s at hxd hr0 hκd
  cases hxd with
  | aper hm hA =>
    obtain ⟨ho3, hlin⟩ : o ≤ 3 ∧ (y.isUniform = true ∨ o = 1) := hld
    have e : unk false (pointNum c false (dims d)) = dims d := by unfold unk pointNum; simp
    rw [e] at hsol ⊢
    have hor : 0 ≤ (o : ℚ) * s := by positivity
    have hκ' : (7 * o + 64 * (o * s)) / 2 ^ 53 ≤ (1 : ℚ) / 90 := by
      have h1 : (7 * o + 64 * (o * s)) / 2 ^ 53 ≤ (7 * o + 128 * o * s) / 2 ^ 53 := div_le_div_of_nonneg_right (by linarith) (by positivity)
      linarith
    have hdom : ∃ (Wm : ℕ → ℕ → ℚ) (wt : ℕ → ℚ), RowsNear (t.solvers d) o (dims d) Wm (7 * o + 64 * (o * s)) ∧
        RowsDom (dims d) Wm wt (1 / 4) (1 / 10) (7 * o + 64 * (o * s)) := by
      cases hA with
      | coords h1 h2 h3 h4 =>
        obtain rfl : o = 1 := hlin.resolve_left (by simp [XRange.isUniform])
        obtain ⟨e1, e2, e3⟩ := ax.coords _ rfl
        obtain ⟨T, t1, t2, t3, t4⟩ := knots_of_coords h1 h3 ho50 hm h4 h2 e2
        rw [e1] at hsol
        have hT := axisNear_coords ho50 hm hbase.order hpd ax.uni h1 h2 h3 t1 t2 t3 t4 hsol
        obtain ⟨Wm, w1, w2⟩ := hT.rows
        rw [mul_zero, mul_zero, add_zero] at hκ' ⊢
        exact ⟨Wm, _, w2, linear_dom w2 w1 hκ'⟩
      | @uniform a b B H _ h1 h2 =>
        have hU := hU _ _ rfl
        rw [show pointNum c false (dims d) = dims d by unfold pointNum; simp] at hU
        obtain ⟨dx, T, hT⟩ := uniRat_of ho50 hm h1 hU
        obtain ⟨A, hA0, hA1, hA2⟩ := hT.rows hbase.order hpd ax.uni h2
        refine ⟨_, _, (rowsNear_of ho50.1 hm hA0 (hA1 w c _ vals) hsol hA2).mono (by linarith), uniform_dom h1.pos ⟨ho, ho3⟩ hm (fun i hi => hT.exRow_unity hi) hκ'⟩
    obtain ⟨Wm, wt, hrows, hd⟩ := hdom
    have hdm : domMargin o = 1 / 10 := if_pos ho3
    rw [hdm]
    refine ⟨?_, hrows.domBounded hd ho50 hA.small.1, hrows.domPivots hd ho50 hA.small.1⟩
    unfold FactorsOf
    rw [if_neg (by simp)]
    refine (hrows.domFactors (c := c) hd ho50 hA.small.1).weaken ?_
    have : (o : ℚ) ≤ 3 := by exact_mod_cast ho3
    norm_num
    linarith
  | @per a b B H _ h1 h2 h3 h4 h5 =>
    have ho6 : o ≤ 6 := hld
    have e : unk true (pointNum c true (dims d)) = pointNum c true (dims d) - 1 := by unfold unk; simp
    rw [e] at hsol hnd ⊢
    obtain ⟨dx, T, hT⟩ := perRat_of ho50 h1 h2 h3 h4 (hU _ _ rfl)
    obtain ⟨A, hA0, hA1, hA2⟩ := hT.rows hbase.order hpd ax.uni h5 hv
    have hrows := rowsExt_of hA0 (hA1 w c _) hsol hA2
    have hd := periodic_dom (a := a) h2.pos ⟨ho, ho6⟩ (show 0 < pointNum c true (dims d) - 1 by omega) hκd
    have hn40 := hnd rfl
    have hsmall : ((pointNum c true (dims d) - 1 : ℕ) : ℚ) * (16 / 2 ^ 53) ≤ domMargin o / 8 := by
      have h6 : ((pointNum c true (dims d) - 1 : ℕ) : ℚ) ≤ 2 ^ 40 := by exact_mod_cast hn40
      have h7 := mul_le_mul_of_nonneg_right h6 (show (0 : ℚ) ≤ 16 / 2 ^ 53 by norm_num)
      have h8 : (1 : ℚ) / 50 ≤ domMargin o := by unfold domMargin; split <;> norm_num
      refine h7.trans (le_trans ?_ (div_le_div_of_nonneg_right h8 (by norm_num)))
      norm_num
    refine ⟨?_, hrows.domBounded hd (by omega) hsmall (hn40.trans (by norm_num)), hrows.domPivots hd hsmall (hn40.trans (by norm_num))⟩
    unfold FactorsOf
    rw [if_pos rfl]
    have := hrows.domFactors (c := c) hd hsmall (hn40.trans (by norm_num))
    rwa [div_one] at this

/-- Factors, pivots and control points of the function of C90. -/
theorem double_low_bounded {D : ℕ} (w : Bool) (c : Cfg) {o : ℕ} (ho : 1 ≤ o) {per : Fin (D + 1) → Bool} {fm : Mesh (D + 1) F64} (hfm : fm.WF)
    {x : Fin (D + 1) → XRange F64} {P : Fin (D + 1) → ℕ → ℚ → Prop} {r : Fin (D + 1) → ℚ}
    (hx : ∀ d, GoodDim c o (fm.dims d) (per d) (x d) (P d) (r d)) (hlow : ∀ d, LowDim o (per d) (x d)) {R : ℚ} (hr : ∀ d, r d ≤ R)
    {μ : ℚ} (hμ : μ = if o ≤ 3 then 20 else 100)
    {F : ℚ} (hF : ∀ v ∈ fm.storage, ∃ q, v = .fin q ∧ |q| ≤ F) (hF0 : 1 / 2 ^ 800 ≤ F) (hF1 : μ ^ (D + 1) * F ≤ 2 ^ 900)
    {L : ℕ} (hL : ∀ d, (if per d then fm.dims d else o) ≤ L) {E : ℚ} (hE : E = (D + 1) * (L * (12 * μ + 9) + o * (7 + 256 * R))) (hE1 : E ≤ 2 ^ 43) :
    ∃ (t : Template (D + 1) F64 F64) (g : InterpFn (D + 1) F64 F64), Fl.constructT w c o per fm.dims x = .ok t ∧ Fl.construct w c o per fm x = .ok g ∧
      (∀ d, FactorsOf c o (per d) (t.solvers d) (unk (per d) (pointNum c (per d) (fm.dims d))) (2 + 3 * μ)) ∧
      (∀ d, Fl.PivNot (· = F64.fin 0) c (t.solvers d)) ∧ ∀ v ∈ g.spline.ctrl.storage, ∃ q, v = .fin q ∧ IsDouble q ∧ |q| ≤ μ ^ (D + 1) * F := by
  have ho50 : 1 ≤ o ∧ o ≤ 50 := by
    have := hlow 0
    unfold LowDim at this
    split at this <;> omega
  have hR0 : 0 ≤ R := (hx 0).r0.trans (hr 0)
  have ho0 : (0 : ℚ) ≤ o := Nat.cast_nonneg _
  have hD0 : (0 : ℚ) ≤ D := Nat.cast_nonneg _
  have hL0 : (0 : ℚ) ≤ L := Nat.cast_nonneg _
  have hμ1 : 20 ≤ μ := by rw [hμ]; split <;> norm_num
  have hμδ : 2 / domMargin o = μ := by
    rw [hμ]; unfold domMargin
    split <;> norm_num
  have hG : 2 + 6 / domMargin o = 2 + 3 * μ := by rw [← hμδ]; ring
  have hE2 : L * (12 * μ + 9) + o * (7 + 256 * R) ≤ 2 ^ 43 := by
    clear hF hF0 hF1
    have h0 : 0 ≤ L * (12 * μ + 9) + o * (7 + 256 * R) := by positivity
    have h1 : 1 * (L * (12 * μ + 9) + o * (7 + 256 * R)) ≤ (D + 1) * (L * (12 * μ + 9) + o * (7 + 256 * R)) := mul_le_mul_of_nonneg_right (by linarith) h0
    rw [← hE] at h1
    linarith
  obtain ⟨t, ht, -⟩ := (template_dims (w := w) (c := c) ho50 hx).exists
  have hsh := shape_dims (c := c) ho50 hx
  have htd := (Fl.constructT_solvers hsh ht).2.1
  have htok := (template_dims (w := w) (c := c) ho50 hx).get ht
  have hper := (Fl.constructT_solvers hsh ht).1.peri
  have hd : ∀ d, fm.dims d = t.dims d + if t.base.periodicity d && !c.noDummy then 1 else 0 := fun d => by
    rw [show t.base.periodicity d = per d by rw [← hper]; rfl, htd]
    have h1 := (hsh d).periodic
    dsimp only
    generalize per d = q at h1 ⊢
    unfold unk pointNum at *
    generalize c.noDummy = z at h1 ⊢
    cases q <;> cases z <;> simp at h1 ⊢
    omega
  have hpos : ∀ d, 0 < t.dims d := fun d => by
    rw [htd]
    have h1 := (hsh d).periodic
    have h2 := (hsh d).aperiodic
    dsimp only
    generalize per d = q at h1 h2 ⊢
    unfold unk
    cases q <;> simp at h1 h2 ⊢ <;> omega
  have hax := low_axes (w := w) ho hx hlow ht (fun d => by
    clear hF hF0 hF1
    rw [div_le_iff₀ (by positivity)]
    have h1 : (o : ℚ) * r d ≤ o * R := mul_le_mul_of_nonneg_left (hr d) ho0
    have h2 : (0 : ℚ) ≤ L * (12 * μ + 9) := by positivity
    have h3 : (0 : ℚ) ≤ o * R := by positivity
    have h4 : 7 * (o : ℚ) + 128 * o * r d ≤ 2 ^ 43 := by linarith
    exact h4.trans (by norm_num)) (fun d hp => by
    clear hF hF0 hF1
    have h1 := hL d
    have h2 := hd d
    rw [if_pos hp] at h1
    have h3 : (L : ℚ) * 249 ≤ 2 ^ 43 := by
      have : (L : ℚ) * 249 ≤ L * (12 * μ + 9) := mul_le_mul_of_nonneg_left (by linarith) hL0
      have h3 : (0 : ℚ) ≤ o * (7 + 256 * R) := by positivity
      linarith
    have h4 : L * 249 ≤ 2 ^ 43 := by exact_mod_cast h3
    omega)
  rw [hG, hμδ] at hax
  have hs : Ok (Fl.solveForControlPoints c t fm) (Fl.MeshOk t.dims) :=
    Fl.solveForControlPoints_safe (fun h => h.elim id id) hpos (fun d => by rw [htok.dims_eq]; exact htok.solvers d) hd hfm
  obtain ⟨W, hW, -⟩ := hs.exists
  have hg : Fl.construct w c o per fm x = .ok { t.base with spline := t.base.spline.loadCtrlPts W } := by
    unfold Fl.construct
    rw [ht, ok_bind, hW, ok_bind]
    rfl
  have hC : ∀ v ∈ W.storage, ∃ q, v = .fin q ∧ IsDouble q ∧ |q| ≤ μ ^ (D + 1) * F :=
    ctrl_bounded hfm hpos hd hW (by linarith) (fun d => (hax d).2.1) hF0 hF1 hF
  exact ⟨t, _, ht, hg, fun d => by rw [← show t.dims d = _ from congrFun htd d]; exact (hax d).1, fun d => (hax d).2.2, hC⟩

/-- C90 with the pivots, none of which is zero. -/
theorem double_low_pivots {D : ℕ} (w : Bool) (c : Cfg) {o : ℕ} (ho : 1 ≤ o) {per : Fin (D + 1) → Bool} {fm : Mesh (D + 1) F64} (hfm : fm.WF)
    {x : Fin (D + 1) → XRange F64} {P : Fin (D + 1) → ℕ → ℚ → Prop} {r : Fin (D + 1) → ℚ}
    (hx : ∀ d, GoodDim c o (fm.dims d) (per d) (x d) (P d) (r d)) (hlow : ∀ d, LowDim o (per d) (x d)) {R : ℚ} (hr : ∀ d, r d ≤ R)
    {μ : ℚ} (hμ : μ = if o ≤ 3 then 20 else 100)
    {F : ℚ} (hF : ∀ v ∈ fm.storage, ∃ q, v = .fin q ∧ |q| ≤ F) (hF0 : 1 / 2 ^ 800 ≤ F) (hF1 : μ ^ (D + 1) * F ≤ 2 ^ 900)
    {L : ℕ} (hL : ∀ d, (if per d then fm.dims d else o) ≤ L) {E : ℚ} (hE : E = (D + 1) * (L * (12 * μ + 9) + o * (7 + 256 * R))) (hE1 : E ≤ 2 ^ 43)
    {k : ℕ} (hk : k = (D + 1) * (5 * o + 1) + 1 + (o + 1) ^ (D + 1)) (hk1 : k ≤ 2 ^ 50) :
    (∃ t : Template (D + 1) F64 F64, Fl.constructT w c o per fm.dims x = .ok t ∧ ∀ d, Fl.PivNot (· = F64.fin 0) c (t.solvers d)) ∧
    ∃ g, Fl.construct w c o per fm x = .ok g ∧ (∀ v ∈ g.spline.ctrl.storage, ∃ q, v = .fin q ∧ IsDouble q ∧ |q| ≤ μ ^ (D + 1) * F) ∧
      ∀ I, InRange (fun d => unk (per d) (pointNum c (per d) (fm.dims d))) I → ∀ y : Fin (D + 1) → ℚ, (∀ d, P d (I d) (y d)) →
        ∃ v q, Fl.call g (fun d => .fin (y d)) = .ok (.fin v) ∧ fm.get I = .ok (.fin q) ∧ |v - q| ≤ (3 * k + 2 * E) / 2 ^ 53 * (μ ^ (D + 1) * F) + 1 / 2 ^ 100 := by
  obtain ⟨t, g, ht, hg, hG, hpiv, hC⟩ := double_low_bounded w c ho hfm hx hlow hr hμ hF hF0 hF1 hL hE hE1
  have ho50 : 1 ≤ o ∧ o ≤ 50 := by
    have := hlow 0
    unfold LowDim at this
    split at this <;> omega
  have hF' : 0 ≤ F := (one_div_nonneg.2 (pow_nonneg zero_le_two _)).trans hF0
  have hμ1 : 20 ≤ μ := by rw [hμ]; split <;> norm_num
  refine ⟨⟨t, ht, hpiv⟩, g, hg, hC, fun I hI y hy => ?_⟩
  exact double_interpolates_periodic w c ho50 hfm hx hr ht hg hC ⟨mul_nonneg (pow_nonneg (by linarith) _) hF', hF1.trans (by decide +kernel)⟩
    (G := 2 + 3 * μ) hG hL (by rw [hE]; ring) (hE1.trans (by norm_num)) hk hk1 hI hy

/-- **C90.**  `μ` is 20 up to order 3 and 100 for orders 4 to 6. -/
theorem double_interpolates_periodic_low {D : ℕ} (w : Bool) (c : Cfg) {o : ℕ} (ho : 1 ≤ o) {per : Fin (D + 1) → Bool} {fm : Mesh (D + 1) F64} (hfm : fm.WF)
    {x : Fin (D + 1) → XRange F64} {P : Fin (D + 1) → ℕ → ℚ → Prop} {r : Fin (D + 1) → ℚ}
    (hx : ∀ d, GoodDim c o (fm.dims d) (per d) (x d) (P d) (r d)) (hlow : ∀ d, LowDim o (per d) (x d)) {R : ℚ} (hr : ∀ d, r d ≤ R)
    {μ : ℚ} (hμ : μ = if o ≤ 3 then 20 else 100)
    {F : ℚ} (hF : ∀ v ∈ fm.storage, ∃ q, v = .fin q ∧ |q| ≤ F) (hF0 : 1 / 2 ^ 800 ≤ F) (hF1 : μ ^ (D + 1) * F ≤ 2 ^ 900)
    {L : ℕ} (hL : ∀ d, (if per d then fm.dims d else o) ≤ L) {E : ℚ} (hE : E = (D + 1) * (L * (12 * μ + 9) + o * (7 + 256 * R))) (hE1 : E ≤ 2 ^ 43)
    {k : ℕ} (hk : k = (D + 1) * (5 * o + 1) + 1 + (o + 1) ^ (D + 1)) (hk1 : k ≤ 2 ^ 50) :
    ∃ g, Fl.construct w c o per fm x = .ok g ∧ (∀ v ∈ g.spline.ctrl.storage, ∃ q, v = .fin q ∧ IsDouble q ∧ |q| ≤ μ ^ (D + 1) * F) ∧
      ∀ I, InRange (fun d => unk (per d) (pointNum c (per d) (fm.dims d))) I → ∀ y : Fin (D + 1) → ℚ, (∀ d, P d (I d) (y d)) →
        ∃ v q, Fl.call g (fun d => .fin (y d)) = .ok (.fin v) ∧ fm.get I = .ok (.fin q) ∧ |v - q| ≤ (3 * k + 2 * E) / 2 ^ 53 * (μ ^ (D + 1) * F) + 1 / 2 ^ 100 :=
  (double_low_pivots w c ho hfm hx hlow hr hμ hF hF0 hF1 hL hE hE1 hk hk1).2

/-! ## A case: periodic dimension of 65 points of `[0, 1]` (the last repeats the first) with 7 points of `[0, 3]`, cubic, any data of size at most 1;
and order 6 in a single periodic dimension -/

namespace RoundPerSmallExample

def cfg : Cfg := ⟨true, false⟩
def per : Fin 2 → Bool := ![true, false]
def range : Fin 2 → XRange F64 := ![.uniform (.fin 0) (.fin 1), .uniform (.fin 0) (.fin 3)]

def P : Fin 2 → ℕ → ℚ → Prop := ![fun i x => IsDouble x ∧ 0 ≤ x ∧ |x - (0 + i * (1 / 64))| ≤ 8 * 1 / 2 ^ 53,
  fun i x => IsDouble x ∧ 0 ≤ x ∧ x ≤ 3 ∧ |x - (0 + i * (1 / 2))| ≤ 8 * 3 / 2 ^ 53]

theorem zero_double : IsDouble 0 := isDouble_of_round (show F64.round 0 = .fin 0 by decide +kernel)

/-- The periodic dimension, for every order up to 6. -/
theorem goodPer {o : ℕ} (ho : o ≤ 6) : GoodDim cfg o 65 true (.uniform (.fin 0) (.fin 1)) (fun i x => IsDouble x ∧ 0 ≤ x ∧ |x - (0 + i * (1 / 64))| ≤ 8 * 1 / 2 ^ 53) 64 := by
  have e : pointNum cfg true 65 = 65 := rfl
  refine GoodDim.per (B := 1) (H := 1 / 64) (by rw [e]; omega) ?_ (by norm_num) (by decide +kernel) (by norm_num)
  exact ⟨by decide, by decide, zero_double, isDouble_of_round (show F64.round 1 = .fin 1 by decide +kernel), by norm_num,
      by norm_num, by decide +kernel, by show (1 / 64 : ℚ) * ((65 : ℕ) - 1) = 1 - 0; norm_num, by norm_num, by decide +kernel⟩

theorem good : ∀ d, GoodDim cfg 3 (![65, 7] d) (per d) (range d) (P d) (![64, 6] d) := by
  intro d
  match d with
  | 0 => exact goodPer (by omega)
  | 1 =>
    exact GoodDim.aper (by decide) (GoodAxis.uniform (B := 3) (H := 1 / 2) ⟨by decide, by decide, zero_double, isDouble_of_round (show F64.round 3 = .fin 3 by decide +kernel), by norm_num,
      by norm_num, by decide +kernel, by show (1 / 2 : ℚ) * ((7 : ℕ) - 1) = 3 - 0; norm_num, by norm_num, by decide +kernel⟩
      (by show (3 : ℚ) ≤ 6 * (1 / 2); norm_num))

example (w : Bool) (data : Mesh 2 F64) (hd : data.dims = ![65, 7]) (hw : data.WF) (h1 : ∀ v ∈ data.storage, ∃ q, v = .fin q ∧ |q| ≤ 1) :
    ∃ g, Fl.construct w cfg 3 per data range = .ok g ∧ (∀ v ∈ g.spline.ctrl.storage, ∃ q, v = .fin q ∧ |q| ≤ 400) ∧
      ∀ (i : Fin 64) (j : Fin 7), ∃ v q, Fl.call g ![.fin (i / 64), .fin (j / 2)] = .ok (.fin v) ∧ data.get ![i, j] = .ok (.fin q) ∧ |v - q| ≤ 1 / 2 ^ 26 := by
  obtain ⟨g, hg, hC, h⟩ := double_interpolates_periodic_low w cfg (o := 3) (by omega) (per := per) hw (by rw [hd]; exact good)
    (fun d => by
      match d with
      | 0 => show (3 : ℕ) ≤ 6; omega
      | 1 => exact ⟨le_rfl, .inl rfl⟩) (R := 64) (fun d => by match d with | 0 => exact le_rfl | 1 => show (6 : ℚ) ≤ 64; norm_num) (μ := 20) rfl
    (F := 1) h1 (by decide +kernel) (by decide +kernel) (L := 65) (fun d => by
      rw [hd]
      match d with
      | 0 => exact le_rfl
      | 1 => show (3 : ℕ) ≤ 65; omega) rfl (by norm_num) rfl (by norm_num)
  refine ⟨g, hg, fun v hv => ?_, fun i j => ?_⟩
  · obtain ⟨q, q1, -, q2⟩ := hC v hv
    exact ⟨q, q1, q2.trans (by norm_num)⟩
  · obtain ⟨v, q, e1, e2, e3⟩ := h ![i, j] (by
      rw [hd]
      intro d
      match d with
      | 0 => exact i.isLt
      | 1 => exact j.isLt) ![i / 64, j / 2] (fun d => by
      match d with
      | 0 =>
        have h2 : ∀ i : Fin 64, F64.round (i / 64 : ℚ) = .fin (i / 64) ∧ (0 : ℚ) ≤ i / 64 := by decide +kernel
        refine ⟨isDouble_of_round (h2 i).1, (h2 i).2, ?_⟩
        show |(i : ℚ) / 64 - (0 + (i : ℕ) * (1 / 64))| ≤ _
        rw [zero_add, mul_one_div, sub_self, abs_zero]
        norm_num
      | 1 =>
        have h2 : ∀ j : Fin 7, F64.round (j / 2 : ℚ) = .fin (j / 2) ∧ (0 : ℚ) ≤ j / 2 ∧ (j / 2 : ℚ) ≤ 3 := by decide +kernel
        refine ⟨isDouble_of_round (h2 j).1, (h2 j).2.1, (h2 j).2.2, ?_⟩
        show |(j : ℚ) / 2 - (0 + (j : ℕ) * (1 / 2))| ≤ _
        rw [zero_add, mul_one_div, sub_self, abs_zero]
        norm_num)
    have e : (fun d => F64.fin ((![i / 64, j / 2] : Fin 2 → ℚ) d)) = ![.fin (i / 64), .fin (j / 2)] := by
      funext d
      match d with
      | 0 => rfl
      | 1 => rfl
    rw [e] at e1
    exact ⟨v, q, e1, e2, e3.trans (by norm_num)⟩

example (w : Bool) (data : Mesh 1 F64) (hd : data.dims = ![65]) (hw : data.WF) (h1 : ∀ v ∈ data.storage, ∃ q, v = .fin q ∧ |q| ≤ 1) :
    ∃ g : InterpFn 1 F64 F64, Fl.construct w cfg 6 (fun _ => true) data (fun _ => .uniform (.fin 0) (.fin 1)) = .ok g ∧
      ∀ i : Fin 64, ∃ v q, Fl.call g (fun _ => .fin (i / 64)) = .ok (.fin v) ∧ data.get (fun _ => i) = .ok (.fin q) ∧ |v - q| ≤ 1 / 2 ^ 27 := by
  have hdd : ∀ d, data.dims d = 65 := fun d => by rw [hd, Subsingleton.elim d 0]; rfl
  obtain ⟨g, hg, -, h⟩ := double_interpolates_periodic_low w cfg (o := 6) (by omega) (per := fun _ => true) hw (x := fun _ => .uniform (.fin 0) (.fin 1))
    (fun d => by rw [hdd]; exact goodPer le_rfl) (fun d => le_refl 6) (R := 64) (fun _ => le_rfl) (μ := 100) rfl
    (F := 1) h1 (by decide +kernel) (by decide +kernel) (L := 65) (fun d => by rw [hdd]; exact le_rfl) rfl (by norm_num) rfl (by norm_num)
  refine ⟨g, hg, fun i => ?_⟩
  obtain ⟨v, q, e1, e2, e3⟩ := h (fun _ => i) (fun d => by show (i : ℕ) < unk true (pointNum cfg true (data.dims d)); rw [hdd]; exact i.isLt) (fun _ => i / 64) (fun d => by
    have h2 : ∀ i : Fin 64, F64.round (i / 64 : ℚ) = .fin (i / 64) ∧ (0 : ℚ) ≤ i / 64 := by decide +kernel
    refine ⟨isDouble_of_round (h2 i).1, (h2 i).2, ?_⟩
    rw [zero_add, mul_one_div, sub_self, abs_zero]
    norm_num)
  exact ⟨v, q, e1, e2, e3.trans (by norm_num)⟩

end RoundPerSmallExample

end Intp
