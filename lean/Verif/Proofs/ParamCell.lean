import Verif.CellFloat
import Verif.Proofs.Param

/-! # Two arithmetics side by side: the cell layout -/

namespace Intp

open List

section
variable {α β : Type} {E : Err → Prop} {R : α → β → Prop} {D : ℕ}

theorem fillPoint_param (order : ℕ) {ctrl : Mesh (D + 1) α} {ctrl' : Mesh (D + 1) β} (hc : RMesh R ctrl ctrl') (ci : Fin (D + 2) → ℕ)
    {cell : Mesh (D + 2) α} {cell' : Mesh (D + 2) β} (h : RMesh R cell cell') : RelM E (RMesh R) (Cell.fillPoint order ctrl ci cell) (Cell.fillPoint order ctrl' ci cell') :=
  RelM.loop _ _ h fun _ _ _ h => RelM.bindEq fun _ => RelM.bindEq' (by rw [hc.dims_eq]) fun _ => RelM.bind (get_param hc _) fun _ _ hv => set_param h _ hv

theorem fill_param (c : Cfg) (order size : ℕ) {ctrl : Mesh (D + 1) α} {ctrl' : Mesh (D + 1) β} (hc : RMesh R ctrl ctrl') (b e : ℕ)
    {cell : Mesh (D + 2) α} {cell' : Mesh (D + 2) β} (h : RMesh R cell cell') : RelM E (RMesh R) (Cell.fill c order size ctrl b e cell) (Cell.fill c order size ctrl' b e cell') := by
  refine RelM.loop _ _ h fun i m m' h => RelM.bindEq' (by rw [h.dims_eq]) fun a => RelM.bindEq' (by cases h; rfl) fun it => ?_
  rw [h.dims_eq]
  exact RelM.loop _ _ h fun k m m' h => RelM.bindEq' (by cases h; rfl) fun ci => fillPoint_param order hc ci h

theorem generate_param [Zero α] [Zero β] (h0 : R 0 0) (c : Cfg) (order : ℕ) (per : Fin (D + 1) → Bool) {ctrl : Mesh (D + 1) α} {ctrl' : Mesh (D + 1) β}
    (hc : RMesh R ctrl ctrl') : RelM E (RMesh R) (Cell.generate c order per ctrl) (Cell.generate c order per ctrl') := by
  unfold Cell.generate
  rw [hc.dims_eq]
  refine RelM.bindEq fun cd => ?_
  dsimp only
  have h : RMesh R (Mesh.mk' cd : Mesh (D + 2) α) (Mesh.mk' cd) := mk'_param h0 cd
  rw [h.size_eq]
  exact RelM.bindEq fun _ => fill_param c order _ hc _ _ h

end

variable {K K' V V' : Type} [CoordArith K] [ValArith V] [ScaleArith K V] [CoordArith K'] [ValArith V'] [ScaleArith K' V']
variable {E : Err → Prop} {P : K → Prop} {rK : K → K' → Prop} {rV : V → V' → Prop} (kr : KRelP E P rK) (vr : VRelP E P rK rV) {D : ℕ}

/-- The `ctrl` of the default layout is not looked at; it is empty in both. -/
structure RCell (rK : K → K' → Prop) (rV : V → V' → Prop) (f : CellFn D K V) (f' : CellFn D K' V') : Prop where
  fn : RFn rK rV f.fn f'.fn
  cell : RMesh rV f.cell f'.cell

structure RCSpline (rK : K → K' → Prop) (rV : V → V' → Prop) (f : CellSpline D K V) (f' : CellSpline D K' V') : Prop where
  spline : RSpline rK rV f.spline f'.spline
  cell : RMesh rV f.cell f'.cell

omit [CoordArith K] [ValArith V] [ScaleArith K V] [CoordArith K'] [ValArith V'] [ScaleArith K' V'] in
theorem RCell.sp {f : CellFn D K V} {f' : CellFn D K' V'} (h : RCell rK rV f f') : RCSpline rK rV f.spline f'.spline := ⟨h.fn.spline, h.cell⟩

namespace Fl

include vr in
omit [CoordArith K] [CoordArith K'] in
theorem cellScale_param (order : ℕ) {base : Fin (D + 1) → List K} {base' : Fin (D + 1) → List K'} (hb : ∀ d, Forall₂ rK (base d) (base' d)) (i : ℕ) {v : V} {v' : V'}
    (hv : rV v v') : RelM E rV (cellScale order base i v) (cellScale order base' i v') := by
  refine RelM.bind (R := fun r r' => rV r.1 r'.1 ∧ r.2 = r'.2) (RelM.foldlM _ ⟨hv, rfl⟩ fun r r' d hr => ?_) fun r r' hr => RelM.pure hr.1
  rw [hr.2]
  exact RelM.bindEq fun _ => RelM.bind (rd_param (hb d) _) fun e e' he => RelM.bindEq fun q => RelM.pure ⟨vr.smul he hr.1, rfl⟩

include kr in
theorem cellCoef_param (order : ℕ) {base : Fin (D + 1) → List K} {base' : Fin (D + 1) → List K'} (hb : ∀ d, Forall₂ rK (base d) (base' d)) (i : ℕ) :
    RelM E rK (cellCoef order base i) (cellCoef order base' i) := by
  refine RelM.bind (R := fun r r' => rK r.1 r'.1 ∧ r.2 = r'.2) (RelM.foldlM _ ⟨kr.one, rfl⟩ fun r r' d hr => ?_) fun r r' hr => RelM.pure hr.1
  rw [hr.2]
  exact RelM.bindEq fun _ => RelM.bind (rd_param (hb d) _) fun e e' he => RelM.bindEq fun q => RelM.pure ⟨kr.mul hr.1 he, rfl⟩

omit [CoordArith K] [ValArith V] [ScaleArith K V] [CoordArith K'] [ValArith V'] [ScaleArith K' V'] in
theorem cellIndex_eq {b : CellSpline D K V} {b' : CellSpline D K' V'} (h : RCSpline rK rV b b') {segs : Fin (D + 1) → K × ℕ} {segs' : Fin (D + 1) → K' × ℕ}
    (hs : ∀ d, rK (segs d).1 (segs' d).1 ∧ (segs d).2 = (segs' d).2) : b.cellIndex segs = b'.cellIndex segs' := by
  unfold CellSpline.cellIndex
  rw [h.spline.order_eq]
  simp only [fun d => (hs d).2]

include kr vr in
theorem cellEval_param (c : Cfg) {b : CellSpline D K V} {b' : CellSpline D K' V'} (h : RCSpline rK rV b b') (hk : ∀ d, KnotsOk P (b.spline.knots d)) {x : Fin (D + 1) → K × ℕ} {x' : Fin (D + 1) → K' × ℕ}
    (hx : ∀ d, rK (x d).1 (x' d).1 ∧ (x d).2 = (x' d).2) : RelM E rV (cellEval c b x) (cellEval c b' x') := by
  unfold cellEval
  rw [h.spline.order_eq]
  refine RelM.bind (RelM.tabM (R := fun r r' => rK r.1 r'.1 ∧ r.2 = r'.2) fun d => ?_) fun segs segs' hs => RelM.bind (RelM.tabM (R := Forall₂ rK) fun d => ?_)
    fun base base' hb => RelM.bindEq' (cellIndex_eq h hs) fun ind => RelM.bindEq' (lineBegin_eq h.cell c _ _) fun it =>
    RelM.loop _ _ vr.zero fun i v v' hv => RelM.bind (rd_param h.cell.storage _) fun p p' hp => RelM.bind (cellScale_param vr _ hb i hp) fun w w' hw => RelM.pure (vr.add hv hw)
  · rw [(hx d).2]; exact getKnotIter'_param kr h.spline d (hx d).1 _
  · rw [(hs d).2]; exact baseSplineValue_param kr _ (h.spline.knots d) (hk d) _ (hs d).1 _

include kr in
omit [ValArith V] [ScaleArith K V] [ValArith V'] [ScaleArith K' V'] in
theorem cellDerivFillBody_param {b : CellSpline D K V} {b' : CellSpline D K' V'} (h : RCSpline rK rV b b') {base : Fin (D + 1) → List K} {base' : Fin (D + 1) → List K'}
    (hb : ∀ d, Forall₂ rK (base d) (base' d)) (off step i : ℕ) {st : Mesh (D + 1) K × Mesh (D + 1) V} {st' : Mesh (D + 1) K' × Mesh (D + 1) V'}
    (hst : RMesh rK st.1 st'.1 ∧ RMesh rV st.2 st'.2) :
    RelM E (fun s s' => RMesh rK s.1 s'.1 ∧ RMesh rV s.2 s'.2) (cellDerivFillBody b base off step i st) (cellDerivFillBody b' base' off step i st') := by
  unfold cellDerivFillBody
  rw [h.spline.order_eq]
  exact RelM.bindEq fun a => RelM.bind (R := rK) (RelM.foldlM _ kr.one fun r r' d hr => RelM.bind (rd_param (hb d) _) fun e e' he => RelM.pure (kr.mul hr he)) fun r r' hr =>
    RelM.bind (set_param hst.1 _ hr) fun _ _ h1 => RelM.bind (rd_param h.cell.storage _) fun c c' hc => RelM.bind (set_param hst.2 _ hc) fun _ _ h2 => RelM.pure ⟨h1, h2⟩

include kr vr in
theorem cellDerivativeAt_param (c : Cfg) {b : CellSpline D K V} {b' : CellSpline D K' V'} (h : RCSpline rK rV b b') (hk : ∀ d, KnotsOk P (b.spline.knots d)) {x : Fin (D + 1) → K × ℕ × ℕ}
    {x' : Fin (D + 1) → K' × ℕ × ℕ} (hx : ∀ d, rK (x d).1 (x' d).1 ∧ (x d).2 = (x' d).2) : RelM E rV (cellDerivativeAt c b x) (cellDerivativeAt c b' x') := by
  have e1 : ∀ d, (x d).2.1 = (x' d).2.1 := fun d => by rw [(hx d).2]
  have e2 : ∀ d, (x d).2.2 = (x' d).2.2 := fun d => by rw [(hx d).2]
  unfold cellDerivativeAt
  simp only [h.spline.order_eq, e1, e2]
  refine RelM.ite Iff.rfl (RelM.pure vr.zero) (RelM.bind (RelM.tabM fun d => getKnotIter'_param kr h.spline d (hx d).1 _) fun segs segs' hs =>
    RelM.bind (RelM.tabM (R := Forall₂ rK) fun d => ?_) fun base base' hb => RelM.bindEq' (cellIndex_eq h hs) fun ind => RelM.bindEq' (lineBegin_eq h.cell c _ _) fun it =>
    RelM.bind (R := fun s s' => RMesh rK s.1 s'.1 ∧ RMesh rV s.2 s'.2) (RelM.loop _ _ ⟨mk'_param kr.zero _, mk'_param vr.zero _⟩ fun i st st' hst =>
      cellDerivFillBody_param kr h hb _ _ i hst)
      fun st st' hst => RelM.bind (RelM.foldlM _ hst.2 fun m m' d hm => derivReduceDim_param kr vr c h.spline hk hs d _ hm) fun cv cv' hcv => ?_)
  · rw [(hs d).2]; exact baseSplineValue_param kr _ (h.spline.knots d) (hk d) _ (hs d).1 _
  · rw [hst.1.size_eq]
    exact RelM.loop _ _ vr.zero fun i v v' hv => RelM.bind (rd_param hst.1.storage _) fun _ _ h1 => RelM.bind (rd_param hcv.storage _) fun _ _ h2 =>
      RelM.pure (vr.add hv (vr.smul h1 h2))

/-- Related captures of `pre_calc_coef`. -/
def RProxy (rK : K → K' → Prop) (p : (Fin (D + 1) → List K) × ℕ) (p' : (Fin (D + 1) → List K') × ℕ) : Prop := (∀ d, Forall₂ rK (p.1 d) (p'.1 d)) ∧ p.2 = p'.2

include kr in
omit [ValArith V] [ScaleArith K V] [ValArith V'] [ScaleArith K' V'] in
theorem preCalcCoef_param {b : CellSpline D K V} {b' : CellSpline D K' V'} (h : RCSpline rK rV b b') (hk : ∀ d, KnotsOk P (b.spline.knots d)) {x : Fin (D + 1) → K × ℕ} {x' : Fin (D + 1) → K' × ℕ}
    (hx : ∀ d, rK (x d).1 (x' d).1 ∧ (x d).2 = (x' d).2) : RelM E (RProxy rK) (preCalcCoef b x) (preCalcCoef b' x') := by
  unfold preCalcCoef
  rw [h.spline.order_eq]
  refine RelM.bind (RelM.tabM (R := fun r r' => rK r.1 r'.1 ∧ r.2 = r'.2) fun d => ?_) fun segs segs' hs => RelM.bind (RelM.tabM (R := Forall₂ rK) fun d => ?_)
    fun base base' hb => RelM.bindEq' (cellIndex_eq h hs) fun ind => RelM.bindEq' ?_ fun cd => RelM.pure ⟨hb, rfl⟩
  · rw [(hx d).2]; exact getKnotIter'_param kr h.spline d (hx d).1 _
  · rw [(hs d).2]; exact baseSplineValue_param kr _ (h.spline.knots d) (hk d) _ (hs d).1 _
  · unfold CellSpline.dimsFromKnots
    simp only [h.spline.order_eq, fun d => (h.spline.knots d).length_eq]

include kr vr in
theorem proxyCall_param {p : (Fin (D + 1) → List K) × ℕ} {p' : (Fin (D + 1) → List K') × ℕ} (hp : RProxy rK p p') {b : CellSpline D K V} {b' : CellSpline D K' V'}
    (h : RCSpline rK rV b b') : RelM E rV (proxyCall p b) (proxyCall p' b') := by
  unfold proxyCall
  rw [h.spline.order_eq, h.cell.dims_eq, hp.2]
  refine RelM.loop _ _ vr.zero fun i v v' hv => ?_
  have step : ∀ {k : K} {k' : K'}, rK k k' → RelM E rV (do let q ← rd b.cell.storage (p'.2 + i); pure (v + k • q)) (do let q ← rd b'.cell.storage (p'.2 + i); pure (v' + k' • q)) :=
    fun hk => RelM.bind (rd_param h.cell.storage _) fun _ _ hq => RelM.pure (vr.add hv (vr.smul hk hq))
  exact RelM.ite Iff.rfl (RelM.bind (rd_param (hp.1 0) _) fun _ _ hk => step hk) (RelM.bind (cellCoef_param kr _ hp.1 i) fun _ _ hk => step hk)

include kr vr in
theorem cellCall_param (c : Cfg) {f : CellFn D K V} {f' : CellFn D K' V'} (h : RCell rK rV f f') (hk : FnOk P f.fn) {x : Fin (D + 1) → K} {x' : Fin (D + 1) → K'}
    (hx : ∀ d, rK (x d) (x' d)) : RelM E rV (cellCall c f x) (cellCall c f' x') :=
  RelM.bind (RelM.tabM fun d => hint_param kr h.fn hk d (hx d)) fun _ _ e => cellEval_param kr vr c h.sp hk.knots fun d => ⟨hx d, e d⟩

include kr vr in
theorem cellDerivative_param (c : Cfg) {f : CellFn D K V} {f' : CellFn D K' V'} (h : RCell rK rV f f') (hk : FnOk P f.fn) {x : Fin (D + 1) → K} {x' : Fin (D + 1) → K'}
    (hx : ∀ d, rK (x d) (x' d)) (m : Fin (D + 1) → ℕ) : RelM E rV (cellDerivative c f x m) (cellDerivative c f' x' m) :=
  RelM.bind (RelM.tabM fun d => hint_param kr h.fn hk d (hx d)) fun _ _ e => cellDerivativeAt_param kr vr c h.sp hk.knots fun d => ⟨hx d, by rw [e d]⟩

include kr in
omit [ValArith V] [ScaleArith K V] [ValArith V'] [ScaleArith K' V'] in
theorem evalProxy_param {f : CellFn D K V} {f' : CellFn D K' V'} (h : RCell rK rV f f') (hk : FnOk P f.fn) {x : Fin (D + 1) → K} {x' : Fin (D + 1) → K'}
    (hx : ∀ d, rK (x d) (x' d)) : RelM E (RProxy rK) (evalProxy f x) (evalProxy f' x') :=
  RelM.bind (RelM.tabM fun d => hint_param kr h.fn hk d (hx d)) fun _ _ e => preCalcCoef_param kr h.sp hk.knots fun d => ⟨hx d, e d⟩

include vr in
omit [CoordArith K] [CoordArith K'] in
theorem interpolateCell_param (c : Cfg) {t : Template (D + 1) K V} {t' : Template (D + 1) K' V'} (h : RTmpl rK rV t t') (hd : ∀ d, PivOk P c (t.solvers d)) {fm : Mesh (D + 1) V} {fm' : Mesh (D + 1) V'}
    (hf : RMesh rV fm fm') : RelM E (RCell rK rV) (interpolateCell c t fm) (interpolateCell c t' fm') := by
  have hs := solveForControlPoints_param vr c h hd hf
  cases h with
  | mk hc hb hs' =>
    unfold interpolateCell
    dsimp only
    refine RelM.bind hs fun w w' hw => ?_
    rw [hb.spline.order_eq, hb.spline.per_eq]
    exact RelM.bind (generate_param vr.zero c _ _ hw) fun g g' hg => RelM.pure ⟨hb, hg⟩

end Fl

end Intp
