import Verif.Proofs.PerNear
import Verif.Proofs.InterpCore
import Verif.Proofs.PerAxes
import Verif.Props.RoundNear

/-!
# What interpolation in `double` computes, compared with what it would compute exactly

Facts shared by the theorems about values (C102) and about derivatives (C106).
-/

namespace Intp

open Finset BSpline

/-- The function `g` built in `double` and the function `gx` built without rounding from the same input; `t` is the template of `g`. -/
structure NearFns {D : ℕ} (c : Cfg) (o K : ℕ) (per : Fin (D + 1) → Bool) (dims : Fin (D + 1) → ℕ) (x : Fin (D + 1) → XRange F64) (Q : Fin (D + 1) → ℚ → Prop) (ρ ε C : ℚ)
    (t : Template (D + 1) F64 F64) (g : InterpFn (D + 1) F64 F64) (gx : InterpFn (D + 1) ℚ ℚ) (T : Fin (D + 1) → List ℚ) (Cf Cx F : (Fin (D + 1) → ℕ) → ℚ) : Prop where
  /-- Each dimension. -/
  near : ∀ d, ∃ ε', DimNear c t.base d o (pointNum c (per d) (dims d)) (per d) (t.solvers d) (x d).rat (Q d) ε' (512 * ((K + 1) * (o * ρ)) / 2 ^ 53) (T d)
  sizes : ∀ d, t.dims d = unk (per d) (pointNum c (per d) (dims d))
  hint : ∀ d y, Fl.hint g d y = Fl.hint t.base d y
  spline : DoubleSpline g.spline C
  order : g.spline.order = o
  peri : ∀ d, g.spline.periodicity d = per d
  rng : ∀ d, g.spline.range d = t.base.spline.range d
  kn : ∀ d, g.spline.rat.kn d = knotFn (T d)
  len : ∀ d, (g.spline.rat.knots d).length = (T d).length
  last : ∀ d, g.spline.rat.last d = (T d).length - o - 2
  /-- The exact function. -/
  valid : ValidAxes c o per dims fun d => (x d).rat
  done : gx.Done c o per dims (fun d => (x d).rat) Cx
  exact : ∀ I, InRange t.dims I →
    tensorVal t.dims (fun d => (x d).rat.mat o (pointNum c (per d) (dims d)) (per d) ((I d + rowShift o (per d)) % t.dims d)) Cx = F I
  /-- The control points of `g`. -/
  ctrl_dims : g.spline.rat.ctrl.dims = t.dims
  holds : g.spline.rat.ctrl.Holds g.spline.rat.ctrl.dims Cf
  bound : ∀ a, InRange t.dims a → |Cf a| ≤ C
  residual : ∀ I, InRange t.dims I →
    |tensorVal t.dims (fun d => (x d).rat.mat o (pointNum c (per d) (dims d)) (per d) ((I d + rowShift o (per d)) % t.dims d)) Cf - F I| ≤ 2 * ε * C + 1 / 2 ^ 101

theorem nearFns_of {D : ℕ} (w : Bool) (c : Cfg) {o : ℕ} (ho : 1 ≤ o ∧ o ≤ 50) {per : Fin (D + 1) → Bool} {fm : Mesh (D + 1) F64} (hfm : fm.WF)
    {x : Fin (D + 1) → XRange F64} {K : ℕ} {Q : Fin (D + 1) → ℚ → Prop} {ρ : ℚ} (hx : ∀ d, NearDim c o (fm.dims d) K (per d) (x d) (Q d) ρ)
    {t : Template (D + 1) F64 F64} (ht : Fl.constructT w c o per fm.dims x = .ok t)
    {g : InterpFn (D + 1) F64 F64} (hg : Fl.construct w c o per fm x = .ok g)
    {C : ℚ} (hC : ∀ v ∈ g.spline.ctrl.storage, ∃ q, v = .fin q ∧ IsDouble q ∧ |q| ≤ C) (hC1 : 0 ≤ C ∧ C ≤ 2 ^ 1000)
    {G : ℚ} (hG : ∀ d, FactorsOf c o (per d) (t.solvers d) (unk (per d) (pointNum c (per d) (fm.dims d))) G)
    {L : ℕ} (hL : ∀ d, (if per d then fm.dims d else o) ≤ L) {E : ℚ} (hE : E = (D + 1) * (L * (4 * G + 1) + o * (7 + 256 * ρ))) (hE1 : E ≤ 2 ^ 50)
    {k : ℕ} (hk : k = (D + 1) * (5 * o + 1) + 1 + (o + 1) ^ (D + 1)) (hk1 : k ≤ 2 ^ 50) :
    ∃ gx T Cf Cx F, InterpFn.construct c o per fm.rat (fun d => (x d).rat) = .ok gx ∧ NearFns c o K per fm.dims x Q ρ (E / 2 ^ 53) C t g gx T Cf Cx F := by
  choose P r hgood hr using fun d => (hx d).good
  have hsh := shape_dims (c := c) ho hgood
  have htd := (Fl.constructT_solvers hsh ht).2.1
  have hGt : ∀ d, FactorsOf c o (per d) (t.solvers d) (t.dims d) G := fun d => by rw [htd]; exact hG d
  obtain ⟨-, hord, hper, hok, hax⟩ := axisReady_of ho hgood ht hGt
  choose T hT using hax
  have hX : ∀ d, DimNear c t.base d o (pointNum c (per d) (fm.dims d)) (per d) (t.solvers d) (x d).rat (Q d)
      ((((if per d then t.dims d else o : ℕ) : ℚ) * (4 * G + 1) + (7 * o + 128 * (o * ρ))) / 2 ^ 53) (512 * ((K + 1) * (o * ρ)) / 2 ^ 53) (T d) := fun d => by
    obtain ⟨T', h1, h2⟩ := dimNear_of ho hx ht hGt d
    have : T' = T d := List.map_injective_iff.2 (fun a b h => by injection h) (h1.symm.trans (hT d).knots)
    rwa [this] at h2
  have hdim : ∀ d, t.dims d = unk (per d) (pointNum c (per d) (fm.dims d)) := fun d => congrFun htd d
  unfold Fl.construct at hg
  rw [ht, ok_bind] at hg
  obtain ⟨W, hW, hg⟩ : ∃ W, Fl.solveForControlPoints c t fm = .ok W ∧
      (.ok { t.base with spline := t.base.spline.loadCtrlPts W } : M (InterpFn (D + 1) F64 F64)) = .ok g := by
    cases h : Fl.solveForControlPoints c t fm with
    | error e => rw [h] at hg; cases hg
    | ok W => rw [h, ok_bind] at hg; exact ⟨W, rfl, hg⟩
  have hg := (Except.ok.inj hg).symm
  have gsp : g.spline = t.base.spline.loadCtrlPts W := by rw [hg]
  have hpe : ∀ d, t.base.periodicity d = per d := fun d => by rw [← hper]; rfl
  have hd : ∀ d, fm.dims d = t.dims d + if t.base.periodicity d && !c.noDummy then 1 else 0 := fun d => by
    rw [hpe, htd]
    have h1 := (hsh d).periodic
    dsimp only
    generalize per d = q at h1 ⊢
    unfold unk pointNum at *
    generalize c.noDummy = z at h1 ⊢
    cases q <;> cases z <;> simp at h1 ⊢
    omega
  have hb : DoubleSpline g.spline C := by
    rw [gsp] at hC ⊢
    exact ready_spline ho hfm hd hord hok hT hW hC hC1 (hk ▸ hk1)
  have gord : g.spline.order = o := by rw [gsp]; exact hord
  have gper : ∀ d, g.spline.periodicity d = per d := fun d => by rw [gsp, ← hpe d]; rfl
  have grange : ∀ d, g.spline.range d = t.base.spline.range d := fun d => by rw [gsp]; rfl
  have gkn : ∀ d, g.spline.rat.kn d = knotFn (T d) := fun d => by
    unfold BSpline.kn
    have : g.spline.rat.knots d = (t.base.spline.knots d).map F64.toRat := by rw [gsp]; rfl
    rw [this, (hT d).knots, List.map_map]
    exact congrArg knotFn (List.map_id _)
  have hlast : ∀ d, g.spline.rat.last d = (T d).length - o - 2 := fun d => by
    unfold BSpline.last
    rw [show g.spline.rat.knots d = (t.base.spline.knots d).map F64.toRat by rw [gsp]; rfl, (hT d).knots, List.length_map, List.length_map,
      show g.spline.rat.order = o from gord]
  have hG0 : 0 ≤ G := (hGt 0).nonneg (hT 0).pos
  have hρ0 : 0 ≤ ρ := (hx 0).nonneg
  have ho0 : (0 : ℚ) ≤ o := Nat.cast_nonneg _
  -- the exact function
  have hv : ValidAxes c o per fm.rat.dims fun d => (x d).rat := fun d => (hX d).valid
  have hxm : fm.rat.WF := by
    unfold Mesh.WF Mesh.rat
    rw [List.length_map]
    exact hfm
  obtain ⟨gx, hgx⟩ := periodic_construct_ok_partial c hxm hv fun d hp => .inl ((hX d).uni hp)
  obtain ⟨F, hF⟩ := Mesh.exists_holds _ hxm
  obtain ⟨-, Cx, hD, hEq⟩ := (InterpFn.construct_spec hv (fm := fm.rat) rfl hF).get hgx
  have hnOf : nOf c per fm.rat.dims = t.dims := by funext d; exact (hdim d).symm
  have hun : ∀ d i, i < t.dims d → (∀ J, J < t.dims d → 0 ≤ (x d).rat.mat o (pointNum c (per d) (fm.dims d)) (per d) i J) ∧
      ∑ J ∈ range (t.dims d), (x d).rat.mat o (pointNum c (per d) (fm.dims d)) (per d) i J = 1 := fun d i hi => by
    have hrow := fun J hJ => hD.mat_row hv d (r := i) (J := J) (by rw [hnOf]; exact hi) (by rw [hnOf]; exact hJ)
    have hnd : nodeOfRow o (per d) (nOf c per fm.rat.dims d) i < pointNum c (per d) (fm.dims d) := by
      rw [hnOf]
      have h1 := (row_nodeOfRow (o := o) (per := per d) hi).1
      have h2 := hdim d
      unfold unk at h2
      omega
    have hw := (hv d).wt_unity ((hv d).node_dom hnd)
    rw [show unk (per d) (pointNum c (per d) (fm.rat.dims d)) = t.dims d from (hdim d).symm] at hw
    exact ⟨fun J hJ => (hw.1 J hJ).trans (hrow J hJ).symm.le, by rw [← hw.2]; exact sum_congr rfl fun J hJ => hrow J (mem_range.1 hJ)⟩
  -- the control points nearly solve the exact equations
  have hDε : ((D : ℚ) + 1) * ((L * (4 * G + 1) + (7 * o + 256 * (o * ρ))) / 2 ^ 53) = E / 2 ^ 53 := by rw [hE]; ring
  have hoρ : 0 ≤ (o : ℚ) * ρ := mul_nonneg ho0 hρ0
  obtain ⟨Cf, hdims, hCh, hCb, hres⟩ := ctrl_residual hfm (fun d => (hT d).pos) hd hW hg hb
    (Wm := fun d => (x d).rat.mat o (pointNum c (per d) (fm.dims d)) (per d))
    (fun d i J hi hJ => (hun d i hi).1 J hJ) (fun d i hi => (hun d i hi).2)
    (ε := (L * (4 * G + 1) + (7 * o + 256 * (o * ρ))) / 2 ^ 53) (by positivity)
    (by rw [hDε, div_le_iff₀ (by positivity)]; exact hE1.trans (by norm_num))
    (fun d => by
      have h := (hX d).solves
      rw [← hdim] at h
      refine AxisSolves.mono h (div_le_div_of_nonneg_right ?_ (by positivity))
      have h2 : ((if per d then t.dims d else o : ℕ) : ℚ) ≤ L := by
        have h3 := hL d
        have h4 := hd d
        have : (if per d then t.dims d else o : ℕ) ≤ L := le_trans (by split <;> omega) h3
        exact_mod_cast this
      have h3 := mul_le_mul_of_nonneg_right h2 (show 0 ≤ 4 * G + 1 by linarith)
      linarith)
  refine ⟨gx, T, Cf, Cx, F, hgx, ⟨fun d => ⟨_, hX d⟩, hdim, fun d y => by rw [hg]; rfl, hb, gord, gper, grange, gkn, fun d => ?_, hlast, hv, hD, fun I hI => ?_, hdims, hCh,
    hCb, fun I hI => ?_⟩⟩
  · rw [show g.spline.rat.knots d = (t.base.spline.knots d).map F64.toRat by rw [gsp]; rfl, (hT d).knots, List.length_map, List.length_map]
  · have h1 := hEq I (by rw [show (fun d => unk (per d) (pointNum c (per d) (fm.rat.dims d))) = t.dims from hnOf]; exact hI)
    rw [show (fun d => unk (per d) (pointNum c (per d) (fm.rat.dims d))) = t.dims from hnOf] at h1
    rw [← h1]
    congr 1
    funext d
    show _ = (x d).rat.mat o (pointNum c (per d) (fm.dims d)) (per d) ((I d + rowShift o (per d)) % unk (per d) (pointNum c (per d) (fm.dims d)))
    rw [← hdim]
  · rw [← hDε]
    obtain ⟨q, q1, q2⟩ := hres I hI
    have hIf : InRange fm.rat.dims I := fun d => by
      have h1 := hI d
      have h2 := hd d
      show I d < fm.dims d
      omega
    have h1 := hF.2.2 I hIf
    unfold Mesh.get at h1 q1
    have h2 : rd (fm.storage.map F64.toRat) (indexing fm.dims I) = .ok (F I) := h1
    rw [rd_map, q1] at h2
    have e : q = F I := Except.ok.inj h2
    rw [← e]
    refine le_trans (le_of_eq ?_) q2
    congr 2
    congr 1
    funext d
    unfold Template.shiftIx
    rw [hpe, hord]

section
variable {D : ℕ} {c : Cfg} {o K : ℕ} {per : Fin (D + 1) → Bool} {dims : Fin (D + 1) → ℕ} {x : Fin (D + 1) → XRange F64} {Q : Fin (D + 1) → ℚ → Prop} {ρ ε C : ℚ}
  {t : Template (D + 1) F64 F64} {g : InterpFn (D + 1) F64 F64} {gx : InterpFn (D + 1) ℚ ℚ} {T : Fin (D + 1) → List ℚ} {Cf Cx F : (Fin (D + 1) → ℕ) → ℚ}

/-- One point. -/
structure NearPt (o : ℕ) (per : Fin (D + 1) → Bool) (x : Fin (D + 1) → XRange F64) (θ : ℚ) (n N : Fin (D + 1) → ℕ) (g : InterpFn (D + 1) F64 F64) (T : Fin (D + 1) → List ℚ)
    (y u : Fin (D + 1) → ℚ) : Prop where
  pt : DoublePt g.spline (fun d => .fin (y d)) u
  hint : ∀ d, ∃ h, Fl.hint g d (.fin (y d)) = .ok h
  dom : ∀ d, (x d).rat.InDom (N d) (per d) (y d)
  unity : ∀ d, (∀ J, 0 ≤ g.spline.rat.wAt d 0 (u d) J) ∧ ∑ J ∈ range (n d), g.spline.rat.wAt d 0 (u d) J = 1
  near : ∀ d, ∑ J ∈ range (n d), |g.spline.rat.wAt d 0 (u d) J - (x d).rat.wt o (N d) (per d) 0 (y d) J| ≤ θ
  nearD : ∀ d (Γ : ℚ) (m : ℕ), 1 ≤ Γ → (x d).rat.MinGap (N d) (6 * o / Γ) → m < o →
    ∑ J ∈ range (n d), |g.spline.rat.wAt d m (u d) J - (x d).rat.wt o (N d) (per d) m (y d) J| ≤ Γ ^ m * θ

theorem NearFns.pt (h : NearFns c o K per dims x Q ρ ε C t g gx T Cf Cx F) {y : Fin (D + 1) → ℚ} (hy : ∀ d, Q d (y d)) :
    ∃ u, NearPt o per x (512 * ((K + 1) * (o * ρ)) / 2 ^ 53) t.dims (fun d => pointNum c (per d) (dims d)) g T y u := by
  choose ε' hX using h.near
  choose hdom u s b1 b2 b3 b4 b5 hh w3 U w4 w5 w6 w7 w8 using fun d => (hX d).pt (y d) (hy d)
  have hord : g.spline.rat.order = o := h.order
  have hseg : ∀ d, IsSeg (g.spline.rat.kn d) g.spline.rat.order (g.spline.rat.last d) (u d) (s d) := fun d => by
    rw [h.kn, hord, h.last]; exact w3 d
  have hin : ∀ d, per d = true → (g.spline.rat.range d).1 ≤ u d ∧ u d < (g.spline.rat.range d).2 := fun d hp => by
    show (g.spline.range d).1.toRat ≤ _ ∧ _ < (g.spline.range d).2.toRat
    rw [h.rng]
    exact b5 d hp
  have wfD : ∀ d m J, g.spline.rat.wAt d m (u d) J = if per d then cyc (t.dims d) (s d + 1) (fun j => (Polynomial.derivative^[m] (pieceP (knotFn (T d)) (s d) o j)).eval (u d)) J
      else (Polynomial.derivative^[m] (pieceP (knotFn (T d)) (s d) o J)).eval (u d) := fun d m J => by
    by_cases hp : per d = true
    · rw [if_pos hp, wAt_perD h.spline.wf (show g.spline.rat.periodicity d = true from (h.peri d).trans hp) (hin d hp) (hseg d) m J, h.kn, hord, h.ctrl_dims]
    · rw [if_neg hp, wAt_aperD h.spline.wf (show g.spline.rat.periodicity d = false from (h.peri d).trans (by simpa using hp)) (hseg d) m J, h.kn, hord]
  have wf : ∀ d J, g.spline.rat.wAt d 0 (u d) J = U d J := fun d J => by
    rw [wfD, w4, h.sizes]
    simp only [Function.iterate_zero, id, pieceP_eval]
  refine ⟨u, ⟨fun d => ?_, b2, fun d => ?_, fun d hp => ?_⟩, fun d => by rw [h.hint]; exact hh d, hdom, fun d => ⟨fun J => by rw [wf]; exact w5 d J, ?_⟩, fun d => ?_, fun d Γ m h1 h2 h3 => ?_⟩
  · have := b1 d
    rw [h.peri, h.rng]
    by_cases hp : per d = true
    · rw [if_pos hp] at this ⊢; exact this
    · rw [if_neg hp] at this ⊢; rw [this]
  · rw [h.kn, h.order, h.last]
    exact ⟨b3 d, b4 d⟩
  · exact hin d (by rw [← h.peri]; exact hp)
  · rw [h.sizes, sum_congr rfl fun J _ => wf d J]
    exact w6 d
  · rw [h.sizes, sum_congr rfl fun J _ => by rw [wf d J]]
    exact w7 d
  · rw [sum_congr rfl fun J _ => by rw [wfD d m J], h.sizes]
    exact w8 d Γ m h1 h2 h3

/-- Exact weights are those of a partition of unity. -/
theorem NearFns.exact_unity (h : NearFns c o K per dims x Q ρ ε C t g gx T Cf Cx F) {d : Fin (D + 1)} {y : ℚ}
    (hy : (x d).rat.InDom (pointNum c (per d) (dims d)) (per d) y) :
    (∀ J, J < t.dims d → 0 ≤ (x d).rat.wt o (pointNum c (per d) (dims d)) (per d) 0 y J) ∧
      ∑ J ∈ range (t.dims d), (x d).rat.wt o (pointNum c (per d) (dims d)) (per d) 0 y J = 1 := by
  rw [h.sizes]
  exact (h.valid d).wt_unity hy

/-- Rows in the order of the data. -/
theorem NearFns.inv (h : NearFns c o K per dims x Q ρ ε C t g gx T Cf Cx F) {μ : ℚ} (hμ : ∀ d, ∀ (z : ℕ → ℚ) (M : ℚ), (∀ i, i < unk (per d) (pointNum c (per d) (dims d)) →
        |∑ j ∈ range (unk (per d) (pointNum c (per d) (dims d))), (x d).rat.mat o (pointNum c (per d) (dims d)) (per d) i j * z j| ≤ M) →
      ∀ i, i < unk (per d) (pointNum c (per d) (dims d)) → |z i| ≤ μ * M) (d : Fin (D + 1)) :
    RowsInv (t.dims d) (fun i => (x d).rat.mat o (pointNum c (per d) (dims d)) (per d) ((i + rowShift o (per d)) % t.dims d)) μ := fun z M hz => by
  rw [h.sizes] at hz ⊢
  refine hμ d z M fun r hr => ?_
  obtain ⟨h1, h2⟩ := row_nodeOfRow (o := o) (per := per d) hr
  have := hz _ h1
  dsimp only at this
  rwa [h2] at this

end

end Intp
