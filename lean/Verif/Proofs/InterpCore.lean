import Verif.Proofs.RoundInterp

/-!
# Values at the data points in `double`, from the residuals of the solvers of the axes

Each axis contributes weights `Wm d i J` (row `i`, control point `J`) and a solver whose solutions of finite lines satisfy the rows up to `ε M + 2^-200`.
-/

namespace Intp

open Finset BSpline

/-- Hints computed by `operator()` are valid. -/
theorem DoubleSpline.hint_le {D : ℕ} {f : InterpFn D F64 F64} {C : ℚ} (hb : DoubleSpline f.spline C) {d : Fin D} {x : F64} {h : ℕ}
    (hh : Fl.hint f d x = .ok h) : f.spline.order ≤ h ∧ h ≤ f.spline.rat.last d := by
  have hlen : ∀ d, (f.spline.rat.knots d).length = (f.spline.knots d).length := fun d => List.length_map _
  have hord : f.spline.rat.order = f.spline.order := rfl
  have hsh : Fl.Shaped f.spline := by
    refine ⟨fun d => by rw [← hlen, ← hord]; exact hb.wf.len d, ?_, fun d => ?_, fun d hd => ?_⟩
    · have := hb.wf.ctrl
      have e : f.spline.rat.ctrl.storage.length = f.spline.ctrl.storage.length := List.length_map _
      rw [e] at this
      exact this
    · by_cases hper : f.spline.periodicity d = true
      · exact (hb.wf.per d hper).1
      · have h1 := hb.wf.aper d (Bool.eq_false_iff.2 hper)
        have h2 := hb.wf.len d
        have h3 : f.spline.rat.ctrl.dims d = f.spline.ctrl.dims d := rfl
        omega
    · have h1 := hb.wf.aper d hd
      rw [hlen] at h1
      exact h1.le
  have := (Fl.hint_safe (E := fun _ => True) (fun _ => trivial) hsh d (fun _ => trivial) x).get hh
  obtain ⟨h1, h2⟩ := this
  refine ⟨h1, ?_⟩
  unfold BSpline.last
  rw [hlen, hord]; omega

/-- The control points satisfy the equations of the data up to a small residual. -/
theorem ctrl_residual {D : ℕ} {c : Cfg} {fm : Mesh (D + 1) F64} (hfm : fm.WF) {t : Template (D + 1) F64 F64} (hpos : ∀ d, 0 < t.dims d)
    (hd : ∀ d, fm.dims d = t.dims d + if t.base.periodicity d && !c.noDummy then 1 else 0) {W : Mesh (D + 1) F64}
    (hW : Fl.solveForControlPoints c t fm = .ok W) {g : InterpFn (D + 1) F64 F64} (hg : g = { t.base with spline := t.base.spline.loadCtrlPts W })
    {C : ℚ} (hb : DoubleSpline g.spline C) {Wm : Fin (D + 1) → ℕ → ℕ → ℚ} (h0 : ∀ d i J, i < t.dims d → J < t.dims d → 0 ≤ Wm d i J)
    (h1 : ∀ d i, i < t.dims d → ∑ J ∈ range (t.dims d), Wm d i J = 1) {ε : ℚ} (hε0 : 0 ≤ ε) (hsmall : (D + 1) * ε ≤ 1 / 8)
    (hR : ∀ d, AxisSolves c (t.solvers d) (t.dims d) (Wm d) ε) :
    ∃ Cf : (Fin (D + 1) → ℕ) → ℚ, g.spline.rat.ctrl.dims = t.dims ∧ g.spline.rat.ctrl.Holds g.spline.rat.ctrl.dims Cf ∧
      (∀ a, InRange t.dims a → |Cf a| ≤ C) ∧ ∀ I, InRange t.dims I → ∃ q, fm.get I = .ok (.fin q) ∧
        |tensorVal t.dims (fun d => Wm d (Template.shiftIx t.base.spline.order t.base.periodicity t.dims I d)) Cf - q| ≤
          2 * ((D + 1) * ε) * C + 1 / 2 ^ 101 := by
  have gsp : g.spline = t.base.spline.loadCtrlPts W := by rw [hg]
  have gord : g.spline.order = t.base.spline.order := by rw [gsp]; rfl
  have gctrl : g.spline.ctrl = W := by rw [gsp]; rfl
  choose R hR1 hR2 using hR
  obtain ⟨q0, hfh⟩ := Fl.exists_holds fm hfm
  have hsp := Fl.solveForControlPoints_rel c (t := t) (fm := fm) (R := R) hpos hR1 hd hfh
  rw [hW] at hsp
  obtain ⟨F, hF0, hFh, hFR⟩ := hsp
  have hlast : ∀ a, InRange t.dims a → (F (D + 1) a).IsFin ∧ |(F (D + 1) a).toRat| ≤ C := by
    intro a ha
    have h1 := hFh.2.2 a ha
    unfold Mesh.get at h1
    have h2 : F (D + 1) a ∈ W.storage := List.mem_of_getElem? (rd_eq_ok_iff.1 h1)
    obtain ⟨q, e, -, hq⟩ := hb.ctrl _ (by rw [gctrl]; exact h2)
    rw [e]
    exact ⟨trivial, hq⟩
  have hupd : ∀ (a : Fin (D + 1) → ℕ) (d : Fin (D + 1)) j, InRange t.dims a → j < t.dims d → InRange t.dims (Function.update a d j) := by
    intro a d j ha hj e
    by_cases he : e = d
    · subst he; rw [Function.update_self]; exact hj
    · rw [Function.update_of_ne he]; exact ha e
  have hfin : ∀ m, m ≤ D + 1 → ∀ a, InRange t.dims a → (F (D + 1 - m) a).IsFin := by
    intro m
    induction m with
    | zero => intro _ a ha; exact (hlast a ha).1
    | succ m ih =>
      intro hm a ha
      have hd : ((⟨m, by omega⟩ : Fin (D + 1)).rev : ℕ) = D + 1 - (m + 1) := by rw [Fin.val_rev]
      set d : Fin (D + 1) := ⟨m, by omega⟩
      have := (hR2 d _ _ (hFR d a ha) fun i hi => by
        rw [hd, show D + 1 - (m + 1) + 1 = D + 1 - m by omega]
        exact ih (by omega) _ (hupd a d i ha hi)).1 (a d) (ha d)
      rw [Function.update_eq_self, hd] at this
      exact this
  have hfin' : ∀ j, j ≤ D + 1 → ∀ a, InRange t.dims a → (F j a).IsFin := fun j hj a ha => by
    have := hfin (D + 1 - j) (by omega) a ha
    rwa [show D + 1 - (D + 1 - j) = j by omega] at this
  -- sizes
  have hC0 := hb.bound.1
  have hD1 : ((D : ℚ) + 1) ≤ 2 ^ 50 := by
    have := hb.small
    have h2 : (D + 1) * 1 ≤ (D + 1) * (5 * g.spline.order + 1) := Nat.mul_le_mul_left _ (by omega)
    have : D + 1 ≤ 2 ^ 50 := by omega
    exact_mod_cast this
  have hτ : (0 : ℚ) ≤ 1 / 2 ^ 200 := by positivity
  have hpow : (1 + ε) ^ (D + 1) ≤ 2 := by
    have := pow_bound hε0 (N := D + 1) (by push_cast; linarith)
    push_cast at this
    linarith
  have hdims : g.spline.rat.ctrl.dims = t.dims := by
    show g.spline.ctrl.dims = t.dims
    rw [gctrl]; exact hFh.1
  have hCh : g.spline.rat.ctrl.Holds g.spline.rat.ctrl.dims fun a => (F (D + 1) a).toRat := by
    refine ⟨rfl, hb.wf.ctrl, fun a ha => ?_⟩
    rw [hdims] at ha
    have h1 := hFh.2.2 a ha
    unfold Mesh.get at h1 ⊢
    rw [hdims]
    show rd (g.spline.ctrl.storage.map F64.toRat) _ = _
    rw [rd_map, gctrl, ← hFh.1, h1]
    rfl
  refine ⟨fun a => (F (D + 1) a).toRat, hdims, hCh, fun a ha => (hlast a ha).2, fun I hI => ?_⟩
  -- sweep
  have hI' : InRange t.dims (Template.shiftIx t.base.spline.order t.base.periodicity t.dims I) := Template.shiftIx_inRange hpos
  have hsw := sweep_error (dims := t.dims) (W := Wm) (G := fun j a => (F j a).toRat) h0 h1 hε0 hτ (fun a ha => (hlast a ha).2) hC0 hpow
    (fun d M hM a ha => by
      have := (hR2 d _ _ (hFR d a ha) fun i hi => hfin' _ (by have := d.rev.isLt; omega) _ (hupd a d i ha hi)).2 M
        (fun i hi => hM _ (hupd a d i ha hi)) (a d) (ha d)
      simp only [Function.update_eq_self] at this
      exact this) hI'
  have hF0I := hF0 I hI
  have hIf : InRange fm.dims I := fun d => by have := hI d; have := hd d; omega
  have hq : fm.get I = .ok (.fin (F 0 (Template.shiftIx t.base.spline.order t.base.periodicity t.dims I)).toRat) := by
    rw [hfh.2.2 I hIf, ← hF0I]
    have := hfin' 0 (by omega) _ hI'
    cases hh : F 0 (Template.shiftIx t.base.spline.order t.base.periodicity t.dims I) with
    | fin q => rfl
    | _ => rw [hh] at this; exact this.elim
  refine ⟨_, hq, hsw.trans ?_⟩
  have h1 : ((D : ℚ) + 1) * (ε * (2 * (C + (D + 1) * (1 / 2 ^ 200))) + 1 / 2 ^ 200) =
      2 * ((D + 1) * ε) * C + (((D : ℚ) + 1) * ε) * (2 * ((D + 1) * (1 / 2 ^ 200))) + (D + 1) * (1 / 2 ^ 200) := by ring
  have hm : ((D : ℚ) + 1) * (1 / 2 ^ 200) ≤ 1 / 2 ^ 150 := by
    refine (mul_le_mul_of_nonneg_right hD1 hτ).trans (by norm_num)
  have hm0 : 0 ≤ ((D : ℚ) + 1) * (1 / 2 ^ 200) := by positivity
  rw [h1]
  have h2 : (((D : ℚ) + 1) * ε) * (2 * ((D + 1) * (1 / 2 ^ 200))) ≤ 1 / 8 * (2 * (1 / 2 ^ 150)) :=
    mul_le_mul hsmall (by linarith) (by positivity) (by norm_num)
  have h3 : (1 : ℚ) / 8 * (2 * (1 / 2 ^ 150)) + 1 / 2 ^ 150 ≤ 1 / 2 ^ 101 := by norm_num
  linarith

/-- Evaluation in `double` is near the exact value of the computed spline. -/
theorem call_near {D : ℕ} {g : InterpFn (D + 1) F64 F64} {C : ℚ} (hb : DoubleSpline g.spline C) {Cf : (Fin (D + 1) → ℕ) → ℚ}
    (hCh : g.spline.rat.ctrl.Holds g.spline.rat.ctrl.dims Cf) {k : ℕ} (hk : k = (D + 1) * (5 * g.spline.order + 1) + 1 + (g.spline.order + 1) ^ (D + 1))
    {x : Fin (D + 1) → F64} {w : Fin (D + 1) → ℚ} (hp : DoublePt g.spline x w) (hhint : ∀ d, ∃ h, Fl.hint g d (x d) = .ok h) :
    ∃ v, Fl.call g x = .ok (.fin v) ∧
      |v - tensorVal g.spline.rat.ctrl.dims (fun d => g.spline.rat.wAt d 0 (w d)) Cf| ≤ 3 * k / 2 ^ 53 * C + 1 / 2 ^ 101 := by
  choose h hh using hhint
  have hhb : ∀ d, g.spline.order ≤ h d ∧ h d ≤ g.spline.rat.last d := fun d => hb.hint_le (hh d)
  obtain ⟨y, v, e1, e2, e3⟩ := double_eval hb hp hhb (k := k) hk
  have hcall : Fl.call g x = .ok (.fin v) := by
    unfold Fl.call
    rw [tabM_ok (g := h) hh, ok_bind]
    exact e2
  refine ⟨v, hcall, ?_⟩
  rw [hb.wf.eval_val (fun d => hb.wf.validHint (hhb d).1 (hhb d).2 _) hCh] at e1
  have hy : y = tensorVal g.spline.rat.ctrl.dims (fun d => g.spline.rat.wAt d 0 (w d)) Cf := (Except.ok.inj e1).symm
  rw [← hy]
  have hk50 : (k : ℚ) ≤ 2 ^ 50 := by
    have := hb.small
    rw [← hk] at this
    exact_mod_cast this
  have e4 : (k : ℚ) / 2 ^ 1074 ≤ 1 / 2 ^ 101 := by
    have h1 : (2 : ℚ) ^ 50 / 2 ^ 1074 ≤ 1 / 2 ^ 101 := by decide +kernel
    exact (div_le_div_of_nonneg_right hk50 (pow_nonneg zero_le_two _)).trans h1
  generalize (k : ℚ) / 2 ^ 1074 = a1 at *
  linarith

theorem interp_core {D : ℕ} {c : Cfg} {fm : Mesh (D + 1) F64} (hfm : fm.WF) {t : Template (D + 1) F64 F64} (hpos : ∀ d, 0 < t.dims d)
    (hd : ∀ d, fm.dims d = t.dims d + if t.base.periodicity d && !c.noDummy then 1 else 0) {W : Mesh (D + 1) F64}
    (hW : Fl.solveForControlPoints c t fm = .ok W) {g : InterpFn (D + 1) F64 F64} (hg : g = { t.base with spline := t.base.spline.loadCtrlPts W })
    {C : ℚ} (hb : DoubleSpline g.spline C) {Wm : Fin (D + 1) → ℕ → ℕ → ℚ} (h0 : ∀ d i J, i < t.dims d → J < t.dims d → 0 ≤ Wm d i J)
    (h1 : ∀ d i, i < t.dims d → ∑ J ∈ range (t.dims d), Wm d i J = 1) {ε : ℚ} (hε0 : 0 ≤ ε) (hsmall : (D + 1) * ε ≤ 1 / 8)
    (hR : ∀ d, AxisSolves c (t.solvers d) (t.dims d) (Wm d) ε) {k : ℕ} (hk : k = (D + 1) * (5 * t.base.spline.order + 1) + 1 + (t.base.spline.order + 1) ^ (D + 1))
    {I : Fin (D + 1) → ℕ} (hI : InRange t.dims I) {x : Fin (D + 1) → F64} {w : Fin (D + 1) → ℚ} (hp : DoublePt g.spline x w)
    (hw : ∀ d J, J < t.dims d → g.spline.rat.wAt d 0 (w d) J = Wm d (Template.shiftIx t.base.spline.order t.base.periodicity t.dims I d) J)
    (hhint : ∀ d, ∃ h, Fl.hint g d (x d) = .ok h) :
    ∃ v q, Fl.call g x = .ok (.fin v) ∧ fm.get I = .ok (.fin q) ∧ |v - q| ≤ (3 * k / 2 ^ 53 + 2 * ((D + 1) * ε)) * C + 1 / 2 ^ 100 := by
  have gord : g.spline.order = t.base.spline.order := by rw [hg]; rfl
  obtain ⟨Cf, hdims, hCh, -, hres⟩ := ctrl_residual hfm hpos hd hW hg hb h0 h1 hε0 hsmall hR
  obtain ⟨v, hv, hv1⟩ := call_near hb hCh (k := k) (by rw [hk, gord]) hp hhint
  obtain ⟨q, hq, hq1⟩ := hres I hI
  refine ⟨v, q, hv, hq, ?_⟩
  have e : tensorVal g.spline.rat.ctrl.dims (fun d => g.spline.rat.wAt d 0 (w d)) Cf =
      tensorVal t.dims (fun d => Wm d (Template.shiftIx t.base.spline.order t.base.periodicity t.dims I d)) Cf := by
    unfold tensorVal
    rw [hdims]
    refine sum_congr rfl fun J hJ => ?_
    refine congrArg (· • Cf J) (prod_congr rfl fun d _ => ?_)
    exact hw d _ (mem_range.1 (Fintype.mem_piFinset.1 hJ d))
  rw [e] at hv1
  have tri := abs_add_le (v - tensorVal t.dims (fun d => Wm d (Template.shiftIx t.base.spline.order t.base.periodicity t.dims I d)) Cf)
    (tensorVal t.dims (fun d => Wm d (Template.shiftIx t.base.spline.order t.base.periodicity t.dims I d)) Cf - q)
  rw [sub_add_sub_cancel] at tri
  have e6 : (3 * k / 2 ^ 53 + 2 * ((D + 1) * ε)) * C + 1 / 2 ^ 100 = 3 * k / 2 ^ 53 * C + 2 * ((D + 1) * ε) * C + (1 / 2 ^ 101 + 1 / 2 ^ 101) := by ring
  rw [e6]
  linarith

/-- Weights of a non-periodic dimension are values of basis functions. -/
theorem wAt_aper {D : ℕ} {b : BSpline D ℚ ℚ} (hb : b.WF) {d : Fin D} (hp : b.periodicity d = false) {x : ℚ} {s : ℕ}
    (hs : IsSeg (b.kn d) b.order (b.last d) x s) (J : ℕ) : b.wAt d 0 x J = piece (b.kn d) s b.order J x := by
  have hwrap : b.wrapOf d x = x := hb.wrapOf_eq (by
    unfold IsWrap
    rw [hp]
    simp)
  have hseg : b.segOf d x = s := hb.segOf_eq hs
  unfold wAt wSeg
  rw [hwrap, hseg, weight_aper hp, Function.iterate_zero, id, pieceP_eval]

/-- Values of the basis functions on a segment. -/
theorem piece_unity {T : List ℚ} {o n k : ℕ} {x : ℚ} (hm : KMono T) (hlen : T.length = n + o + 1) (h1 : o ≤ k) (h2 : k < n) (h3 : knotFn T k ≤ x)
    (h4 : x ≤ knotFn T (k + 1)) (h5 : knotFn T k < knotFn T (k + 1)) :
    (∀ J, 0 ≤ piece (knotFn T) k o J x) ∧ ∑ J ∈ range n, piece (knotFn T) k o J x = 1 := by
  refine ⟨fun J => piece_nonneg (p := o) (fun j a c => (hm j k (by omega) c (by omega)).trans h3)
    (fun j a c => h4.trans (hm (k + 1) j (by omega) a (by omega))) o J le_rfl, ?_⟩
  rw [← sum_piece_eq_one x o h1 (nondeg_of_mono hm h5 h1 (by omega))]
  refine (sum_subset (range_mono (by omega)) fun j _ hj => ?_).symm
  by_contra hne
  have := (piece_support hne).1
  have := (piece_support hne).2
  simp only [mem_range] at hj
  omega

end Intp
