import Verif.Proofs.CellLayout
import Verif.Props.Interpolation

/-!
# Properties of the cell layout (C39) and of evaluation proxies (C40)
-/

namespace Intp

open Finset BSpline

variable {K V : Type} [Field K] [LinearOrder K] [IsStrictOrderedRing K] [FloorRing K] [AddCommGroup V] [Module K V] {D : ℕ}

/-- `y` lies a positive number of periods left of the first end of the range: there wrapping gives the second end. -/
def WrapsToEnd (r : K × K) (y : K) : Prop := ∃ k : ℕ, y = r.1 - ((k : K) + 1) * (r.2 - r.1)

theorem IsWrap.end_iff {b : BSpline D K V} (h : b.WF) {d : Fin D} (hp : b.periodicity d = true) {y w : K} (hw : b.IsWrap d y w) :
    w = (b.range d).2 ↔ WrapsToEnd (b.range d) y := by
  have hlt := (h.per d hp).2
  have hP : 0 < (b.range d).2 - (b.range d).1 := sub_pos.2 hlt
  unfold IsWrap at hw
  rw [if_pos hp] at hw
  obtain ⟨⟨k, hk⟩, hw⟩ := hw
  constructor
  · intro e
    have hy : y < (b.range d).1 := by
      by_contra hc
      rw [if_neg hc] at hw
      exact absurd e hw.2.ne
    have hk2 : (1 : K) < (k : K) := by
      by_contra hc
      have := not_lt.1 hc
      nlinarith
    have hk1 : 1 < k := by exact_mod_cast hk2
    refine ⟨(k - 2).toNat, ?_⟩
    have e2 : (((k - 2).toNat : ℕ) : K) = (k : K) - 2 := by
      have : (((k - 2).toNat : ℕ) : ℤ) = k - 2 := Int.toNat_of_nonneg (by omega)
      have := congrArg (fun z : ℤ => (z : K)) this
      push_cast at this
      exact this
    rw [e2]
    linarith
  · rintro ⟨m, hm⟩
    have hm0 : (0 : K) ≤ (m : K) := Nat.cast_nonneg m
    have hy : y < (b.range d).1 := by rw [hm]; nlinarith
    rw [if_pos hy] at hw
    have e : w = (b.range d).2 + ((k - m - 2 : ℤ) : K) * ((b.range d).2 - (b.range d).1) := by
      rw [hk, hm]; push_cast; ring
    have h1 : ((k - m - 2 : ℤ) : K) ≤ 0 := by
      by_contra hc
      have := not_le.1 hc
      nlinarith [hw.2]
    have h2 : (-1 : K) < ((k - m - 2 : ℤ) : K) := by
      by_contra hc
      have := not_lt.1 hc
      nlinarith [hw.1]
    have h1' : (k - m - 2 : ℤ) ≤ 0 := by exact_mod_cast h1
    have h2' : (-1 : ℤ) < k - m - 2 := by exact_mod_cast h2
    have : (k - m - 2 : ℤ) = 0 := by omega
    rw [e, this]; simp

namespace InterpFn.Done

variable {c : Cfg} {o : ℕ} {per : Fin (D + 1) → Bool} {dims : Fin (D + 1) → ℕ} {x : Fin (D + 1) → XRange K} {g : InterpFn (D + 1) K V}
  {C : (Fin (D + 1) → ℕ) → V}

/-- The segment beyond the cell container. -/
theorem seg_end_iff (h : g.Done c o per dims x C) (hv : ValidAxes c o per dims x) {y w : Fin (D + 1) → K} {s : Fin (D + 1) → ℕ}
    (hat : g.spline.At y w s) {d : Fin (D + 1)} (hp : per d = true) :
    ¬ s d < g.spline.ctrl.dims d + g.spline.order ↔ o % 2 = 0 ∧ WrapsToEnd (g.range d) (y d) := by
  have hw := h.wf hv
  have hp' : g.spline.periodicity d = true := by rw [h.pers]; exact hp
  have hl := h.last_per hv hp
  have hr := h.range_per hv hp
  have hs := hat.seg d
  have hn := (hw.per d hp').1
  rw [h.order] at hs ⊢
  unfold InterpFn.range
  rw [← IsWrap.end_iff hw hp' (hat.wrap d)]
  constructor
  · intro hc
    have h1 := hs.2.1
    rw [hl] at h1
    have hse : s d = g.spline.ctrl.dims d + o := by omega
    refine ⟨by omega, ?_⟩
    have h2 : g.spline.kn d (s d) ≤ w d := by
      rcases hs.2.2.1 with h3 | h3
      · omega
      · exact h3
    rw [hse] at h2
    have h4 : w d ≤ (g.spline.range d).2 := by
      have := hat.wrap d
      unfold IsWrap at this
      rw [if_pos hp'] at this
      have := this.2
      split at this
      · exact this.2
      · exact this.2.le
    rw [hr] at h4 ⊢
    exact le_antisymm h4 h2
  · rintro ⟨he, hwe⟩ hlt
    rw [hr] at hwe
    rcases hs.2.2.2 with h3 | h3
    · rw [hl] at h3; omega
    · rw [hwe] at h3
      have h5 := (h.wf hv).mono d (s d + 1) (g.spline.ctrl.dims d + o) (by omega) (by omega) (by
        have := (h.axisP hv hp).len; omega)
      exact absurd h3 (not_lt.2 h5)

theorem cellSafe (h : g.Done c o per dims x C) (hv : ValidAxes c o per dims x) {y w : Fin (D + 1) → K} {s : Fin (D + 1) → ℕ}
    (hat : g.spline.At y w s) (hy : ∀ d, per d = true → o % 2 = 1 ∨ ¬ WrapsToEnd (g.range d) (y d)) : g.spline.CellSafe s := by
  intro d hp
  rw [h.pers] at hp
  by_contra hc
  have := (h.seg_end_iff hv hat hp).1 hc
  rcases hy d hp with h1 | h1
  · omega
  · exact h1 this.2

end InterpFn.Done

/-! ## C39 -/

/-- What `interpolate` gives in both layouts: the functions have the same knots, and the cells hold the control points of the plain layout. -/
theorem interpolateCell_spec (c : Cfg) {o : ℕ} {per : Fin (D + 1) → Bool} {fm : Mesh (D + 1) V} {x : Fin (D + 1) → XRange K}
    (hm : fm.WF) (hv : ValidAxes c o per fm.dims x) {t : Template (D + 1) K V} (ht : Template.construct c o per fm.dims x = .ok t)
    {f : InterpFn (D + 1) K V} (hf : t.interpolate c fm = .ok f) :
    ∃ C g, t.interpolateCell c fm = .ok g ∧ f.Done c o per fm.dims x C ∧ g.fn = t.base ∧ f = { t.base with spline := { t.base.spline with ctrl := f.spline.ctrl } } ∧
      g.cell.Holds (Cell.cdims f.spline.order f.spline.periodicity f.spline.ctrl.dims) (fun ci => C (Cell.src f.spline.order f.spline.ctrl.dims ci)) := by
  obtain ⟨F, hF⟩ := fm.exists_holds hm
  have hgood := (Template.construct_spec (V := V) c hv).get ht
  unfold Template.interpolate at hf
  cases hw : t.solveForControlPoints c fm with
  | error e => rw [hw] at hf; cases hf
  | ok w =>
    rw [hw] at hf
    injection hf with hf
    obtain ⟨-, C, hC, -⟩ := (hgood.interpolate_spec hv rfl hF).get hw
    have hd : f.Done c o per fm.dims x C := by rw [← hf]; exact hgood.built.withCtrl hC
    have hwf := hd.wf hv
    have ho : t.base.spline.order = f.spline.order := by rw [← hf]; rfl
    have hp : t.base.spline.periodicity = f.spline.periodicity := by rw [← hf]; rfl
    have hc : f.spline.ctrl = w := by rw [← hf]; rfl
    obtain ⟨cell, h1, h2⟩ := (Cell.generate_spec c (order := f.spline.order) (per := f.spline.periodicity) (hd.ctrlHolds) hwf.ctrl_pos hwf.ctrl_gt).exists
    refine ⟨C, ⟨t.base, cell⟩, ?_, hd, rfl, by rw [← hf]; rfl, h2⟩
    unfold Template.interpolateCell
    rw [hw, ok_bind, ho, hp, ← hc, h1]
    rfl

/-- **C39** for every coordinate at which the wrapped coordinate is not the second end of the range of a periodic dimension with even order:
the cell layout gives the value and all derivatives of the default layout, and accesses nothing outside the container.  Missing: exactly the
excluded coordinates, where the claim is false (`cell_layout_oob`, `cell_layout_assert`). -/
theorem cell_layout_partial (c : Cfg) {o : ℕ} {per : Fin (D + 1) → Bool} {fm : Mesh (D + 1) V} {x : Fin (D + 1) → XRange K}
    (hm : fm.WF) (hv : ValidAxes c o per fm.dims x) {t : Template (D + 1) K V} (ht : Template.construct c o per fm.dims x = .ok t)
    {f : InterpFn (D + 1) K V} (hf : t.interpolate c fm = .ok f) :
    ∃ g, t.interpolateCell c fm = .ok g ∧ ∀ y : Fin (D + 1) → K, (∀ d, per d = true → o % 2 = 1 ∨ ¬ WrapsToEnd (f.range d) (y d)) →
      (∃ v, f.call y = .ok v ∧ g.call c y = .ok v) ∧ ∀ m, ∃ v, f.derivative c y m = .ok v ∧ g.derivative c y m = .ok v := by
  obtain ⟨C, ⟨gf, cell⟩, hg, hd, hgf, hfe, hcell⟩ := interpolateCell_spec c hm hv ht hf
  refine ⟨_, hg, fun y hy => ?_⟩
  have hw := hd.wf hv
  obtain ⟨w, s, hat⟩ := hw.exists_at y
  have hs := hd.cellSafe hv hat hy
  choose k hk1 hk2 hk3 using fun d => hd.hint hv d (y d)
  have hh : ∀ d, ValidHint (f.spline.knots d) f.spline.order (f.spline.last d) (w d) (k d) :=
    fun d => hw.validHint (by rw [hd.order]; exact hk2 d) (hk3 d) _
  have hk : ∀ d, t.base.hint d (y d) = .ok (k d) := fun d => by rw [← hk1 d, hfe]; rfl
  simp only at hgf
  subst hgf
  constructor
  · refine ⟨_, hd.call hv y, ?_⟩
    rw [← hd.call hv y]
    unfold CellFn.call InterpFn.call CellFn.spline
    simp only
    rw [tabM_ok hk, ok_bind, tabM_ok hk1, ok_bind, hw.eval_eq (x := fun d => (y d, k d)) hat hh hd.ctrlHolds, ← hw.cellEval_eq c (x := fun d => (y d, k d)) hat hh hs hcell]
    rw [hfe]
    rfl
  · intro m
    refine ⟨_, hd.derivative (c' := c) hv y m, ?_⟩
    rw [← hd.derivative (c' := c) hv y m]
    unfold CellFn.derivative InterpFn.derivative CellFn.spline
    simp only
    rw [tabM_ok hk, ok_bind, tabM_ok hk1, ok_bind, ← hw.cellDerivativeAt_eq c (x := fun d => (y d, k d, m d)) hat hh hs hd.ctrlHolds hcell]
    rw [hfe]
    rfl

/-- Interpolating in the cell layout fails exactly when it fails in the default layout. -/
theorem cell_layout_error (c : Cfg) {o : ℕ} {per : Fin (D + 1) → Bool} {fm : Mesh (D + 1) V} {x : Fin (D + 1) → XRange K}
    (hm : fm.WF) (hv : ValidAxes c o per fm.dims x) {t : Template (D + 1) K V} (ht : Template.construct c o per fm.dims x = .ok t) (e : Err) :
    t.interpolateCell c fm = .error e ↔ t.interpolate c fm = .error e := by
  cases hf : t.interpolate c fm with
  | ok f =>
    obtain ⟨C, g, hg, -⟩ := interpolateCell_spec c hm hv ht hf
    rw [hg]; simp
  | error e' =>
    unfold Template.interpolate at hf
    unfold Template.interpolateCell
    cases hw : t.solveForControlPoints c fm with
    | ok w => rw [hw] at hf; cases hf
    | error e'' => rw [hw] at hf; injection hf with hf; subst hf; rw [error_bind]; simp only [Except.error.injEq]

/-- **C39 is false.**  In every one-dimensional periodic interpolation of even order at least 2, evaluating the function with cell layout at a
coordinate that lies a positive number of periods left of the range reads behind the end of the control points. -/
theorem cell_layout_oob (c : Cfg) {o : ℕ} {per : Fin 1 → Bool} {fm : Mesh 1 V} {x : Fin 1 → XRange K}
    (hm : fm.WF) (hv : ValidAxes c o per fm.dims x) {t : Template 1 K V} (ht : Template.construct c o per fm.dims x = .ok t)
    {f : InterpFn 1 K V} (hf : t.interpolate c fm = .ok f) (hp : per 0 = true) (he : o % 2 = 0) (ho : 0 < o) :
    ∃ g, t.interpolateCell c fm = .ok g ∧ ∀ y : Fin 1 → K, WrapsToEnd (f.range 0) (y 0) →
      (∃ v, f.call y = .ok v) ∧ g.call c y = .error .oob := by
  obtain ⟨C, ⟨gf, cell⟩, hg, hd, hgf, hfe, hcell⟩ := interpolateCell_spec c hm hv ht hf
  refine ⟨_, hg, fun y hy => ⟨⟨_, hd.call hv y⟩, ?_⟩⟩
  have hw := hd.wf hv
  obtain ⟨w, s, hat⟩ := hw.exists_at y
  choose k hk1 hk2 hk3 using fun d => hd.hint hv d (y d)
  have hh : ∀ d, ValidHint (f.spline.knots d) f.spline.order (f.spline.last d) (w d) (k d) :=
    fun d => hw.validHint (by rw [hd.order]; exact hk2 d) (hk3 d) _
  have hk : ∀ d, t.base.hint d (y d) = .ok (k d) := fun d => by rw [← hk1 d, hfe]; rfl
  simp only at hgf
  subst hgf
  have hse := (hd.seg_end_iff hv hat hp).2 ⟨he, hy⟩
  have hp' : f.spline.periodicity 0 = true := by rw [hd.pers]; exact hp
  have hsl := (hat.seg 0).2.1
  rw [hd.last_per hv hp] at hsl
  have ho' := hd.order
  have hs0 : s 0 = f.spline.ctrl.dims 0 + f.spline.order := by omega
  set b := f.spline with hb
  set n := b.ctrl.dims 0 with hn
  have hcd0 : Cell.cdims b.order b.periodicity b.ctrl.dims 0 = n + b.order := by
    have := Cell.cdims_castSucc b.order b.periodicity b.ctrl.dims 0
    rw [if_pos (by rfl), if_pos hp'] at this
    exact this
  have hcd1 : Cell.cdims b.order b.periodicity b.ctrl.dims 1 = 1 := by
    have := Cell.cdims_last b.order b.periodicity b.ctrl.dims
    rw [Nat.pow_zero] at this
    exact this
  have hlen : cell.storage.length = n + b.order := by
    have := hcell.2.1
    unfold Mesh.WF at this
    rw [hcell.1, Fin.prod_univ_two, hcd0, hcd1, mul_one] at this
    exact this
  unfold CellFn.call CellFn.spline
  simp only
  rw [tabM_ok hk, ok_bind]
  have hcong : (⟨t.base.spline, cell⟩ : CellSpline 0 K V).eval c (fun d => (y d, k d)) = (⟨b, cell⟩ : CellSpline 0 K V).eval c (fun d => (y d, k d)) := by
    rw [hb, hfe]; rfl
  rw [hcong]
  unfold CellSpline.eval
  simp only
  rw [tabM_ok (g := fun d => (w d, s d)) (fun d => hw.getKnotIter'_eq (hat.wrap d) (hat.seg d) (hh d)), ok_bind]
  simp only
  rw [hw.base_ok hat (fun _ => le_rfl), ok_bind, hw.cellIndex_ok hat, ok_bind]
  have hu : Function.update (Fin.snoc (α := fun _ => ℕ) (fun d => s d - b.order) 0 : Fin 2 → ℕ) (Fin.last 1) 0 =
      Fin.snoc (α := fun _ => ℕ) (fun d => s d - b.order) 0 := by
    rw [Function.update_eq_self_iff, Fin.snoc_last]
  have hs1 : (Fin.snoc (α := fun _ => ℕ) (fun d => s d - b.order) 0 : Fin 2 → ℕ) 0 = n := by
    have := Fin.snoc_castSucc (α := fun _ => ℕ) (0 : ℕ) (fun d => s d - b.order) 0
    refine Eq.trans this ?_
    show s 0 - b.order = n
    omega
  have hs2 : (Fin.snoc (α := fun _ => ℕ) (fun d => s d - b.order) 0 : Fin 2 → ℕ) 1 = 0 := Fin.snoc_last (α := fun _ => ℕ) (0 : ℕ) (fun d => s d - b.order)
  have hix : indexing (Cell.cdims b.order b.periodicity b.ctrl.dims) (Fin.snoc (α := fun _ => ℕ) (fun d => s d - b.order) 0) = n := by
    rw [indexing_eq_sum, Fin.sum_univ_two, hs1, hs2, Nat.zero_mul, Nat.add_zero]
    have : stride (Cell.cdims b.order b.periodicity b.ctrl.dims) 0 = Cell.cdims b.order b.periodicity b.ctrl.dims 1 := by
      have e := stride_castSucc (Cell.cdims b.order b.periodicity b.ctrl.dims) (0 : Fin 1)
      have e2 := stride_last (fun i : Fin 1 => Cell.cdims b.order b.periodicity b.ctrl.dims i.castSucc)
      rw [show (Fin.last 0) = (0 : Fin 1) from rfl] at e2
      rw [e2, one_mul] at e
      exact e
    rw [this, hcd1, mul_one]
  rw [Mesh.lineBegin_ok, ok_bind, hcell.1, hu, stride_last, hix]
  · have key : Spec (loop 0 ((b.order + 1) ^ (0 + 1)) (0 : V) fun i v => do
        let p ← rd cell.storage (n + i * 1)
        let w ← CellSpline.scale b.order (fun d => arr (b.order + 1) fun a => piece (b.kn d) (s d) b.order (s d - b.order + a) (w d)) i p
        pure (v + w)) (fun _ => False) (· = .oob) := by
      have hpw : (b.order + 1) ^ (0 + 1) = b.order + 1 := pow_one _
      refine Spec.imp (Spec.loop (P := fun i _ => i ≤ b.order) (Nat.zero_le _) (Nat.zero_le _) ?_) fun v hv => absurd hv (by omega)
      intro i v _ hi _
      by_cases hio : i = b.order
      · have : rd cell.storage (n + i * 1) = .error .oob := by
          unfold rd
          rw [List.getElem?_eq_none (by omega)]
        rw [this]
        exact Spec.error rfl
      · rw [rd_ok (by omega), ok_bind, CellSpline.scale_ok (fun d m hm => rd_arr _ hm), ok_bind]
        refine Spec.pure ?_
        omega
    revert key
    generalize loop 0 _ _ _ = r
    intro key
    cases r with
    | ok v => exact key.elim
    | error e => exact congrArg _ key
  · rw [hcell.1, hu]
    intro d
    fin_cases d
    · show (Fin.snoc (α := fun _ => ℕ) (fun d => s d - b.order) 0 : Fin 2 → ℕ) 0 < Cell.cdims b.order b.periodicity b.ctrl.dims 0
      rw [hs1, hcd0]; omega
    · show (Fin.snoc (α := fun _ => ℕ) (fun d => s d - b.order) 0 : Fin 2 → ℕ) 1 < Cell.cdims b.order b.periodicity b.ctrl.dims 1
      rw [hs2, hcd1]; omega

/-- **C39 is false**, more dimensions: with assertions enabled, evaluation throws if the coordinate of a periodic dimension other than the last
one lies a positive number of periods left of the range, and the order is even. -/
theorem cell_layout_assert (c : Cfg) (hc : c.assertions = true) {o : ℕ} {per : Fin (D + 1) → Bool} {fm : Mesh (D + 1) V} {x : Fin (D + 1) → XRange K}
    (hm : fm.WF) (hv : ValidAxes c o per fm.dims x) {t : Template (D + 1) K V} (ht : Template.construct c o per fm.dims x = .ok t)
    {f : InterpFn (D + 1) K V} (hf : t.interpolate c fm = .ok f) {d : Fin (D + 1)} (hdl : d ≠ Fin.last D) (hp : per d = true) (he : o % 2 = 0) :
    ∃ g, t.interpolateCell c fm = .ok g ∧ ∀ y : Fin (D + 1) → K, WrapsToEnd (f.range d) (y d) →
      (∃ v, f.call y = .ok v) ∧ g.call c y = .error .assertFail := by
  obtain ⟨C, ⟨gf, cell⟩, hg, hd, hgf, hfe, hcell⟩ := interpolateCell_spec c hm hv ht hf
  refine ⟨_, hg, fun y hy => ⟨⟨_, hd.call hv y⟩, ?_⟩⟩
  have hw := hd.wf hv
  obtain ⟨w, s, hat⟩ := hw.exists_at y
  choose k hk1 hk2 hk3 using fun d => hd.hint hv d (y d)
  have hh : ∀ d, ValidHint (f.spline.knots d) f.spline.order (f.spline.last d) (w d) (k d) :=
    fun d => hw.validHint (by rw [hd.order]; exact hk2 d) (hk3 d) _
  have hk : ∀ d, t.base.hint d (y d) = .ok (k d) := fun d => by rw [← hk1 d, hfe]; rfl
  simp only at hgf
  subst hgf
  have hse := (hd.seg_end_iff hv hat hp).2 ⟨he, hy⟩
  have hp' : f.spline.periodicity d = true := by rw [hd.pers]; exact hp
  set b := f.spline with hb
  unfold CellFn.call CellFn.spline
  simp only
  rw [tabM_ok hk, ok_bind]
  have hcong : (⟨t.base.spline, cell⟩ : CellSpline D K V).eval c (fun d => (y d, k d)) = (⟨b, cell⟩ : CellSpline D K V).eval c (fun d => (y d, k d)) := by
    rw [hb, hfe]; rfl
  rw [hcong]
  unfold CellSpline.eval
  simp only
  rw [tabM_ok (g := fun d => (w d, s d)) (fun d => hw.getKnotIter'_eq (hat.wrap d) (hat.seg d) (hh d)), ok_bind]
  simp only
  rw [hw.base_ok hat (fun _ => le_rfl), ok_bind, hw.cellIndex_ok hat, ok_bind]
  unfold Mesh.lineBegin
  rw [indexingSafe_throws c hc]
  · rfl
  · intro hr
    have := hr d.castSucc
    rw [Function.update_of_ne (Fin.castSucc_lt_last d).ne, Fin.snoc_castSucc, hcell.1, Cell.cdims_castSucc, if_neg hdl, if_pos hp'] at this
    omega

/-! ## C40 -/

/-- Side lengths of the cell container as `calculate_cell_dim_from_knots` computes them. -/
theorem dimsFromKnots_eq {c : Cfg} {o : ℕ} {per : Fin (D + 1) → Bool} {dims : Fin (D + 1) → ℕ} {x : Fin (D + 1) → XRange K} {g : InterpFn (D + 1) K V}
    {C : (Fin (D + 1) → ℕ) → V} (h : g.Done c o per dims x C) (hv : ValidAxes c o per dims x) (cell : Mesh (D + 2) V) :
    (⟨g.spline, cell⟩ : CellSpline D K V).dimsFromKnots = .ok (fun d => Cell.cdims o per g.spline.ctrl.dims d +
      (Fin.snoc (α := fun _ => ℕ) (fun d => if per d = true ∧ o % 2 = 0 then 1 else 0) 0 : Fin (D + 2) → ℕ) d) := by
  have hw := h.wf hv
  unfold CellSpline.dimsFromKnots
  simp only
  rw [tabM_ok (g := fun d => Cell.cdims o per g.spline.ctrl.dims d.castSucc + if per d = true ∧ o % 2 = 0 then 1 else 0), ok_bind, pure_eq_ok]
  · congr 1
    funext d
    refine Fin.lastCases ?_ (fun d => ?_) d
    · rw [Fin.snoc_last, Fin.snoc_last, Cell.cdims_last, h.order]; rfl
    · rw [Fin.snoc_castSucc, Fin.snoc_castSucc]
  · intro d
    have h1 := hw.len d
    rw [h.order] at h1 ⊢
    rw [subM_ok (by omega), ok_bind, subM_ok (by split <;> omega), Cell.cdims_castSucc]
    congr 1
    cases hp : per d with
    | true =>
      have := (h.axisP hv hp).len
      by_cases hl : d = Fin.last D <;> by_cases he : o % 2 = 0 <;> simp [hl, he] <;> first | omega | (subst hl; omega)
    | false =>
      have := (h.axisA hv hp).len
      by_cases hl : d = Fin.last D <;> simp [hl] <;> first | omega | (subst hl; omega)

/-- **C40** if the order is odd or no dimension other than the first is periodic, and for coordinates at which evaluation in the cell layout is
defined (see `cell_layout_partial`): the evaluator made from the template alone, applied to a function of that template, gives the value of that
function.  Missing: the other cases, in which it may give another value (`eval_proxy_wrong`). -/
theorem eval_proxy_partial (c : Cfg) {o : ℕ} {per : Fin (D + 1) → Bool} {fm : Mesh (D + 1) V} {x : Fin (D + 1) → XRange K}
    (hm : fm.WF) (hv : ValidAxes c o per fm.dims x) {t : Template (D + 1) K V} (ht : Template.construct c o per fm.dims x = .ok t)
    {f : InterpFn (D + 1) K V} (hf : t.interpolate c fm = .ok f) {g : CellFn D K V} (hg : t.interpolateCell c fm = .ok g)
    (hodd : o % 2 = 1 ∨ ∀ d ≠ 0, per d = false) {y : Fin (D + 1) → K}
    (hy : ∀ d, per d = true → o % 2 = 1 ∨ ¬ WrapsToEnd (f.range d) (y d)) :
    ∃ p v, t.evalProxy y = .ok p ∧ CellSpline.proxyCall p g.spline = .ok v ∧ g.call c y = .ok v ∧ f.call y = .ok v := by
  obtain ⟨C, g', hg', hd, hgf, hfe, hcell⟩ := interpolateCell_spec c hm hv ht hf
  obtain ⟨g'', hg'', hval⟩ := cell_layout_partial c hm hv ht hf
  rw [hg] at hg' hg''
  injection hg' with hg'
  injection hg'' with hg''
  subst hg' hg''
  obtain ⟨⟨v, hv1, hv2⟩, -⟩ := hval y hy
  obtain ⟨gf, cell⟩ := g
  simp only at hgf
  subst hgf
  have hw := hd.wf hv
  obtain ⟨w, s, hat⟩ := hw.exists_at y
  have hs := hd.cellSafe hv hat hy
  choose k hk1 hk2 hk3 using fun d => hd.hint hv d (y d)
  have hh : ∀ d, ValidHint (f.spline.knots d) f.spline.order (f.spline.last d) (w d) (k d) :=
    fun d => hw.validHint (by rw [hd.order]; exact hk2 d) (hk3 d) _
  have hk : ∀ d, t.base.hint d (y d) = .ok (k d) := fun d => by rw [← hk1 d, hfe]; rfl
  set b := f.spline with hb
  set base : Fin (D + 1) → List K := fun d => arr (b.order + 1) fun a => piece (b.kn d) (s d) b.order (s d - b.order + a) (w d) with hbase
  set off := indexing (Cell.cdims b.order b.periodicity b.ctrl.dims) (Fin.snoc (α := fun _ => ℕ) (fun d => s d - b.order) 0) with hoff
  have hpre : t.evalProxy y = .ok (base, off) := by
    unfold Template.evalProxy CellFn.evalProxy CellFn.spline
    simp only
    rw [tabM_ok hk, ok_bind]
    have hcong : (⟨t.base.spline, ⟨fun _ => 0, []⟩⟩ : CellSpline D K V).preCalcCoef (fun d => (y d, k d)) =
        (⟨b, ⟨fun _ => 0, []⟩⟩ : CellSpline D K V).preCalcCoef (fun d => (y d, k d)) := by
      rw [hb, hfe]; rfl
    rw [hcong]
    unfold CellSpline.preCalcCoef
    simp only
    rw [tabM_ok (g := fun d => (w d, s d)) (fun d => hw.getKnotIter'_eq (hat.wrap d) (hat.seg d) (hh d)), ok_bind]
    simp only
    rw [hw.base_ok hat (fun _ => le_rfl), ok_bind, hw.cellIndex_ok hat, ok_bind, dimsFromKnots_eq hd hv, ok_bind, pure_eq_ok]
    congr 2
    rw [hoff, hd.pers, hd.order]
    refine indexing_congr_dims _ fun d hd0 => ?_
    rw [Nat.add_eq_left]
    revert hd0
    refine Fin.lastCases (fun _ => Fin.snoc_last (α := fun _ => ℕ) _ _) (fun d hd0 => ?_) d
    rw [Fin.snoc_castSucc, if_neg]
    rintro ⟨h1, h2⟩
    rcases hodd with h3 | h3
    · omega
    · rw [h3 d (by simpa using hd0)] at h1
      cases h1
  refine ⟨_, v, hpre, ?_, hv2, hv1⟩
  have hv3 : f.call y = .ok (tensorVal b.ctrl.dims (fun d => b.weight d (s d) 0 (w d)) C) := by
    unfold InterpFn.call
    rw [tabM_ok hk1, ok_bind, hw.eval_eq (x := fun d => (y d, k d)) hat hh hd.ctrlHolds]
  rw [hv1] at hv3
  rw [hv3]
  unfold CellSpline.proxyCall CellFn.spline
  simp only
  have e1 : cell.dims (Fin.last (D + 1)) = (b.order + 1) ^ D := by
    have : cell.dims = _ := hcell.1
    rw [this, Cell.cdims_last]
  have e2 : t.base.spline.order = b.order := by rw [hb, hfe]
  rw [e1, e2, ← pow_succ]
  rw [loop_sum (g := fun i => (∏ d, piece (b.kn d) (s d) b.order (s d - b.order + i / (b.order + 1) ^ d.val % (b.order + 1)) (w d)) •
      C (fun d => b.ctrlOf d (s d - b.order + i / (b.order + 1) ^ d.val % (b.order + 1)))), zero_add, hw.sum_digits hat]
  intro i hi v
  have hcoef : (if D = 0 then rd (base 0) i else CellSpline.scale b.order base i (1 : K)) =
      .ok (∏ d, piece (b.kn d) (s d) b.order (s d - b.order + i / (b.order + 1) ^ d.val % (b.order + 1)) (w d)) := by
    split
    · rename_i h0
      subst h0
      have hi : i < b.order + 1 := lt_of_lt_of_eq hi (pow_one _)
      rw [hbase, rd_arr _ hi, Fin.prod_univ_one]
      congr 2
      simp [Nat.mod_eq_of_lt hi]
    · rw [CellSpline.scale_ok (fun d m hm => rd_arr _ hm), smul_eq_mul, mul_one]
  have := hw.cell_read hat hs hcell hi
  by_cases h0 : D = 0
  · rw [if_pos h0] at hcoef ⊢
    rw [hcoef, ok_bind, hoff, this, ok_bind]
    rfl
  · rw [if_neg h0] at hcoef ⊢
    rw [hcoef, ok_bind, hoff, this, ok_bind]
    rfl

/-! ## Examples and witnesses -/

namespace CellExample

open InterpExample

/-- Value in the default layout, in the cell layout, and through a proxy. -/
def three (cf : Cfg) (o : ℕ) (per : Fin 2 → Bool) (y : Fin 2 → ℚ) : M (ℚ × ℚ × ℚ) := do
  let t ← Template.construct cf o per data.dims x
  let f ← t.interpolate cf data
  let g ← t.interpolateCell cf data
  let u ← f.call y
  let v ← g.call cf y
  let p ← t.evalProxy y
  let w ← CellSpline.proxyCall p g.spline
  pure (u, v, w)

/-- The hypotheses of `cell_layout_partial` and `eval_proxy_partial` hold for the data of `InterpExample` and order 3. -/
example : data.WF ∧ ValidAxes cfg 3 per data.dims x ∧ three cfg 3 per ![7 / 2, 1 / 2] = .ok (135113 / 54272, 135113 / 54272, 135113 / 54272) := by
  refine ⟨rfl, valid 3 (by norm_num) le_rfl, ?_⟩
  decide +kernel

/-- For order 2 at a coordinate that is not excluded. -/
example : three cfg 2 ![true, false] ![5, 1] = .ok (23 / 10, 23 / 10, 23 / 10) := by decide +kernel

/-- **C40 is false.**  Order 2, the second dimension periodic: the proxy gives another value than the function. -/
theorem eval_proxy_wrong : three cfg 2 per ![7 / 2, 1 / 2] = .ok (13411 / 5616, 13411 / 5616, 9539 / 5616) := by decide +kernel

/-- 4 × 4 × 3 data. -/
def data3 : Mesh 3 ℚ := ⟨![4, 4, 3], (List.range 48).map fun i : ℕ => ((i * i * 7 % 11 : ℕ) : ℚ)⟩

def per3 : Fin 3 → Bool := ![true, true, false]

def x3 : Fin 3 → XRange ℚ := ![.uniform 0 3, .uniform 0 3, .uniform 0 2]

/-- Value in the default layout and in the cell layout. -/
def two3 (cf : Cfg) (o : ℕ) (y : Fin 3 → ℚ) : M (ℚ × M ℚ) := do
  let t ← Template.construct cf o per3 data3.dims x3
  let f ← t.interpolate cf data3
  let g ← t.interpolateCell cf data3
  let u ← f.call y
  pure (u, g.call cf y)

/-- **C39 is false**, without assertions: order 2, the second coordinate one period left of the range.  The cell layout gives another value; with
assertions enabled it throws. -/
theorem cell_layout_wrong_value : two3 ⟨false, false⟩ 2 ![-1 / 4, -7 / 2, 1] = .ok (257 / 50, .ok (121 / 20)) ∧
    two3 ⟨true, false⟩ 2 ![-1 / 4, -7 / 2, 1] = .ok (257 / 50, .error .assertFail) := by
  constructor <;> decide +kernel

/-- The hypotheses of `cell_layout_assert` hold for that witness. -/
example : data3.WF ∧ ValidAxes ⟨true, false⟩ 2 per3 data3.dims x3 ∧ WrapsToEnd ((-1 / 2, 5 / 2) : ℚ × ℚ) (-7 / 2) := by
  refine ⟨rfl, fun d => ?_, 0, by norm_num⟩
  fin_cases d
  · refine ⟨fun _ => by simp [pointNum, data3], by simp [per3], ?_, by simp [x3]⟩
    intro a b h
    injection h with h1 h2
    subst h1 h2
    norm_num
  · refine ⟨fun _ => by simp [pointNum, data3], by simp [per3], ?_, by simp [x3]⟩
    intro a b h
    injection h with h1 h2
    subst h1 h2
    norm_num
  · refine ⟨by simp [per3], fun _ => by simp [pointNum, data3, per3], ?_, by simp [x3]⟩
    intro a b h
    injection h with h1 h2
    subst h1 h2
    norm_num

/-- 4 data points, one periodic dimension. -/
def data1 : Mesh 1 ℚ := ⟨fun _ => 5, [1, 3, -1, 2, 1]⟩

/-- The hypotheses of `cell_layout_oob` hold: order 2, the coordinate one period left of the range. -/
example : (do
    let t ← Template.construct ⟨false, false⟩ 2 (fun _ => true) data1.dims fun _ => .uniform 0 4
    let f ← t.interpolate ⟨false, false⟩ data1
    let g ← t.interpolateCell ⟨false, false⟩ data1
    let u ← f.call fun _ => -9 / 2
    pure (f.range 0, u, g.call ⟨false, false⟩ fun _ => -9 / 2) : M ((ℚ × ℚ) × ℚ × M ℚ)) = .ok ((-1 / 2, 7 / 2), 19 / 12, .error .oob) := by
  decide +kernel

end CellExample

end Intp
