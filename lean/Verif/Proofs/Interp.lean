import Verif.Proofs.Construct
import Verif.Proofs.Weights

/-!
# Values of a constructed interpolation
-/

namespace Intp

open Finset BSpline

variable {K V : Type} [Field K] [LinearOrder K] [IsStrictOrderedRing K] [FloorRing K] [AddCommGroup V] [Module K V] {D : ℕ}

namespace InterpFn.Done

variable {c : Cfg} {o : ℕ} {per : Fin D → Bool} {dims : Fin D → ℕ} {x : Fin D → XRange K} {g : InterpFn D K V} {C : (Fin D → ℕ) → V}

theorem order (h : g.Done c o per dims x C) : g.spline.order = o := h.built.choose_spec.order

theorem pers (h : g.Done c o per dims x C) : g.spline.periodicity = per := h.built.choose_spec.pers

theorem knots (h : g.Done c o per dims x C) (d : Fin D) :
    g.spline.knots d = (x d).knots o (unk (per d) (pointNum c (per d) (dims d))) (per d) := (h.built.choose_spec.dim d).knots

theorem dims_eq (h : g.Done c o per dims x C) (d : Fin D) : g.spline.ctrl.dims d = unk (per d) (pointNum c (per d) (dims d)) :=
  congrFun h.ctrl.1 d

theorem ctrlHolds (h : g.Done c o per dims x C) : g.spline.ctrl.Holds g.spline.ctrl.dims C := by
  have := h.ctrl
  rwa [← this.1] at this

theorem axisP (h : g.Done c o per dims x C) (hv : ValidAxes c o per dims x) {d : Fin D} (hp : per d = true) :
    PAxis o (g.spline.ctrl.dims d) (g.spline.knots d) ((x d).node (pointNum c (per d) (dims d))) := by
  have := hv d
  rw [h.knots, h.dims_eq, hp] at *
  exact this.pAxis

theorem axisA (h : g.Done c o per dims x C) (hv : ValidAxes c o per dims x) {d : Fin D} (hp : per d = false) :
    AAxis o (g.spline.ctrl.dims d) (g.spline.knots d) ((x d).node (pointNum c (per d) (dims d))) := by
  have := hv d
  rw [h.knots, h.dims_eq, hp] at *
  exact this.aAxis

theorem range_eq (h : g.Done c o per dims x C) (d : Fin D) : g.spline.range d =
    (g.spline.kn d o, g.spline.kn d ((g.spline.knots d).length - o - (2 - o % 2))) := by
  unfold kn
  rw [h.knots]
  exact (h.built.choose_spec.dim d).range

theorem range_per (h : g.Done c o per dims x C) (hv : ValidAxes c o per dims x) {d : Fin D} (hp : per d = true) :
    g.spline.range d = (g.spline.kn d o, g.spline.kn d (g.spline.ctrl.dims d + o)) := by
  rw [h.range_eq]
  have := (h.axisP hv hp).len
  rw [show (g.spline.knots d).length - o - (2 - o % 2) = g.spline.ctrl.dims d + o by omega]

theorem last_aper (h : g.Done c o per dims x C) (hv : ValidAxes c o per dims x) {d : Fin D} (hp : per d = false) :
    g.spline.last d = g.spline.ctrl.dims d - 1 := by
  unfold last
  rw [h.order]
  have := (h.axisA hv hp).len
  omega

theorem last_per (h : g.Done c o per dims x C) (hv : ValidAxes c o per dims x) {d : Fin D} (hp : per d = true) :
    g.spline.last d = g.spline.ctrl.dims d + o - o % 2 := by
  unfold last
  rw [h.order]
  have := (h.axisP hv hp).len
  omega

theorem simple (h : g.Done c o per dims x C) (hv : ValidAxes c o per dims x) (d : Fin D) : g.spline.Simple d := by
  intro i h1 h2
  rw [h.order] at h1
  cases hp : per d with
  | true =>
    have ax := h.axisP hv hp
    have := ax.len
    rw [h.last_per hv hp] at h2
    exact ax.inc i (by omega) (by omega)
  | false =>
    have ax := h.axisA hv hp
    rw [h.last_aper hv hp] at h2
    have := ax.two
    exact ax.inc i h1 (by omega)

theorem period (h : g.Done c o per dims x C) (hv : ValidAxes c o per dims x) {d : Fin D} (hp : per d = true) :
    (g.spline.range d).2 - (g.spline.range d).1 = (x d).node (pointNum c (per d) (dims d)) (g.spline.ctrl.dims d) -
      (x d).node (pointNum c (per d) (dims d)) 0 := by
  rw [h.range_per hv hp]
  have ax := h.axisP hv hp
  have := ax.shift o (by omega) (by have := ax.len; omega)
  unfold kn
  simp only
  rw [Nat.add_comm, this]
  ring

theorem wf (h : g.Done c o per dims x C) (hv : ValidAxes c o per dims x) : g.spline.WF := by
  have hlen : ∀ d, 2 * g.spline.order + 2 ≤ (g.spline.knots d).length := fun d => by
    rw [h.order, h.knots]; exact (hv d).knots_length_le
  refine ⟨h.ctrlHolds.2.1, ?_, hlen, ?_, ?_, ?_, ?_⟩
  · intro d
    unfold kn
    rw [h.knots]
    exact (hv d).kmono
  · intro d
    exact h.simple hv d _ le_rfl (by have := hlen d; unfold last; omega)
  · intro d
    exact h.simple hv d _ (by have := hlen d; unfold last; omega) le_rfl
  · intro d hp
    rw [h.pers] at hp
    rw [h.order]
    exact (h.axisA hv hp).len
  · intro d hp
    rw [h.pers] at hp
    have ax := h.axisP hv hp
    refine ⟨by have := ax.big; omega, ?_⟩
    rw [h.range_per hv hp]
    refine strict_of_succ (f := g.spline.kn d) (lo := o) (hi := g.spline.ctrl.dims d + o) (fun i h1 h2 => ax.inc i (by omega) ?_) le_rfl ?_ le_rfl
    · have := ax.len; omega
    · have := ax.big; omega

theorem perKnots (h : g.Done c o per dims x C) (hv : ValidAxes c o per dims x) {d : Fin D} (hp : per d = true) : g.spline.PerKnots d := by
  have ax := h.axisP hv hp
  refine ⟨by rw [h.pers]; exact hp, ?_, fun i h1 h2 => ?_, ?_, ?_⟩
  · rw [h.order, ax.len]; split <;> omega
  · rw [h.period hv hp]; exact ax.shift i (.inl h1) h2
  · rw [h.range_per hv hp, h.order]
  · rw [h.range_per hv hp, h.order]

/-- Hints lie in the range of segments. -/
theorem hint (h : g.Done c o per dims x C) (hv : ValidAxes c o per dims x) (d : Fin D) (y : K) :
    ∃ k, g.hint d y = .ok k ∧ o ≤ k ∧ k ≤ g.spline.last d := by
  have hw := h.wf hv
  have hlast := hw.last_ge d
  have hlen := hw.len d
  rw [h.order] at hlast hlen
  unfold InterpFn.hint
  by_cases hu : g.uniform d = true
  · rw [if_pos hu, h.order, subM_ok (by omega), ok_bind]
    have hb := h.built.choose_spec.dim d
    have hdx : g.dx d ≠ 0 := by
      rw [hb.uni] at hu
      have hvd := hv d
      cases hx : x d with
      | uniform a b =>
        rw [hx] at hvd
        rw [hb.dx a b hx]
        exact hvd.step_pos.ne'
      | coords l => rw [hx] at hu; simp [XRange.isUniform] at hu
    rw [divM_ok hdx, ok_bind]
    refine ⟨_, rfl, ?_, ?_⟩
    · unfold last at hlast
      rw [h.order] at hlast
      omega
    · unfold last
      rw [h.order]
      omega
  · rw [if_neg hu, h.order]
    exact ⟨_, rfl, le_rfl, hlast⟩

theorem call (h : g.Done c o per dims x C) (hv : ValidAxes c o per dims x) (y : Fin D → K) :
    g.call y = .ok (g.spline.val C (fun _ => 0) y) := by
  choose k hk1 hk2 hk3 using fun d => h.hint hv d (y d)
  unfold InterpFn.call
  rw [tabM_ok hk1, ok_bind]
  exact (h.wf hv).eval_val (fun d => (h.wf hv).validHint (by rw [h.order]; exact hk2 d) (hk3 d) _) h.ctrlHolds

/-- Weights at data points are the entries of the matrix. -/
theorem wAt_node (h : g.Done c o per dims x C) (hv : ValidAxes c o per dims x) (d : Fin D) {i J : ℕ} (hi : i < g.spline.ctrl.dims d)
    (hJ : J < g.spline.ctrl.dims d) :
    g.spline.wAt d 0 ((x d).node (pointNum c (per d) (dims d)) i) J =
      (x d).mat o (pointNum c (per d) (dims d)) (per d) ((i + rowShift o (per d)) % g.spline.ctrl.dims d) J := by
  have hw := h.wf hv
  set X := (x d).node (pointNum c (per d) (dims d)) with hX
  set n := g.spline.ctrl.dims d with hn
  obtain ⟨ki, hki⟩ : ∃ ki, SegOfNode o n (g.spline.knots d) X ki := by
    cases hp : per d with
    | true => exact ⟨_, (h.axisP hv hp).segOfNode⟩
    | false => exact ⟨_, (h.axisA hv hp).segOfNode⟩
  have hwrap : g.spline.wrapOf d (X i) = X i := by
    refine hw.wrapOf_eq ?_
    unfold IsWrap
    rw [h.pers]
    by_cases hp : per d = true
    · rw [if_pos hp]
      refine ⟨⟨0, by simp⟩, ?_⟩
      have ax := h.axisP hv hp
      have hb := ax.len
      rw [h.range_per hv hp]
      have h1 := (ax.node i hi).1
      have h2 := (ax.node i hi).2
      have hx1 : g.spline.kn d o ≤ X i := by
        rcases Nat.eq_zero_or_pos i with rfl | h0
        · have := h1; rw [Nat.zero_add] at this; exact this
        · refine le_trans ?_ h1
          exact (strict_of_succ (f := g.spline.kn d) (lo := o) (hi := n + o) (fun i h1 h2 => ax.inc i (by omega) (by omega)) le_rfl (by omega) (by omega)).le
      have hx2 : X i < g.spline.kn d (n + o) := by
        refine lt_of_lt_of_le h2 ?_
        rcases Nat.eq_or_lt_of_le (show i + o + 1 ≤ n + o by omega) with e | e
        · rw [e]; exact le_rfl
        · exact (strict_of_succ (f := g.spline.kn d) (lo := o) (hi := n + o) (fun i h1 h2 => ax.inc i (by omega) (by omega)) (by omega) e le_rfl).le
      rw [if_neg (not_lt.2 hx1)]
      exact ⟨hx1, hx2⟩
    · rw [if_neg hp]
  have hs : g.spline.segOf d (X i) = ki i := hw.segOf_eq (by
    have := hki i hi
    unfold last
    rw [h.order]
    exact this)
  unfold wAt wSeg
  rw [hwrap, hs]
  unfold XRange.mat
  rw [← h.dims_eq d, ← hn, nodeOfRow_shift hi, ← hX]
  have hk := h.knots d
  rw [← h.dims_eq d, ← hn] at hk
  rw [← hk, KMono.segAt (hw.kmono d) (by have := hw.len d; rw [h.order] at this; exact this) (hki i hi)]
  have hge : g.spline.order ≤ ki i := by rw [h.order]; exact (hki i hi).1
  have hle : ki i ≤ (g.spline.knots d).length - o - 2 := (hki i hi).2.1
  rw [← WF.weight_eq _ _ hge]
  unfold colRow
  rw [sum_filter, h.order]
  refine sum_congr rfl fun a ha => ?_
  rw [mem_range] at ha
  have : g.spline.ctrlOf d (ki i - o + a) = (ki i - o + a) % n := by
    unfold ctrlOf
    rw [h.pers]
    split
    · rfl
    · rename_i hp
      have ax := h.axisA hv (d := d) (by simpa using hp)
      have := ax.len
      rw [Nat.mod_eq_of_lt]
      have := (hki i hi).1
      omega
  rw [this]
  split
  · simp [pieceP_eval, kn]
  · rfl

/-- The point that repeats the first one. -/
theorem wAt_dummy (h : g.Done c o per dims x C) (hv : ValidAxes c o per dims x) {d : Fin D} (hp : per d = true) (J : ℕ) :
    g.spline.wAt d 0 ((x d).node (pointNum c (per d) (dims d)) (g.spline.ctrl.dims d)) J =
      g.spline.wAt d 0 ((x d).node (pointNum c (per d) (dims d)) 0) J := by
  have := (h.wf hv).wAt_periodic (h.perKnots hv hp) 1 ((x d).node (pointNum c (per d) (dims d)) 0) (q := 0) J
    (by have := h.order; omega)
  rw [← this, h.period hv hp]
  congr 1
  push_cast
  ring

end InterpFn.Done


/-! ## construction with data -/

section

variable {c : Cfg} {o : ℕ} {per : Fin (D + 1) → Bool} {dims : Fin (D + 1) → ℕ} {x : Fin (D + 1) → XRange K}

/-- Index of a data point without the duplicate at the end of a period. -/
def foldIx (c : Cfg) (per : Fin D → Bool) (dims : Fin D → ℕ) (I : Fin D → ℕ) : Fin D → ℕ := fun d =>
  if I d = unk (per d) (pointNum c (per d) (dims d)) then 0 else I d

/-- Data dimensions match the template. -/
theorem ValidAxes.dims_eq (hv : ValidAxes c o per dims x) (d : Fin (D + 1)) :
    dims d = unk (per d) (pointNum c (per d) (dims d)) + if per d && !c.noDummy then 1 else 0 := by
  have := (hv d).two
  unfold unk pointNum at *
  cases hp : per d <;> cases hn : c.noDummy <;> simp [hp, hn] at this ⊢ <;> omega

theorem Template.Good.interpolate_spec {t : Template (D + 1) K V} (ht : t.Good c o per dims x) (hv : ValidAxes c o per dims x)
    {fm : Mesh (D + 1) V} {F : (Fin (D + 1) → ℕ) → V} (hd : fm.dims = dims) (hF : fm.Holds dims F) :
    Spec (t.solveForControlPoints c fm) (fun w =>
      (∀ d, Regular (unk (per d) (pointNum c (per d) (dims d))) ((x d).mat o (pointNum c (per d) (dims d)) (per d))) ∧
      ∃ C, w.Holds (fun d => unk (per d) (pointNum c (per d) (dims d))) C ∧
        ∀ a, InRange (fun d => unk (per d) (pointNum c (per d) (dims d))) a →
          tensorVal (fun d => unk (per d) (pointNum c (per d) (dims d))) (fun d => (x d).mat o (pointNum c (per d) (dims d)) (per d)
            ((a d + rowShift o (per d)) % unk (per d) (pointNum c (per d) (dims d)))) C = F a)
      (fun e => ∃ d, PivotErr (unk (per d) (pointNum c (per d) (dims d))) ((x d).mat o (pointNum c (per d) (dims d)) (per d)) e) := by
  have hp : t.base.periodicity = per := ht.built.pers
  have ho : t.base.spline.order = o := ht.built.order
  have := Template.solveForControlPoints_spec c (t := t) (A := fun d => (x d).mat o (pointNum c (per d) (dims d)) (per d)) (fm := fm) (f := F)
    (fun d => by rw [ht.dims_eq]; exact (hv d).unk_pos) (fun d => by rw [ht.dims_eq]; exact ht.solves d)
    (fun d => by rw [ht.dims_eq, hd, hp]; exact hv.dims_eq d) (by rw [hd]; exact hF)
  rw [ht.dims_eq, hp, ho] at this
  exact this

/-- Equations satisfied by the control points. -/
def CtrlEqs (c : Cfg) (o : ℕ) (per : Fin D → Bool) (dims : Fin D → ℕ) (x : Fin D → XRange K) (F C : (Fin D → ℕ) → V) : Prop :=
  ∀ a, InRange (fun d => unk (per d) (pointNum c (per d) (dims d))) a →
    tensorVal (fun d => unk (per d) (pointNum c (per d) (dims d))) (fun d => (x d).mat o (pointNum c (per d) (dims d)) (per d)
      ((a d + rowShift o (per d)) % unk (per d) (pointNum c (per d) (dims d)))) C = F a

/-- All leading blocks of all matrices are regular. -/
def AllRegular (c : Cfg) (o : ℕ) (per : Fin D → Bool) (dims : Fin D → ℕ) (x : Fin D → XRange K) : Prop :=
  ∀ d, Regular (unk (per d) (pointNum c (per d) (dims d))) ((x d).mat o (pointNum c (per d) (dims d)) (per d))

omit [IsStrictOrderedRing K] [FloorRing K] in
theorem AllRegular.not_pivotErr {D : ℕ} {per : Fin D → Bool} {dims : Fin D → ℕ} {x : Fin D → XRange K} {e : Err}
    (h : AllRegular c o per dims x) :
    ¬ ∃ d, PivotErr (unk (per d) (pointNum c (per d) (dims d))) ((x d).mat o (pointNum c (per d) (dims d)) (per d)) e := by
  rintro ⟨d, -, r, hr, h0⟩
  exact h d r hr h0

theorem Built.withCtrl {D : ℕ} {per : Fin D → Bool} {dims : Fin D → ℕ} {x : Fin D → XRange K} {f : InterpFn D K V} {ic : Fin D → List K}
    (h : Built c o per dims x f ic) {w : Mesh D V} {C : (Fin D → ℕ) → V}
    (hw : w.Holds (fun d => unk (per d) (pointNum c (per d) (dims d))) C) :
    InterpFn.Done c o per dims x { f with spline := f.spline.loadCtrlPts w } C :=
  ⟨⟨ic, h.order, h.pers, fun d => ⟨(h.dim d).knots, (h.dim d).range, (h.dim d).uni, (h.dim d).dx, (h.dim d).ic⟩⟩, hw⟩

theorem InterpFn.construct_spec (hv : ValidAxes c o per dims x) {fm : Mesh (D + 1) V} {F : (Fin (D + 1) → ℕ) → V} (hd : fm.dims = dims)
    (hF : fm.Holds dims F) :
    Spec (InterpFn.construct c o per fm x) (fun g => AllRegular c o per dims x ∧ ∃ C, g.Done c o per dims x C ∧ CtrlEqs c o per dims x F C)
      (fun e => ∃ d, PivotErr (unk (per d) (pointNum c (per d) (dims d))) ((x d).mat o (pointNum c (per d) (dims d)) (per d)) e) := by
  unfold InterpFn.construct
  rw [hd]
  refine Spec.bind (Template.construct_spec c hv) fun t ht => ?_
  refine Spec.bind (Q := fun r => AllRegular c o per dims x ∧ ∃ C, r.1.Done c o per dims x C ∧ CtrlEqs c o per dims x F C) ?_
    fun r hr => Spec.pure hr
  unfold Template.interpolateMove
  refine Spec.bind (ht.interpolate_spec hv hd hF) ?_
  rintro w ⟨hr, C, hC, hE⟩
  exact Spec.pure ⟨hr, C, ht.built.withCtrl hC, hE⟩

/-- Data points in terms of control points. -/
theorem InterpFn.Done.node_val {g : InterpFn (D + 1) K V} {C F : (Fin (D + 1) → ℕ) → V} (h : g.Done c o per dims x C)
    (hv : ValidAxes c o per dims x) (hE : CtrlEqs c o per dims x F C) {I : Fin (D + 1) → ℕ}
    (hI : ∀ d, I d < pointNum c (per d) (dims d)) :
    g.spline.val C (fun _ => 0) (nodeAt c per dims x I) = F (foldIx c per dims I) := by
  have hu : ∀ d, I d < unk (per d) (pointNum c (per d) (dims d)) ∨ per d = true ∧ I d = unk (per d) (pointNum c (per d) (dims d)) := by
    intro d
    have := hI d
    unfold unk
    cases hp : per d <;> rw [hp] at this <;> simp <;> omega
  have hf : InRange (fun d => unk (per d) (pointNum c (per d) (dims d))) (foldIx c per dims I) := by
    intro d
    unfold foldIx
    have := (hv d).unk_pos
    rcases hu d with e | e
    · rw [if_neg (by omega)]; exact e
    · rw [if_pos e.2]; exact this
  rw [← hE _ hf]
  unfold BSpline.val
  rw [show g.spline.ctrl.dims = fun d => unk (per d) (pointNum c (per d) (dims d)) from h.ctrl.1]
  unfold tensorVal
  refine sum_congr rfl fun J hJ => ?_
  congr 1
  refine prod_congr rfl fun d _ => ?_
  have hJd : J d < g.spline.ctrl.dims d := by rw [h.dims_eq]; exact mem_box.1 hJ d
  have hfd : foldIx c per dims I d < g.spline.ctrl.dims d := by rw [h.dims_eq]; exact hf d
  have := h.wAt_node hv d hfd hJd
  rw [h.dims_eq] at this
  refine Eq.trans ?_ this
  unfold nodeAt foldIx
  simp only
  split
  · rename_i e
    rcases hu d with e' | e'
    · omega
    · rw [e, ← h.dims_eq]
      exact h.wAt_dummy hv e'.1 (J d)
  · rfl

end

end Intp
