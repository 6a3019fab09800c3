import Verif.Proofs.Interp

/-!
# The control points are determined by the data
-/

namespace Intp

open Finset BSpline

variable {K V : Type} [Field K] [LinearOrder K] [IsStrictOrderedRing K] [FloorRing K] [AddCommGroup V] [Module K V] {D : ℕ}

/-- Number of control points of dimension `d`. -/
def nOf (c : Cfg) (per : Fin D → Bool) (dims : Fin D → ℕ) (d : Fin D) : ℕ := unk (per d) (pointNum c (per d) (dims d))

theorem Mesh.ext_holds {m m' : Mesh D V} {dims : Fin D → ℕ} {C C' : (Fin D → ℕ) → V} (hpos : ∀ d, 0 < dims d) (h : m.Holds dims C)
    (h' : m'.Holds dims C') (e : ∀ a, InRange dims a → C a = C' a) : m = m' := by
  obtain ⟨ds, st⟩ := m
  obtain ⟨ds', st'⟩ := m'
  obtain rfl : ds = dims := h.1
  obtain rfl : ds' = ds := h'.1
  congr 1
  have l1 : st.length = ∏ d, ds' d := h.2.1
  have l2 : st'.length = ∏ d, ds' d := h'.2.1
  refine List.ext_getElem (l1.trans l2.symm) fun i h1 h2 => ?_
  have hi : i < ∏ d, ds' d := by omega
  have har := decode_inRange (t := i) hpos
  have g1 := h.get har
  have g2 := h'.get har
  unfold Mesh.get at g1 g2
  simp only [indexing_decode hi] at g1 g2
  rw [rd_ok h1] at g1
  rw [rd_ok h2] at g2
  injection g1 with g1
  injection g2 with g2
  rw [g1, g2, e _ har]

theorem tensorVal_congr {dims : Fin D → ℕ} {w w' : Fin D → ℕ → K} {C C' : (Fin D → ℕ) → V} (hC : ∀ J, InRange dims J → C J = C' J)
    (hw : ∀ d J, J < dims d → w d J = w' d J) : tensorVal dims w C = tensorVal dims w' C' := by
  unfold tensorVal
  refine sum_congr rfl fun J hJ => ?_
  have := mem_box.1 hJ
  rw [hC J this, prod_congr rfl fun d _ => hw d (J d) (this d)]

/-- The control points as fixed linear combinations of the data. -/
theorem AllRegular.formula {c : Cfg} {o : ℕ} {per : Fin D → Bool} {dims : Fin D → ℕ} {x : Fin D → XRange K} (hv : ValidAxes c o per dims x)
    (h : AllRegular c o per dims x) :
    ∃ B : Fin D → ℕ → ℕ → K, ∀ (V : Type) [AddCommGroup V] [Module K V] (F C : (Fin D → ℕ) → V), CtrlEqs c o per dims x F C →
      ∀ J, InRange (nOf c per dims) J →
        C J = tensorVal (nOf c per dims) (fun d => B d (J d)) fun r => F fun d => nodeOfRow o (per d) (nOf c per dims d) (r d) := by
  choose B hB using fun d => Template.Regular.leftInv (hv d).unk_pos (h d)
  refine ⟨B, fun V _ _ F C hE J hJ => ?_⟩
  refine Template.tensor_inv (A := fun d => (x d).mat o (pointNum c (per d) (dims d)) (per d)) hB (fun r hr => ?_) hJ
  have := hE (fun d => nodeOfRow o (per d) (nOf c per dims d) (r d)) fun d => (row_nodeOfRow (hr d)).1
  rw [← this]
  refine tensorVal_congr (fun _ _ => rfl) fun d J _ => ?_
  exact (congrArg (fun r' => (x d).mat o (pointNum c (per d) (dims d)) (per d) r' J) (row_nodeOfRow (o := o) (per := per d) (hr d)).2).symm

/-- Data determine the control points. -/
theorem AllRegular.unique {c : Cfg} {o : ℕ} {per : Fin D → Bool} {dims : Fin D → ℕ} {x : Fin D → XRange K} (hv : ValidAxes c o per dims x)
    (h : AllRegular c o per dims x) {F F' C C' : (Fin D → ℕ) → V} (hC : CtrlEqs c o per dims x F C) (hC' : CtrlEqs c o per dims x F' C')
    (hF : ∀ a, InRange (nOf c per dims) a → F a = F' a) {J : Fin D → ℕ} (hJ : InRange (nOf c per dims) J) : C J = C' J := by
  obtain ⟨B, hB⟩ := h.formula hv
  rw [hB V F C hC J hJ, hB V F' C' hC' J hJ]
  exact tensorVal_congr (fun r hr => hF _ fun d => (row_nodeOfRow (hr d)).1) fun _ _ _ => rfl

theorem InterpFn.Done.derivative {c c' : Cfg} {o : ℕ} {per : Fin D → Bool} {dims : Fin D → ℕ} {x : Fin D → XRange K} {g : InterpFn D K V}
    {C : (Fin D → ℕ) → V} (h : g.Done c o per dims x C) (hv : ValidAxes c o per dims x) (y : Fin D → K) (m : Fin D → ℕ) :
    g.derivative c' y m = .ok (g.spline.val C m y) := by
  choose k hk1 hk2 hk3 using fun d => h.hint hv d (y d)
  unfold InterpFn.derivative
  rw [tabM_ok hk1, ok_bind]
  exact (h.wf hv).derivativeAt_val c' (fun d => (h.wf hv).validHint (by rw [h.order]; exact hk2 d) (hk3 d) _) h.ctrlHolds

/-- The weights of a dimension depend only on its own data. -/
theorem BSpline.wAt_congr {D' : ℕ} {V' : Type} {b : BSpline D K V} {b' : BSpline D' K V'} {d : Fin D} {d' : Fin D'}
    (h1 : b.order = b'.order) (h2 : b.knots d = b'.knots d') (h3 : b.periodicity d = b'.periodicity d')
    (h4 : b.range d = b'.range d') (h5 : b.ctrl.dims d = b'.ctrl.dims d') (m : ℕ) (y : K) (J : ℕ) :
    b.wAt d m y J = b'.wAt d' m y J := by
  unfold BSpline.wAt BSpline.wSeg BSpline.segOf BSpline.wrapOf BSpline.weight BSpline.ctrlOf BSpline.last BSpline.kn
  generalize b.order = a1 at *
  generalize b.knots d = a2 at *
  generalize b.periodicity d = a3 at *
  generalize b.range d = a4 at *
  generalize b.ctrl.dims d = a5 at *
  subst h1 h2 h3 h4 h5
  rfl

/-- Weights of one dimension, from its coordinates alone. -/
noncomputable def XRange.wt (o N : ℕ) (per : Bool) (x : XRange K) (m : ℕ) (y : K) (J : ℕ) : K :=
  BSpline.wAt (D := 1) (V := K) ⟨o, fun _ => per, fun _ => x.knots o (unk per N) per, ⟨fun _ => unk per N, []⟩, fun _ =>
    (knotFn (x.knots o (unk per N) per) o, knotFn (x.knots o (unk per N) per) ((x.knots o (unk per N) per).length - o - (2 - o % 2)))⟩ 0 m y J

theorem InterpFn.Done.wAt_eq {c : Cfg} {o : ℕ} {per : Fin D → Bool} {dims : Fin D → ℕ} {x : Fin D → XRange K} {g : InterpFn D K V}
    {C : (Fin D → ℕ) → V} (h : g.Done c o per dims x C) (d : Fin D) (m : ℕ) (y : K) (J : ℕ) :
    g.spline.wAt d m y J = (x d).wt o (pointNum c (per d) (dims d)) (per d) m y J := by
  have e1 := h.knots d
  have e2 := h.range_eq d
  have e3 := h.order
  have e4 : g.spline.periodicity d = per d := congrFun h.pers d
  have e5 := h.dims_eq d
  unfold BSpline.kn at e2
  rw [e1] at e2
  exact BSpline.wAt_congr e3 e1 e4 e2 e5 m y J

/-- Value of an interpolation from the weights of its dimensions. -/
theorem InterpFn.Done.val_eq {c : Cfg} {o : ℕ} {per : Fin D → Bool} {dims : Fin D → ℕ} {x : Fin D → XRange K} {g : InterpFn D K V}
    {C : (Fin D → ℕ) → V} (h : g.Done c o per dims x C) (m : Fin D → ℕ) (y : Fin D → K) :
    g.spline.val C m y = tensorVal (nOf c per dims) (fun d => (x d).wt o (pointNum c (per d) (dims d)) (per d) (m d) (y d)) C := by
  unfold BSpline.val
  rw [show g.spline.ctrl.dims = nOf c per dims from h.ctrl.1]
  exact tensorVal_congr (fun _ _ => rfl) fun d J _ => h.wAt_eq d (m d) (y d) J

theorem tensorVal_lin {dims : Fin D → ℕ} {w : Fin D → ℕ → K} {C₁ C₂ : (Fin D → ℕ) → V} (a b : K) :
    tensorVal dims w (fun J => a • C₁ J + b • C₂ J) = a • tensorVal dims w C₁ + b • tensorVal dims w C₂ := by
  unfold tensorVal
  rw [smul_sum, smul_sum, ← sum_add_distrib]
  refine sum_congr rfl fun r _ => ?_
  rw [smul_add, smul_comm a, smul_comm b]

end Intp
