import Verif.Props.RoundInterp
import Verif.Proofs.UniformAxis
import Verif.Proofs.UniformBase

/-!
# Axes whose computed matrix is near the values of the basis functions

The same facts are collected for a dimension with explicit coordinates and for a uniform one.
-/

namespace Intp

open Finset BSpline

/-- Knots `T` and solver of one non-periodic dimension; `P i x` holds when `x` is a coordinate of data point `i`. -/
structure AxisNear {D : ℕ} (f : InterpFn D F64 F64) (d : Fin D) (o n : ℕ) (sol : Solver F64) (P : ℕ → ℚ → Prop) (κ : ℚ) (T : List ℚ) : Prop where
  knots : f.spline.knots d = T.map F64.fin
  len : T.length = n + o + 1
  mono : KMono T
  dbl : ∀ v ∈ T, IsDouble v ∧ |v| ≤ 2 ^ 1000
  gap : ∀ i, o ≤ i → i < n → knotFn T i + 1 / 2 ^ 900 ≤ knotFn T (i + 1)
  rows : ∃ W : ℕ → ℕ → ℚ, (∀ i, i < n → ∑ J ∈ range n, W i J = 1) ∧ RowsNear sol o n W κ
  pt : ∀ i x, i < n → P i x → IsDouble x ∧ knotFn T o ≤ x ∧ x ≤ knotFn T n ∧ (∃ h, Fl.hint f d (.fin x) = .ok h) ∧
    ∃ (W : ℕ → ℕ → ℚ) (s : ℕ), (∀ i J, i < n → 0 ≤ W i J) ∧ (∀ i, i < n → ∑ J ∈ range n, W i J = 1) ∧ RowsNear sol o n W κ ∧
      IsSeg (knotFn T) o (n - 1) x s ∧ ∀ J, W i J = piece (knotFn T) s o J x

/-- Inputs of one non-periodic dimension with `n` points: explicit coordinates that are far enough apart, or the ends of a uniform dimension whose step is
not too small.  `P i x` holds when `x` is a coordinate of data point `i`; `r` bounds the quotient of the size of the coordinates and the step of a uniform
dimension. -/
inductive GoodAxis (n : ℕ) : XRange F64 → (ℕ → ℚ → Prop) → ℚ → Prop
  | coords {l : List F64} {X : ℕ → ℚ} {B h : ℚ} : CoordsIn l n X B → B ≤ 2 ^ 1000 → Separated n X B h → n ≤ 2 ^ 49 →
      GoodAxis n (.coords l) (fun i x => x = X i) 0
  | uniform {a b B H r : ℚ} : UniformIn n a b B H → B ≤ r * H →
      GoodAxis n (.uniform (.fin a) (.fin b)) (fun i x => IsDouble x ∧ a ≤ x ∧ x ≤ b ∧ |x - (a + i * H)| ≤ 8 * B / 2 ^ 53) r

theorem GoodAxis.small {n : ℕ} {x : XRange F64} {P : ℕ → ℚ → Prop} {r : ℚ} (h : GoodAxis n x P r) : n ≤ 2 ^ 49 ∧ 0 ≤ r := by
  cases h with
  | coords _ _ _ h => exact ⟨h, le_rfl⟩
  | uniform h hr =>
    refine ⟨h.big, ?_⟩
    have := h.B0
    have := h.pos
    by_contra hc
    nlinarith

theorem RowsNear.mono {sol : Solver F64} {o n : ℕ} {W : ℕ → ℕ → ℚ} {κ κ' : ℚ} (h : RowsNear sol o n W κ) (hk : κ ≤ κ') : RowsNear sol o n W κ' := by
  obtain ⟨A, lu, C0, h0, h1, h2, h3, h4⟩ := h
  exact ⟨A, lu, C0, h0, h1, h2, h3, fun i hi => (h4 i hi).trans (div_le_div_of_nonneg_right hk (by positivity))⟩

/-- Changing one row. -/
theorem RowsNear.update {sol : Solver F64} {o n : ℕ} {W : ℕ → ℕ → ℚ} {κ δ : ℚ} (h : RowsNear sol o n W κ) (hδ : 0 ≤ δ) {i : ℕ} {V : ℕ → ℚ}
    (hV : ∑ J ∈ range n, |V J - W i J| ≤ δ / 2 ^ 53) : RowsNear sol o n (Function.update W i V) (κ + δ) := by
  obtain ⟨A, lu, C0, h0, h1, h2, h3, h4⟩ := h
  refine ⟨A, lu, C0, h0, h1, h2, h3, fun k hk => ?_⟩
  by_cases hki : k = i
  · subst hki
    rw [Function.update_self]
    calc _ ≤ ∑ J ∈ range n, (|Fl.entries F64.toRat (InBand (o - 1) (o - 1)) A k J - W k J| + |V J - W k J|) :=
          sum_le_sum fun J _ => by rw [abs_sub_comm (V J)]; exact abs_sub_le _ _ _
      _ ≤ κ / 2 ^ 53 + δ / 2 ^ 53 := by rw [sum_add_distrib]; exact add_le_add (h4 k hk) hV
      _ = _ := by ring
  · rw [Function.update_of_ne hki]
    refine (h4 k hk).trans (div_le_div_of_nonneg_right (by linarith) (by positivity))

section
variable {D : ℕ} {f : InterpFn D F64 F64} {d : Fin D} {o n : ℕ} {w : Bool} {c : Cfg} {l : List F64} {vals : List F64} {sol : Solver F64}

/-- Gaps of the knots of explicit coordinates. -/
theorem NearKnots.gap900 {X : ℕ → ℚ} {B h : ℚ} {T : ℕ → ℚ} (hT : NearKnots o n X h T) (hs : Separated n X B h) (ho : 1 ≤ o) (hn : o + 1 ≤ n) {i : ℕ}
    (h1 : o ≤ i) (h2 : i < n) : T i + 1 / 2 ^ 900 ≤ T (i + 1) := by
  have h4 := hT.gap hs ho hn h1 h2
  have h5 := hs.least
  have h6 : (1 : ℚ) / 2 ^ 900 ≤ 1 / 2 ^ 800 / 4 := by decide +kernel
  generalize (1 : ℚ) / 2 ^ 900 = z at *
  generalize (1 : ℚ) / 2 ^ 800 = z' at *
  linarith

theorem axisIn_coords {X : ℕ → ℚ} {B h : ℚ} {T : List ℚ} (ho : 1 ≤ o ∧ o ≤ 50) (hn : o + 1 ≤ n) (hord : f.spline.order = o) (hp : f.periodicity d = false)
    (hu : f.uniform d = false) (hc : CoordsIn l n X B) (hB : B ≤ 2 ^ 1000) (hs : Separated n X B h) (hk : f.spline.knots d = T.map F64.fin)
    (hlen : T.length = n + o + 1) (hT : NearKnots o n X h (knotFn T)) (hd : ∀ v ∈ T, IsDouble v ∧ |v| ≤ B) : AxisIn f d o n l T X := by
  have hpos := hs.pos
  refine ⟨hord, ho, hp, hu, hk, fun v hv => ⟨(hd v hv).1, (hd v hv).2.trans hB⟩, hlen, hn, fun i j _ h2 h3 => hT.mono hs ho.1 hn h2 (by omega), ?_, ?_,
    fun i h1 h2 _ => ?_, hc.len, hc.get, hc.dbl, hT.left, hT.right, fun i h0 h1 => hT.node hs ho.1 hn h0 h1⟩
  · have := hT.gap hs ho.1 hn (u := o) le_rfl (by omega)
    linarith
  · have := hT.gap hs ho.1 hn (u := n - 1) (by omega) (by omega)
    rw [show n - 1 + 1 = n by omega] at this
    linarith
  · have := hT.gap900 hs ho.1 hn h1 h2
    generalize (1 : ℚ) / 2 ^ 900 = z at *
    linarith

/-- A dimension with explicit coordinates. -/
theorem axisNear_coords {X : ℕ → ℚ} {B h : ℚ} {T : List ℚ} (ho : 1 ≤ o ∧ o ≤ 50) (hn : o + 1 ≤ n) (hord : f.spline.order = o) (hp : f.periodicity d = false)
    (hu : f.uniform d = false) (hc : CoordsIn l n X B) (hB : B ≤ 2 ^ 1000) (hs : Separated n X B h) (hk : f.spline.knots d = T.map F64.fin)
    (hlen : T.length = n + o + 1) (hT : NearKnots o n X h (knotFn T)) (hd : ∀ v ∈ T, IsDouble v ∧ |v| ≤ B)
    (hsol : (Fl.assemble w c f l d n vals >>= Fl.ofMat c) = .ok sol) : AxisNear f d o n sol (fun i x => x = X i) (7 * o) T := by
  have hax : AxisIn f d o n l T X := axisIn_coords ho hn hord hp hu hc hB hs hk hlen hT hd
  have hmono : KMono T := fun i j _ h2 h3 => hT.mono hs ho.1 hn h2 (by omega)
  obtain ⟨s, hs1, hs2, hs3, hs4⟩ := hax.seg
  have hr := hax.elims hs1 hs2 hs3 hs4 hsol
  have hun : ∀ i, i < n → (∀ J, 0 ≤ piece (knotFn T) (s i) o J (X i)) ∧ ∑ J ∈ range n, piece (knotFn T) (s i) o J (X i) = 1 := fun i hi => by
    obtain ⟨a1, a2, a3, a4, a5⟩ := hax.on hs2 hs3 hs4 hi
    exact hax.unity a1 a2 a3 a4 a5
  refine ⟨hk, hlen, hmono, hax.dbl, fun i h1 h2 => hT.gap900 hs ho.1 hn h1 h2, ⟨_, fun i hi => (hun i hi).2, hr⟩, ?_⟩
  rintro i _ hi rfl
  obtain ⟨a1, a2, a3, a4, a5⟩ := hax.on hs2 hs3 hs4 hi
  refine ⟨hc.dbl i hi, (hmono o _ ho.1 a1 (by omega)).trans a3, a4.trans (hmono _ _ (by omega) (by omega) (by omega)), ⟨o, by
    unfold Fl.hint
    rw [hu, hord]
    rfl⟩, _, s i, fun i J hi => (hun i hi).1 J, fun i hi => (hun i hi).2, hr, hs1 i hi, fun J => rfl⟩

/-- A uniform dimension. -/
theorem axisNear_uniform {a b B H dx r : ℚ} {T : List ℚ} (h : UniRat f d o n a b B H dx T) (hord : f.spline.order = o) (hp : f.periodicity d = false)
    (hu : f.uniform d = true) (hr : B ≤ r * H) (hsol : (Fl.assemble w c f l d n vals >>= Fl.ofMat c) = .ok sol) :
    AxisNear f d o n sol (fun i x => IsDouble x ∧ a ≤ x ∧ x ≤ b ∧ |x - (a + i * H)| ≤ 8 * B / 2 ^ 53) (7 * o + 64 * (o * r)) T := by
  have hn := h.hn
  have hH := h.uin.pos
  have hr0 : 0 ≤ r := by
    have := h.uin.B0
    by_contra hc
    nlinarith
  have hor : 0 ≤ (o : ℚ) * r := by positivity
  obtain ⟨A, hA0, hA1, hA2⟩ := h.rows hord hp hu hr
  have hrows := rowsNear_of h.ho.1 hn hA0 (hA1 w c l vals) hsol hA2
  refine ⟨h.knots, h.len, h.kmono, fun v hv => ⟨h.dbl v hv, (h.knot_le hv).trans h.uin.hB⟩, fun i h1 h2 => ?_,
    ⟨exRow o n a H, fun i hi => (h.exRow_unity hi).2, hrows.mono (by linarith)⟩, ?_⟩
  · have h4 := h.gap h1 h2
    have h5 := h.uin.least
    have h6 : (1 : ℚ) / 2 ^ 900 ≤ 7 / 8 * (1 / 2 ^ 800) := by decide +kernel
    generalize (1 : ℚ) / 2 ^ 900 = z at *
    generalize (1 : ℚ) / 2 ^ 800 = z' at *
    linarith
  · rintro i x hi ⟨x1, x2, x3, x4⟩
    have e : gridPt a H (2 * i) = a + i * H := by unfold gridPt; push_cast; ring
    obtain ⟨s, s1, s2, s3, s4, s5, s6⟩ := h.query hr hi ⟨x2, x3⟩ (by rw [e]; exact x4)
    obtain ⟨p0, p1⟩ := piece_unity h.kmono h.len s2 s3 s4 s5 (by have := h.gap s2 s3; linarith)
    refine ⟨x1, by rw [h.left o le_rfl]; exact x2, by rw [h.right n le_rfl (by omega)]; exact x3, h.hint hord hp hu x1 ⟨x2, x3⟩,
      Function.update (exRow o n a H) i fun J => piece (knotFn T) s o J x, s, fun k J hk => ?_, fun k hk => ?_, ?_, s1, fun J => by rw [Function.update_self]⟩
    · by_cases hki : k = i
      · subst hki; rw [Function.update_self]; exact p0 J
      · rw [Function.update_of_ne hki]; exact (h.exRow_unity hk).1 J
    · by_cases hki : k = i
      · subst hki; rw [Function.update_self]; exact p1
      · rw [Function.update_of_ne hki]; exact (h.exRow_unity hk).2
    · refine (hrows.update (δ := 32 * (o * r)) (by linarith) (le_of_le_of_eq s6 (by ring))).mono (le_of_eq (by ring))

end

/-- Sizes of good axes. -/
theorem shape_of {D : ℕ} {c : Cfg} {o : ℕ} (ho : 1 ≤ o ∧ o ≤ 50) {dims : Fin D → ℕ} {x : Fin D → XRange F64} {P : Fin D → ℕ → ℚ → Prop}
    {r : Fin D → ℚ} (hn : ∀ d, o + 1 ≤ dims d) (hx : ∀ d, GoodAxis (dims d) (x d) (P d) (r d)) : Fl.ShapeAxes c o (fun _ => false) dims x := fun d => by
  have hnd := hn d
  refine ⟨fun h => by simp at h, fun _ => ?_, fun l' e => ?_⟩
  · unfold pointNum; simp; omega
  · have hxd := hx d
    rw [e] at hxd
    generalize P d = p at hxd
    generalize r d = q at hxd
    cases hxd with
    | coords h1 h2 h3 h4 =>
      have := h1.len
      unfold pointNum; simp; omega

/-- The constructor of the template succeeds on good axes, with and without assertions. -/
theorem template_ok {D : ℕ} {w : Bool} {c : Cfg} {o : ℕ} (ho : 1 ≤ o ∧ o ≤ 50) {dims : Fin D → ℕ} {x : Fin D → XRange F64} {P : Fin D → ℕ → ℚ → Prop}
    {r : Fin D → ℚ} (hn : ∀ d, o + 1 ≤ dims d) (hx : ∀ d, GoodAxis (dims d) (x d) (P d) (r d)) :
    Ok (Fl.constructT (V := F64) w c o (fun _ => false) dims x) (Fl.TmplOk c o (fun _ => false) dims x) := by
  refine Fl.constructT_safe' (fun h => h.elim id id) (fun d l e _ => .inr fun i a b ha hb => ?_) (shape_of ho hn hx) (.inr fun d l' t' _ e ht' => ?_)
  · have hxd := hx d
    rw [e] at hxd
    generalize P d = p at hxd
    generalize r d = q at hxd
    cases hxd with
    | @coords _ X B h h1 h2 h3 h4 =>
      have hi : i + 1 < dims d := by
        have := (List.getElem?_eq_some_iff.1 hb).1
        rw [h1.len] at this
        exact this
      rw [h1.get i (by omega)] at ha
      rw [h1.get (i + 1) hi] at hb
      cases ha
      cases hb
      have h5 := h3.step i hi
      have h6 := h3.pos
      exact decide_eq_true (by linarith)
  · have hxd := hx d
    rw [e] at hxd
    generalize P d = p at hxd
    generalize r d = q at hxd
    cases hxd with
    | coords h1 h2 h3 h4 =>
      obtain ⟨T, rfl, -, t3, -⟩ := knots_of_coords h1 h3 ho (hn d) h4 h2 ht'
      exact goodKnots_of h1 h3 ho.1 (hn d) t3

/-- The template of an interpolation function over good axes. -/
theorem axisNear_of {D : ℕ} {w : Bool} {c : Cfg} {o : ℕ} (ho : 1 ≤ o ∧ o ≤ 50) {dims : Fin D → ℕ} {x : Fin D → XRange F64} {P : Fin D → ℕ → ℚ → Prop}
    {r : Fin D → ℚ} (hn : ∀ d, o + 1 ≤ dims d) (hx : ∀ d, GoodAxis (dims d) (x d) (P d) (r d)) {t : Template D F64 F64}
    (ht : Fl.constructT w c o (fun _ => false) dims x = .ok t) :
    t.dims = dims ∧ t.base.spline.order = o ∧ (∀ d, t.base.spline.periodicity d = false) ∧ (∀ d, Fl.SolverOk (t.dims d) (t.solvers d)) ∧
      ∀ d, ∃ T, AxisNear t.base d o (dims d) (t.solvers d) (P d) (7 * o + 64 * (o * r d)) T := by
  have hsh := shape_of (c := c) ho hn hx
  have htok := (template_ok (w := w) (c := c) ho hn hx).get ht
  obtain ⟨hbase, htd, hsol⟩ := Fl.constructT_solvers hsh ht
  have htd : t.dims = dims := by
    rw [htd]; funext d; unfold unk pointNum; simp
  have hper : ∀ d, t.base.spline.periodicity d = false := fun d => by rw [hbase.peri]
  refine ⟨htd, hbase.order, hper, fun d => by rw [htok.dims_eq]; exact htok.solvers d, fun d => ?_⟩
  obtain ⟨vals, hv⟩ := hsol d
  rw [htd] at hv
  have ax := hbase.ax d
  have hxd := hx d
  generalize hxe : x d = y at hxd ax
  generalize P d = p at hxd ⊢
  generalize r d = q at hxd ⊢
  cases hxd with
  | coords h1 h2 h3 h4 =>
    obtain ⟨e1, e2, e3⟩ := ax.coords _ rfl
    obtain ⟨T, t1, t2, t3, t4⟩ := knots_of_coords h1 h3 ho (hn d) h4 h2 e2
    rw [e1] at hv
    rw [mul_zero, mul_zero, add_zero]
    exact ⟨T, axisNear_coords ho (hn d) hbase.order (hper d) ax.uni h1 h2 h3 t1 t2 t3 t4 hv⟩
  | uniform h1 h2 =>
    have hU := Fl.constructT_uniform ht hxe
    rw [show pointNum c false (dims d) = dims d by unfold pointNum; simp] at hU
    obtain ⟨dx, T, hT⟩ := uniRat_of ho (hn d) h1 hU
    exact ⟨T, axisNear_uniform hT hbase.order (hper d) ax.uni h2 hv⟩

/-- The exact rows of a uniform dimension. -/
theorem uniRows_of {D : ℕ} {w : Bool} {c : Cfg} {o : ℕ} (ho : 1 ≤ o ∧ o ≤ 50) {dims : Fin D → ℕ} {x : Fin D → XRange F64} {P : Fin D → ℕ → ℚ → Prop}
    {r : Fin D → ℚ} (hn : ∀ d, o + 1 ≤ dims d) (hx : ∀ d, GoodAxis (dims d) (x d) (P d) (r d)) {t : Template D F64 F64}
    (ht : Fl.constructT w c o (fun _ => false) dims x = .ok t) {d : Fin D} (hu : (x d).isUniform = true) :
    ∃ a H, 0 < H ∧ (∀ i, i < dims d → (∀ J, 0 ≤ exRow o (dims d) a H i J) ∧ ∑ J ∈ range (dims d), exRow o (dims d) a H i J = 1) ∧
      RowsNear (t.solvers d) o (dims d) (exRow o (dims d) a H) (7 * o + 64 * (o * r d)) := by
  obtain ⟨hbase, htd, hsol⟩ := Fl.constructT_solvers (shape_of (c := c) ho hn hx) ht
  have htd : t.dims = dims := by
    rw [htd]; funext d; unfold unk pointNum; simp
  obtain ⟨vals, hv⟩ := hsol d
  rw [htd] at hv
  have ax := hbase.ax d
  have hr0 := (hx d).small.2
  have hxd := hx d
  generalize hxe : x d = y at hxd ax hu
  generalize P d = p at hxd
  generalize r d = q at hxd hr0 ⊢
  cases hxd with
  | coords => cases hu
  | @uniform a b B H _ h1 h2 =>
    have hU := Fl.constructT_uniform ht hxe
    rw [show pointNum c false (dims d) = dims d by unfold pointNum; simp] at hU
    obtain ⟨dx, T, hT⟩ := uniRat_of ho (hn d) h1 hU
    obtain ⟨A, hA0, hA1, hA2⟩ := hT.rows hbase.order (show t.base.spline.periodicity d = false by rw [hbase.peri]) ax.uni h2
    refine ⟨a, H, h1.pos, fun i hi => hT.exRow_unity hi, (rowsNear_of ho.1 (hn d) hA0 (hA1 w c _ vals) hv hA2).mono ?_⟩
    have : 0 ≤ (o : ℚ) * q := by positivity
    linarith

/-- Knots and control points of an interpolation function over good axes. -/
theorem axes_spline {D : ℕ} {c : Cfg} {o : ℕ} (ho : 1 ≤ o ∧ o ≤ 50) {fm : Mesh (D + 1) F64} (hfm : fm.WF) (hn : ∀ d, o + 1 ≤ fm.dims d)
    {t : Template (D + 1) F64 F64} (htd : t.dims = fm.dims) (hord : t.base.spline.order = o) (hper : ∀ d, t.base.spline.periodicity d = false)
    (hok : ∀ d, Fl.SolverOk (t.dims d) (t.solvers d)) {P : Fin (D + 1) → ℕ → ℚ → Prop} {κ : Fin (D + 1) → ℚ} {T : Fin (D + 1) → List ℚ}
    (hT : ∀ d, AxisNear t.base d o (fm.dims d) (t.solvers d) (P d) (κ d) (T d)) {W : Mesh (D + 1) F64} (hW : Fl.solveForControlPoints c t fm = .ok W)
    {C : ℚ} (hC : ∀ v ∈ W.storage, ∃ q, v = .fin q ∧ IsDouble q ∧ |q| ≤ C) (hC1 : 0 ≤ C ∧ C ≤ 2 ^ 1000)
    (hk1 : (D + 1) * (5 * o + 1) + 1 + (o + 1) ^ (D + 1) ≤ 2 ^ 50) :
    DoubleSpline (t.base.spline.loadCtrlPts W) C := by
  have hWok := (Fl.solveForControlPoints_safe (E := fun _ => True) (c := c) (t := t) (fm := fm) (fun _ => trivial) (fun d => by rw [htd]; have := hn d; omega)
    hok (fun d => by rw [htd, show t.base.periodicity d = false from hper d]; simp) hfm).get hW
  set g := t.base.spline.loadCtrlPts W with hg
  have gord : g.order = o := hord
  have gdim : g.ctrl.dims = fm.dims := hWok.2.trans htd
  have hrat : ∀ d, g.rat.knots d = T d := fun d => by
    show (t.base.spline.knots d).map F64.toRat = T d
    rw [(hT d).knots, List.map_map]
    exact List.map_id _
  have hkn : ∀ d, g.rat.kn d = knotFn (T d) := fun d => by unfold BSpline.kn; rw [hrat]
  have hrord : g.rat.order = o := gord
  have hlast : ∀ d, g.rat.last d = fm.dims d - 1 := fun d => by
    have := hn d
    unfold BSpline.last
    rw [hrat, (hT d).len, hrord]; omega
  have h900 : (0 : ℚ) < 1 / 2 ^ 900 := one_div_pos.2 (pow_pos two_pos _)
  refine ⟨⟨?_, fun d => ?_, fun d => ?_, fun d => ?_, fun d => ?_, fun d _ => ?_, fun d hp => ?_⟩, fun d v hv => ?_, fun d i h1 h2 h3 => ?_, hC, hC1,
    by rw [gord]; exact ho.2, by rw [gord]; exact hk1⟩
  · show (W.storage.map F64.toRat).length = ∏ d, W.dims d
    rw [List.length_map]
    exact hWok.1
  · rw [hrat, hkn]; exact (hT d).mono
  · have := hn d
    rw [hrat, (hT d).len, hrord]; omega
  · have := (hT d).gap o le_rfl (by have := hn d; omega)
    rw [hkn, hrord]
    generalize (1 : ℚ) / 2 ^ 900 = z at *
    linarith
  · have h1 := hn d
    have := (hT d).gap (fm.dims d - 1) (by omega) (by omega)
    rw [hkn, hlast]
    generalize (1 : ℚ) / 2 ^ 900 = z at *
    linarith
  · rw [hrat, (hT d).len, hrord]
    show _ = g.ctrl.dims d + _ + _
    rw [gdim]
  · exact absurd ((hper d).symm.trans hp) (by simp)
  · have hv : v ∈ t.base.spline.knots d := hv
    rw [(hT d).knots] at hv
    obtain ⟨q, hq, rfl⟩ := List.mem_map.1 hv
    exact ⟨q, rfl, (hT d).dbl q hq⟩
  · rw [gord] at h1
    rw [hlast] at h2
    have h0 := hn d
    have h4 := (hT d).gap i h1 (by omega)
    rw [hkn]
    generalize (1 : ℚ) / 2 ^ 900 = z at *
    linarith

end Intp
