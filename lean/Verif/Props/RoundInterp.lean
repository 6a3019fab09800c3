import Verif.Proofs.RoundKnots
import Verif.Proofs.InterpCore
import Verif.Props.Float

/-!
# C79: the interpolation function passes through the data, in `double`

Coordinates are given explicitly and no dimension is periodic.  The bound is proportional to the unit roundoff, to the largest control point, and to
the growth `G` of the factors found by elimination without pivoting.
-/

namespace Intp

open Finset BSpline

/-- The axes of a constructed interpolation function. -/
theorem axisIn_of {D : ℕ} {w : Bool} {c : Cfg} {o : ℕ} (ho : 1 ≤ o) {fm : Mesh (D + 1) F64} {l : Fin (D + 1) → List F64}
    {X : Fin (D + 1) → ℕ → ℚ} (hdim : ∀ d, o + 1 ≤ fm.dims d ∧ fm.dims d ≤ 2 ^ 49 ∧ (l d).length = fm.dims d)
    (hX : ∀ d i, i < fm.dims d → (l d)[i]? = some (.fin (X d i)) ∧ IsDouble (X d i))
    {t : Template (D + 1) F64 F64} (ht : Fl.constructT w c o (fun _ => false) fm.dims (fun d => .coords (l d)) = .ok t)
    {g : InterpFn (D + 1) F64 F64} (hg : Fl.construct w c o (fun _ => false) fm (fun d => .coords (l d)) = .ok g)
    {C : ℚ} (hb : DoubleSpline g.spline C) (hnode : ∀ d i, 0 < i → i + 1 < fm.dims d → NodeSeg (g.spline.rat.kn d) o (fm.dims d) i (X d i)) :
    ∀ d, AxisIn t.base d o (fm.dims d) (l d) ((t.base.spline.knots d).map F64.toRat) (X d) := by
  have hsh : Fl.ShapeAxes c o (fun _ => false) fm.dims (fun d => XRange.coords (l d)) := fun d => by
    have := hdim d
    refine ⟨fun h => by simp at h, fun _ => ?_, fun l' e => ?_⟩
    · unfold pointNum; simp; omega
    · cases e; unfold pointNum; simp; omega
  obtain ⟨hbase, htd, hsol⟩ := Fl.constructT_solvers hsh ht
  have htd : t.dims = fm.dims := by
    rw [htd]; funext d; unfold unk pointNum; simp
  have hord : t.base.spline.order = o := hbase.order
  have hper : t.base.periodicity = fun _ => false := by funext d; show t.base.spline.periodicity d = false; rw [hbase.peri]
  -- the construction
  unfold Fl.construct at hg
  rw [ht, ok_bind] at hg
  obtain ⟨W, hW, hg⟩ : ∃ W, Fl.solveForControlPoints c t fm = .ok W ∧
      (.ok { t.base with spline := t.base.spline.loadCtrlPts W } : M (InterpFn (D + 1) F64 F64)) = .ok g := by
    cases h : Fl.solveForControlPoints c t fm with
    | error e => rw [h] at hg; cases hg
    | ok W => rw [h, ok_bind] at hg; exact ⟨W, rfl, hg⟩
  have hg := (Except.ok.inj hg).symm
  have gsp : g.spline = t.base.spline.loadCtrlPts W := by rw [hg]
  have guni : g.uniform = t.base.uniform := by rw [hg]
  have gord : g.spline.order = o := by rw [gsp]; exact hord
  have gper : ∀ d, g.spline.periodicity d = false := fun d => by rw [gsp]; exact congrFun hper d
  have gkn : ∀ d, g.spline.rat.kn d = knotFn ((t.base.spline.knots d).map F64.toRat) := fun d => by rw [gsp]; rfl
  have gctrl : g.spline.ctrl = W := by rw [gsp]; rfl
  have ho50 : o ≤ 50 := gord ▸ hb.order
  intro d
  have hd := hdim d
  have ax := hbase.ax d
  have hlen : (t.base.spline.knots d).length = fm.dims d + o + 1 := by
    rw [ax.len]; unfold Fl.knotLen pointNum; simp; omega
  obtain ⟨-, hcoord, hleft⟩ := ax.coords (l d) rfl
  have hright := Fl.coordKnots_right ho (by omega) hcoord
  have hmap : t.base.spline.knots d = ((t.base.spline.knots d).map F64.toRat).map F64.fin := by
    rw [List.map_map]
    refine (List.map_id _).symm.trans (List.map_congr_left fun v hv => ?_)
    obtain ⟨q, rfl, -⟩ := hb.knots d v (by rw [gsp]; exact hv)
    rfl
  have hlast : g.spline.rat.last d = fm.dims d - 1 := by
    unfold BSpline.last
    rw [show g.spline.rat.knots d = (t.base.spline.knots d).map F64.toRat by rw [gsp]; rfl, List.length_map, hlen,
      show g.spline.rat.order = o from gord]
    omega
  have hval : ∀ u i, i < fm.dims d → (t.base.spline.knots d)[u]? = (l d)[i]? → knotFn ((t.base.spline.knots d).map F64.toRat) u = X d i := by
    intro u i hi e
    unfold knotFn
    rw [List.getD_eq_getElem?_getD, List.getElem?_map, e, (hX d i hi).1]
    rfl
  have hwf := hb.wf
  refine ⟨hord, ⟨ho, ho50⟩, congrFun hper d, ax.uni, hmap, ?_, by rw [List.length_map, hlen], hd.1, ?_, ?_, ?_, ?_, hd.2.2, fun i hi => (hX d i hi).1,
    fun i hi => (hX d i hi).2, ?_, ?_, ?_⟩
  · intro v hv
    obtain ⟨u, hu, rfl⟩ := List.mem_map.1 hv
    obtain ⟨q, rfl, h⟩ := hb.knots d u (by rw [gsp]; exact hu)
    exact h
  · have := hwf.kmono d
    rw [gsp] at this
    exact this
  · have := hwf.first d
    rw [gkn, show g.spline.rat.order = o from gord] at this
    exact this
  · have := hwf.lastSeg d
    rw [gkn, hlast, show fm.dims d - 1 + 1 = fm.dims d by omega] at this
    exact this
  · intro i h1 h2 h3
    have := hb.gaps d i (by rw [gord]; exact h1) (by rw [hlast]; omega)
    rw [gkn] at this
    exact this h3
  · intro u hu
    exact hval u 0 (by omega) (hleft rfl u hu)
  · intro u h1 h2
    refine hval u (fm.dims d - 1) (by omega) ?_
    rw [hright u (by omega) (by omega), hd.2.2]
  · intro i h1 h2
    have := hnode d i h1 h2
    rw [gkn] at this
    exact this

/-- **C79.** Value at a data point.  `X d i` are the coordinates, `C` bounds the control points, `G` the growth of the factors of every solver. -/
theorem double_interpolates {D : ℕ} (w : Bool) (c : Cfg) {o : ℕ} (ho : 1 ≤ o) {fm : Mesh (D + 1) F64} (hfm : fm.WF) {l : Fin (D + 1) → List F64}
    {X : Fin (D + 1) → ℕ → ℚ} (hdim : ∀ d, o + 1 ≤ fm.dims d ∧ fm.dims d ≤ 2 ^ 49 ∧ (l d).length = fm.dims d)
    (hX : ∀ d i, i < fm.dims d → (l d)[i]? = some (.fin (X d i)) ∧ IsDouble (X d i))
    {t : Template (D + 1) F64 F64} (ht : Fl.constructT w c o (fun _ => false) fm.dims (fun d => .coords (l d)) = .ok t)
    {g : InterpFn (D + 1) F64 F64} (hg : Fl.construct w c o (fun _ => false) fm (fun d => .coords (l d)) = .ok g)
    {C : ℚ} (hb : DoubleSpline g.spline C) (hnode : ∀ d i, 0 < i → i + 1 < fm.dims d → NodeSeg (g.spline.rat.kn d) o (fm.dims d) i (X d i))
    {G : ℚ} (hG : ∀ d, FactorsIn c (t.solvers d) (fm.dims d) (o - 1) G) {E : ℚ} (hE : E = (D + 1) * o * (4 * G + 8)) (hE1 : E ≤ 2 ^ 50)
    {k : ℕ} (hk : k = (D + 1) * (5 * o + 1) + 1 + (o + 1) ^ (D + 1)) {I : Fin (D + 1) → ℕ} (hI : InRange fm.dims I) :
    ∃ v q, Fl.call g (fun d => .fin (X d (I d))) = .ok (.fin v) ∧ fm.get I = .ok (.fin q) ∧ |v - q| ≤ (3 * k + 2 * E) / 2 ^ 53 * C + 1 / 2 ^ 100 := by
  have hsh : Fl.ShapeAxes c o (fun _ => false) fm.dims (fun d => XRange.coords (l d)) := fun d => by
    have := hdim d
    refine ⟨fun h => by simp at h, fun _ => ?_, fun l' e => ?_⟩
    · unfold pointNum; simp; omega
    · cases e; unfold pointNum; simp; omega
  obtain ⟨hbase, htd, hsol⟩ := Fl.constructT_solvers hsh ht
  have htd : t.dims = fm.dims := by
    rw [htd]; funext d; unfold unk pointNum; simp
  have hord : t.base.spline.order = o := hbase.order
  have hper : t.base.periodicity = fun _ => false := by funext d; show t.base.spline.periodicity d = false; rw [hbase.peri]
  -- the construction
  have hg0 := hg
  unfold Fl.construct at hg
  rw [ht, ok_bind] at hg
  obtain ⟨W, hW, hg⟩ : ∃ W, Fl.solveForControlPoints c t fm = .ok W ∧
      (.ok { t.base with spline := t.base.spline.loadCtrlPts W } : M (InterpFn (D + 1) F64 F64)) = .ok g := by
    cases h : Fl.solveForControlPoints c t fm with
    | error e => rw [h] at hg; cases hg
    | ok W => rw [h, ok_bind] at hg; exact ⟨W, rfl, hg⟩
  have hg := (Except.ok.inj hg).symm
  have gsp : g.spline = t.base.spline.loadCtrlPts W := by rw [hg]
  have guni : g.uniform = t.base.uniform := by rw [hg]
  have gord : g.spline.order = o := by rw [gsp]; exact hord
  have gper : ∀ d, g.spline.periodicity d = false := fun d => by rw [gsp]; exact congrFun hper d
  have gkn : ∀ d, g.spline.rat.kn d = knotFn ((t.base.spline.knots d).map F64.toRat) := fun d => by rw [gsp]; rfl
  have gctrl : g.spline.ctrl = W := by rw [gsp]; rfl
  have ho50 : o ≤ 50 := gord ▸ hb.order
  have hax := axisIn_of ho hdim hX ht hg0 hb hnode
  choose s hs1 hs2 hs3 hs using fun d => (hax d).seg
  have hpos : ∀ d, 0 < t.dims d := fun d => by have := hdim d; rw [htd]; omega
  have hG0 : 0 ≤ G := by
    obtain ⟨lu, Cf, -, -, h⟩ := hG 0
    refine le_trans ?_ (h ⟨0, by have := hdim 0; omega⟩)
    positivity
  have hshift : ∀ a, InRange fm.dims a → Template.shiftIx t.base.spline.order t.base.periodicity fm.dims a = a := by
    intro a ha
    funext d
    unfold Template.shiftIx rowShift
    rw [hper]
    simp only [Bool.false_eq_true, if_false, add_zero]
    exact Nat.mod_eq_of_lt (ha d)
  have hlast : ∀ d, g.spline.rat.last d = fm.dims d - 1 := fun d => by
    unfold BSpline.last
    rw [show g.spline.rat.knots d = (t.base.spline.knots d).map F64.toRat by rw [gsp]; rfl, (hax d).len, show g.spline.rat.order = o from gord]
    omega
  have hDε : ((D : ℚ) + 1) * ((o * (4 * G + 1) + 7 * o) / 2 ^ 53) = E / 2 ^ 53 := by rw [hE]; ring
  obtain ⟨v, q, h1, h2, h3⟩ := interp_core hfm hpos (fun d => by rw [htd, hper]; simp) hW hg hb
    (Wm := fun d i J => piece (knotFn ((t.base.spline.knots d).map F64.toRat)) (s d i) o J (X d i))
    (fun d i J hi _ => by
      rw [htd] at hi
      obtain ⟨a1, a2, a3, a4, a5⟩ := (hax d).on (hs2 d) (hs3 d) (hs d) hi
      exact ((hax d).unity a1 a2 a3 a4 a5).1 J)
    (fun d i hi => by
      rw [htd] at hi ⊢
      obtain ⟨a1, a2, a3, a4, a5⟩ := (hax d).on (hs2 d) (hs3 d) (hs d) hi
      exact ((hax d).unity a1 a2 a3 a4 a5).2)
    (ε := (o * (4 * G + 1) + 7 * o) / 2 ^ 53) (by positivity)
    (by rw [hDε, div_le_iff₀ (by positivity)]; exact hE1.trans (by norm_num))
    (fun d => by
      obtain ⟨vals, hv⟩ := hsol d
      rw [htd, (hbase.ax d).coords (l d) rfl |>.1] at hv
      rw [htd]
      exact ((hax d).elims (hs1 d) (hs2 d) (hs3 d) (hs d) hv).solves ⟨ho, ho50⟩ (by have := hdim d; omega) (hdim d).2.1 (hG d))
    (k := k) (by rw [hk, hord]) (I := I) (by rw [htd]; exact hI) (x := fun d => .fin (X d (I d))) (w := fun d => X d (I d))
    ⟨fun d => by rw [gper d]; rfl, fun d => (hX d _ (hI d)).2, fun d => by
      obtain ⟨a1, a2, a3, a4, a5⟩ := (hax d).on (hs2 d) (hs3 d) (hs d) (hI d)
      have hlen := (hax d).len
      have hd := hdim d
      rw [gkn, gord, hlast, show fm.dims d - 1 + 1 = fm.dims d by omega]
      exact ⟨((hax d).mono o _ ho a1 (by omega)).trans a3, a4.trans ((hax d).mono _ _ (by omega) (by omega) (by omega))⟩,
      fun d h => by rw [gper d] at h; cases h⟩
    (fun d J hJ => by
      have e := wAt_aper hb.wf (show g.spline.rat.periodicity d = false from gper d) (x := X d (I d)) (s := s d (I d))
        (by rw [gkn, show g.spline.rat.order = o from gord, hlast]; exact hs1 d (I d) (hI d)) J
      rw [e, gkn, show g.spline.rat.order = o from gord]
      rw [htd, hshift I hI])
    (fun d => ⟨o, by
      unfold Fl.hint
      rw [guni, (hax d).uni, gord]
      rfl⟩)
  refine ⟨v, q, h1, h2, h3.trans (le_of_eq ?_)⟩
  rw [hDε]; ring

/-- Factors without negative entries, in every dimension. -/
theorem factorsIn_of_pos {D : ℕ} {w : Bool} {c : Cfg} {o : ℕ} (ho : 1 ≤ o) {fm : Mesh (D + 1) F64} {l : Fin (D + 1) → List F64}
    {X : Fin (D + 1) → ℕ → ℚ} (hdim : ∀ d, o + 1 ≤ fm.dims d ∧ fm.dims d ≤ 2 ^ 49 ∧ (l d).length = fm.dims d)
    (hX : ∀ d i, i < fm.dims d → (l d)[i]? = some (.fin (X d i)) ∧ IsDouble (X d i))
    {t : Template (D + 1) F64 F64} (ht : Fl.constructT w c o (fun _ => false) fm.dims (fun d => .coords (l d)) = .ok t)
    {g : InterpFn (D + 1) F64 F64} (hg : Fl.construct w c o (fun _ => false) fm (fun d => .coords (l d)) = .ok g)
    {C : ℚ} (hb : DoubleSpline g.spline C) (hnode : ∀ d i, 0 < i → i + 1 < fm.dims d → NodeSeg (g.spline.rat.kn d) o (fm.dims d) i (X d i))
    (hG : ∀ d, FactorsPos c (t.solvers d) (fm.dims d) (o - 1)) : ∀ d, FactorsIn c (t.solvers d) (fm.dims d) (o - 1) 2 := by
  intro d
  have hax := axisIn_of ho hdim hX ht hg hb hnode d
  obtain ⟨s, hs1, hs2, hs3, hs⟩ := hax.seg
  have hsh : Fl.ShapeAxes c o (fun _ => false) fm.dims (fun d => XRange.coords (l d)) := fun d => by
    have := hdim d
    refine ⟨fun h => by simp at h, fun _ => ?_, fun l' e => ?_⟩
    · unfold pointNum; simp; omega
    · cases e; unfold pointNum; simp; omega
  obtain ⟨hbase, htd, hsol⟩ := Fl.constructT_solvers hsh ht
  have htd : t.dims = fm.dims := by
    rw [htd]; funext d; unfold unk pointNum; simp
  obtain ⟨vals, hv⟩ := hsol d
  rw [htd, (hbase.ax d).coords (l d) rfl |>.1] at hv
  have hd := hdim d
  have ho50 := hax.ho
  refine (hax.elims hs1 hs2 hs3 hs hv).growth ho50 (by omega) hd.2.1 (fun i hi => ?_) ?_ (hG d)
  · obtain ⟨a1, a2, a3, a4, a5⟩ := hax.on hs2 hs3 hs hi
    exact (hax.unity a1 a2 a3 a4 a5).2
  · have : (o : ℚ) ≤ 50 := by exact_mod_cast ho50.2
    linarith

/-! ## C80: knots of explicit coordinates -/

/-- **C80.** The knots of a non-periodic dimension are computed without error at both ends; each of the others is the average of `o` successive
coordinates up to `4 n B / 2^53 + 2^-1074`, where `B` bounds the `n` coordinates. -/
theorem double_knots {o n : ℕ} {l : List F64} {X : ℕ → ℚ} {B : ℚ} (c : Cfg) (hc : CoordsIn l n X B) (ho : 1 ≤ o ∧ o ≤ 50) (hn : o + 1 ≤ n) (hn49 : n ≤ 2 ^ 49)
    (hB : B ≤ 2 ^ 1000) (hX : ∀ i, i + 1 < n → X i < X (i + 1)) :
    ∃ t, Fl.coordKnots c o n false l = .ok (t, l) ∧ t.length = n + o + 1 ∧ (∀ u, u ≤ o → t[u]? = some (.fin (X 0))) ∧
      (∀ u, n ≤ u → u ≤ n + o → t[u]? = some (.fin (X (n - 1)))) ∧
      ∀ u, o < u → u < n → ∃ q, t[u]? = some (.fin q) ∧ IsDouble q ∧ |q - (∑ k ∈ Ico (u - o) u, X k) / o| ≤ 4 * n * B / 2 ^ 53 + 1 / 2 ^ 1074 := by
  obtain ⟨r, hr, h1, h2⟩ := (hc.knots ho hn hn49 hB).exists
  have hlen := hc.len
  refine ⟨r.1, ?_, h2⟩
  unfold Fl.coordKnots Fl.coordKnotsRaw
  rw [assertM_ok (by unfold pointNum; simp [hlen]), ok_bind]
  simp only [Bool.false_eq_true, if_false]
  rw [hr, ok_bind, h1]
  have : Fl.checkMonotonic c l = .ok () := by
    unfold Fl.checkMonotonic
    rw [subM_ok (by omega), ok_bind]
    refine Ok.eq (Fl.Spec.loopC rfl fun i _ _ hi _ => ?_)
    rw [rd_eq_ok_iff.2 (hc.get i (by omega)), ok_bind, rd_eq_ok_iff.2 (hc.get (i + 1) (by omega)), ok_bind, assertM_ok]
    · exact Spec.ok rfl
    · rw [decide_eq_true_eq]
      exact decide_eq_true (hX i (by omega))
  rw [this, ok_bind, ← h1]
  rfl

/-- The knots, from the result of `create_knot_vector_`. -/
theorem knots_of_coords {c : Cfg} {o n N : ℕ} {l t : List F64} {X : ℕ → ℚ} {B h : ℚ} (hc : CoordsIn l n X B) (hs : Separated n X B h) (ho : 1 ≤ o ∧ o ≤ 50)
    (hn : o + 1 ≤ n) (hn49 : n ≤ 2 ^ 49) (hB : B ≤ 2 ^ 1000) (ht : Fl.coordKnots c o N false l = .ok (t, l)) :
    ∃ T : List ℚ, t = T.map F64.fin ∧ T.length = n + o + 1 ∧ NearKnots o n X h (knotFn T) ∧ ∀ v ∈ T, IsDouble v ∧ |v| ≤ B := by
  obtain ⟨r, hr, -, h2⟩ := (hc.nearKnots hs ho hn hn49 hB).exists
  unfold Fl.coordKnots Fl.coordKnotsRaw at ht
  simp only [Bool.false_eq_true, if_false, hr] at ht
  cases ha : assertM c (decide (l.length = pointNum c false N)) with
  | error e => rw [ha] at ht; cases ht
  | ok _ =>
    rw [ha, ok_bind, ok_bind] at ht
    cases hm : Fl.checkMonotonic c r.2 with
    | error e => rw [hm] at ht; cases ht
    | ok _ =>
      rw [hm, ok_bind] at ht
      cases ht
      exact h2

theorem goodKnots_of {o n : ℕ} {l : List F64} {X : ℕ → ℚ} {B h : ℚ} {T : List ℚ} (hc : CoordsIn l n X B) (hs : Separated n X B h) (ho : 1 ≤ o)
    (hn : o + 1 ≤ n) (hT : NearKnots o n X h (knotFn T)) : Fl.GoodKnots o l (T.map F64.fin) := by
  have hlen := hc.len
  have hval : ∀ {u v}, (T.map F64.fin)[u]? = some v → v = F64.fin (knotFn T u) := fun {u v} e => by
    rw [List.getElem?_map] at e
    unfold knotFn
    rw [List.getD_eq_getElem?_getD]
    cases h : T[u]? with
    | none => rw [h] at e; cases e
    | some q => rw [h] at e; cases e; rfl
  intro i h0 h1 xi hxi
  rw [hc.get i (by omega)] at hxi
  cases hxi
  obtain ⟨k, k1, k2, k3, k4, k5, k6, -⟩ := hT.node hs ho hn h0 (by omega)
  refine ⟨fun u v hu1 hu2 hv => ?_, fun ho2 v hv => ?_⟩
  · rw [hval hv]
    have := hT.mono hs ho hn (i := u) (j := k) (by omega) (by omega)
    exact fun hlt => absurd (of_decide_eq_true hlt : X i < knotFn T u) (by linarith)
  · rw [hval hv]
    have := hT.mono hs ho hn (i := k + 1) (j := min l.length (i + o)) (by omega) (by omega)
    exact decide_eq_true (show X i < _ by linarith)

/-- **C70**, which coordinates stay inside the band: those whose distances are large compared to their rounding.  `n` coordinates of size at most `B`
and at least `16 n B / 2^53` apart (and `2^-800`) lead to no index outside the band, for every order up to 50.  Missing: coordinates of very different
size, for which the claim is false (`double_coords_outside_band`). -/
theorem double_construct_separated_partial {D : ℕ} (c : Cfg) {o : ℕ} (ho : o ≤ 50) (per : Fin (D + 1) → Bool) (fm : Mesh (D + 1) F64)
    (x : Fin (D + 1) → XRange F64) (hs : ∀ d, SizesOk c o (per d) (fm.dims d) (x d)) (hf : fm.storage.length = ∏ d, fm.dims d)
    (hx : ∀ d, per d = false → (∃ a b, x d = .uniform a b) ∨
      ∃ l X B h, x d = .coords l ∧ CoordsIn l (fm.dims d) X B ∧ Separated (fm.dims d) X B h ∧ fm.dims d ≤ 2 ^ 49 ∧ B ≤ 2 ^ 1000) :
    match Fl.construct false c o per fm x with
    | .ok f => Fl.construct true c o per fm x = .ok f
    | .error e => e = .assertFail ∧ c.assertions = true := by
  have key := float_construct_coords_partial c o per fm x hs hf fun d l t hp hl ht => by
    rcases hx d hp with ⟨a, b, h⟩ | ⟨l', X, B, h, e, h1, h2, h3, h4⟩
    · rw [h] at hl; cases hl
    · rw [e] at hl
      cases hl
      rw [hp] at ht
      have ho1 := ((hs d).coords _ e).2 hp
      have hn := ((hs d).aperiodic hp).1
      obtain ⟨T, rfl, -, t3, -⟩ := knots_of_coords h1 h2 ⟨ho1, ho⟩ hn h3 h4 ht
      exact goodKnots_of h1 h2 ho1 hn t3
  cases h : Fl.construct false c o per fm x with
  | ok f => rw [h] at key; exact key
  | error e =>
    rw [h] at key
    rcases key with ⟨-, h | h⟩ | h
    · exact h.elim
    · exact h.elim
    · exact h

/-- Knots and control points of an interpolation function over separated coordinates. -/
theorem separated_spline {D : ℕ} {w : Bool} {c : Cfg} {o : ℕ} (ho : 1 ≤ o ∧ o ≤ 50) {fm : Mesh (D + 1) F64} (hfm : fm.WF)
    {l : Fin (D + 1) → List F64} {X : Fin (D + 1) → ℕ → ℚ} {B h : Fin (D + 1) → ℚ} (hn : ∀ d, o + 1 ≤ fm.dims d ∧ fm.dims d ≤ 2 ^ 49)
    (hc : ∀ d, CoordsIn (l d) (fm.dims d) (X d) (B d)) (hB : ∀ d, B d ≤ 2 ^ 1000) (hs : ∀ d, Separated (fm.dims d) (X d) (B d) (h d))
    {t : Template (D + 1) F64 F64} (ht : Fl.constructT w c o (fun _ => false) fm.dims (fun d => .coords (l d)) = .ok t)
    {g : InterpFn (D + 1) F64 F64} (hg : Fl.construct w c o (fun _ => false) fm (fun d => .coords (l d)) = .ok g)
    {C : ℚ} (hC : ∀ v ∈ g.spline.ctrl.storage, ∃ q, v = .fin q ∧ IsDouble q ∧ |q| ≤ C) (hC1 : 0 ≤ C ∧ C ≤ 2 ^ 1000)
    {k : ℕ} (hk : k = (D + 1) * (5 * o + 1) + 1 + (o + 1) ^ (D + 1)) (hk1 : k ≤ 2 ^ 50) :
    DoubleSpline g.spline C ∧ ∀ d i, 0 < i → i + 1 < fm.dims d → NodeSeg (g.spline.rat.kn d) o (fm.dims d) i (X d i) := by
  have hsh : Fl.ShapeAxes c o (fun _ => false) fm.dims (fun d => XRange.coords (l d)) := fun d => by
    have := hn d
    have := (hc d).len
    refine ⟨fun h => by simp at h, fun _ => ?_, fun l' e => ?_⟩
    · unfold pointNum; simp; omega
    · cases e; unfold pointNum; simp; omega
  have hgood : Fl.GoodAxes w c o (fun _ => false) fm.dims (fun d => XRange.coords (l d)) := .inr (.inr fun d l' t' _ e ht' => by
    cases e
    obtain ⟨T, rfl, -, t3, -⟩ := knots_of_coords (hc d) (hs d) ho (hn d).1 (hn d).2 (hB d) ht'
    exact goodKnots_of (hc d) (hs d) ho.1 (hn d).1 t3)
  have htok := (Fl.constructT_safe (V := F64) (E := fun _ => True) (fun _ => trivial) (fun _ => trivial) hsh hgood).get ht
  have htd : t.dims = fm.dims := by
    rw [htok.dims_eq]; funext d; unfold unk pointNum; simp
  have hper : t.base.periodicity = fun _ => false := by funext d; show t.base.spline.periodicity d = false; rw [htok.base.peri]
  obtain ⟨W, hW, hg'⟩ : ∃ W, Fl.solveForControlPoints c t fm = .ok W ∧
      (.ok { t.base with spline := t.base.spline.loadCtrlPts W } : M (InterpFn (D + 1) F64 F64)) = .ok g := by
    have hg' := hg
    unfold Fl.construct at hg'
    rw [ht, ok_bind] at hg'
    cases h : Fl.solveForControlPoints c t fm with
    | error e => rw [h] at hg'; cases hg'
    | ok W => rw [h, ok_bind] at hg'; exact ⟨W, rfl, hg'⟩
  have hWok := (Fl.solveForControlPoints_safe (E := fun _ => True) (c := c) (t := t) (fm := fm) (fun _ => trivial) (fun d => by rw [htd]; have := hn d; omega)
    (fun d => by rw [htok.dims_eq]; exact htok.solvers d) (fun d => by rw [htd, hper]; simp) hfm).get hW
  have gsp : g.spline = t.base.spline.loadCtrlPts W := by rw [← Except.ok.inj hg']
  have gord : g.spline.order = o := by rw [gsp]; exact htok.base.order
  have gper : ∀ d, g.spline.periodicity d = false := fun d => by rw [gsp]; exact congrFun hper d
  have gdim : g.spline.ctrl.dims = fm.dims := by rw [gsp]; exact hWok.2.trans htd
  have hT : ∀ d, ∃ T : List ℚ, g.spline.knots d = T.map F64.fin ∧ T.length = fm.dims d + o + 1 ∧ NearKnots o (fm.dims d) (X d) (h d) (knotFn T) ∧
      ∀ v ∈ T, IsDouble v ∧ |v| ≤ B d := fun d => by
    obtain ⟨-, hk, -⟩ := (htok.base.ax d).coords (l d) rfl
    rw [gsp]
    exact knots_of_coords (hc d) (hs d) ho (hn d).1 (hn d).2 (hB d) hk
  choose T hT1 hT2 hT3 hT4 using hT
  have hrat : ∀ d, g.spline.rat.knots d = T d := fun d => by
    show (g.spline.knots d).map F64.toRat = T d
    rw [hT1, List.map_map]
    exact List.map_id _
  have hkn : ∀ d, g.spline.rat.kn d = knotFn (T d) := fun d => by unfold BSpline.kn; rw [hrat]
  have hrord : g.spline.rat.order = o := gord
  have hlast : ∀ d, g.spline.rat.last d = fm.dims d - 1 := fun d => by
    have := hn d
    unfold BSpline.last
    rw [hrat, hT2, hrord]; omega
  have hgap : ∀ d i, o ≤ i → i < fm.dims d → knotFn (T d) i + h d / 4 ≤ knotFn (T d) (i + 1) := fun d i h1 h2 => (hT3 d).gap (hs d) ho.1 (hn d).1 h1 h2
  have hb : DoubleSpline g.spline C := by
    refine ⟨⟨?_, fun d i j h1 h2 h3 => ?_, fun d => ?_, fun d => ?_, fun d => ?_, fun d _ => ?_, fun d hp => ?_⟩, fun d v hv => ?_, fun d i h1 h2 h3 => ?_,
      hC, hC1, by rw [gord]; exact ho.2, by rw [gord, ← hk]; exact hk1⟩
    · show (g.spline.ctrl.storage.map F64.toRat).length = ∏ d, g.spline.ctrl.dims d
      rw [List.length_map, gsp]
      exact hWok.1
    · rw [hrat, hT2] at h3
      rw [hkn]
      exact (hT3 d).mono (hs d) ho.1 (hn d).1 h2 (by omega)
    · have := hn d
      rw [hrat, hT2, hrord]; omega
    · have := hgap d o le_rfl (by have := hn d; omega)
      have := (hs d).pos
      rw [hkn, hrord]; linarith
    · have h1 := hn d
      have := hgap d (fm.dims d - 1) (by omega) (by omega)
      have := (hs d).pos
      rw [hkn, hlast]; linarith
    · rw [hrat, hT2, hrord]
      show _ = g.spline.ctrl.dims d + _ + _
      rw [gdim]
    · exact absurd ((gper d).symm.trans hp) (by simp)
    · rw [hT1] at hv
      obtain ⟨q, hq, rfl⟩ := List.mem_map.1 hv
      exact ⟨q, rfl, (hT4 d q hq).1, (hT4 d q hq).2.trans (hB d)⟩
    · rw [gord] at h1
      rw [hlast] at h2
      have h0 := hn d
      have h4 := hgap d i h1 (by omega)
      have h5 := (hs d).least
      have h6 : (1 : ℚ) / 2 ^ 900 ≤ 1 / 2 ^ 800 / 4 := by decide +kernel
      rw [hkn]
      generalize (1 : ℚ) / 2 ^ 900 = a at *
      generalize (1 : ℚ) / 2 ^ 800 = b at *
      linarith
  exact ⟨hb, fun d i h0 h1 => by rw [hkn]; exact (hT3 d).node (hs d) ho.1 (hn d).1 h0 h1⟩

/-- **C79**, with conditions on the coordinates only: they are `h d` apart and `h d` is large compared to their rounding. -/
theorem double_interpolates_separated {D : ℕ} (w : Bool) (c : Cfg) {o : ℕ} (ho : 1 ≤ o ∧ o ≤ 50) {fm : Mesh (D + 1) F64} (hfm : fm.WF)
    {l : Fin (D + 1) → List F64} {X : Fin (D + 1) → ℕ → ℚ} {B h : Fin (D + 1) → ℚ} (hn : ∀ d, o + 1 ≤ fm.dims d ∧ fm.dims d ≤ 2 ^ 49)
    (hc : ∀ d, CoordsIn (l d) (fm.dims d) (X d) (B d)) (hB : ∀ d, B d ≤ 2 ^ 1000) (hs : ∀ d, Separated (fm.dims d) (X d) (B d) (h d))
    {t : Template (D + 1) F64 F64} (ht : Fl.constructT w c o (fun _ => false) fm.dims (fun d => .coords (l d)) = .ok t)
    {g : InterpFn (D + 1) F64 F64} (hg : Fl.construct w c o (fun _ => false) fm (fun d => .coords (l d)) = .ok g)
    {C : ℚ} (hC : ∀ v ∈ g.spline.ctrl.storage, ∃ q, v = .fin q ∧ IsDouble q ∧ |q| ≤ C) (hC1 : 0 ≤ C ∧ C ≤ 2 ^ 1000)
    {G : ℚ} (hG : ∀ d, FactorsIn c (t.solvers d) (fm.dims d) (o - 1) G) {E : ℚ} (hE : E = (D + 1) * o * (4 * G + 8)) (hE1 : E ≤ 2 ^ 50)
    {k : ℕ} (hk : k = (D + 1) * (5 * o + 1) + 1 + (o + 1) ^ (D + 1)) (hk1 : k ≤ 2 ^ 50) {I : Fin (D + 1) → ℕ} (hI : InRange fm.dims I) :
    ∃ v q, Fl.call g (fun d => .fin (X d (I d))) = .ok (.fin v) ∧ fm.get I = .ok (.fin q) ∧ |v - q| ≤ (3 * k + 2 * E) / 2 ^ 53 * C + 1 / 2 ^ 100 := by
  obtain ⟨hb, hnode⟩ := separated_spline ho hfm hn hc hB hs ht hg hC hC1 hk hk1
  exact double_interpolates w c ho.1 hfm (fun d => ⟨(hn d).1, (hn d).2, (hc d).len⟩) (fun d i hi => ⟨(hc d).get i hi, (hc d).dbl i hi⟩) ht hg hb hnode hG hE hE1
    hk hI

/-- **C79**, when elimination leaves no negative entry (exact factors of such a matrix have none): the error does not depend on the growth of the
factors. -/
theorem double_interpolates_positive {D : ℕ} (w : Bool) (c : Cfg) {o : ℕ} (ho : 1 ≤ o ∧ o ≤ 50) {fm : Mesh (D + 1) F64} (hfm : fm.WF)
    {l : Fin (D + 1) → List F64} {X : Fin (D + 1) → ℕ → ℚ} {B h : Fin (D + 1) → ℚ} (hn : ∀ d, o + 1 ≤ fm.dims d ∧ fm.dims d ≤ 2 ^ 49)
    (hc : ∀ d, CoordsIn (l d) (fm.dims d) (X d) (B d)) (hB : ∀ d, B d ≤ 2 ^ 1000) (hs : ∀ d, Separated (fm.dims d) (X d) (B d) (h d))
    {t : Template (D + 1) F64 F64} (ht : Fl.constructT w c o (fun _ => false) fm.dims (fun d => .coords (l d)) = .ok t)
    {g : InterpFn (D + 1) F64 F64} (hg : Fl.construct w c o (fun _ => false) fm (fun d => .coords (l d)) = .ok g)
    {C : ℚ} (hC : ∀ v ∈ g.spline.ctrl.storage, ∃ q, v = .fin q ∧ IsDouble q ∧ |q| ≤ C) (hC1 : 0 ≤ C ∧ C ≤ 2 ^ 1000)
    (hG : ∀ d, FactorsPos c (t.solvers d) (fm.dims d) (o - 1))
    {k : ℕ} (hk : k = (D + 1) * (5 * o + 1) + 1 + (o + 1) ^ (D + 1)) (hk1 : k ≤ 2 ^ 50) {I : Fin (D + 1) → ℕ} (hI : InRange fm.dims I) :
    ∃ v q, Fl.call g (fun d => .fin (X d (I d))) = .ok (.fin v) ∧ fm.get I = .ok (.fin q) ∧ |v - q| ≤ (3 * k + 32 * ((D + 1) * o)) / 2 ^ 53 * C + 1 / 2 ^ 100 := by
  obtain ⟨hb, hnode⟩ := separated_spline ho hfm hn hc hB hs ht hg hC hC1 hk hk1
  have hdim : ∀ d, o + 1 ≤ fm.dims d ∧ fm.dims d ≤ 2 ^ 49 ∧ (l d).length = fm.dims d := fun d => ⟨(hn d).1, (hn d).2, (hc d).len⟩
  have hX : ∀ d i, i < fm.dims d → (l d)[i]? = some (.fin (X d i)) ∧ IsDouble (X d i) := fun d i hi => ⟨(hc d).get i hi, (hc d).dbl i hi⟩
  have hE1 : ((D : ℚ) + 1) * o * (4 * 2 + 8) ≤ 2 ^ 50 := by
    have h1 : (D + 1) * (5 * o + 1) + 1 + (o + 1) ^ (D + 1) ≤ 2 ^ 50 := hk ▸ hk1
    have h2 : 2 ^ (D + 1) ≤ (o + 1) ^ (D + 1) := Nat.pow_le_pow_left (by omega) _
    have h3 : D + 1 < 51 := (Nat.pow_lt_pow_iff_right (a := 2) (by omega)).1 (lt_of_le_of_lt (by omega : 2 ^ (D + 1) ≤ 2 ^ 50) (by norm_num))
    have h4 : (D + 1) * o * (4 * 2 + 8) ≤ 51 * 50 * (4 * 2 + 8) := Nat.mul_le_mul_right _ (Nat.mul_le_mul (by omega) ho.2)
    have h5 : (((D + 1) * o * (4 * 2 + 8) : ℕ) : ℚ) ≤ ((51 * 50 * (4 * 2 + 8) : ℕ) : ℚ) := Nat.cast_le.2 h4
    push_cast at h5
    linarith
  obtain ⟨v, q, h1, h2, h3⟩ := double_interpolates w c ho.1 hfm hdim hX ht hg hb hnode (factorsIn_of_pos ho.1 hdim hX ht hg hb hnode hG) rfl hE1 hk hI
  exact ⟨v, q, h1, h2, h3.trans (le_of_eq (by ring))⟩

/-! ## A case: order 3, five uneven coordinates -/

namespace RoundInterpExample

def xs : List ℚ := [0, 1 / 2, 7 / 4, 3, 5]
def cfg : Cfg := ⟨true, false⟩
def data : Mesh 1 F64 := Mesh.ofList ([1, -2, 1 / 2, 4, 3].map F64.fin)
def X : ℕ → ℚ := fun i => xs.getD i 0

def template : M (Template 1 F64 F64) := Fl.constructT false cfg 3 (fun _ => false) data.dims fun _ => .coords (xs.map F64.fin)
def fn : M (InterpFn 1 F64 F64) := Fl.construct false cfg 3 (fun _ => false) data fun _ => .coords (xs.map F64.fin)

/-- Factors of the solver, if every entry of the band is finite, not negative and not large. -/
def posB (s : Solver F64) : Bool :=
  match s with
  | .band lu => decide (∀ i < 5, ∀ j < 5, i ≤ j + 2 ∧ j ≤ i + 2 →
      (match lu.store.get cfg i j with
        | .ok v => decide (v = .fin v.toRat ∧ 0 ≤ v.toRat ∧ v.toRat ≤ 2 ^ 400)
        | .error _ => false) = true)
  | _ => false

theorem pos_of {s : Solver F64} (h : posB s = true) : FactorsPos cfg s 5 2 := by
  unfold posB at h
  cases s with
  | band lu =>
    dsimp only at h
    have h := of_decide_eq_true h
    refine ⟨lu, fun i j => match lu.store.get cfg i j with | .ok v => v.toRat | .error _ => 0, rfl, fun i j hi hj hb => ?_⟩
    have := h i hi j hj hb
    dsimp only
    cases e : lu.store.get cfg i j with
    | ok v => rw [e] at this; exact ⟨congrArg Except.ok (of_decide_eq_true this).1, (of_decide_eq_true this).2⟩
    | error e' => rw [e] at this; cases this
  | _ => cases h

theorem coordsIn : CoordsIn (xs.map F64.fin) 5 X 5 := by
  refine ⟨rfl, fun i hi => ?_, fun i hi => ?_, fun i hi => ?_⟩
  · interval_cases i <;> rfl
  · have : F64.round (X i) = .fin (X i) := by interval_cases i <;> decide +kernel
    exact isDouble_of_round this
  · interval_cases i <;> decide +kernel

theorem separated : Separated 5 X 5 (1 / 2) := by
  refine ⟨fun i hi => ?_, by norm_num, by decide +kernel⟩
  have : i < 4 := by omega
  interval_cases i <;> decide +kernel

/-- Every hypothesis of `double_interpolates_positive` (hence of `double_interpolates_separated` and of `double_interpolates`) holds; the function does
not reproduce the data exactly. -/
theorem hypotheses : ∃ t g, template = .ok t ∧ fn = .ok g ∧ (∀ d, FactorsPos cfg (t.solvers d) (data.dims d) (3 - 1)) ∧
    (∀ v ∈ g.spline.ctrl.storage, ∃ q, v = .fin q ∧ IsDouble q ∧ |q| ≤ 8) := by
  have h : (match template, fn with
    | .ok t, .ok g => posB (t.solvers 0) && decide (∀ v ∈ g.spline.ctrl.storage, v = .fin v.toRat ∧ F64.round v.toRat = v ∧ |v.toRat| ≤ 8)
    | _, _ => false) = true := by decide +kernel
  cases ht : template with
  | error e => rw [ht] at h; cases h
  | ok t =>
    cases hg : fn with
    | error e => rw [ht, hg] at h; cases h
    | ok g =>
      rw [ht, hg] at h
      dsimp only at h
      rw [Bool.and_eq_true] at h
      refine ⟨t, g, rfl, rfl, fun d => ?_, fun v hv => ?_⟩
      · rw [Fin.fin_one_eq_zero d]; exact pos_of h.1
      · obtain ⟨h1, h2, h3⟩ := of_decide_eq_true h.2 v hv
        exact ⟨_, h1, isDouble_of_round (h2.trans h1), h3⟩

example : ∃ g, fn = .ok g ∧ ∀ i : Fin 5, ∃ v, Fl.call g (fun _ => .fin (X i)) = .ok (.fin v) ∧ |v - [1, -2, 1 / 2, 4, 3].getD i 0| ≤ 1400 / 2 ^ 53 := by
  obtain ⟨t, g, ht, hg, hF, hC⟩ := hypotheses
  refine ⟨g, hg, fun i => ?_⟩
  obtain ⟨v, q, h1, h2, h3⟩ := double_interpolates_positive (D := 0) (o := 3) (k := 21) false cfg (by omega) (fm := data) (by unfold Mesh.WF; decide)
    (B := fun _ => 5) (h := fun _ => 1 / 2) (fun d => by revert d; decide) (fun _ => coordsIn) (fun _ => by decide +kernel) (fun _ => separated) ht hg hC
    (by decide +kernel) hF (by norm_num) (by norm_num) (I := fun _ => i) (fun _ => i.isLt)
  refine ⟨v, h1, ?_⟩
  have : data.get (fun _ => (i : ℕ)) = .ok (.fin ([1, -2, 1 / 2, 4, 3].getD i 0)) := by fin_cases i <;> rfl
  rw [this] at h2
  cases h2
  refine h3.trans ?_
  norm_num

/-- Some value differs from the datum. -/
example : (do
    let g ← fn
    Fl.call g fun _ => .fin (7 / 4)) ≠ .ok (.fin (1 / 2)) := by decide +kernel

/-- The hypotheses of `double_knots`. -/
example : ∃ t, Fl.coordKnots cfg 3 5 false (xs.map F64.fin) = .ok (t, xs.map F64.fin) ∧ t.length = 9 := by
  obtain ⟨t, h1, h2, -⟩ := double_knots (o := 3) cfg coordsIn (by omega) (by omega) (by norm_num) (by decide +kernel) (fun i hi => by
    have : i < 4 := by omega
    interval_cases i <;> decide +kernel)
  exact ⟨t, h1, h2⟩

/-- `double_construct_separated_partial` applies. -/
example : SizesOk (K := F64) cfg 3 false 5 (.coords (xs.map F64.fin)) := by
  refine ⟨by decide, by decide, fun l h => ?_⟩
  cases h
  decide

end RoundInterpExample

end Intp
