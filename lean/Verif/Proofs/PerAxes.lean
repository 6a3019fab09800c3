import Verif.Proofs.PerRows
import Verif.Proofs.PerSolve
import Verif.Proofs.InterpAxes

/-!
# Interpolation functions with periodic uniform dimensions

The facts about one dimension that the values at the data points depend on, for periodic uniform dimensions and for the axes of `InterpAxes`.
-/

namespace Intp.Fl

variable {D : ℕ} {K V : Type} [CoordArith K] [ValArith V] [ScaleArith K V] {w : Bool} {c : Cfg} {o : ℕ} {per : Fin D → Bool} {dims : Fin D → ℕ} {x : Fin D → XRange K}

/-- As `constructT_solvers`, with the values at the knots that the rows are made of. -/
theorem constructT_rows (hs : ShapeAxes c o per dims x) {t : Template D K V} (h : constructT (V := V) w c o per dims x = .ok t) :
    ∀ d, ∃ vals, precalc t.base d = .ok vals ∧ (assemble w c t.base (t.coords d) d (t.dims d) vals >>= ofMat c) = .ok (t.solvers d) := by
  have : Spec (constructT (V := V) w c o per dims x) (fun t =>
      ∀ d, ∃ vals, precalc t.base d = .ok vals ∧ (assemble w c t.base (t.coords d) d (t.dims d) vals >>= ofMat c) = .ok (t.solvers d)) (fun _ => True) := by
    unfold constructT
    refine Spec.bind (partialConstruct_safe (fun _ => trivial) (fun _ => trivial) hs) fun r hr => ?_
    rw [adjustDims_ok hs, ok_bind]
    cases hv : tabM fun d => precalc r.1 d with
    | error e => trivial
    | ok vals =>
      rw [ok_bind]
      cases hsv : tabM (fun d => do
          let m ← assemble w c r.1 (r.2 d) d (unk (per d) (pointNum c (per d) (dims d))) (vals d)
          ofMat c m) with
      | error e => trivial
      | ok s => exact Spec.ok fun d => ⟨vals d, tabM_ok_inv hv d, tabM_ok_inv hsv d⟩
  rw [h] at this
  exact this

end Intp.Fl

namespace Intp

open Finset BSpline

/-- What the value at a data point depends on, for one dimension with `m` unknowns. -/
structure AxisReady {D : ℕ} (c : Cfg) (f : InterpFn D F64 F64) (d : Fin D) (o m : ℕ) (sol : Solver F64) (P : ℕ → ℚ → Prop) (ε : ℚ) (T : List ℚ) : Prop where
  pos : 0 < m
  knots : f.spline.knots d = T.map F64.fin
  mono : KMono T
  dbl : ∀ v ∈ T, IsDouble v ∧ |v| ≤ 2 ^ 1000
  len : 2 * o + 2 ≤ T.length
  gap : ∀ i, o ≤ i → i + o + 2 ≤ T.length → knotFn T i + 1 / 2 ^ 900 ≤ knotFn T (i + 1)
  aper : f.spline.periodicity d = false → T.length = m + o + 1
  per : f.spline.periodicity d = true → ∃ lo hi, f.spline.range d = (.fin lo, .fin hi) ∧ lo < hi
  pt : ∀ i x, i < m → P i x → ∃ (w : ℚ) (W : ℕ → ℕ → ℚ) (s : ℕ),
    (if f.spline.periodicity d then Fl.wrapCoord (f.spline.range d) (.fin x) = .ok (.fin w) else x = w) ∧ IsDouble w ∧
    knotFn T o ≤ w ∧ w ≤ knotFn T (T.length - o - 2 + 1) ∧ (f.spline.periodicity d = true → (f.spline.range d).1.toRat ≤ w ∧ w < (f.spline.range d).2.toRat) ∧
    (∃ h, Fl.hint f d (.fin x) = .ok h) ∧ (∀ i J, i < m → 0 ≤ W i J) ∧ (∀ i, i < m → ∑ J ∈ range m, W i J = 1) ∧ AxisSolves c sol m W ε ∧
    IsSeg (knotFn T) o (T.length - o - 2) w s ∧
    ∀ J, W ((i + rowShift o (f.spline.periodicity d)) % m) J =
      if f.spline.periodicity d then cyc m (s + 1) (fun j => piece (knotFn T) s o j w) J else piece (knotFn T) s o J w

theorem AxisSolves.mono {c : Cfg} {sol : Solver F64} {n : ℕ} {W : ℕ → ℕ → ℚ} {ε ε' : ℚ} (h : AxisSolves c sol n W ε) (hε : ε ≤ ε') : AxisSolves c sol n W ε' := by
  obtain ⟨R, h1, h2⟩ := h
  refine ⟨R, h1, fun b x hR hx => ⟨(h2 b x hR hx).1, fun M hM i hi => ((h2 b x hR hx).2 M hM i hi).trans ?_⟩⟩
  have hM0 : 0 ≤ M := (abs_nonneg _).trans (hM i hi)
  exact add_le_add_left (mul_le_mul_of_nonneg_right hε hM0) _

theorem AxisReady.weaken {D : ℕ} {c : Cfg} {f : InterpFn D F64 F64} {d : Fin D} {o m : ℕ} {sol : Solver F64} {P : ℕ → ℚ → Prop} {ε ε' : ℚ} {T : List ℚ}
    (h : AxisReady c f d o m sol P ε T) (hε : ε ≤ ε') : AxisReady c f d o m sol P ε' T := by
  refine ⟨h.pos, h.knots, h.mono, h.dbl, h.len, h.gap, h.aper, h.per, fun i x hi hx => ?_⟩
  obtain ⟨w, W, s, h1, h2, h3, h4, h5, h6, h7, h8, h9, h10, h11⟩ := h.pt i x hi hx
  exact ⟨w, W, s, h1, h2, h3, h4, h5, h6, h7, h8, AxisSolves.mono h9 hε, h10, h11⟩

section
variable {D : ℕ} {f : InterpFn D F64 F64} {d : Fin D} {o n : ℕ} {a b B H dx : ℚ} {T : List ℚ} {c : Cfg} {sol : Solver F64}

/-- A non-periodic dimension. -/
theorem AxisNear.ready {P : ℕ → ℚ → Prop} {κ G : ℚ} (h : AxisNear f d o n sol P κ T) (ho : 1 ≤ o ∧ o ≤ 50) (hn : o + 1 ≤ n) (hn49 : n ≤ 2 ^ 49)
    (hp : f.spline.periodicity d = false) (hG : FactorsIn c sol n (o - 1) G) : AxisReady c f d o n sol P ((o * (4 * G + 1) + κ) / 2 ^ 53) T := by
  have hlen := h.len
  refine ⟨by omega, h.knots, h.mono, h.dbl, by omega, fun i h1 h2 => h.gap i h1 (by omega), fun _ => hlen, fun e => (by rw [hp] at e; cases e), fun i x hi hx => ?_⟩
  obtain ⟨b1, b2, b3, b4, W, s, w0, w1, w2, w3, w4⟩ := h.pt i x hi hx
  have e : T.length - o - 2 = n - 1 := by omega
  refine ⟨x, W, s, by rw [hp]; rfl, b1, b2, by rw [e, show n - 1 + 1 = n by omega]; exact b3, fun e => (by rw [hp] at e; cases e), b4, w0, w1,
    w2.solves ho (by omega) hn49 hG, by rw [e]; exact w3, fun J => ?_⟩
  rw [hp]
  unfold rowShift
  simp only [Bool.false_eq_true, if_false, add_zero]
  rw [Nat.mod_eq_of_lt hi]
  exact w4 J

/-- The hint of a periodic uniform dimension. -/
theorem PerRat.hint (h : PerRat f d o n a b B H dx T) (ho : f.spline.order = o) (hp : f.periodicity d = true) (hu : f.uniform d = true) {i : ℕ} (hi : i + 1 < n)
    {x : ℚ} (hxd : IsDouble x) (hxn : |x - (a + i * H)| ≤ 8 * B / 2 ^ 53) : ∃ k, Fl.hint f d (.fin x) = .ok k := by
  have hn := h.hn
  have ho50 := h.ho.2
  have ho1 := h.ho.1
  have hH := h.uin.pos
  have hB0 := h.uin.B0
  have hlen := h.len
  obtain ⟨hd1, hd2⟩ := h.delta
  have hlo := abs_le.1 (h.near o (by omega))
  have hnode := perKnot_node o a H 0
  rw [zero_add, Nat.cast_zero, zero_mul, add_zero] at hnode
  have hpar : (((1 - o % 2 : ℕ) : ℚ)) ≤ 1 ∧ 0 ≤ (((1 - o % 2 : ℕ) : ℚ)) := ⟨by exact_mod_cast (by omega : 1 - o % 2 ≤ 1), Nat.cast_nonneg _⟩
  have hbB : H * (n - 1) ≤ 2 * B := by have := h.uin.step; have := abs_le.1 h.uin.ha; have := abs_le.1 h.uin.hb; linarith
  have hin : ((i : ℚ) + 1) * H ≤ H * (n - 1) := by
    have : (i : ℚ) + 1 + 1 ≤ n := by exact_mod_cast hi
    nlinarith
  have hi0 : (0 : ℚ) ≤ i := Nat.cast_nonneg _
  have hiH : 0 ≤ (i : ℚ) * H := by positivity
  have hxl : |x - knotFn T o| ≤ ((i : ℚ) + 1) * H := by
    have h1 := abs_le.1 hxn
    have h3 : 0 ≤ ((1 - o % 2 : ℕ) : ℚ) / 2 * H ∧ ((1 - o % 2 : ℕ) : ℚ) / 2 * H ≤ H / 2 := ⟨by have := hpar.2; positivity, by nlinarith [hpar.1]⟩
    rw [abs_le]
    constructor <;> linarith [h3.1, h3.2]
  have hbig : 2 * B ≤ 2 ^ 1000 := by
    have := h.small
    generalize (2 : ℚ) ^ 1000 = z at *
    linarith
  have h1023 : (2 : ℚ) ^ 1000 ≤ 2 ^ 1023 := by decide +kernel
  have hknd : IsDouble (knotFn T o) := by
    refine h.dbl _ ?_
    unfold knotFn
    rw [List.getD_eq_getElem?_getD, List.getElem?_eq_getElem (by omega)]
    exact List.getElem_mem _
  obtain ⟨r1, e1, -, e3, -⟩ := fl_sub hxd hknd (by
    refine (hxl.trans hin).trans (hbB.trans ?_)
    exact hbig.trans h1023)
  clear h1023 hbig
  have hdx := abs_le.1 h.near_dx
  have hdx0 : H / 2 ≤ dx := by
    have : (9 : ℚ) / 4 / 2 ^ 53 ≤ 1 / 2 := by norm_num
    have : (9 : ℚ) / 4 / 2 ^ 53 * H ≤ 1 / 2 * H := mul_le_mul_of_nonneg_right this hH.le
    linarith
  have hr1 : |r1| ≤ 2 * (H * (n - 1)) := by
    have := abs_add_le (r1 - (x - knotFn T o)) (x - knotFn T o)
    rw [sub_add_cancel] at this
    have : |x - knotFn T o| / 2 ^ 53 ≤ |x - knotFn T o| := div_le_self (abs_nonneg _) (by norm_num)
    linarith
  have hn49 : ((n : ℚ) - 1) ≤ 2 ^ 49 := by
    have : (n : ℚ) ≤ 2 ^ 49 := by exact_mod_cast h.uin.big
    linarith
  have hq : |r1 / dx| ≤ 2 ^ 51 := by
    rw [abs_div, abs_of_pos (show 0 < dx by linarith), div_le_iff₀ (by linarith)]
    refine hr1.trans ?_
    have := mul_le_mul_of_nonneg_left hn49 hH.le
    nlinarith
  have hs : (2 : ℚ) ^ 51 ≤ 2 ^ 1023 := by decide +kernel
  obtain ⟨r, f1, f2, f3⟩ := fl_div (a := r1) (b := dx) (by linarith) (hq.trans hs)
  have hr : |r| ≤ 2 ^ 52 := by
    have := abs_add_le (r - r1 / dx) (r1 / dx)
    rw [sub_add_cancel] at this
    have h1 : |r1 / dx| / 2 ^ 53 ≤ |r1 / dx| / 8 := div_le_div_of_nonneg_left (abs_nonneg _) (by norm_num) (by norm_num)
    have h2 : (1 : ℚ) / 2 ^ 1074 ≤ 1 := by decide +kernel
    generalize (1 : ℚ) / 2 ^ 1074 = z at *
    linarith
  have hd1 : IsDouble 1 := isDouble_of_round (show F64.round 1 = .fin 1 by decide +kernel)
  have hsub : |r - 1| ≤ 2 ^ 53 := by
    have := abs_le.1 hr
    rw [abs_le]; constructor <;> linarith
  have hs3 : (2 : ℚ) ^ 53 ≤ 2 ^ 1023 := by decide +kernel
  obtain ⟨u, u1, -, u3, -⟩ := fl_sub f2 hd1 (hsub.trans hs3)
  have hu1 : |u| ≤ 2 ^ 54 := by
    have := abs_add_le (u - (r - 1)) (r - 1)
    rw [sub_add_cancel] at this
    have : |r - 1| / 2 ^ 53 ≤ |r - 1| := div_le_self (abs_nonneg _) (by norm_num)
    linarith
  obtain ⟨q, q1, q2, q3⟩ : ∃ q, Fl.maxZero (F64.fin u) = .fin q ∧ 0 ≤ q ∧ q ≤ 2 ^ 54 := by
    unfold Fl.maxZero
    split
    · rename_i hlt
      exact ⟨u, rfl, (of_decide_eq_true hlt : (0 : ℚ) < u).le, (abs_le.1 hu1).2⟩
    · exact ⟨0, rfl, le_rfl, by norm_num⟩
  unfold Fl.hint
  have hlen : (f.spline.knots d).length = n + (2 * o + (1 - o % 2)) := by rw [h.knots, List.length_map, h.len]
  rw [if_pos hu, hlen, ho, subM_ok (by omega), ok_bind, h.lo, h.step, e1, f1, ok_bind, if_pos hp]
  rw [show (1 : F64) = .fin 1 from rfl, u1, q1, double_ceil, if_pos ⟨by linarith, by linarith⟩]
  exact ⟨_, rfl⟩

/-- A periodic uniform dimension. -/
theorem PerRat.ready (h : PerRat f d o n a b B H dx T) (ho : f.spline.order = o) (hp : f.spline.periodicity d = true) (hu : f.uniform d = true) {r : ℚ}
    (hr : B ≤ r * H) {w : Bool} {l vals : List F64} (hv : Fl.precalc f d = .ok vals) (hsol : (Fl.assemble w c f l d (n - 1) vals >>= Fl.ofMat c) = .ok sol)
    {G : ℚ} (hG : FactorsExt c sol (n - 1) (o / 2) G) :
    AxisReady c f d o (n - 1) sol (fun i x => IsDouble x ∧ a ≤ x ∧ |x - (a + i * H)| ≤ 8 * B / 2 ^ 53)
      ((((n - 1 : ℕ) : ℚ) * (4 * G + 1) + (7 * o + 256 * (o * r))) / 2 ^ 53) T := by
  have hn := h.hn
  have ho1 := h.ho.1
  have hlen := h.len
  have hH := h.uin.pos
  have hr0 : 0 ≤ r := by
    have := h.uin.B0
    by_contra hc
    nlinarith
  have hor : 0 ≤ (o : ℚ) * r := by positivity
  obtain ⟨A, hA0, hA1, hA2⟩ := h.rows ho hp hu hr hv
  have hrows := rowsExt_of hA0 (hA1 w c l) hsol hA2
  have hrange : f.spline.range d = (.fin (knotFn T o), .fin (knotFn T (n - 1 + o))) := Prod.ext h.lo h.hi
  have hN : 0 < n - 1 := by omega
  have hlt : knotFn T o < knotFn T (n - 1 + o) := by
    have h1 := h.gap (u := o) (by omega)
    have h2 := h.mono (i := o + 1) (j := n - 1 + o) (by omega) (by omega)
    linarith
  refine ⟨hN, h.knots, h.kmono, fun v hv => ⟨h.dbl v hv, (h.knot_le hv).2⟩, by omega, fun i h1 h2 => ?_, fun e => (by rw [hp] at e; cases e),
    fun _ => ⟨_, _, hrange, hlt⟩, ?_⟩
  · have h4 := h.gap (u := i) (by omega)
    have h5 := h.uin.least
    have h6 : (1 : ℚ) / 2 ^ 900 ≤ 7 / 8 * (1 / 2 ^ 800) := by decide +kernel
    generalize (1 : ℚ) / 2 ^ 900 = z at *
    generalize (1 : ℚ) / 2 ^ 800 = z' at *
    linarith
  · rintro i x hi ⟨x1, x2, x3⟩
    obtain ⟨-, wv, w1, w2, w3, w4, w5⟩ := h.wrap (i := i) (by omega) x1 x2 x3
    obtain ⟨s, s1, s2, s3, s4, s5⟩ := h.query hr (i := i) (by omega) w3 w5
    have hs1 := s1.1
    have hs2 := s1.2.1
    set N := n - 1 with hNe
    have hext : ∀ J, cyc N (i + (o + 1)) (fun m => piece (knotFn T) s o m wv) J = cyc N (s + 1) (fun m => piece (knotFn T) s o m wv) J := fun J =>
      cyc_ext (by omega) (fun m hm => by
        by_contra hne
        have := (piece_support hne).1
        have := (piece_support hne).2
        omega) J
    have hgap := h.gap (u := s) (by omega)
    have p0 : ∀ J, 0 ≤ piece (knotFn T) s o J wv := fun J => piece_nonneg (p := o) (fun j _ c => (h.mono c (by omega)).trans s2)
      (fun j a c => s3.trans (h.mono a (by omega))) o J le_rfl
    have p1 : ∑ J ∈ Finset.range (s + 1), piece (knotFn T) s o J wv = 1 := sum_piece_eq_one wv o hs1 (nondeg_of_mono h.kmono (by linarith) hs1 (by omega))
    set row := (i + o / 2) % N with hrow
    have hnode : nodeOfRow o true N row = i := nodeOfRow_shift (per := true) hi
    refine ⟨wv, Function.update (fun k => perRow o N a H (nodeOfRow o true N k)) row fun J => cyc N (s + 1) (fun m => piece (knotFn T) s o m wv) J, s,
      ?_, w2, w3, ?_, ?_, h.hint ho hp hu (by omega) x1 x3, fun k J hk => ?_, fun k hk => ?_, ?_, s1, fun J => ?_⟩
    · rw [if_pos hp, hrange]; exact w1
    · exact w4.le.trans (h.mono (by omega) (by omega))
    · intro _
      rw [hrange]
      exact ⟨w3, w4⟩
    · by_cases hki : k = row
      · rw [hki, Function.update_self]; exact cyc_nonneg p0 J
      · rw [Function.update_of_ne hki]; exact (perRow_unity hH hN _).1 J
    · by_cases hki : k = row
      · rw [hki, Function.update_self, cyc_sum hN]; exact p1
      · rw [Function.update_of_ne hki]; exact (perRow_unity hH hN _).2
    · refine RowsExt.solves ((hrows.update (i := row) (δ := 128 * (o * r)) (by linarith) (V := fun J => cyc N (s + 1) (fun m => piece (knotFn T) s o m wv) J) ?_).mono
        (le_of_eq (by ring))) (by omega) hN (by have := h.uin.big; omega) hG
      rw [hnode]
      simp only [hext] at s5
      exact s5.trans (le_of_eq (by ring))
    · rw [hp, show rowShift o true = o / 2 from rfl, if_pos rfl, ← hrow, Function.update_self]

end

/-- Inputs of one dimension with `m` entries of the data: an axis of `GoodAxis`, or the ends of a periodic uniform dimension.  `P i x` holds when `x` is a coordinate
of data point `i`. -/
inductive GoodDim (c : Cfg) (o m : ℕ) : Bool → XRange F64 → (ℕ → ℚ → Prop) → ℚ → Prop
  | aper {x : XRange F64} {P : ℕ → ℚ → Prop} {r : ℚ} : o + 1 ≤ m → GoodAxis m x P r → GoodDim c o m false x P r
  | per {a b B H r : ℚ} : 2 * (o / 2) + 2 ≤ pointNum c true m → UniformIn (pointNum c true m) a b B H → 512 * B / 2 ^ 53 ≤ H → 6 * B ≤ 2 ^ 1000 → B ≤ r * H →
      GoodDim c o m true (.uniform (.fin a) (.fin b)) (fun i x => IsDouble x ∧ a ≤ x ∧ |x - (a + i * H)| ≤ 8 * B / 2 ^ 53) r

/-- The factors stored for one dimension with `n` unknowns, of a band matrix or of one with corners. -/
def FactorsOf (c : Cfg) (o : ℕ) (per : Bool) (sol : Solver F64) (n : ℕ) (G : ℚ) : Prop :=
  if per then FactorsExt c sol n (o / 2) G else FactorsIn c sol n (o - 1) G

theorem GoodDim.r0 {c : Cfg} {o m : ℕ} {per : Bool} {x : XRange F64} {P : ℕ → ℚ → Prop} {r : ℚ} (h : GoodDim c o m per x P r) : 0 ≤ r := by
  cases h with
  | aper _ h => exact h.small.2
  | per _ h _ _ hr =>
    have := h.B0
    have := h.pos
    by_contra hc
    nlinarith

theorem FactorsOf.nonneg {c : Cfg} {o : ℕ} {per : Bool} {sol : Solver F64} {n : ℕ} {G : ℚ} (h : FactorsOf c o per sol n G) (hn : 0 < n) : 0 ≤ G := by
  unfold FactorsOf at h
  split at h
  all_goals
    obtain ⟨lu, Cf, -, -, h⟩ := h
    refine le_trans ?_ (h ⟨0, hn⟩)
    positivity

section
variable {D : ℕ} {w : Bool} {c : Cfg} {o : ℕ} {per : Fin D → Bool} {dims : Fin D → ℕ} {x : Fin D → XRange F64} {P : Fin D → ℕ → ℚ → Prop} {r : Fin D → ℚ}

/-- Sizes of good dimensions. -/
theorem shape_dims (ho : 1 ≤ o ∧ o ≤ 50) (hx : ∀ d, GoodDim c o (dims d) (per d) (x d) (P d) (r d)) : Fl.ShapeAxes c o per dims x := fun d => by
  have hxd := hx d
  generalize x d = y at hxd ⊢
  generalize per d = q at hxd ⊢
  generalize P d = p at hxd
  generalize r d = s at hxd
  cases hxd with
  | aper h1 h2 =>
    refine ⟨fun h => by simp at h, fun _ => by unfold pointNum; simp; omega, fun l e => ?_⟩
    subst e
    cases h2 with
    | coords h1 h2 h3 h4 =>
      have := h1.len
      unfold pointNum; simp; omega
  | per h1 h2 h3 h4 h5 => exact ⟨fun _ => h1, fun h => by simp at h, fun l e => by cases e⟩

/-- The constructor of the template succeeds on good dimensions, with and without assertions. -/
theorem template_dims (ho : 1 ≤ o ∧ o ≤ 50) (hx : ∀ d, GoodDim c o (dims d) (per d) (x d) (P d) (r d)) :
    Ok (Fl.constructT (V := F64) w c o per dims x) (Fl.TmplOk c o per dims x) := by
  refine Fl.constructT_safe' (fun h => h.elim id id) (fun d l e _ => .inr fun i a b ha hb => ?_) (shape_dims ho hx) (.inr fun d l' t' hp e ht' => ?_)
  · have hxd := hx d
    rw [e] at hxd
    generalize per d = q at hxd
    generalize P d = p at hxd
    generalize r d = s at hxd
    cases hxd with
    | aper hm h2 =>
      cases h2 with
      | @coords _ X B h h1 h2 h3 h4 =>
        have hi : i + 1 < dims d := by
          have := (List.getElem?_eq_some_iff.1 hb).1
          rw [h1.len] at this
          exact this
        rw [h1.get i (by omega)] at ha
        rw [h1.get (i + 1) hi] at hb
        cases ha
        cases hb
        have h5 := h3.step i hi
        have h6 := h3.pos
        exact decide_eq_true (by linarith)
  · have hxd := hx d
    rw [e, hp] at hxd
    rw [hp] at ht'
    generalize P d = p at hxd
    generalize r d = s at hxd
    cases hxd with
    | aper hm h2 =>
      cases h2 with
      | coords h1 h2 h3 h4 =>
        obtain ⟨T, rfl, -, t3, -⟩ := knots_of_coords h1 h3 ho hm h4 h2 ht'
        exact goodKnots_of h1 h3 ho.1 hm t3

/-- The template of an interpolation function over good dimensions. -/
theorem axisReady_of (ho : 1 ≤ o ∧ o ≤ 50) (hx : ∀ d, GoodDim c o (dims d) (per d) (x d) (P d) (r d)) {t : Template D F64 F64}
    (ht : Fl.constructT w c o per dims x = .ok t) {G : ℚ} (hG : ∀ d, FactorsOf c o (per d) (t.solvers d) (t.dims d) G) :
    (t.dims = fun d => unk (per d) (pointNum c (per d) (dims d))) ∧ t.base.spline.order = o ∧ t.base.spline.periodicity = per ∧
      (∀ d, Fl.SolverOk (t.dims d) (t.solvers d)) ∧ ∀ d, ∃ T, AxisReady c t.base d o (t.dims d) (t.solvers d) (P d)
        ((((if per d then t.dims d else o : ℕ) : ℚ) * (4 * G + 1) + (7 * o + 256 * (o * r d))) / 2 ^ 53) T := by
  have hsh := shape_dims (c := c) ho hx
  have htok := (template_dims (w := w) (c := c) ho hx).get ht
  obtain ⟨hbase, htd, -⟩ := Fl.constructT_solvers hsh ht
  refine ⟨htd, hbase.order, hbase.peri, fun d => by rw [htok.dims_eq]; exact htok.solvers d, fun d => ?_⟩
  obtain ⟨vals, hv, hsol⟩ := Fl.constructT_rows hsh ht d
  have ax := hbase.ax d
  have hxd := hx d
  have hGd := hG d
  have hpd : t.base.spline.periodicity d = per d := by rw [hbase.peri]
  have hr0 := (hx d).r0
  have hU := fun a b => Fl.constructT_uniform (a := a) (b := b) (d := d) ht
  rw [htd] at hsol hGd ⊢
  dsimp only at hsol hGd ⊢
  generalize x d = y at hxd ax hU
  generalize per d = q at hxd ax hGd hpd hsol hU ⊢
  generalize P d = p at hxd ⊢
  generalize r d = s at hxd hr0 ⊢
  cases hxd with
  | aper hm hA =>
    have e : unk false (pointNum c false (dims d)) = dims d := by unfold unk pointNum; simp
    rw [e] at hsol hGd ⊢
    unfold FactorsOf at hGd
    rw [if_neg (by simp)] at hGd ⊢
    have hnear : ∃ T, AxisNear t.base d o (dims d) (t.solvers d) p (7 * o + 64 * (o * s)) T := by
      cases hA with
      | coords h1 h2 h3 h4 =>
        obtain ⟨e1, e2, e3⟩ := ax.coords _ rfl
        obtain ⟨T, t1, t2, t3, t4⟩ := knots_of_coords h1 h3 ho hm h4 h2 e2
        rw [e1] at hsol
        rw [mul_zero, mul_zero, add_zero]
        exact ⟨T, axisNear_coords ho hm hbase.order hpd ax.uni h1 h2 h3 t1 t2 t3 t4 hsol⟩
      | uniform h1 h2 =>
        have hU := hU _ _ rfl
        rw [show pointNum c false (dims d) = dims d by unfold pointNum; simp] at hU
        obtain ⟨dx, T, hT⟩ := uniRat_of ho hm h1 hU
        exact ⟨T, axisNear_uniform hT hbase.order hpd ax.uni h2 hsol⟩
    obtain ⟨T, hT⟩ := hnear
    refine ⟨T, (hT.ready ho hm hA.small.1 hpd hGd).weaken (div_le_div_of_nonneg_right ?_ (by positivity))⟩
    have : 0 ≤ (o : ℚ) * s := by positivity
    linarith
  | per h1 h2 h3 h4 h5 =>
    have e : unk true (pointNum c true (dims d)) = pointNum c true (dims d) - 1 := by unfold unk; simp
    rw [e] at hsol hGd ⊢
    unfold FactorsOf at hGd
    rw [if_pos rfl] at hGd ⊢
    obtain ⟨dx, T, hT⟩ := perRat_of ho h1 h2 h3 h4 (hU _ _ rfl)
    exact ⟨T, hT.ready hbase.order hpd ax.uni h5 hv hsol hGd⟩

end

/-- Knots and control points of an interpolation function over good dimensions. -/
theorem ready_spline {D : ℕ} {c : Cfg} {o : ℕ} (ho : 1 ≤ o ∧ o ≤ 50) {fm : Mesh (D + 1) F64} (hfm : fm.WF)
    {t : Template (D + 1) F64 F64} (hd : ∀ d, fm.dims d = t.dims d + if t.base.periodicity d && !c.noDummy then 1 else 0) (hord : t.base.spline.order = o)
    (hok : ∀ d, Fl.SolverOk (t.dims d) (t.solvers d)) {P : Fin (D + 1) → ℕ → ℚ → Prop} {ε : Fin (D + 1) → ℚ} {T : Fin (D + 1) → List ℚ}
    (hT : ∀ d, AxisReady c t.base d o (t.dims d) (t.solvers d) (P d) (ε d) (T d)) {W : Mesh (D + 1) F64} (hW : Fl.solveForControlPoints c t fm = .ok W)
    {C : ℚ} (hC : ∀ v ∈ W.storage, ∃ q, v = .fin q ∧ IsDouble q ∧ |q| ≤ C) (hC1 : 0 ≤ C ∧ C ≤ 2 ^ 1000)
    (hk1 : (D + 1) * (5 * o + 1) + 1 + (o + 1) ^ (D + 1) ≤ 2 ^ 50) :
    DoubleSpline (t.base.spline.loadCtrlPts W) C := by
  have hWok := (Fl.solveForControlPoints_safe (E := fun _ => True) (c := c) (t := t) (fm := fm) (fun _ => trivial) (fun d => (hT d).pos)
    hok hd hfm).get hW
  set g := t.base.spline.loadCtrlPts W with hg
  have gord : g.order = o := hord
  have gdim : g.ctrl.dims = t.dims := hWok.2
  have hrat : ∀ d, g.rat.knots d = T d := fun d => by
    show (t.base.spline.knots d).map F64.toRat = T d
    rw [(hT d).knots, List.map_map]
    exact List.map_id _
  have hkn : ∀ d, g.rat.kn d = knotFn (T d) := fun d => by unfold BSpline.kn; rw [hrat]
  have hrord : g.rat.order = o := gord
  have hlast : ∀ d, g.rat.last d = (T d).length - o - 2 := fun d => by
    unfold BSpline.last
    rw [hrat, hrord]
  have h900 : (0 : ℚ) < 1 / 2 ^ 900 := one_div_pos.2 (pow_pos two_pos _)
  refine ⟨⟨?_, fun d => ?_, fun d => ?_, fun d => ?_, fun d => ?_, fun d hp => ?_, fun d hp => ?_⟩, fun d v hv => ?_, fun d i h1 h2 h3 => ?_, hC, hC1,
    by rw [gord]; exact ho.2, by rw [gord]; exact hk1⟩
  · show (W.storage.map F64.toRat).length = ∏ d, W.dims d
    rw [List.length_map]
    exact hWok.1
  · rw [hrat, hkn]; exact (hT d).mono
  · rw [hrat, hrord]; exact (hT d).len
  · have := (hT d).gap o le_rfl (by have := (hT d).len; omega)
    rw [hkn, hrord]
    generalize (1 : ℚ) / 2 ^ 900 = z at *
    linarith
  · have h1 := (hT d).len
    have := (hT d).gap ((T d).length - o - 2) (by omega) (by omega)
    rw [hkn, hlast]
    generalize (1 : ℚ) / 2 ^ 900 = z at *
    linarith
  · rw [hrat, hrord]
    show _ = g.ctrl.dims d + _ + _
    rw [gdim]
    exact (hT d).aper hp
  · obtain ⟨lo, hi, e, hlt⟩ := (hT d).per hp
    refine ⟨by show 0 < g.ctrl.dims d; rw [gdim]; exact (hT d).pos, ?_⟩
    show (t.base.spline.range d).1.toRat < (t.base.spline.range d).2.toRat
    rw [e]
    exact hlt
  · have hv : v ∈ t.base.spline.knots d := hv
    rw [(hT d).knots] at hv
    obtain ⟨q, hq, rfl⟩ := List.mem_map.1 hv
    exact ⟨q, rfl, (hT d).dbl q hq⟩
  · rw [gord] at h1
    rw [hlast] at h2
    have h0 := (hT d).len
    have h4 := (hT d).gap i h1 (by omega)
    rw [hkn]
    generalize (1 : ℚ) / 2 ^ 900 = z at *
    linarith

/-- Weights of the control points of a periodic dimension at a point of the base period. -/
theorem wAt_per {D : ℕ} {b : BSpline D ℚ ℚ} (hb : b.WF) {d : Fin D} (hp : b.periodicity d = true) {x : ℚ} {s : ℕ} (hx : (b.range d).1 ≤ x ∧ x < (b.range d).2)
    (hs : IsSeg (b.kn d) b.order (b.last d) x s) (J : ℕ) : b.wAt d 0 x J = cyc (b.ctrl.dims d) (s + 1) (fun j => piece (b.kn d) s b.order j x) J := by
  have hwrap : b.wrapOf d x = x := hb.wrapOf_eq (by
    unfold IsWrap
    rw [if_pos hp]
    exact ⟨⟨0, by simp⟩, by rw [if_neg (not_lt.2 hx.1)]; exact hx⟩)
  have hseg : b.segOf d x = s := hb.segOf_eq hs
  unfold wAt wSeg
  rw [hwrap, hseg, weight_zero, sum_filter]
  unfold cyc ctrlOf
  simp only [hp, if_true]

/-- The same for derivatives. -/
theorem wAt_perD {D : ℕ} {b : BSpline D ℚ ℚ} (hb : b.WF) {d : Fin D} (hp : b.periodicity d = true) {x : ℚ} {s : ℕ} (hx : (b.range d).1 ≤ x ∧ x < (b.range d).2)
    (hs : IsSeg (b.kn d) b.order (b.last d) x s) (m J : ℕ) :
    b.wAt d m x J = cyc (b.ctrl.dims d) (s + 1) (fun j => (Polynomial.derivative^[m] (pieceP (b.kn d) s b.order j)).eval x) J := by
  have hwrap : b.wrapOf d x = x := hb.wrapOf_eq (by
    unfold IsWrap
    rw [if_pos hp]
    exact ⟨⟨0, by simp⟩, by rw [if_neg (not_lt.2 hx.1)]; exact hx⟩)
  have hseg : b.segOf d x = s := hb.segOf_eq hs
  unfold wAt wSeg
  rw [hwrap, hseg]
  unfold weight
  rw [sum_filter]
  unfold cyc ctrlOf
  simp only [hp, if_true]

/-- Weights of derivatives in a non-periodic dimension. -/
theorem wAt_aperD {D : ℕ} {b : BSpline D ℚ ℚ} (hb : b.WF) {d : Fin D} (hp : b.periodicity d = false) {x : ℚ} {s : ℕ}
    (hs : IsSeg (b.kn d) b.order (b.last d) x s) (m J : ℕ) : b.wAt d m x J = (Polynomial.derivative^[m] (pieceP (b.kn d) s b.order J)).eval x := by
  have hwrap : b.wrapOf d x = x := hb.wrapOf_eq (by
    unfold IsWrap
    rw [hp]
    simp)
  have hseg : b.segOf d x = s := hb.segOf_eq hs
  unfold wAt wSeg
  rw [hwrap, hseg, weight_aper hp]

end Intp
