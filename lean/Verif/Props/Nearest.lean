import Verif.Proofs.Nearest
import Verif.Proofs.FloatBuild
import Verif.Proofs.FloatTie
import Verif.Float64
import Verif.Props.Pivot

/-!
# C109: interpolation of order 0 takes the value at the nearest data point
-/

namespace Intp

open Finset BSpline

variable {K V : Type} [Field K] [LinearOrder K] [IsStrictOrderedRing K] [FloorRing K] [AddCommGroup V] [Module K V] {D : ℕ}

/-- Copy number `z` of data point `j` of dimension `d`: moved by `z` periods in a periodic dimension, the data point itself in others. -/
def dataCopy (c : Cfg) (per : Fin D → Bool) (dims : Fin D → ℕ) (x : Fin D → XRange K) (d : Fin D) (j : ℕ) (z : ℤ) : K :=
  (x d).node (pointNum c (per d) (dims d)) j + if per d = true then
    z * ((x d).node (pointNum c (per d) (dims d)) (pointNum c (per d) (dims d) - 1) - (x d).node (pointNum c (per d) (dims d)) 0) else 0

/-- **C109.**  With spline order 0, at a coordinate whose nearest data point in every dimension is `k` (in periodic dimensions among all copies of
the data, copy `z`; of two equally near points the one with the larger coordinate), the constructed function takes the data value of `k`. -/
theorem order_zero_nearest (c : Cfg) {per : Fin (D + 1) → Bool} {fm : Mesh (D + 1) V} {x : Fin (D + 1) → XRange K} (hm : fm.WF)
    (hv : ValidAxes c 0 per fm.dims x) {g : InterpFn (D + 1) K V} (hg : InterpFn.construct c 0 per fm x = .ok g)
    (k : Fin (D + 1) → ℕ) (hk : ∀ d, k d < pointNum c (per d) (fm.dims d)) (z : Fin (D + 1) → ℤ) (y : Fin (D + 1) → K)
    (hy : ∀ d j w, j < pointNum c (per d) (fm.dims d) → |y d - dataCopy c per fm.dims x d (k d) (z d)| ≤ |y d - dataCopy c per fm.dims x d j w| ∧
      (dataCopy c per fm.dims x d (k d) (z d) < dataCopy c per fm.dims x d j w →
        |y d - dataCopy c per fm.dims x d (k d) (z d)| < |y d - dataCopy c per fm.dims x d j w|)) :
    ∃ v, fm.get (fun d => if per d = true ∧ k d + 1 = pointNum c (per d) (fm.dims d) then 0 else k d) = .ok v ∧ g.call y = .ok v := by
  obtain ⟨F, hF⟩ := fm.exists_holds hm
  obtain ⟨-, C, hC, hE⟩ := (InterpFn.construct_spec (c := c) hv rfl hF).get hg
  have hfold : foldIx c per fm.dims k = fun d => if per d = true ∧ k d + 1 = pointNum c (per d) (fm.dims d) then 0 else k d := by
    funext d
    have := hk d
    unfold foldIx unk
    cases hp : per d <;> rw [hp] at this <;> simp
    · intro h; omega
    · by_cases h : k d + 1 = pointNum c true (fm.dims d)
      · rw [if_pos (by omega), if_pos h]
      · rw [if_neg (by omega), if_neg h]
  refine ⟨F (foldIx c per fm.dims k), ?_, ?_⟩
  · rw [hfold]
    refine hF.get fun d => ?_
    have h1 := hv.dims_eq d
    have h2 := (hv d).unk_pos
    have h3 := hk d
    unfold unk pointNum at *
    cases hp : per d <;> cases hn : c.noDummy <;> simp [hp, hn] at h1 h2 h3 ⊢ <;> (try split) <;> omega
  rw [hC.call hv, ← hC.node_val hv hE hk]
  unfold BSpline.val
  congr 2
  funext d J
  have hw := hC.wf hv
  have hn := hC.dims_eq d
  have hkd := hk d
  have hyd := hy d
  have hvd := hv d
  unfold dataCopy at hyd
  have hkn : ∀ i, i + 1 < pointNum c (per d) (fm.dims d) → g.spline.kn d (i + 1) = ((x d).node (pointNum c (per d) (fm.dims d)) i +
      (x d).node (pointNum c (per d) (fm.dims d)) (i + 1)) / 2 := fun i hi => by unfold kn; rw [hC.knots]; exact hvd.knot_zero hi
  have hlt : ∀ i, i + 1 < pointNum c (per d) (fm.dims d) → (x d).node (pointNum c (per d) (fm.dims d)) i <
      (x d).node (pointNum c (per d) (fm.dims d)) (i + 1) := fun i hi => hvd.node_lt (Nat.lt_succ_self _) hi
  unfold nodeAt
  cases hp : per d with
  | false =>
    rw [hp] at hkd hyd hkn hlt hn
    have hu : unk false (pointNum c false (fm.dims d)) = pointNum c false (fm.dims d) := rfl
    rw [hu] at hn
    simp only [Bool.false_eq_true, if_false, add_zero] at hyd
    have := hC.wAt_zero hv d (k := k d) (by omega) (w := y d) ?_ ?_ J
    · rwa [hp] at this
    · rcases Nat.eq_zero_or_pos (k d) with e | e
      · exact .inl ⟨hp, e⟩
      · right
        obtain ⟨j, hj⟩ : ∃ j, k d = j + 1 := ⟨k d - 1, by omega⟩
        rw [hj] at hyd hkd ⊢
        rw [hkn j hkd]
        exact mid_le (hlt j hkd) (hyd j 0 (by omega)).1
    · rcases Nat.eq_or_lt_of_le (show k d + 1 ≤ g.spline.ctrl.dims d by omega) with e | e
      · exact .inl ⟨hp, e⟩
      · right
        rw [hkn _ (by omega)]
        exact lt_mid (hlt _ (by omega)) ((hyd (k d + 1) 0 (by omega)).2 (hlt _ (by omega)))
  | true =>
    have hN := hvd.periodic hp
    have hper := hC.period hv hp
    have hpk := hC.perKnots hv hp
    have ax := hC.axisP hv hp
    rw [hp] at hkd hyd hkn hlt hn ax hper hN
    have hu : unk true (pointNum c true (fm.dims d)) = pointNum c true (fm.dims d) - 1 := rfl
    rw [hu] at hn
    set N := pointNum c true (fm.dims d) with hNdef
    set X := (x d).node N with hX
    set P := X (N - 1) - X 0 with hP
    rw [hn] at hper ax
    simp only [if_true] at hyd
    have hP0 : 0 < P := by
      have : X 0 < X (N - 1) := by
        have := hvd.node_lt (i := 0) (j := N - 1) (by omega) (by rw [hp]; omega)
        rwa [hp] at this
      linarith
    -- the copy of the first point at the end of the period is the first point of the next period
    obtain ⟨k', z', hk', he, hJ⟩ : ∃ (k' : ℕ) (z' : ℤ), k' + 1 < N ∧ X (k d) + (z d : K) * P = X k' + (z' : K) * P ∧
        g.spline.wAt d 0 (X (k d)) J = g.spline.wAt d 0 (X k') J := by
      by_cases e : k d + 1 < N
      · exact ⟨k d, z d, e, rfl, rfl⟩
      · refine ⟨0, z d + 1, by omega, ?_, ?_⟩
        · rw [show k d = N - 1 by omega]; push_cast; ring
        · have := hC.wAt_dummy hv hp J
          rw [hp, hn] at this
          rw [show k d = N - 1 by omega]
          exact this
    rw [hJ]
    rw [he] at hyd
    set w := y d - (z' : K) * P with hw'
    have hyw : y d = w + (z' : K) * ((g.spline.range d).2 - (g.spline.range d).1) := by rw [hper, hw']; ring
    rw [hyw, hw.wAt_periodic hpk z' w J (.inr (by rw [hC.order]))]
    have hab : ∀ j (u : ℤ), |y d - (X j + (u : K) * P)| = |w - (X j + ((u - z' : ℤ) : K) * P)| := fun j u => by
      rw [hw']; congr 1; push_cast; ring
    have hab' : |y d - (X k' + (z' : K) * P)| = |w - X k'| := by rw [hab]; congr 1; push_cast; ring
    have := hC.wAt_zero hv d (k := k') (by omega) (w := w) (.inr ?_) (.inr ?_) J
    · rwa [hp] at this
    · rcases Nat.eq_zero_or_pos k' with e | e
      · have h0 := ax.shift 0 (.inr rfl) (by have := ax.len; omega)
        have h1 := hkn (N - 2) (by omega)
        rw [show N - 2 + 1 = N - 1 by omega] at h1
        unfold kn at h1 ⊢
        rw [Nat.zero_add] at h0
        have h2 := (hyd (N - 2) (z' - 1) (by omega)).1
        rw [hab', hab, e] at h2
        have h3 := hlt (N - 2) (by omega)
        rw [show N - 2 + 1 = N - 1 by omega] at h3
        have h4 := mid_le (q := X (N - 2) + ((z' - 1 - z' : ℤ) : K) * P) (by push_cast; linarith) h2
        push_cast at h4
        rw [e]
        linarith
      · obtain ⟨j, hj⟩ : ∃ j, k' = j + 1 := ⟨k' - 1, by omega⟩
        rw [hj, hkn j (by omega)]
        have h2 := (hyd j z' (by omega)).1
        rw [hab', hab, hj, sub_self, Int.cast_zero, zero_mul, add_zero] at h2
        exact mid_le (hlt j (by omega)) h2
    · rw [hkn k' hk']
      have h2 := (hyd (k' + 1) z' hk').2 (by linarith [hlt k' hk'])
      rw [hab', hab, sub_self, Int.cast_zero, zero_mul, add_zero] at h2
      exact lt_mid (hlt k' hk') h2

/-- **C109, every coordinate.**  With spline order 0 the constructed function takes no other values than data values, at all coordinates (also outside
the range of the data). -/
theorem order_zero_values (c : Cfg) {per : Fin (D + 1) → Bool} {fm : Mesh (D + 1) V} {x : Fin (D + 1) → XRange K} (hm : fm.WF)
    (hv : ValidAxes c 0 per fm.dims x) {g : InterpFn (D + 1) K V} (hg : InterpFn.construct c 0 per fm x = .ok g) (y : Fin (D + 1) → K) :
    ∃ I v, (∀ d, I d < fm.dims d) ∧ fm.get I = .ok v ∧ g.call y = .ok v := by
  obtain ⟨F, hF⟩ := fm.exists_holds hm
  obtain ⟨-, C, hC, hE⟩ := (InterpFn.construct_spec (c := c) hv rfl hF).get hg
  choose k hk hkw using fun d => hC.wAt_zero_exists hv d (y d)
  have hkn : ∀ d, k d < pointNum c (per d) (fm.dims d) := fun d => by
    have := hk d
    rw [hC.dims_eq] at this
    unfold unk at this
    omega
  have hin : ∀ d, foldIx c per fm.dims k d < fm.dims d := fun d => by
    have h1 := hv.dims_eq d
    have h2 := (hv d).unk_pos
    have h3 := hkn d
    unfold foldIx unk pointNum at *
    cases hp : per d <;> cases hn : c.noDummy <;> simp [hp, hn] at h1 h2 h3 ⊢ <;> (try split) <;> omega
  refine ⟨foldIx c per fm.dims k, F (foldIx c per fm.dims k), hin, hF.get hin, ?_⟩
  rw [hC.call hv, ← hC.node_val hv hE hkn]
  unfold BSpline.val
  congr 2
  funext d J
  exact hkw d J

/-- **C109, existence.**  Construction of order 0 succeeds for all valid axes and all data. -/
theorem order_zero_succeeds (c : Cfg) {per : Fin (D + 1) → Bool} {fm : Mesh (D + 1) V} {x : Fin (D + 1) → XRange K} (hm : fm.WF)
    (hv : ValidAxes c 0 per fm.dims x) : ∃ g, InterpFn.construct c 0 per fm x = .ok g :=
  periodic_construct_ok_partial c hm hv fun _ _ => .inr (by norm_num)

/-! ## explicit coordinates of non-periodic dimensions -/

section
variable {K V : Type} [CoordArith K] [ValArith V] [ScaleArith K V] {D : ℕ}

theorem Spec.trivial {α : Type} (m : M α) : Spec m (fun _ => True) (fun _ => True) := by cases m <;> exact True.intro

/-- **C109 fails for explicit coordinates of a non-periodic dimension.**  Whatever the operations do, knots of order 0 are never made: the iterator
runs past the end of the coordinates (undefined behaviour), or the division of the window sum by the order 0 has failed before. -/
theorem order_zero_coords_overread (l : List K) :
    Spec (Fl.coordKnotsRaw 0 false l) (fun _ => False) (fun e => e = .oob ∨ e = .divZero ∧ CoordArith.divErr K) := by
  unfold Fl.coordKnotsRaw Fl.coordKnotsAperiodic
  simp only [Bool.false_eq_true, if_false]
  cases l with
  | nil => exact .inl rfl
  | cons a l =>
    rw [rd_ok (by simp), ok_bind]
    refine Spec.bind (Q := fun xs => xs.length = (a :: l).length + 1) ?_ fun xs hxs => ?_
    · refine Spec.loop' (P := fun _ (xs : List K) => xs.length = (a :: l).length + 1) (by simp) fun i s _ hi hs => ?_
      rw [wr_ok (by omega)]
      exact Spec.ok (by simpa using hs)
    rw [loop_empty (by omega), ok_bind]
    refine Spec.bind (Q := fun st => st.pos + 1 = (a :: l).length) ?_ fun st hst => ?_
    · refine Spec.imp (Spec.loop (P := fun i st => st.pos + 1 = i ∧ st.ic.length = i ∧ st.xs.length = (a :: l).length + 1) (by simp)
        ⟨rfl, rfl, hxs⟩ fun i st h1 h2 hs => ?_) fun st hs => hs.1
      obtain ⟨p1, p2, p3⟩ := hs
      rw [rd_ok (by omega), ok_bind, subM_ok h1, ok_bind, rd_ok (by simp; omega), ok_bind]
      refine Spec.bind (Spec.mono (CoordArith.div_err _ _) (fun _ h => h) fun e h => .inr h) fun q _ => ?_
      rw [wr_ok (by omega), ok_bind, subM_ok (by omega), ok_bind, rd_ok (by simp; omega), ok_bind]
      exact Spec.pure ⟨by simp; omega, by simp; omega, by simpa using p3⟩
    have : rd (a :: l) (st.pos + 1) = .error .oob := by
      unfold rd
      rw [List.getElem?_eq_none (by omega)]
    rw [this]
    exact .inl rfl

/-- **C109 fails for explicit coordinates of a non-periodic dimension**: no construction of order 0 with such a dimension succeeds. -/
theorem order_zero_coords_fail (w : Bool) (c : Cfg) {per : Fin (D + 1) → Bool} {fm : Mesh (D + 1) V} {x : Fin (D + 1) → XRange K} {d : Fin (D + 1)}
    (hp : per d = false) {l : List K} (hx : x d = .coords l) (g : InterpFn (D + 1) K V) : Fl.construct w c 0 per fm x ≠ .ok g := by
  suffices h : Spec (Fl.partialConstruct (V := V) c 0 per fm.dims x) (fun _ => False) (fun _ => True) by
    intro hg
    have h2 : Spec (Fl.construct w c 0 per fm x) (fun _ => False) (fun _ => True) := by
      unfold Fl.construct Fl.constructT
      exact Spec.bind (Spec.bind (S := fun _ => False) h fun _ h => h.elim) fun _ h => h.elim
    exact h2.get hg
  unfold Fl.partialConstruct
  refine Spec.imp (Spec.foldFin (P := fun k r => r.1.spline.order = 0 ∧ r.1.spline.periodicity = per ∧ k ≤ d.val) ⟨rfl, rfl, Nat.zero_le _⟩ ?_)
    fun r h => absurd h.2.2 (by have := d.isLt; omega)
  rintro e r ⟨h1, h2, h3⟩
  have load : ∀ t, Spec (r.1.spline.loadKnots e t) (fun s => s.order = 0 ∧ s.periodicity = per) (fun _ => True) := fun t => by
    unfold BSpline.loadKnots
    exact Spec.bind (Spec.trivial _) fun _ _ => Spec.bind (Spec.trivial _) fun _ _ => Spec.bind (Spec.trivial _) fun _ _ =>
      Spec.bind (Spec.trivial _) fun _ _ => Spec.pure ⟨h1, h2⟩
  unfold Fl.createKnotVector
  by_cases hed : e = d
  · subst hed
    have hpe : r.1.periodicity e = false := (congrFun h2 e).trans hp
    simp only [hx, h1, hpe]
    refine Spec.bind (Q := fun _ => False) ?_ fun _ h => h.elim
    unfold Fl.coordKnots
    exact Spec.bind (Spec.trivial _) fun _ _ => Spec.bind (Spec.mono (order_zero_coords_overread l) (fun _ h => h) fun _ _ => True.intro)
      fun _ h => h.elim
  · have hle : e.val + 1 ≤ d.val := by
      have : e.val ≠ d.val := fun h => hed (Fin.ext h)
      omega
    cases x e with
    | uniform a b =>
      exact Spec.bind (Spec.trivial _) fun _ _ => Spec.bind (Spec.trivial _) fun t _ => Spec.bind (load t) fun s hs => Spec.pure ⟨hs.1, hs.2, hle⟩
    | coords l' => exact Spec.bind (Spec.trivial _) fun t _ => Spec.bind (load t.1) fun s hs => Spec.pure ⟨hs.1, hs.2, hle⟩

end

/-- **C109, witness in `double`**: the four coordinates 0, 1, 2, 3. -/
theorem order_zero_double_overread : Fl.coordKnotsRaw 0 false [(F64.fin 0), F64.fin 1, F64.fin 2, F64.fin 3] = .error .oob := by
  have h := order_zero_coords_overread [(F64.fin 0), F64.fin 1, F64.fin 2, F64.fin 3]
  cases e : Fl.coordKnotsRaw 0 false [(F64.fin 0), F64.fin 1, F64.fin 2, F64.fin 3] with
  | ok _ => rw [e] at h; exact h.elim
  | error r =>
    rw [e] at h
    rcases h with h | h
    · rw [h]
    · exact h.2.elim

namespace NearestExample

/-- 4 × 4 data: a uniform dimension and a periodic one with uneven coordinates. -/
def data : Mesh 2 ℚ := ⟨fun _ => 4, [1, 2, -1, 1, 0, 5, 2, 0, 7, 1, 3, 7, -2, 3, 6, -2]⟩

def per : Fin 2 → Bool := ![false, true]

def x : Fin 2 → XRange ℚ := ![.uniform 0 3, .coords [0, 1, 3, 7]]

def cfg : Cfg := ⟨true, false⟩

theorem valid : ValidAxes cfg 0 per (fun _ => 4) x := by
  intro d
  fin_cases d
  · refine ⟨by simp [per], fun _ => by simp [pointNum, cfg], ?_, by simp [x]⟩
    intro a b h
    injection h with h1 h2
    subst h1 h2
    norm_num
  · refine ⟨fun _ => by simp [pointNum, cfg, per], by simp [per], by simp [x], ?_⟩
    intro l hl
    injection hl with hl
    subst hl
    refine ⟨rfl, fun i hi => ?_, by simp [per]⟩
    have : i < 3 := by simp [pointNum, cfg, per] at hi; omega
    interval_cases i <;> norm_num

/-- Values: at (1/2, -3/2), halfway between two points of the first dimension, nearest to the point 0 of the second; at (-5, 5 + 14), halfway between
the points 3 and 7 two periods later; and at (9, 4). -/
example : (do
    let g ← InterpFn.construct cfg 0 per data x
    let u ← g.call ![1 / 2, -3 / 2]
    let v ← g.call ![-5, 19]
    let w ← g.call ![9, 4]
    pure (u, v, w) : M (ℚ × ℚ × ℚ)) = .ok (0, 1, 6) := by decide +kernel

/-- `order_zero_nearest` applies: (5/4, 9/4 + 7) is nearest to data point (1, 2), one period away. -/
example {g : InterpFn 2 ℚ ℚ} (hg : InterpFn.construct cfg 0 per data x = .ok g) : ∃ v, data.get ![1, 2] = .ok v ∧ g.call ![5 / 4, 9 / 4 + 7] = .ok v := by
  have := order_zero_nearest cfg (fm := data) rfl valid hg ![1, 2] (fun d => by fin_cases d <;> decide) (fun _ => 1) ![5 / 4, 9 / 4 + 7] ?_
  · refine Exists.imp (fun v hv => ⟨?_, hv.2⟩) this
    rw [← hv.1]
    congr 1
    funext d
    fin_cases d <;> decide
  · intro d j w hj
    fin_cases d
    · have hj' : j < 4 := hj
      show |(5 / 4 : ℚ) - ((0 + ((1 : ℕ) : ℚ) * ((3 - 0) / ((4 : ℕ) - 1))) + 0)| ≤ |(5 / 4 : ℚ) - ((0 + (j : ℚ) * ((3 - 0) / ((4 : ℕ) - 1))) + 0)| ∧
        ((0 + ((1 : ℕ) : ℚ) * ((3 - 0) / ((4 : ℕ) - 1))) + 0 < (0 + (j : ℚ) * ((3 - 0) / ((4 : ℕ) - 1))) + 0 →
          |(5 / 4 : ℚ) - ((0 + ((1 : ℕ) : ℚ) * ((3 - 0) / ((4 : ℕ) - 1))) + 0)| < |(5 / 4 : ℚ) - ((0 + (j : ℚ) * ((3 - 0) / ((4 : ℕ) - 1))) + 0)|)
      interval_cases j <;> norm_num [abs_of_nonneg, abs_of_nonpos]
    · have hj' : j < 4 := hj
      show |(9 / 4 + 7 : ℚ) - (3 + ((1 : ℤ) : ℚ) * (7 - 0))| ≤ |(9 / 4 + 7 : ℚ) - ([(0 : ℚ), 1, 3, 7].getD j 0 + (w : ℚ) * (7 - 0))| ∧
        ((3 + ((1 : ℤ) : ℚ) * (7 - 0)) < [(0 : ℚ), 1, 3, 7].getD j 0 + (w : ℚ) * (7 - 0) →
          |(9 / 4 + 7 : ℚ) - (3 + ((1 : ℤ) : ℚ) * (7 - 0))| < |(9 / 4 + 7 : ℚ) - ([(0 : ℚ), 1, 3, 7].getD j 0 + (w : ℚ) * (7 - 0))|)
      have e : |(9 / 4 + 7 : ℚ) - (3 + ((1 : ℤ) : ℚ) * (7 - 0))| = 3 / 4 := by norm_num [abs_of_nonpos]
      rw [e]
      have hc : (w : ℚ) ≤ 0 ∨ (w : ℚ) = 1 ∨ 2 ≤ (w : ℚ) := by
        rcases lt_trichotomy w 1 with h | h | h
        · exact .inl (by exact_mod_cast Int.le_of_lt_add_one h)
        · exact .inr (.inl (by rw [h]; norm_num))
        · exact .inr (.inr (by exact_mod_cast h))
      have h1 : ∀ q : ℚ, (q ≤ 17 / 2 ∨ q = 10 ∨ 11 ≤ q) → 3 / 4 ≤ |(9 / 4 + 7 : ℚ) - q| ∧ (3 + ((1 : ℤ) : ℚ) * (7 - 0) < q → 3 / 4 < |(9 / 4 + 7 : ℚ) - q|) := by
        rintro q (h | h | h)
        · rw [abs_of_nonneg (by linarith)]; exact ⟨by linarith, fun h' => by push_cast at h'; linarith⟩
        · rw [h]; norm_num [abs_of_nonpos]
        · rw [abs_of_nonpos (by linarith)]; exact ⟨by linarith, fun h' => by push_cast at h'; linarith⟩
      refine h1 _ ?_
      interval_cases j <;> simp only [List.getD_cons_zero, List.getD_cons_succ] <;> rcases hc with h | h | h <;>
        first
        | exact .inl (by linarith)
        | exact .inr (.inl (by linarith))
        | exact .inr (.inr (by linarith))

end NearestExample

end Intp
