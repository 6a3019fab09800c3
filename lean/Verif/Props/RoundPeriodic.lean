import Verif.Proofs.PerAxes

/-!
# C89: values at the data points in `double`, with periodic uniform dimensions

Each dimension is periodic and uniform, or not periodic and given by explicit coordinates or by the two ends of its range.
-/

namespace Intp

open Finset BSpline

/-- **C89**, conditions on the inputs and on the stored factors only.  `I` is a data point other than those that repeat the first one of a periodic dimension and
`y d` is a coordinate of it: in a periodic dimension any `double` from `a` on within `8 B / 2^53` of `a + i (b - a) / (n - 1)`.  `L` is the number of
terms of one step of the substitutions: the order in a non-periodic dimension, all entries in a periodic one. -/
theorem double_interpolates_periodic {D : ℕ} (w : Bool) (c : Cfg) {o : ℕ} (ho : 1 ≤ o ∧ o ≤ 50) {per : Fin (D + 1) → Bool} {fm : Mesh (D + 1) F64}
    (hfm : fm.WF) {x : Fin (D + 1) → XRange F64} {P : Fin (D + 1) → ℕ → ℚ → Prop} {r : Fin (D + 1) → ℚ}
    (hx : ∀ d, GoodDim c o (fm.dims d) (per d) (x d) (P d) (r d)) {R : ℚ} (hr : ∀ d, r d ≤ R)
    {t : Template (D + 1) F64 F64} (ht : Fl.constructT w c o per fm.dims x = .ok t)
    {g : InterpFn (D + 1) F64 F64} (hg : Fl.construct w c o per fm x = .ok g)
    {C : ℚ} (hC : ∀ v ∈ g.spline.ctrl.storage, ∃ q, v = .fin q ∧ IsDouble q ∧ |q| ≤ C) (hC1 : 0 ≤ C ∧ C ≤ 2 ^ 1000)
    {G : ℚ} (hG : ∀ d, FactorsOf c o (per d) (t.solvers d) (unk (per d) (pointNum c (per d) (fm.dims d))) G)
    {L : ℕ} (hL : ∀ d, (if per d then fm.dims d else o) ≤ L) {E : ℚ} (hE : E = (D + 1) * (L * (4 * G + 1) + o * (7 + 256 * R))) (hE1 : E ≤ 2 ^ 50)
    {k : ℕ} (hk : k = (D + 1) * (5 * o + 1) + 1 + (o + 1) ^ (D + 1)) (hk1 : k ≤ 2 ^ 50)
    {I : Fin (D + 1) → ℕ} (hI : InRange (fun d => unk (per d) (pointNum c (per d) (fm.dims d))) I)
    {y : Fin (D + 1) → ℚ} (hy : ∀ d, P d (I d) (y d)) :
    ∃ v q, Fl.call g (fun d => .fin (y d)) = .ok (.fin v) ∧ fm.get I = .ok (.fin q) ∧ |v - q| ≤ (3 * k + 2 * E) / 2 ^ 53 * C + 1 / 2 ^ 100 := by
  have htd := (Fl.constructT_solvers (shape_dims ho hx) ht).2.1
  obtain ⟨-, hord, hper, hok, hax⟩ := axisReady_of ho hx ht (G := G) (fun d => by rw [htd]; exact hG d)
  choose T hT using hax
  rw [← htd] at hI
  unfold Fl.construct at hg
  rw [ht, ok_bind] at hg
  obtain ⟨W, hW, hg⟩ : ∃ W, Fl.solveForControlPoints c t fm = .ok W ∧
      (.ok { t.base with spline := t.base.spline.loadCtrlPts W } : M (InterpFn (D + 1) F64 F64)) = .ok g := by
    cases h : Fl.solveForControlPoints c t fm with
    | error e => rw [h] at hg; cases hg
    | ok W => rw [h, ok_bind] at hg; exact ⟨W, rfl, hg⟩
  have hg := (Except.ok.inj hg).symm
  have gsp : g.spline = t.base.spline.loadCtrlPts W := by rw [hg]
  have hsh := shape_dims (c := c) ho hx
  have hd : ∀ d, fm.dims d = t.dims d + if t.base.periodicity d && !c.noDummy then 1 else 0 := fun d => by
    rw [show t.base.periodicity d = per d by rw [← hper]; rfl, htd]
    have h1 := (hsh d).periodic
    dsimp only
    generalize per d = q at h1 ⊢
    unfold unk pointNum at *
    generalize c.noDummy = z at h1 ⊢
    cases q <;> cases z <;> simp at h1 ⊢
    omega
  have hb : DoubleSpline g.spline C := by
    rw [gsp] at hC ⊢
    exact ready_spline ho hfm hd hord hok hT hW hC hC1 (hk ▸ hk1)
  have gord : g.spline.order = o := by rw [gsp]; exact hord
  have gper : ∀ d, g.spline.periodicity d = t.base.spline.periodicity d := fun d => by rw [gsp]; rfl
  have grange : ∀ d, g.spline.range d = t.base.spline.range d := fun d => by rw [gsp]; rfl
  have gdims : g.spline.ctrl.dims = t.dims := by
    rw [gsp]
    exact ((Fl.solveForControlPoints_safe (E := fun _ => True) (c := c) (t := t) (fm := fm) (fun _ => trivial) (fun d => (hT d).pos) hok hd hfm).get hW).2
  have gkn : ∀ d, g.spline.rat.kn d = knotFn (T d) := fun d => by
    unfold BSpline.kn
    have : g.spline.rat.knots d = (t.base.spline.knots d).map F64.toRat := by rw [gsp]; rfl
    rw [this, (hT d).knots, List.map_map]
    exact congrArg knotFn (List.map_id _)
  have hlast : ∀ d, g.spline.rat.last d = (T d).length - o - 2 := fun d => by
    unfold BSpline.last
    rw [show g.spline.rat.knots d = (t.base.spline.knots d).map F64.toRat by rw [gsp]; rfl, (hT d).knots, List.length_map, List.length_map,
      show g.spline.rat.order = o from gord]
  have hG0 : 0 ≤ G := (hG 0).nonneg (by rw [← show t.dims 0 = _ from congrFun htd 0]; exact (hT 0).pos)
  have hR0 : 0 ≤ R := (hx 0).r0.trans (hr 0)
  choose u Wm s b1 b2 b3 b4 b5 hh w0 w1 w2 w3 w4 using fun d => (hT d).pt (I d) (y d) (hI d) (hy d)
  have ho0 : (0 : ℚ) ≤ o := Nat.cast_nonneg _
  have hDε : ((D : ℚ) + 1) * ((L * (4 * G + 1) + (7 * o + 256 * (o * R))) / 2 ^ 53) = E / 2 ^ 53 := by rw [hE]; ring
  obtain ⟨v, q, h1, h2, h3⟩ := interp_core hfm (fun d => (hT d).pos) hd hW hg hb (Wm := Wm) (fun d i J hi _ => w0 d i J hi) w1
    (ε := (L * (4 * G + 1) + (7 * o + 256 * (o * R))) / 2 ^ 53) (by positivity)
    (by rw [hDε, div_le_iff₀ (by positivity)]; exact hE1.trans (by norm_num))
    (fun d => by
      refine AxisSolves.mono (w2 d) (div_le_div_of_nonneg_right ?_ (by positivity))
      have h1 := mul_le_mul_of_nonneg_left (hr d) ho0
      have h2 : ((if per d then t.dims d else o : ℕ) : ℚ) ≤ L := by
        have h3 := hL d
        have h4 := hd d
        have : (if per d then t.dims d else o : ℕ) ≤ L := le_trans (by split <;> omega) h3
        exact_mod_cast this
      have h3 := mul_le_mul_of_nonneg_right h2 (show 0 ≤ 4 * G + 1 by linarith)
      linarith)
    (k := k) (by rw [hk, hord]) (I := I) hI (x := fun d => .fin (y d)) (w := u)
    ⟨fun d => by
      have := b1 d
      rw [gper, grange]
      by_cases hp : t.base.spline.periodicity d = true
      · rw [if_pos hp] at this ⊢; exact this
      · rw [if_neg hp] at this ⊢; rw [this], b2, fun d => by
      rw [gkn, gord, hlast]
      exact ⟨b3 d, b4 d⟩, fun d h => by
      show (g.spline.range d).1.toRat ≤ _ ∧ _ < (g.spline.range d).2.toRat
      rw [grange]
      exact b5 d (by rw [← gper]; exact h)⟩
    (fun d J hJ => by
      have hseg : IsSeg (g.spline.rat.kn d) g.spline.rat.order (g.spline.rat.last d) (u d) (s d) := by
        rw [gkn, show g.spline.rat.order = o from gord, hlast]; exact w3 d
      have hW4 := w4 d J
      rw [show Template.shiftIx t.base.spline.order t.base.periodicity t.dims I d = (I d + rowShift o (t.base.spline.periodicity d)) % t.dims d by rw [← hord]; rfl, hW4]
      by_cases hp : t.base.spline.periodicity d = true
      · rw [if_pos hp, wAt_per hb.wf (show g.spline.rat.periodicity d = true from (gper d).trans hp) (by
          show (g.spline.range d).1.toRat ≤ _ ∧ _ < (g.spline.range d).2.toRat
          rw [grange]
          exact b5 d hp) hseg J, gkn, show g.spline.rat.order = o from gord, show g.spline.rat.ctrl.dims = t.dims from gdims]
      · rw [if_neg hp, wAt_aper hb.wf (show g.spline.rat.periodicity d = false from (gper d).trans (by simpa using hp)) hseg J, gkn,
          show g.spline.rat.order = o from gord])
    (fun d => by rw [hg]; exact hh d)
  refine ⟨v, q, h1, h2, h3.trans (le_of_eq ?_)⟩
  rw [hDε]; ring

/-- The stored factors of a dimension with `n` unknowns are finite and not larger than `m` in absolute value. -/
def FactorsLe (c : Cfg) (o : ℕ) (per : Bool) (sol : Solver F64) (n : ℕ) (m : ℚ) : Prop :=
  if per then ∃ (lu : LUState (ExtBandMatrix F64)) (C : ℕ → ℕ → ℚ), sol = .ext lu ∧
    ∀ i j, i < n → j < n → InPat n (o / 2) (o / 2) i j → lu.store.get c i j = .ok (.fin (C i j)) ∧ |C i j| ≤ m
  else ∃ (lu : LUState (BandMatrix F64)) (C : ℕ → ℕ → ℚ), sol = .band lu ∧
    ∀ i j, i < n → j < n → i ≤ j + (o - 1) ∧ j ≤ i + (o - 1) → lu.store.get c i j = .ok (.fin (C i j)) ∧ |C i j| ≤ m

theorem factors_sum_le {n : ℕ} {S : ℕ → ℕ → Prop} {C : ℕ → ℕ → ℚ} {m : ℚ} (hm : 1 ≤ m) (h : ∀ i j, i < n → j < n → S i j → |C i j| ≤ m) (i : Fin n) :
    ∑ k, |factorL id S C n i k| * ∑ j, |factorU id S C n k j| ≤ (n * m) * (n * m) := by
  have hL : ∀ k, |factorL id S C n i k| ≤ m := fun k => by
    unfold factorL
    rw [Matrix.of_apply]
    split
    · rw [abs_one]; exact hm
    · split
      · rename_i h1
        exact h _ _ i.isLt k.isLt h1.2
      · rw [abs_zero]; linarith
  have hU : ∀ k, ∑ j, |factorU id S C n k j| ≤ n * m := fun k => by
    refine (sum_le_card_nsmul _ _ m fun j _ => ?_).trans (le_of_eq (by simp))
    unfold factorU
    rw [Matrix.of_apply]
    split
    · rename_i h1
      exact h _ _ k.isLt j.isLt h1.2
    · rw [abs_zero]; linarith
  refine (sum_le_card_nsmul _ _ (m * (n * m)) fun k _ => mul_le_mul (hL k) (hU k) (sum_nonneg fun _ _ => abs_nonneg _) (by linarith)).trans (le_of_eq ?_)
  simp
  ring

theorem FactorsLe.of {c : Cfg} {o : ℕ} {per : Bool} {sol : Solver F64} {n : ℕ} {m : ℚ} (hm : 1 ≤ m ∧ m ≤ 2 ^ 300) (h : FactorsLe c o per sol n m) :
    FactorsOf c o per sol n ((n * m) * (n * m)) := by
  unfold FactorsLe at h
  unfold FactorsOf
  split
  · rename_i hp
    rw [if_pos hp] at h
    obtain ⟨lu, C, h1, h2⟩ := h
    exact ⟨lu, C, h1, fun i j hi hj hs => ⟨(h2 i j hi hj hs).1, (h2 i j hi hj hs).2.trans hm.2⟩, factors_sum_le hm.1 fun i j hi hj hs => (h2 i j hi hj hs).2⟩
  · rename_i hp
    rw [if_neg hp] at h
    obtain ⟨lu, C, h1, h2⟩ := h
    have h400 : (2 : ℚ) ^ 300 ≤ 2 ^ 400 := by decide +kernel
    exact ⟨lu, C, h1, fun i j hi hj hs => ⟨(h2 i j hi hj hs).1, ((h2 i j hi hj hs).2.trans hm.2).trans h400⟩,
      factors_sum_le hm.1 fun i j hi hj hs => (h2 i j hi hj hs).2⟩

/-! ## A case: order 3, six equidistant points of `[0, 1]` of which the last repeats the first, five uneven coordinates in the second dimension -/

namespace RoundPeriodicExample

def cfg : Cfg := ⟨true, false⟩
def xs : List ℚ := [0, 1 / 2, 7 / 4, 3, 4]
def X : ℕ → ℚ := fun i => xs.getD i 0
def values : List ℚ := [1, -2, 1 / 2, 4, 3, 1, 0, 2, -1, 5, 3 / 4, 2, 2, 1, 1, -3, 0, 1, 7, 2, -1 / 4, 6, 3, 1, 1, 1, -2, 1 / 2, 4, 3]
def data : Mesh 2 F64 := ⟨![6, 5], values.map F64.fin⟩
def range : Fin 2 → XRange F64 := ![.uniform (.fin 0) (.fin 1), .coords (xs.map F64.fin)]
def per : Fin 2 → Bool := ![true, false]

def template : M (Template 2 F64 F64) := Fl.constructT false cfg 3 per data.dims range
def fn : M (InterpFn 2 F64 F64) := Fl.construct false cfg 3 per data range

/-- The stored number is finite and not larger than 1. -/
def leB (v : M F64) : Bool := match v with
  | .ok v => decide (v = .fin v.toRat ∧ |v.toRat| ≤ 1)
  | .error _ => false

instance (n p q i j : ℕ) : Decidable (InPat n p q i j) := inferInstanceAs (Decidable (InBand p q i j ∨ InSide n p q i j))

/-- Entries of the factors, 0 where nothing is stored. -/
def entry (v : M F64) : ℚ := match v with
  | .ok v => v.toRat
  | .error _ => 0

theorem le_of {v : M F64} (h : leB v = true) : v = .ok (.fin (entry v)) ∧ |entry v| ≤ 1 := by
  unfold leB at h
  cases v with
  | ok v => exact ⟨congrArg Except.ok (of_decide_eq_true h).1, (of_decide_eq_true h).2⟩
  | error e => cases h

def extB (s : Solver F64) : Bool := match s with
  | .ext lu => (List.range 5).all fun i => (List.range 5).all fun j => !decide (InPat 5 (3 / 2) (3 / 2) i j) || leB (lu.store.get cfg i j)
  | _ => false

def bandB (s : Solver F64) : Bool := match s with
  | .band lu => decide (∀ i < 5, ∀ j < 5, i ≤ j + (3 - 1) ∧ j ≤ i + (3 - 1) → leB (lu.store.get cfg i j) = true)
  | _ => false

/-- Coordinates of the data points: a double next to `i / 5`, and coordinate `j`. -/
def P : Fin 2 → ℕ → ℚ → Prop := ![fun i x => IsDouble x ∧ 0 ≤ x ∧ |x - (0 + i * (1 / 5))| ≤ 8 * 1 / 2 ^ 53, fun i x => x = X i]

theorem good : ∀ d, GoodDim cfg 3 (data.dims d) (per d) (range d) (P d) (![5, 0] d) := by
  intro d
  match d with
  | 0 =>
    refine GoodDim.per (B := 1) (H := 1 / 5) (by decide) ⟨by decide, by decide, ?_, ?_, by norm_num, by norm_num, by decide +kernel,
      by show (1 / 5 : ℚ) * ((6 : ℕ) - 1) = 1 - 0; norm_num, by norm_num, by decide +kernel⟩ (by norm_num) (by decide +kernel) (by show (1 : ℚ) ≤ 5 * (1 / 5); norm_num)
    · exact isDouble_of_round (show F64.round 0 = .fin 0 by decide +kernel)
    · exact isDouble_of_round (show F64.round 1 = .fin 1 by decide +kernel)
  | 1 =>
    refine GoodDim.aper (by decide) (GoodAxis.coords (X := X) (B := 4) (h := 1 / 2) ⟨rfl, fun i hi => ?_, fun i hi => ?_, fun i hi => ?_⟩ (by decide +kernel)
      ⟨fun i hi => ?_, by norm_num [data], by decide +kernel⟩ (by decide))
    all_goals have hi : i < 5 := by first | exact hi | exact (Nat.lt_succ_self i).trans hi
    · interval_cases i <;> rfl
    · have : F64.round (X i) = .fin (X i) := by interval_cases i <;> decide +kernel
      exact isDouble_of_round this
    · interval_cases i <;> decide +kernel
    · rename_i h4
      have h4 : i + 1 < 5 := h4
      have : i < 4 := by omega
      interval_cases i <;> decide +kernel

/-- Every hypothesis of `double_interpolates_periodic` holds. -/
theorem hypotheses : ∃ t g, template = .ok t ∧ fn = .ok g ∧ (∀ d, FactorsOf cfg 3 (per d) (t.solvers d) 5 25) ∧
    (∀ v ∈ g.spline.ctrl.storage, ∃ q, v = .fin q ∧ IsDouble q ∧ |q| ≤ 64) := by
  have h : (match template, fn with
    | .ok t, .ok g => (extB (t.solvers 0) && bandB (t.solvers 1)) &&
      decide (∀ v ∈ g.spline.ctrl.storage, v = .fin v.toRat ∧ F64.round v.toRat = v ∧ |v.toRat| ≤ 64)
    | _, _ => false) = true := by decide +kernel
  cases ht : template with
  | error e => rw [ht] at h; cases h
  | ok t =>
    cases hg : fn with
    | error e => rw [ht, hg] at h; cases h
    | ok g =>
      rw [ht, hg] at h
      dsimp only at h
      rw [Bool.and_eq_true, Bool.and_eq_true] at h
      refine ⟨t, g, rfl, rfl, fun d => ?_, fun v hv => ?_⟩
      · have e : (25 : ℚ) = ((5 : ℕ) * 1) * ((5 : ℕ) * 1) := by norm_num
        rw [e]
        refine FactorsLe.of ⟨le_rfl, by decide +kernel⟩ ?_
        match d with
        | 0 =>
          have h1 := h.1.1
          show ∃ _, _
          unfold extB at h1
          cases hs : t.solvers 0 with
          | ext lu =>
            rw [hs] at h1
            refine ⟨lu, fun i j => entry (lu.store.get cfg i j), rfl, fun i j hi hj hs => le_of ?_⟩
            have h2 := List.all_eq_true.1 (List.all_eq_true.1 h1 i (List.mem_range.2 hi)) j (List.mem_range.2 hj)
            rw [decide_eq_true hs] at h2
            exact h2
          | _ => rw [hs] at h1; cases h1
        | 1 =>
          have h1 := h.1.2
          show ∃ _, _
          unfold bandB at h1
          cases hs : t.solvers 1 with
          | band lu =>
            rw [hs] at h1
            exact ⟨lu, fun i j => entry (lu.store.get cfg i j), rfl, fun i j hi hj hs => le_of (of_decide_eq_true h1 i hi j hj hs)⟩
          | _ => rw [hs] at h1; cases h1
      · obtain ⟨h1, h2, h3⟩ := of_decide_eq_true h.2 v hv
        exact ⟨_, h1, isDouble_of_round (h2.trans h1), h3⟩

example : ∃ g, fn = .ok g ∧ ∀ (i : Fin 5) (j : Fin 5) (z : ℚ), IsDouble z → 0 ≤ z → |z - i / 5| ≤ 1 / 2 ^ 50 →
    ∃ v, Fl.call g ![.fin z, .fin (X j)] = .ok (.fin v) ∧ |v - values.getD (5 * i + j) 0| ≤ 1 / 2 ^ 30 := by
  obtain ⟨t, g, ht, hg, hF, hC⟩ := hypotheses
  refine ⟨g, hg, fun i j z z1 z2 z4 => ?_⟩
  obtain ⟨v, q, h1, h2, h3⟩ := double_interpolates_periodic false cfg (o := 3) (by omega) (fm := data) rfl good (R := 5)
    (fun d => by match d with | 0 => exact le_rfl | 1 => show (0 : ℚ) ≤ 5; norm_num) ht hg hC (by constructor <;> decide +kernel) (G := 25)
    (fun d => by match d with | 0 => exact hF 0 | 1 => exact hF 1) (L := 6) (by decide) rfl (by norm_num) rfl (by norm_num) (I := ![i, j]) (fun d => by
      match d with
      | 0 => exact i.isLt
      | 1 => exact j.isLt) (y := ![z, X j]) (fun d => by
      match d with
      | 0 => exact ⟨z1, z2, by show |z - (0 + (i : ℕ) * (1 / 5))| ≤ _; rw [zero_add, mul_one_div]; exact z4.trans (by norm_num)⟩
      | 1 => rfl)
  have e : (fun d => F64.fin ((![z, X j] : Fin 2 → ℚ) d)) = ![.fin z, .fin (X j)] := by
    funext d
    match d with
    | 0 => rfl
    | 1 => rfl
  rw [e] at h1
  have hq : ∀ (i : Fin 5) (j : Fin 5), data.get ![i, j] = .ok (.fin (values.getD (5 * i + j) 0)) := by decide +kernel
  rw [hq i j] at h2
  cases h2
  refine ⟨v, h1, h3.trans ?_⟩
  norm_num

end RoundPeriodicExample

end Intp
