import Verif.Proofs.Marsden
import Verif.Props.Interpolation

/-!
# Properties of coordinates: polynomial reproduction, affine changes, ways to give coordinates (C28, C30, C32, C48, C50, C52)
-/

namespace Intp

open Finset BSpline

variable {K V : Type} [Field K] [LinearOrder K] [IsStrictOrderedRing K] [FloorRing K] [AddCommGroup V] [Module K V] {D : ℕ}

/-! ## C30 -/

open Polynomial in
/-- **C30, polynomial reproduction, all dimensions.**  If the data are samples of a polynomial whose degree in the variable of each
non-periodic dimension is at most the spline order, and which does not depend on the variables of periodic dimensions, the interpolation is
that polynomial everywhere, and its derivatives are those of the polynomial. -/
theorem polynomial_reproduction (c : Cfg) {o : ℕ} {per : Fin (D + 1) → Bool} {fm : Mesh (D + 1) V} {x : Fin (D + 1) → XRange K}
    (hm : fm.WF) (hv : ValidAxes c o per fm.dims x) {g : InterpFn (D + 1) K V} (hg : InterpFn.construct c o per fm x = .ok g)
    (cf : (Fin (D + 1) → ℕ) → V)
    (hf : ∀ I, InRange fm.dims I → fm.get I = .ok (polyAt (fun d => if per d then 1 else o + 1) cf (nodeAt c per fm.dims x I))) :
    (∀ y, g.call y = .ok (polyAt (fun d => if per d then 1 else o + 1) cf y)) ∧
    ∀ y m, g.derivative c y m = .ok (∑ e ∈ Fintype.piFinset (fun d => Finset.range (if per d then 1 else o + 1)),
      (∏ d, (derivative^[m d] ((X : K[X]) ^ e d)).eval (y d)) • cf e) := by
  obtain ⟨F, hF⟩ := fm.exists_holds hm
  obtain ⟨hr, C, hC, hE⟩ := (InterpFn.construct_spec (c := c) hv rfl hF).get hg
  have key := InterpFn.poly hv hr hC hE cf fun I hI => by
    have hin : InRange fm.dims I := fun d => by
      have := hI d
      have := hv.dims_eq d
      unfold nOf at *
      omega
    have := hf I hin
    rw [hF.get hin] at this
    injection this
  refine ⟨fun y => ?_, fun y m => ?_⟩
  · rw [hC.call hv, key]
    simp only [Function.iterate_zero, id_eq, eval_pow, eval_X]
    rfl
  · rw [hC.derivative hv, key]
    rfl

open Polynomial in
/-- **C30, one dimension.**  Data sampled from a polynomial of degree at most the order give that polynomial, at every coordinate. -/
theorem polynomial_reproduction_1d (c : Cfg) {o : ℕ} {f : List K} {x : XRange K} (hv : x.Valid o f.length false) {P : K[X]}
    (hP : P.natDegree ≤ o) (hf : ∀ i < f.length, f.getD i 0 = P.eval (x.node f.length i)) {g : InterpFn 1 K K}
    (hg : InterpFn.construct1 c o false f x = .ok g) (y : K) : g.call (fun _ => y) = .ok (P.eval y) := by
  have hpt : pointNum c false f.length = f.length := by unfold pointNum; simp
  have hv1 : ValidAxes c o (fun _ => false) (fun _ : Fin 1 => f.length) fun _ => x := by
    intro _
    rw [hpt]
    exact hv
  have hw : (Mesh.ofList f).WF := by unfold Mesh.WF Mesh.ofList; simp
  have hpoly : ∀ z : Fin 1 → K, polyAt (fun _ => if false = true then 1 else o + 1) (fun e => P.coeff (e 0)) z = P.eval (z 0) := by
    intro z
    unfold polyAt
    rw [eval_eq_sum_range' (n := o + 1) (by omega)]
    refine sum_bij' (fun J _ => J 0) (fun j _ => fun _ => j) ?_ ?_ ?_ ?_ ?_
    · intro J hJ; exact Fintype.mem_piFinset.1 hJ 0
    · intro j hj; exact Fintype.mem_piFinset.2 fun _ => hj
    · intro J hJ; funext e; rw [Subsingleton.elim e 0]
    · intro j hj; rfl
    · intro J hJ
      rw [Fin.prod_univ_one, smul_eq_mul, mul_comm]
  have := (polynomial_reproduction c (fm := Mesh.ofList f) hw hv1 hg (fun e => P.coeff (e 0)) fun I hI => by
    rw [hpoly]
    have h3 : I 0 < f.length := hI 0
    have h4 : (Mesh.ofList f).get I = .ok (f.getD (I 0) 0) := by
      unfold Mesh.get Mesh.ofList indexing indexingStep
      simp [List.finRange_succ, rd_ok h3, List.getD, h3]
    rw [h4, hf _ h3]
    unfold nodeAt
    simp only [Mesh.ofList, hpt]).1 fun _ => y
  rw [this, hpoly]

/-- **C30, constants.**  Constant data give the constant function on every kind of axis. -/
theorem constant_reproduction (c : Cfg) {o : ℕ} {per : Fin (D + 1) → Bool} {fm : Mesh (D + 1) V} {x : Fin (D + 1) → XRange K}
    (hm : fm.WF) (hv : ValidAxes c o per fm.dims x) {g : InterpFn (D + 1) K V} (hg : InterpFn.construct c o per fm x = .ok g) (v : V)
    (hf : ∀ I, InRange fm.dims I → fm.get I = .ok v) (y : Fin (D + 1) → K) : g.call y = .ok v := by
  have hpoly : ∀ z : Fin (D + 1) → K, polyAt (fun d => if per d then 1 else o + 1) (fun e => if e = 0 then v else 0) z = v := by
    intro z
    unfold polyAt
    rw [sum_eq_single (0 : Fin (D + 1) → ℕ)]
    · simp
    · intro e _ he; simp [he]
    · intro h
      refine absurd (Fintype.mem_piFinset.2 fun d => ?_) h
      rw [mem_range, Pi.zero_apply]
      show 0 < if per d then 1 else o + 1
      split <;> omega
  have := (polynomial_reproduction c hm hv hg (fun e => if e = 0 then v else 0) fun I hI => by rw [hpoly, hf I hI]).1 y
  rw [this, hpoly]

/-! ## C25 for interpolation functions -/

/-- **C25, interpolation functions.**  In a periodic dimension, an interpolation function repeats with the distance of the two identified data
points, and so do its derivatives of order below the spline order. -/
theorem interpolation_periodic (c : Cfg) {o : ℕ} {per : Fin (D + 1) → Bool} {fm : Mesh (D + 1) V} {x : Fin (D + 1) → XRange K}
    (hm : fm.WF) (hv : ValidAxes c o per fm.dims x) {g : InterpFn (D + 1) K V} (hg : InterpFn.construct c o per fm x = .ok g)
    {d : Fin (D + 1)} (hp : per d = true) (k : ℤ) {y y' : Fin (D + 1) → K}
    (hy : ∀ e, y' e = if e = d then y e + k * ((x d).node (pointNum c true (fm.dims d)) (pointNum c true (fm.dims d) - 1) -
      (x d).node (pointNum c true (fm.dims d)) 0) else y e) :
    g.call y' = g.call y := by
  have hr := range_periodic c hm hv hg hp
  obtain ⟨F, hF⟩ := fm.exists_holds hm
  obtain ⟨-, C, hC, -⟩ := (InterpFn.construct_spec (c := c) hv rfl hF).get hg
  rw [hC.call hv, hC.call hv]
  congr 1
  unfold BSpline.val
  refine tensorVal_congr (fun _ _ => rfl) fun e J _ => ?_
  rw [hy e]
  split
  · rename_i he
    subst he
    rw [← hr]
    exact (hC.wf hv).wAt_periodic (hC.perKnots hv hp) k _ _ (by show 0 < _ ∨ _; omega)
  · rfl

theorem interpolation_derivative_periodic (c : Cfg) {o : ℕ} {per : Fin (D + 1) → Bool} {fm : Mesh (D + 1) V} {x : Fin (D + 1) → XRange K}
    (hm : fm.WF) (hv : ValidAxes c o per fm.dims x) {g : InterpFn (D + 1) K V} (hg : InterpFn.construct c o per fm x = .ok g)
    {d : Fin (D + 1)} (hp : per d = true) (k : ℤ) {y y' : Fin (D + 1) → K} {m : Fin (D + 1) → ℕ} (hmd : m d < o ∨ o % 2 = 0)
    (hy : ∀ e, y' e = if e = d then y e + k * ((x d).node (pointNum c true (fm.dims d)) (pointNum c true (fm.dims d) - 1) -
      (x d).node (pointNum c true (fm.dims d)) 0) else y e) :
    g.derivative c y' m = g.derivative c y m := by
  have hr := range_periodic c hm hv hg hp
  obtain ⟨F, hF⟩ := fm.exists_holds hm
  obtain ⟨-, C, hC, -⟩ := (InterpFn.construct_spec (c := c) hv rfl hF).get hg
  rw [hC.derivative hv, hC.derivative hv]
  congr 1
  unfold BSpline.val
  refine tensorVal_congr (fun _ _ => rfl) fun e J _ => ?_
  rw [hy e]
  split
  · rename_i he
    subst he
    rw [← hr]
    exact (hC.wf hv).wAt_periodic (hC.perKnots hv hp) k _ _ (by rw [hC.order]; exact hmd)
  · rfl

/-! ## C50 -/

omit [FloorRing K] in
theorem XRange.Valid.affine {o N : ℕ} {per : Bool} {x : XRange K} (h : x.Valid o N per) {α β : K} (hα : 0 < α) :
    (x.affine α β).Valid o N per := by
  refine ⟨h.periodic, h.aperiodic, fun a b e => ?_, fun l e => ?_⟩
  · cases x with
    | coords l => simp [XRange.affine] at e
    | uniform a' b' =>
      injection e with e1 e2
      subst e1 e2
      have := h.uniform a' b' rfl
      have := mul_lt_mul_of_pos_left this hα
      linarith
  · cases x with
    | uniform a b => simp [XRange.affine] at e
    | coords l' =>
      injection e with e
      subst e
      obtain ⟨h1, h2, h3⟩ := h.coords l' rfl
      refine ⟨by simpa using h1, fun i hi => ?_, h3⟩
      have := h2 i hi
      have e : ∀ j, j < N → (l'.map fun u => α * u + β).getD j 0 = α * l'.getD j 0 + β := by
        intro j hj
        have hj' : j < l'.length := by omega
        simp [List.getD, hj']
      rw [e i (by omega), e (i + 1) hi]
      have := mul_lt_mul_of_pos_left this hα
      linarith

omit [LinearOrder K] [IsStrictOrderedRing K] [FloorRing K] in
theorem XRange.node_affine {N : ℕ} {x : XRange K} (α β : K) (h : ∀ l, x = .coords l → l.length = N) {i : ℕ} (hi : i < N) :
    (x.affine α β).node N i = α * x.node N i + β := by
  cases x with
  | uniform a b =>
    simp only [XRange.affine, XRange.node]
    rw [show α * b + β - (α * a + β) = α * (b - a) by ring, mul_div_assoc]
    ring
  | coords l =>
    have : i < l.length := by rw [h l rfl]; exact hi
    simp [XRange.affine, XRange.node, List.getD, this]

/-- **C50, affine change of coordinates.**  Moving the coordinates of every dimension `d` by `u ↦ α_d u + β_d` (`α_d > 0`) does not affect
whether construction succeeds, and moves the interpolation accordingly; `range` moves along, derivatives scale by the powers of `α_d`. -/
theorem affine_coordinates (c : Cfg) {o : ℕ} {per : Fin (D + 1) → Bool} {fm : Mesh (D + 1) V} {x : Fin (D + 1) → XRange K}
    (hm : fm.WF) (hv : ValidAxes c o per fm.dims x) {α β : Fin (D + 1) → K} (hα : ∀ d, 0 < α d) :
    (InterpFn.construct c o per fm x = .error .divZero ∧ InterpFn.construct c o per fm (fun d => (x d).affine (α d) (β d)) = .error .divZero) ∨
    ∃ g g', InterpFn.construct c o per fm x = .ok g ∧ InterpFn.construct c o per fm (fun d => (x d).affine (α d) (β d)) = .ok g' ∧
      (∀ y, g'.call y = g.call fun d => (y d - β d) / α d) ∧
      (∀ y m, ∃ v, g'.derivative c y m = .ok v ∧ g.derivative c (fun d => (y d - β d) / α d) m = .ok ((∏ d, α d ^ m d) • v)) ∧
      ∀ d, g'.range d = (α d * (g.range d).1 + β d, α d * (g.range d).2 + β d) := by
  have hinv : ∀ y : Fin (D + 1) → K, (fun d => α d * ((y d - β d) / α d) + β d) = y := by
    intro y
    funext d
    rw [mul_div_cancel₀ _ (hα d).ne']
    ring
  rcases InterpFn.affine hv (fun d => (hv d).affine (hα d)) hα
    (fun d i hi => XRange.node_affine (α d) (β d) (fun l hl => ((hv d).coords l hl).1) hi) hm rfl with h | ⟨g, g', h1, h2, h3, h4, h5⟩
  · exact .inl h
  · refine .inr ⟨g, g', h1, h2, fun y => ?_, fun y m => ?_, h5⟩
    · have := h3 fun d => (y d - β d) / α d
      rwa [hinv] at this
    · have := h4 (fun d => (y d - β d) / α d) m
      rwa [hinv] at this

/-! ## C32 -/

omit [LinearOrder K] [IsStrictOrderedRing K] [FloorRing K] in
theorem equispaced_getD {N : ℕ} {a b : K} {i : ℕ} (hi : i < N) :
    (equispaced N a b).getD i 0 = a + (i : K) * ((b - a) / ((N : K) - 1)) := by
  simp [equispaced, List.getD, hi]

theorem equispaced_valid {o N : ℕ} {per : Bool} {a b : K} (h : (XRange.uniform a b).Valid o N per) (ho : per = true ∨ 1 ≤ o) :
    (XRange.coords (equispaced N a b)).Valid o N per := by
  refine ⟨h.periodic, h.aperiodic, fun _ _ e => by simp at e, fun l e => ?_⟩
  injection e with e
  subst e
  refine ⟨by simp [equispaced], fun i hi => ?_, fun hp => ?_⟩
  · rw [equispaced_getD (by omega), equispaced_getD hi]
    have := h.step_pos
    push_cast
    linarith
  · rcases ho with h | h
    · rw [hp] at h; simp at h
    · exact h

/-- Dimension `x'` is `x`, or the explicit list of the equispaced coordinates of the interval `x`. -/
def SameCoords (o N : ℕ) (per : Bool) (x x' : XRange K) : Prop :=
  x' = x ∨ (per = true ∨ 1 ≤ o) ∧ ∃ a b, x = .uniform a b ∧ x' = .coords (equispaced N a b)

theorem SameCoords.valid {o N : ℕ} {per : Bool} {x x' : XRange K} (h : SameCoords o N per x x') (hv : x.Valid o N per) : x'.Valid o N per := by
  rcases h with rfl | ⟨ho, a, b, rfl, rfl⟩
  · exact hv
  · exact equispaced_valid hv ho

omit [LinearOrder K] [IsStrictOrderedRing K] [FloorRing K] in
theorem SameCoords.node {o N : ℕ} {per : Bool} {x x' : XRange K} (h : SameCoords o N per x x') {i : ℕ} (hi : i < N) :
    x'.node N i = 1 * x.node N i + 0 := by
  rcases h with rfl | ⟨ho, a, b, rfl, rfl⟩
  · ring
  · rw [one_mul, add_zero]
    exact equispaced_getD hi

/-- **C32, same function.**  Replacing intervals by the lists of their equispaced coordinates, in any of the dimensions, does not change
the constructed function.  (Non-periodic explicit coordinates need a positive order.) -/
theorem equispaced_same_function_partial (c : Cfg) {o : ℕ} {per : Fin (D + 1) → Bool} {fm : Mesh (D + 1) V} {x x' : Fin (D + 1) → XRange K}
    (hm : fm.WF) (hv : ValidAxes c o per fm.dims x) (hx : ∀ d, SameCoords o (pointNum c (per d) (fm.dims d)) (per d) (x d) (x' d)) :
    (InterpFn.construct c o per fm x = .error .divZero ∧ InterpFn.construct c o per fm x' = .error .divZero) ∨
    ∃ g g', InterpFn.construct c o per fm x = .ok g ∧ InterpFn.construct c o per fm x' = .ok g' ∧ (∀ y, g'.call y = g.call y) ∧
      (∀ y m, g'.derivative c y m = g.derivative c y m) ∧ ∀ d, g'.range d = g.range d := by
  rcases InterpFn.affine hv (x' := x') (α := fun _ => 1) (β := fun _ => 0) (fun d => (hx d).valid (hv d)) (fun _ => one_pos)
    (fun d i hi => (hx d).node hi) hm rfl with h | ⟨g, g', h1, h2, h3, h4, h5⟩
  · exact .inl h
  · refine .inr ⟨g, g', h1, h2, fun y => ?_, fun y m => ?_, fun d => ?_⟩
    · simpa using h3 y
    · obtain ⟨v, e1, e2⟩ := h4 y m
      simp only [one_mul, add_zero, one_pow, prod_const_one, one_smul] at e1 e2
      rw [e1, e2]
    · simpa using h5 d

/-- **C32, same knots.**  All knots agree, except perhaps knot `0` of a periodic dimension of odd order with exactly `order` distinct
points (see `equispaced_knot_zero_differs`). -/
theorem equispaced_same_knots_partial (c : Cfg) {o : ℕ} {per : Fin (D + 1) → Bool} {fm : Mesh (D + 1) V} {x x' : Fin (D + 1) → XRange K}
    (hm : fm.WF) (hv : ValidAxes c o per fm.dims x) (hx : ∀ d, SameCoords o (pointNum c (per d) (fm.dims d)) (per d) (x d) (x' d))
    {g g' : InterpFn (D + 1) K V} (hg : InterpFn.construct c o per fm x = .ok g) (hg' : InterpFn.construct c o per fm x' = .ok g')
    (d : Fin (D + 1)) : (g'.spline.knots d).length = (g.spline.knots d).length ∧
      ∀ i, i < (g.spline.knots d).length → 1 ≤ i ∨ per d = false ∨ o + 2 ≤ pointNum c (per d) (fm.dims d) →
        (g'.spline.knots d).getD i 0 = (g.spline.knots d).getD i 0 := by
  have hv' : ValidAxes c o per fm.dims x' := fun d => (hx d).valid (hv d)
  obtain ⟨F, hF⟩ := fm.exists_holds hm
  obtain ⟨-, C, hC, -⟩ := (InterpFn.construct_spec (c := c) hv rfl hF).get hg
  obtain ⟨-, C', hC', -⟩ := (InterpFn.construct_spec (c := c) hv' rfl hF).get hg'
  have ka := (hv d).kAff (hv' d) fun i hi => (hx d).node hi
  rw [hC.knots, hC'.knots]
  refine ⟨ka.1, fun i hi hc => ?_⟩
  change knotFn _ i = knotFn _ i
  by_cases h1 : 1 ≤ i ∨ o = 0
  · rw [ka.2 i h1 hi, one_mul, add_zero]
  · obtain ⟨rfl, ho⟩ : i = 0 ∧ 1 ≤ o := by omega
    have hN := fun i hi => (hx d).node (i := i) hi
    simp only [one_mul, add_zero] at hN
    have h0 := hN 0 (by have := (hv d).two; omega)
    generalize hNN : pointNum c (per d) (fm.dims d) = N at *
    have hvd := hv d
    have hvd' := hv' d
    rw [hNN] at hvd hvd'
    cases hp : per d with
    | false =>
      rw [hp] at hvd hvd'
      rw [hvd.aAxis.left 0 (by omega), hvd'.aAxis.left 0 (by omega), h0]
    | true =>
      rw [hp] at hvd hvd' hc
      have hc' : o + 2 ≤ N := by
        rcases hc with h | h | h
        · omega
        · simp at h
        · exact h
      have e : unk true N = N - 1 := rfl
      have s1 : ∀ {z : XRange K}, z.Valid o N true → knotFn (z.knots o (unk true N) true) 0 =
          knotFn (z.knots o (unk true N) true) (unk true N) - (z.node N (unk true N) - z.node N 0) := by
        intro z hz
        have hl := hz.knots_length
        rw [if_pos rfl] at hl
        have he := hz.knots_per (i := unk true N) (by omega) (by omega)
        cases z with
        | uniform a b =>
          have e' : ((unk true N : ℕ) : K) = (N : K) - 1 := by rw [e, Nat.cast_sub (by omega)]; simp
          have hk : (XRange.uniform a b).knots o (unk true N) true = arr (unk true N + 1 + (2 * o + (1 - o % 2)))
              (uniformKnot a ((b - a) / ((N : K) - 1)) (2 * o + (1 - o % 2))) := by rw [← e']; rfl
          rw [hk, knotFn_arr _ (by omega), knotFn_arr _ (by omega)]
          simp only [uniformKnot, XRange.node]
          push_cast
          ring
        | coords l =>
          rw [he]
          have hk : (XRange.coords l).knots o (unk true N) true = arr (unk true N + 1 + 2 * o + (1 - o % 2)) (cpKnot o (unk true N) (knotFn l)) := rfl
          have hn : (XRange.coords l).node N = knotFn l := rfl
          rw [hk, knotFn_arr _ (by omega), hn, cpKnot_low (by omega), cpKnot_mid (by omega) (by omega), zero_add]
      have hu : (x' d).node N (unk true N) = (x d).node N (unk true N) := hN _ (by omega)
      rw [s1 hvd, s1 hvd', h0, hu]
      have hl := hvd.knots_length
      rw [if_pos rfl] at hl
      rw [hp] at ka
      rw [ka.2 (unk true N) (by omega) (by omega), one_mul, add_zero]

/-! ## C48 -/

/-- **C48, non-periodic explicit coordinates.**  With `order ≥ 1` and at least `order + 1` strictly increasing coordinates, building the knots
reads no coordinate outside the list, the coordinates read (collected in `input_coord` in reading order) are exactly the given ones, and the
knots are non-decreasing, clamped, and satisfy the Schoenberg–Whitney condition at the inner data points. -/
theorem coords_aperiodic (o : ℕ) (l : List K) (ho : 1 ≤ o) (hl : o + 1 ≤ l.length)
    (hinc : ∀ i, i + 1 < l.length → l.getD i 0 < l.getD (i + 1) 0) :
    ∃ t, coordKnotsRaw o false l = .ok (t, l) ∧ t.length = l.length + o + 1 ∧
      (∀ i j, i ≤ j → j < t.length → t.getD i 0 ≤ t.getD j 0) ∧
      (∀ i, i ≤ o → t.getD i 0 = l.getD 0 0 ∧ t.getD (l.length + i) 0 = l.getD (l.length - 1) 0) ∧
      ∀ i, 0 < i → i + 1 < l.length → t.getD i 0 < l.getD i 0 ∧ l.getD i 0 < t.getD (i + o + 1) 0 := by
  have hX : ∀ i j, i < j → j < l.length → knotFn l i < knotFn l j := fun i j h1 h2 =>
    strict_of_succ (f := knotFn l) (lo := 0) (hi := l.length - 1) (fun i _ hi => hinc i (by omega)) (Nat.zero_le _) h1 (by omega)
  have ax := aAxis_coords (X := knotFn l) hX ho hl
  refine ⟨_, coordKnotsAperiodic_ok o l ho hl, ax.len, fun i j hij hj => ?_, fun i hi => ⟨ax.left i hi, ax.right _ (by omega) (by omega)⟩,
    fun i h1 h2 => ⟨ax.sw1 i h1 h2, ax.sw2 i h1 h2⟩⟩
  rw [ax.len] at hj
  change knotFn _ i ≤ knotFn _ j
  rcases Nat.eq_zero_or_pos i with rfl | hi
  · rcases Nat.eq_zero_or_pos j with rfl | hj0
    · exact le_rfl
    · have h1 := ax.left 0 (by omega)
      have h2 := ax.left 1 ho
      rw [h1, ← h2]
      exact ax.kmono 1 j le_rfl hj0 (by rw [ax.len]; exact hj)
  · exact ax.kmono i j hi hij (by rw [ax.len]; exact hj)

/-- **C48, periodic explicit coordinates, memory safety.**  With at least two coordinates, for every order, no coordinate outside the list is
read and the coordinates read are exactly the given ones. -/
theorem coords_periodic_reads (o : ℕ) (l : List K) (hl : 2 ≤ l.length) :
    ∃ t, coordKnotsRaw o true l = .ok (t, l) ∧ t.length = l.length + 2 * o + (1 - o % 2) := by
  refine ⟨_, coordKnotsPeriodic_ok o (l.length - 1) l (by omega) (by omega), ?_⟩
  rw [arr_length]
  omega

/-- **C48, periodic explicit coordinates, knots.**  With `n ≥ 2 ⌊order/2⌋ + 1` distinct points and strictly increasing coordinates, the knots
are strictly increasing (knot `0` only if there are more than `order` distinct points), repeat with the period, and data point `i` lies in
segment `i + order`.  Missing for the full claim: knot `0` and fewer points (`coords_periodic_knot_zero`). -/
theorem coords_periodic_knots_partial (o : ℕ) (l : List K) (hl : 2 * (o / 2) + 2 ≤ l.length)
    (hinc : ∀ i, i + 1 < l.length → l.getD i 0 < l.getD (i + 1) 0) :
    ∃ t, coordKnotsRaw o true l = .ok (t, l) ∧
      (∀ i j, i < j → j < t.length → 1 ≤ i ∨ o + 2 ≤ l.length → t.getD i 0 < t.getD j 0) ∧
      (∀ i, 1 ≤ i → i + (l.length - 1) < t.length → t.getD (i + (l.length - 1)) 0 = t.getD i 0 + (l.getD (l.length - 1) 0 - l.getD 0 0)) ∧
      ∀ i, i + 1 < l.length → t.getD (i + o) 0 ≤ l.getD i 0 ∧ l.getD i 0 < t.getD (i + o + 1) 0 := by
  have ax := pAxis_coords (o := o) (n' := l.length - 1) (X := knotFn l) (fun i hi => hinc i (by omega)) (by omega)
  refine ⟨_, coordKnotsPeriodic_ok o (l.length - 1) l (by omega) (by omega), fun i j hij hj hc => ?_,
    fun i h1 h2 => ax.shift i (.inl h1) h2, fun i hi => ax.node i (by omega)⟩
  have hlen := ax.len
  have base : ∀ i j, (1 ≤ i ∨ o = 0) → i < j →
      j < (arr (l.length - 1 + 1 + 2 * o + (1 - o % 2)) (cpKnot o (l.length - 1) (knotFn l))).length →
      knotFn (arr (l.length - 1 + 1 + 2 * o + (1 - o % 2)) (cpKnot o (l.length - 1) (knotFn l))) i <
      knotFn (arr (l.length - 1 + 1 + 2 * o + (1 - o % 2)) (cpKnot o (l.length - 1) (knotFn l))) j := fun i j h0 hij hj =>
    strict_of_succ (lo := if o = 0 then 0 else 1)
      (hi := (arr (l.length - 1 + 1 + 2 * o + (1 - o % 2)) (cpKnot o (l.length - 1) (knotFn l))).length - 1)
      (fun i h1 h2 => ax.inc i (by split at h1 <;> omega) (by omega)) (i := i) (j := j) (by split <;> omega) hij (by omega)
  change knotFn _ i < knotFn _ j
  by_cases h0 : 1 ≤ i ∨ o = 0
  · exact base i j h0 hij hj
  · obtain ⟨rfl, ho⟩ : i = 0 ∧ 1 ≤ o := by omega
    have hc' : o + 2 ≤ l.length := by omega
    have hlen2 : l.length - 1 + 1 + 2 * o + (1 - o % 2) = l.length - 1 + 2 * o + (2 - o % 2) := by omega
    have h01 : cpKnot o (l.length - 1) (knotFn l) 0 < cpKnot o (l.length - 1) (knotFn l) 1 := by
      have e0 : cpKnot o (l.length - 1) (knotFn l) 0 = cpKnot o (l.length - 1) (knotFn l) (l.length - 1) -
          (knotFn l (l.length - 1) - knotFn l 0) := by
        rw [cpKnot_low (by omega), cpKnot_mid (j := l.length - 1) (by omega) (by omega), zero_add]
      have e1 : cpKnot o (l.length - 1) (knotFn l) 1 = cpKnot o (l.length - 1) (knotFn l) (1 + (l.length - 1)) -
          (knotFn l (l.length - 1) - knotFn l 0) := by
        rw [cpKnot_low (j := 1) (by omega), cpKnot_mid (j := 1 + (l.length - 1)) (by omega) (by omega)]
      have := base (l.length - 1) (1 + (l.length - 1)) (by omega) (by omega) (by omega)
      rw [knotFn_arr _ (by omega), knotFn_arr _ (by omega)] at this
      rw [e0, e1]
      linarith
    rcases Nat.lt_or_ge 1 j with h1 | h1
    · refine lt_trans ?_ (base 1 j (by omega) h1 hj)
      rw [knotFn_arr _ (by omega), knotFn_arr _ (by omega)]
      exact h01
    · obtain rfl : j = 1 := by omega
      rw [knotFn_arr _ (by omega), knotFn_arr _ (by omega)]
      exact h01

/-- **C48 fails for knot `0` of periodic dimensions.**  Order 3, coordinates −10, −9, −8, −7: knot `0` is −3 but knot `1` is −12.  (Knot `0` is
computed from an entry that is not written yet; no evaluation reads it.) -/
theorem coords_periodic_knot_zero :
    coordKnotsRaw 3 true [(-10 : ℚ), -9, -8, -7] = .ok ([-3, -12, -11, -10, -9, -8, -7, -6, -5, -4], [-10, -9, -8, -7]) := by
  decide +kernel

/-- **C48, too few points, non-periodic.**  With fewer than `order + 1` coordinates (or order 0) the iterator runs past the end.  The bounds of
`coords_aperiodic` are exact. -/
theorem coords_aperiodic_overread :
    coordKnotsRaw 3 false [(0 : ℚ), 1, 2] = .error .oob ∧ coordKnotsRaw 2 false [(0 : ℚ), 1] = .error .oob ∧
    coordKnotsRaw 1 false [(0 : ℚ)] = .error .oob := by
  refine ⟨?_, ?_, ?_⟩ <;> decide +kernel

/-! ## C52 -/

/-- A list of values is a valid 1D problem with default coordinates if there are enough values. -/
def EnoughValues (c : Cfg) (o : ℕ) (per : Bool) (N : ℕ) : Prop :=
  if per then 2 * (o / 2) + 2 ≤ pointNum c per N else o + 1 ≤ N ∧ 2 ≤ N

omit [LinearOrder K] [IsStrictOrderedRing K] [FloorRing K] [Module K V] in
theorem Mesh.ofList_get (f : List V) {I : Fin 1 → ℕ} (h : I 0 < f.length) : (Mesh.ofList f).get I = .ok (f.getD (I 0) 0) := by
  unfold Mesh.get Mesh.ofList indexing indexingStep
  simp [List.finRange_succ, rd_ok h, List.getD, h]

omit [FloorRing K] in
theorem valid_uniform1 {c : Cfg} {o : ℕ} {per : Bool} {N : ℕ} (h : EnoughValues c o per N) {b : K} (hb : 0 < b) :
    ValidAxes c o (fun _ => per) (fun _ : Fin 1 => N) fun _ => XRange.uniform 0 b := by
  intro _
  unfold EnoughValues at h
  refine ⟨fun hp => ?_, fun hp => ?_, fun a b' e => ?_, fun l e => by simp at e⟩
  · rw [if_pos hp] at h; exact h
  · subst hp
    simpa [pointNum] using h
  · injection e with e1 e2
    subst e1 e2
    exact hb

/-- **C52, `InterpolationFunction1D`.**  Without a range, the coordinates are `0, 1, …, N - 1`, in both configurations: the function takes
`values[i]` at `i` (in the default periodic configuration the last value is a duplicate of the first and is ignored).  The period of a
periodic function is the number of distinct values. -/
theorem default_coordinates (c : Cfg) {o : ℕ} {per : Bool} {values : List V} (hN : EnoughValues c o per values.length)
    {g : InterpFn 1 K V} (hg : InterpFn.construct1D c o per values = .ok g) :
    (∀ i, i < values.length → ¬ (per = true ∧ c.noDummy = false ∧ i + 1 = values.length) →
      g.call (fun _ => (i : K)) = .ok (values.getD i 0)) ∧
    (per = true → ∀ y, g.call (fun _ => y + ((pointNum c per values.length : K) - 1)) = g.call fun _ => y) := by
  have h2 : 2 ≤ pointNum c per values.length := by
    unfold EnoughValues at hN
    cases per <;> simp [pointNum] at hN ⊢ <;> omega
  have hpt : ((values.length : K) - if c.noDummy && per then 0 else 1) = (pointNum c per values.length : K) - 1 := by
    unfold pointNum
    split <;> push_cast <;> ring
  have hpos : (0 : K) < (pointNum c per values.length : K) - 1 := by
    have : (2 : K) ≤ (pointNum c per values.length : K) := by exact_mod_cast h2
    linarith
  unfold InterpFn.construct1D InterpFn.construct1 at hg
  rw [hpt] at hg
  have hv := valid_uniform1 (K := K) hN hpos
  have hw : (Mesh.ofList values).WF := by unfold Mesh.WF Mesh.ofList; simp
  refine ⟨fun i hi hne => ?_, fun hp y => ?_⟩
  · have hip : i < pointNum c per values.length := by unfold pointNum; omega
    obtain ⟨v, h1, h2⟩ := interpolation_condition c (fm := Mesh.ofList values) hw hv hg (I := fun _ => i) (J := fun _ => i)
      (fun _ => hip) fun _ => by
        rw [if_neg]
        rintro ⟨hp, he⟩
        refine hne ⟨hp, ?_⟩
        have he' : i + 1 = pointNum c per values.length := he
        unfold pointNum at he'
        cases hc : c.noDummy
        · simp [hc] at he'; exact ⟨rfl, he'⟩
        · simp [hc, hp] at he'; omega
    rw [Mesh.ofList_get values (I := fun _ => i) hi] at h1
    injection h1 with h1
    rw [h1, ← h2]
    congr 1
    funext _
    unfold nodeAt
    show (i : K) = 0 + (i : K) * (((pointNum c per values.length : K) - 1 - 0) / ((pointNum c per values.length : K) - 1))
    rw [sub_zero, div_self hpos.ne']
    ring
  · subst hp
    refine interpolation_periodic c (fm := Mesh.ofList values) hw hv hg (d := 0) rfl 1 fun e => ?_
    rw [if_pos (Fin.fin_one_eq_zero e)]
    have e : ((pointNum c true values.length - 1 : ℕ) : K) = (pointNum c true values.length : K) - 1 := by
      rw [Nat.cast_sub (by omega), Nat.cast_one]
    show _ = y + ((1 : ℤ) : K) * (0 + ((pointNum c true values.length - 1 : ℕ) : K) * (((pointNum c true values.length : K) - 1 - 0) /
      ((pointNum c true values.length : K) - 1)) - (0 + ((0 : ℕ) : K) * _))
    rw [e, sub_zero, div_self hpos.ne']
    push_cast
    ring

/-- **C52, `InterpolationFunctionTemplate1D`.**  Without a range, the template interpolates over `[0, N - 1]` in both configurations. -/
theorem template_default_coordinates (c : Cfg) {o : ℕ} {per : Bool} {values : List V} (hN : 1 ≤ values.length) {t : Template 1 K V}
    (ht : Template.construct1D c o per values.length = .ok t) :
    t.interpolate c (Mesh.ofList values) = InterpFn.construct1 c o per values (.uniform 0 ((values.length : K) - 1)) := by
  unfold Template.construct1D at ht
  rw [subM_ok hN, ok_bind, Nat.cast_sub hN, Nat.cast_one] at ht
  exact template_interpolate c (fm := Mesh.ofList values) ht

/-- **C52, agreement.**  Missing for the full claim: periodic dimensions with `INTP_PERIODIC_NO_DUMMY_POINT`, where the claim is false
(`default_coordinates_differ`). -/
theorem template_default_agrees_partial (c : Cfg) {o : ℕ} {per : Bool} {values : List V} (hN : 1 ≤ values.length) {t : Template 1 K V}
    (ht : Template.construct1D c o per values.length = .ok t) (hc : ¬ (c.noDummy = true ∧ per = true)) :
    t.interpolate c (Mesh.ofList values) = InterpFn.construct1D c o per values := by
  rw [template_default_coordinates c hN ht]
  unfold InterpFn.construct1D
  have : ¬ ((c.noDummy && per) = true) := by simpa using hc
  rw [if_neg this]

/-- **C52 fails with `INTP_PERIODIC_NO_DUMMY_POINT`.**  In a periodic dimension the template puts value `i` of `N` at `i (N - 1) / N`, not at `i`. -/
theorem template_default_noDummy (c : Cfg) (hc : c.noDummy = true) {o : ℕ} {values : List V} (h2 : 2 ≤ values.length)
    (hN : EnoughValues c o true values.length) {t : Template 1 K V}
    (ht : Template.construct1D c o true values.length = .ok t) {g : InterpFn 1 K V} (hg : t.interpolate c (Mesh.ofList values) = .ok g)
    {i : ℕ} (hi : i < values.length) :
    g.call (fun _ => (i : K) * (((values.length : K) - 1) / values.length)) = .ok (values.getD i 0) := by
  rw [template_default_coordinates c (by omega) ht] at hg
  have hpos : (0 : K) < (values.length : K) - 1 := by
    have : (2 : K) ≤ (values.length : K) := by exact_mod_cast h2
    linarith
  have hw : (Mesh.ofList values).WF := by unfold Mesh.WF Mesh.ofList; simp
  have hpt : pointNum c true values.length = values.length + 1 := by simp [pointNum, hc]
  obtain ⟨v, h1, h2⟩ := interpolation_condition c (fm := Mesh.ofList values) hw (valid_uniform1 (K := K) hN hpos) hg (I := fun _ => i)
    (J := fun _ => i) (fun _ => by show i < pointNum c true values.length; omega) fun _ => by
      rw [if_neg]
      rintro ⟨-, he⟩
      have he' : i + 1 = pointNum c true values.length := he
      omega
  rw [Mesh.ofList_get values (I := fun _ => i) hi] at h1
  injection h1 with h1
  rw [h1, ← h2]
  congr 1
  funext _
  unfold nodeAt
  show _ = 0 + (i : K) * (((values.length : K) - 1 - 0) / ((pointNum c true values.length : K) - 1))
  rw [hpt]
  push_cast
  rw [sub_zero, zero_add, add_sub_cancel_right]

/-- The two classes differ: values 1, 5, 2, 7 at 0, 1, 2, 3, evaluated at 1. -/
theorem default_coordinates_differ :
    (do let g ← InterpFn.construct1D (K := ℚ) ⟨true, true⟩ 3 true [(1 : ℚ), 5, 2, 7]
        g.call fun _ => 1) = .ok 5 ∧
    (do let t ← Template.construct1D (K := ℚ) (V := ℚ) ⟨true, true⟩ 3 true 4
        let g ← t.interpolate ⟨true, true⟩ (Mesh.ofList [(1 : ℚ), 5, 2, 7])
        g.call fun _ => 1) ≠ .ok 5 := by
  refine ⟨?_, ?_⟩ <;> decide +kernel

/-! ## C28 -/

/-- **C28 fails.**  Periodic dimensions with fewer than `2 ⌊order/2⌋ + 1` distinct points: with order 2 or 3 and two distinct points, construction
succeeds but the function does not take the given values 1, 5; with one distinct point the matrix constructor's size computation wraps around.
(For enough points the condition holds: `interpolation_condition`.) -/
theorem small_periodic_wrong_values :
    (∀ o ∈ [2, 3], ∃ u v, (do
        let g ← InterpFn.construct1 (K := ℚ) ⟨true, false⟩ o true [(1 : ℚ), 5, 1] (.uniform 0 2)
        let u ← g.call fun _ => 0
        let v ← g.call fun _ => 1
        pure (u, v)) = .ok (u, v) ∧ u ≠ 1 ∧ v ≠ 5) := by
  intro o ho
  simp only [List.mem_cons, List.mem_nil_iff, or_false] at ho
  rcases ho with rfl | rfl
  · exact ⟨64 / 35, 176 / 35, by decide +kernel, by norm_num, by norm_num⟩
  · exact ⟨34 / 15, 74 / 15, by decide +kernel, by norm_num, by norm_num⟩

/-! ## Examples: the hypotheses above are met -/

namespace CoordsExample

open Polynomial in
/-- C30: five non-equispaced coordinates, a cubic, order 3. -/
example : (XRange.coords [(0 : ℚ), 1, 3, 4, 6]).Valid 3 5 false ∧
    (∀ i < 5, [(0 : ℚ), 1, 27, 64, 216].getD i 0 = (X ^ 3 : ℚ[X]).eval ((XRange.coords [(0 : ℚ), 1, 3, 4, 6]).node 5 i)) ∧
    (do let g ← InterpFn.construct1 ⟨true, false⟩ 3 false [(0 : ℚ), 1, 27, 64, 216] (.coords [0, 1, 3, 4, 6])
        g.call fun _ => (10 : ℚ)) = .ok 1000 := by
  refine ⟨⟨by simp, fun _ => by omega, by simp, ?_⟩, ?_, by decide +kernel⟩
  · intro l hl
    injection hl with hl
    subst hl
    refine ⟨rfl, fun i hi => ?_, fun _ => by omega⟩
    have : i < 4 := by omega
    interval_cases i <;> norm_num
  · intro i hi
    interval_cases i <;> simp [XRange.node] <;> norm_num

/-- C50, C32: the 2-D data of `InterpExample` with moved coordinates, and with the uniform dimension given as a list. -/
example :
    (do let g ← InterpFn.construct InterpExample.cfg 3 InterpExample.per InterpExample.data
          fun d => (InterpExample.x d).affine (![2, 3] d) (![1, -5] d)
        g.call ![8, -7 / 2]) =
    (do let g ← InterpFn.construct InterpExample.cfg 3 InterpExample.per InterpExample.data InterpExample.x
        g.call ![7 / 2, 1 / 2]) ∧
    (do let g ← InterpFn.construct InterpExample.cfg 3 InterpExample.per InterpExample.data
          ![.coords [(0 : ℚ), 1, 3, 4, 6], .coords (equispaced 5 0 4)]
        g.call ![7 / 2, 1 / 2]) = .ok (135113 / 54272) := by
  constructor <;> decide +kernel

example : SameCoords 3 (pointNum InterpExample.cfg true 5) true (.uniform (0 : ℚ) 4) (.coords (equispaced 5 0 4)) :=
  .inr ⟨.inl rfl, 0, 4, rfl, rfl⟩

/-- C48: knots of five coordinates, order 2 (non-periodic) and order 2 (periodic). -/
example : coordKnotsRaw 2 false [(0 : ℚ), 1, 3, 4, 6] = .ok ([0, 0, 0, 2, 7 / 2, 6, 6, 6], [0, 1, 3, 4, 6]) ∧
    coordKnotsRaw 2 true [(0 : ℚ), 1, 3, 4, 6] =
      .ok ([-4, -5 / 2, -1, 1 / 2, 2, 7 / 2, 5, 13 / 2, 8, 19 / 2], [0, 1, 3, 4, 6]) := by
  constructor <;> decide +kernel

/-- C52: both classes, default configuration. -/
example : EnoughValues ⟨true, false⟩ 3 true 5 ∧ EnoughValues ⟨true, true⟩ 3 true 4 ∧ EnoughValues ⟨true, false⟩ 3 false 4 ∧
    ((InterpFn.construct1D (K := ℚ) ⟨true, false⟩ 3 true [(1 : ℚ), 5, 2, 7, 1]).toOption.isSome = true) ∧
    ((Template.construct1D (K := ℚ) (V := ℚ) ⟨true, true⟩ 3 true 4).toOption.isSome = true) := by
  refine ⟨by simp [EnoughValues, pointNum], by simp [EnoughValues, pointNum], by simp [EnoughValues], ?_, ?_⟩ <;> decide +kernel

end CoordsExample

/-- **C32 fails for knot `0`.**  Order 3, periodic, 10, 11, 12, 13: knot `0` is 7 from the interval and −3 from the list. -/
theorem equispaced_knot_zero_differs :
    (do let t ← Template.construct (D := 1) (K := ℚ) (V := ℚ) ⟨true, false⟩ 3 (fun _ => true) (fun _ => 4) fun _ => .uniform 10 13
        rd (t.base.spline.knots 0) 0) = .ok 7 ∧
    (do let t ← Template.construct (D := 1) (K := ℚ) (V := ℚ) ⟨true, false⟩ 3 (fun _ => true) (fun _ => 4) fun _ => .coords (equispaced 4 10 13)
        rd (t.base.spline.knots 0) 0) = .ok (-3) := by
  constructor <;> decide +kernel

end Intp
