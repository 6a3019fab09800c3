import Verif.Proofs.CellFloat
import Verif.Proofs.CellFloatTie
import Verif.Proofs.F64Idem
import Verif.Props.Float

/-!
# C91, C92: the cell layout with rounding, derivatives of order 0

The functions of `CellFloat.lean` and `FloatModel.lean`, whose coordinates and values have arbitrary operations.
-/

namespace Intp

open CoordArith ScaleArith

/-! ## The model over arbitrary arithmetic is the model of C39 and C40 -/

section
variable {K V : Type} [Field K] [LinearOrder K] [FloorRing K] [AddCommGroup V] [Module K V] {D : ℕ}

/-- **C68** for the cell layout: with exact operations the functions are those of `CellLayout.lean`. -/
theorem exact_cell (c : Cfg) (t : Template (D + 1) K V) (fm : Mesh (D + 1) V) (f : CellFn D K V) (x : Fin (D + 1) → K) (m : Fin (D + 1) → ℕ)
    (p : (Fin (D + 1) → List K) × ℕ) :
    @Fl.interpolateCell K V (exactVal V) (exactScale K V) D c t fm = t.interpolateCell c fm ∧
    @Fl.cellCall K V (exactCoord K) (exactVal V) (exactScale K V) D c f x = f.call c x ∧
    @Fl.cellDerivative K V (exactCoord K) (exactVal V) (exactScale K V) D c f x m = f.derivative c x m ∧
    @Fl.evalProxy K V (exactCoord K) D f x = f.evalProxy x ∧
    @Fl.templateProxy K V (exactCoord K) D t x = t.evalProxy x ∧
    @Fl.proxyCall K V (exactCoord K) (exactVal V) (exactScale K V) D p f.spline = CellSpline.proxyCall p f.spline :=
  ⟨Fl.tie_interpolateCell c t fm, Fl.tie_cellCall c f x, Fl.tie_cellDerivative c f x m, Fl.tie_evalProxy f x, Fl.tie_templateProxy t x, Fl.tie_proxyCall p _⟩

end

section
variable {K V : Type} [CoordArith K] [ValArith V] [ScaleArith K V] {D : ℕ}

/-! ## Helpers: what is known about both objects -/

namespace Fl

/-- The functions constructed in the two layouts. -/
structure Pair (c : Cfg) (o : ℕ) (per : Fin (D + 1) → Bool) (fm : Mesh (D + 1) V) (f : InterpFn (D + 1) K V) (t : Template (D + 1) K V)
    (g : CellFn D K V) : Prop where
  fn : g.fn = t.base
  eq : f = { t.base with spline := { t.base.spline with ctrl := f.spline.ctrl } }
  shaped : Shaped f.spline
  cells : Cells f.spline g.cell
  order : f.spline.order = o
  peri : f.spline.periodicity = per
  len : ∀ d, (f.spline.knots d).length = knotLen o (f.spline.ctrl.dims d + if per d then 1 else 0) (per d)

theorem pair_ok {c : Cfg} {o : ℕ} {per : Fin (D + 1) → Bool} {fm : Mesh (D + 1) V} {x : Fin (D + 1) → XRange K}
    (hs : ShapeAxes c o per fm.dims x) (hf : fm.WF) {f : InterpFn (D + 1) K V} (h : construct true c o per fm x = .ok f) :
    ∃ t g, constructT true c o per fm.dims x = .ok t ∧ interpolateCell c t fm = .ok g ∧ Pair c o per fm f t g := by
  have hS := construct_safe (w := true) (c := c) (o := o) (per := per) (fm := fm) (x := x) (E := fun _ => True)
    (fun _ => trivial) (fun _ => trivial) hs (.inl rfl) hf
  have hT := constructT_safe (V := V) (w := true) (c := c) (o := o) (per := per) (dims := fm.dims) (x := x) (E := fun _ => True)
    (fun _ => trivial) (fun _ => trivial) hs (.inl rfl)
  rw [h] at hS
  obtain ⟨hsh, ho, hp, -⟩ := hS
  unfold construct at h
  cases ht : constructT (V := V) true c o per fm.dims x with
  | error e => rw [ht] at h; cases h
  | ok t =>
    rw [ht] at hT
    have hT : TmplOk c o per fm.dims x t := hT
    rw [ht, ok_bind] at h
    cases hw : solveForControlPoints c t fm with
    | error e => rw [hw] at h; cases h
    | ok w =>
      rw [hw, ok_bind] at h
      injection h with h
      have hc : f.spline.ctrl = w := by rw [← h]; rfl
      have ho' : t.base.spline.order = f.spline.order := by rw [← h]; rfl
      have hp' : t.base.spline.periodicity = f.spline.periodicity := by rw [← h]; rfl
      obtain ⟨cell, h1, h2⟩ := (generate_any c hsh).exists
      have hu := fun d => unk_bounds (o := o) (c := c) (per := per) (dims := fm.dims) (x := x) (hs d)
      refine ⟨t, ⟨t.base, cell⟩, rfl, ?_, rfl, by rw [← h]; rfl, hsh, h2, ho, hp, fun d => ?_⟩
      · unfold interpolateCell
        rw [hw, ok_bind, ho', hp', ← hc, h1]
        rfl
      · have hk : f.spline.knots d = t.base.spline.knots d := by rw [← h]; rfl
        have hsol := solveForControlPoints_safe (E := fun _ => True) (K := K) (c := c) (t := t) (fm := fm) (fun _ => trivial)
          (fun d => by rw [hT.dims_eq]; exact (hu d).1) (fun d => by rw [hT.dims_eq]; exact hT.solvers d) (fun d => by
            have hper : t.base.periodicity = per := hT.base.peri
            rw [hT.dims_eq, hper]
            have h1 := (hs d).periodic
            unfold pointNum at h1
            unfold unk pointNum
            cases hp : per d <;> cases hn : c.noDummy <;> simp [hp, hn] at h1 ⊢
            omega) hf
        rw [hw] at hsol
        have hd : w.dims = t.dims := hsol.2
        rw [hk, (hT.base.ax d).len, hc, hd, hT.dims_eq]
        have := hu d
        unfold unk at this ⊢
        congr 1
        cases hpd : per d with
        | true => simp only [hpd, if_true] at this ⊢; omega
        | false => simp only [hpd, Bool.false_eq_true, if_false] at this ⊢; omega

variable {c : Cfg} {o : ℕ} {per : Fin (D + 1) → Bool} {fm : Mesh (D + 1) V} {f : InterpFn (D + 1) K V} {t : Template (D + 1) K V} {g : CellFn D K V}

omit [ScaleArith K V] in
theorem Pair.hint (h : Pair c o per fm f t g) (d : Fin (D + 1)) (y : K) : Fl.hint t.base d y = Fl.hint f d y := by rw [h.eq]; rfl

end Fl

/-- In the periodic dimensions the order is odd or the wrapped coordinate is below the knot at which the range ends. -/
def BelowEnd (o : ℕ) (per : Fin D → Bool) (f : InterpFn D K V) (y : Fin D → K) : Prop :=
  ∀ d, per d = true → o % 2 = 1 ∨ ∀ w e, Fl.wrapCoord (f.spline.range d) (y d) = .ok w →
    (f.spline.knots d)[(f.spline.knots d).length - o - 2]? = some e → w < e

namespace Fl

variable {c : Cfg} {o : ℕ} {per : Fin (D + 1) → Bool} {fm : Mesh (D + 1) V} {f : InterpFn (D + 1) K V} {t : Template (D + 1) K V} {g : CellFn D K V}

theorem Pair.hints (h : Pair c o per fm f t g) (y : Fin (D + 1) → K) : Spec (tabM fun d => Fl.hint f d (y d)) (fun k => ∀ d, SegIn f.spline d (k d)) fun _ => True :=
  tabM_spec fun d => hint_safe (fun _ => trivial) h.shaped d (fun _ => trivial) _

theorem Pair.safe (h : Pair c o per fm f t g) {y : Fin (D + 1) → K} (hy : BelowEnd o per f y) {k : Fin (D + 1) → ℕ} (hk : ∀ d, SegIn f.spline d (k d))
    (segs) (hsg : tabM (fun d => getKnotIter' f.spline d (y d) (k d)) = .ok segs) : CellSafe f.spline fun d => (segs d).2 := by
  intro d hp
  have hl := h.len d
  rw [h.peri] at hp
  rw [hp] at hl
  unfold knotLen at hl
  simp only [if_true] at hl
  have ho := h.order
  have hpos := h.shaped.pos d
  have h1 := tabM_spec (Q := fun d (r : K × ℕ) => SegIn f.spline d r.2) fun d => getKnotIter'_safe (E := fun _ => True) (fun _ => trivial) h.shaped d (y d) (hk d)
  rw [hsg] at h1
  obtain ⟨h2, h3⟩ := h1 d
  show (segs d).2 < f.spline.ctrl.dims d + f.spline.order
  rcases Nat.mod_two_eq_zero_or_one o with h6 | h6
  swap
  · omega
  rcases hy d hp with h4 | h4
  · omega
  · have h5 := tabM_spec (Q := fun e (r : K × ℕ) => e = d → r.2 + f.spline.order + 2 < (f.spline.knots d).length) (E := fun _ => True)
      (f := fun d => getKnotIter' f.spline d (y d) (k d)) fun e => by
        by_cases he : e = d
        · subst he
          refine (getKnotIter'_end h.shaped e (y e) (hk e) (by omega) fun w v hw hv => ?_).imp fun r hr _ => hr
          rw [h.peri, if_pos hp] at hw
          exact h4 w v hw (by rw [← ho]; exact hv)
        · exact (Spec_true _).imp fun _ _ h => absurd h he
    rw [hsg] at h5
    have := h5 d rfl
    omega

end Fl

/-! ## C91 -/

/-- **C91**, derivatives.  Whatever the operations on coordinates and values do: where the default layout constructs a function, the cell layout does, and every
derivative has the same outcome in both, bit by bit.  Missing: even orders in periodic dimensions, where the wrapped coordinate may be the end of
the range or nan; there the claim is false (`cell_double_oob`). -/
theorem cell_derivative_any_partial (c : Cfg) (o : ℕ) (per : Fin (D + 1) → Bool) (fm : Mesh (D + 1) V) (x : Fin (D + 1) → XRange K)
    (hs : ∀ d, SizesOk c o (per d) (fm.dims d) (x d)) (hf : fm.storage.length = ∏ d, fm.dims d)
    (f : InterpFn (D + 1) K V) (h : Fl.construct true c o per fm x = .ok f) :
    ∃ t g, Fl.constructT true c o per fm.dims x = .ok t ∧ Fl.interpolateCell c t fm = .ok g ∧
      ∀ (c' : Cfg) (y : Fin (D + 1) → K), BelowEnd o per f y → ∀ m, Fl.cellDerivative c' g y m = Fl.derivative c' f y m := by
  obtain ⟨t, g, ht, hg, hp⟩ := Fl.pair_ok (fun d => (hs d).shape) hf h
  refine ⟨t, g, ht, hg, fun c' y hy m => ?_⟩
  unfold Fl.cellDerivative Fl.derivative
  rw [hp.fn]
  simp only [hp.hint]
  have hh := hp.hints y
  cases hk : tabM fun d => Fl.hint f d (y d) with
  | error e => rfl
  | ok k =>
    rw [hk] at hh
    rw [ok_bind, ok_bind, ← Fl.cellDerivativeAt_eq c' (cell := g.cell) (x := fun d => (y d, k d, m d)) hp.shaped hh hp.cells fun segs hsg => hp.safe hy hh segs hsg]
    unfold CellFn.spline
    rw [hp.fn]
    conv_rhs => rw [hp.eq]
    rfl

/-- Two computations fail in the same way or both succeed. -/
def SameErr {α β : Type} (a : M α) (b : M β) : Prop := ∀ e, a = .error e ↔ b = .error e

theorem sameErr_of {α β : Type} {a : M α} {b : M β} (h : (do let _ ← a; pure ()) = (do let _ ← b; pure ())) : SameErr a b := by
  intro e
  cases a <;> cases b <;> simp_all [bind, Except.bind, pure, Except.pure]

theorem loop_pure_unit {σ : Type} (n : ℕ) (s : σ) (F : ℕ → σ → σ) : (do let _ ← loop 0 n s fun i v => (pure (F i v) : M σ); pure ()) = (pure () : M Unit) := by
  have h : Ok (loop 0 n s fun i v => (pure (F i v) : M σ)) fun _ => True :=
    Spec.loop (P := fun _ _ => True) (E := fun _ => False) (f := fun i v => (pure (F i v) : M σ)) (s := s) (Nat.zero_le n) trivial fun _ _ _ _ _ => trivial
  obtain ⟨v, hv, -⟩ := h.exists
  rw [hv]; rfl

/-- **C91**, values.  Under the same conditions `operator()` accesses nothing outside the container, and fails as in the default layout or not at
all; the evaluators of `eval_proxy` too, if the order is odd or no dimension other than the first is periodic. -/
theorem cell_call_safe_partial (c : Cfg) (o : ℕ) (per : Fin (D + 1) → Bool) (fm : Mesh (D + 1) V) (x : Fin (D + 1) → XRange K)
    (hs : ∀ d, SizesOk c o (per d) (fm.dims d) (x d)) (hf : fm.storage.length = ∏ d, fm.dims d)
    (f : InterpFn (D + 1) K V) (h : Fl.construct true c o per fm x = .ok f) :
    ∃ t g, Fl.constructT true c o per fm.dims x = .ok t ∧ Fl.interpolateCell c t fm = .ok g ∧
      ∀ (c' : Cfg) (y : Fin (D + 1) → K), BelowEnd o per f y → SameErr (Fl.cellCall c' g y) (Fl.call f y) ∧
        ((o % 2 = 1 ∨ ∀ d ≠ 0, per d = false) → SameErr (do let p ← Fl.templateProxy t y; Fl.proxyCall p g.spline) (Fl.call f y)) := by
  obtain ⟨t, g, ht, hg, hp⟩ := Fl.pair_ok (fun d => (hs d).shape) hf h
  refine ⟨t, g, ht, hg, fun c' y hy => ⟨sameErr_of ?_, fun ho => sameErr_of ?_⟩⟩
  · unfold Fl.cellCall Fl.call
    rw [hp.fn]
    simp only [hp.hint]
    have hh := hp.hints y
    cases hk : tabM fun d => Fl.hint f d (y d) with
    | error e => rfl
    | ok k =>
      rw [hk] at hh
      have hcs := fun segs hsg => hp.safe hy hh segs hsg
      have e : Fl.cellEval c' g.spline (fun d => (y d, k d)) = Fl.cellEval c' ⟨f.spline, g.cell⟩ (fun d => (y d, k d)) := by
        unfold CellFn.spline
        rw [hp.fn]
        conv_rhs => rw [hp.eq]
        rfl
      rw [ok_bind, ok_bind, e, Fl.cellEval_any c' (x := fun d => (y d, k d)) hp.shaped hh hp.cells hcs]
      unfold Fl.eval
      simp only [bind_assoc]
      refine Fl.point_cases (x := fun d => (y d, k d)) hp.shaped hh (fun _ => le_rfl) fun segs base _ _ hsg hb => ?_
      rw [loop_pure_unit]
      simp only [Fl.evalBody_any hp.shaped hsg hb]
      exact (loop_pure_unit _ _ _).symm
  · unfold Fl.templateProxy Fl.evalProxy Fl.call
    simp only [hp.hint, bind_assoc]
    have hh := hp.hints y
    cases hk : tabM fun d => Fl.hint f d (y d) with
    | error e => rfl
    | ok k =>
      rw [hk] at hh
      have hcs := fun segs hsg => hp.safe hy hh segs hsg
      have e : (do let p ← Fl.preCalcCoef (⟨t.base, ⟨fun _ => 0, []⟩⟩ : CellFn D K V).spline (fun d => (y d, k d)); Fl.proxyCall p g.spline) =
          (do let p ← Fl.preCalcCoef ⟨f.spline, ⟨fun _ => 0, []⟩⟩ (fun d => (y d, k d)); Fl.proxyCall p (⟨f.spline, g.cell⟩ : CellSpline D K V)) := by
        unfold CellFn.spline
        rw [hp.fn]
        conv_rhs => rw [hp.eq]
        rfl
      rw [ok_bind, ok_bind, ← bind_assoc, e, Fl.proxy_any hp.shaped (by rw [hp.order, hp.peri]; exact hp.len) (by rw [hp.order, hp.peri]; exact ho)
        (x := fun d => (y d, k d)) hh hp.cells hcs]
      unfold Fl.eval
      simp only [bind_assoc]
      refine Fl.point_cases (x := fun d => (y d, k d)) hp.shaped hh (fun _ => le_rfl) fun segs base _ _ hsg hb => ?_
      rw [loop_pure_unit]
      simp only [Fl.evalBody_any hp.shaped hsg hb]
      exact (loop_pure_unit _ _ _).symm

/-- **C91**, one dimension: an evaluator of `eval_proxy` computes what `operator()` computes in the cell layout, and both what it computes in the
default layout if multiplying by 1 changes nothing. -/
theorem cell_one_any_partial (c : Cfg) (o : ℕ) (per : Fin 1 → Bool) (fm : Mesh 1 V) (x : Fin 1 → XRange K)
    (hs : ∀ d, SizesOk c o (per d) (fm.dims d) (x d)) (hf : fm.storage.length = ∏ d, fm.dims d)
    (f : InterpFn 1 K V) (h : Fl.construct true c o per fm x = .ok f) :
    ∃ t g, Fl.constructT true c o per fm.dims x = .ok t ∧ Fl.interpolateCell c t fm = .ok g ∧
      ∀ (c' : Cfg) (y : Fin 1 → K), BelowEnd o per f y → (do let p ← Fl.templateProxy t y; Fl.proxyCall p g.spline) = Fl.cellCall c' g y ∧
        (Fl.OneMul K → Fl.cellCall c' g y = Fl.call f y) := by
  obtain ⟨t, g, ht, hg, hp⟩ := Fl.pair_ok (fun d => (hs d).shape) hf h
  refine ⟨t, g, ht, hg, fun c' y hy => ?_⟩
  have hh := hp.hints y
  unfold Fl.templateProxy Fl.evalProxy Fl.cellCall Fl.call
  rw [hp.fn]
  simp only [hp.hint, bind_assoc]
  cases hk : tabM fun d => Fl.hint f d (y d) with
  | error e => exact ⟨rfl, fun _ => rfl⟩
  | ok k =>
    rw [hk] at hh
    have hcs := fun segs hsg => hp.safe hy hh segs hsg
    have e1 : Fl.cellEval c' g.spline (fun d => (y d, k d)) = Fl.cellEval c' ⟨f.spline, g.cell⟩ (fun d => (y d, k d)) := by
      unfold CellFn.spline
      rw [hp.fn]
      conv_rhs => rw [hp.eq]
      rfl
    have e2 : (do let p ← Fl.preCalcCoef (⟨t.base, ⟨fun _ => 0, []⟩⟩ : CellFn 0 K V).spline (fun d => (y d, k d)); Fl.proxyCall p g.spline) =
        (do let p ← Fl.preCalcCoef ⟨f.spline, ⟨fun _ => 0, []⟩⟩ (fun d => (y d, k d)); Fl.proxyCall p (⟨f.spline, g.cell⟩ : CellSpline 0 K V)) := by
      unfold CellFn.spline
      rw [hp.fn]
      conv_rhs => rw [hp.eq]
      rfl
    rw [ok_bind, ok_bind, ok_bind, e1, e2]
    exact ⟨Fl.proxy_one c' hp.shaped (by rw [hp.order, hp.peri]; exact hp.len) (x := fun d => (y d, k d)) hh hp.cells hcs _,
      fun hone => Fl.cellEval_one c' hone hp.shaped (x := fun d => (y d, k d)) hh hp.cells hcs⟩

/-- Interpolating in the cell layout fails exactly when it fails in the default layout. -/
theorem cell_construct_any (c : Cfg) (o : ℕ) (per : Fin (D + 1) → Bool) (fm : Mesh (D + 1) V) (x : Fin (D + 1) → XRange K)
    (hs : ∀ d, SizesOk c o (per d) (fm.dims d) (x d)) (hf : fm.storage.length = ∏ d, fm.dims d) :
    SameErr (do let t ← Fl.constructT true c o per fm.dims x; Fl.interpolateCell c t fm) (Fl.construct true c o per fm x) := by
  intro e
  cases h : Fl.construct true c o per fm x with
  | ok f =>
    obtain ⟨t, g, ht, hg, -⟩ := Fl.pair_ok (fun d => (hs d).shape) hf h
    rw [ht, ok_bind, hg]; simp
  | error e' =>
    unfold Fl.construct at h
    cases ht : Fl.constructT (V := V) true c o per fm.dims x with
    | error e'' => rw [ht] at h; injection h with h; subst h; rw [error_bind]; simp only [Except.error.injEq]
    | ok t =>
      rw [ht, ok_bind] at h
      rw [ok_bind]
      unfold Fl.interpolateCell
      cases hw : Fl.solveForControlPoints c t fm with
      | ok w => rw [hw] at h; cases h
      | error e'' => rw [hw] at h; injection h with h; subst h; rw [error_bind]; simp only [Except.error.injEq]

/-! ## C92 -/

/-- **C92.** Whatever the operations do, `derivative` with order 0 in all dimensions has the outcome of `operator()`, bit by bit. -/
theorem derivative_zero_any (c : Cfg) (o : ℕ) (per : Fin (D + 1) → Bool) (fm : Mesh (D + 1) V) (x : Fin (D + 1) → XRange K)
    (hs : ∀ d, SizesOk c o (per d) (fm.dims d) (x d)) (hf : fm.storage.length = ∏ d, fm.dims d)
    (f : InterpFn (D + 1) K V) (h : Fl.construct true c o per fm x = .ok f) (c' : Cfg) (y : Fin (D + 1) → K) :
    Fl.derivative c' f y (fun _ => 0) = Fl.call f y ∧ Fl.derivativeAt c' f y (fun _ => 0) = Fl.at' f y := by
  obtain ⟨t, g, ht, hg, hp⟩ := Fl.pair_ok (fun d => (hs d).shape) hf h
  have hh := hp.hints y
  have e : Fl.derivative c' f y (fun _ => 0) = Fl.call f y := by
    unfold Fl.derivative Fl.call
    cases hk : tabM fun d => Fl.hint f d (y d) with
    | error e => rfl
    | ok k =>
      rw [hk] at hh
      rw [ok_bind, ok_bind, Fl.derivativeAtH_zero c' (x := fun d => (y d, k d, 0)) hp.shaped hh fun _ => rfl]
  refine ⟨e, ?_⟩
  unfold Fl.derivativeAt Fl.at'
  rw [e]

end

/-! ## `double` -/

/-- **C91** in `double` with one dimension: `operator()`, derivatives and evaluators of `eval_proxy` give the same bits in both layouts. -/
theorem cell_double_one_partial (c : Cfg) (o : ℕ) (per : Fin 1 → Bool) (fm : Mesh 1 F64) (x : Fin 1 → XRange F64)
    (hs : ∀ d, SizesOk c o (per d) (fm.dims d) (x d)) (hf : fm.storage.length = ∏ d, fm.dims d)
    (f : InterpFn 1 F64 F64) (h : Fl.construct true c o per fm x = .ok f) :
    ∃ t g, Fl.constructT true c o per fm.dims x = .ok t ∧ Fl.interpolateCell c t fm = .ok g ∧
      ∀ (c' : Cfg) (y : Fin 1 → F64), BelowEnd o per f y → Fl.cellCall c' g y = Fl.call f y ∧
        (do let p ← Fl.templateProxy t y; Fl.proxyCall p g.spline) = Fl.call f y ∧ ∀ m, Fl.cellDerivative c' g y m = Fl.derivative c' f y m := by
  obtain ⟨t, g, ht, hg, h1⟩ := cell_one_any_partial c o per fm x hs hf f h
  obtain ⟨t', g', ht', hg', h2⟩ := cell_derivative_any_partial c o per fm x hs hf f h
  rw [ht] at ht'
  injection ht' with ht'
  subst ht'
  rw [hg] at hg'
  injection hg' with hg'
  subst hg'
  refine ⟨t, g, ht, hg, fun c' y hy => ?_⟩
  obtain ⟨a, b⟩ := h1 c' y hy
  exact ⟨b F64.oneMul, a.trans (b F64.oneMul), h2 c' y hy⟩

namespace CellDouble

/-- Data 1, 3, 2, 5 and the first value again. -/
def data : Mesh 1 F64 := Mesh.ofList [.fin 1, .fin 3, .fin 2, .fin 5, .fin 1]

/-- Value in the default layout, value and first derivative in the cell layout, of order `o` with `data` periodic over a range of length 4. -/
def both (b : Bool) (o : ℕ) (y : F64) : M (F64 × M F64 × M F64) := do
  let c : Cfg := ⟨b, false⟩
  let t ← Fl.constructT true c o (fun _ => true) data.dims fun _ => .uniform (.fin 0) (.fin 4)
  let f ← Fl.construct true c o (fun _ => true) data fun _ => .uniform (.fin 0) (.fin 4)
  let g ← Fl.interpolateCell c t data
  let v ← Fl.call f fun _ => y
  pure (v, Fl.cellCall c g (fun _ => y), Fl.cellDerivative c g (fun _ => y) fun _ => 1)

end CellDouble

/-- **C91** fails.  The periodic function of order 2 over the range from -1/2 to 7/2 can be evaluated at the `double` next to -1/2 on the left and at nan; in the cell
layout both read behind the end of the control points, with or without assertions.  (In exact arithmetic the first coordinate is harmless: 4 is added to it,
and only the rounded sum is the end of the range.) -/
theorem cell_double_oob (b : Bool) :
    CellDouble.both b 2 (.fin (-1 / 2 - 1 / 2 ^ 53)) = .ok (.fin (3471524712764757 / 2 ^ 50), .error .oob, .error .oob) ∧
    CellDouble.both b 2 .nan = .ok (.nan, .error .oob, .error .oob) := by
  cases b <;> exact ⟨by decide +kernel, by decide +kernel⟩

/-! ## The hypotheses hold -/

/-- The data of the counterexample meet the conditions of C91. -/
example (b : Bool) (d : Fin 1) : SizesOk (K := F64) ⟨b, false⟩ 2 true (CellDouble.data.dims d) (.uniform (.fin 0) (.fin 4)) :=
  ⟨by fin_cases d; cases b <;> decide, by simp, fun l h => by cases h⟩

/-- The even order 2: at the coordinate 5/4 the condition `BelowEnd` holds, the knot at which the range ends is 7/2. -/
example : (do
    let f ← Fl.construct true ⟨true, false⟩ 2 (fun _ => true) CellDouble.data fun _ => .uniform (.fin 0) (.fin 4)
    let w ← Fl.wrapCoord (f.spline.range 0) (.fin (5 / 4))
    let e ← rd (f.spline.knots 0) ((f.spline.knots 0).length - 2 - 2)
    pure (w, e) : M (F64 × F64)) = .ok (.fin (5 / 4), .fin (7 / 2)) ∧ (F64.fin (5 / 4) < F64.fin (7 / 2)) := by
  exact ⟨by decide +kernel, by decide +kernel⟩

/-- There the layouts agree. -/
example : (do let r ← CellDouble.both true 2 (.fin (5 / 4)); let v ← r.2.1; pure (r.1, v)) = .ok (.fin (47 / 16), .fin (47 / 16)) := by decide +kernel

/-- With the odd order 3 nan can be evaluated in both layouts. -/
example : CellDouble.both true 3 .nan = .ok (.nan, .ok .nan, .ok .nan) := by decide +kernel

end Intp
