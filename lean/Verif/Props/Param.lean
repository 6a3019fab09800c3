import Verif.Proofs.ParamCell
import Verif.Proofs.ParamMap
import Verif.Props.Rounding
import Verif.SignedZero

/-!
# C94–C97: uniform treatment of values

The properties here hold whatever the arithmetic, rounding included, and compare two runs of the code number by number.
-/

namespace Intp

variable {K V V' : Type} [CoordArith K] [ValArith V] [ScaleArith K V] [ValArith V'] [ScaleArith K V'] {D : ℕ}

/-! ## C94: maps that respect the operations -/

/-- `φ` respects what the code does with values: sums, differences, products with a coordinate and quotients by a coordinate. -/
structure ValHom (K : Type) {V V' : Type} [CoordArith K] [ValArith V] [ScaleArith K V] [ValArith V'] [ScaleArith K V'] (φ : V → V') : Prop where
  zero : φ 0 = 0
  add : ∀ a b, φ (a + b) = φ a + φ b
  sub : ∀ a b, φ (a - b) = φ a - φ b
  smul : ∀ (k : K) a, φ (k • a) = k • φ a
  div : ∀ a (k : K), ScaleArith.divV (φ a) k = (ScaleArith.divV a k).map φ

/-- The interpolation function with the images of the control points. -/
def InterpFn.mapV (φ : V → V') (f : InterpFn D K V) : InterpFn D K V' :=
  ⟨⟨f.spline.order, f.spline.periodicity, f.spline.knots, f.spline.ctrl.mapV φ, f.spline.range⟩, f.dx, f.uniform⟩

theorem relM_eq {α : Type} {E : Err → Prop} (a : M α) : RelM E (Graph id) a a := RelM.eqRefl a

theorem kRel_refl (E : Err → Prop) : KRel E (Graph (id : K → K)) where
  zero := rfl
  one := rfl
  add := by rintro _ _ _ _ rfl rfl; rfl
  sub := by rintro _ _ _ _ rfl rfl; rfl
  mul := by rintro _ _ _ _ rfl rfl; rfl
  lt := by rintro _ _ _ _ rfl rfl; rfl
  le := by rintro _ _ _ _ rfl rfl; rfl
  nat _ := rfl
  natP _ := trivial
  half := rfl
  div := by rintro _ _ _ _ rfl rfl -; exact relM_eq _
  fmod := by rintro _ _ _ _ rfl rfl; exact relM_eq _
  ceil := by rintro _ _ rfl; exact RelM.eqRefl _

theorem ValHom.rel {φ : V → V'} (h : ValHom K φ) (E : Err → Prop) : VRel E (Graph (id : K → K)) (Graph φ) where
  zero := h.zero
  add := by rintro a _ b _ rfl rfl; exact h.add a b
  sub := by rintro a _ b _ rfl rfl; exact h.sub a b
  smul := by rintro a _ b _ rfl rfl; exact h.smul a b
  div := by
    rintro a _ b _ rfl rfl -
    simp only [id, h.div]
    cases ScaleArith.divV a b
    · exact .inl rfl
    · exact rfl

omit [CoordArith K] [ValArith V] [ScaleArith K V] [ValArith V'] [ScaleArith K V'] in
theorem mapKV_id (φ : V → V') (f : InterpFn D K V) : f.mapKV id φ = f.mapV φ := by
  unfold InterpFn.mapKV InterpFn.mapV
  simp

omit [CoordArith K] in
theorem mapK_id (x : XRange K) : x.mapK id = x := by cases x <;> simp [XRange.mapK]

/-- **C94.** A map of values that respects the operations commutes with the library: interpolation of the mapped data fails when that of the data does,
and otherwise gives the interpolation function with mapped control points; values and derivatives at any point are the mapped ones, failures included. -/
theorem value_map {φ : V → V'} (h : ValHom K φ) (w : Bool) (c : Cfg) (o : ℕ) (per : Fin (D + 1) → Bool) (fm : Mesh (D + 1) V) (x : Fin (D + 1) → XRange K) :
    Fl.construct w c o per (fm.mapV φ) x = (Fl.construct w c o per fm x).map (InterpFn.mapV φ) ∧
    ∀ (f : InterpFn (D + 1) K V) (y : Fin (D + 1) → K) (m : Fin (D + 1) → ℕ),
      Fl.call (f.mapV φ) y = (Fl.call f y).map φ ∧ Fl.at' (f.mapV φ) y = (Fl.at' f y).map φ ∧
      Fl.derivative c (f.mapV φ) y m = (Fl.derivative c f y m).map φ ∧ Fl.derivativeAt c (f.mapV φ) y m = (Fl.derivativeAt c f y m).map φ := by
  have kr := kRel_refl (K := K) fun _ => False
  have vr := h.rel fun _ => False
  refine ⟨relM_graph.1 (RelM.map (Fl.construct_param kr vr (fun _ => trivial) w c o per (rmesh_graph.2 rfl) fun d => rx_graph.2 (mapK_id (x d)).symm) fun f f' hf => ?_), fun f y m => ?_⟩
  · rw [rfn_graph] at hf
    rw [hf, mapKV_id]
  · have hf : RFn (Graph (id : K → K)) (Graph φ) f (f.mapV φ) := rfn_graph.2 (mapKV_id φ f).symm
    have hy : ∀ d, Graph (id : K → K) (y d) (y d) := fun _ => rfl
    exact ⟨relM_graph.1 (Fl.call_param kr vr hf .all hy), relM_graph.1 (Fl.at'_param kr vr hf .all hy), relM_graph.1 (Fl.derivative_param kr vr c hf .all hy m),
      relM_graph.1 (Fl.derivativeAt_param kr vr c hf .all hy m)⟩

/-- The interpolation function of the cell layout with the images of the control points. -/
def CellFn.mapV (φ : V → V') (f : CellFn D K V) : CellFn D K V' := ⟨f.fn.mapV φ, f.cell.mapV φ⟩

omit [CoordArith K] [ValArith V] [ScaleArith K V] [ValArith V'] [ScaleArith K V'] in
theorem rcell_graph {φ : V → V'} {f : CellFn D K V} {f' : CellFn D K V'} : RCell (Graph (id : K → K)) (Graph φ) f f' ↔ f' = f.mapV φ := by
  constructor
  · rintro ⟨h1, h2⟩
    obtain ⟨a, b⟩ := f'
    rw [rfn_graph, mapKV_id] at h1
    rw [rmesh_graph] at h2
    cases h1; cases h2; rfl
  · rintro rfl
    exact ⟨rfn_graph.2 (mapKV_id _ _).symm, rmesh_graph.2 rfl⟩

omit [CoordArith K] in
theorem rproxy_eq {p p' : (Fin (D + 1) → List K) × ℕ} (h : Fl.RProxy (Graph (id : K → K)) p p') : p' = p := by
  obtain ⟨a, b⟩ := p
  obtain ⟨a', b'⟩ := p'
  obtain ⟨h1, h2⟩ := h
  cases h2
  simp only [forall₂_graph, List.map_id] at h1
  cases funext h1
  rfl

/-- **C94**, control points in cell layout, with the proxies of `eval_proxy`. -/
theorem value_map_cell {φ : V → V'} (h : ValHom K φ) (w : Bool) (c : Cfg) (o : ℕ) (per : Fin (D + 1) → Bool) (fm : Mesh (D + 1) V) (x : Fin (D + 1) → XRange K) :
    (do let t ← Fl.constructT w c o per fm.dims x; Fl.interpolateCell c t (fm.mapV φ)) =
      (do let t ← Fl.constructT w c o per fm.dims x; Fl.interpolateCell c t fm : M (CellFn D K V)).map (CellFn.mapV φ) ∧
    ∀ (f : CellFn D K V) (y : Fin (D + 1) → K) (m : Fin (D + 1) → ℕ) (p : (Fin (D + 1) → List K) × ℕ),
      Fl.cellCall c (f.mapV φ) y = (Fl.cellCall c f y).map φ ∧ Fl.cellDerivative c (f.mapV φ) y m = (Fl.cellDerivative c f y m).map φ ∧
      Fl.evalProxy (f.mapV φ) y = Fl.evalProxy f y ∧ Fl.proxyCall p (f.mapV φ).spline = (Fl.proxyCall p f.spline).map φ := by
  have kr := kRel_refl (K := K) fun _ => False
  have vr := h.rel fun _ => False
  refine ⟨relM_graph.1 (RelM.map (RelM.bind (Fl.constructT_param kr (fun _ => trivial) (Graph φ) w c o per _ fun d => rx_graph.2 (mapK_id (x d)).symm) fun t t' ht =>
    Fl.interpolateCell_param vr c ht (fun _ => .all) (rmesh_graph.2 rfl)) fun f f' hf => rcell_graph.1 hf), fun f y m p => ?_⟩
  have hf : RCell (Graph (id : K → K)) (Graph φ) f (f.mapV φ) := rcell_graph.2 rfl
  have hy : ∀ d, Graph (id : K → K) (y d) (y d) := fun _ => rfl
  refine ⟨relM_graph.1 (Fl.cellCall_param kr vr c hf .all hy), relM_graph.1 (Fl.cellDerivative_param kr vr c hf .all hy m), ?_,
    relM_graph.1 (Fl.proxyCall_param kr vr ⟨fun d => forall₂_graph.2 (List.map_id _).symm, rfl⟩ hf.sp)⟩
  rw [relM_graph.1 (RelM.map (φ := id) (Fl.evalProxy_param kr hf .all hy) fun p p' hp => rproxy_eq hp)]
  cases Fl.evalProxy f y <;> rfl

namespace F64

theorem neg_neg (a : F64) : neg (neg a) = a := by cases a <;> simp [neg]

/-- Rounding is symmetric. -/
theorem round_neg (q : ℚ) : round (-q) = neg (round q) := by
  symm
  refine RoundsTo.eq_round (q := -q) ?_
  obtain ⟨h1, h2⟩ := roundsTo_round q
  refine ⟨fun h => ?_, fun h => ?_⟩
  · rw [abs_neg] at h
    obtain ⟨r, e, h3, h4, h5⟩ := h1 h
    refine ⟨-r, by rw [e]; rfl, h3.neg, fun z hz => ?_, fun z hz hne he => ?_⟩
    · have := h4 (-z) hz.neg
      rwa [show -r - -q = -(r - q) by ring, abs_neg, show z - -q = -(-z - q) by ring, abs_neg]
    · rw [show -r - -q = -(r - q) by ring, abs_neg, show z - -q = -(-z - q) by ring, abs_neg] at he
      obtain ⟨m, e, h6, h7⟩ := h5 (-z) hz.neg (fun h => hne (by rw [← h]; ring)) he
      refine ⟨-m, e, by rw [h6]; push_cast; ring, ?_⟩
      rw [← h7, show z - -r = -(-z - r) by ring, abs_neg]
  · rw [abs_neg] at h
    rw [h2 h]
    have : q ≠ 0 := by
      rintro rfl
      rw [abs_zero] at h
      exact absurd h (by decide +kernel)
    rcases lt_or_gt_of_ne this with h | h
    · simp [neg, h, h.le]
    · simp [neg, h, h.le]

theorem add_neg_neg (a b : F64) : add (neg a) (neg b) = neg (add a b) := by
  cases a with
  | nan => rfl
  | inf s =>
    cases b with
    | nan => rfl
    | inf t => cases s <;> cases t <;> rfl
    | fin q => rfl
  | fin p =>
    cases b with
    | nan => rfl
    | inf t => rfl
    | fin q =>
      show round (-p + -q) = neg (round (p + q))
      rw [← round_neg]
      congr 1; ring

theorem isNeg_neg {q : ℚ} (h : q ≠ 0) : isNeg (-q) = !isNeg q := by
  rcases lt_or_gt_of_ne h with h | h
  · simp [isNeg, h, h.le]
  · simp [isNeg, h, h.le]

theorem mul_neg_right (a b : F64) : mul a (neg b) = neg (mul a b) := by
  cases a with
  | nan => rfl
  | inf s =>
    cases b with
    | nan => rfl
    | inf t => cases s <;> cases t <;> rfl
    | fin q =>
      by_cases h : q = 0
      · simp [mul, neg, h]
      · simp [mul, neg, h, isNeg_neg]
  | fin p =>
    cases b with
    | nan => rfl
    | inf t =>
      by_cases h : p = 0
      · simp [mul, neg, h]
      · simp [mul, neg, h]
    | fin q =>
      show round (p * -q) = neg (round (p * q))
      rw [← round_neg]
      congr 1; ring

theorem div_neg_left (a b : F64) : div (neg a) b = neg (div a b) := by
  cases a with
  | nan => rfl
  | inf s =>
    cases b with
    | nan => rfl
    | inf t => rfl
    | fin q => simp [div, neg]
  | fin p =>
    cases b with
    | nan => rfl
    | inf t => simp [div, neg]
    | fin q =>
      by_cases h : q = 0
      · by_cases hp : p = 0
        · simp [div, neg, h, hp]
        · simp [div, neg, h, hp, isNeg_neg]
      · rw [show div (neg (fin p)) (fin q) = round (-p / q) by simp [div, neg, h], show div (fin p) (fin q) = round (p / q) by simp [div, h], ← round_neg]
        congr 1; ring

/-- Negation of a `double` respects the operations. -/
theorem neg_hom : ValHom F64 neg where
  zero := by show neg (fin 0) = fin 0; simp [neg]
  add a b := (add_neg_neg a b).symm
  sub a b := (add_neg_neg a (neg b)).symm
  smul k a := (mul_neg_right k a).symm
  div a k := by
    show Except.ok (div (neg a) k) = .ok (neg (div a k))
    rw [div_neg_left]

end F64

/-- **C94.** In `double`, negated data give the negated function, number by number. -/
theorem double_neg (w : Bool) (c : Cfg) (o : ℕ) (per : Fin (D + 1) → Bool) (fm : Mesh (D + 1) F64) (x : Fin (D + 1) → XRange F64) :
    Fl.construct w c o per (fm.mapV F64.neg) x = (Fl.construct w c o per fm x).map (InterpFn.mapV F64.neg) ∧
    ∀ (f : InterpFn (D + 1) F64 F64) (y : Fin (D + 1) → F64) (m : Fin (D + 1) → ℕ),
      Fl.call (f.mapV F64.neg) y = (Fl.call f y).map F64.neg ∧ Fl.at' (f.mapV F64.neg) y = (Fl.at' f y).map F64.neg ∧
      Fl.derivative c (f.mapV F64.neg) y m = (Fl.derivative c f y m).map F64.neg ∧
      Fl.derivativeAt c (f.mapV F64.neg) y m = (Fl.derivativeAt c f y m).map F64.neg :=
  value_map F64.neg_hom w c o per fm x

/-! ## C95: values that are vectors -/

/-- A vector of `double`s, such as the `Vec<2, float>` of the tests or a complex number: sums, differences and products with a `double` act on the
components. -/
structure VecF64 (n : ℕ) where
  comp : Fin n → F64

namespace VecF64

variable {n : ℕ}

instance : ValArith (VecF64 n) where
  zero := ⟨fun _ => 0⟩
  add a b := ⟨fun i => a.comp i + b.comp i⟩
  sub a b := ⟨fun i => a.comp i - b.comp i⟩

instance : ScaleArith F64 (VecF64 n) where
  smul k a := ⟨fun i => k * a.comp i⟩
  divV a k := .ok ⟨fun i => F64.div (a.comp i) k⟩
  divErrV := False
  divV_err _ _ := trivial

theorem comp_hom (i : Fin n) : ValHom F64 fun a : VecF64 n => a.comp i where
  zero := rfl
  add _ _ := rfl
  sub _ _ := rfl
  smul _ _ := rfl
  div _ _ := rfl

end VecF64

/-- **C95.** Interpolation of vectors is interpolation of the components, number by number: with the same spline, and every value and derivative has the
components that the function of that component has. -/
theorem vector_components {n : ℕ} (w : Bool) (c : Cfg) (o : ℕ) (per : Fin (D + 1) → Bool) (fm : Mesh (D + 1) (VecF64 n)) (x : Fin (D + 1) → XRange F64) (i : Fin n) :
    Fl.construct w c o per (fm.mapV fun v => v.comp i) x = (Fl.construct w c o per fm x).map (InterpFn.mapV fun v => v.comp i) ∧
    ∀ (f : InterpFn (D + 1) F64 (VecF64 n)) (y : Fin (D + 1) → F64) (m : Fin (D + 1) → ℕ),
      Fl.call (f.mapV fun v => v.comp i) y = (Fl.call f y).map (fun v => v.comp i) ∧
      Fl.at' (f.mapV fun v => v.comp i) y = (Fl.at' f y).map (fun v => v.comp i) ∧
      Fl.derivative c (f.mapV fun v => v.comp i) y m = (Fl.derivative c f y m).map (fun v => v.comp i) ∧
      Fl.derivativeAt c (f.mapV fun v => v.comp i) y m = (Fl.derivativeAt c f y m).map (fun v => v.comp i) :=
  value_map (VecF64.comp_hom i) w c o per fm x

/-! ## C96: the data do not steer the computation -/

/-- The functions differ at most in the values of their control points. -/
structure SameShape (f : InterpFn D K V) (f' : InterpFn D K V') : Prop where
  order : f.spline.order = f'.spline.order
  periodicity : f.spline.periodicity = f'.spline.periodicity
  knots : f.spline.knots = f'.spline.knots
  range : f.spline.range = f'.spline.range
  dx : f.dx = f'.dx
  uniform : f.uniform = f'.uniform
  dims : f.spline.ctrl.dims = f'.spline.ctrl.dims
  size : f.spline.ctrl.size = f'.spline.ctrl.size

/-- Both succeed, or both fail with the same error. -/
def SameOutcome {α β : Type} (a : M α) (b : M β) : Prop := ∀ e, a = .error e ↔ b = .error e

theorem relM_outcome {α β : Type} {R : α → β → Prop} {a : M α} {b : M β} (h : RelM (fun _ => False) R a b) : SameOutcome a b := by
  intro e
  cases a <;> cases b
  · have := h.resolve_right id
    rw [this]
    simp
  · exact h.elim
  · exact h.elim
  · simp

theorem forall₂_true {α β : Type} {l : List α} {l' : List β} : List.Forall₂ (fun _ _ => True) l l' ↔ l.length = l'.length := by
  constructor
  · exact List.Forall₂.length_eq
  · induction l generalizing l' with
    | nil => intro h; rw [List.eq_nil_of_length_eq_zero h.symm]; exact .nil
    | cons a l ih =>
      cases l' with
      | nil => intro h; exact absurd h (by simp)
      | cons b l' => intro h; exact .cons trivial (ih (by simpa using h))

omit [CoordArith K] [ValArith V] [ScaleArith K V] [ValArith V'] [ScaleArith K V'] in
theorem sameShape_iff {f : InterpFn D K V} {f' : InterpFn D K V'} : RFn (Graph (id : K → K)) (fun _ _ => True) f f' ↔ SameShape f f' := by
  constructor
  · intro h
    refine ⟨h.spline.order_eq, h.spline.per_eq, funext fun d => ?_, funext fun d => Prod.ext (h.spline.range d).1 (h.spline.range d).2, funext fun d => h.dx d, h.uni,
      h.spline.ctrl.dims_eq, h.spline.ctrl.size_eq⟩
    have := forall₂_graph.1 (h.spline.knots d)
    rw [this, List.map_id]
  · intro h
    obtain ⟨⟨o, per, k, ⟨n, s⟩, r⟩, dx, u⟩ := f
    obtain ⟨⟨o', per', k', ⟨n', s'⟩, r'⟩, dx', u'⟩ := f'
    obtain ⟨h1, h2, h3, h4, h5, h6, h7, h8⟩ := h
    cases h1; cases h2; cases h3; cases h4; cases h5; cases h6; cases h7
    exact .mk (.mk (fun d => forall₂_graph.2 (List.map_id _).symm) (.mk (forall₂_true.2 h8)) fun d => ⟨rfl, rfl⟩) fun d => rfl

/-- Whether the quotient of a value by a coordinate is defined does not depend on the value: true for `double`, where it always is, and for exact numbers. -/
def DivAlike (K V V' : Type) [ScaleArith K V] [ScaleArith K V'] : Prop := ∀ (v : V) (v' : V') (k : K), SameOutcome (ScaleArith.divV v k) (ScaleArith.divV v' k)

theorem outcome_relM {α β : Type} {a : M α} {b : M β} (h : SameOutcome a b) : RelM (fun _ => False) (fun _ _ => True) a b := by
  cases a with
  | error e => rw [(h e).1 rfl]; exact .inl rfl
  | ok x =>
    cases b with
    | error e => exact absurd ((h e).2 rfl) (by simp)
    | ok y => exact trivial

theorem vRel_true (hd : DivAlike K V V') : VRel (fun _ => False) (Graph (id : K → K)) (fun (_ : V) (_ : V') => True) where
  zero := trivial
  add := fun _ _ => trivial
  sub := fun _ _ => trivial
  smul := fun _ _ => trivial
  div := by
    rintro a a' k _ - rfl -
    exact outcome_relM (hd a a' k)

omit [ValArith V] [ValArith V'] in
theorem rmesh_true {fm : Mesh D V} {fm' : Mesh D V'} (hn : fm.dims = fm'.dims) (hs : fm.size = fm'.size) : RMesh (fun _ _ => True) fm fm' := by
  obtain ⟨n, s⟩ := fm
  obtain ⟨n', s'⟩ := fm'
  cases hn
  exact .mk (forall₂_true.2 hs)

/-- **C96.** Nothing but the control points and the values returned depends on the data.  For two sets of data of one shape, even of different types,
construction fails alike and otherwise gives the same knots, ranges and steps; and evaluation at a point of functions that differ in their control points
fails alike.  In particular no nan, infinity or overflow in the data changes an index, a branch or an exception. -/
theorem data_independent (hd : DivAlike K V V') (w : Bool) (c : Cfg) (o : ℕ) (per : Fin (D + 1) → Bool) (fm : Mesh (D + 1) V) (fm' : Mesh (D + 1) V')
    (hn : fm.dims = fm'.dims) (hs : fm.size = fm'.size) (x : Fin (D + 1) → XRange K) :
    SameOutcome (Fl.construct w c o per fm x) (Fl.construct w c o per fm' x) ∧
    (∀ f f', Fl.construct w c o per fm x = .ok f → Fl.construct w c o per fm' x = .ok f' → SameShape f f') ∧
    ∀ (f : InterpFn (D + 1) K V) (f' : InterpFn (D + 1) K V'), SameShape f f' → ∀ (y : Fin (D + 1) → K) (m : Fin (D + 1) → ℕ),
      SameOutcome (Fl.call f y) (Fl.call f' y) ∧ SameOutcome (Fl.at' f y) (Fl.at' f' y) ∧
      SameOutcome (Fl.derivative c f y m) (Fl.derivative c f' y m) ∧ SameOutcome (Fl.derivativeAt c f y m) (Fl.derivativeAt c f' y m) := by
  have kr := kRel_refl (K := K) fun _ => False
  have vr := vRel_true hd
  have hm := rmesh_true hn hs
  have hc := Fl.construct_param kr vr (fun _ => trivial) w c o per hm fun d => rx_graph.2 (mapK_id (x d)).symm
  refine ⟨relM_outcome hc, fun f f' hf hf' => ?_, fun f f' h y m => ?_⟩
  · rw [hf, hf'] at hc
    exact sameShape_iff.1 hc
  · have hf := sameShape_iff.2 h
    have hy : ∀ d, Graph (id : K → K) (y d) (y d) := fun _ => rfl
    exact ⟨relM_outcome (Fl.call_param kr vr hf .all hy), relM_outcome (Fl.at'_param kr vr hf .all hy), relM_outcome (Fl.derivative_param kr vr c hf .all hy m),
      relM_outcome (Fl.derivativeAt_param kr vr c hf .all hy m)⟩

/-- **C96**, control points in cell layout. -/
theorem data_independent_cell (hd : DivAlike K V V') (w : Bool) (c : Cfg) (o : ℕ) (per : Fin (D + 1) → Bool) (fm : Mesh (D + 1) V) (fm' : Mesh (D + 1) V')
    (hn : fm.dims = fm'.dims) (hs : fm.size = fm'.size) (x : Fin (D + 1) → XRange K) :
    SameOutcome (do let t ← Fl.constructT w c o per fm.dims x; Fl.interpolateCell c t fm : M (CellFn D K V))
      (do let t ← Fl.constructT w c o per fm.dims x; Fl.interpolateCell c t fm' : M (CellFn D K V')) ∧
    ∀ (f : CellFn D K V) (f' : CellFn D K V'), SameShape f.fn f'.fn → f.cell.dims = f'.cell.dims → f.cell.size = f'.cell.size →
      ∀ (y : Fin (D + 1) → K) (m : Fin (D + 1) → ℕ) (p : (Fin (D + 1) → List K) × ℕ),
      SameOutcome (Fl.cellCall c f y) (Fl.cellCall c f' y) ∧ SameOutcome (Fl.cellDerivative c f y m) (Fl.cellDerivative c f' y m) ∧
      Fl.evalProxy f y = Fl.evalProxy f' y ∧ SameOutcome (Fl.proxyCall p f.spline) (Fl.proxyCall p f'.spline) := by
  have kr := kRel_refl (K := K) fun _ => False
  have vr := vRel_true hd
  refine ⟨relM_outcome (RelM.bind (Fl.constructT_param kr (fun _ => trivial) (fun _ _ => True) w c o per _ fun d => rx_graph.2 (mapK_id (x d)).symm) fun t t' ht =>
    Fl.interpolateCell_param vr c ht (fun _ => .all) (rmesh_true hn hs)), fun f f' h hd hs y m p => ?_⟩
  have hf : RCell (Graph (id : K → K)) (fun _ _ => True) f f' := ⟨sameShape_iff.2 h, rmesh_true hd hs⟩
  have hy : ∀ d, Graph (id : K → K) (y d) (y d) := fun _ => rfl
  refine ⟨relM_outcome (Fl.cellCall_param kr vr c hf .all hy), relM_outcome (Fl.cellDerivative_param kr vr c hf .all hy m), ?_,
    relM_outcome (Fl.proxyCall_param kr vr ⟨fun d => forall₂_graph.2 (List.map_id _).symm, rfl⟩ hf.sp)⟩
  rw [relM_graph.1 (RelM.map (φ := id) (Fl.evalProxy_param kr hf .all hy) fun p p' hp => rproxy_eq hp)]
  cases Fl.evalProxy f y <;> rfl

/-- `double` meets the hypothesis. -/
theorem double_divAlike : DivAlike F64 F64 F64 := fun _ _ _ e => by
  show Except.ok _ = Except.error e ↔ Except.ok _ = Except.error e
  simp

/-! ## C97: the sign of zeros -/

namespace S64

variable {r s : Bool}

/-- The same number, in the version of the arithmetic with or without report. -/
def cast : S64 r → S64 s
  | nan => nan
  | inf t => inf t
  | fin q t => fin q t

theorem forget_round (q : ℚ) (t : Bool) : (round q t : S64 r).forget = F64.round q := by
  unfold round
  cases F64.round q <;> rfl

theorem cast_round (q : ℚ) (t : Bool) : (cast (round q t : S64 r) : S64 s) = round q t := by
  unfold round
  cases F64.round q <;> rfl

theorem forget_neg (a : S64 r) : (neg a).forget = F64.neg a.forget := by cases a <;> rfl
theorem cast_neg (a : S64 r) : (cast (neg a) : S64 s) = neg (cast a) := by cases a <;> rfl

theorem forget_add (a b : S64 r) : (add a b).forget = F64.add a.forget b.forget := by
  cases a with
  | nan => rfl
  | inf t =>
    cases b with
    | nan => rfl
    | inf t' => cases t <;> cases t' <;> rfl
    | fin => rfl
  | fin p t =>
    cases b with
    | nan => rfl
    | inf => rfl
    | fin q t' => exact forget_round _ _

theorem cast_add (a b : S64 r) : (cast (add a b) : S64 s) = add (cast a) (cast b) := by
  cases a with
  | nan => rfl
  | inf t =>
    cases b with
    | nan => rfl
    | inf t' => cases t <;> cases t' <;> rfl
    | fin => rfl
  | fin p t =>
    cases b with
    | nan => rfl
    | inf => rfl
    | fin q t' => exact cast_round _ _

theorem sign_isNeg {q : ℚ} (h : q ≠ 0) (t : Bool) : sign q t = F64.isNeg q := by simp [sign, h, F64.isNeg]

theorem forget_mul (a b : S64 r) : (mul a b).forget = F64.mul a.forget b.forget := by
  cases a with
  | nan => rfl
  | inf t =>
    cases b with
    | nan => rfl
    | inf t' => rfl
    | fin q t' =>
      by_cases h : q = 0
      · simp [mul, F64.mul, forget, h]
      · simp [mul, F64.mul, forget, h, sign_isNeg]
  | fin p t =>
    cases b with
    | nan => rfl
    | inf t' =>
      by_cases h : p = 0
      · simp [mul, F64.mul, forget, h]
      · simp [mul, F64.mul, forget, h, sign_isNeg]
    | fin q t' => exact forget_round _ _

theorem cast_mul (a b : S64 r) : (cast (mul a b) : S64 s) = mul (cast a) (cast b) := by
  cases a with
  | nan => rfl
  | inf t =>
    cases b with
    | nan => rfl
    | inf t' => rfl
    | fin q t' =>
      by_cases h : q = 0
      · simp [mul, cast, h]
      · simp [mul, cast, h]
  | fin p t =>
    cases b with
    | nan => rfl
    | inf t' =>
      by_cases h : p = 0
      · simp [mul, cast, h]
      · simp [mul, cast, h]
    | fin q t' => exact cast_round _ _

theorem cast_div (a b : S64 r) : (cast (div a b) : S64 s) = div (cast a) (cast b) := by
  cases a with
  | nan => rfl
  | inf t => cases b <;> rfl
  | fin p t =>
    cases b with
    | nan => rfl
    | inf t' => rfl
    | fin q t' =>
      by_cases h : q = 0
      · by_cases hp : p = 0
        · simp [div, cast, h, hp]
        · simp [div, cast, h, hp]
      · simp only [div, cast, h, if_false]
        exact cast_round _ _

theorem forget_div (a : S64 r) {b : S64 r} (hb : b.isNegZero = false) : (div a b).forget = F64.div a.forget b.forget := by
  cases a with
  | nan => rfl
  | inf t =>
    cases b with
    | nan => rfl
    | inf t' => rfl
    | fin q t' =>
      by_cases h : q = 0
      · subst h
        have : t' = false := by simpa [isNegZero] using hb
        subst this
        simp [div, F64.div, forget, sign, F64.isNeg]
      · simp [div, F64.div, forget, sign_isNeg h]
  | fin p t =>
    cases b with
    | nan => rfl
    | inf t' => rfl
    | fin q t' =>
      by_cases h : q = 0
      · subst h
        have : t' = false := by simpa [isNegZero] using hb
        subst this
        by_cases hp : p = 0
        · simp [div, F64.div, forget, hp]
        · simp [div, F64.div, forget, hp, sign_isNeg]
      · simp only [div, F64.div, forget, h, if_false]
        exact forget_round _ _

theorem forget_fmod (a b : S64 r) : (fmod a b).forget = F64.fmod a.forget b.forget := by
  cases a with
  | nan => rfl
  | inf t => cases b <;> rfl
  | fin p t =>
    cases b with
    | nan => rfl
    | inf t' => rfl
    | fin q t' =>
      by_cases h : q = 0
      · simp [fmod, F64.fmod, forget, h]
      · simp [fmod, F64.fmod, forget, h]

theorem cast_fmod (a b : S64 r) : (cast (fmod a b) : S64 s) = fmod (cast a) (cast b) := by
  cases a with
  | nan => rfl
  | inf t => cases b <;> rfl
  | fin p t =>
    cases b with
    | nan => rfl
    | inf t' => rfl
    | fin q t' =>
      by_cases h : q = 0
      · simp [fmod, F64.fmod, cast, h]
      · simp [fmod, F64.fmod, cast, h]

theorem forget_cast (a : S64 r) : (cast a : S64 s).forget = a.forget := by cases a <;> rfl

theorem isNegZero_cast (a : S64 r) : (cast a : S64 s).isNegZero = a.isNegZero := by cases a <;> rfl

/-- Sign bit; that of a nan means nothing. -/
def signBit : S64 r → Bool
  | nan => false
  | inf t => t
  | fin q t => sign q t

theorem signBit_round {q : ℚ} {t : Bool} (h : q ≠ 0 → t = F64.isNeg q) : (round q t : S64 r).signBit = if q = 0 then t else decide (q < 0) := by
  by_cases h0 : q = 0
  · subst h0
    rw [if_pos rfl, show (round 0 t : S64 r) = fin 0 t by unfold round; rw [show F64.round 0 = .fin 0 by decide +kernel]]
    simp [signBit, sign]
  · rw [if_neg h0]
    have ht := h h0
    unfold round F64.round
    dsimp only
    have key : F64.rnd q ≠ 0 → (decide (F64.rnd q < 0) = decide (q < 0)) := by
      intro hr
      rw [decide_eq_decide]
      constructor
      · intro hlt
        by_contra hq
        exact absurd (F64.rnd_nonneg (not_lt.1 hq)) (not_le.2 hlt)
      · intro hlt
        refine lt_of_le_of_ne ?_ hr
        rw [← F64.rnd_zero]
        exact F64.rnd_mono hlt.le
    by_cases hr : F64.rnd q = 0
    · rw [hr, abs_zero, if_neg (by decide +kernel)]
      show sign 0 t = _
      rw [sign, if_pos rfl, ht]
      rfl
    · split
      · rename_i hnan
        split at hnan <;> cases hnan
      · rename_i s' hs
        split at hs
        · cases hs
          exact key hr
        · cases hs
      · rename_i r' hr'
        split at hr'
        · cases hr'
        · cases hr'
          show sign _ t = _
          rw [sign, if_neg hr]
          exact key hr

/-- **C97.** The signs of IEEE 754.  Products and quotients have the product of the signs.  A sum of numbers that cancel is the positive zero, unless both
are negative zeros; a sum is never a zero otherwise. -/
theorem signs (a b : S64 r) :
    (a * b ≠ nan → (a * b).signBit = (a.signBit ^^ b.signBit)) ∧ (div a b ≠ nan → (div a b).signBit = (a.signBit ^^ b.signBit)) ∧
    (∀ p q t u, a = fin p t → b = fin q u → p + q = 0 → a + b = fin 0 (a.signBit && b.signBit)) ∧
    (fmod a b ≠ nan → fmod a b = fin 0 false ∨ fmod a b = fin 0 true → fmod a b = fin 0 a.signBit) := by
  have hsg : ∀ {p q : ℚ} (t u : Bool), p ≠ 0 → q ≠ 0 → (sign p t ^^ sign q u) = F64.isNeg (p * q) := by
    intro p q t u hp hq
    rw [sign_isNeg hp, sign_isNeg hq]
    unfold F64.isNeg
    rcases lt_or_gt_of_ne hp with h | h <;> rcases lt_or_gt_of_ne hq with h' | h'
    · rw [decide_eq_true h, decide_eq_true h', decide_eq_false (not_lt.2 (mul_pos_of_neg_of_neg h h').le)]; rfl
    · rw [decide_eq_true h, decide_eq_false (not_lt.2 h'.le), decide_eq_true (mul_neg_of_neg_of_pos h h')]; rfl
    · rw [decide_eq_false (not_lt.2 h.le), decide_eq_true h', decide_eq_true (mul_neg_of_pos_of_neg h h')]; rfl
    · rw [decide_eq_false (not_lt.2 h.le), decide_eq_false (not_lt.2 h'.le), decide_eq_false (not_lt.2 (mul_pos h h').le)]; rfl
  have hrd : ∀ {p q z : ℚ} (t u : Bool), z = p * q ∨ (q ≠ 0 ∧ z = p / q) → (round z (sign p t ^^ sign q u) : S64 r).signBit = (sign p t ^^ sign q u) := by
    intro p q z t u hz
    have hz0 : z ≠ 0 → (sign p t ^^ sign q u) = F64.isNeg z := by
      intro h0
      rcases hz with rfl | ⟨hq, rfl⟩
      · exact hsg t u (left_ne_zero_of_mul h0) (right_ne_zero_of_mul h0)
      · have hp : p ≠ 0 := fun h => h0 (by rw [h, zero_div])
        rw [hsg t u hp hq]
        have : p * q = p / q * (q * q) := by field_simp
        unfold F64.isNeg
        rw [this, decide_eq_decide]
        have hq2 := mul_self_pos.2 hq
        exact ⟨fun h => by by_contra hc; exact absurd (mul_nonneg (not_lt.1 hc) hq2.le) (not_le.2 h), fun h => mul_neg_of_neg_of_pos h hq2⟩
    rw [signBit_round hz0]
    split
    · rfl
    · rename_i h0; rw [hz0 h0]; rfl
  refine ⟨fun h => ?_, fun h => ?_, ?_, fun h => ?_⟩
  · change mul a b ≠ nan at h
    show (mul a b).signBit = _
    cases a with
    | nan => exact absurd rfl h
    | inf t =>
      cases b with
      | nan => exact absurd rfl h
      | inf u => rfl
      | fin q u =>
        by_cases h0 : q = 0
        · exact absurd (by simp [mul, h0]) h
        · simp [mul, h0, signBit]
    | fin p t =>
      cases b with
      | nan => exact absurd rfl h
      | inf u =>
        by_cases h0 : p = 0
        · exact absurd (by simp [mul, h0]) h
        · simp [mul, h0, signBit]
      | fin q u => exact hrd t u (.inl rfl)
  · cases a with
    | nan => exact absurd rfl h
    | inf t =>
      cases b with
      | nan => exact absurd rfl h
      | inf u => exact absurd rfl h
      | fin q u => rfl
    | fin p t =>
      cases b with
      | nan => exact absurd rfl h
      | inf u => simp [div, signBit, sign]
      | fin q u =>
        by_cases h0 : q = 0
        · by_cases hp : p = 0
          · exact absurd (by simp [div, h0, hp]) h
          · simp [div, h0, hp, signBit, sign]
        · rw [show div (fin p t : S64 r) (fin q u) = round (p / q) (sign p t ^^ sign q u) by simp [div, h0]]
          exact hrd t u (.inr ⟨h0, rfl⟩)
  · rintro p q t u rfl rfl h
    show round (p + q) (sign p t && sign q u) = _
    rw [h]
    unfold round
    rw [show F64.round 0 = .fin 0 by decide +kernel]
    rfl
  · intro hz
    cases a with
    | nan => exact absurd rfl h
    | inf t => exact absurd (by cases b <;> rfl) h
    | fin p t =>
      cases b with
      | nan => exact absurd rfl h
      | inf u =>
        simp only [fmod, signBit] at hz ⊢
        rcases hz with hz | hz <;> cases hz <;> simp [sign]
      | fin q u =>
        simp only [fmod, signBit] at hz ⊢
        by_cases h0 : q = 0
        · simp [F64.fmod, h0] at hz
        · simp only [F64.fmod, h0, if_false] at hz ⊢
          rcases hz with hz | hz <;> (injection hz with h1 h2; rw [h1])

/-- From the arithmetic with report to `double` with two zeros. -/
theorem kRel_cast : KRel (· = .divZero) (Graph (cast : S64 true → S64 false)) where
  zero := rfl
  one := rfl
  add := by rintro a _ b _ rfl rfl; exact cast_add a b
  sub := by rintro a _ b _ rfl rfl; exact (cast_add a (neg b)).trans (by rw [cast_neg]; rfl)
  mul := by rintro a _ b _ rfl rfl; exact cast_mul a b
  lt := by
    rintro a _ b _ rfl rfl
    show F64.lt _ _ = true ↔ F64.lt _ _ = true
    rw [forget_cast, forget_cast]
  le := by
    rintro a _ b _ rfl rfl
    show F64.le _ _ = true ↔ F64.le _ _ = true
    rw [forget_cast, forget_cast]
  nat n := cast_round _ _
  natP _ := trivial
  half := rfl
  div := by
    rintro a _ b _ rfl rfl -
    show RelM _ _ (divM a b) (.ok (div (cast a) (cast b)))
    unfold divM
    split
    · exact rfl
    · exact cast_div a b
  fmod := by rintro a _ b _ rfl rfl; exact cast_fmod a b
  ceil := by
    rintro a _ rfl
    show RelM _ _ (F64.ceilSize _) (F64.ceilSize _)
    rw [forget_cast]
    exact RelM.eqRefl _

theorem vRel_cast : VRel (· = .divZero) (Graph (cast : S64 true → S64 false)) (Graph (cast : S64 true → S64 false)) where
  zero := rfl
  add := kRel_cast.add
  sub := kRel_cast.sub
  smul := kRel_cast.mul
  div := kRel_cast.div

/-- From the arithmetic with report to `double` with one zero. -/
theorem kRel_forget : KRel (· = .divZero) (Graph (forget : S64 true → F64)) where
  zero := rfl
  one := rfl
  add := by rintro a _ b _ rfl rfl; exact forget_add a b
  sub := by rintro a _ b _ rfl rfl; exact (forget_add a (neg b)).trans (by rw [forget_neg]; rfl)
  mul := by rintro a _ b _ rfl rfl; exact forget_mul a b
  lt := by rintro a _ b _ rfl rfl; rfl
  le := by rintro a _ b _ rfl rfl; rfl
  nat n := forget_round _ _
  natP _ := trivial
  half := rfl
  div := by
    rintro a _ b _ rfl rfl -
    show RelM _ _ (divM a b) (.ok (F64.div a.forget b.forget))
    unfold divM
    split
    · exact rfl
    · rename_i h
      exact forget_div a (by simpa using h)
  fmod := by rintro a _ b _ rfl rfl; exact forget_fmod a b
  ceil := by rintro a _ rfl; exact RelM.eqRefl _

theorem vRel_forget : VRel (· = .divZero) (Graph (forget : S64 true → F64)) (Graph (forget : S64 true → F64)) where
  zero := rfl
  add := kRel_forget.add
  sub := kRel_forget.sub
  smul := kRel_forget.mul
  div := kRel_forget.div

theorem cast_cast (a : S64 false) : (cast (cast a : S64 true) : S64 false) = a := by cases a <;> rfl

end S64

theorem two_maps {α β γ : Type} {φ : α → β} {ψ : α → γ} {χ : β → γ} (h : ∀ a, ψ a = χ (φ a)) {a : M α} {b : M β} {g : M γ}
    (h1 : RelM (· = .divZero) (Graph φ) a b) (h2 : RelM (· = .divZero) (Graph ψ) a g) (ha : a ≠ .error .divZero) : g = b.map χ := by
  rw [relM_map h1 fun e he hz => ha (by rw [he, hz]), relM_map h2 fun e he hz => ha (by rw [he, hz])]
  cases a with
  | error e => rfl
  | ok x => show Except.ok (ψ x) = .ok (χ (φ x)); rw [h]

omit [ValArith V] [ValArith V'] in
theorem mapV_mapV {φ : V → V'} {W : Type} {ψ : V' → W} (m : Mesh D V) : (m.mapV φ).mapV ψ = m.mapV (ψ ∘ φ) := by simp [Mesh.mapV]

theorem mapKV_mapKV {A A' A'' B B' B'' : Type} (g : A → A') (g' : A' → A'') (φ : B → B') (ψ : B' → B'') (f : InterpFn D A B) :
    (f.mapKV g φ).mapKV g' ψ = f.mapKV (g' ∘ g) (ψ ∘ φ) := by simp [InterpFn.mapKV, Mesh.mapV]

theorem mapK_mapK {A A' A'' : Type} (g : A → A') (g' : A' → A'') (x : XRange A) : (x.mapK g).mapK g' = x.mapK (g' ∘ g) := by cases x <;> simp [XRange.mapK]

/-- **C97.** The `double` of IEEE 754, with two zeros, and that of the rest of the model, with one, compute the same up to the signs of zeros, and fail
alike, in every construction and every evaluation in which no number is divided by the negative zero.  That no such division takes place is said by the
run with report, which is the same computation except that such a division ends it with `divZero`. -/
theorem signed_zeros (w : Bool) (c : Cfg) (o : ℕ) (per : Fin (D + 1) → Bool) (fm : Mesh (D + 1) (S64 false)) (x : Fin (D + 1) → XRange (S64 false)) :
    (Fl.construct w c o per (fm.mapV S64.cast : Mesh (D + 1) (S64 true)) (fun d => (x d).mapK S64.cast : Fin (D + 1) → XRange (S64 true)) ≠ .error .divZero →
      Fl.construct w c o per (fm.mapV S64.forget) (fun d => (x d).mapK S64.forget) = (Fl.construct w c o per fm x).map (InterpFn.mapKV S64.forget S64.forget)) ∧
    ∀ (f : InterpFn (D + 1) (S64 false) (S64 false)) (y : Fin (D + 1) → S64 false) (m : Fin (D + 1) → ℕ),
      (Fl.call (f.mapKV S64.cast S64.cast : InterpFn (D + 1) (S64 true) (S64 true)) (fun d => (y d).cast) ≠ .error .divZero →
        Fl.call (f.mapKV S64.forget S64.forget) (fun d => (y d).forget) = (Fl.call f y).map S64.forget) ∧
      (Fl.at' (f.mapKV S64.cast S64.cast : InterpFn (D + 1) (S64 true) (S64 true)) (fun d => (y d).cast) ≠ .error .divZero →
        Fl.at' (f.mapKV S64.forget S64.forget) (fun d => (y d).forget) = (Fl.at' f y).map S64.forget) ∧
      (Fl.derivative c (f.mapKV S64.cast S64.cast : InterpFn (D + 1) (S64 true) (S64 true)) (fun d => (y d).cast) m ≠ .error .divZero →
        Fl.derivative c (f.mapKV S64.forget S64.forget) (fun d => (y d).forget) m = (Fl.derivative c f y m).map S64.forget) ∧
      (Fl.derivativeAt c (f.mapKV S64.cast S64.cast : InterpFn (D + 1) (S64 true) (S64 true)) (fun d => (y d).cast) m ≠ .error .divZero →
        Fl.derivativeAt c (f.mapKV S64.forget S64.forget) (fun d => (y d).forget) m = (Fl.derivativeAt c f y m).map S64.forget) := by
  have e1 : (S64.cast ∘ S64.cast : S64 false → S64 false) = id := funext S64.cast_cast
  have e2 : (S64.forget ∘ (S64.cast : S64 false → S64 true)) = S64.forget := funext S64.forget_cast
  have hfg : ∀ a : S64 true, a.forget = (S64.cast a : S64 false).forget := fun a => (S64.forget_cast a).symm
  refine ⟨two_maps (φ := InterpFn.mapKV S64.cast S64.cast) (ψ := InterpFn.mapKV S64.forget S64.forget) (fun f => ?_)
    (RelM.map (Fl.construct_param S64.kRel_cast S64.vRel_cast (fun _ => trivial) w c o per (rmesh_graph.2 ?_) fun d => rx_graph.2 ?_) fun f f' hf => rfn_graph.1 hf)
    (RelM.map (Fl.construct_param S64.kRel_forget S64.vRel_forget (fun _ => trivial) w c o per (rmesh_graph.2 ?_) fun d => rx_graph.2 ?_) fun f f' hf => rfn_graph.1 hf), fun f y m => ?_⟩
  · rw [mapKV_mapKV]
    congr 1 <;> exact funext hfg
  · rw [mapV_mapV, e1]
    simp [Mesh.mapV]
  · rw [mapK_mapK, e1, mapK_id]
  · rw [mapV_mapV, e2]
  · rw [mapK_mapK, e2]
  · have hf1 : RFn (Graph (S64.cast : S64 true → S64 false)) (Graph S64.cast) (f.mapKV S64.cast S64.cast) f := rfn_graph.2 (by
      rw [mapKV_mapKV, e1]; simp [InterpFn.mapKV, Mesh.mapV])
    have hf2 : RFn (Graph (S64.forget : S64 true → F64)) (Graph S64.forget) (f.mapKV S64.cast S64.cast) (f.mapKV S64.forget S64.forget) := rfn_graph.2 (by
      rw [mapKV_mapKV, e2])
    have hy1 : ∀ d, Graph (S64.cast : S64 true → S64 false) (S64.cast (y d)) (y d) := fun d => S64.cast_cast _
    have hy2 : ∀ d, Graph (S64.forget : S64 true → F64) (S64.cast (y d)) (y d).forget := fun d => S64.forget_cast _
    exact ⟨two_maps hfg (Fl.call_param S64.kRel_cast S64.vRel_cast hf1 .all hy1) (Fl.call_param S64.kRel_forget S64.vRel_forget hf2 .all hy2),
      two_maps hfg (Fl.at'_param S64.kRel_cast S64.vRel_cast hf1 .all hy1) (Fl.at'_param S64.kRel_forget S64.vRel_forget hf2 .all hy2),
      two_maps hfg (Fl.derivative_param S64.kRel_cast S64.vRel_cast c hf1 .all hy1 m) (Fl.derivative_param S64.kRel_forget S64.vRel_forget c hf2 .all hy2 m),
      two_maps hfg (Fl.derivativeAt_param S64.kRel_cast S64.vRel_cast c hf1 .all hy1 m) (Fl.derivativeAt_param S64.kRel_forget S64.vRel_forget c hf2 .all hy2 m)⟩

/-! ## Concrete cases -/

namespace ParamExample

def cfg : Cfg := ⟨false, false⟩

/-- Values with a negative zero. -/
def data (r : Bool) : Mesh 1 (S64 r) := ⟨fun _ => 4, [.fin 1 false, .fin 2 false, .fin 0 true, .fin 5 false]⟩

/-- Interpolation of order `o` on `[a, b]`, evaluated at `y`. -/
def run (r : Bool) (o : ℕ) (a b y : S64 r) : M (S64 r) := do
  let f ← Fl.construct true cfg o (fun _ => false) (data r) (fun _ => .uniform a b)
  Fl.call f fun _ => y

/-- The same with one zero. -/
def runOne (o : ℕ) (a b y : F64) : M F64 := do
  let f ← Fl.construct true cfg o (fun _ => false) ((data false).mapV S64.forget) (fun _ => .uniform a b)
  Fl.call f fun _ => y

/-- The hypothesis of `signed_zeros` on the run with report is met, with negative zeros in the data and in the coordinates. -/
theorem no_report : run true 2 (.fin 0 true) (.fin 3 false) (.fin 1 false) = .ok (.fin (9007199254740991 / 4503599627370496) false) ∧ run false 2 (.fin 0 true) (.fin 3 false) (.fin 1 false) = .ok (.fin (9007199254740991 / 4503599627370496) false) ∧
    runOne 2 (.fin 0) (.fin 3) (.fin 1) = .ok (.fin (9007199254740991 / 4503599627370496)) := by decide +kernel

/-- The hypothesis is needed: with the range from the positive to the negative zero, the step is the negative zero. -/
theorem report : run true 1 (.fin 0 false) (.fin 0 true) (.fin 1 false) = .error .divZero ∧ run false 1 (.fin 0 false) (.fin 0 true) (.fin 1 false) = .ok .nan ∧
    runOne 1 (.fin 0) (.fin 0) (.fin 1) = .error .badCast := by decide +kernel

/-- Vectors, with an infinity in one component. -/
def vec : Mesh 1 (VecF64 2) := ⟨fun _ => 4, [⟨![.fin 1, .fin 0]⟩, ⟨![.fin 2, .inf true]⟩, ⟨![.fin 0, .fin 7]⟩, ⟨![.fin 5, .fin 1]⟩]⟩

/-- Interpolation of the vectors, evaluated at 1. -/
def vecRun : M (F64 × F64) := do
  let f ← Fl.construct true cfg 2 (fun _ => false) vec (fun _ => XRange.uniform (F64.fin 0) (F64.fin 3))
  let v ← Fl.call f fun _ => F64.fin 1
  pure (v.comp 0, v.comp 1)

/-- Interpolation of the negated numbers. -/
def negRun : M F64 := do
  let f ← Fl.construct true cfg 2 (fun _ => false) (((data false).mapV S64.forget).mapV F64.neg) (fun _ => XRange.uniform (F64.fin 0) (F64.fin 3))
  Fl.call f fun _ => F64.fin 1

/-- The infinity spreads over its component and does not affect the other; the negated numbers give the negated value. -/
example : vecRun = .ok (.fin (9007199254740991 / 4503599627370496), .nan) ∧ negRun = .ok (.fin (-9007199254740991 / 4503599627370496)) := by decide +kernel

/-- Data of different types and one shape. -/
example : vec.dims = (data false).dims ∧ vec.size = (data false).size := ⟨rfl, rfl⟩

end ParamExample

end Intp
