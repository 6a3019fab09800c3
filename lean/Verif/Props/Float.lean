import Verif.Proofs.FloatLinear
import Verif.Proofs.FloatTie
import Verif.Float64

/-!
# C68–C71: rounding, overflow and nan

The theorems here hold for the functions of `FloatModel.lean`, whose coordinates and values have arbitrary operations.  C68 says that the exact
arithmetic gives back the rest of the model.
-/

namespace Intp

open CoordArith ScaleArith

/-! ## C68: the model over arbitrary arithmetic is the model of the other properties -/

section
variable {K V : Type} [Field K] [LinearOrder K] [FloorRing K] [AddCommGroup V] [Module K V] {D : ℕ}

/-- **C68.** With exact operations construction is the construction of the other properties: a function constructed there is constructed by the code
with wrapping indices too, and where wrapping is an error the outcomes are equal. -/
theorem exact_construct (c : Cfg) (order : ℕ) (per : Fin (D + 1) → Bool) (fm : Mesh (D + 1) V) (x : Fin (D + 1) → XRange K) :
    @Fl.construct K V (exactCoord K) (exactVal V) (exactScale K V) D false c order per fm x = InterpFn.construct c order per fm x ∧
    ∀ f, InterpFn.construct c order per fm x = .ok f →
      @Fl.construct K V (exactCoord K) (exactVal V) (exactScale K V) D true c order per fm x = .ok f := by
  refine ⟨Fl.tie_construct c order per fm x, fun f hf => ?_⟩
  rw [← Fl.tie_construct] at hf
  letI := exactCoord K
  letI := exactVal V
  letI := exactScale K V
  exact Fl.construct_sub c order per fm x f hf

/-- **C68.** The same for the four ways of evaluating. -/
theorem exact_evaluate (c : Cfg) (f : InterpFn D K V) (x : Fin D → K) (m : Fin D → ℕ) :
    @Fl.call K V (exactCoord K) (exactVal V) (exactScale K V) D f x = f.call x ∧
    @Fl.at' K V (exactCoord K) (exactVal V) (exactScale K V) D f x = f.at' x ∧
    @Fl.derivative K V (exactCoord K) (exactVal V) (exactScale K V) D c f x m = f.derivative c x m ∧
    @Fl.derivativeAt K V (exactCoord K) (exactVal V) (exactScale K V) D c f x m = f.derivativeAt c x m :=
  ⟨Fl.tie_call f x, Fl.tie_at' f x, Fl.tie_derivative c f x m, Fl.tie_derivativeAt c f x m⟩

end

/-! ## C69: construction -/

section
variable {K V : Type} [CoordArith K] [ValArith V] [ScaleArith K V] {D : ℕ}

/-- The sizes for which the library is meant: in a periodic dimension with `N` data points (the repeated one included) at least
`2 ⌊order / 2⌋ + 2` of them, in a non-periodic one at least `order + 1` and two; explicit coordinates are as many as data points, and of order 1
or more in a non-periodic dimension.  Nothing is said about the coordinates themselves: they need not be increasing and may be nan. -/
structure SizesOk (c : Cfg) (o : ℕ) (per : Bool) (dim : ℕ) (x : XRange K) : Prop where
  periodic : per = true → 2 * (o / 2) + 2 ≤ dim + if c.noDummy then 1 else 0
  aperiodic : per = false → o + 1 ≤ dim ∧ 2 ≤ dim
  coords : ∀ l, x = .coords l → l.length = dim + (if c.noDummy && per then 1 else 0) ∧ (per = false → 1 ≤ o)

theorem SizesOk.shape {c : Cfg} {o : ℕ} {per : Bool} {dim : ℕ} {x : XRange K} (h : SizesOk c o per dim x) :
    Fl.Shape o (pointNum c per dim) per x := by
  obtain ⟨h1, h2, h3⟩ := h
  refine ⟨fun hp => ?_, fun hp => ?_, h3⟩
  · subst hp; simpa [pointNum] using h1 rfl
  · subst hp; simpa [pointNum] using h2 rfl

/-- **C69.** Whatever the operations on coordinates and values do, whatever the numbers are, construction accesses no buffer out of bounds.  It can
fail only by a division by zero, where the arithmetic reports these, and by an assertion, where they are enabled. -/
theorem float_construct (c : Cfg) (o : ℕ) (per : Fin (D + 1) → Bool) (fm : Mesh (D + 1) V) (x : Fin (D + 1) → XRange K)
    (hs : ∀ d, SizesOk c o (per d) (fm.dims d) (x d)) (hf : fm.storage.length = ∏ d, fm.dims d) :
    match Fl.construct true c o per fm x with
    | .ok f => f.spline.order = o ∧ f.spline.periodicity = per
    | .error e => (e = .divZero ∧ (divErr K ∨ divErrV K V)) ∨ (e = .assertFail ∧ c.assertions = true) := by
  have := Fl.construct_safe (w := true) (c := c) (o := o) (per := per) (fm := fm) (x := x)
    (E := fun e => (e = .divZero ∧ (divErr K ∨ divErrV K V)) ∨ (e = .assertFail ∧ c.assertions = true))
    (fun h => .inl ⟨rfl, h⟩) (fun h => .inr ⟨rfl, h⟩) (fun d => (hs d).shape) (.inl rfl) hf
  cases h : Fl.construct true c o per fm x with
  | ok f => rw [h] at this; exact ⟨this.2.1, this.2.2.1⟩
  | error e => rw [h] at this; exact this

/-- **C69.** If no non-periodic dimension is given by explicit coordinates, moreover no index wraps around and no element outside the band of a matrix
is used: the same holds for the model in which these are errors, and both construct the same function. -/
theorem float_construct_uniform (c : Cfg) (o : ℕ) (per : Fin (D + 1) → Bool) (fm : Mesh (D + 1) V) (x : Fin (D + 1) → XRange K)
    (hs : ∀ d, SizesOk c o (per d) (fm.dims d) (x d)) (hf : fm.storage.length = ∏ d, fm.dims d)
    (hx : ∀ d, per d = false → ∃ a b, x d = .uniform a b) :
    match Fl.construct false c o per fm x with
    | .ok f => Fl.construct true c o per fm x = .ok f
    | .error e => (e = .divZero ∧ (divErr K ∨ divErrV K V)) ∨ (e = .assertFail ∧ c.assertions = true) := by
  have := Fl.construct_safe (w := false) (c := c) (o := o) (per := per) (fm := fm) (x := x)
    (E := fun e => (e = .divZero ∧ (divErr K ∨ divErrV K V)) ∨ (e = .assertFail ∧ c.assertions = true))
    (fun h => .inl ⟨rfl, h⟩) (fun h => .inr ⟨rfl, h⟩) (fun d => (hs d).shape)
    (.inr (.inr fun d l t hp hl => by obtain ⟨a, b, e⟩ := hx d hp; rw [e] at hl; cases hl)) hf
  cases h : Fl.construct false c o per fm x with
  | ok f => exact Fl.construct_sub c o per fm x f h
  | error e => rw [h] at this; exact this

/-- **C70**, what remains of it: explicit coordinates of non-periodic dimensions do not lead outside the band if the computed knots `t` are such that
data point `i` is not less than any knot up to `t (i + 1)` and, for order 2 and more, less than `t (i + order)`.  In exact arithmetic every increasing
sequence of coordinates has this property; `double_coords_outside_band` shows that it can be lost by rounding.  Missing: which coordinates keep it, see
`double_construct_separated_partial`. -/
theorem float_construct_coords_partial (c : Cfg) (o : ℕ) (per : Fin (D + 1) → Bool) (fm : Mesh (D + 1) V) (x : Fin (D + 1) → XRange K)
    (hs : ∀ d, SizesOk c o (per d) (fm.dims d) (x d)) (hf : fm.storage.length = ∏ d, fm.dims d)
    (hx : ∀ d l t, per d = false → x d = .coords l → Fl.coordKnots c o (fm.dims d) (per d) l = .ok (t, l) →
      ∀ i, 0 < i → i + 1 < l.length → ∀ xi, l[i]? = some xi →
        (∀ u v, o < u → u ≤ i + 1 → t[u]? = some v → ¬ xi < v) ∧ (2 ≤ o → ∀ v, t[min l.length (i + o)]? = some v → xi < v)) :
    match Fl.construct false c o per fm x with
    | .ok f => Fl.construct true c o per fm x = .ok f
    | .error e => (e = .divZero ∧ (divErr K ∨ divErrV K V)) ∨ (e = .assertFail ∧ c.assertions = true) := by
  have := Fl.construct_safe (w := false) (c := c) (o := o) (per := per) (fm := fm) (x := x)
    (E := fun e => (e = .divZero ∧ (divErr K ∨ divErrV K V)) ∨ (e = .assertFail ∧ c.assertions = true))
    (fun h => .inl ⟨rfl, h⟩) (fun h => .inr ⟨rfl, h⟩) (fun d => (hs d).shape) (.inr (.inr hx)) hf
  cases h : Fl.construct false c o per fm x with
  | ok f => exact Fl.construct_sub c o per fm x f h
  | error e => rw [h] at this; exact this

/-! ## C71: evaluation -/

/-- **C71.** A function made by the constructor (with any arithmetic, also from unordered coordinates) can be evaluated everywhere: at nan, at
infinite coordinates, however inexact the operations are.  The only outcomes besides a value are the conversion of the hint to `size_t` out of range
and, where the arithmetic reports it, a division by zero; `at` and `derivative_at` may report `domain_error`. -/
theorem float_evaluate_partial (c : Cfg) (o : ℕ) (per : Fin (D + 1) → Bool) (fm : Mesh (D + 1) V) (x : Fin (D + 1) → XRange K)
    (hs : ∀ d, SizesOk c o (per d) (fm.dims d) (x d)) (hf : fm.storage.length = ∏ d, fm.dims d)
    (f : InterpFn (D + 1) K V) (h : Fl.construct true c o per fm x = .ok f) (c' : Cfg) (y : Fin (D + 1) → K) (m : Fin (D + 1) → ℕ) (e : Err) :
    (Fl.call f y = .error e ∨ Fl.derivative c' f y m = .error e → e = .badCast ∨ (e = .divZero ∧ (divErr K ∨ divErrV K V))) ∧
    (Fl.at' f y = .error e ∨ Fl.derivativeAt c' f y m = .error e →
      e = .domainError ∨ e = .badCast ∨ (e = .divZero ∧ (divErr K ∨ divErrV K V))) := by
  have hS := Fl.construct_safe (w := true) (c := c) (o := o) (per := per) (fm := fm) (x := x) (E := fun _ => True)
    (fun _ => trivial) (fun _ => trivial) (fun d => (hs d).shape) (.inl rfl) hf
  rw [h] at hS
  have hS := hS.1
  constructor
  · have h1 := Fl.call_safe (E := fun e => e = .badCast ∨ (e = .divZero ∧ (divErr K ∨ divErrV K V))) (fun h => .inr ⟨rfl, h⟩) (fun _ _ => .inl rfl) hS y
    have h2 := Fl.derivative_safe (E := fun e => e = .badCast ∨ (e = .divZero ∧ (divErr K ∨ divErrV K V))) (fun h => .inr ⟨rfl, h⟩) c' (fun _ _ => .inl rfl) hS y m
    rintro (he | he)
    · rw [he] at h1; exact h1
    · rw [he] at h2; exact h2
  · have h1 := Fl.at'_safe (E := fun e => e = .domainError ∨ e = .badCast ∨ (e = .divZero ∧ (divErr K ∨ divErrV K V)))
      (fun h => .inr (.inr ⟨rfl, h⟩)) (fun _ _ => .inr (.inl rfl)) (.inl rfl) hS y
    have h2 := Fl.derivativeAt_safe (E := fun e => e = .domainError ∨ e = .badCast ∨ (e = .divZero ∧ (divErr K ∨ divErrV K V)))
      (fun h => .inr (.inr ⟨rfl, h⟩)) c' (fun _ _ => .inr (.inl rfl)) (.inl rfl) hS y m
    rintro (he | he)
    · rw [he] at h1; exact h1
    · rw [he] at h2; exact h2

/-- **C71.** If no dimension is uniform, there is no conversion and evaluation always returns a value in an arithmetic without division errors. -/
theorem float_evaluate_coords (c : Cfg) (o : ℕ) (per : Fin (D + 1) → Bool) (fm : Mesh (D + 1) V) (l : Fin (D + 1) → List K)
    (hs : ∀ d, SizesOk c o (per d) (fm.dims d) (.coords (l d))) (hf : fm.storage.length = ∏ d, fm.dims d)
    (hK : ¬ divErr K) (hV : ¬ divErrV K V) (f : InterpFn (D + 1) K V) (h : Fl.construct true c o per fm (fun d => .coords (l d)) = .ok f) (c' : Cfg) (y : Fin (D + 1) → K)
    (m : Fin (D + 1) → ℕ) : (∃ v, Fl.call f y = .ok v) ∧ ∃ v, Fl.derivative c' f y m = .ok v := by
  have hS := Fl.construct_safe (w := true) (c := c) (o := o) (per := per) (fm := fm) (x := fun d => .coords (l d)) (E := fun _ => True)
    (fun _ => trivial) (fun _ => trivial) (fun d => (hs d).shape) (.inl rfl) hf
  rw [h] at hS
  have hu : ∀ d, f.uniform d = true → False := fun d hd => by rw [hS.2.2.2 d] at hd; cases hd
  have h1 := Fl.call_safe (E := fun _ => False) (fun h => h.elim hK hV) hu hS.1 y
  have h2 := Fl.derivative_safe (E := fun _ => False) (fun h => h.elim hK hV) c' hu hS.1 y m
  constructor
  · cases he : Fl.call f y with
    | ok v => exact ⟨v, rfl⟩
    | error e => rw [he] at h1; exact h1.elim
  · cases he : Fl.derivative c' f y m with
    | ok v => exact ⟨v, rfl⟩
    | error e => rw [he] at h2; exact h2.elim

end

/-! ## `double` -/

section
variable {D : ℕ}

/-- **C69.** With `double` and without assertions construction always returns a function. -/
theorem double_construct (c : Cfg) (hc : c.assertions = false) (o : ℕ) (per : Fin (D + 1) → Bool) (fm : Mesh (D + 1) F64)
    (x : Fin (D + 1) → XRange F64) (hs : ∀ d, SizesOk c o (per d) (fm.dims d) (x d)) (hf : fm.storage.length = ∏ d, fm.dims d) :
    ∃ f, Fl.construct true c o per fm x = .ok f := by
  have := float_construct c o per fm x hs hf
  cases h : Fl.construct true c o per fm x with
  | ok f => exact ⟨f, rfl⟩
  | error e =>
    rw [h] at this
    rcases this with ⟨-, h | h⟩ | ⟨-, h⟩
    · exact h.elim
    · exact h.elim
    · rw [hc] at h; cases h

/-- **C71.** With `double`, evaluation returns a value (which may be nan) or the conversion to `size_t` is undefined. -/
theorem double_evaluate_partial (c : Cfg) (o : ℕ) (per : Fin (D + 1) → Bool) (fm : Mesh (D + 1) F64) (x : Fin (D + 1) → XRange F64)
    (hs : ∀ d, SizesOk c o (per d) (fm.dims d) (x d)) (hf : fm.storage.length = ∏ d, fm.dims d)
    (f : InterpFn (D + 1) F64 F64) (h : Fl.construct true c o per fm x = .ok f) (y : Fin (D + 1) → F64) :
    (∃ v, Fl.call f y = .ok v) ∨ Fl.call f y = .error .badCast := by
  cases he : Fl.call f y with
  | ok v => exact .inl ⟨v, rfl⟩
  | error e =>
    right
    rcases (float_evaluate_partial c o per fm x hs hf f h c y (fun _ => 0) e).1 (.inl he) with rfl | ⟨-, h | h⟩
    · rfl
    · exact h.elim
    · exact h.elim

/-- **C70** holds for order 1: with explicit increasing coordinates, all of them finite `double`s, no index leaves the band. -/
theorem double_construct_linear_partial (c : Cfg) (per : Fin (D + 1) → Bool) (fm : Mesh (D + 1) F64)
    (x : Fin (D + 1) → XRange F64) (hs : ∀ d, SizesOk c 1 (per d) (fm.dims d) (x d)) (hf : fm.storage.length = ∏ d, fm.dims d)
    (hx : ∀ d, per d = false → (∃ a b, x d = .uniform a b) ∨
      ∃ l : List ℚ, x d = .coords (l.map F64.fin) ∧ l.Pairwise (· < ·) ∧ ∀ q ∈ l, F64.round q = .fin q) :
    match Fl.construct false c 1 per fm x with
    | .ok f => Fl.construct true c 1 per fm x = .ok f
    | .error e => e = .assertFail ∧ c.assertions = true := by
  have key : ∀ d l t, per d = false → x d = .coords l → Fl.coordKnots c 1 (fm.dims d) (per d) l = .ok (t, l) → Fl.GoodKnots 1 l t := by
    intro d l t hp hl ht
    rcases hx d hp with ⟨a, b, h⟩ | ⟨q, h, h1, h2⟩
    · rw [h] at hl; cases hl
    · rw [h] at hl
      cases hl
      rw [hp] at ht
      have hsd := hs d
      have hlen := (hsd.coords _ h).1
      have h2' := (hsd.aperiodic hp).2
      refine Fl.goodKnots_one (by rw [hlen]; omega) ?_ ?_ ?_ ht
      · intro a ha
        obtain ⟨r, hr, rfl⟩ := List.mem_map.1 ha
        refine ⟨?_, ?_, ?_⟩
        · show F64.round (0 + r) = _
          rw [zero_add]; exact h2 r hr
        · show F64.round (r + -r) = .fin 0
          rw [add_neg_cancel]; decide +kernel
        · show Except.ok (F64.div (.fin r) (F64.round (1 : ℕ))) = _
          rw [show F64.round (1 : ℕ) = .fin 1 by decide +kernel]
          unfold F64.div
          simp only
          rw [if_neg one_ne_zero, div_one, h2 r hr]
      · rw [List.pairwise_map]
        refine h1.imp fun {a b} h => ?_
        show decide (a ≤ b) = true
        exact decide_eq_true h.le
      · intro a ha
        obtain ⟨r, hr, rfl⟩ := List.mem_map.1 ha
        show decide (r ≤ r) = true
        simp
  have := float_construct_coords_partial c 1 per fm x hs hf key
  cases h : Fl.construct false c 1 per fm x with
  | ok f => rw [h] at this; exact this
  | error e =>
    rw [h] at this
    rcases this with ⟨-, h | h⟩ | h
    · exact h.elim
    · exact h.elim
    · exact h

/-- Five increasing `double`s. -/
def lossyCoords : List ℚ := [-2 ^ 56, -2 ^ 55, 2, 3, 4]

/-- The function of order 2 through `(x, 1), …, (x', 5)` for these coordinates, in a program with or without assertions. -/
def lossyFn (w assertions : Bool) : M (InterpFn 1 F64 F64) :=
  Fl.construct w ⟨assertions, false⟩ 2 (fun _ => false) (Mesh.ofList [.fin 1, .fin 2, .fin 3, .fin 4, .fin 5])
    fun _ => .coords (lossyCoords.map F64.fin)

/-- Nothing but the error. -/
def errorOf {α : Type} : M α → Option Err
  | .ok _ => none
  | .error e => some e

/-- **C70** fails.  For these increasing coordinates, all of them `double`s, exact arithmetic constructs the function of order 2.  With the operations of
`double` the running sum of the knot vector loses a coordinate, the third data point is put into a segment beyond the band, and the assertion
of the matrix fails.  Without assertions an index wraps around and another element of the matrix is overwritten: the function constructed is not 5 at
the last data point but 4.8496. -/
theorem double_coords_outside_band :
    lossyCoords.Pairwise (· < ·) ∧ (∀ q ∈ lossyCoords, F64.round q = .fin q) ∧
    (∀ b, errorOf (InterpFn.construct (K := ℚ) (V := ℚ) (D := 0) ⟨b, false⟩ 2 (fun _ => false) (Mesh.ofList [1, 2, 3, 4, 5])
      fun _ => .coords lossyCoords) = none) ∧
    errorOf (lossyFn true true) = some .assertFail ∧
    errorOf (lossyFn false false) = some .wrap ∧
    (do let f ← lossyFn true false; Fl.call f fun _ => .fin 4) = .ok (.fin (170629605306317 / 35184372088832)) := by
  refine ⟨by decide +kernel, by decide +kernel, by decide +kernel, by decide +kernel, by decide +kernel, by decide +kernel⟩

/-- The same data over the range from 0 to 4. -/
def plainFn : M (InterpFn 1 F64 F64) :=
  Fl.construct true ⟨true, false⟩ 2 (fun _ => false) (Mesh.ofList [.fin 1, .fin 2, .fin 3, .fin 4, .fin 5]) fun _ => .uniform (.fin 0) (.fin 4)

/-- **C71** fails: the function is constructed with all assertions met, can be evaluated inside its range, outside and at nan, but not
at `2 ^ 65` and at infinity, where the conversion of the hint to `size_t` is undefined. -/
theorem double_hint_overflow :
    (do let f ← plainFn; Fl.call f fun _ => .fin 2) = .ok (.fin 3) ∧
    errorOf (do let f ← plainFn; Fl.call f fun _ => .fin (-2 ^ 65)) = none ∧
    (do let f ← plainFn; Fl.call f fun _ => .nan) = .ok .nan ∧
    (do let f ← plainFn; Fl.call f fun _ => .fin (2 ^ 65)) = .error .badCast ∧
    (do let f ← plainFn; Fl.call f fun _ => .inf false) = .error .badCast := by
  refine ⟨by decide +kernel, by decide +kernel, by decide +kernel, by decide +kernel, by decide +kernel⟩

/-! ## Examples -/

/-- The hypotheses of C69 and C71 for a periodic uniform dimension and a non-periodic one with unordered coordinates, among them nan. -/
example : ∀ d, SizesOk (K := F64) ⟨false, false⟩ 2 (![true, false] d) (![4, 3] d) (![.uniform (.fin 0) (.fin 1), .coords [.fin 2, .nan, .fin 1]] d) := by
  intro d
  fin_cases d
  · exact ⟨by decide, by decide, fun l h => by cases h⟩
  · refine ⟨by decide, by decide, fun l h => ?_⟩
    cases h
    decide

/-- It can be constructed and evaluated; the result is nan. -/
example : (do
    let f ← Fl.construct (K := F64) (V := F64) (D := 1) true ⟨false, false⟩ 2 ![true, false]
      ⟨![4, 3], [1, 2, 3, 4, 5, 6, 7, 8, 9, 1, 2, 3].map F64.fin⟩ ![.uniform (.fin 0) (.fin 1), .coords [.fin 2, .nan, .fin 1]]
    Fl.call f ![.fin 0, .fin 1]) = .ok .nan := by decide +kernel

/-- Coordinates of C70 for order 1, with rounding in the solution. -/
example : ([0, 1 / 2, 7 / 4, 5] : List ℚ).Pairwise (· < ·) ∧ (∀ q ∈ ([0, 1 / 2, 7 / 4, 5] : List ℚ), F64.round q = .fin q) ∧
    errorOf (Fl.construct (K := F64) (V := F64) (D := 0) false ⟨true, false⟩ 1 (fun _ => false) (Mesh.ofList [.fin 1, .fin 2, .fin 3, .fin 4])
      fun _ => .coords ([0, 1 / 2, 7 / 4, 5].map F64.fin)) = none := by
  refine ⟨by decide +kernel, by decide +kernel, by decide +kernel⟩

/-- `1 / 3` and `1 / 10` are rounded as in C++. -/
example : F64.div (.fin 1) (.fin 3) = .fin (6004799503160661 / 2 ^ 54) ∧ F64.div (.fin 1) (.fin 10) = .fin (3602879701896397 / 2 ^ 55) ∧
    F64.mul (.fin (2 ^ 1023)) (.fin 2) = .inf false ∧ F64.round (3 / 2 ^ 1075) = .fin (2 / 2 ^ 1074) ∧ F64.round (1 / 2 ^ 1075) = .fin 0 ∧
    F64.add (.fin 1) (.fin (1 / 2 ^ 53)) = .fin 1 ∧ F64.add (.fin 1) (.fin (3 / 2 ^ 53)) = .fin (1 + 4 / 2 ^ 53) := by
  refine ⟨by decide +kernel, by decide +kernel, by decide +kernel, by decide +kernel, by decide +kernel, by decide +kernel, by decide +kernel⟩

end

end Intp
