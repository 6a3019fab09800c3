import Verif.Proofs.Unfilled
import Verif.Props.Float

/-!
# C110: function objects that have not been filled
-/

namespace Intp

variable {K V : Type} [CoordArith K] [ValArith V] [ScaleArith K V] {D : ℕ}

/-- Neither a value nor a derivative up to the order of the spline can be had, at any coordinates. -/
def NoValue (f : InterpFn D K V) : Prop :=
  ∀ y : Fin D → K, (∀ v, Fl.call f y ≠ .ok v) ∧ (∀ v, Fl.at' f y ≠ .ok v) ∧
    ∀ (c : Cfg) (m : Fin D → ℕ), (∀ d, m d ≤ f.spline.order) → (∀ v, Fl.derivative c f y m ≠ .ok v) ∧ ∀ v, Fl.derivativeAt c f y m ≠ .ok v

theorem noValue {f : InterpFn D K V} (h : (∃ d, (f.spline.knots d).length < f.spline.order + 2) ∨ f.spline.ctrl.storage = []) : NoValue f := by
  intro y
  have h1 : Spec (Fl.call f y) (fun _ => False) (fun _ => True) := Spec.bind (Fl.spec_true _) fun _ _ => Fl.eval_fails h _
  have h2 : ∀ (c : Cfg) (m : Fin D → ℕ), (∀ d, m d ≤ f.spline.order) → Spec (Fl.derivative c f y m) (fun _ => False) (fun _ => True) :=
    fun c m hm => Spec.bind (Fl.spec_true _) fun _ _ => Fl.derivativeAtH_fails c h hm
  exact ⟨Fl.fails_of_spec h1, Fl.fails_of_spec (Spec.bind (Fl.spec_true _) fun _ _ => h1), fun c m hm =>
    ⟨Fl.fails_of_spec (h2 c m hm), Fl.fails_of_spec (Spec.bind (Fl.spec_true _) fun _ _ => h2 c m hm)⟩⟩

/-- **C110, default constructed functions.** A function object made by the default constructor has no values, whatever its uninitialised members hold. -/
theorem default_no_value (order : ℕ) (range : Fin (D + 1) → K × K) (dx : Fin (D + 1) → K) (uniform : Fin (D + 1) → Bool) :
    NoValue (Fl.defaultFn order range dx uniform : InterpFn (D + 1) K V) :=
  noValue (.inl ⟨0, by simp [Fl.defaultFn]⟩)

/-- **C110, filling.** Interpolating into a function object whose previous contents are arbitrary makes it the function that the constructor makes. -/
theorem filled (w : Bool) (c : Cfg) {o : ℕ} {per : Fin (D + 1) → Bool} {fm : Mesh (D + 1) V} {x : Fin (D + 1) → XRange K} {t : Template (D + 1) K V}
    (ht : Fl.constructT w c o per fm.dims x = .ok t) (f : InterpFn (D + 1) K V) :
    (∀ g, Fl.construct w c o per fm x = .ok g → Fl.interpolateIntoT t f (Fl.solveForControlPoints c t fm) = (.ok (), g)) ∧
    ∀ e, Fl.construct w c o per fm x = .error e → (Fl.interpolateIntoT t f (Fl.solveForControlPoints c t fm)).1 = .error e := by
  unfold Fl.construct
  rw [ht, ok_bind]
  cases hw : Fl.solveForControlPoints c t fm with
  | error e => exact ⟨fun g h => (by cases h), fun e h => (by cases h; rfl)⟩
  | ok W => exact ⟨fun g h => (by cases h; rfl), fun e h => (by cases h)⟩

/-- **C110, exceptions.** If solving ends with an exception, the function object passed to `interpolate(interp, f_mesh)` has lost what it held and has no
values: there is no strong exception guarantee. -/
theorem interrupted_no_value {w : Bool} {c : Cfg} {o : ℕ} {per : Fin (D + 1) → Bool} {dims : Fin (D + 1) → ℕ} {x : Fin (D + 1) → XRange K}
    {t : Template (D + 1) K V} (ht : Fl.constructT w c o per dims x = .ok t) (f : InterpFn (D + 1) K V) (e : Err) :
    (Fl.interpolateIntoT t f (.error e)).1 = .error e ∧ NoValue (Fl.interpolateIntoT t f (.error e)).2 :=
  ⟨rfl, noValue (.inr (Fl.constructT_ctrl ht))⟩

/-- **C110, used templates.** After `interpolate(f_mesh) &&` the template computes the same control points as before, with the same errors, but the functions
it makes have no values. -/
theorem moved_template {c : Cfg} {t t' : Template (D + 1) K V} {fm : Mesh (D + 1) V} {g : InterpFn (D + 1) K V}
    (h : Fl.interpolateMoveT c t fm = .ok (g, t')) :
    Fl.interpolateT c t fm = .ok g ∧ ∀ fm', Fl.solveForControlPoints c t' fm' = Fl.solveForControlPoints c t fm' ∧
      (∀ g', Fl.interpolateT c t' fm' = .ok g' → NoValue g') ∧
      ∀ g', Fl.interpolateT c t fm' = .ok g' → ∃ g'', Fl.interpolateT c t' fm' = .ok g'' ∧ g''.spline.ctrl = g'.spline.ctrl := by
  unfold Fl.interpolateMoveT at h
  unfold Fl.interpolateT
  cases hw : Fl.solveForControlPoints c t fm with
  | error e => rw [hw] at h; cases h
  | ok W =>
    rw [hw, ok_bind] at h
    injection h with h
    obtain ⟨rfl, hb⟩ := Prod.mk.inj h
    refine ⟨rfl, fun fm' => ?_⟩
    have h1 : t'.base.spline.order = t.base.spline.order := by rw [← hb]
    have h2 : t'.base.periodicity = t.base.periodicity := by rw [← hb]; rfl
    have h3 : t'.dims = t.dims := by rw [← hb]
    have h4 : t'.solvers = t.solvers := by rw [← hb]
    have h5 : t'.base.spline.knots 0 = [] := by rw [← hb]
    have e : Fl.solveForControlPoints c t' fm' = Fl.solveForControlPoints c t fm' := by
      unfold Fl.solveForControlPoints
      rw [h1, h2, h3, h4]
    rw [e]
    cases hw' : Fl.solveForControlPoints c t fm' with
    | error e => exact ⟨rfl, fun g' hg => (by cases hg), fun g' hg => (by cases hg)⟩
    | ok W' =>
      refine ⟨rfl, fun g' hg => ?_, fun g' hg => ?_⟩
      · injection hg with hg
        subst hg
        exact noValue (.inl ⟨0, by show (t'.base.spline.knots 0).length < _; rw [h5]; simp⟩)
      · injection hg with hg
        subst hg
        exact ⟨_, rfl, rfl⟩

namespace UnfilledExample

attribute [local instance] exactCoord exactVal exactScale

/-- Five values over a uniform axis, order 3. -/
def data : Mesh 1 ℚ := ⟨fun _ => 5, [1, 2, -1, 3, 0]⟩

def x : Fin 1 → XRange ℚ := fun _ => .uniform 0 4

def cfg : Cfg := ⟨true, false⟩

/-- A template; the function that it makes has the value 2 at 1, the one that it makes after `interpolate(f_mesh) &&` none. -/
example : ((Fl.constructT (V := ℚ) true cfg 3 (fun _ => false) data.dims x) >>= fun t => do
    let r ← Fl.interpolateMoveT cfg t data
    let g' ← Fl.interpolateT cfg r.2 data
    let v ← Fl.call r.1 fun _ => 1
    pure (v, match Fl.call g' fun _ => 1 with | .ok v => some v | .error _ => none)) = .ok (2, none) := by decide +kernel

end UnfilledExample

end Intp
