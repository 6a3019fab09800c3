import Verif.Proofs.Pre17
import Verif.Props.Interpolation

/-!
# Properties of the pre-C++17 branches: the band matrix built in an extended one (C53), and copies of templates (C38)
-/

namespace Intp

variable {K V : Type} [Field K] [LinearOrder K] [IsStrictOrderedRing K] [FloorRing K] [AddCommGroup V] [Module K V] {D : ℕ}

/-- C53: the base subobject of the extended matrix holds the same entries: every read of an entry in the band gives the same value. -/
theorem pre17_slice_get (c : Cfg) (m : ExtBandMatrix K) (i j : ℕ) (h : i ≤ j + m.p ∧ j ≤ i + m.q) : m.toBand.get c i j = m.get c i j := by
  unfold ExtBandMatrix.get
  rw [if_neg (by omega)]
  rfl

/-- C53: for every valid set of axes the pre-C++17 constructor fails exactly when the C++17 one does, with the same error, and otherwise builds
the same coordinates, base function and solvers, each in the union member of its kind. -/
theorem pre17_construct (c : Cfg) {o : ℕ} {per : Fin D → Bool} {dims : Fin D → ℕ} {x : Fin D → XRange K} (hv : ValidAxes c o per dims x) :
    Pre17.Template.construct (V := V) c o per dims x = match Template.construct c o per dims x with
      | .ok t => .ok ⟨t.coords, t.dims, t.base, fun d => ⟨true, per d, some (t.solvers d)⟩⟩
      | .error e => .error e := by
  rw [Pre17.construct_eq c hv]
  cases Template.construct (V := V) c o per dims x <;> rfl

/-- C53: a template built without C++17 interpolates every mesh (of whatever shape) like the one built with C++17. -/
theorem pre17_interpolate (c : Cfg) {o : ℕ} {per : Fin (D + 1) → Bool} {dims : Fin (D + 1) → ℕ} {x : Fin (D + 1) → XRange K}
    (hv : ValidAxes c o per dims x) {t : Pre17.Template (D + 1) K V} (ht : Pre17.Template.construct c o per dims x = .ok t) :
    ∃ t' : Template (D + 1) K V, Template.construct c o per dims x = .ok t' ∧ ∀ fm, t.interpolate c fm = t'.interpolate c fm := by
  rw [Pre17.construct_eq c hv] at ht
  cases h : Template.construct (V := V) c o per dims x with
  | error e => rw [h] at ht; simp at ht
  | ok t' =>
    rw [h, ok_bind, pure_eq_ok] at ht
    injection ht with ht
    refine ⟨t', rfl, fun fm => ?_⟩
    have hp : t'.base.periodicity = per := ((Template.construct_spec c hv).get h).built.pers
    unfold Pre17.Template.interpolate Template.interpolate
    rw [← ht, Pre17.solveForControlPoints_eq c hp (Pre17.construct_kind c hv h)]
    rfl

/-- C53: both builds construct the same interpolation function, or fail alike. -/
theorem pre17_construct_fn (c : Cfg) {o : ℕ} {per : Fin (D + 1) → Bool} {fm : Mesh (D + 1) V} {x : Fin (D + 1) → XRange K}
    (hv : ValidAxes c o per fm.dims x) : Pre17.constructFn c o per fm x = InterpFn.construct c o per fm x := by
  unfold Pre17.constructFn
  cases h : Pre17.Template.construct (V := V) c o per fm.dims x with
  | ok t =>
    obtain ⟨t', h1, h2⟩ := pre17_interpolate c hv h
    rw [ok_bind, h2, template_interpolate c h1]
  | error e =>
    unfold InterpFn.construct
    rw [pre17_construct c hv] at h
    cases h' : Template.construct (V := V) c o per fm.dims x with
    | ok t => rw [h'] at h; simp at h
    | error e' =>
      rw [h'] at h
      injection h with h
      rw [h]; rfl

/-- Solvers in the order their owners can make them: the constructors, assignment of a tag, copies, and the computing functions of the live member. -/
inductive EitherSolver.Made : EitherSolver K → Prop
  | default : Made .default
  | ofPeriodic (b : Bool) : Made (.ofPeriodic b)
  | assign {e e' : EitherSolver K} (b : Bool) : Made e → e.assign b = .ok e' → Made e'
  | copy {e : EitherSolver K} : Made e → Made e.copy
  | ext {e : EitherSolver K} {s s' : LUState (ExtBandMatrix K)} : Made e → e.periodicMember = .ok s → Made { e with member := some (.ext s') }
  | band {e : EitherSolver K} {s s' : LUState (BandMatrix K)} : Made e → e.aperiodicMember = .ok s → Made { e with member := some (.band s') }

/-- C53: the member the tag names is alive as soon as the union is active, its destructor never runs on a member that is not alive and leaves none alive, the tag of
an active union cannot be changed, and `EitherSolver(bool)` makes what the default constructor and an assignment make. -/
theorem pre17_wrapper {e : EitherSolver K} (h : e.Made) :
    e.destroy = .ok none ∧ (e.isActive = true → if e.isPeriodic then ∃ s, e.periodicMember = .ok s else ∃ s, e.aperiodicMember = .ok s) ∧
      (∀ b, e.isActive = true → e.assign b = .error .switchSolver) ∧ ∀ b, (EitherSolver.default : EitherSolver K).assign b = .ok (.ofPeriodic b) := by
  have key : (e.isActive = false ∧ e.member = none) ∨ (e.isActive = true ∧ e.isPeriodic = true ∧ ∃ s, e.member = some (.ext s)) ∨
      (e.isActive = true ∧ e.isPeriodic = false ∧ ∃ s, e.member = some (.band s)) := by
    induction h with
    | default => exact .inl ⟨rfl, rfl⟩
    | ofPeriodic b => cases b
                      · exact .inr (.inr ⟨rfl, rfl, _, rfl⟩)
                      · exact .inr (.inl ⟨rfl, rfl, _, rfl⟩)
    | @assign e e' b _ he ih =>
      unfold EitherSolver.assign at he
      split at he
      · simp at he
      · rw [pure_eq_ok] at he
        injection he with he
        rw [← he]
        cases b
        · exact .inr (.inr ⟨rfl, rfl, _, rfl⟩)
        · exact .inr (.inl ⟨rfl, rfl, _, rfl⟩)
    | copy => exact .inl ⟨rfl, rfl⟩
    | @ext e s s' _ he ih =>
      rcases ih with ⟨-, h⟩ | ⟨h1, h2, -⟩ | ⟨-, -, s, h⟩
      · unfold EitherSolver.periodicMember at he; rw [h] at he; simp at he
      · exact .inr (.inl ⟨h1, h2, _, rfl⟩)
      · unfold EitherSolver.periodicMember at he; rw [h] at he; simp at he
    | @band e s s' _ he ih =>
      rcases ih with ⟨-, h⟩ | ⟨-, -, s, h⟩ | ⟨h1, h2, -⟩
      · unfold EitherSolver.aperiodicMember at he; rw [h] at he; simp at he
      · unfold EitherSolver.aperiodicMember at he; rw [h] at he; simp at he
      · exact .inr (.inr ⟨h1, h2, _, rfl⟩)
  refine ⟨?_, fun ha => ?_, fun b ha => by unfold EitherSolver.assign; rw [ha]; rfl, fun b => rfl⟩
  · unfold EitherSolver.destroy EitherSolver.periodicMember EitherSolver.aperiodicMember
    rcases key with ⟨h1, h2⟩ | ⟨h1, h2, s, h3⟩ | ⟨h1, h2, s, h3⟩
    · rw [h1, h2]; rfl
    · rw [h1, h2, h3]; rfl
    · rw [h1, h2, h3]; rfl
  · unfold EitherSolver.periodicMember EitherSolver.aperiodicMember
    rcases key with ⟨h1, -⟩ | ⟨h1, h2, s, h3⟩ | ⟨h1, h2, s, h3⟩
    · rw [h1] at ha; cases ha
    · rw [h2, h3]; exact ⟨s, rfl⟩
    · rw [h2, h3]; exact ⟨s, rfl⟩

/-- A periodic solver made by the constructor, and one made by assignment to a copy of it. -/
example : (EitherSolver.ofPeriodic true : EitherSolver ℚ).Made ∧ ((EitherSolver.ofPeriodic true : EitherSolver ℚ).copy.assign false = .ok (.ofPeriodic false)) ∧
    (EitherSolver.ofPeriodic false : EitherSolver ℚ).Made :=
  ⟨.ofPeriodic true, rfl, .assign false (.copy (.ofPeriodic true)) rfl⟩

/-- C53: the destructor of the template destroys the live member of every union and nothing else. -/
theorem pre17_destroy (c : Cfg) {o : ℕ} {per : Fin D → Bool} {dims : Fin D → ℕ} {x : Fin D → XRange K} (hv : ValidAxes c o per dims x)
    {t : Pre17.Template D K V} (ht : Pre17.Template.construct c o per dims x = .ok t) : t.destroy = .ok fun _ => none := by
  rw [Pre17.construct_eq c hv] at ht
  cases h : Template.construct (V := V) c o per dims x with
  | error e => rw [h] at ht; simp at ht
  | ok t' =>
    rw [h, ok_bind, pure_eq_ok] at ht
    injection ht with ht
    rw [← ht]
    refine tabM_ok fun d => ?_
    have hk := Pre17.construct_kind c hv h d
    show EitherSolver.destroy ⟨true, per d, some (t'.solvers d)⟩ = _
    unfold EitherSolver.destroy
    cases hs : t'.solvers d with
    | band s => rw [hs] at hk; rw [show per d = false from hk]; rfl
    | ext s => rw [hs] at hk; rw [show per d = true from hk]; rfl

/-! ## Copies -/

/-- C38 in C++17 builds: a copied template is the same template; in particular it interpolates every mesh like the original.  Missing: the same
for pre-C++17 builds, where it is false (`pre17_copy_dead`). -/
theorem template_copy_partial (c : Cfg) (t : Template (D + 1) K V) :
    t.copy = t ∧ ∀ fm, t.copy.interpolate c fm = t.interpolate c fm := by
  have h : t.copy = t := by
    unfold Template.copy
    have : (fun d => (t.solvers d).copy) = t.solvers := by
      funext d
      unfold Solver.copy
      cases t.solvers d <;> rfl
    rw [this]
  exact ⟨h, fun fm => by rw [h]⟩

/-- C38 fails in every pre-C++17 build, for every valid set of axes and all data: interpolating with a copy of a template uses a union member
that was never constructed. -/
theorem pre17_copy_dead (c : Cfg) {o : ℕ} {per : Fin (D + 1) → Bool} {dims : Fin (D + 1) → ℕ} {x : Fin (D + 1) → XRange K}
    (hv : ValidAxes c o per dims x) {t : Pre17.Template (D + 1) K V} (ht : Pre17.Template.construct c o per dims x = .ok t)
    {fm : Mesh (D + 1) V} (hw : fm.WF) (hd : fm.dims = dims) : t.copy.interpolate c fm = .error .deadMember := by
  rw [Pre17.construct_eq c hv] at ht
  cases h : Template.construct (V := V) c o per dims x with
  | error e => rw [h] at ht; simp at ht
  | ok t' =>
    rw [h, ok_bind, pure_eq_ok] at ht
    injection ht with ht
    have hg := (Template.construct_spec c hv).get h
    obtain ⟨F, hF⟩ := fm.exists_holds hw
    unfold Pre17.Template.interpolate
    rw [Pre17.solveForControlPoints_dead c (t := t.copy) (fun _ => rfl) (fun d => ?_) (fun d => ?_) hF]
    · rfl
    · rw [← ht]
      show 0 < t'.dims d
      rw [hg.dims_eq]; exact (hv d).unk_pos
    · rw [← ht]
      show fm.dims d = t'.dims d + if t'.base.periodicity d && !c.noDummy then 1 else 0
      have hp : t'.base.periodicity = per := hg.built.pers
      rw [hg.dims_eq, hp, hd]
      exact hv.dims_eq d

/-- C38: copying and destroying the copy leaves the original as it was and frees nothing twice: the copy owns no solver. -/
theorem pre17_copy_destroy (t : Pre17.Template D K V) : t.copy.destroy = .ok fun _ => none :=
  tabM_ok fun _ => rfl

/-- C38: assigning a solver kind to a dimension a second time throws, so that the kind of an active solver never changes. -/
theorem pre17_assign (e : EitherSolver K) (p : Bool) :
    (e.isActive = true → e.assign p = .error .switchSolver) ∧
    (e.isActive = false → ∃ e', e.assign p = .ok e' ∧ e'.isActive = true ∧ e'.isPeriodic = p ∧ (p = true → ∃ s, e'.periodicMember = .ok s) ∧
      (p = false → ∃ s, e'.aperiodicMember = .ok s)) := by
  unfold EitherSolver.assign
  refine ⟨fun h => by rw [if_pos h], fun h => ⟨_, by rw [if_neg (by simp [h]), pure_eq_ok], rfl, rfl, ?_, ?_⟩⟩ <;>
  · rintro rfl
    exact ⟨_, rfl⟩

/-! ## Examples -/

namespace InterpExample

/-- A clamped and a periodic dimension, order 3 and 2: the pre-C++17 construction succeeds (`valid` gives the other hypothesis). -/
example : ((Pre17.Template.construct cfg 3 per (fun _ => 5) x : M (Pre17.Template 2 ℚ ℚ)).toOption.isSome = true) ∧
    ((Pre17.Template.construct cfg 2 per (fun _ => 5) x : M (Pre17.Template 2 ℚ ℚ)).toOption.isSome = true) := by
  refine ⟨?_, ?_⟩ <;> decide +kernel

/-- The original template interpolates, its copy does not. -/
example : (do
    let t : Pre17.Template 2 ℚ ℚ ← Pre17.Template.construct cfg 3 per (fun _ => 5) x
    let g ← t.interpolate cfg data
    g.call ![7 / 2, 1 / 2] : M ℚ) = .ok (135113 / 54272) ∧ (do
    let t : Pre17.Template 2 ℚ ℚ ← Pre17.Template.construct cfg 3 per (fun _ => 5) x
    let g ← t.copy.interpolate cfg data
    g.call ![7 / 2, 1 / 2] : M ℚ) = .error .deadMember := by
  refine ⟨?_, ?_⟩ <;> decide +kernel

end InterpExample

end Intp
