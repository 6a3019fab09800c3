import Verif.Proofs.Unique
import Mathlib.Data.Rat.Floor
import Mathlib.Data.Fin.VecNotation
import Mathlib.Tactic.IntervalCases
import Mathlib.Tactic.FinCases

/-!
# Properties of interpolation functions (C27, C31, C33–C37, C49, C51)
-/

namespace Intp

open Finset BSpline

variable {K V : Type} [Field K] [LinearOrder K] [IsStrictOrderedRing K] [FloorRing K] [AddCommGroup V] [Module K V] {D : ℕ}

/-! ## C27 -/

/-- **C27, interpolation condition.**  In every constructed interpolation, evaluation at the data point with index `I` gives the data
value with that index; the last data point of a periodic dimension (which repeats the first one) gives the value of the first one. -/
theorem interpolation_condition (c : Cfg) {o : ℕ} {per : Fin (D + 1) → Bool} {fm : Mesh (D + 1) V} {x : Fin (D + 1) → XRange K}
    (hm : fm.WF) (hv : ValidAxes c o per fm.dims x) {g : InterpFn (D + 1) K V} (hg : InterpFn.construct c o per fm x = .ok g)
    {I J : Fin (D + 1) → ℕ} (hI : ∀ d, I d < pointNum c (per d) (fm.dims d))
    (hJ : ∀ d, J d = if per d = true ∧ I d + 1 = pointNum c (per d) (fm.dims d) then 0 else I d) :
    ∃ v, fm.get J = .ok v ∧ g.call (nodeAt c per fm.dims x I) = .ok v := by
  obtain ⟨F, hF⟩ := fm.exists_holds hm
  obtain ⟨-, C, hC, hE⟩ := (InterpFn.construct_spec (c := c) hv rfl hF).get hg
  have e : foldIx c per fm.dims I = J := by
    funext d
    rw [hJ d]
    have := hI d
    unfold foldIx unk
    cases hp : per d <;> rw [hp] at this <;> simp
    · intro h; omega
    · by_cases h : I d + 1 = pointNum c true (fm.dims d)
      · rw [if_pos (by omega), if_pos h]
      · rw [if_neg (by omega), if_neg h]
  refine ⟨F J, hF.get fun d => ?_, ?_⟩
  · rw [hJ d]
    have h1 := hv.dims_eq d
    have h2 := (hv d).unk_pos
    have h3 := hI d
    unfold unk pointNum at *
    cases hp : per d <;> cases hn : c.noDummy <;> simp [hp, hn] at h1 h2 h3 ⊢ <;> (try split) <;> omega
  · rw [hC.call hv, hC.node_val hv hE hI, e]

/-- **C27, companion.**  For valid dimensions the construction succeeds, or it fails by dividing by a zero pivot, and then a leading block of
the coefficient matrix of some dimension is singular.  Success does not depend on the data. -/
theorem construct_ok_or_singular (c : Cfg) {o : ℕ} {per : Fin (D + 1) → Bool} {fm : Mesh (D + 1) V} {x : Fin (D + 1) → XRange K}
    (hm : fm.WF) (hv : ValidAxes c o per fm.dims x) :
    (∃ g, InterpFn.construct c o per fm x = .ok g) ∧ AllRegular c o per fm.dims x ∨
    InterpFn.construct c o per fm x = .error .divZero ∧ ∃ d, ∃ r < unk (per d) (pointNum c (per d) (fm.dims d)),
      (lead ((x d).mat o (pointNum c (per d) (fm.dims d)) (per d)) (r + 1)).det = 0 := by
  obtain ⟨F, hF⟩ := fm.exists_holds hm
  have := InterpFn.construct_spec (c := c) hv rfl hF
  cases hc : InterpFn.construct c o per fm x with
  | ok g =>
    rw [hc] at this
    exact .inl ⟨⟨g, rfl⟩, this.1⟩
  | error e =>
    rw [hc] at this
    obtain ⟨d, rfl, r, hr, h0⟩ := this
    exact .inr ⟨rfl, d, r, hr, h0⟩

/-- Construction succeeds if and only if all leading blocks are regular. -/
theorem construct_ok_iff (c : Cfg) {o : ℕ} {per : Fin (D + 1) → Bool} {fm : Mesh (D + 1) V} {x : Fin (D + 1) → XRange K}
    (hm : fm.WF) (hv : ValidAxes c o per fm.dims x) :
    (∃ g, InterpFn.construct c o per fm x = .ok g) ↔ AllRegular c o per fm.dims x := by
  rcases construct_ok_or_singular c hm hv with ⟨h1, h2⟩ | ⟨h1, d, r, hr, h0⟩
  · exact ⟨fun _ => h2, fun _ => h1⟩
  · constructor
    · rintro ⟨g, hg⟩; rw [hg] at h1; simp at h1
    · intro h; exact absurd h0 (h d r hr)

/-! ## C37 -/

/-- **C37, templates.**  Interpolating with a template is constructing directly. -/
theorem template_interpolate (c : Cfg) {o : ℕ} {per : Fin (D + 1) → Bool} {fm : Mesh (D + 1) V} {x : Fin (D + 1) → XRange K}
    {t : Template (D + 1) K V} (ht : Template.construct c o per fm.dims x = .ok t) :
    t.interpolate c fm = InterpFn.construct c o per fm x := by
  unfold InterpFn.construct
  rw [ht, ok_bind]
  unfold Template.interpolate Template.interpolateMove
  cases t.solveForControlPoints c fm <;> rfl

/-- A call on a template: `interpolate(f)` or `interpolate(g, f)`, where `g` is a function object kept by the caller. -/
inductive TemplateCall (D : ℕ) (V : Type)
  | fresh (fm : Mesh D V)
  | into (fm : Mesh D V)

/-- State of a caller that keeps a template, a function object and the list of functions returned so far. -/
def TemplateCall.run (c : Cfg) (st : Template (D + 1) K V × InterpFn (D + 1) K V × List (InterpFn (D + 1) K V)) :
    TemplateCall (D + 1) V → M (Template (D + 1) K V × InterpFn (D + 1) K V × List (InterpFn (D + 1) K V))
  | .fresh fm => do
    let g ← st.1.interpolate c fm
    pure (st.1, st.2.1, st.2.2 ++ [g])
  | .into fm => do
    let g ← st.1.interpolateInto c st.2.1 fm
    pure (st.1, g, st.2.2)

/-- **C37, reuse.**  After any history of calls, interpolating `fm` (into a new object, or into the object kept by the caller, whatever it
holds) gives exactly what direct construction from `fm` gives. -/
theorem template_reuse (c : Cfg) {o : ℕ} {per : Fin (D + 1) → Bool} {fm : Mesh (D + 1) V} {x : Fin (D + 1) → XRange K}
    {t : Template (D + 1) K V} (ht : Template.construct c o per fm.dims x = .ok t) (calls : List (TemplateCall (D + 1) V))
    {g₀ : InterpFn (D + 1) K V} {st} (hst : calls.foldlM (TemplateCall.run c) (t, g₀, []) = .ok st) :
    st.1.interpolate c fm = InterpFn.construct c o per fm x ∧
    st.1.interpolateInto c st.2.1 fm = InterpFn.construct c o per fm x := by
  have key : ∀ (calls : List (TemplateCall (D + 1) V)) (s₀ : Template (D + 1) K V × InterpFn (D + 1) K V × List (InterpFn (D + 1) K V)) st,
      calls.foldlM (TemplateCall.run c) s₀ = .ok st → st.1 = s₀.1 := by
    intro calls
    induction calls with
    | nil => intro s₀ st h; simp [pure_eq_ok] at h; rw [← h]
    | cons a l ih =>
      intro s₀ st h
      rw [List.foldlM_cons] at h
      cases hr : TemplateCall.run c s₀ a with
      | error e => rw [hr, error_bind] at h; simp at h
      | ok s₁ =>
        rw [hr, ok_bind] at h
        rw [ih s₁ st h]
        cases a with
        | fresh f =>
          unfold TemplateCall.run at hr
          cases h1 : s₀.1.interpolate c f with
          | error e => simp [h1, error_bind] at hr
          | ok g => simp [h1, ok_bind, pure_eq_ok] at hr; rw [← hr]
        | into f =>
          unfold TemplateCall.run at hr
          cases h1 : s₀.1.interpolateInto c s₀.2.1 f with
          | error e => simp [h1, error_bind] at hr
          | ok g => simp [h1, ok_bind, pure_eq_ok] at hr; rw [← hr]
  rw [key calls _ st hst]
  refine ⟨template_interpolate c ht, ?_⟩
  rw [← template_interpolate c ht]
  rfl

/-! ## C31 -/

/-- **C31, linearity.**  If interpolating `f₁` succeeds, so does interpolating any data of the same shape with the same template, and the
interpolation of `a f₁ + b f₂` and all its derivatives are the corresponding combinations. -/
theorem interpolate_linear (c : Cfg) {o : ℕ} {per : Fin (D + 1) → Bool} {dims : Fin (D + 1) → ℕ} {x : Fin (D + 1) → XRange K}
    (hv : ValidAxes c o per dims x) {t : Template (D + 1) K V} (ht : Template.construct c o per dims x = .ok t)
    {f₁ f₂ f₃ : Mesh (D + 1) V} (h1 : f₁.WF) (h2 : f₂.WF) (h3 : f₃.WF) (d1 : f₁.dims = dims) (d2 : f₂.dims = dims) (d3 : f₃.dims = dims)
    (a b : K) (hf : ∀ I, InRange dims I → ∃ v₁ v₂, f₁.get I = .ok v₁ ∧ f₂.get I = .ok v₂ ∧ f₃.get I = .ok (a • v₁ + b • v₂))
    {g₁ : InterpFn (D + 1) K V} (hg : t.interpolate c f₁ = .ok g₁) :
    ∃ g₂ g₃, t.interpolate c f₂ = .ok g₂ ∧ t.interpolate c f₃ = .ok g₃ ∧
      (∀ y, ∃ v₁ v₂, g₁.call y = .ok v₁ ∧ g₂.call y = .ok v₂ ∧ g₃.call y = .ok (a • v₁ + b • v₂)) ∧
      ∀ y m, ∃ v₁ v₂, g₁.derivative c y m = .ok v₁ ∧ g₂.derivative c y m = .ok v₂ ∧ g₃.derivative c y m = .ok (a • v₁ + b • v₂) := by
  obtain ⟨F₁, hF₁⟩ := f₁.exists_holds h1
  obtain ⟨F₂, hF₂⟩ := f₂.exists_holds h2
  obtain ⟨F₃, hF₃⟩ := f₃.exists_holds h3
  rw [d1] at hF₁; rw [d2] at hF₂; rw [d3] at hF₃
  have ht1 : Template.construct c o per f₁.dims x = .ok t := by rw [d1]; exact ht
  have ht2 : Template.construct c o per f₂.dims x = .ok t := by rw [d2]; exact ht
  have ht3 : Template.construct c o per f₃.dims x = .ok t := by rw [d3]; exact ht
  have v1 : ValidAxes c o per f₁.dims x := by rw [d1]; exact hv
  have v2 : ValidAxes c o per f₂.dims x := by rw [d2]; exact hv
  have v3 : ValidAxes c o per f₃.dims x := by rw [d3]; exact hv
  rw [template_interpolate c ht1] at hg
  rw [template_interpolate c ht2, template_interpolate c ht3]
  obtain ⟨hreg, C₁, hC₁, hE₁⟩ := (InterpFn.construct_spec (c := c) hv d1 hF₁).get hg
  have r2 : AllRegular c o per f₂.dims x := by rw [d2]; exact hreg
  have r3 : AllRegular c o per f₃.dims x := by rw [d3]; exact hreg
  obtain ⟨g₂, hg₂⟩ := (construct_ok_iff c h2 v2).2 r2
  obtain ⟨g₃, hg₃⟩ := (construct_ok_iff c h3 v3).2 r3
  obtain ⟨-, C₂, hC₂, hE₂⟩ := (InterpFn.construct_spec (c := c) hv d2 hF₂).get hg₂
  obtain ⟨-, C₃, hC₃, hE₃⟩ := (InterpFn.construct_spec (c := c) hv d3 hF₃).get hg₃
  have hF : ∀ I, InRange dims I → F₃ I = a • F₁ I + b • F₂ I := by
    intro I hI
    obtain ⟨v₁, v₂, e1, e2, e3⟩ := hf I hI
    have k1 := (hF₁.get hI).symm.trans e1
    have k2 := (hF₂.get hI).symm.trans e2
    have k3 := (hF₃.get hI).symm.trans e3
    injection k1 with k1; injection k2 with k2; injection k3 with k3
    rw [k1, k2, k3]
  obtain ⟨B, hB⟩ := hreg.formula hv
  have hlin : ∀ J, InRange (nOf c per dims) J → C₃ J = a • C₁ J + b • C₂ J := by
    intro J hJ
    rw [hB V _ _ hE₁ J hJ, hB V _ _ hE₂ J hJ, hB V _ _ hE₃ J hJ]
    rw [← tensorVal_lin]
    refine tensorVal_congr (fun r hr => hF _ fun d => ?_) fun _ _ _ => rfl
    have h4 := (row_nodeOfRow (o := o) (per := per d) (hr d)).1
    have h5 := hv.dims_eq d
    unfold nOf at h4 ⊢
    omega
  have key : ∀ m y, g₃.spline.val C₃ m y = a • g₁.spline.val C₁ m y + b • g₂.spline.val C₂ m y := by
    intro m y
    rw [hC₁.val_eq, hC₂.val_eq, hC₃.val_eq, ← tensorVal_lin]
    exact tensorVal_congr hlin fun _ _ _ => rfl
  exact ⟨g₂, g₃, hg₂, hg₃, fun y => ⟨_, _, hC₁.call hv y, hC₂.call hv y, by rw [hC₃.call hv y, key]⟩,
    fun y m => ⟨_, _, hC₁.derivative hv y m, hC₂.derivative hv y m, by rw [hC₃.derivative hv y m, key]⟩⟩

/-! ## C33 -/

/-- **C33, dummy points.**  In the default configuration, data that differ only at last indices of periodic dimensions give the same
interpolation (and the same failure, if construction fails). -/
theorem dummy_ignored (c : Cfg) (hc : c.noDummy = false) {o : ℕ} {per : Fin (D + 1) → Bool} {f₁ f₂ : Mesh (D + 1) V}
    {x : Fin (D + 1) → XRange K} (h1 : f₁.WF) (h2 : f₂.WF) (hd : f₁.dims = f₂.dims) (hv : ValidAxes c o per f₁.dims x)
    (hf : ∀ I, InRange f₁.dims I → (∀ d, per d = true → I d + 1 < f₁.dims d) → f₁.get I = f₂.get I) :
    InterpFn.construct c o per f₁ x = InterpFn.construct c o per f₂ x := by
  have hv2 : ValidAxes c o per f₂.dims x := by rw [← hd]; exact hv
  rcases construct_ok_or_singular c h1 hv with ⟨⟨g₁, hg₁⟩, hr⟩ | ⟨e1, d, r, hr, h0⟩
  · obtain ⟨g₂, hg₂⟩ := (construct_ok_iff c h2 hv2).2 (by rw [← hd]; exact hr)
    rw [hg₁, hg₂]
    obtain ⟨F₁, hF₁⟩ := f₁.exists_holds h1
    obtain ⟨F₂, hF₂⟩ := f₂.exists_holds h2
    rw [← hd] at hF₂
    obtain ⟨-, C₁, hC₁, hE₁⟩ := (InterpFn.construct_spec (c := c) hv rfl hF₁).get hg₁
    obtain ⟨-, C₂, hC₂, hE₂⟩ := (InterpFn.construct_spec (c := c) hv hd.symm hF₂).get hg₂
    have hCC : ∀ J, InRange (nOf c per f₁.dims) J → C₁ J = C₂ J := by
      refine fun J hJ => hr.unique hv hE₁ hE₂ (fun a ha => ?_) hJ
      have hin : InRange f₁.dims a := fun d => by
        have := ha d
        have := hv.dims_eq d
        unfold nOf at *
        omega
      have := hf a hin fun d hp => by
        have := ha d
        have h5 := hv.dims_eq d
        unfold nOf at this
        rw [hp, hc] at h5
        simp at h5
        rw [hp] at this
        omega
      rw [hF₁.get hin, hF₂.get hin] at this
      injection this
    cases ht : Template.construct (V := V) c o per f₁.dims x with
    | error e => unfold InterpFn.construct at hg₁; rw [ht] at hg₁; simp [error_bind] at hg₁
    | ok t =>
      have ht2 : Template.construct (V := V) c o per f₂.dims x = .ok t := by rw [← hd]; exact ht
      rw [← template_interpolate c ht] at hg₁
      rw [← template_interpolate c ht2] at hg₂
      unfold Template.interpolate at hg₁ hg₂
      cases hw₁ : t.solveForControlPoints c f₁ with
      | error e => rw [hw₁] at hg₁; simp [error_bind] at hg₁
      | ok w₁ =>
        cases hw₂ : t.solveForControlPoints c f₂ with
        | error e => rw [hw₂] at hg₂; simp [error_bind] at hg₂
        | ok w₂ =>
          rw [hw₁, ok_bind, pure_eq_ok] at hg₁
          rw [hw₂, ok_bind, pure_eq_ok] at hg₂
          injection hg₁ with hg₁
          injection hg₂ with hg₂
          subst hg₁ hg₂
          have := Mesh.ext_holds (fun d => (hv d).unk_pos) hC₁.ctrl hC₂.ctrl hCC
          have hw : w₁ = w₂ := this
          rw [hw]
  · rcases construct_ok_or_singular c h2 hv2 with ⟨h3, h4⟩ | ⟨e2, -⟩
    · rw [← hd] at h4
      exact absurd h0 (h4 d r hr)
    · rw [e1, e2]

/-! ## C34 -/

/-- **C34, configuration without dummy points.**  With `INTP_PERIODIC_NO_DUMMY_POINT` and data without the last index of the periodic
dimensions, construction succeeds under the same conditions and gives the same function. -/
theorem no_dummy_same {c₁ c₂ : Cfg} (hc₁ : c₁.noDummy = false) (hc₂ : c₂.noDummy = true) {o : ℕ} {per : Fin (D + 1) → Bool}
    {f₁ f₂ : Mesh (D + 1) V} {x : Fin (D + 1) → XRange K} (h1 : f₁.WF) (h2 : f₂.WF)
    (hd : ∀ d, f₁.dims d = f₂.dims d + if per d then 1 else 0) (hv : ValidAxes c₁ o per f₁.dims x)
    (hf : ∀ I, InRange f₂.dims I → f₁.get I = f₂.get I) :
    InterpFn.construct c₁ o per f₁ x = .error .divZero ∧ InterpFn.construct c₂ o per f₂ x = .error .divZero ∨
    ∃ g₁ g₂, InterpFn.construct c₁ o per f₁ x = .ok g₁ ∧ InterpFn.construct c₂ o per f₂ x = .ok g₂ ∧ (∀ y, g₁.call y = g₂.call y) ∧
      (∀ y m, g₁.derivative c₁ y m = g₂.derivative c₂ y m) ∧ ∀ d, g₁.range d = g₂.range d ∧ g₁.periodicity d = g₂.periodicity d := by
  have hpn : ∀ d, pointNum c₂ (per d) (f₂.dims d) = pointNum c₁ (per d) (f₁.dims d) := by
    intro d
    unfold pointNum
    rw [hd, hc₁, hc₂]
    cases per d <;> simp
  have hv2 : ValidAxes c₂ o per f₂.dims x := fun d => by rw [hpn]; exact hv d
  have hreg : AllRegular c₁ o per f₁.dims x ↔ AllRegular c₂ o per f₂.dims x := by
    unfold AllRegular
    simp only [hpn]
  rcases construct_ok_or_singular c₁ h1 hv with ⟨⟨g₁, hg₁⟩, hr⟩ | ⟨e1, d, r, hr, h0⟩
  · right
    obtain ⟨g₂, hg₂⟩ := (construct_ok_iff c₂ h2 hv2).2 (hreg.1 hr)
    refine ⟨g₁, g₂, hg₁, hg₂, ?_⟩
    obtain ⟨F₁, hF₁⟩ := f₁.exists_holds h1
    obtain ⟨F₂, hF₂⟩ := f₂.exists_holds h2
    obtain ⟨-, C₁, hC₁, hE₁⟩ := (InterpFn.construct_spec (c := c₁) hv rfl hF₁).get hg₁
    obtain ⟨-, C₂, hC₂, hE₂⟩ := (InterpFn.construct_spec (c := c₂) hv2 rfl hF₂).get hg₂
    have hn : nOf c₂ per f₂.dims = nOf c₁ per f₁.dims := by
      funext d; unfold nOf; rw [hpn]
    have hCC : ∀ J, InRange (nOf c₁ per f₁.dims) J → C₁ J = C₂ J := by
      have hE₂' : CtrlEqs c₁ o per f₁.dims x F₂ C₂ := by
        unfold CtrlEqs at hE₂ ⊢
        simpa only [hpn] using hE₂
      refine fun J hJ => hr.unique hv hE₁ hE₂' (fun a ha => ?_) hJ
      have hin2 : InRange f₂.dims a := fun d => by
        have h4 := ha d
        have h5 := hv.dims_eq d
        have h6 := hd d
        unfold nOf at h4
        rw [hc₁] at h5
        cases hp : per d <;> simp [hp] at h4 h5 h6 <;> omega
      have hin1 : InRange f₁.dims a := fun d => by
        have := hin2 d
        have := hd d
        omega
      have := hf a hin2
      rw [hF₁.get hin1, hF₂.get hin2] at this
      injection this
    have key : ∀ m y, g₁.spline.val C₁ m y = g₂.spline.val C₂ m y := by
      intro m y
      rw [hC₁.val_eq, hC₂.val_eq, hn]
      refine tensorVal_congr hCC fun d J _ => ?_
      rw [hpn]
    refine ⟨fun y => ?_, fun y m => ?_, fun d => ⟨?_, ?_⟩⟩
    · rw [hC₁.call hv, hC₂.call hv2, key]
    · rw [hC₁.derivative hv, hC₂.derivative hv2, key]
    · unfold InterpFn.range
      rw [hC₁.range_eq, hC₂.range_eq]
      unfold kn
      rw [hC₁.knots, hC₂.knots, hpn]
    · unfold InterpFn.periodicity
      rw [hC₁.pers, hC₂.pers]
  · left
    rcases construct_ok_or_singular c₂ h2 hv2 with ⟨h3, h4⟩ | ⟨e2, -⟩
    · exact absurd h0 (hreg.2 h4 d r hr)
    · exact ⟨e1, e2⟩

/-! ## C35 -/

omit [IsStrictOrderedRing K] [FloorRing K] [AddCommGroup V] [Module K V] in
theorem boundaryCheck_eq (f : InterpFn D K V) (x : Fin D → K) [Decidable (∃ d, f.periodicity d = false ∧ (x d < (f.range d).1 ∨ (f.range d).2 < x d))] :
    f.boundaryCheck x = if ∃ d, f.periodicity d = false ∧ (x d < (f.range d).1 ∨ (f.range d).2 < x d) then .error .domainError else .ok () := by
  have gen : ∀ l : List (Fin D), l.foldlM (fun (_ : Unit) d =>
      if !f.periodicity d && (decide (x d < (f.range d).1) || decide (x d > (f.range d).2)) then (.error .domainError : M Unit) else .ok ()) () =
      (.ok () : M Unit) ∧ (∀ d ∈ l, ¬ (f.periodicity d = false ∧ (x d < (f.range d).1 ∨ (f.range d).2 < x d))) ∨
      l.foldlM (fun (_ : Unit) d =>
      if !f.periodicity d && (decide (x d < (f.range d).1) || decide (x d > (f.range d).2)) then (.error .domainError : M Unit) else .ok ()) () =
      (.error .domainError : M Unit) ∧ ∃ d ∈ l, f.periodicity d = false ∧ (x d < (f.range d).1 ∨ (f.range d).2 < x d) := by
    intro l
    induction l with
    | nil => left; exact ⟨rfl, by simp⟩
    | cons d l ih =>
      rw [List.foldlM_cons]
      by_cases h : f.periodicity d = false ∧ (x d < (f.range d).1 ∨ (f.range d).2 < x d)
      · right
        rw [if_pos (by simpa using h)]
        exact ⟨rfl, d, by simp, h⟩
      · rw [if_neg (by simpa using h), ok_bind]
        rcases ih with ⟨e, ih⟩ | ⟨e, d', hd', ih⟩
        · left
          refine ⟨e, fun d' hd' => ?_⟩
          rcases List.mem_cons.1 hd' with rfl | h'
          · exact h
          · exact ih _ h'
        · right
          exact ⟨e, d', by simp [hd'], ih⟩
  rcases gen (List.finRange D) with ⟨e, h⟩ | ⟨e, d, -, h⟩
  · rw [if_neg (by rintro ⟨d, hd⟩; exact h d (by simp) hd)]; exact e
  · rw [if_pos ⟨d, h⟩]; exact e

omit [IsStrictOrderedRing K] in
/-- **C35, range check.**  For every interpolation function, `at` throws when a non-periodic coordinate is outside its range and otherwise
is `operator()`; in particular periodic coordinates cause no throw. -/
theorem at_checked (f : InterpFn D K V) (x : Fin D → K) :
    ((∃ d, f.periodicity d = false ∧ (x d < (f.range d).1 ∨ (f.range d).2 < x d)) → f.at' x = .error .domainError) ∧
    ((∀ d, f.periodicity d = true ∨ ((f.range d).1 ≤ x d ∧ x d ≤ (f.range d).2)) → f.at' x = f.call x) := by
  classical
  unfold InterpFn.at'
  rw [boundaryCheck_eq]
  refine ⟨fun h => by rw [if_pos h, error_bind], fun h => ?_⟩
  rw [if_neg, ok_bind]
  rintro ⟨d, h1, h2⟩
  rcases h d with h | h
  · rw [h] at h1; simp at h1
  · rcases h2 with h2 | h2
    · exact absurd h2 (not_lt.2 h.1)
    · exact absurd h2 (not_lt.2 h.2)

omit [IsStrictOrderedRing K] in
/-- **C35, derivatives.** -/
theorem derivative_at_checked (c : Cfg) (f : InterpFn D K V) (x : Fin D → K) (m : Fin D → ℕ) :
    ((∃ d, f.periodicity d = false ∧ (x d < (f.range d).1 ∨ (f.range d).2 < x d)) → f.derivativeAt c x m = .error .domainError) ∧
    ((∀ d, f.periodicity d = true ∨ ((f.range d).1 ≤ x d ∧ x d ≤ (f.range d).2)) → f.derivativeAt c x m = f.derivative c x m) := by
  classical
  unfold InterpFn.derivativeAt
  rw [boundaryCheck_eq]
  refine ⟨fun h => by rw [if_pos h, error_bind], fun h => ?_⟩
  rw [if_neg, ok_bind]
  rintro ⟨d, h1, h2⟩
  rcases h d with h | h
  · rw [h] at h1; simp at h1
  · rcases h2 with h2 | h2
    · exact absurd h2 (not_lt.2 h.1)
    · exact absurd h2 (not_lt.2 h.2)

/-- **C35, constructed functions.**  `at` and `derivative_at` of a constructed interpolation throw if and only if a non-periodic coordinate
is outside its range; there is no other failure. -/
theorem at_constructed (c : Cfg) {o : ℕ} {per : Fin (D + 1) → Bool} {fm : Mesh (D + 1) V} {x : Fin (D + 1) → XRange K}
    (hm : fm.WF) (hv : ValidAxes c o per fm.dims x) {g : InterpFn (D + 1) K V} (hg : InterpFn.construct c o per fm x = .ok g)
    (y : Fin (D + 1) → K) (m : Fin (D + 1) → ℕ) :
    (∃ v, g.call y = .ok v) ∧ (∃ v, g.derivative c y m = .ok v) ∧
    (g.at' y = .error .domainError ↔ ∃ d, per d = false ∧ (y d < (g.range d).1 ∨ (g.range d).2 < y d)) ∧
    (g.derivativeAt c y m = .error .domainError ↔ ∃ d, per d = false ∧ (y d < (g.range d).1 ∨ (g.range d).2 < y d)) := by
  obtain ⟨F, hF⟩ := fm.exists_holds hm
  obtain ⟨-, C, hC, hE⟩ := (InterpFn.construct_spec (c := c) hv rfl hF).get hg
  have hp : ∀ d, g.periodicity d = per d := fun d => congrFun hC.pers d
  have h1 := hC.call hv y
  have h2 := hC.derivative (c' := c) hv y m
  refine ⟨⟨_, h1⟩, ⟨_, h2⟩, ?_⟩
  have a1 := at_checked g y
  have a2 := derivative_at_checked c g y m
  simp only [hp] at a1 a2
  by_cases h : ∃ d, per d = false ∧ (y d < (g.range d).1 ∨ (g.range d).2 < y d)
  · exact ⟨⟨fun _ => h, fun _ => a1.1 h⟩, ⟨fun _ => h, fun _ => a2.1 h⟩⟩
  · have h' : ∀ d, per d = true ∨ ((g.range d).1 ≤ y d ∧ y d ≤ (g.range d).2) := by
      intro d
      by_contra hh
      push Not at hh
      refine h ⟨d, by simpa using hh.1, ?_⟩
      by_cases h3 : y d < (g.range d).1
      · exact .inl h3
      · exact .inr (hh.2 (not_lt.1 h3))
    rw [a1.2 h', a2.2 h', h1, h2]
    simp [h]

/-! ## C49 -/

/-- **C49, hints.**  For every coordinate the hint is a knot index between `order` and the last segment. -/
theorem hint_valid (c : Cfg) {o : ℕ} {per : Fin (D + 1) → Bool} {fm : Mesh (D + 1) V} {x : Fin (D + 1) → XRange K}
    (hm : fm.WF) (hv : ValidAxes c o per fm.dims x) {g : InterpFn (D + 1) K V} (hg : InterpFn.construct c o per fm x = .ok g)
    (d : Fin (D + 1)) (y : K) : ∃ k, g.hint d y = .ok k ∧ o ≤ k ∧ k + o + 2 ≤ (g.spline.knots d).length := by
  obtain ⟨F, hF⟩ := fm.exists_holds hm
  obtain ⟨-, C, hC, hE⟩ := (InterpFn.construct_spec (c := c) hv rfl hF).get hg
  obtain ⟨k, h1, h2, h3⟩ := hC.hint hv d y
  refine ⟨k, h1, h2, ?_⟩
  have := (hC.wf hv).len d
  unfold last at h3
  rw [hC.order] at h3 this
  omega

/-! ## C36 -/

/-- **C36, even orders: the claim is false.**  For a non-periodic dimension and an even order the upper end of `range` is always below the
last data coordinate. -/
theorem range_even_aperiodic (c : Cfg) {o : ℕ} {per : Fin (D + 1) → Bool} {fm : Mesh (D + 1) V} {x : Fin (D + 1) → XRange K}
    (hm : fm.WF) (hv : ValidAxes c o per fm.dims x) {g : InterpFn (D + 1) K V} (hg : InterpFn.construct c o per fm x = .ok g)
    {d : Fin (D + 1)} (hp : per d = false) (he : o % 2 = 0) :
    (g.range d).1 = (x d).node (fm.dims d) 0 ∧ (g.range d).2 < (x d).node (fm.dims d) (fm.dims d - 1) := by
  obtain ⟨F, hF⟩ := fm.exists_holds hm
  obtain ⟨-, C, hC, hE⟩ := (InterpFn.construct_spec (c := c) hv rfl hF).get hg
  have ax := hC.axisA hv hp
  have hn : g.spline.ctrl.dims d = fm.dims d := by rw [hC.dims_eq, hp]; unfold unk pointNum; simp
  have hN : pointNum c (per d) (fm.dims d) = fm.dims d := by rw [hp]; unfold pointNum; simp
  rw [hn, hN] at ax
  have := ax.len
  have h2 := ax.big
  have h3 := ax.two
  unfold InterpFn.range
  rw [hC.range_eq, show (g.spline.knots d).length - o - (2 - o % 2) = fm.dims d - 1 by omega]
  refine ⟨ax.left o le_rfl, ?_⟩
  rw [← ax.right (fm.dims d) le_rfl (by omega)]
  have := ax.inc (fm.dims d - 1) (by omega) (by omega)
  rwa [show fm.dims d - 1 + 1 = fm.dims d by omega] at this

/-- **C36, even orders: consequence.**  `at` throws at every point whose coordinate in such a dimension is the last data coordinate. -/
theorem at_last_point_throws (c : Cfg) {o : ℕ} {per : Fin (D + 1) → Bool} {fm : Mesh (D + 1) V} {x : Fin (D + 1) → XRange K}
    (hm : fm.WF) (hv : ValidAxes c o per fm.dims x) {g : InterpFn (D + 1) K V} (hg : InterpFn.construct c o per fm x = .ok g)
    {d : Fin (D + 1)} (hp : per d = false) (he : o % 2 = 0) {y : Fin (D + 1) → K} (hy : y d = (x d).node (fm.dims d) (fm.dims d - 1)) :
    g.at' y = .error .domainError :=
  (at_constructed c hm hv hg y fun _ => 0).2.2.1.2 ⟨d, hp, .inr (by rw [hy]; exact (range_even_aperiodic c hm hv hg hp he).2)⟩

/-- **C36, odd orders, non-periodic.**  Missing for the full claim: even orders, for which it is false (`range_even_aperiodic`). -/
theorem range_odd_aperiodic_partial (c : Cfg) {o : ℕ} {per : Fin (D + 1) → Bool} {fm : Mesh (D + 1) V} {x : Fin (D + 1) → XRange K}
    (hm : fm.WF) (hv : ValidAxes c o per fm.dims x) {g : InterpFn (D + 1) K V} (hg : InterpFn.construct c o per fm x = .ok g)
    {d : Fin (D + 1)} (hp : per d = false) (he : o % 2 = 1) :
    g.range d = ((x d).node (fm.dims d) 0, (x d).node (fm.dims d) (fm.dims d - 1)) := by
  obtain ⟨F, hF⟩ := fm.exists_holds hm
  obtain ⟨-, C, hC, hE⟩ := (InterpFn.construct_spec (c := c) hv rfl hF).get hg
  have ax := hC.axisA hv hp
  have hn : g.spline.ctrl.dims d = fm.dims d := by rw [hC.dims_eq, hp]; unfold unk pointNum; simp
  have hN : pointNum c (per d) (fm.dims d) = fm.dims d := by rw [hp]; unfold pointNum; simp
  rw [hn, hN] at ax
  have := ax.len
  have h2 := ax.big
  unfold InterpFn.range
  rw [hC.range_eq, show (g.spline.knots d).length - o - (2 - o % 2) = fm.dims d by omega]
  exact Prod.ext (ax.left o le_rfl) (ax.right (fm.dims d) le_rfl (by omega))

/-- **C36, periodic dimensions.**  The length of `range` is the period: the distance of the two data points that are identified. -/
theorem range_periodic (c : Cfg) {o : ℕ} {per : Fin (D + 1) → Bool} {fm : Mesh (D + 1) V} {x : Fin (D + 1) → XRange K}
    (hm : fm.WF) (hv : ValidAxes c o per fm.dims x) {g : InterpFn (D + 1) K V} (hg : InterpFn.construct c o per fm x = .ok g)
    {d : Fin (D + 1)} (hp : per d = true) :
    (g.range d).2 - (g.range d).1 = (x d).node (pointNum c true (fm.dims d)) (pointNum c true (fm.dims d) - 1) -
      (x d).node (pointNum c true (fm.dims d)) 0 := by
  obtain ⟨F, hF⟩ := fm.exists_holds hm
  obtain ⟨-, C, hC, hE⟩ := (InterpFn.construct_spec (c := c) hv rfl hF).get hg
  have := hC.period hv hp
  rw [hC.dims_eq, hp] at this
  exact this

/-! ## C51 -/

omit [LinearOrder K] [IsStrictOrderedRing K] [FloorRing K] in
theorem tensorVal_prod (dims : Fin D → ℕ) (w : Fin D → ℕ → K) (C : Fin D → (Fin 1 → ℕ) → K) :
    tensorVal dims w (fun J => ∏ d, C d fun _ => J d) = ∏ d, tensorVal (fun _ => dims d) (fun _ => w d) (C d) := by
  have h1 : ∀ d, tensorVal (fun _ => dims d) (fun _ => w d) (C d) = ∑ j ∈ Finset.range (dims d), w d j * C d fun _ => j := by
    intro d
    unfold tensorVal
    refine sum_bij' (fun J _ => J 0) (fun j _ => fun _ => j) ?_ ?_ ?_ ?_ ?_
    · intro J hJ; exact Fintype.mem_piFinset.1 hJ 0
    · intro j hj; exact Fintype.mem_piFinset.2 fun _ => hj
    · intro J hJ; funext e; rw [Subsingleton.elim e 0]
    · intro j hj; rfl
    · intro J hJ
      have : J = fun _ => J 0 := by funext e; rw [Subsingleton.elim e 0]
      rw [Fin.prod_univ_one, smul_eq_mul, ← this]
  rw [prod_congr rfl fun d _ => h1 d, prod_univ_sum]
  unfold tensorVal
  refine sum_congr rfl fun J _ => ?_
  rw [smul_eq_mul, prod_mul_distrib]

/-- **C51, separable data.**  If all one-dimensional interpolations exist, so does the interpolation of the product of the data, and it is
the product of the one-dimensional interpolations; mixed derivatives are products of derivatives. -/
theorem separable (c : Cfg) {o : ℕ} {per : Fin (D + 1) → Bool} {fm : Mesh (D + 1) K} {f : Fin (D + 1) → List K} {x : Fin (D + 1) → XRange K}
    (hm : fm.WF) (hv : ValidAxes c o per fm.dims x) (hd : ∀ d, fm.dims d = (f d).length)
    (hf : ∀ I, InRange fm.dims I → fm.get I = .ok (∏ d, (f d).getD (I d) 0))
    {h : Fin (D + 1) → InterpFn 1 K K} (hh : ∀ d, InterpFn.construct1 c o (per d) (f d) (x d) = .ok (h d)) :
    ∃ g, InterpFn.construct c o per fm x = .ok g ∧
      (∀ y, ∃ v : Fin (D + 1) → K, (∀ d, (h d).call (fun _ => y d) = .ok (v d)) ∧ g.call y = .ok (∏ d, v d)) ∧
      ∀ y m, ∃ v : Fin (D + 1) → K, (∀ d, (h d).derivative c (fun _ => y d) (fun _ => m d) = .ok (v d)) ∧
        g.derivative c y m = .ok (∏ d, v d) := by
  have hv1 : ∀ d, ValidAxes c o (fun _ => per d) (fun _ : Fin 1 => (f d).length) fun _ => x d := by
    intro d _
    have := hv d
    rw [hd] at this
    exact this
  have hw1 : ∀ d, (Mesh.ofList (f d)).WF := fun d => by
    unfold Mesh.WF Mesh.ofList
    simp
  choose F1 hF1 using fun d => (Mesh.ofList (f d)).exists_holds (hw1 d)
  have sp := fun d => (InterpFn.construct_spec (c := c) (fm := Mesh.ofList (f d)) (hv1 d) rfl (hF1 d)).get (hh d)
  choose hr1 C1 hC1 hE1 using sp
  have hreg : AllRegular c o per fm.dims x := fun d => by
    have := hr1 d 0
    rw [hd]
    exact this
  obtain ⟨g, hg⟩ := (construct_ok_iff c hm hv).2 hreg
  obtain ⟨F, hF⟩ := fm.exists_holds hm
  obtain ⟨-, C, hC, hE⟩ := (InterpFn.construct_spec (c := c) hv rfl hF).get hg
  have hCC : ∀ J, InRange (nOf c per fm.dims) J → C J = ∏ d, C1 d fun _ => J d := by
    have hE' : CtrlEqs c o per fm.dims x (fun a => ∏ d, F1 d fun _ => a d) fun J => ∏ d, C1 d fun _ => J d := by
      intro a ha
      rw [tensorVal_prod]
      refine prod_congr rfl fun d _ => ?_
      have := hE1 d (fun _ => a d) fun _ => by
        have : a d < unk (per d) (pointNum c (per d) (fm.dims d)) := ha d
        rw [hd] at this
        exact this
      rw [hd]
      exact this
    refine fun J hJ => hreg.unique hv hE hE' (fun a ha => ?_) hJ
    have hin : InRange fm.dims a := fun d => by
      have := ha d
      have := hv.dims_eq d
      unfold nOf at *
      omega
    have e := hf a hin
    rw [hF.get hin] at e
    injection e with e
    rw [e]
    refine prod_congr rfl fun d _ => ?_
    have h3 : a d < (f d).length := by rw [← hd]; exact hin d
    have h4 := (hF1 d).get (a := fun _ => a d) fun _ => h3
    have h5 : (Mesh.ofList (f d)).get (fun _ => a d) = .ok ((f d).getD (a d) 0) := by
      unfold Mesh.get Mesh.ofList indexing indexingStep
      simp [List.finRange_succ, rd_ok h3, List.getD, h3]
    rw [h4] at h5
    injection h5 with h5
    exact h5.symm
  have key : ∀ m y, g.spline.val C m y = ∏ d, (h d).spline.val (C1 d) (fun _ => m d) fun _ => y d := by
    intro m y
    rw [hC.val_eq, tensorVal_congr hCC fun _ _ _ => rfl, tensorVal_prod]
    refine prod_congr rfl fun d _ => ?_
    rw [(hC1 d).val_eq, hd]
    unfold nOf
    rw [hd]
  exact ⟨g, hg, fun y => ⟨_, fun d => (hC1 d).call (hv1 d) _, by rw [hC.call hv, key]⟩,
    fun y m => ⟨_, fun d => (hC1 d).derivative (hv1 d) _ _, by rw [hC.derivative hv, key]⟩⟩

/-! ## Examples -/

namespace InterpExample

/-- 5 × 5 data, order 3: explicit non-equispaced coordinates, and a periodic uniform dimension. -/
def data : Mesh 2 ℚ := ⟨fun _ => 5, [1, 2, -1, 3, 1, 0, 5, 2, 2, 0, 7, 1, 1, 4, 7, -2, 3, 1, 1, -2, 4, 0, 0, 1, 4]⟩

def per : Fin 2 → Bool := ![false, true]

def x : Fin 2 → XRange ℚ := ![.coords [0, 1, 3, 4, 6], .uniform 0 4]

def cfg : Cfg := ⟨true, false⟩

theorem valid (o : ℕ) (h1 : 1 ≤ o) (h3 : o ≤ 3) : ValidAxes cfg o per (fun _ => 5) x := by
  intro d
  fin_cases d
  · refine ⟨by simp [per], fun _ => by simp [pointNum, cfg]; omega, by simp [x], ?_⟩
    intro l hl
    injection hl with hl
    subst hl
    refine ⟨rfl, fun i hi => ?_, fun _ => h1⟩
    have : i < 4 := by simp [pointNum, cfg, per] at hi; omega
    interval_cases i <;> norm_num
  · refine ⟨fun _ => ?_, by simp [per], ?_, by simp [x]⟩
    · simp [pointNum, cfg, per]; omega
    · intro a b h
      injection h with h1 h2
      subst h1 h2
      norm_num

/-- The hypotheses of the theorems above hold for this data set: construction succeeds for orders 3 and 2. -/
example : data.WF ∧ ((InterpFn.construct cfg 3 per data x).toOption.isSome = true) ∧
    ((InterpFn.construct cfg 2 per data x).toOption.isSome = true) := by
  refine ⟨rfl, ?_, ?_⟩ <;> decide +kernel

/-- Value at the data point (3, 1), and at a point between data points. -/
example : (do
    let g ← InterpFn.construct cfg 3 per data x
    let u ← g.call ![4, 1]
    let v ← g.call ![4, -3]
    let w ← g.call ![7 / 2, 1 / 2]
    pure (u, v, w) : M (ℚ × ℚ × ℚ)) = .ok (3, 3, 135113 / 54272) := by decide +kernel

end InterpExample

end Intp
