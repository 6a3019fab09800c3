import Verif.Props.Spline
import Verif.Props.Interpolation

/-!
# Splines built directly from control points and knots (C58)
-/

namespace Intp

open Finset BSpline

variable {K V : Type} [Field K] [LinearOrder K] [IsStrictOrderedRing K] [FloorRing K] [AddCommGroup V] [Module K V] {D : ℕ}

omit [IsStrictOrderedRing K] [FloorRing K] [AddCommGroup V] [Module K V] in
theorem BSpline.ofParts_spec (c : Cfg) {o : ℕ} {per : Fin D → Bool} {ctrl : Mesh D V} {knots : Fin D → List K} (hl : ∀ d, o + 1 ≤ (knots d).length) :
    Spec (ofParts c o per ctrl knots)
      (fun b => b = ⟨o, per, knots, ctrl, fun d => (knotFn (knots d) o, knotFn (knots d) ((knots d).length - (o + 1)))⟩ ∧
        (c.assertions = true → ∀ d, (knots d).length = ctrl.dims d + if per d then 2 * o + 1 else o + 1))
      (fun e => e = .assertFail ∧ c.assertions = true ∧ ∃ d, (knots d).length ≠ ctrl.dims d + if per d then 2 * o + 1 else o + 1) := by
  unfold ofParts
  rw [tabM_ok (g := fun d => (knotFn (knots d) o, knotFn (knots d) ((knots d).length - (o + 1)))) (fun d => by
    have := hl d
    rw [rd_knotFn (by omega), ok_bind, subM_ok (by omega), ok_bind, rd_knotFn (by omega), ok_bind, pure_eq_ok]), ok_bind]
  refine Spec.bind (Q := fun _ => c.assertions = true → ∀ d, (knots d).length = ctrl.dims d + if per d then 2 * o + 1 else o + 1)
    (Spec.imp (Spec.foldFin (P := fun k (_ : Unit) => c.assertions = true → ∀ d : Fin D, d.val < k →
      (knots d).length = ctrl.dims d + if per d then 2 * o + 1 else o + 1) (fun _ d h => absurd h (by omega)) ?_) ?_)
    fun _ h => Spec.pure ⟨rfl, h⟩
  · intro d _ h
    unfold assertM
    by_cases hd : (knots d).length = ctrl.dims d + if per d then 2 * o + 1 else o + 1
    · simp only [hd, decide_true, Bool.not_true, Bool.and_false, Bool.false_eq_true, if_false]
      refine Spec.ok fun hc e he => ?_
      by_cases hed : e = d
      · subst hed; exact hd
      · exact h hc e (by have : e.val ≠ d.val := fun h => hed (Fin.ext h); omega)
    · cases hc : c.assertions with
      | true =>
        simp only [hd, decide_false, Bool.not_false, Bool.and_self, if_true]
        exact Spec.error ⟨rfl, trivial, d, hd⟩
      | false =>
        simp only [Bool.false_and, Bool.false_eq_true, if_false]
        exact Spec.ok fun h => by cases h
  · intro _ h hc d
    exact h hc d d.isLt

/-- **C58, check.**  The constructor accepts, with assertions, exactly the knot vectors of the right length for the number of control points. -/
theorem direct_check (c : Cfg) {o : ℕ} {per : Fin D → Bool} {ctrl : Mesh D V} {knots : Fin D → List K} (hl : ∀ d, o + 1 ≤ (knots d).length) :
    (∃ b, ofParts c o per ctrl knots = .ok b) ↔
      (c.assertions = true → ∀ d, (knots d).length = ctrl.dims d + if per d then 2 * o + 1 else o + 1) := by
  have := ofParts_spec (V := V) c (per := per) (ctrl := ctrl) hl
  cases h : ofParts c o per ctrl knots with
  | ok b => rw [h] at this; exact ⟨fun _ => this.2, fun _ => ⟨b, rfl⟩⟩
  | error e =>
    rw [h] at this
    obtain ⟨-, h1, d, h2⟩ := this
    exact ⟨(fun ⟨b, hb⟩ => by cases hb), fun h => absurd (h h1 d) h2⟩

theorem direct_wf (c : Cfg) {o : ℕ} {per : Fin D → Bool} {ctrl : Mesh D V} {C : (Fin D → ℕ) → V} {knots : Fin D → List K}
    (hctrl : ctrl.Holds ctrl.dims C) (hn : ∀ d, if per d then 1 ≤ ctrl.dims d else o + 1 ≤ ctrl.dims d)
    (hl : ∀ d, (knots d).length = ctrl.dims d + if per d then 2 * o + 1 else o + 1)
    (hm : ∀ d i, i + 1 < (knots d).length → (knots d).getD i 0 ≤ (knots d).getD (i + 1) 0)
    (h1 : ∀ d, (knots d).getD o 0 < (knots d).getD (o + 1) 0)
    (h2 : ∀ d, (knots d).getD ((knots d).length - o - 2) 0 < (knots d).getD ((knots d).length - o - 1) 0) :
    ∃ b : BSpline D K V, ofParts c o per ctrl knots = .ok b ∧
      b = ⟨o, per, knots, ctrl, fun d => (knotFn (knots d) o, knotFn (knots d) ((knots d).length - (o + 1)))⟩ ∧ b.WF ∧
      ∀ d, b.last d + 1 = (knots d).length - o - 1 := by
  have hlen : ∀ d, 2 * o + 2 ≤ (knots d).length := fun d => by
    have a := hn d; have b := hl d
    cases hp : per d <;> simp [hp] at a b <;> omega
  have hm' : ∀ d i j, i ≤ j → j < (knots d).length → (knots d).getD i 0 ≤ (knots d).getD j 0 := by
    intro d i j hij
    induction j, hij using Nat.le_induction with
    | base => intro _; exact le_rfl
    | succ j hij ih => intro hj; exact (ih (by omega)).trans (hm d j hj)
  obtain ⟨b, e, rfl, -⟩ : ∃ b, ofParts c o per ctrl knots = .ok b ∧
      b = ⟨o, per, knots, ctrl, fun d => (knotFn (knots d) o, knotFn (knots d) ((knots d).length - (o + 1)))⟩ ∧ True := by
    obtain ⟨b, hb⟩ := (direct_check (V := V) c (per := per) (ctrl := ctrl) (knots := knots) fun d => by have := hlen d; omega).2 fun _ => hl
    exact ⟨b, hb, ((ofParts_spec (V := V) c fun d => by have := hlen d; omega).get hb).1, trivial⟩
  set b : BSpline D K V := ⟨o, per, knots, ctrl, fun d => (knotFn (knots d) o, knotFn (knots d) ((knots d).length - (o + 1)))⟩ with hb
  have hlast : ∀ d, b.last d + 1 = (knots d).length - o - 1 := fun d => by
    have := hlen d
    show (knots d).length - o - 2 + 1 = _
    omega
  have hwf : b.WF := by
    refine ⟨hctrl.2.1, fun d i j _ hij hj => hm' d i j hij hj, hlen, h1, fun d => ?_, fun d hp => ?_, fun d hp => ?_⟩
    · rw [hlast]; exact h2 d
    · have hp : per d = false := hp
      have := hl d
      simp [hp] at this
      show (knots d).length = ctrl.dims d + o + 1
      omega
    · have hp : per d = true := hp
      have := hn d
      simp only [hp, if_true] at this
      refine ⟨this, lt_of_lt_of_le (h1 d) (hm' d _ _ ?_ ?_)⟩ <;> have := hlen d <;> omega
  exact ⟨b, e, hb, hwf, hlast⟩

/-- **C58.**  A spline built from control points `C` and non-decreasing knots whose first and last segments are not empty is, at every point of
its domain (at every point of periodic dimensions), the sum of its basis functions times its control points. -/
theorem direct_value (c : Cfg) {o : ℕ} {per : Fin D → Bool} {ctrl : Mesh D V} {C : (Fin D → ℕ) → V} {knots : Fin D → List K}
    (hctrl : ctrl.Holds ctrl.dims C) (hn : ∀ d, if per d then 1 ≤ ctrl.dims d else o + 1 ≤ ctrl.dims d)
    (hl : ∀ d, (knots d).length = ctrl.dims d + if per d then 2 * o + 1 else o + 1)
    (hm : ∀ d i, i + 1 < (knots d).length → (knots d).getD i 0 ≤ (knots d).getD (i + 1) 0)
    (h1 : ∀ d, (knots d).getD o 0 < (knots d).getD (o + 1) 0)
    (h2 : ∀ d, (knots d).getD ((knots d).length - o - 2) 0 < (knots d).getD ((knots d).length - o - 1) 0)
    (x : Fin D → K) (hx : ∀ d, per d = false → (knots d).getD o 0 ≤ x d ∧ x d ≤ (knots d).getD ((knots d).length - o - 1) 0) :
    ∃ (b : BSpline D K V) (w : Fin D → K), ofParts c o per ctrl knots = .ok b ∧
      (∀ d, per d = false → w d = x d) ∧
      (∀ d, per d = true → (∃ k : ℤ, w d = x d + k * ((knots d).getD ((knots d).length - o - 1) 0 - (knots d).getD o 0)) ∧
        (knots d).getD o 0 ≤ w d ∧ w d ≤ (knots d).getD ((knots d).length - o - 1) 0) ∧
      b.evalAt x = .ok (∑ I ∈ Fintype.piFinset (fun d => Finset.range ((knots d).length - o - 1)),
        (∏ d, coxC ((knots d).getD ((knots d).length - o - 1) 0) (fun i => (knots d).getD i 0) o (I d) (w d)) •
          C fun d => if per d then I d % ctrl.dims d else I d) := by
  obtain ⟨b, e, hb, hwf, hlast⟩ := direct_wf c hctrl hn hl hm h1 h2
  choose w hw using fun d => hwf.exists_wrap d (x d)
  subst hb
  set b : BSpline D K V := ⟨o, per, knots, ctrl, fun d => (knotFn (knots d) o, knotFn (knots d) ((knots d).length - (o + 1)))⟩ with hb
  have hA : ∀ d, per d = false → w d = x d := fun d hp => by
    have := hw d
    unfold IsWrap at this
    rwa [if_neg (by show ¬ per d = true; simp [hp])] at this
  have hsub : ∀ d, (knots d).length - (o + 1) = (knots d).length - o - 1 := fun d => by omega
  have hB : ∀ d, per d = true → (∃ k : ℤ, w d = x d + k * ((knots d).getD ((knots d).length - o - 1) 0 - (knots d).getD o 0)) ∧
        (knots d).getD o 0 ≤ w d ∧ w d ≤ (knots d).getD ((knots d).length - o - 1) 0 := fun d hp => by
    have := hw d
    unfold IsWrap at this
    rw [if_pos (by exact hp)] at this
    obtain ⟨hk, hr⟩ := this
    have e1 : (b.range d).1 = (knots d).getD o 0 := rfl
    have e2 : (b.range d).2 = (knots d).getD ((knots d).length - o - 1) 0 := by rw [← hsub]; rfl
    rw [e1, e2] at hk hr
    refine ⟨hk, ?_⟩
    split at hr
    · exact ⟨hr.1.le, hr.2⟩
    · exact ⟨hr.1, hr.2.le⟩
  refine ⟨b, w, e, hA, hB, ?_⟩
  unfold evalAt
  have key := spline_value hwf hctrl (x := fun d => (x d, b.order)) (w := w) hw (fun d => ?_)
    fun d => hwf.validHint le_rfl (hwf.last_ge d) _
  · rw [key]
    simp only [hlast]
    rfl
  · rw [hlast]
    cases hp : per d with
    | true => exact (hB d hp).2
    | false => rw [hA d hp]; exact hx d hp

/-- **C58, derivatives.**  The value and the derivatives of such a spline, called without hints: on every product of segments (`At x w s`: the point `x` wraps to `w`, which is
in segment `s d` of dimension `d`) there are polynomials of degree at most the order such that the value is a combination of products of their values, and every mixed
derivative, in the order of the dimensions in which the derivative orders are passed, the same combination of products of their derivatives. -/
theorem direct_derivative (c cfg : Cfg) {o : ℕ} {per : Fin D → Bool} {ctrl : Mesh D V} {C : (Fin D → ℕ) → V} {knots : Fin D → List K}
    (hctrl : ctrl.Holds ctrl.dims C) (hn : ∀ d, if per d then 1 ≤ ctrl.dims d else o + 1 ≤ ctrl.dims d)
    (hl : ∀ d, (knots d).length = ctrl.dims d + if per d then 2 * o + 1 else o + 1)
    (hm : ∀ d i, i + 1 < (knots d).length → (knots d).getD i 0 ≤ (knots d).getD (i + 1) 0)
    (h1 : ∀ d, (knots d).getD o 0 < (knots d).getD (o + 1) 0)
    (h2 : ∀ d, (knots d).getD ((knots d).length - o - 2) 0 < (knots d).getD ((knots d).length - o - 1) 0) :
    ∃ b : BSpline D K V, ofParts c o per ctrl knots = .ok b ∧ ∀ s : Fin D → ℕ, ∃ P : Fin D → ℕ → Polynomial K, (∀ d J, (P d J).natDegree ≤ o) ∧
      ∀ x w : Fin D → K, b.At x w s →
        b.evalAt x = .ok (∑ J ∈ Fintype.piFinset (fun d => Finset.range (ctrl.dims d)), (∏ d, (P d (J d)).eval (w d)) • C J) ∧
        ∀ m : Fin D → ℕ, (b.derivativeAt' cfg fun d => (x d, m d)) =
          .ok (∑ J ∈ Fintype.piFinset (fun d => Finset.range (ctrl.dims d)), (∏ d, (Polynomial.derivative^[m d] (P d (J d))).eval (w d)) • C J) := by
  obtain ⟨b, e, hb, hwf, -⟩ := direct_wf c hctrl hn hl hm h1 h2
  have hc : b.ctrl = ctrl := by rw [hb]
  have ho : b.order = o := by rw [hb]
  refine ⟨b, e, fun s => ?_⟩
  obtain ⟨P, hP, h⟩ := derivative_at_is_derivative hwf (C := C) (by rw [hc]; exact hctrl) cfg s
  rw [hc] at h
  refine ⟨P, fun d J => ho ▸ hP d J, fun x w hat => ?_⟩
  exact h x w (fun _ => b.order) hat fun d => hwf.validHint le_rfl (hwf.last_ge d) _

/-- **C58, round trip.**  The knots and control points of an interpolation function, given to the constructor, are a spline with the same
values if no dimension is periodic or the order is odd. -/
theorem direct_roundtrip (c : Cfg) {o : ℕ} {per : Fin (D + 1) → Bool} {fm : Mesh (D + 1) V} {x : Fin (D + 1) → XRange K} {g : InterpFn (D + 1) K V}
    (hm : fm.WF) (hv : ValidAxes c o per fm.dims x) (hg : InterpFn.construct c o per fm x = .ok g) (ho : ∀ d, per d = true → o % 2 = 1) :
    ∃ b, ofParts c o per g.spline.ctrl g.spline.knots = .ok b ∧ ∀ y, b.eval y = g.spline.eval y := by
  obtain ⟨F, hF⟩ := fm.exists_holds hm
  obtain ⟨-, C, hC, -⟩ := (InterpFn.construct_spec (c := c) hv rfl hF).get hg
  obtain ⟨ic, hb⟩ := hC.built
  have hlen : ∀ d, (g.spline.knots d).length = g.spline.ctrl.dims d + if per d then 2 * o + 1 else o + 1 := fun d => by
    rw [(hb.dim d).knots, (hv d).knots_length, hC.ctrl.1]
    cases hp : per d with
    | false => simp [hp]; omega
    | true => have := ho d hp; simp [hp]; omega
  have hlo : ∀ d, o + 1 ≤ (g.spline.knots d).length := fun d => by
    rw [hlen]; split <;> omega
  obtain ⟨b, e⟩ := (direct_check (V := V) c (per := per) (ctrl := g.spline.ctrl) hlo).2 fun _ => hlen
  obtain ⟨rfl, -⟩ := (ofParts_spec (V := V) c hlo).get e
  refine ⟨_, e, fun y => ?_⟩
  have hr : ∀ d, per d = true → g.spline.range d = (knotFn (g.spline.knots d) o, knotFn (g.spline.knots d) ((g.spline.knots d).length - (o + 1))) := by
    intro d hp
    rw [(hb.dim d).range, (hb.dim d).knots, ho d hp]
    congr 2
  have h1 := hb.order
  have h2 := hb.pers
  generalize g.spline = s at *
  obtain ⟨so, sp, sk, sc, sr⟩ := s
  obtain rfl : so = o := h1
  obtain rfl : sp = per := h2
  have hk : ∀ d z hint, getKnotIter' ⟨so, sp, sk, sc, fun d => (knotFn (sk d) so, knotFn (sk d) ((sk d).length - (so + 1)))⟩ d z hint =
      getKnotIter' (⟨so, sp, sk, sc, sr⟩ : BSpline (D + 1) K V) d z hint := by
    intro d z hint
    unfold getKnotIter' getKnotIter
    simp only
    by_cases hp : sp d = true
    · rw [← hr d hp]
    · simp only [hp, Bool.false_eq_true, if_false]
  unfold BSpline.eval
  simp only [hk]
  rfl

/-- **C58, round trip.**  For even orders and a periodic dimension they are rejected. -/
theorem direct_roundtrip_even (c : Cfg) (hc : c.assertions = true) {o : ℕ} {per : Fin (D + 1) → Bool} {fm : Mesh (D + 1) V}
    {x : Fin (D + 1) → XRange K} {g : InterpFn (D + 1) K V} (hm : fm.WF) (hv : ValidAxes c o per fm.dims x)
    (hg : InterpFn.construct c o per fm x = .ok g) (ho : o % 2 = 0) (hp : ∃ d, per d = true) :
    ofParts c o per g.spline.ctrl g.spline.knots = .error .assertFail := by
  obtain ⟨F, hF⟩ := fm.exists_holds hm
  obtain ⟨-, C, hC, -⟩ := (InterpFn.construct_spec (c := c) hv rfl hF).get hg
  obtain ⟨ic, hb⟩ := hC.built
  have hlo : ∀ d, o + 1 ≤ (g.spline.knots d).length := fun d => by
    rw [(hb.dim d).knots, (hv d).knots_length]; split <;> omega
  have hs := ofParts_spec (V := V) c (per := per) (ctrl := g.spline.ctrl) hlo
  generalize ofParts c o per g.spline.ctrl g.spline.knots = m at hs
  cases m with
  | error e => rw [hs.1]
  | ok b =>
    obtain ⟨d, hp⟩ := hp
    have := hs.2 hc d
    rw [(hb.dim d).knots, (hv d).knots_length, hC.ctrl.1, hp, ho] at this
    simp [hp] at this
    omega

/-- The hypotheses of `direct_value` hold for the periodic spline of order 2 with three control points and knots 0, …, 7. -/
example := direct_value (K := ℚ) (V := ℚ) ⟨true, false⟩ (o := 2) (per := fun _ => true) (ctrl := Mesh.ofList [(1 : ℚ), 0, 5])
  (knots := fun _ => [0, 1, 2, 3, 4, 5, 6, 7]) (Mesh.exists_holds _ (by unfold Mesh.WF; decide)).choose_spec (fun _ => by simp [Mesh.ofList])
  (fun _ => by simp [Mesh.ofList]) (fun _ i hi => by
    have hi' : i < 7 := by simp at hi; omega
    interval_cases i <;> norm_num) (fun _ => by norm_num) (fun _ => by norm_num) (fun _ => 10) (fun _ h => by cases h)

example : (do
    let b ← ofParts (K := ℚ) ⟨true, false⟩ 2 (fun _ => true) (Mesh.ofList [(1 : ℚ), 0, 5]) (fun _ => [0, 1, 2, 3, 4, 5, 6, 7])
    b.evalAt fun _ => 10) = .ok 3 := by decide +kernel

/-- The derivative of this spline at 10, which wraps to the knot 4, where the control points 5 and 1 have weights changing at rates -1 and 1. -/
example : (do
    let b ← ofParts (K := ℚ) ⟨true, false⟩ 2 (fun _ => true) (Mesh.ofList [(1 : ℚ), 0, 5]) (fun _ => [0, 1, 2, 3, 4, 5, 6, 7])
    b.derivativeAt' ⟨true, false⟩ fun _ => (10, 1)) = .ok (-4) := by decide +kernel

end Intp
