import Verif.Proofs.NearFns
import Verif.Proofs.DerivApprox
import Verif.Props.RoundPerNear
import Verif.Props.RoundDeriv
import Verif.Props.RoundTrue
import Verif.Props.DerivRate

/-!
# C106: derivatives computed in `double`, compared with exact arithmetic and with the derivatives of the function that was sampled

Orders of derivatives are below the order of the splines: derivatives of that order jump at knots, and the computed knots are not the exact ones.
-/

namespace Intp

open Finset BSpline

/-- A derivative computed in `double` is near that of the spline with the computed knots and control points. -/
theorem derivative_near {D : ℕ} (cfg : Cfg) {g : InterpFn (D + 1) F64 F64} {C : ℚ} (hb : DoubleSpline g.spline C) {Cf : (Fin (D + 1) → ℕ) → ℚ}
    (hCh : g.spline.rat.ctrl.Holds g.spline.rat.ctrl.dims Cf) (m : Fin (D + 1) → ℕ) {Γ : Fin (D + 1) → ℚ} (hΓ : g.spline.rat.Steep Γ) {k : ℕ}
    (hk : k = (D + 1) * (5 * g.spline.order + 1) + 1 + (g.spline.order + 1) ^ (D + 1) + 4 * ∑ d, m d) (hk50 : k ≤ 2 ^ 50) {P : ℚ} (hP : P = ∏ d, Γ d ^ m d)
    (hP1 : P ≤ 2 ^ 1000) (hPC : P * C ≤ 2 ^ 1000)
    {x : Fin (D + 1) → F64} {w : Fin (D + 1) → ℚ} (hp : DoublePt g.spline x w) (hhint : ∀ d, ∃ h, Fl.hint g d (x d) = .ok h) :
    ∃ v, Fl.derivative cfg g x m = .ok (.fin v) ∧
      |v - tensorVal g.spline.rat.ctrl.dims (fun d => g.spline.rat.wAt d (m d) (w d)) Cf| ≤ P * (3 * k / 2 ^ 53 * C + 1 / 2 ^ 101) := by
  choose h hh using hhint
  have hhb : ∀ d, g.spline.order ≤ h d ∧ h d ≤ g.spline.rat.last d := fun d => hb.hint_le (hh d)
  obtain ⟨y, v, e1, e2, e3⟩ := double_derivative cfg hb hp hhb m hΓ (k := k) hk hk50 hP hP1 hPC
  refine ⟨v, ?_, ?_⟩
  · unfold Fl.derivative
    rw [tabM_ok (g := h) hh, ok_bind]
    exact e2
  rw [hb.wf.derivativeAt_val cfg (fun d => hb.wf.validHint (hhb d).1 (hhb d).2 _) hCh] at e1
  have hy : y = tensorVal g.spline.rat.ctrl.dims (fun d => g.spline.rat.wAt d (m d) (w d)) Cf := (Except.ok.inj e1).symm
  rw [← hy]
  have hP0 : 0 ≤ P := by
    rw [hP]
    exact prod_nonneg fun d _ => pow_nonneg (zero_le_one.trans (hΓ.one d)) _
  refine e3.trans (mul_le_mul_of_nonneg_left (add_le_add le_rfl ?_) hP0)
  have h1 : (2 : ℚ) ^ 50 / 2 ^ 1074 ≤ 1 / 2 ^ 101 := by decide +kernel
  exact (div_le_div_of_nonneg_right (by exact_mod_cast hk50) (pow_nonneg zero_le_two _)).trans h1

theorem half_of {a : ℚ} (h : a ≤ 2 ^ 43) : 512 * a / 2 ^ 53 ≤ 1 / 2 := by
  rw [div_le_div_iff₀ (by norm_num) (by norm_num)]
  norm_num at h ⊢
  linarith

theorem third_of {o Γ : ℚ} (ho : 0 < o) (hΓ : 0 < Γ) : 0 < 6 * o / Γ ∧ 2 * o / (6 * o / Γ) = Γ / 3 := by
  refine ⟨by positivity, ?_⟩
  field_simp
  norm_num

/-- **C106.**  Hypotheses as in C102.  `Γ d` is at least 1 and neighbouring data points of dimension `d` are at least `6 o / Γ d` apart; `P` is the product of the
`Γ d ^ m d`.  The derivative computed in `double` differs from the derivative of the interpolation in exact arithmetic by at most `P` times a bound like that of C102. -/
theorem double_derivative_near {D : ℕ} (w : Bool) (c cfg cfg' : Cfg) {o : ℕ} (ho : 1 ≤ o ∧ o ≤ 50) {per : Fin (D + 1) → Bool} {fm : Mesh (D + 1) F64} (hfm : fm.WF)
    {x : Fin (D + 1) → XRange F64} {K : ℕ} {Q : Fin (D + 1) → ℚ → Prop} {ρ : ℚ} (hx : ∀ d, NearDim c o (fm.dims d) K (per d) (x d) (Q d) ρ)
    {t : Template (D + 1) F64 F64} (ht : Fl.constructT w c o per fm.dims x = .ok t)
    {g : InterpFn (D + 1) F64 F64} (hg : Fl.construct w c o per fm x = .ok g)
    {C : ℚ} (hC : ∀ v ∈ g.spline.ctrl.storage, ∃ q, v = .fin q ∧ IsDouble q ∧ |q| ≤ C) (hC1 : 0 ≤ C ∧ C ≤ 2 ^ 1000)
    {G : ℚ} (hG : ∀ d, FactorsOf c o (per d) (t.solvers d) (unk (per d) (pointNum c (per d) (fm.dims d))) G)
    {L : ℕ} (hL : ∀ d, (if per d then fm.dims d else o) ≤ L) {E : ℚ} (hE : E = (D + 1) * (L * (4 * G + 1) + o * (7 + 256 * ρ))) (hE1 : E ≤ 2 ^ 50)
    (hE0 : 0 ≤ E) (hKρ : (K + 1) * (o * ρ) ≤ 2 ^ 43) {m : Fin (D + 1) → ℕ} (hm : ∀ d, m d < o)
    {k : ℕ} (hk : k = (D + 1) * (5 * o + 1) + 1 + (o + 1) ^ (D + 1) + 4 * ∑ d, m d) (hk1 : k ≤ 2 ^ 50)
    {μ : ℚ} (hμ0 : 0 ≤ μ) (hμ : ∀ d, ∀ (z : ℕ → ℚ) (M : ℚ), (∀ i, i < unk (per d) (pointNum c (per d) (fm.dims d)) →
        |∑ j ∈ range (unk (per d) (pointNum c (per d) (fm.dims d))), (x d).rat.mat o (pointNum c (per d) (fm.dims d)) (per d) i j * z j| ≤ M) →
      ∀ i, i < unk (per d) (pointNum c (per d) (fm.dims d)) → |z i| ≤ μ * M)
    {Γ : Fin (D + 1) → ℚ} (hΓ1 : ∀ d, 1 ≤ Γ d) (hΓ : ∀ d, (x d).rat.MinGap (pointNum c (per d) (fm.dims d)) (6 * o / Γ d))
    {P : ℚ} (hP : P = ∏ d, Γ d ^ m d) (hP1 : P ≤ 2 ^ 1000) (hPC : P * C ≤ 2 ^ 1000) :
    ∃ gx, InterpFn.construct c o per fm.rat (fun d => (x d).rat) = .ok gx ∧
      ∀ y : Fin (D + 1) → ℚ, (∀ d, Q d (y d)) →
        ∃ v q, Fl.derivative cfg g (fun d => .fin (y d)) m = .ok (.fin v) ∧ gx.derivative cfg' y m = .ok q ∧
          |v - q| ≤ P * ((3 * k + 512 * ((D + 1) * ((K + 1) * (o * ρ))) + μ ^ (D + 1) * (2 * E)) / 2 ^ 53 * C + (1 + μ ^ (D + 1)) / 2 ^ 101) := by
  obtain ⟨gx, T, Cf, Cx, F, hgx, h⟩ := nearFns_of w c ho hfm hx ht hg hC hC1 hG hL hE hE1 rfl (k := (D + 1) * (5 * o + 1) + 1 + (o + 1) ^ (D + 1)) (by omega)
  refine ⟨gx, hgx, fun y hy => ?_⟩
  obtain ⟨u, hu⟩ := h.pt hy
  have hsteep : g.spline.rat.Steep Γ := by
    refine ⟨hΓ1, fun d i j h1 h2 h3 h4 h5 => ?_⟩
    obtain ⟨ε', hX⟩ := h.near d
    rw [h.kn] at h5 ⊢
    exact hX.steep (Γ d) (hΓ1 d) (hΓ d) i j h1 h2 (by rw [← h.order]; exact h3) (by rw [← h.len]; exact h4) h5
  obtain ⟨v, hv1, hv2⟩ := derivative_near cfg h.spline h.holds m hsteep (k := k) (by rw [hk, h.order]) hk1 hP hP1 hPC hu.pt hu.hint
  refine ⟨v, _, hv1, h.done.derivative h.valid y m, ?_⟩
  have hn : nOf c per fm.dims = t.dims := by funext d; exact (h.sizes d).symm
  have hval := h.done.val_eq m y
  rw [hn] at hval
  have hρ := (hx 0).nonneg
  obtain ⟨θ, hθ⟩ : ∃ θ : ℚ, θ = 512 * ((K + 1) * (o * ρ)) / 2 ^ 53 := ⟨_, rfl⟩
  have hθ1 : θ ≤ 1 / 2 := hθ ▸ half_of hKρ
  have ho0 : (0 : ℚ) < o := by exact_mod_cast ho.1
  have hv : ∀ d, ∑ J ∈ range (t.dims d), |(x d).rat.wt o (pointNum c (per d) (fm.dims d)) (per d) (m d) (y d) J| ≤ (Γ d / 3) ^ m d := fun d => by
    have hΓ0 : 0 < Γ d := zero_lt_one.trans_le (hΓ1 d)
    rw [h.sizes]
    refine ((h.valid d).wt_deriv ho.1 (γ := 6 * o / Γ d) (third_of ho0 hΓ0).1 (hΓ d) (hu.dom d) (m d)).trans (le_of_eq ?_)
    rw [(third_of ho0 hΓ0).2]
  have hD := fun d => hu.nearD d (Γ d) (m d) (hΓ1 d) (hΓ d) (hm d)
  rw [← hθ] at hD
  have hu' : ∀ d, ∑ J ∈ range (t.dims d), |g.spline.rat.wAt d (m d) (u d) J| ≤ Γ d ^ m d := fun d => by
    have hΓ0 : 0 < Γ d := zero_lt_one.trans_le (hΓ1 d)
    by_cases hm0 : m d = 0
    · rw [hm0, pow_zero, ← (hu.unity d).2]
      exact le_of_eq (sum_congr rfl fun J _ => abs_of_nonneg ((hu.unity d).1 J))
    · have h1 : ∑ J ∈ range (t.dims d), |g.spline.rat.wAt d (m d) (u d) J| ≤
          ∑ J ∈ range (t.dims d), |g.spline.rat.wAt d (m d) (u d) J - (x d).rat.wt o (pointNum c (per d) (fm.dims d)) (per d) (m d) (y d) J| +
          ∑ J ∈ range (t.dims d), |(x d).rat.wt o (pointNum c (per d) (fm.dims d)) (per d) (m d) (y d) J| := by
        rw [← sum_add_distrib]
        refine sum_le_sum fun J _ => ?_
        have := abs_add_le (g.spline.rat.wAt d (m d) (u d) J - (x d).rat.wt o (pointNum c (per d) (fm.dims d)) (per d) (m d) (y d) J)
          ((x d).rat.wt o (pointNum c (per d) (fm.dims d)) (per d) (m d) (y d) J)
        rwa [sub_add_cancel] at this
      have h2 : (Γ d / 3) ^ m d ≤ Γ d ^ m d * (1 / 3) := by
        rw [div_pow, div_eq_mul_one_div]
        refine mul_le_mul_of_nonneg_left (one_div_le_one_div_of_le (by norm_num) ?_) (pow_nonneg hΓ0.le _)
        exact le_self_pow₀ (by norm_num) hm0
      have h3 : Γ d ^ m d * θ ≤ Γ d ^ m d * (1 / 2) := mul_le_mul_of_nonneg_left hθ1 (pow_nonneg hΓ0.le _)
      have h4 := pow_nonneg hΓ0.le (m d)
      have h5 := h1.trans (add_le_add (hD d) (hv d))
      clear hC hC1 hP1 hPC
      linarith
  have hnear := tensor_nearD (dims := t.dims) (u := fun d => g.spline.rat.wAt d (m d) (u d)) (v := fun d => (x d).rat.wt o (pointNum c (per d) (fm.dims d)) (per d) (m d) (y d))
    (Λ := fun d => Γ d ^ m d) (θ := θ) h.bound hC1.1 hu' (fun d => (hv d).trans (by
      have hΓ0 : 0 < Γ d := zero_lt_one.trans_le (hΓ1 d)
      exact pow_le_pow_left₀ (div_nonneg hΓ0.le zero_le_three) (div_le_self hΓ0.le (by norm_num)) _)) hD
    (mul_nonneg (pow_nonneg hμ0 _) (add_nonneg (mul_nonneg (mul_nonneg zero_le_two (div_nonneg hE0 (pow_nonneg zero_le_two _))) hC1.1)
      (one_div_nonneg.2 (pow_nonneg zero_le_two _)))) (h.inv hμ) h.residual h.exact
  rw [← hP, hθ] at hnear
  rw [h.ctrl_dims] at hv2
  rw [hval]
  have tri := abs_add_le (v - tensorVal t.dims (fun d => g.spline.rat.wAt d (m d) (u d)) Cf)
    (tensorVal t.dims (fun d => g.spline.rat.wAt d (m d) (u d)) Cf - tensorVal t.dims (fun d => (x d).rat.wt o (pointNum c (per d) (fm.dims d)) (per d) (m d) (y d)) Cx)
  rw [sub_add_sub_cancel] at tri
  refine tri.trans ((add_le_add hv2 hnear).trans (le_of_eq ?_))
  push_cast
  ring

/-- **C106** for low orders, as in C90: nothing is assumed about factors, control points or condition numbers.  `ν` is 20 up to order 3 and 100 for orders 4 to 6. -/
theorem double_derivative_near_low {D : ℕ} (w : Bool) (c cfg cfg' : Cfg) {o : ℕ} (ho : 1 ≤ o) {per : Fin (D + 1) → Bool} {fm : Mesh (D + 1) F64} (hfm : fm.WF)
    {x : Fin (D + 1) → XRange F64} {K : ℕ} {Q : Fin (D + 1) → ℚ → Prop} {ρ : ℚ} (hx : ∀ d, NearDim c o (fm.dims d) K (per d) (x d) (Q d) ρ)
    (hlow : ∀ d, LowDim o (per d) (x d)) {ν : ℚ} (hν : ν = if o ≤ 3 then 20 else 100)
    {F : ℚ} (hF : ∀ v ∈ fm.storage, ∃ q, v = .fin q ∧ |q| ≤ F) (hF0 : 1 / 2 ^ 800 ≤ F) (hF1 : ν ^ (D + 1) * F ≤ 2 ^ 900)
    {L : ℕ} (hL : ∀ d, (if per d then fm.dims d else o) ≤ L) {E : ℚ} (hE : E = (D + 1) * (L * (12 * ν + 9) + o * (7 + 256 * ρ))) (hE1 : E ≤ 2 ^ 43)
    (hKρ : (K + 1) * (o * ρ) ≤ 2 ^ 43) {m : Fin (D + 1) → ℕ} (hm : ∀ d, m d < o)
    {k : ℕ} (hk : k = (D + 1) * (5 * o + 1) + 1 + (o + 1) ^ (D + 1) + 4 * ∑ d, m d) (hk1 : k ≤ 2 ^ 50)
    {Γ : Fin (D + 1) → ℚ} (hΓ1 : ∀ d, 1 ≤ Γ d) (hΓ : ∀ d, (x d).rat.MinGap (pointNum c (per d) (fm.dims d)) (6 * o / Γ d))
    {P : ℚ} (hP : P = ∏ d, Γ d ^ m d) (hP1 : P ≤ 2 ^ 1000) (hPC : P * (ν ^ (D + 1) * F) ≤ 2 ^ 1000) :
    ∃ g gx, Fl.construct w c o per fm x = .ok g ∧ InterpFn.construct c o per fm.rat (fun d => (x d).rat) = .ok gx ∧
      ∀ y : Fin (D + 1) → ℚ, (∀ d, Q d (y d)) →
        ∃ v q, Fl.derivative cfg g (fun d => .fin (y d)) m = .ok (.fin v) ∧ gx.derivative cfg' y m = .ok q ∧
          |v - q| ≤ P * ((3 * k + 512 * ((D + 1) * ((K + 1) * (o * ρ))) + stab o ^ (D + 1) * (2 * E)) / 2 ^ 53 * (ν ^ (D + 1) * F) + (1 + stab o ^ (D + 1)) / 2 ^ 101) := by
  have ho50 : 1 ≤ o ∧ o ≤ 50 := by
    have := hlow 0
    unfold LowDim at this
    split at this <;> omega
  choose P' r hgood hr using fun d => (hx d).good
  obtain ⟨t, g, ht, hg, hG, -, hC⟩ := double_low_bounded w c ho hfm hgood hlow hr hν hF hF0 hF1 hL hE hE1
  have hF' : 0 ≤ F := (one_div_nonneg.2 (pow_nonneg zero_le_two _)).trans hF0
  have hν1 : 20 ≤ ν := by rw [hν]; split <;> norm_num
  have hν0 : 0 ≤ 12 * ν + 9 := by linarith
  have hE0 : 0 ≤ E := by
    rw [hE]
    exact mul_nonneg (add_nonneg (Nat.cast_nonneg _) zero_le_one) (add_nonneg (mul_nonneg (Nat.cast_nonneg _) hν0)
      (mul_nonneg (Nat.cast_nonneg _) (add_nonneg (by norm_num) (mul_nonneg (by norm_num) (hx 0).nonneg))))
  obtain ⟨gx, hgx, h⟩ := double_derivative_near w c cfg cfg' ho50 hfm hx ht hg hC ⟨mul_nonneg (pow_nonneg (by linarith) _) hF', hF1.trans (by decide +kernel)⟩
    (G := 2 + 3 * ν) hG hL (by rw [hE]; ring) (hE1.trans (by norm_num)) hE0 hKρ hm hk hk1 (μ := stab o) (by unfold stab; split <;> [norm_num; split <;> norm_num]) (fun d => by
      have hval : (x d).rat.Valid o (pointNum c (per d) (fm.dims d)) (per d) := ((hx d).valid ho).1
      have := hval.lowInv ((hx d).low ho (hlow d))
      rw [Rat.cast_id] at this
      exact this) hΓ1 hΓ hP hP1 hPC
  exact ⟨g, gx, hg, hgx, h⟩

/-! ## Derivatives and errors of the data -/

/-- **C106, stability of derivatives.**  In exact arithmetic, for dimensions of low order whose neighbouring data points are at least `h d` apart, data that differ by at most
`ε` have interpolations whose derivatives of orders `m` differ by at most `ε` times the product of the `(2 o / h d) ^ m d · stab o`. -/
theorem derivative_stable {K : Type} [Field K] [LinearOrder K] [IsStrictOrderedRing K] [FloorRing K] {D : ℕ} (c cfg : Cfg) {o : ℕ} {per : Fin (D + 1) → Bool}
    {f₁ f₂ : Mesh (D + 1) K} {x : Fin (D + 1) → XRange K} (h₁ : f₁.WF) (h₂ : f₂.WF) (hd : f₂.dims = f₁.dims) (hv : ValidAxes c o per f₁.dims x) (ho : 1 ≤ o)
    (hl : ∀ d, (x d).Low o (per d)) {h : Fin (D + 1) → K} (h0 : ∀ d, 0 < h d) (hh : ∀ d, (x d).MinGap (pointNum c (per d) (f₁.dims d)) (h d))
    {g₁ g₂ : InterpFn (D + 1) K K} (hg₁ : InterpFn.construct c o per f₁ x = .ok g₁) (hg₂ : InterpFn.construct c o per f₂ x = .ok g₂) {ε : K}
    (hε : ∀ I v₁ v₂, InRange f₁.dims I → f₁.get I = .ok v₁ → f₂.get I = .ok v₂ → |v₁ - v₂| ≤ ε) {y : Fin (D + 1) → K}
    (hy : ∀ d, y d ∈ (x d).dom (pointNum c (per d) (f₁.dims d)) (per d)) (m : Fin (D + 1) → ℕ) :
    ∃ v₁ v₂, g₁.derivative cfg y m = .ok v₁ ∧ g₂.derivative cfg y m = .ok v₂ ∧ |v₁ - v₂| ≤ (∏ d, (2 * (o : K) / h d) ^ m d * stab o) * ε := by
  obtain ⟨F₁, hF₁⟩ := f₁.exists_holds h₁
  obtain ⟨-, C₁, hC₁, hE₁⟩ := (InterpFn.construct_spec (c := c) hv rfl hF₁).get hg₁
  obtain ⟨F₂, hF₂⟩ := f₂.exists_holds h₂
  rw [hd] at hF₂
  obtain ⟨-, C₂, hC₂, hE₂⟩ := (InterpFn.construct_spec (c := c) hv hd hF₂).get hg₂
  refine ⟨_, _, hC₁.derivative hv y m, hC₂.derivative hv y m, ?_⟩
  rw [hC₁.val_eq, hC₂.val_eq, tensorVal_sub]
  have hμ : ∀ d, RowsInv (nOf c per f₁.dims d) ((x d).mat o (pointNum c (per d) (f₁.dims d)) (per d)) (stab o : K) := fun d => (hv d).lowInv (hl d)
  have hs0 : (0 : K) ≤ stab o := by
    unfold stab
    split
    · simp
    · split <;> simp
  have hdata : ∀ I, InRange (nOf c per f₁.dims) I → |F₁ I - F₂ I| ≤ ε := fun I hI => by
    have hin : InRange f₁.dims I := fun d => by
      have h1 := hI d
      have := hv.dims_eq d
      unfold nOf at *
      omega
    exact hε I _ _ hin (hF₁.get hin) (hF₂.get hin)
  choose B hB1 hB2 _ using fun d => (hμ d).inverse
  rw [(hE₁.sub hE₂).cardinal_eq hB1 m y]
  have hA : 0 ≤ ε := (abs_nonneg _).trans (hdata (fun _ => 0) fun d => (hv d).unk_pos)
  refine (tensor_abs fun r hr => hdata _ fun d => (row_nodeOfRow (hr d)).1).trans (mul_le_mul_of_nonneg_right ?_ hA)
  exact prod_le_prod (fun d _ => sum_nonneg fun _ _ => abs_nonneg _) fun d _ => cardinal_lebesgueD (hB2 d) (hμ d) ((hv d).wt_deriv ho (h0 d) (hh d) (hy d) (m d)) hs0

/-- **C106, distance from the derivatives of the function that was sampled.**  `f` is a real function of several variables, periodic in the periodic dimensions, smooth
as in C105.  The data are doubles within `η` of its values at the data points.  Then the constructor succeeds in `double`, and at every point the computed derivative of
orders `m` differs from that of `f` by at most the approximation error of C105, the errors of the data magnified by the derivative, and `R`, the bound of the rounding errors. -/
theorem double_derivative_accuracy {D : ℕ} (w : Bool) (c cfg : Cfg) {o : ℕ} (ho : 1 ≤ o) {per : Fin (D + 1) → Bool} {fm : Mesh (D + 1) F64} (hfm : fm.WF)
    {x : Fin (D + 1) → XRange F64} {K : ℕ} {Q : Fin (D + 1) → ℚ → Prop} {ρ : ℚ} (hx : ∀ d, NearDim c o (fm.dims d) K (per d) (x d) (Q d) ρ)
    (hlow : ∀ d, LowDim o (per d) (x d)) {ν : ℚ} (hν : ν = if o ≤ 3 then 20 else 100)
    {F : ℚ} (hF : ∀ v ∈ fm.storage, ∃ q, v = .fin q ∧ |q| ≤ F) (hF0 : 1 / 2 ^ 800 ≤ F) (hF1 : ν ^ (D + 1) * F ≤ 2 ^ 900)
    {L : ℕ} (hL : ∀ d, (if per d then fm.dims d else o) ≤ L) {E : ℚ} (hE : E = (D + 1) * (L * (12 * ν + 9) + o * (7 + 256 * ρ))) (hE1 : E ≤ 2 ^ 43)
    (hKρ : (K + 1) * (o * ρ) ≤ 2 ^ 43) {m : Fin (D + 1) → ℕ} (hm : ∀ d, m d < o)
    {k : ℕ} (hk : k = (D + 1) * (5 * o + 1) + 1 + (o + 1) ^ (D + 1) + 4 * ∑ d, m d) (hk1 : k ≤ 2 ^ 50)
    {Γ : Fin (D + 1) → ℚ} (hΓ1 : ∀ d, 1 ≤ Γ d) (hΓ : ∀ d, (x d).rat.MinGap (pointNum c (per d) (fm.dims d)) (6 * o / Γ d))
    {P : ℚ} (hP : P = ∏ d, Γ d ^ m d) (hP1 : P ≤ 2 ^ 1000) (hPC : P * (ν ^ (D + 1) * F) ≤ 2 ^ 1000)
    {R : ℚ} (hR : R = P * ((3 * k + 512 * ((D + 1) * ((K + 1) * (o * ρ))) + stab o ^ (D + 1) * (2 * E)) / 2 ^ 53 * (ν ^ (D + 1) * F) + (1 + stab o ^ (D + 1)) / 2 ^ 101))
    {H M : Fin (D + 1) → ℝ} (hH : ∀ d, (x d).real.Gap (pointNum c (per d) (fm.dims d)) (H d)) {S : Fin (D + 1) → Set ℝ}
    (hS : ∀ d, S d = (x d).real.dom (pointNum c (per d) (fm.dims d)) (per d)) {f : (Fin (D + 1) → ℝ) → ℝ}
    (hs : ∀ d z, (∀ e, z e ∈ S e) → ContDiffOn ℝ (o + 1 : ℕ) (fun t => mixedDeriv S (after m d) f (Function.update z d t)) (S d) ∧
      ∀ t ∈ S d, |iteratedDerivWithin (o + 1) (fun t => mixedDeriv S (after m d) f (Function.update z d t)) (S d) t| ≤ M d)
    (hp : ∀ d z t, per d = true → f (Function.update z d (t + ((x d).real.node (pointNum c (per d) (fm.dims d)) (pointNum c (per d) (fm.dims d) - 1) -
      (x d).real.node (pointNum c (per d) (fm.dims d)) 0))) = f (Function.update z d t))
    {η : ℝ} (hη : ∀ I, InRange fm.dims I → ∃ q : ℚ, fm.get I = .ok (.fin q) ∧ |(q : ℝ) - f (nodeAt c per fm.dims (fun d => (x d).real) I)| ≤ η) :
    ∃ g, Fl.construct w c o per fm x = .ok g ∧
      ∀ y : Fin (D + 1) → ℚ, (∀ d, Q d (y d)) →
        ∃ v : ℚ, Fl.derivative cfg g (fun d => .fin (y d)) m = .ok (.fin v) ∧
          |(v : ℝ) - mixedDeriv S m f (fun d => y d)| ≤
            ∑ d : Fin (D + 1), (∏ e ∈ univ.filter (· < d), ((Γ e : ℝ) / 3) ^ m e * stab o) *
              (((Γ d : ℝ) / 3) ^ m d * ((1 + stab o) * (M d / (o + 1).factorial * ((2 * (o : ℝ) - 1) * H d) ^ (o + 1)))) +
            (∏ d, ((Γ d : ℝ) / 3) ^ m d * stab o) * η + R := by
  obtain ⟨g, gx, hg, hgx, h⟩ := double_derivative_near_low w c cfg c ho hfm hx hlow hν hF hF0 hF1 hL hE hE1 hKρ hm hk hk1 hΓ1 hΓ hP hP1 hPC
  refine ⟨g, hg, fun y hy => ?_⟩
  obtain ⟨v, q, h1, h2, h3⟩ := h y hy
  refine ⟨v, h1, ?_⟩
  rw [← hR] at h3
  clear hF0 hF1 hF hR hP1 hPC
  have hφ : StrictMono (Rat.castHom ℝ) := fun a b hab => by simpa using hab
  obtain ⟨e1, e2⟩ := exact_field hφ ratReal c o per fm.rat (fun d => (x d).rat)
  rw [hgx] at e1
  have e3 := (e2 gx y m).2.2.1
  rw [h2] at e3
  have hv : ValidAxes c o per fm.dims fun d => (x d).real := fun d => ((hx d).valid ho).1.mapK hφ
  have hl : ∀ d, ((x d).real).Low o (per d) := fun d => ((hx d).low ho (hlow d)).mapK _
  have hyd : ∀ d, ((y d : ℚ) : ℝ) ∈ (x d).real.dom (pointNum c (per d) (fm.dims d)) (per d) := fun d hpd => by
    obtain ⟨h4, h5⟩ := (((hx d).valid ho).2 _ (hy d)).2 hpd
    unfold XRange.real
    rw [XRange.node_mapK, XRange.node_mapK]
    exact ⟨hφ.monotone h4, hφ.monotone h5⟩
  have ho0 : (0 : ℝ) < o := by exact_mod_cast ho
  have hΓ0 : ∀ d, (0 : ℝ) < Γ d := fun d => by exact_mod_cast zero_lt_one.trans_le (hΓ1 d)
  have hh0 : ∀ d, 0 < 6 * (o : ℝ) / Γ d := fun d => div_pos (by linarith) (hΓ0 d)
  have hh : ∀ d, (x d).real.MinGap (pointNum c (per d) (fm.dims d)) (6 * (o : ℝ) / Γ d) := fun d i hi => by
    have h4 := hΓ d i hi
    unfold XRange.real
    rw [XRange.node_mapK, XRange.node_mapK]
    have h5 : ((6 * (o : ℚ) / Γ d : ℚ) : ℝ) ≤ (((x d).rat.node (pointNum c (per d) (fm.dims d)) (i + 1) - (x d).rat.node (pointNum c (per d) (fm.dims d)) i : ℚ) : ℝ) := by
      exact_mod_cast h4
    push_cast at h5
    exact h5
  have hq : ∀ d, 2 * (o : ℝ) / (6 * (o : ℝ) / Γ d) = Γ d / 3 := fun d => by
    have := (hΓ0 d).ne'
    field_simp
    norm_num
  -- the samples themselves
  obtain ⟨fs, hfs⟩ := Mesh.exists_of_fun fm.dims fun I => f (nodeAt c per fm.dims (fun d => (x d).real) I)
  have hd : fs.dims = fm.dims := hfs.1
  obtain ⟨gs, hgs, hconv⟩ := derivative_converges c c (o := o) (per := per) (fm := fs) (x := fun d => (x d).real) hfs.2.1 (by rw [hd]; exact hv) hl
    (H := H) (M := M) (h := fun d => 6 * (o : ℝ) / Γ d) (by rw [hd]; exact hH) hh0 (by rw [hd]; exact hh) (S := S) (by rw [hd]; exact hS) (fun d => (hm d).le)
    (f := f) hs (by rw [hd]; exact hp) (by rw [hd]; exact fun I hI => hfs.get hI)
  obtain ⟨s, h4, h5⟩ := hconv (fun d => ((y d : ℚ) : ℝ)) (fun d => by rw [hS]; exact hyd d)
  have hwf : (fm.rat.mapV ratReal).WF := by
    unfold Mesh.WF Mesh.mapV Mesh.rat
    rw [List.length_map, List.length_map]
    exact hfm
  obtain ⟨v₁, v₂, h6, h7, h8⟩ := derivative_stable c c (o := o) (per := per) (f₁ := fm.rat.mapV ratReal) (f₂ := fs) (x := fun d => (x d).real) hwf hfs.2.1 hd hv ho hl
    hh0 hh (g₁ := gx.mapKV (Rat.castHom ℝ) ratReal) (g₂ := gs) e1 hgs (ε := η) (fun I v₁ v₂ hI h9 h10 => by
      obtain ⟨r, h11, h12⟩ := hη I hI
      have h13 := hfs.get hI
      rw [h10] at h13
      injection h13 with h13
      have h14 : (fm.rat.mapV ratReal).get I = .ok (r : ℝ) := by
        unfold Mesh.get rd at h11 ⊢
        simp only [Mesh.mapV, Mesh.rat, List.getElem?_map]
        cases h15 : fm.storage[indexing fm.dims I]? with
        | none => rw [h15] at h11; simp at h11
        | some a =>
          rw [h15] at h11
          injection h11 with h11
          rw [h11]
          rfl
      rw [h9] at h14
      injection h14 with h14
      rw [h14, h13]
      exact h12) hyd m
  have h16 : v₁ = (q : ℝ) := by
    have : (gx.mapKV (Rat.castHom ℝ) ratReal).derivative c (fun d => ((y d : ℚ) : ℝ)) m = .ok (q : ℝ) := e3
    rw [h6] at this
    injection this
  have h17 : v₂ = s := by rw [h7] at h4; injection h4
  rw [h16, h17] at h8
  have h18 : |(v : ℝ) - q| ≤ R := by exact_mod_cast h3
  simp only [hq] at h5 h8
  rw [abs_le] at *
  constructor <;> linarith [h5.1, h5.2, h8.1, h8.2, h18.1, h18.2]

/-! ## A case: 1025 samples of `sin (2 π t)` over `[0, 1]` (the last repeats the first), rounded to 50 bits or better, periodic cubic interpolation: the computed
first derivatives are within `1 / 100` of `2 π cos (2 π t)` (of size 6) at every double within 10 periods, if it is not within `2^-40` of an integer.
`RoundTrueExample.exists_data` gives such data -/

namespace RoundDerivNearExample

open RoundPerSmallExample (cfg)
open RoundTrueExample (near real_node fourth)

example (w : Bool) (data : Mesh 1 F64) (hd : data.dims = fun _ => 1025) (hw : data.WF)
    (h1 : ∀ i < 1025, ∃ q : ℚ, data.get (fun _ => i) = .ok (.fin q) ∧ |(q : ℝ) - Real.sin (2 * Real.pi * (i / 1024))| ≤ 1 / 2 ^ 50) :
    ∃ g, Fl.construct w cfg 3 (fun _ => true) data (fun _ => .uniform (F64.fin 0) (.fin 1)) = .ok g ∧
      ∀ (k : ℤ) (a : ℚ), |k| ≤ 10 → IsDouble a → 1 / 2 ^ 40 ≤ a - k → a - k ≤ 1 - 1 / 2 ^ 40 →
        ∃ v : ℚ, Fl.derivative cfg g (fun _ => F64.fin a) (fun _ => 1) = .ok (.fin v) ∧ |(v : ℝ) - 2 * Real.pi * Real.cos (2 * Real.pi * a)| ≤ 1 / 100 := by
  have hN : ∀ d : Fin 1, pointNum cfg true (data.dims d) = 1025 := fun d => by rw [hd]; rfl
  have hup : ∀ (z : Fin 1 → ℝ) (d : Fin 1) t, Function.update z d t 0 = t := fun z d t => by rw [Subsingleton.elim d 0]; exact Function.update_self ..
  have hdom : (XRange.uniform (F64.fin 0) (.fin 1)).real.dom 1025 true = Set.univ := Set.eq_univ_of_forall fun z hz => by simp at hz
  have hst : ∀ v ∈ data.storage, ∃ q, v = .fin q ∧ |q| ≤ 2 := fun v hv => by
    obtain ⟨i, hi, rfl⟩ := List.getElem_of_mem hv
    have hi' : i < 1025 := by
      have := hw
      unfold Mesh.WF at this
      rw [hd] at this
      simp at this
      omega
    obtain ⟨q, h2, h3⟩ := h1 i hi'
    refine ⟨q, ?_, ?_⟩
    · have e : indexing data.dims (fun _ : Fin 1 => i) = i := by
        rw [indexing_succ, indexing_zero]
        simp
      rw [Mesh.get, e, rd, List.getElem?_eq_getElem hi] at h2
      injection h2
    · have h4 := Real.abs_sin_le_one (2 * Real.pi * (i / 1024))
      have h5 : |(q : ℝ)| ≤ 2 := by
        rw [abs_le] at *
        norm_num at h3
        constructor <;> linarith [h3.1, h3.2, h4.1, h4.2]
      exact_mod_cast h5
  have hmd : ∀ (m : ℕ) (y : Fin 1 → ℝ), mixedDeriv (fun _ => Set.univ) (fun _ : Fin 1 => m) (fun z => Real.sin (2 * Real.pi * z 0)) y =
      iteratedDeriv m (fun t => Real.sin (2 * Real.pi * t)) (y 0) := fun m y => by
    rw [mixedDeriv, iteratedDerivWithin_univ]
    rfl
  have hda : ∀ d : Fin 1, after (fun _ : Fin 1 => 1) d = fun _ => 0 := fun d => by
    funext e
    rw [Subsingleton.elim e d, after_self]
  obtain ⟨g, hg, h⟩ := double_derivative_accuracy w cfg cfg (o := 3) (by omega) (per := fun _ => true) (fm := data) hw (x := fun _ => .uniform (.fin 0) (.fin 1)) (K := 10)
    (Q := fun _ => PerPt 3 10 0 1 1 (1 / 1024)) (ρ := 1024) (fun d => by rw [hd]; exact near d) (fun _ => by show (3 : ℕ) ≤ 6; omega) (ν := 20) rfl
    (F := 2) hst (by decide +kernel) (by decide +kernel) (L := 1025) (fun d => by rw [hd]; exact le_rfl) rfl (by norm_num) (by norm_num) (m := fun _ => 1) (fun _ => by omega)
    rfl (by norm_num) (Γ := fun _ => 18432) (fun _ => by norm_num)
    (fun d => by
      rw [hN]
      intro i _
      simp only [XRange.rat, XRange.mapK, XRange.node, F64.toRat]
      push_cast
      apply le_of_eq
      ring) (P := 18432) (by simp) (by decide +kernel) (by decide +kernel) rfl
    (H := fun _ => 1 / 1024) (M := fun _ => 1576) (S := fun _ => Set.univ) (f := fun z => Real.sin (2 * Real.pi * z 0))
    (fun d => by
      rw [hN]
      intro i _
      rw [real_node, real_node]
      push_cast
      apply le_of_eq
      ring)
    (fun d => by rw [hN, hdom])
    (fun d z _ => by
      rw [hda]
      simp only [hmd, iteratedDeriv_zero, hup, iteratedDerivWithin_univ]
      exact ⟨(Real.contDiff_sin.comp (contDiff_const.mul contDiff_id)).contDiffOn, fun t _ => fourth t⟩)
    (fun d z t _ => by
      rw [hN, real_node, real_node]
      simp only [hup]
      rw [← Real.sin_add_two_pi (2 * Real.pi * t)]
      congr 1
      norm_num
      ring)
    (η := 1 / 2 ^ 50)
    (fun I hI => by
      obtain ⟨q, h2, h3⟩ := h1 (I 0) (by have := hI 0; rwa [hd] at this)
      refine ⟨q, ?_, ?_⟩
      · rw [show I = fun _ => I 0 from funext fun (d : Fin 1) => by rw [Subsingleton.elim d 0]]
        exact h2
      · simp only [nodeAt]
        rw [hN, real_node]
        exact h3)
  refine ⟨g, hg, fun k a hk ha a0 a1 => ?_⟩
  obtain ⟨v, h2, h3⟩ := h (fun _ => a) (fun _ => by
    refine ⟨ha, k, by exact_mod_cast hk, .inr ?_, ?_⟩
    · show (0 : ℚ) - ((1 - 3 % 2 : ℕ) : ℚ) / 2 * (1 / 1024) + 64 * (((10 : ℕ) + 1) * 1 / 2 ^ 53) ≤ a - k * (1 - 0)
      norm_num at a0 ⊢
      linarith
    · show a - k * (1 - 0) + 64 * (((10 : ℕ) + 1) * 1 / 2 ^ 53) ≤ 1 - ((1 - 3 % 2 : ℕ) : ℚ) / 2 * (1 / 1024)
      norm_num at a1 ⊢
      linarith)
  rw [hmd, iteratedDeriv_one] at h3
  have e : deriv (fun t : ℝ => Real.sin (2 * Real.pi * t)) (a : ℝ) = 2 * Real.pi * Real.cos (2 * Real.pi * a) := by
    have := (Real.hasDerivAt_sin (2 * Real.pi * (a : ℝ))).comp (a : ℝ) ((hasDerivAt_id (a : ℝ)).const_mul (2 * Real.pi))
    refine this.deriv.trans ?_
    ring
  rw [e] at h3
  refine ⟨v, h2, h3.trans ?_⟩
  have h0 : univ.filter (fun e : Fin (0 + 1) => e < 0) = ∅ := by decide
  rw [show (univ : Finset (Fin (0 + 1))) = {0} from rfl] at *
  simp only [sum_singleton, prod_singleton, h0, prod_empty, stab, Nat.factorial]
  norm_num

end RoundDerivNearExample

end Intp
