import Verif.Proofs.RoundDerivAt
import Verif.Proofs.RoundKnots
import Verif.Props.Rounding

/-!
# C88: accuracy of derivatives

The error of `derivative_at`, first for any arithmetic with bounded rounding errors (`RoundK`, `RoundV`, `RoundD` in `Verif/Rounding.lean`), then for
`double`.  Every differentiation multiplies the control points by at most `Γ`, a bound for `2 k / (t_{i+k} - t_i)`: the error is relative to the largest
number that arises in this way.
-/

namespace Intp

open Finset

/-- The operations of `derivative_at` in `double`. -/
theorem F64.valueD : RoundD F64.value where
  ofNat n hn := by
    have h : (CoordArith.ofNat n : F64) = .fin n := fl_ofNat (lt_of_le_of_lt hn (by norm_num))
    rw [h]
    refine ⟨?_, rfl⟩
    have := F64.grid_int n
    exact this
  sub a b := F64.coord.sub a b
  divV v a hv ha h0 hf := by
    obtain ⟨p, rfl, -⟩ := F64.finite_iff.1 hv
    obtain ⟨q, rfl, -⟩ := F64.finite_iff.1 ha
    show Ok (CoordArith.div (F64.fin p) (F64.fin q)) _
    rw [F64.div_fin (b := q) h0, F64.round_fits (q := p / q) hf]
    exact Spec.pure ⟨F64.rnd_grid _, F64.rnd_error _⟩

section

variable {K F V : Type} [CoordArith K] [Field F] [LinearOrder F] [IsStrictOrderedRing F] [FloorRing F] [ValArith V] [ScaleArith K V] {D : ℕ}

/-- **C88.** Let the data of a spline be finite, `b.exact` the spline of the exact numbers they represent, well-formed, with segments at least `h`
long and knots at most `W` apart, the control points at most `C`, and `2 k ≤ Γ d (t_{i+k} - t_i)` for the distinct knots of each dimension `d`.  At a point
of the domain (in periodic dimensions: after wrapping, `w`, in the range) `derivative_at` for the orders `m` in any arithmetic with relative rounding
error `u` and underflow `η` returns a finite number.  It differs from the exact derivative of the spline by at most `((1 - u)^(-k) - 1) P C`, where
`P = ∏ d, Γ d ^ m d`, and an absolute error, which is zero without underflow.  `k` is `D (5 order + 1) + 1 + (order + 1)^D + 4 ∑ d, m d`. -/
theorem rounded_derivative (R : RoundK K F) (S : RoundV R V) (T : RoundD S) (cfg : Cfg) {b : BSpline D K V} {x : Fin D → K × ℕ × ℕ} {w : Fin D → K}
    {C h W : F} {Γ : Fin D → F} (he : (b.exact R S).WF) (hb : b.Bounded R S C) (hp : b.Pt R S (fun d => ((x d).1, (x d).2.1)) w)
    (hs : (b.exact R S).Spaced h W) (hΓ : (b.exact R S).Steep Γ) (hm : ∀ d, (x d).2.2 ≤ b.order) (hord : b.order ≤ 2 ^ 20) {k : ℕ}
    (hk : k = D * (5 * b.order + 1) + 1 + (b.order + 1) ^ D + 4 * ∑ d, (x d).2.2)
    {E : F} (hE : E = D * (2 * ((2 ^ (b.order + 1) - 2) * (R.η * (1 / h + 1))) + R.η)) {P : F} (hP : P = ∏ d, Γ d ^ (x d).2.2)
    {e : F} (hed : e = P * (2 * (∑ d, (x d).2.2 : ℕ) * R.η))
    (hB : (1 - R.u)⁻¹ ^ (D * (5 * b.order + 1)) * (1 + E) ≤ 2) (hfW : R.Fits (4 * W)) (hf2 : R.Fits 2)
    (hfC : R.Fits (2 * (b.order + 1) * ((1 - R.u)⁻¹ ^ k * (P * C + (e + (b.order + 1) ^ D * (E * (P * C + e) + R.η)))))) :
    ∃ y v, (b.exact R S).derivativeAt cfg (fun d => (R.val (w d), (x d).2)) = .ok y ∧ Fl.derivativeAtH cfg b x = .ok v ∧ S.Finite v ∧
      |S.val v - y| ≤ ((1 - R.u)⁻¹ ^ k - 1) * (P * C) + (1 - R.u)⁻¹ ^ k * (e + (b.order + 1) ^ D * (E * (P * C + e) + R.η)) := by
  subst hE
  obtain ⟨y, hy, h⟩ := BSpline.Fl.derivativeAtH_near T cfg he hb hp hs hΓ hm hord hB hfW hf2 (k := k) (B := P * C) (e := e) (by rw [hk]; rfl)
    (by rw [hP]) (by rw [hed, hP]) hfC
  obtain ⟨v, hv, hv1, hv2⟩ := h.exists
  exact ⟨y, v, hy, hv, hv1, hv2⟩

end

/-! ## `double` -/

private lemma final_err {G N M E C P e η u k Z : ℚ} (hG : G ≤ 1 + 6 / 5 * (k * u)) (hG1 : 1 ≤ G) (hG2 : G ≤ 5 / 4) (hN0 : 0 ≤ N) (hM0 : 0 ≤ M)
    (hN : N + M ≤ k) (hE0 : 0 ≤ E) (hE : E ≤ u) (hNE : N * E ≤ 1 / 8) (hC : 0 ≤ C) (hP : 1 ≤ P) (hη : 0 ≤ η) (he : e = P * (M * η)) (hZ : 3 / 2 * η ≤ Z) :
    (G - 1) * (P * C) + G * (e + N * (E * (P * C + e) + η)) ≤ P * (3 * (k * u * C) + k * Z) := by
  have hk : 0 ≤ k := by linarith
  have hP0 : 0 ≤ P := by linarith
  have key : (G - 1) * C + G * (M * η + N * (E * (C + M * η) + η)) ≤ 3 * (k * u * C) + k * Z := by
    have s1 : (G - 1) * C ≤ 6 / 5 * (k * u) * C := mul_le_mul_of_nonneg_right (by linarith) hC
    have hMη : 0 ≤ M * η := mul_nonneg hM0 hη
    have hq : M * η + N * (E * (C + M * η) + η) ≤ k * (u * C) + 9 / 8 * (k * η) := by
      have a1 : N * E * (M * η) ≤ 1 / 8 * (M * η) := mul_le_mul_of_nonneg_right hNE hMη
      have a2 : N * (E * C) ≤ k * (u * C) := mul_le_mul (by linarith) (mul_le_mul_of_nonneg_right hE hC) (mul_nonneg hE0 hC) hk
      have a3 : (N + M) * η ≤ k * η := mul_le_mul_of_nonneg_right hN hη
      have a4 : 0 ≤ N * η := mul_nonneg hN0 hη
      nlinarith
    have hq0 : 0 ≤ M * η + N * (E * (C + M * η) + η) := by positivity
    have s2 := mul_le_mul hG2 hq hq0 (by norm_num)
    have s6 : k * (3 / 2 * η) ≤ k * Z := mul_le_mul_of_nonneg_left hZ hk
    have s9 : 0 ≤ k * (u * C) := mul_nonneg hk (mul_nonneg (hE0.trans hE) hC)
    have s8 : 0 ≤ k * η := mul_nonneg hk hη
    nlinarith
  have h1 : N * η ≤ P * (N * η) := le_mul_of_one_le_left (mul_nonneg hN0 hη) hP
  have h2 := mul_le_mul_of_nonneg_left key hP0
  have h3 : G * (N * η) ≤ G * (P * (N * η)) := mul_le_mul_of_nonneg_left h1 (by linarith)
  rw [he]
  nlinarith

private lemma final_fits {G N E C e η B L o : ℚ} (hG2 : G ≤ 5 / 4) (hN0 : 0 ≤ N) (hN : N ≤ 2 ^ 50) (hE0 : 0 ≤ E) (hE : E ≤ 1 / 2 ^ 60)
    (ho0 : 0 ≤ o) (ho : o ≤ 50) (hC : 0 ≤ C) (hCB : C ≤ B) (he0 : 0 ≤ e) (he1 : e ≤ 1) (hη : 0 ≤ η) (hη1 : η ≤ 1)
    (hL : 102 * (5 / 4 * (B + (1 + 2 ^ 50 * (1 / 2 ^ 60 * (B + 1) + 1)))) ≤ L) :
    2 * (o + 1) * (G * (C + (e + N * (E * (C + e) + η)))) ≤ L := by
  have hB := hC.trans hCB
  have e1 : E * (C + e) + η ≤ 1 / 2 ^ 60 * (B + 1) + 1 := add_le_add (mul_le_mul hE (add_le_add hCB he1) (by positivity) (by positivity)) hη1
  have e2 : N * (E * (C + e) + η) ≤ 2 ^ 50 * (1 / 2 ^ 60 * (B + 1) + 1) := mul_le_mul hN e1 (by positivity) (by positivity)
  have e3 := mul_le_mul hG2 (add_le_add hCB (add_le_add he1 e2)) (by positivity) (by norm_num)
  refine le_trans ?_ hL
  have h4 : 0 ≤ 5 / 4 * (B + (1 + 2 ^ 50 * (1 / 2 ^ 60 * (B + 1) + 1))) := by positivity
  exact (mul_le_mul_of_nonneg_left e3 (by linarith)).trans (mul_le_mul_of_nonneg_right (by linarith) h4)

/-- **C88.** In `double`, a derivative of a spline is computed with an error of at most `3 k · 2 ^ -53` times `P C`, plus `P k · 2 ^ -1074`, where `C` is
the largest control point, `P = ∏ d, Γ d ^ m d` and `k = D (5 order + 1) + 1 + (order + 1)^D + 4 ∑ d, m d`; the hints only have to be valid. -/
theorem double_derivative (cfg : Cfg) {D : ℕ} {b : BSpline D F64 F64} {C : ℚ} (hb : DoubleSpline b C) {x : Fin D → F64} {w : Fin D → ℚ} (hp : DoublePt b x w)
    {h : Fin D → ℕ} (hh : ∀ d, b.order ≤ h d ∧ h d ≤ b.rat.last d) (m : Fin D → ℕ) {Γ : Fin D → ℚ} (hΓ : b.rat.Steep Γ) {k : ℕ}
    (hk : k = D * (5 * b.order + 1) + 1 + (b.order + 1) ^ D + 4 * ∑ d, m d) (hk50 : k ≤ 2 ^ 50) {P : ℚ} (hP : P = ∏ d, Γ d ^ m d) (hP1 : P ≤ 2 ^ 1000)
    (hPC : P * C ≤ 2 ^ 1000) :
    ∃ y v, b.rat.derivativeAt cfg (fun d => (w d, h d, m d)) = .ok y ∧ Fl.derivativeAtH cfg b (fun d => (x d, h d, m d)) = .ok (.fin v) ∧
      |v - y| ≤ P * (3 * k / 2 ^ 53 * C + k / 2 ^ 1074) := by
  have hu0 := F64.u_pos
  have hη0 := F64.η_pos
  obtain ⟨hC0, -⟩ := hb.bound
  have hP0 : 1 ≤ P := by
    rw [hP]
    calc (1 : ℚ) = ∏ _d : Fin D, 1 := by rw [Finset.prod_const_one]
      _ ≤ ∏ d, Γ d ^ m d := Finset.prod_le_prod (fun _ _ => zero_le_one) fun d _ => one_le_pow₀ (hΓ.one d)
  by_cases hbig : ∃ d, b.order < m d
  · refine ⟨0, 0, if_pos hbig, if_pos hbig, ?_⟩
    rw [sub_self, abs_zero]
    exact mul_nonneg (zero_le_one.trans hP0) (add_nonneg (mul_nonneg (div_nonneg (mul_nonneg zero_le_three (Nat.cast_nonneg _)) (pow_nonneg zero_le_two _)) hC0)
      (div_nonneg (Nat.cast_nonneg _) (pow_nonneg zero_le_two _)))
  have hm : ∀ d, m d ≤ b.order := fun d => not_lt.1 fun h => hbig ⟨d, h⟩
  have hD : D ≤ 2 ^ 50 := by
    have h1 : D ≤ D * (5 * b.order + 1) := Nat.le_mul_of_pos_right D (by omega)
    exact le_trans (by rw [hk]; omega) hk50
  obtain ⟨hE0, hE1⟩ := small_err (P := F64.η * (1 / (1 / 2 ^ 900) + 1)) (by decide +kernel) (by decide +kernel) (by decide +kernel) hD hb.order
  obtain ⟨E, hE⟩ : ∃ E : ℚ, E = D * (2 * ((2 ^ (b.order + 1) - 2) * (F64.η * (1 / (1 / 2 ^ 900) + 1))) + F64.η) := ⟨_, rfl⟩
  rw [← hE] at hE0 hE1
  -- growth
  have hG := g_bound k hk50
  have hk51 : (k : ℚ) ≤ 2 ^ 50 := by exact_mod_cast hk50
  have hku : (k : ℚ) * F64.u ≤ 1 / 8 := by
    rw [F64.u_eq]
    calc (k : ℚ) * (1 / 2 ^ 53) ≤ 2 ^ 50 * (1 / 2 ^ 53) := mul_le_mul_of_nonneg_right hk51 (by positivity)
      _ = 1 / 8 := by norm_num
  have hg1 : 1 ≤ (1 - F64.u)⁻¹ := one_le_g F64.u_pos.le (by rw [F64.u_eq]; norm_num)
  have hG1 : 1 ≤ (1 - F64.u)⁻¹ ^ k := one_le_pow₀ hg1
  have hG2 : (1 - F64.u)⁻¹ ^ k ≤ 5 / 4 := hG.trans (by clear hP1 hPC hE; linarith)
  have hN0 : 0 ≤ ((b.order : ℚ) + 1) ^ D := pow_nonneg (Nat.cast_add_one_pos _).le _
  have hM0 : (0 : ℚ) ≤ 2 * (∑ d, m d : ℕ) := mul_nonneg zero_le_two (Nat.cast_nonneg _)
  have hNMk : ((b.order : ℚ) + 1) ^ D + 2 * (∑ d, m d : ℕ) ≤ k := by
    have : (b.order + 1) ^ D + 2 * ∑ d, m d ≤ k := by rw [hk]; omega
    exact_mod_cast this
  have hNk : ((b.order : ℚ) + 1) ^ D ≤ k := by clear hP1 hPC hE; linarith
  have hMk : (2 : ℚ) * (∑ d, m d : ℕ) ≤ k := by clear hP1 hPC hE; linarith
  have hEu : E ≤ F64.u := hE1.trans (by rw [F64.u_eq]; norm_num)
  have hNE : ((b.order : ℚ) + 1) ^ D * E ≤ 1 / 8 := (mul_le_mul hNk hEu hE0 (Nat.cast_nonneg _)).trans hku
  obtain ⟨e, hed⟩ : ∃ e : ℚ, e = P * (2 * (∑ d, m d : ℕ) * F64.η) := ⟨_, rfl⟩
  have he0 : 0 ≤ e := by rw [hed]; exact mul_nonneg (zero_le_one.trans hP0) (mul_nonneg hM0 hη0.le)
  have he1 : e ≤ 1 := by
    have h1 : (2 : ℚ) * (∑ d, m d : ℕ) * F64.η ≤ 2 ^ 50 * F64.η := mul_le_mul_of_nonneg_right (hMk.trans hk51) hη0.le
    rw [hed]
    refine (mul_le_mul hP1 h1 (mul_nonneg hM0 hη0.le) (pow_nonneg zero_le_two _)).trans ?_
    decide +kernel
  have hord : b.order ≤ 2 ^ 20 := hb.order.trans (by norm_num)
  have main := rounded_derivative F64.coord F64.value F64.valueD cfg (b := b) (x := fun d => (x d, h d, m d)) (w := fun d => .fin (w d)) (C := C)
    (h := 1 / 2 ^ 900) (W := 2 * 2 ^ 1000) hb.wf hb.bounded (hp.pt hb hh) hb.spaced hΓ hm hord hk (E := E) hE hP hed ?_ ?_ ?_ ?_
  · obtain ⟨y, v, h1, h2, h3, h4⟩ := main
    obtain ⟨q, rfl, -⟩ := F64.finite_iff.1 h3
    refine ⟨y, q, h1, h2, h4.trans ?_⟩
    have s7 : (3 : ℚ) * k / 2 ^ 53 * C = 3 * (k * F64.u * C) := by rw [F64.u_eq]; ring
    have s8 : (k : ℚ) / 2 ^ 1074 = k * (1 / 2 ^ 1074) := by rw [mul_one_div]
    rw [s7, s8]
    exact final_err hG hG1 hG2 hN0 hM0 hNMk hE0 hEu hNE hC0 hP0 hη0.le hed (by decide +kernel)
  · show (1 - F64.u)⁻¹ ^ (D * (5 * b.order + 1)) * (1 + E) ≤ 2
    have : (1 - F64.u)⁻¹ ^ (D * (5 * b.order + 1)) ≤ (1 - F64.u)⁻¹ ^ k := pow_le_pow_right₀ hg1 (by rw [hk]; omega)
    have e1 : (1 / 2 ^ 60 : ℚ) ≤ 1 / 2 := by norm_num
    clear hP1 hPC hE
    calc (1 - F64.u)⁻¹ ^ (D * (5 * b.order + 1)) * (1 + E) ≤ 5 / 4 * (1 + 1 / 2) :=
          mul_le_mul (this.trans hG2) (by linarith) (by linarith) (by norm_num)
      _ ≤ 2 := by norm_num
  · show |(4 * (2 * 2 ^ 1000) : ℚ)| ≤ 2 ^ (1023 : ℤ); decide +kernel
  · show |(2 : ℚ)| ≤ 2 ^ (1023 : ℤ); decide +kernel
  · show |2 * ((b.order : ℚ) + 1) * ((1 - F64.u)⁻¹ ^ k * (P * C + (e + ((b.order : ℚ) + 1) ^ D * (E * (P * C + e) + F64.η))))| ≤ 2 ^ (1023 : ℤ)
    have hPC0 : 0 ≤ P * C := mul_nonneg (zero_le_one.trans hP0) hC0
    have hq : 0 ≤ P * C + (e + ((b.order : ℚ) + 1) ^ D * (E * (P * C + e) + F64.η)) :=
      add_nonneg hPC0 (add_nonneg he0 (mul_nonneg hN0 (add_nonneg (mul_nonneg hE0 (add_nonneg hPC0 he0)) hη0.le)))
    rw [abs_of_nonneg (mul_nonneg (mul_nonneg zero_le_two (Nat.cast_add_one_pos _).le) (mul_nonneg (zero_le_one.trans hG1) hq))]
    have ho : (b.order : ℚ) ≤ 50 := by exact_mod_cast hb.order
    exact final_fits hG2 hN0 (hNk.trans hk51) hE0 hE1 (Nat.cast_nonneg _) ho hPC0 hPC he0 he1 hη0.le (by decide +kernel) (by decide +kernel)

/-- **C88.** The same for `derivative` of an interpolation function, whose hints are computed in `double` too: whenever it returns a value. -/
theorem double_derivative_call (cfg : Cfg) {D : ℕ} {f : InterpFn D F64 F64} {C : ℚ} (hb : DoubleSpline f.spline C) {x : Fin D → F64} {w : Fin D → ℚ}
    (hp : DoublePt f.spline x w) (m : Fin D → ℕ) {v : F64} (hv : Fl.derivative cfg f x m = .ok v) {Γ : Fin D → ℚ} (hΓ : f.spline.rat.Steep Γ) {k : ℕ}
    (hk : k = D * (5 * f.spline.order + 1) + 1 + (f.spline.order + 1) ^ D + 4 * ∑ d, m d) (hk50 : k ≤ 2 ^ 50) {P : ℚ} (hP : P = ∏ d, Γ d ^ m d)
    (hP1 : P ≤ 2 ^ 1000) (hPC : P * C ≤ 2 ^ 1000) :
    ∃ y q, f.spline.rat.derivativeAt cfg (fun d => (w d, f.spline.order, m d)) = .ok y ∧ v = .fin q ∧
      |q - y| ≤ P * (3 * k / 2 ^ 53 * C + k / 2 ^ 1074) := by
  unfold Fl.derivative at hv
  cases ht : (tabM fun d => Fl.hint f d (x d)) with
  | error e => rw [ht] at hv; cases hv
  | ok h =>
    rw [ht, ok_bind] at hv
    have hh := hb.hints ht
    obtain ⟨y, q, h1, h2, h3⟩ := double_derivative cfg hb hp hh m hΓ hk hk50 hP hP1 hPC
    rw [h2] at hv
    cases hv
    obtain ⟨Cf, hC⟩ := Mesh.exists_holds f.spline.rat.ctrl hb.wf.ctrl
    rw [hb.wf.derivativeAt_val cfg (fun d => hb.wf.validHint (hh d).1 (hh d).2 _) hC] at h1
    refine ⟨y, q, ?_, rfl, h3⟩
    rw [hb.wf.derivativeAt_val cfg (fun d => hb.wf.validHint le_rfl (hb.wf.last_ge d) _) hC]
    exact h1

/-- **C88.** The constants `Γ` exist for every spline: if neighbouring knots, other than the first and the last, are equal or at least `g` apart, then
`2 order / g` (or 1) is one. -/
theorem steep_of_gaps {F : Type} [Field F] [LinearOrder F] [IsStrictOrderedRing F] {D : ℕ} {b : BSpline D F F} {g : F} (hg : 0 < g) (hwf : b.WF)
    (h : ∀ d i, 1 ≤ i → i + 2 < (b.knots d).length → b.kn d i < b.kn d (i + 1) → g ≤ b.kn d (i + 1) - b.kn d i) :
    b.Steep fun _ => max 1 (2 * b.order / g) := by
  refine ⟨fun _ => le_max_left _ _, fun d i k hi hk hko hl hlt => ?_⟩
  have hgap : g ≤ b.kn d (i + k) - b.kn d i := by
    by_contra hcon
    rw [not_le] at hcon
    have hm := hwf.mono d
    have : ∀ j, j ≤ k → b.kn d (i + j) = b.kn d i := by
      intro j
      induction j with
      | zero => intro _; rfl
      | succ j ih =>
        intro hj
        have e := ih (by omega)
        by_contra hne
        have h1 : b.kn d (i + j) ≤ b.kn d (i + j + 1) := hm _ _ (by omega) (by omega) (by omega)
        have h2 : b.kn d (i + (j + 1)) ≤ b.kn d (i + k) := hm _ _ (by omega) (by omega) (by omega)
        have h3 := h d (i + j) (by omega) (by omega) (lt_of_le_of_ne h1 fun hc => hne (by rw [← e, hc, Nat.add_assoc]))
        rw [Nat.add_assoc] at h3
        linarith
    exact absurd (this k le_rfl) hlt.ne'
  have hk' : (k : F) ≤ b.order := by exact_mod_cast hko
  calc (2 : F) * k ≤ 2 * b.order := by linarith
    _ = 2 * b.order / g * g := by field_simp
    _ ≤ max 1 (2 * b.order / g) * (b.kn d (i + k) - b.kn d i) :=
      mul_le_mul (le_max_right _ _) hgap hg.le (zero_le_one.trans (le_max_left _ _))

/-! ## Examples -/

theorem exDouble_steep : exDouble.rat.Steep fun _ => 4 := by
  have h : (fun _ : Fin 2 => (4 : ℚ)) = fun _ => max 1 (2 * (exDouble.rat.order : ℚ) / 1) := by
    funext _
    show (4 : ℚ) = max 1 (2 * ((2 : ℕ) : ℚ) / 1)
    norm_num
  rw [h]
  refine steep_of_gaps one_pos exDouble_ok.wf fun d i h1 h2 => ?_
  fin_cases d
  · change i + 2 < 7 at h2
    have : i ≤ 4 := by omega
    interval_cases i <;> decide +kernel
  · change i + 2 < 9 at h2
    have : i ≤ 6 := by omega
    interval_cases i <;> decide +kernel

/-- The bound for the derivative once in each direction of the spline of C74. -/
example : ∃ y v, exDouble.rat.derivativeAt ⟨true, false⟩ (fun d => (![3 / 2, 5 / 4] d, ![2, 4] d, ![1, 1] d)) = .ok y ∧
    Fl.derivativeAtH ⟨true, false⟩ exDouble (fun d => (![.fin (3 / 2), .fin (29 / 4)] d, ![2, 4] d, ![1, 1] d)) = .ok (.fin v) ∧
    |v - y| ≤ 16 * (3 * (40 : ℕ) / 2 ^ 53 * 11 + (40 : ℕ) / 2 ^ 1074) :=
  double_derivative _ exDouble_ok exDouble_pt (h := ![2, 4]) (by decide +kernel) ![1, 1] exDouble_steep (by decide +kernel) (by norm_num)
    (by decide +kernel) (by decide +kernel) (by decide +kernel)

/-- The two values are not equal. -/
example : (do let v ← Fl.derivativeAtH ⟨true, false⟩ exDouble ![(.fin (3 / 2), 2, 1), (.fin (29 / 4), 4, 1)]
              let y ← exDouble.rat.derivativeAt ⟨true, false⟩ ![(3 / 2, 2, 1), (5 / 4, 4, 1)]
              pure (decide (v.toRat ≠ y))) = .ok true := by decide +kernel

end Intp
