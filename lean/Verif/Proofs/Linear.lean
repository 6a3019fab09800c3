import Verif.Proofs.Mirror

/-!
# Splines of order 1
-/

namespace Intp

open Finset Polynomial BSpline

variable {K V : Type} [Field K] [LinearOrder K] [IsStrictOrderedRing K] [FloorRing K] [AddCommGroup V] [Module K V] {D : ℕ}

omit [LinearOrder K] [IsStrictOrderedRing K] [FloorRing K] in
/-- Polynomials of degree at most 1 between two points. -/
theorem eval_convex {p : K[X]} (hp : p.natDegree ≤ 1) (θ a b : K) :
    p.eval ((1 - θ) * a + θ * b) = (1 - θ) * p.eval a + θ * p.eval b := by
  rw [Polynomial.eq_X_add_C_of_natDegree_le_one hp]
  simp only [eval_add, eval_mul, eval_C, eval_X]
  ring

/-- The knots of order 1 are the data points. -/
theorem XRange.Valid.knot_one {N : ℕ} {x : XRange K} {per : Bool} (h : x.Valid 1 N per) {i : ℕ} (hi : i < N) :
    knotFn (x.knots 1 (unk per N) per) (i + 1) = x.node N i := by
  cases per with
  | true =>
    have ax := h.pAxis
    have hlen := ax.len
    have hu : unk true N = N - 1 := rfl
    by_cases c : i < unk true N
    · exact (ax.odd rfl i c).symm
    · obtain rfl : i = unk true N := by omega
      have h0 := ax.odd rfl 0 (by have := ax.big; omega)
      have := ax.shift 1 (by omega) (by omega)
      rw [Nat.add_comm, this, show knotFn (x.knots 1 (unk true N) true) 1 = x.node N 0 from h0.symm]
      ring
  | false =>
    have ax := h.aAxis
    have hlen := ax.len
    have hu : unk false N = N := rfl
    rw [h.knots_aper le_rfl (by omega)]
    unfold caKnot
    by_cases c : i = 0
    · rw [if_pos (by omega), c]
    · rw [if_neg (by omega)]
      by_cases c2 : i + 1 < N
      · rw [if_pos c2]; simp
      · rw [if_neg c2, show N - 1 = i by omega]

namespace InterpFn.Done

variable {c : Cfg} {per : Fin D → Bool} {dims : Fin D → ℕ} {x : Fin D → XRange K} {g : InterpFn D K V} {C : (Fin D → ℕ) → V}

/-- Between two neighbouring data points the weights are linear. -/
theorem wAt_one (h : g.Done c 1 per dims x C) (hv : ValidAxes c 1 per dims x) (d : Fin D) {k : ℕ} {θ : K}
    (hk : k + 1 < pointNum c (per d) (dims d)) (h0 : 0 ≤ θ ∨ per d = false ∧ k = 0)
    (h1 : θ ≤ 1 ∨ per d = false ∧ k + 2 = pointNum c (per d) (dims d)) (J : ℕ) :
    g.spline.wAt d 0 ((1 - θ) * (x d).node (pointNum c (per d) (dims d)) k + θ * (x d).node (pointNum c (per d) (dims d)) (k + 1)) J =
      (1 - θ) * g.spline.wAt d 0 ((x d).node (pointNum c (per d) (dims d)) k) J +
        θ * g.spline.wAt d 0 ((x d).node (pointNum c (per d) (dims d)) (k + 1)) J := by
  have hw := h.wf hv
  have hs := h.simple hv d
  have hpk : g.spline.periodicity d = true → g.spline.PerKnots d := fun hp => h.perKnots hv (by rwa [h.pers] at hp)
  have ho := h.order
  set N := pointNum c (per d) (dims d) with hN
  have hkn : ∀ i, i < N → g.spline.kn d (i + 1) = (x d).node N i := fun i hi => by
    unfold kn; rw [h.knots]; exact (hv d).knot_one hi
  have hlast : k + 1 ≤ g.spline.last d := by
    have hd := h.dims_eq d
    rw [← hN] at hd
    cases hp : per d with
    | true =>
      have := h.last_per hv hp
      rw [hd, hp, show unk true N = N - 1 from rfl] at this
      omega
    | false =>
      have := h.last_aper hv hp
      rw [hd, hp, show unk false N = N from rfl] at this
      omega
  have hlast' : per d = false → k + 2 = N → k + 1 = g.spline.last d := fun hp e => by
    have := h.last_aper hv hp
    have hd := h.dims_eq d
    rw [← hN, hp, show unk false N = N from rfl] at hd
    omega
  have hlt : (x d).node N k < (x d).node N (k + 1) := by
    rw [← hkn k (by omega), ← hkn (k + 1) hk]; exact hs (k + 1) (by omega) hlast
  have key : ∀ z, (per d = false ∧ k = 0 ∨ (x d).node N k ≤ z) → (per d = false ∧ k + 2 = N ∨ z ≤ (x d).node N (k + 1)) →
      g.spline.wAt d 0 z J = (g.spline.wP d (k + 1) J).eval z := by
    intro z a b
    rw [hw.wAt_closed hs hpk (q := 0) (s := k + 1) (by omega) (by omega) hlast ?_ ?_ J, weight_eq_wP]
    · rfl
    · rw [hkn k (by omega), h.pers]
      exact a.imp (fun e => ⟨e.1, by omega⟩) id
    · rw [hkn (k + 1) hk, h.pers]
      exact b.imp (fun e => ⟨e.1, hlast' e.1 e.2⟩) id
  rw [key _ ?_ ?_, key _ (.inr le_rfl) (.inr hlt.le), key _ (.inr hlt.le) (.inr le_rfl)]
  · exact eval_convex ((wP_natDegree_le _ _ _ _).trans ho.le) _ _ _
  · refine h0.elim (fun e => .inr ?_) (fun e => .inl e)
    nlinarith
  · refine h1.elim (fun e => .inr ?_) (fun e => .inl e)
    nlinarith

end InterpFn.Done

omit [LinearOrder K] [IsStrictOrderedRing K] [FloorRing K] in
/-- Weights that are a combination of two vectors in every dimension. -/
theorem tensorVal_two (dims : Fin D → ℕ) (u : Fin D → Bool → K) (W : Fin D → Bool → ℕ → K) (C : (Fin D → ℕ) → V) :
    tensorVal dims (fun d J => ∑ e, u d e * W d e J) C = ∑ ε : Fin D → Bool, (∏ d, u d (ε d)) • tensorVal dims (fun d => W d (ε d)) C := by
  unfold tensorVal
  simp only [smul_sum, smul_smul]
  rw [sum_comm]
  refine sum_congr rfl fun J _ => ?_
  rw [← sum_smul]
  congr 1
  rw [Finset.prod_univ_sum, Fintype.piFinset_univ]
  exact sum_congr rfl fun ε _ => prod_mul_distrib

/-- A value between the first and the last of a list of increasing numbers lies between two neighbours. -/
theorem exists_between {f : ℕ → K} {y : K} : ∀ {N : ℕ}, 2 ≤ N → f 0 ≤ y → y ≤ f (N - 1) → ∃ k, k + 1 < N ∧ f k ≤ y ∧ y ≤ f (k + 1)
  | 0, h, _, _ => absurd h (by omega)
  | 1, h, _, _ => absurd h (by omega)
  | 2, _, h0, h1 => ⟨0, by omega, h0, h1⟩
  | N + 3, _, h0, h1 => by
    by_cases c : f (N + 1) ≤ y
    · exact ⟨N + 1, by omega, c, h1⟩
    · obtain ⟨k, hk, a, b⟩ := exists_between (f := f) (y := y) (N := N + 2) (by omega) h0 (le_of_lt (not_le.1 c))
      exact ⟨k, by omega, a, b⟩

end Intp
