import Verif.Proofs.RoundEval
import Verif.Proofs.CellFloat

/-! # Errors of evaluation in the cell layout in rounded arithmetic -/

namespace Intp

set_option linter.unusedSectionVars false

open Finset

variable {K F V : Type} [CoordArith K] [Field F] [LinearOrder F] [IsStrictOrderedRing F] [FloorRing F] [ValArith V] [ScaleArith K V] {D : ℕ}
variable (R : RoundK K F) (S : RoundV R V)

theorem RoundK.one_add_u_le : 1 + R.u ≤ R.g := by
  have hu := R.u_nonneg
  unfold RoundK.g
  rw [inv_eq_one_div, le_div_iff₀ (by linarith [R.u_lt_one])]
  nlinarith

/-- Product of the coefficients of a summand. -/
theorem coefProd_near {h : F} (hh : 0 < h) {order : ℕ} {e : Fin D → K} {P : Fin D → F}
    (hE : ∀ d, R.Finite (e d) ∧ Near R.g (5 * order) (R.absErr h order) (R.val (e d)) (P d)) (hP : ∀ d, P d ≤ 1)
    (hB : R.g ^ (D * (5 * order + 1)) * (1 + R.coefErr h order D) ≤ 2) (hf2 : R.Fits 2) :
    R.Finite (Fl.coefProd e) ∧ Near R.g (D * (5 * order + 1)) (R.coefErr h order D) (R.val (Fl.coefProd e)) (∏ d, P d) := by
  have h1 := fold_near R hh (order := order) (n := D) (Ev := fun d => .ok (e d)) (I := fun _ => .ok 0) (P := P) (ind := fun _ => 0)
    (fun d => Spec.ok (hE d)) hP (fun _ => rfl) hB hf2 (List.finRange D) 0 1 (fun _ => 0) 1 (by simp) R.finite_one le_rfl (by
      rw [R.val_one, Nat.zero_mul]
      exact (Near.refl zero_le_one).mono R.one_le_g le_rfl le_rfl (R.coefErr_nonneg hh _ _))
  rw [Fl.fold_coef_any (e := e) (ind := fun _ => 0) (fun _ => rfl) (fun _ => rfl)] at h1
  obtain ⟨h2, h3, -⟩ := h1
  refine ⟨h2, ?_⟩
  rw [one_mul, List.length_finRange, Nat.zero_add, ← List.ofFn_eq_map, List.prod_ofFn] at h3
  exact h3

private lemma smul_arith {G H P a q E C : F} (hG : 0 ≤ G) (hH : 0 ≤ H) (ha : 0 ≤ a) (hE : 0 ≤ E) (hq : q ≤ C) (hP : P ≤ 1) {X Y : F}
    (hX : X ≤ H * (P + a) * ((G - 1) * q + G * E)) (hY : Y ≤ ((H - 1) * P + H * a) * q) :
    X + Y ≤ (G * H - 1) * (q * P) + G * H * (a * C + (1 + a) * E) := by
  have s3 : G * H * (a * q) ≤ G * H * (a * C) := by gcongr
  have s4 : G * H * ((P + a) * E) ≤ G * H * ((1 + a) * E) := by gcongr
  have id : H * (P + a) * ((G - 1) * q + G * E) + ((H - 1) * P + H * a) * q = (G * H - 1) * (q * P) + G * H * (a * q) + G * H * ((P + a) * E) := by ring
  linarith

private lemma round_arith {u g Z A B Y X T η L : F} (hug : 1 + u ≤ g) (hZ : 1 ≤ Z) (hg : 1 ≤ g) (hY : 0 ≤ Y) (hA : 0 ≤ A) (hη : 0 ≤ η) (hu : 0 ≤ u)
    (hX : X ≤ Z * (Y + A)) (hT : T ≤ (Z - 1) * Y + Z * A) (hL : L ≤ u * X + η + T) (hB : A + η ≤ B) : L ≤ (Z * g - 1) * Y + Z * g * B := by
  have s1 : u * X ≤ u * (Z * (Y + A)) := mul_le_mul_of_nonneg_left hX hu
  have s2 : (1 + u) * (Z * (Y + A)) ≤ g * (Z * (Y + A)) := mul_le_mul_of_nonneg_right hug (by positivity)
  have hZg : 1 ≤ Z * g := one_le_mul_of_one_le_of_one_le hZ hg
  have s3 : η ≤ (Z * g) * η := le_mul_of_one_le_left hη hZg
  have s4 : (Z * g) * (A + η) ≤ (Z * g) * B := mul_le_mul_of_nonneg_left hB (by linarith)
  have id : g * (Z * (Y + A)) = Z * g * Y + Z * g * A := by ring
  have id2 : (1 + u) * (Z * (Y + A)) = u * (Z * (Y + A)) + Z * Y + Z * A := by ring
  linarith

/-- One factor more, of a value. -/
theorem smul_near {order m n k : ℕ} {a : F} (ha : 0 ≤ a) {e : K} {v : V} {P Q p C : F} (hv : S.Finite v) (he : R.Finite e) (hP1 : P ≤ 1) (hQ0 : 0 ≤ Q) (hQ1 : Q ≤ 1)
    (hp : |p| ≤ C) (hb : Near R.g (5 * order) a (R.val e) P) (hm : m + 1 ≤ n) (hn : n * (2 * a) ≤ 1)
    (h : |S.val v - Q * p| ≤ (R.g ^ k - 1) * (Q * |p|) + R.g ^ k * (2 * m * (a * C + R.η)))
    (hfit : R.Fits (R.g ^ (k + 5 * order) * (C + 2 * n * (a * C + R.η)))) :
    S.Finite (e • v) ∧ |S.val (e • v) - (Q * P) * p| ≤ (R.g ^ (k + (5 * order + 1)) - 1) * (Q * P * |p|) +
      R.g ^ (k + (5 * order + 1)) * (2 * (m + 1 : ℕ) * (a * C + R.η)) := by
  have hg := R.one_le_g
  have hu := R.u_nonneg
  have hη := R.η_nonneg
  have hp0 := abs_nonneg p
  have hC0 := hp0.trans hp
  have hP0 := hb.right
  have he0 := hb.left
  have hk1 : 1 ≤ R.g ^ k := one_le_pow₀ hg
  have ho1 : 1 ≤ R.g ^ (5 * order) := one_le_pow₀ hg
  have hmn : ((m : ℕ) : F) + 1 ≤ n := by exact_mod_cast hm
  have hm0 : (0 : F) ≤ m := Nat.cast_nonneg _
  set B := a * C + R.η with hBd
  have hB0 : 0 ≤ B := by positivity
  set E := 2 * (m : F) * B with hEd
  have hE0 : 0 ≤ E := by positivity
  have hd := hb.abs_sub hg ha
  -- exact product
  have e1 : |R.val e * S.val v - Q * P * p| ≤ (R.g ^ k * R.g ^ (5 * order) - 1) * (Q * P * |p|) + R.g ^ k * R.g ^ (5 * order) * (a * C + (1 + a) * E) := by
    have t : R.val e * S.val v - Q * P * p = R.val e * (S.val v - Q * p) + (R.val e - P) * (Q * p) := by ring
    rw [t]
    refine (abs_add_le _ _).trans ?_
    rw [abs_mul, abs_mul, abs_of_nonneg he0, abs_mul Q, abs_of_nonneg hQ0]
    have q0 : 0 ≤ Q * |p| := mul_nonneg hQ0 hp0
    have r0 : 0 ≤ (R.g ^ k - 1) * (Q * |p|) + R.g ^ k * E := add_nonneg (mul_nonneg (by linarith) q0) (by positivity)
    have s1 : R.val e * |S.val v - Q * p| ≤ R.g ^ (5 * order) * (P + a) * ((R.g ^ k - 1) * (Q * |p|) + R.g ^ k * E) :=
      mul_le_mul hb.le h (abs_nonneg _) (by positivity)
    have s2 : |R.val e - P| * (Q * |p|) ≤ ((R.g ^ (5 * order) - 1) * P + R.g ^ (5 * order) * a) * (Q * |p|) := mul_le_mul_of_nonneg_right hd q0
    have hQC : Q * |p| ≤ C := (mul_le_of_le_one_left hp0 hQ1).trans hp
    rw [show Q * P * |p| = Q * |p| * P by ring]
    exact smul_arith (by positivity) (by positivity) ha hE0 hQC hP1 s1 s2
  -- bound of the absolute part
  have hmE : a * C + (1 + a) * E + R.η ≤ 2 * ((m : F) + 1) * B := by
    have : a * E ≤ B := by
      have : (2 * a * m) ≤ 1 := by nlinarith
      calc a * E = (2 * a * m) * B := by rw [hEd]; ring
        _ ≤ 1 * B := mul_le_mul_of_nonneg_right this hB0
        _ = B := one_mul _
    have e2 : 2 * ((m : F) + 1) * B = E + 2 * B := by rw [hEd]; ring
    rw [e2]
    have e3 : a * C + R.η = B := rfl
    linarith
  have hQP0 : 0 ≤ Q * P * |p| := mul_nonneg (mul_nonneg hQ0 hP0) hp0
  have hQPC : Q * P * |p| ≤ C := by
    have : Q * P ≤ 1 := mul_le_one₀ hQ1 hP0 hP1
    exact (mul_le_of_le_one_left hp0 this).trans hp
  have e4 : |R.val e * S.val v| ≤ R.g ^ k * R.g ^ (5 * order) * (Q * P * |p| + (a * C + (1 + a) * E)) := by
    have h1 := abs_add_le (R.val e * S.val v - Q * P * p) (Q * P * p)
    rw [sub_add_cancel, abs_mul (Q * P), abs_of_nonneg (mul_nonneg hQ0 hP0)] at h1
    linarith
  have hfit' : R.Fits (R.val e * S.val v) := by
    refine R.fits_mono _ _ (e4.trans ?_) hfit
    rw [pow_add]
    refine le_trans ?_ (le_abs_self _)
    have : a * C + (1 + a) * E ≤ 2 * n * B := by
      have : 2 * ((m : F) + 1) * B ≤ 2 * n * B := by gcongr
      linarith
    gcongr
  obtain ⟨f1, r1⟩ := S.smul e v he hv hfit'
  refine ⟨f1, ?_⟩
  have t1 : |S.val (e • v) - Q * P * p| ≤ |S.val (e • v) - R.val e * S.val v| + |R.val e * S.val v - Q * P * p| := by
    have := abs_add_le (S.val (e • v) - R.val e * S.val v) (R.val e * S.val v - Q * P * p)
    rwa [sub_add_sub_cancel] at this
  have hZg : R.g ^ (k + (5 * order + 1)) = R.g ^ k * R.g ^ (5 * order) * R.g := by rw [pow_add, pow_succ]; ring
  rw [hZg]
  push_cast
  exact round_arith R.one_add_u_le (one_le_mul_of_one_le_of_one_le hk1 ho1) hg hQP0 (by positivity) hη hu e4 e1 (by linarith) hmE

/-- A control point multiplied by all coefficients in turn. -/
theorem scaleProd_near {order : ℕ} {a : F} (ha : 0 ≤ a) {e : Fin D → K} {P : Fin D → F} {C : F} {c : V} (hc : S.Finite c) (hC : |S.val c| ≤ C)
    (hE : ∀ d, R.Finite (e d) ∧ Near R.g (5 * order) a (R.val (e d)) (P d)) (hP : ∀ d, P d ≤ 1) (hn : D * (2 * a) ≤ 1)
    (hfit : R.Fits (R.g ^ (D * (5 * order + 1)) * (C + 2 * D * (a * C + R.η)))) :
    S.Finite (Fl.scaleProd e c) ∧ |S.val (Fl.scaleProd e c) - (∏ d, P d) * S.val c| ≤
      (R.g ^ (D * (5 * order + 1)) - 1) * ((∏ d, P d) * |S.val c|) + R.g ^ (D * (5 * order + 1)) * (2 * D * (a * C + R.η)) := by
  have hg := R.one_le_g
  have hη := R.η_nonneg
  have hC0 := (abs_nonneg _).trans hC
  have key : ∀ (l : List (Fin D)) (m : ℕ) (v : V) (Q : F), m + l.length ≤ D → S.Finite v → 0 ≤ Q → Q ≤ 1 →
      |S.val v - Q * S.val c| ≤ (R.g ^ (m * (5 * order + 1)) - 1) * (Q * |S.val c|) + R.g ^ (m * (5 * order + 1)) * (2 * m * (a * C + R.η)) →
      S.Finite (l.foldl (fun v d => e d • v) v) ∧ |S.val (l.foldl (fun v d => e d • v) v) - (Q * (l.map P).prod) * S.val c| ≤
        (R.g ^ ((m + l.length) * (5 * order + 1)) - 1) * (Q * (l.map P).prod * |S.val c|) +
          R.g ^ ((m + l.length) * (5 * order + 1)) * (2 * (m + l.length : ℕ) * (a * C + R.η)) := by
    intro l
    induction l with
    | nil => intro m v Q _ hv _ _ h; exact ⟨hv, by simpa using h⟩
    | cons d l ih =>
      intro m v Q hm hv hQ0 hQ1 h
      simp only [List.length_cons] at hm
      have hfit' : R.Fits (R.g ^ (m * (5 * order + 1) + 5 * order) * (C + 2 * D * (a * C + R.η))) := by
        refine R.fits_of_le (by positivity) ?_ hfit
        refine mul_le_mul_of_nonneg_right (pow_le_pow_right₀ hg ?_) (by positivity)
        calc m * (5 * order + 1) + 5 * order ≤ (m + 1) * (5 * order + 1) := by ring_nf; omega
          _ ≤ D * (5 * order + 1) := Nat.mul_le_mul_right _ (by omega)
      obtain ⟨f1, f2⟩ := smul_near R S (n := D) ha hv (hE d).1 (hP d) hQ0 hQ1 hC (hE d).2 (by omega) hn h hfit'
      rw [show m * (5 * order + 1) + (5 * order + 1) = (m + 1) * (5 * order + 1) by ring] at f2
      have hP0 := (hE d).2.right
      obtain ⟨g1, g2⟩ := ih (m + 1) (e d • v) (Q * P d) (by omega) f1 (mul_nonneg hQ0 hP0) (mul_le_one₀ hQ1 hP0 (hP d)) f2
      refine ⟨g1, ?_⟩
      rw [List.map_cons, List.prod_cons, List.length_cons, ← mul_assoc, List.foldl_cons, show m + (l.length + 1) = m + 1 + l.length by omega]
      exact g2
  have := key (List.finRange D) 0 c 1 (by simp) hc zero_le_one le_rfl (by simp)
  rw [one_mul, List.length_finRange, Nat.zero_add, ← List.ofFn_eq_map, List.prod_ofFn] at this
  exact this

/-- The sum. -/
theorem sum_near {N k : ℕ} {A c : ℕ → F} {C e : F} (hA : ∀ i, 0 ≤ A i) (hAs : ∑ i ∈ Finset.range N, A i = 1) (hc : ∀ i, |c i| ≤ C) (he : 0 ≤ e) {p : ℕ → V}
    (hp : ∀ i, i < N → S.Finite (p i) ∧ |S.val (p i) - A i * c i| ≤ (R.g ^ k - 1) * (A i * |c i|) + R.g ^ k * e)
    (hfit : R.Fits (R.g ^ (k + N) * (C + N * e))) :
    Ok (loop 0 N 0 fun i v => (pure (v + p i) : M V)) fun v => S.Finite v ∧
      |S.val v - ∑ i ∈ Finset.range N, A i * c i| ≤ (R.g ^ (k + N) - 1) * C + R.g ^ (k + N) * (N * e) := by
  have hg := R.one_le_g
  have hC0 : 0 ≤ C := (abs_nonneg _).trans (hc 0)
  have hsumle : ∀ n, n ≤ N → ∑ i ∈ Finset.range n, A i * |c i| ≤ C := fun n hn => by
    calc ∑ i ∈ Finset.range n, A i * |c i| ≤ ∑ i ∈ Finset.range n, A i * C :=
          sum_le_sum fun i _ => mul_le_mul_of_nonneg_left (hc i) (hA i)
      _ ≤ ∑ i ∈ Finset.range N, A i * C := sum_le_sum_of_subset_of_nonneg (Finset.range_subset_range.2 hn) fun i _ _ => mul_nonneg (hA i) hC0
      _ = C := by rw [← sum_mul, hAs, one_mul]
  have main := Spec.loop (E := fun _ => False) (lo := 0) (hi := N) (s := (0 : V))
    (P := fun n v => S.Finite v ∧ |S.val v - ∑ i ∈ Finset.range n, A i * c i| ≤
      (R.g ^ (k + n) - 1) * ∑ i ∈ Finset.range n, A i * |c i| + R.g ^ (k + n) * (n * e))
    (f := fun i v => (pure (v + p i) : M V)) (Nat.zero_le _) ?_ ?_
  · refine main.imp fun v ⟨v1, v2⟩ => ⟨v1, v2.trans ?_⟩
    have h1 : 1 ≤ R.g ^ (k + N) := one_le_pow₀ hg
    have h2 := mul_le_mul_of_nonneg_left (hsumle N le_rfl) (by linarith : 0 ≤ R.g ^ (k + N) - 1)
    linarith
  · exact ⟨S.finite_zero, by rw [S.val_zero]; simp⟩
  intro n v _ hn ⟨hv1, hv2⟩
  obtain ⟨p1, p2⟩ := hp n hn
  have hn' : ((n : ℕ) : F) + 1 ≤ N := by exact_mod_cast hn
  have hstep := add_step R S (k := k + n) (v := v) (p := p n) (A := ∑ i ∈ Finset.range n, A i * c i)
    (B := ∑ i ∈ Finset.range n, A i * |c i|) (a := A n * c n) (b := A n * |c n|) (E := n * e) (e := e)
    (C := C + N * e) hv1 p1 ?_ ?_ hv2 ?_ (by positivity) he ?_ ?_
  · refine Spec.pure ⟨hstep.1, ?_⟩
    have := hstep.2
    rw [sum_range_succ, sum_range_succ]
    refine this.trans (le_of_eq ?_)
    rw [show k + n + 1 = k + (n + 1) by omega]
    push_cast
    ring
  · refine (abs_sum_le_sum_abs _ _).trans (le_of_eq (sum_congr rfl fun i _ => ?_))
    rw [abs_mul, abs_of_nonneg (hA i)]
  · rw [abs_mul, abs_of_nonneg (hA n)]
  · refine p2.trans ?_
    have h1 : R.g ^ k ≤ R.g ^ (k + n) := pow_le_pow_right₀ hg (by omega)
    have h3 := mul_le_mul_of_nonneg_right h1 (mul_nonneg (hA n) (abs_nonneg (c n)))
    have h4 := mul_le_mul_of_nonneg_right h1 he
    linarith
  · have h1 := hsumle (n + 1) hn
    rw [sum_range_succ] at h1
    have h2 := mul_le_mul_of_nonneg_right hn' he
    linarith
  · refine R.fits_of_le (mul_nonneg (by positivity) (by positivity)) ?_ hfit
    exact mul_le_mul_of_nonneg_right (pow_le_pow_right₀ hg (by omega)) (by positivity)

namespace BSpline

variable {b : BSpline D K V} {x : Fin D → K × ℕ} {w : Fin D → K}

theorem ctrlNo_exact (he : (b.exact R S).WF) (hsh : Fl.Shaped b) {s : Fin D → ℕ} (hs : ∀ d, Fl.SegIn b d (s d)) (hl : ∀ d, s d ≤ (b.exact R S).last d) {a : Fin D → ℕ}
    (ha : ∀ d, a d < b.order + 1) : Fl.ctrlNo b s a = fun d => (b.exact R S).ctrlOf d (s d - b.order + a d) := by
  funext d
  have h1 := Fl.ctrlIndex_any hsh (hs d) (ha d)
  rw [ctrlIndex_exact R S, he.ctrlIndex_eq (hs d).1 (hl d)] at h1
  exact (Except.ok.inj h1).symm

/-- Evaluation with any order of the summands `dg` and any way `T` to compute a summand. -/
theorem Fl.point_near {C h W e : F} (he : (b.exact R S).WF) (hsh : Fl.Shaped b) (hb : b.Bounded R S C) (hp : b.Pt R S x w) (hs : (b.exact R S).Spaced h W)
    (hB : R.g ^ (D * (5 * b.order + 1)) * (1 + R.coefErr h b.order D) ≤ 2) (hfW : R.Fits (4 * W)) (hf2 : R.Fits 2) (he0 : 0 ≤ e)
    (hfC : R.Fits (R.g ^ roundings D b.order * (C + (b.order + 1) ^ D * e)))
    (dg : ℕ → Fin D → ℕ) (hdg : ∀ i d, dg i d < b.order + 1)
    (hsum : ∀ G : (Fin D → ℕ) → F, ∑ i ∈ Finset.range ((b.order + 1) ^ D), G (dg i) =
      ∑ i ∈ Finset.range ((b.order + 1) ^ D), G (decode (fun _ : Fin D => b.order + 1) i))
    (T : (Fin D → List K) → ℕ → V → V)
    (hT : ∀ base i (P : Fin D → F) (c : V), i < (b.order + 1) ^ D → (∀ d, (base d).length = b.order + 1) → (∀ d, P d ≤ 1) →
      (∀ d, R.Finite (Fl.el (base d) (dg i d)) ∧ Near R.g (5 * b.order) (R.absErr h b.order) (R.val (Fl.el (base d) (dg i d))) (P d)) →
      S.Finite c → |S.val c| ≤ C → S.Finite (T base i c) ∧ |S.val (T base i c) - (∏ d, P d) * S.val c| ≤
        (R.g ^ (D * (5 * b.order + 1) + 1) - 1) * ((∏ d, P d) * |S.val c|) + R.g ^ (D * (5 * b.order + 1) + 1) * e) :
    ∃ y, (b.exact R S).eval (fun d => (R.val (w d), (x d).2)) = .ok y ∧
      Ok (do
        let segs ← tabM fun d => Fl.getKnotIter' b d (x d).1 (x d).2
        let base ← tabM fun d => Fl.baseSplineValue b.order (b.knots d) (segs d).2 (segs d).1 b.order
        loop 0 ((b.order + 1) ^ D) 0 fun i v => (pure (v + T base i (Fl.ctrlAt b (Fl.ctrlNo b (fun d => (segs d).2) (dg i)))) : M V)) fun v => S.Finite v ∧
        |S.val v - y| ≤ (R.g ^ roundings D b.order - 1) * C + R.g ^ roundings D b.order * ((b.order + 1) ^ D * e) := by
  obtain ⟨s, hat, hin⟩ := hp.at R S he
  obtain ⟨Cf, hC⟩ := Mesh.exists_holds (b.exact R S).ctrl he.ctrl
  refine ⟨_, he.eval_sum (x := fun d => (R.val (w d), (x d).2)) hat hp.hint hC, ?_⟩
  have hg := R.one_le_g
  have hh := hs.pos
  have hord : (b.exact R S).order = b.order := rfl
  have hlen : ∀ d, ((b.exact R S).knots d).length = (b.knots d).length := fun d => List.length_map _
  have hkn : ∀ d, (b.exact R S).kn d = knotFn ((b.knots d).map R.val) := fun d => rfl
  have hmono : ∀ d i j, 1 ≤ i → i ≤ j → j < (b.knots d).length → (b.exact R S).kn d i ≤ (b.exact R S).kn d j := fun d i j h1 h2 h3 =>
    he.mono d i j h1 h2 (by rw [hlen]; exact h3)
  have hseg : ∀ d, b.order ≤ s d ∧ s d + b.order + 1 < (b.knots d).length ∧ s d ≤ (b.exact R S).last d := fun d => by
    have h1 := (hat.seg d).1
    have h2 := (hat.seg d).2.1
    have h3 := he.last_lt d
    rw [hlen, hord] at h3
    rw [hord] at h1
    exact ⟨h1, by omega, h2⟩
  have hsi : ∀ d, Fl.SegIn b d (s d) := fun d => by have := hseg d; exact ⟨this.1, by omega⟩
  have hl : ∀ d i, s d < i + b.order → i ≤ s d → (b.exact R S).kn d i ≤ R.val (w d) := fun d i h1 h2 => by
    have := hseg d
    exact (hmono d i (s d) (by omega) h2 (by omega)).trans (hin d).1
  have hr : ∀ d j, s d < j → j ≤ s d + b.order → R.val (w d) ≤ (b.exact R S).kn d j := fun d j h1 h2 => by
    have := hseg d
    exact (hin d).2.trans (hmono d (s d + 1) j (by omega) h1 (by omega))
  have hnd := fun d => he.seg_nondeg hat d
  rw [tabM_ok (g := fun d => (w d, s d)) (fun d => getKnotIter'_val R S he hb hp hat d), ok_bind]
  refine Spec.bind (tabM_spec (Q := fun d l => l.length = b.order + 1 ∧ ∀ a, a ≤ b.order →
    R.Entry h ((b.exact R S).kn d) (s d) b.order (R.val (w d)) b.order a l) fun d => ?_) fun base hbase => ?_
  · have hsd := hseg d
    have hD : 1 ≤ D := d.pos
    refine Fl.baseSplineValue_near R (W := W) hsd.1 (by omega) (hb.knots d) (hp.finite d) (hnd d) le_rfl (hl d) (hr d) hh ?_ ?_ hfW hf2
    · intro i j h1 h2 h3 h4
      have hlt : (b.exact R S).kn d (s d) < (b.exact R S).kn d (s d + 1) :=
        IsSeg.nondeg (he.kmono d) (by have := he.last_lt d; omega) (he.first d) (he.lastSeg d) (hat.seg d)
      have a1 := hs.min d (s d) hsd.1 hsd.2.2 hlt
      have a2 := hmono d i (s d) (by omega) h2 (by omega)
      have a3 := hmono d (s d + 1) j (by omega) h3 (by omega)
      have a4 := hmono d 1 i (by omega) (by omega) (by omega)
      have a5 := hmono d j ((b.knots d).length - 1) (by omega) (by omega) (by omega)
      have a6 := hs.max d
      rw [hlen] at a6
      rw [← hkn]
      constructor <;> linarith
    · refine le_trans ?_ hB
      have e1 := R.absErr_nonneg hh b.order
      have hη := R.η_nonneg
      refine mul_le_mul (pow_le_pow_right₀ hg ?_) ?_ (by linarith) (by positivity)
      · calc 5 * b.order ≤ 1 * (5 * b.order + 1) := by omega
          _ ≤ _ := Nat.mul_le_mul_right _ hD
      · unfold RoundK.coefErr
        have : (1 : F) ≤ D := by exact_mod_cast hD
        nlinarith
  -- weights and control points in the order of the loop
  set N := (b.order + 1) ^ D with hN
  set wt : (Fin D → ℕ) → F := fun a => ∏ d, piece ((b.exact R S).kn d) (s d) b.order (s d - b.order + a d) (R.val (w d)) with hwt
  set ix : (Fin D → ℕ) → Fin D → ℕ := fun a d => (b.exact R S).ctrlOf d (s d - b.order + a d) with hix
  have hA0 : ∀ a, 0 ≤ wt a := fun a => prod_nonneg fun d _ => piece_nonneg (hl d) (hr d) _ _ le_rfl
  have hAs : ∑ i ∈ Finset.range N, wt (dg i) = 1 := (hsum wt).trans (he.locW_sum hat)
  have hval : ∑ i ∈ Finset.range N, (b.exact R S).locW (fun d => R.val (w d)) s i * Cf ((b.exact R S).locI s i) =
      ∑ i ∈ Finset.range N, wt (dg i) * Cf (ix (dg i)) := (hsum fun a => wt a * Cf (ix a)).symm
  have hIr : ∀ i, InRange b.ctrl.dims (ix (dg i)) := fun i d => by
    have h1 := hseg d
    have h2 := hdg i d
    exact he.ctrlOf_lt (d := d) (i := s d - b.order + dg i d) (by omega)
  have hcv : ∀ i, S.Finite (Fl.ctrlAt b (Fl.ctrlNo b s (dg i))) ∧ |S.val (Fl.ctrlAt b (Fl.ctrlNo b s (dg i)))| ≤ C ∧
      S.val (Fl.ctrlAt b (Fl.ctrlNo b s (dg i))) = Cf (ix (dg i)) := fun i => by
    have e1 := ctrlNo_exact R S he hsh hsi (fun d => (hseg d).2.2) (hdg i)
    have h1 := rd_ctrl R S hC hb (hIr i)
    rw [e1]
    rw [hsh.holds.get (hIr i)] at h1
    exact h1
  show Ok (loop 0 N 0 fun i v => (pure (v + T base i (Fl.ctrlAt b (Fl.ctrlNo b s (dg i)))) : M V)) _
  have h4 : ((N : ℕ) : F) = (b.order + 1) ^ D := by rw [hN]; push_cast; rfl
  have main := sum_near R S (N := N) (k := D * (5 * b.order + 1) + 1) (A := fun i => wt (dg i)) (c := fun i => Cf (ix (dg i))) (C := C) (e := e)
    (fun i => hA0 _) hAs (fun i => by rw [← (hcv i).2.2]; exact (hcv i).2.1) he0 (p := fun i => T base i (Fl.ctrlAt b (Fl.ctrlNo b s (dg i)))) (fun i hi => ?_)
    (by rw [h4]; exact hfC)
  · refine main.imp fun v ⟨v1, v2⟩ => ⟨v1, ?_⟩
    rw [show (b.exact R S).order = b.order from rfl, hval, ← h4]
    exact v2
  · have := hT base i (fun d => piece ((b.exact R S).kn d) (s d) b.order (s d - b.order + dg i d) (R.val (w d))) (Fl.ctrlAt b (Fl.ctrlNo b s (dg i))) hi
      (fun d => (hbase d).1) (fun d => RoundK.piece_le_one (hl d) (hr d) (hnd d) (hseg d).1 le_rfl _) (fun d => ?_) (hcv i).1 (hcv i).2.1
    · rw [← (hcv i).2.2]
      exact this
    · obtain ⟨v, e1, e2, e3⟩ := (hbase d).2 _ (Nat.lt_succ_iff.1 (hdg i d))
      have : Fl.el (base d) (dg i d) = v := by unfold Fl.el; rw [List.getD_eq_getElem?_getD, e1]; rfl
      rw [this]
      exact ⟨e2, e3⟩

end BSpline

end Intp
