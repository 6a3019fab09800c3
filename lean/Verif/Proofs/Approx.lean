import Verif.Proofs.Spans
import Verif.Proofs.Taylor
import Verif.Proofs.Tensor
import Mathlib.Analysis.Calculus.Deriv.Shift

/-!
# Distance of a smooth function from its interpolation
-/

namespace Intp

open Finset BSpline Polynomial

section
variable {t : ℕ → ℝ}

/-- `bcoef` of powers depends on differences only. -/
theorem bcoef_shift_pow {t t' : ℕ → ℝ} {p i i' : ℕ} {τ P : ℝ} (h : ∀ r, r < p → t' (i' + 1 + r) = t (i + 1 + r) + P) {e : ℕ} (he : e ≤ p) :
    bcoef t' p i' ((X - C (τ + P)) ^ e) = bcoef t p i ((X - C τ) ^ e) := by
  have hc : (p.choose e : ℝ) ≠ 0 := by exact_mod_cast (Nat.choose_pos he).ne'
  refine mul_left_cancel₀ hc ?_
  rw [bcoef_coeff t' he, bcoef_coeff t he]
  congr 1
  refine prod_congr rfl fun r hr => ?_
  rw [h r (Finset.mem_range.1 hr)]
  congr 2
  ring

end

/-- The derivatives of a periodic function are periodic. -/
theorem DerivSeq.periodic {N : ℕ} {F : ℕ → ℝ → ℝ} {M : ℝ} (h : DerivSeq Set.univ N F M) {P : ℝ} (h0 : ∀ t, F 0 (t + P) = F 0 t) :
    ∀ k, k ≤ N → ∀ t, F k (t + P) = F k t
  | 0, _, t => h0 t
  | k + 1, hk, t => by
    have ih := DerivSeq.periodic h h0 k (by omega)
    have h1 : HasDerivAt (F k) (F (k + 1) t) t := (h.deriv k (by omega) t trivial).hasDerivAt Filter.univ_mem
    have h2 : HasDerivAt (F k) (F (k + 1) (t + P)) (t + P) := (h.deriv k (by omega) (t + P) trivial).hasDerivAt Filter.univ_mem
    have h3 : HasDerivAt (fun u => F k (u + P)) (F (k + 1) (t + P)) t := h2.comp_add_const t P
    rw [show (fun u => F k (u + P)) = F k from funext ih] at h3
    exact h3.unique h1

theorem bcoef_shift {t : ℕ → ℝ} {p i i' : ℕ} {τ P : ℝ} (h : ∀ r, r < p → t (i' + 1 + r) = t (i + 1 + r) + P) {F : ℕ → ℝ → ℝ}
    (hF : ∀ k, k ≤ p → F k (τ + P) = F k τ) : bcoef t p i' (taylorP F (p + 1) (τ + P)) = bcoef t p i (taylorP F (p + 1) τ) := by
  unfold taylorP
  rw [bcoef_sum, bcoef_sum]
  refine sum_congr rfl fun k hk => ?_
  have hk' : k ≤ p := by have := Finset.mem_range.1 hk; omega
  rw [bcoef_smul, bcoef_smul, bcoef_shift_pow h hk', hF k hk']

theorem periodic_int {f : ℝ → ℝ} {P : ℝ} (h : ∀ t, f (t + P) = f t) (k : ℤ) (t : ℝ) : f (t + k * P) = f t := by
  have := (show Function.Periodic f P from h).int_mul k
  exact this t

/-- Middle of the knots of a basis function. -/
noncomputable def midKnot (o : ℕ) (t : ℕ → ℝ) (i : ℕ) : ℝ := (t (i + 1) + t (i + o)) / 2

theorem XRange.dom_ordConnected (x : XRange ℝ) (N : ℕ) (per : Bool) : (x.dom N per).OrdConnected :=
  ⟨fun _ ha _ hb _ hz hper => ⟨(ha hper).1.trans hz.1, hz.2.trans (hb hper).2⟩⟩

/-- The knots of the basis functions that matter at a point are near it. -/
theorem XRange.Valid.mid_near {o N : ℕ} {per : Bool} {x : XRange ℝ} (h : x.Valid o N per) (ho : 1 ≤ o) {H : ℝ} (hH : x.Gap N H) {y w : ℝ} {s : ℕ}
    (hp : AxisPt o N per x y w s) {i : ℕ} (hi1 : i ≤ s) (hi2 : s ≤ i + o) : midKnot o (x.kt o N per) i ∈ x.dom N per ∧
      ∃ ρ, 0 ≤ ρ ∧ (∀ r, r < o → |x.kt o N per (i + 1 + r) - midKnot o (x.kt o N per) i| ≤ ρ) ∧
        |midKnot o (x.kt o N per) i - w| + ρ ≤ (2 * (o : ℝ) - 1) * H := by
  set t := x.kt o N per with ht
  have hm : KMono (x.knots o (unk per N) per) := h.kmono
  have hlo := hp.lo
  have hhi := hp.hi
  have hmt : ∀ a b, 1 ≤ a → a ≤ b → b < (x.knots o (unk per N) per).length → t a ≤ t b := fun a b h1 h2 h3 => hm a b h1 h2 h3
  have b1 : t (i + 1) ≤ t (i + o) := hmt _ _ (by omega) (by omega) (by omega)
  refine ⟨fun hper => ?_, (t (i + o) - t (i + 1)) / 2, by linarith, fun r hr => ?_, ?_⟩
  · subst hper
    have ax := h.aAxis
    have hlen := ax.len
    rw [show unk false N = N from rfl] at ax hlen
    have b2 : x.node N 0 ≤ t (i + 1) := by
      rw [← ax.left 1 ho]
      exact hmt _ _ le_rfl (by omega) (by omega)
    have b3 : t (i + o) ≤ x.node N (N - 1) := by
      rw [← ax.right (N + o) (by omega) le_rfl]
      refine hmt _ _ (by omega) (by rw [show unk false N = N from rfl] at hhi; omega) (by rw [show unk false N = N from rfl]; omega)
    unfold midKnot
    constructor <;> linarith
  · have c1 := hmt (i + 1) (i + 1 + r) (by omega) (by omega) (by omega)
    have c2 := hmt (i + 1 + r) (i + o) (by omega) (by omega) (by omega)
    unfold midKnot
    rw [abs_le]
    constructor <;> linarith
  · have hle := hp.le
    have hge := hp.ge
    rw [← ht] at hle hge
    unfold midKnot
    rcases Nat.eq_or_lt_of_le hi1 with e | e
    · have c1 := h.span hH ho (k := i) (by omega) (by omega)
      rw [← ht] at c1
      subst e
      have : |(t (i + 1) + t (i + o)) / 2 - w| ≤ (t (i + 1) + t (i + o)) / 2 - t i := by
        rw [abs_of_nonneg (by linarith)]; linarith
      linarith
    · rcases Nat.eq_or_lt_of_le hi2 with e2 | e2
      · have c1 := h.span hH ho (k := i + 1) (by omega) (by omega)
        rw [← ht, show i + 1 + o = s + 1 by omega] at c1
        have e3 : t (i + o) = t s := by rw [e2]
        rw [e3] at b1 ⊢
        have : |(t (i + 1) + t s) / 2 - w| ≤ t (s + 1) - (t (i + 1) + t s) / 2 := by
          rw [abs_of_nonpos (by linarith)]; linarith
        linarith
      · have c1 := h.span hH ho (k := i + 1) (by omega) (by omega)
        rw [← ht] at c1
        have c2 := hmt (i + 1) s (by omega) (by omega) (by omega)
        have c3 := hmt (s + 1) (i + o) (by omega) (by omega) (by omega)
        have c4 := hmt (i + o) (i + 1 + o) (by omega) (by omega) (by omega)
        have : |(t (i + 1) + t (i + o)) / 2 - w| ≤ (t (i + o) - t (i + 1)) / 2 := by
          rw [abs_le]; constructor <;> linarith
        linarith

/-- Coefficients of basis functions that are periods apart. -/
theorem XRange.Valid.mid_wrap {o N : ℕ} {per : Bool} {x : XRange ℝ} (h : x.Valid o N per) (ho : 1 ≤ o) {F : ℕ → ℝ → ℝ} {M : ℝ}
    (hF : DerivSeq (x.dom N per) (o + 1) F M) (hP : per = true → ∀ t, F 0 (t + (x.node N (N - 1) - x.node N 0)) = F 0 t) {y w : ℝ} {s : ℕ}
    (hp : AxisPt o N per x y w s) {i : ℕ} (hi' : i < s + 1) :
    bcoef (x.kt o N per) o (if per then i % unk per N else i) (taylorP F (o + 1) (midKnot o (x.kt o N per) (if per then i % unk per N else i))) =
      bcoef (x.kt o N per) o i (taylorP F (o + 1) (midKnot o (x.kt o N per) i)) := by
  set t := x.kt o N per with ht
  have hhi := hp.hi
  cases hper : per with
  | false => rfl
  | true =>
    subst hper
    rw [if_pos rfl]
    have ax := h.pAxis
    have hb := ax.big
    have hlen := ax.len
    by_cases e : i < unk true N
    · rw [Nat.mod_eq_of_lt e]
    · rw [show i % unk true N = i - unk true N by rw [Nat.mod_eq_sub_mod (by omega), Nat.mod_eq_of_lt (by omega)]]
      have hsh : ∀ r, r < o → t (i + 1 + r) = t (i - unk true N + 1 + r) + (x.node N (N - 1) - x.node N 0) := fun r hr => by
        have := ax.shift (i - unk true N + 1 + r) (.inl (by omega)) (by omega)
        rw [show i - unk true N + 1 + r + unk true N = i + 1 + r by omega] at this
        exact this
      have hτ2 : midKnot o t i = midKnot o t (i - unk true N) + (x.node N (N - 1) - x.node N 0) := by
        have a1 := hsh 0 (by omega)
        have a2 := hsh (o - 1) (by omega)
        rw [show i + 1 + (o - 1) = i + o by omega, show i - unk true N + 1 + (o - 1) = i - unk true N + o by omega] at a2
        simp only [Nat.add_zero] at a1
        unfold midKnot
        rw [a1, a2]; ring
      rw [hτ2]
      refine (bcoef_shift hsh fun k hk => ?_).symm
      have hu : x.dom N true = Set.univ := Set.eq_univ_of_forall fun z hz => by simp at hz
      rw [hu] at hF
      exact hF.periodic (hP rfl) k (by omega) _

/-- A periodic function at the point moved by periods. -/
theorem AxisPt.per_eq {o N : ℕ} {per : Bool} {x : XRange ℝ} {y w : ℝ} {s : ℕ} (hp : AxisPt o N per x y w s) {φ : ℝ → ℝ}
    (hP : per = true → ∀ t, φ (t + (x.node N (N - 1) - x.node N 0)) = φ t) : φ y = φ w := by
  cases hper : per with
  | false => rw [hp.aper hper]
  | true =>
    obtain ⟨k, hk⟩ := hp.shift hper
    rw [hk, periodic_int (hP hper)]

theorem AxisPt.mem_dom {o N : ℕ} {per : Bool} {x : XRange ℝ} {y w : ℝ} {s : ℕ} (hp : AxisPt o N per x y w s) (hy : y ∈ x.dom N per) : w ∈ x.dom N per := by
  intro hper
  rw [hp.aper hper]
  exact hy hper

/-- One dimension: splines close to a smooth function. -/
theorem XRange.Valid.approx {o N : ℕ} {per : Bool} {x : XRange ℝ} (h : x.Valid o N per) (ho : 1 ≤ o) {H : ℝ} (hH : x.Gap N H) {F : ℕ → ℝ → ℝ} {M : ℝ}
    (hF : DerivSeq (x.dom N per) (o + 1) F M) (hP : per = true → ∀ t, F 0 (t + (x.node N (N - 1) - x.node N 0)) = F 0 t) :
    ∃ ξ : ℕ → ℝ, ∀ y ∈ x.dom N per, |F 0 y - ∑ J ∈ Finset.range (unk per N), x.wt o N per 0 y J * ξ J| ≤
      M / (o + 1).factorial * ((2 * (o : ℝ) - 1) * H) ^ (o + 1) := by
  refine ⟨fun J => bcoef (x.kt o N per) o J (taylorP F (o + 1) (midKnot o (x.kt o N per) J)), fun y hy => ?_⟩
  obtain ⟨w, s, hp, h0⟩ := h.axisPt hy
  rw [hp.per_eq hP, hp.sum, sum_congr rfl fun i hi => by rw [h.mid_wrap ho hF hP hp (Finset.mem_range.1 hi)]]
  exact hF.approx (x.dom_ordConnected N per) (hp.mem_dom hy) hp.lo hp.nd (τ := midKnot o (x.kt o N per)) h0 fun i hi1 hi2 => h.mid_near ho hH hp hi1 hi2

/-- One dimension: error of the combination of the data. -/
theorem XRange.Valid.cardinal_err {o N : ℕ} {per : Bool} {x : XRange ℝ} (h : x.Valid o N per) (ho : 1 ≤ o) {H : ℝ} (hH : x.Gap N H) {F : ℕ → ℝ → ℝ} {M : ℝ}
    (hF : DerivSeq (x.dom N per) (o + 1) F M) (hP : per = true → ∀ t, F 0 (t + (x.node N (N - 1) - x.node N 0)) = F 0 t) {A B : ℕ → ℕ → ℝ} {μ : ℝ}
    {ν : ℕ → ℕ} (hν : ∀ r, r < unk per N → ν r < N) (hA : ∀ r J, r < unk per N → J < unk per N → A r J = x.wt o N per 0 (x.node N (ν r)) J)
    (hB : ∀ i < unk per N, ∀ j < unk per N, ∑ k ∈ Finset.range (unk per N), B i k * A k j = if i = j then 1 else 0)
    {y : ℝ} (hμ : ∑ r ∈ Finset.range (unk per N), |cardinal (unk per N) B (x.wt o N per 0 y) r| ≤ μ) (hy : y ∈ x.dom N per) :
    |F 0 y - ∑ r ∈ Finset.range (unk per N), cardinal (unk per N) B (x.wt o N per 0 y) r * F 0 (x.node N (ν r))| ≤
      (1 + μ) * (M / (o + 1).factorial * ((2 * (o : ℝ) - 1) * H) ^ (o + 1)) := by
  obtain ⟨ξ, hξ⟩ := h.approx ho hH hF hP
  set ε := M / (o + 1).factorial * ((2 * (o : ℝ) - 1) * H) ^ (o + 1) with hε
  have e1 := cardinal_spline (u := x.wt o N per 0 y) hB ξ
  have h1 := hξ y hy
  have hε0 : 0 ≤ ε := (abs_nonneg _).trans h1
  rw [← e1] at h1
  have h2 : |∑ r ∈ Finset.range (unk per N), cardinal (unk per N) B (x.wt o N per 0 y) r *
      (F 0 (x.node N (ν r)) - ∑ J ∈ Finset.range (unk per N), A r J * ξ J)| ≤ μ * ε := by
    refine (abs_sum_le_sum_abs _ _).trans ?_
    refine le_trans ?_ (mul_le_mul_of_nonneg_right hμ hε0)
    rw [sum_mul]
    refine sum_le_sum fun r hr => ?_
    rw [abs_mul]
    refine mul_le_mul_of_nonneg_left ?_ (abs_nonneg _)
    have hr' := Finset.mem_range.1 hr
    rw [sum_congr rfl fun J hJ => by rw [hA r J hr' (Finset.mem_range.1 hJ)]]
    exact hξ _ (h.node_dom (hν r hr'))
  have e2 : F 0 y - ∑ r ∈ Finset.range (unk per N), cardinal (unk per N) B (x.wt o N per 0 y) r * F 0 (x.node N (ν r)) =
      (F 0 y - ∑ r ∈ Finset.range (unk per N), cardinal (unk per N) B (x.wt o N per 0 y) r * ∑ J ∈ Finset.range (unk per N), A r J * ξ J) -
      ∑ r ∈ Finset.range (unk per N), cardinal (unk per N) B (x.wt o N per 0 y) r * (F 0 (x.node N (ν r)) - ∑ J ∈ Finset.range (unk per N), A r J * ξ J) := by
    simp only [mul_sub, sum_sub_distrib]; ring
  rw [e2]
  refine (abs_sub _ _).trans ?_
  linarith

/-- Errors of the dimensions add up. -/
theorem tensor_err : ∀ {D : ℕ} {n : Fin D → ℕ} {w : Fin D → ℕ → ℝ} {X : Fin D → ℕ → ℝ} {S : Fin D → Set ℝ} {y : Fin D → ℝ} {f : (Fin D → ℝ) → ℝ}
    {μ κ : Fin D → ℝ}, (∀ d, ∑ r ∈ Finset.range (n d), |w d r| ≤ μ d) → (∀ d, y d ∈ S d) → (∀ d r, r < n d → X d r ∈ S d) →
    (∀ d (z : Fin D → ℝ), (∀ e, z e ∈ S e) →
      |f (Function.update z d (y d)) - ∑ r ∈ Finset.range (n d), w d r * f (Function.update z d (X d r))| ≤ κ d) →
    |f y - tensorVal n w fun r => f fun d => X d (r d)| ≤ ∑ d, (∏ e ∈ univ.filter (· < d), μ e) * κ d
  | 0, n, w, X, S, y, f, μ, κ, _, _, _, _ => by
    unfold tensorVal
    simp only [univ_eq_empty, prod_empty, one_smul, sum_empty]
    rw [Fintype.piFinset_of_isEmpty, univ_unique, sum_singleton]
    have : ∀ z : Fin 0 → ℝ, f y - f z = 0 := fun z => by rw [Subsingleton.elim z y, sub_self]
    rw [this, abs_zero]
  | D + 1, n, w, X, S, y, f, μ, κ, hμ, hy, hX, hκ => by
    have hμ0 : ∀ d, 0 ≤ μ d := fun d => (sum_nonneg fun _ _ => abs_nonneg _).trans (hμ d)
    have ih : ∀ r, r < n 0 → |f (Fin.cons (X 0 r) (Fin.tail y)) - tensorVal (fun d => n d.succ) (fun d => w d.succ)
        fun J => f (Fin.cons (X 0 r) fun d => X d.succ (J d))| ≤ ∑ d, (∏ e ∈ univ.filter (· < d), μ (Fin.succ e)) * κ d.succ := fun r hr => by
      refine tensor_err (n := fun d => n d.succ) (w := fun d => w d.succ) (X := fun d => X d.succ) (S := fun d => S d.succ) (y := Fin.tail y)
        (f := fun z => f (Fin.cons (X 0 r) z)) (μ := fun d => μ d.succ) (κ := fun d => κ d.succ) (fun d => hμ _) (fun d => hy _) (fun d => hX _) fun d z hz => ?_
      have := hκ d.succ (Fin.cons (X 0 r) z) (fun e => by
        refine Fin.cases ?_ (fun e => ?_) e
        · exact hX 0 r hr
        · exact hz e)
      simp only [← Fin.cons_update] at this
      exact this
    have h1 := hκ 0 y hy
    rw [Function.update_eq_self] at h1
    have hc : ∀ a, Function.update y 0 a = (Fin.cons a (Fin.tail y) : Fin (D + 1) → ℝ) := fun a => by
      conv_lhs => rw [← Fin.cons_self_tail y, Fin.update_cons_zero]
    simp only [hc] at h1
    have e1 : tensorVal n w (fun r => f fun d => X d (r d)) = ∑ r ∈ Finset.range (n 0), w 0 r * tensorVal (fun d => n d.succ) (fun d => w d.succ)
        fun J => f (Fin.cons (X 0 r) fun d => X d.succ (J d)) := by
      rw [tensorVal_insert 0]
      refine sum_congr rfl fun r _ => ?_
      rw [smul_eq_mul]
      congr 1
      refine tensorVal_congr (fun J _ => ?_) fun _ _ _ => rfl
      congr 1
      funext d
      refine Fin.cases ?_ (fun e => ?_) d
      · simp
      · simp
    have h2 : |∑ r ∈ Finset.range (n 0), w 0 r * (f (Fin.cons (X 0 r) (Fin.tail y)) - tensorVal (fun d => n d.succ) (fun d => w d.succ)
        fun J => f (Fin.cons (X 0 r) fun d => X d.succ (J d)))| ≤ μ 0 * ∑ d, (∏ e ∈ univ.filter (· < d), μ (Fin.succ e)) * κ d.succ := by
      have hpos : 0 ≤ ∑ d, (∏ e ∈ univ.filter (· < d), μ (Fin.succ e)) * κ d.succ := by
        refine sum_nonneg fun d _ => mul_nonneg (prod_nonneg fun e _ => hμ0 _) ?_
        exact (abs_nonneg _).trans (hκ d.succ y hy)
      refine (abs_sum_le_sum_abs _ _).trans (le_trans ?_ (mul_le_mul_of_nonneg_right (hμ 0) hpos))
      rw [sum_mul]
      refine sum_le_sum fun r hr => ?_
      rw [abs_mul]
      exact mul_le_mul_of_nonneg_left (ih r (Finset.mem_range.1 hr)) (abs_nonneg _)
    have e2 : f y - tensorVal n w (fun r => f fun d => X d (r d)) = (f y - ∑ r ∈ Finset.range (n 0), w 0 r * f (Fin.cons (X 0 r) (Fin.tail y))) +
        ∑ r ∈ Finset.range (n 0), w 0 r * (f (Fin.cons (X 0 r) (Fin.tail y)) - tensorVal (fun d => n d.succ) (fun d => w d.succ)
        fun J => f (Fin.cons (X 0 r) fun d => X d.succ (J d))) := by
      rw [e1]
      simp only [mul_sub, sum_sub_distrib]; ring
    rw [e2, Fin.sum_univ_succ]
    refine (abs_add_le _ _).trans (add_le_add ?_ ?_)
    · have : univ.filter (fun e : Fin (D + 1) => e < 0) = ∅ := by
        refine filter_false_of_mem fun e _ => by simp
      rw [this, prod_empty, one_mul]
      exact h1
    · refine h2.trans (le_of_eq ?_)
      rw [mul_sum]
      refine sum_congr rfl fun d _ => ?_
      rw [← mul_assoc]
      congr 1
      have : univ.filter (fun e : Fin (D + 1) => e < d.succ) = insert 0 ((univ.filter (· < d)).map (Fin.succEmb D)) := by
        ext e
        refine Fin.cases ?_ (fun e => ?_) e
        · simp
        · simp [Fin.succ_ne_zero]
      rw [this, prod_insert (by simp [Fin.succ_ne_zero]), prod_map]
      rfl

end Intp
