import Verif.Spec.CoxDeBoor
import Mathlib.LinearAlgebra.Matrix.Determinant.Basic
import Mathlib.Algebra.Order.BigOperators.Ring.Finset
import Mathlib.Order.Fin.Basic
import Mathlib.Tactic.Linarith
import Mathlib.Tactic.Ring
import Mathlib.Tactic.FieldSimp
import Mathlib.Tactic.LinearCombination

/-!
# Total positivity of B-spline collocation matrices

Minors of `(N_j(x_a))` are non-negative, and positive if every point lies inside the support of its basis function (Schoenberg–Whitney).
The proof inserts knots until all points have full multiplicity; every insertion writes a basis function as a non-negative combination of two
neighbouring ones on the finer knots.  It works in every ordered field.
-/

namespace Intp

open Finset

variable {K : Type} [Field K] [LinearOrder K] [IsStrictOrderedRing K]

omit [IsStrictOrderedRing K] in
/-- A basis function depends on its own knots only. -/
theorem cox_congr {t u : ℕ → K} {e e' : ℕ} (x : K) : ∀ k i : ℕ, (∀ j, j ≤ k + 1 → t (i + j + e) = u (i + j + e')) →
    cox t k (i + e) x = cox u k (i + e') x
  | 0, i, h => by
    have h0 := h 0 (by omega)
    have h1 := h 1 (by omega)
    simp only [cox]
    rw [show i + e + 1 = i + 1 + e by omega, show i + e' + 1 = i + 1 + e' by omega, h1]
    simp only [Nat.add_zero] at h0
    rw [h0]
  | k + 1, i, h => by
    have h0 := h 0 (by omega)
    have h1 := h 1 (by omega)
    have h2 := h (k + 1) (by omega)
    have h3 := h (k + 2) (by omega)
    simp only [Nat.add_zero] at h0
    have e2 := cox_congr (t := t) (u := u) (e := e) (e' := e') x k (i + 1) fun j hj => by
      have := h (j + 1) (by omega)
      rwa [show i + (j + 1) = i + 1 + j by omega] at this
    rw [cox, cox, cox_congr x k i fun j hj => h j (by omega), show i + e + 1 = i + 1 + e by omega, show i + e' + 1 = i + 1 + e' by omega, e2,
      show i + e + k + 1 = i + (k + 1) + e by omega, show i + e' + k + 1 = i + (k + 1) + e' by omega,
      show i + e + k + 2 = i + (k + 2) + e by omega, show i + e' + k + 2 = i + (k + 2) + e' by omega, h0, h1, h2, h3]

/-- Knot insertion (Boehm): `u` is `t` with the knot `u m` inserted at position `m`. -/
theorem cox_insert {t u : ℕ → K} {m : ℕ} (hu : Monotone u) (h1 : ∀ i, i < m → t i = u i) (h2 : ∀ i, m ≤ i → t i = u (i + 1)) (x : K) :
    ∀ p i : ℕ, i < m → m < i + p + 2 → cox t p i x = (u m - u i) / (u (i + p + 1) - u i) * cox u p i x +
      (u (i + p + 2) - u m) / (u (i + p + 2) - u (i + 1)) * cox u p (i + 1) x
  | 0, i, hi, hm => by
    obtain rfl : m = i + 1 := by omega
    simp only [cox, Nat.add_zero]
    rw [h1 i (by omega), h2 (i + 1) le_rfl]
    have m1 := hu (show i ≤ i + 1 by omega)
    have m2 := hu (show i + 1 ≤ i + 1 + 1 by omega)
    rw [show i + 1 + 1 = i + 2 by omega] at *
    rcases m1.eq_or_lt with e1 | e1
    · rcases m2.eq_or_lt with e2 | e2
      · rw [e1, e2]; simp [← not_le]
      · rw [e1, sub_self, zero_div, zero_mul, zero_add, div_self (sub_ne_zero.2 e2.ne'), one_mul]
    · rw [div_self (sub_ne_zero.2 e1.ne'), one_mul]
      rcases m2.eq_or_lt with e2 | e2
      · rw [e2, sub_self, zero_div, zero_mul, add_zero]
      · rw [div_self (sub_ne_zero.2 e2.ne'), one_mul]
        by_cases a : u i ≤ x
        · by_cases b : x < u (i + 1)
          · have : x < u (i + 2) := b.trans e2
            simp [a, b, this, not_le.2 b]
          · simp [a, b, not_lt.1 b]
        · have b : ¬ u (i + 1) ≤ x := fun h => a (m1.trans h)
          simp [a, b]
  | p + 1, i, hi, hm => by
    have M : ∀ {a b : ℕ}, a ≤ b → u a ≤ u b := fun h => hu h
    rw [cox, cox, cox]
    by_cases c1 : m = i + p + 2
    · subst c1
      have e1 : cox t p i x = cox u p i x := by
        have := cox_congr (t := t) (u := u) (e := 0) (e' := 0) x p i fun j hj => h1 _ (by omega)
        simpa using this
      rw [e1, cox_insert hu h1 h2 x p (i + 1) (by omega) (by omega), h1 i (by omega), h1 (i + p + 1) (by omega),
        h2 (i + p + 2) le_rfl, h1 (i + 1) (by omega)]
      simp only [show i + 1 + p + 1 = i + p + 2 by omega, show i + 1 + p + 2 = i + p + 3 by omega, show i + 1 + 1 = i + 2 by omega,
        show i + (p + 1) + 1 = i + p + 2 by omega, show i + (p + 1) + 2 = i + p + 3 by omega, show i + p + 2 + 1 = i + p + 3 by omega]
      have ab := M (show i ≤ i + 1 by omega)
      have ac := M (show i ≤ i + p + 1 by omega)
      have cd := M (show i + p + 1 ≤ i + p + 2 by omega)
      have de := M (show i + p + 2 ≤ i + p + 3 by omega)
      have bd := M (show i + 1 ≤ i + p + 2 by omega)
      generalize u i = a at *
      generalize u (i + 1) = b at *
      generalize u (i + 2) = b2 at *
      generalize u (i + p + 1) = c at *
      generalize u (i + p + 2) = d at *
      generalize u (i + p + 3) = e at *
      generalize cox u p i x = N0
      generalize cox u p (i + 1) x = N1
      generalize cox u p (i + 2) x = N2
      have t0 : (d - a) / (d - a) * ((x - a) / (c - a)) = (x - a) / (c - a) := by
        by_cases h : d = a
        · have : c = a := le_antisymm (cd.trans h.le) ac
          rw [this]; simp
        · rw [div_self (sub_ne_zero.2 h), one_mul]
      have t1 : (e - x) / (e - b) * ((d - b) / (d - b)) =
          (d - a) / (d - a) * ((d - x) / (d - b)) + (e - d) / (e - b) * ((x - b) / (d - b)) := by
        by_cases h : d = b
        · rw [h]; simp
        · have hdb : 0 < d - b := sub_pos.2 (lt_of_le_of_ne bd (Ne.symm h))
          have hda : d - a ≠ 0 := by linarith
          have heb : e - b ≠ 0 := by linarith
          have hdb' := hdb.ne'
          field_simp
          ring
      linear_combination (-N0) * t0 + N1 * t1
    by_cases c2 : m = i + 1
    · subst c2
      have e1 : cox t p (i + 1) x = cox u p (i + 2) x := by
        have := cox_congr (t := t) (u := u) (e := 0) (e' := 1) x p (i + 1) fun j hj => by
          simpa using h2 (i + 1 + j) (by omega)
        simpa using this
      rw [e1, cox_insert hu h1 h2 x p i (by omega) (by omega), h1 i (by omega), h2 (i + p + 1) (by omega),
        h2 (i + p + 2) (by omega), h2 (i + 1) le_rfl]
      simp only [show i + 1 + p + 1 = i + p + 2 by omega, show i + 1 + p + 2 = i + p + 3 by omega, show i + 1 + 1 = i + 2 by omega,
        show i + (p + 1) + 1 = i + p + 2 by omega, show i + (p + 1) + 2 = i + p + 3 by omega, show i + p + 2 + 1 = i + p + 3 by omega,
        show i + p + 1 + 1 = i + p + 2 by omega]
      have ab := M (show i ≤ i + 1 by omega)
      have bb := M (show i + 1 ≤ i + 2 by omega)
      have bd := M (show i + 1 ≤ i + p + 2 by omega)
      have be := M (show i + 2 ≤ i + p + 3 by omega)
      have de := M (show i + p + 2 ≤ i + p + 3 by omega)
      generalize u i = a at *
      generalize u (i + 1) = b at *
      generalize u (i + 2) = b2 at *
      generalize u (i + p + 1) = c at *
      generalize u (i + p + 2) = d at *
      generalize u (i + p + 3) = e at *
      generalize cox u p i x = N0
      generalize cox u p (i + 1) x = N1
      generalize cox u p (i + 2) x = N2
      have t0 : (e - b) / (e - b) * ((e - x) / (e - b2)) = (e - x) / (e - b2) := by
        by_cases h : e = b
        · have : e = b2 := le_antisymm (h.le.trans bb) be
          rw [← this]; simp
        · rw [div_self (sub_ne_zero.2 h), one_mul]
      have t1 : (x - a) / (d - a) * ((d - b) / (d - b)) =
          (b - a) / (d - a) * ((d - x) / (d - b)) + (e - b) / (e - b) * ((x - b) / (d - b)) := by
        by_cases h : d = b
        · rw [h]; simp
        · have hdb : 0 < d - b := sub_pos.2 (lt_of_le_of_ne bd (Ne.symm h))
          have hda : d - a ≠ 0 := by linarith
          have heb : e - b ≠ 0 := by linarith
          have hdb' := hdb.ne'
          field_simp
          ring
      linear_combination (-N2) * t0 + N1 * t1
    · rw [cox_insert hu h1 h2 x p i (by omega) (by omega), cox_insert hu h1 h2 x p (i + 1) (by omega) (by omega), h1 i (by omega),
        h2 (i + p + 1) (by omega), h2 (i + p + 2) (by omega), h1 (i + 1) (by omega)]
      simp only [show i + 1 + p + 1 = i + p + 2 by omega, show i + 1 + p + 2 = i + p + 3 by omega, show i + 1 + 1 = i + 2 by omega,
        show i + (p + 1) + 1 = i + p + 2 by omega, show i + (p + 1) + 2 = i + p + 3 by omega, show i + p + 2 + 1 = i + p + 3 by omega,
        show i + p + 1 + 1 = i + p + 2 by omega]
      have ab := M (show i ≤ i + 1 by omega)
      have bd := M (show i + 1 ≤ i + p + 2 by omega)
      have de := M (show i + p + 2 ≤ i + p + 3 by omega)
      generalize u i = a at *
      generalize u (i + 1) = b at *
      generalize u (i + 2) = b2 at *
      generalize u (i + p + 1) = c at *
      generalize u (i + p + 2) = d at *
      generalize u (i + p + 3) = e at *
      generalize u m = τ at *
      generalize cox u p i x = N0
      generalize cox u p (i + 1) x = N1
      generalize cox u p (i + 2) x = N2
      have t1 : (x - a) / (d - a) * ((d - τ) / (d - b)) + (e - x) / (e - b) * ((τ - b) / (d - b)) =
          (τ - a) / (d - a) * ((d - x) / (d - b)) + (e - τ) / (e - b) * ((x - b) / (d - b)) := by
        by_cases h : d = b
        · rw [h]; simp
        · have hdb : 0 < d - b := sub_pos.2 (lt_of_le_of_ne bd (Ne.symm h))
          have hda : d - a ≠ 0 := by linarith
          have heb : e - b ≠ 0 := by linarith
          have hdb' := hdb.ne'
          field_simp
          ring
      linear_combination N1 * t1

/-- Weights of the two finer basis functions in `cox t p i`. -/
noncomputable def insA (u : ℕ → K) (m p i : ℕ) : K :=
  if i + p + 2 ≤ m then 1 else if m ≤ i then 0 else (u m - u i) / (u (i + p + 1) - u i)

/-- See `insA`. -/
noncomputable def insB (u : ℕ → K) (m p i : ℕ) : K :=
  if i + p + 2 ≤ m then 0 else if m ≤ i then 1 else (u (i + p + 2) - u m) / (u (i + p + 2) - u (i + 1))

theorem insA_nonneg {u : ℕ → K} (hu : Monotone u) (m p i : ℕ) : 0 ≤ insA u m p i := by
  unfold insA
  split
  · exact zero_le_one
  · split
    · exact le_rfl
    · exact div_nonneg (sub_nonneg.2 (hu (by omega))) (sub_nonneg.2 (hu (by omega)))

theorem insB_nonneg {u : ℕ → K} (hu : Monotone u) (m p i : ℕ) : 0 ≤ insB u m p i := by
  unfold insB
  split
  · exact le_rfl
  · split
    · exact zero_le_one
    · exact div_nonneg (sub_nonneg.2 (hu (by omega))) (sub_nonneg.2 (hu (by omega)))

/-- Knot insertion for all basis functions. -/
theorem cox_insert_all {t u : ℕ → K} {m : ℕ} (hu : Monotone u) (h1 : ∀ i, i < m → t i = u i) (h2 : ∀ i, m ≤ i → t i = u (i + 1)) (x : K)
    (p i : ℕ) : cox t p i x = insA u m p i * cox u p i x + insB u m p i * cox u p (i + 1) x := by
  unfold insA insB
  by_cases c1 : i + p + 2 ≤ m
  · rw [if_pos c1, if_pos c1, one_mul, zero_mul, add_zero]
    have := cox_congr (t := t) (u := u) (e := 0) (e' := 0) x p i fun j hj => h1 _ (by omega)
    simpa using this
  · by_cases c2 : m ≤ i
    · rw [if_neg c1, if_neg c1, if_pos c2, if_pos c2, one_mul, zero_mul, zero_add]
      have := cox_congr (t := t) (u := u) (e := 0) (e' := 1) x p i fun j hj => by simpa using h2 (i + j) (by omega)
      simpa using this
    · rw [if_neg c1, if_neg c1, if_neg c2, if_neg c2, cox_insert hu h1 h2 x p i (by omega) (by omega)]

/-- Basis functions at a point that is a knot of full multiplicity. -/
theorem cox_full {t : ℕ → K} (ht : Monotone t) {s p : ℕ} {x : K} (h0 : t s ≤ x) (h1 : x < t (s + 1))
    (hf : ∀ i, s < i + p → i ≤ s → t i = x) : ∀ k i : ℕ, k ≤ p → cox t k i x = if i + k = s then 1 else 0
  | 0, i, _ => by
    simp only [cox, Nat.add_zero]
    by_cases h : i = s
    · subst h; simp [h0, h1]
    · rw [if_neg h, if_neg]
      rintro ⟨a, b⟩
      rcases lt_or_gt_of_ne h with h | h
      · exact absurd (lt_of_lt_of_le b ((ht (show i + 1 ≤ s by omega)).trans h0)) (lt_irrefl _)
      · exact absurd (lt_of_lt_of_le h1 ((ht (show s + 1 ≤ i by omega)).trans a)) (lt_irrefl _)
  | k + 1, i, hk => by
    rw [cox, cox_full ht h0 h1 hf k i (by omega), cox_full ht h0 h1 hf k (i + 1) (by omega)]
    by_cases c1 : i + k = s
    · rw [hf i (by omega) (by omega), if_neg (c := i + 1 + k = s) (by omega), if_neg (c := i + (k + 1) = s) (by omega)]; simp
    · rw [if_neg c1, mul_zero, zero_add]
      by_cases c2 : i + 1 + k = s
      · rw [if_pos c2, if_pos (by omega), hf (i + 1) (by omega) (by omega), show i + k + 2 = s + 1 by omega,
          div_self (sub_ne_zero.2 h1.ne'), mul_one]
      · rw [if_neg c2, if_neg (by omega), mul_zero]

/-- Matrix of the basis functions `j` at the points `x`. -/
def colloc {n : ℕ} (t : ℕ → K) (p : ℕ) (j : Fin n → ℕ) (x : Fin n → K) : Matrix (Fin n) (Fin n) K :=
  Matrix.of fun b a => cox t p (j b) (x a)

/-- A minor after knot insertion. -/
theorem det_insert {n : ℕ} {t u : ℕ → K} {m : ℕ} (hu : Monotone u) (h1 : ∀ i, i < m → t i = u i) (h2 : ∀ i, m ≤ i → t i = u (i + 1))
    (p : ℕ) (j : Fin n → ℕ) (x : Fin n → K) :
    (colloc t p j x).det = ∑ S : Finset (Fin n), (∏ b, if b ∈ S then insA u m p (j b) else insB u m p (j b)) *
      (colloc u p (fun b => j b + if b ∈ S then 0 else 1) x).det := by
  have e : colloc t p j x = (fun b => insA u m p (j b) • fun a => cox u p (j b) (x a)) +
      fun b => insB u m p (j b) • fun a => cox u p (j b + 1) (x a) := by
    ext b a
    exact cox_insert_all hu h1 h2 (x a) p (j b)
  have := (Matrix.detRowAlternating (R := K) (n := Fin n)).toMultilinearMap.map_add_univ
    (fun b => insA u m p (j b) • fun a => cox u p (j b) (x a)) (fun b => insB u m p (j b) • fun a => cox u p (j b + 1) (x a))
  have e' : (colloc t p j x).det = (Matrix.detRowAlternating (R := K) (n := Fin n)).toMultilinearMap
      ((fun b => insA u m p (j b) • fun a => cox u p (j b) (x a)) + fun b => insB u m p (j b) • fun a => cox u p (j b + 1) (x a)) := by
    rw [← e]; rfl
  rw [e', this]
  refine sum_congr rfl fun S _ => ?_
  have hS : S.piecewise (fun b => insA u m p (j b) • fun a => cox u p (j b) (x a))
      (fun b => insB u m p (j b) • fun a => cox u p (j b + 1) (x a)) =
      fun b => (if b ∈ S then insA u m p (j b) else insB u m p (j b)) • (fun a => cox u p (j b + if b ∈ S then 0 else 1) (x a)) := by
    funext b
    by_cases hb : b ∈ S
    · simp [hb]
    · simp [hb]
  rw [hS, MultilinearMap.map_smul_univ, smul_eq_mul]
  rfl

/-- Minors if every point is a knot of full multiplicity. -/
theorem colloc_full {n p : ℕ} {t : ℕ → K} (ht : Monotone t) {x : Fin n → K} (hx : StrictMono x) {s : Fin n → ℕ}
    (hs : ∀ a, t (s a) ≤ x a ∧ x a < t (s a + 1) ∧ ∀ i, s a < i + p → i ≤ s a → t i = x a) {j : Fin n → ℕ} (hj : StrictMono j) :
    0 ≤ (colloc t p j x).det ∧ ((∀ a, t (j a) < x a ∧ x a < t (j a + p + 1)) → 0 < (colloc t p j x).det) := by
  have hent : ∀ b a, colloc t p j x b a = if j b + p = s a then 1 else 0 := fun b a =>
    cox_full ht (hs a).1 (hs a).2.1 (hs a).2.2 p (j b) le_rfl
  have hsm : Monotone s := by
    intro a b hab
    by_contra hc
    exact absurd (lt_of_lt_of_le (hs b).2.1 ((ht (show s b + 1 ≤ s a by omega)).trans (hs a).1)) (not_lt.2 (hx.monotone hab))
  have hone : (∀ a, j a + p = s a) → (colloc t p j x).det = 1 := by
    intro h
    have : colloc t p j x = 1 := by
      ext b a
      rw [hent, Matrix.one_apply, ← h a]
      by_cases hab : b = a
      · rw [if_pos hab, if_pos (by rw [hab])]
      · rw [if_neg hab, if_neg]
        intro hc
        exact hab (hj.injective (by omega))
    rw [this, Matrix.det_one]
  refine ⟨?_, fun hsw => ?_⟩
  · by_cases h0 : (colloc t p j x).det = 0
    · rw [h0]
    · rw [hone]
      · exact zero_le_one
      have hcol : ∀ a, ∃ b, j b + p = s a := by
        intro a
        by_contra hc
        push Not at hc
        exact h0 (Matrix.det_eq_zero_of_column_eq_zero a fun b => by rw [hent, if_neg (hc b)])
      choose σ hσ using hcol
      have hsinj : Function.Injective s := by
        intro a b hab
        by_contra hne
        exact h0 (Matrix.det_zero_of_column_eq hne fun r => by rw [hent, hent, hab])
      have hss : StrictMono s := hsm.strictMono_of_injective hsinj
      have hσm : StrictMono σ := by
        intro a b hab
        have := hss hab
        rw [← hσ a, ← hσ b] at this
        exact hj.lt_iff_lt.1 (by omega)
      have hid : σ = id := (hσm.range_inj strictMono_id).1
        (by rw [Set.range_id, (Finite.injective_iff_surjective.1 hσm.injective).range_eq])
      intro a
      have := hσ a
      rwa [hid] at this
  · rw [hone]
    · exact zero_lt_one
    · intro a
      obtain ⟨h1, h2⟩ := hsw a
      obtain ⟨s1, s2, s3⟩ := hs a
      by_contra hne
      rcases lt_or_gt_of_ne hne with h | h
      · exact absurd (lt_of_lt_of_le h2 ((ht (show j a + p + 1 ≤ s a by omega)).trans s1)) (lt_irrefl _)
      · by_cases hle : j a ≤ s a
        · rw [s3 _ h hle] at h1
          exact lt_irrefl _ h1
        · exact absurd (lt_of_lt_of_le s2 ((ht (show s a + 1 ≤ j a by omega)).trans h1.le)) (lt_irrefl _)

/-- `t` with `τ` inserted at position `m`. -/
def insKnot (t : ℕ → K) (m : ℕ) (τ : K) (i : ℕ) : K := if i < m then t i else if i = m then τ else t (i - 1)

omit [IsStrictOrderedRing K] in
theorem insKnot_mono {t : ℕ → K} (ht : Monotone t) {s : ℕ} {τ : K} (h0 : t s ≤ τ) (h1 : τ < t (s + 1)) : Monotone (insKnot t (s + 1) τ) := by
  refine monotone_nat_of_le_succ fun i => ?_
  unfold insKnot
  by_cases c1 : i + 1 < s + 1
  · rw [if_pos (by omega), if_pos c1]; exact ht (by omega)
  · rw [if_neg c1]
    by_cases c2 : i + 1 = s + 1
    · rw [if_pos (by omega), if_pos c2]
      obtain rfl : i = s := by omega
      exact h0
    · rw [if_neg c2, if_neg (by omega)]
      by_cases c3 : i = s + 1
      · rw [if_pos c3, c3]; exact h1.le
      · rw [if_neg c3]; exact ht (by omega)

/-- Minors of the collocation matrix. `need a` is the number of insertions still to be made at `x a`. -/
theorem colloc_aux {n p : ℕ} {x : Fin n → K} (hx : StrictMono x) : ∀ (N : ℕ) (t : ℕ → K) (need s : Fin n → ℕ), Monotone t →
    ∑ a, need a ≤ N →
    (∀ a, t (s a) ≤ x a ∧ x a < t (s a + 1) ∧ ∀ i, s a < i + (p - need a) → i ≤ s a → t i = x a) →
    ∀ j : Fin n → ℕ, StrictMono j →
    0 ≤ (colloc t p j x).det ∧ ((∀ a, t (j a) < x a ∧ x a < t (j a + p + 1)) → 0 < (colloc t p j x).det) := by
  intro N
  induction N with
  | zero =>
    intro t need s ht hN hs j hj
    have h0 : ∀ a, need a = 0 := fun a => by
      have := single_le_sum (f := need) (fun _ _ => Nat.zero_le _) (mem_univ a)
      omega
    exact colloc_full ht hx (fun a => by have := hs a; rwa [h0 a, Nat.sub_zero] at this) hj
  | succ N ih =>
    intro t need s ht hN hs j hj
    by_cases hall : ∀ a, need a = 0
    · exact colloc_full ht hx (fun a => by have := hs a; rwa [hall a, Nat.sub_zero] at this) hj
    push Not at hall
    obtain ⟨c, hc⟩ := hall
    have hsum : ∀ v, v < need c → ∑ a, Function.update need c v a ≤ N := by
      intro v hv
      have : ∑ a, Function.update need c v a < ∑ a, need a := by
        refine sum_lt_sum (fun a _ => ?_) ⟨c, mem_univ c, by simpa using hv⟩
        by_cases h : a = c
        · subst h; simpa using hv.le
        · rw [Function.update_of_ne h]
      omega
    by_cases hfull : ∀ i, s c < i + p → i ≤ s c → t i = x c
    · refine ih t (Function.update need c 0) s ht (hsum 0 (by omega)) (fun a => ?_) j hj
      by_cases h : a = c
      · subst h
        refine ⟨(hs a).1, (hs a).2.1, ?_⟩
        simpa using hfull
      · rw [Function.update_of_ne h]; exact hs a
    push Not at hfull
    obtain ⟨i₀, hi1, hi2, hi3⟩ := hfull
    obtain ⟨c1, c2, c3⟩ := hs c
    set τ := x c with hτ
    set m := s c + 1 with hm
    set u := insKnot t m τ with hu
    have um : Monotone u := insKnot_mono ht c1 c2
    have u1 : ∀ i, i < m → t i = u i := fun i hi => by rw [hu, insKnot, if_pos hi]
    have u2 : ∀ i, m ≤ i → t i = u (i + 1) := fun i hi => by rw [hu, insKnot, if_neg (by omega), if_neg (by omega), Nat.add_sub_cancel]
    have um' : u m = τ := by rw [hu, insKnot, if_neg (by omega), if_pos rfl]
    have hinv : ∀ a, u ((fun a => if x a < τ then s a else s a + 1) a) ≤ x a ∧ x a < u ((fun a => if x a < τ then s a else s a + 1) a + 1) ∧
        ∀ i, (fun a => if x a < τ then s a else s a + 1) a < i + (p - Function.update need c (need c - 1) a) →
          i ≤ (fun a => if x a < τ then s a else s a + 1) a → u i = x a := by
      intro a
      obtain ⟨a1, a2, a3⟩ := hs a
      simp only
      rcases lt_trichotomy (x a) τ with h | h | h
      · have hac : a ≠ c := by rintro rfl; exact lt_irrefl _ h
        rw [if_pos h, Function.update_of_ne hac]
        have hsa : s a < m := by
          by_contra hcon
          exact absurd (lt_of_lt_of_le c2 ((ht (not_lt.1 hcon)).trans a1)) (not_lt.2 h.le)
        refine ⟨by rw [← u1 _ hsa]; exact a1, ?_, fun i hi1 hi2 => by rw [← u1 _ (by omega)]; exact a3 i hi1 hi2⟩
        by_cases e : s a + 1 < m
        · rw [← u1 _ e]; exact a2
        · rw [show s a + 1 = m by omega, um']; exact h
      · obtain rfl : a = c := hx.injective h
        rw [if_neg (by rw [h]; exact lt_irrefl _), Function.update_self]
        refine ⟨by rw [show s a + 1 = m from rfl, um', h], by rw [← u2 _ le_rfl]; exact a2, fun i hi1 hi2 => ?_⟩
        by_cases e : i = m
        · rw [e, um', h]
        · rw [← u1 _ (by omega)]
          exact a3 i (by omega) (by omega)
      · have hac : a ≠ c := by rintro rfl; exact lt_irrefl _ h
        rw [if_neg (not_lt.2 h.le), Function.update_of_ne hac]
        have hsa : s c ≤ s a := by
          by_contra hcon
          exact absurd (lt_of_lt_of_le a2 ((ht (show s a + 1 ≤ s c by omega)).trans c1)) (not_lt.2 h.le)
        refine ⟨?_, by rw [← u2 _ (by omega)]; exact a2, fun i hi1 hi2 => ?_⟩
        · by_cases e : s a = s c
          · rw [e, show s c + 1 = m from rfl, um']; exact h.le
          · rw [← u2 _ (by omega)]; exact a1
        · have key : m < i := by
            by_contra hcon
            have := a3 (i - 1) (by omega) (by omega)
            have h3 : t (i - 1) ≤ t (s c) := ht (by omega)
            rw [this] at h3
            exact absurd (h3.trans c1) (not_le.2 h)
          have := u2 (i - 1) (by omega)
          rw [show i - 1 + 1 = i by omega] at this
          rw [← this]
          exact a3 (i - 1) (by omega) (by omega)
    have hrec := ih u (Function.update need c (need c - 1)) _ um (hsum _ (by omega)) hinv
    rw [det_insert um u1 u2 p j x]
    have hterm : ∀ S : Finset (Fin n), 0 ≤ (∏ b, if b ∈ S then insA u m p (j b) else insB u m p (j b)) *
        (colloc u p (fun b => j b + if b ∈ S then 0 else 1) x).det := by
      intro S
      refine mul_nonneg (prod_nonneg fun b _ => ?_) ?_
      · split
        · exact insA_nonneg um m p _
        · exact insB_nonneg um m p _
      · by_cases hinj : Function.Injective fun b => j b + if b ∈ S then 0 else 1
        · have hmono : Monotone fun b => j b + if b ∈ S then 0 else 1 := by
            intro a b hab
            rcases hab.eq_or_lt with rfl | hab
            · exact le_rfl
            · have := hj hab
              simp only
              split <;> split <;> omega
          exact (hrec _ (hmono.strictMono_of_injective hinj)).1
        · rw [Function.Injective] at hinj
          push Not at hinj
          obtain ⟨a, b, hab, hne⟩ := hinj
          rw [Matrix.det_zero_of_row_eq hne]
          funext r
          exact congrArg (fun i => cox u p i (x r)) hab
    refine ⟨sum_nonneg fun S _ => hterm S, fun hsw => ?_⟩
    set S : Finset (Fin n) := univ.filter fun b => b < c ∨ (b = c ∧ s c < j c + p) with hS
    have memS : ∀ b, b ∈ S ↔ (b < c ∨ (b = c ∧ s c < j c + p)) := fun b => by rw [hS, mem_filter]; simp
    have hgood : ∀ b, (b ∈ S → 0 < insA u m p (j b) ∧ u (j b) < x b ∧ x b < u (j b + p + 1)) ∧
        (b ∉ S → 0 < insB u m p (j b) ∧ u (j b + 1) < x b ∧ x b < u (j b + 1 + p + 1)) := by
      intro b
      obtain ⟨b1, b2⟩ := hsw b
      rcases lt_trichotomy b c with hbc | hbc | hbc
      · have hxb : x b < τ := hx hbc
        refine ⟨fun _ => ?_, fun h => absurd ((memS b).2 (.inl hbc)) h⟩
        have hjs : j b < m := by
          by_contra hcon
          exact absurd (lt_of_lt_of_le c2 ((ht (not_lt.1 hcon)).trans b1.le)) (not_lt.2 hxb.le)
        have hub : u (j b) < x b := by rw [← u1 _ hjs]; exact b1
        refine ⟨?_, hub, ?_⟩
        · unfold insA
          by_cases e : j b + p + 2 ≤ m
          · rw [if_pos e]; exact zero_lt_one
          · rw [if_neg e, if_neg (by omega), um']
            have : u m ≤ u (j b + p + 1) := um (by omega)
            rw [um'] at this
            exact div_pos (by linarith) (by linarith)
        · by_cases e : j b + p + 1 < m
          · rw [← u1 _ e]; exact b2
          · have : u m ≤ u (j b + p + 1) := um (by omega)
            rw [um'] at this
            exact hxb.trans_le this
      · subst hbc
        have hjs : j b < m := by
          by_contra hcon
          exact absurd (lt_of_lt_of_le c2 ((ht (not_lt.1 hcon)).trans b1.le)) (lt_irrefl _)
        have hjs' : s b ≤ j b + p := by
          by_contra hcon
          exact absurd (lt_of_lt_of_le b2 ((ht (show j b + p + 1 ≤ s b by omega)).trans c1)) (lt_irrefl _)
        have hub : u (j b) < x b := by rw [← u1 _ hjs]; exact b1
        refine ⟨fun h => ?_, fun h => ?_⟩
        · have hlt : s b < j b + p := by
            rcases (memS b).1 h with h | h
            · exact absurd h (lt_irrefl _)
            · exact h.2
          have hup : x b < u (j b + p + 1) := by
            rw [← u2 _ (by omega)]
            exact lt_of_lt_of_le c2 (ht (by omega))
          refine ⟨?_, hub, hup⟩
          unfold insA
          rw [if_neg (by omega), if_neg (by omega), um']
          exact div_pos (by linarith) (by linarith)
        · have heq : j b + p = s b := by
            by_contra hne
            exact h ((memS b).2 (.inr ⟨rfl, by omega⟩))
          have hup : x b < u (j b + p + 2) := by
            rw [← u2 (j b + p + 1) (by omega), heq]
            exact c2
          have hlo : u (j b + 1) < x b := by
            rw [← u1 _ (by omega)]
            exact lt_of_le_of_lt (ht (show j b + 1 ≤ i₀ by omega)) (lt_of_le_of_ne ((ht hi2).trans c1) hi3)
          refine ⟨?_, hlo, by rw [show j b + 1 + p + 1 = j b + p + 2 by omega]; exact hup⟩
          unfold insB
          rw [if_neg (by omega), if_neg (by omega), um']
          exact div_pos (by linarith) (by linarith)
      · have hxb : τ < x b := hx hbc
        refine ⟨fun h => ?_, fun _ => ?_⟩
        · rcases (memS b).1 h with h | h
          · exact absurd h (not_lt.2 hbc.le)
          · exact absurd h.1 hbc.ne'
        have hjs : s c < j b + p + 1 := by
          by_contra hcon
          exact absurd (lt_of_lt_of_le b2 ((ht (not_lt.1 hcon)).trans c1)) (not_lt.2 hxb.le)
        have hup : x b < u (j b + p + 2) := by
          rw [← u2 (j b + p + 1) (by omega)]; exact b2
        refine ⟨?_, ?_, by rw [show j b + 1 + p + 1 = j b + p + 2 by omega]; exact hup⟩
        · unfold insB
          rw [if_neg (by omega)]
          by_cases e : m ≤ j b
          · rw [if_pos e]; exact zero_lt_one
          · rw [if_neg e, um']
            have : u (j b + 1) ≤ u m := um (by omega)
            rw [um'] at this
            exact div_pos (by linarith) (by linarith)
        · by_cases e : j b + 1 ≤ m
          · exact lt_of_le_of_lt (um e) (by rw [um']; exact hxb)
          · rw [← u2 _ (by omega)]; exact b1
    refine lt_of_lt_of_le ?_ (single_le_sum (fun S _ => hterm S) (mem_univ S))
    refine mul_pos (prod_pos fun b _ => ?_) ((hrec _ ?_).2 fun b => ?_)
    · split
      · exact ((hgood b).1 ‹_›).1
      · exact ((hgood b).2 ‹_›).1
    · intro a b hab
      have := hj hab
      simp only
      split
      · split <;> omega
      · rw [if_neg]
        · omega
        · rename_i ha
          rw [memS] at ha ⊢
          push Not at ha
          rintro (h | ⟨h, h'⟩)
          · exact absurd (hab.trans h) (not_lt.2 ha.1)
          · subst h; exact absurd hab (not_lt.2 ha.1)
    · by_cases hb : b ∈ S
      · simp only [if_pos hb, Nat.add_zero]; exact ((hgood b).1 hb).2
      · simp only [if_neg hb]; exact ((hgood b).2 hb).2

/-- Schoenberg–Whitney: a minor whose points lie inside the supports of its basis functions is positive.
`s a` is the segment of `x a`. -/
theorem colloc_det_pos {n p : ℕ} {t : ℕ → K} (ht : Monotone t) {x : Fin n → K} (hx : StrictMono x) {j : Fin n → ℕ} (hj : StrictMono j)
    (hseg : ∀ a, ∃ s, t s ≤ x a ∧ x a < t (s + 1)) (hsw : ∀ a, t (j a) < x a ∧ x a < t (j a + p + 1)) : 0 < (colloc t p j x).det := by
  choose s hs using hseg
  exact (colloc_aux hx _ t (fun _ => p) s ht le_rfl (fun a => ⟨(hs a).1, (hs a).2, fun i hi1 hi2 => by omega⟩) j hj).2 hsw

end Intp
