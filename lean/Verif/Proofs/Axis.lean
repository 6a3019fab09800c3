import Verif.Proofs.Knots
import Mathlib.Tactic.Linarith

/-!
# What the knot vector of one dimension must satisfy, for each of the four kinds of dimension
-/

namespace Intp

open Finset

variable {K : Type} [Field K] [LinearOrder K] [IsStrictOrderedRing K]

/-- Periodic dimension with `n` distinct data points `X 0, …, X (n-1)` and their repetition `X n`. Knot `0` is never used
by evaluation if the order is positive, and it is not constrained then. -/
structure PAxis (o n : ℕ) (t : List K) (X : ℕ → K) : Prop where
  len : t.length = n + 2 * o + (2 - o % 2)
  big : 2 * (o / 2) + 1 ≤ n
  inc : ∀ i, 1 ≤ i ∨ o = 0 → i + 1 < t.length → knotFn t i < knotFn t (i + 1)
  shift : ∀ i, 1 ≤ i ∨ o = 0 → i + n < t.length → knotFn t (i + n) = knotFn t i + (X n - X 0)
  node : ∀ i, i < n → knotFn t (i + o) ≤ X i ∧ X i < knotFn t (i + o + 1)
  odd : o % 2 = 1 → ∀ i, i < n → X i = knotFn t (i + o)

/-- Clamped dimension with `n` data points. -/
structure AAxis (o n : ℕ) (t : List K) (X : ℕ → K) : Prop where
  len : t.length = n + o + 1
  big : o + 1 ≤ n
  two : 2 ≤ n
  left : ∀ i, i ≤ o → knotFn t i = X 0
  right : ∀ i, n ≤ i → i ≤ n + o → knotFn t i = X (n - 1)
  inc : ∀ i, o ≤ i → i < n → knotFn t i < knotFn t (i + 1)
  sw1 : ∀ i, 0 < i → i + 1 < n → knotFn t i < X i
  sw2 : ∀ i, 0 < i → i + 1 < n → X i < knotFn t (i + o + 1)

theorem mono_of_succ {t : List K} (h : ∀ i, 1 ≤ i → i + 1 < t.length → knotFn t i ≤ knotFn t (i + 1)) : KMono t := by
  intro i j h1 hij hj
  induction j, hij using Nat.le_induction with
  | base => exact le_rfl
  | succ j _ ih => exact (ih (by omega)).trans (h j (by omega) hj)

theorem strict_of_succ {f : ℕ → K} {lo hi : ℕ} (h : ∀ i, lo ≤ i → i < hi → f i < f (i + 1)) {i j : ℕ} (h1 : lo ≤ i) (h2 : i < j)
    (h3 : j ≤ hi) : f i < f j := by
  induction j, h2 using Nat.le_induction with
  | base => exact h i h1 (by omega)
  | succ j hj ih => exact (ih (by omega)).trans (h j (by omega) (by omega))

theorem PAxis.kmono {o n : ℕ} {t : List K} {X : ℕ → K} (h : PAxis o n t X) : KMono t := mono_of_succ fun i h1 hi => (h.inc i (.inl h1) hi).le

theorem AAxis.kmono {o n : ℕ} {t : List K} {X : ℕ → K} (h : AAxis o n t X) : KMono t := by
  refine mono_of_succ fun i _ hi => ?_
  have hl := h.len
  by_cases h1 : i < o
  · rw [h.left i (by omega), h.left (i + 1) (by omega)]
  · by_cases h2 : i < n
    · exact (h.inc i (by omega) h2).le
    · rw [h.right i (by omega) (by omega), h.right (i + 1) (by omega) (by omega)]

/-- Data points of a uniform dimension. -/
def uNode (a dx : K) (i : ℕ) : K := a + (i : K) * dx

/-- A uniform periodic dimension. -/
theorem pAxis_uniform {o n' : ℕ} {a dx : K} (hdx : 0 < dx) (hn : 2 * (o / 2) + 1 ≤ n') :
    PAxis o n' (arr (n' + 1 + (2 * o + (1 - o % 2))) (uniformKnot a dx (2 * o + (1 - o % 2)))) (uNode a dx) := by
  have hcast : ((2 * o + (1 - o % 2) : ℕ) : K) = 2 * (o : K) + ((1 - o % 2 : ℕ) : K) := by push_cast; ring
  have he0 : (0 : K) ≤ ((1 - o % 2 : ℕ) : K) := Nat.cast_nonneg _
  have he1 : ((1 - o % 2 : ℕ) : K) ≤ 1 := by exact_mod_cast (by omega : 1 - o % 2 ≤ 1)
  have hk : ∀ i, i < n' + 1 + (2 * o + (1 - o % 2)) → knotFn (arr (n' + 1 + (2 * o + (1 - o % 2))) (uniformKnot a dx (2 * o + (1 - o % 2)))) i =
      a + ((i : K) - (o : K) - 1 / 2 * ((1 - o % 2 : ℕ) : K)) * dx := by
    intro i hi
    rw [knotFn_arr _ hi]
    unfold uniformKnot
    rw [hcast]; ring
  refine ⟨by rw [arr_length]; omega, hn, fun i _ hi => ?_, fun i _ hi => ?_, fun i hi => ?_, fun ho i hi => ?_⟩
  · rw [arr_length] at hi
    rw [hk i (by omega), hk (i + 1) hi]
    push_cast
    nlinarith
  · rw [arr_length] at hi
    rw [hk i (by omega), hk (i + n') hi]
    unfold uNode
    push_cast
    ring
  · rw [hk _ (by omega), hk _ (by omega)]
    unfold uNode
    push_cast
    constructor
    · nlinarith
    · nlinarith
  · rw [hk _ (by omega)]
    unfold uNode
    rw [ho]
    push_cast
    simp

theorem cpKnot_low {o n' : ℕ} {X : ℕ → K} {j : ℕ} (h : j ≤ o) : cpKnot o n' X j = cpMid o (n' + 1) X (j + n') - (X n' - X 0) := if_pos h

theorem cpKnot_mid {o n' : ℕ} {X : ℕ → K} {j : ℕ} (h1 : o < j) (h2 : j ≤ n' + o) : cpKnot o n' X j = cpMid o (n' + 1) X j := by
  unfold cpKnot; rw [if_neg (by omega), if_pos h2]

theorem cpKnot_high {o n' : ℕ} {X : ℕ → K} {j : ℕ} (h1 : o < j) (h2 : n' + o < j) :
    cpKnot o n' X j = cpMid o (n' + 1) X (j - n') + (X n' - X 0) := by
  unfold cpKnot; rw [if_neg (by omega), if_neg (by omega)]

theorem cpMid_eq {o n : ℕ} {X : ℕ → K} {j : ℕ} (h1 : o < j) (h2 : j < o + n) :
    cpMid o n X j = if o % 2 = 0 then 1 / 2 * (X (j - o - 1) + X (j - o)) else X (j - o) := if_pos ⟨h1, h2⟩

/-- A periodic dimension with explicit coordinates. -/
theorem pAxis_coords {o n' : ℕ} {X : ℕ → K} (hX : ∀ i, i < n' → X i < X (i + 1)) (hn : 2 * (o / 2) + 1 ≤ n') :
    PAxis o n' (arr (n' + 1 + 2 * o + (1 - o % 2)) (cpKnot o n' X)) X := by
  set N := n' + 1 + 2 * o + (1 - o % 2) with hN
  have hP : X 0 < X n' := strict_of_succ (lo := 0) (hi := n') (fun i _ h => hX i h) le_rfl (by omega) le_rfl
  have hmid : ∀ j, o < j → j < n' + o → cpMid o (n' + 1) X j < cpMid o (n' + 1) X (j + 1) := by
    intro j h1 h2
    rw [cpMid_eq h1 (by omega), cpMid_eq (by omega) (by omega)]
    have a := hX (j - o - 1) (by omega)
    have b := hX (j - o) (by omega)
    rw [show j - o - 1 + 1 = j - o by omega] at a
    rw [show j + 1 - o - 1 = j - o by omega, show j + 1 - o = j - o + 1 by omega]
    split
    · linarith
    · exact b
  have hseam : cpMid o (n' + 1) X (n' + o) - (X n' - X 0) < cpMid o (n' + 1) X (o + 1) := by
    rw [cpMid_eq (by omega) (by omega), cpMid_eq (by omega) (by omega)]
    have a := hX (n' - 1) (by omega)
    have b := hX 0 (by omega)
    rw [show n' - 1 + 1 = n' by omega] at a
    rw [show n' + o - o - 1 = n' - 1 by omega, show n' + o - o = n' by omega, show o + 1 - o - 1 = 0 by omega, show o + 1 - o = 0 + 1 by omega]
    split <;> linarith
  have hk : ∀ i, i < N → knotFn (arr N (cpKnot o n' X)) i = cpKnot o n' X i := fun i hi => knotFn_arr _ hi
  refine ⟨by rw [arr_length]; omega, by omega, fun i h0 hi => ?_, fun i h0 hi => ?_, fun i hi => ?_, fun ho i hi => ?_⟩
  · rw [arr_length] at hi
    rw [hk _ (by omega), hk _ hi]
    by_cases h1 : i < o
    · rw [cpKnot_low (by omega), cpKnot_low (by omega)]
      have := hmid (i + n') (by omega) (by omega)
      rw [show i + n' + 1 = i + 1 + n' by omega] at this
      linarith
    by_cases h2 : i = o
    · subst h2
      rw [cpKnot_low le_rfl, cpKnot_mid (by omega) (by omega), Nat.add_comm i n']
      exact hseam
    by_cases h3 : i < n' + o
    · rw [cpKnot_mid (by omega) (by omega), cpKnot_mid (by omega) (by omega)]
      exact hmid i (by omega) h3
    by_cases h4 : i = n' + o
    · subst h4
      rw [cpKnot_mid (by omega) le_rfl, cpKnot_high (by omega) (by omega), show n' + o + 1 - n' = o + 1 by omega]
      linarith
    · rw [cpKnot_high (by omega) (by omega), cpKnot_high (by omega) (by omega)]
      have := hmid (i - n') (by omega) (by omega)
      rw [show i - n' + 1 = i + 1 - n' by omega] at this
      linarith
  · rw [arr_length] at hi
    rw [hk _ hi, hk i (by omega)]
    by_cases h1 : i ≤ o
    · rw [cpKnot_low h1, cpKnot_mid (by omega) (by omega)]; ring
    · rw [cpKnot_high (j := i + n') (by omega) (by omega), cpKnot_mid (by omega) (by omega), show i + n' - n' = i by omega]
  · rw [hk _ (by omega), hk _ (by omega)]
    have b := hX i hi
    have u : X i < cpKnot o n' X (i + o + 1) ∨ o % 2 = 1 := by
      by_cases ho : o % 2 = 0
      · left
        rw [cpKnot_mid (by omega) (by omega), cpMid_eq (by omega) (by omega), if_pos ho, show i + o + 1 - o - 1 = i by omega,
          show i + o + 1 - o = i + 1 by omega]
        linarith
      · right; omega
    constructor
    · by_cases h0 : i = 0
      · subst h0
        rw [cpKnot_low (by omega), cpMid_eq (by omega) (by omega), show 0 + o + n' - o - 1 = n' - 1 by omega, show 0 + o + n' - o = n' by omega]
        have := hX (n' - 1) (by omega)
        rw [show n' - 1 + 1 = n' by omega] at this
        split <;> linarith
      · rw [cpKnot_mid (by omega) (by omega), cpMid_eq (by omega) (by omega), show i + o - o - 1 = i - 1 by omega, show i + o - o = i by omega]
        have := hX (i - 1) (by omega)
        rw [show i - 1 + 1 = i by omega] at this
        split <;> linarith
    · rcases u with u | u
      · exact u
      · rw [cpKnot_mid (by omega) (by omega), cpMid_eq (by omega) (by omega), if_neg (by omega), show i + o + 1 - o = i + 1 by omega]
        exact b
  · rw [hk _ (by omega)]
    by_cases h0 : i = 0
    · subst h0
      rw [cpKnot_low (by omega), cpMid_eq (by omega) (by omega), if_neg (by omega), show 0 + o + n' - o = n' by omega]; ring
    · rw [cpKnot_mid (by omega) (by omega), cpMid_eq (by omega) (by omega), if_neg (by omega), show i + o - o = i by omega]

/-- A clamped uniform dimension. -/
theorem aAxis_uniform {o n : ℕ} {a b dx : K} (hdx : 0 < dx) (hb : b = uNode a dx (n - 1)) (hn : o + 1 ≤ n) (h2 : 2 ≤ n) :
    AAxis o n (arr (n + (o + 1)) (uaKnot o n a b dx)) (uNode a dx) := by
  have hk : ∀ i, i < n + (o + 1) → knotFn (arr (n + (o + 1)) (uaKnot o n a b dx)) i = uaKnot o n a b dx i := fun i hi => knotFn_arr _ hi
  have hlow : ∀ i, i ≤ o → uaKnot o n a b dx i = a := fun i hi => if_pos hi
  have hmid : ∀ i, o < i → i < n → uaKnot o n a b dx i = a + ((i : K) - ((o : K) + 1) / 2) * dx := by
    intro i h1 h2
    unfold uaKnot uniformKnot
    rw [if_neg (by omega), if_pos h2]; push_cast; ring
  have hhigh : ∀ i, n ≤ i → uaKnot o n a b dx i = a + ((n : K) - 1) * dx := by
    intro i h1
    unfold uaKnot
    rw [if_neg (by omega), if_neg (by omega), hb]
    unfold uNode
    rw [Nat.cast_sub (by omega)]; push_cast; ring
  have ho0 : (0 : K) ≤ (o : K) := Nat.cast_nonneg _
  have hon : (o : K) + 1 ≤ (n : K) := by exact_mod_cast hn
  have h2n : (2 : K) ≤ (n : K) := by exact_mod_cast h2
  refine ⟨by rw [arr_length]; omega, hn, h2, fun i hi => ?_, fun i h1 h2 => ?_, fun i h1 h2 => ?_, fun i h1 h2 => ?_, fun i h1 h2 => ?_⟩
  · rw [hk _ (by omega), hlow _ hi]; simp [uNode]
  · rw [hk _ (by omega), hhigh _ h1]
    unfold uNode; rw [Nat.cast_sub (by omega)]; push_cast; ring
  · rw [hk _ (by omega), hk _ (by omega)]
    have hi : (i : K) + 1 ≤ (n : K) := by exact_mod_cast h2
    have ho : (o : K) ≤ (i : K) := by exact_mod_cast h1
    by_cases e1 : i = o
    · rw [hlow i (by omega)]
      by_cases e2 : i + 1 < n
      · rw [hmid _ (by omega) e2]; push_cast; nlinarith
      · rw [hhigh _ (by omega)]; nlinarith
    · rw [hmid i (by omega) h2]
      by_cases e2 : i + 1 < n
      · rw [hmid _ (by omega) e2]; push_cast; nlinarith
      · rw [hhigh _ (by omega)]; nlinarith
  · rw [hk _ (by omega)]
    have hi : (1 : K) ≤ (i : K) := by exact_mod_cast h1
    unfold uNode
    by_cases e1 : i ≤ o
    · rw [hlow _ e1]; nlinarith
    · rw [hmid _ (by omega) (by omega)]; nlinarith
  · rw [hk _ (by omega)]
    have hi : (i : K) + 2 ≤ (n : K) := by exact_mod_cast h2
    unfold uNode
    by_cases e1 : i + o + 1 < n
    · rw [hmid _ (by omega) e1]; push_cast; nlinarith
    · rw [hhigh _ (by omega)]; nlinarith

/-- Averages of strictly increasing numbers. -/
theorem avg_bounds {X : ℕ → K} {n : ℕ} (hX : ∀ i j, i < j → j < n → X i < X j) {o k : ℕ} (ho : 1 ≤ o) (hk : k + o ≤ n) :
    X k ≤ (∑ j ∈ Ico k (k + o), X j) / (o : K) ∧ (∑ j ∈ Ico k (k + o), X j) / (o : K) ≤ X (k + o - 1) := by
  have ho' : (0 : K) < (o : K) := by exact_mod_cast ho
  have hmono : ∀ i j, i ≤ j → j < n → X i ≤ X j := fun i j h1 h2 => by
    rcases h1.eq_or_lt with rfl | h; · exact le_rfl
    · exact (hX i j h h2).le
  rw [le_div_iff₀ ho', div_le_iff₀ ho']
  constructor
  · have := card_nsmul_le_sum (Ico k (k + o)) X (X k) fun j hj => by
      rw [mem_Ico] at hj; exact hmono _ _ hj.1 (by omega)
    simp only [Nat.card_Ico, nsmul_eq_mul, Nat.add_sub_cancel_left] at this
    linarith
  · have := sum_le_card_nsmul (Ico k (k + o)) X (X (k + o - 1)) fun j hj => by
      rw [mem_Ico] at hj; exact hmono _ _ (by omega) (by omega)
    simp only [Nat.card_Ico, nsmul_eq_mul, Nat.add_sub_cancel_left] at this
    linarith

/-- Strict version for at least two numbers. -/
theorem avg_bounds_strict {X : ℕ → K} {n : ℕ} (hX : ∀ i j, i < j → j < n → X i < X j) {o k : ℕ} (ho : 2 ≤ o) (hk : k + o ≤ n) :
    X k < (∑ j ∈ Ico k (k + o), X j) / (o : K) ∧ (∑ j ∈ Ico k (k + o), X j) / (o : K) < X (k + o - 1) := by
  have ho' : (0 : K) < (o : K) := by exact_mod_cast (by omega : 0 < o)
  have hmono : ∀ i j, i ≤ j → j < n → X i ≤ X j := fun i j h1 h2 => by
    rcases h1.eq_or_lt with rfl | h; · exact le_rfl
    · exact (hX i j h h2).le
  rw [lt_div_iff₀ ho', div_lt_iff₀ ho']
  constructor
  · have := sum_lt_sum (s := Ico k (k + o)) (f := fun _ => X k) (g := X)
      (fun j hj => by rw [mem_Ico] at hj; exact hmono _ _ hj.1 (by omega))
      ⟨k + 1, by rw [mem_Ico]; omega, hX _ _ (by omega) (by omega)⟩
    simp only [sum_const, Nat.card_Ico, nsmul_eq_mul, Nat.add_sub_cancel_left] at this
    linarith
  · have := sum_lt_sum (s := Ico k (k + o)) (f := X) (g := fun _ => X (k + o - 1))
      (fun j hj => by rw [mem_Ico] at hj; exact hmono _ _ (by omega) (by omega))
      ⟨k, by rw [mem_Ico]; omega, hX _ _ (by omega) (by omega)⟩
    simp only [sum_const, Nat.card_Ico, nsmul_eq_mul, Nat.add_sub_cancel_left] at this
    linarith

theorem caKnot_low {o n : ℕ} {X : ℕ → K} {i : ℕ} (h : i ≤ o) : caKnot o n X i = X 0 := if_pos h

theorem caKnot_mid {o n : ℕ} {X : ℕ → K} {i : ℕ} (h : o < i) (h2 : i < n) :
    caKnot o n X i = (∑ k ∈ Ico (i - o) (i - o + o), X k) / (o : K) := by
  unfold caKnot; rw [if_neg (by omega), if_pos h2, show i - o + o = i by omega]

theorem caKnot_high {o n : ℕ} {X : ℕ → K} {i : ℕ} (h : o < i) (h2 : n ≤ i) : caKnot o n X i = X (n - 1) := by
  unfold caKnot; rw [if_neg (by omega), if_neg (by omega)]

/-- Position of data point `i` relative to the knots `i + 1` and `i + o`. -/
theorem caKnot_seg {o n : ℕ} {X : ℕ → K} (hX : ∀ i j, i < j → j < n → X i < X j) (ho : 1 ≤ o) (hn : o + 1 ≤ n) {i : ℕ} (h1 : 0 < i)
    (h2 : i + 1 < n) : caKnot o n X (i + 1) ≤ X i ∧ X i ≤ caKnot o n X (i + o) ∧ (2 ≤ o → X i < caKnot o n X (i + o)) := by
  refine ⟨?_, ?_, fun ho2 => ?_⟩
  · by_cases e : i + 1 ≤ o
    · rw [caKnot_low e]; exact (hX 0 i h1 (by omega)).le
    · rw [caKnot_mid (by omega) h2]
      have := (avg_bounds hX ho (k := i + 1 - o) (by omega)).2
      rwa [show i + 1 - o + o - 1 = i by omega] at this
  · by_cases e : i + o < n
    · rw [caKnot_mid (by omega) e]
      have := (avg_bounds hX ho (k := i + o - o) (by omega)).1
      rw [show i + o - o = i by omega] at *
      exact this
    · rw [caKnot_high (by omega) (by omega)]; exact (hX i (n - 1) (by omega) (by omega)).le
  · by_cases e : i + o < n
    · rw [caKnot_mid (by omega) e]
      have := (avg_bounds_strict hX ho2 (k := i + o - o) (by omega)).1
      rw [show i + o - o = i by omega] at *
      exact this
    · rw [caKnot_high (by omega) (by omega)]; exact hX i (n - 1) (by omega) (by omega)

/-- A clamped dimension with explicit coordinates. -/
theorem aAxis_coords {o n : ℕ} {X : ℕ → K} (hX : ∀ i j, i < j → j < n → X i < X j) (ho : 1 ≤ o) (hn : o + 1 ≤ n) :
    AAxis o n (arr (n + o + 1) (caKnot o n X)) X := by
  have hk : ∀ i, i < n + o + 1 → knotFn (arr (n + o + 1) (caKnot o n X)) i = caKnot o n X i := fun i hi => knotFn_arr _ hi
  have ho' : (0 : K) < (o : K) := by exact_mod_cast ho
  have stepLt : ∀ i, o < i → i + 1 < n → caKnot o n X i < caKnot o n X (i + 1) := by
    intro i h1 h2
    rw [caKnot_mid h1 (by omega), caKnot_mid (by omega) h2, div_lt_div_iff_of_pos_right ho', show i - o + o = i by omega,
      show i + 1 - o + o = i + 1 by omega, sum_Ico_succ_top (by omega : i + 1 - o ≤ i),
      sum_eq_sum_Ico_succ_bot (by omega : i - o < i), show i - o + 1 = i + 1 - o by omega]
    have := hX (i - o) i (by omega) (by omega)
    linarith
  refine ⟨by rw [arr_length], hn, by omega, fun i hi => ?_, fun i h1 h2 => ?_, fun i h1 h2 => ?_, fun i h1 h2 => ?_, fun i h1 h2 => ?_⟩
  · rw [hk _ (by omega), caKnot_low hi]
  · rw [hk _ (by omega), caKnot_high (by omega) h1]
  · rw [hk _ (by omega), hk _ (by omega)]
    by_cases e1 : i = o
    · rw [caKnot_low e1.le]
      by_cases e2 : i + 1 < n
      · rw [caKnot_mid (by omega) e2]
        have := (avg_bounds hX ho (k := i + 1 - o) (by omega)).1
        exact lt_of_lt_of_le (hX 0 (i + 1 - o) (by omega) (by omega)) this
      · rw [caKnot_high (by omega) (by omega)]; exact hX _ _ (by omega) (by omega)
    · by_cases e2 : i + 1 < n
      · exact stepLt i (by omega) e2
      · rw [caKnot_high (by omega : o < i + 1) (by omega), caKnot_mid (by omega) h2]
        have := (avg_bounds hX ho (k := i - o) (by omega)).2
        exact lt_of_le_of_lt this (hX _ _ (by omega) (by omega))
  · rw [hk _ (by omega)]
    by_cases e1 : i ≤ o
    · rw [caKnot_low e1]; exact hX _ _ h1 (by omega)
    · rw [caKnot_mid (by omega) (by omega)]
      have := (avg_bounds hX ho (k := i - o) (by omega)).2
      exact lt_of_le_of_lt this (hX _ _ (by omega) (by omega))
  · rw [hk _ (by omega)]
    by_cases e1 : i + o + 1 < n
    · rw [caKnot_mid (by omega) e1]
      have := (avg_bounds hX ho (k := i + o + 1 - o) (by omega)).1
      exact lt_of_lt_of_le (hX _ _ (by omega) (by omega)) this
    · rw [caKnot_high (by omega) (by omega)]; exact hX _ _ (by omega) (by omega)

end Intp
