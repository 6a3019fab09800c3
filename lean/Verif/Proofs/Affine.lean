import Verif.Proofs.Unique

/-!
# Affine changes of coordinates, and knots as functions of the data coordinates
-/

namespace Intp

open Finset BSpline Polynomial

variable {K V : Type} [Field K] [LinearOrder K]

theorem pieceP_affine {T T' : ℕ → K} {α β : K} (hα : α ≠ 0) {s p : ℕ} (hp : p ≤ s) (h : ∀ i, 1 ≤ i → i ≤ s + p → T' i = α * T i + β) :
    ∀ k i, k ≤ p → (pieceP T' s k i).comp (C α * X + C β) = pieceP T s k i
  | 0, i, _ => by simp only [pieceP]; split <;> simp
  | k + 1, i, hk => by
    have ih := fun i => pieceP_affine hα hp h k i (by omega)
    simp only [pieceP, add_comp, mul_comp, sub_comp, C_comp, X_comp, ih]
    have hinv : ∀ a b : K, (α * a + β - (α * b + β))⁻¹ * α = (a - b)⁻¹ := by
      intro a b
      rw [show α * a + β - (α * b + β) = α * (a - b) by ring, mul_inv, mul_comm, ← mul_assoc, mul_inv_cancel₀ hα, one_mul]
    have e1 : C (T' (i + k + 1) - T' i)⁻¹ * (C α * X + C β - C (T' i)) * pieceP T s k i =
        C (T (i + k + 1) - T i)⁻¹ * (X - C (T i)) * pieceP T s k i := by
      by_cases hi : 1 ≤ i ∧ i ≤ s
      · rw [h i hi.1 (by omega), h (i + k + 1) (by omega) (by omega), ← hinv (T (i + k + 1)) (T i)]
        simp only [map_mul, map_add]
        ring
      · by_cases hi0 : i = 0
        · subst hi0
          rw [pieceP_zero_of_gt T s k 0 (by omega), mul_zero, mul_zero]
        · rw [pieceP_zero_of_lt T s k i (by omega), mul_zero, mul_zero]
    have e2 : C (T' (i + k + 2) - T' (i + 1))⁻¹ * (C (T' (i + k + 2)) - (C α * X + C β)) * pieceP T s k (i + 1) =
        C (T (i + k + 2) - T (i + 1))⁻¹ * (C (T (i + k + 2)) - X) * pieceP T s k (i + 1) := by
      by_cases hi : i + 1 ≤ s
      · rw [h (i + 1) (by omega) (by omega), h (i + k + 2) (by omega) (by omega), ← hinv (T (i + k + 2)) (T (i + 1))]
        simp only [map_mul, map_add]
        ring
      · rw [pieceP_zero_of_lt T s k (i + 1) (by omega), mul_zero, mul_zero]
    rw [e1, e2]

theorem iterate_derivative_comp_affine (α β : K) (P : K[X]) : ∀ m, derivative^[m] (P.comp (C α * X + C β)) =
    C (α ^ m) * (derivative^[m] P).comp (C α * X + C β)
  | 0 => by simp
  | m + 1 => by
    rw [Function.iterate_succ_apply', iterate_derivative_comp_affine α β P m, Function.iterate_succ_apply', derivative_C_mul, derivative_comp]
    simp only [derivative_add, derivative_mul, derivative_C, derivative_X, pow_succ, map_mul]
    ring

theorem pieceP_affine_eval {T T' : ℕ → K} {α β : K} (hα : α ≠ 0) {s p : ℕ} (hp : p ≤ s) (h : ∀ i, 1 ≤ i → i ≤ s + p → T' i = α * T i + β)
    (i m : ℕ) (y : K) :
    (derivative^[m] (pieceP T s p i)).eval y = α ^ m * (derivative^[m] (pieceP T' s p i)).eval (α * y + β) := by
  rw [← pieceP_affine hα hp h p i le_rfl, iterate_derivative_comp_affine, eval_mul, eval_C, eval_comp]
  simp

variable [IsStrictOrderedRing K] [FloorRing K]

theorem IsSeg.affine {T T' : ℕ → K} {α β : K} (hα : 0 < α) {o last : ℕ} (h : ∀ i, 1 ≤ i → i ≤ last + 1 → T' i = α * T i + β) (y : K) (s : ℕ) :
    IsSeg T' o last (α * y + β) s ↔ IsSeg T o last y s := by
  unfold IsSeg
  refine and_congr_right fun h1 => and_congr_right fun h2 => ?_
  rw [h (s + 1) (by omega) (by omega)]
  have e2 : α * y + β < α * T (s + 1) + β ↔ y < T (s + 1) := by rw [add_lt_add_iff_right, mul_lt_mul_iff_right₀ hα]
  rw [e2]
  refine and_congr_left fun _ => ?_
  by_cases hs : s = o
  · simp [hs]
  · rw [h s (by omega) (by omega), add_le_add_iff_right, mul_le_mul_iff_right₀ hα]

theorem wrapFn_affine {α β : K} (hα : 0 < α) (r : K × K) (y : K) :
    wrapFn (α * r.1 + β, α * r.2 + β) (α * y + β) = α * wrapFn r y + β := by
  unfold wrapFn
  simp only
  have e : (α * y + β - (α * r.1 + β)) / (α * r.2 + β - (α * r.1 + β)) = (y - r.1) / (r.2 - r.1) := by
    rw [show α * y + β - (α * r.1 + β) = α * (y - r.1) by ring, show α * r.2 + β - (α * r.1 + β) = α * (r.2 - r.1) by ring,
      mul_div_mul_left _ _ hα.ne']
  have e2 : α * y + β < α * r.1 + β ↔ y < r.1 := by rw [add_lt_add_iff_right, mul_lt_mul_iff_right₀ hα]
  rw [e]
  by_cases h : y < r.1
  · rw [if_pos (e2.2 h), if_pos h]; ring
  · rw [if_neg (fun h' => h (e2.1 h')), if_neg h]; ring

/-- The knots of two axes are related by `y ↦ α y + β`, except perhaps knot `0` if the order is positive. -/
def KAff (o : ℕ) (α β : K) (t t' : List K) : Prop :=
  t'.length = t.length ∧ ∀ i, 1 ≤ i ∨ o = 0 → i < t.length → knotFn t' i = α * knotFn t i + β

theorem KAff.segAt {o : ℕ} {α β : K} {t t' : List K} (h : KAff o α β t t') (hα : 0 < α) (hl : o + 2 ≤ t.length) (y : K) :
    segAt o t' (α * y + β) = segAt o t y := by
  unfold Intp.segAt
  have : IsSeg (knotFn t') o (t'.length - o - 2) (α * y + β) = IsSeg (knotFn t) o (t.length - o - 2) y := by
    funext s
    rw [h.1]
    exact propext (IsSeg.affine hα (fun i h1 h2 => h.2 i (.inl h1) (by omega)) y s)
  rw [this]

/-- Weights of one dimension, from knots, number of control points and periodicity. -/
noncomputable def axisWt (o : ℕ) (per : Bool) (n : ℕ) (t : List K) (m : ℕ) (y : K) (J : ℕ) : K :=
  let w := if per then wrapFn (knotFn t o, knotFn t (t.length - o - (2 - o % 2))) y else y
  ∑ i ∈ (Finset.range (segAt o t w + 1)).filter (fun i => (if per then i % n else i) = J),
    (derivative^[m] (pieceP (knotFn t) (segAt o t w) o i)).eval w

theorem XRange.wt_eq (o N : ℕ) (per : Bool) (x : XRange K) (m : ℕ) (y : K) (J : ℕ) :
    x.wt o N per m y J = axisWt o per (unk per N) (x.knots o (unk per N) per) m y J := rfl

theorem segAt_spec {o : ℕ} {t : List K} (hm : KMono t) (hl : 2 * o + 2 ≤ t.length) (y : K) :
    IsSeg (knotFn t) o (t.length - o - 2) y (segAt o t y) := by
  have he := exists_isSeg hm y (order := o) (last := t.length - o - 2) (by omega) (by omega)
  have he' : ∃ s, IsSeg (knotFn t) o (t.length - o - 2) y s := he
  unfold segAt
  rw [dif_pos he']
  exact he'.choose_spec

theorem KAff.axisWt {o : ℕ} {α β : K} {t t' : List K} (h : KAff o α β t t') (hα : 0 < α) (hm : KMono t) (hl : 2 * o + 2 ≤ t.length)
    (per : Bool) (n m : ℕ) (y : K) (J : ℕ) :
    axisWt o per n t m y J = α ^ m * axisWt o per n t' m (α * y + β) J := by
  unfold Intp.axisWt
  simp only
  have hw : (if per then wrapFn (knotFn t' o, knotFn t' (t'.length - o - (2 - o % 2))) (α * y + β) else α * y + β) =
      α * (if per then wrapFn (knotFn t o, knotFn t (t.length - o - (2 - o % 2))) y else y) + β := by
    cases per
    · rfl
    · simp only [if_true]
      rw [h.1, h.2 o (by omega) (by omega), h.2 _ (by omega) (by omega)]
      exact wrapFn_affine hα (knotFn t o, knotFn t (t.length - o - (2 - o % 2))) y
  rw [hw]
  generalize (if per then wrapFn (knotFn t o, knotFn t (t.length - o - (2 - o % 2))) y else y) = w
  rw [h.segAt hα (by omega), mul_sum]
  refine sum_congr rfl fun i _ => ?_
  have hs := segAt_spec hm hl w
  exact pieceP_affine_eval hα.ne' hs.1 (fun i h1 h2 => h.2 i (.inl h1) (by have := hs.2.1; omega)) i m w

theorem KAff.colRow {o : ℕ} {α β : K} {t t' : List K} (h : KAff o α β t t') (hα : 0 < α) (hm : KMono t) (hl : 2 * o + 2 ≤ t.length)
    (n : ℕ) (y : K) (J : ℕ) :
    colRow (knotFn t') o n (Intp.segAt o t' (α * y + β)) (α * y + β) J = colRow (knotFn t) o n (Intp.segAt o t y) y J := by
  rw [h.segAt hα (by omega)]
  unfold Intp.colRow
  have hs := segAt_spec hm hl y
  refine sum_congr rfl fun a _ => ?_
  split
  · have := pieceP_affine_eval hα.ne' hs.1 (fun i h1 h2 => h.2 i (.inl h1) (by have := hs.2.1; omega)) (Intp.segAt o t y - o + a) 0 y
    simp only [Function.iterate_zero, id_eq, pow_zero, one_mul, pieceP_eval] at this
    exact this.symm
  · rfl

/-! ### Knots as functions of the data coordinates -/

theorem XRange.Valid.knots_per {o N : ℕ} {x : XRange K} (h : x.Valid o N true) {i : ℕ} (hi : 1 ≤ i ∨ o = 0)
    (hl : i < (x.knots o (unk true N) true).length) : knotFn (x.knots o (unk true N) true) i = cpKnot o (unk true N) (x.node N) i := by
  have h2 := h.periodic rfl
  have hlen := h.knots_length
  have hN : unk true N = N - 1 := rfl
  rw [if_pos rfl] at hlen
  cases x with
  | uniform a b =>
    have e : ((unk true N : ℕ) : K) = (N : K) - 1 := by rw [hN, Nat.cast_sub (by omega)]; simp
    have hk : (XRange.uniform a b).knots o (unk true N) true = arr (unk true N + 1 + (2 * o + (1 - o % 2)))
        (uniformKnot a ((b - a) / ((N : K) - 1)) (2 * o + (1 - o % 2))) := by rw [← e]; rfl
    rw [hk, knotFn_arr _ (by omega)]
    set dx := (b - a) / ((N : K) - 1) with hdx
    have hnode : ∀ j, (XRange.uniform a b).node N j = a + (j : K) * dx := fun j => rfl
    have hmid : ∀ j, o < j → j < o + (unk true N + 1) → cpMid o (unk true N + 1) ((XRange.uniform a b).node N) j =
        uniformKnot a dx (2 * o + (1 - o % 2)) j := by
      intro j h3 h4
      rw [cpMid_eq h3 h4, hnode, hnode]
      unfold uniformKnot
      have hj : ((j - o : ℕ) : K) = (j : K) - (o : K) := by rw [Nat.cast_sub (by omega)]
      have hj' : ((j - o - 1 : ℕ) : K) = (j : K) - (o : K) - 1 := by rw [Nat.cast_sub (by omega), hj]; simp
      rw [hj, hj']
      rcases Nat.mod_two_eq_zero_or_one o with ho | ho <;> rw [ho] <;> simp <;> ring
    have hper : (XRange.uniform a b).node N (unk true N) - (XRange.uniform a b).node N 0 = ((unk true N : ℕ) : K) * dx := by
      rw [hnode, hnode]; simp
    by_cases c1 : i ≤ o
    · rw [cpKnot_low c1, hmid _ (by omega) (by omega), hper]
      unfold uniformKnot
      push_cast; ring
    · by_cases c2 : i ≤ unk true N + o
      · rw [cpKnot_mid (by omega) c2, hmid _ (by omega) (by omega)]
      · rw [cpKnot_high (by omega) (by omega), hmid _ (by omega) (by omega), hper]
        unfold uniformKnot
        rw [Nat.cast_sub (by omega)]; ring
  | coords l => exact knotFn_arr _ (by have := hlen; omega)

theorem sum_Ico_arith (a dx : K) (k : ℕ) : ∀ o, ∑ j ∈ Ico k (k + o), (a + (j : K) * dx) = (o : K) * (a + ((k : K) + ((o : K) - 1) / 2) * dx)
  | 0 => by simp
  | o + 1 => by
    rw [← Nat.add_assoc, sum_Ico_succ_top (by omega), sum_Ico_arith a dx k o]
    push_cast; ring

theorem XRange.Valid.knots_aper {o N : ℕ} {x : XRange K} (h : x.Valid o N false) (ho : 1 ≤ o) {i : ℕ}
    (hl : i < (x.knots o (unk false N) false).length) : knotFn (x.knots o (unk false N) false) i = caKnot o N (x.node N) i := by
  have h2 := h.aperiodic rfl
  have hlen := h.knots_length
  have hN : unk false N = N := rfl
  rw [if_neg (by simp), hN] at hlen
  rw [hN] at hl ⊢
  cases x with
  | uniform a b =>
    have hk : (XRange.uniform a b).knots o N false = arr (N + (o + 1)) (uaKnot o N a b ((b - a) / ((N : K) - 1))) := rfl
    rw [hk, knotFn_arr _ (by omega)]
    set dx := (b - a) / ((N : K) - 1) with hdx
    have hnode : ∀ j, (XRange.uniform a b).node N j = a + (j : K) * dx := fun j => rfl
    have hN2 : (2 : K) ≤ (N : K) := by exact_mod_cast h.two
    have ho' : (o : K) ≠ 0 := by exact_mod_cast (by omega : o ≠ 0)
    unfold uaKnot
    by_cases c1 : i ≤ o
    · rw [caKnot_low c1, if_pos c1, hnode]; simp
    · by_cases c2 : i < N
      · rw [caKnot_mid (by omega) c2, if_neg c1, if_pos c2, sum_congr rfl fun j _ => hnode j, sum_Ico_arith, mul_div_cancel_left₀ _ ho']
        unfold uniformKnot
        rw [Nat.cast_sub (by omega)]; push_cast; ring
      · rw [caKnot_high (by omega) (by omega), if_neg c1, if_neg c2, hnode, hdx, Nat.cast_sub (by omega), Nat.cast_one, mul_div_cancel₀]
        · ring
        · linarith
  | coords l => exact knotFn_arr _ (by omega)

theorem cpMid_affine {o n : ℕ} {X X' : ℕ → K} {α β : K} (hX : ∀ i, i < n → X' i = α * X i + β) {j : ℕ} (h1 : o < j) (h2 : j < o + n) :
    cpMid o n X' j = α * cpMid o n X j + β := by
  rw [cpMid_eq h1 h2, cpMid_eq h1 h2, hX _ (by omega), hX _ (by omega)]
  split
  · ring
  · rfl

/-- Affinely related data coordinates give affinely related knots, whatever way the coordinates are given. -/
theorem XRange.Valid.kAff {o N : ℕ} {per : Bool} {x x' : XRange K} (h : x.Valid o N per) (h' : x'.Valid o N per) {α β : K}
    (hX : ∀ i, i < N → x'.node N i = α * x.node N i + β) : KAff o α β (x.knots o (unk per N) per) (x'.knots o (unk per N) per) := by
  have hl : (x'.knots o (unk per N) per).length = (x.knots o (unk per N) per).length := h'.knots_length.trans h.knots_length.symm
  refine ⟨hl, fun i hi hil => ?_⟩
  have hlen := h.knots_length
  cases hp : per with
  | true =>
    subst hp
    have h2 := h.periodic rfl
    have hN : unk true N = N - 1 := rfl
    rw [if_pos rfl] at hlen
    rw [h'.knots_per hi (by omega), h.knots_per hi hil]
    have hXn := hX (unk true N) (by omega)
    have hX0 := hX 0 (by omega)
    have hm : ∀ j, o < j → j < o + (unk true N + 1) → _ := fun j => cpMid_affine (X := x.node N) (X' := x'.node N) (α := α) (β := β)
      (n := unk true N + 1) (o := o) (fun i hi => hX i (by omega)) (j := j)
    by_cases c1 : i ≤ o
    · rw [cpKnot_low c1, cpKnot_low c1, hm _ (by omega) (by omega), hXn, hX0]; ring
    · by_cases c2 : i ≤ unk true N + o
      · rw [cpKnot_mid (by omega) c2, cpKnot_mid (by omega) c2, hm _ (by omega) (by omega)]
      · rw [cpKnot_high (by omega) (by omega), cpKnot_high (by omega) (by omega), hm _ (by omega) (by omega), hXn, hX0]; ring
  | false =>
    subst hp
    have h2 := h.aperiodic rfl
    have hN : unk false N = N := rfl
    rw [if_neg (by simp), hN] at hlen
    by_cases ho : 1 ≤ o
    · rw [h'.knots_aper ho (by omega), h.knots_aper ho hil]
      have ho' : (o : K) ≠ 0 := by exact_mod_cast (by omega : o ≠ 0)
      by_cases c1 : i ≤ o
      · rw [caKnot_low c1, caKnot_low c1, hX 0 (by omega)]
      · by_cases c2 : i < N
        · rw [caKnot_mid (by omega) c2, caKnot_mid (by omega) c2,
            sum_congr rfl fun j hj => hX j (by have := mem_Ico.1 hj; omega), sum_add_distrib, ← mul_sum, add_div, mul_div_assoc]
          simp [ho']
        · rw [caKnot_high (by omega) (by omega), caKnot_high (by omega) (by omega), hX _ (by omega)]
    · obtain rfl : o = 0 := by omega
      cases x with
      | coords l => exact absurd ((h.coords l rfl).2.2 rfl) (by omega)
      | uniform a b =>
        cases x' with
        | coords l => exact absurd ((h'.coords l rfl).2.2 rfl) (by omega)
        | uniform a' b' =>
          have hk : ∀ u v : K, (XRange.uniform u v).knots 0 N false = arr (N + (0 + 1)) (uaKnot 0 N u v ((v - u) / ((N : K) - 1))) :=
            fun _ _ => rfl
          rw [hN] at hil ⊢
          rw [hk, hk, knotFn_arr _ (by omega), knotFn_arr _ (by omega)]
          have hN2 : (2 : K) ≤ (N : K) := by exact_mod_cast h.two
          have e0 := hX 0 (by omega)
          have e1 := hX (N - 1) (by omega)
          simp only [XRange.node] at e0 e1
          rw [Nat.cast_sub (by omega), Nat.cast_one, mul_div_cancel₀ _ (by linarith), mul_div_cancel₀ _ (by linarith)] at e1
          simp only [Nat.cast_zero, zero_mul, add_zero] at e0
          have hb : b' = α * b + β := by linarith
          rw [e0, hb]
          unfold uaKnot uniformKnot
          split
          · rfl
          · split
            · ring
            · rfl

end Intp
