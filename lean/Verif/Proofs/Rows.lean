import Verif.Proofs.Assemble

/-!
# Rows of the collocation matrix, for each of the four kinds of dimension
-/

namespace Intp

open Finset

variable {K V : Type} [Field K] [LinearOrder K] [IsStrictOrderedRing K] [FloorRing K] [AddCommGroup V] [Module K V] {D : ℕ}

omit [IsStrictOrderedRing K] [FloorRing K] in
/-- Pieces at a clamped left end. -/
theorem piece_clamp_left {T : ℕ → K} {s p : ℕ} {x : K} (hp : p ≤ s) (hT : ∀ j, j ≤ p → T (s - j) = x) (hx : x < T (s + 1)) :
    ∀ (k i : ℕ), k ≤ p → piece T s k i x = if i + k = s then 1 else 0
  | 0, i, _ => by simp [piece]
  | k + 1, i, hk => by
    rw [piece, piece_clamp_left hp hT hx k i (by omega), piece_clamp_left hp hT hx k (i + 1) (by omega)]
    by_cases h1 : i + k = s
    · have : T i = x := by have := hT k (by omega); rwa [show s - k = i by omega] at this
      rw [this, if_neg (c := i + 1 + k = s) (by omega), if_neg (c := i + (k + 1) = s) (by omega)]; simp
    · rw [if_neg h1, mul_zero, zero_add]
      by_cases h2 : i + 1 + k = s
      · have e : T (i + 1) = x := by have := hT k (by omega); rwa [show s - k = i + 1 by omega] at this
        rw [if_pos h2, if_pos (by omega), e, show i + k + 2 = s + 1 by omega, div_self (sub_ne_zero.2 hx.ne'), mul_one]
      · rw [if_neg h2, if_neg (by omega), mul_zero]

omit [IsStrictOrderedRing K] [FloorRing K] in
/-- Pieces at a clamped right end. -/
theorem piece_clamp_right {T : ℕ → K} {s p : ℕ} {x : K} (hT : ∀ j, 1 ≤ j → j ≤ p → T (s + j) = x) (hx : T s < x) :
    ∀ (k i : ℕ), k ≤ p → piece T s k i x = if i = s then 1 else 0
  | 0, i, _ => by simp [piece]
  | k + 1, i, hk => by
    rw [piece, piece_clamp_right hT hx k i (by omega), piece_clamp_right hT hx k (i + 1) (by omega)]
    by_cases h1 : i = s
    · subst h1
      have e : T (i + k + 1) = x := hT (k + 1) (by omega) hk
      rw [if_pos rfl, if_neg (by omega), e, div_self (sub_ne_zero.2 hx.ne')]; simp
    · rw [if_neg h1, mul_zero, zero_add]
      by_cases h2 : i + 1 = s
      · have e : T (i + k + 2) = x := by
          have := hT (k + 1) (by omega) hk
          rwa [show s + (k + 1) = i + k + 2 by omega] at this
        rw [e]; simp
      · rw [if_neg h2, mul_zero]

omit [IsStrictOrderedRing K] [FloorRing K] in
/-- The last piece of a segment vanishes at its left end. -/
theorem piece_top_zero {T : ℕ → K} {s k : ℕ} {x : K} (hk : 1 ≤ k) (hx : x = T s) : piece T s k s x = 0 := by
  obtain ⟨k, rfl⟩ : ∃ k', k = k' + 1 := ⟨k - 1, by omega⟩
  rw [piece, piece_zero_of_lt T s x k (s + 1) (by omega), hx]; simp

/-- What the object stores for dimension `d`. -/
structure DimIs (f : InterpFn D K V) (d : Fin D) (o : ℕ) (per uni : Bool) (t : List K) : Prop where
  order : f.spline.order = o
  per : f.periodicity d = per
  uni : f.uniform d = uni
  knots : f.spline.knots d = t

section

variable {f : InterpFn D K V} {d : Fin D} {o n : ℕ} {t : List K} {X : ℕ → K} {per uni : Bool}

theorem baseAt_ok {b : BSpline D K V} (ho : b.order = o) (ht : b.knots d = t) {ki : ℕ} (hm : KMono t) (h1 : o ≤ ki)
    (h2 : ki + o < t.length) (h3 : knotFn t ki < knotFn t (ki + 1)) (x : K) :
    baseAt b d ki x = .ok (arr (o + 1) fun a => piece (knotFn t) ki o (ki - o + a) x) := by
  unfold baseAt
  rw [ho, ht, itAdd_ok (r := ki) (by omega) (by omega), ok_bind]
  exact baseSplineValue_ok h1 h2 (nondeg_of_mono hm h3 h1 h2) le_rfl

/-! ## clamped dimensions -/

theorem AAxis.exists_ki (h : AAxis o n t X) (i : ℕ) : ∃ k, IsSeg (knotFn t) o (n - 1) (X i) k :=
  exists_isSeg h.kmono (X i) (by have := h.big; omega) (by have := h.len; have := h.big; omega)

/-- Segment of data point `i`. -/
noncomputable def AAxis.ki (h : AAxis o n t X) (i : ℕ) : ℕ := (h.exists_ki i).choose

theorem AAxis.ki_spec (h : AAxis o n t X) (i : ℕ) : IsSeg (knotFn t) o (n - 1) (X i) (h.ki i) := (h.exists_ki i).choose_spec

theorem AAxis.ki_eq (h : AAxis o n t X) {i k : ℕ} (hk : IsSeg (knotFn t) o (n - 1) (X i) k) : h.ki i = k :=
  IsSeg.unique h.kmono (by have := h.len; have := h.big; omega) (h.ki_spec i) hk

theorem AAxis.ki_bounds (h : AAxis o n t X) (i : ℕ) : o ≤ h.ki i ∧ h.ki i + 1 ≤ n := by
  have := h.ki_spec i
  have hb := h.big
  exact ⟨this.1, by have := this.2.1; omega⟩

theorem AAxis.ki_zero (h : AAxis o n t X) : h.ki 0 = o := by
  refine h.ki_eq ⟨le_rfl, by have := h.big; omega, .inl rfl, .inr ?_⟩
  rw [← h.left o le_rfl]
  exact h.inc o le_rfl (by have := h.big; omega)

theorem AAxis.ki_last (h : AAxis o n t X) : h.ki (n - 1) = n - 1 := by
  have := h.big
  have := h.two
  refine h.ki_eq ⟨by omega, le_rfl, .inr ?_, .inl rfl⟩
  rw [← h.right n le_rfl (by omega)]
  exact h.kmono _ _ (by omega) (by omega) (by have := h.len; omega)

theorem AAxis.ends (h : AAxis o n t X) {i : ℕ} (hi : i = 0 ∨ i + 1 = n) {J : ℕ} (hJ : J < n) :
    colRow (knotFn t) o n (h.ki i) (X i) J = if J = i then 1 else 0 := by
  have hb := h.big
  have h2 := h.two
  unfold colRow
  rcases hi with rfl | hi
  · rw [h.ki_zero, sum_eq_single 0]
    · rw [piece_clamp_left (p := o) le_rfl (fun j hj => h.left (o - j) (by omega)) (by rw [← h.left o le_rfl]; exact h.inc o le_rfl (by omega)) o _ le_rfl]
      rw [if_pos (c := o - o + 0 + o = o) (by omega), show (o - o + 0) % n = 0 by simp]
      by_cases hJ0 : J = 0
      · rw [if_pos hJ0, if_pos hJ0.symm]
      · rw [if_neg hJ0, if_neg (Ne.symm hJ0)]
    · intro a ha ha0
      rw [piece_clamp_left (p := o) le_rfl (fun j hj => h.left (o - j) (by omega)) (by rw [← h.left o le_rfl]; exact h.inc o le_rfl (by omega)) o _ le_rfl,
        if_neg (c := o - o + a + o = o) (by omega), ite_self]
    · intro hc; simp at hc
  · obtain rfl : i = n - 1 := by omega
    have hr : ∀ k, piece (knotFn t) (n - 1) o k (X (n - 1)) = if k = n - 1 then 1 else 0 := fun k =>
      piece_clamp_right (p := o) (fun j h1 h2 => h.right (n - 1 + j) (by omega) (by omega)) (by
        have := h.inc (n - 1) (by omega) (by omega)
        rwa [show n - 1 + 1 = n by omega, h.right n le_rfl (by omega)] at this) o k le_rfl
    rw [h.ki_last, sum_eq_single o]
    · rw [hr, if_pos (c := n - 1 - o + o = n - 1) (by omega), show n - 1 - o + o = n - 1 by omega, Nat.mod_eq_of_lt (by omega)]
      by_cases hJ0 : J = n - 1
      · rw [if_pos hJ0, if_pos hJ0.symm]
      · rw [if_neg hJ0, if_neg (Ne.symm hJ0)]
    · intro a ha ha0
      rw [mem_range] at ha
      rw [hr, if_neg (c := n - 1 - o + a = n - 1) (by omega), ite_self]
    · intro hc; simp at hc

theorem AAxis.baseAt_ok (h : AAxis o n t X) (hd : DimIs f d o per uni t) (i : ℕ) (x : K) :
    baseAt f.spline d (h.ki i) x = .ok (arr (o + 1) fun a => piece (knotFn t) (h.ki i) o (h.ki i - o + a) x) := by
  have hb := h.ki_bounds i
  exact Intp.baseAt_ok hd.order hd.knots h.kmono hb.1 (by have := h.len; omega) (h.inc _ hb.1 (by omega)) x

/-- Assembled matrix of a clamped dimension, from the properties of its rows. -/
theorem AAxis.assemble (c : Cfg) (h : AAxis o n t X) (hd : DimIs f d o false uni t) {coords vals : List K} {Inv : ℕ → List K → Prop}
    (h0 : Inv 0 vals) (hkeep : ∀ i vals, i = 0 ∨ i + 1 = n → Inv i vals → Inv (i + 1) vals)
    (hrow : ∀ i, 0 < i → i + 1 < n → ∀ vals, Inv i vals →
      rowData f coords d i vals = .ok (h.ki i, arr (o + 1) fun a => piece (knotFn t) (h.ki i) o (h.ki i - o + a) (X i)) ∧
        Inv (i + 1) (arr (o + 1) fun a => piece (knotFn t) (h.ki i) o (h.ki i - o + a) (X i)))
    (hdrop : ∀ i, 0 < i → i + 1 < n → sOf o n false uni i ≤ o → X i = knotFn t (h.ki i) ∧ sOf o n false uni i = o ∧ 1 ≤ o)
    (hband : ∀ i, 0 < i → i + 1 < n → ∀ j, j < sOf o n false uni i → InBand (bandWidth o false) (bandWidth o false) i (h.ki i - o + j)) :
    ∃ m A, assemble c f coords d n vals = .ok m ∧ CoefMat.Rep false n (bandWidth o false) m A ∧
      ∀ i, i < n → ∀ J, J < n → A ((i + rowShift o false) % n) J = colRow (knotFn t) o n (h.ki i) (X i) J := by
  have hb := h.big
  have h2 := h.two
  refine assemble_spec c (Inv := Inv) hd.per hd.order (by omega) (fun i _ => ?_) h0 (fun _ => hkeep) ?_ (fun i _ => (h.ki_bounds i).1) ?_ ?_
    (fun _ i hi he J hJ => h.ends he hJ)
  · have := sNum_le o false (f.uniform d) (decide (o / 2 < i ∧ i < n - (o / 2 + 1)))
    unfold sOf
    omega
  · intro i hi he vals hv
    exact hrow i (by by_contra hc; exact he ⟨rfl, by omega⟩) (by by_contra hc; exact he ⟨rfl, by omega⟩) vals hv
  · intro i hi he a ha1 ha2
    rw [hd.uni] at ha1
    obtain ⟨e1, e2, e3⟩ := hdrop i (by by_contra hc; exact he ⟨rfl, by omega⟩) (by by_contra hc; exact he ⟨rfl, by omega⟩) (by omega)
    obtain rfl : a = o := by omega
    rw [Nat.sub_add_cancel (h.ki_bounds i).1]
    exact piece_top_zero e3 e1
  · intro i hi he j hj
    rw [hd.uni] at hj
    have hsle := sNum_le o false uni (decide (o / 2 < i ∧ i < n - (o / 2 + 1)))
    have hk := h.ki_bounds i
    have hr : (i + rowShift o false) % n = i := by
      show (i + 0) % n = i
      rw [Nat.add_zero, Nat.mod_eq_of_lt hi]
    have hc : (h.ki i - o + j) % n = h.ki i - o + j := Nat.mod_eq_of_lt (by unfold sOf at hj; omega)
    rw [hr, hc]
    exact hband i (by by_contra hc; exact he ⟨rfl, by omega⟩) (by by_contra hc; exact he ⟨rfl, by omega⟩) j hj

/-! ### uniform -/

/-- Knots of a uniform clamped dimension away from the ends. -/
theorem ua_knot {a b dx : K} {i : ℕ} (h1 : o < i) (h2 : i < n) :
    knotFn (arr (n + (o + 1)) (uaKnot o n a b dx)) i = a + ((i : K) - ((o : K) + 1) / 2) * dx := by
  rw [knotFn_arr _ (by omega)]
  unfold uaKnot uniformKnot
  rw [if_neg (by omega), if_pos h2]; push_cast; ring

/-- `knot_ind` of a uniform clamped dimension. -/
def uaKi (o n i : ℕ) : ℕ := min (n - 1) (if i > o / 2 then i + (o + 1) / 2 else o)

theorem half_le (m : ℕ) : ((m / 2 : ℕ) : K) ≤ (m : K) / 2 := by
  rw [le_div_iff₀ (by norm_num)]
  exact_mod_cast Nat.div_mul_le_self m 2

theorem lt_half (m : ℕ) : (m : K) / 2 < ((m / 2 : ℕ) : K) + 1 := by
  rw [div_lt_iff₀ (by norm_num)]
  exact_mod_cast (by omega : m < (m / 2 + 1) * 2)

theorem ua_ki {a b dx : K} (hdx : 0 < dx) (h : AAxis o n (arr (n + (o + 1)) (uaKnot o n a b dx)) (uNode a dx)) {i : ℕ} (hi : i < n) :
    h.ki i = uaKi o n i := by
  have hb := h.big
  have h2 := h.two
  set T := knotFn (arr (n + (o + 1)) (uaKnot o n a b dx)) with hT
  have e1 := half_le (K := K) (o + 1)
  have e2 := lt_half (K := K) (o + 1)
  push_cast at e1 e2
  refine h.ki_eq ?_
  unfold uaKi
  by_cases hio : i > o / 2
  · rw [if_pos hio]
    refine ⟨by omega, by omega, ?_, ?_⟩
    · by_cases hko : min (n - 1) (i + (o + 1) / 2) = o
      · exact .inl hko
      · right
        rw [ua_knot (by omega) (by omega)]
        unfold uNode
        have : ((min (n - 1) (i + (o + 1) / 2) : ℕ) : K) ≤ (i : K) + (((o + 1) / 2 : ℕ) : K) := by exact_mod_cast Nat.min_le_right _ _
        nlinarith
    · by_cases hkn : min (n - 1) (i + (o + 1) / 2) = n - 1
      · exact .inl hkn
      · right
        rw [ua_knot (by omega) (by omega)]
        unfold uNode
        rw [show min (n - 1) (i + (o + 1) / 2) = i + (o + 1) / 2 by omega]
        push_cast
        nlinarith
  · rw [if_neg hio, show min (n - 1) o = o by omega]
    refine ⟨le_rfl, by omega, .inl rfl, ?_⟩
    by_cases hno : o = n - 1
    · exact .inl hno
    · right
      rw [ua_knot (by omega) (by omega)]
      unfold uNode
      have h3 : (i : K) ≤ ((o / 2 : ℕ) : K) := by exact_mod_cast (by omega : i ≤ o / 2)
      have h4 := half_le (K := K) o
      push_cast
      nlinarith

theorem ua_row {a b dx : K} (hdx : 0 < dx) (h : AAxis o n (arr (n + (o + 1)) (uaKnot o n a b dx)) (uNode a dx))
    (hd : DimIs f d o false true (arr (n + (o + 1)) (uaKnot o n a b dx))) (hr : (f.range d).1 = a) (hfx : f.dx d = dx) {coords : List K}
    {i : ℕ} (h1 : 0 < i) (h2 : i + 1 < n) {vals : List K}
    (hv : 2 ≤ i → i < n → vals = arr (o + 1) fun j => piece (knotFn (arr (n + (o + 1)) (uaKnot o n a b dx))) (h.ki (i - 1)) o (h.ki (i - 1) - o + j) (uNode a dx (i - 1))) :
    rowData f coords d i vals = .ok (h.ki i, arr (o + 1) fun j => piece (knotFn (arr (n + (o + 1)) (uaKnot o n a b dx))) (h.ki i) o (h.ki i - o + j) (uNode a dx i)) := by
  have hb := h.big
  have hki := ua_ki hdx h (i := i) (by omega)
  have hlen : (f.spline.knots d).length = n + (o + 1) := by rw [hd.knots, arr_length]
  unfold rowData
  rw [hd.uni, if_pos rfl]
  have e1 : knotIndUniform f.spline.order (f.spline.knots d).length i (f.periodicity d) = .ok (h.ki i) := by
    unfold knotIndUniform
    rw [hd.per, hd.order, hlen, if_neg (by simp), subM_ok (by omega), ok_bind, pure_eq_ok, hki]
    unfold uaKi
    rw [show n + (o + 1) - (o + 2) = n - 1 by omega]
  rw [e1, ok_bind]
  have hx : (f.range d).1 + (i : K) * f.dx d = uNode a dx i := by rw [hr, hfx]; rfl
  have e2 : uniformBase f d i (h.ki i) vals = .ok (arr (o + 1) fun j => piece (knotFn (arr (n + (o + 1)) (uaKnot o n a b dx))) (h.ki i) o (h.ki i - o + j) (uNode a dx i)) := by
    unfold uniformBase
    rw [hd.per, if_neg (by simp), hx, hlen, hd.order]
    by_cases c1 : h.ki i ≤ 2 * o + 1
    · rw [if_pos c1, h.baseAt_ok hd]
    · rw [if_neg c1, subM_ok (by omega), ok_bind]
      by_cases c2 : h.ki i ≥ n + (o + 1) - (2 * o + 2)
      · rw [if_pos c2, h.baseAt_ok hd]
      · rw [if_neg c2, pure_eq_ok]
        congr 1
        have hgt : i > o / 2 := by
          by_contra hc
          rw [hki] at c1
          unfold uaKi at c1
          rw [if_neg hc] at c1
          omega
        have hk : h.ki i = i + (o + 1) / 2 := by
          rw [hki] at c2 ⊢
          unfold uaKi at c2 ⊢
          rw [if_pos hgt] at c2 ⊢
          omega
        have hk' : h.ki (i - 1) = h.ki i - 1 := by
          rw [ua_ki hdx h (by omega), hk]
          unfold uaKi
          rw [if_pos (by omega)]
          omega
        rw [hv (by omega) (by omega)]
        refine arr_congr fun j hj => ?_
        have := piece_shift (t := knotFn (arr (n + (o + 1)) (uaKnot o n a b dx))) (n := 1) (s := h.ki i - 1) (p := o) (P := dx) (by omega)
          (fun k hk1 hk2 => by
            rw [ua_knot (by omega) (by omega), ua_knot (by omega) (by omega)]
            push_cast; ring) (uNode a dx (i - 1)) o (h.ki i - 1 - o + j) le_rfl
        rw [hk', ← this, show h.ki i - 1 + 1 = h.ki i by omega, show h.ki i - 1 - o + j + 1 = h.ki i - o + j by omega]
        congr 1
        unfold uNode
        rw [Nat.cast_sub (by omega)]; push_cast; ring
  rw [e2, ok_bind, pure_eq_ok]

/-- Assembled matrix of a uniform clamped dimension. -/
theorem ua_assemble (c : Cfg) {a b dx : K} (hdx : 0 < dx) (h : AAxis o n (arr (n + (o + 1)) (uaKnot o n a b dx)) (uNode a dx))
    (hd : DimIs f d o false true (arr (n + (o + 1)) (uaKnot o n a b dx))) (hr : (f.range d).1 = a) (hfx : f.dx d = dx) {coords vals : List K} :
    ∃ m A, assemble c f coords d n vals = .ok m ∧ CoefMat.Rep false n (bandWidth o false) m A ∧
      ∀ i, i < n → ∀ J, J < n → A ((i + rowShift o false) % n) J =
        colRow (knotFn (arr (n + (o + 1)) (uaKnot o n a b dx))) o n (h.ki i) (uNode a dx i) J := by
  have hb := h.big
  refine h.assemble c hd (Inv := fun i vals => 2 ≤ i → i < n → vals = arr (o + 1) fun j =>
    piece (knotFn (arr (n + (o + 1)) (uaKnot o n a b dx))) (h.ki (i - 1)) o (h.ki (i - 1) - o + j) (uNode a dx (i - 1))) (by omega) ?_ ?_ ?_ ?_
  · intro i vals hi _ h1 h2; omega
  · intro i h1 h2 vals hv
    refine ⟨ua_row hdx h hd hr hfx h1 h2 hv, fun _ _ => ?_⟩
    rw [show i + 1 - 1 = i by omega]
  · intro i h1 h2 hs
    have hki := ua_ki hdx h (i := i) (by omega)
    unfold sOf sNum at hs
    rw [or_one_eq] at hs
    have key : o % 2 = 1 ∧ o / 2 < i ∧ i < n - (o / 2 + 1) := by
      by_cases ho1 : o = 1
      · subst ho1; omega
      · simp only [Bool.false_eq_true, if_false, ho1, Bool.true_and, decide_eq_true_eq] at hs
        split at hs
        · rename_i hc; omega
        · omega
    obtain ⟨k1, k2, k3⟩ := key
    have hk : h.ki i = i + (o + 1) / 2 := by
      rw [hki]; unfold uaKi; rw [if_pos k2]; omega
    refine ⟨?_, ?_, by omega⟩
    · rw [hk, ua_knot (by omega) (by omega)]
      unfold uNode
      have : (((o + 1) / 2 : ℕ) : K) = ((o : K) + 1) / 2 := by
        rw [eq_div_iff (by norm_num)]
        exact_mod_cast (by omega : (o + 1) / 2 * 2 = o + 1)
      push_cast [this]
      ring
    · unfold sOf sNum
      rw [or_one_eq]
      by_cases ho1 : o = 1
      · subst ho1; simp
      · simp only [Bool.false_eq_true, if_false, ho1, Bool.true_and, decide_eq_true_eq]
        rw [if_pos ⟨k2, k3⟩]; omega
  · intro i h1 h2 j hj
    have hki := ua_ki hdx h (i := i) (by omega)
    unfold sOf sNum at hj
    rw [or_one_eq] at hj
    rw [hki]
    unfold uaKi InBand bandWidth
    simp only [Bool.false_eq_true, if_false, Bool.true_and, decide_eq_true_eq] at hj ⊢
    split <;> split <;> split at hj <;> (try split at hj) <;> omega

/-! ### explicit coordinates -/

theorem ca_row {l : List K} (ho : 1 ≤ o) (hl : l.length = n) (h : AAxis o n t (knotFn l))
    (hd : DimIs f d o false false t) {i : ℕ} (h1 : 0 < i) (h2 : i + 1 < n) (hi1 : h.ki i ≤ i + o) (vals : List K) :
    rowData f l d i vals = .ok (h.ki i, arr (o + 1) fun j => piece (knotFn t) (h.ki i) o (h.ki i - o + j) (knotFn l i)) := by
  have hb := h.big
  have hlen := h.len
  unfold rowData
  rw [hd.uni, if_neg (by simp), rd_knotFn (by omega), ok_bind]
  have e1 : knotIndCoord f l d i (knotFn l i) = .ok (h.ki i) := by
    unfold knotIndCoord
    rw [hd.per, if_neg (by simp), if_neg (by omega), subM_ok (by omega), ok_bind, if_neg (by omega), hd.knots, hd.order, hlen, subM_ok (by omega),
      ok_bind, show n + o + 1 - (o + 1) = n by omega]
    unfold BSpline.getKnotIter
    have hp : f.spline.periodicity d = false := hd.per
    rw [hp, hd.knots, hd.order, itAdd_ok (r := i + 1) (by omega) (by omega), ok_bind]
    simp only [Bool.false_eq_true, if_false, pure_eq_ok, ok_bind]
    obtain ⟨a1, a2, a3, a4⟩ := h.ki_spec i
    have hlt : knotFn l i < knotFn t n := by
      rw [h.right n le_rfl (by omega)]
      have s2 := h.sw2 i h1 h2
      refine lt_of_lt_of_le s2 ?_
      rw [← h.right (n + o) (by omega) (by omega)]
      exact h.kmono _ _ (by omega) (by omega) (by omega)
    have hup : knotFn l i < knotFn t (h.ki i + 1) := by
      rcases a4 with a4 | a4
      · rw [a4, show n - 1 + 1 = n by omega]; exact hlt
      · exact a4
    rw [findSegment_eq (s := h.ki i) h.kmono (by omega) ⟨by omega, .inr (.inl ⟨?_, ?_⟩)⟩ ⟨a1, by omega, a3, .inr hup⟩]
    · rfl
    · rw [h.left o le_rfl, ← h.left 0 (by omega)]
      refine le_trans ?_ (h.sw1 i h1 h2).le
      rw [h.left 0 (by omega)]
      by_cases hio : i ≤ o
      · rw [h.left i hio]
      · rw [← h.left o le_rfl]
        exact h.kmono o i (by omega) (by omega) (by omega)
    · by_cases hmin : n ≤ i + o
      · rw [min_eq_left hmin]
        exact lt_of_lt_of_le hlt (h.kmono _ _ (by omega) (by omega) (by omega))
      · rw [min_eq_right (by omega)]
        exact h.sw2 i h1 h2
  rw [e1, ok_bind, h.baseAt_ok hd, ok_bind, pure_eq_ok]

/-- Segment of an interior data point of a clamped dimension with explicit coordinates. -/
theorem ca_ki {X : ℕ → K} (hX : ∀ i j, i < j → j < n → X i < X j) (ho : 1 ≤ o)
    (h : AAxis o n (arr (n + o + 1) (caKnot o n X)) X) {i : ℕ} (h1 : 0 < i) (h2 : i + 1 < n) :
    i + 1 ≤ h.ki i ∧ (o = 1 → h.ki i = i + 1 ∧ X i = knotFn (arr (n + o + 1) (caKnot o n X)) (i + 1)) ∧ (2 ≤ o → h.ki i ≤ i + o - 1) := by
  have hb := h.big
  obtain ⟨a1, a2, a3, a4⟩ := h.ki_spec i
  obtain ⟨b1, b2, b3⟩ := caKnot_seg hX ho hb h1 h2
  rw [← knotFn_arr (n := n + o + 1) (caKnot o n X) (by omega)] at b1 b2 b3
  have hlow : i + 1 ≤ h.ki i := by
    by_contra hc
    rcases a4 with a4 | a4
    · omega
    · exact absurd (lt_of_lt_of_le a4 ((h.kmono _ _ (by omega) (by omega) (by rw [arr_length]; omega)).trans b1)) (lt_irrefl _)
  refine ⟨hlow, fun h1o => ?_, fun h2o => ?_⟩
  · subst h1o
    have e : X i = knotFn (arr (n + 1 + 1) (caKnot 1 n X)) (i + 1) := le_antisymm b2 b1
    refine ⟨h.ki_eq ⟨by omega, by omega, .inr b1, .inr ?_⟩, e⟩
    rw [e]
    exact h.inc (i + 1) (by omega) (by omega)
  · by_contra hc
    rcases a3 with a3 | a3
    · omega
    · exact absurd (lt_of_lt_of_le (b3 h2o) ((h.kmono (i + o) (h.ki i) (by omega) (by omega) (by rw [arr_length]; omega)).trans a3)) (lt_irrefl _)

/-- Assembled matrix of a clamped dimension with explicit coordinates. -/
theorem ca_assemble (c : Cfg) {l : List K} (hl : l.length = n) (hX : ∀ i j, i < j → j < n → knotFn l i < knotFn l j) (ho : 1 ≤ o)
    (h : AAxis o n (arr (n + o + 1) (caKnot o n (knotFn l))) (knotFn l)) (hd : DimIs f d o false false (arr (n + o + 1) (caKnot o n (knotFn l))))
    {vals : List K} :
    ∃ m A, assemble c f l d n vals = .ok m ∧ CoefMat.Rep false n (bandWidth o false) m A ∧
      ∀ i, i < n → ∀ J, J < n → A ((i + rowShift o false) % n) J =
        colRow (knotFn (arr (n + o + 1) (caKnot o n (knotFn l)))) o n (h.ki i) (knotFn l i) J := by
  have hb := h.big
  refine h.assemble c hd (Inv := fun _ _ => True) trivial (fun _ _ _ _ => trivial) ?_ ?_ ?_
  · intro i h1 h2 vals _
    obtain ⟨k1, k2, k3⟩ := ca_ki hX ho h h1 h2
    refine ⟨ca_row ho hl h hd h1 h2 ?_ vals, trivial⟩
    by_cases h1o : o = 1
    · have := (k2 h1o).1; omega
    · have := k3 (by omega); omega
  · intro i h1 h2 hs
    obtain ⟨k1, k2, k3⟩ := ca_ki hX ho h h1 h2
    unfold sOf sNum at hs ⊢
    by_cases h1o : o = 1
    · obtain ⟨e1, e2⟩ := k2 h1o
      rw [e1]
      exact ⟨e2, by simp [h1o], ho⟩
    · simp [h1o] at hs
  · intro i h1 h2 j hj
    obtain ⟨k1, k2, k3⟩ := ca_ki hX ho h h1 h2
    have hk := h.ki_bounds i
    unfold sOf sNum at hj
    unfold InBand bandWidth
    by_cases h1o : o = 1
    · obtain ⟨e1, e2⟩ := k2 h1o
      subst h1o
      simp at hj ⊢
      omega
    · simp only [Bool.false_eq_true, if_false, h1o, Bool.false_and] at hj ⊢
      have := k3 (by omega)
      rw [if_neg (by omega)]
      omega

/-! ## periodic dimensions -/

theorem PAxis.nondeg (h : PAxis o n t X) {i : ℕ} (hi : i < n) : knotFn t (i + o) < knotFn t (i + o + 1) :=
  h.inc _ (by omega) (by have := h.len; omega)

theorem PAxis.baseAt_ok (h : PAxis o n t X) (hd : DimIs f d o per uni t) {i : ℕ} (hi : i < n) (x : K) :
    baseAt f.spline d (i + o) x = .ok (arr (o + 1) fun a => piece (knotFn t) (i + o) o (i + o - o + a) x) :=
  Intp.baseAt_ok hd.order hd.knots h.kmono (by omega) (by have := h.len; omega) (h.nondeg hi) x

/-- Assembled matrix of a periodic dimension, from the properties of its rows. -/
theorem PAxis.assemble (c : Cfg) (h : PAxis o n t X) (hd : DimIs f d o true uni t) {coords vals : List K} {Inv : List K → Prop} (h0 : Inv vals)
    (hrow : ∀ i, i < n → ∀ vals, Inv vals →
      rowData f coords d i vals = .ok (i + o, arr (o + 1) fun a => piece (knotFn t) (i + o) o (i + o - o + a) (X i)) ∧
        Inv (arr (o + 1) fun a => piece (knotFn t) (i + o) o (i + o - o + a) (X i))) :
    ∃ m A, assemble c f coords d n vals = .ok m ∧ CoefMat.Rep true n (bandWidth o true) m A ∧
      ∀ i, i < n → ∀ J, J < n → A ((i + rowShift o true) % n) J = colRow (knotFn t) o n (i + o) (X i) J := by
  have hb := h.big
  have hs : ∀ i, sOf o n true (f.uniform d) i = 2 * (o / 2) + 1 := fun i => by unfold sOf sNum; rw [if_pos rfl, or_one_eq]
  refine assemble_spec c (Inv := fun _ => Inv) (ki := fun i => i + o) hd.per hd.order hb (fun i _ => by rw [hs]; exact hb) h0
    (fun h => by simp at h) ?_ (fun i _ => by simp) ?_ ?_ (fun h => by simp at h)
  · intro i hi _ vals hv
    exact hrow i hi vals hv
  · intro i hi _ a ha1 ha2
    rw [hs] at ha1
    obtain rfl : a = o := by omega
    rw [show i + a - a + a = i + a by omega]
    exact piece_top_zero (by omega) (h.odd (by omega) i hi)
  · intro i hi _ j hj
    rw [hs] at hj
    show InPat n (o / 2) (o / 2) ((i + o / 2) % n) ((i + o - o + j) % n)
    rw [show i + o - o + j = i + j by omega]
    have m1 : (i + o / 2) % n = if i + o / 2 < n then i + o / 2 else i + o / 2 - n := by
      split
      · rename_i hc; exact Nat.mod_eq_of_lt hc
      · rw [Nat.mod_eq_sub_mod (by omega), Nat.mod_eq_of_lt (by omega)]
    have m2 : (i + j) % n = if i + j < n then i + j else i + j - n := by
      split
      · rename_i hc; exact Nat.mod_eq_of_lt hc
      · rw [Nat.mod_eq_sub_mod (by omega), Nat.mod_eq_of_lt (by omega)]
    rw [m1, m2]
    unfold InPat InBand InSide
    split <;> split <;> omega

/-- Base spline values shared by all data points of a uniform periodic dimension. -/
theorem up_shift {a dx : K} (h : PAxis o n (arr (n + 1 + (2 * o + (1 - o % 2))) (uniformKnot a dx (2 * o + (1 - o % 2)))) (uNode a dx)) {i : ℕ}
    (hi : i < n) (j : ℕ) :
    piece (knotFn (arr (n + 1 + (2 * o + (1 - o % 2))) (uniformKnot a dx (2 * o + (1 - o % 2))))) (i + o) o (i + o - o + j) (uNode a dx i) =
      piece (knotFn (arr (n + 1 + (2 * o + (1 - o % 2))) (uniformKnot a dx (2 * o + (1 - o % 2))))) o o j a := by
  have := piece_shift (t := knotFn (arr (n + 1 + (2 * o + (1 - o % 2))) (uniformKnot a dx (2 * o + (1 - o % 2))))) (n := i) (s := o) (p := o)
    (P := (i : K) * dx) le_rfl (fun k hk1 hk2 => by
      rw [knotFn_arr _ (by omega), knotFn_arr _ (by omega)]
      unfold uniformKnot; push_cast; ring) a o j le_rfl
  rw [← this, Nat.add_comm i o, show o + i - o + j = j + i by omega]
  rfl

theorem up_precalc {a dx : K} (h : PAxis o n (arr (n + 1 + (2 * o + (1 - o % 2))) (uniformKnot a dx (2 * o + (1 - o % 2)))) (uNode a dx))
    (hd : DimIs f d o true true (arr (n + 1 + (2 * o + (1 - o % 2))) (uniformKnot a dx (2 * o + (1 - o % 2))))) (hfx : f.dx d = dx) :
    precalc f d = .ok (arr (o + 1) fun j =>
      piece (knotFn (arr (n + 1 + (2 * o + (1 - o % 2))) (uniformKnot a dx (2 * o + (1 - o % 2))))) o o j a) := by
  have hb := h.big
  unfold precalc
  rw [hd.per, hd.uni, Bool.and_self, if_pos rfl, hd.knots, hd.order, rd_arr _ (by omega), ok_bind]
  have := h.baseAt_ok hd (i := 0) (by omega) a
  simp only [Nat.zero_add, Nat.sub_self] at this
  rw [← this]
  congr 1
  rw [hfx]
  unfold uniformKnot
  push_cast
  ring

/-- Assembled matrix of a uniform periodic dimension. -/
theorem up_assemble (c : Cfg) {a dx : K} (h : PAxis o n (arr (n + 1 + (2 * o + (1 - o % 2))) (uniformKnot a dx (2 * o + (1 - o % 2)))) (uNode a dx))
    (hd : DimIs f d o true true (arr (n + 1 + (2 * o + (1 - o % 2))) (uniformKnot a dx (2 * o + (1 - o % 2))))) {coords : List K} :
    ∃ m A, assemble c f coords d n (arr (o + 1) fun j =>
      piece (knotFn (arr (n + 1 + (2 * o + (1 - o % 2))) (uniformKnot a dx (2 * o + (1 - o % 2))))) o o j a) = .ok m ∧
      CoefMat.Rep true n (bandWidth o true) m A ∧
      ∀ i, i < n → ∀ J, J < n → A ((i + rowShift o true) % n) J =
        colRow (knotFn (arr (n + 1 + (2 * o + (1 - o % 2))) (uniformKnot a dx (2 * o + (1 - o % 2))))) o n (i + o) (uNode a dx i) J := by
  refine h.assemble c hd (Inv := fun vals => vals = arr (o + 1) fun j =>
      piece (knotFn (arr (n + 1 + (2 * o + (1 - o % 2))) (uniformKnot a dx (2 * o + (1 - o % 2))))) o o j a) rfl ?_
  rintro i hi vals rfl
  have e : (arr (o + 1) fun j => piece (knotFn (arr (n + 1 + (2 * o + (1 - o % 2))) (uniformKnot a dx (2 * o + (1 - o % 2))))) (i + o) o
      (i + o - o + j) (uNode a dx i)) = arr (o + 1) fun j =>
      piece (knotFn (arr (n + 1 + (2 * o + (1 - o % 2))) (uniformKnot a dx (2 * o + (1 - o % 2))))) o o j a :=
    arr_congr fun j _ => up_shift h hi j
  refine ⟨?_, e⟩
  rw [e]
  unfold rowData
  rw [hd.uni, if_pos rfl]
  unfold knotIndUniform uniformBase
  rw [hd.per, hd.order]
  rfl

/-- Assembled matrix of a periodic dimension with explicit coordinates. -/
theorem cp_assemble (c : Cfg) {l : List K} (hl : l.length = n + 1) (h : PAxis o n t (knotFn l)) (hd : DimIs f d o true false t) {vals : List K} :
    ∃ m A, assemble c f l d n vals = .ok m ∧ CoefMat.Rep true n (bandWidth o true) m A ∧
      ∀ i, i < n → ∀ J, J < n → A ((i + rowShift o true) % n) J = colRow (knotFn t) o n (i + o) (knotFn l i) J := by
  refine h.assemble c hd (Inv := fun _ => True) trivial fun i hi vals _ => ⟨?_, trivial⟩
  unfold rowData
  rw [hd.uni, if_neg (by simp), rd_knotFn (by omega), ok_bind]
  unfold knotIndCoord
  rw [hd.per, if_pos rfl, hd.order, pure_eq_ok, ok_bind, h.baseAt_ok hd hi, ok_bind]
  rfl

end

end Intp
