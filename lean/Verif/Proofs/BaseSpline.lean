import Verif.Proofs.Arr
import Verif.Proofs.Basis
import Mathlib.Algebra.Order.Floor.Ring
import Mathlib.Data.Nat.Find

/-! # `base_spline_value` computes pieces of basis functions -/

namespace Intp

variable {K : Type} [Field K] [LinearOrder K]

theorem rd_knotFn {t : List K} {i : ℕ} (h : i < t.length) : rd t i = .ok (knotFn t i) := rd_knot h

/-- Content of the buffer while the inner loop runs. -/
private def bufAt (T : ℕ → K) (s order i j : ℕ) (x : K) (a : ℕ) : K :=
  if a < order - i + j then piece T s i (s - order + a) x else piece T s (i - 1) (s - order + a) x

theorem baseSplineValue_ok {order : ℕ} {t : List K} {s : ℕ} {x : K} {p : ℕ} (h1 : order ≤ s) (h2 : s + order < t.length)
    (hn : Nondeg (knotFn t) s order) (hp : p ≤ order) :
    baseSplineValue order t s x p = .ok (arr (order + 1) fun a => piece (knotFn t) s p (s - order + a) x) := by
  set T := knotFn t with hT
  unfold baseSplineValue
  have e0 : List.replicate (order + 1) (0 : K) = arr (order + 1) (fun _ => 0) := by simp [arr]
  rw [e0, wr_arr _ _ (by omega), ok_bind]
  apply Ok.eq
  have start : arr (order + 1) (Function.update (fun _ => (0 : K)) order 1) =
      arr (order + 1) (fun a => piece T s (1 - 1) (s - order + a) x) := by
    refine arr_congr fun a ha => ?_
    simp only [Nat.sub_self, piece, Function.update_apply]
    by_cases h : a = order
    · rw [if_pos h, if_pos (by omega)]
    · rw [if_neg h, if_neg (by omega)]
  rw [start]
  have := Spec.loop (E := fun _ => False) (lo := 1) (hi := p + 1)
    (s := arr (order + 1) (fun a => piece T s (1 - 1) (s - order + a) x))
    (P := fun i b => b = arr (order + 1) (fun a => piece T s (i - 1) (s - order + a) x))
    (f := fun i b => do
      let idxBegin ← subM order i
      loop 0 (i + 1) b fun j b => baseSplineBody order t s x i idxBegin j b) (by omega) rfl ?_
  · exact this.imp fun b hb => by rw [hb]; simp
  intro i b hi1 hi2 hb
  subst hb
  rw [subM_ok (by omega), ok_bind]
  have inner := Spec.loop (E := fun _ => False) (lo := 0) (hi := i + 1)
    (s := arr (order + 1) (fun a => piece T s (i - 1) (s - order + a) x))
    (P := fun j b => b = arr (order + 1) (bufAt T s order i j x))
    (f := fun j b => baseSplineBody order t s x i (order - i) j b) (by omega) ?_ ?_
  · refine inner.imp fun b hb => ?_
    rw [hb]
    refine arr_congr fun a ha => ?_
    unfold bufAt
    rw [if_pos (by omega)]
    simp
  · refine arr_congr fun a ha => ?_
    unfold bufAt
    split
    · rw [piece_zero_of_gt _ _ _ _ _ (by omega), piece_zero_of_gt _ _ _ _ _ (by omega)]
    · rfl
  intro j b _ hj hb
  subst hb
  obtain ⟨k, rfl⟩ : ∃ k, i = k + 1 := ⟨i - 1, by omega⟩
  set g := s - (k + 1) + j with hg
  have hga : s - order + (order - (k + 1) + j) = g := by omega
  unfold baseSplineBody
  rw [itAdd_ok (r := g) (by omega) (by omega), ok_bind, itAdd_ok (r := s + j + 1) (by omega) (by omega), ok_bind]
  -- first term
  have hu : baseLeftTerm t x j (order - (k + 1) + j) g (s + j + 1) (arr (order + 1) (bufAt T s order (k + 1) j x)) =
      .ok ((x - T g) / (T (g + k + 1) - T g) * piece T s k g x) := by
    unfold baseLeftTerm
    by_cases h0 : j = 0
    · rw [if_pos h0, piece_zero_of_gt _ _ _ _ _ (by omega), mul_zero]; rfl
    · rw [if_neg h0, rd_arr _ (by omega), ok_bind, rd_knotFn (by omega), ok_bind, rd_knotFn (by omega), ok_bind]
      have := hn g (s + j + 1 - 1) (by omega) (by omega) (by omega) (by omega)
      rw [divM_ok (sub_ne_zero.2 this.ne')]
      congr 1
      unfold bufAt
      rw [if_neg (by omega), hga, show g + k + 1 = s + j + 1 - 1 by omega]
      simp only [Nat.add_sub_cancel, hT]
      ring
  have hw : baseRightTerm order t x (order - (k + 1) + j) g (s + j + 1) (arr (order + 1) (bufAt T s order (k + 1) j x)) =
      .ok ((T (g + k + 2) - x) / (T (g + k + 2) - T (g + 1)) * piece T s k (g + 1) x) := by
    unfold baseRightTerm
    by_cases h0 : order - (k + 1) + j = order
    · rw [if_pos h0, piece_zero_of_lt _ _ _ _ _ (by omega), mul_zero]; rfl
    · rw [if_neg h0, rd_arr _ (by omega), ok_bind, rd_knotFn (by omega), ok_bind, rd_knotFn (by omega), ok_bind]
      have := hn (g + 1) (s + j + 1) (by omega) (by omega) (by omega) (by omega)
      rw [divM_ok (sub_ne_zero.2 this.ne')]
      congr 1
      unfold bufAt
      rw [if_neg (by omega), ← Nat.add_assoc (s - order), hga, show g + k + 2 = s + j + 1 by omega]
      simp only [Nat.add_sub_cancel, hT]
      ring
  rw [hu, ok_bind, hw, ok_bind, wr_arr _ _ (by omega)]
  refine Spec.ok ?_
  refine arr_congr fun a ha => ?_
  by_cases h : a = order - (k + 1) + j
  · subst h
    rw [Function.update_self]
    unfold bufAt
    rw [if_pos (by omega), hga, piece]
  · rw [Function.update_of_ne h]
    unfold bufAt
    by_cases h' : a < order - (k + 1) + j
    · rw [if_pos h', if_pos (by omega)]
    · rw [if_neg h', if_neg (by omega)]

/-- Sortedness of a knot vector in terms of `knotFn`.  Knot `0` is left out: for order `0` it only bounds the first segment, and for
larger orders its value is never used (`Nondeg` and the recursion start at knot `s - p + 1`). -/
def KMono (t : List K) : Prop := ∀ i j, 1 ≤ i → i ≤ j → j < t.length → knotFn t i ≤ knotFn t j

theorem nondeg_of_mono {t : List K} (hm : KMono t) {s p : ℕ} (h : knotFn t s < knotFn t (s + 1))
    (hs : p ≤ s) (hp : s + p < t.length) : Nondeg (knotFn t) s p := fun i j h1 h2 h3 h4 =>
  lt_of_le_of_lt (hm i s (by omega) h2 (by omega)) (lt_of_lt_of_le h (hm (s + 1) j (by omega) h3 (by omega)))

/-- Binary search. -/
theorem upperBoundGo_spec {t : List K} (hm : KMono t) (x : K) : ∀ (fuel first len : ℕ), len ≤ fuel → 1 ≤ first →
    first + len ≤ t.length →
    Ok (upperBoundGo t x fuel first len) fun r => first ≤ r ∧ r ≤ first + len ∧
      (∀ i, first ≤ i → i < r → knotFn t i ≤ x) ∧ (∀ i, r ≤ i → i < first + len → x < knotFn t i)
  | 0, first, len, hl, hf, hb => by
    obtain rfl : len = 0 := by omega
    unfold upperBoundGo
    exact Spec.ok ⟨le_rfl, le_rfl, fun i h1 h2 => by omega, fun i h1 h2 => by omega⟩
  | fuel + 1, first, len, hl, hf, hb => by
    unfold upperBoundGo
    by_cases h0 : len = 0
    · subst h0
      rw [if_pos rfl]
      exact Spec.ok ⟨le_rfl, le_rfl, fun i h1 h2 => by omega, fun i h1 h2 => by omega⟩
    · rw [if_neg h0]
      simp only
      rw [rd_knotFn (by omega), ok_bind]
      by_cases hx : x < knotFn t (first + len / 2)
      · rw [if_pos hx]
        refine (upperBoundGo_spec hm x fuel first (len / 2) (by omega) (by omega) (by omega)).imp
          fun r ⟨h1, h2, h3, h4⟩ => ⟨h1, by omega, h3, fun i hi1 hi2 => ?_⟩
        by_cases hi : i < first + len / 2
        · exact h4 i hi1 hi
        · exact lt_of_lt_of_le hx (hm _ _ (by omega) (by omega) (by omega))
      · rw [if_neg hx]
        refine (upperBoundGo_spec hm x fuel (first + len / 2 + 1) (len - len / 2 - 1) (by omega) (by omega) (by omega)).imp
          fun r ⟨h1, h2, h3, h4⟩ => ⟨by omega, by omega, fun i hi1 hi2 => ?_, fun i hi1 hi2 => h4 i hi1 (by omega)⟩
        by_cases hi : i < first + len / 2 + 1
        · exact le_trans (hm i (first + len / 2) (by omega) (by omega) (by omega)) (not_lt.1 hx)
        · exact h3 i (by omega) hi2

/-- The segment that the search selects: the last knot index in `[order, last]` that is `order` or has its knot at most `x`. -/
def IsSeg (T : ℕ → K) (order last : ℕ) (x : K) (s : ℕ) : Prop :=
  order ≤ s ∧ s ≤ last ∧ (s = order ∨ T s ≤ x) ∧ (s = last ∨ x < T (s + 1))

theorem IsSeg.unique {t : List K} (hm : KMono t) {order last : ℕ} {x : K} {s s' : ℕ} (hl : last < t.length)
    (h : IsSeg (knotFn t) order last x s) (h' : IsSeg (knotFn t) order last x s') : s = s' := by
  obtain ⟨a1, a2, a3, a4⟩ := h
  obtain ⟨b1, b2, b3, b4⟩ := h'
  by_contra hne
  rcases Nat.lt_or_gt_of_ne hne with hlt | hlt
  · have hx : x < knotFn t (s + 1) := by rcases a4 with h | h; · omega
                                         · exact h
    have hy : knotFn t s' ≤ x := by rcases b3 with h | h; · omega
                                    · exact h
    exact absurd (lt_of_lt_of_le hx (le_trans (hm (s + 1) s' (by omega) hlt (by omega)) hy)) (lt_irrefl _)
  · have hx : x < knotFn t (s' + 1) := by rcases b4 with h | h; · omega
                                          · exact h
    have hy : knotFn t s ≤ x := by rcases a3 with h | h; · omega
                                   · exact h
    exact absurd (lt_of_lt_of_le hx (le_trans (hm (s' + 1) s (by omega) hlt (by omega)) hy)) (lt_irrefl _)

/-- Hints that cannot mislead the search: a knot index with a right neighbour that lies in `[order, last]`, or any such index if `x` is
inside the domain, or one on a degenerate segment (as the clamped ends are). -/
def ValidHint (t : List K) (order last : ℕ) (x : K) (hint : ℕ) : Prop :=
  hint + 1 < t.length ∧ ((order ≤ hint ∧ hint ≤ last) ∨ (knotFn t order ≤ x ∧ x < knotFn t (last + 1)) ∨
    knotFn t hint = knotFn t (hint + 1))

theorem findSegment_spec [FloorRing K] {t : List K} (hm : KMono t) {order last hint : ℕ} (x : K) (h1 : order ≤ last)
    (h2 : last + 1 < t.length) (h3 : ValidHint t order last x hint) :
    Ok (BSpline.findSegment order t x hint last) (IsSeg (knotFn t) order last x) := by
  obtain ⟨h4, h5⟩ := h3
  unfold BSpline.findSegment
  rw [itAdd_ok (r := hint) (by omega) (by omega), ok_bind, rd_knotFn (by omega), ok_bind]
  have search : Ok (do
      let lo ← itAdd t.length 0 (order + 1)
      let hi ← itAdd t.length 0 (last + 1)
      let u ← upperBound t lo hi x
      itAdd t.length u (-1)) (IsSeg (knotFn t) order last x) := by
    rw [itAdd_ok (r := order + 1) (by omega) (by omega), ok_bind, itAdd_ok (r := last + 1) (by omega) (by omega), ok_bind]
    unfold upperBound
    rw [if_neg (by omega)]
    refine Spec.bind (upperBoundGo_spec hm x _ _ _ le_rfl (by omega) (by omega)) fun u ⟨u1, u2, u3, u4⟩ => ?_
    rw [itAdd_ok (r := u - 1) (by omega) (by omega)]
    refine Spec.ok ⟨by omega, by omega, ?_, ?_⟩
    · by_cases h : u = order + 1
      · left; omega
      · right; exact u3 (u - 1) (by omega) (by omega)
    · by_cases h : u = last + 1
      · left; omega
      · right
        have := u4 u le_rfl (by omega)
        rwa [show u - 1 + 1 = u by omega]
  by_cases ha : knotFn t hint ≤ x
  · rw [if_pos ha, rd_knotFn (by omega)]
    by_cases hb : x < knotFn t (hint + 1)
    · simp only [ok_bind, pure_eq_ok, hb, decide_true, if_true]
      have hh : order ≤ hint ∧ hint ≤ last := by
        rcases h5 with h | ⟨h, h'⟩ | h
        · exact h
        · constructor
          · by_contra hc
            exact absurd (lt_of_lt_of_le hb (le_trans (hm (hint + 1) order (by omega) (by omega) (by omega)) h)) (lt_irrefl _)
          · by_contra hc
            exact absurd (lt_of_lt_of_le h' (le_trans (hm (last + 1) hint (by omega) (by omega) (by omega)) ha)) (lt_irrefl _)
        · rw [h] at ha; exact absurd hb (not_lt.2 ha)
      exact Spec.ok ⟨hh.1, hh.2, Or.inr ha, Or.inr hb⟩
    · simpa only [ok_bind, pure_eq_ok, hb, decide_false, Bool.false_eq_true, if_false] using search
  · simpa only [if_neg ha, ok_bind, pure_eq_ok, Bool.false_eq_true, if_false] using search

/-- There is exactly one selected segment. -/
theorem exists_isSeg {t : List K} (hm : KMono t) {order last : ℕ} (x : K) (h1 : order ≤ last) (h2 : last + 1 < t.length) :
    ∃ s, IsSeg (knotFn t) order last x s := by
  classical
  let P : ℕ → Prop := fun s => order ≤ s ∧ (s = order ∨ knotFn t s ≤ x)
  have h0 : P order := ⟨le_rfl, Or.inl rfl⟩
  let s := Nat.findGreatest P last
  have hs : P s := Nat.findGreatest_spec h1 h0
  have hle : s ≤ last := Nat.findGreatest_le last
  refine ⟨s, hs.1, hle, hs.2, ?_⟩
  by_cases h : s = last
  · exact Or.inl h
  · right
    have := Nat.findGreatest_is_greatest (P := P) (n := last) (k := s + 1) (by omega) (by omega)
    by_contra hc
    exact this ⟨by have := hs.1; omega, Or.inr (not_lt.1 hc)⟩

theorem findSegment_eq [FloorRing K] {t : List K} (hm : KMono t) {order last hint : ℕ} {x : K} {s : ℕ} (h2 : last + 1 < t.length)
    (h3 : ValidHint t order last x hint) (hs : IsSeg (knotFn t) order last x s) :
    BSpline.findSegment order t x hint last = .ok s := by
  have h1 : order ≤ last := le_trans hs.1 hs.2.1
  exact Ok.eq ((findSegment_spec hm x h1 h2 h3).imp fun s' hs' => IsSeg.unique hm (by omega) hs' hs)

theorem IsSeg.nondeg {t : List K} (hm : KMono t) {order last : ℕ} {x : K} {s : ℕ} (h2 : last + 1 < t.length)
    (hf : knotFn t order < knotFn t (order + 1)) (hl : knotFn t last < knotFn t (last + 1))
    (hs : IsSeg (knotFn t) order last x s) : knotFn t s < knotFn t (s + 1) := by
  obtain ⟨a1, a2, a3, a4⟩ := hs
  rcases a3 with rfl | a3
  · exact hf
  rcases a4 with rfl | a4
  · exact hl
  exact lt_of_le_of_lt a3 a4

/-! ## Wrapping -/

variable [IsStrictOrderedRing K] [FloorRing K]

/-- The wrapped coordinate, as a function. -/
def wrapFn (r : K × K) (x : K) : K :=
  if x < r.1 then x - (⌈(x - r.1) / (r.2 - r.1)⌉ : K) * (r.2 - r.1) + (r.2 - r.1)
  else x - (⌊(x - r.1) / (r.2 - r.1)⌋ : K) * (r.2 - r.1)

theorem wrapCoord_ok {r : K × K} (h : r.1 < r.2) (x : K) : BSpline.wrapCoord r x = .ok (wrapFn r x) := by
  unfold BSpline.wrapCoord fmodM wrapFn
  have hp : 0 < r.2 - r.1 := sub_pos.2 h
  simp only [if_neg hp.ne', ok_bind, pure_eq_ok]
  by_cases hx : x < r.1
  · have : ¬ 0 ≤ (x - r.1) / (r.2 - r.1) := not_le.2 (div_neg_of_neg_of_pos (by linarith) hp)
    rw [if_pos hx, if_neg this, if_pos hx]
    congr 1; ring
  · have : 0 ≤ (x - r.1) / (r.2 - r.1) := div_nonneg (by linarith) hp.le
    rw [if_neg hx, if_pos this, if_neg hx]
    congr 1; ring

theorem wrapFn_shift (r : K × K) (x : K) : ∃ k : ℤ, wrapFn r x = x + k * (r.2 - r.1) := by
  unfold wrapFn
  split
  · exact ⟨1 - ⌈(x - r.1) / (r.2 - r.1)⌉, by push_cast; ring⟩
  · exact ⟨-⌊(x - r.1) / (r.2 - r.1)⌋, by push_cast; ring⟩

theorem wrapFn_mem {r : K × K} (h : r.1 < r.2) (x : K) :
    if x < r.1 then r.1 < wrapFn r x ∧ wrapFn r x ≤ r.2 else r.1 ≤ wrapFn r x ∧ wrapFn r x < r.2 := by
  have hp : 0 < r.2 - r.1 := sub_pos.2 h
  unfold wrapFn
  set q := (x - r.1) / (r.2 - r.1) with hq
  have hx : x = r.1 + q * (r.2 - r.1) := by rw [hq, div_mul_cancel₀ _ hp.ne']; ring
  split
  · rename_i hlt
    have h1 : q ≤ (⌈q⌉ : K) := Int.le_ceil q
    have h2 : (⌈q⌉ : K) < q + 1 := Int.ceil_lt_add_one q
    constructor <;> nlinarith
  · rename_i hlt
    have h1 : (⌊q⌋ : K) ≤ q := Int.floor_le q
    have h2 : q < (⌊q⌋ : K) + 1 := Int.lt_floor_add_one q
    constructor <;> nlinarith

end Intp
