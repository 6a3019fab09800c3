import Verif.Proofs.Smooth
import Mathlib.Data.Rat.Floor
import Mathlib.Tactic.IntervalCases

/-!
# Properties of basis evaluation and knot search (C14-C17)

The specification is the Cox–de Boor recursion `cox` (Spec/CoxDeBoor.lean) on the knots `knotFn t`, `t` the knot list.
-/

namespace Intp

open Finset

variable {K V : Type} [Field K] [LinearOrder K]

/-- **C14.** For `x` in the segment `[t_s, t_{s+1})`, entry `j` of the result is the value of the B-spline of degree `p` with index
`s - order + j`; when `p < order` the first `order - p` entries are zero. -/
theorem basis_is_cox_de_boor {order p s : ℕ} {t : List K} {x : K} (hp : p ≤ order) (hs : order ≤ s) (hlen : s + order + 1 < t.length)
    (hmono : ∀ i j, i ≤ j → j < t.length → knotFn t i ≤ knotFn t j) (h1 : knotFn t s ≤ x) (h2 : x < knotFn t (s + 1)) :
    ∃ r, baseSplineValue order t s x p = .ok r ∧ r.length = order + 1 ∧
      ∀ j, j ≤ order → r[j]? = some (if j + p < order then 0 else cox (knotFn t) p (s - order + j) x) := by
  have hn : Nondeg (knotFn t) s order := nondeg_of_mono (fun i j _ => hmono i j) (lt_of_le_of_lt h1 h2) (by omega) (by omega)
  refine ⟨_, baseSplineValue_ok hs (by omega) hn hp, by simp, fun j hj => ?_⟩
  rw [arr_get? _ (by omega)]
  congr 1
  split
  · exact piece_zero_of_gt _ _ _ _ _ (by omega)
  · exact (cox_eq_piece hmono (by omega) h1 h2 p _ (by omega)).symm

/-- C14 and C15 are about real situations: a clamped quadratic knot vector, `x` in its second segment. -/
example : (∀ i j, i ≤ j → j < [0, 0, 0, 1, 2, 2, 2].length → knotFn ([0, 0, 0, 1, 2, 2, 2] : List ℚ) i ≤ knotFn [0, 0, 0, 1, 2, 2, 2] j) ∧
    baseSplineValue 2 ([0, 0, 0, 1, 2, 2, 2] : List ℚ) 3 (3 / 2) 2 = .ok [1 / 8, 5 / 8, 1 / 4] := by
  constructor
  · intro i j hij hj
    simp only [List.length_cons, List.length_nil] at hj
    interval_cases j <;> interval_cases i <;> decide +kernel
  · decide +kernel

/-- **C15.** On every non-degenerate segment with enough knots on both sides, basis evaluation completes for every `x`: no zero divisor,
no access outside the knot vector. -/
theorem basis_total {order p s : ℕ} {t : List K} (hp : p ≤ order) (hs : order ≤ s) (hlen : s + order < t.length)
    (hmono : ∀ i j, i ≤ j → j < t.length → knotFn t i ≤ knotFn t j) (hseg : knotFn t s < knotFn t (s + 1)) (x : K) :
    ∃ r, baseSplineValue order t s x p = .ok r ∧ r.length = order + 1 :=
  ⟨_, baseSplineValue_ok hs hlen (nondeg_of_mono (fun i j _ => hmono i j) hseg hs hlen) hp, by simp⟩

/-- C15, converse: on a degenerate segment basis evaluation of positive degree does divide by zero, so the condition is needed. -/
theorem basis_degenerate_segment {order p s : ℕ} {t : List K} (hp : p ≤ order) (h1 : 1 ≤ p) (hs : order ≤ s)
    (hlen : s + order < t.length) (hseg : knotFn t s = knotFn t (s + 1)) (x : K) :
    baseSplineValue order t s x p = .error .divZero := by
  unfold baseSplineValue
  have e0 : List.replicate (order + 1) (0 : K) = arr (order + 1) (fun _ => 0) := by simp [arr]
  rw [e0, wr_arr _ _ (by omega), ok_bind]
  unfold loop
  rw [show p + 1 - 1 = (p - 1) + 1 by omega, loopN, subM_ok (by omega), ok_bind]
  show (loopN (1 + 1 - 0) 0 _ _ >>= _) = _
  rw [loopN]
  have : ∀ b : ℕ → K, baseSplineBody order t s x 1 (order - 1) 0 (arr (order + 1) b) = .error .divZero := by
    intro b
    unfold baseSplineBody
    rw [itAdd_ok (r := s - 1) (by omega) (by omega), ok_bind, itAdd_ok (r := s + 1) (by omega) (by omega), ok_bind]
    unfold baseLeftTerm baseRightTerm
    rw [if_pos rfl, pure_eq_ok, ok_bind, if_neg (by omega), rd_arr _ (by omega), ok_bind, rd_knotFn (by omega), ok_bind,
      rd_knotFn (by omega), ok_bind, show s - 1 + 1 = s by omega, hseg, sub_self]
    unfold divM; simp
  rw [this]; rfl

/-- **C16.** The basis values sum to one for every `x` (also outside the segment), and lie in `[0, 1]` for `x` in the closed segment. -/
theorem basis_partition_of_unity [IsStrictOrderedRing K] {order p s : ℕ} {t : List K} (hp : p ≤ order) (hs : order ≤ s)
    (hlen : s + order < t.length) (hmono : ∀ i j, i ≤ j → j < t.length → knotFn t i ≤ knotFn t j)
    (hseg : knotFn t s < knotFn t (s + 1)) (x : K) :
    ∃ r, baseSplineValue order t s x p = .ok r ∧ r.sum = 1 ∧
      (knotFn t s ≤ x → x ≤ knotFn t (s + 1) → ∀ v ∈ r, 0 ≤ v ∧ v ≤ 1) := by
  have hn := nondeg_of_mono (fun i j _ => hmono i j) hseg hs hlen
  have hsum : ∑ j ∈ range (order + 1), piece (knotFn t) s p (s - order + j) x = 1 := by
    rw [sum_local (f := fun i => piece (knotFn t) s p i x) hs (fun i hi => piece_zero_of_gt _ _ _ _ _ (by omega)),
      sum_piece_eq_one x p (by omega) (hn.mono hp)]
  refine ⟨_, baseSplineValue_ok hs hlen hn hp, ?_, fun h1 h2 => ?_⟩
  · rw [arr, ← hsum, Finset.sum_eq_multiset_sum]; rfl
  · have hnn : ∀ i, 0 ≤ piece (knotFn t) s p i x := fun i => piece_nonneg (p := p)
      (fun i _ h => le_trans (hmono i s h (by omega)) h1)
      (fun j h h' => le_trans h2 (hmono (s + 1) j h (by omega))) p i le_rfl
    intro v hv
    unfold arr at hv
    obtain ⟨a, ha, rfl⟩ := List.mem_map.1 hv
    refine ⟨hnn _, ?_⟩
    rw [← hsum]
    exact Finset.single_le_sum (f := fun j => piece (knotFn t) s p (s - order + j) x) (fun i _ => hnn _)
      (mem_range.2 (List.mem_range.1 ha))

variable [IsStrictOrderedRing K] [FloorRing K] [AddCommGroup V] [Module K V] {D : ℕ}

omit [IsStrictOrderedRing K] [AddCommGroup V] [Module K V] in
/-- **C17.** Knot search.  For any spline whose knots in dimension `d` are sorted and which has at least `2 * order + 2` knots, there is one
segment `s` between `order` and `last = #knots - order - 2` that the search returns for every valid hint; it contains the (wrapped)
coordinate `w` if that is inside the domain, it is the first segment to the left of the domain and the last to the right.
Valid hints: any knot index in `[order, last]`; if `w` is inside the domain, any knot index with a right neighbour; and any
index on a degenerate segment (clamped ends). -/
theorem knot_search (b : BSpline D K V) (d : Fin D) (x w : K)
    (hw : if b.periodicity d then (b.range d).1 < (b.range d).2 ∧ BSpline.wrapCoord (b.range d) x = .ok w else w = x)
    (hmono : ∀ i j, i ≤ j → j < (b.knots d).length → b.kn d i ≤ b.kn d j) (hlen : 2 * b.order + 2 ≤ (b.knots d).length) :
    ∃ s, b.order ≤ s ∧ s ≤ b.last d ∧
      (b.kn d b.order ≤ w → w < b.kn d (b.last d + 1) → b.kn d s ≤ w ∧ w < b.kn d (s + 1)) ∧
      (w < b.kn d b.order → s = b.order) ∧
      (b.kn d (b.last d + 1) ≤ w → s = b.last d) ∧
      ∀ hint, hint + 1 < (b.knots d).length →
        ((b.order ≤ hint ∧ hint ≤ b.last d) ∨ (b.kn d b.order ≤ w ∧ w < b.kn d (b.last d + 1)) ∨ b.kn d hint = b.kn d (hint + 1)) →
        b.getKnotIter' d x hint = .ok (w, s) := by
  have hll : b.last d + b.order + 2 = (b.knots d).length := by unfold BSpline.last; omega
  have hle : b.order ≤ b.last d := by omega
  obtain ⟨s, hs⟩ := exists_isSeg (t := b.knots d) (fun i j _ => hmono i j) (order := b.order) (last := b.last d) w hle (by omega)
  obtain ⟨h1, h2, h3, h4⟩ := hs
  have wlt : ∀ {i}, s < i → i ≤ b.last d + 1 → s ≠ b.last d → w < b.kn d i := fun {i} hi hi' hne => by
    rcases h4 with h | h
    · exact absurd h hne
    · exact lt_of_lt_of_le h (hmono _ _ hi (by omega))
  refine ⟨s, h1, h2, fun a1 a2 => ⟨?_, ?_⟩, fun a => ?_, fun a => ?_, fun hint hh hv => ?_⟩
  · rcases h3 with rfl | h
    · exact a1
    · exact h
  · rcases h4 with rfl | h
    · exact a2
    · exact h
  · rcases h3 with h | h
    · exact h
    · exact absurd (lt_of_le_of_lt (le_trans (hmono _ _ h1 (by omega)) h) a) (lt_irrefl _)
  · by_contra hne
    exact absurd (lt_of_lt_of_le (wlt (i := b.last d + 1) (by omega) le_rfl hne) a) (lt_irrefl _)
  · unfold BSpline.getKnotIter' BSpline.getKnotIter
    rw [subM_ok (by omega), ok_bind, subM_ok (by omega), ok_bind]
    have hl : (b.knots d).length - b.order - 2 = b.last d := rfl
    rw [hl, itAdd_ok (r := hint) (by omega) (by omega), ok_bind]
    have fs : BSpline.findSegment b.order (b.knots d) w hint (b.last d) = .ok s :=
      findSegment_eq (fun i j _ => hmono i j) (by omega) ⟨hh, hv⟩ ⟨h1, h2, h3, h4⟩
    by_cases hp : b.periodicity d = true
    · simp only [hp, if_true] at hw ⊢
      rw [hw.2, ok_bind, fs]; rfl
    · simp only [hp, Bool.false_eq_true, if_false] at hw ⊢
      subst hw
      rw [pure_eq_ok, ok_bind, fs]; rfl

/-- C17, second part: wrapping brings every coordinate of a periodic dimension into `[first, second]`, moving it by a multiple of the period. -/
theorem knot_search_wraps {r : K × K} (h : r.1 < r.2) (x : K) :
    ∃ w, BSpline.wrapCoord r x = .ok w ∧ (∃ k : ℤ, w = x + k * (r.2 - r.1)) ∧ r.1 ≤ w ∧ w ≤ r.2 := by
  refine ⟨_, wrapCoord_ok h x, wrapFn_shift r x, ?_⟩
  have := wrapFn_mem h x
  split at this
  · exact ⟨this.1.le, this.2⟩
  · exact ⟨this.1, this.2.le⟩

/-- A concrete search: hint off by two segments, and a periodic coordinate three periods away. -/
example : (⟨1, ![false, true], ![[0, 0, 1, 2, 3, 3], [0, 1, 2, 3, 4, 5]], Mesh.mk' ![4, 3], ![(0, 3), (1, 4)]⟩ : BSpline 2 ℚ ℚ).getKnotIter' 0 (5 / 2) 1
      = .ok (5 / 2, 3) ∧
    (⟨1, ![false, true], ![[0, 0, 1, 2, 3, 3], [0, 1, 2, 3, 4, 5]], Mesh.mk' ![4, 3], ![(0, 3), (1, 4)]⟩ : BSpline 2 ℚ ℚ).getKnotIter' 1 (-13 / 2) 2
      = .ok (5 / 2, 2) := by
  decide +kernel

end Intp
