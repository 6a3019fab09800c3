import Verif.Proofs.FloatWrap

/-!
# Order 1 with explicit coordinates: the knots are the coordinates
-/

set_option linter.unusedSectionVars false

namespace Intp.Fl

open CoordArith ScaleArith

variable {K V : Type} [CoordArith K] [ValArith V] [ScaleArith K V] {D : ℕ} {E : Err → Prop}

/-- Operations on `a` that involve no rounding in floating point. -/
def Plain (a : K) : Prop := 0 + a = a ∧ a - a = 0 ∧ div a (ofNat 1) = .ok a

theorem coordKnots_one {l : List K} (h : 2 ≤ l.length) (hp : ∀ a ∈ l, Plain a) :
    Spec (coordKnotsAperiodic 1 l) (fun r => ∀ u, 2 ≤ u → u < l.length → r.1[u]? = l[u - 1]?) E := by
  unfold coordKnotsAperiodic
  dsimp only
  rw [rd_ok (show 0 < l.length by omega), ok_bind]
  have h1 : [l[0]] = l.take 1 := by
    have := take_succ_getElem (l := l) (k := 0) (by omega)
    simpa using this
  refine Spec.bind (Spec.loopC (P := fun (xs : List K) => xs.length = l.length + 2) (by simp) fun i xs _ hi hx => ?_) fun xs hx => ?_
  · rw [wr_ok (by omega)]
    exact Spec.ok (List.length_set.trans hx)
  rw [show (loop 1 1 (⟨0, xs, [l[0]], 0⟩ : CoordSt K) fun i st => do
    let v ← rd l (st.pos + 1)
    let ic := st.ic ++ [v]
    let u ← rd ic i
    pure ⟨st.pos + 1, st.xs, ic, st.sum + u⟩) = .ok ⟨0, xs, [l[0]], 0⟩ from rfl, ok_bind]
  refine Spec.bind (Spec.loopN (P := fun i (st : CoordSt K) => st.pos + 2 = i ∧ st.xs.length = l.length + 2 ∧ st.ic = l.take (i - 1) ∧ st.sum = 0 ∧
    ∀ u, 2 ≤ u → u < i → st.xs[u]? = l[u - 1]?)
    h ⟨rfl, hx, h1, rfl, fun u h1 h2 => absurd h1 (by omega)⟩ fun i st hi1 hi2 ⟨p1, p2, p3, p4, p5⟩ => ?_) fun st ⟨p1, p2, p3, p4, p5⟩ => ?_
  · have hpos : st.pos + 1 < l.length := by omega
    rw [rd_ok hpos, ok_bind, subM_ok (by omega), ok_bind]
    have e : st.ic ++ [l[st.pos + 1]] = l.take i := by
      subst p1
      rw [p3, show st.pos + 2 - 1 = st.pos + 1 by omega, take_succ_getElem]
    have hi : i - 1 < (l.take i).length := by rw [List.length_take]; omega
    rw [e, rd_ok hi, ok_bind, p4]
    obtain ⟨q1, q2, q3⟩ := hp (l.take i)[i - 1] (List.mem_of_mem_take (List.getElem_mem hi))
    rw [q1, q3, ok_bind, wr_ok (by omega), ok_bind, ok_bind, rd_ok hi, ok_bind]
    refine Spec.pure ⟨by show st.pos + 1 + 2 = _; omega, List.length_set.trans p2, rfl, q2, fun u hu1 hu2 => ?_⟩
    show (st.xs.set i _)[u]? = _
    rw [List.getElem?_set]
    by_cases hui : i = u
    · subst hui
      rw [if_pos rfl, if_pos (by omega), List.getElem_take, List.getElem?_eq_getElem]
    · rw [if_neg hui]; exact p5 u hu1 (by omega)
  · have hpos : st.pos + 1 < l.length := by omega
    rw [rd_ok hpos, ok_bind]
    refine Spec.bind (Q := fun xs : List K => xs.length = l.length + 2 ∧ ∀ u, 2 ≤ u → u < l.length → xs[u]? = l[u - 1]?)
      (Spec.loopC ⟨p2, p5⟩ fun i xs hi1 hi hxs => ?_)
      fun xs hxs => Spec.pure hxs.2
    rw [wr_ok (by omega)]
    refine Spec.ok ⟨List.length_set.trans hxs.1, fun u h1 h2 => ?_⟩
    rw [List.getElem?_set, if_neg (by omega)]
    exact hxs.2 u h1 h2

theorem goodKnots_one {c : Cfg} {N : ℕ} {l t : List K} (h : 2 ≤ l.length) (hp : ∀ a ∈ l, Plain a) (hl : l.Pairwise (· ≤ ·)) (hr : ∀ a ∈ l, a ≤ a)
    (ht : coordKnots c 1 N false l = .ok (t, l)) : GoodKnots 1 l t := by
  have hk := coordKnots_one (E := fun _ => True) h hp
  unfold coordKnots coordKnotsRaw at ht
  simp only [Bool.false_eq_true, if_false] at ht
  have : coordKnotsAperiodic 1 l = .ok (t, l) := by
    cases ha : assertM c (decide (l.length = pointNum c false N)) with
    | error e => rw [ha] at ht; cases ht
    | ok _ =>
      rw [ha, ok_bind] at ht
      cases hb : coordKnotsAperiodic 1 l with
      | error e => rw [hb] at ht; cases ht
      | ok r =>
        rw [hb, ok_bind] at ht
        cases hc : checkMonotonic c r.2 with
        | error e => rw [hc] at ht; cases ht
        | ok _ => rw [hc, ok_bind] at ht; exact ht
  rw [this] at hk
  intro i h1 h2 xi hxi
  refine ⟨fun u v hu1 hu2 hv => ?_, fun h => absurd h (by omega)⟩
  rw [hk u (by omega) (by omega)] at hv
  have hi : i < l.length := by omega
  rw [List.getElem?_eq_getElem hi] at hxi
  rw [List.getElem?_eq_getElem (by omega)] at hv
  cases hxi; cases hv
  apply le_not_lt
  by_cases he : u - 1 = i
  · simp only [he]; exact hr _ (List.getElem_mem _)
  · exact List.pairwise_iff_getElem.1 hl _ _ _ _ (by omega)

end Intp.Fl
