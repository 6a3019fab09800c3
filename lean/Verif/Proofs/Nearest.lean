import Verif.Proofs.Linear
import Verif.Proofs.PivotA

/-!
# Splines of order 0
-/

namespace Intp

open Finset Polynomial BSpline

variable {K V : Type} [Field K] [LinearOrder K] [IsStrictOrderedRing K] [FloorRing K] [AddCommGroup V] [Module K V] {D : ℕ}

omit [FloorRing K] in
/-- A point at least as near to `p` as to `q`, left of `p`. -/
theorem mid_le {y p q : K} (h : q < p) (hn : |y - p| ≤ |y - q|) : (q + p) / 2 ≤ y := by
  rcases abs_cases (y - p) with h1 | h1 <;> rcases abs_cases (y - q) with h2 | h2 <;> linarith

omit [FloorRing K] in
/-- A point nearer to `p` than to `q`, right of `p`. -/
theorem lt_mid {y p q : K} (h : p < q) (hn : |y - p| < |y - q|) : y < (p + q) / 2 := by
  rcases abs_cases (y - p) with h1 | h1 <;> rcases abs_cases (y - q) with h2 | h2 <;> linarith

omit [FloorRing K] [LinearOrder K] [IsStrictOrderedRing K] in
theorem uniform_node_mid (N i : ℕ) (a b : K) [NeZero (2 : K)] :
    uniformKnot a ((b - a) / ((N : K) - 1)) 1 (i + 1) = ((XRange.uniform a b).node N i + (XRange.uniform a b).node N (i + 1)) / 2 := by
  unfold uniformKnot XRange.node
  have h2 : (2 : K) ≠ 0 := NeZero.ne _
  field_simp
  push_cast
  ring

omit [FloorRing K] in
/-- The inner knots of order 0 are the midpoints of neighbouring data points. -/
theorem XRange.Valid.knot_zero {N : ℕ} {x : XRange K} {per : Bool} (h : x.Valid 0 N per) {i : ℕ} (hi : i + 1 < N) :
    knotFn (x.knots 0 (unk per N) per) (i + 1) = (x.node N i + x.node N (i + 1)) / 2 := by
  cases per with
  | true =>
    have hu : unk true N = N - 1 := rfl
    have hN : ((N - 1 : ℕ) : K) = (N : K) - 1 := by rw [Nat.cast_sub (by omega)]; simp
    cases x with
    | uniform a b =>
      simp only [XRange.knots, if_true]
      rw [knotFn_arr _ (by omega), hu, hN]
      exact uniform_node_mid N i a b
    | coords l =>
      simp only [XRange.knots, if_true]
      rw [knotFn_arr _ (by omega), hu]
      unfold cpKnot
      rw [if_neg (by omega), if_pos (by omega)]
      unfold cpMid
      rw [if_pos (by omega), if_pos rfl]
      show 1 / 2 * (knotFn l i + knotFn l (i + 1)) = (knotFn l i + knotFn l (i + 1)) / 2
      ring
  | false =>
    have hu : unk false N = N := rfl
    cases x with
    | uniform a b =>
      simp only [XRange.knots, if_false, Bool.false_eq_true]
      rw [knotFn_arr _ (by omega), hu]
      unfold uaKnot
      rw [if_neg (by omega), if_pos hi]
      exact uniform_node_mid N i a b
    | coords l => exact absurd ((h.coords l rfl).2.2 rfl) (by omega)

omit [LinearOrder K] [IsStrictOrderedRing K] [FloorRing K] [AddCommGroup V] [Module K V] in
/-- The weights of order 0 are constant on every segment. -/
theorem BSpline.weight_order_zero {b : BSpline D K V} (h : b.order = 0) (d : Fin D) (s : ℕ) (x x' : K) (J : ℕ) :
    b.weight d s 0 x J = b.weight d s 0 x' J := by
  unfold weight
  refine sum_congr rfl fun i _ => ?_
  rw [h]
  unfold pieceP
  simp only [Function.iterate_zero, id_eq]
  split <;> simp

namespace InterpFn.Done

variable {c : Cfg} {per : Fin D → Bool} {dims : Fin D → ℕ} {x : Fin D → XRange K} {g : InterpFn D K V} {C : (Fin D → ℕ) → V}

/-- Weights in a segment are those of its data point. -/
theorem wAt_zero (h : g.Done c 0 per dims x C) (hv : ValidAxes c 0 per dims x) (d : Fin D) {k : ℕ} (hk : k < g.spline.ctrl.dims d) {w : K}
    (h1 : per d = false ∧ k = 0 ∨ g.spline.kn d k ≤ w) (h2 : per d = false ∧ k + 1 = g.spline.ctrl.dims d ∨ w < g.spline.kn d (k + 1)) (J : ℕ) :
    g.spline.wAt d 0 w J = g.spline.wAt d 0 ((x d).node (pointNum c (per d) (dims d)) k) J := by
  have hw := h.wf hv
  have ho := h.order
  have seg : ∀ y, (per d = false ∧ k = 0 ∨ g.spline.kn d k ≤ y) → (per d = false ∧ k + 1 = g.spline.ctrl.dims d ∨ y < g.spline.kn d (k + 1)) →
      g.spline.wAt d 0 y J = g.spline.weight d k 0 y J := by
    intro y a b
    have hy : g.spline.wrapOf d y = y := by
      refine hw.wrapOf_eq ?_
      unfold IsWrap
      rw [h.pers]
      by_cases hp : per d = true
      · rw [if_pos hp]
        refine ⟨⟨0, by simp⟩, ?_⟩
        have ax := h.axisP hv hp
        have hlen := ax.len
        rw [h.range_per hv hp]
        have a' : g.spline.kn d k ≤ y := a.resolve_left (by simp [hp])
        have b' : y < g.spline.kn d (k + 1) := b.resolve_left (by simp [hp])
        have hx1 : g.spline.kn d 0 ≤ y := by
          rcases Nat.eq_zero_or_pos k with rfl | h0
          · exact a'
          · exact (strict_of_succ (f := g.spline.kn d) (lo := 0) (hi := g.spline.ctrl.dims d) (fun i _ h2 => ax.inc i (.inr rfl) (by omega)) le_rfl h0
              hk.le).le.trans a'
        have hx2 : y < g.spline.kn d (g.spline.ctrl.dims d + 0) := by
          rcases Nat.eq_or_lt_of_le (show k + 1 ≤ g.spline.ctrl.dims d by omega) with e | e
          · rw [← e]; exact b'
          · exact b'.trans (strict_of_succ (f := g.spline.kn d) (lo := 0) (hi := g.spline.ctrl.dims d)
              (fun i _ h2 => ax.inc i (.inr rfl) (by omega)) (Nat.zero_le _) e le_rfl)
        rw [if_neg (not_lt.2 hx1)]
        exact ⟨hx1, hx2⟩
      · rw [if_neg hp]
    have hl : k ≤ g.spline.last d ∧ (per d = false → k + 1 = g.spline.ctrl.dims d → k = g.spline.last d) := by
      cases hp : per d with
      | true => rw [h.last_per hv hp]; exact ⟨by omega, by simp⟩
      | false => rw [h.last_aper hv hp]; exact ⟨by omega, fun _ _ => by omega⟩
    have hs : g.spline.segOf d y = k := hw.segOf_eq (by
      rw [ho]
      exact ⟨Nat.zero_le _, hl.1, a.imp (·.2) id, b.imp (fun e => hl.2 e.1 e.2) id⟩)
    unfold wAt wSeg
    rw [hy, hs]
  rw [seg w h1 h2, seg _ ?_ ?_]
  · exact weight_order_zero ho _ _ _ _ _
  all_goals
    cases hp : per d with
    | true =>
      right
      first
      | exact ((h.axisP hv hp).node k hk).1.trans_eq (by rw [hp])
      | exact lt_of_eq_of_lt (by rw [hp]) ((h.axisP hv hp).node k hk).2
    | false =>
      have ax := h.axisA hv hp
      have hn := h.dims_eq d
      rw [hp, show unk false (pointNum c false (dims d)) = pointNum c false (dims d) from rfl] at hn
      have hvd := hv d
      rw [hp] at hvd
      have hkn : ∀ i, i + 1 < pointNum c false (dims d) → g.spline.kn d (i + 1) = ((x d).node (pointNum c false (dims d)) i + (x d).node (pointNum c false (dims d)) (i + 1)) / 2 :=
        fun i hi => by
        unfold kn; rw [h.knots, hp]; exact hvd.knot_zero hi
      have hlt : ∀ i, i + 1 < pointNum c false (dims d) → (x d).node (pointNum c false (dims d)) i < (x d).node (pointNum c false (dims d)) (i + 1) :=
        fun i hi => hvd.node_lt (Nat.lt_succ_self _) hi
      first
      | rcases Nat.eq_zero_or_pos k with rfl | h0
        · exact .inl ⟨rfl, rfl⟩
        · right
          obtain ⟨j, rfl⟩ : ∃ j, k = j + 1 := ⟨k - 1, by omega⟩
          rw [hkn j (by omega)]
          have := hlt j (by omega)
          linarith
      | rcases Nat.eq_or_lt_of_le (show k + 1 ≤ g.spline.ctrl.dims d by omega) with e | e
        · exact .inl ⟨rfl, e⟩
        · right
          rw [hkn k (by omega)]
          have := hlt k (by omega)
          linarith

/-- Every coordinate has the weights of a data point. -/
theorem wAt_zero_exists (h : g.Done c 0 per dims x C) (hv : ValidAxes c 0 per dims x) (d : Fin D) (y : K) :
    ∃ k < g.spline.ctrl.dims d, ∀ J, g.spline.wAt d 0 y J = g.spline.wAt d 0 ((x d).node (pointNum c (per d) (dims d)) k) J := by
  have hw := h.wf hv
  have ho := h.order
  cases hp : per d with
  | true =>
    have hlt := (hw.per d (by rw [h.pers]; exact hp)).2
    have hpk := h.perKnots hv hp
    set P := (g.spline.range d).2 - (g.spline.range d).1 with hP
    have hPp : 0 < P := sub_pos.2 hlt
    set z := ⌊(y - (g.spline.range d).1) / P⌋ with hz
    have a := Int.floor_le ((y - (g.spline.range d).1) / P)
    have b := Int.lt_floor_add_one ((y - (g.spline.range d).1) / P)
    rw [le_div_iff₀ hPp] at a
    rw [div_lt_iff₀ hPp] at b
    set w := y - z * P with hw'
    have w1 : (g.spline.range d).1 ≤ w := by linarith
    have w2 : w < (g.spline.range d).2 := by linarith
    rw [h.range_per hv hp] at w1 w2
    simp only [Nat.add_zero] at w1 w2
    obtain ⟨s1, s2, s3, s4⟩ := hw.isSeg_segOf d w
    set s := g.spline.segOf d w
    rw [h.last_per hv hp] at s2 s4
    have ax := h.axisP hv hp
    have hlen := ax.len
    have hs : s < g.spline.ctrl.dims d := by
      by_contra hc
      obtain e : s = g.spline.ctrl.dims d := by omega
      rw [e, ho] at s3
      have := ax.big
      exact absurd (s3.resolve_left (by omega)) (not_le.2 w2)
    refine ⟨s, hs, fun J => ?_⟩
    have e : y = w + z * P := by rw [hw']; ring
    have := h.wAt_zero hv d hs (w := w) (.inr (by
      rcases s3 with e | e
      · rw [e, ho]; exact w1
      · exact e)) (.inr (s4.resolve_left (by omega))) J
    rw [hp] at this
    rw [← this, e]
    exact hw.wAt_periodic hpk z w J (.inr (by rw [ho]))
  | false =>
    have hwr : g.spline.wrapOf d y = y := by unfold wrapOf; simp [h.pers, hp]
    obtain ⟨s1, s2, s3, s4⟩ := hw.isSeg_segOf d y
    rw [h.last_aper hv hp] at s2 s4
    have h2 := (h.axisA hv hp).two
    refine ⟨g.spline.segOf d y, by omega, fun J => ?_⟩
    have := h.wAt_zero hv d (k := g.spline.segOf d y) (by omega) (w := y) (s3.imp (fun e => ⟨hp, by rw [e, ho]⟩) id)
      (s4.imp (fun e => ⟨hp, by omega⟩) id) J
    rwa [hp] at this

end InterpFn.Done

end Intp
