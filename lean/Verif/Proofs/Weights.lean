import Verif.Proofs.Smooth
import Mathlib.Algebra.Polynomial.BigOperators

/-!
# The weight of a control point as a function of the coordinate
-/

namespace Intp

open Finset Polynomial

variable {K V : Type} [Field K] [LinearOrder K] [AddCommGroup V] [Module K V] {D : ℕ}

theorem eval_derivative_shift (g : K[X]) (c x : K) (q : ℕ) :
    (derivative^[q] (g.comp (X + C c))).eval x = (derivative^[q] g).eval (x + c) := by
  have : ∀ q, derivative^[q] (g.comp (X + C c)) = (derivative^[q] g).comp (X + C c) := by
    intro q
    induction q with
    | zero => rfl
    | succ q ih =>
      rw [Function.iterate_succ_apply', Function.iterate_succ_apply', ih, derivative_comp]
      simp
  rw [this, eval_comp]; simp

omit [Field K] [LinearOrder K] [Module K V] in
/-- Every well-formed mesh holds some values. -/
theorem Mesh.exists_holds (m : Mesh D V) (h : m.WF) : ∃ C, m.Holds m.dims C := by
  refine ⟨fun a => match m.get a with | .ok v => v | .error _ => 0, rfl, h, fun a ha => ?_⟩
  obtain ⟨v, hv⟩ := h.get_ok ha
  simp only [hv]

namespace BSpline

/-- Polynomial weight of control point `J` on segment `s`. -/
noncomputable def wP (b : BSpline D K V) (d : Fin D) (s J : ℕ) : K[X] :=
  ∑ i ∈ (Finset.range (s + 1)).filter (fun i => b.ctrlOf d i = J), pieceP (b.kn d) s b.order i

theorem weight_eq_wP (b : BSpline D K V) (d : Fin D) (s m : ℕ) (x : K) (J : ℕ) :
    b.weight d s m x J = (derivative^[m] (b.wP d s J)).eval x := by
  unfold weight wP
  rw [iterate_derivative_sum, eval_finsetSum]

theorem wP_natDegree_le (b : BSpline D K V) (d : Fin D) (s J : ℕ) : (b.wP d s J).natDegree ≤ b.order := by
  unfold wP
  exact natDegree_sum_le_of_forall_le _ _ fun i _ => pieceP_natDegree_le _ _ _ _

theorem iterate_derivative_wP_eq_zero (b : BSpline D K V) (d : Fin D) (s J : ℕ) {m : ℕ} (hm : b.order < m) :
    derivative^[m] (b.wP d s J) = 0 :=
  Polynomial.iterate_derivative_eq_zero (lt_of_le_of_lt (b.wP_natDegree_le d s J) hm)

section Field

variable [IsStrictOrderedRing K] [FloorRing K] {b : BSpline D K V}

/-- The coordinate at which dimension `d` is evaluated. -/
def wrapOf (b : BSpline D K V) (d : Fin D) (x : K) : K := if b.periodicity d then wrapFn (b.range d) x else x

open Classical in
/-- The segment in which dimension `d` is evaluated. -/
noncomputable def segOf (b : BSpline D K V) (d : Fin D) (w : K) : ℕ :=
  if h : ∃ s, IsSeg (b.kn d) b.order (b.last d) w s then h.choose else b.order

theorem WF.isSeg_segOf (h : b.WF) (d : Fin D) (w : K) : IsSeg (b.kn d) b.order (b.last d) w (b.segOf d w) := by
  have he := exists_isSeg (h.kmono d) w (h.last_ge d) (by have := h.last_lt d; omega)
  unfold segOf
  have he' : ∃ s, IsSeg (b.kn d) b.order (b.last d) w s := he
  rw [dif_pos he']
  exact he'.choose_spec

theorem WF.segOf_eq (h : b.WF) {d : Fin D} {w : K} {s : ℕ} (hs : IsSeg (b.kn d) b.order (b.last d) w s) : b.segOf d w = s :=
  IsSeg.unique (h.kmono d) (by have := h.last_lt d; omega) (h.isSeg_segOf d w) hs

theorem WF.isWrap_wrapOf (h : b.WF) (d : Fin D) (x : K) : b.IsWrap d x (b.wrapOf d x) := by
  unfold IsWrap wrapOf
  by_cases hp : b.periodicity d = true
  · simp only [hp, if_true]
    exact ⟨wrapFn_shift _ _, wrapFn_mem (h.per d hp).2 x⟩
  · simp [hp]

theorem WF.at_of (h : b.WF) (x : Fin D → K) : b.At x (fun d => b.wrapOf d (x d)) (fun d => b.segOf d (b.wrapOf d (x d))) :=
  ⟨fun d => h.isWrap_wrapOf d (x d), fun d => h.isSeg_segOf d _⟩

/-- Weight at a wrapped coordinate. -/
noncomputable def wSeg (b : BSpline D K V) (d : Fin D) (m : ℕ) (w : K) (J : ℕ) : K := b.weight d (b.segOf d w) m w J

/-- Weight at a coordinate. -/
noncomputable def wAt (b : BSpline D K V) (d : Fin D) (m : ℕ) (x : K) (J : ℕ) : K := b.wSeg d m (b.wrapOf d x) J

/-- Value (`m = 0`) and derivatives of the spline at `x`. -/
noncomputable def val (b : BSpline D K V) (C : (Fin D → ℕ) → V) (m : Fin D → ℕ) (x : Fin D → K) : V :=
  tensorVal b.ctrl.dims (fun d => b.wAt d (m d) (x d)) C

theorem WF.eval_val (h : b.WF) {x : Fin D → K × ℕ}
    (hh : ∀ d, ValidHint (b.knots d) b.order (b.last d) (b.wrapOf d (x d).1) (x d).2) {C : (Fin D → ℕ) → V}
    (hC : b.ctrl.Holds b.ctrl.dims C) : b.eval x = .ok (b.val C (fun _ => 0) fun d => (x d).1) :=
  h.eval_eq (h.at_of _) hh hC

theorem WF.wAt_zero_of_lt (d : Fin D) {m : ℕ} (hm : b.order < m) (x : K) (J : ℕ) : b.wAt d m x J = 0 := by
  unfold wAt wSeg
  rw [weight_eq_wP, iterate_derivative_wP_eq_zero _ _ _ _ hm]; simp

theorem WF.derivativeAt_val (cfg : Cfg) (h : b.WF) {x : Fin D → K × ℕ × ℕ}
    (hh : ∀ d, ValidHint (b.knots d) b.order (b.last d) (b.wrapOf d (x d).1) (x d).2.1) {C : (Fin D → ℕ) → V}
    (hC : b.ctrl.Holds b.ctrl.dims C) :
    b.derivativeAt cfg x = .ok (b.val C (fun d => (x d).2.2) fun d => (x d).1) := by
  by_cases hm : ∀ d, (x d).2.2 ≤ b.order
  · exact h.derivativeAt_eq cfg (h.at_of fun d => (x d).1) hh hm hC
  · push Not at hm
    unfold derivativeAt
    rw [if_pos hm, pure_eq_ok]
    obtain ⟨d, hd⟩ := hm
    congr 1
    symm
    refine Finset.sum_eq_zero fun J _ => ?_
    rw [Finset.prod_eq_zero (mem_univ d) (WF.wAt_zero_of_lt d hd _ _), zero_smul]

/-- Every hint in `[order, last]` is valid. -/
theorem WF.validHint (h : b.WF) {d : Fin D} {i : ℕ} (h1 : b.order ≤ i) (h2 : i ≤ b.last d) (w : K) :
    ValidHint (b.knots d) b.order (b.last d) w i := ⟨by have := h.last_lt d; omega, .inl ⟨h1, h2⟩⟩

theorem WF.sum_weight_one (h : b.WF) {d : Fin D} {s : ℕ} (h1 : b.order ≤ s) (hs : s ≤ b.last d)
    (hn : Nondeg (b.kn d) s b.order) (x : K) : ∑ J ∈ Finset.range (b.ctrl.dims d), b.weight d s 0 x J = 1 := by
  rw [← sum_piece_eq_one x b.order h1 hn, ← Finset.sum_fiberwise_of_maps_to (s := Finset.range (s + 1))
    (t := Finset.range (b.ctrl.dims d)) (g := b.ctrlOf d) (fun i hi => by
      rw [mem_range] at hi ⊢
      exact h.ctrlOf_lt (by omega))]
  exact sum_congr rfl fun J _ => weight_zero _ _ _ _ _

/-- Interior knots are simple. -/
def Simple (b : BSpline D K V) (d : Fin D) : Prop :=
  ∀ i, b.order ≤ i → i ≤ b.last d → b.kn d i < b.kn d (i + 1)

theorem WF.nondeg (h : b.WF) {d : Fin D} {s : ℕ} (h1 : b.order ≤ s) (h2 : s ≤ b.last d) (hs : b.kn d s < b.kn d (s + 1)) :
    Nondeg (b.kn d) s b.order :=
  nondeg_of_mono (h.kmono d) hs h1 (by have := h.last_lt d; omega)

/-- Polynomial weights on both sides of a knot of multiplicity `m`. -/
theorem WF.wP_knot (h : b.WF) {d : Fin D} {r m q J : ℕ} (h1 : b.order ≤ r) (h2 : r + m ≤ b.last d)
    (hl : b.kn d r < b.kn d (r + m)) (hr : b.kn d (r + m) < b.kn d (r + m + 1))
    (hm : ∀ j, r < j → j ≤ r + m → b.kn d j = b.kn d (r + m)) (hq : q + m ≤ b.order) :
    (derivative^[q] (b.wP d r J)).eval (b.kn d (r + m)) = (derivative^[q] (b.wP d (r + m) J)).eval (b.kn d (r + m)) := by
  have hrn : b.kn d r < b.kn d (r + 1) := by
    rcases Nat.eq_zero_or_pos m with rfl | h0
    · exact absurd hl (lt_irrefl _)
    · rw [hm (r + 1) (by omega) (by omega)]; exact hl
  rw [← weight_eq_wP, ← weight_eq_wP]
  unfold weight
  rw [sum_filter, sum_filter]
  rw [← Finset.sum_subset (s₁ := Finset.range (r + 1)) (s₂ := Finset.range (r + m + 1))]
  · refine sum_congr rfl fun i hi => ?_
    split
    · exact pieceP_knot_eq hl hr hm q b.order i hq (h.nondeg (by omega) (by omega) hrn) (h.nondeg (by omega) h2 hr)
    · rfl
  · intro i hi; rw [mem_range] at *; omega
  · intro i hi hi'
    rw [mem_range] at *
    split
    · rw [← pieceP_knot_eq hl hr hm q b.order i hq (h.nondeg (by omega) (by omega) hrn) (h.nondeg (by omega) h2 hr),
        pieceP_zero_of_lt _ _ _ _ (by omega)]; simp
    · rfl

/-- The knots of a periodic dimension are periodic (all those that evaluation uses), and the range is one period. -/
structure PerKnots (b : BSpline D K V) (d : Fin D) : Prop where
  per : b.periodicity d = true
  len : (b.knots d).length = b.ctrl.dims d + 2 * b.order + (if b.order % 2 = 1 then 1 else 2)
  shift : ∀ i, 1 ≤ i → i + b.ctrl.dims d < (b.knots d).length →
    b.kn d (i + b.ctrl.dims d) = b.kn d i + ((b.range d).2 - (b.range d).1)
  fst : (b.range d).1 = b.kn d b.order
  snd : (b.range d).2 = b.kn d (b.ctrl.dims d + b.order)

/-- Polynomial weights one period apart. -/
theorem WF.wP_shift (h : b.WF) {d : Fin D} (hk : b.PerKnots d) {q J : ℕ} (x : K) :
    (derivative^[q] (b.wP d (b.ctrl.dims d + b.order) J)).eval (x + ((b.range d).2 - (b.range d).1)) =
      (derivative^[q] (b.wP d b.order J)).eval x := by
  set n := b.ctrl.dims d
  set P := (b.range d).2 - (b.range d).1
  have hlen := hk.len
  have hl : n + 2 * b.order + 1 ≤ (b.knots d).length := by rw [hlen]; split <;> omega
  have ho : ∀ i, b.order < i + b.order → i ≤ b.order + b.order → b.kn d (i + n) = b.kn d i + P := fun i h1 h2 =>
    hk.shift i (by omega) (by omega)
  have hn0 : Nondeg (b.kn d) b.order b.order := h.nondeg le_rfl (h.last_ge d) (h.first d)
  have hn1 : Nondeg (b.kn d) (b.order + n) b.order := by
    intro i j h1 h2 h3 h4
    obtain ⟨i', rfl⟩ : ∃ i', i = i' + n := ⟨i - n, by omega⟩
    obtain ⟨j', rfl⟩ : ∃ j', j = j' + n := ⟨j - n, by omega⟩
    rw [ho i' (by omega) (by omega), ho j' (by omega) (by omega)]
    have := hn0 i' j' (by omega) (by omega) (by omega) (by omega)
    simpa using this
  rw [← weight_eq_wP, ← weight_eq_wP]
  unfold weight
  rw [sum_filter, sum_filter, show n + b.order + 1 = n + (b.order + 1) by omega, Finset.sum_range_add]
  rw [Finset.sum_eq_zero, zero_add]
  · refine sum_congr rfl fun i _ => ?_
    have : b.ctrlOf d (n + i) = b.ctrlOf d i := by
      unfold ctrlOf; simp only [hk.per, if_true]; exact Nat.add_mod_left _ _
    rw [this, Nat.add_comm n i, Nat.add_comm n b.order, pieceP_shift le_rfl ho hn0 hn1 x q b.order i le_rfl]
  · intro i hi
    rw [mem_range] at hi
    rw [pieceP_zero_of_gt _ _ _ _ (by omega)]; simp

/-- Both ends of the range of a periodic dimension have the same weights. -/
theorem WF.seam (h : b.WF) {d : Fin D} (hk : b.PerKnots d) {q J : ℕ} (hq : q < b.order ∨ b.order % 2 = 0) :
    b.wSeg d q (b.range d).2 J = b.wSeg d q (b.range d).1 J := by
  have h1 := h.last_ge d
  have h2 := h.last_lt d
  have hn := (h.per d hk.per).1
  have hlen := hk.len
  have s1 : b.segOf d (b.range d).1 = b.order := by
    refine h.segOf_eq ⟨le_rfl, h1, .inl rfl, .inr ?_⟩
    rw [hk.fst]; exact h.first d
  have key := h.wP_shift hk (q := q) (J := J) (b.range d).1
  rw [show (b.range d).1 + ((b.range d).2 - (b.range d).1) = (b.range d).2 by ring] at key
  unfold wSeg
  rw [s1, weight_eq_wP, weight_eq_wP, ← key]
  by_cases hodd : b.order % 2 = 1
  · rw [if_pos hodd] at hlen
    have hlast : b.last d = b.ctrl.dims d + b.order - 1 := by unfold last; omega
    have s2 : b.segOf d (b.range d).2 = b.ctrl.dims d + b.order - 1 := by
      refine h.segOf_eq ⟨by omega, by omega, .inr ?_, .inl hlast.symm⟩
      rw [hk.snd]
      exact h.mono d _ _ (by omega) (by omega) (by omega)
    rw [s2, hk.snd]
    -- the knot past the last segment: not covered by `wP_knot`, since its right segment is not searched
    have e : b.ctrl.dims d + b.order = (b.ctrl.dims d + b.order - 1) + 1 := by omega
    set r := b.ctrl.dims d + b.order - 1
    have hl : b.kn d r < b.kn d (r + 1) := by rw [← hlast]; exact h.lastSeg d
    have hr : b.kn d (r + 1) < b.kn d (r + 1 + 1) := by
      have a := hk.shift b.order (by omega) (by omega)
      have c := hk.shift (b.order + 1) (by omega) (by omega)
      rw [Nat.add_comm, e] at a
      rw [show b.order + 1 + b.ctrl.dims d = r + 1 + 1 by omega] at c
      have := h.first d
      linarith
    have hnr : Nondeg (b.kn d) r b.order := h.nondeg (by omega) (by omega) hl
    have hnr1 : Nondeg (b.kn d) (r + 1) b.order := nondeg_of_mono (h.kmono d) hr (by omega) (by omega)
    have hm : ∀ j, r < j → j ≤ r + 1 → b.kn d j = b.kn d (r + 1) := fun j a c => by rw [show j = r + 1 by omega]
    have hq' : q + 1 ≤ b.order := by omega
    rw [e, ← weight_eq_wP, ← weight_eq_wP]
    unfold weight
    rw [sum_filter, sum_filter, sum_range_succ _ (r + 1)]
    rw [← pieceP_knot_eq hl hr hm q b.order (r + 1) hq' hnr hnr1, pieceP_zero_of_lt _ _ _ (r + 1) (by omega)]
    simp only [iterate_derivative_zero, eval_zero, ite_self, add_zero]
    refine sum_congr rfl fun i _ => ?_
    rw [pieceP_knot_eq hl hr hm q b.order i hq' hnr hnr1]
  · rw [if_neg hodd] at hlen
    have hlast : b.last d = b.ctrl.dims d + b.order := by unfold last; omega
    have s2 : b.segOf d (b.range d).2 = b.ctrl.dims d + b.order := by
      refine h.segOf_eq ⟨by omega, by omega, .inr ?_, .inl hlast.symm⟩
      rw [hk.snd]
    rw [s2]

/-- Local description of the weights around a coordinate: a polynomial on the right, one on the left, which agree up to order `order - 1`;
they are the same if the coordinate is not a knot. -/
theorem WF.local_seg (h : b.WF) {d : Fin D} (w0 : K) (hs : b.Simple d ∨ ∀ i, b.order < i → i ≤ b.last d → b.kn d i ≠ w0) :
    ∃ (lo hi : K) (gL gR : ℕ → K[X]), lo < w0 ∧ w0 < hi ∧
      (∀ q J w, w0 ≤ w → w < hi → b.wSeg d q w J = (derivative^[q] (gR J)).eval w) ∧
      (∀ q J w, lo < w → w < w0 → b.wSeg d q w J = (derivative^[q] (gL J)).eval w) ∧
      (∀ q J, q < b.order → (derivative^[q] (gL J)).eval w0 = (derivative^[q] (gR J)).eval w0) ∧
      ((∀ i, b.order < i → i ≤ b.last d → b.kn d i ≠ w0) → gL = gR) := by
  obtain ⟨a1, a2, a3, a4⟩ := h.isSeg_segOf d w0
  set s := b.segOf d w0
  have hright : ∃ hi, w0 < hi ∧ ∀ w, w0 ≤ w → w < hi → b.segOf d w = s := by
    rcases a4 with h4 | h4
    · refine ⟨w0 + 1, by linarith, fun w hw _ => h.segOf_eq ⟨a1, a2, ?_, .inl h4⟩⟩
      rcases a3 with h3 | h3
      · exact .inl h3
      · exact .inr (h3.trans hw)
    · refine ⟨_, h4, fun w hw hw' => h.segOf_eq ⟨a1, a2, ?_, .inr hw'⟩⟩
      rcases a3 with h3 | h3
      · exact .inl h3
      · exact .inr (h3.trans hw)
  obtain ⟨hi, hhi, hR⟩ := hright
  have hRw : ∀ q J w, w0 ≤ w → w < hi → b.wSeg d q w J = (derivative^[q] (b.wP d s J)).eval w := fun q J w h1 h2 => by
    unfold wSeg; rw [hR w h1 h2, weight_eq_wP]
  by_cases hk : b.order < s ∧ b.kn d s = w0
  · have hs' : b.Simple d := hs.resolve_right fun hc => hc s hk.1 a2 hk.2
    have hl := hs' (s - 1) (by omega) (by omega)
    rw [show s - 1 + 1 = s by omega] at hl
    refine ⟨b.kn d (s - 1), hi, fun J => b.wP d (s - 1) J, fun J => b.wP d s J, hk.2 ▸ hl, hhi, hRw, ?_, ?_, ?_⟩
    · intro q J w h1 h2
      unfold wSeg
      rw [weight_eq_wP, h.segOf_eq (s := s - 1) ⟨by omega, by omega, .inr h1.le, .inr ?_⟩]
      rw [show s - 1 + 1 = s by omega, hk.2]; exact h2
    · intro q J hq
      have := h.wP_knot (d := d) (r := s - 1) (m := 1) (q := q) (J := J) (by omega) (by omega) (by rw [show s - 1 + 1 = s by omega]; exact hl)
        (by rw [show s - 1 + 1 = s by omega]; exact hs' s a1 a2) (fun j _ _ => by rw [show j = s - 1 + 1 by omega]) (by omega)
      rw [show s - 1 + 1 = s by omega, hk.2] at this
      exact this
    · intro hc; exact absurd hk.2 (hc s hk.1 a2)
  · have hleft : ∃ lo, lo < w0 ∧ ∀ w, lo < w → w < w0 → b.segOf d w = s := by
      by_cases hso : s = b.order
      · refine ⟨w0 - 1, by linarith, fun w _ hw' => h.segOf_eq ⟨a1, a2, .inl hso, ?_⟩⟩
        rcases a4 with h4 | h4
        · exact .inl h4
        · exact .inr (hw'.trans h4)
      · have h3 : b.kn d s < w0 := lt_of_le_of_ne (a3.resolve_left hso) fun e => hk ⟨by omega, e⟩
        refine ⟨_, h3, fun w hw hw' => h.segOf_eq ⟨a1, a2, .inr hw.le, ?_⟩⟩
        rcases a4 with h4 | h4
        · exact .inl h4
        · exact .inr (hw'.trans h4)
    obtain ⟨lo, hlo, hL⟩ := hleft
    refine ⟨lo, hi, fun J => b.wP d s J, fun J => b.wP d s J, hlo, hhi, hRw, ?_, fun _ _ _ => rfl, fun _ => rfl⟩
    intro q J w h1 h2
    unfold wSeg; rw [hL w h1 h2, weight_eq_wP]

theorem WF.wrapOf_eq (h : b.WF) {d : Fin D} {x w : K} (hw : b.IsWrap d x w) : b.wrapOf d x = w :=
  h.wrap_unique (h.isWrap_wrapOf d x) hw

/-- Shifted coordinates strictly inside the range wrap to the same place. -/
theorem WF.wrapOf_inside (h : b.WF) {d : Fin D} (hp : b.periodicity d = true) {x w : K} {k : ℤ}
    (hk : w = x + k * ((b.range d).2 - (b.range d).1)) (h1 : (b.range d).1 < w) (h2 : w < (b.range d).2) : b.wrapOf d x = w := by
  refine h.wrapOf_eq ?_
  unfold IsWrap
  rw [if_pos hp]
  refine ⟨⟨k, hk⟩, ?_⟩
  split
  · exact ⟨h1, h2.le⟩
  · exact ⟨h1.le, h2⟩

/-- **Periodicity of the weights.** -/
theorem WF.wAt_periodic (h : b.WF) {d : Fin D} (hk : b.PerKnots d) (k : ℤ) (x : K) {q : ℕ} (J : ℕ)
    (hq : q < b.order ∨ b.order % 2 = 0) :
    b.wAt d q (x + k * ((b.range d).2 - (b.range d).1)) J = b.wAt d q x J := by
  set P := (b.range d).2 - (b.range d).1 with hP
  have hlt := (h.per d hk.per).2
  have key : ∀ x, ∃ w, (∃ k : ℤ, w = x + k * P) ∧ (b.range d).1 ≤ w ∧ w < (b.range d).2 ∧ b.wAt d q x J = b.wSeg d q w J := by
    intro x
    have hw := h.isWrap_wrapOf d x
    unfold IsWrap at hw
    rw [if_pos hk.per] at hw
    obtain ⟨⟨k, hk'⟩, hw⟩ := hw
    by_cases e : b.wrapOf d x = (b.range d).2
    · refine ⟨(b.range d).1, ⟨k - 1, ?_⟩, le_rfl, hlt, ?_⟩
      · rw [e] at hk'
        push_cast
        rw [sub_mul, ← hP] at *
        linear_combination hk' - hP
      · unfold wAt
        rw [e, h.seam hk hq]
    · refine ⟨_, ⟨k, hk'⟩, ?_, ?_, rfl⟩
      · split at hw
        · exact hw.1.le
        · exact hw.1
      · split at hw
        · exact lt_of_le_of_ne hw.2 e
        · exact hw.2
  obtain ⟨w, ⟨k1, e1⟩, a1, a2, a3⟩ := key x
  obtain ⟨w', ⟨k2, e2⟩, b1, b2, b3⟩ := key (x + k * P)
  rw [a3, b3]
  congr 1
  have e : w' - w = ((k2 + k - k1 : ℤ) : K) * P := by rw [e1, e2]; push_cast; ring
  have hPpos : 0 < P := sub_pos.2 hlt
  have l1 : ((k2 + k - k1 : ℤ) : K) * P < 1 * P := by rw [← e]; linarith
  have l2 : (-1) * P < ((k2 + k - k1 : ℤ) : K) * P := by rw [← e]; linarith
  have m1 := lt_of_mul_lt_mul_right l1 hPpos.le
  have m2 := lt_of_mul_lt_mul_right l2 hPpos.le
  have m1' : (k2 + k - k1 : ℤ) < 1 := by exact_mod_cast m1
  have m2' : (-1 : ℤ) < k2 + k - k1 := by exact_mod_cast m2
  have : (k2 + k - k1 : ℤ) = 0 := by omega
  rw [this] at e
  simp at e
  linarith

/-- Local description of the weights around any coordinate. -/
theorem WF.local_at (h : b.WF) {d : Fin D} (x0 : K)
    (hs : (b.Simple d ∧ (b.periodicity d = true → b.PerKnots d)) ∨
      (∀ i, b.order < i → i ≤ b.last d → b.kn d i ≠ b.wrapOf d x0) ∧
        (b.periodicity d = true → b.wrapOf d x0 ≠ (b.range d).1 ∧ b.wrapOf d x0 ≠ (b.range d).2)) :
    ∃ (lo hi : K) (gL gR : ℕ → K[X]), lo < x0 ∧ x0 < hi ∧
      (∀ q J x, x0 < x → x < hi → b.wAt d q x J = (derivative^[q] (gR J)).eval x) ∧
      (∀ q J x, lo < x → x < x0 → b.wAt d q x J = (derivative^[q] (gL J)).eval x) ∧
      (∀ q J, q < b.order → (derivative^[q] (gL J)).eval x0 = b.wAt d q x0 J ∧ (derivative^[q] (gR J)).eval x0 = b.wAt d q x0 J) ∧
      (((∀ i, b.order < i → i ≤ b.last d → b.kn d i ≠ b.wrapOf d x0) ∧
        (b.periodicity d = true → b.wrapOf d x0 ≠ (b.range d).1 ∧ b.wrapOf d x0 ≠ (b.range d).2)) →
          gL = gR ∧ ∀ q J, (derivative^[q] (gR J)).eval x0 = b.wAt d q x0 J) := by
  by_cases hp : b.periodicity d = true
  · have hlt := (h.per d hp).2
    have hw := h.isWrap_wrapOf d x0
    unfold IsWrap at hw
    rw [if_pos hp] at hw
    obtain ⟨⟨k, hk⟩, hw⟩ := hw
    have hw' : (b.range d).1 ≤ b.wrapOf d x0 ∧ b.wrapOf d x0 ≤ (b.range d).2 := by
      split at hw
      · exact ⟨hw.1.le, hw.2⟩
      · exact ⟨hw.1, hw.2.le⟩
    by_cases hb : b.wrapOf d x0 ≠ (b.range d).1 ∧ b.wrapOf d x0 ≠ (b.range d).2
    · -- strictly inside the period
      have i1 : (b.range d).1 < b.wrapOf d x0 := lt_of_le_of_ne hw'.1 (Ne.symm hb.1)
      have i2 : b.wrapOf d x0 < (b.range d).2 := lt_of_le_of_ne hw'.2 hb.2
      obtain ⟨lo, hi, gL, gR, l1, l2, l3, l4, l5, l6⟩ := h.local_seg (d := d) (b.wrapOf d x0) (hs.imp (fun a => a.1) (fun a => a.1))
      set c := k * ((b.range d).2 - (b.range d).1)
      refine ⟨max lo (b.range d).1 - c, min hi (b.range d).2 - c, fun J => (gL J).comp (X + C c), fun J => (gR J).comp (X + C c),
        ?_, ?_, ?_, ?_, ?_, ?_⟩
      · have : max lo (b.range d).1 < b.wrapOf d x0 := max_lt l1 i1
        rw [hk] at this; linarith
      · have : b.wrapOf d x0 < min hi (b.range d).2 := lt_min l2 i2
        rw [hk] at this; linarith
      · intro q J x h1 h2
        have h2' : x + c < min hi (b.range d).2 := by linarith
        rw [eval_derivative_shift, ← l3 q J (x + c) (by rw [hk]; linarith) (lt_of_lt_of_le h2' (min_le_left _ _))]
        unfold wAt
        rw [h.wrapOf_inside hp (w := x + c) rfl (by linarith) (lt_of_lt_of_le h2' (min_le_right _ _))]
      · intro q J x h1 h2
        have h1' : max lo (b.range d).1 < x + c := by linarith
        rw [eval_derivative_shift, ← l4 q J (x + c) (lt_of_le_of_lt (le_max_left _ _) h1') (by rw [hk]; linarith)]
        unfold wAt
        rw [h.wrapOf_inside hp (w := x + c) rfl (lt_of_le_of_lt (le_max_right _ _) h1') (by linarith)]
      · intro q J hq
        rw [eval_derivative_shift, eval_derivative_shift, ← hk, l5 q J hq, ← l3 q J _ le_rfl l2]
        exact ⟨rfl, rfl⟩
      · intro hc
        refine ⟨by rw [l6 hc.1], fun q J => ?_⟩
        rw [eval_derivative_shift, ← hk, ← l3 q J _ le_rfl l2]
        rfl
    · -- on the seam
      rcases hs with ⟨hsim, hper⟩ | ⟨_, hc⟩
      swap
      · exact absurd (hc hp) hb
      have hpk := hper hp
      obtain ⟨_, hi, _, gR, _, l2, l3, _, _, _⟩ := h.local_seg (d := d) (b.range d).1 (.inl hsim)
      obtain ⟨lo, _, gL, gR', m1, m2, m3, m4, m5, _⟩ := h.local_seg (d := d) (b.range d).2 (.inl hsim)
      have hx : ∃ k : ℤ, (b.range d).1 = x0 + k * ((b.range d).2 - (b.range d).1) := by
        rcases not_and_or.1 hb with hb | hb
        · exact ⟨k, by rw [← hk]; simpa using (not_not.1 hb).symm⟩
        · rw [not_not] at hb
          refine ⟨k - 1, ?_⟩
          rw [hb] at hk
          push_cast
          linear_combination hk
      clear hk
      obtain ⟨k, hk⟩ := hx
      set c := k * ((b.range d).2 - (b.range d).1) with hc
      set P := (b.range d).2 - (b.range d).1 with hP
      have h0 : ∀ q J, q < b.order → b.wAt d q x0 J = b.wSeg d q (b.range d).1 J := by
        intro q J hq
        unfold wAt
        rcases not_and_or.1 hb with hb | hb
        · rw [not_not.1 hb]
        · rw [not_not.1 hb, h.seam hpk (.inl hq)]
      refine ⟨max lo (b.range d).1 - (c + P), min hi (b.range d).2 - c, fun J => (gL J).comp (X + C (c + P)), fun J => (gR J).comp (X + C c),
        ?_, ?_, ?_, ?_, ?_, ?_⟩
      · have : max lo (b.range d).1 < (b.range d).2 := max_lt m1 hlt
        linarith
      · have : (b.range d).1 < min hi (b.range d).2 := lt_min l2 hlt
        linarith
      · intro q J x h1 h2
        have h2' : x + c < min hi (b.range d).2 := by linarith
        rw [eval_derivative_shift, ← l3 q J (x + c) (by linarith) (lt_of_lt_of_le h2' (min_le_left _ _))]
        unfold wAt
        rw [h.wrapOf_inside hp (w := x + c) rfl (by linarith) (lt_of_lt_of_le h2' (min_le_right _ _))]
      · intro q J x h1 h2
        have h1' : max lo (b.range d).1 < x + (c + P) := by linarith
        rw [eval_derivative_shift, ← m4 q J (x + (c + P)) (lt_of_le_of_lt (le_max_left _ _) h1') (by linarith)]
        unfold wAt
        rw [h.wrapOf_inside hp (w := x + (c + P)) (k := k + 1) (by push_cast; rw [hc]; ring) (lt_of_le_of_lt (le_max_right _ _) h1') (by linarith)]
      · intro q J hq
        rw [eval_derivative_shift, eval_derivative_shift, ← hk, h0 q J hq, ← l3 q J _ le_rfl l2]
        refine ⟨?_, rfl⟩
        rw [show x0 + (c + P) = (b.range d).2 by linarith, m5 q J hq, ← m3 q J _ le_rfl m2, h.seam hpk (.inl hq)]
      · intro hc'; exact absurd (hc'.2 hp) hb
  · have e : ∀ x, b.wrapOf d x = x := fun x => by unfold wrapOf; simp [hp]
    obtain ⟨lo, hi, gL, gR, l1, l2, l3, l4, l5, l6⟩ := h.local_seg (d := d) x0
      (hs.imp (fun a => a.1) (fun a => by rw [e] at a; exact a.1))
    refine ⟨lo, hi, gL, gR, l1, l2, ?_, ?_, ?_, ?_⟩
    · intro q J x h1 h2; unfold wAt; rw [e]; exact l3 q J x h1.le h2
    · intro q J x h1 h2; unfold wAt; rw [e]; exact l4 q J x h1 h2
    · intro q J hq; unfold wAt; rw [e, l5 q J hq, ← l3 q J _ le_rfl l2]; exact ⟨rfl, rfl⟩
    · intro hc; rw [e] at hc
      refine ⟨l6 hc.1, fun q J => ?_⟩
      unfold wAt; rw [e, ← l3 q J _ le_rfl l2]

end Field

end BSpline
end Intp
