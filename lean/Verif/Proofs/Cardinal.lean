import Verif.Proofs.Marsden
import Verif.Proofs.NearExact
import Verif.Proofs.PivotA

/-!
# Interpolation as a combination of the data

The value of an interpolation at a point is a linear combination of the data, with coefficients that are products over the dimensions.
-/

namespace Intp

open Finset BSpline Polynomial

variable {K : Type} [Field K] [LinearOrder K] [IsStrictOrderedRing K] [FloorRing K]

/-- Points of a dimension: between the first and the last data point, or anywhere if the dimension is periodic. -/
def XRange.InDom (N : ℕ) (per : Bool) (x : XRange K) (y : K) : Prop := per = false → x.node N 0 ≤ y ∧ y ≤ x.node N (N - 1)

/-- Knots of a dimension. -/
abbrev XRange.kt (x : XRange K) (o N : ℕ) (per : Bool) : ℕ → K := knotFn (x.knots o (unk per N) per)

/-- The segment `s` of the point `y`, moved by periods to `w`. -/
structure AxisPt (o N : ℕ) (per : Bool) (x : XRange K) (y w : K) (s : ℕ) : Prop where
  lo : o ≤ s
  hi : s + o + 1 < (x.knots o (unk per N) per).length
  nd : Nondeg (x.kt o N per) s o
  le : x.kt o N per s ≤ w
  ge : w ≤ x.kt o N per (s + 1)
  aper : per = false → w = y
  shift : per = true → ∃ k : ℤ, w = y + k * (x.node N (N - 1) - x.node N 0)
  sumD : ∀ (m : ℕ) (ξ : ℕ → K), ∑ J ∈ Finset.range (unk per N), x.wt o N per m y J * ξ J =
    ∑ i ∈ Finset.range (s + 1), (derivative^[m] (pieceP (x.kt o N per) s o i)).eval w * ξ (if per then i % unk per N else i)

theorem AxisPt.sum {o N : ℕ} {per : Bool} {x : XRange K} {y w : K} {s : ℕ} (h : AxisPt o N per x y w s) (ξ : ℕ → K) :
    ∑ J ∈ Finset.range (unk per N), x.wt o N per 0 y J * ξ J =
      ∑ i ∈ Finset.range (s + 1), piece (x.kt o N per) s o i w * ξ (if per then i % unk per N else i) := by
  rw [h.sumD 0]
  refine sum_congr rfl fun i _ => ?_
  rw [Function.iterate_zero, id, pieceP_eval]

/-- Sums over control points are sums over basis functions. -/
theorem axisWt_sum_at (o : ℕ) (per : Bool) (n : ℕ) (t : List K) {y w : K} (hw : w = if per then wrapFn (knotFn t o, knotFn t (t.length - o - (2 - o % 2))) y else y)
    (m : ℕ) (ξ : ℕ → K) (hn : segAt o t w < n ∨ per = true ∧ 0 < n) :
    ∑ J ∈ Finset.range n, axisWt o per n t m y J * ξ J =
      ∑ i ∈ Finset.range (segAt o t w + 1), (derivative^[m] (pieceP (knotFn t) (segAt o t w) o i)).eval w * ξ (if per then i % n else i) := by
  unfold axisWt
  simp only
  rw [← hw]
  have hmap : ∀ i ∈ Finset.range (segAt o t w + 1), (if per then i % n else i) ∈ Finset.range n := by
    intro i hi
    have h1 := Finset.mem_range.1 hi
    rw [Finset.mem_range]
    cases hp : per with
    | true =>
      rw [if_pos rfl]
      rcases hn with h | h
      · exact Nat.mod_lt _ (by omega)
      · exact Nat.mod_lt _ h.2
    | false =>
      rw [if_neg (by simp)]
      rcases hn with h | h
      · omega
      · rw [hp] at h; simp at h
  rw [← sum_fiberwise_of_maps_to hmap]
  refine sum_congr rfl fun J _ => ?_
  rw [sum_mul]
  refine sum_congr rfl fun i hi => ?_
  rw [(mem_filter.1 hi).2]

theorem XRange.Valid.axisPt {o N : ℕ} {per : Bool} {x : XRange K} (h : x.Valid o N per) {y : K} (hy : x.InDom N per y) :
    ∃ w s, AxisPt o N per x y w s ∧ ∀ i, 0 ≤ piece (x.kt o N per) s o i w := by
  set t := x.knots o (unk per N) per with ht
  have hlen := h.knots_length
  rw [← ht] at hlen
  have hl2 : 2 * o + 2 ≤ t.length := h.knots_length_le
  have hpos := h.unk_pos
  set w := if per then wrapFn (knotFn t o, knotFn t (t.length - o - (2 - o % 2))) y else y with hw
  obtain ⟨hs, hnd⟩ := h.seg_lt w
  rw [← ht] at hs hnd
  set s := segAt o t w with hsdef
  have hm : KMono t := h.kmono
  have hdom : knotFn t o ≤ w ∧ w ≤ knotFn t (t.length - o - 1) ∧ (per = true → ∃ k : ℤ, w = y + k * (x.node N (N - 1) - x.node N 0)) := by
    cases hp : per with
    | false =>
      subst hp
      have ax := h.aAxis
      rw [show unk false N = N from rfl] at ax
      have htN : t = x.knots o N false := ht
      rw [← htN] at ax
      have hy' := hy rfl
      refine ⟨?_, ?_, by simp⟩
      · rw [hw, if_neg (by simp), ax.left o le_rfl]; exact hy'.1
      · rw [hw, if_neg (by simp), ax.len, show N + o + 1 - o - 1 = N by omega, ax.right N le_rfl (by omega)]; exact hy'.2
    | true =>
      subst hp
      have ax := h.pAxis
      rw [← ht] at ax
      have hN : unk true N = N - 1 := rfl
      have hlt : knotFn t o < knotFn t (unk true N + o) :=
        strict_of_succ (f := knotFn t) (lo := o) (hi := unk true N + o) (fun i h1 h2 => ax.inc i (by omega) (by have := ax.len; omega)) le_rfl
          (by have := ax.big; omega) le_rfl
      have hidx : t.length - o - (2 - o % 2) = unk true N + o := by have := ax.len; omega
      have hwm := wrapFn_mem (r := (knotFn t o, knotFn t (t.length - o - (2 - o % 2)))) (by rw [hidx]; exact hlt) y
      have hws := wrapFn_shift (knotFn t o, knotFn t (t.length - o - (2 - o % 2))) y
      rw [hw, if_pos rfl]
      have h2 : knotFn t (t.length - o - (2 - o % 2)) ≤ knotFn t (t.length - o - 1) := by
        refine hm _ _ (by rw [hidx]; omega) (by omega) (by omega)
      refine ⟨?_, ?_, fun _ => ?_⟩
      · split at hwm
        · exact hwm.1.le
        · exact hwm.1
      · split at hwm
        · exact hwm.2.trans h2
        · exact hwm.2.le.trans h2
      · obtain ⟨k, hk⟩ := hws
        refine ⟨k, ?_⟩
        rw [hk]
        have := ax.shift o (by omega) (by have := ax.len; omega)
        simp only
        rw [hidx, Nat.add_comm, this, ← hN]
        ring
  obtain ⟨a1, a2, a3, a4⟩ := hs
  have h3 : knotFn t s ≤ w := by
    rcases a3 with e | h3
    · rw [e]; exact hdom.1
    · exact h3
  have h4 : w ≤ knotFn t (s + 1) := by
    rcases a4 with e | h4
    · rw [e, show t.length - o - 2 + 1 = t.length - o - 1 by omega]; exact hdom.2.1
    · exact h4.le
  refine ⟨w, s, ⟨a1, by rw [← ht]; omega, hnd, h3, h4, fun hp => by rw [hw, hp]; rfl, hdom.2.2, fun m ξ => ?_⟩, fun i => ?_⟩
  · refine axisWt_sum_at o per (unk per N) t hw m ξ ?_
    cases per
    · left; rw [if_neg (by simp)] at hlen; omega
    · right; exact ⟨rfl, hpos⟩
  · exact piece_nonneg (p := o) (fun j hj0 hj => (hm j s (by omega) hj (by omega)).trans h3)
      (fun j hj hj' => h4.trans (hm _ _ (by omega) hj (by omega))) o i le_rfl

/-- Weights in the domain. -/
theorem XRange.Valid.wt_unity {o N : ℕ} {per : Bool} {x : XRange K} (h : x.Valid o N per) {y : K} (hy : x.InDom N per y) :
    (∀ J, J < unk per N → 0 ≤ x.wt o N per 0 y J) ∧ ∑ J ∈ Finset.range (unk per N), x.wt o N per 0 y J = 1 := by
  obtain ⟨w, s, hp, h0⟩ := h.axisPt hy
  constructor
  · intro J hJ
    have := hp.sum fun j => if j = J then 1 else 0
    rw [Finset.sum_eq_single J] at this
    · rw [if_pos rfl, mul_one] at this
      rw [this]
      have h1 : ∀ j, (0 : K) ≤ if j = J then 1 else 0 := fun j => by split <;> norm_num
      exact sum_nonneg fun i _ => mul_nonneg (h0 i) (h1 _)
    · intro j _ hj
      rw [if_neg hj, mul_zero]
    · intro hc
      exact absurd (Finset.mem_range.2 hJ) hc
  · have := hp.sum fun _ => 1
    simp only [mul_one] at this
    rw [this]
    exact sum_piece_eq_one w o hp.lo hp.nd

/-- Data points lie in the domain. -/
theorem XRange.Valid.node_dom {o N : ℕ} {per : Bool} {x : XRange K} (h : x.Valid o N per) {i : ℕ} (hi : i < N) : x.InDom N per (x.node N i) := by
  have hle : ∀ a b, a ≤ b → b < N → x.node N a ≤ x.node N b := fun a b h1 h2 => by
    rcases Nat.eq_or_lt_of_le h1 with e | e
    · rw [e]
    · exact (h.node_lt e h2).le
  exact fun _ => ⟨hle 0 i (Nat.zero_le _) hi, hle i (N - 1) (by omega) (by omega)⟩

omit [LinearOrder K] [IsStrictOrderedRing K] [FloorRing K] in
/-- A regular matrix has an inverse. -/
theorem Regular.inverse {n : ℕ} (hn : 0 < n) {A : ℕ → ℕ → K} (h : Regular n A) :
    ∃ B : ℕ → ℕ → K, (∀ i < n, ∀ j < n, ∑ k ∈ Finset.range n, B i k * A k j = if i = j then 1 else 0) ∧
      ∀ i < n, ∀ j < n, ∑ k ∈ Finset.range n, A i k * B k j = if i = j then 1 else 0 := by
  obtain ⟨B, hB⟩ := Template.Regular.leftInv hn h
  refine ⟨B, hB, fun i hi j hj => ?_⟩
  let MA : Matrix (Fin n) (Fin n) K := fun i j => A i j
  let MB : Matrix (Fin n) (Fin n) K := fun i j => B i j
  have h1 : MB * MA = 1 := by
    ext a b
    rw [Matrix.mul_apply, Matrix.one_apply]
    have := hB a a.isLt b b.isLt
    rw [← Fin.sum_univ_eq_sum_range (fun k => B a k * A k b) n] at this
    simp only [Fin.ext_iff]
    exact this
  have h2 : MA * MB = 1 := mul_eq_one_comm.1 h1
  have h3 := congrFun (congrFun h2 ⟨i, hi⟩) ⟨j, hj⟩
  rw [Matrix.mul_apply, Matrix.one_apply] at h3
  rw [← Fin.sum_univ_eq_sum_range (fun k => A i k * B k j) n]
  simp only [Fin.ext_iff] at h3
  exact h3

section
variable {n : ℕ} {A B : ℕ → ℕ → K} {u : ℕ → K}

/-- Combination of the data for the weights `u`. -/
def cardinal (n : ℕ) (B : ℕ → ℕ → K) (u : ℕ → K) (r : ℕ) : K := ∑ J ∈ Finset.range n, u J * B J r

omit [LinearOrder K] [IsStrictOrderedRing K] [FloorRing K] in
theorem cardinal_sum (n : ℕ) (B : ℕ → ℕ → K) (u f : ℕ → K) :
    ∑ r ∈ Finset.range n, cardinal n B u r * f r = ∑ J ∈ Finset.range n, u J * ∑ r ∈ Finset.range n, B J r * f r := by
  unfold cardinal
  simp_rw [sum_mul, mul_sum]
  rw [sum_comm]
  exact sum_congr rfl fun J _ => sum_congr rfl fun r _ => by ring

omit [LinearOrder K] [IsStrictOrderedRing K] [FloorRing K] in
/-- Splines are reproduced. -/
theorem cardinal_spline (hB : ∀ i < n, ∀ j < n, ∑ k ∈ Finset.range n, B i k * A k j = if i = j then 1 else 0) (ξ : ℕ → K) :
    ∑ r ∈ Finset.range n, cardinal n B u r * ∑ J ∈ Finset.range n, A r J * ξ J = ∑ J ∈ Finset.range n, u J * ξ J := by
  rw [cardinal_sum]
  refine sum_congr rfl fun J hJ => ?_
  congr 1
  simp_rw [mul_sum]
  rw [sum_comm]
  simp_rw [← mul_assoc, ← sum_mul]
  rw [sum_congr rfl fun j hj => by rw [hB J (Finset.mem_range.1 hJ) j (Finset.mem_range.1 hj)]]
  rw [Finset.sum_eq_single J]
  · rw [if_pos rfl, one_mul]
  · intro j _ hj
    rw [if_neg (Ne.symm hj), zero_mul]
  · intro hc
    exact absurd hJ hc

omit [FloorRing K] in
/-- Sum of the absolute values of the combination. -/
theorem cardinal_lebesgue (hB : ∀ i < n, ∀ j < n, ∑ k ∈ Finset.range n, A i k * B k j = if i = j then 1 else 0) {μ : K} (hA : RowsInv n A μ)
    (hu : (∀ J, J < n → 0 ≤ u J) ∧ ∑ J ∈ Finset.range n, u J = 1) : ∑ r ∈ Finset.range n, |cardinal n B u r| ≤ μ := by
  let σ : ℕ → K := fun r => if 0 ≤ cardinal n B u r then 1 else -1
  have hσ : ∀ r, |σ r| ≤ 1 := fun r => by simp only [σ]; split <;> simp
  have e : ∑ r ∈ Finset.range n, |cardinal n B u r| = ∑ r ∈ Finset.range n, cardinal n B u r * σ r := by
    refine sum_congr rfl fun r _ => ?_
    simp only [σ]
    split
    · rename_i h; rw [abs_of_nonneg h, mul_one]
    · rename_i h; rw [abs_of_neg (not_le.1 h)]; ring
  rw [e, cardinal_sum]
  have hz := hA (fun J => ∑ r ∈ Finset.range n, B J r * σ r) 1 (fun i hi => by
    have : ∑ j ∈ Finset.range n, A i j * ∑ r ∈ Finset.range n, B j r * σ r = σ i := by
      simp_rw [mul_sum]
      rw [sum_comm]
      simp_rw [← mul_assoc, ← sum_mul]
      rw [sum_congr rfl fun j hj => by rw [hB i hi j (Finset.mem_range.1 hj)]]
      rw [Finset.sum_eq_single i]
      · rw [if_pos rfl, one_mul]
      · intro j _ hj
        rw [if_neg (Ne.symm hj), zero_mul]
      · intro hc
        exact absurd (Finset.mem_range.2 hi) hc
    rw [this]
    exact hσ i)
  calc ∑ J ∈ Finset.range n, u J * ∑ r ∈ Finset.range n, B J r * σ r ≤ ∑ J ∈ Finset.range n, u J * μ := by
        refine sum_le_sum fun J hJ => mul_le_mul_of_nonneg_left ?_ (hu.1 J (Finset.mem_range.1 hJ))
        have := hz J (Finset.mem_range.1 hJ)
        rw [mul_one] at this
        exact (le_abs_self _).trans this
    _ = μ := by rw [← sum_mul, hu.2, one_mul]

end

/-- Values of splines are combinations of the data. -/
theorem CtrlEqs.cardinal_eq {D : ℕ} {V : Type} [AddCommGroup V] [Module K V] {c : Cfg} {o : ℕ} {per : Fin D → Bool} {dims : Fin D → ℕ} {x : Fin D → XRange K}
    {C F : (Fin D → ℕ) → V} (hE : CtrlEqs c o per dims x F C) {B : Fin D → ℕ → ℕ → K}
    (hB : ∀ d, ∀ i < nOf c per dims d, ∀ j < nOf c per dims d,
      ∑ k ∈ Finset.range (nOf c per dims d), B d i k * (x d).mat o (pointNum c (per d) (dims d)) (per d) k j = if i = j then 1 else 0) (m : Fin D → ℕ) (y : Fin D → K) :
    tensorVal (nOf c per dims) (fun d => (x d).wt o (pointNum c (per d) (dims d)) (per d) (m d) (y d)) C = tensorVal (nOf c per dims)
      (fun d => cardinal (nOf c per dims d) (B d) ((x d).wt o (pointNum c (per d) (dims d)) (per d) (m d) (y d)))
      fun r => F fun d => nodeOfRow o (per d) (nOf c per dims d) (r d) := by
  have hC : ∀ J, InRange (nOf c per dims) J →
      C J = tensorVal (nOf c per dims) (fun d => B d (J d)) fun r => F fun d => nodeOfRow o (per d) (nOf c per dims d) (r d) := fun J hJ => by
    refine Template.tensor_inv (A := fun d => (x d).mat o (pointNum c (per d) (dims d)) (per d)) hB (fun r hr => ?_) hJ
    have := hE (fun d => nodeOfRow o (per d) (nOf c per dims d) (r d)) fun d => (row_nodeOfRow (hr d)).1
    rw [← this]
    refine tensorVal_congr (fun _ _ => rfl) fun d J _ => ?_
    exact (congrArg (fun r' => (x d).mat o (pointNum c (per d) (dims d)) (per d) r' J) (row_nodeOfRow (o := o) (per := per d) (hr d)).2).symm
  rw [tensorVal_congr hC fun _ _ _ => rfl]
  exact tensorVal_comp (nOf c per dims) (nOf c per dims) _ (fun d e J => B d J e) _

/-- Row `r` of the matrix are the weights at its data point. -/
theorem InterpFn.Done.mat_row {D : ℕ} {V : Type} [AddCommGroup V] [Module K V] {c : Cfg} {o : ℕ} {per : Fin D → Bool} {dims : Fin D → ℕ} {x : Fin D → XRange K}
    {g : InterpFn D K V} {C : (Fin D → ℕ) → V} (h : g.Done c o per dims x C) (hv : ValidAxes c o per dims x) (d : Fin D) {r J : ℕ} (hr : r < nOf c per dims d)
    (hJ : J < nOf c per dims d) :
    (x d).mat o (pointNum c (per d) (dims d)) (per d) r J =
      (x d).wt o (pointNum c (per d) (dims d)) (per d) 0 ((x d).node (pointNum c (per d) (dims d)) (nodeOfRow o (per d) (nOf c per dims d) r)) J := by
  obtain ⟨h1, h2⟩ := row_nodeOfRow (o := o) (per := per d) hr
  have := h.mat_eq hv d h1 hJ
  rwa [h2] at this

end Intp
