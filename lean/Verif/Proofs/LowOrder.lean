import Verif.Proofs.Spans
import Verif.Proofs.Linear
import Verif.Proofs.NearAxis
import Verif.Proofs.DominantRows
import Verif.Proofs.PerDominant

/-!
# Bounds of the inverse matrices of uniform dimensions of low order, and of order 1
-/

namespace Intp

open Finset BSpline

section
variable {F : Type} [Field F] [LinearOrder F] [IsStrictOrderedRing F]

/-- The inverse of a matrix and its rows. -/
theorem RowsInv.inverse {n : ℕ} {A : ℕ → ℕ → F} {μ : F} (h : RowsInv n A μ) :
    ∃ B : ℕ → ℕ → F, (∀ i < n, ∀ j < n, ∑ k ∈ range n, B i k * A k j = if i = j then 1 else 0) ∧
      (∀ i < n, ∀ j < n, ∑ k ∈ range n, A i k * B k j = if i = j then 1 else 0) ∧ ∀ i < n, ∑ k ∈ range n, |B i k| ≤ μ := by
  classical
  let MA : Matrix (Fin n) (Fin n) F := fun i j => A i j
  have hinj : Function.Injective MA.mulVec := by
    intro u v huv
    have h0 : ∀ i, i < n → |∑ j ∈ range n, A i j * ((fun k => if hk : k < n then u ⟨k, hk⟩ - v ⟨k, hk⟩ else 0) j)| ≤ 0 := fun i hi => by
      rw [← Fin.sum_univ_eq_sum_range (fun j => A i j * ((fun k => if hk : k < n then u ⟨k, hk⟩ - v ⟨k, hk⟩ else 0) j)) n]
      have := congrFun huv ⟨i, hi⟩
      simp only [Matrix.mulVec, dotProduct, MA] at this
      simp only [Fin.is_lt, dite_true, mul_sub, sum_sub_distrib, Fin.eta]
      rw [this, sub_self, abs_zero]
    funext i
    have := h _ 0 h0 i i.isLt
    rw [mul_zero] at this
    have := abs_nonpos_iff.1 this
    simp only [Fin.is_lt, dite_true, Fin.eta] at this
    exact sub_eq_zero.1 this
  have hu := Matrix.mulVec_injective_iff_isUnit.1 hinj
  obtain ⟨U, hU⟩ := hu
  let B : ℕ → ℕ → F := fun i j => if hij : i < n ∧ j < n then (U⁻¹).1 ⟨i, hij.1⟩ ⟨j, hij.2⟩ else 0
  have hB : ∀ i j : Fin n, B i j = (U⁻¹).1 i j := fun i j => by simp only [B]; rw [dif_pos ⟨i.isLt, j.isLt⟩]
  have h1 : (U⁻¹).1 * MA = 1 := by rw [← hU]; exact U.inv_mul
  have h2 : MA * (U⁻¹).1 = 1 := by rw [← hU]; exact U.mul_inv
  have e1 : ∀ i < n, ∀ j < n, ∑ k ∈ range n, B i k * A k j = if i = j then 1 else 0 := fun i hi j hj => by
    have h3 := congrFun (congrFun h1 ⟨i, hi⟩) ⟨j, hj⟩
    rw [Matrix.mul_apply, Matrix.one_apply] at h3
    rw [← Fin.sum_univ_eq_sum_range (fun k => B i k * A k j) n]
    simp only [Fin.ext_iff] at h3
    rw [← h3]
    exact sum_congr rfl fun k _ => by rw [← hB]
  have e2 : ∀ i < n, ∀ j < n, ∑ k ∈ range n, A i k * B k j = if i = j then 1 else 0 := fun i hi j hj => by
    have h3 := congrFun (congrFun h2 ⟨i, hi⟩) ⟨j, hj⟩
    rw [Matrix.mul_apply, Matrix.one_apply] at h3
    rw [← Fin.sum_univ_eq_sum_range (fun k => A i k * B k j) n]
    simp only [Fin.ext_iff] at h3
    rw [← h3]
    exact sum_congr rfl fun k _ => by rw [← hB]
  refine ⟨B, e1, e2, fun i hi => ?_⟩
  have := cardinal_lebesgue (u := fun J => if J = i then 1 else 0) e2 h ⟨fun J _ => by split <;> norm_num, by
    rw [sum_ite_eq', if_pos (mem_range.2 hi)]⟩
  unfold cardinal at this
  simp only [ite_mul, one_mul, zero_mul, sum_ite_eq', mem_range, hi, if_true] at this
  exact this

/-- The bound from the inverse. -/
theorem rowsInv_of_inverse {n : ℕ} {A B : ℕ → ℕ → F} {μ : F} (h1 : ∀ i < n, ∀ j < n, ∑ k ∈ range n, B i k * A k j = if i = j then 1 else 0)
    (h2 : ∀ i < n, ∑ k ∈ range n, |B i k| ≤ μ) : RowsInv n A μ := by
  intro z M hM i hi
  have e : z i = ∑ k ∈ range n, B i k * ∑ j ∈ range n, A k j * z j := by
    simp_rw [mul_sum]
    rw [sum_comm]
    simp_rw [← mul_assoc, ← sum_mul]
    rw [sum_congr rfl fun j hj => by rw [h1 i hi j (mem_range.1 hj)]]
    simp [hi]
  rw [e]
  refine (abs_sum_le_sum_abs _ _).trans (le_trans ?_ (mul_le_mul_of_nonneg_right (h2 i hi) ((abs_nonneg _).trans (hM i hi))))
  rw [sum_mul]
  refine sum_le_sum fun k hk => ?_
  rw [abs_mul]
  exact mul_le_mul_of_nonneg_left (hM k (mem_range.1 hk)) (abs_nonneg _)

theorem RowsInv.mono_right {n : ℕ} {A : ℕ → ℕ → F} {μ ν : F} (h : RowsInv n A μ) (hμ : μ ≤ ν) : RowsInv n A ν := fun z M hM i hi =>
  (h z M hM i hi).trans (mul_le_mul_of_nonneg_right hμ ((abs_nonneg _).trans (hM i hi)))

theorem RowsInv.congr {n : ℕ} {A A' : ℕ → ℕ → F} {μ : F} (h : RowsInv n A μ) (hA : ∀ i J, i < n → J < n → A' i J = A i J) : RowsInv n A' μ :=
  fun z M hM i hi => h z M (fun i hi => by
    have := hM i hi
    rwa [sum_congr rfl fun J hJ => by rw [hA i J hi (mem_range.1 hJ)]] at this) i hi

end

section
variable {K : Type} [Field K] [LinearOrder K] [IsStrictOrderedRing K] [FloorRing K]

omit [FloorRing K] in
/-- A bound for rational matrices holds in any field. -/
theorem RowsInv.cast {n : ℕ} {A : ℕ → ℕ → ℚ} {μ : ℚ} (h : RowsInv n A μ) : RowsInv n (fun i J => ((A i J : ℚ) : K)) (μ : K) := by
  obtain ⟨B, h1, -, h2⟩ := h.inverse
  refine rowsInv_of_inverse (B := fun i J => ((B i J : ℚ) : K)) (fun i hi j hj => ?_) fun i hi => ?_
  · have := congrArg (Rat.cast : ℚ → K) (h1 i hi j hj)
    rw [Rat.cast_sum] at this
    simp only [Rat.cast_mul] at this
    rw [this]
    split <;> simp
  · have : ((∑ k ∈ range n, |B i k| : ℚ) : K) ≤ μ := by exact_mod_cast h2 i hi
    rw [Rat.cast_sum] at this
    simpa only [Rat.cast_abs] using this

omit [LinearOrder K] [IsStrictOrderedRing K] [FloorRing K] in
theorem piece_cast [CharZero K] {t : ℕ → ℚ} {t' : ℕ → K} (h : ∀ i, t' i = ((t i : ℚ) : K)) (s : ℕ) (x : ℚ) :
    ∀ k i, piece t' s k i (x : K) = ((piece t s k i x : ℚ) : K)
  | 0, i => by unfold piece; split <;> simp
  | k + 1, i => by
    unfold piece
    rw [piece_cast h s x k i, piece_cast h s x k (i + 1), h, h, h, h]
    push_cast
    ring

/-- The matrix of a uniform dimension with rational ends. -/
theorem mat_cast {o N : ℕ} {per : Bool} (a b : ℚ) (r J : ℕ) :
    (XRange.uniform (a : K) (b : K)).mat o N per r J = (((XRange.uniform a b).mat o N per r J : ℚ) : K) := by
  have hn : ∀ i, (XRange.uniform (a : K) (b : K)).node N i = (((XRange.uniform a b).node N i : ℚ) : K) := fun i => by
    unfold XRange.node; push_cast; ring
  have hlen : ((XRange.uniform (a : K) (b : K)).knots o (unk per N) per).length = ((XRange.uniform a b).knots o (unk per N) per).length := by
    unfold XRange.knots
    cases per <;> simp [arr_length]
  have hk : ∀ i, knotFn ((XRange.uniform (a : K) (b : K)).knots o (unk per N) per) i = ((knotFn ((XRange.uniform a b).knots o (unk per N) per) i : ℚ) : K) := by
    intro i
    by_cases hi : i < ((XRange.uniform a b).knots o (unk per N) per).length
    · cases per with
      | true =>
        have h1 : i < unk true N + 1 + (2 * o + (1 - o % 2)) := by
          have : ((XRange.uniform a b).knots o (unk true N) true).length = unk true N + 1 + (2 * o + (1 - o % 2)) := arr_length _ _
          omega
        show knotFn (arr _ _) i = ((knotFn (arr _ _) i : ℚ) : K)
        rw [knotFn_arr _ h1, knotFn_arr _ h1]
        unfold uniformKnot; push_cast; ring
      | false =>
        have h1 : i < unk false N + (o + 1) := by
          have : ((XRange.uniform a b).knots o (unk false N) false).length = unk false N + (o + 1) := arr_length _ _
          omega
        show knotFn (arr _ _) i = ((knotFn (arr _ _) i : ℚ) : K)
        rw [knotFn_arr _ h1, knotFn_arr _ h1]
        unfold uaKnot uniformKnot
        split
        · rfl
        · split
          · push_cast; ring
          · rfl
    · unfold knotFn
      rw [List.getD_eq_getElem?_getD, List.getD_eq_getElem?_getD, List.getElem?_eq_none (by omega), List.getElem?_eq_none (by omega)]
      simp
  have hs : ∀ x : ℚ, segAt o ((XRange.uniform (a : K) (b : K)).knots o (unk per N) per) (x : K) = segAt o ((XRange.uniform a b).knots o (unk per N) per) x := by
    intro x
    have key : ∀ P Q : ℕ → Prop, P = Q → ∀ o, (open Classical in if h : ∃ s, P s then h.choose else o) = (open Classical in if h : ∃ s, Q s then h.choose else o) := by
      rintro P _ rfl o; rfl
    unfold segAt
    rw [hlen]
    have : (fun s => IsSeg (knotFn ((XRange.uniform (a : K) (b : K)).knots o (unk per N) per)) o (((XRange.uniform a b).knots o (unk per N) per).length - o - 2) (x : K) s) =
        fun s => IsSeg (knotFn ((XRange.uniform a b).knots o (unk per N) per)) o (((XRange.uniform a b).knots o (unk per N) per).length - o - 2) x s := by
      funext s
      unfold IsSeg
      rw [hk, hk, Rat.cast_le, Rat.cast_lt]
    exact key _ _ this o
  unfold XRange.mat colRow
  rw [hn, hs, Rat.cast_sum]
  refine sum_congr rfl fun c _ => ?_
  split
  · exact piece_cast hk _ _ _ _
  · simp

/-- Uniform dimensions differ by an affine map. -/
theorem XRange.Valid.mat_rat {o N : ℕ} {per : Bool} {a b : K} (h : (XRange.uniform a b).Valid o N per) (r J : ℕ) :
    (XRange.uniform a b).mat o N per r J = (((XRange.uniform (0 : ℚ) ((N : ℚ) - 1)).mat o N per r J : ℚ) : K) := by
  have h2 := h.N_two
  have hN : (0 : K) < (N : K) - 1 := by
    have : (2 : K) ≤ N := by exact_mod_cast h2
    linarith
  have h0 : (XRange.uniform ((0 : ℚ) : K) (((N : ℚ) - 1 : ℚ) : K)).Valid o N per := by
    refine ⟨h.periodic, h.aperiodic, fun a' b' e => ?_, fun l e => by cases e⟩
    cases e
    push_cast
    exact hN
  rw [← mat_cast]
  refine congrFun (congrFun (h0.mat_affine h (β := a) h.step_pos fun i hi => ?_) r) J
  unfold XRange.node
  push_cast
  field_simp
  ring

end

/-- Periodic uniform dimension: rows of the exact matrix. -/
theorem mat_per {o N : ℕ} (h : (XRange.uniform (0 : ℚ) ((N : ℚ) - 1)).Valid o N true) {r J : ℕ} (hr : r < unk true N) :
    (XRange.uniform (0 : ℚ) ((N : ℚ) - 1)).mat o N true r J = perRow o (unk true N) 0 1 (nodeOfRow o true (unk true N) r) J := by
  have ax := h.pAxis
  have hlen := ax.len
  have hb := ax.big
  have hu : unk true N = N - 1 := rfl
  set i := nodeOfRow o true (unk true N) r with hi
  have hi' : i < unk true N := Nat.mod_lt _ (by omega)
  have h2 := h.periodic rfl
  have hN : ((N : ℚ) - 1) ≠ 0 := by
    have : (2 : ℚ) ≤ N := by exact_mod_cast (by omega : 2 ≤ N)
    linarith
  have hstep : ((N : ℚ) - 1 - 0) / ((N : ℚ) - 1) = 1 := by rw [sub_zero, div_self hN]
  have hnode : (XRange.uniform (0 : ℚ) ((N : ℚ) - 1)).node N i = 0 + i * 1 := by
    show (0 : ℚ) + (i : ℚ) * (((N : ℚ) - 1 - 0) / ((N : ℚ) - 1)) = _
    rw [hstep]
  have hseg : segAt o ((XRange.uniform (0 : ℚ) ((N : ℚ) - 1)).knots o (unk true N) true) ((XRange.uniform (0 : ℚ) ((N : ℚ) - 1)).node N i) = i + o := by
    have := ax.node i hi'
    exact h.kmono.segAt h.knots_length_le ⟨by omega, by omega, .inr this.1, .inr this.2⟩
  have hk : ∀ u, u < ((XRange.uniform (0 : ℚ) ((N : ℚ) - 1)).knots o (unk true N) true).length →
      knotFn ((XRange.uniform (0 : ℚ) ((N : ℚ) - 1)).knots o (unk true N) true) u = perKnot o 0 1 u := fun u hu' => by
    have e : ((unk true N : ℕ) : ℚ) = (N : ℚ) - 1 := by rw [hu, Nat.cast_sub (by omega)]; simp
    show knotFn (arr _ _) u = _
    rw [knotFn_arr _ (by omega), e, hstep]
    unfold uniformKnot perKnot perCoef
    push_cast; ring
  unfold XRange.mat
  rw [← hi, hseg, hnode]
  unfold colRow perRow
  rw [cyc_shift (fun m hm => by
    by_contra hc
    have := piece_support hc
    omega)]
  refine sum_congr rfl fun c hc => ?_
  rw [show i + o - o + c = i + c by omega]
  split
  · have hc' := mem_range.1 hc
    exact piece_congr_le (B := i + 2 * o + 1) (fun u hu' => hk u (by omega)) _ o _ (by omega) (.inl (by omega))
  · rfl

section
variable {K : Type} [Field K] [LinearOrder K] [IsStrictOrderedRing K] [FloorRing K]

/-- The matrix of order 1 is a permutation. -/
theorem XRange.Valid.mat_one {N : ℕ} {per : Bool} {x : XRange K} (h : x.Valid 1 N per) {r J : ℕ} (hr : r < unk per N) :
    x.mat 1 N per r J = if nodeOfRow 1 per (unk per N) r = J then 1 else 0 := by
  have hpos := h.unk_pos
  have hlen := h.knots_length
  set i := nodeOfRow 1 per (unk per N) r with hi
  have hi' : i < unk per N := Nat.mod_lt _ (by omega)
  set t := x.knots 1 (unk per N) per with ht
  have hu : unk per N ≤ N := by unfold unk; omega
  have hk : ∀ j, j < N → knotFn t (j + 1) = x.node N j := fun j hj => h.knot_one hj
  have h2 := h.N_two
  by_cases c : i + 1 < N
  · have hseg : segAt 1 t (x.node N i) = i + 1 := by
      refine h.kmono.segAt h.knots_length_le ⟨by omega, ?_, .inr (hk i (by omega)).le, .inr ?_⟩
      · rw [hlen]
        cases per
        · rw [if_neg (by simp), show unk false N = N from rfl]; omega
        · rw [if_pos rfl]; omega
      · rw [hk (i + 1) c]; exact h.node_lt (by omega) c
    have hlt := h.node_lt (i := i) (j := i + 1) (by omega) c
    unfold XRange.mat
    rw [← hi, ← ht, hseg]
    unfold colRow
    rw [sum_range_succ, sum_range_succ, sum_range_zero, zero_add]
    have e1 : piece (knotFn t) (i + 1) 1 (i + 1 - 1 + 0) (x.node N i) = 1 := by
      simp only [Nat.add_sub_cancel, Nat.add_zero, piece]
      rw [if_neg (by omega), if_pos trivial, hk i (by omega), show i + 2 = i + 1 + 1 by omega, hk (i + 1) c, mul_zero, zero_add, mul_one, div_self (by linarith)]
    have e2 : piece (knotFn t) (i + 1) 1 (i + 1 - 1 + 1) (x.node N i) = 0 := by
      simp only [Nat.add_sub_cancel, piece]
      rw [if_pos trivial, if_neg (by omega), hk i (by omega), sub_self, zero_div, zero_mul, mul_zero, add_zero]
    rw [e1, e2, ite_self, add_zero, Nat.add_sub_cancel, Nat.add_zero, Nat.mod_eq_of_lt hi']
  · have hper : per = false := by
      cases per with
      | false => rfl
      | true => rw [show unk true N = N - 1 from rfl] at hi'; omega
    subst hper
    have hN : unk false N = N := rfl
    rw [if_neg (by simp), hN] at hlen
    have hiN : i = N - 1 := by omega
    have hseg : segAt 1 t (x.node N i) = i := by
      refine h.kmono.segAt h.knots_length_le ⟨by omega, by rw [← ht, hlen]; omega, .inr ?_, .inl (by rw [← ht, hlen]; omega)⟩
      have := hk (i - 1) (by omega)
      rw [show i - 1 + 1 = i by omega] at this
      rw [← ht, this]
      exact (h.node_lt (by omega) (by omega)).le
    have hlt := h.node_lt (i := i - 1) (j := i) (by omega) (by omega)
    have hki := hk (i - 1) (by omega)
    rw [show i - 1 + 1 = i by omega] at hki
    unfold XRange.mat
    rw [← hi, ← ht, hseg]
    unfold colRow
    rw [sum_range_succ, sum_range_succ, sum_range_zero, zero_add]
    have e1 : piece (knotFn t) i 1 (i - 1 + 0) (x.node N i) = 0 := by
      simp only [Nat.add_zero, piece]
      rw [if_neg (by omega), if_pos (by omega), show i - 1 + 2 = i + 1 by omega, hk i (by omega), sub_self, zero_div, zero_mul, mul_zero, add_zero]
    have e2 : piece (knotFn t) i 1 (i - 1 + 1) (x.node N i) = 1 := by
      simp only [show i - 1 + 1 = i by omega, piece]
      rw [if_pos trivial, if_neg (by omega), Nat.add_zero, hk i (by omega), hki, mul_zero, add_zero, mul_one, div_self (by linarith)]
    rw [e1, e2, ite_self, zero_add, show i - 1 + 1 = i by omega, Nat.mod_eq_of_lt hi']

theorem XRange.Valid.inv_one {N : ℕ} {per : Bool} {x : XRange K} (h : x.Valid 1 N per) : RowsInv (unk per N) (x.mat 1 N per) 1 := by
  intro z M hM i hi
  have hpos := h.unk_pos
  have hr : (i + rowShift 1 per) % unk per N < unk per N := Nat.mod_lt _ hpos
  have := hM _ hr
  rw [sum_congr rfl fun J _ => by rw [h.mat_one hr, nodeOfRow_shift hi, ite_mul, one_mul, zero_mul]] at this
  rw [sum_ite_eq, if_pos (mem_range.2 hi)] at this
  rwa [one_mul]

/-- Uniform dimensions of low order. -/
theorem XRange.Valid.inv_uniform {o N : ℕ} {per : Bool} {a b : K} (h : (XRange.uniform a b).Valid o N per) (ho : 1 ≤ o ∧ o ≤ 3 ∨ per = true ∧ 1 ≤ o ∧ o ≤ 6) :
    RowsInv (unk per N) ((XRange.uniform a b).mat o N per) ((if o ≤ 3 then 10 else 50 : ℚ) : K) := by
  have h2 := h.N_two
  have hN : (0 : ℚ) < (N : ℚ) - 1 := by
    have : (2 : ℚ) ≤ N := by exact_mod_cast h2
    linarith
  have h0 : (XRange.uniform (0 : ℚ) ((N : ℚ) - 1)).Valid o N per :=
    ⟨h.periodic, h.aperiodic, fun a' b' e => by cases e; exact hN, fun l e => by cases e⟩
  suffices hs : RowsInv (unk per N) ((XRange.uniform (0 : ℚ) ((N : ℚ) - 1)).mat o N per) (if o ≤ 3 then 10 else 50) from
    (hs.cast (K := K)).congr fun i J _ _ => h.mat_rat i J
  cases per with
  | true =>
    have ho' : 1 ≤ o ∧ o ≤ 6 := by omega
    have hd := periodic_dom (o := o) (N := unk true N) (a := 0) (H := 1) (κ := 0) one_pos ho' h0.unk_pos (by norm_num)
    have := hd.inv le_rfl
    have e : (1 : ℚ) / domMargin o = if o ≤ 3 then 10 else 50 := by unfold domMargin; split <;> norm_num
    rw [e] at this
    exact this.congr fun i J hi _ => mat_per h0 hi
  | false =>
    have ho' : 1 ≤ o ∧ o ≤ 3 := by
      rcases ho with h | h
      · exact h
      · simp at h
    have hn := (h.aperiodic rfl).1
    obtain ⟨hv, -, -, -, -, hmat⟩ := uniform_exact (o := o) (n := N) (a := 0) (b := (N : ℚ) - 1) (H := 1) ho'.1 hn one_pos (by ring)
    have hd := uniform_dom (o := o) (n := N) (a := 0) (H := 1) (κ := 0) one_pos ho' hn (fun i hi => by
      obtain ⟨u1, u2⟩ := mat_unity ho'.1 hv hi
      rw [sum_congr rfl fun J hJ => hmat i J hi (mem_range.1 hJ)] at u2
      refine ⟨fun J => ?_, u2⟩
      by_cases hJ : J < N
      · rw [← hmat i J hi hJ]; exact u1 J hJ
      · refine le_of_eq (Eq.symm ?_)
        by_contra hc
        unfold exRow at hc
        have := piece_support hc
        have := uaKi_bounds hn i
        omega) (by norm_num)
    have := hd.inv le_rfl
    rw [if_pos ho'.2]
    norm_num at this
    exact this.congr fun i J hi hJ => hmat i J hi hJ

theorem XRange.Valid.lowInv {o N : ℕ} {per : Bool} {x : XRange K} (h : x.Valid o N per) (hl : x.Low o per) :
    RowsInv (unk per N) (x.mat o N per) (stab o : K) := by
  by_cases h1 : o = 1
  · subst h1
    have : ((stab 1 : ℚ) : K) = 1 := by unfold stab; simp
    rw [this]
    exact h.inv_one
  · obtain e | ⟨⟨a, b, rfl⟩, ho⟩ := hl
    · exact absurd e h1
    · have := h.inv_uniform (by
        rcases ho with h | h | ⟨h, h2⟩
        · left; omega
        · left; omega
        · right; exact ⟨h, by omega, h2.2⟩)
      unfold stab
      rwa [if_neg h1]

theorem stab_pos (o : ℕ) : 0 < stab o := by unfold stab; split_ifs <;> norm_num

end

end Intp
