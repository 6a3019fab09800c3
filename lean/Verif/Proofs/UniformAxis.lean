import Verif.Proofs.RoundUniform
import Verif.Proofs.InterpCore
import Verif.Proofs.Smooth

/-!
# The matrix of a uniform dimension in `double`

The computed rows are compared with the values of the basis functions of the exact knots at the exact data points.
-/

namespace Intp

open Finset BSpline

/-- Value of basis function `J` of the exact knots at the exact data point `i`. -/
def exRow (o n : ℕ) (a H : ℚ) (i J : ℕ) : ℚ := piece (exKnot o n a H) (uaKi o n i) o J (gridPt a H (2 * i))

/-- The row whose values are used for row `i`. -/
def uaIdx (o n i : ℕ) : ℕ := if 2 * o + 1 < uaKi o n i ∧ uaKi o n i < n - o - 1 then 2 * o + 1 - (o + 1) / 2 else i

/-- Number of values of row `i`. -/
def uaNum (o n i : ℕ) : ℕ := sNum o false true (decide (o / 2 < i ∧ i < n - (o / 2 + 1)))

section
variable {D : ℕ} {f : InterpFn D F64 F64} {d : Fin D} {o n : ℕ} {a b B H dx : ℚ} {T : List ℚ}

theorem uaKi_bounds (hn : o + 1 ≤ n) (i : ℕ) : o ≤ uaKi o n i ∧ uaKi o n i < n := by
  unfold uaKi; split <;> omega

theorem ua_grid (ho : 1 ≤ o) (hn : o + 1 ≤ n) {i : ℕ} (hi : i < n) :
    gridKnot o n (uaKi o n i) ≤ 2 * i ∧ 2 * i ≤ gridKnot o n (uaKi o n i + 1) ∧ (i + 1 < n → 2 * i < gridKnot o n (uaKi o n i + 1)) := by
  unfold gridKnot uaKi; split_ifs <;> omega

theorem uaNum_le (i : ℕ) : uaNum o n i ≤ o + 1 := by
  unfold uaNum sNum
  rw [or_one_eq]
  simp only [Bool.false_eq_true, if_false, Bool.true_and]
  split
  · omega
  · split <;> omega

/-- The values that are not written are those at the knot of the data point. -/
theorem uaNum_drop (ho : 1 ≤ o) (hn : o + 1 ≤ n) {i : ℕ} (h1 : 0 < i) (h2 : i + 1 < n) :
    o ≤ uaNum o n i ∧ (uaNum o n i ≠ o + 1 → gridKnot o n (uaKi o n i) = 2 * i) := by
  unfold uaNum sNum
  rw [or_one_eq]
  simp only [Bool.false_eq_true, if_false, Bool.true_and, decide_eq_true_eq]
  unfold gridKnot uaKi
  split_ifs <;> omega

theorem ua_band (ho : 1 ≤ o) (hn : o + 1 ≤ n) {i : ℕ} (h1 : 0 < i) (h2 : i + 1 < n) {j : ℕ} (hj : j < uaNum o n i) :
    InBand (bandWidth o false) (bandWidth o false) i (uaKi o n i - o + j) := by
  unfold uaNum sNum at hj
  rw [or_one_eq] at hj
  unfold uaKi InBand bandWidth
  simp only [Bool.false_eq_true, if_false, Bool.true_and, decide_eq_true_eq] at hj ⊢
  split <;> split <;> split at hj <;> (try split at hj) <;> omega

/-- Rows that are copied lie between rows with the same knots. -/
theorem uaIdx_spec (ho : 1 ≤ o) (hn : o + 1 ≤ n) {i : ℕ} (h1 : 0 < i) (h2 : i + 1 < n) :
    0 < uaIdx o n i ∧ uaIdx o n i + 1 < n ∧ uaIdx o n i ≤ i ∧ uaKi o n i = uaKi o n (uaIdx o n i) + (i - uaIdx o n i) ∧
      (uaIdx o n i = i ∨ (uaKi o n (uaIdx o n i) = 2 * o + 1 ∧ uaKi o n i + o + 1 < n)) := by
  unfold uaIdx
  by_cases h : 2 * o + 1 < uaKi o n i ∧ uaKi o n i < n - o - 1
  · rw [if_pos h]
    have e : uaKi o n i = i + (o + 1) / 2 := by
      unfold uaKi at h ⊢
      split at h
      · rename_i h3; rw [if_pos h3] at *; omega
      · omega
    have e0 : uaKi o n (2 * o + 1 - (o + 1) / 2) = 2 * o + 1 := by
      unfold uaKi; rw [if_pos (by omega)]; omega
    rw [e0]
    omega
  · rw [if_neg h]
    omega

theorem UniRat.exMono (h : UniRat f d o n a b B H dx T) {i j : ℕ} (hij : i ≤ j) : exKnot o n a H i ≤ exKnot o n a H j :=
  gridPt_le h.uin.pos.le (gridKnot_mono h.ho.1 h.hn hij)

theorem UniRat.exGap (h : UniRat f d o n a b B H dx T) {u : ℕ} (h1 : o ≤ u) (h2 : u < n) : exKnot o n a H u + H ≤ exKnot o n a H (u + 1) := by
  have := gridPt_gap (a := a) h.uin.pos.le (gridKnot_gap h.ho.1 h.hn h1 h2)
  unfold exKnot
  push_cast at this
  linarith

/-- The exact rows are values of a partition of unity. -/
theorem UniRat.exRow_unity (h : UniRat f d o n a b B H dx T) {i : ℕ} (hi : i < n) :
    (∀ J, 0 ≤ exRow o n a H i J) ∧ ∑ J ∈ range n, exRow o n a H i J = 1 := by
  obtain ⟨k1, k2⟩ := uaKi_bounds h.hn i
  obtain ⟨g1, g2, -⟩ := ua_grid h.ho.1 h.hn hi
  have hH := h.uin.pos
  have h3 : exKnot o n a H (uaKi o n i) ≤ gridPt a H (2 * i) := gridPt_le hH.le g1
  have h4 : gridPt a H (2 * i) ≤ exKnot o n a H (uaKi o n i + 1) := gridPt_le hH.le g2
  have h5 := h.exGap k1 k2
  have hnd : Nondeg (exKnot o n a H) (uaKi o n i) o := fun u v _ b1 b2 _ => by
    have := h.exMono b1
    have := h.exMono (show uaKi o n i + 1 ≤ v by omega)
    linarith
  unfold exRow
  refine ⟨fun J => piece_nonneg (p := o) (fun j _ c => (h.exMono c).trans h3) (fun j a' _ => h4.trans (h.exMono a')) o J le_rfl, ?_⟩
  rw [← sum_piece_eq_one (gridPt a H (2 * i)) o k1 hnd]
  refine (sum_subset (range_mono (by omega)) fun j _ hj => ?_).symm
  by_contra hne
  have := (piece_support hne).1
  have := (piece_support hne).2
  simp only [mem_range] at hj
  omega

/-- Basis functions of the computed knots near those of the exact knots. -/
theorem UniRat.piece_near (h : UniRat f d o n a b B H dx T) {r : ℚ} (hr : B ≤ r * H) {s : ℕ} (h1 : o ≤ s) (h2 : s < n) {x x' : ℚ}
    (hx : knotFn T s ≤ x ∧ x ≤ knotFn T (s + 1)) (hx' : exKnot o n a H s ≤ x' ∧ x' ≤ exKnot o n a H (s + 1)) (hxx : |x - x'| ≤ 8 * B / 2 ^ 53) :
    ∑ J ∈ range n, |piece (knotFn T) s o J x - piece (exKnot o n a H) s o J x'| ≤ 32 * o * r / 2 ^ 53 := by
  have hH := h.uin.pos
  have hgap := h.gap h1 h2
  refine (Intp.piece_near (t := knotFn T) (t' := exKnot o n a H) (δ := 8 * B / 2 ^ 53) (g := H) h1 (fun i j _ hij hj => h.mono hij (by omega))
    (fun i j _ hij _ => h.exMono hij) h.ho.1 hx hx' (by linarith) hH (by have := h.exGap h1 h2; linarith) (fun i _ hi => h.near (by omega)) hxx h2).trans ?_
  have e : (o : ℚ) * (4 * (8 * B / 2 ^ 53) / H) = 32 * o * (B / H) / 2 ^ 53 := by ring
  rw [e]
  have : B / H ≤ r := (div_le_iff₀ hH).2 hr
  have ho0 : (0 : ℚ) ≤ 32 * o := by positivity
  exact div_le_div_of_nonneg_right (mul_le_mul_of_nonneg_left this ho0) (by positivity)

/-- The computed data points. -/
theorem UniRat.node (h : UniRat f d o n a b B H dx T) {i : ℕ} (hi : i < n) :
    ∃ q, (F64.fin a + CoordArith.ofNat i * F64.fin dx : F64) = .fin q ∧ IsDouble q ∧ |q - gridPt a H (2 * i)| ≤ 8 * B / 2 ^ 53 ∧
      (0 < i → i + 1 < n → knotFn T (uaKi o n i) ≤ q ∧ q ≤ knotFn T (uaKi o n i + 1)) := by
  have h49 := h.uin.big
  have hH := h.uin.pos
  obtain ⟨q, q1, q2, q3⟩ := h.uin.point h.near_dx (p := 2 * i) (by omega)
  have e : (((2 * i : ℕ) : ℚ)) / 2 = i := by push_cast; ring
  rw [e] at q1
  refine ⟨q, by rw [fl_ofNat (by omega)]; exact q1, q2, q3, fun i0 i1 => ?_⟩
  obtain ⟨k1, k2⟩ := uaKi_bounds h.hn i
  obtain ⟨g1, -, g2⟩ := ua_grid h.ho.1 h.hn hi
  have g2 := g2 i1
  have n1 := abs_le.1 (h.near (u := uaKi o n i) (by omega))
  have n2 := abs_le.1 (h.near (u := uaKi o n i + 1) (by omega))
  have hd := h.delta
  have q3' := abs_le.1 q3
  refine ⟨?_, ?_⟩
  · rcases g1.eq_or_lt with g1 | g1
    · have hk : o < uaKi o n i := by
        by_contra hc
        have : uaKi o n i = o := by omega
        rw [this] at g1
        unfold gridKnot at g1
        rw [if_pos le_rfl] at g1
        omega
      have := h.mid _ hk k2
      unfold gridKnot at g1
      rw [if_neg (by omega), if_pos k2] at g1
      rw [g1, e, q1] at this
      exact (F64.fin.inj this).ge
    · have := gridPt_gap (a := a) hH.le (show gridKnot o n (uaKi o n i) + 1 ≤ 2 * i by omega)
      unfold exKnot at n1
      push_cast at this
      linarith
  · have := gridPt_gap (a := a) hH.le (show 2 * i + 1 ≤ gridKnot o n (uaKi o n i + 1) by omega)
    unfold exKnot at n2
    push_cast at this
    linarith

/-- `knot_ind` and values of a row. -/
theorem Fl.rowData_uniform {l : List F64} {i : ℕ} {X : ℚ} {v vals : List F64} (ho : f.spline.order = o) (hp : f.periodicity d = false)
    (hu : f.uniform d = true) (hn : o + 1 ≤ n) (hlen : (f.spline.knots d).length = n + o + 1) (hlo : (f.range d).1 = .fin a) (hdx : f.dx d = .fin dx)
    (hX : (F64.fin a + CoordArith.ofNat i * F64.fin dx : F64) = .fin X)
    (hv : ¬ (2 * o + 1 < uaKi o n i ∧ uaKi o n i < n - o - 1) → Fl.baseSplineValue o (f.spline.knots d) (uaKi o n i) (.fin X) o = .ok v)
    (hvals : 2 * o + 1 < uaKi o n i ∧ uaKi o n i < n - o - 1 → vals = v) : Fl.rowData f l d i vals = .ok (uaKi o n i, v) := by
  obtain ⟨k1, k2⟩ := uaKi_bounds hn i
  unfold Fl.rowData
  rw [if_pos hu]
  unfold knotIndUniform
  rw [hp, if_neg (by simp), ho, hlen, subM_ok (by omega), ok_bind, pure_bind,
    show min (n + o + 1 - (o + 2)) (if i > o / 2 then i + (o + 1) / 2 else o) = uaKi o n i by unfold uaKi; congr 1; omega]
  have hba : ¬ (2 * o + 1 < uaKi o n i ∧ uaKi o n i < n - o - 1) →
      Fl.baseAt f.spline d (uaKi o n i) (.fin X) = .ok v := fun h => by
    unfold Fl.baseAt
    rw [hlen, ho, itAdd_ok (r := uaKi o n i) (by omega) (by omega), ok_bind]
    exact hv h
  have key : Fl.uniformBase f d i (uaKi o n i) vals = .ok v := by
    unfold Fl.uniformBase
    rw [hp, if_neg (by simp), ho, hlo, hdx, hX]
    by_cases c1 : uaKi o n i ≤ 2 * o + 1
    · rw [if_pos c1]; exact hba (by omega)
    · rw [if_neg c1]
      by_cases c0 : 2 * o + 2 ≤ n + o + 1
      · rw [hlen, subM_ok c0, ok_bind]
        by_cases c2 : uaKi o n i ≥ n + o + 1 - (2 * o + 2)
        · rw [if_pos c2]; exact hba (by omega)
        · rw [if_neg c2, hvals (by omega)]; rfl
      · omega
  rw [key, ok_bind]
  rfl

/-- One computed row near the exact row. -/
theorem UniRat.row_near (h : UniRat f d o n a b B H dx T) {r : ℚ} (hr : B ≤ r * H) {i : ℕ} (h0 : 0 < i) (h1 : i + 1 < n) {X : ℚ} (hX : IsDouble X)
    (hXn : |X - gridPt a H (2 * i)| ≤ 8 * B / 2 ^ 53) (hXs : knotFn T (uaKi o n i) ≤ X ∧ X ≤ knotFn T (uaKi o n i + 1)) :
    ∃ v : List ℚ, Fl.baseSplineValue o (T.map F64.fin) (uaKi o n i) (.fin X) o = .ok (v.map F64.fin) ∧ v.length = o + 1 ∧
      ∑ j ∈ range (o + 1), |v.getD j 0 - exRow o n a H i (uaKi o n i - o + j)| ≤ (7 * o + 32 * o * r) / 2 ^ 53 := by
  obtain ⟨k1, k2⟩ := uaKi_bounds h.hn i
  obtain ⟨g1, g2, -⟩ := ua_grid h.ho.1 h.hn (show i < n by omega)
  have hH := h.uin.pos
  have hlen := h.len
  have hgap := h.gap k1 k2
  set k := uaKi o n i with hk
  obtain ⟨v, v1, v2, v3⟩ := double_basis T le_rfl h.ho.2 k1 (by omega) (fun v hv => ⟨h.dbl v hv, (h.knot_le hv).trans h.uin.hB⟩) hX h.kmono hXs.1 hXs.2 (by
    have h3 := h.uin.least
    have h4 : (1 : ℚ) / 2 ^ 900 ≤ 7 / 8 * (1 / 2 ^ 800) := by decide +kernel
    generalize (1 : ℚ) / 2 ^ 900 = z at *
    generalize (1 : ℚ) / 2 ^ 800 = z' at *
    linarith)
  refine ⟨v, v1, v2, ?_⟩
  obtain ⟨p0, p1⟩ := piece_unity (x := X) h.kmono (by rw [hlen]) k1 k2 hXs.1 hXs.2 (by linarith)
  have hre : ∀ F : ℕ → ℚ, ∑ j ∈ range (o + 1), F (k - o + j) = ∑ J ∈ Finset.Ico (k - o) (k + 1), F J := fun F => by
    rw [sum_Ico_eq_sum_range, show k + 1 - (k - o) = o + 1 by omega]
  have hle : ∀ F : ℕ → ℚ, (∀ J, 0 ≤ F J) → ∑ j ∈ range (o + 1), F (k - o + j) ≤ ∑ J ∈ range n, F J := fun F hF => by
    rw [hre]
    exact sum_le_sum_of_subset_of_nonneg (fun J hJ => by rw [Finset.mem_Ico] at hJ; rw [mem_range]; omega) fun J _ _ => hF J
  have e1 : ∑ j ∈ range (o + 1), |v.getD j 0 - piece (knotFn T) k o (k - o + j) X| ≤ 7 * o / 2 ^ 53 := by
    refine (sum_le_sum fun j hj => (v3 j (by rw [mem_range] at hj; omega)).2).trans ?_
    rw [sum_add_distrib, ← mul_sum, sum_const, card_range, nsmul_eq_mul]
    have h3 := hle (fun J => piece (knotFn T) k o J X) p0
    rw [p1] at h3
    have h4 : (6 : ℚ) * o / 2 ^ 53 * ∑ j ∈ range (o + 1), piece (knotFn T) k o (k - o + j) X ≤ 6 * o / 2 ^ 53 * 1 := mul_le_mul_of_nonneg_left h3 (by positivity)
    have h5 : (1 : ℚ) ≤ o := by exact_mod_cast h.ho.1
    push_cast
    linarith
  have e2 : ∑ j ∈ range (o + 1), |piece (knotFn T) k o (k - o + j) X - exRow o n a H i (k - o + j)| ≤ 32 * o * r / 2 ^ 53 := by
    refine (hle (fun J => |piece (knotFn T) k o J X - exRow o n a H i J|) fun J => abs_nonneg _).trans ?_
    exact h.piece_near hr k1 k2 hXs ⟨gridPt_le hH.le g1, gridPt_le hH.le g2⟩ hXn
  calc _ ≤ ∑ j ∈ range (o + 1), (|v.getD j 0 - piece (knotFn T) k o (k - o + j) X| + |piece (knotFn T) k o (k - o + j) X - exRow o n a H i (k - o + j)|) :=
        sum_le_sum fun j _ => abs_sub_le _ _ _
    _ ≤ 7 * o / 2 ^ 53 + 32 * o * r / 2 ^ 53 := by rw [sum_add_distrib]; exact add_le_add e1 e2
    _ = _ := by ring

/-- Rows between the ends are shifted copies of each other. -/
theorem exRow_shift (ho : 1 ≤ o) (hn : o + 1 ≤ n) {i : ℕ} (h0 : 0 < i) (h1 : i + 1 < n) {j : ℕ} (hj : j ≤ o) :
    exRow o n a H i (uaKi o n i - o + j) = exRow o n a H (uaIdx o n i) (uaKi o n (uaIdx o n i) - o + j) := by
  obtain ⟨s1, s2, s3, s4, s5⟩ := uaIdx_spec ho hn h0 h1
  rcases s5 with s5 | ⟨s5, s6⟩
  · rw [s5]
  set m := i - uaIdx o n i with hm
  have e1 : gridPt a H (2 * i) = gridPt a H (2 * uaIdx o n i) + m * H := by
    unfold gridPt
    have : (i : ℚ) = uaIdx o n i + m := by exact_mod_cast (by omega : i = uaIdx o n i + m)
    push_cast
    rw [this]; ring
  unfold exRow
  rw [e1, s4, show uaKi o n (uaIdx o n i) + m - o + j = uaKi o n (uaIdx o n i) - o + j + m by omega]
  refine piece_shift (p := o) (by omega) (fun u h2 h3 => ?_) _ o _ le_rfl
  unfold exKnot gridKnot
  rw [if_neg (by omega), if_pos (by omega), if_neg (by omega), if_pos (by omega)]
  unfold gridPt
  rw [show 2 * (u + m) - (o + 1) = 2 * u - (o + 1) + 2 * m by omega]
  push_cast
  ring

/-- The assembled matrix of a uniform dimension. -/
theorem UniRat.rows (h : UniRat f d o n a b B H dx T) (ho : f.spline.order = o) (hp : f.periodicity d = false) (hu : f.uniform d = true) {r : ℚ}
    (hr : B ≤ r * H) :
    ∃ A : ℕ → ℕ → F64, (∀ i J, ∃ q, A i J = .fin q) ∧
      (∀ w c l vals, Ok (Fl.assemble w c f l d n vals) fun m => ∃ bm, m = .band bm ∧ bm.Rep n (o - 1) (o - 1) A) ∧
      ∀ i, i < n → ∑ J ∈ range n, |Fl.entries F64.toRat (InBand (o - 1) (o - 1)) A i J - exRow o n a H i J| ≤ (7 * o + 32 * o * r) / 2 ^ 53 := by
  have ho1 := h.ho.1
  have hn := h.hn
  have hH := h.uin.pos
  choose! X x1 x2 x3 x4 using fun i (hi : i < n) => h.node hi
  have hrow : ∀ i, 0 < i → i + 1 < n → ∃ v : List ℚ, Fl.baseSplineValue o (T.map F64.fin) (uaKi o n i) (.fin (X i)) o = .ok (v.map F64.fin) ∧ v.length = o + 1 ∧
      ∑ j ∈ range (o + 1), |v.getD j 0 - exRow o n a H i (uaKi o n i - o + j)| ≤ (7 * o + 32 * o * r) / 2 ^ 53 := fun i h0 h1 =>
    h.row_near hr h0 h1 (x2 i (by omega)) (x3 i (by omega)) (x4 i (by omega) h0 h1)
  choose! v v1 v2 v3 using hrow
  have hlen : (f.spline.knots d).length = n + o + 1 := by rw [h.knots, List.length_map, h.len]
  refine ⟨Fl.rowMat o n (uaNum o n) (uaKi o n) fun i => (v (uaIdx o n i)).map F64.fin, fun i J => ?_, fun w c l vals => ?_, fun i hi => ?_⟩
  · unfold Fl.rowMat
    split
    · split
      · exact ⟨1, rfl⟩
      · exact ⟨0, rfl⟩
    · split
      · exact ⟨_, getD_map_fin _ _⟩
      · exact ⟨0, rfl⟩
  · have := Fl.assemble_rows (w := w) (c := c) (f := f) (coords := l) (d := d) (o := o) (n := n) (vals := vals) (sn := uaNum o n) (ki := uaKi o n)
      (v := fun i => (v (uaIdx o n i)).map F64.fin) ho hp (by omega) (fun i _ _ => by rw [hu]; rfl) (fun i h0 h1 vals hv => ?_) (fun i h0 h1 => ?_)
      (fun i _ _ => uaNum_le i) (fun i _ _ => uaKi_bounds hn i) fun i h0 h1 j hj => ua_band ho1 hn h0 h1 hj
    · rw [bandWidth_false ho1] at this
      exact this
    · refine Fl.rowData_uniform ho hp hu hn hlen h.lo h.step (x1 i (by omega)) (fun hc => ?_) fun hc => ?_
      · have : uaIdx o n i = i := by unfold uaIdx; rw [if_neg hc]
        rw [this, h.knots]
        exact v1 i h0 h1
      · have hi1 : uaIdx o n (i - 1) = uaIdx o n i := by
          have e : uaKi o n i = i + (o + 1) / 2 := by
            obtain ⟨c1, c2⟩ := hc
            unfold uaKi at c1 c2 ⊢
            split at c1
            · rename_i h3; rw [if_pos h3] at *; omega
            · omega
          have e' : uaKi o n (i - 1) = i - 1 + (o + 1) / 2 := by
            unfold uaKi; rw [if_pos (by omega)]; omega
          unfold uaIdx
          rw [if_pos hc]
          by_cases h3 : 2 * o + 1 < uaKi o n (i - 1) ∧ uaKi o n (i - 1) < n - o - 1
          · rw [if_pos h3]
          · rw [if_neg h3]; omega
        have hlt : 1 < i := by
          by_contra hc'
          obtain rfl : i = 1 := by omega
          unfold uaKi at hc
          split at hc <;> omega
        rw [hv hlt, hi1]
    · obtain ⟨s1, s2, -⟩ := uaIdx_spec ho1 hn h0 h1
      rw [List.length_map]
      exact v2 _ s1 s2
  · have hz : (0 : F64).toRat = 0 := rfl
    have h1z : (1 : F64).toRat = 1 := rfl
    have hκ : 0 ≤ (7 * o + 32 * o * r) / 2 ^ 53 := by
      have : 0 ≤ r := by
        have := h.uin.B0
        by_contra hc
        nlinarith
      positivity
    obtain ⟨k1, k2⟩ := uaKi_bounds hn i
    by_cases hend : i = 0 ∨ i + 1 = n
    · have e : ∀ J ∈ range n, |Fl.entries F64.toRat (InBand (o - 1) (o - 1))
          (Fl.rowMat o n (uaNum o n) (uaKi o n) fun i => (v (uaIdx o n i)).map F64.fin) i J - exRow o n a H i J| = 0 := by
        intro J hJ
        rw [mem_range] at hJ
        have e1 : Fl.entries F64.toRat (InBand (o - 1) (o - 1)) (Fl.rowMat o n (uaNum o n) (uaKi o n) fun i => (v (uaIdx o n i)).map F64.fin) i J =
            if J = i then 1 else 0 := by
          unfold Fl.entries Fl.rowMat
          simp only [if_pos hend]
          by_cases hJi : J = i
          · subst hJi
            rw [if_pos rfl, if_pos rfl, if_pos (by unfold InBand; omega), h1z]
          · rw [if_neg hJi, if_neg hJi, hz, ite_self]
        have e2 : exRow o n a H i J = if J = i then 1 else 0 := by
          unfold exRow
          rcases hend with rfl | hend
          · have hk : uaKi o n 0 = o := by unfold uaKi; rw [if_neg (by omega)]; omega
            rw [hk]
            have hg := h.exGap (u := o) le_rfl (by omega)
            have hl : ∀ j, j ≤ o → exKnot o n a H j = gridPt a H (2 * 0) := fun j hj => by unfold exKnot gridKnot; rw [if_pos hj]
            rw [piece_clamp_left (s := o) (p := o) le_rfl (fun j hj => hl _ (by omega)) (by rw [← hl o le_rfl]; linarith) o J le_rfl]
            exact if_congr (by omega) rfl rfl
          · obtain rfl : i = n - 1 := by omega
            have hk : uaKi o n (n - 1) = n - 1 := by unfold uaKi; split <;> omega
            rw [hk]
            have hg := h.exGap (u := n - 1) (by omega) (by omega)
            have hl : ∀ j, n ≤ j → exKnot o n a H j = gridPt a H (2 * (n - 1)) := fun j hj => by
              unfold exKnot gridKnot; rw [if_neg (by omega), if_neg (by omega)]
            rw [piece_clamp_right (s := n - 1) (p := o) (fun j h1 h2 => hl _ (by omega)) (by rw [← hl (n - 1 + 1) (by omega)]; linarith) o J le_rfl]
        rw [e1, e2, sub_self, abs_zero]
      rw [sum_eq_zero e]
      exact hκ
    · have h0 : 0 < i := by omega
      have h1 : i + 1 < n := by omega
      obtain ⟨s1, s2, s3, s4, -⟩ := uaIdx_spec ho1 hn h0 h1
      obtain ⟨d1, d2⟩ := uaNum_drop ho1 hn h0 h1
      have key : ∀ J ∈ range n, |Fl.entries F64.toRat (InBand (o - 1) (o - 1))
          (Fl.rowMat o n (uaNum o n) (uaKi o n) fun i => (v (uaIdx o n i)).map F64.fin) i J - exRow o n a H i J| ≤
          if J ∈ Finset.Ico (uaKi o n i - o) (uaKi o n i + 1) then |(v (uaIdx o n i)).getD (J - (uaKi o n i - o)) 0 - exRow o n a H i J| else 0 := by
        intro J hJ
        rw [mem_range] at hJ
        have e0 : Fl.rowMat o n (uaNum o n) (uaKi o n) (fun i => (v (uaIdx o n i)).map F64.fin) i J =
            if uaKi o n i - o ≤ J ∧ J < uaKi o n i - o + uaNum o n i then ((v (uaIdx o n i)).map F64.fin).getD (J - (uaKi o n i - o)) 0 else 0 := by
          unfold Fl.rowMat; rw [if_neg hend]
        have hle := uaNum_le (o := o) (n := n) i
        by_cases hJ1 : uaKi o n i - o ≤ J ∧ J < uaKi o n i - o + uaNum o n i
        · have hin := ua_band ho1 hn h0 h1 (j := J - (uaKi o n i - o)) (by omega)
          rw [bandWidth_false ho1, show uaKi o n i - o + (J - (uaKi o n i - o)) = J by omega] at hin
          have e1 : Fl.entries F64.toRat (InBand (o - 1) (o - 1)) (Fl.rowMat o n (uaNum o n) (uaKi o n) fun i => (v (uaIdx o n i)).map F64.fin) i J =
              (v (uaIdx o n i)).getD (J - (uaKi o n i - o)) 0 := by
            rw [Fl.entries_pos hin, e0, if_pos hJ1, List.getD_eq_getElem?_getD, List.getD_eq_getElem?_getD, List.getElem?_map,
              List.getElem?_eq_getElem (by rw [v2 _ s1 s2]; omega)]
            rfl
          rw [e1, if_pos (by rw [Finset.mem_Ico]; omega)]
        · have e1 : Fl.entries F64.toRat (InBand (o - 1) (o - 1)) (Fl.rowMat o n (uaNum o n) (uaKi o n) fun i => (v (uaIdx o n i)).map F64.fin) i J = 0 := by
            unfold Fl.entries
            rw [e0, if_neg hJ1, hz, ite_self]
          have e2 : exRow o n a H i J = 0 := by
            unfold exRow
            by_cases hlt : J + o < uaKi o n i
            · exact piece_zero_of_gt _ _ _ _ _ hlt
            by_cases hgt : uaKi o n i < J
            · exact piece_zero_of_lt _ _ _ _ _ hgt
            obtain rfl : J = uaKi o n i := by omega
            refine piece_top_zero ho1 ?_
            unfold exKnot
            rw [d2 (by omega)]
          rw [e1, e2, sub_self, abs_zero]
          split
          · exact abs_nonneg _
          · exact le_rfl
      refine (sum_le_sum key).trans ?_
      rw [← sum_filter]
      have hset : (range n).filter (fun J => J ∈ Finset.Ico (uaKi o n i - o) (uaKi o n i + 1)) = Finset.Ico (uaKi o n i - o) (uaKi o n i + 1) := by
        ext J
        simp only [mem_filter, mem_range, Finset.mem_Ico]
        omega
      rw [hset, sum_Ico_eq_sum_range, show uaKi o n i + 1 - (uaKi o n i - o) = o + 1 by omega]
      refine le_trans (le_of_eq (sum_congr rfl fun j hj => ?_)) (v3 _ s1 s2)
      rw [mem_range] at hj
      rw [Nat.add_sub_cancel_left, exRow_shift ho1 hn h0 h1 (by omega)]

/-- The segment of a coordinate near a data point, and the values of the basis functions there. -/
theorem UniRat.query (h : UniRat f d o n a b B H dx T) {r : ℚ} (hr : B ≤ r * H) {i : ℕ} (hi : i < n) {x : ℚ} (hx : a ≤ x ∧ x ≤ b)
    (hxn : |x - gridPt a H (2 * i)| ≤ 8 * B / 2 ^ 53) :
    ∃ s, IsSeg (knotFn T) o (n - 1) x s ∧ o ≤ s ∧ s < n ∧ knotFn T s ≤ x ∧ x ≤ knotFn T (s + 1) ∧
      ∑ J ∈ range n, |piece (knotFn T) s o J x - exRow o n a H i J| ≤ 32 * o * r / 2 ^ 53 := by
  have hn := h.hn
  have ho1 := h.ho.1
  have hH := h.uin.pos
  obtain ⟨k1, k2⟩ := uaKi_bounds hn i
  obtain ⟨g1, g2, g3⟩ := ua_grid ho1 hn hi
  have n1 := abs_le.1 (h.near (u := uaKi o n i) (by omega))
  have n2 := abs_le.1 (h.near (u := uaKi o n i + 1) (by omega))
  have hd := h.delta
  have q := abs_le.1 hxn
  have e1 : exKnot o n a H (uaKi o n i) ≤ gridPt a H (2 * i) := gridPt_le hH.le g1
  have e2 : gridPt a H (2 * i) ≤ exKnot o n a H (uaKi o n i + 1) := gridPt_le hH.le g2
  -- the right end of the segment
  have hright : x ≤ knotFn T (uaKi o n i + 1) ∧ (uaKi o n i = n - 1 ∨ x < knotFn T (uaKi o n i + 1)) := by
    by_cases hk : uaKi o n i = n - 1
    · exact ⟨by rw [h.right _ (by omega) (by omega)]; exact hx.2, .inl hk⟩
    · have hi1 : i + 1 < n := by
        by_contra hc
        apply hk
        unfold uaKi; split <;> omega
      have := gridPt_gap (a := a) hH.le (show 2 * i + 1 ≤ gridKnot o n (uaKi o n i + 1) by have := g3 hi1; omega)
      unfold exKnot at n2
      push_cast at this
      have : x < knotFn T (uaKi o n i + 1) := by linarith
      exact ⟨this.le, .inr this⟩
  by_cases hl : knotFn T (uaKi o n i) ≤ x
  · exact ⟨uaKi o n i, ⟨k1, by omega, .inr hl, hright.2⟩, k1, k2, hl, hright.1, h.piece_near hr k1 k2 ⟨hl, hright.1⟩ ⟨e1, e2⟩ hxn⟩
  · have hl := not_le.1 hl
    have hko : o < uaKi o n i := by
      by_contra hc
      rw [show uaKi o n i = o by omega, h.left o le_rfl] at hl
      linarith [hx.1]
    obtain ⟨s, hs⟩ : ∃ s, uaKi o n i = s + 1 := ⟨uaKi o n i - 1, by omega⟩
    have eq : exKnot o n a H (uaKi o n i) = gridPt a H (2 * i) := by
      rcases g1.eq_or_lt with g | g
      · unfold exKnot; rw [g]
      · exfalso
        have := gridPt_gap (a := a) hH.le (show gridKnot o n (uaKi o n i) + 1 ≤ 2 * i by omega)
        unfold exKnot at n1
        push_cast at this
        linarith
    have hg1 := h.exGap (u := s) (by omega) (by omega)
    have hg2 := h.exGap k1 k2
    have n3 := abs_le.1 (h.near (u := s) (by omega))
    rw [hs] at eq hl hg2
    have hsx : knotFn T s ≤ x := by linarith
    have hp := h.piece_near hr (s := s) (by omega) (by omega) ⟨hsx, hl.le⟩ ⟨by linarith, eq.ge⟩ hxn
    refine ⟨s, ⟨by omega, by omega, .inr hsx, .inr hl⟩, by omega, by omega, hsx, hl.le, le_trans (le_of_eq (sum_congr rfl fun J _ => ?_)) hp⟩
    unfold exRow
    rw [hs, ← eq, piece_knot_eq (r := s) (m := 1) (by linarith) (by linarith) (fun j j1 j2 => by rw [show j = s + 1 by omega]) o J ho1]

/-- `operator()` computes a hint for every coordinate of the range. -/
theorem UniRat.hint (h : UniRat f d o n a b B H dx T) (ho : f.spline.order = o) (hp : f.periodicity d = false) (hu : f.uniform d = true) {x : ℚ}
    (hxd : IsDouble x) (hx : a ≤ x ∧ x ≤ b) : ∃ k, Fl.hint f d (.fin x) = .ok k := by
  have hn := h.hn
  have ho50 := h.ho.2
  have hH := h.uin.pos
  have hn1 := h.uin.n1
  have hbB : b - a ≤ 2 * B := by have := abs_le.1 h.uin.ha; have := abs_le.1 h.uin.hb; linarith
  have hbig : b - a ≤ 2 ^ 1001 := by
    have := h.uin.hB
    rw [pow_succ]
    generalize (2 : ℚ) ^ 1000 = z at *
    linarith
  have h1023 : (2 : ℚ) ^ 1001 ≤ 2 ^ 1023 := by decide +kernel
  obtain ⟨r1, e1, -, e3, -⟩ := fl_sub hxd h.uin.da (by
    rw [abs_of_nonneg (by linarith)]
    generalize (2 : ℚ) ^ 1001 = z at *
    generalize (2 : ℚ) ^ 1023 = z' at *
    linarith)
  rw [abs_of_nonneg (show 0 ≤ x - a by linarith)] at e3
  have hstep := h.uin.step
  have hdx := abs_le.1 h.near_dx
  have hdx0 : H / 2 ≤ dx := by
    have : (9 : ℚ) / 4 / 2 ^ 53 * H ≤ H / 2 := by
      rw [show (9 : ℚ) / 4 / 2 ^ 53 * H = 9 / 4 / 2 ^ 53 * H from rfl]
      have : (9 : ℚ) / 4 / 2 ^ 53 ≤ 1 / 2 := by norm_num
      nlinarith
    linarith
  have hr1 : |r1| ≤ 2 * (H * (n - 1)) := by
    have := abs_add_le (r1 - (x - a)) (x - a)
    rw [sub_add_cancel, abs_of_nonneg (show 0 ≤ x - a by linarith)] at this
    have : (x - a) / 2 ^ 53 ≤ x - a := div_le_self (by linarith) (by norm_num)
    linarith
  have hn49 : ((n : ℚ) - 1) ≤ 2 ^ 49 := by
    have : (n : ℚ) ≤ 2 ^ 49 := by exact_mod_cast h.uin.big
    linarith
  have hq : |r1 / dx| ≤ 2 ^ 51 := by
    rw [abs_div, abs_of_pos (show 0 < dx by linarith), div_le_iff₀ (by linarith)]
    refine hr1.trans ?_
    have := mul_le_mul_of_nonneg_left hn49 hH.le
    nlinarith
  have hs : (2 : ℚ) ^ 51 ≤ 2 ^ 1023 := by decide +kernel
  obtain ⟨r, f1, f2, f3⟩ := fl_div (a := r1) (b := dx) (by linarith) (hq.trans hs)
  have hr : |r| ≤ 2 ^ 52 := by
    have := abs_add_le (r - r1 / dx) (r1 / dx)
    rw [sub_add_cancel] at this
    have h1 : |r1 / dx| / 2 ^ 53 ≤ |r1 / dx| / 8 := div_le_div_of_nonneg_left (abs_nonneg _) (by norm_num) (by norm_num)
    have h2 : (1 : ℚ) / 2 ^ 1074 ≤ 1 := by decide +kernel
    generalize (1 : ℚ) / 2 ^ 1074 = z at *
    linarith
  have hhalf : (CoordArith.half * CoordArith.ofNat (o + 1) : F64) = .fin (((o + 1 : ℕ) : ℚ) / 2) := by
    rw [fl_ofNat (by omega), show (CoordArith.half : F64) = .fin (1 / 2) from rfl, F64.mul_fin,
      show (1 : ℚ) / 2 * ((o + 1 : ℕ) : ℚ) = (((o + 1 : ℕ) : ℤ) : ℚ) / 2 by push_cast; ring, round_half (by rw [Nat.abs_cast]; exact_mod_cast (by omega : o + 1 < 2 ^ 53))]
    push_cast; rfl
  have hdh : IsDouble (((o + 1 : ℕ) : ℚ) / 2) := by
    have := round_half (p := ((o + 1 : ℕ) : ℤ)) (by rw [Nat.abs_cast]; exact_mod_cast (by omega : o + 1 < 2 ^ 53))
    have := isDouble_of_round this
    rwa [Int.cast_natCast] at this
  have hob : (((o + 1 : ℕ) : ℚ) / 2) ≤ 51 ∧ 0 ≤ (((o + 1 : ℕ) : ℚ) / 2) := by
    have : ((o + 1 : ℕ) : ℚ) ≤ 51 := by exact_mod_cast (by omega : o + 1 ≤ 51)
    have : (0 : ℚ) ≤ ((o + 1 : ℕ) : ℚ) := Nat.cast_nonneg _
    constructor <;> linarith
  have hsub : |r - (((o + 1 : ℕ) : ℚ) / 2)| ≤ 2 ^ 53 := by
    have := abs_le.1 hr
    rw [abs_le]; constructor <;> linarith [hob.1, hob.2]
  have hs3 : (2 : ℚ) ^ 53 ≤ 2 ^ 1023 := by decide +kernel
  obtain ⟨u, u1, -, u3, -⟩ := fl_sub f2 hdh (hsub.trans hs3)
  have hu1 : |u| ≤ 2 ^ 54 := by
    have := abs_add_le (u - (r - (((o + 1 : ℕ) : ℚ) / 2))) (r - (((o + 1 : ℕ) : ℚ) / 2))
    rw [sub_add_cancel] at this
    have : |r - (((o + 1 : ℕ) : ℚ) / 2)| / 2 ^ 53 ≤ |r - (((o + 1 : ℕ) : ℚ) / 2)| := div_le_self (abs_nonneg _) (by norm_num)
    linarith
  obtain ⟨q, q1, q2, q3⟩ : ∃ q, Fl.maxZero (F64.fin u) = .fin q ∧ 0 ≤ q ∧ q ≤ 2 ^ 54 := by
    unfold Fl.maxZero
    split
    · rename_i hlt
      exact ⟨u, rfl, (of_decide_eq_true hlt : (0 : ℚ) < u).le, (abs_le.1 hu1).2⟩
    · exact ⟨0, rfl, le_rfl, by norm_num⟩
  unfold Fl.hint
  have hlen : (f.spline.knots d).length = n + o + 1 := by rw [h.knots, List.length_map, h.len]
  rw [if_pos hu, hlen, ho, subM_ok (by omega), ok_bind, h.lo, h.step, e1, f1, ok_bind, hp, if_neg (by simp), hhalf, u1, q1, double_ceil, if_pos ⟨by linarith, by linarith⟩]
  exact ⟨_, rfl⟩

end

end Intp
