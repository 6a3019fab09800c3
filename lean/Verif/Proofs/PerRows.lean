import Verif.Proofs.PerKnots
import Verif.Proofs.PerAssemble

/-!
# Matrix and queries of a periodic uniform dimension in `double`
-/

namespace Intp

open Finset BSpline

/-- Column `J` collects the values with indices that are `J` modulo `N`. -/
def cyc (N M : ℕ) (g : ℕ → ℚ) (J : ℕ) : ℚ := ∑ m ∈ range M, if m % N = J then g m else 0

theorem cyc_near (N M : ℕ) (g g' : ℕ → ℚ) : ∑ J ∈ range N, |cyc N M g J - cyc N M g' J| ≤ ∑ m ∈ range M, |g m - g' m| := by
  unfold cyc
  calc _ ≤ ∑ J ∈ range N, ∑ m ∈ range M, (if m % N = J then |g m - g' m| else 0) := by
        refine sum_le_sum fun J _ => ?_
        rw [← sum_sub_distrib]
        refine (abs_sum_le_sum_abs _ _).trans (sum_le_sum fun m _ => ?_)
        split
        · exact le_rfl
        · simp
    _ = ∑ m ∈ range M, ∑ J ∈ range N, (if m % N = J then |g m - g' m| else 0) := sum_comm
    _ ≤ _ := by
        refine sum_le_sum fun m _ => ?_
        rw [sum_ite_eq]
        split
        · exact le_rfl
        · exact abs_nonneg _

theorem cyc_sum {N : ℕ} (hN : 0 < N) (M : ℕ) (g : ℕ → ℚ) : ∑ J ∈ range N, cyc N M g J = ∑ m ∈ range M, g m := by
  unfold cyc
  rw [sum_comm]
  refine sum_congr rfl fun m _ => ?_
  rw [sum_ite_eq, if_pos (mem_range.2 (Nat.mod_lt _ hN))]

theorem cyc_nonneg {N M : ℕ} {g : ℕ → ℚ} (h : ∀ m, 0 ≤ g m) (J : ℕ) : 0 ≤ cyc N M g J :=
  sum_nonneg fun m _ => by split; exacts [h m, le_rfl]

theorem cyc_ext {N M M' : ℕ} {g : ℕ → ℚ} (h : M ≤ M') (h0 : ∀ m, M ≤ m → g m = 0) (J : ℕ) : cyc N M' g J = cyc N M g J := by
  unfold cyc
  refine (sum_subset (range_mono h) fun m _ hm => ?_).symm
  rw [h0 m (by simpa using hm), ite_self]

/-- Values that vanish before index `i`. -/
theorem cyc_shift {N i k : ℕ} {g : ℕ → ℚ} (h0 : ∀ m, m < i → g m = 0) (J : ℕ) :
    cyc N (i + k) g J = ∑ j ∈ range k, if (i + j) % N = J then g (i + j) else 0 := by
  unfold cyc
  rw [sum_range_add, sum_eq_zero (fun m hm => by rw [h0 m (mem_range.1 hm), ite_self]), zero_add]

/-- Exact row of data point `i`. -/
def perRow (o N : ℕ) (a H : ℚ) (i J : ℕ) : ℚ := cyc N (i + (o + 1)) (fun m => piece (perKnot o a H) (i + o) o m (a + i * H)) J

section
variable {o N n : ℕ} {a b B H dx : ℚ} {T : List ℚ}

theorem perKnot_seg (hH : 0 ≤ H) (i : ℕ) : perKnot o a H (i + o) ≤ a + i * H ∧ a + i * H ≤ perKnot o a H (i + o + 1) := by
  rw [perKnot_step o a H (i + o) 1, perKnot_node]
  have : ((1 - o % 2 : ℕ) : ℚ) ≤ 1 := by exact_mod_cast (by omega : 1 - o % 2 ≤ 1)
  have h0 : (0 : ℚ) ≤ ((1 - o % 2 : ℕ) : ℚ) := Nat.cast_nonneg _
  push_cast
  constructor <;> nlinarith

theorem perKnot_nondeg (hH : 0 < H) (s p : ℕ) : Nondeg (perKnot o a H) s p := fun u v _ b1 b2 _ => by
  have := perKnot_mono (o := o) (a := a) hH.le b1
  have h2 := perKnot_mono (o := o) (a := a) hH.le (show s + 1 ≤ v by omega)
  rw [perKnot_step] at h2
  push_cast at h2
  linarith

theorem perRow_unity (hH : 0 < H) (hN : 0 < N) (i : ℕ) : (∀ J, 0 ≤ perRow o N a H i J) ∧ ∑ J ∈ range N, perRow o N a H i J = 1 := by
  obtain ⟨h3, h4⟩ := perKnot_seg (o := o) (a := a) hH.le i
  refine ⟨fun J => cyc_nonneg (fun m => piece_nonneg (p := o) (fun j _ c => (perKnot_mono hH.le c).trans h3) (fun j a' _ => h4.trans (perKnot_mono hH.le a')) o m le_rfl) J, ?_⟩
  unfold perRow
  rw [cyc_sum hN, ← Nat.add_assoc]
  exact sum_piece_eq_one _ o (by omega) (perKnot_nondeg hH _ _)

/-- All rows hold the same values. -/
theorem perRow_shift (i J : ℕ) : perRow o N a H i J = ∑ j ∈ range (o + 1), if (i + j) % N = J then piece (perKnot o a H) o o j a else 0 := by
  unfold perRow
  rw [cyc_shift fun m hm => piece_zero_of_gt _ _ _ _ _ (by omega)]
  refine sum_congr rfl fun j _ => ?_
  have := piece_shift (t := perKnot o a H) (n := i) (s := o) (p := o) (P := i * H) le_rfl (fun u _ _ => perKnot_step o a H u i) a o j le_rfl
  rw [Nat.add_comm i o, Nat.add_comm i j, this]

variable {D : ℕ} {f : InterpFn D F64 F64} {d : Fin D}

/-- Basis functions of the computed knots near those of the exact knots. -/
theorem PerRat.piece_near (h : PerRat f d o n a b B H dx T) {r : ℚ} (hr : B ≤ r * H) {s M : ℕ} (h1 : o ≤ s) (h2 : s + o < n + (2 * o + (1 - o % 2))) (hM : s < M) {x x' : ℚ}
    (hx : knotFn T s ≤ x ∧ x ≤ knotFn T (s + 1)) (hx' : perKnot o a H s ≤ x' ∧ x' ≤ perKnot o a H (s + 1)) (hxx : |x - x'| ≤ 32 * B / 2 ^ 53) :
    ∑ m ∈ range M, |piece (knotFn T) s o m x - piece (perKnot o a H) s o m x'| ≤ 128 * o * r / 2 ^ 53 := by
  have hH := h.uin.pos
  have ho1 := h.ho.1
  have hgap := h.gap (u := s) (by omega)
  have hd := h.delta
  refine (Intp.piece_near (t := knotFn T) (t' := perKnot o a H) (δ := 32 * B / 2 ^ 53) (g := H) h1 (fun i j _ hij hj => h.mono hij (by omega))
    (fun i j _ hij _ => perKnot_mono hH.le hij) h.ho.1 hx hx' (by linarith) hH (by rw [perKnot_step]; push_cast; linarith)
    (fun i _ hi => (h.near i (by omega)).trans (by linarith)) hxx hM).trans ?_
  have e : (o : ℚ) * (4 * (32 * B / 2 ^ 53) / H) = 128 * o * (B / H) / 2 ^ 53 := by ring
  rw [e]
  have : B / H ≤ r := (div_le_iff₀ hH).2 hr
  have ho0 : (0 : ℚ) ≤ 128 * o := by positivity
  exact div_le_div_of_nonneg_right (mul_le_mul_of_nonneg_left this ho0) (by positivity)

/-- The point at which the basis functions are evaluated for all rows. -/
theorem PerRat.point (h : PerRat f d o n a b B H dx T) :
    ∃ X, (F64.fin (knotFn T o) + CoordArith.ofNat (1 - o % 2) * F64.fin dx * CoordArith.half : F64) = .fin X ∧ IsDouble X ∧ |X - a| ≤ 32 * B / 2 ^ 53 ∧
      knotFn T o ≤ X ∧ X ≤ knotFn T (o + 1) := by
  have hH := h.uin.pos
  have hB0 := h.uin.B0
  have hlen := h.len
  have hn := h.hn
  have hgap := h.gap (u := o) (by omega)
  have hd := h.delta
  have dlo : IsDouble (knotFn T o) := by
    have : knotFn T o = T[o]'(by omega) := by
      unfold knotFn
      rw [List.getD_eq_getElem?_getD, List.getElem?_eq_getElem (by omega)]; rfl
    rw [this]
    exact h.dbl _ (List.getElem_mem _)
  have hB16 : 16 * B ≤ 2 ^ 1023 := by
    have h1 : (16 : ℚ) * 2 ^ 1000 ≤ 2 ^ 1023 := by decide +kernel
    have := h.uin.hB
    generalize (2 : ℚ) ^ 1000 = z at *
    generalize (2 : ℚ) ^ 1023 = z' at *
    linarith
  have hself : ∀ q : ℚ, IsDouble q → |q| ≤ 16 * B → F64.round q = .fin q := fun q hq hb => by
    rw [F64.round_fits, F64.rnd_of_rep hq.rep]
    show |q| ≤ 2 ^ (1023 : ℤ)
    exact_mod_cast hb.trans hB16
  have hA := abs_le.1 h.uin.ha
  have hHB : H ≤ 2 * B := by
    have h4 := h.uin.n1
    have h5 := h.uin.step
    have := (abs_le.1 h.uin.hb).2
    nlinarith
  have e1 : (CoordArith.half : F64) = .fin (1 / 2) := rfl
  rw [fl_ofNat (by omega), e1]
  have hdx := abs_le.1 h.near_dx
  have hdx2 : |dx| ≤ 2 * H := by
    rw [abs_le]; constructor <;> nlinarith
  by_cases hodd : o % 2 = 1
  · rw [h.odd hodd, show 1 - o % 2 = 0 by omega, Nat.cast_zero, F64.mul_fin, zero_mul, show F64.round 0 = .fin 0 by simpa using round_half (p := 0) (by norm_num),
      F64.mul_fin, zero_mul, show F64.round 0 = .fin 0 by simpa using round_half (p := 0) (by norm_num), F64.add_fin, add_zero,
      hself a h.uin.da (h.uin.ha.trans (by linarith))]
    refine ⟨a, rfl, h.uin.da, ?_, le_rfl, ?_⟩
    · rw [sub_self, abs_zero]; linarith
    · rw [h.odd hodd] at hgap; linarith
  · rw [show 1 - o % 2 = 1 by omega, Nat.cast_one, F64.mul_fin, one_mul, hself dx h.ddx (hdx2.trans (by linarith))]
    have hm0 : |dx * (1 / 2)| ≤ 2 * B := by rw [abs_mul, abs_of_pos (show (0 : ℚ) < 1 / 2 by norm_num)]; linarith
    obtain ⟨m, m1, m2, m3⟩ := fl_mul (a := dx) (b := 1 / 2) (hm0.trans (by
      generalize (2 : ℚ) ^ 1023 = z at *
      linarith))
    have ht : (1 : ℚ) / 2 ^ 1074 ≤ 1 / 8 / 2 ^ 53 * B := by
      have h1 : (1 : ℚ) / 2 ^ 1074 ≤ 1 / 8 / 2 ^ 53 * (1 / 2 * (1 / 2 ^ 800)) := by decide +kernel
      refine h1.trans (mul_le_mul_of_nonneg_left ?_ (by norm_num))
      have := h.uin.least
      generalize (1 : ℚ) / 2 ^ 800 = z at *
      linarith
    have hm3 : |dx * (1 / 2)| / 2 ^ 53 ≤ 2 * B / 2 ^ 53 := div_le_div_of_nonneg_right hm0 (by norm_num)
    have m3' := abs_le.1 (m3.trans (add_le_add hm3 ht))
    clear m3 ht
    have n1 := abs_le.1 (h.near o (by omega))
    have n2 := abs_le.1 (h.near (o + 1) (by omega))
    have p1 := perKnot_node o a H 0
    rw [Nat.zero_add] at p1
    rw [perKnot_step, p1, show 1 - o % 2 = 1 by omega] at n2
    rw [p1, show 1 - o % 2 = 1 by omega] at n1
    push_cast at n1 n2
    have hdx' : |dx - H| ≤ 9 / 2 * B / 2 ^ 53 := h.near_dx.trans (by linarith)
    have hdx'' := abs_le.1 hdx'
    have hs0 : |knotFn T o + m| ≤ 3 / 2 * B := by rw [abs_le]; constructor <;> linarith
    obtain ⟨X, x1, x2, x3, -⟩ := fl_add dlo m2 (hs0.trans (by
      generalize (2 : ℚ) ^ 1023 = z at *
      linarith))
    have hx3 : |knotFn T o + m| / 2 ^ 53 ≤ 3 / 2 * B / 2 ^ 53 := div_le_div_of_nonneg_right hs0 (by norm_num)
    have x3' := abs_le.1 x3
    rw [m1, x1]
    refine ⟨X, rfl, x2, ?_, ?_, ?_⟩
    · rw [abs_le]; constructor <;> linarith
    · linarith
    · linarith

/-- The values for all rows. -/
theorem PerRat.vals (h : PerRat f d o n a b B H dx T) (ho : f.spline.order = o) (hp : f.periodicity d = true) (hu : f.uniform d = true) {r : ℚ}
    (hr : B ≤ r * H) : ∃ v : List ℚ, Fl.precalc f d = .ok (v.map F64.fin) ∧ v.length = o + 1 ∧
      ∑ j ∈ range (o + 1), |v.getD j 0 - piece (perKnot o a H) o o j a| ≤ (7 * o + 128 * o * r) / 2 ^ 53 := by
  have hH := h.uin.pos
  have hlen := h.len
  have hn := h.hn
  have hgap := h.gap (u := o) (by omega)
  obtain ⟨X, e1, dX, hX, hX1, hX2⟩ := h.point
  obtain ⟨v, v1, v2, v3⟩ := double_basis T (p := o) (order := o) (s := o) le_rfl h.ho.2 le_rfl (by omega) (fun v hv => ⟨h.dbl v hv, (h.knot_le hv).2⟩) dX h.kmono hX1 hX2 (by
    have h3 := h.uin.least
    have h4 : (1 : ℚ) / 2 ^ 900 ≤ 7 / 8 * (1 / 2 ^ 800) := by decide +kernel
    generalize (1 : ℚ) / 2 ^ 900 = z at *
    generalize (1 : ℚ) / 2 ^ 800 = z' at *
    linarith)
  have hbeta := v3
  refine ⟨v, ?_, v2, ?_⟩
  · unfold Fl.precalc
    rw [hp, hu, Bool.and_self, if_pos rfl, ho, h.step]
    have e2 : rd (f.spline.knots d) o = .ok (.fin (knotFn T o)) := by
      rw [rd_eq_ok_iff, h.knots, List.getElem?_map]
      unfold knotFn
      rw [List.getD_eq_getElem?_getD, List.getElem?_eq_getElem (by omega)]
      rfl
    rw [e2, ok_bind, e1]
    unfold Fl.baseAt
    rw [ho, h.knots, List.length_map, itAdd_ok (r := o) (by omega) (by omega), ok_bind]
    exact v1
  · have hnd : Nondeg (knotFn T) o o := nondeg_of_mono h.kmono (by linarith) le_rfl (by omega)
    have p1 := sum_piece_eq_one X o le_rfl hnd
    have d1 : ∑ j ∈ range (o + 1), |v.getD j 0 - piece (knotFn T) o o j X| ≤ 7 * o / 2 ^ 53 := by
      refine (sum_le_sum (g := fun j => 6 * (o : ℚ) / 2 ^ 53 * piece (knotFn T) o o j X + 1 / 2 ^ 120) fun j hj => ?_).trans ?_
      · have := (v3 j (by rw [mem_range] at hj; omega)).2
        rwa [Nat.sub_self, Nat.zero_add] at this
      rw [sum_add_distrib, ← mul_sum, sum_const, card_range, nsmul_eq_mul, p1]
      have h5 : (1 : ℚ) ≤ o := by exact_mod_cast h.ho.1
      push_cast
      linarith
    have d2 := h.piece_near hr (s := o) (M := o + 1) le_rfl (by omega) (by omega) ⟨hX1, hX2⟩ (x' := a)
      (by have := perKnot_seg (o := o) (a := a) hH.le 0; simpa using this) hX
    calc _ ≤ ∑ j ∈ range (o + 1), (|v.getD j 0 - piece (knotFn T) o o j X| + |piece (knotFn T) o o j X - piece (perKnot o a H) o o j a|) :=
          sum_le_sum fun j _ => abs_sub_le _ _ _
      _ ≤ 7 * o / 2 ^ 53 + 128 * o * r / 2 ^ 53 := by rw [sum_add_distrib]; exact add_le_add d1 d2
      _ = _ := by ring

/-- The assembled matrix of a periodic uniform dimension. -/
theorem PerRat.rows (h : PerRat f d o n a b B H dx T) (ho : f.spline.order = o) (hp : f.periodicity d = true) (hu : f.uniform d = true) {r : ℚ}
    (hr : B ≤ r * H) {vals : List F64} (hv : Fl.precalc f d = .ok vals) :
    ∃ A : ℕ → ℕ → F64, (∀ i J, ∃ q, A i J = .fin q) ∧
      (∀ w c l, Ok (Fl.assemble w c f l d (n - 1) vals) fun m => ∃ bm, m = .ext bm ∧ bm.Rep (n - 1) (o / 2) (o / 2) A) ∧
      ∀ i, i < n - 1 → ∑ J ∈ range (n - 1), |Fl.entries F64.toRat (InPat (n - 1) (o / 2) (o / 2)) A i J - perRow o (n - 1) a H (nodeOfRow o true (n - 1) i) J| ≤
        (7 * o + 128 * o * r) / 2 ^ 53 := by
  have ho1 := h.ho.1
  have hn := h.hn
  obtain ⟨v, v1, v2, v3⟩ := h.vals ho hp hu hr
  obtain rfl : vals = v.map F64.fin := Except.ok.inj (hv.symm.trans v1)
  refine ⟨Fl.perMat o (n - 1) fun _ => v.map F64.fin, fun i J => ?_, fun w c l => ?_, fun k hk => ?_⟩
  · unfold Fl.perMat
    split
    · exact ⟨_, getD_map_fin _ _⟩
    · exact ⟨0, rfl⟩
  · refine Fl.assemble_per (Inv := fun l => l = v.map F64.fin) ho hp (by omega) rfl (fun i _ vals hvals => ⟨?_, rfl⟩) fun i _ => by rw [List.length_map]; exact v2
    subst hvals
    unfold Fl.rowData
    rw [if_pos hu]
    unfold knotIndUniform
    rw [hp, if_pos rfl, ho, pure_bind]
    unfold Fl.uniformBase
    rw [hp, if_pos rfl, pure_bind]
    rfl
  · obtain ⟨i1, i2⟩ := row_nodeOfRow (o := o) (per := true) hk
    set N := n - 1 with hN
    set i := nodeOfRow o true N k with hi
    have i2' : (i + o / 2) % N = k := i2
    -- the values kept
    set g : ℕ → ℚ := fun j => if j < 2 * (o / 2) + 1 then v.getD j 0 else 0 with hg
    have hz : (0 : F64).toRat = 0 := rfl
    have key : ∀ J ∈ range N, Fl.entries F64.toRat (InPat N (o / 2) (o / 2)) (Fl.perMat o N fun _ => v.map F64.fin) k J =
        ∑ j ∈ range (o + 1), if (i + j) % N = J then g j else 0 := by
      intro J hJ
      rw [mem_range] at hJ
      have hsum : ∑ j ∈ range (o + 1), (if (i + j) % N = J then g j else 0) = ∑ j ∈ range (2 * (o / 2) + 1), if j = Fl.colDist N i J then v.getD j 0 else 0 := by
        have hsub : Finset.range (2 * (o / 2) + 1) ⊆ Finset.range (o + 1) := range_mono (by omega)
        have hext : ∑ j ∈ range (2 * (o / 2) + 1), (if (i + j) % N = J then g j else 0) = ∑ j ∈ range (o + 1), (if (i + j) % N = J then g j else 0) := by
          refine sum_subset hsub fun j _ hj => ?_
          rw [hg]; simp only
          rw [if_neg (show ¬ j < 2 * (o / 2) + 1 by rwa [mem_range] at hj), ite_self]
        rw [← hext]
        refine sum_congr rfl fun j hj => ?_
        rw [mem_range] at hj
        have hiff := Fl.colDist_iff i1 hJ (show j < N by omega)
        rw [hg]; simp only
        rw [if_pos hj]
        by_cases hc : J = (i + j) % N
        · rw [if_pos hc.symm, if_pos (hiff.2 hc).symm]
        · rw [if_neg fun e => hc e.symm, if_neg fun e => hc (hiff.1 e.symm)]
      rw [hsum, sum_ite_eq']
      have e0 : Fl.perMat o N (fun _ => v.map F64.fin) k J = if Fl.colDist N i J < 2 * (o / 2) + 1 then (v.map F64.fin).getD (Fl.colDist N i J) 0 else 0 := rfl
      by_cases hc : Fl.colDist N i J < 2 * (o / 2) + 1
      · rw [if_pos (mem_range.2 hc)]
        have hpat := Fl.per_inPat (o := o) i1 hc (by omega)
        rw [i2', ← (Fl.colDist_iff i1 hJ (show Fl.colDist N i J < N by omega)).1 rfl] at hpat
        rw [Fl.entries_pos hpat, e0, if_pos hc, List.getD_eq_getElem?_getD, List.getD_eq_getElem?_getD, List.getElem?_map,
          List.getElem?_eq_getElem (by omega)]
        rfl
      · rw [if_neg (by rwa [mem_range])]
        unfold Fl.entries
        rw [e0, if_neg hc, hz, ite_self]
    calc _ = ∑ J ∈ range N, |(∑ j ∈ range (o + 1), if (i + j) % N = J then g j else 0) -
            ∑ j ∈ range (o + 1), if (i + j) % N = J then piece (perKnot o a H) o o j a else 0| :=
          sum_congr rfl fun J hJ => by rw [key J hJ, perRow_shift]
      _ ≤ ∑ j ∈ range (o + 1), |g j - piece (perKnot o a H) o o j a| := by
          have := cyc_near N (i + (o + 1)) (fun m => if m < i then 0 else g (m - i)) (fun m => if m < i then 0 else piece (perKnot o a H) o o (m - i) a)
          rw [sum_range_add, sum_eq_zero (s := range i) (fun m hm => by rw [if_pos (mem_range.1 hm), if_pos (mem_range.1 hm), sub_self, abs_zero]), zero_add] at this
          refine le_trans (le_of_eq (sum_congr rfl fun J _ => ?_)) (this.trans (le_of_eq (sum_congr rfl fun j _ => ?_)))
          · rw [cyc_shift fun m hm => if_pos hm, cyc_shift fun m hm => if_pos hm]
            simp only [Nat.not_lt.2 (Nat.le_add_right i _), if_false, Nat.add_sub_cancel_left]
          · rw [if_neg (by omega), if_neg (by omega), Nat.add_sub_cancel_left]
      _ ≤ ∑ j ∈ range (o + 1), |v.getD j 0 - piece (perKnot o a H) o o j a| := by
          refine sum_le_sum fun j hj => ?_
          rw [mem_range] at hj
          rw [hg]; simp only
          by_cases hc : j < 2 * (o / 2) + 1
          · rw [if_pos hc]
          · obtain rfl : j = o := by omega
            rw [if_neg hc, piece_top_zero ho1 (by
              have := perKnot_node j a H 0
              rw [Nat.zero_add] at this
              rw [this, show 1 - j % 2 = 0 by omega]; simp), sub_zero, abs_zero]
            exact abs_nonneg _
      _ ≤ _ := v3

/-- The segment of a wrapped coordinate near a data point, and the values of the basis functions there. -/
theorem PerRat.query (h : PerRat f d o n a b B H dx T) {r : ℚ} (hr : B ≤ r * H) {i : ℕ} (hi : i + 1 < n) {x : ℚ} (hx : knotFn T o ≤ x)
    (hxn : |x - (a + i * H)| ≤ 15 * B / 2 ^ 53) :
    ∃ s, IsSeg (knotFn T) o (T.length - o - 2) x s ∧ knotFn T s ≤ x ∧ x ≤ knotFn T (s + 1) ∧ s ≤ i + o ∧
      ∑ J ∈ range (n - 1), |cyc (n - 1) (i + (o + 1)) (fun m => piece (knotFn T) s o m x) J - perRow o (n - 1) a H i J| ≤ 128 * o * r / 2 ^ 53 := by
  have hn := h.hn
  have ho1 := h.ho.1
  have hH := h.uin.pos
  have hlen := h.len
  have n1 := abs_le.1 (h.near (i + o) (by omega))
  have n2 := abs_le.1 (h.near (i + o + 1) (by omega))
  rw [perKnot_step] at n2
  obtain ⟨k1, k2⟩ := perKnot_seg (o := o) (a := a) hH.le i
  rw [perKnot_node] at n1 n2
  push_cast at n2
  obtain ⟨hd1, hd2⟩ := h.delta
  have q := abs_le.1 hxn
  have he : ((1 - o % 2 : ℕ) : ℚ) / 2 * H ≤ 1 / 2 * H := by
    have : ((1 - o % 2 : ℕ) : ℚ) ≤ 1 := by exact_mod_cast (by omega : 1 - o % 2 ≤ 1)
    exact mul_le_mul_of_nonneg_right (by linarith) hH.le
  have hright : x < knotFn T (i + o + 1) := by linarith
  by_cases hl : knotFn T (i + o) ≤ x
  · refine ⟨i + o, ⟨by omega, by omega, .inr hl, .inr hright⟩, hl, hright.le, le_rfl, ?_⟩
    refine (cyc_near _ _ _ _).trans ?_
    exact h.piece_near hr (by omega) (by omega) (by omega) ⟨hl, hright.le⟩ ⟨k1, k2⟩ (hxn.trans (by linarith))
  · have hl := not_le.1 hl
    have hi0 : 0 < i := by
      by_contra hc
      obtain rfl : i = 0 := by omega
      rw [Nat.zero_add] at hl
      linarith
    have hodd : o % 2 = 1 := by
      by_contra hc
      rw [show 1 - o % 2 = 1 by omega] at n1
      push_cast at n1
      linarith
    have heq : perKnot o a H (i + o) = a + i * H := by
      rw [perKnot_node, hodd]; simp
    obtain ⟨s, hs⟩ : ∃ s, i + o = s + 1 := ⟨i + o - 1, by omega⟩
    have n3 := abs_le.1 (h.near s (by omega))
    have hst := perKnot_step o a H s 1
    have hst2 := perKnot_step o a H s 2
    rw [← hs, heq] at hst
    push_cast at hst hst2
    have hsx : knotFn T s ≤ x := by linarith
    rw [hs] at hl
    refine ⟨s, ⟨by omega, by omega, .inr hsx, .inr hl⟩, hsx, hl.le, by omega, ?_⟩
    refine (cyc_near _ _ _ _).trans (le_trans (le_of_eq (sum_congr rfl fun m _ => ?_))
      (h.piece_near hr (s := s) (M := i + (o + 1)) (x := x) (x' := a + i * H) (by omega) (by omega) (by omega) ⟨hsx, hl.le⟩
        ⟨by linarith, by rw [← hs, heq]⟩ (hxn.trans (by linarith))))
    rw [hs, ← heq, hs, piece_knot_eq (t := perKnot o a H) (r := s) (m := 1) (by rw [← hs, heq]; linarith) (by rw [show s + 1 + 1 = s + 2 from rfl, hst2, ← hs, heq]; linarith) (fun j j1 j2 => by rw [show j = s + 1 by omega]) o m ho1]

end

end Intp
