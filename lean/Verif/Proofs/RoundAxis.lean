import Verif.Proofs.FlAssemble
import Verif.Proofs.SweepError
import Verif.Proofs.Rows
import Verif.Props.Rounding
import Verif.Props.RoundSolver

/-!
# One axis of an interpolation in `double`: the assembled matrix and its factors
-/

namespace Intp

open Finset BSpline

/-- Data point `i` at `x` lies in a segment `k` of the knots for which the row of the matrix fits into the band: basis function `i` is among those that do
not vanish there, and is not the first or the last of them (for order 1, `x` is the knot itself). -/
def NodeSeg (T : ℕ → ℚ) (o n i : ℕ) (x : ℚ) : Prop :=
  ∃ k, o ≤ k ∧ k < n ∧ i < k ∧ k < i + max o 2 ∧ T k ≤ x ∧ x < T (k + 1) ∧ (o = 1 → x = T k)

theorem Fl.rowData_eq {D : ℕ} {f : InterpFn D F64 F64} {l : List F64} {d : Fin D} {o n i k : ℕ} {T : List ℚ} {x : ℚ} {v : List F64}
    (ho : f.spline.order = o) (ho1 : 1 ≤ o) (hp : f.periodicity d = false) (hu : f.uniform d = false) (hk : f.spline.knots d = T.map F64.fin)
    (hT : ∀ v ∈ T, IsDouble v) (hlen : T.length = n + o + 1) (hm : KMono T) (hl : l.length = n) (hx : l[i]? = some (.fin x)) (hxd : IsDouble x)
    (h0 : 0 < i) (h1 : i + 1 < n) (k1 : o ≤ k) (k2 : k < n) (k3 : i < k) (k4 : k < i + max o 2) (k5 : knotFn T k ≤ x) (k6 : x < knotFn T (k + 1))
    (hv : Fl.baseSplineValue o (T.map F64.fin) k (.fin x) o = .ok v) (vals : List F64) : Fl.rowData f l d i vals = .ok (k, v) := by
  have hmap : (T.map F64.fin).map F64.coord.val = T := by
    rw [List.map_map]
    exact (List.map_congr_left fun a _ => rfl).trans (List.map_id T)
  have hlen' : (T.map F64.fin).length = n + o + 1 := by rw [List.length_map, hlen]
  have hp' : f.spline.periodicity d = false := hp
  have hseg : Fl.findSegment o (T.map F64.fin) (.fin x) (i + 1) (min n (i + o)) = .ok k := by
    rw [findSegment_val F64.coord (fun v hv => by obtain ⟨q, hq, rfl⟩ := List.mem_map.1 hv; exact (hT q hq).grid) (x := .fin x) hxd.grid, hmap]
    have hT1 : knotFn T o ≤ x := (hm o k (by omega) k1 (by omega)).trans k5
    have hT2 : x < knotFn T (min n (i + o) + 1) := lt_of_lt_of_le k6 (hm (k + 1) _ (by omega) (by omega) (by omega))
    exact findSegment_eq hm (by omega) ⟨by omega, .inr (.inl ⟨hT1, hT2⟩)⟩ ⟨k1, by omega, .inr k5, .inr k6⟩
  unfold Fl.rowData
  rw [if_neg (by simp [hu]), rd_eq_ok_iff.2 hx, ok_bind]
  unfold Fl.knotIndCoord
  rw [hp, if_neg (by simp), if_neg (by omega), subM_ok (by omega), ok_bind, if_neg (by omega), ho, hk, hlen', subM_ok (by omega), ok_bind]
  unfold Fl.getKnotIter
  rw [hp', hk, hlen', itAdd_ok (r := i + 1) (by omega) (by omega), ok_bind]
  simp only [Bool.false_eq_true, if_false, pure_bind]
  rw [ho, show n + o + 1 - (o + 1) = n by omega, hseg]
  simp only [ok_bind, pure_bind]
  unfold Fl.baseAt
  rw [hk, hlen', ho, itAdd_ok (r := k) (by omega) (by omega), ok_bind, hv, ok_bind]
  rfl

/-- One non-periodic axis with explicit coordinates `X` and computed knots `T`. -/
structure AxisIn {D : ℕ} (f : InterpFn D F64 F64) (d : Fin D) (o n : ℕ) (l : List F64) (T : List ℚ) (X : ℕ → ℚ) : Prop where
  order : f.spline.order = o
  ho : 1 ≤ o ∧ o ≤ 50
  per : f.periodicity d = false
  uni : f.uniform d = false
  knots : f.spline.knots d = T.map F64.fin
  dbl : ∀ v ∈ T, IsDouble v ∧ |v| ≤ 2 ^ 1000
  len : T.length = n + o + 1
  hn : o + 1 ≤ n
  mono : KMono T
  first : knotFn T o < knotFn T (o + 1)
  last : knotFn T (n - 1) < knotFn T n
  gaps : ∀ i, o ≤ i → i < n → knotFn T i < knotFn T (i + 1) → 1 / 2 ^ 900 ≤ knotFn T (i + 1) - knotFn T i
  llen : l.length = n
  lx : ∀ i, i < n → l[i]? = some (.fin (X i))
  xd : ∀ i, i < n → IsDouble (X i)
  left : ∀ u, u ≤ o → knotFn T u = X 0
  right : ∀ u, n ≤ u → u ≤ n + o → knotFn T u = X (n - 1)
  nodes : ∀ i, 0 < i → i + 1 < n → NodeSeg (knotFn T) o n i (X i)

section
variable {D : ℕ} {f : InterpFn D F64 F64} {d : Fin D} {o n : ℕ} {l : List F64} {T : List ℚ} {X : ℕ → ℚ}

/-- The segment of a data point. -/
theorem AxisIn.seg (h : AxisIn f d o n l T X) : ∃ s : ℕ → ℕ, (∀ i, i < n → IsSeg (knotFn T) o (n - 1) (X i) (s i)) ∧ s 0 = o ∧ s (n - 1) = n - 1 ∧
    ∀ i, 0 < i → i + 1 < n → o ≤ s i ∧ s i < n ∧ i < s i ∧ s i < i + max o 2 ∧ knotFn T (s i) ≤ X i ∧ X i < knotFn T (s i + 1) ∧
      (o = 1 → X i = knotFn T (s i)) := by
  classical
  have ho := h.ho
  have hn := h.hn
  refine ⟨fun i => if hi : 0 < i ∧ i + 1 < n then (h.nodes i hi.1 hi.2).choose else if i = 0 then o else n - 1, fun i hi => ?_, ?_, ?_, fun i h0 h1 => ?_⟩
  · dsimp only
    by_cases hi' : 0 < i ∧ i + 1 < n
    · rw [dif_pos hi']
      obtain ⟨a1, a2, a3, a4, a5, a6, a7⟩ := (h.nodes i hi'.1 hi'.2).choose_spec
      exact ⟨a1, by omega, .inr a5, .inr a6⟩
    · rw [dif_neg hi']
      by_cases h0 : i = 0
      · subst h0
        rw [if_pos rfl]
        refine ⟨le_rfl, by omega, .inl rfl, .inr ?_⟩
        rw [← h.left o le_rfl]; exact h.first
      · rw [if_neg h0, show i = n - 1 by omega]
        refine ⟨by omega, le_rfl, .inr ?_, .inl rfl⟩
        rw [← h.right n le_rfl (by omega)]; exact h.last.le
  · simp
  · dsimp only
    rw [dif_neg (by omega), if_neg (by omega)]
  · dsimp only
    rw [dif_pos ⟨h0, h1⟩]
    exact (h.nodes i h0 h1).choose_spec

theorem bandWidth_false (ho : 1 ≤ o) : bandWidth o false = o - 1 := by
  unfold bandWidth; simp; omega

theorem getD_map_fin (l : List ℚ) (k : ℕ) : (l.map F64.fin).getD k 0 = .fin (l.getD k 0) := by
  rw [List.getD_eq_getElem?_getD, List.getD_eq_getElem?_getD, List.getElem?_map]
  cases l[k]? <;> rfl

/-- The assembled matrix differs from the matrix of the values of the basis functions by at most `7 o / 2^53` per row. -/
theorem AxisIn.assemble (h : AxisIn f d o n l T X) {s : ℕ → ℕ}
    (hs1 : ∀ i, i < n → IsSeg (knotFn T) o (n - 1) (X i) (s i)) (hs2 : s 0 = o) (hs3 : s (n - 1) = n - 1)
    (hs : ∀ i, 0 < i → i + 1 < n → o ≤ s i ∧ s i < n ∧ i < s i ∧ s i < i + max o 2 ∧ knotFn T (s i) ≤ X i ∧ X i < knotFn T (s i + 1) ∧
      (o = 1 → X i = knotFn T (s i))) :
    ∃ A : ℕ → ℕ → F64, (∀ i J, ∃ q, A i J = .fin q) ∧
      (∀ w c vals, Ok (Fl.assemble w c f l d n vals) fun m => ∃ bm, m = .band bm ∧ bm.Rep n (o - 1) (o - 1) A) ∧
      ∀ i, i < n → ∑ J ∈ range n, |Fl.entries F64.toRat (InBand (o - 1) (o - 1)) A i J - piece (knotFn T) (s i) o J (X i)| ≤ 7 * o / 2 ^ 53 := by
  have ho := h.ho
  have hn := h.hn
  have hlen := h.len
  have hbas : ∀ i, 0 < i → i + 1 < n → ∃ b : List ℚ, Fl.baseSplineValue o (T.map F64.fin) (s i) (.fin (X i)) o = .ok (b.map F64.fin) ∧ b.length = o + 1 ∧
      ∀ a, a ≤ o → 0 ≤ b.getD a 0 ∧ |b.getD a 0 - piece (knotFn T) (s i) o (s i - o + a) (X i)| ≤
        6 * o / 2 ^ 53 * piece (knotFn T) (s i) o (s i - o + a) (X i) + 1 / 2 ^ 120 := by
    intro i h0 h1
    obtain ⟨a1, a2, a3, a4, a5, a6, a7⟩ := hs i h0 h1
    exact double_basis T le_rfl ho.2 a1 (by omega) h.dbl (h.xd i (by omega)) h.mono a5 a6.le (h.gaps _ a1 a2 (lt_of_le_of_lt a5 a6))
  choose! b hb1 hb2 hb3 using hbas
  have hband : ∀ i, 0 < i → i + 1 < n → ∀ j < Fl.rowNum o, InBand (bandWidth o false) (bandWidth o false) i (s i - o + j) := by
    intro i h0 h1 j hj
    obtain ⟨a1, a2, a3, a4, a5, a6, a7⟩ := hs i h0 h1
    rw [bandWidth_false ho.1]
    unfold Fl.rowNum at hj
    unfold InBand
    split at hj <;> omega
  refine ⟨Fl.colMat o n s fun i => (b i).map F64.fin, fun i J => ?_, fun w c vals => ?_, fun i hi => ?_⟩
  · unfold Fl.colMat
    split
    · split
      · exact ⟨1, rfl⟩
      · exact ⟨0, rfl⟩
    · split
      · exact ⟨_, getD_map_fin _ _⟩
      · exact ⟨0, rfl⟩
  · have := Fl.assemble_rep (w := w) (c := c) (f := f) (coords := l) (d := d) (o := o) (n := n) (vals := vals) (ki := s) (v := fun i => (b i).map F64.fin)
      h.order h.per h.uni (by omega) (fun i h0 h1 vals => ?_) (fun i h0 h1 => ?_) (fun i h0 h1 => ?_) hband
    · rw [bandWidth_false ho.1] at this
      exact this
    · obtain ⟨a1, a2, a3, a4, a5, a6, a7⟩ := hs i h0 h1
      exact Fl.rowData_eq h.order ho.1 h.per h.uni h.knots (fun v hv => (h.dbl v hv).1) hlen h.mono h.llen (h.lx i (by omega)) (h.xd i (by omega)) h0 h1
        a1 a2 a3 a4 a5 a6 (hb1 i h0 h1) vals
    · rw [List.length_map]; exact hb2 i h0 h1
    · obtain ⟨a1, a2, a3, a4, a5, a6, a7⟩ := hs i h0 h1
      exact ⟨a1, a2⟩
  · have hz : (0 : F64).toRat = 0 := rfl
    have h1z : (1 : F64).toRat = 1 := rfl
    have ho1 : (1 : ℚ) ≤ o := by exact_mod_cast ho.1
    by_cases hend : i = 0 ∨ i + 1 = n
    · have e : ∀ J ∈ range n, |Fl.entries F64.toRat (InBand (o - 1) (o - 1)) (Fl.colMat o n s fun i => (b i).map F64.fin) i J -
          piece (knotFn T) (s i) o J (X i)| = 0 := by
        intro J hJ
        rw [mem_range] at hJ
        have e1 : Fl.entries F64.toRat (InBand (o - 1) (o - 1)) (Fl.colMat o n s fun i => (b i).map F64.fin) i J = if J = i then 1 else 0 := by
          unfold Fl.entries Fl.colMat
          simp only [if_pos hend]
          by_cases hJi : J = i
          · subst hJi
            rw [if_pos rfl, if_pos rfl, if_pos (by unfold InBand; omega), h1z]
          · rw [if_neg hJi, if_neg hJi, hz, ite_self]
        have e2 : piece (knotFn T) (s i) o J (X i) = if J = i then 1 else 0 := by
          rcases hend with rfl | hend
          · rw [hs2, piece_clamp_left (s := o) (p := o) (x := X 0) le_rfl (fun j hj => h.left _ (by omega)) (by rw [← h.left o le_rfl]; exact h.first) o J le_rfl]
            exact if_congr (by omega) rfl rfl
          · obtain rfl : i = n - 1 := by omega
            rw [hs3, piece_clamp_right (s := n - 1) (p := o) (x := X (n - 1)) (fun j h1 h2 => h.right _ (by omega) (by omega))
              (by rw [← h.right n le_rfl (by omega)]; exact h.last) o J le_rfl]
        rw [e1, e2, sub_self, abs_zero]
      rw [sum_eq_zero e]
      positivity
    · have h0 : 0 < i := by omega
      have h1 : i + 1 < n := by omega
      obtain ⟨a1, a2, a3, a4, a5, a6, a7⟩ := hs i h0 h1
      have hP0 : ∀ J, 0 ≤ piece (knotFn T) (s i) o J (X i) := fun J => piece_nonneg (p := o) (fun j x y => (h.mono j (s i) (by omega) y (by omega)).trans a5)
        (fun j x y => a6.le.trans (h.mono (s i + 1) j (by omega) x (by omega))) o _ le_rfl
      have hnd : Nondeg (knotFn T) (s i) o := nondeg_of_mono h.mono (lt_of_le_of_lt a5 a6) a1 (by omega)
      have hsum : ∑ J ∈ range n, piece (knotFn T) (s i) o J (X i) = 1 := by
        rw [← sum_piece_eq_one (X i) o a1 hnd]
        symm
        refine sum_subset (fun J hJ => ?_) fun J _ hJ => ?_
        · rw [mem_range] at hJ ⊢; omega
        · rw [mem_range] at hJ; exact piece_zero_of_lt _ _ _ _ _ (by omega)
      have key : ∀ J ∈ range n, |Fl.entries F64.toRat (InBand (o - 1) (o - 1)) (Fl.colMat o n s fun i => (b i).map F64.fin) i J -
          piece (knotFn T) (s i) o J (X i)| ≤ 6 * o / 2 ^ 53 * piece (knotFn T) (s i) o J (X i) +
            if J ∈ Finset.Ico (s i - o) (s i + 1) then 1 / 2 ^ 120 else 0 := by
        intro J hJ
        rw [mem_range] at hJ
        have hc : (0 : ℚ) ≤ 6 * o / 2 ^ 53 := by positivity
        have e0 : Fl.colMat o n s (fun i => (b i).map F64.fin) i J =
            if s i - o ≤ J ∧ J < s i - o + Fl.rowNum o then ((b i).map F64.fin).getD (J - (s i - o)) 0 else 0 := by
          unfold Fl.colMat; rw [if_neg hend]
        by_cases hJ1 : s i - o ≤ J ∧ J < s i - o + Fl.rowNum o
        · have hr : Fl.rowNum o ≤ o + 1 := by unfold Fl.rowNum; split <;> omega
          have hin := hband i h0 h1 (J - (s i - o)) (by omega)
          rw [bandWidth_false ho.1, show s i - o + (J - (s i - o)) = J by omega] at hin
          have e1 : Fl.entries F64.toRat (InBand (o - 1) (o - 1)) (Fl.colMat o n s fun i => (b i).map F64.fin) i J = (b i).getD (J - (s i - o)) 0 := by
            rw [Fl.entries_pos hin, e0, if_pos hJ1, List.getD_eq_getElem?_getD, List.getD_eq_getElem?_getD, List.getElem?_map,
              List.getElem?_eq_getElem (by rw [hb2 i h0 h1]; omega)]
            rfl
          have := (hb3 i h0 h1 (J - (s i - o)) (by omega)).2
          rw [show s i - o + (J - (s i - o)) = J by omega] at this
          rw [e1, if_pos (by rw [Finset.mem_Ico]; omega)]
          exact this
        · have e1 : Fl.entries F64.toRat (InBand (o - 1) (o - 1)) (Fl.colMat o n s fun i => (b i).map F64.fin) i J = 0 := by
            unfold Fl.entries
            rw [e0, if_neg hJ1, hz, ite_self]
          have e2 : piece (knotFn T) (s i) o J (X i) = 0 := by
            by_cases hlt : J + o < s i
            · exact piece_zero_of_gt _ _ _ _ _ hlt
            by_cases hgt : s i < J
            · exact piece_zero_of_lt _ _ _ _ _ hgt
            unfold Fl.rowNum at hJ1
            by_cases h1o : o = 1
            · rw [if_pos h1o] at hJ1
              obtain rfl : J = s i := by omega
              exact piece_top_zero ho.1 (a7 h1o)
            · rw [if_neg h1o] at hJ1; omega
          rw [e1, e2, sub_self, abs_zero, mul_zero, zero_add]
          split <;> positivity
      refine (sum_le_sum key).trans ?_
      rw [sum_add_distrib, ← mul_sum, hsum, mul_one]
      have hcount : (∑ J ∈ range n, if J ∈ Finset.Ico (s i - o) (s i + 1) then (1 / 2 ^ 120 : ℚ) else 0) ≤ (o + 1) * (1 / 2 ^ 120) := by
        rw [← sum_filter, sum_const, nsmul_eq_mul]
        refine mul_le_mul_of_nonneg_right ?_ (by positivity)
        have : ((range n).filter fun J => J ∈ Finset.Ico (s i - o) (s i + 1)).card ≤ o + 1 := by
          refine (card_le_card fun J hJ => (mem_filter.1 hJ).2).trans ?_
          rw [Nat.card_Ico]; omega
        exact_mod_cast this
      have e2 : ((o : ℚ) + 1) * (1 / 2 ^ 120) ≤ (o : ℚ) / 2 ^ 53 := by
        have h3 : (o : ℚ) + 1 ≤ 2 * o := by linarith
        have h4 : ((o : ℚ) + 1) * (1 / 2 ^ 120) ≤ 2 * o * (1 / 2 ^ 120) := mul_le_mul_of_nonneg_right h3 (by positivity)
        have h5 : (o : ℚ) * (1 / 2 ^ 119) ≤ o * (1 / 2 ^ 53) := mul_le_mul_of_nonneg_left (by norm_num) (by linarith)
        linarith
      calc _ ≤ 6 * o / 2 ^ 53 + (o : ℚ) / 2 ^ 53 := add_le_add le_rfl (hcount.trans e2)
        _ = 7 * o / 2 ^ 53 := by ring

end

end Intp
