import Verif.Proofs.DominantSolve
import Verif.Proofs.InterpAxes

/-!
# The solver of an axis whose exact matrix is dominant

If the values of the basis functions at the data points form a matrix that is row-wise dominant with weights `w`, elimination in `double` succeeds, its
factors do not grow, and the solutions of all lines are bounded.
-/

namespace Intp

open Finset BSpline

/-- Rows `W` are dominant: with weights `w` from `[ω, 1]` each diagonal entry exceeds the other entries of its row by `δ + κ / 2^53`. -/
structure RowsDom (n : ℕ) (W : ℕ → ℕ → ℚ) (w : ℕ → ℚ) (ω δ κ : ℚ) : Prop where
  w0 : ∀ j, ω ≤ w j
  w1 : ∀ j, w j ≤ 1
  ω0 : 1 / 2 ^ 100 ≤ ω
  δ40 : 1 / 2 ^ 40 ≤ δ
  δ1 : δ ≤ 1
  κ1 : κ / 2 ^ 53 ≤ 1 / 2
  sum : ∀ i, i < n → wsum W w n 0 i ≤ 1
  mar : ∀ i, i < n → δ + κ / 2 ^ 53 ≤ marg W w n 0 i

section
variable {c : Cfg} {sol : Solver F64} {o n : ℕ} {W : ℕ → ℕ → ℚ} {w : ℕ → ℚ} {ω δ κ : ℚ}

theorem RowsDom.pars (h : RowsDom n W w ω δ κ) (ho : 1 ≤ o ∧ o ≤ 50) (hn49 : n ≤ 2 ^ 49) : DomPars n (InBand (o - 1) (o - 1)) w ω δ := by
  refine ⟨hn49, closed_band n _ _, h.w0, h.w1, h.ω0, h.δ40, h.δ1, fun k i _ => ?_⟩
  have h1 := touch_band (o - 1) (o - 1) k i
  have h2 : (touch (InBand (o - 1) (o - 1)) k i : ℚ) ≤ 50 := by exact_mod_cast h1.trans (by omega)
  have := h.δ40
  have h3 : (50 : ℚ) * (16 / 2 ^ 53) ≤ 1 / 2 ^ 40 / 8 := by norm_num
  have := mul_le_mul_of_nonneg_right h2 (show (0 : ℚ) ≤ 16 / 2 ^ 53 by norm_num)
  linarith

/-- The elimination of a matrix that is close to a dominant one. -/
theorem dom_near {Pat : ℕ → ℕ → Prop} {A C0 : ℕ → ℕ → F64} (hp : DomPars n Pat w ω δ) (hd : RowsDom n W w ω δ κ) (hA : ∀ i J, ∃ q, A i J = .fin q)
    (hE : Fl.Elims n Pat A (n - 1) C0) (hr : ∀ i, i < n → ∑ J ∈ range n, |Fl.entries F64.toRat Pat A i J - W i J| ≤ κ / 2 ^ 53) :
    ∃ mm, DomInv n Pat w δ (n - 1) C0 mm := by
  have hw : ∀ j, 0 ≤ w j := fun j => (hp.wpos j).le
  set a := Fl.entries F64.toRat Pat A with ha
  have hpt : ∀ i J, |a i J| * w J ≤ |W i J| * w J + |a i J - W i J| ∧ |W i J| * w J ≤ |a i J| * w J + |a i J - W i J| := by
    intro i J
    have h1 : |a i J| ≤ |W i J| + |a i J - W i J| := by
      have := abs_add_le (W i J) (a i J - W i J)
      rwa [add_sub_cancel] at this
    have h2 : |W i J| ≤ |a i J| + |a i J - W i J| := by
      have := abs_add_le (a i J) (W i J - a i J)
      rwa [add_sub_cancel, abs_sub_comm] at this
    have h3 : |a i J - W i J| * w J ≤ |a i J - W i J| := mul_le_of_le_one_right (abs_nonneg _) (hd.w1 J)
    have h4 := mul_le_mul_of_nonneg_right h1 (hw J)
    have h5 := mul_le_mul_of_nonneg_right h2 (hw J)
    constructor <;> linarith
  refine dom_elims hp hE (by omega) (fun i j _ _ _ => hA i j) (fun i hi => ?_) (fun i hi => ?_)
  · have h1 := hd.sum i hi
    have h2 := hr i hi
    have h3 : wsum a w n 0 i ≤ wsum W w n 0 i + ∑ J ∈ range n, |a i J - W i J| := by
      unfold wsum
      rw [← range_eq_Ico, ← sum_add_distrib]
      exact sum_le_sum fun J _ => (hpt i J).1
    have := hd.κ1
    linarith
  · have h1 := hd.mar i hi
    have h2 := hr i hi
    have h3 : marg W w n 0 i ≤ marg a w n 0 i + ∑ J ∈ range n, |a i J - W i J| := by
      unfold marg
      rw [← range_eq_Ico, ← sum_add_distrib]
      refine sum_le_sum fun J _ => ?_
      split
      · exact (hpt i J).2
      · have := (hpt i J).1
        linarith
    linarith

/-- The elimination of a dominant axis. -/
theorem RowsNear.dom (h : RowsNear sol o n W κ) (hd : RowsDom n W w ω δ κ) (ho : 1 ≤ o ∧ o ≤ 50) (hn49 : n ≤ 2 ^ 49) :
    ∃ lu C0 mm, sol = .band ⟨true, lu⟩ ∧ lu.Rep n (o - 1) (o - 1) C0 ∧ DomInv n (InBand (o - 1) (o - 1)) w δ (n - 1) C0 mm := by
  obtain ⟨A, lu, C0, hA, e, hlu, hE, hr⟩ := h
  obtain ⟨mm, hm⟩ := dom_near (hd.pars ho hn49) hd hA hE hr
  exact ⟨lu, C0, mm, e, hlu, hm⟩

/-- The factors of a dominant axis do not grow. -/
theorem RowsNear.domFactors (h : RowsNear sol o n W κ) (hd : RowsDom n W w ω δ κ) (ho : 1 ≤ o ∧ o ≤ 50) (hn49 : n ≤ 2 ^ 49) :
    FactorsIn c sol n (o - 1) (5 * o / ω) := by
  obtain ⟨lu, C0, mm, rfl, hlu, hm⟩ := h.dom hd ho hn49
  have hp := hd.pars ho hn49
  have hω : 0 < ω := lt_of_lt_of_le (one_div_pos.2 (pow_pos two_pos _)) hd.ω0
  have hw : ∀ j, 0 ≤ w j := fun j => (hp.wpos j).le
  set a := Fl.entries F64.toRat (InBand (o - 1) (o - 1)) C0 with ha
  have hin : ∀ i j, InBand (o - 1) (o - 1) i j → a i j = (C0 i j).toRat := fun i j hb => Fl.entries_pos hb
  have hout : ∀ i j, ¬ InBand (o - 1) (o - 1) i j → a i j = 0 := fun i j hb => Fl.entries_neg hb
  have hsum : ∀ i, i < n → wsum a w n i i ≤ 2 := fun i hi => by
    have := hm.sum2 hp hi
    rwa [show min (n - 1) i = i by omega] at this
  have hlow : ∀ m i, m < i → i < n → |a i m| * wsum a w n m m ≤ 5 ∧ |a i m| ≤ 2 ^ 300 := fun m i h1 h2 => hm.low m i (by omega) h1 h2
  refine ⟨⟨true, lu⟩, fun i j => (C0 i j).toRat, rfl, fun i j hi hj hb => ?_, fun i => ?_⟩
  · have hb' : InBand (o - 1) (o - 1) i j := by unfold InBand; omega
    obtain ⟨q, hq⟩ := hm.fin i j hi hj hb'
    refine ⟨by rw [hlu.get c hi hj hb']; simp only [hq]; rfl, ?_⟩
    show |(C0 i j).toRat| ≤ _
    rw [← hin i j hb']
    rcases Nat.lt_or_ge j i with hji | hij
    · exact (hlow j i hji hi).2.trans (by decide +kernel)
    · have h1 := entry_le_wsum (a := a) (w := w) (n := n) (k := i) (i := i) hw hij hj
      exact (hp.small (h1.trans (hsum i hi))).trans (by decide +kernel)
  · have hU : ∀ m : Fin n, ∑ j, |factorU id (fun i j => i ≤ j + (o - 1) ∧ j ≤ i + (o - 1)) (fun i j => (C0 i j).toRat) n m j| ≤ wsum a w n m m / ω := by
      intro m
      have e : ∀ j : Fin n, |factorU id (fun i j => i ≤ j + (o - 1) ∧ j ≤ i + (o - 1)) (fun i j => (C0 i j).toRat) n m j| =
          (fun j : ℕ => if (m : ℕ) ≤ j then |a m j| else 0) j := by
        intro j
        unfold factorU
        simp only [Matrix.of_apply, id]
        by_cases h1 : (m : ℕ) ≤ j
        · by_cases h2 : InBand (o - 1) (o - 1) m j
          · rw [if_pos ⟨h1, by unfold InBand at h2; omega⟩, if_pos h1, hin _ _ h2]
          · rw [if_neg (by unfold InBand at h2; omega), if_pos h1, hout _ _ h2]
        · rw [if_neg (fun h => h1 h.1), if_neg h1, abs_zero]
      rw [sum_congr rfl fun j _ => e j, Fin.sum_univ_eq_sum_range (fun j : ℕ => if (m : ℕ) ≤ j then |a m j| else 0) n, ← sum_filter]
      unfold wsum
      rw [sum_div]
      have hs : {j ∈ range n | (m : ℕ) ≤ j} = Ico (m : ℕ) n := by ext j; simp; omega
      rw [hs]
      refine sum_le_sum fun j _ => ?_
      rw [le_div_iff₀ hω]
      exact mul_le_mul_of_nonneg_left (hd.w0 j) (abs_nonneg _)
    have hterm : ∀ m : Fin n, |factorL id (fun i j => i ≤ j + (o - 1) ∧ j ≤ i + (o - 1)) (fun i j => (C0 i j).toRat) n i m| *
        ∑ j, |factorU id (fun i j => i ≤ j + (o - 1) ∧ j ≤ i + (o - 1)) (fun i j => (C0 i j).toRat) n m j| ≤
        (fun m : ℕ => if m ∈ Icc (i - (o - 1) : ℕ) i then 5 / ω else 0) m := by
      intro m
      refine (mul_le_mul_of_nonneg_left (hU m) (abs_nonneg _)).trans ?_
      unfold factorL
      simp only [Matrix.of_apply, id]
      by_cases h1 : i = m
      · subst h1
        rw [if_pos rfl, if_pos (by rw [mem_Icc]; omega), abs_one, one_mul]
        exact div_le_div_of_nonneg_right ((hsum i i.isLt).trans (by norm_num)) hω.le
      · rw [if_neg h1]
        by_cases h2 : m < i ∧ (i : ℕ) ≤ m + (o - 1) ∧ (m : ℕ) ≤ i + (o - 1)
        · have h3 : (m : ℕ) < i := h2.1
          rw [if_pos h2, if_pos (by rw [mem_Icc]; omega), ← hin i m (by unfold InBand; omega), ← mul_div_assoc]
          exact div_le_div_of_nonneg_right (hlow m i h3 i.isLt).1 hω.le
        · rw [if_neg h2, abs_zero, zero_mul]
          split
          · exact div_nonneg (by norm_num) hω.le
          · exact le_rfl
    refine (sum_le_sum fun m _ => hterm m).trans ?_
    rw [Fin.sum_univ_eq_sum_range (fun m : ℕ => if m ∈ Icc (i - (o - 1) : ℕ) i then 5 / ω else 0) n, ← sum_filter, sum_const, nsmul_eq_mul]
    have hc : #{m ∈ range n | m ∈ Icc (i - (o - 1) : ℕ) i} ≤ o := by
      have h1 : {m ∈ range n | m ∈ Icc (i - (o - 1) : ℕ) i} ⊆ Icc (i - (o - 1) : ℕ) i := fun m hm => (Finset.mem_filter.1 hm).2
      refine (Finset.card_le_card h1).trans ?_
      rw [Nat.card_Icc]
      have := ho.1
      omega
    have hc' : (#{m ∈ range n | m ∈ Icc (i - (o - 1) : ℕ) i} : ℚ) ≤ o := by exact_mod_cast hc
    exact (mul_le_mul_of_nonneg_right hc' (div_nonneg (by norm_num) hω.le)).trans (le_of_eq (by ring))

/-- The solver of an axis turns finite lines of numbers up to `F` into lines of doubles up to `μ F`. -/
def AxisBounded (c : Cfg) (sol : Solver F64) (n : ℕ) (μ : ℚ) : Prop :=
  ∃ R : (ℕ → F64) → (ℕ → F64) → Prop, Fl.SolvesRel F64 c sol n R ∧ ∀ b x F, Fl.Rel R n b x → 1 / 2 ^ 800 ≤ F → μ * F ≤ 2 ^ 900 →
    (∀ i, i < n → ∃ q, b i = .fin q ∧ |q| ≤ F) → ∀ i, i < n → ∃ q, x i = .fin q ∧ IsDouble q ∧ |q| ≤ μ * F

/-- Solutions found with the factors of a dominant matrix. -/
theorem axisBounded_of {Pat : ℕ → ℕ → Prop} {C0 : ℕ → ℕ → F64} {mm : ℕ → ℕ → ℚ} (hp : DomPars n Pat w ω δ) (hm : DomInv n Pat w δ (n - 1) C0 mm)
    (hr : ∀ j i, i < n → rtouch Pat n j i * (16 / 2 ^ 53 : ℚ) ≤ δ / 8) (hs : Fl.SolvesRel F64 c sol n (Fl.Solved n Pat C0)) :
    AxisBounded c sol n (2 / δ) := by
  have hδ := hp.δpos
  refine ⟨Fl.Solved n Pat C0, hs, ?_⟩
  rintro b x F ⟨b', x', hb, hx, y, hF, hB⟩ hF0 hF1 hbF i hi
  have hF2 : F ≤ 2 / δ * F := le_mul_of_one_le_left ((one_div_nonneg.2 (pow_nonneg zero_le_two _)).trans hF0) (by
    rw [le_div_iff₀ hδ]
    have := hp.δ1
    linarith)
  have hX0 : 1 / 2 ^ 800 ≤ 2 / δ * F := hF0.trans hF2
  have hX : 0 ≤ 2 / δ * F := (one_div_nonneg.2 (pow_nonneg zero_le_two _)).trans hX0
  have eF : 2 / δ * F * (δ / 2) = F := by field_simp
  have hfw := hm.fwd hp hX0 hF1 (fun i hi => by
    obtain ⟨q, q1, q2⟩ := hbF i hi
    exact ⟨q, (hb i hi).trans q1, by rw [eF]; exact q2⟩) hF le_rfl
  have hbw := (hm.bwd hp hr hX0 hF1 (y := y) (fun i hi => by
      obtain ⟨q, q1, q2⟩ := hfw i hi
      refine ⟨q, q1, q2.trans (mul_le_mul_of_nonneg_left ?_ hX)⟩
      rw [show min n i = i by omega]
      have := hp.few n i hi
      linarith) hB).1 i (Nat.zero_le _) hi
  obtain ⟨q, q1, q2, q3⟩ := hbw
  exact ⟨q, (hx i hi).symm.trans q1, q2, q3.trans (mul_le_of_le_one_right hX (hp.w1 i))⟩

/-- The solutions of a dominant axis are bounded. -/
theorem RowsNear.domBounded (h : RowsNear sol o n W κ) (hd : RowsDom n W w ω δ κ) (ho : 1 ≤ o ∧ o ≤ 50) (hn49 : n ≤ 2 ^ 49) :
    AxisBounded c sol n (2 / δ) := by
  obtain ⟨lu, C0, mm, rfl, hlu, hm⟩ := h.dom hd ho hn49
  refine axisBounded_of (hd.pars ho hn49) hm (fun j i _ => ?_) fun buf off step b hstep hb => Fl.bandSolve_solved c hlu hstep hb
  have h1 := rtouch_band (o - 1) (o - 1) n j i
  have h2 : (rtouch (InBand (o - 1) (o - 1)) n j i : ℚ) ≤ 50 := by exact_mod_cast h1.trans (by omega)
  have := hd.δ40
  have h3 : (50 : ℚ) * (16 / 2 ^ 53) ≤ 1 / 2 ^ 40 / 8 := by norm_num
  have := mul_le_mul_of_nonneg_right h2 (show (0 : ℚ) ≤ 16 / 2 ^ 53 by norm_num)
  linarith

end

/-- Control points of an interpolation function whose axes have bounded solutions. -/
theorem ctrl_bounded {D : ℕ} {c : Cfg} {fm : Mesh (D + 1) F64} (hfm : fm.WF) {t : Template (D + 1) F64 F64} (hpos : ∀ d, 0 < t.dims d)
    (hd : ∀ d, fm.dims d = t.dims d + if t.base.periodicity d && !c.noDummy then 1 else 0) {W : Mesh (D + 1) F64} (hW : Fl.solveForControlPoints c t fm = .ok W)
    {μ F : ℚ} (hμ : 1 ≤ μ) (hR : ∀ d, AxisBounded c (t.solvers d) (t.dims d) μ) (hF : 1 / 2 ^ 800 ≤ F) (hF1 : μ ^ (D + 1) * F ≤ 2 ^ 900)
    (hb : ∀ v ∈ fm.storage, ∃ q, v = .fin q ∧ |q| ≤ F) : ∀ v ∈ W.storage, ∃ q, v = .fin q ∧ IsDouble q ∧ |q| ≤ μ ^ (D + 1) * F := by
  choose R hR1 hR2 using hR
  obtain ⟨q0, hfh⟩ := Fl.exists_holds fm hfm
  have hsp := Fl.solveForControlPoints_rel c (t := t) (fm := fm) (R := R) hpos hR1 hd hfh
  rw [hW] at hsp
  obtain ⟨G, hG0, hGh, hGR⟩ := hsp
  have hF0 : 0 ≤ F := (one_div_nonneg.2 (pow_nonneg zero_le_two _)).trans hF
  have hid : ∀ a, InRange t.dims a → ∃ b, InRange t.dims b ∧ Template.shiftIx t.base.spline.order t.base.periodicity t.dims b = a := fun a ha =>
    ⟨fun d => nodeOfRow t.base.spline.order (t.base.periodicity d) (t.dims d) (a d), fun d => (row_nodeOfRow (ha d)).1, funext fun d => (row_nodeOfRow (ha d)).2⟩
  have hupd : ∀ (a : Fin (D + 1) → ℕ) (d : Fin (D + 1)) j, InRange t.dims a → j < t.dims d → InRange t.dims (Function.update a d j) := by
    intro a d j ha hj e
    by_cases he : e = d
    · subst he; rw [Function.update_self]; exact hj
    · rw [Function.update_of_ne he]; exact ha e
  have hpw : ∀ m, m ≤ D + 1 → μ ^ m * F ≤ μ ^ (D + 1) * F := fun m hm => mul_le_mul_of_nonneg_right (pow_le_pow_right₀ hμ hm) hF0
  have key : ∀ m, m ≤ D + 1 → ∀ a, InRange t.dims a → ∃ q, G m a = .fin q ∧ (0 < m → IsDouble q) ∧ |q| ≤ μ ^ m * F := by
    intro m
    induction m with
    | zero =>
      intro _ a ha
      obtain ⟨b, hb1, hb2⟩ := hid a ha
      have h1 := hG0 b hb1
      rw [hb2] at h1
      have h2 := hfh.2.2 b (fun d => by
        have := hb1 d
        rw [hd d]
        omega)
      unfold Mesh.get at h2
      obtain ⟨q, e, hq⟩ := hb _ (List.mem_of_getElem? (rd_eq_ok_iff.1 h2))
      exact ⟨q, h1.trans e, fun h => absurd h (lt_irrefl 0), by rw [pow_zero, one_mul]; exact hq⟩
    | succ m ih =>
      intro hm a ha
      have hd : ((⟨D - m, by omega⟩ : Fin (D + 1)).rev : ℕ) = m := by rw [Fin.val_rev]; simp; omega
      set d : Fin (D + 1) := ⟨D - m, by omega⟩
      have := hR2 d _ _ (μ ^ m * F) (hGR d a ha) (hF.trans (le_mul_of_one_le_left hF0 (one_le_pow₀ hμ)))
        (by rw [← mul_assoc, ← pow_succ']; exact (hpw _ hm).trans hF1)
        (fun i hi => by
          rw [hd]
          obtain ⟨q, e, -, hq⟩ := ih (by omega) _ (hupd a d i ha hi)
          exact ⟨q, e, hq⟩) (a d) (ha d)
      rw [Function.update_eq_self, hd, ← mul_assoc, ← pow_succ'] at this
      obtain ⟨q, q1, q2, q3⟩ := this
      exact ⟨q, q1, fun _ => q2, q3⟩
  intro v hv
  obtain ⟨e, h2, h3⟩ := hGh
  obtain ⟨i, hi, hiv⟩ := List.getElem_of_mem hv
  have hi' : i < ∏ d, t.dims d := by rw [← e, ← h2]; exact hi
  have ha : InRange t.dims (decode t.dims i) := decode_inRange hpos
  have hg := h3 _ ha
  unfold Mesh.get at hg
  rw [e, indexing_decode hi', rd_eq_ok_iff, List.getElem?_eq_getElem hi, hiv] at hg
  obtain ⟨q, q1, q2, q3⟩ := key (D + 1) le_rfl _ ha
  exact ⟨q, (Option.some.inj hg).trans q1, q2 (Nat.succ_pos _), q3⟩

end Intp
