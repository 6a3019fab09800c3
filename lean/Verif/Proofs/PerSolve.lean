import Verif.Proofs.RoundInterp

/-!
# The solver of a periodic axis in `double`
-/

namespace Intp

open Finset BSpline

/-- The solver of an axis holds finite factors `L`, `U` of an extended band matrix, with entries that are not extreme, and `∑ |L||U| ≤ G` in each row. -/
def FactorsExt (c : Cfg) (s : Solver F64) (n p : ℕ) (G : ℚ) : Prop :=
  ∃ (lu : LUState (ExtBandMatrix F64)) (C : ℕ → ℕ → ℚ), s = .ext lu ∧
    (∀ i j, i < n → j < n → InPat n p p i j → lu.store.get c i j = .ok (.fin (C i j)) ∧ |C i j| ≤ 2 ^ 300) ∧
    ∀ i : Fin n, ∑ m, |factorL id (InPat n p p) C n i m| * ∑ j, |factorU id (InPat n p p) C n m j| ≤ G

/-- The solver of an axis holds the factors found by elimination from an extended band matrix whose rows differ from those of `W` by at most `κ / 2^53`. -/
def RowsExt (sol : Solver F64) (p n : ℕ) (W : ℕ → ℕ → ℚ) (κ : ℚ) : Prop :=
  ∃ A lu C0, (∀ i J, ∃ q, A i J = .fin q) ∧ sol = .ext ⟨true, lu⟩ ∧ lu.Rep n p p C0 ∧ Fl.Elims n (InPat n p p) A (n - 1) C0 ∧
    ∀ i, i < n → ∑ J ∈ range n, |Fl.entries F64.toRat (InPat n p p) A i J - W i J| ≤ κ / 2 ^ 53

theorem RowsExt.solves {c : Cfg} {sol : Solver F64} {p n : ℕ} {W : ℕ → ℕ → ℚ} {κ G : ℚ} (h : RowsExt sol p n W κ) (hp : p + p ≤ n) (hn : 0 < n)
    (hn49 : n ≤ 2 ^ 49) (hG : FactorsExt c sol n p G) : AxisSolves c sol n W ((n * (4 * G + 1) + κ) / 2 ^ 53) := by
  obtain ⟨A, lu, C0, -, rfl, hlu, hE, hA2⟩ := h
  refine ⟨Fl.Solved n (InPat n p p) C0, fun buf off step b hstep hb => Fl.extSolve_solved c hlu hp hstep hb, ?_⟩
  rintro b x ⟨b', x', hb, hx, hS⟩ hfin
  obtain ⟨lu', C, e, hC, hG⟩ := hG
  injection e with e
  subst e
  have hω : (n : ℚ) ≤ 2 ^ 49 := by exact_mod_cast hn49
  obtain ⟨r1, r2⟩ := line_gen (C := C) (ω := 2 ^ 49) (Λ := 2 ^ 300) hn hn49 hn hn49 hω (by decide +kernel) (by decide +kernel) (one_le_pow₀ (by norm_num))
    (closed_ext n p p) (fun i j _ _ => (ops_le _ (by omega) i j)) (fun i _ => fops_le _ n i) (fun i _ => bops_le _ n i) hE hA2 (fun i j hi hj hb => by
      have h1 := hlu.get c hi hj hb
      have h2 := hC i j hi hj hb
      refine ⟨?_, h2.2⟩
      have := h1.symm.trans h2.1
      injection this) hG hS fun i hi => by rw [hx i hi]; exact hfin i hi
  refine ⟨fun i hi => by rw [← hb i hi]; exact r1 i hi, fun M hM i hi => ?_⟩
  have := r2 M (fun j hj => by rw [hx j hj]; exact hM j hj) i hi
  rw [hb i hi] at this
  rw [sum_congr rfl fun j hj => by rw [hx j (mem_range.1 hj)]] at this
  exact this

theorem RowsExt.mono {sol : Solver F64} {p n : ℕ} {W : ℕ → ℕ → ℚ} {κ κ' : ℚ} (h : RowsExt sol p n W κ) (hk : κ ≤ κ') : RowsExt sol p n W κ' := by
  obtain ⟨A, lu, C0, h0, h1, h2, h3, h4⟩ := h
  exact ⟨A, lu, C0, h0, h1, h2, h3, fun i hi => (h4 i hi).trans (div_le_div_of_nonneg_right hk (by positivity))⟩

/-- Changing one row. -/
theorem RowsExt.update {sol : Solver F64} {p n : ℕ} {W : ℕ → ℕ → ℚ} {κ δ : ℚ} (h : RowsExt sol p n W κ) (hδ : 0 ≤ δ) {i : ℕ} {V : ℕ → ℚ}
    (hV : ∑ J ∈ range n, |V J - W i J| ≤ δ / 2 ^ 53) : RowsExt sol p n (Function.update W i V) (κ + δ) := by
  obtain ⟨A, lu, C0, h0, h1, h2, h3, h4⟩ := h
  refine ⟨A, lu, C0, h0, h1, h2, h3, fun k hk => ?_⟩
  by_cases hki : k = i
  · subst hki
    rw [Function.update_self]
    calc _ ≤ ∑ J ∈ range n, (|Fl.entries F64.toRat (InPat n p p) A k J - W k J| + |V J - W k J|) :=
          sum_le_sum fun J _ => by rw [abs_sub_comm (V J)]; exact abs_sub_le _ _ _
      _ ≤ κ / 2 ^ 53 + δ / 2 ^ 53 := by rw [sum_add_distrib]; exact add_le_add (h4 k hk) hV
      _ = _ := by ring
  · rw [Function.update_of_ne hki]
    refine (h4 k hk).trans (div_le_div_of_nonneg_right (by linarith) (by positivity))

/-- The factors of a solver, from the assembled matrix. -/
theorem rowsExt_of {c : Cfg} {p n : ℕ} {A : ℕ → ℕ → F64} {W : ℕ → ℕ → ℚ} {κ : ℚ} {m : M (CoefMat F64)} {sol : Solver F64}
    (hA : ∀ i J, ∃ q, A i J = .fin q) (hm : Ok m fun m => ∃ bm, m = .ext bm ∧ bm.Rep n p p A) (hsol : (m >>= Fl.ofMat c) = .ok sol)
    (hA2 : ∀ i, i < n → ∑ J ∈ range n, |Fl.entries F64.toRat (InPat n p p) A i J - W i J| ≤ κ / 2 ^ 53) : RowsExt sol p n W κ := by
  obtain ⟨m, e1, bm, rfl, hrep⟩ := hm.exists
  rw [e1, ok_bind] at hsol
  have : Spec (Fl.ofMat c (.ext bm)) (fun sol => ∃ lu C0, sol = .ext ⟨true, lu⟩ ∧ lu.Rep n p p C0 ∧
      Fl.Elims n (InPat n p p) A (n - 1) C0) (fun _ => True) := by
    unfold Fl.ofMat LUState.compute LUState.empty
    simp only [Bool.false_eq_true, if_false]
    refine Spec.bind (Q := fun s => ∃ lu C0, s = ⟨true, lu⟩ ∧ lu.Rep n p p C0 ∧ Fl.Elims n (InPat n p p) A (n - 1) C0)
      (Spec.bind (Fl.extCompute_elims c hrep) ?_) ?_
    · rintro lu ⟨C0, hC0⟩
      exact Spec.pure ⟨lu, C0, rfl, hC0⟩
    · rintro _ ⟨lu, C0, rfl, hC0⟩
      exact Spec.pure ⟨lu, C0, rfl, hC0⟩
  rw [hsol] at this
  obtain ⟨lu, C0, e, hlu, hE⟩ := this
  exact ⟨A, lu, C0, hA, e, hlu, hE, hA2⟩

end Intp
