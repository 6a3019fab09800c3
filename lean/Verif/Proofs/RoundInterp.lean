import Verif.Proofs.RoundAxis

/-!
# Residual of one line, and the solver of one axis
-/

namespace Intp

open Finset BSpline

/-- Residual of a line in terms of a bound `G` of the growth of the factors; `Λ` bounds the entries of the factors. -/
theorem residual_gen {n w : ℕ} {A L U : Matrix (Fin n) (Fin n) ℚ} {b x : Fin n → ℚ} (h : SolvedDouble w A L U b x) {ω Λ : ℚ} (hw' : (w : ℚ) ≤ ω)
    (hn : n ≤ 2 ^ 49) (hL : ∀ i j, |L i j| ≤ Λ) (hU : ∀ i j, |U i j| ≤ Λ) (n1 : ω / 2 ^ 1073 * (1 + 2 ^ 49 * (Λ * (1 + Λ))) ≤ 1 / 2 ^ 200)
    (n2 : ω / 2 ^ 1073 * (2 ^ 49 * (1 + Λ)) ≤ 1 / 2 ^ 600) {G M : ℚ} (hG : ∀ i, ∑ m, |L i m| * ∑ j, |U m j| ≤ G)
    (hM : 0 ≤ M) (hx : ∀ j, |x j| ≤ M) (i : Fin n) :
    |b i - ∑ j, A i j * x j| ≤ (4 * w * G / 2 ^ 53 + 1 / 2 ^ 600) * M + 1 / 2 ^ 200 := by
  have hΛ : 0 ≤ Λ := (abs_nonneg _).trans (hL i i)
  have hw0 : (0 : ℚ) ≤ w := Nat.cast_nonneg w
  have hn' : (n : ℚ) ≤ 2 ^ 49 := by exact_mod_cast hn
  have s1 : ∑ m, |L i m| * ∑ j, |U m j| * |x j| ≤ G * M := by
    calc ∑ m, |L i m| * ∑ j, |U m j| * |x j| ≤ ∑ m, |L i m| * ∑ j, |U m j| * M := by
          refine sum_le_sum fun m _ => mul_le_mul_of_nonneg_left (sum_le_sum fun j _ => mul_le_mul_of_nonneg_left (hx j) (abs_nonneg _)) (abs_nonneg _)
      _ = (∑ m, |L i m| * ∑ j, |U m j|) * M := by
          rw [sum_mul]
          refine sum_congr rfl fun m _ => ?_
          rw [← sum_mul, mul_assoc]
      _ ≤ G * M := mul_le_mul_of_nonneg_right (hG i) hM
  have s2 : ∑ m, |L i m| * (1 + |U m m|) ≤ 2 ^ 49 * (Λ * (1 + Λ)) := by
    calc ∑ m, |L i m| * (1 + |U m m|) ≤ ∑ _m : Fin n, Λ * (1 + Λ) :=
          sum_le_sum fun m _ => mul_le_mul (hL i m) (add_le_add le_rfl (hU m m)) (by positivity) hΛ
      _ = n * (Λ * (1 + Λ)) := by rw [sum_const, card_univ, Fintype.card_fin, nsmul_eq_mul]
      _ ≤ 2 ^ 49 * (Λ * (1 + Λ)) := mul_le_mul_of_nonneg_right hn' (by positivity)
  have s3 : ∑ j, (1 + |U j j|) * |x j| ≤ 2 ^ 49 * (1 + Λ) * M := by
    calc ∑ j, (1 + |U j j|) * |x j| ≤ ∑ _j : Fin n, (1 + Λ) * M :=
          sum_le_sum fun m _ => mul_le_mul (add_le_add le_rfl (hU m m)) (hx m) (abs_nonneg _) (by positivity)
      _ = n * ((1 + Λ) * M) := by rw [sum_const, card_univ, Fintype.card_fin, nsmul_eq_mul]
      _ ≤ 2 ^ 49 * ((1 + Λ) * M) := mul_le_mul_of_nonneg_right hn' (by positivity)
      _ = 2 ^ 49 * (1 + Λ) * M := (mul_assoc _ _ _).symm
  have r := h.residual i
  have e1 : 4 * w / 2 ^ 53 * ∑ m, |L i m| * ∑ j, |U m j| * |x j| ≤ 4 * w / 2 ^ 53 * (G * M) := mul_le_mul_of_nonneg_left s1 (div_nonneg (mul_nonneg (by norm_num) hw0) (pow_nonneg zero_le_two _))
  have hs0 : 0 ≤ 1 + ∑ m, |L i m| * (1 + |U m m|) + ∑ j, (1 + |U j j|) * |x j| :=
    add_nonneg (add_nonneg zero_le_one (sum_nonneg fun m _ => by positivity)) (sum_nonneg fun m _ => by positivity)
  have n3 := mul_le_mul_of_nonneg_right n2 hM
  have hp : (0 : ℚ) < 2 ^ 1073 := pow_pos two_pos _
  have e4 : (4 * w * G / 2 ^ 53 + 1 / 2 ^ 600) * M + 1 / 2 ^ 200 = 4 * w / 2 ^ 53 * (G * M) + 1 / 2 ^ 600 * M + 1 / 2 ^ 200 := by
    generalize (1 : ℚ) / 2 ^ 600 = c; generalize (1 : ℚ) / 2 ^ 200 = c'; ring
  rw [e4]
  generalize (2 : ℚ) ^ 1073 = T at *
  have e2 : (w : ℚ) / T * (1 + ∑ m, |L i m| * (1 + |U m m|) + ∑ j, (1 + |U j j|) * |x j|) ≤ ω / T * (1 + 2 ^ 49 * (Λ * (1 + Λ)) + 2 ^ 49 * (1 + Λ) * M) :=
    mul_le_mul (div_le_div_of_nonneg_right hw' hp.le) (add_le_add (add_le_add le_rfl s2) s3) hs0 (div_nonneg (hw0.trans hw') hp.le)
  have e3 : ω / T * (1 + 2 ^ 49 * (Λ * (1 + Λ)) + 2 ^ 49 * (1 + Λ) * M) = ω / T * (1 + 2 ^ 49 * (Λ * (1 + Λ))) + ω / T * (2 ^ 49 * (1 + Λ)) * M := by ring
  rw [e3] at e2
  generalize ω / T * (1 + 2 ^ 49 * (Λ * (1 + Λ))) = a1 at *
  generalize ω / T * (2 ^ 49 * (1 + Λ)) * M = a2 at *
  generalize (1 : ℚ) / 2 ^ 600 * M = a3 at *
  generalize (1 : ℚ) / 2 ^ 200 = a4 at *
  linarith

/-- The solver of an axis holds finite factors `L`, `U` of a band matrix, with entries that are not extreme, and `∑ |L||U| ≤ G` in each row. -/
def FactorsIn (c : Cfg) (s : Solver F64) (n p : ℕ) (G : ℚ) : Prop :=
  ∃ (lu : LUState (BandMatrix F64)) (C : ℕ → ℕ → ℚ), s = .band lu ∧
    (∀ i j, i < n → j < n → i ≤ j + p ∧ j ≤ i + p → lu.store.get c i j = .ok (.fin (C i j)) ∧ |C i j| ≤ 2 ^ 400) ∧
    ∀ i : Fin n, ∑ m, |factorL id (fun i j => i ≤ j + p ∧ j ≤ i + p) C n i m| * ∑ j, |factorU id (fun i j => i ≤ j + p ∧ j ≤ i + p) C n m j| ≤ G

/-- What elimination and substitution do to finite lines, compared with rows `W`. -/
theorem line_gen {n w : ℕ} {S : ℕ → ℕ → Prop} {A C0 : ℕ → ℕ → F64} {C W : ℕ → ℕ → ℚ} {G κ ω Λ : ℚ} (hn : 0 < n) (hn49 : n ≤ 2 ^ 49) (hw1 : 1 ≤ w)
    (hw49 : w ≤ 2 ^ 49) (hω : (w : ℚ) ≤ ω) (n1 : ω / 2 ^ 1073 * (1 + 2 ^ 49 * (Λ * (1 + Λ))) ≤ 1 / 2 ^ 200)
    (n2 : ω / 2 ^ 1073 * (2 ^ 49 * (1 + Λ)) ≤ 1 / 2 ^ 600) (hΛ : 1 ≤ Λ)
    (hcl : Fl.Closed n S) (hw : ∀ i j, i < n → j < n → Fl.ops S (n - 1) i j ≤ w) (hwf : ∀ i, i < n → Fl.fops S n i ≤ w)
    (hwb : ∀ i, i < n → Fl.bops n S 0 i ≤ w) (hE : Fl.Elims n S A (n - 1) C0)
    (hA : ∀ i, i < n → ∑ J ∈ range n, |Fl.entries F64.toRat S A i J - W i J| ≤ κ / 2 ^ 53)
    (hC' : ∀ i j, i < n → j < n → S i j → C0 i j = .fin (C i j) ∧ |C i j| ≤ Λ)
    (hG : ∀ i : Fin n, ∑ m, |factorL id S C n i m| * ∑ j, |factorU id S C n m j| ≤ G) {b x : ℕ → F64} (hS : Fl.Solved n S C0 b x)
    (hx : ∀ i, i < n → (x i).IsFin) :
    (∀ i, i < n → (b i).IsFin) ∧ ∀ M, (∀ i, i < n → |(x i).toRat| ≤ M) → ∀ i, i < n →
      |(b i).toRat - ∑ j ∈ range n, W i j * (x j).toRat| ≤ (w * (4 * G + 1) + κ) / 2 ^ 53 * M + 1 / 2 ^ 200 := by
  have hfac := solvedUpTo_of_steps (R := F64.coordBack) (S := F64.valueBack) (w := w) hn hcl hE hS hw hwf hwb
    (fun i j hi hj hb => by rw [(hC' i j hi hj hb).1]; trivial) hx
  refine ⟨hfac.2.1, fun M hM i hi => ?_⟩
  have hM0 : 0 ≤ M := (abs_nonneg _).trans (hM 0 hn)
  have hsd := solvedDouble_of hw49 hfac.2.2
  have eL : factorL F64.coordBack.val S C0 n = factorL id S C n := by
    ext i j
    unfold factorL
    simp only [Matrix.of_apply]
    by_cases h1 : i = j
    · rw [if_pos h1, if_pos h1]
    · rw [if_neg h1, if_neg h1]
      by_cases h2 : j < i ∧ S i j
      · rw [if_pos h2, if_pos h2, (hC' i j i.isLt j.isLt h2.2).1]; rfl
      · rw [if_neg h2, if_neg h2]
  have eU : factorU F64.coordBack.val S C0 n = factorU id S C n := by
    ext i j
    unfold factorU
    simp only [Matrix.of_apply]
    by_cases h2 : i ≤ j ∧ S i j
    · rw [if_pos h2, if_pos h2, (hC' i j i.isLt j.isLt h2.2).1]; rfl
    · rw [if_neg h2, if_neg h2]
  rw [eL, eU] at hsd
  have res := residual_gen hsd hω hn49 (fun i j => ?_) (fun i j => ?_) n1 n2 hG hM0 (fun j => hM j j.isLt) ⟨i, hi⟩
  rotate_left
  · unfold factorL
    simp only [Matrix.of_apply]
    split
    · rw [abs_one]; exact hΛ
    · split
      · rename_i h; exact (hC' i j i.isLt j.isLt h.2).2
      · rw [abs_zero]; exact zero_le_one.trans hΛ
  · unfold factorU
    simp only [Matrix.of_apply]
    split
    · rename_i h; exact (hC' i j i.isLt j.isLt h.2).2
    · rw [abs_zero]; exact zero_le_one.trans hΛ
  simp only [storedMatrix_eq] at res
  have res' : |(b i).toRat - ∑ j ∈ range n, Fl.entries F64.toRat S A i j * (x j).toRat| ≤
      (4 * w * G / 2 ^ 53 + 1 / 2 ^ 600) * M + 1 / 2 ^ 200 := by
    rw [← Fin.sum_univ_eq_sum_range (fun j => Fl.entries F64.toRat S A i j * (x j).toRat) n]
    exact res
  have hdiff : |∑ j ∈ range n, Fl.entries F64.toRat S A i j * (x j).toRat - ∑ j ∈ range n, W i j * (x j).toRat| ≤ κ / 2 ^ 53 * M := by
    rw [← sum_sub_distrib]
    refine (abs_sum_le_sum_abs _ _).trans ?_
    calc _ ≤ ∑ j ∈ range n, |Fl.entries F64.toRat S A i j - W i j| * M := by
          refine sum_le_sum fun j hj => ?_
          rw [← sub_mul, abs_mul]
          exact mul_le_mul_of_nonneg_left (hM j (mem_range.1 hj)) (abs_nonneg _)
      _ ≤ κ / 2 ^ 53 * M := by rw [← sum_mul]; exact mul_le_mul_of_nonneg_right (hA i hi) hM0
  have tri := abs_add_le ((b i).toRat - ∑ j ∈ range n, Fl.entries F64.toRat S A i j * (x j).toRat)
    (∑ j ∈ range n, Fl.entries F64.toRat S A i j * (x j).toRat - ∑ j ∈ range n, W i j * (x j).toRat)
  rw [sub_add_sub_cancel] at tri
  have ho1 : (1 : ℚ) ≤ w := by exact_mod_cast hw1
  have hsm : (1 : ℚ) / 2 ^ 600 ≤ w / 2 ^ 53 := by
    have h1 : (1 : ℚ) / 2 ^ 600 ≤ 1 / 2 ^ 53 := by decide +kernel
    exact h1.trans (div_le_div_of_nonneg_right ho1 (by positivity))
  have := mul_le_mul_of_nonneg_right hsm hM0
  have e5 : (w * (4 * G + 1) + κ) / 2 ^ 53 * M + 1 / 2 ^ 200 = 4 * w * G / 2 ^ 53 * M + κ / 2 ^ 53 * M + w / 2 ^ 53 * M + 1 / 2 ^ 200 := by ring
  rw [e5]
  rw [add_mul] at res'
  clear n1 n2
  generalize (1 : ℚ) / 2 ^ 600 * M = a3 at *
  generalize (1 : ℚ) / 2 ^ 200 = a4 at *
  linarith

/-- What the solver of one axis does to finite lines, compared with the values `W` of the basis functions. -/
theorem line_error {c : Cfg} {lu : BandMatrix F64} {n o : ℕ} {A C0 : ℕ → ℕ → F64} {W : ℕ → ℕ → ℚ} {G κ : ℚ} (ho : 1 ≤ o ∧ o ≤ 50) (hn : 0 < n)
    (hn49 : n ≤ 2 ^ 49) (hlu : lu.Rep n (o - 1) (o - 1) C0) (hE : Fl.Elims n (InBand (o - 1) (o - 1)) A (n - 1) C0)
    (hA : ∀ i, i < n → ∑ J ∈ range n, |Fl.entries F64.toRat (InBand (o - 1) (o - 1)) A i J - W i J| ≤ κ / 2 ^ 53)
    {cc : Bool} (hG : FactorsIn c (.band ⟨cc, lu⟩) n (o - 1) G) {b x : ℕ → F64} (hS : Fl.Solved n (InBand (o - 1) (o - 1)) C0 b x)
    (hx : ∀ i, i < n → (x i).IsFin) :
    (∀ i, i < n → (b i).IsFin) ∧ ∀ M, (∀ i, i < n → |(x i).toRat| ≤ M) → ∀ i, i < n →
      |(b i).toRat - ∑ j ∈ range n, W i j * (x j).toRat| ≤ (o * (4 * G + 1) + κ) / 2 ^ 53 * M + 1 / 2 ^ 200 := by
  obtain ⟨lu', C, e, hC, hG⟩ := hG
  injection e with e
  subst e
  have hiff : (fun i j => i ≤ j + (o - 1) ∧ j ≤ i + (o - 1)) = InBand (o - 1) (o - 1) := rfl
  rw [hiff] at hG
  have ho50 : (o : ℚ) ≤ 50 := by exact_mod_cast ho.2
  refine line_gen (C := C) (ω := 50) (Λ := 2 ^ 400) hn hn49 ho.1 (by omega) ho50 (by decide +kernel) (by decide +kernel) (one_le_pow₀ (by norm_num))
    (closed_band n (o - 1) (o - 1)) (fun i j _ _ => (ops_band _ _ _ i j).trans (by omega)) (fun i _ => (fops_band _ _ n i).trans (by omega))
    (fun i _ => (bops_band n _ _ 0 i).trans (by omega)) hE hA (fun i j hi hj hb => ?_) hG hS hx
  have h1 := hlu.get c hi hj hb
  have h2 := hC i j hi hj hb
  refine ⟨?_, h2.2⟩
  have := h1.symm.trans h2.1
  injection this

/-- The solver of an axis with `n` unknowns solves finite lines of the rows `W` up to `ε M + 2^-200`, `M` the largest number of the solution. -/
def AxisSolves (c : Cfg) (sol : Solver F64) (n : ℕ) (W : ℕ → ℕ → ℚ) (ε : ℚ) : Prop :=
  ∃ R : (ℕ → F64) → (ℕ → F64) → Prop, Fl.SolvesRel F64 c sol n R ∧ ∀ b x, Fl.Rel R n b x → (∀ i, i < n → (x i).IsFin) →
    (∀ i, i < n → (b i).IsFin) ∧ ∀ M, (∀ i, i < n → |(x i).toRat| ≤ M) → ∀ i, i < n →
      |(b i).toRat - ∑ j ∈ range n, W i j * (x j).toRat| ≤ ε * M + 1 / 2 ^ 200

/-- The solver of an axis holds the factors found by elimination from a band matrix whose rows differ from those of `W` by at most `κ / 2^53`. -/
def RowsNear (sol : Solver F64) (o n : ℕ) (W : ℕ → ℕ → ℚ) (κ : ℚ) : Prop :=
  ∃ A lu C0, (∀ i J, ∃ q, A i J = .fin q) ∧ sol = .band ⟨true, lu⟩ ∧ lu.Rep n (o - 1) (o - 1) C0 ∧ Fl.Elims n (InBand (o - 1) (o - 1)) A (n - 1) C0 ∧
    ∀ i, i < n → ∑ J ∈ range n, |Fl.entries F64.toRat (InBand (o - 1) (o - 1)) A i J - W i J| ≤ κ / 2 ^ 53

theorem RowsNear.solves {c : Cfg} {sol : Solver F64} {o n : ℕ} {W : ℕ → ℕ → ℚ} {κ G : ℚ} (h : RowsNear sol o n W κ) (ho : 1 ≤ o ∧ o ≤ 50) (hn : 0 < n)
    (hn49 : n ≤ 2 ^ 49) (hG : FactorsIn c sol n (o - 1) G) : AxisSolves c sol n W ((o * (4 * G + 1) + κ) / 2 ^ 53) := by
  obtain ⟨A, lu, C0, -, rfl, hlu, hE, hA2⟩ := h
  refine ⟨Fl.Solved n (InBand (o - 1) (o - 1)) C0, fun buf off step b hstep hb => Fl.bandSolve_solved c hlu hstep hb, ?_⟩
  rintro b x ⟨b', x', hb, hx, hS⟩ hfin
  obtain ⟨r1, r2⟩ := line_error ho hn hn49 hlu hE hA2 hG hS fun i hi => by rw [hx i hi]; exact hfin i hi
  refine ⟨fun i hi => by rw [← hb i hi]; exact r1 i hi, fun M hM i hi => ?_⟩
  have := r2 M (fun j hj => by rw [hx j hj]; exact hM j hj) i hi
  rw [hb i hi] at this
  rw [sum_congr rfl fun j hj => by rw [hx j (mem_range.1 hj)]] at this
  exact this

/-- The solver of an axis holds finite factors without negative entries. -/
def FactorsPos (c : Cfg) (s : Solver F64) (n p : ℕ) : Prop :=
  ∃ (lu : LUState (BandMatrix F64)) (C : ℕ → ℕ → ℚ), s = .band lu ∧
    ∀ i j, i < n → j < n → i ≤ j + p ∧ j ≤ i + p → lu.store.get c i j = .ok (.fin (C i j)) ∧ 0 ≤ C i j ∧ C i j ≤ 2 ^ 400

/-- Factors without negative entries do not grow. -/
theorem RowsNear.growth {c : Cfg} {sol : Solver F64} {o n : ℕ} {W : ℕ → ℕ → ℚ} {κ : ℚ} (h : RowsNear sol o n W κ) (ho : 1 ≤ o ∧ o ≤ 50) (hn : 0 < n)
    (hn49 : n ≤ 2 ^ 49) (h1 : ∀ i, i < n → ∑ J ∈ range n, W i J = 1) (hκ : κ / 2 ^ 53 ≤ 1 / 8) (hp : FactorsPos c sol n (o - 1)) :
    FactorsIn c sol n (o - 1) 2 := by
  obtain ⟨lu', C, e, hC⟩ := hp
  refine ⟨lu', C, e, fun i j hi hj hb => ⟨(hC i j hi hj hb).1, by rw [abs_of_nonneg (hC i j hi hj hb).2.1]; exact (hC i j hi hj hb).2.2⟩, fun i => ?_⟩
  obtain ⟨A, lu, C0, -, e', hlu, hE, hA⟩ := h
  rw [e] at e'
  injection e' with e'
  subst e'
  have hC' : ∀ i j, i < n → j < n → InBand (o - 1) (o - 1) i j → C0 i j = .fin (C i j) := by
    intro i j hi hj hb
    have h1 := hlu.get c hi hj hb
    have h2 := hC i j hi hj (by unfold InBand at hb; omega)
    have := h1.symm.trans h2.1
    injection this
  have hiff : (InBand (o - 1) (o - 1)) = fun i j => i ≤ j + (o - 1) ∧ j ≤ i + (o - 1) := by
    funext i j; unfold InBand; exact propext (by omega)
  have eL : ∀ i j : Fin n, lwP (Fl.entries F64.coordBack.val (InBand (o - 1) (o - 1)) C0) i j =
      factorL id (fun i j => i ≤ j + (o - 1) ∧ j ≤ i + (o - 1)) C n i j := by
    intro i j
    rw [← factorL_eq, hiff]
    unfold factorL
    simp only [Matrix.of_apply]
    by_cases h1 : i = j
    · rw [if_pos h1, if_pos h1]
    · rw [if_neg h1, if_neg h1]
      by_cases h2 : j < i ∧ (i : ℕ) ≤ j + (o - 1) ∧ (j : ℕ) ≤ i + (o - 1)
      · rw [if_pos h2, if_pos h2, hC' i j i.isLt j.isLt (by unfold InBand; omega)]; rfl
      · rw [if_neg h2, if_neg h2]
  have eU : ∀ i j : Fin n, upP (Fl.entries F64.coordBack.val (InBand (o - 1) (o - 1)) C0) i j =
      factorU id (fun i j => i ≤ j + (o - 1) ∧ j ≤ i + (o - 1)) C n i j := by
    intro i j
    rw [← factorU_eq, hiff]
    unfold factorU
    simp only [Matrix.of_apply]
    by_cases h2 : i ≤ j ∧ (i : ℕ) ≤ j + (o - 1) ∧ (j : ℕ) ≤ i + (o - 1)
    · rw [if_pos h2, if_pos h2, hC' i j i.isLt j.isLt (by unfold InBand; omega)]; rfl
    · rw [if_neg h2, if_neg h2]
  set L := factorL id (fun i j => i ≤ j + (o - 1) ∧ j ≤ i + (o - 1)) C n with hLd
  set U := factorU id (fun i j => i ≤ j + (o - 1) ∧ j ≤ i + (o - 1)) C n with hUd
  have hL0 : ∀ i j, 0 ≤ L i j := by
    intro i j
    rw [hLd]
    unfold factorL
    simp only [Matrix.of_apply]
    split
    · exact zero_le_one
    · split
      · rename_i h; exact (hC i j i.isLt j.isLt h.2).2.1
      · exact le_rfl
  have hU0 : ∀ i j, 0 ≤ U i j ∧ U i j ≤ 2 ^ 400 := by
    intro i j
    rw [hUd]
    unfold factorU
    simp only [Matrix.of_apply]
    split
    · rename_i h; exact (hC i j i.isLt j.isLt h.2).2
    · exact ⟨le_rfl, pow_nonneg zero_le_two _⟩
  have hbd := fun j : Fin n => Fl.factors_bound (R := F64.coordBack) (w := o) (closed_band n (o - 1) (o - 1)) (by omega) hE
    (fun i j hi hj hb => by rw [hC' i j hi hj hb]; trivial) (fun i j _ _ => (ops_band _ _ _ i j).trans (by omega)) i.isLt j.isLt
  have ho50 : (o : ℚ) ≤ 50 := by exact_mod_cast ho.2
  have ho0 : (0 : ℚ) ≤ o := Nat.cast_nonneg o
  have hpow := pow_bound F64.u_pos.le (N := o) (by
    rw [F64.u_eq]
    linarith)
  have hpow1 : (1 + F64.u) ^ o - 1 ≤ 1 / 4 := by
    refine hpow.trans ?_
    rw [F64.u_eq]
    linarith
  have hpow0 : 0 ≤ (1 + F64.u) ^ o - 1 := by
    have := one_le_pow₀ (n := o) (show (1 : ℚ) ≤ 1 + F64.u by have := F64.u_pos; linarith)
    linarith
  -- one entry
  have hent : ∀ j : Fin n, ∑ m, L i m * U m j ≤ Fl.entries F64.toRat (InBand (o - 1) (o - 1)) A i j + 1 / 4 * ∑ m, L i m * U m j + 1 / 2 ^ 600 := by
    intro j
    have := hbd j
    rw [← Fin.sum_univ_eq_sum_range (fun m => lwP (Fl.entries F64.coordBack.val (InBand (o - 1) (o - 1)) C0) i m * upP (Fl.entries F64.coordBack.val (InBand (o - 1) (o - 1)) C0) m j) n,
      ← Fin.sum_univ_eq_sum_range (fun m => |lwP (Fl.entries F64.coordBack.val (InBand (o - 1) (o - 1)) C0) i m| * |upP (Fl.entries F64.coordBack.val (InBand (o - 1) (o - 1)) C0) m j|) n] at this
    simp only [eL, eU] at this
    rw [sum_congr rfl fun m _ => show |L i m| * |U m j| = L i m * U m j by rw [abs_of_nonneg (hL0 i m), abs_of_nonneg (hU0 m j).1]] at this
    have hP : 0 ≤ ∑ m, L i m * U m j := sum_nonneg fun m _ => mul_nonneg (hL0 i m) (hU0 m j).1
    have h1 := mul_le_mul_of_nonneg_right hpow1 hP
    have h2 : 2 * o * (1 + F64.u) ^ o * F64.η * (1 + |U j j|) ≤ 1 / 2 ^ 600 := by
      have a1 : 2 * (o : ℚ) * (1 + F64.u) ^ o ≤ 100 * (5 / 4) := mul_le_mul (by linarith) (by linarith) (by linarith) (by norm_num)
      have a2 : 1 + |U j j| ≤ 1 + 2 ^ 400 := by
        rw [abs_of_nonneg (hU0 j j).1]
        exact add_le_add le_rfl (hU0 j j).2
      have a3 : (100 : ℚ) * (5 / 4) * F64.η * (1 + 2 ^ 400) ≤ 1 / 2 ^ 600 := by decide +kernel
      refine le_trans ?_ a3
      have hη := F64.η_pos
      refine mul_le_mul (mul_le_mul_of_nonneg_right a1 hη.le) a2 (add_nonneg zero_le_one (abs_nonneg _)) (mul_nonneg (by norm_num) hη.le)
    have h3 := (abs_le.1 this).1
    have hu' : F64.coordBack.u = F64.u := rfl
    have hη' : F64.coordBack.η = F64.η := rfl
    have hv' : (F64.coordBack.val : F64 → ℚ) = F64.toRat := rfl
    rw [hu', hη', hv'] at h3
    generalize (1 : ℚ) / 2 ^ 600 = a at *
    linarith
  -- a row
  have hrow : ∑ j : Fin n, Fl.entries F64.toRat (InBand (o - 1) (o - 1)) A i j ≤ 1 + 1 / 8 := by
    rw [Fin.sum_univ_eq_sum_range (fun j => Fl.entries F64.toRat (InBand (o - 1) (o - 1)) A i j) n]
    have h1 := h1 i i.isLt
    have h2 := hA i i.isLt
    have h3 : ∑ j ∈ range n, Fl.entries F64.toRat (InBand (o - 1) (o - 1)) A i j - ∑ J ∈ range n, W i J ≤
        ∑ J ∈ range n, |Fl.entries F64.toRat (InBand (o - 1) (o - 1)) A i J - W i J| := by
      rw [← sum_sub_distrib]
      exact sum_le_sum fun j _ => le_abs_self _
    linarith
  have htot := sum_le_sum fun (j : Fin n) (_ : j ∈ univ) => hent j
  rw [sum_add_distrib, sum_add_distrib, ← mul_sum, sum_const, card_univ, Fintype.card_fin, nsmul_eq_mul] at htot
  have hn' : (n : ℚ) ≤ 2 ^ 49 := by exact_mod_cast hn49
  have hsm : (n : ℚ) * (1 / 2 ^ 600) ≤ 1 / 8 := by
    have h1 : (2 : ℚ) ^ 49 * (1 / 2 ^ 600) ≤ 1 / 8 := by decide +kernel
    exact (mul_le_mul_of_nonneg_right hn' (one_div_nonneg.2 (pow_nonneg zero_le_two _))).trans h1
  have e2 : ∑ m, |L i m| * ∑ j, |U m j| = ∑ j : Fin n, ∑ m, L i m * U m j := by
    rw [sum_comm]
    refine sum_congr rfl fun m _ => ?_
    rw [abs_of_nonneg (hL0 i m), mul_sum]
    exact sum_congr rfl fun j _ => by rw [abs_of_nonneg (hU0 m j).1]
  rw [e2]
  generalize (n : ℚ) * (1 / 2 ^ 600) = a at *
  linarith

/-- The factors of a solver, from the assembled matrix. -/
theorem rowsNear_of {c : Cfg} {o n : ℕ} {A : ℕ → ℕ → F64} {W : ℕ → ℕ → ℚ} {κ : ℚ} (ho : 1 ≤ o) (hn : o + 1 ≤ n) {m : M (CoefMat F64)} {sol : Solver F64}
    (hA : ∀ i J, ∃ q, A i J = .fin q) (hm : Ok m fun m => ∃ bm, m = .band bm ∧ bm.Rep n (o - 1) (o - 1) A) (hsol : (m >>= Fl.ofMat c) = .ok sol)
    (hA2 : ∀ i, i < n → ∑ J ∈ range n, |Fl.entries F64.toRat (InBand (o - 1) (o - 1)) A i J - W i J| ≤ κ / 2 ^ 53) : RowsNear sol o n W κ := by
  obtain ⟨m, e1, bm, rfl, hrep⟩ := hm.exists
  rw [e1, ok_bind] at hsol
  have : Spec (Fl.ofMat c (.band bm)) (fun sol => ∃ lu C0, sol = .band ⟨true, lu⟩ ∧ lu.Rep n (o - 1) (o - 1) C0 ∧
      Fl.Elims n (InBand (o - 1) (o - 1)) A (n - 1) C0) (fun _ => True) := by
    unfold Fl.ofMat LUState.compute LUState.empty
    simp only [Bool.false_eq_true, if_false]
    refine Spec.bind (Q := fun s => ∃ lu C0, s = ⟨true, lu⟩ ∧ lu.Rep n (o - 1) (o - 1) C0 ∧ Fl.Elims n (InBand (o - 1) (o - 1)) A (n - 1) C0)
      (Spec.bind (Fl.bandCompute_elims c (by omega) hrep) ?_) ?_
    · rintro lu ⟨C0, hC0⟩
      exact Spec.pure ⟨lu, C0, rfl, hC0⟩
    · rintro _ ⟨lu, C0, rfl, hC0⟩
      exact Spec.pure ⟨lu, C0, rfl, hC0⟩
  rw [hsol] at this
  obtain ⟨lu, C0, e, hlu, hE⟩ := this
  exact ⟨A, lu, C0, hA, e, hlu, hE, hA2⟩

section
variable {D : ℕ} {f : InterpFn D F64 F64} {d : Fin D} {o n : ℕ} {l : List F64} {T : List ℚ} {X : ℕ → ℚ} {s : ℕ → ℕ}

/-- A data point lies on its segment. -/
theorem AxisIn.on (h : AxisIn f d o n l T X) (hs2 : s 0 = o) (hs3 : s (n - 1) = n - 1)
    (hs : ∀ i, 0 < i → i + 1 < n → o ≤ s i ∧ s i < n ∧ i < s i ∧ s i < i + max o 2 ∧ knotFn T (s i) ≤ X i ∧ X i < knotFn T (s i + 1) ∧
      (o = 1 → X i = knotFn T (s i))) {i : ℕ} (hi : i < n) :
    o ≤ s i ∧ s i < n ∧ knotFn T (s i) ≤ X i ∧ X i ≤ knotFn T (s i + 1) ∧ knotFn T (s i) < knotFn T (s i + 1) := by
  have ho := h.ho
  have hn := h.hn
  rcases Nat.eq_zero_or_pos i with rfl | h0
  · rw [hs2, ← h.left o le_rfl]
    exact ⟨le_rfl, by omega, le_rfl, h.first.le, h.first⟩
  · by_cases h1 : i + 1 < n
    · obtain ⟨a1, a2, -, -, a5, a6, -⟩ := hs i h0 h1
      exact ⟨a1, a2, a5, a6.le, a5.trans_lt a6⟩
    · rw [show i = n - 1 by omega, hs3, ← h.right n le_rfl (by omega), show n - 1 + 1 = n by omega]
      exact ⟨by omega, by omega, h.last.le, le_rfl, h.last⟩

/-- Values of the basis functions at a data point. -/
theorem AxisIn.unity (h : AxisIn f d o n l T X) {i k : ℕ} (h1 : o ≤ k) (h2 : k < n) (h3 : knotFn T k ≤ X i) (h4 : X i ≤ knotFn T (k + 1))
    (h5 : knotFn T k < knotFn T (k + 1)) :
    (∀ J, 0 ≤ piece (knotFn T) k o J (X i)) ∧ ∑ J ∈ range n, piece (knotFn T) k o J (X i) = 1 := by
  have hlen := h.len
  refine ⟨fun J => piece_nonneg (p := o) (fun j a c => (h.mono j k (by omega) c (by omega)).trans h3)
    (fun j a c => h4.trans (h.mono (k + 1) j (by omega) a (by omega))) o J le_rfl, ?_⟩
  rw [← sum_piece_eq_one (X i) o h1 (nondeg_of_mono h.mono h5 h1 (by omega))]
  refine (sum_subset (range_mono (by omega)) fun j _ hj => ?_).symm
  by_contra hne
  have := (piece_support hne).1
  have := (piece_support hne).2
  simp only [mem_range] at hj
  omega

/-- Elimination for an axis. -/
theorem AxisIn.elims (h : AxisIn f d o n l T X) (hs1 : ∀ i, i < n → IsSeg (knotFn T) o (n - 1) (X i) (s i)) (hs2 : s 0 = o) (hs3 : s (n - 1) = n - 1)
    (hs : ∀ i, 0 < i → i + 1 < n → o ≤ s i ∧ s i < n ∧ i < s i ∧ s i < i + max o 2 ∧ knotFn T (s i) ≤ X i ∧ X i < knotFn T (s i + 1) ∧
      (o = 1 → X i = knotFn T (s i))) {w : Bool} {c : Cfg} {vals : List F64} {sol : Solver F64}
    (hsol : (Fl.assemble w c f l d n vals >>= Fl.ofMat c) = .ok sol) :
    RowsNear sol o n (fun i J => piece (knotFn T) (s i) o J (X i)) (7 * o) := by
  have ho := h.ho
  have hn := h.hn
  obtain ⟨A, hA0, hA1, hA2⟩ := h.assemble hs1 hs2 hs3 hs
  exact rowsNear_of ho.1 hn hA0 (hA1 w c vals) hsol hA2

end

end Intp
