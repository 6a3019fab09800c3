import Verif.Proofs.RoundLU
import Verif.Proofs.F64Back
import Verif.Proofs.FloatSafe
import Verif.Props.Band

/-!
# The solvers in rounded arithmetic (C76, C77)
-/

namespace Intp

open Finset

variable {K V F : Type} [CoordArith K] [ValArith V] [ScaleArith K V] [Field F] [LinearOrder F] [IsStrictOrderedRing F]

/-- Lower triangular factor held by stored numbers `C`: ones on the diagonal. -/
noncomputable def factorL (val : K → F) (Stored : ℕ → ℕ → Prop) (C : ℕ → ℕ → K) (n : ℕ) : Matrix (Fin n) (Fin n) F := by
  classical exact Matrix.of fun i j => if i = j then 1 else if j < i ∧ Stored i j then val (C i j) else 0

/-- Upper triangular factor held by stored numbers `C`. -/
noncomputable def factorU (val : K → F) (Stored : ℕ → ℕ → Prop) (C : ℕ → ℕ → K) (n : ℕ) : Matrix (Fin n) (Fin n) F := by
  classical exact Matrix.of fun i j => if i ≤ j ∧ Stored i j then val (C i j) else 0

/-- The matrix of stored numbers, zero where nothing is stored. -/
noncomputable def storedMatrix (val : K → F) (Stored : ℕ → ℕ → Prop) (A : ℕ → ℕ → K) (n : ℕ) : Matrix (Fin n) (Fin n) F := by
  classical exact Matrix.of fun i j => if Stored i j then val (A i j) else 0

/-- `L U` is `A`, and `x` is the solution of `A x = b`, up to the errors of `w` operations per number with relative error `u` and absolute
error `η`.  The errors are relative to the products of absolute values `|L||U|` and `|L||U||x|`. -/
structure SolvedUpTo {n : ℕ} (u η : F) (w : ℕ) (A L U : Matrix (Fin n) (Fin n) F) (b x : Fin n → F) : Prop where
  pivots : ∀ i, U i i ≠ 0
  factors : ∀ i j, |A i j - ∑ m, L i m * U m j| ≤
    ((1 + u) ^ w - 1) * ∑ m, |L i m| * |U m j| + 2 * w * (1 + u) ^ w * η * (1 + |U j j|)
  residual : ∀ i, |b i - ∑ j, A i j * x j| ≤ ((1 + u) ^ (3 * w) - 1) * ∑ m, |L i m| * ∑ j, |U m j| * |x j| +
    2 * w * (1 + u) ^ (2 * w) * η * (1 + ∑ m, |L i m| * (1 + |U m m|) + ∑ j, (1 + |U j j|) * |x j|)

/-- What is claimed of a solver that turns the line `off, off + step, …` of `buf` into the line of `buf'`: `get` reads the factors. -/
def RoundedSolve (R : BackK K F) (S : BackV R V) (n w : ℕ) (Stored : ℕ → ℕ → Prop) (A : ℕ → ℕ → K) (get : ℕ → ℕ → M K)
    (buf buf' : List V) (off step : ℕ) : Prop :=
  buf'.length = buf.length ∧ (∀ t, (∀ i : Fin n, t ≠ off + i * step) → buf'[t]? = buf[t]?) ∧
  ∃ (C : ℕ → ℕ → K) (b x : ℕ → V), (∀ i j, i < n → j < n → Stored i j → get i j = .ok (C i j)) ∧
    (∀ i : Fin n, buf[off + i * step]? = some (b i)) ∧ (∀ i : Fin n, buf'[off + i * step]? = some (x i)) ∧
    ((∀ i j, i < n → j < n → Stored i j → R.Fin (C i j)) → (∀ i, i < n → S.Fin (x i)) →
      (∀ i j, i < n → j < n → Stored i j → R.Fin (A i j)) ∧ (∀ i, i < n → S.Fin (b i)) ∧
      SolvedUpTo R.u R.η w (storedMatrix R.val Stored A n) (factorL R.val Stored C n) (factorU R.val Stored C n)
        (fun i => S.val (b i)) (fun i => S.val (x i)))

omit [CoordArith K] [LinearOrder F] [IsStrictOrderedRing F] in
theorem factorL_eq (val : K → F) (Stored : ℕ → ℕ → Prop) (C : ℕ → ℕ → K) (n : ℕ) (i j : Fin n) :
    factorL val Stored C n i j = lwP (Fl.entries val Stored C) i j := by
  unfold factorL lwP Fl.entries
  have h1 : (i = j) = ((i : ℕ) = j) := propext Fin.ext_iff
  have h2 : (j < i) = ((j : ℕ) < i) := rfl
  simp only [Matrix.of_apply, h1, h2]
  by_cases h : (i : ℕ) = j
  · simp [h]
  · by_cases h2 : (j : ℕ) < i
    · rw [if_neg h, if_neg h, if_pos h2]
      by_cases h3 : Stored i j
      · rw [if_pos ⟨h2, h3⟩, if_pos h3]
      · rw [if_neg (by tauto), if_neg h3]
    · rw [if_neg h, if_neg h, if_neg h2, if_neg (by tauto)]

omit [CoordArith K] [LinearOrder F] [IsStrictOrderedRing F] in
theorem factorU_eq (val : K → F) (Stored : ℕ → ℕ → Prop) (C : ℕ → ℕ → K) (n : ℕ) (i j : Fin n) :
    factorU val Stored C n i j = upP (Fl.entries val Stored C) i j := by
  unfold factorU upP Fl.entries
  have h2 : (i ≤ j) = ((i : ℕ) ≤ j) := rfl
  simp only [Matrix.of_apply, h2]
  by_cases h2 : (i : ℕ) ≤ j
  · rw [if_pos h2]
    by_cases h3 : Stored i j
    · rw [if_pos ⟨h2, h3⟩, if_pos h3]
    · rw [if_neg (by tauto), if_neg h3]
  · rw [if_neg (by tauto), if_neg h2]

omit [CoordArith K] [LinearOrder F] [IsStrictOrderedRing F] in
theorem storedMatrix_eq (val : K → F) (Stored : ℕ → ℕ → Prop) (C : ℕ → ℕ → K) (n : ℕ) (i j : Fin n) :
    storedMatrix val Stored C n i j = Fl.entries val Stored C i j := rfl

theorem solvedUpTo_of_steps {R : BackK K F} {S : BackV R V} {n w : ℕ} {Stored : ℕ → ℕ → Prop} {A C : ℕ → ℕ → K} {b x : ℕ → V} (hn : 0 < n)
    (hc : Fl.Closed n Stored) (hE : Fl.Elims n Stored A (n - 1) C) (hS : Fl.Solved n Stored C b x)
    (hw : ∀ i j, i < n → j < n → Fl.ops Stored (n - 1) i j ≤ w) (hwf : ∀ i, i < n → Fl.fops Stored n i ≤ w)
    (hwb : ∀ i, i < n → Fl.bops n Stored 0 i ≤ w)
    (hf : ∀ i j, i < n → j < n → Stored i j → R.Fin (C i j)) (hx : ∀ i, i < n → S.Fin (x i)) :
    (∀ i j, i < n → j < n → Stored i j → R.Fin (A i j)) ∧ (∀ i, i < n → S.Fin (b i)) ∧
      SolvedUpTo R.u R.η w (storedMatrix R.val Stored A n) (factorL R.val Stored C n) (factorU R.val Stored C n)
        (fun i => S.val (b i)) (fun i => S.val (x i)) := by
  obtain ⟨y, hfw, hbw⟩ := hS
  have hd : ∀ i, i < n → R.Fin (C i i) := fun i hi => hf i i hi hi (hc.1 i hi)
  have hB := hbw.bound S hc.1 hd hx
  have hF := hfw.bound S le_rfl hB.1
  refine ⟨(hE.bound R hc (by omega) hf).1, hF.1, fun i => ?_, fun i j => ?_, fun i => ?_⟩
  · rw [factorU_eq]
    unfold upP
    rw [if_pos le_rfl, Fl.entries_pos (hc.1 i i.isLt)]
    exact hB.2.1 i (Nat.zero_le _) i.isLt
  · have := Fl.factors_bound hc hn hE hf hw i.isLt j.isLt
    rw [← Fin.sum_univ_eq_sum_range (fun m => lwP (Fl.entries R.val Stored C) i m * upP (Fl.entries R.val Stored C) m j) n,
      ← Fin.sum_univ_eq_sum_range (fun m => |lwP (Fl.entries R.val Stored C) i m| * |upP (Fl.entries R.val Stored C) m j|) n] at this
    simpa only [factorL_eq, factorU_eq, storedMatrix_eq] using this
  · have hg := Fl.one_le_pow_u R.u_nonneg w
    have hη := R.η_nonneg
    have hu := R.u_nonneg
    have := Fl.residual_math (n := n) (g := (1 + R.u) ^ w - 1) (t := 2 * w * (1 + R.u) ^ w * R.η) (by linarith) (by positivity)
      (fun i j hi hj => Fl.factors_bound hc hn hE hf hw hi hj) (fun i hi => Fl.forward_bound hB.1 hfw hwf hi)
      (fun i hi => Fl.backward_bound hc.1 hd hx hbw hwb hi) i.isLt
    have e1 : (1 + ((1 + R.u) ^ w - 1)) ^ 3 = (1 + R.u) ^ (3 * w) := by rw [add_sub_cancel, ← pow_mul, mul_comm]
    have e2 : 2 * w * (1 + R.u) ^ w * R.η * (1 + ((1 + R.u) ^ w - 1)) = 2 * w * (1 + R.u) ^ (2 * w) * R.η := by
      rw [add_sub_cancel, two_mul w, pow_add]; ring
    rw [e1, e2] at this
    simp only [← Fin.sum_univ_eq_sum_range] at this
    simpa only [factorL_eq, factorU_eq, storedMatrix_eq] using this

/-! ## number of operations -/

theorem closed_band (n p q : ℕ) : Fl.Closed n (InBand p q) :=
  ⟨fun i _ => by unfold InBand; omega, fun k i j _ _ _ _ h1 h2 => by unfold InBand at *; omega⟩

theorem closed_ext (n p q : ℕ) : Fl.Closed n (InPat n p q) :=
  ⟨fun i _ => by unfold InPat InBand; omega, fun k i j _ _ _ _ h1 h2 => by unfold InPat InBand InSide at *; omega⟩

theorem ops_band (p q k i j : ℕ) : Fl.ops (InBand p q) k i j ≤ max p (q + 1) := by
  refine (Fl.ops_le_card (T := Finset.Ico (i - p) i) fun m _ h1 _ h2 _ => ?_).trans (by rw [Nat.card_Ico]; omega)
  unfold InBand at h2
  rw [mem_Ico]; omega

theorem fops_band (p q k i : ℕ) : Fl.fops (InBand p q) k i ≤ max p (q + 1) := by
  refine (Fl.fops_le_card (T := Finset.Ico (i - p) i) fun m _ h1 h2 => ?_).trans (by rw [Nat.card_Ico]; omega)
  unfold InBand at h2
  rw [mem_Ico]; omega

theorem bops_band (n p q k i : ℕ) : Fl.bops n (InBand p q) k i ≤ max p (q + 1) := by
  refine (Fl.bops_le_card (T := Finset.Ico i (i + q + 1)) fun m _ _ h1 h2 => ?_).trans (by rw [Nat.card_Ico]; omega)
  unfold InBand at h2
  rw [mem_Ico]; omega

theorem ops_le (Stored : ℕ → ℕ → Prop) {n k : ℕ} (hk : k ≤ n) (i j : ℕ) : Fl.ops Stored k i j ≤ n :=
  (Fl.ops_le_card (T := range n) fun m h _ _ _ _ => mem_range.2 (by omega)).trans (by rw [card_range])

theorem fops_le (Stored : ℕ → ℕ → Prop) (n i : ℕ) : Fl.fops Stored n i ≤ n :=
  (Fl.fops_le_card (T := range n) fun m h _ _ => mem_range.2 h).trans (by rw [card_range])

theorem bops_le (Stored : ℕ → ℕ → Prop) (n i : ℕ) : Fl.bops n Stored 0 i ≤ n :=
  (Fl.bops_le_card (T := range n) fun m _ h _ _ => mem_range.2 h).trans (by rw [card_range])

omit [ValArith V] in
theorem line_of_len [Inhabited V] {n : ℕ} {buf : List V} {off step : ℕ} (hlen : ∀ i : Fin n, off + i * step < buf.length) :
    ∃ b : ℕ → V, LineHolds buf off step n buf b := by
  refine ⟨fun i => (buf[off + i * step]?).getD default, rfl, fun i hi => ?_, fun _ _ => rfl⟩
  have : off + i * step < buf.length := hlen ⟨i, hi⟩
  simp only [List.getElem?_eq_getElem this, Option.getD_some]

/-! ## the solvers -/

/-- **C76.** The band solver in rounded arithmetic: whatever is stored, if the computed factors and the computed solution contain no infinity and no nan,
then neither do the matrix and the right-hand side, no pivot is zero, the product of the factors is the matrix and the solution satisfies the
system up to the errors in `SolvedUpTo`, with at most `max p (q + 1)` operations per number.  The size of the system does not occur in the relative errors. -/
theorem rounded_band_solver (R : BackK K F) (S : BackV R V) (c : Cfg) (n p q : ℕ) (hn : 0 < n) (hist : List (Entry K))
    (hh : ∀ w ∈ hist, w.i < n ∧ w.j < n ∧ w.i ≤ w.j + p ∧ w.j ≤ w.i + q)
    (buf : List V) (off step : ℕ) (hstep : 0 < step) (hlen : ∀ i : Fin n, off + i * step < buf.length) :
    ∃ m, buildBand c n p q hist = .ok m ∧ ∀ lu buf', Fl.bandCompute c m = .ok lu → Fl.bandSolve c lu buf off step = .ok buf' →
      RoundedSolve R S n (max p (q + 1)) (fun i j => i ≤ j + p ∧ j ≤ i + q) (entryAfter hist) (lu.get c) buf buf' off step := by
  obtain ⟨m, h1, h2⟩ := buildBand_rep c hist (n := n) (p := p) (q := q) hh
  refine ⟨m, h1, fun lu buf' hlu hbuf => ?_⟩
  have hE := Fl.bandCompute_elims c hn h2
  rw [hlu] at hE
  obtain ⟨C, hC, hE⟩ := hE
  have : Inhabited V := ⟨0⟩
  obtain ⟨b, hb⟩ := line_of_len hlen
  have hS := Fl.bandSolve_solved c hC hstep hb
  rw [hbuf] at hS
  obtain ⟨x, hx, hS⟩ := hS
  exact ⟨hx.1, fun t ht => hx.2.2 t fun i hi => ht ⟨i, hi⟩, C, b, x, fun i j hi hj h => hC.get c hi hj h, fun i => hb.2.1 i i.isLt,
    fun i => hx.2.1 i i.isLt, solvedUpTo_of_steps hn (closed_band n p q) hE hS (fun i j _ _ => ops_band p q _ i j) (fun i _ => fops_band p q n i)
      (fun i _ => bops_band n p q 0 i)⟩

/-- **C76**, matrices with wrapped side bands. -/
theorem rounded_ext_solver (R : BackK K F) (S : BackV R V) (c : Cfg) (n p q : ℕ) (hp : p < n) (hq : q < n) (hpq : p + q ≤ n)
    (hist : List (Entry K))
    (hh : ∀ w ∈ hist, w.i < n ∧ w.j < n ∧ ((w.i ≤ w.j + p ∧ w.j ≤ w.i + q) ∨ (w.i + q < w.j ∧ n ≤ w.j + p) ∨
      (w.j + p < w.i ∧ n ≤ w.i + q)))
    (buf : List V) (off step : ℕ) (hstep : 0 < step) (hlen : ∀ i : Fin n, off + i * step < buf.length) :
    ∃ m, buildExt c n p q hist = .ok m ∧ ∀ lu buf', Fl.extCompute c m = .ok lu → Fl.extSolve c lu buf off step = .ok buf' →
      RoundedSolve R S n n (fun i j => (i ≤ j + p ∧ j ≤ i + q) ∨ (i + q < j ∧ n ≤ j + p) ∨ (j + p < i ∧ n ≤ i + q)) (entryAfter hist)
        (lu.get c) buf buf' off step := by
  obtain ⟨m, h1, h2⟩ := buildExt_rep c hp hq hist hh
  refine ⟨m, h1, fun lu buf' hlu hbuf => ?_⟩
  have hE := Fl.extCompute_elims c h2
  rw [hlu] at hE
  obtain ⟨C, hC, hE⟩ := hE
  have : Inhabited V := ⟨0⟩
  obtain ⟨b, hb⟩ := line_of_len hlen
  have hS := Fl.extSolve_solved c hC hpq hstep hb
  rw [hbuf] at hS
  obtain ⟨x, hx, hS⟩ := hS
  exact ⟨hx.1, fun t ht => hx.2.2 t fun i hi => ht ⟨i, hi⟩, C, b, x, fun i j hi hj h => hC.get c hi hj h, fun i => hb.2.1 i i.isLt,
    fun i => hx.2.1 i i.isLt, solvedUpTo_of_steps (by omega) (closed_ext n p q) hE hS (fun i j _ _ => ops_le _ (by omega) i j)
      (fun i _ => fops_le _ n i) (fun i _ => bops_le _ n i)⟩

/-! ## double -/

/-- `SolvedUpTo` for `double`, with the constants. -/
structure SolvedDouble {n : ℕ} (w : ℕ) (A L U : Matrix (Fin n) (Fin n) ℚ) (b x : Fin n → ℚ) : Prop where
  pivots : ∀ i, U i i ≠ 0
  factors : ∀ i j, |A i j - ∑ m, L i m * U m j| ≤ 2 * w / 2 ^ 53 * ∑ m, |L i m| * |U m j| + w / 2 ^ 1073 * (1 + |U j j|)
  residual : ∀ i, |b i - ∑ j, A i j * x j| ≤ 4 * w / 2 ^ 53 * ∑ m, |L i m| * ∑ j, |U m j| * |x j| +
    w / 2 ^ 1073 * (1 + ∑ m, |L i m| * (1 + |U m m|) + ∑ j, (1 + |U j j|) * |x j|)

/-- `RoundedSolve` for `double`, with the constants. -/
def DoubleSolve (n w : ℕ) (Stored : ℕ → ℕ → Prop) (A : ℕ → ℕ → F64) (get : ℕ → ℕ → M F64) (buf buf' : List F64) (off step : ℕ) : Prop :=
  buf'.length = buf.length ∧ (∀ t, (∀ i : Fin n, t ≠ off + i * step) → buf'[t]? = buf[t]?) ∧
  ∃ (C : ℕ → ℕ → F64) (b x : ℕ → F64), (∀ i j, i < n → j < n → Stored i j → get i j = .ok (C i j)) ∧
    (∀ i : Fin n, buf[off + i * step]? = some (b i)) ∧ (∀ i : Fin n, buf'[off + i * step]? = some (x i)) ∧
    ((∀ i j, i < n → j < n → Stored i j → (C i j).IsFin) → (∀ i, i < n → (x i).IsFin) →
      (∀ i j, i < n → j < n → Stored i j → (A i j).IsFin) ∧ (∀ i, i < n → (b i).IsFin) ∧
      SolvedDouble w (storedMatrix F64.toRat Stored A n) (factorL F64.toRat Stored C n) (factorU F64.toRat Stored C n)
        (fun i => (b i).toRat) (fun i => (x i).toRat))

theorem pow_bound {u : ℚ} (hu : 0 ≤ u) {N : ℕ} (h : N * u ≤ 1 / 4) : (1 + u) ^ N - 1 ≤ 4 / 3 * (N * u) := by
  rcases Nat.eq_zero_or_pos N with rfl | hN
  · simp
  have hu1 : u ≤ 1 / 4 := by
    have : (1 : ℚ) ≤ N := by exact_mod_cast hN
    nlinarith
  have h1 : 1 - N * u ≤ (1 - u) ^ N := by
    have := one_add_mul_le_pow (a := -u) (by linarith) N
    rw [← sub_eq_add_neg] at this
    linarith
  have h2 : (1 + u) ^ N * (1 - u) ^ N ≤ 1 := by
    rw [← mul_pow]
    exact pow_le_one₀ (by nlinarith) (by nlinarith)
  have h3 : 0 ≤ (1 + u) ^ N := by positivity
  have h4 : (1 + u) ^ N * (1 - N * u) ≤ 1 := (mul_le_mul_of_nonneg_left h1 h3).trans h2
  set g := (1 + u) ^ N
  set v : ℚ := N * u
  have hv : 0 ≤ v := by positivity
  by_contra hc
  rw [not_le] at hc
  have : (1 + 4 / 3 * v) * (1 - v) < g * (1 - v) := mul_lt_mul_of_pos_right (by linarith) (by linarith)
  nlinarith

theorem η_eq : F64.η = 1 / 2 ^ 1075 := by unfold F64.η; rw [zpow_neg, one_div]; norm_cast

theorem solvedDouble_of {n : ℕ} {w : ℕ} {A L U : Matrix (Fin n) (Fin n) ℚ} {b x : Fin n → ℚ} (hw : w ≤ 2 ^ 49)
    (h : SolvedUpTo F64.u F64.η w A L U b x) : SolvedDouble w A L U b x := by
  have hu := F64.u_pos.le
  have hw' : (w : ℚ) ≤ 2 ^ 49 := by exact_mod_cast hw
  have hw0 : (0 : ℚ) ≤ w := Nat.cast_nonneg w
  have hue := F64.u_eq
  have hwu : w * F64.u ≤ 1 / 16 := by
    rw [hue]
    calc (w : ℚ) * (1 / 2 ^ 53) ≤ 2 ^ 49 * (1 / 2 ^ 53) := by gcongr
      _ = 1 / 16 := by norm_num
  have p1 : (1 + F64.u) ^ w - 1 ≤ 2 * w / 2 ^ 53 := by
    have := pow_bound hu (N := w) (by linarith)
    refine this.trans ?_
    have : 2 * w / 2 ^ 53 = 2 * (w * F64.u) := by rw [hue]; ring
    rw [this]
    have : 0 ≤ w * F64.u := by positivity
    linarith
  have p2 : (1 + F64.u) ^ (2 * w) ≤ 2 := by
    have := pow_bound hu (N := 2 * w) (by push_cast; linarith)
    push_cast at this
    linarith
  have p3 : (1 + F64.u) ^ (3 * w) - 1 ≤ 4 * w / 2 ^ 53 := by
    have := pow_bound hu (N := 3 * w) (by push_cast; linarith)
    push_cast at this
    refine this.trans (le_of_eq ?_)
    rw [hue]; ring
  have p0 : (1 + F64.u) ^ w ≤ 2 := by
    have : 2 * w / 2 ^ 53 = 2 * (w * F64.u) := by rw [hue]; ring
    rw [this] at p1
    linarith
  have hη : 0 ≤ F64.η := F64.η_pos.le
  have hηe : 4 * F64.η = 1 / 2 ^ 1073 := by rw [η_eq, show 1075 = 1073 + 2 from rfl, pow_add]; generalize (2 : ℚ) ^ 1073 = T; rw [mul_one_div, ← div_div]; ring
  have q : ∀ g : ℚ, g ≤ 2 → 2 * w * g * F64.η ≤ w / 2 ^ 1073 := by
    intro g hg
    have e : (w : ℚ) / 2 ^ 1073 = w * (4 * F64.η) := by rw [hηe]; ring
    rw [e]
    have := mul_le_mul_of_nonneg_left hg (mul_nonneg hw0 hη)
    nlinarith
  refine ⟨h.pivots, fun i j => (h.factors i j).trans ?_, fun i => (h.residual i).trans ?_⟩
  · refine add_le_add (mul_le_mul_of_nonneg_right p1 (Finset.sum_nonneg fun m _ => by positivity))
      (mul_le_mul_of_nonneg_right (q _ p0) (by positivity))
  · refine add_le_add (mul_le_mul_of_nonneg_right p3 (Finset.sum_nonneg fun m _ => ?_)) (mul_le_mul_of_nonneg_right (q _ p2) ?_)
    · exact mul_nonneg (abs_nonneg _) (Finset.sum_nonneg fun m _ => by positivity)
    · exact add_nonneg (add_nonneg zero_le_one (Finset.sum_nonneg fun m _ => by positivity)) (Finset.sum_nonneg fun m _ => by positivity)

theorem doubleSolve_of {n w : ℕ} {Stored : ℕ → ℕ → Prop} {A : ℕ → ℕ → F64} {get : ℕ → ℕ → M F64} {buf buf' : List F64} {off step : ℕ}
    (hw : w ≤ 2 ^ 49) (h : RoundedSolve F64.coordBack F64.valueBack n w Stored A get buf buf' off step) :
    DoubleSolve n w Stored A get buf buf' off step := by
  obtain ⟨h1, h2, C, b, x, h3, h4, h5, h6⟩ := h
  exact ⟨h1, h2, C, b, x, h3, h4, h5, fun hf hx => ⟨(h6 hf hx).1, (h6 hf hx).2.1, solvedDouble_of hw (h6 hf hx).2.2⟩⟩

/-- **C77.** The band solver in `double`.  Factorisation and substitution always finish; if the computed factors and the computed solution are finite, see
`DoubleSolve`: the residual is at most `4 w / 2^53` relative to `|L||U||x|`, with `w = max p (q + 1)`, whatever the size of the system. -/
theorem double_band_solver (c : Cfg) (n p q : ℕ) (hn : 0 < n) (hp : p ≤ 2 ^ 49) (hq : q < 2 ^ 49) (hist : List (Entry F64))
    (hh : ∀ w ∈ hist, w.i < n ∧ w.j < n ∧ w.i ≤ w.j + p ∧ w.j ≤ w.i + q)
    (buf : List F64) (off step : ℕ) (hstep : 0 < step) (hlen : ∀ i : Fin n, off + i * step < buf.length) :
    ∃ m lu buf', buildBand c n p q hist = .ok m ∧ Fl.bandCompute c m = .ok lu ∧ Fl.bandSolve c lu buf off step = .ok buf' ∧
      DoubleSolve n (max p (q + 1)) (fun i j => i ≤ j + p ∧ j ≤ i + q) (entryAfter hist) (lu.get c) buf buf' off step := by
  obtain ⟨m, h1, h2⟩ := rounded_band_solver F64.coordBack F64.valueBack c n p q hn hist hh buf off step hstep hlen
  obtain ⟨m', h1', h3⟩ := buildBand_rep c hist (n := n) (p := p) (q := q) hh
  obtain rfl : m = m' := by rw [h1] at h1'; exact Except.ok.inj h1'
  have hE : Fl.DivE F64 F64 (fun _ => False) := fun h => by rcases h with h | h <;> exact h
  obtain ⟨lu, hlu, hlu'⟩ := Ok.exists (Fl.bandCompute_safe (c := c) (V := F64) hE hn ⟨_, h3⟩)
  obtain ⟨buf', hb, -⟩ := Ok.exists (Fl.bandSolve_safe (c := c) (buf := buf) (N := buf.length) (off := off) (step := step) hE hlu'
    ⟨rfl, fun i hi => hlen ⟨i, hi⟩⟩)
  exact ⟨m, lu, buf', h1, hlu, hb, doubleSolve_of (by omega) (h2 lu buf' hlu hb)⟩

/-- **C77**, matrices with wrapped side bands: there the last rows and columns take part in every step, and `w = n`. -/
theorem double_ext_solver (c : Cfg) (n p q : ℕ) (hp : p < n) (hq : q < n) (hpq : p + q ≤ n) (hn : n ≤ 2 ^ 49) (hist : List (Entry F64))
    (hh : ∀ w ∈ hist, w.i < n ∧ w.j < n ∧ ((w.i ≤ w.j + p ∧ w.j ≤ w.i + q) ∨ (w.i + q < w.j ∧ n ≤ w.j + p) ∨
      (w.j + p < w.i ∧ n ≤ w.i + q)))
    (buf : List F64) (off step : ℕ) (hstep : 0 < step) (hlen : ∀ i : Fin n, off + i * step < buf.length) :
    ∃ m lu buf', buildExt c n p q hist = .ok m ∧ Fl.extCompute c m = .ok lu ∧ Fl.extSolve c lu buf off step = .ok buf' ∧
      DoubleSolve n n (fun i j => (i ≤ j + p ∧ j ≤ i + q) ∨ (i + q < j ∧ n ≤ j + p) ∨ (j + p < i ∧ n ≤ i + q)) (entryAfter hist)
        (lu.get c) buf buf' off step := by
  obtain ⟨m, h1, h2⟩ := rounded_ext_solver F64.coordBack F64.valueBack c n p q hp hq hpq hist hh buf off step hstep hlen
  obtain ⟨m', h1', h3⟩ := buildExt_rep c hp hq hist hh
  obtain rfl : m = m' := by rw [h1] at h1'; exact Except.ok.inj h1'
  have hE : Fl.DivE F64 F64 (fun _ => False) := fun h => by rcases h with h | h <;> exact h
  obtain ⟨lu, hlu, hlu'⟩ := Ok.exists (Fl.extCompute_safe (c := c) (V := F64) hE ⟨_, h3⟩)
  obtain ⟨buf', hb, -⟩ := Ok.exists (Fl.extSolve_safe (c := c) (buf := buf) (N := buf.length) (off := off) (step := step) hE hlu' hpq
    ⟨rfl, fun i hi => hlen ⟨i, hi⟩⟩)
  exact ⟨m, lu, buf', h1, hlu, hb, doubleSolve_of hn (h2 lu buf' hlu hb)⟩

/-- A tridiagonal system in `double`, on every second cell of a buffer, meets the hypotheses: all computed factors are finite and so is the computed
solution `(3/14, 1/7, 3/14)`, whose entries are not doubles. -/
example : ((do
    let m ← buildBand ⟨true, false⟩ 3 1 1 [⟨0, 0, F64.fin 4⟩, ⟨1, 1, .fin 4⟩, ⟨2, 2, .fin 4⟩, ⟨0, 1, .fin 1⟩, ⟨1, 2, .fin 1⟩,
      ⟨1, 0, .fin 1⟩, ⟨2, 1, .fin 1⟩]
    let lu ← Fl.bandCompute ⟨true, false⟩ m
    let buf ← Fl.bandSolve ⟨true, false⟩ lu [F64.fin 9, .fin 1, .fin 9, .fin 1, .fin 9, .fin 1] 1 2
    pure (lu.bands.storage, buf) : M (List F64 × List F64))).toOption =
    some ([.fin 0, .fin 4, .fin (1 / 4), .fin 1, .fin (15 / 4), .fin (4803839602528529 / 18014398509481984), .fin 1,
        .fin (4203359652212463 / 1125899906842624), .fin 0],
      [.fin 9, .fin (1930114126015927 / 9007199254740992), .fin 9, .fin (2573485501354569 / 18014398509481984), .fin 9,
        .fin (1930114126015927 / 9007199254740992)]) := by decide +kernel

/-- A cyclic tridiagonal system in `double` meets the hypotheses of the second theorem. -/
example : ((do
    let m ← buildExt ⟨true, false⟩ 4 1 1 [⟨0, 0, F64.fin 4⟩, ⟨1, 1, .fin 4⟩, ⟨2, 2, .fin 4⟩, ⟨3, 3, .fin 4⟩, ⟨0, 1, .fin 1⟩, ⟨1, 2, .fin 1⟩,
      ⟨1, 0, .fin 1⟩, ⟨2, 1, .fin 1⟩, ⟨2, 3, .fin 1⟩, ⟨3, 2, .fin 1⟩, ⟨0, 3, .fin 1⟩, ⟨3, 0, .fin 1⟩]
    let lu ← Fl.extCompute ⟨true, false⟩ m
    let buf ← Fl.extSolve ⟨true, false⟩ lu [F64.fin 1, .fin 2, .fin 3, .fin 5] 0 1
    pure (lu.right.storage ++ lu.bottom.storage, buf) : M (List F64 × List F64))).toOption =
    some ([.fin 1, .fin (-1 / 4), .fin (1 / 4), .fin (-4803839602528529 / 72057594037927936)],
      [.fin (-3002399751580329 / 18014398509481984), .fin (8256599316845907 / 18014398509481984), .fin (3002399751580331 / 9007199254740992),
        .fin (1360462387434837 / 1125899906842624)]) := by decide +kernel

end Intp
