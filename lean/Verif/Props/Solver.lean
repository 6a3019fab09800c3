import Verif.Props.Band

/-!
# Properties of the LU solvers (C10-C13)
-/

namespace Intp

open Finset

variable {K V : Type} [Field K] [DecidableEq K] [AddCommGroup V] [Module K V]

/-- Factorise and solve, as `BandLU<BandMatrix>{mat}.solve_in_place(line)`. -/
def bandSolve (c : Cfg) (m : BandMatrix K) (buf : List V) (off step : ℕ) : M (List V) := do
  let lu ← m.computeImpl c
  lu.solveInPlace c buf off step

/-- Factorise and solve, as `BandLU<ExtendedBandMatrix>{mat}.solve_in_place(line)`. -/
def extSolve (c : Cfg) (m : ExtBandMatrix K) (buf : List V) (off step : ℕ) : M (List V) := do
  let lu ← m.computeImpl c
  lu.solveInPlace c buf off step

/-- Specification of in-place solving on the line `off, off+step, …` of a buffer: on success nothing off the line has changed and the new
line values `x` satisfy `A x = b` for the old line values `b`; the only failure is division by zero, and then some leading square block
of `A` is singular. -/
def SolvesLine {n : ℕ} (A : Matrix (Fin n) (Fin n) K) (buf : List V) (off step : ℕ) (run : M (List V)) : Prop :=
  match run with
  | .ok buf' => buf'.length = buf.length ∧ (∀ t, (∀ i : Fin n, t ≠ off + i * step) → buf'[t]? = buf[t]?) ∧
      ∃ x b : Fin n → V, (∀ i : Fin n, buf'[off + i * step]? = some (x i)) ∧ (∀ i : Fin n, buf[off + i * step]? = some (b i)) ∧
        ∀ i, ∑ j, A i j • x j = b i
  | .error e => e = .divZero ∧ ∃ (r : ℕ) (hr : r ≤ n), (A.submatrix (Fin.castLE hr) (Fin.castLE hr)).det = 0

theorem lead_matrixOf {n r : ℕ} (hist : List (Entry K)) (hr : r ≤ n) :
    (matrixOf n hist).submatrix (Fin.castLE hr) (Fin.castLE hr) = lead (entryAfter hist) r := by
  ext i j; simp [matrixOf, lead]

/-- From the two refinement specifications to `SolvesLine`. -/
theorem solvesLine_of_specs {Mat : Type} {n : ℕ} {hist : List (Entry K)} {buf : List V} {off step : ℕ} {run : M Mat}
    {slv : Mat → M (List V)} {P : Mat → (ℕ → ℕ → K) → Prop}
    (hlen : ∀ i : Fin n, off + i * step < buf.length)
    (h1 : Spec run (fun lu => ∃ C, P lu C ∧ LUInv n (entryAfter hist) n C) (PivotErr n (entryAfter hist)))
    (h2 : ∀ lu C b, P lu C → LineHolds buf off step n buf b → Spec (slv lu) (SolvePost buf off step n C b) (DiagErr n C)) :
    SolvesLine (matrixOf n hist) buf off step (run >>= slv) := by
  set b : ℕ → V := fun i => (buf[off + i * step]?).getD 0
  have hb : LineHolds buf off step n buf b := by
    refine ⟨rfl, fun i hi => ?_, fun _ _ => rfl⟩
    have := hlen ⟨i, hi⟩
    simp only [b]
    rw [List.getElem?_eq_getElem this]; rfl
  have key : Spec (run >>= slv)
      (fun buf' => ∃ x, LineHolds buf off step n buf' x ∧ ∀ i < n, ∑ j ∈ range n, entryAfter hist i j • x j = b i)
      (PivotErr n (entryAfter hist)) := by
    refine Spec.bind h1 ?_
    rintro lu ⟨C, hP, hinv⟩
    refine Spec.mono (h2 lu C b hP hb) ?_ ?_
    · rintro buf' ⟨x, y, hx, hf, hbw⟩
      exact ⟨x, hx, lu_solves hinv hf hbw⟩
    · rintro e ⟨rfl, r, hr, h0⟩
      refine ⟨rfl, r, hr, ?_⟩
      rw [hinv.det_lead (by omega) (by omega)]
      exact Finset.prod_eq_zero (mem_range.2 (Nat.lt_succ_self r)) h0
  unfold SolvesLine
  cases hrun : run >>= slv with
  | ok buf' =>
    rw [hrun] at key
    obtain ⟨x, hx, hsol⟩ := key
    refine ⟨hx.1, fun t ht => hx.2.2 t (fun i hi => ht ⟨i, hi⟩), fun i => x i, fun i => b i, fun i => hx.2.1 i i.isLt,
      fun i => hb.2.1 i i.isLt, fun i => ?_⟩
    have := hsol i i.isLt
    rw [← Fin.sum_univ_eq_sum_range (fun j => entryAfter hist i j • x j) n] at this
    exact this
  | error e =>
    rw [hrun] at key
    obtain ⟨he, r, hr, h0⟩ := key
    exact ⟨he, r + 1, hr, by rw [lead_matrixOf]; exact h0⟩

/-- **C10.** The band solver: for every matrix written into a band matrix and every line of any buffer, see `SolvesLine`. -/
theorem band_solver_solves (c : Cfg) (n p q : ℕ) (hn : 0 < n) (hist : List (Entry K))
    (hh : ∀ w ∈ hist, w.i < n ∧ w.j < n ∧ w.i ≤ w.j + p ∧ w.j ≤ w.i + q)
    (buf : List V) (off step : ℕ) (hstep : 0 < step) (hlen : ∀ i : Fin n, off + i * step < buf.length) :
    ∃ m, buildBand c n p q hist = .ok m ∧ SolvesLine (matrixOf n hist) buf off step (bandSolve c m buf off step) := by
  obtain ⟨m, h1, h2⟩ := buildBand_rep c hist (n := n) (p := p) (q := q) hh
  have hoff : ∀ i j, i < n → j < n → ¬ InBand p q i j → entryAfter hist i j = 0 := fun i j _ _ h =>
    entryAfter_off (P := fun i j => InBand p q i j) (fun w hw => (hh w hw).2.2) h
  refine ⟨m, h1, solvesLine_of_specs (P := fun lu C => BandMatrix.Rep n p q lu C ∧
    ∀ i j, i < n → j < n → ¬ InBand p q i j → C i j = 0) hlen ?_ ?_⟩
  · exact Spec.imp (BandMatrix.computeImpl_spec c hn h2 hoff) fun lu ⟨C, a, b, d⟩ => ⟨C, ⟨a, d⟩, b⟩
  · rintro lu C b ⟨hP, hC⟩ hb
    exact BandMatrix.solveInPlace_spec c hP hC hstep hb

/-- **C10**, for the solver object: constructed from the matrix or given it by `compute`, its `solve_in_place` solves the line. -/
theorem band_solver_object (c : Cfg) (n p q : ℕ) (hn : 0 < n) (hist : List (Entry K))
    (hh : ∀ w ∈ hist, w.i < n ∧ w.j < n ∧ w.i ≤ w.j + p ∧ w.j ≤ w.i + q)
    (buf : List V) (off step : ℕ) (hstep : 0 < step) (hlen : ∀ i : Fin n, off + i * step < buf.length) (dflt : BandMatrix K) :
    ∃ m, buildBand c n p q hist = .ok m ∧
      SolvesLine (matrixOf n hist) buf off step
        (LUState.ofMatrix (BandMatrix.computeImpl c) m >>= fun s => s.solve (BandMatrix.solveInPlace c) buf off step) ∧
      SolvesLine (matrixOf n hist) buf off step
        ((LUState.empty dflt).compute (BandMatrix.computeImpl c) m >>= fun s => s.solve (BandMatrix.solveInPlace c) buf off step) := by
  obtain ⟨m, h1, h2⟩ := band_solver_solves (V := V) c n p q hn hist hh buf off step hstep hlen
  refine ⟨m, h1, ?_, ?_⟩
  · have : (LUState.ofMatrix (BandMatrix.computeImpl c) m >>= fun s => s.solve (BandMatrix.solveInPlace c) buf off step) =
        bandSolve c m buf off step := by
      unfold bandSolve LUState.ofMatrix LUState.solve
      cases m.computeImpl c <;> rfl
    rw [this]; exact h2
  · have : ((LUState.empty dflt).compute (BandMatrix.computeImpl c) m >>= fun s => s.solve (BandMatrix.solveInPlace c) buf off step) =
        bandSolve c m buf off step := by
      unfold bandSolve LUState.compute LUState.empty LUState.solve
      cases m.computeImpl c <;> rfl
    rw [this]; exact h2

/-- A 3×3 tridiagonal system solved on every second cell of a buffer. -/
example : ∃ m : BandMatrix ℚ, buildBand ⟨true, false⟩ 3 1 1 [⟨0, 0, 4⟩, ⟨1, 1, 4⟩, ⟨2, 2, 4⟩, ⟨0, 1, 1⟩, ⟨1, 2, 1⟩, ⟨1, 0, 1⟩, ⟨2, 1, 2⟩] =
      .ok m ∧ bandSolve ⟨true, false⟩ m [(100 : ℚ), 6, 101, 12, 102, 16] 1 2 = .ok [100, 1, 101, 2, 102, 3] :=
  ⟨_, rfl, by decide +kernel⟩

/-- **C11.** The solver for matrices with wrapped side bands, for `n ≥ p + q`, `n > p`, `n > q`. -/
theorem ext_solver_solves (c : Cfg) (n p q : ℕ) (hp : p < n) (hq : q < n) (hpq : p + q ≤ n) (hist : List (Entry K))
    (hh : ∀ w ∈ hist, w.i < n ∧ w.j < n ∧ ((w.i ≤ w.j + p ∧ w.j ≤ w.i + q) ∨ (w.i + q < w.j ∧ n ≤ w.j + p) ∨
      (w.j + p < w.i ∧ n ≤ w.i + q)))
    (buf : List V) (off step : ℕ) (hstep : 0 < step) (hlen : ∀ i : Fin n, off + i * step < buf.length) :
    ∃ m, buildExt c n p q hist = .ok m ∧ SolvesLine (matrixOf n hist) buf off step (extSolve c m buf off step) := by
  obtain ⟨m, h1, h2⟩ := buildExt_rep c hp hq hist hh
  have hoff : ∀ i j, i < n → j < n → ¬ InPat n p q i j → entryAfter hist i j = 0 := fun i j _ _ h =>
    entryAfter_off (P := fun i j => InPat n p q i j) (fun w hw => (hh w hw).2.2) h
  refine ⟨m, h1, solvesLine_of_specs (P := fun lu C => ExtBandMatrix.Rep n p q lu C ∧
    ∀ i j, i < n → j < n → ¬ InPat n p q i j → C i j = 0) hlen ?_ ?_⟩
  · exact Spec.imp (ExtBandMatrix.computeImpl_spec c h2 hoff) fun lu ⟨C, a, b, d⟩ => ⟨C, ⟨a, d⟩, b⟩
  · rintro lu C b ⟨hP, hC⟩ hb
    exact ExtBandMatrix.solveInPlace_spec c hP hpq hC hstep hb

/-- **C11**, for the solver object: constructed from the matrix or given it by `compute`, its `solve_in_place` solves the line. -/
theorem ext_solver_object (c : Cfg) (n p q : ℕ) (hp : p < n) (hq : q < n) (hpq : p + q ≤ n) (hist : List (Entry K))
    (hh : ∀ w ∈ hist, w.i < n ∧ w.j < n ∧ ((w.i ≤ w.j + p ∧ w.j ≤ w.i + q) ∨ (w.i + q < w.j ∧ n ≤ w.j + p) ∨
      (w.j + p < w.i ∧ n ≤ w.i + q)))
    (buf : List V) (off step : ℕ) (hstep : 0 < step) (hlen : ∀ i : Fin n, off + i * step < buf.length) (dflt : ExtBandMatrix K) :
    ∃ m, buildExt c n p q hist = .ok m ∧
      SolvesLine (matrixOf n hist) buf off step
        (LUState.ofMatrix (ExtBandMatrix.computeImpl c) m >>= fun s => s.solve (ExtBandMatrix.solveInPlace c) buf off step) ∧
      SolvesLine (matrixOf n hist) buf off step
        ((LUState.empty dflt).compute (ExtBandMatrix.computeImpl c) m >>= fun s => s.solve (ExtBandMatrix.solveInPlace c) buf off step) := by
  obtain ⟨m, h1, h2⟩ := ext_solver_solves (V := V) c n p q hp hq hpq hist hh buf off step hstep hlen
  refine ⟨m, h1, ?_, ?_⟩
  · have : (LUState.ofMatrix (ExtBandMatrix.computeImpl c) m >>= fun s => s.solve (ExtBandMatrix.solveInPlace c) buf off step) =
        extSolve c m buf off step := by
      unfold extSolve LUState.ofMatrix LUState.solve
      cases m.computeImpl c <;> rfl
    rw [this]; exact h2
  · have : ((LUState.empty dflt).compute (ExtBandMatrix.computeImpl c) m >>= fun s => s.solve (ExtBandMatrix.solveInPlace c) buf off step) =
        extSolve c m buf off step := by
      unfold extSolve LUState.compute LUState.empty LUState.solve
      cases m.computeImpl c <;> rfl
    rw [this]; exact h2

/-- A 4×4 periodic tridiagonal system, factorised and solved by the model. -/
example : ∃ m : ExtBandMatrix ℚ, buildExt ⟨true, false⟩ 4 1 1 [⟨0, 0, 4⟩, ⟨1, 1, 4⟩, ⟨2, 2, 4⟩, ⟨3, 3, 4⟩, ⟨0, 1, 1⟩, ⟨1, 2, 1⟩, ⟨2, 3, 1⟩,
      ⟨1, 0, 1⟩, ⟨2, 1, 1⟩, ⟨3, 2, 1⟩, ⟨0, 3, 1⟩, ⟨3, 0, 1⟩] = .ok m ∧
    extSolve ⟨true, false⟩ m [(6 : ℚ), 6, 6, 6] 0 1 = .ok [1, 1, 1, 1] := ⟨_, rfl, by decide +kernel⟩

/-- The same system solved by a solver object, on a line that does not begin at the first cell. -/
example : ∃ m : ExtBandMatrix ℚ, buildExt ⟨true, false⟩ 4 1 1 [⟨0, 0, 4⟩, ⟨1, 1, 4⟩, ⟨2, 2, 4⟩, ⟨3, 3, 4⟩, ⟨0, 1, 1⟩, ⟨1, 2, 1⟩, ⟨2, 3, 1⟩,
      ⟨1, 0, 1⟩, ⟨2, 1, 1⟩, ⟨3, 2, 1⟩, ⟨0, 3, 1⟩, ⟨3, 0, 1⟩] = .ok m ∧
    (LUState.ofMatrix (ExtBandMatrix.computeImpl ⟨true, false⟩) m >>= fun s =>
      s.solve (ExtBandMatrix.solveInPlace ⟨true, false⟩) [(9 : ℚ), 6, 6, 6, 6] 1 1) = .ok [9, 1, 1, 1, 1] := ⟨_, rfl, by decide +kernel⟩

/-- `n ≥ p + q` is really needed in C11: with `n = 4`, `p = 2`, `q = 3` and the identity matrix the index `j - q` wraps around below zero. -/
theorem ext_solver_wraps_when_small : ∃ m : ExtBandMatrix ℚ, buildExt ⟨true, false⟩ 4 2 3
      [⟨0, 0, 1⟩, ⟨1, 1, 1⟩, ⟨2, 2, 1⟩, ⟨3, 3, 1⟩] = .ok m ∧
    extSolve ⟨true, false⟩ m [(1 : ℚ), 2, 3, 4] 0 1 = .error .wrap := ⟨_, rfl, by decide +kernel⟩

theorem SolvesLine.isOk {n : ℕ} {A : Matrix (Fin n) (Fin n) K} {buf : List V} {off step : ℕ} {run : M (List V)}
    (h : SolvesLine A buf off step run)
    (hreg : ∀ (r : ℕ) (hr : r ≤ n), (A.submatrix (Fin.castLE hr) (Fin.castLE hr)).det ≠ 0) : ∃ buf', run = .ok buf' := by
  cases run with
  | ok b => exact ⟨b, rfl⟩
  | error e =>
    obtain ⟨_, r, hr, h0⟩ := h
    exact absurd h0 (hreg r hr)

/-- **C12.** Both solvers complete for every right-hand side when all leading square blocks are regular. -/
theorem solver_succeeds (c : Cfg) (n p q : ℕ) (hn : 0 < n) (hist : List (Entry K))
    (hreg : ∀ (r : ℕ) (hr : r ≤ n), ((matrixOf n hist).submatrix (Fin.castLE hr) (Fin.castLE hr)).det ≠ 0)
    (buf : List V) (off step : ℕ) (hstep : 0 < step) (hlen : ∀ i : Fin n, off + i * step < buf.length) :
    ((∀ w ∈ hist, w.i < n ∧ w.j < n ∧ w.i ≤ w.j + p ∧ w.j ≤ w.i + q) →
      ∃ m buf', buildBand c n p q hist = .ok m ∧ bandSolve c m buf off step = .ok buf') ∧
    (p < n → q < n → p + q ≤ n → (∀ w ∈ hist, w.i < n ∧ w.j < n ∧ ((w.i ≤ w.j + p ∧ w.j ≤ w.i + q) ∨
        (w.i + q < w.j ∧ n ≤ w.j + p) ∨ (w.j + p < w.i ∧ n ≤ w.i + q))) →
      ∃ m buf', buildExt c n p q hist = .ok m ∧ extSolve c m buf off step = .ok buf') := by
  constructor
  · intro hh
    obtain ⟨m, h1, h2⟩ := band_solver_solves c n p q hn hist hh buf off step hstep hlen
    obtain ⟨buf', h3⟩ := h2.isOk hreg
    exact ⟨m, buf', h1, h3⟩
  · intro hp hq hpq hh
    obtain ⟨m, h1, h2⟩ := ext_solver_solves c n p q hp hq hpq hist hh buf off step hstep hlen
    obtain ⟨buf', h3⟩ := h2.isOk hreg
    exact ⟨m, buf', h1, h3⟩

/-- **C12**, diagonal dominance: strictly row diagonally dominant matrices have regular leading blocks, so the solvers complete. -/
theorem leading_blocks_of_diag_dominant [LinearOrder K] [IsStrictOrderedRing K] (n : ℕ) (A : Matrix (Fin n) (Fin n) K)
    (h : ∀ i, ∑ j ∈ univ.erase i, |A i j| < |A i i|) (r : ℕ) (hr : r ≤ n) :
    (A.submatrix (Fin.castLE hr) (Fin.castLE hr)).det ≠ 0 := by
  set B : ℕ → ℕ → K := fun i j => if h : i < n ∧ j < n then A ⟨i, h.1⟩ ⟨j, h.2⟩ else 0
  have e : A.submatrix (Fin.castLE hr) (Fin.castLE hr) = lead B r := by
    ext i j
    have hi : i.val < n := by omega
    have hj : j.val < n := by omega
    simp only [lead, B, Matrix.of_apply, Matrix.submatrix_apply]
    rw [dif_pos ⟨hi, hj⟩]; rfl
  rw [e]
  refine lead_det_ne_zero_of_diag_dom (n := n) (fun i hi => ?_) hr
  have := h ⟨i, hi⟩
  have e2 : ∑ j ∈ (range n).erase i, |B i j| = ∑ j ∈ univ.erase (⟨i, hi⟩ : Fin n), |A ⟨i, hi⟩ j| := by
    symm
    refine Finset.sum_bij (fun j _ => j.val) ?_ ?_ ?_ ?_
    · intro j hj
      rw [mem_erase, mem_range]
      exact ⟨fun hji => Finset.ne_of_mem_erase hj (Fin.ext hji), j.isLt⟩
    · intro a _ b _ hab; exact Fin.ext hab
    · intro j hj
      rw [mem_erase, mem_range] at hj
      exact ⟨⟨j, hj.2⟩, by rw [mem_erase]; exact ⟨fun hh => hj.1 (congrArg Fin.val hh), mem_univ _⟩, rfl⟩
    · intro j _
      simp only [B]; rw [dif_pos ⟨hi, j.isLt⟩]
  rw [e2]
  simp only [B]
  rw [dif_pos ⟨hi, hi⟩]; exact this

example : ∀ i, ∑ j ∈ univ.erase i, |(!![4, 1, 0; 1, 4, 1; 0, 1, 4] : Matrix (Fin 3) (Fin 3) ℚ) i j| <
    |(!![4, 1, 0; 1, 4, 1; 0, 1, 4] : Matrix (Fin 3) (Fin 3) ℚ) i i| := by decide +kernel

/-! ## the solver object (C13) -/

/-- A call on a solver object. -/
inductive SolverOp (Mat V : Type)
  | compute (m : Mat)
  | solve (buf : List V) (off step : ℕ)

/-- Execute a history of calls, collecting the outcomes of the solves. -/
def runSolverOps {Mat : Type} (impl : Mat → M Mat) (slv : Mat → List V → ℕ → ℕ → M (List V)) :
    LUState Mat → List (SolverOp Mat V) → M (LUState Mat × List (M (List V)))
  | s, [] => pure (s, [])
  | s, .compute m :: ops => do
    let s ← s.compute impl m
    runSolverOps impl slv s ops
  | s, .solve buf off step :: ops => do
    let out := s.solve slv buf off step
    let r ← runSolverOps impl slv s ops
    pure (r.1, out :: r.2)

/-- Specification: the answers to the solves in `ops` when every solve is answered by the fixed function `answer`. -/
def fixedAnswers {Mat : Type} (answer : List V → ℕ → ℕ → M (List V)) (ops : List (SolverOp Mat V)) : List (M (List V)) :=
  ops.filterMap fun op => match op with
    | .compute _ => none
    | .solve buf off step => some (answer buf off step)

theorem solver_keeps_first_aux {Mat : Type} (impl : Mat → M Mat) (slv : Mat → List V → ℕ → ℕ → M (List V)) (m dflt : Mat)
    (s : LUState Mat)
    (hs : LUState.ofMatrix impl m = .ok s ∨ LUState.compute impl (LUState.empty dflt) m = .ok s)
    (ops : List (SolverOp Mat V)) :
    runSolverOps impl slv s ops = .ok (s, fixedAnswers (fun buf off step => do
      let lu ← impl m
      slv lu buf off step) ops) := by
  have hs' : impl m = .ok s.store ∧ s.computed = true := by
    rcases hs with h | h
    · unfold LUState.ofMatrix at h
      cases hm : impl m with
      | error e => rw [hm] at h; cases h
      | ok lu => rw [hm] at h; cases h; exact ⟨rfl, rfl⟩
    · unfold LUState.compute LUState.empty at h
      simp only [Bool.false_eq_true, if_false] at h
      cases hm : impl m with
      | error e => rw [hm] at h; cases h
      | ok lu => rw [hm] at h; cases h; exact ⟨rfl, rfl⟩
  rw [hs'.1]
  induction ops with
  | nil => rfl
  | cons op ops ih =>
    cases op with
    | compute m' =>
      unfold runSolverOps
      have : LUState.compute impl s m' = .ok s := by unfold LUState.compute; rw [if_pos hs'.2]; rfl
      rw [this, ok_bind, ih]; rfl
    | solve buf off step =>
      unfold runSolverOps
      rw [ih]; rfl

/-- **C13.** A solver that got its first matrix `m` (by the constructor or by `compute` on a default-constructed one) answers every later
solve as a fresh solver for `m` would, whatever `compute` and `solve` calls come in between; later `compute` calls have no effect and
cannot fail. Both kinds of matrices. -/
theorem solver_keeps_first_matrix (c : Cfg) :
    (∀ (m dflt : BandMatrix K) (s : LUState (BandMatrix K)),
      LUState.ofMatrix (BandMatrix.computeImpl c) m = .ok s ∨
        LUState.compute (BandMatrix.computeImpl c) (LUState.empty dflt) m = .ok s →
      ∀ ops : List (SolverOp (BandMatrix K) V), runSolverOps (BandMatrix.computeImpl c) (BandMatrix.solveInPlace c) s ops =
        .ok (s, fixedAnswers (bandSolve c m) ops)) ∧
    (∀ (m dflt : ExtBandMatrix K) (s : LUState (ExtBandMatrix K)),
      LUState.ofMatrix (ExtBandMatrix.computeImpl c) m = .ok s ∨
        LUState.compute (ExtBandMatrix.computeImpl c) (LUState.empty dflt) m = .ok s →
      ∀ ops : List (SolverOp (ExtBandMatrix K) V), runSolverOps (ExtBandMatrix.computeImpl c) (ExtBandMatrix.solveInPlace c) s ops =
        .ok (s, fixedAnswers (extSolve c m) ops)) :=
  ⟨fun m dflt s hs ops => solver_keeps_first_aux _ _ m dflt s hs ops,
   fun m dflt s hs ops => solver_keeps_first_aux _ _ m dflt s hs ops⟩

example : ∃ m lu : BandMatrix ℚ, buildBand ⟨true, false⟩ 2 1 1 [⟨0, 0, 2⟩, ⟨0, 1, 1⟩, ⟨1, 0, 1⟩, ⟨1, 1, 3⟩] = .ok m ∧
    BandMatrix.computeImpl ⟨true, false⟩ m = .ok lu ∧ lu.solveInPlace ⟨true, false⟩ [(3 : ℚ), 4] 0 1 = .ok [1, 1] :=
  ⟨_, _, rfl, rfl, by decide +kernel⟩

end Intp
