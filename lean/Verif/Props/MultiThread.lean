import Verif.Proofs.MTMain
import Verif.Proofs.FloatTie
import Verif.Props.Float
import Verif.Props.Pivot
import Verif.Props.Interpolation

/-!
# Properties of the multi-threaded solving of the control points
-/

namespace Intp

open Template

variable {D : ℕ}

/-! ## C41 -/

/-- The lines handled by task `i` (InterpolationTemplate.hpp:559-562): the loop `for (j = i * task_per_block; j < (i + 1) * task_per_block; ++j)`. -/
def taskLines (bn total i : ℕ) : List ℕ :=
  List.range' (i * taskPerBlock bn total) ((i + 1) * taskPerBlock bn total - i * taskPerBlock bn total)

/-- The lines handled by the calling thread (InterpolationTemplate.hpp:566-567). -/
def callerLines (bn total : ℕ) : List ℕ := List.range' (bn * taskPerBlock bn total) (total - bn * taskPerBlock bn total)

/-- C41: whatever the number of blocks, the lines of all tasks followed by those of the caller are exactly `0, 1, …, total - 1`. -/
theorem block_division (bn total : ℕ) :
    ((List.range bn).flatMap fun i => taskLines bn total i) ++ callerLines bn total = List.range total := by
  have key : ∀ k ≤ bn, ((List.range k).flatMap fun i => taskLines bn total i) = List.range (k * taskPerBlock bn total) := by
    intro k
    induction k with
    | zero => intro _; simp
    | succ k ih =>
      intro hk
      rw [List.range_succ, List.flatMap_append, ih (by omega)]
      simp only [List.flatMap_cons, List.flatMap_nil, List.append_nil, taskLines]
      rw [List.range_eq_range', List.range_eq_range']
      have e : (k + 1) * taskPerBlock bn total = k * taskPerBlock bn total + ((k + 1) * taskPerBlock bn total - k * taskPerBlock bn total) := by
        have := Nat.mul_le_mul_right (taskPerBlock bn total) (Nat.le_succ k)
        simp only [Nat.succ_eq_add_one] at this
        omega
      conv_rhs => rw [e, ← List.range'_append_1]
      rw [Nat.zero_add]
  rw [key bn le_rfl, callerLines, List.range_eq_range', List.range_eq_range']
  have e : total = bn * taskPerBlock bn total + (total - bn * taskPerBlock bn total) := by
    have := blocks_le bn total
    omega
  conv_rhs => rw [e, ← List.range'_append_1]
  rw [Nat.zero_add]

/-- C41, restated: a line below the total belongs to exactly one task or to the caller, not to both, and no task goes beyond the total. -/
theorem block_division_unique (bn total j : ℕ) :
    (j < total → ((∃! i, i < bn ∧ j ∈ taskLines bn total i) ∧ j ∉ callerLines bn total) ∨
      ((∀ i < bn, j ∉ taskLines bn total i) ∧ j ∈ callerLines bn total)) ∧
    (total ≤ j → (∀ i < bn, j ∉ taskLines bn total i) ∧ j ∉ callerLines bn total) := by
  have hdiv := block_division bn total
  have hnd : (((List.range bn).flatMap fun i => taskLines bn total i) ++ callerLines bn total).Nodup := by
    rw [hdiv]; exact List.nodup_range
  have hmem : ∀ i, j ∈ taskLines bn total i ↔ i * taskPerBlock bn total ≤ j ∧ j < (i + 1) * taskPerBlock bn total := by
    intro i
    have := Nat.mul_le_mul_right (taskPerBlock bn total) (Nat.le_succ i)
    simp only [Nat.succ_eq_add_one] at this
    simp only [taskLines, List.mem_range'_1]
    omega
  have hall : (∃ i < bn, j ∈ taskLines bn total i) ∨ j ∈ callerLines bn total ↔ j < total := by
    rw [← List.mem_range, ← hdiv, List.mem_append, List.mem_flatMap]
    simp
  have hexcl : ∀ i < bn, j ∈ taskLines bn total i → j ∉ callerLines bn total := by
    intro i hi h1 h2
    refine (List.nodup_append.1 hnd).2.2 j ?_ j h2 rfl
    exact List.mem_flatMap.2 ⟨i, List.mem_range.2 hi, h1⟩
  constructor
  · intro hj
    rcases hall.2 hj with ⟨i, hi, h⟩ | h
    · refine Or.inl ⟨⟨i, ⟨hi, h⟩, ?_⟩, hexcl i hi h⟩
      rintro i' ⟨hi', h'⟩
      have h1 := (hmem i).1 h
      have h2 := (hmem i').1 h'
      rcases lt_trichotomy i' i with hlt | he | hlt
      · have := Nat.mul_le_mul_right (taskPerBlock bn total) hlt
        simp only [Nat.succ_eq_add_one] at this
        omega
      · exact he
      · have := Nat.mul_le_mul_right (taskPerBlock bn total) hlt
        simp only [Nat.succ_eq_add_one] at this
        omega
    · exact Or.inr ⟨fun i hi hc => hexcl i hi hc h, h⟩
  · intro hj
    have : ¬ ((∃ i < bn, j ∈ taskLines bn total i) ∨ j ∈ callerLines bn total) := by rw [hall]; omega
    push Not at this
    exact this

/-- With `block_num = floor(sqrt(total))` the caller handles fewer lines than there are blocks. -/
theorem caller_lines_few (total : ℕ) (h : 0 < total) : (callerLines (Nat.sqrt total) total).length < Nat.sqrt total := by
  have hs : 0 < Nat.sqrt total := Nat.sqrt_pos.2 h
  unfold callerLines taskPerBlock
  rw [List.length_range', if_neg hs.ne']
  have := Nat.div_add_mod total (Nat.sqrt total)
  have := Nat.mod_lt total hs
  omega

/-- 10 lines: 3 blocks of 3 lines, one line for the caller. -/
example : (List.range 3).map (taskLines 3 10) = [[0, 1, 2], [3, 4, 5], [6, 7, 8]] ∧ callerLines 3 10 = [9] ∧ Nat.sqrt 10 = 3 := by decide +kernel

/-! ## C42 -/

section

variable {K V : Type} [CoordArith K] [ValArith V] [ScaleArith K V] {b : Bool} {c : Cfg} {o : ℕ} {per : Fin (D + 1) → Bool} {dims : Fin (D + 1) → ℕ} {x : Fin (D + 1) → XRange K} {t : Template (D + 1) K V}
  {fm : Mesh (D + 1) V} {bn : ℕ → ℕ} {junk0 : ℕ → V} {junk : ℕ → ℕ → V}

omit [CoordArith K] in
theorem mtStart_ok (junk : ℕ → ℕ → V) {s0 : MTState D V} (h : t.mtStart c junk0 fm = .ok s0) :
    ∃ st : Mesh (D + 1) V × Mesh (D + 1) V, s0 = MTState.start st.1 st.2 ∧ st.1.dims = t.dims ∧ st.1.size = ∏ d, t.dims d ∧
      Fl.solveForControlPoints c t fm = Fl.solveDimsJ c t.solvers junk st >>= fun r => .ok (if (D + 1) % 2 = 0 ∨ D = 0 then r.1 else r.2) := by
  unfold mtStart at h
  rw [← Fl.solveForControlPointsJ_eq c junk0 junk]
  unfold Fl.solveForControlPointsJ
  cases hw : Fl.initWeights c t.base.spline.order t.base.periodicity t.dims fm with
  | error e => rw [hw] at h; cases h
  | ok w =>
    rw [hw, ok_bind] at h
    injection h with h
    have hsh := Fl.initWeights_shape hw
    refine ⟨(w, if D = 0 then Mesh.mk' fun _ => 1 else (Mesh.mk' fun _ => 1).resizeJ t.dims junk0), h.symm, hsh.1, hsh.2, ?_⟩
    rw [ok_bind]
    show Fl.solveDimsJ c t.solvers junk _ >>= _ = _
    congr 1
    funext r
    split <;> rfl

/-- C42: with INTP_MULTITHREAD, whatever the number of blocks, the interleaving of the memory operations of the tasks and the
contents of the new elements of resized meshes (`junk0`, `junk`), a finished run returns the control points of the sequential build, in any arithmetic (bit by bit the same if values are `double`). -/
theorem multithread_deterministic (ht : Fl.constructT b c o per dims x = .ok t) {s0 s : MTState D V} {n : ℕ} (h0 : t.mtStart c junk0 fm = .ok s0)
    (he : MTState.Exec c t.solvers bn junk n s0 s) (hd : s.Done) : Fl.solveForControlPoints c t fm = .ok s.result := by
  obtain ⟨st, rfl, h1, h2, h3⟩ := mtStart_ok junk h0
  have hdim := Fl.constructT_dim ht
  have hinv := MTState.MInv.exec (fun d => (hdim d).2) (fun d => (hdim d).1) ⟨h1, h2⟩ he
  rw [h3, hinv.done hd, ok_bind]
  unfold MTState.result
  congr 1
  by_cases hc : (D + 1) % 2 = 0 ∨ D = 0
  · rw [if_pos hc, show decide (¬((D + 1) % 2 = 0 ∨ D = 0)) = false from decide_eq_false (not_not.2 hc)]
  · rw [if_neg hc, show decide (¬((D + 1) % 2 = 0 ∨ D = 0)) = true from decide_eq_true hc]

/-- C42: no two tasks ever access the same element at the same time with one of them writing (no data race), in any run. -/
theorem multithread_no_race (ht : Fl.constructT b c o per dims x = .ok t) {s0 s : MTState D V} {n : ℕ} (h0 : t.mtStart c junk0 fm = .ok s0)
    (he : MTState.Exec c t.solvers bn junk n s0 s) : ¬ s.Race := by
  obtain ⟨st, rfl, h1, h2, h3⟩ := mtStart_ok junk h0
  have hdim := Fl.constructT_dim ht
  exact (MTState.MInv.exec (fun d => (hdim d).2) (fun d => (hdim d).1) ⟨h1, h2⟩ he).no_race

/-- C42: if the sequential build succeeds, every multi-threaded run ends after a bounded number of steps, never fails, and returns the same
control points: each reachable state either is the end with that result or has a further step. -/
theorem multithread_complete (ht : Fl.constructT b c o per dims x = .ok t) {w : Mesh (D + 1) V} (hw : Fl.solveForControlPoints c t fm = .ok w) :
    ∃ s0, t.mtStart c junk0 fm = .ok s0 ∧ ∃ N, ∀ n s, MTState.Exec c t.solvers bn junk n s0 s →
      n ≤ N ∧ ¬ s.Failed ∧ ((s.Done ∧ s.result = w) ∨ ∃ s', MTState.Step c t.solvers bn junk s s') := by
  have hst : ∃ s0, t.mtStart c junk0 fm = .ok s0 := by
    unfold mtStart
    unfold Fl.solveForControlPoints at hw
    cases hi : Fl.initWeights c t.base.spline.order t.base.periodicity t.dims fm with
    | error e => rw [hi] at hw; cases hw
    | ok w => exact ⟨_, rfl⟩
  obtain ⟨s0, h0⟩ := hst
  refine ⟨s0, h0, ?_⟩
  obtain ⟨st, rfl, h1, h2, h3⟩ := mtStart_ok junk h0
  have hdim := Fl.constructT_dim ht
  refine ⟨∑ d ∈ Finset.range (D + 1), (2 + phaseCost c t.solvers bn junk st d), fun n s he => ?_⟩
  have hinv := MTState.MInv.exec (fun d => (hdim d).2) (fun d => (hdim d).1) ⟨h1, h2⟩ he
  have hr : ∃ r, Fl.solveDimsJ c t.solvers junk st = .ok r := by
    cases hr : Fl.solveDimsJ c t.solvers junk st with
    | ok r => exact ⟨r, rfl⟩
    | error e => rw [h3, hr] at hw; cases hw
  obtain ⟨r, hr⟩ := hr
  obtain ⟨hf, hp⟩ := hinv.progress (fun d => (hdim d).2) (fun d => (hdim d).1) hr
  refine ⟨hinv.bound, hf, ?_⟩
  rcases hp with hp | hp
  · left
    have := multithread_deterministic ht h0 he hp
    rw [hw] at this
    injection this with this
    exact ⟨hp, this.symm⟩
  · exact Or.inr hp

/-- There is a finished multi-threaded run whenever the sequential build succeeds. -/
theorem multithread_runs (ht : Fl.constructT b c o per dims x = .ok t) {w : Mesh (D + 1) V} (hw : Fl.solveForControlPoints c t fm = .ok w) :
    ∃ s0 s n, t.mtStart c junk0 fm = .ok s0 ∧ MTState.Exec c t.solvers bn junk n s0 s ∧ s.Done ∧ s.result = w := by
  obtain ⟨s0, h0, N, h⟩ := multithread_complete (bn := bn) (junk0 := junk0) (junk := junk) ht hw
  by_contra hc
  push Not at hc
  have : ∀ n, ∃ s, MTState.Exec c t.solvers bn junk n s0 s := by
    intro n
    induction n with
    | zero => exact ⟨s0, .refl _⟩
    | succ n ih =>
      obtain ⟨s, hs⟩ := ih
      rcases (h n s hs).2.2 with ⟨h1, h2⟩ | ⟨s', h'⟩
      · exact absurd h2 (hc s0 s n h0 hs h1)
      · exact ⟨s', .tail hs h'⟩
  obtain ⟨s, hs⟩ := this (N + 1)
  have := (h _ _ hs).1
  omega

/-- C42: if the single-threaded build constructs the function `g`, in whatever arithmetic, every multi-threaded run ends and constructs `g`. -/
theorem multithread_construct {g : InterpFn (D + 1) K V} (bn : ℕ → ℕ) (junk0 : ℕ → V) (junk : ℕ → ℕ → V) (hg : Fl.construct b c o per fm x = .ok g) :
    ∃ t s0, Fl.constructT b c o per fm.dims x = .ok t ∧ t.mtStart c junk0 fm = .ok s0 ∧
      ∃ N, ∀ n s, MTState.Exec c t.solvers bn junk n s0 s → n ≤ N ∧ ¬ s.Race ∧ ¬ s.Failed ∧
        ((s.Done ∧ { t.base with spline := t.base.spline.loadCtrlPts s.result } = g) ∨ ∃ s', MTState.Step c t.solvers bn junk s s') := by
  unfold Fl.construct at hg
  cases ht : Fl.constructT (V := V) b c o per fm.dims x with
  | error e => rw [ht] at hg; cases hg
  | ok t =>
    rw [ht, ok_bind] at hg
    cases hw : Fl.solveForControlPoints c t fm with
    | error e => rw [hw] at hg; cases hg
    | ok w =>
      rw [hw, ok_bind] at hg
      injection hg with hg
      obtain ⟨s0, h0, N, h⟩ := multithread_complete (bn := bn) (junk0 := junk0) (junk := junk) ht hw
      refine ⟨t, s0, rfl, h0, N, fun n s he => ?_⟩
      obtain ⟨g1, g2, g3⟩ := h n s he
      refine ⟨g1, multithread_no_race ht h0 he, g2, ?_⟩
      rcases g3 with ⟨g3, g4⟩ | g3
      · exact .inl ⟨g3, by rw [g4]; exact hg⟩
      · exact .inr g3

end

section

variable {K V : Type} [Field K] [LinearOrder K] [IsStrictOrderedRing K] [FloorRing K] [AddCommGroup V] [Module K V] {o : ℕ}
  {per : Fin (D + 1) → Bool} {x : Fin (D + 1) → XRange K}

attribute [local instance] exactVal exactScale

/-- C42 in exact arithmetic, for all axes for which the construction is known to succeed: every run ends with the control points of the
interpolation constructed by a single thread. -/
theorem multithread_exact (c : Cfg) (bn : ℕ → ℕ) (junk0 : ℕ → V) (junk : ℕ → ℕ → V) {fm : Mesh (D + 1) V} (hm : fm.WF) (hv : ValidAxes c o per fm.dims x)
    (hx : ∀ d, per d = true → (∃ a b, x d = .uniform a b) ∨ o ≤ 3) :
    ∃ t g s0, Template.construct c o per fm.dims x = .ok t ∧ InterpFn.construct c o per fm x = .ok g ∧ t.mtStart c junk0 fm = .ok s0 ∧
      ∃ N, ∀ n s, MTState.Exec c t.solvers bn junk n s0 s → n ≤ N ∧ ¬ s.Race ∧ ¬ s.Failed ∧
        ((s.Done ∧ { t.base with spline := t.base.spline.loadCtrlPts s.result } = g) ∨ ∃ s', MTState.Step c t.solvers bn junk s s') := by
  obtain ⟨g, hg⟩ := periodic_construct_ok_partial c hm hv hx
  have hg' := hg
  rw [← Fl.tie_construct] at hg'
  obtain ⟨t, s0, ht, h0, h⟩ := @multithread_construct D K V (exactCoord K) (exactVal V) (exactScale K V) false c o per x fm g bn junk0 junk hg'
  rw [Fl.tie_constructT] at ht
  exact ⟨t, g, s0, ht, hg, h0, h⟩

end

/-- C42 in `double` without assertions, for data of any size for which the library is meant, whatever the coordinates and values are (also
nan): every run ends, with the interpolation constructed by a single thread, bit by bit. -/
theorem multithread_double (c : Cfg) (hc : c.assertions = false) (bn : ℕ → ℕ) (junk0 : ℕ → F64) (junk : ℕ → ℕ → F64) (o : ℕ) (per : Fin (D + 1) → Bool) (fm : Mesh (D + 1) F64)
    (x : Fin (D + 1) → XRange F64) (hs : ∀ d, SizesOk c o (per d) (fm.dims d) (x d)) (hf : fm.storage.length = ∏ d, fm.dims d) :
    ∃ (g : InterpFn (D + 1) F64 F64) (t : Template (D + 1) F64 F64) (s0 : MTState D F64), Fl.construct true c o per fm x = .ok g ∧
      Fl.constructT true c o per fm.dims x = .ok t ∧ t.mtStart c junk0 fm = .ok s0 ∧
      ∃ N, ∀ n s, MTState.Exec c t.solvers bn junk n s0 s → n ≤ N ∧ ¬ s.Race ∧ ¬ s.Failed ∧
        ((s.Done ∧ { t.base with spline := t.base.spline.loadCtrlPts s.result } = g) ∨ ∃ s', MTState.Step c t.solvers bn junk s s') := by
  obtain ⟨g, hg⟩ := double_construct c hc o per fm x hs hf
  obtain ⟨t, s0, h⟩ := multithread_construct bn junk0 junk hg
  exact ⟨g, t, s0, hg, h⟩

/-- The sizes are allowed for 5 × 6 values of order 3, with explicit coordinates in the first and a period in the second dimension; one coordinate is nan. -/
example (c : Cfg) (hc : c.noDummy = false) : ∀ d : Fin 2, SizesOk c 3 (![false, true] d) (![5, 6] d)
    ((![.coords [.fin 0, .fin 1, .nan, .fin 3, .fin 4], .uniform (.fin 0) (.fin 1)] : Fin 2 → XRange F64) d) := by
  intro d
  match d with
  | 0 => exact ⟨fun h => (by cases h), fun _ => by decide, fun l hl => by cases hl; exact ⟨by simp, fun _ => by omega⟩⟩
  | 1 => exact ⟨fun _ => by rw [hc]; decide, fun h => (by cases h), fun l hl => by cases hl⟩

/-- The hypotheses hold for the data set of `InterpExample` (5 × 4 unknowns, one periodic dimension). -/
example : ∃ t w, Template.construct (V := ℚ) InterpExample.cfg 3 InterpExample.per InterpExample.data.dims InterpExample.x = .ok t ∧
    t.solveForControlPoints InterpExample.cfg InterpExample.data = .ok w := by
  have h : (do
    let t ← Template.construct (V := ℚ) InterpExample.cfg 3 InterpExample.per InterpExample.data.dims InterpExample.x
    t.solveForControlPoints InterpExample.cfg InterpExample.data : M (Mesh 2 ℚ)).toOption.isSome = true := by decide +kernel
  cases ht : Template.construct (V := ℚ) InterpExample.cfg 3 InterpExample.per InterpExample.data.dims InterpExample.x with
  | error e => rw [ht] at h; simp [error_bind, Except.toOption] at h
  | ok t =>
    rw [ht, ok_bind] at h
    cases hw : t.solveForControlPoints InterpExample.cfg InterpExample.data with
    | error e => rw [hw] at h; simp [Except.toOption] at h
    | ok w => exact ⟨t, w, rfl, hw⟩

end Intp
