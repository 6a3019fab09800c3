import Verif.Proofs.PoolJobs
import Verif.Props.MultiThread
import Verif.Props.Pivot

/-!
# Properties of the parallel regions running on the thread pool (C62, C63)

The pool is in any reachable state `p0` (`Pool.Reachable num p0`) in which it is alive and has so far been used by others only (odd task
numbers); other threads keep using it.  `FJState.Exec J (FJState.init p0 s0) ls x`: state `x` is reached from there by steps with labels `ls`,
in any interleaving of the memory operations of all threads.
-/

namespace Intp

open FJState Finset

section

variable {σ V : Type} {J : Job σ V} {num : ℕ} {p0 : Pool} {s0 : σ}

/-- What holds for every job whose regions are independent. -/
theorem region_safe (hJ : ∀ s r, J.Seq s0 s → J.start s = .ok (some r) → r.Indep) (hp : Pool.Reachable num p0) (ha : p0.dtor = .alive)
    (hf : ∀ t ∈ p0.submitted, t % 2 = 1) {ls : List FJLabel} {x : FJState σ V} (he : Exec J (init p0 s0) ls x) :
    J.Seq s0 x.s ∧ ¬ x.Race ∧ (x.call = .idle → ∀ k i, taskId k i ∉ x.pool.mainQ ∧ ∀ w < x.pool.n, taskId k i ∉ x.pool.wq w ∧ x.pool.pc w ≠ .run (taskId k i)) := by
  have hi := (Inv.init hp ha hf (J := J) (s0 := s0)).exec hJ he
  refine ⟨hi.seq, hi.no_race, fun hc k i => ?_⟩
  have key : taskId k i ∉ x.pool.submitted ∨ taskId k i ∈ x.pool.done := by
    by_cases h : taskId k i ∈ x.pool.submitted
    · right
      rcases hi.ours k i h with h1 | ⟨h1, h2⟩
      · exact hi.old k i h1 h
      · unfold sent at h2; rw [hc] at h2; exact absurd h2 (Nat.not_lt_zero _)
    · exact .inl h
  have hcount := task_in_one_place hi.reach (taskId k i)
  have hz : x.pool.mainQ.count (taskId k i) + ∑ w ∈ range x.pool.n, (x.pool.wq w).count (taskId k i) +
      ((range x.pool.n).filter fun w => x.pool.pc w = .run (taskId k i)).card = 0 := by
    rcases key with h | h
    · rw [if_neg h] at hcount; omega
    · have := List.count_pos_iff.2 h
      split at hcount <;> omega
  refine ⟨fun h => ?_, fun w hw => ⟨fun h => ?_, fun h => ?_⟩⟩
  · have := List.count_pos_iff.2 h
    omega
  · have h1 := List.count_pos_iff.2 h
    have h2 : (x.pool.wq w).count (taskId k i) ≤ ∑ w ∈ range x.pool.n, (x.pool.wq w).count (taskId k i) :=
      single_le_sum (f := fun w => (x.pool.wq w).count (taskId k i)) (fun _ _ => Nat.zero_le _) (mem_range.2 hw)
    omega
  · have : 0 < ((range x.pool.n).filter fun w => x.pool.pc w = .run (taskId k i)).card := card_pos.2 ⟨w, by simp [hw, h]⟩
    omega

/-- Progress of every job whose regions are independent and which succeeds in a single thread. -/
theorem region_complete (hJ : ∀ s r, J.Seq s0 s → J.start s = .ok (some r) → r.Indep) (hp : Pool.Reachable num p0) (ha : p0.dtor = .alive)
    (hf : ∀ t ∈ p0.submitted, t % 2 = 1) {e : σ} {N0 : ℕ} (hrun : J.Run (Pool.grow p0.n) s0 e N0) :
    ∃ N B, ∀ ls x, Exec J (init p0 s0) ls x → ls.length ≤ N + B * ls.countP (fun l => !l.isWork) ∧ ¬ x.Failed ∧
      ((x.Done J ∧ x.s = e) ∨ ∃ l y, l.isWork = true ∧ Step J x l y) := by
  refine ⟨p0.potential + N0, Pool.grow p0.n + 1, fun ls x he => ?_⟩
  have hi0 := Inv.init hp ha hf (J := J) (s0 := s0)
  have hb0 : Budget J (Pool.grow p0.n) e (init p0 s0) (p0.potential + N0) := Budget.idle (x := init p0 s0) rfl hrun
  obtain ⟨N', h1, h2⟩ := Budget.exec hJ hi0 hb0 he
  obtain ⟨h3, h4⟩ := h1.progress (hi0.exec hJ he)
  exact ⟨by omega, h3, h4⟩

end

/-! ## C62 -/

section

open Template

variable {K V : Type} [CoordArith K] [ValArith V] [ScaleArith K V] {D : ℕ}
  {b : Bool} {c : Cfg} {o : ℕ} {per : Fin (D + 1) → Bool} {dims : Fin (D + 1) → ℕ} {x : Fin (D + 1) → XRange K} {t : Template (D + 1) K V}
  {fm : Mesh (D + 1) V} {bn : ℕ → ℕ} {junk0 : ℕ → V} {junk : ℕ → ℕ → V} {num : ℕ} {p0 : Pool} {s0 : ℕ × Mesh (D + 1) V × Mesh (D + 1) V}

omit [CoordArith K] in
theorem solveStart_ok (junk : ℕ → ℕ → V) (h : t.solveStart c junk0 fm = .ok s0) :
    ∃ st : Mesh (D + 1) V × Mesh (D + 1) V, s0 = (0, st) ∧ st.1.dims = t.dims ∧ st.1.size = ∏ d, t.dims d ∧
      Fl.solveForControlPoints c t fm = Fl.solveDimsJ c t.solvers junk st >>= fun r => .ok (if (D + 1) % 2 = 0 ∨ D = 0 then r.1 else r.2) := by
  unfold solveStart at h
  cases hw : Fl.initWeights c t.base.spline.order t.base.periodicity t.dims fm with
  | error e => rw [hw] at h; cases h
  | ok w =>
    have hm : t.mtStart c junk0 fm = .ok (MTState.start w (if D = 0 then Mesh.mk' fun _ => 1 else (Mesh.mk' fun _ => 1).resizeJ t.dims junk0)) := by
      unfold mtStart; rw [hw, ok_bind]; rfl
    rw [hw, ok_bind] at h
    injection h with h
    obtain ⟨st, h1, h2, h3, h4⟩ := mtStart_ok junk hm
    refine ⟨st, ?_, h2, h3, h4⟩
    have e1 := congrArg (fun s => s.bufs false) h1
    have e2 := congrArg (fun s => s.bufs true) h1
    simp only [MTState.start, Bool.false_eq_true, if_false, if_true] at e1 e2
    rw [← h, e1, e2]

theorem solve_indep (ht : Fl.constructT b c o per dims x = .ok t) (h0 : t.solveStart c junk0 fm = .ok s0) :
    ∀ s r, (solveJob c t.solvers bn junk).Seq s0 s → (solveJob c t.solvers bn junk).start s = .ok (some r) → r.Indep := by
  obtain ⟨st, rfl, h1, h2, -⟩ := solveStart_ok junk h0
  have hdim := Fl.constructT_dim ht
  intro s r hs hr
  have hinv : SolveInv c t.solvers junk t.dims st (0, st) := SolveInv.init ⟨h1, h2⟩
  exact (hinv.seq (fun d => (hdim d).2) hs).indep (fun d => (hdim d).2) (fun d => (hdim d).1) hr

/-- **C62, result.**  When the calling thread has left the last region, the control points are those of the single-threaded build
(in any arithmetic: bit by bit the same if values are `double`). -/
theorem pool_solve_deterministic (ht : Fl.constructT b c o per dims x = .ok t) (h0 : t.solveStart c junk0 fm = .ok s0)
    (hp : Pool.Reachable num p0) (ha : p0.dtor = .alive) (hf : ∀ t ∈ p0.submitted, t % 2 = 1) {ls : List FJLabel}
    {y : FJState (ℕ × Mesh (D + 1) V × Mesh (D + 1) V) V} (he : FJState.Exec (solveJob c t.solvers bn junk) (init p0 s0) ls y)
    (hd : y.Done (solveJob c t.solvers bn junk)) : Fl.solveForControlPoints c t fm = .ok (solveResult y.s) := by
  have hseq := (region_safe (solve_indep ht h0) hp ha hf he).1
  obtain ⟨st, rfl, h1, h2, h3⟩ := solveStart_ok junk h0
  have hdim := Fl.constructT_dim ht
  have hinv : SolveInv c t.solvers junk t.dims st (0, st) := SolveInv.init ⟨h1, h2⟩
  have hy := hinv.seq (fun d => (hdim d).2) hseq
  have hlast : y.s.1 = D + 1 := by
    by_contra hne
    have hlt : y.s.1 < D + 1 := by have := hy.1; omega
    have := hd.2
    rw [solveJob_start (fun d => (hdim d).2) hlt (hy.2.2 hlt)] at this
    simp at this
  have hup := hy.2.1
  rw [hlast, upto_all] at hup
  rw [h3, hup, ok_bind]
  rfl

/-- **C62, safety.**  In every reachable state no two threads are about to access the same element of the two meshes, one of them writing;
and whenever the calling thread is outside of a region — where it resizes, returns or destroys the meshes the tasks refer to — no task of this
call is in a queue or in the hands of a worker. -/
theorem pool_solve_safe (ht : Fl.constructT b c o per dims x = .ok t) (h0 : t.solveStart c junk0 fm = .ok s0)
    (hp : Pool.Reachable num p0) (ha : p0.dtor = .alive) (hf : ∀ t ∈ p0.submitted, t % 2 = 1) {ls : List FJLabel}
    {y : FJState (ℕ × Mesh (D + 1) V × Mesh (D + 1) V) V} (he : FJState.Exec (solveJob c t.solvers bn junk) (init p0 s0) ls y) :
    ¬ y.Race ∧ (y.call = .idle → ∀ k i, taskId k i ∉ y.pool.mainQ ∧ ∀ w < y.pool.n, taskId k i ∉ y.pool.wq w ∧ y.pool.pc w ≠ .run (taskId k i)) :=
  (region_safe (solve_indep ht h0) hp ha hf he).2

/-- **C62, progress.**  If the single-threaded build succeeds with control points `w`, then every execution on the pool has a bounded number of
steps (bounded per spurious wake-up and task submitted by another thread), never fails and cannot get stuck: every reachable state is the end
with result `w`, or some thread can take a step. -/
theorem pool_solve_complete (ht : Fl.constructT b c o per dims x = .ok t) {w : Mesh (D + 1) V} (hw : Fl.solveForControlPoints c t fm = .ok w)
    (hp : Pool.Reachable num p0) (ha : p0.dtor = .alive) (hf : ∀ t ∈ p0.submitted, t % 2 = 1) :
    ∃ s0, t.solveStart c junk0 fm = .ok s0 ∧ ∃ N B, ∀ ls y, FJState.Exec (solveJob c t.solvers bn junk) (init p0 s0) ls y →
      ls.length ≤ N + B * ls.countP (fun l => !l.isWork) ∧ ¬ y.Failed ∧
      ((y.Done (solveJob c t.solvers bn junk) ∧ solveResult y.s = w) ∨ ∃ l z, l.isWork = true ∧ FJState.Step (solveJob c t.solvers bn junk) y l z) := by
  have hst : ∃ s0, t.solveStart c junk0 fm = .ok s0 := by
    unfold solveStart
    unfold Fl.solveForControlPoints at hw
    cases hi : Fl.initWeights c t.base.spline.order t.base.periodicity t.dims fm with
    | error e => rw [hi] at hw; cases hw
    | ok w => exact ⟨_, rfl⟩
  obtain ⟨s0, h0⟩ := hst
  have hJ := solve_indep (bn := bn) (junk := junk) ht h0
  refine ⟨s0, h0, ?_⟩
  obtain ⟨st, rfl, h1, h2, h3⟩ := solveStart_ok junk h0
  have hdim := Fl.constructT_dim ht
  have hr : ∃ r, Fl.solveDimsJ c t.solvers junk st = .ok r := by
    cases hr : Fl.solveDimsJ c t.solvers junk st with
    | ok r => exact ⟨r, rfl⟩
    | error e => rw [h3, hr] at hw; cases hw
  obtain ⟨r, hr⟩ := hr
  have hinv : SolveInv c t.solvers junk t.dims st (0, st) := SolveInv.init ⟨h1, h2⟩
  obtain ⟨N0, hrun⟩ := hinv.run (bn := bn) (fun d => (hdim d).2) (Pool.grow p0.n) hr (D + 1) (Nat.zero_add _)
  obtain ⟨N, B, h⟩ := region_complete hJ hp ha hf hrun
  refine ⟨N, B, fun ls y he => ?_⟩
  obtain ⟨g1, g2, g3⟩ := h ls y he
  refine ⟨g1, g2, ?_⟩
  rcases g3 with ⟨g3, g4⟩ | g3
  · refine .inl ⟨g3, ?_⟩
    rw [h3, hr, ok_bind] at hw
    injection hw with hw
    rw [g4]
    exact hw
  · exact .inr g3

/-- A finished execution exists whenever the single-threaded build succeeds. -/
theorem pool_solve_runs (ht : Fl.constructT b c o per dims x = .ok t) {w : Mesh (D + 1) V} (hw : Fl.solveForControlPoints c t fm = .ok w)
    (hp : Pool.Reachable num p0) (ha : p0.dtor = .alive) (hf : ∀ t ∈ p0.submitted, t % 2 = 1) :
    ∃ s0 ls y, t.solveStart c junk0 fm = .ok s0 ∧ FJState.Exec (solveJob c t.solvers bn junk) (init p0 s0) ls y ∧ y.Done (solveJob c t.solvers bn junk) ∧ solveResult y.s = w := by
  obtain ⟨s0, h0, N, B, h⟩ := pool_solve_complete (bn := bn) (junk0 := junk0) (junk := junk) ht hw hp ha hf
  by_contra hc
  push Not at hc
  have : ∀ n, ∃ ls y, FJState.Exec (solveJob c t.solvers bn junk) (init p0 s0) ls y ∧ ls.length = n ∧ ls.countP (fun l => !l.isWork) = 0 := by
    intro n
    induction n with
    | zero => exact ⟨[], _, .nil _, rfl, rfl⟩
    | succ n ih =>
      obtain ⟨ls, y, g1, g2, g3⟩ := ih
      rcases (h ls y g1).2.2 with ⟨g4, g5⟩ | ⟨l, z, g4, g5⟩
      · exact absurd g5 (hc s0 ls y h0 g1 g4)
      · exact ⟨_, z, .snoc g1 g5, by simp [g2], by simp [List.countP_append, g3, g4]⟩
  obtain ⟨ls, y, g1, g2, g3⟩ := this (N + 1)
  have := (h ls y g1).1
  rw [g3] at this
  omega

/-- **C62, end to end.**  If the single-threaded build constructs the function `g`, in whatever arithmetic, every parallel construction ends with
`g`; it never fails and never gets stuck. -/
theorem pool_solve_construct {g : InterpFn (D + 1) K V} (hg : Fl.construct b c o per fm x = .ok g) (hp : Pool.Reachable num p0) (ha : p0.dtor = .alive)
    (hf : ∀ t ∈ p0.submitted, t % 2 = 1) :
    ∃ t s0, Fl.constructT b c o per fm.dims x = .ok t ∧ t.solveStart c junk0 fm = .ok s0 ∧
      ∃ N B, ∀ ls y, FJState.Exec (solveJob c t.solvers bn junk) (init p0 s0) ls y → ls.length ≤ N + B * ls.countP (fun l => !l.isWork) ∧
        ¬ y.Race ∧ ¬ y.Failed ∧ ((y.Done (solveJob c t.solvers bn junk) ∧
          { t.base with spline := t.base.spline.loadCtrlPts (solveResult y.s) } = g) ∨
          ∃ l z, l.isWork = true ∧ FJState.Step (solveJob c t.solvers bn junk) y l z) := by
  unfold Fl.construct at hg
  cases ht : Fl.constructT (V := V) b c o per fm.dims x with
  | error e => rw [ht] at hg; cases hg
  | ok t =>
    rw [ht, ok_bind] at hg
    cases hw : Fl.solveForControlPoints c t fm with
    | error e => rw [hw] at hg; cases hg
    | ok w =>
      rw [hw, ok_bind] at hg
      injection hg with hg
      obtain ⟨s0, h0, N, B, h⟩ := pool_solve_complete (bn := bn) (junk0 := junk0) (junk := junk) ht hw hp ha hf
      refine ⟨t, s0, rfl, h0, N, B, fun ls y he => ?_⟩
      obtain ⟨g1, g2, g3⟩ := h ls y he
      refine ⟨g1, (pool_solve_safe ht h0 hp ha hf he).1, g2, ?_⟩
      rcases g3 with ⟨g3, g4⟩ | g3
      · exact .inl ⟨g3, by rw [g4]; exact hg⟩
      · exact .inr g3

end

section

open Template

variable {K V : Type} [Field K] [LinearOrder K] [IsStrictOrderedRing K] [FloorRing K] [AddCommGroup V] [Module K V] {D : ℕ}
  {o : ℕ} {per : Fin (D + 1) → Bool} {x : Fin (D + 1) → XRange K} {bn : ℕ → ℕ} {num : ℕ} {p0 : Pool}

attribute [local instance] exactVal exactScale

/-- **C62, end to end in exact arithmetic.**  For valid axes that are non-periodic, or periodic and uniform, or (up to order 3) periodic with any coordinates:
every parallel construction of the interpolation of every data set ends, with the function that is constructed by a single thread; it never
fails and never gets stuck. -/
theorem pool_solve_total (c : Cfg) (junk0 : ℕ → V) (junk : ℕ → ℕ → V) {fm : Mesh (D + 1) V} (hm : fm.WF) (hv : ValidAxes c o per fm.dims x)
    (hx : ∀ d, per d = true → (∃ a b, x d = .uniform a b) ∨ o ≤ 3) (hp : Pool.Reachable num p0) (ha : p0.dtor = .alive)
    (hf : ∀ t ∈ p0.submitted, t % 2 = 1) :
    ∃ t g s0, Template.construct c o per fm.dims x = .ok t ∧ InterpFn.construct c o per fm x = .ok g ∧ t.solveStart c junk0 fm = .ok s0 ∧
      ∃ N B, ∀ ls y, FJState.Exec (solveJob c t.solvers bn junk) (init p0 s0) ls y → ls.length ≤ N + B * ls.countP (fun l => !l.isWork) ∧
        ¬ y.Race ∧ ¬ y.Failed ∧ ((y.Done (solveJob c t.solvers bn junk) ∧
          { t.base with spline := t.base.spline.loadCtrlPts (solveResult y.s) } = g) ∨
          ∃ l z, l.isWork = true ∧ FJState.Step (solveJob c t.solvers bn junk) y l z) := by
  obtain ⟨g, hg⟩ := periodic_construct_ok_partial c hm hv hx
  have hg' := hg
  rw [← Fl.tie_construct] at hg'
  obtain ⟨t, s0, ht, h0, h⟩ := @pool_solve_construct K V (exactCoord K) (exactVal V) (exactScale K V) D false c o per x fm bn junk0 junk num p0 g hg' hp ha hf
  rw [Fl.tie_constructT] at ht
  exact ⟨t, g, s0, ht, hg, h0, h⟩

/-- **C62, end to end in `double`** without assertions, for data of any size for which the library is meant, whatever the coordinates and values
are (also nan): every parallel construction ends with the function that is constructed by a single thread, bit by bit. -/
theorem pool_solve_double (c : Cfg) (hc : c.assertions = false) (junk0 : ℕ → F64) (junk : ℕ → ℕ → F64) (fm : Mesh (D + 1) F64) (x : Fin (D + 1) → XRange F64)
    (hs : ∀ d, SizesOk c o (per d) (fm.dims d) (x d)) (hl : fm.storage.length = ∏ d, fm.dims d) (hp : Pool.Reachable num p0) (ha : p0.dtor = .alive)
    (hf : ∀ t ∈ p0.submitted, t % 2 = 1) :
    ∃ (g : InterpFn (D + 1) F64 F64) (t : Template (D + 1) F64 F64) (s0 : ℕ × Mesh (D + 1) F64 × Mesh (D + 1) F64),
      Fl.construct true c o per fm x = .ok g ∧ Fl.constructT true c o per fm.dims x = .ok t ∧ t.solveStart c junk0 fm = .ok s0 ∧
      ∃ N B, ∀ ls y, FJState.Exec (solveJob c t.solvers bn junk) (init p0 s0) ls y → ls.length ≤ N + B * ls.countP (fun l => !l.isWork) ∧
        ¬ y.Race ∧ ¬ y.Failed ∧ ((y.Done (solveJob c t.solvers bn junk) ∧
          { t.base with spline := t.base.spline.loadCtrlPts (solveResult y.s) } = g) ∨
          ∃ l z, l.isWork = true ∧ FJState.Step (solveJob c t.solvers bn junk) y l z) := by
  obtain ⟨g, hg⟩ := double_construct c hc o per fm x hs hl
  obtain ⟨t, s0, h⟩ := pool_solve_construct (bn := bn) (junk0 := junk0) (junk := junk) hg hp ha hf
  exact ⟨g, t, s0, hg, h⟩

/-- The hypotheses hold for the data set of `InterpExample` and a pool of 8 threads that nobody has used: there is a finished execution, and it
has the control points of the single-threaded build. -/
example : ∃ t w s0 ls y, Template.construct (V := ℚ) InterpExample.cfg 3 InterpExample.per InterpExample.data.dims InterpExample.x = .ok t ∧
    t.solveForControlPoints InterpExample.cfg InterpExample.data = .ok w ∧ t.solveStart InterpExample.cfg (fun i => (i : ℚ)) InterpExample.data = .ok s0 ∧
    FJState.Exec (solveJob InterpExample.cfg t.solvers Nat.sqrt fun d i => (7 * d - i : ℚ)) (init (Pool.init 8) s0) ls y ∧
    y.Done (solveJob InterpExample.cfg t.solvers Nat.sqrt fun d i => (7 * d - i : ℚ)) ∧ solveResult y.s = w := by
  have h : (do
    let t ← Template.construct (V := ℚ) InterpExample.cfg 3 InterpExample.per InterpExample.data.dims InterpExample.x
    t.solveForControlPoints InterpExample.cfg InterpExample.data : M (Mesh 2 ℚ)).toOption.isSome = true := by decide +kernel
  cases ht : Template.construct (V := ℚ) InterpExample.cfg 3 InterpExample.per InterpExample.data.dims InterpExample.x with
  | error e => rw [ht] at h; simp [error_bind, Except.toOption] at h
  | ok t =>
    rw [ht, ok_bind] at h
    cases hw : t.solveForControlPoints InterpExample.cfg InterpExample.data with
    | error e => rw [hw] at h; simp [Except.toOption] at h
    | ok w =>
      have ht' := ht
      have hw' := hw
      rw [← Fl.tie_constructT] at ht'
      rw [← Fl.tie_solveForControlPoints] at hw'
      obtain ⟨s0, ls, y, h1, h2, h3, h4⟩ := @pool_solve_runs ℚ ℚ (exactCoord ℚ) _ _ _ _ _ _ _ _ _ _ _ Nat.sqrt _ _ 8 (Pool.init 8) ht' _ hw' ⟨_, .nil _⟩ rfl (by simp [Pool.init])
      exact ⟨t, w, s0, ls, y, rfl, hw, h1, h2, h3, h4⟩

/-- A pool somebody else has used: task 1 was queued and is waiting. -/
example : ∃ p0, Pool.Reachable 8 p0 ∧ p0.dtor = .alive ∧ (∀ t ∈ p0.submitted, t % 2 = 1) ∧ p0.mainQ = [1] :=
  ⟨{ Pool.init 8 with mainQ := [1], submitted := [1], notifies := 1 },
    ⟨_, .snoc (.nil _) (.submit (t := 1) rfl (by simp [Pool.init]) (by simp [Pool.submit, Pool.init]))⟩, rfl, by simp, rfl⟩

end

/-! ## C63 -/

section

variable {V : Type} [Zero V] {D : ℕ} {c : Cfg} {order : ℕ} {per : Fin (D + 1) → Bool} {ctrl : Mesh (D + 1) V} {bn : ℕ → ℕ} {num : ℕ} {p0 : Pool}

open Cell

omit [Zero V] in
theorem cdims_pos {n : Fin (D + 1) → ℕ} (hn : ∀ d, 0 < n d) (ha : ∀ d, per d = false → order < n d) (d : Fin (D + 2)) : 0 < cdims order per n d := by
  refine Fin.lastCases ?_ (fun d => ?_) d
  · rw [cdims_last]; exact Nat.pow_pos (Nat.succ_pos _)
  · rw [cdims_castSucc]
    have := hn d
    split
    · omega
    · split
      · omega
      · rename_i hp
        have := ha d (by simpa using hp)
        omega

theorem fillStart_ok (ha : ∀ d, per d = false → order < ctrl.dims d) :
    fillStart order per ctrl = .ok (false, Mesh.mk' (cdims order per ctrl.dims)) := by
  unfold fillStart
  rw [dims_ok ha]; rfl

theorem fillJob_start (hn : ∀ d, 0 < ctrl.dims d) (ha : ∀ d, per d = false → order < ctrl.dims d) :
    (fillJob c order ctrl bn).start (false, (Mesh.mk' (cdims order per ctrl.dims) : Mesh (D + 2) V)) = .ok (some
      ⟨bn (∏ d : Fin D, cdims order per ctrl.dims d.castSucc.castSucc),
        fillBlocks c order (cdims order per ctrl.dims (Fin.last D).castSucc * cdims order per ctrl.dims (Fin.last (D + 1))) ctrl
          (Mesh.mk' (cdims order per ctrl.dims)) (bn (∏ d : Fin D, cdims order per ctrl.dims d.castSucc.castSucc))
          (∏ d : Fin D, cdims order per ctrl.dims d.castSucc.castSucc),
        fun b => if b then (Mesh.mk' (cdims order per ctrl.dims) : Mesh (D + 2) V).storage else []⟩) := by
  set cd := cdims order per ctrl.dims with hcd
  have hpos : ∀ d, 0 < cd d := cdims_pos hn ha
  have hl : 0 < cd (Fin.last D).castSucc * cd (Fin.last (D + 1)) := Nat.mul_pos (hpos _) (hpos _)
  have hsz : (Mesh.mk' cd : Mesh (D + 2) V).size = ∏ d, cd d := by simp [Mesh.size, Mesh.mk', dimsSize_eq]
  unfold fillJob
  simp only [Bool.false_eq_true, if_false]
  rw [hsz]
  show divN _ (cd (Fin.last D).castSucc * cd (Fin.last (D + 1))) >>= _ = _
  rw [divN_ok hl.ne', ok_bind, dims_prod, Nat.mul_div_cancel _ hl]
  rfl

theorem fill_indep (hn : ∀ d, 0 < ctrl.dims d) (ha : ∀ d, per d = false → order < ctrl.dims d) :
    ∀ s r, (fillJob c order ctrl bn).Seq (false, (Mesh.mk' (cdims order per ctrl.dims) : Mesh (D + 2) V)) s →
      (fillJob c order ctrl bn).start s = .ok (some r) → r.Indep := by
  intro s r hs hr
  cases hs with
  | tail _ _ _ =>
    unfold fillJob at hr
    simp [pure_eq_ok] at hr
  | refl =>
    rw [fillJob_start hn ha] at hr
    simp only [Except.ok.injEq, Option.some.injEq] at hr
    subst hr
    refine ⟨_, FillCells.disj _ _ _, fun i => fillBlocks_conf c order ctrl (cell := Mesh.mk' (cdims order per ctrl.dims)) (cdims_pos hn ha) (cdims_last _ _ _) _ i, fun i hi => ?_⟩
    have hi : bn (∏ d : Fin D, cdims order per ctrl.dims d.castSucc.castSucc) < i := hi
    show fillBlocks _ _ _ _ _ _ _ i = _
    unfold fillBlocks
    rw [if_neg (by omega), if_neg (by omega)]

/-- The sequential filling, as one region. -/
theorem generate_seq (hn : ∀ d, 0 < ctrl.dims d) (ha : ∀ d, per d = false → order < ctrl.dims d) {r : Region V}
    (hr : (fillJob c order ctrl bn).start (false, (Mesh.mk' (cdims order per ctrl.dims) : Mesh (D + 2) V)) = .ok (some r)) :
    generate c order per ctrl = Prog.seq r.prog (r.num + 1) r.mem >>= fun m =>
      .ok ((fillJob c order ctrl bn).finish (false, Mesh.mk' (cdims order per ctrl.dims)) m).2 := by
  rw [fillJob_start hn ha] at hr
  simp only [Except.ok.injEq, Option.some.injEq] at hr
  subst hr
  set cd := cdims order per ctrl.dims with hcd
  have hpos : ∀ d, 0 < cd d := cdims_pos hn ha
  have hl : 0 < cd (Fin.last D).castSucc * cd (Fin.last (D + 1)) := Nat.mul_pos (hpos _) (hpos _)
  have hsz : (Mesh.mk' cd : Mesh (D + 2) V).size = ∏ d, cd d := by simp [Mesh.size, Mesh.mk', dimsSize_eq]
  simp only
  rw [seq_fillBlocks _ _ _ _ _ _ _ _ (by simp)]
  unfold generate
  rw [dims_ok ha, ok_bind]
  simp only
  rw [← hcd, hsz, divN_ok hl.ne', ok_bind, dims_prod, Nat.mul_div_cancel _ hl, bind_assoc]
  cases hf : fill c order (cd (Fin.last D).castSucc * cd (Fin.last (D + 1))) ctrl 0 (∏ d : Fin D, cd d.castSucc.castSucc) (Mesh.mk' cd) with
  | error e => rfl
  | ok q =>
    rw [ok_bind, ok_bind]
    unfold fillJob
    simp only [Function.update_self]
    have := (fillP_ref c order (cd (Fin.last D).castSucc * cd (Fin.last (D + 1))) ctrl (Mesh.mk' cd) 0 (∏ d : Fin D, cd d.castSucc.castSucc)
      (fun _ => (Mesh.mk' cd : Mesh (D + 2) V).storage)).2 q hf
    congr 1
    rw [← this]

/-- **C63, result.**  With INTP_CELL_LAYOUT and INTP_MULTITHREAD, the cell container filled on the pool is the one filled by a single thread. -/
theorem pool_fill_deterministic (hn : ∀ d, 0 < ctrl.dims d) (hord : ∀ d, per d = false → order < ctrl.dims d)
    (hp : Pool.Reachable num p0) (ha : p0.dtor = .alive) (hf : ∀ t ∈ p0.submitted, t % 2 = 1) {s0 : Bool × Mesh (D + 2) V}
    (h0 : fillStart order per ctrl = .ok s0) {ls : List FJLabel} {y : FJState (Bool × Mesh (D + 2) V) V}
    (he : FJState.Exec (fillJob c order ctrl bn) (init p0 s0) ls y) (hd : y.Done (fillJob c order ctrl bn)) :
    generate c order per ctrl = .ok y.s.2 := by
  rw [fillStart_ok hord] at h0
  injection h0 with h0
  subst h0
  have hseq := (region_safe (fill_indep hn hord) hp ha hf he).1
  generalize hs : y.s = s at hseq
  have hend := hd.2
  rw [hs] at hend
  cases hseq with
  | refl => rw [fillJob_start hn hord] at hend; simp at hend
  | @tail t r m h1 h2 h3 =>
    cases h1 with
    | tail _ _ _ => unfold fillJob at h2; simp [pure_eq_ok] at h2
    | refl => rw [generate_seq hn hord h2, h3, ok_bind]

/-- **C63, safety.**  No data race on the container, and no task of this call is left when the calling thread leaves the region. -/
theorem pool_fill_safe (hn : ∀ d, 0 < ctrl.dims d) (hord : ∀ d, per d = false → order < ctrl.dims d)
    (hp : Pool.Reachable num p0) (ha : p0.dtor = .alive) (hf : ∀ t ∈ p0.submitted, t % 2 = 1) {s0 : Bool × Mesh (D + 2) V}
    (h0 : fillStart order per ctrl = .ok s0) {ls : List FJLabel} {y : FJState (Bool × Mesh (D + 2) V) V}
    (he : FJState.Exec (fillJob c order ctrl bn) (init p0 s0) ls y) :
    ¬ y.Race ∧ (y.call = .idle → ∀ k i, taskId k i ∉ y.pool.mainQ ∧ ∀ w < y.pool.n, taskId k i ∉ y.pool.wq w ∧ y.pool.pc w ≠ .run (taskId k i)) := by
  rw [fillStart_ok hord] at h0
  injection h0 with h0
  subst h0
  exact (region_safe (fill_indep hn hord) hp ha hf he).2

/-- **C63, progress.**  Every execution is bounded, never fails, never gets stuck, and ends with the container of the single-threaded build. -/
theorem pool_fill_complete (hn : ∀ d, 0 < ctrl.dims d) (hord : ∀ d, per d = false → order < ctrl.dims d) (hwf : ctrl.WF)
    (hp : Pool.Reachable num p0) (ha : p0.dtor = .alive) (hf : ∀ t ∈ p0.submitted, t % 2 = 1) :
    ∃ cell s0, generate c order per ctrl = .ok cell ∧ fillStart order per ctrl = .ok s0 ∧ ∃ N B, ∀ ls y,
      FJState.Exec (fillJob c order ctrl bn) (init p0 s0) ls y → ls.length ≤ N + B * ls.countP (fun l => !l.isWork) ∧ ¬ y.Failed ∧
      ((y.Done (fillJob c order ctrl bn) ∧ y.s.2 = cell) ∨ ∃ l z, l.isWork = true ∧ FJState.Step (fillJob c order ctrl bn) y l z) := by
  have hC : ctrl.Holds ctrl.dims fun a => ((ctrl.get a).toOption.getD 0) := by
    refine ⟨rfl, hwf, fun a hr => ?_⟩
    obtain ⟨v, hv⟩ := hwf.get_ok hr
    simp [hv, Except.toOption]
  obtain ⟨cell, hgen, -⟩ := (generate_spec c (order := order) (per := per) hC hn hord).exists
  refine ⟨cell, _, hgen, fillStart_ok hord, ?_⟩
  have hst := fillJob_start (c := c) (bn := bn) hn hord
  have hg := generate_seq hn hord hst
  rw [hgen] at hg
  generalize hreg : (Region.mk _ _ _ : Region V) = r at hst hg
  cases hm : Prog.seq r.prog (r.num + 1) r.mem with
  | error e => rw [hm] at hg; cases hg
  | ok m =>
    rw [hm, ok_bind] at hg
    injection hg with hg
    have hrun : (fillJob c order ctrl bn).Run (Pool.grow p0.n) (false, Mesh.mk' (cdims order per ctrl.dims))
        ((fillJob c order ctrl bn).finish (false, Mesh.mk' (cdims order per ctrl.dims)) m) _ := .step hst hm (.done (by unfold fillJob; simp))
    obtain ⟨N, B, h⟩ := region_complete (fill_indep hn hord) hp ha hf hrun
    refine ⟨N, B, fun ls y he => ?_⟩
    obtain ⟨g1, g2, g3⟩ := h ls y he
    refine ⟨g1, g2, ?_⟩
    rcases g3 with ⟨g3, g4⟩ | g3
    · exact .inl ⟨g3, by rw [g4, hg]⟩
    · exact .inr g3

/-- The hypotheses hold for a 5 × 6 mesh of control points, one dimension periodic, order 3; the container has 5 × 6 × 4 elements. -/
example : (∀ d, 0 < (Mesh.mk' ![5, 6] : Mesh 2 ℚ).dims d) ∧ (∀ d, ![true, false] d = false → 3 < (Mesh.mk' ![5, 6] : Mesh 2 ℚ).dims d) ∧
    (Mesh.mk' ![5, 6] : Mesh 2 ℚ).WF ∧
    ((generate (⟨true, false⟩ : Cfg) 3 ![true, false] (Mesh.mk' ![5, 6] : Mesh 2 ℚ)).toOption.map fun m => m.dims) = some ![5, 6, 4] := by
  refine ⟨fun d => by fin_cases d <;> decide, fun d => by fin_cases d <;> decide, Mesh.mk'_wf _, by decide +kernel⟩

end

end Intp
