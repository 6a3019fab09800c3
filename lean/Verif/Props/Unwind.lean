import Verif.Proofs.Unwind
import Verif.Props.ForkJoin

/-!
# Exceptions in parallel regions (C86)

C86 as stated — when an exception leaves a parallel region no task of the region is queued or running — is false: the calling thread does not wait for the
remaining tasks, which then access destroyed meshes.  Executions start from any reachable pool that only other threads have used so far.
-/

namespace Intp

open FJState

section

variable {σ V : Type} {J : Job σ V} {num : ℕ} {p0 : Pool} {s0 : σ}

/-- **C86, partial.**  Between regions nothing of this call is queued or running.  If an exception has left the region, what is still queued or running are tasks
of this region, and if it came out of `f.get()` for block `i`, only blocks after `i`.  Missing: the tasks after `i` (all tasks, if the exception came from
`queue_task` or from the calling thread's own part) are not waited for, see `exception_tasks_left` and `exception_use_after_free`. -/
theorem exception_safe_partial (hp : Pool.Reachable num p0) (ha : p0.dtor = .alive) (hf : ∀ t ∈ p0.submitted, t % 2 = 1) {x : UState σ V}
    (he : UState.Exec J (UState.init p0 s0) x) :
    (x.fj.call = .idle → x.left = false ∧ ∀ k i, ¬ x.Pending (taskId k i)) ∧
      ∀ k i, x.Pending (taskId k i) → k = x.fj.k ∧ i < x.fj.num ∧ ∀ j, x.left = true → x.fj.call = .get j → j < i := by
  have hi := (UState.Inv.init hp ha hf).exec he
  have key : ∀ k i, x.Pending (taskId k i) → k = x.fj.k ∧ i < x.fj.sent := fun k i hpd => by
    by_contra hno
    refine UState.not_pending hi.fj (t := taskId k i) ?_ hpd
    by_cases h : taskId k i ∈ x.fj.pool.submitted
    · right
      rcases hi.fj.ours k i h with h1 | h1
      · exact hi.fj.old k i h1 h
      · exact absurd h1 hno
    · exact .inl h
  refine ⟨fun hc => ⟨?_, fun k i hpd => ?_⟩, fun k i hpd => ?_⟩
  · by_contra hl
    exact (hi.gotLeft (by simpa using hl)).1 hc
  · have := (key k i hpd).2
    unfold sent at this
    rw [hc] at this
    exact absurd this (Nat.not_lt_zero _)
  · obtain ⟨h1, h2⟩ := key k i hpd
    have hc : x.fj.call ≠ .idle := fun hc => by
      unfold sent at h2
      rw [hc] at h2
      exact absurd h2 (Nat.not_lt_zero _)
    refine ⟨h1, h2.trans_le (hi.fj.sentLe hc), fun j hl hj => ?_⟩
    by_contra hlt
    refine UState.not_pending hi.fj (.inr ?_) hpd
    rw [h1]
    rcases (Nat.le_of_not_lt hlt).lt_or_eq with h3 | rfl
    · exact (hi.fj.got j hj).2 i h3
    · exact (hi.gotLeft hl).2 _ hj

/-- An exception that comes out of the last future leaves nothing behind, and nothing is accessed after it was destroyed. -/
theorem exception_last_partial (hp : Pool.Reachable num p0) (ha : p0.dtor = .alive) (hf : ∀ t ∈ p0.submitted, t % 2 = 1) {x : UState σ V}
    (he : UState.Exec J (UState.init p0 s0) x) {i : ℕ} (hc : x.fj.call = .get i) (hi : i + 1 = x.fj.num) (hl : x.left = true) :
    (∀ k j, ¬ x.Pending (taskId k j)) ∧ ¬ x.UseAfterFree := by
  have h := (exception_safe_partial hp ha hf he).2
  have h0 : ∀ k j, ¬ x.Pending (taskId k j) := fun k j hpd => by
    obtain ⟨-, h2, h3⟩ := h k j hpd
    have := h3 i hl hc
    omega
  exact ⟨h0, fun ⟨_, w, hw, j, hr, _⟩ => h0 _ j (.inr ⟨w, hw, .inr hr⟩)⟩

/-- No exception is lost: a call that returns normally is one in which no task and no operation has thrown. -/
theorem exception_not_lost (hp : Pool.Reachable num p0) (ha : p0.dtor = .alive) (hf : ∀ t ∈ p0.submitted, t % 2 = 1) {x : UState σ V}
    (he : UState.Exec J (UState.init p0 s0) x) (hc : x.fj.call = .idle) : (∀ i, x.failed i = false) ∧ ∃ ls, FJState.Exec J (FJState.init p0 s0) ls x.fj := by
  have hi := (UState.Inv.init hp ha hf).exec he
  have hl : x.left = false := by
    by_contra hl
    exact (hi.gotLeft (by simpa using hl)).1 hc
  have h : ∀ i, x.failed i = false := fun i => by
    by_contra hne
    exact (hi.fail hl i (by simpa using hne)).1 hc
  exact ⟨h, he.plain hl h⟩

end

section

open Template

variable {K V : Type} [CoordArith K] [ValArith V] [ScaleArith K V] {D : ℕ}
  {b : Bool} {c : Cfg} {o : ℕ} {per : Fin (D + 1) → Bool} {dims : Fin (D + 1) → ℕ} {x : Fin (D + 1) → XRange K} {t : Template (D + 1) K V}
  {fm : Mesh (D + 1) V} {bn : ℕ → ℕ} {junk0 : ℕ → V} {junk : ℕ → ℕ → V} {num : ℕ} {p0 : Pool} {s0 : ℕ × Mesh (D + 1) V × Mesh (D + 1) V}

/-- If solving on the pool returns normally, though operations may throw, the control points are those of the single-threaded build. -/
theorem exception_result (ht : Fl.constructT b c o per dims x = .ok t) (h0 : t.solveStart c junk0 fm = .ok s0)
    (hp : Pool.Reachable num p0) (ha : p0.dtor = .alive) (hf : ∀ t ∈ p0.submitted, t % 2 = 1)
    {y : UState (ℕ × Mesh (D + 1) V × Mesh (D + 1) V) V} (he : UState.Exec (solveJob c t.solvers bn junk) (UState.init p0 s0) y)
    (hd : y.fj.Done (solveJob c t.solvers bn junk)) : Fl.solveForControlPoints c t fm = .ok (solveResult y.fj.s) := by
  obtain ⟨-, ls, h⟩ := exception_not_lost hp ha hf he hd.1
  exact pool_solve_deterministic ht h0 hp ha hf h hd

end

/-! ## The code violates C86 -/

section

variable {σ V : Type} {J : Job σ V} {s0 : σ} {r : Region V}

/-- A pool in which nothing has happened but submissions, and what worker 0 has done. -/
def exPool (num : ℕ) (mq wq : List ℕ) (p : WPc) (own : Option ℕ) (sub done : List ℕ) : Pool :=
  { Pool.init num with mainQ := mq, wq := Function.update (fun _ => []) 0 wq, pc := Function.update (fun _ => .top) 0 p, owner := own, submitted := sub, done := done }

theorem exPool_init (num : ℕ) : Pool.init num = exPool num [] [] .top none [] [] := by
  unfold exPool
  rw [Function.update_eq_self_iff.2 rfl, Function.update_eq_self_iff.2 rfl]
  rfl

/-- Worker 0 looks for a task, takes the one in the main queue and starts it. -/
theorem exPool_take (num t : ℕ) (sub done : List ℕ) :
    (exPool num [t] [] .top none sub done).worker 0 = some (exPool num [t] [] .popOwn none sub done) ∧
    (exPool num [t] [] .popOwn none sub done).worker 0 = some (exPool num [t] [] .popMain none sub done) ∧
    (exPool num [t] [] .popMain none sub done).worker 0 = some (exPool num [t] [] (.moving 0) (some 0) sub done) ∧
    (exPool num [t] [] (.moving 0) (some 0) sub done).worker 0 = some (exPool num [] [t] (.moving 1) (some 0) sub done) ∧
    (exPool num [] [t] (.moving 1) (some 0) sub done).worker 0 = some (exPool num [] [t] .popOwn2 none sub done) ∧
    (exPool num [] [t] .popOwn2 none sub done).worker 0 = some (exPool num [] [] (.run t) none sub done) ∧
    (exPool num [] [] (.run t) none sub done).worker 0 = some (exPool num [] [] .top none sub (done ++ [t])) := by
  refine ⟨?_, ?_, ?_, ?_, ?_, ?_, ?_⟩ <;> simp [Pool.worker, exPool, Pool.goto, Pool.tryPop, Pool.init, Pool.batchSize]

/-- `queue_task` of a new task, and the notification, while no worker is blocked. -/
theorem exPool_submit (num t : ℕ) (mq sub done : List ℕ) (ht : t ∉ sub) :
    ∃ p, Pool.Step (exPool num mq [] .top none sub done) (.submit t) p ∧ Pool.Step p .notify (exPool num (mq ++ [t]) [] .top none (sub ++ [t]) done) := by
  refine ⟨_, .submit rfl ht rfl, ?_⟩
  refine Pool.Step.notifyNone (s := { exPool num mq [] .top none sub done with mainQ := mq ++ [t], submitted := sub ++ [t], notifies := 0 + 1 }) Nat.one_pos fun w _ => ?_
  show Function.update (fun _ => WPc.top) 0 WPc.top w ≠ _
  rw [Function.update_eq_self_iff.2 rfl]
  simp

/-- A state of the calling thread in its first region. -/
def exState (s0 : σ) (r : Region V) (p : Pool) (c : Caller) (prog : ℕ → Prog V Unit) (f : ℕ → Bool) (l : Bool) : UState σ V :=
  ⟨{ pool := p, s := s0, k := 0, call := c, num := r.num, prog := prog, mem := r.mem }, f, l⟩

/-- The tasks `0 … i - 1` of the first region. -/
def exIds (i : ℕ) : List ℕ := (List.range i).map (taskId 0)

theorem exIds_not_mem (i : ℕ) : taskId 0 i ∉ exIds i := by
  unfold exIds
  intro h
  obtain ⟨j, hj, e⟩ := List.mem_map.1 h
  have := (taskId_inj.1 e).2
  have := List.mem_range.1 hj
  omega

theorem exState_queue (num : ℕ) (hst : J.start s0 = .ok (some r)) :
    ∀ i ≤ r.num, UState.Exec J (UState.init (Pool.init num) s0) (exState s0 r (exPool num (exIds i) [] .top none (exIds i) []) (.queue i) r.prog (fun _ => false) false)
  | 0, _ => by
    refine .snoc (.nil _) ?_
    rw [show exIds 0 = [] from rfl, ← exPool_init]
    exact UState.Step.run (x := UState.init (Pool.init num) s0) (FJState.Step.fork rfl hst) fun _ => ⟨rfl, fun i hi => by cases hi⟩
  | i + 1, hi => by
    have ih := exState_queue num hst i (by omega)
    obtain ⟨p, h1, h2⟩ := exPool_submit num (taskId 0 i) (exIds i) (exIds i) [] (exIds_not_mem i)
    have e : exIds (i + 1) = exIds i ++ [taskId 0 i] := by unfold exIds; rw [List.range_succ, List.map_append]; rfl
    rw [e]
    refine .snoc (.snoc ih (.run (FJState.Step.submit rfl (show i < r.num by omega) h1) fun _ => ⟨rfl, fun j hj => by cases hj⟩)) ?_
    exact UState.Step.run (x := exState s0 r p (.notify i) r.prog (fun _ => false) false) (FJState.Step.notified rfl h2) fun _ => ⟨rfl, fun j hj => by cases hj⟩

/-- **C86 fails.**  For every number of workers and every region: if queueing throws after `i ≥ 1` tasks, or if the calling thread's own part throws, it may leave
the region while all tasks queued so far are still waiting. -/
theorem exception_tasks_left (num : ℕ) (hst : J.start s0 = .ok (some r)) :
    (∀ i, 0 < i → i ≤ r.num → ∃ x, UState.Exec J (UState.init (Pool.init num) s0) x ∧ x.left = true ∧ x.fj.call = .queue i ∧ ∀ j < i, x.Pending (taskId 0 j)) ∧
    (r.prog r.num ≠ .ret () → ∃ x, UState.Exec J (UState.init (Pool.init num) s0) x ∧ x.left = true ∧ x.fj.call = .own ∧ ∀ j < r.num, x.Pending (taskId 0 j)) := by
  have pend : ∀ i c l, ∀ j < i, (exState s0 r (exPool num (exIds i) [] .top none (exIds i) []) c r.prog (fun _ => false) l).Pending (taskId 0 j) :=
    fun i c l j hj => .inl (List.mem_map.2 ⟨j, List.mem_range.2 hj, rfl⟩)
  refine ⟨fun i h0 hi => ?_, fun hne => ?_⟩
  · exact ⟨_, .snoc (exState_queue num hst i hi) (.submit rfl rfl (show 0 < r.num by omega)), rfl, rfl, pend i (.queue i) true⟩
  · have h := exState_queue (J := J) num hst r.num le_rfl
    refine ⟨_, .snoc (.snoc h (.run (FJState.Step.queued rfl (lt_irrefl r.num)) fun _ => ⟨rfl, fun j hj => by cases hj⟩)) (.own rfl rfl hne), rfl, rfl, pend r.num .own true⟩

/-- A step of worker 0. -/
theorem exState_worker {num : ℕ} {p p' : Pool} {c : Caller} {prog : ℕ → Prog V Unit} {f : ℕ → Bool} {l : Bool} {a : UState σ V} (hw : p.worker 0 = some p')
    (hpn : p.n = (Pool.init num).n) (hr : ∀ i, p.pc 0 = .run (taskId 0 i) → prog i = .ret ()) (he : UState.Exec J a (exState s0 r p c prog f l)) :
    UState.Exec J a (exState s0 r p' c prog f l) :=
  .snoc he (.run (FJState.Step.pool (.worker (by have := (Pool.init_inv num).pos; show 0 < p.n; omega) hw) hr) fun e => by cases e)

/-- Worker 0 takes the task in the main queue. -/
theorem exState_take {num t : ℕ} {sub done : List ℕ} {c : Caller} {prog : ℕ → Prog V Unit} {f : ℕ → Bool} {l : Bool} {a : UState σ V}
    (he : UState.Exec J a (exState s0 r (exPool num [t] [] .top none sub done) c prog f l)) :
    UState.Exec J a (exState s0 r (exPool num [] [] (.run t) none sub done) c prog f l) := by
  obtain ⟨w1, w2, w3, w4, w5, w6, -⟩ := exPool_take num t sub done
  exact exState_worker w6 rfl (fun i h => by cases h) (exState_worker w5 rfl (fun i h => by cases h) (exState_worker w4 rfl (fun i h => by cases h)
    (exState_worker w3 rfl (fun i h => by cases h) (exState_worker w2 rfl (fun i h => by cases h) (exState_worker w1 rfl (fun i h => by cases h) he)))))

/-- The first task is queued, taken and throws. -/
theorem exState_failed (num : ℕ) (hst : J.start s0 = .ok (some r)) (hn : 0 < r.num) (hr0 : r.prog 0 ≠ .ret ()) :
    UState.Exec J (UState.init (Pool.init num) s0) (exState s0 r (exPool num [] [] .top none [taskId 0 0] [taskId 0 0]) (.queue 1)
      (Function.update r.prog 0 (.ret ())) (Function.update (fun _ => false) 0 true) false) := by
  have e1 := exState_take (exState_queue (J := J) num hst 1 hn)
  have e2 := UState.Exec.snoc e1 (.task (w := 0) (i := 0) (Pool.init_inv num).pos rfl hn hr0)
  exact exState_worker (num := num) (p := exPool num [] [] (.run (taskId 0 0)) none [taskId 0 0] []) (exPool_take num (taskId 0 0) [taskId 0 0] []).2.2.2.2.2.2 rfl
    (fun i h => by
      have h : WPc.run (taskId 0 0) = .run (taskId 0 i) := h
      injection h with h
      rw [← (taskId_inj.1 h).2]
      exact Function.update_self ..) e2

/-- A region with one task, which throws: `f.get()` throws its exception. -/
theorem exception_one (num : ℕ) (hst : J.start s0 = .ok (some r)) (h1 : r.num = 1) (hr0 : r.prog 0 ≠ .ret ()) (hr1 : r.prog 1 = .ret ()) :
    ∃ x, UState.Exec J (UState.init (Pool.init num) s0) x ∧ x.fj.call = .get 0 ∧ 0 + 1 = x.fj.num ∧ x.left = true := by
  have e3 := exState_failed (J := J) num hst (by omega) hr0
  have e6 := UState.Exec.snoc e3 (.run (FJState.Step.queued rfl (show ¬ 1 < r.num by omega)) fun _ => ⟨rfl, fun j hj => by cases hj⟩)
  have e7 := UState.Exec.snoc e6 (.run (FJState.Step.ownEnd rfl (by
    show Function.update r.prog 0 (.ret ()) r.num = _
    rw [h1, Function.update_of_ne (by decide)]; exact hr1)) fun _ => ⟨rfl, fun j hj => by cases hj⟩)
  exact ⟨_, .snoc e7 (.get (i := 0) rfl rfl (show 0 < r.num by omega) (show taskId 0 0 ∈ [taskId 0 0] by simp)
    (show Function.update (fun _ : ℕ => false) 0 true 0 = true from rfl)), rfl, by show 0 + 1 = r.num; omega, rfl⟩

/-- **C86 fails.**  A region with two tasks and no remaining part, on a pool of any size: the first task throws, `f.get()` throws its exception in the calling
thread, which destroys the meshes, and then a worker runs the second task and accesses them. -/
theorem exception_use_after_free (num : ℕ) (hst : J.start s0 = .ok (some r)) (h2 : r.num = 2) (hr0 : r.prog 0 ≠ .ret ()) (hr2 : r.prog 2 = .ret ())
    (hr1 : (r.prog 1).next ≠ none) :
    ∃ x, UState.Exec J (UState.init (Pool.init num) s0) x ∧ x.left = true ∧ x.fj.call = .get 0 ∧ x.UseAfterFree := by
  set t0 := taskId 0 0 with ht0
  set t1 := taskId 0 1 with ht1
  have ht : t1 ∉ [t0] := by
    rw [List.mem_singleton]
    intro e
    exact absurd (taskId_inj.1 e).2 (by decide)
  have e3 := exState_failed (J := J) num hst (by omega) hr0
  -- the second task is queued
  obtain ⟨p, s1, s2⟩ := exPool_submit num t1 [] [t0] [t0] ht
  have e4 := UState.Exec.snoc e3 (.run (FJState.Step.submit rfl (show 1 < r.num by omega) s1) fun _ => ⟨rfl, fun j hj => by cases hj⟩)
  have e5 := UState.Exec.snoc e4 (.run (FJState.Step.notified rfl s2) fun _ => ⟨rfl, fun j hj => by cases hj⟩)
  have e6 := UState.Exec.snoc e5 (.run (FJState.Step.queued rfl (show ¬ 2 < r.num by omega)) fun _ => ⟨rfl, fun j hj => by cases hj⟩)
  have e7 := UState.Exec.snoc e6 (.run (FJState.Step.ownEnd rfl (by
    show Function.update r.prog 0 (.ret ()) r.num = _
    rw [h2, Function.update_of_ne (by decide)]; exact hr2)) fun _ => ⟨rfl, fun j hj => by cases hj⟩)
  have e8 := UState.Exec.snoc e7 (.get (i := 0) rfl rfl (show 0 < r.num by omega) (show taskId 0 0 ∈ [t0] by simp [ht0])
    (show Function.update (fun _ : ℕ => false) 0 true 0 = true from rfl))
  -- a worker takes it
  have e9 := exState_take (r := r) (t := t1) (sub := [t0] ++ [t1]) (done := [t0]) (c := .get 0) (prog := Function.update r.prog 0 (.ret ())) (f := Function.update (fun _ => false) 0 true) (l := true) e8
  refine ⟨_, e9, rfl, rfl, rfl, 0, (Pool.init_inv num).pos, 1, rfl, ?_⟩
  show (Function.update r.prog 0 (.ret ()) 1).next ≠ none
  rw [Function.update_of_ne (by decide)]
  exact hr1

end

namespace UnwindExample

attribute [local instance] exactVal exactScale

/-- 4 × 4 data: each region of the solve has two tasks of two lines and no remaining part. -/
def data : Mesh 2 ℚ := ⟨fun _ => 4, [1, 2, -1, 3, 1, 0, 5, 2, 2, 0, 7, 1, 1, 4, 7, -2]⟩

def x : Fin 2 → XRange ℚ := fun _ => .uniform 0 3

/-- The program has returned. -/
def isRet : Prog ℚ Unit → Bool
  | .ret _ => true
  | _ => false

/-- What `exception_use_after_free` requires of a region. -/
def check (r : Region ℚ) : Bool := r.num == 2 && (r.prog 0).next.isSome && (r.prog 1).next.isSome && isRet (r.prog 2)

theorem check_ok : (do
    let t ← Template.construct (V := ℚ) InterpExample.cfg 3 (fun _ => false) data.dims x
    let s0 ← t.solveStart InterpExample.cfg (fun i => (i : ℚ)) data
    (solveJob InterpExample.cfg t.solvers Nat.sqrt fun d i => (7 * d - i : ℚ)).start s0 : M (Option (Region ℚ))).toOption.join.any check = true := by decide +kernel

/-- Solving for the control points of these data with 8 workers: the first task throws, and the second one runs on destroyed meshes. -/
example : ∃ t s0 y, Template.construct (V := ℚ) InterpExample.cfg 3 (fun _ => false) data.dims x = .ok t ∧ t.solveStart InterpExample.cfg (fun i => (i : ℚ)) data = .ok s0 ∧
    UState.Exec (solveJob InterpExample.cfg t.solvers Nat.sqrt fun d i => (7 * d - i : ℚ)) (UState.init (Pool.init 8) s0) y ∧ y.left = true ∧ y.UseAfterFree := by
  have h := check_ok
  cases ht : Template.construct (V := ℚ) InterpExample.cfg 3 (fun _ => false) data.dims x with
  | error e => rw [ht] at h; simp [error_bind, Except.toOption] at h
  | ok t =>
    rw [ht, ok_bind] at h
    cases h0 : t.solveStart InterpExample.cfg (fun i => (i : ℚ)) data with
    | error e => rw [h0] at h; simp [error_bind, Except.toOption] at h
    | ok s0 =>
      rw [h0, ok_bind] at h
      cases hr : (solveJob InterpExample.cfg t.solvers Nat.sqrt fun d i => (7 * d - i : ℚ)).start s0 with
      | error e => rw [hr] at h; simp [Except.toOption] at h
      | ok o =>
        cases o with
        | none => rw [hr] at h; simp [Except.toOption] at h
        | some r =>
          rw [hr] at h
          replace h : check r = true := by simpa [Except.toOption] using h
          simp only [check, Bool.and_eq_true, beq_iff_eq, Option.isSome_iff_ne_none] at h
          obtain ⟨⟨⟨h1, h2⟩, h3⟩, h4⟩ := h
          obtain ⟨y, g1, g2, -, g3⟩ := exception_use_after_free (num := 8) hr h1 (fun e => h2 (by rw [e]; rfl))
            (by cases hp : r.prog 2 <;> rw [hp] at h4 <;> first | rfl | cases h4) h3
          exact ⟨t, s0, y, rfl, h0, g1, g2, g3⟩

/-- The hypotheses of the partial theorems: executions from a pool nobody has used. -/
example : Pool.Reachable 8 (Pool.init 8) ∧ (Pool.init 8).dtor = .alive ∧ ∀ t ∈ (Pool.init 8).submitted, t % 2 = 1 := ⟨⟨_, .nil _⟩, rfl, by simp [Pool.init]⟩

/-- One task, which reads an element. -/
def oneJob : Job Unit ℚ where
  start := fun _ => .ok (some ⟨1, fun i => if i = 0 then .read false 0 fun _ => .ret () else .ret (), fun _ => [0]⟩)
  finish := fun _ _ => ()

/-- An exception out of the last future, as in `exception_last_partial`. -/
example : ∃ x, UState.Exec oneJob (UState.init (Pool.init 8) ()) x ∧ x.fj.call = .get 0 ∧ 0 + 1 = x.fj.num ∧ x.left = true :=
  exception_one 8 rfl rfl (by simp) rfl

end UnwindExample

end Intp
