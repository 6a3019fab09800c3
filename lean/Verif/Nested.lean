import Verif.ThreadPool
import Mathlib.Data.Finset.Card
import Mathlib.Data.Finset.Range

/-!
# Model of tasks that use the thread pool they run on

`queue_task` (DedicatedThreadPool.hpp:138-155) is public and `get_instance` (173-177) returns the same pool everywhere, so a task may itself
pass tasks to the pool and wait for their futures.  This happens when `InterpolationFunctionTemplate::interpolate` is called from a task of the
pool with `INTP_MULTITHREAD` defined: `solve_for_control_points_` queues its blocks and calls `f.get()` (InterpolationTemplate.hpp:555-569),
`generate_cell_layout` does the same (BSpline.hpp:742-752).

Here the transition system of the pool (`Verif/ThreadPool.lean`) is extended: a worker that holds a task performs the calls of `queue_task` and
`future::get` of this task, one by one and interleaved with all other threads.  What a task computes besides is not modelled here, and takes no
steps (see `Verif/ForkJoin.lean` for the memory operations).
-/

namespace Intp

/-- What a task does with the pool. -/
inductive Act
  /-- `queue_task(u)` (DedicatedThreadPool.hpp:142-155) -/
  | queue (u : ℕ)
  /-- `get()` of the future of task `u` (InterpolationTemplate.hpp:569, BSpline.hpp:752) -/
  | wait (u : ℕ)
  deriving DecidableEq

/-- What the tasks do: `body t` are the calls of task `t` in their order; `root t` says that `t` is not passed to the pool by a task, but by
some other thread. -/
structure Tasks where
  body : ℕ → List Act
  root : ℕ → Prop

/-- State of the pool and of the tasks: `rest t` are the calls task `t` has not completed, and `note t` says that it is inside `queue_task`
between releasing the mutex and `cv.notify_one()` (DedicatedThreadPool.hpp:152-153). -/
structure NState where
  pool : Pool
  rest : ℕ → List Act
  note : ℕ → Bool

/-- Kinds of steps: a call made by the task that worker `w` holds, and other steps of the pool. -/
inductive NLabel
  | act (w : ℕ)
  | pool (l : Pool.Label)
  deriving DecidableEq

namespace NState

/-- Worker at `p` is about to call `cv.notify_one()`. -/
def atNote (x : NState) : WPc → Bool
  | .run t => x.note t
  | _ => false

/-- Number of workers about to call `cv.notify_one()`. -/
def owed (x : NState) : ℕ := ((Finset.range x.pool.n).filter fun w => x.atNote (x.pool.pc w) = true).card

/-- Steps of the pool that are not calls of a task: a worker leaves a task when it has returned; other threads submit roots; the notifications
of other threads; spurious wake-ups; the destructor. -/
def Other (P : Tasks) (x : NState) : Pool.Label → Prop
  | .worker w => ∀ t, x.pool.pc w = .run t → x.rest t = [] ∧ x.note t = false
  | .submit t => P.root t
  | .notify => x.owed < x.pool.notifies
  | .spurious _ => True
  | .dtor => True

/-- One step of one thread. -/
inductive Step (P : Tasks) : NState → NLabel → NState → Prop
  /-- steps of the pool and of other threads using it -/
  | pool {x : NState} {l : Pool.Label} {p : Pool} : Pool.Step x.pool l p → x.Other P l → Step P x (.pool l) { x with pool := p }
  /-- `queue_task` up to the release of the mutex (DedicatedThreadPool.hpp:144-152) -/
  | push {x : NState} {w t u : ℕ} {r : List Act} {p : Pool} : w < x.pool.n → x.pool.pc w = .run t → x.note t = false →
      x.rest t = .queue u :: r → Pool.Step x.pool (.submit u) p →
      Step P x (.act w) { pool := p, rest := Function.update x.rest t r, note := Function.update x.note t true }
  /-- `cv.notify_one()` (DedicatedThreadPool.hpp:153) -/
  | notify {x : NState} {w t : ℕ} {p : Pool} : w < x.pool.n → x.pool.pc w = .run t → x.note t = true → Pool.Step x.pool .notify p →
      Step P x (.act w) { x with pool := p, note := Function.update x.note t false }
  /-- `get()` returns: the task has run -/
  | get {x : NState} {w t u : ℕ} {r : List Act} : w < x.pool.n → x.pool.pc w = .run t → x.note t = false → x.rest t = .wait u :: r →
      u ∈ x.pool.done → Step P x (.act w) { x with rest := Function.update x.rest t r }

/-- Executions with the list of the labels of their steps. -/
inductive Exec (P : Tasks) : NState → List NLabel → NState → Prop
  | nil (x : NState) : Exec P x [] x
  | snoc {x y z : NState} {ls : List NLabel} {l : NLabel} : Exec P x ls y → Step P y l z → Exec P x (ls ++ [l]) z

/-- The pool after its construction with argument `num`. -/
def init (P : Tasks) (num : ℕ) : NState := { pool := Pool.init num, rest := P.body, note := fun _ => false }

/-- States that occur in some execution. -/
def Reachable (P : Tasks) (num : ℕ) (x : NState) : Prop := ∃ ls, Exec P (init P num) ls x

/-- Worker `w` is blocked in `get()`. -/
def Waiting (x : NState) (w : ℕ) : Prop :=
  ∃ t u r, x.pool.pc w = .run t ∧ x.note t = false ∧ x.rest t = .wait u :: r ∧ u ∉ x.pool.done

end NState

/-- Steps other than spurious wake-ups, submissions of other threads and steps of the destructor. -/
def NLabel.isWork : NLabel → Bool
  | .act _ => true
  | .pool (.worker _) => true
  | .pool .notify => true
  | .pool _ => false

/-- Tasks queued by a list of calls. -/
def Act.queued : List Act → List ℕ
  | [] => []
  | .queue u :: l => u :: Act.queued l
  | .wait _ :: l => Act.queued l

/-- Every task is queued once, by one task or from outside, and a task waits only for tasks it has queued before — as the code does in
InterpolationTemplate.hpp:555-569 and BSpline.hpp:742-752. -/
structure Tasks.WF (P : Tasks) : Prop where
  nodup : ∀ t, (Act.queued (P.body t)).Nodup
  disj : ∀ t t' u, u ∈ Act.queued (P.body t) → u ∈ Act.queued (P.body t') → t = t'
  root : ∀ t u, u ∈ Act.queued (P.body t) → ¬ P.root u
  order : ∀ t r₁ u r₂, P.body t = r₁ ++ .wait u :: r₂ → u ∈ Act.queued r₁

end Intp
