import Mathlib.Data.List.Basic
import Mathlib.Logic.Function.Basic

/-!
# Model of src/include/DedicatedThreadPool.hpp

A transition system: the state of the pool's shared data and of every thread that uses them, and the steps a thread can take.  Steps of
different threads interleave arbitrarily (`Pool.Step`); whatever the scheduler does is one execution.

Granularity.  Functions that hold `deq_mutex` of a worker queue during their whole body (`push`, `try_pop`, `try_steal`,
DedicatedThreadPool.hpp:45-75) are single steps.  `main_queue_mutex` is modelled by its owner, because workers do several things while holding
it.  `cv.wait(lk, pred)` is the loop `while (!pred()) wait(lk)`, in which `wait` atomically releases the mutex and blocks, and acquires it again
after waking up (which may happen without notification).  Tasks are identified by numbers and running one is one step (what tasks
do is the subject of `Verif/MultiThread.lean`).  Debug counters (`INTP_DEBUG`) are in `Verif/PoolStats.lean`, the constructor and its
exceptions in `Verif/PoolCtor.lean`.
-/

namespace Intp

/-- Where a worker is in `thread_loop` (DedicatedThreadPool.hpp:237-257). -/
inductive WPc
  /-- test of `should_terminate` (243) -/
  | top
  /-- `worker_queue_ptr->try_pop(task)` (244) -/
  | popOwn
  /-- before `lock_type lk(main_queue_mutex)` in `try_pop_from_main` (209) -/
  | popMain
  /-- loop of `try_pop_from_main` with counter `c`, mutex held (212-215) -/
  | moving (c : ℕ)
  /-- `return worker_queue_ptr->try_pop(task)` (217), mutex released -/
  | popOwn2
  /-- loop of `try_steal_from_others` (221-229) -/
  | steal (i : ℕ)
  /-- `task()` (246) -/
  | run (t : ℕ)
  /-- before `lock_type lk(main_queue_mutex)` (248) -/
  | lockWait
  /-- `cv.wait` about to evaluate the predicate, mutex held (252-254) -/
  | pred
  /-- the predicate was false, mutex held, about to block -/
  | blocking
  /-- blocked in `cv.wait`, mutex released -/
  | asleep
  /-- woken up, about to acquire the mutex again -/
  | relock
  /-- the predicate was true, mutex held, about to leave the block (255) -/
  | unlock
  /-- left `thread_loop` -/
  | exited
  deriving DecidableEq

/-- Progress of the destructor (DedicatedThreadPool.hpp:117-119 and `~JoinThreads` 200-204). -/
inductive DPc
  | alive
  /-- `should_terminate = true` done -/
  | flagSet
  /-- `cv.notify_all()` done, joining -/
  | joining
  | finished
  deriving DecidableEq

/-- State of a pool with `n` workers.  `submitted` and `done` are ghost variables: the tasks passed to `queue_task`, and those that have run;
`notifies` counts the callers of `queue_task` between releasing the mutex and `cv.notify_one()`. -/
structure Pool where
  n : ℕ
  mainQ : List ℕ
  wq : ℕ → List ℕ
  pc : ℕ → WPc
  owner : Option ℕ
  notifies : ℕ
  stop : Bool
  dtor : DPc
  submitted : List ℕ
  done : List ℕ

namespace Pool

/-- `BATCH_SIZE` (DedicatedThreadPool.hpp:186). -/
def batchSize : ℕ := 16

/-- `DEFAULT_THREAD_NUM` (DedicatedThreadPool.hpp:185). -/
def defaultThreadNum : ℕ := 8

/-- The pool after construction (DedicatedThreadPool.hpp:91-101); a thread that has not started yet is a worker at its first step. -/
def init (num : ℕ) : Pool :=
  { n := if num = 0 then defaultThreadNum else num, mainQ := [], wq := fun _ => [], pc := fun _ => .top, owner := none, notifies := 0,
    stop := false, dtor := .alive, submitted := [], done := [] }

/-- Worker `w` is at `p` next. -/
def goto (s : Pool) (w : ℕ) (p : WPc) : Pool := { s with pc := Function.update s.pc w p }

/-- `shared_working_queue::try_pop` (DedicatedThreadPool.hpp:52-61) of queue `w`: the last task, and the queue without it. -/
def tryPop (s : Pool) (w : ℕ) : Option (ℕ × Pool) :=
  match (s.wq w).getLast? with
  | none => none
  | some t => some (t, { s with wq := Function.update s.wq w (s.wq w).dropLast })

/-- `shared_working_queue::try_steal` (DedicatedThreadPool.hpp:62-71) of queue `w`: the first task. -/
def trySteal (s : Pool) (w : ℕ) : Option (ℕ × Pool) :=
  match s.wq w with
  | [] => none
  | t :: l => some (t, { s with wq := Function.update s.wq w l })

/-- Next step of worker `w` (DedicatedThreadPool.hpp:237-257); `none` if it is blocked or has finished. -/
def worker (s : Pool) (w : ℕ) : Option Pool :=
  match s.pc w with
  | .top => some (s.goto w (if s.stop then .exited else .popOwn))
  | .popOwn =>
    match s.tryPop w with
    | some (t, s) => some (s.goto w (.run t))
    | none => some (s.goto w .popMain)
  | .popMain =>
    if s.owner ≠ none then none
    else if s.mainQ = [] then some (s.goto w (.steal 0))
    else some ({ s with owner := some w }.goto w (.moving 0))
  | .moving c =>
    match s.mainQ with
    | t :: l =>
      if c < batchSize then some ({ s with mainQ := l, wq := Function.update s.wq w (s.wq w ++ [t]) }.goto w (.moving (c + 1)))
      else some ({ s with owner := none }.goto w .popOwn2)
    | [] => some ({ s with owner := none }.goto w .popOwn2)
  | .popOwn2 =>
    match s.tryPop w with
    | some (t, s) => some (s.goto w (.run t))
    | none => some (s.goto w (.steal 0))
  | .steal i =>
    if i < s.n - 1 then
      match s.trySteal ((w + i + 1) % s.n) with
      | some (t, s) => some (s.goto w (.run t))
      | none => some (s.goto w (.steal (i + 1)))
    else some (s.goto w .lockWait)
  | .run t => some ({ s with done := s.done ++ [t] }.goto w .top)
  | .lockWait => if s.owner ≠ none then none else some ({ s with owner := some w }.goto w .pred)
  | .pred => some (s.goto w (if s.mainQ ≠ [] ∨ s.stop = true then .unlock else .blocking))
  | .blocking => some ({ s with owner := none }.goto w .asleep)
  | .asleep => none
  | .relock => if s.owner ≠ none then none else some ({ s with owner := some w }.goto w .pred)
  | .unlock => some ({ s with owner := none }.goto w .top)
  | .exited => none

/-- The part of `queue_task` that holds the mutex (DedicatedThreadPool.hpp:146-152). -/
def submit (s : Pool) (t : ℕ) : Option Pool :=
  if s.owner ≠ none then none
  else some { s with mainQ := s.mainQ ++ [t], submitted := s.submitted ++ [t], notifies := s.notifies + 1 }

/-- `cv.notify_one()` (DedicatedThreadPool.hpp:153) waking up worker `w`, which is blocked. -/
def notifyOne (s : Pool) (w : ℕ) : Pool := { s with notifies := s.notifies - 1 }.goto w .relock

/-- `cv.notify_one()` when no worker is blocked. -/
def notifyNone (s : Pool) : Pool := { s with notifies := s.notifies - 1 }

/-- `should_terminate = true` (DedicatedThreadPool.hpp:118). -/
def setStop (s : Pool) : Pool := { s with stop := true, dtor := .flagSet }

/-- `cv.notify_all()` (DedicatedThreadPool.hpp:119). -/
def notifyAll (s : Pool) : Pool := { s with dtor := .joining, pc := fun w => if s.pc w = .asleep then .relock else s.pc w }

/-- The threads are joined one after the other (DedicatedThreadPool.hpp:200-204), which returns once all have left their loop. -/
def joinAll (s : Pool) : Pool := { s with dtor := .finished }

/-- Kinds of steps. -/
inductive Label
  | worker (w : ℕ)
  | submit (t : ℕ)
  | notify
  | spurious (w : ℕ)
  | dtor
  deriving DecidableEq

/-- One step of one thread.  The destructor runs after all calls of `queue_task` have returned. -/
inductive Step : Pool → Label → Pool → Prop
  | worker {s s' : Pool} {w : ℕ} : w < s.n → s.worker w = some s' → Step s (.worker w) s'
  | submit {s s' : Pool} {t : ℕ} : s.dtor = .alive → t ∉ s.submitted → s.submit t = some s' → Step s (.submit t) s'
  | notify {s : Pool} {w : ℕ} : 0 < s.notifies → w < s.n → s.pc w = .asleep → Step s .notify (s.notifyOne w)
  | notifyNone {s : Pool} : 0 < s.notifies → (∀ w < s.n, s.pc w ≠ .asleep) → Step s .notify s.notifyNone
  | spurious {s : Pool} {w : ℕ} : w < s.n → s.pc w = .asleep → Step s (.spurious w) (s.goto w .relock)
  | setStop {s : Pool} : s.dtor = .alive → s.notifies = 0 → Step s .dtor s.setStop
  | notifyAll {s : Pool} : s.dtor = .flagSet → Step s .dtor s.notifyAll
  | joinAll {s : Pool} : s.dtor = .joining → (∀ w < s.n, s.pc w = .exited) → Step s .dtor s.joinAll

/-- Executions: sequences of steps, with the list of their labels. -/
inductive Exec : Pool → List Label → Pool → Prop
  | nil (s : Pool) : Exec s [] s
  | snoc {s s' s'' : Pool} {ls : List Label} {l : Label} : Exec s ls s' → Step s' l s'' → Exec s (ls ++ [l]) s''

/-- States that occur in some execution of a pool constructed with argument `num`. -/
def Reachable (num : ℕ) (s : Pool) : Prop := ∃ ls, Exec (init num) ls s

end Pool

end Intp
