import Verif.ThreadPool

/-!
# Model of the constructor of the thread pool (DedicatedThreadPool.hpp:91-112)

The constructor fills `worker_queues` and then starts the threads one after the other; those already started run meanwhile.  `threads.emplace_back` may
throw (`std::system_error` if the system has no thread left, `std::bad_alloc`) without having started a thread.  The handler sets `should_terminate`, notifies and
throws again; then the members that have been constructed are destroyed, the last of them, `join_threads`, first: its destructor joins the threads that were
started (DedicatedThreadPool.hpp:200-204, 278).  No task can be queued before the constructor has returned.  An exception while `worker_queues` is filled
is the same as one at the first thread.
-/

namespace Intp

/-- `pool` has the number `t_num` of worker queues; its threads `0 … started - 1` have been started.  `pool.dtor` tells how far the handler and the destructor of
`join_threads` are: `flagSet`, `joining` and `finished`, when the exception leaves the constructor. -/
structure CtorState where
  pool : Pool
  started : ℕ

namespace CtorState

/-- Kinds of steps. -/
inductive Label
  | start
  | fail
  | worker (w : ℕ)
  | spurious (w : ℕ)
  | notifyAll
  | join
  deriving DecidableEq

/-- One step of one thread. -/
inductive Step : CtorState → Label → CtorState → Prop
  /-- `threads.emplace_back(&DedicatedThreadPool::thread_loop, this, i)` (99) -/
  | start {x : CtorState} : x.pool.dtor = .alive → x.started < x.pool.n → Step x .start { x with started := x.started + 1 }
  /-- `threads.emplace_back` throws; `should_terminate = true` (108) -/
  | fail {x : CtorState} : x.pool.dtor = .alive → x.started < x.pool.n → Step x .fail { x with pool := x.pool.setStop }
  /-- a thread that has been started -/
  | worker {x : CtorState} {w : ℕ} {p : Pool} : w < x.started → x.pool.worker w = some p → Step x (.worker w) { x with pool := p }
  | spurious {x : CtorState} {w : ℕ} : w < x.started → x.pool.pc w = .asleep → Step x (.spurious w) { x with pool := x.pool.goto w .relock }
  /-- `cv.notify_all()` (109) -/
  | notifyAll {x : CtorState} : x.pool.dtor = .flagSet → Step x .notifyAll { x with pool := x.pool.notifyAll }
  /-- `~JoinThreads` (200-204) -/
  | join {x : CtorState} : x.pool.dtor = .joining → (∀ w < x.started, x.pool.pc w = .exited) → Step x .join { x with pool := x.pool.joinAll }

/-- Executions with the list of the labels of their steps. -/
inductive Exec : CtorState → List Label → CtorState → Prop
  | nil (x : CtorState) : Exec x [] x
  | snoc {x y z : CtorState} {ls : List Label} {l : Label} : Exec x ls y → Step y l z → Exec x (ls ++ [l]) z

/-- The worker queues have been made, no thread has been started (DedicatedThreadPool.hpp:93-97); `num` is the argument of the constructor. -/
def init (num : ℕ) : CtorState := ⟨Pool.init num, 0⟩

/-- The constructor has returned. -/
def Built (x : CtorState) : Prop := x.started = x.pool.n ∧ x.pool.dtor = .alive

/-- The exception has left the constructor: the queues, the mutex and the condition variable are destroyed. -/
def Thrown (x : CtorState) : Prop := x.pool.dtor = .finished

end CtorState

end Intp
