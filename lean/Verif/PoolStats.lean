import Verif.ThreadPool
import Mathlib.Data.Int.Notation

/-!
# Model of the statistics kept by the thread pool under `INTP_DEBUG` (DedicatedThreadPool.hpp)

The pool of `Verif/ThreadPool.lean` together with its counters.  The counters `submitted`, `executed` and `stolen` of a worker queue are
changed by functions that hold the mutex of that queue, in the same step as the queue (DedicatedThreadPool.hpp:45-71); `stealing` is changed by the
thief afterwards without a mutex (224), which is a step of its own.
-/

namespace Intp

/-- Counters of all worker queues (DedicatedThreadPool.hpp:37-40) and of the main queue (260). -/
structure Counters where
  mainSubmitted : ℕ
  submitted : ℕ → ℕ
  executed : ℕ → ℕ
  stolen : ℕ → ℕ
  stealing : ℕ → ℕ

/-- A pool with its counters; `thief w`: worker `w` has stolen a task and not yet incremented `stealing`. -/
structure Counted where
  pool : Pool
  cnt : Counters
  thief : ℕ → Bool

namespace Counted

/-- The pool after construction (DedicatedThreadPool.hpp:37-40, 91-101, 260). -/
def init (num : ℕ) : Counted :=
  { pool := Pool.init num,
    cnt := { mainSubmitted := 0, submitted := fun _ => 0, executed := fun _ => 0, stolen := fun _ => 0, stealing := fun _ => 0 },
    thief := fun _ => false }

/-- `++f[w]`. -/
def incr (f : ℕ → ℕ) (w : ℕ) : ℕ → ℕ := Function.update f w (f w + 1)

/-- The counters after the next step of worker `w` (DedicatedThreadPool.hpp:47-49, 57-59, 67-69) from state `s`, and whether `w` will have to
increment `stealing` (223-225). -/
def count (s : Pool) (c : Counters) (w : ℕ) : Counters × Bool :=
  match s.pc w with
  | .popOwn | .popOwn2 => (if s.wq w = [] then c else { c with executed := incr c.executed w }, false)
  | .moving k => (if s.mainQ ≠ [] ∧ k < Pool.batchSize then { c with submitted := incr c.submitted w } else c, false)
  | .steal i =>
    if i < s.n - 1 ∧ s.wq ((w + i + 1) % s.n) ≠ [] then ({ c with stolen := incr c.stolen ((w + i + 1) % s.n) }, true)
    else (c, false)
  | _ => (c, false)

/-- One step of one thread. -/
inductive Step : Counted → Pool.Label → Counted → Prop
  | worker {s : Counted} {w : ℕ} {p : Pool} : w < s.pool.n → s.thief w = false → s.pool.worker w = some p →
      Step s (.worker w) ⟨p, (count s.pool s.cnt w).1, Function.update s.thief w (count s.pool s.cnt w).2⟩
  /-- `++(worker_queue_ptr->stealing)` (DedicatedThreadPool.hpp:224) -/
  | stealing {s : Counted} {w : ℕ} : w < s.pool.n → s.thief w = true →
      Step s (.worker w) ⟨s.pool, { s.cnt with stealing := incr s.cnt.stealing w }, Function.update s.thief w false⟩
  /-- `queue_task` (DedicatedThreadPool.hpp:146-152) -/
  | submit {s : Counted} {t : ℕ} {p : Pool} : Pool.Step s.pool (.submit t) p →
      Step s (.submit t) ⟨p, { s.cnt with mainSubmitted := s.cnt.mainSubmitted + 1 }, s.thief⟩
  /-- steps that do not count anything -/
  | other {s : Counted} {l : Pool.Label} {p : Pool} : (∀ w, l ≠ .worker w) → (∀ t, l ≠ .submit t) → Pool.Step s.pool l p →
      Step s l ⟨p, s.cnt, s.thief⟩

/-- States that occur in some execution of a pool constructed with argument `num`. -/
inductive Reachable (num : ℕ) : Counted → Prop
  | init : Reachable num (init num)
  | step {s s' : Counted} {l : Pool.Label} : Reachable num s → Step s l s' → Reachable num s'

/-- The line printed for worker `w` by the destructor (DedicatedThreadPool.hpp:128-133): Submitted, Executed, Stolen, Stealing. -/
def line (c : Counters) (w : ℕ) : ℕ × ℕ × ℕ × ℕ := (c.submitted w, c.executed w + c.stealing w, c.stolen w, c.stealing w)

/-- The relation claimed by the printed note "Submitted = Executed - Stolen + Stealing" (DedicatedThreadPool.hpp:134). -/
def note (l : ℕ × ℕ × ℕ × ℕ) : Prop := (l.1 : ℤ) = l.2.1 - l.2.2.1 + l.2.2.2

end Counted

end Intp
