import Verif.ThreadPool

/-!
# Model of `DedicatedThreadPool<T>::get_instance` (DedicatedThreadPool.hpp:178-182)

`static DedicatedThreadPool thread_pool(num);` is a variable with static storage in a function.  C++11 ([stmt.dcl]) says: the first thread that reaches the
declaration runs the constructor; threads that reach it meanwhile wait; if the constructor throws, the variable is not initialised and the next
thread that reaches the declaration tries again, with its own argument.  The constructor itself is the model of `PoolCtor.lean`; here it
succeeds or throws.  The end of the program, which destroys the pool, is not part of this model.
-/

namespace Intp

/-- What a thread is doing. -/
inductive GetPc
  /-- outside of `get_instance` -/
  | out
  /-- called `get_instance(num)`, has not reached the constructor, or waits for another thread that runs it -/
  | entered (num : ℕ)
  /-- runs the constructor -/
  | building (num : ℕ)
  deriving DecidableEq

/-- `inst` is the pool, when it has been made; `pc` the threads of the program; `log` what the calls have returned so far, newest last: the calling
thread, the argument, and the pool, or nothing for an exception. -/
structure GetState where
  inst : Option Pool
  pc : ℕ → GetPc
  log : List (ℕ × ℕ × Option Pool)

namespace GetState

/-- Start of the program. -/
def init : GetState := ⟨none, fun _ => .out, []⟩

/-- Some thread runs the constructor. -/
def Busy (x : GetState) : Prop := ∃ t num, x.pc t = .building num

/-- One step of thread `t`. -/
inductive Step : GetState → ℕ → GetState → Prop
  /-- call of `get_instance(num)` (178) -/
  | call {x : GetState} {t : ℕ} (num : ℕ) : x.pc t = .out → Step x t { x with pc := Function.update x.pc t (.entered num) }
  /-- the pool has been made: `return thread_pool` (181) -/
  | ready {x : GetState} {t num : ℕ} {p : Pool} : x.pc t = .entered num → x.inst = some p →
      Step x t { x with pc := Function.update x.pc t .out, log := x.log ++ [(t, num, some p)] }
  /-- the pool has not been made and nobody is making it: this thread runs `thread_pool(num)` (180) -/
  | build {x : GetState} {t num : ℕ} : x.pc t = .entered num → x.inst = none → ¬ x.Busy →
      Step x t { x with pc := Function.update x.pc t (.building num) }
  /-- the constructor has returned; `return thread_pool` -/
  | built {x : GetState} {t num : ℕ} : x.pc t = .building num →
      Step x t ⟨some (Pool.init num), Function.update x.pc t .out, x.log ++ [(t, num, some (Pool.init num))]⟩
  /-- the constructor throws, and so does `get_instance` -/
  | throws {x : GetState} {t num : ℕ} : x.pc t = .building num →
      Step x t { x with pc := Function.update x.pc t .out, log := x.log ++ [(t, num, none)] }

/-- States that can be reached. -/
inductive Reach : GetState → Prop
  | init : Reach init
  | step {x y : GetState} {t : ℕ} : Reach x → Step x t y → Reach y

end GetState

end Intp
