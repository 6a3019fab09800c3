import Verif.ForkJoin

/-!
# Model of exceptions in parallel regions (INTP_MULTITHREAD)

Operations on the values (`val_type` is any type, InterpolationTemplate.hpp:20, BSpline.hpp:31) and allocations inside `queue_task` may throw.
An exception in a task is caught by `std::packaged_task` and thrown again by `f.get()` (InterpolationTemplate.hpp:569, BSpline.hpp:752).
An exception in the calling thread leaves `solve_for_control_points_` or `generate_cell_layout` at once: the vector of futures is destroyed, which does
not wait for the tasks (only futures of `std::async` do), and so are the meshes the tasks refer to.
-/

namespace Intp

open Prog

variable {σ V : Type}

/-- `fj` is the state of `Verif/ForkJoin.lean`, `failed i` tells that the future of block `i` holds an exception, `left` that the calling thread has
left the region because of an exception (the position in `fj.call` stays where it happened). -/
structure UState (σ V : Type) where
  fj : FJState σ V
  failed : ℕ → Bool
  left : Bool

namespace UState

/-- One step of one thread. -/
inductive Step (J : Job σ V) : UState σ V → UState σ V → Prop
  /-- steps without exception; `f.get()` returns only if the future holds none -/
  | run {x : UState σ V} {l : FJLabel} {y : FJState σ V} : FJState.Step J x.fj l y →
      (l = .caller → x.left = false ∧ ∀ i, x.fj.call = .get i → i < x.fj.num → x.failed i = false) → Step J x { x with fj := y }
  /-- an operation of the task held by worker `w` throws: the task ends (DedicatedThreadPool.hpp:246) -/
  | task {x : UState σ V} {w i : ℕ} : w < x.fj.pool.n → x.fj.pool.pc w = .run (taskId x.fj.k i) → i < x.fj.num → x.fj.prog i ≠ .ret () →
      Step J x { x with fj := { x.fj with prog := Function.update x.fj.prog i (.ret ()) }, failed := Function.update x.failed i true }
  /-- `queue_task` throws before block `i` is in the queue, or `res.push_back` after block `i - 1` is (InterpolationTemplate.hpp:560): `std::bad_alloc` -/
  | submit {x : UState σ V} {i : ℕ} : x.left = false → x.fj.call = .queue i → 0 < x.fj.num → Step J x { x with left := true }
  /-- an operation of the remaining part throws (InterpolationTemplate.hpp:567) -/
  | own {x : UState σ V} : x.left = false → x.fj.call = .own → x.fj.prog x.fj.num ≠ .ret () → Step J x { x with left := true }
  /-- `f.get()` throws the exception of the task -/
  | get {x : UState σ V} {i : ℕ} : x.left = false → x.fj.call = .get i → i < x.fj.num → taskId x.fj.k i ∈ x.fj.pool.done → x.failed i = true →
      Step J x { x with left := true }

/-- Executions. -/
inductive Exec (J : Job σ V) : UState σ V → UState σ V → Prop
  | nil (x : UState σ V) : Exec J x x
  | snoc {x y z : UState σ V} : Exec J x y → Step J y z → Exec J x z

/-- Before the first region. -/
def init (p : Pool) (s : σ) : UState σ V := ⟨FJState.init p s, fun _ => false, false⟩

/-- Task `t` is in a queue or in the hands of a worker. -/
def Pending (x : UState σ V) (t : ℕ) : Prop := t ∈ x.fj.pool.mainQ ∨ ∃ w < x.fj.pool.n, t ∈ x.fj.pool.wq w ∨ x.fj.pool.pc w = .run t

/-- A worker is about to access a mesh of a region that the calling thread has left: the mesh has been destroyed. -/
def UseAfterFree (x : UState σ V) : Prop :=
  x.left = true ∧ ∃ w < x.fj.pool.n, ∃ i, x.fj.pool.pc w = .run (taskId x.fj.k i) ∧ (x.fj.prog i).next ≠ none

end UState

end Intp
