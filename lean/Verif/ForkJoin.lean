import Verif.MultiThread
import Verif.ThreadPool
import Verif.CellLayout
import Mathlib.Data.Nat.Pairing

/-!
# Model of parallel regions running on the thread pool (INTP_MULTITHREAD)

`solve_for_control_points_` (InterpolationTemplate.hpp:547-569) and `generate_cell_layout` (BSpline.hpp:734-752) use the pool in the same way:
the calling thread passes the blocks `0 … block_num - 1` to `queue_task`, handles the rest itself and then waits for the futures.  Here the
transition system of the pool (`Verif/ThreadPool.lean`) and the programs of the blocks (`Verif/MultiThread.lean`) run together: a worker that
holds a task performs its memory operations one by one, interleaved with all other threads.

The pool is shared: other threads may submit tasks of their own at any time (odd task numbers), which do not touch the buffers of this region
and take one step each.  The pool is a function-local static variable, so it is not destroyed while the calling thread is in the region.
-/

namespace Intp

open Prog

variable {σ V : Type}

/-- One parallel region: `num` tasks `prog 0 … prog (num - 1)`, the caller's part `prog num`, and the buffers at its beginning. -/
structure Region (V : Type) where
  num : ℕ
  prog : ℕ → Prog V Unit
  mem : Bool → List V

/-- A computation of the calling thread that consists of parallel regions: `start s` is the next region (`none` if there is none) and
`finish s m` the state after it, if it leaves the buffers `m`. -/
structure Job (σ V : Type) where
  start : σ → M (Option (Region V))
  finish : σ → (Bool → List V) → σ

/-- Position of the calling thread (InterpolationTemplate.hpp:555-569, BSpline.hpp:742-752). -/
inductive Caller
  /-- outside of a region -/
  | idle
  /-- head of the loop over the blocks, or inside `queue_task` before it has the mutex -/
  | queue (i : ℕ)
  /-- inside `queue_task` for block `i`, before `cv.notify_one()` -/
  | notify (i : ℕ)
  /-- handling the remaining part -/
  | own
  /-- head of the loop over the futures -/
  | get (i : ℕ)
  deriving DecidableEq

/-- State of the pool, the calling thread and the buffers.  `k` counts regions, it is only used to number the tasks. -/
structure FJState (σ V : Type) where
  pool : Pool
  s : σ
  k : ℕ
  call : Caller
  num : ℕ
  prog : ℕ → Prog V Unit
  mem : Bool → List V

/-- Number of the task for block `i` of region `k`. -/
def taskId (k i : ℕ) : ℕ := 2 * Nat.pair k i

/-- Kinds of steps: of the calling thread, a memory operation of worker `w`, and other steps of the pool. -/
inductive FJLabel
  | caller
  | op (w : ℕ)
  | pool (l : Pool.Label)

namespace FJState

/-- Outstanding `cv.notify_one()` of the calling thread. -/
def ownNotifies (x : FJState σ V) : ℕ := match x.call with | .notify _ => 1 | _ => 0

/-- Steps of the pool that are not steps of the calling thread: a worker holding a task of the region may leave it only when the task has
finished; tasks submitted by other threads have odd numbers; the notifications of other threads. -/
def Other (x : FJState σ V) : Pool.Label → Prop
  | .worker w => ∀ i, x.pool.pc w = .run (taskId x.k i) → x.prog i = .ret ()
  | .submit t => t % 2 = 1
  | .notify => x.ownNotifies < x.pool.notifies
  | .spurious _ => True
  | .dtor => False

/-- One step of one thread. -/
inductive Step (J : Job σ V) : FJState σ V → FJLabel → FJState σ V → Prop
  /-- steps of the pool and of other threads using it -/
  | pool {x : FJState σ V} {l : Pool.Label} {p : Pool} : Pool.Step x.pool l p → x.Other l → Step J x (.pool l) { x with pool := p }
  /-- a memory operation of the task held by worker `w` -/
  | op {x : FJState σ V} {w i : ℕ} {p : Prog V Unit} {m : Bool → List V} : w < x.pool.n → x.pool.pc w = .run (taskId x.k i) → i < x.num →
      (x.prog i).step x.mem = some (p, m) → Step J x (.op w) { x with prog := Function.update x.prog i p, mem := m }
  /-- the region begins -/
  | fork {x : FJState σ V} {r : Region V} : x.call = .idle → J.start x.s = .ok (some r) →
      Step J x .caller { x with call := .queue 0, num := r.num, prog := r.prog, mem := r.mem }
  /-- `queue_task` up to the release of the mutex (DedicatedThreadPool.hpp:144-152) -/
  | submit {x : FJState σ V} {i : ℕ} {p : Pool} : x.call = .queue i → i < x.num → Pool.Step x.pool (.submit (taskId x.k i)) p →
      Step J x .caller { x with pool := p, call := .notify i }
  /-- `cv.notify_one()`, and the future is stored (DedicatedThreadPool.hpp:153-154) -/
  | notified {x : FJState σ V} {i : ℕ} {p : Pool} : x.call = .notify i → Pool.Step x.pool .notify p →
      Step J x .caller { x with pool := p, call := .queue (i + 1) }
  /-- all blocks are queued -/
  | queued {x : FJState σ V} {i : ℕ} : x.call = .queue i → ¬ i < x.num → Step J x .caller { x with call := .own }
  /-- a memory operation of the remaining part -/
  | ownOp {x : FJState σ V} {p : Prog V Unit} {m : Bool → List V} : x.call = .own → (x.prog x.num).step x.mem = some (p, m) →
      Step J x .caller { x with prog := Function.update x.prog x.num p, mem := m }
  /-- the remaining part is finished -/
  | ownEnd {x : FJState σ V} : x.call = .own → x.prog x.num = .ret () → Step J x .caller { x with call := .get 0 }
  /-- `f.get()` returns: the task has run -/
  | get {x : FJState σ V} {i : ℕ} : x.call = .get i → i < x.num → taskId x.k i ∈ x.pool.done → Step J x .caller { x with call := .get (i + 1) }
  /-- all futures were ready: the region ends -/
  | join {x : FJState σ V} {i : ℕ} : x.call = .get i → ¬ i < x.num →
      Step J x .caller { x with s := J.finish x.s x.mem, k := x.k + 1, call := .idle }

/-- Executions with the list of the labels of their steps. -/
inductive Exec (J : Job σ V) : FJState σ V → List FJLabel → FJState σ V → Prop
  | nil (x : FJState σ V) : Exec J x [] x
  | snoc {x y z : FJState σ V} {ls : List FJLabel} {l : FJLabel} : Exec J x ls y → Step J y l z → Exec J x (ls ++ [l]) z

/-- The calling thread before its first region, with a pool in state `p`. -/
def init (p : Pool) (s : σ) : FJState σ V :=
  { pool := p, s := s, k := 0, call := .idle, num := 0, prog := fun _ => .ret (), mem := fun _ => [] }

/-- The calling thread has left its last region. -/
def Done (J : Job σ V) (x : FJState σ V) : Prop := x.call = .idle ∧ J.start x.s = .ok none

/-- Thread `a` (`none` is the calling thread) is performing block `i`. -/
def At (x : FJState σ V) (a : Option ℕ) (i : ℕ) : Prop :=
  match a with
  | none => x.call = .own ∧ i = x.num
  | some w => w < x.pool.n ∧ x.pool.pc w = .run (taskId x.k i)

/-- Two threads are about to access the same element, one of them writing. -/
def Race (x : FJState σ V) : Prop :=
  ∃ a a' i j b e w w', a ≠ a' ∧ x.At a i ∧ x.At a' j ∧ (x.prog i).next = some (b, e, w) ∧ (x.prog j).next = some (b, e, w') ∧
    (w = true ∨ w' = true)

/-- A thread is at an abnormal outcome or an out-of-range access of its block. -/
def Failed (x : FJState σ V) : Prop := ∃ a i, x.At a i ∧ x.prog i ≠ .ret () ∧ (x.prog i).step x.mem = none

end FJState

/-- Steps that are neither a spurious wake-up nor a submission of another thread. -/
def FJLabel.isWork : FJLabel → Bool
  | .caller | .op _ => true
  | .pool (.worker _) | .pool .notify => true
  | .pool _ => false

section

variable {K : Type} [ValArith V] [ScaleArith K V] {D : ℕ}

/-- The regions of `solve_for_control_points_` (InterpolationTemplate.hpp:501-573): one for each dimension.  The state is `d`, `weights` and
`weights_tmp`; `bn` maps the number of lines to the number of blocks, `junk d` is what `resize` finds in memory (`Uninit.lean`). -/
def solveJob (c : Cfg) (solvers : Fin (D + 1) → Solver K) (bn : ℕ → ℕ) (junk : ℕ → ℕ → V) : Job (ℕ × Mesh (D + 1) V × Mesh (D + 1) V) V where
  start := fun s =>
    if hd : s.1 < D + 1 then do
      let old := if s.1 % 2 = 0 then s.2.1 else s.2.2
      let new := if s.1 % 2 = 0 then s.2.2 else s.2.1
      let new := if D = 0 then new else new.resizeJ (Template.rightShift old.dims) (junk s.1)
      let hp ← divN old.size (old.dims (Fin.last D))
      pure (some ⟨bn hp, Template.blocks c (solvers (Fin.rev ⟨s.1, hd⟩)) old new (bn hp) hp, fun b => if b then new.storage else old.storage⟩)
    else pure none
  finish := fun s m =>
    let old := if s.1 % 2 = 0 then s.2.1 else s.2.2
    let new := if s.1 % 2 = 0 then s.2.2 else s.2.1
    let old' : Mesh (D + 1) V := ⟨old.dims, m false⟩
    let new' : Mesh (D + 1) V := ⟨if D = 0 then new.dims else Template.rightShift old.dims, m true⟩
    (s.1 + 1, if s.1 % 2 = 0 then (old', new') else (new', old'))

/-- Mesh returned after the last region (InterpolationTemplate.hpp:575-579). -/
def solveResult (s : ℕ × Mesh (D + 1) V × Mesh (D + 1) V) : Mesh (D + 1) V := if (D + 1) % 2 = 0 ∨ D = 0 then s.2.1 else s.2.2

/-- State of `solve_for_control_points_` before the loop over the dimensions (InterpolationTemplate.hpp:450-491). -/
def Template.solveStart (c : Cfg) (junk0 : ℕ → V) (t : Template (D + 1) K V) (fm : Mesh (D + 1) V) : M (ℕ × Mesh (D + 1) V × Mesh (D + 1) V) := do
  let w ← Fl.initWeights c t.base.spline.order t.base.periodicity t.dims fm
  let tmp : Mesh (D + 1) V := Mesh.mk' fun _ => 1
  pure (0, w, if D = 0 then tmp else tmp.resizeJ t.dims junk0)

end

section

variable [Zero V] {D : ℕ}

namespace Cell

/-- `fill_cell(begin, end)` (BSpline.hpp:701-733) as a sequence of memory operations: the cell container is buffer `true`, `cd` its
dimensions; the control points are only read, by all threads. -/
def fillP (c : Cfg) (order lineSize : ℕ) (ctrl : Mesh (D + 1) V) (cell : Mesh (D + 2) V) (b e : ℕ) : Prog V Unit :=
  Prog.loop b e fun h =>
    Prog.lift (dimwiseIndices cell.dims (h * lineSize)) fun a =>
    Prog.lift (cell.lineBegin c (Fin.last D).castSucc a) fun it =>
    Prog.loop 0 (cell.dims (Fin.last D).castSucc) fun k =>
      Prog.lift (cell.iterIndices (it.1 + k * it.2)) fun ci =>
      Prog.loop 0 (dimsSize fun _ : Fin D => order + 1) fun i =>
        Prog.lift (dimwiseIndices (fun _ : Fin D => order + 1) i) fun sh =>
        Prog.lift (source ctrl.dims ci sh) fun cp =>
        Prog.lift (ctrl.get cp) fun v =>
        .write true (indexing cell.dims (Function.update ci (Fin.last (D + 1)) i)) v (.ret ())

/-- The blocks of `generate_cell_layout` (BSpline.hpp:735-750). -/
def fillBlocks (c : Cfg) (order lineSize : ℕ) (ctrl : Mesh (D + 1) V) (cell : Mesh (D + 2) V) (blockNum hs i : ℕ) : Prog V Unit :=
  if i < blockNum then
    fillP c order lineSize ctrl cell (i * Template.taskPerBlock blockNum hs) ((i + 1) * Template.taskPerBlock blockNum hs)
  else if i = blockNum then fillP c order lineSize ctrl cell (blockNum * Template.taskPerBlock blockNum hs) hs
  else .ret ()

/-- The region of `generate_cell_layout` (BSpline.hpp:677-758); the state is the cell container and whether it has been filled. -/
def fillJob (c : Cfg) (order : ℕ) (ctrl : Mesh (D + 1) V) (bn : ℕ → ℕ) : Job (Bool × Mesh (D + 2) V) V where
  start := fun s =>
    if s.1 then pure none
    else do
      let lineSize := s.2.dims (Fin.last D).castSucc * s.2.dims (Fin.last (D + 1))
      let hs ← divN s.2.size lineSize
      pure (some ⟨bn hs, fillBlocks c order lineSize ctrl s.2 (bn hs) hs, fun b => if b then s.2.storage else []⟩)
  finish := fun s m => (true, ⟨s.2.dims, m true⟩)

/-- The empty cell container (BSpline.hpp:679-693). -/
def fillStart (order : ℕ) (per : Fin (D + 1) → Bool) (ctrl : Mesh (D + 1) V) : M (Bool × Mesh (D + 2) V) := do
  let cd ← dims order per ctrl.dims
  pure (false, Mesh.mk' cd)

end Cell

end

end Intp
