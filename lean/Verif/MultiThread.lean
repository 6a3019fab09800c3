import Verif.Uninit

/-!
# Model of the multi-threaded solving of the control points (INTP_MULTITHREAD)

InterpolationTemplate.hpp:516-572.  A block of lines is a program whose steps are single reads and writes of elements of the two weight
meshes; the blocks of one dimension run concurrently, any interleaving of their steps is possible.  The solver and the mesh dimensions are
shared but only read, so they are parameters of the programs.  The operations on values are arbitrary (`Verif/Arith.lean`): the model covers `double` as well
as exact arithmetic.
-/

namespace Intp

variable {V α β : Type}

/-- A sequential program over two buffers: `false` is `old_weight`, `true` is `new_weight`. -/
inductive Prog (V α : Type) : Type
  /-- finished with a result -/
  | ret (a : α) : Prog V α
  /-- abnormal outcome that does not come from an access to the two buffers -/
  | fail (e : Err) : Prog V α
  /-- read of element `i` of buffer `b` -/
  | read (b : Bool) (i : ℕ) (k : V → Prog V α) : Prog V α
  /-- write of element `i` of buffer `b` -/
  | write (b : Bool) (i : ℕ) (v : V) (k : Prog V α) : Prog V α

namespace Prog

/-- Sequential composition. -/
def bind : Prog V α → (α → Prog V β) → Prog V β
  | ret a, f => f a
  | fail e, _ => fail e
  | read b i k, f => read b i fun v => (k v).bind f
  | write b i v k, f => write b i v (k.bind f)

/-- A computation that does not touch the two buffers. -/
def lift : M α → (α → Prog V β) → Prog V β
  | .ok a, f => f a
  | .error e, _ => fail e

/-- `n` iterations starting at `i`. -/
def loopN : ℕ → ℕ → (ℕ → Prog V Unit) → Prog V Unit
  | 0, _, _ => ret ()
  | n + 1, i, f => (f i).bind fun _ => loopN n (i + 1) f

/-- `for (i = lo; i < hi; ++i) f(i)`. -/
def loop (lo hi : ℕ) (f : ℕ → Prog V Unit) : Prog V Unit := loopN (hi - lo) lo f

/-- `for (i = n - 1; i < n; --i) f(i)`. -/
def loopDown : ℕ → (ℕ → Prog V Unit) → Prog V Unit
  | 0, _ => ret ()
  | n + 1, f => (f n).bind fun _ => loopDown n f

/-- One memory operation; `none` if the program has ended, has failed or accesses a buffer out of range. -/
def step : Prog V α → (Bool → List V) → Option (Prog V α × (Bool → List V))
  | ret _, _ => none
  | fail _, _ => none
  | read b i k, m => (m b)[i]?.map fun v => (k v, m)
  | write b i v k, m => if i < (m b).length then some (k, Function.update m b ((m b).set i v)) else none

/-- Next memory operation: buffer, position, whether it is a write. -/
def next : Prog V α → Option (Bool × ℕ × Bool)
  | ret _ => none
  | fail _ => none
  | read b i _ => some (b, i, false)
  | write b i _ _ => some (b, i, true)

end Prog

open Prog

section

variable {K : Type} [ValArith V] [ScaleArith K V]

/-- `iter[i] -= a * iter[j]` on a strided line of `old_weight` (BandLU.hpp:131-132, 139-140, 227-229, 235-237, 245-247, 253-255). -/
def lineSubMulP (off step i j : ℕ) (a : K) : Prog V Unit :=
  .read false (off + i * step) fun vi => .read false (off + j * step) fun vj => .write false (off + i * step) (vi - a • vj) (.ret ())

/-- `iter[j] /= a` on a strided line of `old_weight` (BandLU.hpp:137, 243). -/
def lineDivP (off step j : ℕ) (a : K) : Prog V Unit :=
  .read false (off + j * step) fun vj => Prog.lift (ScaleArith.divV vj a) fun v => .write false (off + j * step) v (.ret ())

/-- `BandLU<BandMatrix>::solve_in_place_impl` (BandLU.hpp:120-143) as a sequence of memory operations. -/
def BandMatrix.solveP (c : Cfg) (lu : BandMatrix K) (off step : ℕ) : Prog V Unit :=
  (Prog.loop 0 lu.n fun j =>
    Prog.loop (j + 1) (min (j + lu.p + 1) lu.n) fun i => Prog.lift (lu.get c i j) fun a => lineSubMulP off step i j a).bind fun _ =>
  Prog.loopDown lu.n fun j =>
    Prog.lift (lu.get c j j) fun d => (lineDivP off step j d).bind fun _ =>
    Prog.loop (if j < lu.q then 0 else j - lu.q) j fun i => Prog.lift (lu.get c i j) fun a => lineSubMulP off step i j a

/-- `BandLU<ExtendedBandMatrix>::solve_in_place_impl` (BandLU.hpp:215-259) as a sequence of memory operations. -/
def ExtBandMatrix.solveP (c : Cfg) (lu : ExtBandMatrix K) (off step : ℕ) : Prog V Unit :=
  (Prog.loop 0 lu.n fun j =>
    (Prog.loop (j + 1) (min (j + lu.p + 1) lu.n) fun i => Prog.lift (lu.mainGet c i j) fun a => lineSubMulP off step i j a).bind fun _ =>
    Prog.lift (subM lu.n (lu.p + 1)) fun np1 =>
    if j < np1 then
      Prog.lift (subM lu.n lu.q) fun nq =>
      Prog.loop (max nq (j + lu.p + 1)) lu.n fun i => Prog.lift (lu.sideGet c i j) fun a => lineSubMulP off step i j a
    else .ret ()).bind fun _ =>
  Prog.loopDown lu.n fun j =>
    Prog.lift (lu.mainGet c j j) fun d => (lineDivP off step j d).bind fun _ =>
    (Prog.loop (if j < lu.q then 0 else j - lu.q) j fun i => Prog.lift (lu.mainGet c i j) fun a => lineSubMulP off step i j a).bind fun _ =>
    Prog.lift (subM lu.n (lu.p + 1)) fun np1 =>
    if j > np1 then
      Prog.lift (subM j lu.q) fun hi =>
      Prog.loop 0 hi fun i => Prog.lift (lu.sideGet c i j) fun a => lineSubMulP off step i j a
    else .ret ()

/-- `solver.solve(old_iter_begin)` (InterpolationTemplate.hpp:527-529). -/
def Solver.solveP (c : Cfg) (s : Solver K) (off step : ℕ) : Prog V Unit :=
  match s with
  | .band s => s.store.solveP c off step
  | .ext s => s.store.solveP c off step

namespace Template

variable {D : ℕ}

/-- Copy of a solved line into the rotated mesh (InterpolationTemplate.hpp:537-543). -/
def copyLineP (n off step noff nstep : ℕ) : Prog V Unit :=
  Prog.loop 0 n fun k => .read false (off + k * step) fun v => .write true (noff + k * nstep) v (.ret ())

/-- Body of the loop of `solve_and_rearrange_block` (InterpolationTemplate.hpp:518-544). `old`/`new` only give the dimensions. -/
def solveLineP (c : Cfg) (s : Solver K) (old new : Mesh (D + 1) V) (j : ℕ) : Prog V Unit :=
  Prog.lift (dimwiseIndices old.dims (j * old.dims (Fin.last D))) fun a =>
  Prog.lift (old.lineBegin c (Fin.last D) a) fun o =>
  Prog.lift (new.lineBegin c 0 (rightShift a)) fun w =>
  (s.solveP c o.1 o.2).bind fun _ =>
  if D = 0 then .ret () else copyLineP (old.dims (Fin.last D)) o.1 o.2 w.1 w.2

/-- `solve_and_rearrange_block(begin, end)` (InterpolationTemplate.hpp:516-545). -/
def solveBlockP (c : Cfg) (s : Solver K) (old new : Mesh (D + 1) V) (b e : ℕ) : Prog V Unit :=
  Prog.loop b e fun j => solveLineP c s old new j

/-- `task_per_block` (InterpolationTemplate.hpp:551-552). -/
def taskPerBlock (blockNum hp : ℕ) : ℕ := if blockNum = 0 then hp else hp / blockNum

/-- The programs running concurrently in one dimension (InterpolationTemplate.hpp:549-567): the tasks `0 … blockNum - 1`, then the
remainder in the calling thread.  `blockNum` is arbitrary: `std::sqrt` on `double` may round. -/
def blocks (c : Cfg) (s : Solver K) (old new : Mesh (D + 1) V) (blockNum hp : ℕ) (i : ℕ) : Prog V Unit :=
  if i < blockNum then solveBlockP c s old new (i * taskPerBlock blockNum hp) ((i + 1) * taskPerBlock blockNum hp)
  else if i = blockNum then solveBlockP c s old new (blockNum * taskPerBlock blockNum hp) hp
  else .ret ()

end Template

/-- State of the loop over the dimensions (InterpolationTemplate.hpp:501-573): `d`, the meshes `weights` (`bufs false`) and `weights_tmp`
(`bufs true`), and the programs running now if the tasks of dimension `d` have been started. -/
structure MTState (D : ℕ) (V : Type) where
  d : ℕ
  bufs : Bool → Mesh (D + 1) V
  thr : Option (ℕ → Prog V Unit)

namespace MTState

variable {D : ℕ}

/-- `old_weight` is `weights` for even `d` (InterpolationTemplate.hpp:503), `new_weight` the other mesh (504). -/
def mesh (s : MTState D V) (b : Bool) : Mesh (D + 1) V := s.bufs (b ^^ decide (s.d % 2 = 1))

/-- The two buffers as the programs see them. -/
def mem (s : MTState D V) (b : Bool) : List V := (s.mesh b).storage

/-- Contents of the buffers replaced. -/
def setMem (s : MTState D V) (m : Bool → List V) : MTState D V :=
  { s with bufs := fun x => ⟨(s.bufs x).dims, m (x ^^ decide (s.d % 2 = 1))⟩ }

/-- Before the first dimension. -/
def start (w tmp : Mesh (D + 1) V) : MTState D V := ⟨0, fun x => if x then tmp else w, none⟩

/-- One step of the multi-threaded loop.  `bn` maps the number of lines to the number of blocks, `junk d` is what `resize` finds in memory in
dimension `d` (`Uninit.lean`). -/
inductive Step (c : Cfg) (solvers : Fin (D + 1) → Solver K) (bn : ℕ → ℕ) (junk : ℕ → ℕ → V) : MTState D V → MTState D V → Prop
  /-- `new_weight` is resized and the tasks of dimension `d` are started (InterpolationTemplate.hpp:506-567) -/
  | fork (s : MTState D V) (hd : s.d < D + 1) (hp : ℕ) (new : Mesh (D + 1) V) : s.thr = none →
      new = (if D = 0 then s.mesh true else (s.mesh true).resizeJ (Template.rightShift (s.mesh false).dims) (junk s.d)) →
      divN (s.mesh false).size ((s.mesh false).dims (Fin.last D)) = .ok hp →
      Step c solvers bn junk s ⟨s.d, fun x => if (x ^^ decide (s.d % 2 = 1)) then new else s.mesh false,
        some (Template.blocks c (solvers (Fin.rev ⟨s.d, hd⟩)) (s.mesh false) new (bn hp) hp)⟩
  /-- program `i` performs a memory operation -/
  | op (s : MTState D V) (th : ℕ → Prog V Unit) (i : ℕ) (p : Prog V Unit) (m : Bool → List V) : s.thr = some th →
      (th i).step s.mem = some (p, m) → Step c solvers bn junk s { s.setMem m with thr := some (Function.update th i p) }
  /-- all futures are ready (InterpolationTemplate.hpp:569): next dimension -/
  | join (s : MTState D V) (th : ℕ → Prog V Unit) : s.thr = some th → (∀ i, th i = .ret ()) →
      Step c solvers bn junk s { s with d := s.d + 1, thr := none }

/-- Sequences of `n` steps. -/
inductive Exec (c : Cfg) (solvers : Fin (D + 1) → Solver K) (bn : ℕ → ℕ) (junk : ℕ → ℕ → V) : ℕ → MTState D V → MTState D V → Prop
  | refl (s) : Exec c solvers bn junk 0 s s
  | tail {n s t u} : Exec c solvers bn junk n s t → Step c solvers bn junk t u → Exec c solvers bn junk (n + 1) s u

/-- The loop over the dimensions has ended. -/
def Done (s : MTState D V) : Prop := s.d = D + 1 ∧ s.thr = none

/-- Some program is at an abnormal outcome or an out-of-range access. -/
def Failed (s : MTState D V) : Prop :=
  ∃ th i, s.thr = some th ∧ (∀ u, th i ≠ .ret u) ∧ (th i).step s.mem = none

/-- Two programs are about to access the same element, one of them writing. -/
def Race (s : MTState D V) : Prop :=
  ∃ th i j b k w w', s.thr = some th ∧ i ≠ j ∧ (th i).next = some (b, k, w) ∧ (th j).next = some (b, k, w') ∧ (w = true ∨ w' = true)

/-- Mesh returned after the loop (InterpolationTemplate.hpp:575-579). -/
def result (s : MTState D V) : Mesh (D + 1) V := s.bufs (decide ¬((D + 1) % 2 = 0 ∨ D = 0))

end MTState

namespace Template

variable {D : ℕ}

/-- State of `solve_for_control_points_` before the loop over the dimensions (InterpolationTemplate.hpp:450-491); `junk0` is what `resize` finds. -/
def mtStart (c : Cfg) (junk0 : ℕ → V) (t : Template (D + 1) K V) (fm : Mesh (D + 1) V) : M (MTState D V) := do
  let w ← Fl.initWeights c t.base.spline.order t.base.periodicity t.dims fm
  let tmp : Mesh (D + 1) V := Mesh.mk' fun _ => 1
  pure (MTState.start w (if D = 0 then tmp else tmp.resizeJ t.dims junk0))

end Template

end

end Intp
