import Verif.Basic

/-!
# Model of the allocators: `stack_allocator` (util.hpp:70-149), `AlignedAllocator` (aligned-allocator.hpp)
-/

namespace Intp

/-- `stack_allocator<T, N>` (util.hpp:81-135) for a buffer of `cap = N` cells: `m_begin` is cell 0, `m_end` is cell `cap`, `sp` is
`m_stack_pointer`. -/
structure StackAlloc where
  cap : ℕ
  sp : ℕ
  deriving DecidableEq, Repr

namespace StackAlloc

/-- constructor from a buffer (util.hpp:98-99). -/
def fresh (n : ℕ) : StackAlloc := ⟨n, 0⟩

/-- `allocate(n)` (util.hpp:109-117): first cell of the block, and the allocator afterwards.  `m_end - m_stack_pointer` is negative, hence
huge as `size_type`, if the stack pointer has passed the end: error outcome. -/
def allocate (a : StackAlloc) (n : ℕ) : M (ℕ × StackAlloc) := do
  let room ← subM a.cap a.sp
  if n ≤ room then pure (a.sp, ⟨a.cap, a.sp + n⟩) else .error .badAlloc

/-- `deallocate(ptr, n)` (util.hpp:119): the pointer is ignored.  A stack pointer before the buffer is undefined behaviour. -/
def deallocate (a : StackAlloc) (_ptr n : ℕ) : M StackAlloc :=
  if n ≤ a.sp then .ok ⟨a.cap, a.sp - n⟩ else .error .oob

/-- `max_size()` (util.hpp:121), `capacity()` (107). -/
def maxSize (a : StackAlloc) : ℕ := a.cap

end StackAlloc

/-- An allocator and the blocks (first cell, size) handed out and not yet released, newest first. -/
structure StackHeap where
  alloc : StackAlloc
  live : List (ℕ × ℕ)

namespace StackHeap

/-- Use of the allocator by its clients. -/
inductive Op
  /-- allocate a block of `n` cells -/
  | alloc (n : ℕ)
  /-- release the newest block -/
  | freeNewest
  /-- release the block at position `k` of the list of live blocks (`0` is the newest) -/
  | freeAt (k : ℕ)
  deriving DecidableEq

/-- One operation. -/
def run (h : StackHeap) : Op → M StackHeap
  | .alloc n => do
    let r ← h.alloc.allocate n
    pure ⟨r.2, (r.1, n) :: h.live⟩
  | .freeNewest =>
    match h.live with
    | [] => pure h
    | b :: bs => do
      let a ← h.alloc.deallocate b.1 b.2
      pure ⟨a, bs⟩
  | .freeAt k =>
    match h.live[k]? with
    | none => pure h
    | some b => do
      let a ← h.alloc.deallocate b.1 b.2
      pure ⟨a, h.live.eraseIdx k⟩

/-- A history of operations. -/
def runs (h : StackHeap) : List Op → M StackHeap
  | [] => .ok h
  | o :: os => do
    let h ← h.run o
    h.runs os

/-- Last-in-first-out histories. -/
def Lifo : List Op → Prop
  | [] => True
  | .freeAt _ :: _ => False
  | _ :: os => Lifo os

end StackHeap

/-- The two local meshes of `derivative_at` with the stack allocator (BSpline.hpp:418-426): `local_control_points` allocates from a copy of
`alloc`, `local_spline_val` from a copy of the allocator of `local_control_points` (copy construction of the storage vector).  Each has
`n = (order + 1)^dim` cells. -/
def derivativeBuffers (cap n : ℕ) : M ((ℕ × ℕ) × (ℕ × ℕ)) := do
  let a := StackAlloc.fresh cap
  let r1 ← a.allocate n
  let copy := r1.2
  let r2 ← copy.allocate n
  pure ((r1.1, n), (r2.1, n))

/-- `max_size()` of `AlignedAllocator` (aligned-allocator.hpp:85-87) for `size_t` of `w` bits, alignment `al`, `sizeof(T) = sz`. -/
def alignedMaxSize (w al sz : ℕ) : ℕ := (2 ^ w - 1 - al) / sz

/-- Byte count passed to `posix_memalign` by `allocate(n)` (aligned-allocator.hpp:98-99). -/
def alignedBytes (w sz n : ℕ) : ℕ := n * sz % 2 ^ w

end Intp
