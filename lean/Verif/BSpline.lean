import Verif.Mesh
import Mathlib.Algebra.Order.Floor.Defs

/-!
# Model of src/include/BSpline.hpp (default control point layout)

Coordinates (`knot_type`) are elements of an ordered field `K` with a floor function, values (`val_type`) elements of a `K`-module `V`.
Iterators into a knot vector are positions `0..size`.
-/

namespace Intp

variable {K V : Type} [Field K] [LinearOrder K] [FloorRing K] [AddCommGroup V] [Module K V] {D : ℕ}

/-- Iterator arithmetic `it + off` on a vector of length `len`: leaving `[begin, end]` is undefined behaviour. -/
def itAdd (len pos : ℕ) (off : ℤ) : M ℕ :=
  if 0 ≤ (pos : ℤ) + off ∧ (pos : ℤ) + off ≤ len then .ok ((pos : ℤ) + off).toNat else .error .oob

/-- Evaluate an initialiser list `{f(0), f(1), …}` from left to right. -/
def tabM {α : Type} : {D : ℕ} → (Fin D → M α) → M (Fin D → α)
  | 0, _ => .ok Fin.elim0
  | _ + 1, f => do
    let x ← f 0
    let r ← tabM fun d => f d.succ
    pure (Fin.cons x r)

/-- C `fmod(a, p)` (exact): `a - p * trunc(a / p)`; result has the sign of `a`.  `fmod(_, 0)` is nan. -/
def fmodM (a p : K) : M K :=
  if p = 0 then .error .divZero
  else .ok (a - p * (if 0 ≤ a / p then (⌊a / p⌋ : K) else (⌈a / p⌉ : K)))

/-- First summand of the update in `base_spline_value` (BSpline.hpp:100-103): `a` is the buffer position, `left`, `right` knot positions. -/
def baseLeftTerm (t : List K) (x : K) (j a left right : ℕ) (b : List K) : M K :=
  if j = 0 then pure 0 else do
    let v ← rd b a
    let l ← rd t left
    let r ← rd t (right - 1)
    divM (v * (x - l)) (r - l)

/-- Second summand of the update in `base_spline_value` (BSpline.hpp:104-107). -/
def baseRightTerm (order : ℕ) (t : List K) (x : K) (a left right : ℕ) (b : List K) : M K :=
  if a = order then pure 0 else do
    let v ← rd b (a + 1)
    let r ← rd t right
    let l ← rd t (left + 1)
    divM (v * (r - x)) (r - l)

/-- Body of the inner loop of `base_spline_value` (BSpline.hpp:95-108), `idxBegin = order - i`. -/
def baseSplineBody (order : ℕ) (t : List K) (s : ℕ) (x : K) (i idxBegin j : ℕ) (b : List K) : M (List K) := do
  let left ← itAdd t.length s (-((i : ℤ) - j))
  let right ← itAdd t.length s ((j : ℤ) + 1)
  let u ← baseLeftTerm t x j (idxBegin + j) left right b
  let w ← baseRightTerm order t x (idxBegin + j) left right b
  wr b (idxBegin + j) (u + w)

/-- `base_spline_value` (BSpline.hpp:83-111): `t` is the knot vector of the dimension, `s` the position of `seg_idx_iter`,
`p` is `spline_order`. -/
def baseSplineValue (order : ℕ) (t : List K) (s : ℕ) (x : K) (p : ℕ) : M (List K) := do
  let b ← wr (List.replicate (order + 1) (0 : K)) order 1
  loop 1 (p + 1) b fun i b => do
    let idxBegin ← subM order i
    loop 0 (i + 1) b fun j b => baseSplineBody order t s x i idxBegin j b

/-- `std::upper_bound(first, first + len, x)` as bisection (libstdc++ `__upper_bound`); the first argument bounds the number of
iterations, `len` of them always suffice. -/
def upperBoundGo (t : List K) (x : K) : ℕ → ℕ → ℕ → M ℕ
  | 0, first, _ => .ok first
  | fuel + 1, first, len =>
    if len = 0 then .ok first
    else do
      let half := len / 2
      let v ← rd t (first + half)
      if x < v then upperBoundGo t x fuel first half
      else upperBoundGo t x fuel (first + half + 1) (len - half - 1)

/-- `std::upper_bound(begin + lo, begin + hi, x)`; a reversed range is undefined behaviour. -/
def upperBound (t : List K) (lo hi : ℕ) (x : K) : M ℕ :=
  if hi < lo then .error .oob else upperBoundGo t x (hi - lo) lo (hi - lo)

/-- `BSpline<T, D, O, U>` (BSpline.hpp:32-760): the template parameter `O` is the field `order`. -/
structure BSpline (D : ℕ) (K V : Type) where
  order : ℕ
  periodicity : Fin D → Bool
  knots : Fin D → List K
  ctrl : Mesh D V
  range : Fin D → K × K

namespace BSpline

/-- Wrap of a periodic coordinate into `range` (BSpline.hpp:130-136). -/
def wrapCoord (range : K × K) (x : K) : M K := do
  let period := range.2 - range.1
  let f ← fmodM (x - range.1) period
  pure (range.1 + f + (if x < range.1 then period else 0))

/-- Segment choice of `get_knot_iter` (BSpline.hpp:146-156) for an already wrapped coordinate. -/
def findSegment (order : ℕ) (t : List K) (x : K) (hint last : ℕ) : M ℕ := do
  let iter ← itAdd t.length 0 hint
  let a ← rd t iter
  let hit ← if a ≤ x then do
      let b ← rd t (iter + 1)
      pure (decide (x < b))
    else pure false
  if hit then pure iter
  else do
    let lo ← itAdd t.length 0 (order + 1)
    let hi ← itAdd t.length 0 (last + 1)
    let u ← upperBound t lo hi x
    itAdd t.length u (-1)

/-- `get_knot_iter(dim_ind, x, hint, last)` (BSpline.hpp:125-157); returns the (modified) coordinate and the position of the iterator. -/
def getKnotIter (b : BSpline D K V) (d : Fin D) (x : K) (hint last : ℕ) : M (K × ℕ) := do
  let _ ← itAdd (b.knots d).length 0 hint
  let x ← if b.periodicity d then wrapCoord (b.range d) x else pure x
  let s ← findSegment b.order (b.knots d) x hint last
  pure (x, s)

/-- `get_knot_iter(dim_ind, x, hint)` (BSpline.hpp:159-163). -/
def getKnotIter' (b : BSpline D K V) (d : Fin D) (x : K) (hint : ℕ) : M (K × ℕ) := do
  let a ← subM (b.knots d).length b.order
  let last ← subM a 2
  b.getKnotIter d x hint last

/-- Offset of the first relevant control point along `d` (BSpline.hpp:350-355 and 470-475). -/
def ctrlShift (b : BSpline D K V) (d : Fin D) (s : ℕ) : M ℕ :=
  if s = 0 then pure 0
  else if s = (b.knots d).length then do
    let a ← subM (b.ctrl.dims d) b.order
    subM a 1
  else subM s b.order

/-- Shift a local index and reduce it in periodic dimensions (BSpline.hpp:350-360 and 469-481). -/
def ctrlIndex (b : BSpline D K V) (d : Fin D) (s a : ℕ) : M ℕ := do
  let off ← b.ctrlShift d s
  if b.periodicity d then modM (a + off) (b.ctrl.dims d) else pure (a + off)

/-- Loop body of `operator()` (BSpline.hpp:338-364), default layout. -/
def evalBody (b : BSpline D K V) (segs : Fin D → K × ℕ) (base : Fin D → List K) (i : ℕ) (v : V) : M V := do
  let a ← dimwiseIndices (fun _ : Fin D => b.order + 1) i
  let r ← (List.finRange D).foldlM (fun (acc : K × (Fin D → ℕ)) d => do
    let e ← rd (base d) (a d)
    let k ← b.ctrlIndex d (segs d).2 (a d)
    pure (acc.1 * e, Function.update acc.2 d k)) ((1 : K), a)
  let c ← b.ctrl.get r.2
  pure (v + r.1 • c)

/-- `operator()(coord_with_hints)` (BSpline.hpp:305-368), default layout. -/
def eval (b : BSpline D K V) (x : Fin D → K × ℕ) : M V := do
  let segs ← tabM fun d => b.getKnotIter' d (x d).1 (x d).2
  let base ← tabM fun d => baseSplineValue b.order (b.knots d) (segs d).2 (segs d).1 b.order
  loop 0 ((b.order + 1) ^ D) 0 fun i v => b.evalBody segs base i v

/-- `operator()(DimArray<double> coords)` (BSpline.hpp:376-382). -/
def evalAt (b : BSpline D K V) (x : Fin D → K) : M V := b.eval fun d => (x d, b.order)

/-- Decoding of a combined index with the first dimension fastest (BSpline.hpp:458-462 and 497-502); dimension `skip` is left at 0. -/
def localIndices (n : ℕ) (skip : Fin D → Bool) (i : ℕ) : M (Fin D → ℕ) := do
  let r ← (List.finRange D).foldlM (fun (acc : (Fin D → ℕ) × ℕ) d =>
    if skip d then pure acc
    else do
      let m ← modM acc.2 n
      let q ← divN acc.2 n
      pure (Function.update acc.1 d m, q)) ((fun _ => 0 : Fin D → ℕ), i)
  pure r.1

/-- Loop body filling the local buffers of `derivative_at` (BSpline.hpp:457-486). -/
def derivFillBody (b : BSpline D K V) (segs : Fin D → K × ℕ) (base : Fin D → List K) (i : ℕ)
    (st : Mesh D K × Mesh D V) : M (Mesh D K × Mesh D V) := do
  let a ← localIndices (b.order + 1) (fun _ : Fin D => false) i
  let r ← (List.finRange D).foldlM (fun (acc : K × (Fin D → ℕ)) d => do
    let e ← rd (base d) (a d)
    let k ← b.ctrlIndex d (segs d).2 (a d)
    pure (acc.1 * e, Function.update acc.2 d k)) ((1 : K), (fun _ => 0 : Fin D → ℕ))
  let sv ← st.1.set a r.1
  let c ← b.ctrl.get r.2
  let cv ← st.2.set a c
  pure (sv, cv)

/-- One assignment of the derivative reduction (BSpline.hpp:511-517) on the line at offset `off`, stride `step`. -/
def derivReduceBody (order : ℕ) (t : List K) (s : ℕ) (off step k j : ℕ) (buf : List V) : M (List V) := do
  let i ← subM (order + j) k
  let i1 ← subM i 1
  let hi ← rd buf (off + i * step)
  let lo ← rd buf (off + i1 * step)
  let tj ← rd t (s + j)
  let q ← subM (s + j) k
  let tjk ← rd t q
  let v ← divV ((k : K) • (hi - lo)) (tj - tjk)
  wr buf (off + i * step) v

/-- Derivative reduction of one line (BSpline.hpp:504-518): `k` runs from `order` down to `p + 1`, `j` from `k` down to 1. -/
def derivReduceLine (order : ℕ) (t : List K) (s p off step : ℕ) (buf : List V) : M (List V) :=
  loopDown (order - p) buf fun kk buf =>
    loopDown (p + kk + 1) buf fun jj buf =>
      derivReduceBody order t s off step (p + kk + 1) (jj + 1) buf

/-- Derivative reduction along dimension `d` over all lines (BSpline.hpp:489-520). -/
def derivReduceDim (c : Cfg) (b : BSpline D K V) (segs : Fin D → K × ℕ) (d : Fin D) (p : ℕ) (m : Mesh D V) : M (Mesh D V) := do
  if p = b.order then pure m
  else do
    let hs ← divN m.size (m.dims d)
    loop 0 hs m fun i m => do
      let a ← localIndices (b.order + 1) (fun dd => decide (dd = d)) i
      let r ← m.lineBegin c d a
      let buf ← derivReduceLine b.order (b.knots d) (segs d).2 p r.1 r.2 m.storage
      pure ⟨m.dims, buf⟩

/-- `derivative_at(coord_deriOrder_hint_tuple)` (BSpline.hpp:393-532), default layout; the tuple is (coordinate, hint, derivative order).
Simplification: the local buffer of basis values holds coordinates (`K`) and the products are scalar multiples, where the code converts
basis values to `val_type` first. -/
def derivativeAt (c : Cfg) (b : BSpline D K V) (x : Fin D → K × ℕ × ℕ) : M V := do
  if ∃ d, b.order < (x d).2.2 then pure 0
  else do
    let p : Fin D → ℕ := fun d => b.order - (x d).2.2
    let segs ← tabM fun d => b.getKnotIter' d (x d).1 (x d).2.1
    let base ← tabM fun d => baseSplineValue b.order (b.knots d) (segs d).2 (segs d).1 (p d)
    let st ← loop 0 ((b.order + 1) ^ D) (Mesh.mk' fun _ => b.order + 1, Mesh.mk' fun _ => b.order + 1)
      fun i st => b.derivFillBody segs base i st
    let cv ← (List.finRange D).foldlM (fun m d => b.derivReduceDim c segs d (p d) m) st.2
    loop 0 st.1.size 0 fun i v => do
      let sv ← rd st.1.storage i
      let q ← rd cv.storage i
      pure (v + sv • q)

/-- `derivative_at(coord_deriOrders)` without hints (BSpline.hpp:540-550). -/
def derivativeAt' (c : Cfg) (b : BSpline D K V) (x : Fin D → K × ℕ) : M V :=
  b.derivativeAt c fun d => ((x d).1, b.order, (x d).2)

/-- The constructor from control points and knot ranges (BSpline.hpp:188-210): the range is `knots[order]`,
`knots[size - order - 1]`, and with assertions the sizes are checked. -/
def ofParts (c : Cfg) (order : ℕ) (per : Fin D → Bool) (ctrl : Mesh D V) (knots : Fin D → List K) : M (BSpline D K V) := do
  let range ← tabM fun d => do
    let lo ← rd (knots d) order
    let i ← subM (knots d).length (order + 1)
    let hi ← rd (knots d) i
    pure (lo, hi)
  let _ ← (List.finRange D).foldlM (fun (_ : Unit) d => do
    -- the subtraction may wrap here; comparing for equality with a small number, so does not need `subM`
    assertM c (decide ((knots d).length = ctrl.dims d + (if per d then 2 * order + 1 else order + 1)))) ()
  pure ⟨order, per, knots, ctrl, range⟩

/-- `load_knots` (BSpline.hpp:217-227). -/
def loadKnots (b : BSpline D K V) (d : Fin D) (t : List K) : M (BSpline D K V) := do
  let lo ← rd t b.order
  let i ← subM t.length b.order
  let i ← subM i (2 - b.order % 2)
  let hi ← rd t i
  pure { b with knots := Function.update b.knots d t, range := Function.update b.range d (lo, hi) }

/-- `load_ctrlPts` (BSpline.hpp:234-241), default layout. -/
def loadCtrlPts (b : BSpline D K V) (m : Mesh D V) : BSpline D K V := { b with ctrl := m }

end BSpline

end Intp
