import Verif.BandMatrix

/-!
# Model of src/include/BandLU.hpp

The object solved in place is a strided line `buf[off], buf[off+step], …` of a buffer: a `std::vector` is the case
`off = 0, step = 1`, a mesh `skip_iterator` (Interpolation template line solving) the general case.
-/

namespace Intp

variable {K V : Type} [Field K] [DecidableEq K] [AddCommGroup V] [Module K V]

/-- `iter[i] -= a * iter[j]` on a strided line. -/
def lineSubMul (buf : List V) (off step i j : ℕ) (a : K) : M (List V) := do
  let vi ← rd buf (off + i * step)
  let vj ← rd buf (off + j * step)
  wr buf (off + i * step) (vi - a • vj)

/-- `iter[j] /= a` on a strided line. -/
def lineDiv (buf : List V) (off step j : ℕ) (a : K) : M (List V) := do
  let vj ← rd buf (off + j * step)
  let v ← divV vj a
  wr buf (off + j * step) v

namespace BandMatrix

/-- `BandLU<BandMatrix>::compute_impl` (BandLU.hpp:103-118), on `lu_store_`. -/
def computeImpl (c : Cfg) (m : BandMatrix K) : M (BandMatrix K) := do
  let n := m.n
  let p := m.p
  let q := m.q
  let n1 ← subM n 1
  loop 0 n1 m fun k a => do
    let a ← loop (k + 1) (min (k + p + 1) n) a fun i a => do
      let x ← a.get c i k
      let d ← a.get c k k
      let z ← divM x d
      a.set c i k z
    loop (k + 1) (min (k + q + 1) n) a fun j a =>
      loop (k + 1) (min (k + p + 1) n) a fun i a => do
        let x ← a.get c i j
        let l ← a.get c i k
        let u ← a.get c k j
        a.set c i j (x - l * u)

/-- `BandLU<BandMatrix>::solve_in_place_impl` (BandLU.hpp:120-143). -/
def solveInPlace (c : Cfg) (lu : BandMatrix K) (buf : List V) (off step : ℕ) : M (List V) := do
  let n := lu.n
  let p := lu.p
  let q := lu.q
  let buf ← loop 0 n buf fun j buf =>
    loop (j + 1) (min (j + p + 1) n) buf fun i buf => do
      let a ← lu.get c i j
      lineSubMul buf off step i j a
  loopDown n buf fun j buf => do
    let d ← lu.get c j j
    let buf ← lineDiv buf off step j d
    loop (if j < q then 0 else j - q) j buf fun i buf => do
      let a ← lu.get c i j
      lineSubMul buf off step i j a

end BandMatrix

namespace ExtBandMatrix

/-- `BandLU<ExtendedBandMatrix>::compute_impl` (BandLU.hpp:159-213), on `lu_store_`. -/
def computeImpl (c : Cfg) (m : ExtBandMatrix K) : M (ExtBandMatrix K) := do
  let n := m.n
  let p := m.p
  let q := m.q
  let n1 ← subM n 1
  loop 0 n1 m fun k a => do
    let nq ← subM n q
    let np ← subM n p
    let a ← loop (k + 1) (min (k + p + 1) n) a fun i a => do
      let x ← a.mainGet c i k
      let d ← a.mainGet c k k
      let z ← divM x d
      a.mainSet c i k z
    let a ← loop (max nq (k + p + 1)) n a fun i a => do
      let x ← a.sideGet c i k
      let d ← a.mainGet c k k
      let z ← divM x d
      a.sideSet c i k z
    let a ← loop (k + 1) (min (k + q + 1) n) a fun j a =>
      loop (k + 1) (min (k + p + 1) n) a fun i a => do
        let x ← a.mainGet c i j
        let l ← a.mainGet c i k
        let u ← a.mainGet c k j
        a.mainSet c i j (x - l * u)
    let a ← loop (k + 1) (min (k + p + 1) n) a fun i a =>
      loop (max np (k + q + 1)) n a fun j a => do
        let x ← a.get c i j
        let l ← a.mainGet c i k
        let u ← a.sideGet c k j
        a.set c i j (x - l * u)
    let a ← loop (k + 1) (min (k + q + 1) n) a fun j a =>
      loop (max nq (k + p + 1)) n a fun i a => do
        let x ← a.get c i j
        let l ← a.sideGet c i k
        let u ← a.mainGet c k j
        a.set c i j (x - l * u)
    let np1 ← subM n (p + 1)
    let nq1 ← subM n (q + 1)
    if k < max np1 nq1 then
      loop (max nq (k + p + 1)) n a fun i a =>
        loop (max np (k + q + 1)) n a fun j a => do
          let x ← a.mainGet c i j
          let l ← a.sideGet c i k
          let u ← a.sideGet c k j
          a.mainSet c i j (x - l * u)
    else pure a

/-- `BandLU<ExtendedBandMatrix>::solve_in_place_impl` (BandLU.hpp:215-259).  `j - q` wraps when `j < q`: error outcome. -/
def solveInPlace (c : Cfg) (lu : ExtBandMatrix K) (buf : List V) (off step : ℕ) : M (List V) := do
  let n := lu.n
  let p := lu.p
  let q := lu.q
  let buf ← loop 0 n buf fun j buf => do
    let buf ← loop (j + 1) (min (j + p + 1) n) buf fun i buf => do
      let a ← lu.mainGet c i j
      lineSubMul buf off step i j a
    let np1 ← subM n (p + 1)
    if j < np1 then do
      let nq ← subM n q
      loop (max nq (j + p + 1)) n buf fun i buf => do
        let a ← lu.sideGet c i j
        lineSubMul buf off step i j a
    else pure buf
  loopDown n buf fun j buf => do
    let d ← lu.mainGet c j j
    let buf ← lineDiv buf off step j d
    let buf ← loop (if j < q then 0 else j - q) j buf fun i buf => do
      let a ← lu.mainGet c i j
      lineSubMul buf off step i j a
    let np1 ← subM n (p + 1)
    if j > np1 then do
      let hi ← subM j q
      loop 0 hi buf fun i buf => do
        let a ← lu.sideGet c i j
        lineSubMul buf off step i j a
    else pure buf

end ExtBandMatrix

/-- State of a `BandLUBase` object (BandLU.hpp:16-56): `is_computed_` and `lu_store_`. -/
structure LUState (Mat : Type) where
  computed : Bool
  store : Mat

namespace LUState

variable {Mat : Type}

/-- default constructor (BandLU.hpp:20). -/
def empty (dflt : Mat) : LUState Mat := ⟨false, dflt⟩

/-- constructor from a matrix (BandLU.hpp:22-29); `impl` is `compute_impl`. -/
def ofMatrix (impl : Mat → M Mat) (m : Mat) : M (LUState Mat) := do
  let lu ← impl m
  pure ⟨true, lu⟩

/-- `compute` (BandLU.hpp:31-41). -/
def compute (impl : Mat → M Mat) (s : LUState Mat) (m : Mat) : M (LUState Mat) :=
  if s.computed then pure s
  else do
    let lu ← impl m
    pure ⟨true, lu⟩

/-- `solve` (BandLU.hpp:43-49) and `solve_in_place` (BandLU.hpp:51-54): a `const` member function. -/
def solve (slv : Mat → List V → ℕ → ℕ → M (List V)) (s : LUState Mat) (buf : List V) (off step : ℕ) : M (List V) :=
  slv s.store buf off step

end LUState

end Intp
