import Verif.Mesh
import Mathlib.Data.Fin.VecNotation

/-!
# Model of src/include/BandMatrix.hpp

Entries are in a field `K`, vectors in a `K`-module `V`.
-/

namespace Intp

variable {K V : Type}

/-- `BandMatrix<T>` (BandMatrix.hpp:19-97): `n_`, `p_`, `q_`, `bands_`. -/
structure BandMatrix (K : Type) where
  n : ℕ
  p : ℕ
  q : ℕ
  bands : Mesh 2 K

namespace BandMatrix

/-- constructor (BandMatrix.hpp:29-30): an `n × (1+p+q)` mesh of zeros. -/
def mk' [Zero K] (n p q : ℕ) : BandMatrix K := ⟨n, p, q, Mesh.mk' ![n, 1 + p + q]⟩

/-- `operator()(i, j) const` (BandMatrix.hpp:56-60). -/
def get (c : Cfg) (m : BandMatrix K) (i j : ℕ) : M K := do
  assertM c (decide (j + m.p ≥ i ∧ i + m.q ≥ j))
  let b ← subM (i + m.q) j
  m.bands.getSafe c ![j, b]

/-- `operator()(i, j) = v` (BandMatrix.hpp:50-54). -/
def set (c : Cfg) (m : BandMatrix K) (i j : ℕ) (v : K) : M (BandMatrix K) := do
  assertM c (decide (j + m.p ≥ i ∧ i + m.q ≥ j))
  let b ← subM (i + m.q) j
  let bands ← m.bands.setSafe c ![j, b] v
  pure { m with bands := bands }

/-- `operator*` (BandMatrix.hpp:67-77).  The second loop variable `k` is `j - j₀ + k₀`. -/
def mulVec [Field K] [AddCommGroup V] [Module K V] (c : Cfg) (m : BandMatrix K) (x : List V) : M (List V) :=
  loop 0 x.length (List.replicate x.length 0) fun i xx => do
    let j0 := if m.p > i then m.p - i else 0
    let k0 := if i > m.p then i - m.p else 0
    let lim ← subM (m.n + m.p) i
    loop j0 (min (m.p + m.q + 1) lim) xx fun j xx => do
      let y ← rd xx i
      let b ← m.bands.getSafe c ![i, j]
      let xv ← rd x (j - j0 + k0)
      wr xx i (y + b • xv)

end BandMatrix

/-- `ExtendedBandMatrix<T>` (BandMatrix.hpp:99-181): a band matrix with `right_side_bands_` and `bottom_side_bands_`. -/
structure ExtBandMatrix (K : Type) where
  n : ℕ
  p : ℕ
  q : ℕ
  bands : Mesh 2 K
  right : Mesh 2 K
  bottom : Mesh 2 K

namespace ExtBandMatrix

/-- constructor (BandMatrix.hpp:107-110); `dim - upper - 1`, `dim - lower - 1` wrap when `dim` is too small. -/
def mk' [Zero K] (dim lower upper : ℕ) : M (ExtBandMatrix K) := do
  let r ← subM dim (upper + 1)
  let b ← subM dim (lower + 1)
  pure ⟨dim, lower, upper, Mesh.mk' ![dim, 1 + lower + upper], Mesh.mk' ![r, lower], Mesh.mk' ![b, upper]⟩

/-- `main_bands_val(i, j) const` (BandMatrix.hpp:118-120). -/
def mainGet (c : Cfg) (m : ExtBandMatrix K) (i j : ℕ) : M K := do
  assertM c (decide (j + m.p ≥ i ∧ i + m.q ≥ j))
  let b ← subM (i + m.q) j
  m.bands.getSafe c ![j, b]

/-- `main_bands_val(i, j) = v` (BandMatrix.hpp:114-116). -/
def mainSet (c : Cfg) (m : ExtBandMatrix K) (i j : ℕ) (v : K) : M (ExtBandMatrix K) := do
  assertM c (decide (j + m.p ≥ i ∧ i + m.q ≥ j))
  let b ← subM (i + m.q) j
  let bands ← m.bands.setSafe c ![j, b] v
  pure { m with bands := bands }

/-- Condition of the assertion in `side_bands_val` (BandMatrix.hpp:123-125, 131-133), with `j >= n_ - p_` written
`j + p_ >= n_` (the constructor ensures `p_, q_ < n_`). -/
def sideCond (m : ExtBandMatrix K) (i j : ℕ) : Bool :=
  decide ((j + m.p ≥ m.n ∧ j ≥ i + m.q + 1) ∨ (i + m.q ≥ m.n ∧ i ≥ j + m.p + 1))

/-- `side_bands_val(i, j) const` (BandMatrix.hpp:130-136). -/
def sideGet (c : Cfg) (m : ExtBandMatrix K) (i j : ℕ) : M K := do
  assertM c (m.sideCond i j)
  if j > i + m.q then do
    let b ← subM (j + m.p) m.n
    m.right.getSafe c ![i, b]
  else do
    let b ← subM (i + m.q) m.n
    m.bottom.getSafe c ![j, b]

/-- `side_bands_val(i, j) = v` (BandMatrix.hpp:122-128). -/
def sideSet (c : Cfg) (m : ExtBandMatrix K) (i j : ℕ) (v : K) : M (ExtBandMatrix K) := do
  assertM c (m.sideCond i j)
  if j > i + m.q then do
    let b ← subM (j + m.p) m.n
    let r ← m.right.setSafe c ![i, b] v
    pure { m with right := r }
  else do
    let b ← subM (i + m.q) m.n
    let r ← m.bottom.setSafe c ![j, b] v
    pure { m with bottom := r }

/-- `operator()(i, j) const` (BandMatrix.hpp:143-146). -/
def get (c : Cfg) (m : ExtBandMatrix K) (i j : ℕ) : M K :=
  if j > i + m.q ∨ i > j + m.p then m.sideGet c i j else m.mainGet c i j

/-- `operator()(i, j) = v` (BandMatrix.hpp:138-141). -/
def set (c : Cfg) (m : ExtBandMatrix K) (i j : ℕ) (v : K) : M (ExtBandMatrix K) :=
  if j > i + m.q ∨ i > j + m.p then m.sideSet c i j v else m.mainSet c i j v

/-- `operator*` (BandMatrix.hpp:148-172). -/
def mulVec [Field K] [AddCommGroup V] [Module K V] (c : Cfg) (m : ExtBandMatrix K) (x : List V) : M (List V) := do
  let xx ← loop 0 x.length (List.replicate x.length 0) fun i xx => do
    let xx ← loop (if i > m.p then i - m.p else 0) (min (i + m.q + 1) m.n) xx fun j xx => do
      let y ← rd xx i
      let b ← m.mainGet c i j
      let xv ← rd x j
      wr xx i (y + b • xv)
    let nq1 ← subM m.n (m.q + 1)
    if i < nq1 then do
      let np ← subM m.n m.p
      loop (max np (i + m.q + 1)) m.n xx fun j xx => do
        let y ← rd xx i
        let b ← m.sideGet c i j
        let xv ← rd x j
        wr xx i (y + b • xv)
    else pure xx
  let np1 ← subM m.n (m.p + 1)
  let nq ← subM m.n m.q
  loop 0 np1 xx fun j xx =>
    loop (max nq (j + m.p + 1)) m.n xx fun i xx => do
      let y ← rd xx i
      let b ← m.sideGet c i j
      let xv ← rd x j
      wr xx i (y + b • xv)

end ExtBandMatrix

end Intp
