import Verif.InterpolationTemplate

/-!
# Model of the MATLAB interface (matlab/bspline.cpp)

Values and coordinates are numbers of one field.  The types of the arguments and their number (bspline.cpp:144-151) are fixed by the types of the model.
-/

namespace Intp.Matlab

/-- `matlab::data::TypedArray<T>`: sizes and the elements, the first index running fastest. -/
structure Arr (α : Type) where
  dims : List ℕ
  data : List α
  deriving DecidableEq

/-- Position of the element `x[i]…[k]`.  With fewer indices than dimensions the last one runs through all that is left. -/
def offset : List ℕ → List ℕ → M ℕ
  | _, [] => .ok 0
  | _, [i] => .ok i
  | [], _ => .error .oob
  | n :: ds, i :: is => if i < n then do
      let r ← offset ds is
      pure (i + n * r)
    else .error .oob

/-- `get_matlab_arr(x, is...)` (bspline.cpp:22-28), `x[i]`, `x[i][j]`; an index outside throws. -/
def Arr.get (x : Arr α) (is : List ℕ) : M α := do
  let k ← offset x.dims is
  rd x.data k

/-- Recursion of `range_invoke_col_major` (bspline.cpp:42-53) over the dimensions still to do; `a` has the indices chosen so far. -/
def colMajorGo {N : ℕ} (range : Fin N → ℕ) (f : (Fin N → ℕ) → σ → M σ) : List (Fin N) → (Fin N → ℕ) → σ → M σ
  | [], a, s => f a s
  | d :: ds, a, s => loop 0 (range d) s fun i s => colMajorGo range f ds (Function.update a d i) s

/-- `range_invoke_col_major` (bspline.cpp:42-53): level `I` of the recursion runs over dimension `N - 1 - I` and puts its index in front. -/
def colMajor {N : ℕ} (range : Fin N → ℕ) (s : σ) (f : (Fin N → ℕ) → σ → M σ) : M σ :=
  colMajorGo range f (List.finRange N).reverse (fun _ => 0) s

variable {K : Type} [Field K] [LinearOrder K] [IsStrictOrderedRing K] [FloorRing K]

/-- `interpolation_nd<D + 1>` (bspline.cpp:70-104).  `make_inverse_index_sequence` and `reverse_invoke` are `Fin.rev`.  `result` starts with
zeros (bspline.cpp:117). -/
def interpolationNd (D : ℕ) (c : Cfg) (order : ℕ) (per : Arr Bool) (range mesh coor : Arr K) (deriv : Arr ℕ) : M (List K) := do
  let dims ← tabM fun d : Fin (D + 1) => rd mesh.dims d
  let p ← tabM fun d : Fin (D + 1) => per.get [d.rev]
  let f ← colMajor dims (Mesh.mk' fun d => dims d.rev + if p d then 1 else 0) fun a f => do
    let v ← mesh.get (List.ofFn a)
    f.setSafe c (fun d => a d.rev) v
  let x ← tabM fun d : Fin (D + 1) => do
    let lo ← range.get [d.rev, 0]
    let hi ← range.get [d.rev, 1]
    pure (XRange.uniform lo hi)
  let g ← InterpFn.construct c order p f x
  let n ← rd coor.dims 0
  loop 0 n (List.replicate n 0) fun i res => do
    let y ← tabM fun d : Fin (D + 1) => coor.get [i, d.rev]
    let m ← tabM fun d : Fin (D + 1) => deriv.get [d.rev]
    let v ← g.derivative c y m
    wr res i v

/-- How a call from MATLAB can go wrong: `feval(u"error", ..)`, `throw;` without an exception, or inside the library. -/
inductive MexErr
  | check (msg : String)
  | terminate
  | lib (e : Err)
  deriving DecidableEq

/-- Number of dimensions (bspline.cpp:119-121 and 158-160): those of size greater than 1. -/
def dimCount (mesh : Arr K) : ℕ := mesh.dims.countP (1 < ·)

/-- `checkArguments` (bspline.cpp:143-182) without the checks of types. -/
def checkArguments (per : Arr Bool) (range mesh coor : Arr K) (deriv : Arr ℕ) : Except MexErr Unit :=
  let dim := dimCount mesh
  if range.dims.length ≠ 2 ∨ range.dims[0]? ≠ some dim ∨ range.dims[1]? ≠ some 2 then .error (.check "Range require Dim * 2 array")
  else if mesh.dims[0]? = some 1 then .error (.check "Mesh should be col vector for 1 dimension")
  else if per.dims[0]? ≠ some dim ∨ deriv.dims[0]? ≠ some dim then
    .error (.check "is_periodic, derivative_in require length dim array")
  else if coor.dims.length ≠ 2 ∨ coor.dims[1]? ≠ some dim then .error (.check "Interpolate coordinate require N * dim array")
  else .ok ()

/-- Errors of the library. -/
def lift (m : M α) : Except MexErr α :=
  match m with
  | .ok a => .ok a
  | .error e => .error (.lib e)

/-- `operator()` (bspline.cpp:106-141). -/
def bspline (c : Cfg) (order : ℕ) (per : Arr Bool) (range mesh coor : Arr K) (deriv : Arr ℕ) : Except MexErr (List K) := do
  checkArguments per range mesh coor deriv
  match dimCount mesh with
  | 1 => lift (interpolationNd 0 c order per range mesh coor deriv)
  | 2 => lift (interpolationNd 1 c order per range mesh coor deriv)
  | 3 => lift (interpolationNd 2 c order per range mesh coor deriv)
  | _ => .error .terminate

end Intp.Matlab
