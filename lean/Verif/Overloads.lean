import Verif.InterpolationTemplate

/-!
# Overloads that take separate arguments
-/

namespace Intp

/-- `DimArray<T>{args...}`: elements without initialiser are zero.  (More than `D` arguments do not compile.) -/
def dimArray {α : Type} [Zero α] {D : ℕ} (args : List α) : Fin D → α := fun d => args.getD d.val 0

/-- `static_cast<size_type>(z)` of an integer: modulo 2^64. -/
def sizeCast (z : ℤ) : ℕ := (z % 2 ^ 64).toNat

namespace InterpFn

variable {K V : Type} [Field K] [LinearOrder K] [FloorRing K] [AddCommGroup V] [Module K V] {D : ℕ}

/-- `operator()(Coords... x)` (Interpolation.hpp:131-137). -/
def callArgs (f : InterpFn D K V) (x : List K) : M V := f.call (dimArray x)

/-- `at(Coords... x)` (Interpolation.hpp:163-169). -/
def atArgs (f : InterpFn D K V) (x : List K) : M V := f.at' (dimArray x)

/-- `derivative(coord, deriOrder...)` (Interpolation.hpp:189-193). -/
def derivativeArgs (c : Cfg) (f : InterpFn D K V) (x : Fin D → K) (m : List ℤ) : M V := f.derivative c x (dimArray (m.map sizeCast))

/-- `derivative(coord_deriOrder_pair...)` (Interpolation.hpp:200-205). -/
def derivativePairs (c : Cfg) (f : InterpFn D K V) (p : List (K × ℤ)) : M V :=
  f.derivative c (dimArray (p.map (·.1))) (dimArray (p.map fun q => sizeCast q.2))

/-- `derivative_at(coord, deriOrder...)` (Interpolation.hpp:226-231). -/
def derivativeAtArgs (c : Cfg) (f : InterpFn D K V) (x : Fin D → K) (m : List ℤ) : M V := f.derivativeAt c x (dimArray (m.map sizeCast))

/-- `derivative_at(coord_deriOrder_pair...)` (Interpolation.hpp:238-244). -/
def derivativeAtPairs (c : Cfg) (f : InterpFn D K V) (p : List (K × ℤ)) : M V :=
  f.derivativeAt c (dimArray (p.map (·.1))) (dimArray (p.map fun q => sizeCast q.2))

end InterpFn

end Intp
