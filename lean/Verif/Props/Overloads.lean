import Verif.Overloads
import Verif.Props.Interpolation
import Verif.Props.Spline

/-!
# C108: overloads that take separate arguments
-/

namespace Intp

theorem sizeCast_nonneg {z : ℤ} (h0 : 0 ≤ z) (h : z < 2 ^ 64) : (sizeCast z : ℤ) = z := by
  unfold sizeCast
  rw [Int.emod_eq_of_lt h0 h, Int.toNat_of_nonneg h0]

/-- Negative numbers become large ones. -/
theorem sizeCast_neg {z : ℤ} (h0 : z < 0) (h : -2 ^ 63 ≤ z) : 2 ^ 63 ≤ sizeCast z := by
  unfold sizeCast
  have : z % 2 ^ 64 = z + 2 ^ 64 := by
    rw [← Int.add_emod_right, Int.emod_eq_of_lt (by omega) (by omega)]
  omega

variable {K V : Type} [Field K] [LinearOrder K] [IsStrictOrderedRing K] [FloorRing K] [AddCommGroup V] [Module K V] {D : ℕ}

omit [IsStrictOrderedRing K] in
/-- **C108, all arguments given.**  With one argument per dimension, derivative orders being non-negative, the overloads agree with those that take
arrays; for every function object and every point. -/
theorem overloads (c : Cfg) (f : InterpFn D K V) (x : Fin D → K) (m : Fin D → ℕ) (hm : ∀ d, m d < 2 ^ 64) :
    f.callArgs (List.ofFn x) = f.call x ∧ f.atArgs (List.ofFn x) = f.at' x ∧
    f.derivativeArgs c x (List.ofFn fun d => (m d : ℤ)) = f.derivative c x m ∧
    f.derivativePairs c (List.ofFn fun d => (x d, (m d : ℤ))) = f.derivative c x m ∧
    f.derivativeAtArgs c x (List.ofFn fun d => (m d : ℤ)) = f.derivativeAt c x m ∧
    f.derivativeAtPairs c (List.ofFn fun d => (x d, (m d : ℤ))) = f.derivativeAt c x m := by
  have h1 : ∀ {α : Type} [Zero α] (y : Fin D → α), dimArray (List.ofFn y) = y := fun y => by
    funext d
    simp [dimArray, List.getD_eq_getElem?_getD]
  have h2 : ∀ d, sizeCast (m d) = m d := fun d => by
    have := sizeCast_nonneg (z := m d) (by omega) (by exact_mod_cast hm d)
    exact_mod_cast this
  unfold InterpFn.callArgs InterpFn.atArgs InterpFn.derivativeArgs InterpFn.derivativePairs InterpFn.derivativeAtArgs InterpFn.derivativeAtPairs
  simp only [List.map_ofFn, h1, Function.comp_def, h2, and_self]

omit [IsStrictOrderedRing K] in
/-- **C108, missing arguments.**  Fewer coordinates than dimensions are accepted: the others are zero.  Missing derivative orders are zero too. -/
theorem overloads_missing (c : Cfg) (f : InterpFn D K V) (x : List K) (y : Fin D → K) (m : List ℤ) :
    f.callArgs x = f.call (fun d => if h : d.val < x.length then x[d.val] else 0) ∧
    f.derivativeArgs c y m = f.derivative c y (fun d => if h : d.val < m.length then sizeCast m[d.val] else 0) := by
  have h1 : ∀ {α : Type} [Zero α] (l : List α), (dimArray l : Fin D → α) = fun d => if h : d.val < l.length then l[d.val] else 0 := fun l => by
    funext d
    unfold dimArray
    rw [List.getD_eq_getElem?_getD]
    split <;> rename_i h
    · rw [List.getElem?_eq_getElem h]; rfl
    · rw [List.getElem?_eq_none (by omega)]; rfl
  constructor
  · unfold InterpFn.callArgs
    rw [h1]
  · unfold InterpFn.derivativeArgs
    rw [h1]
    congr 1
    funext d
    simp only [List.length_map, List.getElem_map]

/-- **C108, negative orders.**  A negative derivative order is not rejected: it becomes a number above every spline order, and the derivative of
a constructed interpolation is zero, at every point. -/
theorem negative_order (c : Cfg) {o : ℕ} (ho : o < 2 ^ 63) {per : Fin (D + 1) → Bool} {fm : Mesh (D + 1) V} {x : Fin (D + 1) → XRange K}
    (hm : fm.WF) (hv : ValidAxes c o per fm.dims x) {g : InterpFn (D + 1) K V} (hg : InterpFn.construct c o per fm x = .ok g)
    (y : Fin (D + 1) → K) (m : List ℤ) (hl : m.length ≤ D + 1) {z : ℤ} (hz : z ∈ m) (h0 : z < 0) (h1 : -2 ^ 63 ≤ z) :
    g.derivativeArgs c y m = .ok 0 := by
  obtain ⟨i, hi, rfl⟩ := List.getElem_of_mem hz
  unfold InterpFn.derivativeArgs
  obtain ⟨-, ⟨v, h⟩, -⟩ := at_constructed c hm hv hg y (dimArray (m.map sizeCast))
  unfold InterpFn.derivative at h ⊢
  cases hh : tabM fun d => g.hint d (y d) with
  | error e => rw [hh, error_bind] at h; cases h
  | ok k =>
    rw [ok_bind]
    refine derivative_order_exceeds _ _ _ ⟨⟨i, by omega⟩, ?_⟩
    show g.spline.order < dimArray (m.map sizeCast) ⟨i, by omega⟩
    obtain ⟨F, hF⟩ := fm.exists_holds hm
    obtain ⟨-, C, hC, -⟩ := (InterpFn.construct_spec (c := c) hv rfl hF).get hg
    rw [hC.order]
    unfold dimArray
    rw [List.getD_eq_getElem?_getD, List.getElem?_eq_getElem (by simpa using hi), List.getElem_map, Option.getD_some]
    exact ho.trans_le (sizeCast_neg h0 h1)

/-- `derivative({x, y}, -1)` of a function of two variables: the order of the second is zero and that of the first 2^64 - 1. -/
example : (dimArray ([-1].map sizeCast) : Fin 2 → ℕ) = ![2 ^ 64 - 1, 0] := by decide +kernel

end Intp
