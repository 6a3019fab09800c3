import Verif.Proofs.Marsden
import Mathlib.Algebra.BigOperators.Fin

/-!
# Tensor products: permuted dimensions, one dimension singled out
-/

namespace Intp

open Finset BSpline

variable {K V : Type} [Field K] [LinearOrder K] [IsStrictOrderedRing K] [FloorRing K] [AddCommGroup V] [Module K V] {D : ℕ}

omit [LinearOrder K] [IsStrictOrderedRing K] [FloorRing K] in
theorem tensorVal_perm (σ : Equiv.Perm (Fin D)) (dims : Fin D → ℕ) (w : Fin D → ℕ → K) (C : (Fin D → ℕ) → V) :
    tensorVal (fun d => dims (σ d)) (fun d => w (σ d)) (fun J => C fun d => J (σ.symm d)) = tensorVal dims w C := by
  unfold tensorVal
  refine sum_nbij' (fun J d => J (σ.symm d)) (fun J d => J (σ d)) ?_ ?_ ?_ ?_ ?_
  · intro J hJ
    refine Fintype.mem_piFinset.2 fun d => ?_
    have := Fintype.mem_piFinset.1 hJ (σ.symm d)
    simpa using this
  · intro J hJ
    exact Fintype.mem_piFinset.2 fun d => Fintype.mem_piFinset.1 hJ (σ d)
  · intro J _; funext d; simp
  · intro J _; funext d; simp
  · intro J _
    congr 1
    exact Fintype.prod_equiv σ _ _ fun d => by simp

omit [LinearOrder K] [IsStrictOrderedRing K] [FloorRing K] in
theorem tensorVal_insert (d : Fin (D + 1)) (dims : Fin (D + 1) → ℕ) (w : Fin (D + 1) → ℕ → K) (C : (Fin (D + 1) → ℕ) → V) :
    tensorVal dims w C = ∑ j ∈ range (dims d), w d j • tensorVal (fun e => dims (d.succAbove e)) (fun e => w (d.succAbove e)) fun J => C (d.insertNth j J) := by
  unfold tensorVal
  simp only [smul_sum, smul_smul]
  rw [← sum_product']
  refine (sum_nbij' (fun p : ℕ × (Fin D → ℕ) => d.insertNth p.1 p.2) (fun J => (J d, fun e => J (d.succAbove e))) ?_ ?_ ?_ ?_ ?_).symm
  · rintro ⟨j, J⟩ hp
    rw [mem_product] at hp
    refine Fintype.mem_piFinset.2 fun e => ?_
    rcases Fin.eq_self_or_eq_succAbove d e with rfl | ⟨e', rfl⟩
    · simpa using hp.1
    · simpa using Fintype.mem_piFinset.1 hp.2 e'
  · intro J hJ
    rw [mem_product]
    exact ⟨Fintype.mem_piFinset.1 hJ d, Fintype.mem_piFinset.2 fun e => Fintype.mem_piFinset.1 hJ _⟩
  · rintro ⟨j, J⟩ _; simp
  · intro J _
    exact Fin.insertNth_self_removeNth d J
  · rintro ⟨j, J⟩ _
    rw [Fin.prod_univ_succAbove _ d]
    simp

end Intp
