import Verif.Proofs.F64Nearest
import Verif.Proofs.CellFloat

/-! # Rounding a `double` changes nothing -/

namespace Intp.F64

theorem rnd_idem (q : ℚ) : rnd (rnd q) = rnd q := rnd_of_rep (rep_rnd q)

theorem one_mul_inf (s : Bool) : mul (.fin 1) (inf s) = inf s := by cases s <;> decide +kernel

theorem one_mul_round (q : ℚ) : (1 : F64) * round q = round q := by
  show mul (.fin 1) (round q) = round q
  have e : round q = if pow2 1024 ≤ |rnd q| then inf (decide (rnd q < 0)) else fin (rnd q) := rfl
  rw [e]
  split
  · exact one_mul_inf _
  · rename_i h
    show round (1 * rnd q) = _
    rw [one_mul]
    show (if pow2 1024 ≤ |rnd (rnd q)| then inf (decide (rnd (rnd q) < 0)) else fin (rnd (rnd q))) = _
    rw [rnd_idem, if_neg h]

/-- Multiplying the result of an addition by 1 does nothing. -/
theorem oneMul : Fl.OneMul F64 := by
  refine ⟨by decide +kernel, by decide +kernel, fun a b => ?_⟩
  cases a with
  | nan => rfl
  | inf s =>
    cases b with
    | nan => rfl
    | inf t =>
      show mul (.fin 1) (if s = t then inf s else nan) = if s = t then inf s else nan
      split
      · exact one_mul_inf _
      · rfl
    | fin q => show mul (.fin 1) (inf s) = inf s; exact one_mul_inf _
  | fin p =>
    cases b with
    | nan => rfl
    | inf t => show mul (.fin 1) (inf t) = inf t; exact one_mul_inf _
    | fin q => exact one_mul_round _

end Intp.F64
