import Verif.Proofs.NearestFloat
import Verif.Props.Rounding
import Verif.Props.Float

/-!
# C109 in the arithmetic of the machine: a spline of order 0 returns the data themselves
-/

namespace Intp

section
variable {K V : Type} [CoordArith K] [ValArith V] [ScaleArith K V] {D : ℕ}

/-- **C109 in any arithmetic** in which one times one is one, and in which the data are unchanged by a division by one and by a product with one added
to zero: whatever rounding does to the coordinates and the knots, the value is one of the data. -/
theorem order_zero_any (w : Bool) (c : Cfg) {per : Fin (D + 1) → Bool} {fm : Mesh (D + 1) V} {x : Fin (D + 1) → XRange K}
    (hs : ∀ d, SizesOk c 0 (per d) (fm.dims d) (x d)) (hf : fm.storage.length = ∏ d, fm.dims d) (h1 : (1 : K) * 1 = 1)
    (hdiv : ∀ v ∈ fm.storage, ScaleArith.divV v (1 : K) = .ok v) (hsmul : ∀ v ∈ fm.storage, 0 + (1 : K) • v = v)
    {g : InterpFn (D + 1) K V} (hg : Fl.construct w c 0 per fm x = .ok g) {y : Fin (D + 1) → K} {v : V} (hv : Fl.call g y = .ok v) :
    v ∈ fm.storage := by
  obtain ⟨ho, hc⟩ := Fl.ctrl_zero hf (fun d => (hs d).shape) hdiv hg
  unfold Fl.call at hv
  cases ht : (tabM fun d => Fl.hint g d (y d)) with
  | error e => rw [ht] at hv; cases hv
  | ok h =>
    rw [ht, ok_bind] at hv
    obtain ⟨q, hq, rfl⟩ := Fl.eval_zero ho h1 hv
    rw [hsmul q (hc q hq)]
    exact hc q hq

end

theorem F64.round_double {q : ℚ} (h : IsDouble q) : F64.round q = .fin q := by
  by_cases hq : |q| < 2 ^ 1024 - 2 ^ 970
  · obtain ⟨r, hr, -, hn, -⟩ := double_round q hq
    have := hn q h
    rw [sub_self, abs_zero, abs_nonpos_iff, sub_eq_zero] at this
    rw [hr, this]
  · exfalso
    apply hq
    obtain ⟨m, e, h1, -, h3, rfl⟩ := h
    rw [abs_mul, abs_of_pos (show (0 : ℚ) < 2 ^ e by positivity)]
    have h2 : |(m : ℚ)| ≤ 2 ^ 53 - 1 := by
      have : |m| ≤ 2 ^ 53 - 1 := by omega
      exact_mod_cast this
    have h4 : (2 : ℚ) ^ e ≤ 2 ^ 971 := by
      rw [← zpow_natCast]
      exact zpow_le_zpow_right₀ (by norm_num) (by exact_mod_cast h3)
    calc |(m : ℚ)| * 2 ^ e ≤ (2 ^ 53 - 1) * 2 ^ 971 := mul_le_mul h2 h4 (by positivity) (by norm_num)
      _ < 2 ^ 1024 - 2 ^ 970 := by decide +kernel

/-- A datum as it can occur: a finite `double`, an infinity or nan. -/
def IsDatum (v : F64) : Prop := ∀ q, v = .fin q → IsDouble q

/-- **C109 in `double`.** Without assertions a spline of order 0 can always be built, for any ends and coordinates, also if these are infinite or nan;
each evaluation then returns one of the data, unrounded, also infinities and nan, or converts an overflowing number to an integer (C38). -/
theorem order_zero_double {D : ℕ} (c : Cfg) (hc : c.assertions = false) {per : Fin (D + 1) → Bool} {fm : Mesh (D + 1) F64} {x : Fin (D + 1) → XRange F64}
    (hs : ∀ d, SizesOk c 0 (per d) (fm.dims d) (x d)) (hf : fm.storage.length = ∏ d, fm.dims d) (hd : ∀ v ∈ fm.storage, IsDatum v) :
    ∃ g, Fl.construct true c 0 per fm x = .ok g ∧
      ∀ y, (∃ v ∈ fm.storage, Fl.call g y = .ok v) ∨ Fl.call g y = .error .badCast := by
  obtain ⟨g, hg⟩ := double_construct c hc 0 per fm x hs hf
  refine ⟨g, hg, fun y => ?_⟩
  rcases double_evaluate_partial c 0 per fm x hs hf g hg y with ⟨v, hv⟩ | h
  · refine .inl ⟨v, order_zero_any true c hs hf ?_ (fun v hv => ?_) (fun v hv => ?_) hg hv, hv⟩
    · show F64.round (1 * 1) = F64.fin 1
      decide +kernel
    · show Except.ok (F64.div v (.fin 1)) = Except.ok v
      cases v with
      | nan => rfl
      | inf s => cases s <;> rfl
      | fin q =>
        show Except.ok (if (1 : ℚ) = 0 then if q = 0 then F64.nan else F64.inf (F64.isNeg q) else F64.round (q / 1)) = _
        rw [if_neg one_ne_zero, div_one, F64.round_double (hd _ hv q rfl)]
    · show F64.add (.fin 0) (F64.mul (.fin 1) v) = v
      cases v with
      | nan => rfl
      | inf s => cases s <;> rfl
      | fin q =>
        show F64.add (.fin 0) (F64.round (1 * q)) = .fin q
        rw [one_mul, F64.round_double (hd _ hv q rfl)]
        show F64.round (0 + q) = _
        rw [zero_add, F64.round_double (hd _ hv q rfl)]
  · exact .inr h

namespace NearestDouble

/-- Five values along a uniform axis, two of them not finite. -/
def data : Mesh 1 F64 := ⟨fun _ => 5, [.fin 1, .inf true, .fin (1 / 2), .nan, .fin 4]⟩

/-- The hypotheses hold. -/
example : (∀ d : Fin 1, SizesOk (K := F64) ⟨false, false⟩ 0 false (data.dims d) (.uniform (.fin 0) (.fin 1))) ∧
    (∀ v ∈ data.storage, IsDatum v) := by
  refine ⟨fun d => ⟨fun h => (by cases h), fun _ => by show 0 + 1 ≤ 5 ∧ 2 ≤ 5; decide, fun l h => by cases h⟩, ?_⟩
  intro v hv q hq
  subst hq
  simp only [data, List.mem_cons, F64.fin.injEq, reduceCtorEq, List.not_mem_nil, or_false, false_or] at hv
  rcases hv with rfl | rfl | rfl
  · exact isDouble_of_round (by decide +kernel)
  · exact isDouble_of_round (by decide +kernel)
  · exact isDouble_of_round (by decide +kernel)

/-- Between the points the value is that of the nearest. -/
example : ((Fl.construct true ⟨false, false⟩ 0 (fun _ => false) data fun _ => .uniform (F64.fin 0) (F64.fin 1)) >>= fun g => do
    pure [← Fl.call g fun _ => F64.fin (1 / 16), ← Fl.call g fun _ => F64.fin (1 / 4), ← Fl.call g fun _ => F64.fin (9 / 16), ← Fl.call g fun _ => F64.fin 1]) =
    .ok [.fin 1, .inf true, .fin (1 / 2), .fin 4] := by decide +kernel

end NearestDouble

end Intp
