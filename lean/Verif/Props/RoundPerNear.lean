import Verif.Proofs.NearFns
import Verif.Props.RoundNear
import Verif.Props.RoundPerSmall

/-!
# C102: interpolation in `double` with periodic uniform dimensions is near exact interpolation, at every point and in every period

The exact function is the one the library would build over the rational numbers, without rounding, from the same coordinates and the same data.
-/

namespace Intp

open Finset BSpline

/-- **C102.**  `G` bounds the growth of the factors, `C` the control points, `μ` the condition number of the exact interpolation problem of each dimension, as in C85.
`L` is the number of terms of one step of the substitutions, as in C89.  Coordinates of periodic dimensions are at most `K` periods away from the base period and not
within a few roundings of the boundary of a period, where the computed period may differ from the exact one. -/
theorem double_near_exact_periodic {D : ℕ} (w : Bool) (c : Cfg) {o : ℕ} (ho : 1 ≤ o ∧ o ≤ 50) {per : Fin (D + 1) → Bool} {fm : Mesh (D + 1) F64} (hfm : fm.WF)
    {x : Fin (D + 1) → XRange F64} {K : ℕ} {Q : Fin (D + 1) → ℚ → Prop} {ρ : ℚ} (hx : ∀ d, NearDim c o (fm.dims d) K (per d) (x d) (Q d) ρ)
    {t : Template (D + 1) F64 F64} (ht : Fl.constructT w c o per fm.dims x = .ok t)
    {g : InterpFn (D + 1) F64 F64} (hg : Fl.construct w c o per fm x = .ok g)
    {C : ℚ} (hC : ∀ v ∈ g.spline.ctrl.storage, ∃ q, v = .fin q ∧ IsDouble q ∧ |q| ≤ C) (hC1 : 0 ≤ C ∧ C ≤ 2 ^ 1000)
    {G : ℚ} (hG : ∀ d, FactorsOf c o (per d) (t.solvers d) (unk (per d) (pointNum c (per d) (fm.dims d))) G)
    {L : ℕ} (hL : ∀ d, (if per d then fm.dims d else o) ≤ L) {E : ℚ} (hE : E = (D + 1) * (L * (4 * G + 1) + o * (7 + 256 * ρ))) (hE1 : E ≤ 2 ^ 50)
    {k : ℕ} (hk : k = (D + 1) * (5 * o + 1) + 1 + (o + 1) ^ (D + 1)) (hk1 : k ≤ 2 ^ 50)
    {μ : ℚ} (hμ : ∀ d, ∀ (z : ℕ → ℚ) (M : ℚ), (∀ i, i < unk (per d) (pointNum c (per d) (fm.dims d)) →
        |∑ j ∈ range (unk (per d) (pointNum c (per d) (fm.dims d))), (x d).rat.mat o (pointNum c (per d) (fm.dims d)) (per d) i j * z j| ≤ M) →
      ∀ i, i < unk (per d) (pointNum c (per d) (fm.dims d)) → |z i| ≤ μ * M) :
    ∃ gx, InterpFn.construct c o per fm.rat (fun d => (x d).rat) = .ok gx ∧
      ∀ y : Fin (D + 1) → ℚ, (∀ d, Q d (y d)) →
        ∃ v q, Fl.call g (fun d => .fin (y d)) = .ok (.fin v) ∧ gx.call y = .ok q ∧
          |v - q| ≤ (3 * k + 512 * ((D + 1) * ((K + 1) * (o * ρ))) + μ ^ (D + 1) * (2 * E)) / 2 ^ 53 * C + (1 + μ ^ (D + 1)) / 2 ^ 101 := by
  obtain ⟨gx, T, Cf, Cx, F, hgx, h⟩ := nearFns_of w c ho hfm hx ht hg hC hC1 hG hL hE hE1 hk hk1
  refine ⟨gx, hgx, fun y hy => ?_⟩
  obtain ⟨u, hu⟩ := h.pt hy
  obtain ⟨v, hv1, hv2⟩ := call_near h.spline h.holds (k := k) (by rw [hk, h.order]) hu.pt hu.hint
  refine ⟨v, _, hv1, h.done.call h.valid y, ?_⟩
  have hn : nOf c per fm.dims = t.dims := by funext d; exact (h.sizes d).symm
  have hval := h.done.val_eq (fun _ => 0) y
  rw [hn] at hval
  have hnear := tensor_near (dims := t.dims) (u := fun d => g.spline.rat.wAt d 0 (u d)) (v := fun d => (x d).rat.wt o (pointNum c (per d) (fm.dims d)) (per d) 0 (y d))
    h.bound hC1.1 (fun d => ⟨fun J _ => (hu.unity d).1 J, (hu.unity d).2⟩) (fun d => h.exact_unity (hu.dom d)) hu.near (h.inv hμ) h.residual h.exact
  rw [h.ctrl_dims] at hv2
  rw [hval]
  have tri := abs_add_le (v - tensorVal t.dims (fun d => g.spline.rat.wAt d 0 (u d)) Cf)
    (tensorVal t.dims (fun d => g.spline.rat.wAt d 0 (u d)) Cf - tensorVal t.dims (fun d => (x d).rat.wt o (pointNum c (per d) (fm.dims d)) (per d) 0 (y d)) Cx)
  rw [sub_add_sub_cancel] at tri
  refine tri.trans ((add_le_add hv2 hnear).trans (le_of_eq ?_))
  push_cast
  ring

/-- Exact dimensions of low order. -/
theorem NearDim.low {c : Cfg} {o m K : ℕ} {per : Bool} {x : XRange F64} {Q : ℚ → Prop} {ρ : ℚ} (h : NearDim c o m K per x Q ρ) (ho : 1 ≤ o) (hl : LowDim o per x) :
    x.rat.Low o per := by
  unfold LowDim at hl
  by_cases h1 : o = 1
  · exact .inl h1
  · right
    cases h with
    | aper _ hA =>
      rw [if_neg (by simp)] at hl
      cases x with
      | uniform a b => exact ⟨⟨_, _, rfl⟩, by omega⟩
      | coords l => exact absurd (hl.2.resolve_left (by simp [XRange.isUniform])) h1
    | per =>
      rw [if_pos rfl] at hl
      refine ⟨⟨_, _, rfl⟩, ?_⟩
      by_cases h2 : o ≤ 3
      · omega
      · exact .inr (.inr ⟨rfl, by omega, hl⟩)

/-- **C102** for low orders, as in C90: nothing is assumed about factors, control points or condition numbers.  `ν` is 20 up to order 3 and 100 for orders 4 to 6. -/
theorem double_near_periodic_low {D : ℕ} (w : Bool) (c : Cfg) {o : ℕ} (ho : 1 ≤ o) {per : Fin (D + 1) → Bool} {fm : Mesh (D + 1) F64} (hfm : fm.WF)
    {x : Fin (D + 1) → XRange F64} {K : ℕ} {Q : Fin (D + 1) → ℚ → Prop} {ρ : ℚ} (hx : ∀ d, NearDim c o (fm.dims d) K (per d) (x d) (Q d) ρ)
    (hlow : ∀ d, LowDim o (per d) (x d)) {ν : ℚ} (hν : ν = if o ≤ 3 then 20 else 100)
    {F : ℚ} (hF : ∀ v ∈ fm.storage, ∃ q, v = .fin q ∧ |q| ≤ F) (hF0 : 1 / 2 ^ 800 ≤ F) (hF1 : ν ^ (D + 1) * F ≤ 2 ^ 900)
    {L : ℕ} (hL : ∀ d, (if per d then fm.dims d else o) ≤ L) {E : ℚ} (hE : E = (D + 1) * (L * (12 * ν + 9) + o * (7 + 256 * ρ))) (hE1 : E ≤ 2 ^ 43)
    {k : ℕ} (hk : k = (D + 1) * (5 * o + 1) + 1 + (o + 1) ^ (D + 1)) (hk1 : k ≤ 2 ^ 50) :
    ∃ g gx, Fl.construct w c o per fm x = .ok g ∧ InterpFn.construct c o per fm.rat (fun d => (x d).rat) = .ok gx ∧
      ∀ y : Fin (D + 1) → ℚ, (∀ d, Q d (y d)) →
        ∃ v q, Fl.call g (fun d => .fin (y d)) = .ok (.fin v) ∧ gx.call y = .ok q ∧
          |v - q| ≤ (3 * k + 512 * ((D + 1) * ((K + 1) * (o * ρ))) + stab o ^ (D + 1) * (2 * E)) / 2 ^ 53 * (ν ^ (D + 1) * F) + (1 + stab o ^ (D + 1)) / 2 ^ 101 := by
  have ho50 : 1 ≤ o ∧ o ≤ 50 := by
    have := hlow 0
    unfold LowDim at this
    split at this <;> omega
  choose P r hgood hr using fun d => (hx d).good
  obtain ⟨t, g, ht, hg, hG, -, hC⟩ := double_low_bounded w c ho hfm hgood hlow hr hν hF hF0 hF1 hL hE hE1
  have hF' : 0 ≤ F := (one_div_nonneg.2 (pow_nonneg zero_le_two _)).trans hF0
  have hν1 : 20 ≤ ν := by rw [hν]; split <;> norm_num
  obtain ⟨gx, hgx, h⟩ := double_near_exact_periodic w c ho50 hfm hx ht hg hC ⟨mul_nonneg (pow_nonneg (by linarith) _) hF', hF1.trans (by decide +kernel)⟩
    (G := 2 + 3 * ν) hG hL (by rw [hE]; ring) (hE1.trans (by norm_num)) hk hk1 (μ := stab o) (fun d => by
      have hval : (x d).rat.Valid o (pointNum c (per d) (fm.dims d)) (per d) := by
        obtain ⟨T, -, hT⟩ := dimNear_of ho50 hx ht (G := 2 + 3 * ν) (fun d => by
          rw [(Fl.constructT_solvers (shape_dims ho50 hgood) ht).2.1]; exact hG d) d
        exact hT.valid
      have := hval.lowInv ((hx d).low ho (hlow d))
      rw [Rat.cast_id] at this
      exact this)
  exact ⟨g, gx, hg, hgx, h⟩

/-! ## A case: periodic dimension of 65 points of `[0, 1]` (the last repeats the first) with 7 points of `[0, 3]`, cubic, any data of size at most 1.  Every coordinate
of the first dimension within 1000 periods, if it is not within `2^-36` of an integer -/

namespace RoundPerNearExample

open RoundPerSmallExample (cfg per range zero_double)

def Q : Fin 2 → ℚ → Prop := ![PerPt 3 1000 0 1 1 (1 / 64), fun y => IsDouble y ∧ (XRange.uniform (0 : ℚ) 3).node 7 0 ≤ y ∧ y ≤ (XRange.uniform (0 : ℚ) 3).node 7 (7 - 1)]

theorem near : ∀ d, NearDim cfg 3 (![65, 7] d) 1000 (per d) (range d) (Q d) 64 := by
  intro d
  match d with
  | 0 =>
    refine NearDim.per (B := 1) (H := 1 / 64) (by decide) ?_ (by norm_num) (by decide +kernel) (by norm_num)
    exact ⟨by decide, by decide, zero_double, isDouble_of_round (show F64.round 1 = .fin 1 by decide +kernel), by norm_num,
      by norm_num, by decide +kernel, by show (1 / 64 : ℚ) * ((65 : ℕ) - 1) = 1 - 0; norm_num, by norm_num, by decide +kernel⟩
  | 1 =>
    exact NearDim.aper (by decide) (RatioAxis.uniform (B := 3) (H := 1 / 2) ⟨by decide, by decide, zero_double, isDouble_of_round (show F64.round 3 = .fin 3 by decide +kernel), by norm_num,
      by norm_num, by decide +kernel, by show (1 / 2 : ℚ) * ((7 : ℕ) - 1) = 3 - 0; norm_num, by norm_num, by decide +kernel⟩
      (by norm_num))

example (w : Bool) (data : Mesh 2 F64) (hd : data.dims = ![65, 7]) (hw : data.WF) (h1 : ∀ v ∈ data.storage, ∃ q, v = .fin q ∧ |q| ≤ 1) :
    ∃ g gx, Fl.construct w cfg 3 per data range = .ok g ∧ InterpFn.construct cfg 3 per data.rat ![.uniform 0 1, .uniform 0 3] = .ok gx ∧
      ∀ (k : ℤ) (a b : ℚ), |k| ≤ 1000 → IsDouble a → IsDouble b → 1 / 2 ^ 36 ≤ a - k → a - k ≤ 1 - 1 / 2 ^ 36 → 0 ≤ b → b ≤ 3 →
        ∃ v q, Fl.call g ![.fin a, .fin b] = .ok (.fin v) ∧ gx.call ![a, b] = .ok q ∧ |v - q| ≤ 1 / 2 ^ 15 := by
  obtain ⟨g, gx, hg, hgx, h⟩ := double_near_periodic_low w cfg (o := 3) (by omega) (per := per) hw (by rw [hd]; exact near)
    (fun d => by
      match d with
      | 0 => show (3 : ℕ) ≤ 6; omega
      | 1 => exact ⟨le_rfl, .inl rfl⟩) (ν := 20) rfl
    (F := 1) h1 (by decide +kernel) (by decide +kernel) (L := 65) (fun d => by
      rw [hd]
      match d with
      | 0 => exact le_rfl
      | 1 => show (3 : ℕ) ≤ 65; omega) rfl (by norm_num) rfl (by norm_num)
  have e : (fun d => (RoundPerSmallExample.range d).rat) = ![XRange.uniform 0 1, .uniform 0 3] := by
    funext d
    match d with
    | 0 => rfl
    | 1 => rfl
  rw [e] at hgx
  refine ⟨g, gx, hg, hgx, fun k a b hk ha hb a0 a1 b0 b1 => ?_⟩
  obtain ⟨v, q, e1, e2, e3⟩ := h ![a, b] (fun d => by
    match d with
    | 0 =>
      refine ⟨ha, k, by exact_mod_cast hk, .inr ?_, ?_⟩
      · show (0 : ℚ) - ((1 - 3 % 2 : ℕ) : ℚ) / 2 * (1 / 64) + 64 * (((1000 : ℕ) + 1) * 1 / 2 ^ 53) ≤ a - k * (1 - 0)
        norm_num at a0 ⊢
        linarith
      · show a - k * (1 - 0) + 64 * (((1000 : ℕ) + 1) * 1 / 2 ^ 53) ≤ 1 - ((1 - 3 % 2 : ℕ) : ℚ) / 2 * (1 / 64)
        norm_num at a1 ⊢
        linarith
    | 1 =>
      refine ⟨hb, ?_, ?_⟩
      · show (0 : ℚ) + ((0 : ℕ) : ℚ) * ((3 - 0) / ((7 : ℕ) - 1)) ≤ b
        rw [Nat.cast_zero, zero_mul, zero_add]; exact b0
      · show b ≤ (0 : ℚ) + ((7 - 1 : ℕ) : ℚ) * ((3 - 0) / ((7 : ℕ) - 1))
        norm_num; exact b1)
  have e' : (fun d => F64.fin ((![a, b] : Fin 2 → ℚ) d)) = ![.fin a, .fin b] := by
    funext d
    match d with
    | 0 => rfl
    | 1 => rfl
  rw [e'] at e1
  refine ⟨v, q, e1, e2, e3.trans ?_⟩
  unfold stab
  norm_num

end RoundPerNearExample

end Intp
