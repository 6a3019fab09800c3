import Verif.Proofs.Linear
import Verif.Props.Pivot

/-!
# C64: interpolation of order 1 is multilinear interpolation
-/

namespace Intp

open Finset BSpline

variable {K V : Type} [Field K] [LinearOrder K] [IsStrictOrderedRing K] [FloorRing K] [AddCommGroup V] [Module K V] {D : ℕ}

/-- **C64.**  With spline order 1, at the coordinate that divides cell `k` of the data mesh in the ratios `θ d` (moved by any whole number of
periods in periodic dimensions), the constructed function takes the combination of the data values at the `2^(D+1)` corners of the cell with weights
`∏ θ d` or `1 - θ d`.  Ratios outside `[0, 1]` are allowed in the first and in the last cell of non-periodic dimensions (extrapolation). -/
theorem order_one_multilinear (c : Cfg) {per : Fin (D + 1) → Bool} {fm : Mesh (D + 1) V} {x : Fin (D + 1) → XRange K} (hm : fm.WF)
    (hv : ValidAxes c 1 per fm.dims x) {g : InterpFn (D + 1) K V} (hg : InterpFn.construct c 1 per fm x = .ok g)
    (k : Fin (D + 1) → ℕ) (hk : ∀ d, k d + 1 < pointNum c (per d) (fm.dims d)) (θ : Fin (D + 1) → K)
    (h0 : ∀ d, 0 ≤ θ d ∨ per d = false ∧ k d = 0) (h1 : ∀ d, θ d ≤ 1 ∨ per d = false ∧ k d + 2 = pointNum c (per d) (fm.dims d))
    (z : Fin (D + 1) → ℤ) :
    ∃ v : (Fin (D + 1) → Bool) → V,
      (∀ ε, fm.get (fun d => if per d = true ∧ k d + (if ε d then 1 else 0) + 1 = pointNum c (per d) (fm.dims d) then 0
        else k d + if ε d then 1 else 0) = .ok (v ε)) ∧
      g.call (fun d => (1 - θ d) * nodeAt c per fm.dims x k d + θ d * nodeAt c per fm.dims x (fun d => k d + 1) d +
        if per d = true then
          z d * (nodeAt c per fm.dims x (fun d => pointNum c (per d) (fm.dims d) - 1) d - nodeAt c per fm.dims x (fun _ => 0) d) else 0) =
        .ok (∑ ε : Fin (D + 1) → Bool, (∏ d, if ε d then θ d else 1 - θ d) • v ε) := by
  obtain ⟨F, hF⟩ := fm.exists_holds hm
  obtain ⟨-, C, hC, hE⟩ := (InterpFn.construct_spec (c := c) hv rfl hF).get hg
  have hfold : ∀ I : Fin (D + 1) → ℕ, (∀ d, I d < pointNum c (per d) (fm.dims d)) →
      foldIx c per fm.dims I = fun d => if per d = true ∧ I d + 1 = pointNum c (per d) (fm.dims d) then 0 else I d := by
    intro I hI
    funext d
    have := hI d
    unfold foldIx unk
    cases hp : per d <;> rw [hp] at this <;> simp
    · intro h; omega
    · by_cases h : I d + 1 = pointNum c true (fm.dims d)
      · rw [if_pos (by omega), if_pos h]
      · rw [if_neg (by omega), if_neg h]
  have hI : ∀ ε : Fin (D + 1) → Bool, ∀ d, k d + (if ε d then 1 else 0) < pointNum c (per d) (fm.dims d) := fun ε d => by
    have := hk d; split <;> omega
  refine ⟨fun ε => F (foldIx c per fm.dims fun d => k d + if ε d then 1 else 0), fun ε => ?_, ?_⟩
  · simp only
    rw [hfold _ (hI ε)]
    refine hF.get fun d => ?_
    have h1 := hv.dims_eq d
    have h2 := (hv d).unk_pos
    have h3 := hI ε d
    generalize k d + (if ε d then 1 else 0) = j at h3 ⊢
    unfold unk pointNum at *
    cases hp : per d <;> cases hn : c.noDummy <;> simp [hp, hn] at h1 h2 h3 ⊢ <;> (try split) <;> omega
  · rw [hC.call hv]
    congr 1
    unfold BSpline.val
    have e : (fun d => g.spline.wAt d 0 ((1 - θ d) * nodeAt c per fm.dims x k d + θ d * nodeAt c per fm.dims x (fun d => k d + 1) d +
        if per d = true then
          z d * (nodeAt c per fm.dims x (fun d => pointNum c (per d) (fm.dims d) - 1) d - nodeAt c per fm.dims x (fun _ => 0) d) else 0)) =
        fun d J => ∑ e : Bool, (if e then θ d else 1 - θ d) * g.spline.wAt d 0 (nodeAt c per fm.dims x (fun d => k d + if e then 1 else 0) d) J := by
      funext d J
      have h := hC.wAt_one hv d (hk d) (h0 d) (h1 d) J
      have e2 : ∀ y, g.spline.wAt d 0 (y + if per d = true then
          z d * (nodeAt c per fm.dims x (fun d => pointNum c (per d) (fm.dims d) - 1) d - nodeAt c per fm.dims x (fun _ => 0) d) else 0) J =
          g.spline.wAt d 0 y J := by
        intro y
        by_cases hp : per d = true
        · have := (hC.wf hv).wAt_periodic (hC.perKnots hv hp) (z d) y (q := 0) J (.inl (by rw [hC.order]; exact one_pos))
          rw [← this, if_pos hp, hC.period hv hp, hC.dims_eq d]
          unfold nodeAt unk
          simp only [hp, if_true]
        · rw [if_neg hp, add_zero]
      rw [e2]
      refine h.trans ?_
      rw [Fintype.sum_bool]
      simp only [if_true, if_false, Bool.false_eq_true]
      rw [add_comm]
      rfl
    rw [e, tensorVal_two]
    refine sum_congr rfl fun ε _ => ?_
    congr 1
    simp only
    rw [← hC.node_val hv hE (hI ε)]
    rfl

/-- **C64, no overshoot.**  With spline order 1 and scalar data between `lo` and `hi`, every value inside the data range (anywhere, in periodic
dimensions) is between `lo` and `hi`. -/
theorem order_one_bounds (c : Cfg) {per : Fin (D + 1) → Bool} {fm : Mesh (D + 1) K} {x : Fin (D + 1) → XRange K} (hm : fm.WF)
    (hv : ValidAxes c 1 per fm.dims x) {g : InterpFn (D + 1) K K} (hg : InterpFn.construct c 1 per fm x = .ok g) {lo hi : K}
    (hb : ∀ I v, fm.get I = .ok v → lo ≤ v ∧ v ≤ hi) {y : Fin (D + 1) → K}
    (hy : ∀ d, per d = true ∨ nodeAt c per fm.dims x (fun _ => 0) d ≤ y d ∧
      y d ≤ nodeAt c per fm.dims x (fun d => pointNum c (per d) (fm.dims d) - 1) d) :
    ∃ w, g.call y = .ok w ∧ lo ≤ w ∧ w ≤ hi := by
  have hcell : ∀ d, ∃ (k : ℕ) (θ : K) (z : ℤ), k + 1 < pointNum c (per d) (fm.dims d) ∧ 0 ≤ θ ∧ θ ≤ 1 ∧
      y d = (1 - θ) * (x d).node (pointNum c (per d) (fm.dims d)) k + θ * (x d).node (pointNum c (per d) (fm.dims d)) (k + 1) +
        if per d = true then z * ((x d).node (pointNum c (per d) (fm.dims d)) (pointNum c (per d) (fm.dims d) - 1) -
          (x d).node (pointNum c (per d) (fm.dims d)) 0) else 0 := by
    intro d
    set N := pointNum c (per d) (fm.dims d) with hN
    have hN2 : 2 ≤ N := (hv d).two
    have hinc : ∀ i, i + 1 < N → (x d).node N i < (x d).node N (i + 1) := fun i hi => (hv d).node_lt (Nat.lt_succ_self _) hi
    obtain ⟨z, hz⟩ : ∃ z : ℤ, (x d).node N 0 ≤ y d - (if per d = true then z * ((x d).node N (N - 1) - (x d).node N 0) else 0) ∧
        y d - (if per d = true then z * ((x d).node N (N - 1) - (x d).node N 0) else 0) ≤ (x d).node N (N - 1) := by
      rcases hy d with hp | hp
      · have hP : 0 < (x d).node N (N - 1) - (x d).node N 0 := sub_pos.2 ((hv d).node_lt (by omega) (by omega))
        refine ⟨⌊(y d - (x d).node N 0) / ((x d).node N (N - 1) - (x d).node N 0)⌋, ?_⟩
        simp only [hp, if_true]
        have a := Int.floor_le ((y d - (x d).node N 0) / ((x d).node N (N - 1) - (x d).node N 0))
        have b := (Int.lt_floor_add_one ((y d - (x d).node N 0) / ((x d).node N (N - 1) - (x d).node N 0))).le
        rw [le_div_iff₀ hP] at a
        rw [div_le_iff₀ hP] at b
        constructor <;> linarith
      · exact ⟨0, by simpa [nodeAt] using hp⟩
    obtain ⟨k, hk, h1, h2⟩ := exists_between (f := (x d).node N) hN2 hz.1 hz.2
    have hlt := sub_pos.2 (hinc k hk)
    set w := y d - (if per d = true then z * ((x d).node N (N - 1) - (x d).node N 0) else 0) with hw
    refine ⟨k, (w - (x d).node N k) / ((x d).node N (k + 1) - (x d).node N k), z, hk, div_nonneg (by linarith) hlt.le, ?_, ?_⟩
    · rw [div_le_one hlt]; linarith
    · have : y d = w + (if per d = true then z * ((x d).node N (N - 1) - (x d).node N 0) else 0) := by rw [hw]; ring
      rw [this]
      congr 1
      field_simp
      ring
  choose k θ z hk h0 h1 hy' using hcell
  obtain ⟨v, hv1, hv2⟩ := order_one_multilinear c hm hv hg k hk θ (fun d => .inl (h0 d)) (fun d => .inl (h1 d)) z
  have hyy : y = _ := funext hy'
  refine ⟨_, (congrArg g.call hyy).trans hv2, ?_⟩
  have hsum : ∑ ε : Fin (D + 1) → Bool, (∏ d, if ε d then θ d else 1 - θ d) = 1 := by
    have := (Finset.prod_univ_sum (fun _ : Fin (D + 1) => (univ : Finset Bool)) fun d e => if e then θ d else 1 - θ d).symm
    rw [Fintype.piFinset_univ] at this
    rw [this]
    exact prod_eq_one fun d _ => by simp
  have hnn : ∀ ε : Fin (D + 1) → Bool, 0 ≤ ∏ d, if ε d then θ d else 1 - θ d := fun ε =>
    prod_nonneg fun d _ => by split; exacts [h0 d, sub_nonneg.2 (h1 d)]
  have hbv : ∀ ε, lo ≤ v ε ∧ v ε ≤ hi := fun ε => hb _ _ (hv1 ε)
  simp only [smul_eq_mul]
  constructor
  · calc lo = ∑ ε : Fin (D + 1) → Bool, (∏ d, if ε d then θ d else 1 - θ d) * lo := by rw [← sum_mul, hsum, one_mul]
      _ ≤ _ := sum_le_sum fun ε _ => mul_le_mul_of_nonneg_left (hbv ε).1 (hnn ε)
  · calc _ ≤ ∑ ε : Fin (D + 1) → Bool, (∏ d, if ε d then θ d else 1 - θ d) * hi := sum_le_sum fun ε _ => mul_le_mul_of_nonneg_left (hbv ε).2 (hnn ε)
      _ = hi := by rw [← sum_mul, hsum, one_mul]

/-- **C64, existence.**  Construction of order 1 succeeds for all valid axes and all data. -/
theorem order_one_succeeds (c : Cfg) {per : Fin (D + 1) → Bool} {fm : Mesh (D + 1) V} {x : Fin (D + 1) → XRange K} (hm : fm.WF)
    (hv : ValidAxes c 1 per fm.dims x) : ∃ g, InterpFn.construct c 1 per fm x = .ok g :=
  periodic_construct_ok_partial c hm hv fun _ _ => .inr (by norm_num)

namespace InterpExample

/-- `order_one_multilinear` applies to the 5 × 5 example (uneven coordinates; periodic dimension): the cell (2, 3), one quarter along both sides and
three periods away. -/
example {g : InterpFn 2 ℚ ℚ} (hg : InterpFn.construct cfg 1 per data x = .ok g) :
    ∃ v : (Fin 2 → Bool) → ℚ, (∀ ε, data.get (fun d => if per d = true ∧ ![2, 3] d + (if ε d then 1 else 0) + 1 = pointNum cfg (per d) 5 then 0
        else ![2, 3] d + if ε d then 1 else 0) = .ok (v ε)) ∧
      g.call (fun d => (1 - 1 / 4) * nodeAt cfg per data.dims x ![2, 3] d + 1 / 4 * nodeAt cfg per data.dims x (fun d => ![2, 3] d + 1) d +
        if per d = true then
          (3 : ℤ) * (nodeAt cfg per data.dims x (fun d => pointNum cfg (per d) (data.dims d) - 1) d - nodeAt cfg per data.dims x (fun _ => 0) d) else 0) =
        .ok (∑ ε : Fin 2 → Bool, (∏ d, if ε d then (1 / 4 : ℚ) else 1 - 1 / 4) • v ε) :=
  order_one_multilinear cfg (fm := data) rfl (valid 1 le_rfl (by norm_num)) hg ![2, 3] (fun d => by fin_cases d <;> decide) (fun _ => 1 / 4)
    (fun _ => .inl (by norm_num)) (fun _ => .inl (by norm_num)) fun _ => 3

/-- The values: data 1, 4 and 1, 1 at the corners of that cell (`7` and `-2` after the fold), and a point before the first data point. -/
example : (do
    let g ← InterpFn.construct cfg 1 per data x
    let u ← g.call ![13 / 4, 13 / 4 + 12]
    let w ← g.call ![-1, 2]
    pure (u, w) : M (ℚ × ℚ)) = .ok (3 / 4 * (3 / 4 * 4 + 1 / 4 * 7) + 1 / 4 * (3 / 4 * 1 + 1 / 4 * -2), 2 * -1 - 1 * 2) := by decide +kernel

/-- `order_one_bounds`: the data lie between -2 and 7. -/
example {g : InterpFn 2 ℚ ℚ} (hg : InterpFn.construct cfg 1 per data x = .ok g) {y : Fin 2 → ℚ} (h0 : 0 ≤ y 0) (h1 : y 0 ≤ 6) :
    ∃ w, g.call y = .ok w ∧ -2 ≤ w ∧ w ≤ 7 := by
  refine order_one_bounds cfg (fm := data) rfl (valid 1 le_rfl (by norm_num)) hg (fun I v h => ?_) fun d => ?_
  · have hmem : v ∈ data.storage := by
      unfold Mesh.get rd at h
      split at h
      · rename_i w hw
        injection h with h
        exact h ▸ List.mem_of_getElem? hw
      · cases h
    have hall : ∀ v ∈ data.storage, -2 ≤ v ∧ v ≤ 7 := by decide +kernel
    exact hall v hmem
  · fin_cases d
    · exact .inr ⟨h0, h1⟩
    · exact .inl rfl

/-- Cubic splines do overshoot: data between 0 and 1, a value above 1. -/
example : (do
    let g ← InterpFn.construct (K := ℚ) (D := 0) cfg 3 (fun _ => false) ⟨fun _ => 6, [0, 0, 1, 1, 0, (0 : ℚ)]⟩ (fun _ => .uniform 0 5)
    let v ← g.call fun _ => 5 / 2
    pure (decide (1 < v))) = .ok true := by decide +kernel

end InterpExample

end Intp
