import Verif.Proofs.FieldEmbed
import Verif.Proofs.Matlab
import Mathlib.Analysis.Real.Pi.Bounds
import Verif.Props.Approx
import Verif.Props.RoundPerNear

/-!
# C103, C104: exact arithmetic in different fields; distance of the function computed in `double` from the function that was sampled
-/

namespace Intp

open Finset BSpline

/-! ## C103 -/

section
variable {K K' V V' : Type} [Field K] [LinearOrder K] [IsStrictOrderedRing K] [FloorRing K] [AddCommGroup V] [Module K V]
  [Field K'] [LinearOrder K'] [IsStrictOrderedRing K'] [FloorRing K'] [AddCommGroup V'] [Module K' V'] {D : ℕ}

/-- **C103.**  `φ` embeds the coordinates in a larger ordered field, `ψ` maps the values.  Construction, evaluation, derivatives and the bounds check commute with
the maps, failures included: what exact arithmetic gives does not depend on the field in which the input is read. -/
theorem exact_field {φ : K →+* K'} (hφ : StrictMono φ) (ψ : V →ₛₗ[φ] V') (c : Cfg) (o : ℕ) (per : Fin (D + 1) → Bool) (fm : Mesh (D + 1) V)
    (x : Fin (D + 1) → XRange K) :
    InterpFn.construct c o per (fm.mapV ψ) (fun d => (x d).mapK φ) = (InterpFn.construct c o per fm x).map (InterpFn.mapKV φ ψ) ∧
    ∀ (f : InterpFn (D + 1) K V) (y : Fin (D + 1) → K) (m : Fin (D + 1) → ℕ),
      (f.mapKV φ ψ).call (fun d => φ (y d)) = (f.call y).map ψ ∧ (f.mapKV φ ψ).at' (fun d => φ (y d)) = (f.at' y).map ψ ∧
      (f.mapKV φ ψ).derivative c (fun d => φ (y d)) m = (f.derivative c y m).map ψ ∧
      (f.mapKV φ ψ).derivativeAt c (fun d => φ (y d)) m = (f.derivativeAt c y m).map ψ := by
  have kr := embed_kRel hφ
  have vr := embed_vRel ψ
  refine ⟨?_, fun f y m => ?_⟩
  · rw [← Fl.tie_construct, ← Fl.tie_construct]
    exact relM_graph.1 (RelM.map (@Fl.construct_param K K' V V' (exactCoord K) (exactVal V) (exactScale K V) (exactCoord K') (exactVal V') (exactScale K' V')
      _ _ _ _ kr vr _ (fun _ => trivial) false c o per _ _ (rmesh_graph.2 rfl) _ _ fun d => rx_graph.2 rfl) fun f f' hf => rfn_graph.1 hf)
  · have hf : RFn (Graph φ) (Graph ψ) f (f.mapKV φ ψ) := rfn_graph.2 rfl
    have hy : ∀ d, Graph φ (y d) (φ (y d)) := fun _ => rfl
    letI := exactCoord K
    letI := exactCoord K'
    letI := exactVal V
    letI := exactVal V'
    letI := exactScale K V
    letI := exactScale K' V'
    refine ⟨?_, ?_, ?_, ?_⟩
    · rw [← Fl.tie_call, ← Fl.tie_call]
      exact relM_graph.1 (Fl.call_param kr vr hf .all hy)
    · rw [← Fl.tie_at', ← Fl.tie_at']
      exact relM_graph.1 (Fl.at'_param kr vr hf .all hy)
    · rw [← Fl.tie_derivative, ← Fl.tie_derivative]
      exact relM_graph.1 (Fl.derivative_param kr vr c hf .all hy m)
    · rw [← Fl.tie_derivativeAt, ← Fl.tie_derivativeAt]
      exact relM_graph.1 (Fl.derivativeAt_param kr vr c hf .all hy m)

end

/-! ## C104 -/

/-- The real coordinates of an axis of doubles. -/
noncomputable def XRange.real (x : XRange F64) : XRange ℝ := x.rat.mapK (Rat.castHom ℝ)

/-- Rational numbers as real values. -/
noncomputable def ratReal : ℚ →ₛₗ[Rat.castHom ℝ] ℝ where
  toFun q := q
  map_add' := Rat.cast_add
  map_smul' a b := by simp

/-- **C104.**  `f` is a real function of several variables, periodic in the periodic dimensions, whose derivatives of order `o + 1` along each dimension `d` exist, are
continuous and bounded by `M d`; neighbouring data points are at most `H d` apart.  The data are doubles within `η` of the values of `f` at the data points.  Then
the constructor succeeds in `double`, and at every point the computed value differs from the value of `f` by at most the approximation error, the errors of the data
times `stab o ^ D`, and `R`, the bound of the rounding errors of C102. -/
theorem double_accuracy_low {D : ℕ} (w : Bool) (c : Cfg) {o : ℕ} (ho : 1 ≤ o) {per : Fin (D + 1) → Bool} {fm : Mesh (D + 1) F64} (hfm : fm.WF)
    {x : Fin (D + 1) → XRange F64} {K : ℕ} {Q : Fin (D + 1) → ℚ → Prop} {ρ : ℚ} (hx : ∀ d, NearDim c o (fm.dims d) K (per d) (x d) (Q d) ρ)
    (hlow : ∀ d, LowDim o (per d) (x d)) {ν : ℚ} (hν : ν = if o ≤ 3 then 20 else 100)
    {F : ℚ} (hF : ∀ v ∈ fm.storage, ∃ q, v = .fin q ∧ |q| ≤ F) (hF0 : 1 / 2 ^ 800 ≤ F) (hF1 : ν ^ (D + 1) * F ≤ 2 ^ 900)
    {L : ℕ} (hL : ∀ d, (if per d then fm.dims d else o) ≤ L) {E : ℚ} (hE : E = (D + 1) * (L * (12 * ν + 9) + o * (7 + 256 * ρ))) (hE1 : E ≤ 2 ^ 43)
    {k : ℕ} (hk : k = (D + 1) * (5 * o + 1) + 1 + (o + 1) ^ (D + 1)) (hk1 : k ≤ 2 ^ 50)
    {R : ℚ} (hR : R = (3 * k + 512 * ((D + 1) * ((K + 1) * (o * ρ))) + stab o ^ (D + 1) * (2 * E)) / 2 ^ 53 * (ν ^ (D + 1) * F) + (1 + stab o ^ (D + 1)) / 2 ^ 101)
    {H M : Fin (D + 1) → ℝ} (hH : ∀ d, (x d).real.Gap (pointNum c (per d) (fm.dims d)) (H d)) {f : (Fin (D + 1) → ℝ) → ℝ}
    (hs : ∀ d z, (∀ e, z e ∈ (x e).real.dom (pointNum c (per e) (fm.dims e)) (per e)) →
      ContDiffOn ℝ (o + 1 : ℕ) (fun t => f (Function.update z d t)) ((x d).real.dom (pointNum c (per d) (fm.dims d)) (per d)) ∧
      ∀ t ∈ (x d).real.dom (pointNum c (per d) (fm.dims d)) (per d),
        |iteratedDerivWithin (o + 1) (fun t => f (Function.update z d t)) ((x d).real.dom (pointNum c (per d) (fm.dims d)) (per d)) t| ≤ M d)
    (hp : ∀ d z t, per d = true → f (Function.update z d (t + ((x d).real.node (pointNum c (per d) (fm.dims d)) (pointNum c (per d) (fm.dims d) - 1) -
      (x d).real.node (pointNum c (per d) (fm.dims d)) 0))) = f (Function.update z d t))
    {η : ℝ} (hη : ∀ I, InRange fm.dims I → ∃ q : ℚ, fm.get I = .ok (.fin q) ∧ |(q : ℝ) - f (nodeAt c per fm.dims (fun d => (x d).real) I)| ≤ η) :
    ∃ g, Fl.construct w c o per fm x = .ok g ∧
      ∀ y : Fin (D + 1) → ℚ, (∀ d, Q d (y d)) →
        ∃ v : ℚ, Fl.call g (fun d => .fin (y d)) = .ok (.fin v) ∧
          |(v : ℝ) - f (fun d => y d)| ≤
            ∑ d : Fin (D + 1), (stab o : ℝ) ^ (d : ℕ) * ((1 + stab o) * (M d / (o + 1).factorial * ((2 * (o : ℝ) - 1) * H d) ^ (o + 1))) +
            (stab o : ℝ) ^ (D + 1) * η + R := by
  obtain ⟨g, gx, hg, hgx, h⟩ := double_near_periodic_low w c ho hfm hx hlow hν hF hF0 hF1 hL hE hE1 hk hk1
  refine ⟨g, hg, fun y hy => ?_⟩
  obtain ⟨v, q, h1, h2, h3⟩ := h y hy
  refine ⟨v, h1, ?_⟩
  rw [← hR] at h3
  clear hF0 hF1 hF hR
  have hφ : StrictMono (Rat.castHom ℝ) := fun a b hab => by simpa using hab
  obtain ⟨e1, e2⟩ := exact_field hφ ratReal c o per fm.rat (fun d => (x d).rat)
  rw [hgx] at e1
  have e3 := (e2 gx y (fun _ => 0)).1
  rw [h2] at e3
  have hv : ValidAxes c o per fm.dims fun d => (x d).real := fun d => ((hx d).valid ho).1.mapK hφ
  have hl : ∀ d, ((x d).real).Low o (per d) := fun d => ((hx d).low ho (hlow d)).mapK _
  have hyd : ∀ d, ((y d : ℚ) : ℝ) ∈ (x d).real.dom (pointNum c (per d) (fm.dims d)) (per d) := fun d hpd => by
    obtain ⟨h4, h5⟩ := (((hx d).valid ho).2 _ (hy d)).2 hpd
    unfold XRange.real
    rw [XRange.node_mapK, XRange.node_mapK]
    exact ⟨hφ.monotone h4, hφ.monotone h5⟩
  -- the samples themselves
  obtain ⟨fs, hfs⟩ := Mesh.exists_of_fun fm.dims fun I => f (nodeAt c per fm.dims (fun d => (x d).real) I)
  have hd : fs.dims = fm.dims := hfs.1
  obtain ⟨gs, hgs, hconv⟩ := interpolation_converges c (o := o) (per := per) (fm := fs) (x := fun d => (x d).real) hfs.2.1 (by rw [hd]; exact hv) hl
    (H := H) (M := M) (by rw [hd]; exact hH) (f := f) (by rw [hd]; exact hs) (by rw [hd]; exact hp) (by rw [hd]; exact fun I hI => hfs.get hI)
  rw [hd] at hconv
  obtain ⟨s, h4, h5⟩ := hconv (fun d => ((y d : ℚ) : ℝ)) hyd
  have hwf : (fm.rat.mapV ratReal).WF := by
    unfold Mesh.WF Mesh.mapV Mesh.rat
    rw [List.length_map, List.length_map]
    exact hfm
  obtain ⟨v₁, v₂, h6, h7, h8⟩ := interpolation_stable c (o := o) (per := per) (f₁ := fm.rat.mapV ratReal) (f₂ := fs) (x := fun d => (x d).real) hwf hfs.2.1 hd hv hl
    (g₁ := gx.mapKV (Rat.castHom ℝ) ratReal) (g₂ := gs) e1 hgs (ε := η) (fun I v₁ v₂ hI h9 h10 => by
      obtain ⟨r, h11, h12⟩ := hη I hI
      have h13 := hfs.get hI
      rw [h10] at h13
      injection h13 with h13
      have h14 : (fm.rat.mapV ratReal).get I = .ok (r : ℝ) := by
        unfold Mesh.get rd at h11 ⊢
        simp only [Mesh.mapV, Mesh.rat, List.getElem?_map]
        cases h15 : fm.storage[indexing fm.dims I]? with
        | none => rw [h15] at h11; simp at h11
        | some a =>
          rw [h15] at h11
          injection h11 with h11
          rw [h11]
          rfl
      rw [h9] at h14
      injection h14 with h14
      rw [h14, h13]
      exact h12) hyd
  have h16 : v₁ = (q : ℝ) := by
    have : (gx.mapKV (Rat.castHom ℝ) ratReal).call (fun d => ((y d : ℚ) : ℝ)) = .ok (q : ℝ) := e3
    rw [h6] at this
    injection this
  have h17 : v₂ = s := by rw [h7] at h4; injection h4
  rw [h16, h17] at h8
  have h18 : |(v : ℝ) - q| ≤ R := by exact_mod_cast h3
  rw [abs_le] at *
  constructor <;> linarith [h5.1, h5.2, h8.1, h8.2, h18.1, h18.2]

/-! ## A case: 1025 samples of `sin (2 π t)` over `[0, 1]` (the last repeats the first), rounded to 50 bits or better, periodic cubic interpolation: the computed
values are within `10^-6` of the sine at every double within 10 periods, if it is not within `2^-40` of an integer -/

namespace RoundTrueExample

open RoundPerSmallExample (cfg zero_double)

theorem near (d : Fin 1) : NearDim cfg 3 1025 10 true (.uniform (.fin 0) (.fin 1)) (PerPt 3 10 0 1 1 (1 / 1024)) 1024 := by
  refine NearDim.per (B := 1) (H := 1 / 1024) (by decide) ?_ (by norm_num) (by decide +kernel) (by norm_num)
  exact ⟨by decide, by decide, zero_double, isDouble_of_round (show F64.round 1 = .fin 1 by decide +kernel), by norm_num,
    by norm_num, by decide +kernel, by show (1 / 1024 : ℚ) * ((1025 : ℕ) - 1) = 1 - 0; norm_num, by norm_num, by decide +kernel⟩

theorem real_node (i : ℕ) : (XRange.uniform (F64.fin 0) (.fin 1)).real.node 1025 i = i / 1024 := by
  simp only [XRange.real, XRange.rat, XRange.mapK, XRange.node, F64.toRat]
  norm_num
  ring

theorem fourth (t : ℝ) : |iteratedDeriv 4 (fun t => Real.sin (2 * Real.pi * t)) t| ≤ 1576 := by
  have h := congrFun (iteratedDeriv_comp_const_mul (n := 4) (f := Real.sin) Real.contDiff_sin (2 * Real.pi)) t
  rw [h, iteratedDeriv_succ, iteratedDeriv_succ, iteratedDeriv_succ, iteratedDeriv_succ, iteratedDeriv_zero]
  simp only [Real.deriv_sin, Real.deriv_cos', deriv.fun_neg', neg_neg, abs_mul]
  have h1 : |2 * Real.pi| ^ 4 ≤ 1576 := by
    rw [abs_of_pos (by positivity)]
    have : 2 * Real.pi ≤ 6.3 := by linarith [Real.pi_lt_d2]
    calc (2 * Real.pi) ^ 4 ≤ 6.3 ^ 4 := pow_le_pow_left₀ (by positivity) this 4
      _ ≤ 1576 := by norm_num
  have h2 := Real.abs_sin_le_one (2 * Real.pi * t)
  have h3 := abs_nonneg (Real.sin (2 * Real.pi * t))
  rw [abs_pow]
  nlinarith

/-- There are such data: the samples rounded down to multiples of `2^-50`. -/
theorem exists_data : ∃ data : Mesh 1 F64, data.dims = (fun _ => 1025) ∧ data.WF ∧
    ∀ i < 1025, ∃ q : ℚ, IsDouble q ∧ data.get (fun _ => i) = .ok (.fin q) ∧ |(q : ℝ) - Real.sin (2 * Real.pi * (i / 1024))| ≤ 1 / 2 ^ 50 := by
  obtain ⟨m, hm⟩ := Mesh.exists_of_fun (fun _ : Fin 1 => 1025) fun I => F64.fin ((⌊Real.sin (2 * Real.pi * ((I 0 : ℕ) / 1024)) * 2 ^ 50⌋ : ℤ) * (2 : ℚ) ^ (-50 : ℤ))
  refine ⟨m, hm.1, hm.2.1, fun i hi => ⟨_, ?_, hm.get (fun _ => hi), ?_⟩⟩
  · refine ⟨_, -50, ?_, by norm_num, by norm_num, rfl⟩
    have h := abs_le.1 (Real.abs_sin_le_one (2 * Real.pi * ((i : ℕ) / 1024)))
    have h1 : (-2 ^ 50 : ℤ) ≤ ⌊Real.sin (2 * Real.pi * ((i : ℕ) / 1024)) * 2 ^ 50⌋ := by
      rw [Int.le_floor]
      push_cast
      linarith [h.1]
    have h2 : ⌊Real.sin (2 * Real.pi * ((i : ℕ) / 1024)) * 2 ^ 50⌋ ≤ (2 ^ 50 : ℤ) := by
      have := Int.floor_le (Real.sin (2 * Real.pi * ((i : ℕ) / 1024)) * 2 ^ 50)
      have h3 : ((⌊Real.sin (2 * Real.pi * ((i : ℕ) / 1024)) * 2 ^ 50⌋ : ℤ) : ℝ) ≤ ((2 ^ 50 : ℤ) : ℝ) := by
        push_cast
        linarith [h.2]
      exact_mod_cast h3
    rw [abs_lt]
    constructor <;> linarith
  · have h1 := Int.floor_le (Real.sin (2 * Real.pi * ((i : ℕ) / 1024)) * 2 ^ 50)
    have h2 := Int.lt_floor_add_one (Real.sin (2 * Real.pi * ((i : ℕ) / 1024)) * 2 ^ 50)
    push_cast
    rw [show ((2 : ℝ) ^ (-50 : ℤ)) = 1 / 2 ^ 50 by norm_num, abs_le]
    constructor <;> linarith

example (w : Bool) (data : Mesh 1 F64) (hd : data.dims = fun _ => 1025) (hw : data.WF)
    (h1 : ∀ i < 1025, ∃ q : ℚ, data.get (fun _ => i) = .ok (.fin q) ∧ |(q : ℝ) - Real.sin (2 * Real.pi * (i / 1024))| ≤ 1 / 2 ^ 50) :
    ∃ g, Fl.construct w cfg 3 (fun _ => true) data (fun _ => .uniform (F64.fin 0) (.fin 1)) = .ok g ∧
      ∀ (k : ℤ) (a : ℚ), |k| ≤ 10 → IsDouble a → 1 / 2 ^ 40 ≤ a - k → a - k ≤ 1 - 1 / 2 ^ 40 →
        ∃ v : ℚ, Fl.call g (fun _ => F64.fin a) = .ok (.fin v) ∧ |(v : ℝ) - Real.sin (2 * Real.pi * a)| ≤ 1 / 10 ^ 6 := by
  have hN : ∀ d : Fin 1, pointNum cfg true (data.dims d) = 1025 := fun d => by rw [hd]; rfl
  have hup : ∀ (z : Fin 1 → ℝ) (d : Fin 1) t, Function.update z d t 0 = t := fun z d t => by rw [Subsingleton.elim d 0]; exact Function.update_self ..
  have hdom : (XRange.uniform (F64.fin 0) (.fin 1)).real.dom 1025 true = Set.univ := Set.eq_univ_of_forall fun z hz => by simp at hz
  have hst : ∀ v ∈ data.storage, ∃ q, v = .fin q ∧ |q| ≤ 2 := fun v hv => by
    obtain ⟨i, hi, rfl⟩ := List.getElem_of_mem hv
    have hi' : i < 1025 := by
      have := hw
      unfold Mesh.WF at this
      rw [hd] at this
      simp at this
      omega
    obtain ⟨q, h2, h3⟩ := h1 i hi'
    refine ⟨q, ?_, ?_⟩
    · have e : indexing data.dims (fun _ : Fin 1 => i) = i := by
        rw [indexing_succ, indexing_zero]
        simp
      rw [Mesh.get, e, rd, List.getElem?_eq_getElem hi] at h2
      injection h2
    · have h4 := Real.abs_sin_le_one (2 * Real.pi * (i / 1024))
      have h5 : |(q : ℝ)| ≤ 2 := by
        rw [abs_le] at *
        norm_num at h3
        constructor <;> linarith [h3.1, h3.2, h4.1, h4.2]
      exact_mod_cast h5
  obtain ⟨g, hg, h⟩ := double_accuracy_low w cfg (o := 3) (by omega) (per := fun _ => true) (fm := data) hw (x := fun _ => .uniform (.fin 0) (.fin 1)) (K := 10)
    (Q := fun _ => PerPt 3 10 0 1 1 (1 / 1024)) (ρ := 1024) (fun d => by rw [hd]; exact near d) (fun _ => by show (3 : ℕ) ≤ 6; omega) (ν := 20) rfl
    (F := 2) hst (by decide +kernel) (by decide +kernel) (L := 1025) (fun d => by rw [hd]; exact le_rfl) rfl (by norm_num) rfl (by norm_num) rfl
    (H := fun _ => 1 / 1024) (M := fun _ => 1576) (f := fun z => Real.sin (2 * Real.pi * z 0))
    (fun d => by
      rw [hN]
      intro i _
      rw [real_node, real_node]
      push_cast
      apply le_of_eq
      ring)
    (fun d z _ => by
      rw [hN, hdom]
      simp only [hup, iteratedDerivWithin_univ]
      exact ⟨(Real.contDiff_sin.comp (contDiff_const.mul contDiff_id)).contDiffOn, fun t _ => fourth t⟩)
    (fun d z t _ => by
      rw [hN, real_node, real_node]
      simp only [hup]
      rw [← Real.sin_add_two_pi (2 * Real.pi * t)]
      congr 1
      norm_num
      ring)
    (η := 1 / 2 ^ 50)
    (fun I hI => by
      obtain ⟨q, h2, h3⟩ := h1 (I 0) (by have := hI 0; rwa [hd] at this)
      refine ⟨q, ?_, ?_⟩
      · rw [show I = fun _ => I 0 from funext fun (d : Fin 1) => by rw [Subsingleton.elim d 0]]
        exact h2
      · simp only [nodeAt]
        rw [hN, real_node]
        exact h3)
  refine ⟨g, hg, fun k a hk ha a0 a1 => ?_⟩
  obtain ⟨v, h2, h3⟩ := h (fun _ => a) (fun _ => by
    refine ⟨ha, k, by exact_mod_cast hk, .inr ?_, ?_⟩
    · show (0 : ℚ) - ((1 - 3 % 2 : ℕ) : ℚ) / 2 * (1 / 1024) + 64 * (((10 : ℕ) + 1) * 1 / 2 ^ 53) ≤ a - k * (1 - 0)
      norm_num at a0 ⊢
      linarith
    · show a - k * (1 - 0) + 64 * (((10 : ℕ) + 1) * 1 / 2 ^ 53) ≤ 1 - ((1 - 3 % 2 : ℕ) : ℚ) / 2 * (1 / 1024)
      norm_num at a1 ⊢
      linarith)
  refine ⟨v, h2, h3.trans ?_⟩
  norm_num [stab, Nat.factorial]

end RoundTrueExample

end Intp
