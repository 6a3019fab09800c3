import Verif.Proofs.DerivInterp
import Verif.Props.Approx
import Verif.Proofs.Matlab

/-!
# Property of derivatives of interpolations as approximations: order of convergence (C105)
-/

namespace Intp

open Finset BSpline

variable {D : ℕ}

/-- **C105, derivatives converge.**  Let `f` be a function of several real variables, periodic in the periodic dimensions, and `m` orders of derivatives,
each at most the order of the interpolation.  For every dimension `d`, let the mixed derivative of `f` of orders `m` along the dimensions after `d` have `o + 1`
continuous derivatives along `d`, the last of size at most `M d`.  For dimensions of low order whose neighbouring data points are at least `h d` and at most
`H d` apart, the interpolation of the values of `f` exists, and its mixed derivative of orders `m` differs from that of `f` by at most
a multiple of `M d (H d) ^ (o + 1)` divided by `(h e) ^ m e` for the dimensions `e` up to `d`, summed over `d`. -/
theorem derivative_converges (c c' : Cfg) {o : ℕ} {per : Fin (D + 1) → Bool} {fm : Mesh (D + 1) ℝ} {x : Fin (D + 1) → XRange ℝ} (hm : fm.WF)
    (hv : ValidAxes c o per fm.dims x) (hl : ∀ d, (x d).Low o (per d)) {H h M : Fin (D + 1) → ℝ} (hH : ∀ d, (x d).Gap (pointNum c (per d) (fm.dims d)) (H d))
    (h0 : ∀ d, 0 < h d) (hh : ∀ d, (x d).MinGap (pointNum c (per d) (fm.dims d)) (h d)) {S : Fin (D + 1) → Set ℝ}
    (hS : ∀ d, S d = (x d).dom (pointNum c (per d) (fm.dims d)) (per d)) {m : Fin (D + 1) → ℕ} (hmo : ∀ d, m d ≤ o) {f : (Fin (D + 1) → ℝ) → ℝ}
    (hs : ∀ d z, (∀ e, z e ∈ S e) → ContDiffOn ℝ (o + 1 : ℕ) (fun t => mixedDeriv S (after m d) f (Function.update z d t)) (S d) ∧
      ∀ t ∈ S d, |iteratedDerivWithin (o + 1) (fun t => mixedDeriv S (after m d) f (Function.update z d t)) (S d) t| ≤ M d)
    (hp : ∀ d z t, per d = true → f (Function.update z d (t + ((x d).node (pointNum c (per d) (fm.dims d)) (pointNum c (per d) (fm.dims d) - 1) -
      (x d).node (pointNum c (per d) (fm.dims d)) 0))) = f (Function.update z d t))
    (hf : ∀ I, InRange fm.dims I → fm.get I = .ok (f (nodeAt c per fm.dims x I))) :
    ∃ g, InterpFn.construct c o per fm x = .ok g ∧ ∀ y, (∀ d, y d ∈ S d) →
      ∃ v, g.derivative c' y m = .ok v ∧
        |mixedDeriv S m f y - v| ≤ ∑ d : Fin (D + 1), (∏ e ∈ univ.filter (· < d), (2 * (o : ℝ) / h e) ^ m e * stab o) *
          ((2 * (o : ℝ) / h d) ^ m d * ((1 + stab o) * (M d / (o + 1).factorial * ((2 * (o : ℝ) - 1) * H d) ^ (o + 1)))) := by
  obtain ⟨g, hg⟩ := periodic_construct_ok_partial c hm hv (fun d hp => by
    rcases hl d with h | ⟨h, -⟩
    · right; omega
    · left; exact h)
  refine ⟨g, hg, fun y hy => ?_⟩
  obtain ⟨F, hF⟩ := fm.exists_holds hm
  obtain ⟨-, C, hC, hE⟩ := (InterpFn.construct_spec (c := c) hv rfl hF).get hg
  refine ⟨_, hC.derivative hv y m, ?_⟩
  have ho : 1 ≤ o := by
    rcases hl 0 with h | ⟨-, h⟩ <;> omega
  exact hC.approxD hv hE ho (μ := fun _ => (stab o : ℝ)) (fun d => (hv d).lowInv (hl d)) hH h0 hh hS hmo hs hp (fun I hI => by
    have hin : InRange fm.dims I := fun d => by
      have h1 := hI d
      have := hv.dims_eq d
      unfold nOf at *
      omega
    have h1 := hf I hin
    rw [hF.get hin] at h1
    injection h1 with h1) hy

/-- **C105, one dimension.**  A function `f` on `[a, b]` with `o + 1` continuous derivatives, the last of size at most `M`, sampled at `N` equally spaced
points: for every `m` up to the order, the distance of the `m`-th derivative of the interpolation from that of `f` is at most a constant times
`M ((b - a) / (N - 1)) ^ (o + 1 - m)`. -/
theorem uniform_derivative_rate (c c' : Cfg) {o : ℕ} {per : Bool} {a b : ℝ} (hl : (XRange.uniform a b).Low o per) (hab : a < b) {fm : Mesh 1 ℝ} (hm : fm.WF) {N : ℕ}
    (hN : N = pointNum c per (fm.dims 0)) (hNp : per = true → 2 * (o / 2) + 2 ≤ N) (hNa : per = false → o + 1 ≤ N) {f : ℝ → ℝ} {M : ℝ} {S : Set ℝ}
    (hS : S = {t | per = false → a ≤ t ∧ t ≤ b}) (hs : ContDiffOn ℝ (o + 1 : ℕ) f S) (hM : ∀ t ∈ S, |iteratedDerivWithin (o + 1) f S t| ≤ M)
    (hp : per = true → ∀ t, f (t + (b - a)) = f t) (hf : ∀ i < fm.dims 0, fm.get (fun _ => i) = .ok (f (a + i * ((b - a) / ((N : ℝ) - 1))))) :
    ∃ g, InterpFn.construct c o (fun _ => per) fm (fun _ => .uniform a b) = .ok g ∧ ∀ m ≤ o, ∀ y ∈ S, ∃ v, g.derivative c' (fun _ => y) (fun _ => m) = .ok v ∧
      |iteratedDerivWithin m f S y - v| ≤
        (2 * (o : ℝ)) ^ m * ((1 + stab o) * (M / (o + 1).factorial * (2 * (o : ℝ) - 1) ^ (o + 1))) * ((b - a) / ((N : ℝ) - 1)) ^ (o + 1 - m) := by
  have ho : 1 ≤ o := by rcases hl with h | ⟨-, h⟩ <;> omega
  have h2 : 2 ≤ N := by cases per <;> simp at hNp hNa <;> omega
  have hdim : ∀ d : Fin 1, fm.dims d = fm.dims 0 := fun d => by rw [Subsingleton.elim d 0]
  have hv : ValidAxes c o (fun _ => per) fm.dims (fun _ => XRange.uniform a b) := fun d => by
    rw [hdim d, ← hN]
    exact ⟨hNp, fun h => ⟨hNa h, h2⟩, fun _ _ h => by injection h with h h'; rw [← h, ← h']; exact hab, fun _ h => by simp at h⟩
  obtain ⟨hdom, hlen⟩ := dom_uniform (a := a) (b := b) (per := per) h2
  rw [← hS] at hdom
  have hup : ∀ (z : Fin 1 → ℝ) (d : Fin 1) t, Function.update z d t 0 = t := fun z d t => by rw [Subsingleton.elim d 0]; exact Function.update_self ..
  have hh0 : 0 < (b - a) / ((N : ℝ) - 1) := by
    have : (2 : ℝ) ≤ N := by exact_mod_cast h2
    exact div_pos (by linarith) (by linarith)
  set η := (b - a) / ((N : ℝ) - 1) with hη
  have hnode : ∀ i, (XRange.uniform a b).node N (i + 1) - (XRange.uniform a b).node N i = η := fun i => by
    simp only [XRange.node]
    push_cast
    rw [hη]
    ring
  have hmd : ∀ (m : ℕ) (y : Fin 1 → ℝ), mixedDeriv (fun _ => S) (fun _ : Fin 1 => m) (fun z => f (z 0)) y = iteratedDerivWithin m f S (y 0) := fun m y => by
    rw [mixedDeriv]
    rfl
  have hda : ∀ (m : ℕ) (d : Fin 1), after (fun _ : Fin 1 => m) d = fun _ => 0 := fun m d => by
    funext e
    rw [Subsingleton.elim e d, after_self]
  have key := fun (m : ℕ) (hmo : m ≤ o) => derivative_converges c c' hm hv (fun _ => hl) (H := fun _ => η) (h := fun _ => η) (M := fun _ => M) (S := fun _ => S) (m := fun _ => m)
    (f := fun z => f (z 0))
    (fun d => by
      rw [hdim d, ← hN]
      exact fun i _ => (hnode i).le) (fun _ => hh0)
    (fun d => by
      rw [hdim d, ← hN]
      exact fun i _ => (hnode i).ge)
    (fun d => by rw [hdim d, ← hN, hdom]) (fun _ => hmo)
    (fun d z _ => by
      rw [hda]
      simp only [hmd, iteratedDerivWithin_zero, hup]
      exact ⟨hs, hM⟩)
    (fun d z t h => by
      rw [hdim d, ← hN, hlen]
      simp only [hup]
      exact hp h t)
    (fun I hI => by
      have : I = fun _ => I 0 := funext fun (d : Fin 1) => by rw [Subsingleton.elim d 0]
      rw [this, hf (I 0) (hI 0)]
      simp only [nodeAt, XRange.node]
      rw [← hN])
  obtain ⟨g, hg, -⟩ := key 0 (by omega)
  refine ⟨g, hg, fun m hmo y hy => ?_⟩
  obtain ⟨g', hg', h⟩ := key m hmo
  rw [hg] at hg'
  injection hg' with hg'
  subst hg'
  obtain ⟨v, h1, h2⟩ := h (fun _ => y) (fun _ => hy)
  rw [hmd] at h2
  refine ⟨v, h1, h2.trans (le_of_eq ?_)⟩
  have hpow : η ^ (o + 1) = η ^ m * η ^ (o + 1 - m) := by rw [← pow_add]; congr 1; omega
  have hne : η ^ m ≠ 0 := pow_ne_zero _ hh0.ne'
  rw [Fin.sum_univ_one, show univ.filter (fun e : Fin 1 => e < 0) = ∅ by simp, prod_empty, one_mul, div_pow, mul_pow _ η, hpow]
  field_simp

/-- **C105, convergence of derivatives.**  As the number of equally spaced sampling points of a function with `o + 1` continuous derivatives grows, the
derivatives of the interpolations, up to the order, converge to those of the function, uniformly on the whole interval. -/
theorem uniform_derivative_limit (c c' : Cfg) {o : ℕ} {per : Bool} {a b : ℝ} (hl : (XRange.uniform a b).Low o per) (hab : a < b) {f : ℝ → ℝ} {S : Set ℝ}
    (hS : S = {t | per = false → a ≤ t ∧ t ≤ b}) (hs : ContDiffOn ℝ (o + 1 : ℕ) f S) (hp : per = true → ∀ t, f (t + (b - a)) = f t) {ε : ℝ} (hε : 0 < ε) :
    ∃ n₀, ∀ fm : Mesh 1 ℝ, fm.WF → n₀ ≤ fm.dims 0 →
      (∀ i < fm.dims 0, fm.get (fun _ => i) = .ok (f (a + i * ((b - a) / ((pointNum c per (fm.dims 0) : ℝ) - 1))))) →
      ∃ g, InterpFn.construct c o (fun _ => per) fm (fun _ => .uniform a b) = .ok g ∧
        ∀ m ≤ o, ∀ y ∈ S, ∃ v, g.derivative c' (fun _ => y) (fun _ => m) = .ok v ∧ |iteratedDerivWithin m f S y - v| ≤ ε := by
  obtain ⟨M, hM0, hbound⟩ := exists_deriv_bound hab hS hs hp
  have hlim : ∀ m : Fin (o + 1), Filter.Tendsto (fun n : ℕ => (2 * (o : ℝ)) ^ (m : ℕ) * ((1 + (stab o : ℝ)) * (M / (o + 1).factorial * (2 * (o : ℝ) - 1) ^ (o + 1))) *
      ((b - a) / (((n + 1 : ℕ) : ℝ))) ^ (o + 1 - (m : ℕ))) Filter.atTop (nhds 0) := fun m => by
    have h1 : Filter.Tendsto (fun n : ℕ => (b - a) / (((n + 1 : ℕ) : ℝ))) Filter.atTop (nhds 0) :=
      (tendsto_const_div_atTop_nhds_zero_nat (b - a)).comp (Filter.tendsto_add_atTop_nat 1)
    have h2 := (h1.pow (o + 1 - (m : ℕ))).const_mul ((2 * (o : ℝ)) ^ (m : ℕ) * ((1 + (stab o : ℝ)) * (M / (o + 1).factorial * (2 * (o : ℝ) - 1) ^ (o + 1))))
    rwa [zero_pow (by omega), mul_zero] at h2
  obtain ⟨n₁, hn₁⟩ := (Filter.eventually_all.2 fun m => (hlim m).eventually (ge_mem_nhds hε)).exists_forall_of_atTop
  refine ⟨n₁ + 2 * o + 4, fun fm hm hn hf => ?_⟩
  have hNle : fm.dims 0 ≤ pointNum c per (fm.dims 0) := by unfold pointNum; omega
  obtain ⟨g, hg, h⟩ := uniform_derivative_rate c c' hl hab hm rfl (fun _ => by omega) (fun _ => by omega) hS hs hbound hp hf
  refine ⟨g, hg, fun m hmo y hy => ?_⟩
  obtain ⟨v, h1, h2⟩ := h m hmo y hy
  refine ⟨v, h1, h2.trans ?_⟩
  have := hn₁ (pointNum c per (fm.dims 0) - 2) (by omega) ⟨m, by omega⟩
  rw [show pointNum c per (fm.dims 0) - 2 + 1 = pointNum c per (fm.dims 0) - 1 by omega, Nat.cast_sub (by omega), Nat.cast_one] at this
  exact this

/-! ## Concrete cases -/

namespace DerivRateExample

/-- The second derivative of the periodic cubic interpolation of the sine with `n ≥ 3` subintervals differs from that of the sine by at most
`(20625 / 2) (2 π / n) ^ 2`. -/
example (n : ℕ) (hn : 3 ≤ n) : ∃ g, InterpFn.construct InterpExample.cfg 3 (fun _ => true) (ApproxExample.sine n) (fun _ => .uniform 0 (2 * Real.pi)) = .ok g ∧
    ∀ y : ℝ, ∃ v, g.derivative InterpExample.cfg (fun _ => y) (fun _ => 2) = .ok v ∧ |-Real.sin y - v| ≤ 20625 / 2 * (2 * Real.pi / n) ^ 2 := by
  obtain ⟨g, hg, h⟩ := uniform_derivative_rate InterpExample.cfg InterpExample.cfg (o := 3) (per := true) (a := 0) (b := 2 * Real.pi) (fm := ApproxExample.sine n)
    (N := n + 1) (f := Real.sin) (M := 1)
    (S := Set.univ) (.inr ⟨⟨_, _, rfl⟩, .inr (.inl rfl)⟩) (by positivity)
    (by simp [Mesh.WF, ApproxExample.sine]) (by simp [pointNum, ApproxExample.sine, InterpExample.cfg]) (fun _ => by omega) (by simp) (by ext; simp)
    Real.contDiff_sin.contDiffOn
    (fun t _ => by
      rw [iteratedDerivWithin_univ, iteratedDeriv_succ, iteratedDeriv_succ, iteratedDeriv_succ, iteratedDeriv_succ, iteratedDeriv_zero]
      simp [Real.abs_sin_le_one])
    (fun _ t => by rw [sub_zero, Real.sin_add_two_pi])
    (fun i hi => by
      have hi' : i < n + 1 := hi
      have e : indexing (ApproxExample.sine n).dims (fun _ : Fin 1 => i) = i := by
        rw [indexing_succ, indexing_zero]
        simp
      rw [Mesh.get, e, rd]
      simp only [ApproxExample.sine, List.getElem?_map, List.getElem?_range hi', Option.map_some])
  refine ⟨g, hg, fun y => ?_⟩
  obtain ⟨v, h1, h2⟩ := h 2 (by norm_num) y trivial
  have e : iteratedDerivWithin 2 Real.sin Set.univ y = -Real.sin y := by
    rw [iteratedDerivWithin_univ, iteratedDeriv_succ, iteratedDeriv_succ, iteratedDeriv_zero]
    simp
  rw [e] at h2
  refine ⟨v, h1, h2.trans (le_of_eq ?_)⟩
  have : (n : ℝ) ≠ 0 := by positivity
  norm_num [stab, Nat.factorial]

/-- The function `sin s · sin t`. -/
noncomputable def f (z : Fin 2 → ℝ) : ℝ := Real.sin (z 0) * Real.sin (z 1)

theorem sin_four (a : ℝ) : ContDiff ℝ (4 : ℕ) (fun t => a * Real.sin t) ∧ ∀ t, iteratedDeriv 4 (fun t => a * Real.sin t) t = a * Real.sin t := by
  refine ⟨contDiff_const.mul Real.contDiff_sin, fun t => ?_⟩
  rw [iteratedDeriv_const_mul_field, iteratedDeriv_succ, iteratedDeriv_succ, iteratedDeriv_succ, iteratedDeriv_succ, iteratedDeriv_zero]
  simp

theorem mixed_two (m : Fin 2 → ℕ) (z : Fin 2 → ℝ) (t : ℝ) : mixedDeriv (fun _ => Set.univ) (after m 0) f (Function.update z 0 t) =
    Real.sin t * iteratedDeriv (m 1) Real.sin (z 1) := by
  rw [mixedDeriv_after_zero, mixedDeriv]
  simp only [mixedDeriv, f, Fin.cons_zero, Fin.cons_one, Fin.tail, iteratedDerivWithin_univ]
  rw [iteratedDeriv_const_mul_field]
  rfl

/-- The mixed derivative `∂²/∂s∂t` of the periodic cubic interpolation of `sin s · sin t` with `n ≥ 3` subintervals each way, compared with `cos s · cos t`. -/
example (n : ℕ) (hn : 3 ≤ n) : ∃ fm : Mesh 2 ℝ, fm.dims = (fun _ => n + 1) ∧
    (∀ I, InRange fm.dims I → fm.get I = .ok (f (nodeAt InterpExample.cfg (fun _ => true) fm.dims (fun _ => .uniform 0 (2 * Real.pi)) I))) ∧
    ∃ g, InterpFn.construct InterpExample.cfg 3 (fun _ => true) fm (fun _ => .uniform 0 (2 * Real.pi)) = .ok g ∧
      ∀ y : Fin 2 → ℝ, ∃ v, g.derivative InterpExample.cfg y (fun _ => 1) = .ok v ∧
        |Real.cos (y 0) * Real.cos (y 1) - v| ≤ 6875 / 4 * (2 * Real.pi / n) ^ 3 + 103125 * (2 * Real.pi / n) ^ 2 := by
  obtain ⟨fm, hF⟩ := Mesh.exists_of_fun (fun _ : Fin 2 => n + 1)
    fun I => f (nodeAt InterpExample.cfg (fun _ => true) (fun _ => n + 1) (fun _ => .uniform 0 (2 * Real.pi)) I)
  have hd := hF.1
  have hm : fm.WF := by
    have := hF.2.1
    unfold Mesh.WF
    rw [this, hd]
  have hf := fun I hI => hF.get (a := I) hI
  have hpn : ∀ d, pointNum InterpExample.cfg true (fm.dims d) = n + 1 := fun d => by rw [hd]; simp [pointNum, InterpExample.cfg]
  have hpi := Real.pi_pos
  have hn0 : (0 : ℝ) < n := by exact_mod_cast (by omega : 0 < n)
  have hη : 0 < 2 * Real.pi / n := by positivity
  have hnode : ∀ i, (XRange.uniform (0 : ℝ) (2 * Real.pi)).node (n + 1) (i + 1) - (XRange.uniform (0 : ℝ) (2 * Real.pi)).node (n + 1) i = 2 * Real.pi / n := fun i => by
    simp only [XRange.node]
    push_cast
    rw [add_sub_cancel_right]
    ring
  have hf' : ∀ I, InRange fm.dims I → fm.get I = .ok (f (nodeAt InterpExample.cfg (fun _ => true) fm.dims (fun _ => .uniform 0 (2 * Real.pi)) I)) := fun I hI => by
    rw [hd] at hI ⊢
    exact hf I hI
  refine ⟨fm, hd, hf', ?_⟩
  obtain ⟨g, hg, h⟩ := derivative_converges InterpExample.cfg InterpExample.cfg (o := 3) (per := fun _ => true) (x := fun _ => .uniform 0 (2 * Real.pi)) hm
    (fun d => by
      rw [hpn]
      exact ⟨fun _ => by omega, by simp, fun a b h => by injection h with h1 h2; rw [← h1, ← h2]; positivity, by simp⟩)
    (fun d => .inr ⟨⟨_, _, rfl⟩, .inr (.inl rfl)⟩) (H := fun _ => 2 * Real.pi / n) (h := fun _ => 2 * Real.pi / n) (M := fun _ => 1)
    (fun d => by rw [hpn]; exact fun i _ => (hnode i).le) (fun _ => hη) (fun d => by rw [hpn]; exact fun i _ => (hnode i).ge)
    (S := fun _ => Set.univ) (fun d => (Set.eq_univ_of_forall fun z hz => by simp at hz).symm) (m := fun _ => 1) (fun _ => by norm_num) (f := f)
    (fun d z _ => by
      have hone : ∀ a b : ℝ, |a| ≤ 1 → |b| ≤ 1 → |a * b| ≤ 1 := fun a b ha hb => by
        rw [abs_mul]; exact mul_le_one₀ ha (abs_nonneg _) hb
      fin_cases d
      · have e : (fun t => mixedDeriv (fun _ => Set.univ) (after (fun _ => 1) 0) f (Function.update z 0 t)) = fun t => Real.cos (z 1) * Real.sin t := by
          funext t
          rw [mixed_two, iteratedDeriv_one, Real.deriv_sin, mul_comm]
        obtain ⟨h1, h2⟩ := sin_four (Real.cos (z 1))
        simp only [Fin.zero_eta, Fin.isValue]
        rw [e]
        refine ⟨h1.contDiffOn, fun t _ => ?_⟩
        rw [iteratedDerivWithin_univ, h2]
        exact hone _ _ (Real.abs_cos_le_one _) (Real.abs_sin_le_one _)
      · have e : (fun t => mixedDeriv (fun _ => Set.univ) (after (fun _ => 1) 1) f (Function.update z 1 t)) = fun t => Real.sin (z 0) * Real.sin t := by
          funext t
          have h0 : after (fun _ : Fin 2 => 1) 1 = fun _ => 0 := by funext e; fin_cases e <;> rfl
          rw [h0]
          simp only [mixedDeriv, iteratedDerivWithin_zero, Fin.tail]
          simp [f]
        obtain ⟨h1, h2⟩ := sin_four (Real.sin (z 0))
        simp only [Fin.mk_one, Fin.isValue]
        rw [e]
        refine ⟨h1.contDiffOn, fun t _ => ?_⟩
        rw [iteratedDerivWithin_univ, h2]
        exact hone _ _ (Real.abs_sin_le_one _) (Real.abs_sin_le_one _))
    (fun d z t _ => by
      rw [hpn, (dom_uniform (a := (0 : ℝ)) (b := 2 * Real.pi) (per := true) (N := n + 1) (by omega)).2, sub_zero]
      fin_cases d <;> simp [f])
    hf'
  refine ⟨g, hg, fun y => ?_⟩
  obtain ⟨v, h1, h2⟩ := h y (fun _ => trivial)
  have e : mixedDeriv (fun _ => Set.univ) (fun _ : Fin 2 => 1) f y = Real.cos (y 0) * Real.cos (y 1) := by
    have h0 : ∀ t, mixedDeriv (Fin.tail fun _ : Fin 2 => Set.univ) (Fin.tail fun _ : Fin 2 => 1) (fun z => f (Fin.cons t z)) (Fin.tail y) = Real.cos (y 1) * Real.sin t := fun t => by
      rw [← mixedDeriv_after_zero (fun _ => Set.univ) (fun _ => 1) f y t, mixed_two, iteratedDeriv_one, Real.deriv_sin, mul_comm]
    rw [mixedDeriv]
    simp only [h0, iteratedDerivWithin_univ]
    rw [iteratedDeriv_const_mul_field, iteratedDeriv_one, Real.deriv_sin, mul_comm]
  rw [e] at h2
  refine ⟨v, h1, h2.trans (le_of_eq ?_)⟩
  rw [Fin.sum_univ_two, show univ.filter (fun e : Fin 2 => e < 0) = ∅ by rfl, show univ.filter (fun e : Fin 2 => e < 1) = {0} by rfl, prod_empty, prod_singleton]
  generalize 2 * Real.pi / n = η at *
  have hne := hη.ne'
  norm_num [stab, Nat.factorial]
  field_simp
  ring

end DerivRateExample

end Intp
