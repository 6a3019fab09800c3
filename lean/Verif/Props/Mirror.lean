import Verif.Proofs.Mirror
import Verif.Props.Pivot

/-!
# Mirror image of an axis (C61)
-/

namespace Intp

open Finset BSpline

variable {K V : Type} [Field K] [LinearOrder K] [IsStrictOrderedRing K] [FloorRing K] [AddCommGroup V] [Module K V] {D : ℕ}

/-- Index of the mirror image of data point `k` among `n`: `n - 1 - k`, in periodic dimensions (where the coordinate of point `n` is one period
after that of point `0`, and holds the same data) `n - k` modulo `n`. -/
def mirrorData (per : Bool) (n k : ℕ) : ℕ := if per then (n - k) % n else n - 1 - k

/-- **C61.**  Mirroring the coordinates and the data of one dimension, `x ↦ β - x`, mirrors the interpolation; derivatives along that
dimension change sign with each differentiation.  Order at least 1, derivatives in that dimension of order below the order of the spline (the
others jump at the knots). -/
theorem mirror_image (c : Cfg) {o : ℕ} (ho : 1 ≤ o) {per : Fin (D + 1) → Bool} {fm fm' : Mesh (D + 1) V} {x x' : Fin (D + 1) → XRange K}
    (hm : fm.WF) (hm' : fm'.WF) (hdims : fm'.dims = fm.dims) (hv : ValidAxes c o per fm.dims x) (hv' : ValidAxes c o per fm.dims x')
    (d : Fin (D + 1)) {n : ℕ} (hn : fm.dims d = n + if per d && !c.noDummy then 1 else 0) {β : K} (hx : ∀ e, e ≠ d → x' e = x e)
    (hX : ∀ i, i < pointNum c (per d) (fm.dims d) → (x' d).node (pointNum c (per d) (fm.dims d)) i =
      β - (x d).node (pointNum c (per d) (fm.dims d)) (pointNum c (per d) (fm.dims d) - 1 - i))
    (hdata : ∀ a, InRange fm.dims a → a d < n → fm'.get (Function.update a d (mirrorData (per d) n (a d))) = fm.get a)
    {g g' : InterpFn (D + 1) K V} (hg : InterpFn.construct c o per fm x = .ok g) (hg' : InterpFn.construct c o per fm' x' = .ok g') :
    (∀ y, g'.call (Function.update y d (β - y d)) = g.call y) ∧
      ∀ c' y m, m d < o → ∃ v, g.derivative c' y m = .ok v ∧ g'.derivative c' (Function.update y d (β - y d)) m = .ok ((-1 : K) ^ m d • v) := by
  obtain ⟨F, hF⟩ := fm.exists_holds hm
  obtain ⟨F', hF'⟩ := fm'.exists_holds hm'
  rw [hdims] at hF'
  obtain ⟨hr, C, hC, hE⟩ := (InterpFn.construct_spec (c := c) hv rfl hF).get hg
  obtain ⟨hr', C', hC', hE'⟩ := (InterpFn.construct_spec (c := c) hv' hdims hF').get hg'
  have hnn : nOf c per fm.dims d = n := by
    have := hv.dims_eq d
    unfold nOf
    omega
  have hnpos : 0 < n := by
    have h1 := (hv d).two
    have h2 := hv.dims_eq d
    rw [hn] at h2
    have h3 : unk (per d) (pointNum c (per d) (fm.dims d)) = n := hnn
    unfold unk at h3
    split at h3 <;> omega
  have hNn : pointNum c (per d) (fm.dims d) = n + if per d then 1 else 0 := by
    have h4 : unk (per d) (pointNum c (per d) (fm.dims d)) = n := hnn
    generalize pointNum c (per d) (fm.dims d) = N at h4
    cases hp : per d <;> rw [hp] at h4 <;> simp [unk] at h4 ⊢ <;> omega
  set b := g.spline
  set b' := g'.spline
  have hM : MirrorDim b b' d β := by
    refine ⟨by rw [hC.order, hC'.order], by rw [hC.pers, hC'.pers], by rw [hC.dims_eq, hC'.dims_eq], ?_, ?_⟩
    · rw [hC.knots, hC'.knots]
      exact (hv' d).knots_length.trans (hv d).knots_length.symm
    · unfold kn
      rw [hC.knots, hC'.knots]
      exact (hv d).knots_mirror (hv' d) ho hX
  have hpk : b.periodicity d = true → b.PerKnots d := fun h => hC.perKnots hv (by rwa [hC.pers] at h)
  have hpk' : b'.periodicity d = true → b'.PerKnots d := fun h => hC'.perKnots hv' (by rwa [hC'.pers] at h)
  have hbn : b.ctrl.dims d = n := by rw [hC.dims_eq]; exact hnn
  have hmw : ∀ q y J, q < o → J < n → b'.wAt d q (β - y) (b.mirrorIx d J) = (-1) ^ q * b.wAt d q y J := fun q y J hq hJ =>
    hM.wAt (hC.wf hv) (hC'.wf hv') (hC.simple hv d) (hC'.simple hv' d) hpk hpk' (by rw [hC.order]; exact hq) y (by rw [hbn]; exact hJ)
  have hother : ∀ e, e ≠ d → ∀ q y J, b'.wAt e q y J = b.wAt e q y J := fun e he q y J => by
    rw [hC.wAt_eq, hC'.wAt_eq, hx e he]
  have hσ1 : ∀ j, j < nOf c per fm.dims d → b.mirrorIx d j < nOf c per fm.dims d := fun j hj => by
    rw [hnn, ← hbn]
    exact (hC.wf hv).ctrlOf_lt (Nat.sub_le _ _)
  have hσ2 : ∀ j, j < nOf c per fm.dims d → b.mirrorIx d (b.mirrorIx d j) = j := fun j hj => by
    have hj' : j < b.ctrl.dims d := by rw [hbn, ← hnn]; exact hj
    have hl : j ≤ b.last d := by
      have h0 : b.last d = (b.knots d).length - b.order - 2 := rfl
      cases hp : b.periodicity d with
      | false => have := (hC.wf hv).aper d hp; change (b.knots d).length = b.ctrl.dims d + b.order + 1 at this; omega
      | true => have := (hpk hp).len; split at this <;> omega
    have := ((hC.wf hv).ctrlOf_mirror hpk (i := b.last d - j) (J := b.mirrorIx d j) (Nat.sub_le _ _)
      ((hC.wf hv).ctrlOf_lt (Nat.sub_le _ _))).2 rfl
    rw [show b.last d - (b.last d - j) = j by omega] at this
    rw [← this]
    have hp := hC.pers
    unfold ctrlOf
    split
    · exact Nat.mod_eq_of_lt hj'
    · rfl
  -- weights of the mirrored function at mirrored coordinates, reordered
  have hW : ∀ (q : Fin (D + 1) → ℕ) (y : Fin (D + 1) → K), q d < o → ∀ T : (Fin (D + 1) → ℕ) → V,
      tensorVal (nOf c per fm.dims) (fun e => b'.wAt e (q e) (Function.update y d (β - y d) e)) (fun J => T (Function.update J d (b.mirrorIx d (J d)))) =
        (-1 : K) ^ q d • tensorVal (nOf c per fm.dims) (fun e => b.wAt e (q e) (y e)) T := by
    intro q y hq T
    rw [tensorVal_renumber d _ _ T hσ1 hσ2, tensorVal_insert d, tensorVal_insert d, smul_sum]
    refine sum_congr rfl fun j hj => ?_
    rw [mem_range, hnn] at hj
    rw [smul_smul]
    simp only [Function.update_self]
    rw [hmw (q d) (y d) j hq hj]
    congr 1
    refine tensorVal_congr (fun _ _ => rfl) fun e i _ => ?_
    rw [Function.update_of_ne (Fin.succAbove_ne d e), Function.update_of_ne (Fin.succAbove_ne d e), hother _ (Fin.succAbove_ne d e)]
  have hE'' : CtrlEqs c o per fm.dims x' F' fun J => C (Function.update J d (b.mirrorIx d (J d))) := by
    intro a ha
    have had : a d < n := by rw [← hnn]; exact ha d
    set k := mirrorData (per d) n (a d) with hk
    have hkn : k < n := by
      rw [hk]
      unfold mirrorData
      split
      · exact Nat.mod_lt _ hnpos
      · omega
    have hkk : mirrorData (per d) n k = a d := by
      rw [hk]
      unfold mirrorData
      split
      · rcases Nat.eq_zero_or_pos (a d) with h0 | h0
        · rw [h0]; simp
        · rw [Nat.mod_eq_of_lt (a := n - a d) (by omega), Nat.mod_eq_of_lt (by omega)]; omega
      · omega
    set a' := Function.update a d k with ha'
    have ha'r : InRange (nOf c per fm.dims) a' := fun e => by
      by_cases he : e = d
      · subst he; rw [ha', Function.update_self, hnn]; exact hkn
      · rw [ha', Function.update_of_ne he]; exact ha e
    have h1 := hE a' ha'r
    have hin : InRange fm.dims a' := fun e => lt_of_lt_of_le (ha'r e) (by
      have := hv.dims_eq e
      unfold nOf
      omega)
    have hin' : InRange fm.dims a := fun e => lt_of_lt_of_le (ha e) (by
      have := hv.dims_eq e
      dsimp only
      omega)
    have h2 := hdata a' hin (by rw [ha', Function.update_self]; exact hkn)
    have e2 : Function.update a' d (mirrorData (per d) n (a' d)) = a := by
      rw [ha', Function.update_self, hkk, Function.update_idem, Function.update_eq_self]
    rw [e2, hF.get hin, hF'.get hin'] at h2
    injection h2 with h2
    rw [h2, ← h1]
    have h3 := hW (fun _ => 0) (fun e => (x e).node (pointNum c (per e) (fm.dims e)) (a' e)) (by omega) C
    rw [pow_zero, one_smul] at h3
    have e3 : ∀ e J, J < nOf c per fm.dims e → (x e).mat o (pointNum c (per e) (fm.dims e)) (per e)
        ((a' e + rowShift o (per e)) % nOf c per fm.dims e) J = b.wAt e 0 ((x e).node (pointNum c (per e) (fm.dims e)) (a' e)) J := fun e J hJ => by
      rw [hC.mat_eq hv e (ha'r e) hJ, hC.wAt_eq]
    have e4 : ∀ e J, J < nOf c per fm.dims e → (x' e).mat o (pointNum c (per e) (fm.dims e)) (per e)
        ((a e + rowShift o (per e)) % nOf c per fm.dims e) J =
          b'.wAt e 0 (Function.update (fun e => (x e).node (pointNum c (per e) (fm.dims e)) (a' e)) d
            (β - (x d).node (pointNum c (per d) (fm.dims d)) (a' d)) e) J := fun e J hJ => by
      rw [hC'.mat_eq hv' e (ha e) hJ, ← hC'.wAt_eq]
      by_cases he : e = d
      · subst he
        rw [Function.update_self, ha', Function.update_self, hk]
        cases hp : per e with
        | false =>
          rw [hp] at hNn hX
          rw [hX _ (by rw [hNn]; omega)]
          simp only [mirrorData]
          rw [hNn]
          simp
          rfl
        | true =>
          rw [hp] at hNn hX
          simp only [if_true] at hNn
          rcases Nat.eq_zero_or_pos (a e) with h0 | h0
          · have hd1 := hC'.wAt_dummy hv' (d := e) hp J
            rw [hp, hC'.dims_eq, hp] at hd1
            have hu : unk true (pointNum c true (fm.dims e)) = n := by rw [hNn]; rfl
            rw [hu] at hd1
            rw [h0, ← hd1, hX _ (by rw [hNn]; omega)]
            congr 2
            simp [mirrorData, hNn]
          · rw [hX _ (by rw [hNn]; omega), hNn]
            simp only [mirrorData, if_true]
            rw [Nat.mod_eq_of_lt (by omega)]
            rfl
      · rw [Function.update_of_ne he, ha', Function.update_of_ne he, hx e he]
    refine (tensorVal_congr (fun _ _ => rfl) fun e J hJ => e4 e J hJ).trans (h3.trans ?_)
    exact tensorVal_congr (fun _ _ => rfl) fun e J hJ => (e3 e J hJ).symm
  have key : ∀ y m, m d < o → b'.val C' m (Function.update y d (β - y d)) = (-1 : K) ^ m d • b.val C m y := by
    intro y m hmd
    have h1 := hW m y hmd C
    have e1 : b.ctrl.dims = nOf c per fm.dims := hC.ctrl.1
    have e2 : b'.ctrl.dims = nOf c per fm.dims := hC'.ctrl.1
    unfold BSpline.val
    rw [e1, e2, ← h1]
    exact tensorVal_congr (fun J hJ => hr'.unique hv' hE' hE'' (fun _ _ => rfl) hJ) fun _ _ _ => rfl
  refine ⟨fun y => ?_, fun c' y m hmd => ?_⟩
  · rw [hC.call hv, hC'.call hv']
    have := key y (fun _ => 0) (by omega)
    rw [pow_zero, one_smul] at this
    exact congrArg _ this
  · exact ⟨_, hC.derivative hv .., by rw [hC'.derivative hv', key y m hmd]⟩

/-- **C61, existence.**  Without periodic dimensions both constructions succeed. -/
theorem mirror_image_aperiodic (c : Cfg) {o : ℕ} (ho : 1 ≤ o) {fm fm' : Mesh (D + 1) V} {x x' : Fin (D + 1) → XRange K}
    (hm : fm.WF) (hm' : fm'.WF) (hdims : fm'.dims = fm.dims) (hv : ValidAxes c o (fun _ => false) fm.dims x)
    (hv' : ValidAxes c o (fun _ => false) fm.dims x') (d : Fin (D + 1)) {β : K} (hx : ∀ e, e ≠ d → x' e = x e)
    (hX : ∀ i, i < fm.dims d → (x' d).node (fm.dims d) i = β - (x d).node (fm.dims d) (fm.dims d - 1 - i))
    (hdata : ∀ a, InRange fm.dims a → fm'.get (Function.update a d (fm.dims d - 1 - a d)) = fm.get a) :
    ∃ g g', InterpFn.construct c o (fun _ => false) fm x = .ok g ∧ InterpFn.construct c o (fun _ => false) fm' x' = .ok g' ∧
      ∀ y, g'.call (Function.update y d (β - y d)) = g.call y := by
  have hpt : ∀ k, pointNum c false k = k := fun k => by unfold pointNum; simp
  have ex : ∀ {fm : Mesh (D + 1) V} {x : Fin (D + 1) → XRange K}, fm.WF → ValidAxes c o (fun _ => false) fm.dims x →
      ∃ g, InterpFn.construct c o (fun _ => false) fm x = .ok g := fun hm hv =>
    (construct_ok_iff c hm hv).2 fun d r hr => ((hv d).lead_pos hr).ne'
  obtain ⟨g, hg⟩ := ex hm hv
  obtain ⟨g', hg'⟩ := ex hm' (by rw [hdims]; exact hv')
  refine ⟨g, g', hg, hg', (mirror_image c ho hm hm' hdims hv hv' d (n := fm.dims d) (by simp) hx ?_ ?_ hg hg').1⟩
  · rw [hpt]; exact hX
  · intro a ha _
    exact hdata a ha

namespace InterpExample

/-- The data of the example mirrored in the first (non-periodic) and in the second (periodic) dimension. -/
def dataM0 : Mesh 2 ℚ := ⟨fun _ => 5, [4, 0, 0, 1, 4, -2, 3, 1, 1, -2, 7, 1, 1, 4, 7, 0, 5, 2, 2, 0, 1, 2, -1, 3, 1]⟩

def dataM1 : Mesh 2 ℚ := ⟨fun _ => 5, [1, 3, -1, 2, 1, 0, 2, 2, 5, 0, 7, 4, 1, 1, 7, -2, 1, 1, 3, -2, 4, 1, 0, 0, 4]⟩

def xM0 : Fin 2 → XRange ℚ := ![.coords [0, 2, 3, 5, 6], .uniform 0 4]

theorem validM0 : ValidAxes cfg 3 per (fun _ => 5) xM0 := by
  intro d
  fin_cases d
  · refine ⟨by simp [per], fun _ => by simp [pointNum, cfg], by simp [xM0], ?_⟩
    intro l hl
    injection hl with hl
    subst hl
    refine ⟨by simp [per, pointNum], ?_, fun _ => by norm_num⟩
    intro i hi
    have : i + 1 < 5 := by simpa [per, pointNum] using hi
    have : i < 4 := by omega
    interval_cases i <;> norm_num
  · exact valid 3 (by norm_num) (by norm_num) 1

/-- `mirror_image` applies to a non-periodic dimension of the example. -/
example {g g' : InterpFn 2 ℚ ℚ} (hg : InterpFn.construct cfg 3 per data x = .ok g) (hg' : InterpFn.construct cfg 3 per dataM0 xM0 = .ok g') :
    ∀ y, g'.call (Function.update y 0 (6 - y 0)) = g.call y := by
  refine (mirror_image cfg (by norm_num) (fm := data) (fm' := dataM0) (x := x) (x' := xM0) (by unfold Mesh.WF; decide) (by unfold Mesh.WF; decide) rfl
    (valid 3 (by norm_num) (by norm_num)) validM0 0 (n := 5) rfl (fun e he => ?_) (fun i hi => ?_) (fun a ha _ => ?_) hg hg').1
  · fin_cases e
    · exact absurd rfl he
    · rfl
  · have : i < 5 := hi
    interval_cases i <;> decide +kernel
  · have h0 : a 0 < 5 := ha 0
    have h1 : a 1 < 5 := ha 1
    unfold Mesh.get
    rw [indexing_succ, indexing_succ, indexing_zero, indexing_succ, indexing_succ, indexing_zero]
    show rd dataM0.storage (a 1 + 5 * (mirrorData false 5 (a 0) + 5 * 0)) = rd data.storage (a 1 + 5 * (a 0 + 5 * 0))
    generalize a 0 = i at *
    generalize a 1 = j at *
    interval_cases i <;> interval_cases j <;> rfl

/-- `mirror_image` applies to a periodic dimension of the example. -/
example {g g' : InterpFn 2 ℚ ℚ} (hg : InterpFn.construct cfg 3 per data x = .ok g) (hg' : InterpFn.construct cfg 3 per dataM1 x = .ok g') :
    ∀ y, g'.call (Function.update y 1 (4 - y 1)) = g.call y := by
  refine (mirror_image cfg (by norm_num) (fm := data) (fm' := dataM1) (x := x) (x' := x) (by unfold Mesh.WF; decide) (by unfold Mesh.WF; decide) rfl
    (valid 3 (by norm_num) (by norm_num)) (valid 3 (by norm_num) (by norm_num)) 1 (n := 4) rfl (fun e he => rfl) (fun i hi => ?_)
    (fun a ha ha1 => ?_) hg hg').1
  · have : i < 5 := hi
    interval_cases i <;> decide +kernel
  · have h0 : a 0 < 5 := ha 0
    unfold Mesh.get
    rw [indexing_succ, indexing_succ, indexing_zero, indexing_succ, indexing_succ, indexing_zero]
    show rd dataM1.storage (mirrorData true 4 (a 1) + 5 * (a 0 + 5 * 0)) = rd data.storage (a 1 + 5 * (a 0 + 5 * 0))
    generalize a 0 = i at *
    generalize a 1 = j at *
    interval_cases i <;> interval_cases j <;> rfl

/-- Values between data points of both mirror images; outside of the range of the periodic dimension as well. -/
example : (do
    let g ← InterpFn.construct cfg 3 per data x
    let u ← g.call ![7 / 2, 1 / 2]
    let h ← InterpFn.construct cfg 3 per dataM0 xM0
    let v ← h.call ![5 / 2, 1 / 2]
    let k ← InterpFn.construct cfg 3 per dataM1 x
    let w ← k.call ![7 / 2, -25 / 2]
    pure (u, decide (u = v), decide (u = w)) : M (ℚ × Bool × Bool)) = .ok (135113 / 54272, true, true) := by decide +kernel

end InterpExample

end Intp
