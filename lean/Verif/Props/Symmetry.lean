import Verif.Proofs.Tensor
import Verif.Props.Interpolation

/-!
# Order of the dimensions (C59), slices and iterated interpolation (C60)
-/

namespace Intp

open Finset BSpline

variable {K V : Type} [Field K] [LinearOrder K] [IsStrictOrderedRing K] [FloorRing K] [AddCommGroup V] [Module K V] {D : ℕ}

/-- **C59.**  Interpolating the data with permuted dimensions gives the function with permuted arguments, also for derivatives. -/
theorem permuted_dimensions (c : Cfg) {o : ℕ} {per : Fin (D + 1) → Bool} {fm fm' : Mesh (D + 1) V} {x : Fin (D + 1) → XRange K}
    (hm : fm.WF) (hm' : fm'.WF) (hv : ValidAxes c o per fm.dims x) (σ : Equiv.Perm (Fin (D + 1))) (hd : ∀ d, fm'.dims d = fm.dims (σ d))
    (hdata : ∀ a, InRange fm.dims a → fm'.get (fun d => a (σ d)) = fm.get a) {g : InterpFn (D + 1) K V}
    (hg : InterpFn.construct c o per fm x = .ok g) :
    ∃ g', InterpFn.construct c o (fun d => per (σ d)) fm' (fun d => x (σ d)) = .ok g' ∧
      (∀ y, g'.call (fun d => y (σ d)) = g.call y) ∧
      ∀ c' y m, g'.derivative c' (fun d => y (σ d)) (fun d => m (σ d)) = g.derivative c' y m := by
  have hd' : fm'.dims = fun d => fm.dims (σ d) := funext hd
  obtain ⟨F, hF⟩ := fm.exists_holds hm
  obtain ⟨F', hF'⟩ := fm'.exists_holds hm'
  rw [hd'] at hF'
  obtain ⟨hr, C, hC, hE⟩ := (InterpFn.construct_spec (c := c) hv rfl hF).get hg
  have hv' : ValidAxes c o (fun d => per (σ d)) (fun d => fm.dims (σ d)) (fun d => x (σ d)) := fun d => hv (σ d)
  have hr' : AllRegular c o (fun d => per (σ d)) (fun d => fm.dims (σ d)) (fun d => x (σ d)) := fun d => hr (σ d)
  obtain ⟨g', hg'⟩ := (construct_ok_iff c (x := fun d => x (σ d)) hm' (by rw [hd']; exact hv')).2 (by rw [hd']; exact hr')
  obtain ⟨-, C', hC', hE'⟩ := (InterpFn.construct_spec (c := c) hv' hd' hF').get hg'
  have hE'' : CtrlEqs c o (fun d => per (σ d)) (fun d => fm.dims (σ d)) (fun d => x (σ d)) F' fun J => C fun d => J (σ.symm d) := by
    intro a ha
    have ha' : InRange (nOf c per fm.dims) fun d => a (σ.symm d) := fun d => by
      have := ha (σ.symm d)
      simpa [nOf] using this
    have h1 := hE _ ha'
    rw [← tensorVal_perm σ] at h1
    simp only [Equiv.symm_apply_apply] at h1
    rw [h1]
    have hin : InRange fm.dims fun d => a (σ.symm d) := fun d => lt_of_lt_of_le (ha' d) (by
      have := hv.dims_eq d
      unfold nOf
      omega)
    have h2 := hdata _ hin
    simp only [Equiv.symm_apply_apply] at h2
    rw [hF.get hin, hF'.get fun d => by have := hin (σ d); simpa using this] at h2
    injection h2 with h2
    exact h2.symm
  have key : ∀ y m, g'.spline.val C' (fun d => m (σ d)) (fun d => y (σ d)) = g.spline.val C m y := by
    intro y m
    rw [hC.val_eq, hC'.val_eq, ← tensorVal_perm σ (nOf c per fm.dims)]
    exact tensorVal_congr (fun J hJ => hr'.unique hv' hE' hE'' (fun _ _ => rfl) hJ) fun _ _ _ => rfl
  refine ⟨g', hg', fun y => ?_, fun c' y m => ?_⟩
  · rw [hC.call hv, hC'.call hv']
    exact congrArg _ (key y fun _ => 0)
  · rw [hC.derivative hv, hC'.derivative hv', key]

/-- **C60, slices.**  The interpolation of a slice of the data (index `k` of dimension `d`) is the restriction of the interpolation to the
coordinate of that slice, also for derivatives along the slice. -/
theorem slice_at_node (c : Cfg) {o : ℕ} {per : Fin (D + 2) → Bool} {fm : Mesh (D + 2) V} {fm' : Mesh (D + 1) V} {x : Fin (D + 2) → XRange K}
    (hm : fm.WF) (hm' : fm'.WF) (hv : ValidAxes c o per fm.dims x) {g : InterpFn (D + 2) K V} (hg : InterpFn.construct c o per fm x = .ok g)
    (d : Fin (D + 2)) {k : ℕ} (hk : k + (if per d && !c.noDummy then 1 else 0) < fm.dims d) (hd : ∀ e, fm'.dims e = fm.dims (d.succAbove e))
    (hdata : ∀ a, InRange fm'.dims a → fm'.get a = fm.get (d.insertNth k a)) :
    ∃ g', InterpFn.construct c o (fun e => per (d.succAbove e)) fm' (fun e => x (d.succAbove e)) = .ok g' ∧
      (∀ y, g'.call y = g.call (d.insertNth ((x d).node (pointNum c (per d) (fm.dims d)) k) y)) ∧
      ∀ c' y m, g'.derivative c' y m = g.derivative c' (d.insertNth ((x d).node (pointNum c (per d) (fm.dims d)) k) y) (d.insertNth 0 m) := by
  have hd' : fm'.dims = fun e => fm.dims (d.succAbove e) := funext hd
  obtain ⟨F, hF⟩ := fm.exists_holds hm
  obtain ⟨F', hF'⟩ := fm'.exists_holds hm'
  rw [hd'] at hF'
  obtain ⟨hr, C, hC, hE⟩ := (InterpFn.construct_spec (c := c) hv rfl hF).get hg
  have hv' : ValidAxes c o (fun e => per (d.succAbove e)) (fun e => fm.dims (d.succAbove e)) (fun e => x (d.succAbove e)) := fun e => hv _
  have hr' : AllRegular c o (fun e => per (d.succAbove e)) (fun e => fm.dims (d.succAbove e)) (fun e => x (d.succAbove e)) := fun e => hr _
  obtain ⟨g', hg'⟩ := (construct_ok_iff c (x := fun e => x (d.succAbove e)) hm' (by rw [hd']; exact hv')).2 (by rw [hd']; exact hr')
  obtain ⟨-, C', hC', hE'⟩ := (InterpFn.construct_spec (c := c) hv' hd' hF').get hg'
  have hkn : k < nOf c per fm.dims d := by
    have := hv.dims_eq d
    unfold nOf
    omega
  set X := (x d).node (pointNum c (per d) (fm.dims d)) k with hX
  set w := (x d).wt o (pointNum c (per d) (fm.dims d)) (per d) 0 X with hw
  set S : (Fin (D + 1) → ℕ) → V := fun J => ∑ j ∈ range (nOf c per fm.dims d), w j • C (d.insertNth j J) with hS
  have hsum : ∀ v : Fin (D + 1) → ℕ → K, tensorVal (fun e => nOf c per fm.dims (d.succAbove e)) v S =
      ∑ j ∈ range (nOf c per fm.dims d), w j • tensorVal (fun e => nOf c per fm.dims (d.succAbove e)) v fun J => C (d.insertNth j J) := by
    intro v
    unfold tensorVal
    simp only [hS, smul_sum]
    rw [sum_comm]
    refine sum_congr rfl fun j _ => sum_congr rfl fun J _ => smul_comm _ _ _
  have hE'' : CtrlEqs c o (fun e => per (d.succAbove e)) (fun e => fm.dims (d.succAbove e)) (fun e => x (d.succAbove e)) F' S := by
    intro a ha
    have ha' : InRange (nOf c per fm.dims) (d.insertNth k a) := fun e => by
      rcases Fin.eq_self_or_eq_succAbove d e with rfl | ⟨e', rfl⟩
      · simpa using hkn
      · simpa [nOf] using ha e'
    have h1 := hE _ ha'
    rw [tensorVal_insert d] at h1
    simp only [Fin.insertNth_apply_same, Fin.insertNth_apply_succAbove] at h1
    refine ((hsum _).trans ?_).trans (h1.trans ?_)
    · refine sum_congr rfl fun j hj => ?_
      rw [hw, hX, ← hC.mat_eq hv d hkn (mem_range.1 hj)]
      rfl
    · have hin : InRange fm.dims (d.insertNth k a) := fun e => lt_of_lt_of_le (ha' e) (by
        have := hv.dims_eq e
        unfold nOf
        omega)
      have hin' : InRange fm'.dims a := fun e => by
        rw [hd]
        simpa using hin (d.succAbove e)
      have h2 := hdata a hin'
      rw [hF.get hin, hF'.get (by rw [← hd']; exact hin')] at h2
      injection h2 with h2
      exact h2.symm
  have key : ∀ y m, g'.spline.val C' m y = g.spline.val C (d.insertNth 0 m) (d.insertNth X y) := by
    intro y m
    rw [hC.val_eq, hC'.val_eq, tensorVal_insert d]
    simp only [Fin.insertNth_apply_same, Fin.insertNth_apply_succAbove]
    refine (tensorVal_congr (fun J hJ => hr'.unique hv' hE' hE'' (fun _ _ => rfl) hJ) fun _ _ _ => rfl).trans (hsum _)
  refine ⟨g', hg', fun y => ?_, fun c' y m => ?_⟩
  · rw [hC.call hv, hC'.call hv', key]
    congr 2
    funext e
    rcases Fin.eq_self_or_eq_succAbove d e with rfl | ⟨e', rfl⟩ <;> simp
  · rw [hC.derivative hv, hC'.derivative hv', key]

/-- **C60, iterated interpolation.**  Along dimension `d`, with the other coordinates fixed to `y`, the interpolation is the one-dimensional
interpolation of its own values at the coordinates of `d`, which by `slice_at_node` are the values of the interpolated slices. -/
theorem iterated_interpolation (c : Cfg) {o : ℕ} {per : Fin (D + 1) → Bool} {fm : Mesh (D + 1) V} {x : Fin (D + 1) → XRange K}
    (hm : fm.WF) (hv : ValidAxes c o per fm.dims x) {g : InterpFn (D + 1) K V} (hg : InterpFn.construct c o per fm x = .ok g)
    (d : Fin (D + 1)) (y : Fin D → K) {f : Mesh 1 V} (hf : f.WF) (hd : f.dims 0 = fm.dims d)
    (hdata : ∀ k, k + (if per d && !c.noDummy then 1 else 0) < fm.dims d →
      f.get (fun _ => k) = g.call (d.insertNth ((x d).node (pointNum c (per d) (fm.dims d)) k) y)) :
    ∃ g', InterpFn.construct c o (fun _ => per d) f (fun _ => x d) = .ok g' ∧ ∀ t, g'.call (fun _ => t) = g.call (d.insertNth t y) := by
  have hd' : f.dims = fun _ => fm.dims d := funext fun e => by rw [Fin.fin_one_eq_zero e]; exact hd
  obtain ⟨F, hF⟩ := fm.exists_holds hm
  obtain ⟨F', hF'⟩ := f.exists_holds hf
  rw [hd'] at hF'
  obtain ⟨hr, C, hC, hE⟩ := (InterpFn.construct_spec (c := c) hv rfl hF).get hg
  have hv' : ValidAxes c o (fun _ : Fin 1 => per d) (fun _ => fm.dims d) (fun _ => x d) := fun e => hv _
  have hr' : AllRegular c o (fun _ : Fin 1 => per d) (fun _ => fm.dims d) (fun _ => x d) := fun e => hr _
  obtain ⟨g', hg'⟩ := (construct_ok_iff c (x := fun _ => x d) hf (by rw [hd']; exact hv')).2 (by rw [hd']; exact hr')
  obtain ⟨-, C', hC', hE'⟩ := (InterpFn.construct_spec (c := c) hv' hd' hF').get hg'
  set S : (Fin 1 → ℕ) → V := fun J => tensorVal (fun e => nOf c per fm.dims (d.succAbove e))
    (fun e => (x (d.succAbove e)).wt o (pointNum c (per (d.succAbove e)) (fm.dims (d.succAbove e))) (per (d.succAbove e)) 0 (y e))
    fun I => C (d.insertNth (J 0) I) with hS
  have hval : ∀ t, g.spline.val C (fun _ => 0) (d.insertNth t y) =
      ∑ j ∈ range (nOf c per fm.dims d), (x d).wt o (pointNum c (per d) (fm.dims d)) (per d) 0 t j • S fun _ => j := by
    intro t
    rw [hC.val_eq, tensorVal_insert d]
    simp only [Fin.insertNth_apply_same, Fin.insertNth_apply_succAbove]
    rfl
  have h1d : ∀ (n : ℕ) (v : ℕ → K) (T : (Fin 1 → ℕ) → V), tensorVal (fun _ : Fin 1 => n) (fun _ => v) T = ∑ j ∈ range n, v j • T fun _ => j := by
    intro n v T
    rw [tensorVal_insert 0]
    refine sum_congr rfl fun j _ => ?_
    unfold tensorVal
    simp
    congr 2
    funext e
    rw [Fin.fin_one_eq_zero e]
    rfl
  have hE'' : CtrlEqs c o (fun _ : Fin 1 => per d) (fun _ => fm.dims d) (fun _ => x d) F' S := by
    intro a ha
    have ha0 : a 0 < nOf c per fm.dims d := ha 0
    have hae : a = fun _ => a 0 := funext fun e => by rw [Fin.fin_one_eq_zero e]
    have h2 := hdata (a 0) (by have := hv.dims_eq d; unfold nOf at ha0; omega)
    rw [hC.call hv, hval, ← hae, hF'.get fun e => by
      rw [Fin.fin_one_eq_zero e]
      have := hv.dims_eq d
      unfold nOf at ha0
      show a 0 < fm.dims d
      omega] at h2
    injection h2 with h2
    rw [h2, ← h1d]
    refine tensorVal_congr (fun _ _ => rfl) fun e j hj => ?_
    have := hC.mat_eq hv d ha0 hj
    rw [Fin.fin_one_eq_zero e]
    exact this
  refine ⟨g', hg', fun t => ?_⟩
  rw [hC.call hv, hC'.call hv', hval, hC'.val_eq]
  congr 1
  rw [← h1d]
  exact tensorVal_congr (fun J hJ => hr'.unique hv' hE' hE'' (fun _ _ => rfl) hJ) fun _ _ _ => rfl

namespace InterpExample

/-- The data of the example with exchanged dimensions. -/
def dataT : Mesh 2 ℚ := ⟨fun _ => 5, [1, 0, 7, -2, 4, 2, 5, 1, 3, 0, -1, 2, 1, 1, 0, 3, 2, 4, 1, 1, 1, 0, 7, -2, 4]⟩

/-- The slice with index 3 of the first dimension. -/
def slice : Mesh 1 ℚ := ⟨fun _ => 5, [-2, 3, 1, 1, -2]⟩

/-- `permuted_dimensions` applies to the example. -/
example {g : InterpFn 2 ℚ ℚ} (hg : InterpFn.construct cfg 3 per data x = .ok g) :
    ∃ g', InterpFn.construct cfg 3 (fun d => per (Equiv.swap 0 1 d)) dataT (fun d => x (Equiv.swap 0 1 d)) = .ok g' ∧
      ∀ y, g'.call (fun d => y (Equiv.swap 0 1 d)) = g.call y := by
  obtain ⟨g', h1, h2, -⟩ := permuted_dimensions cfg (fm' := dataT) (by unfold Mesh.WF; decide) (by unfold Mesh.WF; decide)
    (valid 3 (by norm_num) (by norm_num)) (Equiv.swap 0 1) (fun _ => rfl) (fun a ha => by
      have h0 : a 0 < 5 := ha 0
      have h1 : a 1 < 5 := ha 1
      unfold Mesh.get
      rw [indexing_succ, indexing_succ, indexing_zero, indexing_succ, indexing_succ, indexing_zero]
      show rd dataT.storage (a 0 + 5 * (a 1 + 5 * 0)) = rd data.storage (a 1 + 5 * (a 0 + 5 * 0))
      generalize a 0 = i at *
      generalize a 1 = j at *
      interval_cases i <;> interval_cases j <;> rfl) hg
  exact ⟨g', h1, h2⟩

/-- `slice_at_node` applies to the example. -/
example {g : InterpFn 2 ℚ ℚ} (hg : InterpFn.construct cfg 3 per data x = .ok g) :
    ∃ g', InterpFn.construct cfg 3 (fun _ => true) slice (fun _ => .uniform (0 : ℚ) 4) = .ok g' ∧ ∀ y, g'.call y = g.call ((0 : Fin 2).insertNth 4 y) := by
  obtain ⟨g', h1, h2, -⟩ := slice_at_node cfg (fm' := slice) (by unfold Mesh.WF; decide) (by unfold Mesh.WF; decide)
    (valid 3 (by norm_num) (by norm_num)) hg 0 (k := 3) (by decide) (fun _ => rfl) (fun a ha => by
      have h0 : a 0 < 5 := ha 0
      unfold Mesh.get
      rw [indexing_succ, indexing_zero, indexing_succ, indexing_succ, indexing_zero]
      show rd slice.storage (a 0 + 5 * 0) = rd data.storage (a 0 + 5 * (3 + 5 * 0))
      generalize a 0 = i at *
      interval_cases i <;> rfl)
  refine ⟨g', ?_, h2⟩
  have e1 : (fun e : Fin 1 => per ((0 : Fin 2).succAbove e)) = fun _ => true := by decide
  have e2 : (fun e : Fin 1 => x ((0 : Fin 2).succAbove e)) = fun _ => .uniform (0 : ℚ) 4 := by
    funext e
    rw [Fin.fin_one_eq_zero e]
    rfl
  rw [e1, e2] at h1
  exact h1

/-- Values between data points of the transposed data, and of the slice. -/
example : (do
    let g ← InterpFn.construct (K := ℚ) cfg 3 ![true, false] dataT ![.uniform 0 4, .coords [0, 1, 3, 4, 6]]
    let u ← g.call ![1 / 2, 7 / 2]
    let h ← InterpFn.construct (K := ℚ) cfg 3 (fun _ => true) slice (fun _ => .uniform 0 4)
    let v ← h.call (fun _ => 1 / 2)
    let k ← InterpFn.construct cfg 3 per data x
    let w ← k.call ![4, 1 / 2]
    pure (u, decide (v = w)) : M (ℚ × Bool)) = .ok (135113 / 54272, true) := by decide +kernel

end InterpExample

end Intp
