import Verif.Proofs.SolveSweep

/-!
# Control points of an interpolation
-/

namespace Intp

open Finset

variable {K V : Type} [Field K] [LinearOrder K] [IsStrictOrderedRing K] [FloorRing K] [AddCommGroup V] [Module K V] {D : ℕ}

namespace Template

/-- Where the value of data point `a` goes in `weights`. -/
def shiftIx (o : ℕ) (per : Fin D → Bool) (dims a : Fin D → ℕ) : Fin D → ℕ := fun d => (a d + rowShift o (per d)) % dims d

theorem shiftIx_inRange {o : ℕ} {per : Fin D → Bool} {dims a : Fin D → ℕ} (h : ∀ d, 0 < dims d) : InRange dims (shiftIx o per dims a) :=
  fun d => Nat.mod_lt _ (h d)

theorem shiftIx_inj {o : ℕ} {per : Fin D → Bool} {dims a b : Fin D → ℕ} (ha : InRange dims a) (hb : InRange dims b)
    (h : shiftIx o per dims a = shiftIx o per dims b) : a = b := by
  funext d
  exact rowShift_inj (ha d) (hb d) (congrFun h d)

theorem weightIndex_ok (c : Cfg) {o : ℕ} {per : Fin D → Bool} {dims a : Fin D → ℕ} (hpos : ∀ d, 0 < dims d)
    (ha : ∀ d, a d < dims d + if per d && !c.noDummy then 1 else 0) :
    weightIndex c o per dims a = .ok (decide (InRange dims a), shiftIx o per dims a) := by
  apply Ok.eq
  unfold weightIndex
  refine Spec.imp (Spec.foldFin (P := fun k acc => acc = (decide (∀ d : Fin D, d.val < k → a d < dims d),
    fun d => if d.val < k then (a d + rowShift o (per d)) % dims d else a d)) ?_ ?_) ?_
  · simp
  · rintro d acc rfl
    simp only [lt_irrefl, if_false]
    have hupd : ∀ v, v = (a d + rowShift o (per d)) % dims d →
        Function.update (fun e : Fin D => if e.val < d.val then (a e + rowShift o (per e)) % dims e else a e) d v =
        fun e => if e.val < d.val + 1 then (a e + rowShift o (per e)) % dims e else a e := by
      rintro v rfl
      funext e
      by_cases he : e = d
      · subst he; rw [Function.update_self, if_pos (Nat.lt_succ_self _)]
      · have : e.val ≠ d.val := fun h => he (Fin.ext h)
        rw [Function.update_of_ne he]
        by_cases h : e.val < d.val
        · rw [if_pos h, if_pos (by omega)]
        · rw [if_neg h, if_neg (by omega)]
    have hdec : ∀ b : Bool, b = decide (a d < dims d) →
        (decide (∀ e : Fin D, e.val < d.val → a e < dims e) && b) = decide (∀ e : Fin D, e.val < d.val + 1 → a e < dims e) := by
      rintro b rfl
      rw [← Bool.decide_and]
      apply decide_eq_decide.2
      constructor
      · rintro ⟨h1, h2⟩ e he
        by_cases h : e = d
        · subst h; exact h2
        · exact h1 e (by have : e.val ≠ d.val := fun h' => h (Fin.ext h'); omega)
      · intro h
        exact ⟨fun e he => h e (by omega), h d (Nat.lt_succ_self _)⟩
    by_cases hp : per d = true
    · rw [if_pos hp, modM_ok (hpos d).ne', ok_bind]
      refine Spec.pure ?_
      rw [hupd _ ?_, hdec _ ?_]
      · have := ha d
        rw [hp] at this
        cases hn : c.noDummy
        · rw [hn] at this
          simp only [Bool.not_false, Bool.and_self, if_true] at this
          rw [Bool.false_or]
          apply decide_eq_decide.2
          omega
        · rw [hn] at this
          simp only [Bool.not_true, Bool.and_false, Bool.false_eq_true, if_false, Nat.add_zero] at this
          simp [this]
      · rw [show rowShift o (per d) = o / 2 by unfold rowShift; rw [if_pos hp]]
        rw [show a d + dims d + o / 2 = a d + o / 2 + dims d by omega, Nat.add_mod_right]
    · have hp' : per d = false := by simpa using hp
      rw [if_neg hp]
      refine Spec.pure ?_
      have had : a d < dims d := by have := ha d; rw [hp'] at this; simpa using this
      have h1 := hdec true (by simp [had])
      rw [Bool.and_true] at h1
      rw [h1, ← hupd (a d) ?_]
      · rw [Prod.mk.injEq]
        refine ⟨rfl, ?_⟩
        symm
        rw [Function.update_eq_self_iff, if_neg (lt_irrefl _)]
      · unfold rowShift
        rw [hp', if_neg (by simp), Nat.add_zero, Nat.mod_eq_of_lt had]
  · rintro acc rfl
    rw [Prod.mk.injEq]
    refine ⟨decide_eq_decide.2 ⟨fun h d => h d d.isLt, fun h d _ => h d⟩, ?_⟩
    funext d
    simp only [if_pos d.isLt, shiftIx]

omit [Field K] [LinearOrder K] [IsStrictOrderedRing K] [FloorRing K] [Module K V] in
theorem initWeights_spec (c : Cfg) {o : ℕ} {per : Fin D → Bool} {dims : Fin D → ℕ} {fm : Mesh D V} {f : (Fin D → ℕ) → V}
    (hpos : ∀ d, 0 < dims d) (hd : ∀ d, fm.dims d = dims d + if per d && !c.noDummy then 1 else 0) (hf : fm.Holds fm.dims f) :
    Ok (initWeights c o per dims fm) fun w => ∃ W, w.Holds dims W ∧ ∀ a, InRange dims a → W (shiftIx o per dims a) = f a := by
  have hfpos : ∀ d, 0 < fm.dims d := fun d => by rw [hd]; have := hpos d; omega
  have hsize : fm.size = ∏ d, fm.dims d := hf.2.1
  unfold initWeights
  refine Spec.imp (Spec.loop (P := fun pos w => ∃ W, w.Holds dims W ∧ ∀ a, InRange dims a → indexing fm.dims a < pos →
    W (shiftIx o per dims a) = f a) (Nat.zero_le _) ⟨_, Mesh.mk'_holds dims, fun a _ h => absurd h (by omega)⟩ ?_) ?_
  · rintro pos w - hp ⟨W, hW, hWf⟩
    rw [hsize] at hp
    unfold Mesh.iterIndices
    rw [dimwiseIndices_ok hfpos, ok_bind]
    set a := decode fm.dims pos with ha
    have har : InRange fm.dims a := decode_inRange hfpos
    have hia : indexing fm.dims a = pos := indexing_decode hp
    rw [weightIndex_ok c hpos (fun d => by rw [← hd]; exact har d), ok_bind]
    by_cases hk : InRange dims a
    · rw [if_pos (by simpa using hk)]
      have hrd : rd fm.storage pos = .ok (f a) := by
        have := hf.get har
        unfold Mesh.get at this
        rwa [hia] at this
      rw [hrd, ok_bind]
      obtain ⟨w', e, hw'⟩ := hW.set (shiftIx_inRange (o := o) (per := per) (a := a) hpos) (f a)
      rw [e]
      refine Spec.ok ⟨_, hw', fun b hb hlt => ?_⟩
      by_cases hba : b = a
      · subst hba; rw [Function.update_self]
      · rw [Function.update_of_ne (fun hc => hba (shiftIx_inj hb hk hc))]
        refine hWf b hb ?_
        have hbr : InRange fm.dims b := fun d => by rw [hd]; have := hb d; omega
        have : indexing fm.dims b ≠ pos := fun hc => hba (indexing_inj hbr har (hc.trans hia.symm))
        omega
    · rw [if_neg (by simpa using hk)]
      refine Spec.pure ⟨W, hW, fun b hb hlt => hWf b hb ?_⟩
      have hbr : InRange fm.dims b := fun d => by rw [hd]; have := hb d; omega
      have : indexing fm.dims b ≠ pos := by
        intro hc
        have := indexing_inj hbr har (hc.trans hia.symm)
        rw [this] at hb
        exact hk hb
      omega
  · rintro w ⟨W, hW, hWf⟩
    refine ⟨W, hW, fun a ha => hWf a ha ?_⟩
    rw [hsize]
    exact indexing_lt fun d => by rw [hd]; have := ha d; omega

open BSpline in
omit [IsStrictOrderedRing K] [FloorRing K] in
/-- `solve_for_control_points_`. -/
theorem solveForControlPoints_spec (c : Cfg) {t : Template (D + 1) K V} {A : Fin (D + 1) → ℕ → ℕ → K} {fm : Mesh (D + 1) V}
    {f : (Fin (D + 1) → ℕ) → V} (hpos : ∀ d, 0 < t.dims d) (hs : ∀ d, (t.solvers d).Solves V c (t.dims d) (A d))
    (hd : ∀ d, fm.dims d = t.dims d + if t.base.periodicity d && !c.noDummy then 1 else 0) (hf : fm.Holds fm.dims f) :
    Spec (t.solveForControlPoints c fm) (fun w => (∀ d, Regular (t.dims d) (A d)) ∧ ∃ C, w.Holds t.dims C ∧
      ∀ a, InRange t.dims a →
        tensorVal t.dims (fun d => A d ((a d + rowShift t.base.spline.order (t.base.periodicity d)) % t.dims d)) C = f a)
      (fun e => ∃ d, PivotErr (t.dims d) (A d) e) := by
  unfold solveForControlPoints
  refine Spec.bind (Ok.toSpec (initWeights_spec c hpos hd hf)) ?_
  rintro w ⟨W, hW, hWf⟩
  refine Spec.bind (solveDims_spec (A := A) c hpos hs hW (fun hD => ?_)) ?_
  · simp only [if_pos hD]; simp [Mesh.mk']
  · rintro st ⟨hreg, C, hC, hT⟩
    refine Spec.ite (fun h => ?_) (fun h => ?_)
    · rw [if_pos h] at hC
      refine Spec.pure ⟨hreg, C, hC, fun a ha => ?_⟩
      rw [← hWf a ha]
      exact hT _ (shiftIx_inRange hpos)
    · rw [if_neg h] at hC
      refine Spec.pure ⟨hreg, C, hC, fun a ha => ?_⟩
      rw [← hWf a ha]
      exact hT _ (shiftIx_inRange hpos)

/-! ## uniqueness -/

omit [LinearOrder K] [IsStrictOrderedRing K] [FloorRing K] in
/-- A regular matrix has a left inverse. -/
theorem Regular.leftInv {n : ℕ} (hn : 0 < n) {A : ℕ → ℕ → K} (h : Regular n A) :
    ∃ B : ℕ → ℕ → K, ∀ i < n, ∀ j < n, ∑ k ∈ range n, B i k * A k j = if i = j then 1 else 0 := by
  have hdet : (lead A n).det ≠ 0 := by
    have := h (n - 1) (by omega)
    rwa [show n - 1 + 1 = n by omega] at this
  have hu : IsUnit (lead A n).det := isUnit_iff_ne_zero.2 hdet
  refine ⟨fun i k => if hi : i < n then if hk : k < n then (lead A n)⁻¹ ⟨i, hi⟩ ⟨k, hk⟩ else 0 else 0, fun i hi j hj => ?_⟩
  have := congrFun (congrFun (Matrix.nonsing_inv_mul (lead A n) hu) ⟨i, hi⟩) ⟨j, hj⟩
  rw [Matrix.mul_apply, Matrix.one_apply] at this
  rw [← Fin.sum_univ_eq_sum_range (fun k => (if hi : i < n then if hk : k < n then (lead A n)⁻¹ ⟨i, hi⟩ ⟨k, hk⟩ else 0 else 0) * A k j) n]
  simp only [Fin.mk.injEq] at this
  rw [← this]
  refine sum_congr rfl fun k _ => ?_
  rw [dif_pos hi, dif_pos k.isLt]
  rfl

open BSpline in
omit [LinearOrder K] [IsStrictOrderedRing K] [FloorRing K] in
/-- Tensor-product systems with left-invertible factors. -/
theorem tensor_inv {dims : Fin D → ℕ} {A B : Fin D → ℕ → ℕ → K} {C W : (Fin D → ℕ) → V}
    (hB : ∀ d, ∀ i < dims d, ∀ j < dims d, ∑ k ∈ range (dims d), B d i k * A d k j = if i = j then 1 else 0)
    (h : ∀ r, InRange dims r → tensorVal dims (fun d => A d (r d)) C = W r) {J : Fin D → ℕ} (hJ : InRange dims J) :
    C J = tensorVal dims (fun d => B d (J d)) W := by
  have e : tensorVal dims (fun d => B d (J d)) W = ∑ r ∈ box dims, (∏ d, B d (J d) (r d)) • ∑ a ∈ box dims, (∏ d, A d (r d) (a d)) • C a := by
    unfold tensorVal
    refine sum_congr rfl fun r hr => ?_
    rw [← h r (mem_box.1 hr)]; rfl
  rw [e]
  simp only [Finset.smul_sum, smul_smul, ← Finset.prod_mul_distrib]
  rw [Finset.sum_comm]
  have e2 : ∀ a ∈ box dims, ∑ r ∈ box dims, (∏ d, B d (J d) (r d) * A d (r d) (a d)) • C a =
      (∏ d, if J d = a d then (1 : K) else 0) • C a := by
    intro a ha
    rw [← Finset.sum_smul]
    congr 1
    refine (Finset.prod_univ_sum (fun d => range (dims d)) fun d k => B d (J d) k * A d k (a d)).symm.trans ?_
    exact prod_congr rfl fun d _ => hB d _ (hJ d) _ (mem_box.1 ha d)
  rw [sum_congr rfl e2]
  symm
  have := tensor_delta (K := K) hJ C
  unfold tensorVal at this
  rw [← this]
  refine sum_congr rfl fun a _ => ?_
  congr 1
  refine prod_congr rfl fun d _ => ?_
  simp only [eq_comm]

end Template

end Intp
