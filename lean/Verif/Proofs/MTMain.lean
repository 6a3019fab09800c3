import Verif.Proofs.MTRefine
import Verif.Proofs.Uninit
import Verif.Proofs.Control

/-!
# The multi-threaded loop over the dimensions
-/

namespace Intp

open Prog Finset

variable {K V : Type} [ValArith V] [ScaleArith K V] {D : ℕ}

theorem Spec.any {α : Type} (m : M α) : Spec m (fun _ => True) fun _ => True := by
  cases m <;> trivial

/-- Continue after a step about which nothing is known. -/
theorem Spec.skip {α β : Type} {m : M α} {f : α → M β} {S : β → Prop} (h : ∀ a, Spec (f a) S fun _ => True) : Spec (m >>= f) S fun _ => True :=
  Spec.bind (Spec.any m) fun a _ => h a

/-! ## sizes of a constructed template -/

theorem BandMatrix.set_n (c : Cfg) (m : BandMatrix K) (i j : ℕ) (v : K) : Spec (m.set c i j v) (fun m' => m'.n = m.n) fun _ => True := by
  unfold BandMatrix.set
  exact Spec.skip fun _ => Spec.skip fun _ => Spec.skip fun _ => Spec.pure rfl

theorem ExtBandMatrix.mainSet_n (c : Cfg) (m : ExtBandMatrix K) (i j : ℕ) (v : K) :
    Spec (m.mainSet c i j v) (fun m' => m'.n = m.n) fun _ => True := by
  unfold ExtBandMatrix.mainSet
  exact Spec.skip fun _ => Spec.skip fun _ => Spec.skip fun _ => Spec.pure rfl

theorem ExtBandMatrix.sideSet_n (c : Cfg) (m : ExtBandMatrix K) (i j : ℕ) (v : K) :
    Spec (m.sideSet c i j v) (fun m' => m'.n = m.n) fun _ => True := by
  unfold ExtBandMatrix.sideSet
  exact Spec.skip fun _ => Spec.ite (fun _ => Spec.skip fun _ => Spec.skip fun _ => Spec.pure rfl)
    fun _ => Spec.skip fun _ => Spec.skip fun _ => Spec.pure rfl

/-- Number of unknowns of a matrix. -/
def CoefMat.dim : CoefMat K → ℕ
  | .band m => m.n
  | .ext m => m.n

namespace Fl

theorem matSet_n (w : Bool) (c : Cfg) (m : CoefMat K) (i j : ℕ) (v : K) : Spec (matSet w c m i j v) (fun m' => m'.dim = m.dim) fun _ => True := by
  cases m with
  | band m =>
    refine Spec.bind (Q := fun m' => m'.n = m.n) ?_ fun m' h => Spec.pure h
    unfold bandSet
    exact Spec.ite (fun _ => Spec.skip fun _ => Spec.skip fun _ => Spec.pure rfl) fun _ => m.set_n c i j v
  | ext m =>
    refine Spec.bind (Q := fun m' => m'.n = m.n) ?_ fun m' h => Spec.pure h
    unfold ExtBandMatrix.set
    exact Spec.ite (fun _ => m.sideSet_n c i j v) fun _ => m.mainSet_n c i j v

variable [CoordArith K]

theorem bandCompute_n (c : Cfg) (m : BandMatrix K) :
    Spec (bandCompute c m) (fun m' => m'.n = m.n ∧ 0 < m.n) fun _ => True := by
  unfold bandCompute
  refine Spec.bind (Q := fun _ => 0 < m.n) ?_ fun n1 hn => ?_
  · unfold subM; split
    · exact Spec.ok (by omega)
    · trivial
  refine Spec.imp (Spec.loop' (P := fun _ (m' : BandMatrix K) => m'.n = m.n) rfl fun k a _ _ ha => ?_) fun m' h => ⟨h, hn⟩
  refine Spec.bind (Q := fun m' => m'.n = m.n) (Spec.loop' (P := fun _ (m' : BandMatrix K) => m'.n = m.n) ha fun i a _ _ ha => ?_) fun a ha => ?_
  · exact Spec.skip fun _ => Spec.skip fun _ => Spec.skip fun _ => (a.set_n ..).imp fun _ h => h.trans ha
  · refine Spec.loop' (P := fun _ (m' : BandMatrix K) => m'.n = m.n) ha fun i a _ _ ha => ?_
    refine Spec.loop' (P := fun _ (m' : BandMatrix K) => m'.n = m.n) ha fun i a _ _ ha => ?_
    exact Spec.skip fun _ => Spec.skip fun _ => Spec.skip fun _ => (a.set_n ..).imp fun _ h => h.trans ha

theorem extCompute_n (c : Cfg) (m : ExtBandMatrix K) :
    Spec (extCompute c m) (fun m' => m'.n = m.n ∧ 0 < m.n) fun _ => True := by
  unfold extCompute
  refine Spec.bind (Q := fun _ => 0 < m.n) ?_ fun n1 hn => ?_
  · unfold subM; split
    · exact Spec.ok (by omega)
    · trivial
  refine Spec.imp (Spec.loop' (P := fun _ (m' : ExtBandMatrix K) => m'.n = m.n) rfl fun k a _ _ ha => ?_) fun m' h => ⟨h, hn⟩
  refine Spec.skip fun nq => Spec.skip fun np => ?_
  repeat' first
    | exact Spec.pure ‹_›
    | refine Spec.skip fun _ => (ExtBandMatrix.mainSet_n ..).imp fun _ h => h.trans ‹_›
    | refine Spec.skip fun _ => (ExtBandMatrix.sideSet_n ..).imp fun _ h => h.trans ‹_›
    | refine Spec.bind (Q := fun m' => m'.n = m.n) (Spec.loop' (P := fun _ (m' : ExtBandMatrix K) => m'.n = m.n) ‹_› fun i a _ _ ha => ?_)
        fun a ha => ?_
    | refine Spec.loop' (P := fun _ (m' : ExtBandMatrix K) => m'.n = m.n) ‹_› fun i a _ _ ha => ?_
    | refine Spec.skip fun _ => ?_
    | refine Spec.ite (fun _ => ?_) fun _ => ?_
    | exact (ExtBandMatrix.mainSet_n ..).imp fun _ h => h.trans ‹_›
    | exact (ExtBandMatrix.sideSet_n ..).imp fun _ h => h.trans ‹_›

theorem ofMat_dim (c : Cfg) (m : CoefMat K) : Spec (ofMat c m) (fun s => s.dim = m.dim ∧ 0 < m.dim) fun _ => True := by
  unfold ofMat
  cases m with
  | band m =>
    refine Spec.bind (Q := fun s => s.store.n = m.n ∧ 0 < m.n) ?_ fun s h => Spec.pure h
    unfold LUState.compute LUState.empty
    rw [if_neg (by simp)]
    exact Spec.bind (bandCompute_n c m) fun lu h => Spec.pure h
  | ext m =>
    refine Spec.bind (Q := fun s => s.store.n = m.n ∧ 0 < m.n) ?_ fun s h => Spec.pure h
    unfold LUState.compute LUState.empty
    rw [if_neg (by simp)]
    exact Spec.bind (extCompute_n c m) fun lu h => Spec.pure h

theorem coefMat_n (per : Bool) (n bw : ℕ) : Spec (coefMat (K := K) per n bw) (fun m => m.dim = n) fun _ => True := by
  unfold coefMat
  refine Spec.ite (fun _ => ?_) fun _ => Spec.pure rfl
  unfold ExtBandMatrix.mk'
  exact Spec.bind (Q := fun m => m.n = n) (Spec.skip fun _ => Spec.skip fun _ => Spec.pure rfl) fun m h => Spec.pure h

theorem assemble_n (w : Bool) (c : Cfg) (f : InterpFn D K V) (coords : List K) (d : Fin D) (n : ℕ) (vals : List K) :
    Spec (assemble w c f coords d n vals) (fun m => m.dim = n) fun _ => True := by
  unfold assemble
  refine Spec.bind (coefMat_n _ _ _) fun m hm => ?_
  refine Spec.bind (Q := fun st => st.1.dim = n) (Spec.loop' (P := fun _ (st : CoefMat K × List K) => st.1.dim = n) hm fun i st _ _ hst => ?_)
    fun st h => Spec.pure h
  unfold assembleBody
  refine Spec.ite (fun _ => ?_) fun _ => Spec.skip fun inner => Spec.skip fun r => ?_
  · exact Spec.bind (matSet_n ..) fun m h => Spec.pure (h.trans hst)
  · refine Spec.bind (Q := fun m => m.dim = n) ?_ fun m h => Spec.pure h
    unfold rowWrite
    refine Spec.loop' (P := fun _ (m : CoefMat K) => m.dim = n) hst fun j m _ _ hm => ?_
    exact Spec.skip fun _ => Spec.skip fun _ => Spec.skip fun _ => Spec.skip fun _ => (matSet_n ..).imp fun _ h => h.trans hm

/-- Every solver of a constructed template has as many unknowns as the mesh has points in its dimension, and at least one. -/
theorem constructT_dim {w : Bool} {c : Cfg} {o : ℕ} {per : Fin D → Bool} {dims : Fin D → ℕ} {x : Fin D → XRange K} {t : Template D K V}
    (h : constructT w c o per dims x = .ok t) : ∀ d, (t.solvers d).dim = t.dims d ∧ 0 < t.dims d := by
  have : Spec (constructT (V := V) w c o per dims x) (fun t => ∀ d, (t.solvers d).dim = t.dims d ∧ 0 < t.dims d) fun _ => True := by
    unfold constructT
    refine Spec.skip fun r => Spec.skip fun dims' => Spec.skip fun vals => ?_
    refine Spec.bind (Q := fun (s : Fin D → Solver K) => ∀ d, (s d).dim = dims' d ∧ 0 < dims' d)
      (tabM_spec (Q := fun d (s : Solver K) => s.dim = dims' d ∧ 0 < dims' d) fun d => ?_) fun s h => Spec.pure h
    exact Spec.bind (assemble_n ..) fun m hm => (ofMat_dim c m).imp fun s hs => by rw [hm] at hs; exact hs
  exact this.get h

theorem initWeights_shape {c : Cfg} {o : ℕ} {per : Fin D → Bool} {dims : Fin D → ℕ} {fm w : Mesh D V}
    (h : initWeights c o per dims fm = .ok w) : w.dims = dims ∧ w.size = ∏ d, dims d := by
  have : Spec (initWeights c o per dims fm) (fun w => w.dims = dims ∧ w.size = ∏ d, dims d) fun _ => True := by
    unfold initWeights
    refine Spec.loop' (P := fun _ (w : Mesh D V) => w.dims = dims ∧ w.size = ∏ d, dims d)
      ⟨rfl, by simp [Mesh.mk', Mesh.size, dimsSize_eq]⟩ fun pos w _ _ hw => ?_
    refine Spec.skip fun a => Spec.skip fun r => Spec.ite (fun _ => Spec.skip fun v => ?_) fun _ => Spec.pure hw
    unfold Mesh.set wr
    split
    · exact Spec.ok ⟨hw.1, by simp only [Mesh.size, List.length_set]; exact hw.2⟩
    · trivial
  exact this.get h

omit [CoordArith K] in
/-- The contents of new memory do not matter. -/
theorem solveForControlPointsJ_eq (c : Cfg) (junk0 : ℕ → V) (junk : ℕ → ℕ → V) (t : Template (D + 1) K V) (fm : Mesh (D + 1) V) :
    solveForControlPointsJ c junk0 junk t fm = solveForControlPoints c t fm := by
  unfold solveForControlPointsJ solveForControlPoints
  cases hw : initWeights c t.base.spline.order t.base.periodicity t.dims fm with
  | error e => rfl
  | ok w =>
    rw [ok_bind, ok_bind]
    by_cases hD : D = 0
    · subst hD
      rfl
    · simp only [if_neg hD, ← solveDimsJ_zero]
      apply MRel.eq
      have hsh := initWeights_shape hw
      have := solveDimsJ_aux c t.solvers junk (fun _ _ => 0) hD (List.finRange (D + 1)) 0 (by simp)
        (w, (Mesh.mk' fun _ => 1).resizeJ t.dims junk0) (w, (Mesh.mk' fun _ => 1).resize t.dims 0) rfl
        (by show w.size = ∏ d, w.dims d; rw [hsh.2, hsh.1])
      refine MRel.bind this ?_
      intro r r' h
      rw [List.length_finRange, Nat.zero_add] at h
      by_cases hp : (D + 1) % 2 = 0
      · rw [if_pos hp] at h
        rw [if_pos (Or.inl hp), if_pos (Or.inl hp)]
        exact h
      · rw [if_neg hp] at h
        rw [if_neg (by tauto), if_neg (by tauto)]
        exact h

end Fl

/-! ## the sequential loop, dimension by dimension -/

namespace Template

/-- Body of the sequential loop over the dimensions. -/
def dimBody (c : Cfg) (solvers : Fin (D + 1) → Solver K) (junk : ℕ → ℕ → V) (st : Mesh (D + 1) V × Mesh (D + 1) V) (d : Fin (D + 1)) :
    M (Mesh (D + 1) V × Mesh (D + 1) V) :=
  if d.val % 2 = 0 then Fl.solveDimJ c (solvers d.rev) (junk d.val) st
  else do
    let r ← Fl.solveDimJ c (solvers d.rev) (junk d.val) (st.2, st.1)
    pure (r.2, r.1)

/-- The first `k` dimensions. -/
def upto (c : Cfg) (solvers : Fin (D + 1) → Solver K) (junk : ℕ → ℕ → V) (st : Mesh (D + 1) V × Mesh (D + 1) V) (k : ℕ) : M (Mesh (D + 1) V × Mesh (D + 1) V) :=
  ((List.finRange (D + 1)).take k).foldlM (dimBody c solvers junk) st

theorem upto_succ (c : Cfg) (solvers : Fin (D + 1) → Solver K) (junk : ℕ → ℕ → V) (st : Mesh (D + 1) V × Mesh (D + 1) V) {k : ℕ} (hk : k < D + 1) :
    upto c solvers junk st (k + 1) = upto c solvers junk st k >>= fun s => dimBody c solvers junk s ⟨k, hk⟩ := by
  unfold upto
  rw [List.take_add_one, List.getElem?_eq_getElem (by simpa using hk)]
  simp only [List.getElem_finRange, Option.toList_some, List.foldlM_append, List.foldlM_cons, List.foldlM_nil, bind_pure]
  rfl

theorem upto_all (c : Cfg) (solvers : Fin (D + 1) → Solver K) (junk : ℕ → ℕ → V) (st : Mesh (D + 1) V × Mesh (D + 1) V) :
    upto c solvers junk st (D + 1) = Fl.solveDimsJ c solvers junk st := by
  unfold upto Fl.solveDimsJ
  rw [List.take_of_length_le (by simp)]
  rfl

theorem upto_error (c : Cfg) (solvers : Fin (D + 1) → Solver K) (junk : ℕ → ℕ → V) (st : Mesh (D + 1) V × Mesh (D + 1) V) {k : ℕ} (hk : k ≤ D + 1) {r}
    (h : Fl.solveDimsJ c solvers junk st = .ok r) : ∃ r', upto c solvers junk st k = .ok r' := by
  rw [← upto_all] at h
  obtain ⟨n, hn⟩ := Nat.exists_eq_add_of_le hk
  induction n generalizing k with
  | zero => exact ⟨r, by rw [show k = D + 1 by omega]; exact h⟩
  | succ n ih =>
    obtain ⟨r', hr⟩ := ih (k := k + 1) (by omega) (by omega)
    rw [upto_succ c solvers junk st (show k < D + 1 by omega)] at hr
    cases hu : upto c solvers junk st k with
    | ok r'' => exact ⟨r'', rfl⟩
    | error e => rw [hu] at hr; cases hr

/-- Number of lines, and the two meshes of dimension `d` when its tasks start. -/
def forkMeshes (junk : ℕ → ℕ → V) (st : Mesh (D + 1) V × Mesh (D + 1) V) (d : ℕ) : Mesh (D + 1) V × Mesh (D + 1) V :=
  let o := if d % 2 = 0 then st.1 else st.2
  let n := if d % 2 = 0 then st.2 else st.1
  (o, if D = 0 then n else n.resizeJ (rightShift o.dims) (junk d))

/-- Memory operations of dimension `d`. -/
noncomputable def phaseCost (c : Cfg) (solvers : Fin (D + 1) → Solver K) (bn : ℕ → ℕ) (junk : ℕ → ℕ → V) (st : Mesh (D + 1) V × Mesh (D + 1) V) (d : ℕ) : ℕ :=
  if hd : d < D + 1 then
    match upto c solvers junk st d with
    | .error _ => 0
    | .ok s =>
      let om := forkMeshes junk s d
      let hp := ∏ i : Fin D, om.1.dims i.castSucc
      ∑ i ∈ range (bn hp + 1), (blocks c (solvers (Fin.rev ⟨d, hd⟩)) om.1 om.2 (bn hp) hp i).cost (toMem om)
  else 0

end Template

namespace MTState

open Template

/-- Shape of the mesh `old_weight` of dimension `d`. -/
def Shape (dims : Fin (D + 1) → ℕ) (m : Mesh (D + 1) V) (d : ℕ) : Prop := m.dims = rightShift^[d] dims ∧ m.size = ∏ e, m.dims e

/-- What holds after `n` steps. -/
inductive MInv (c : Cfg) (solvers : Fin (D + 1) → Solver K) (bn : ℕ → ℕ) (junk : ℕ → ℕ → V) (dims : Fin (D + 1) → ℕ) (st : Mesh (D + 1) V × Mesh (D + 1) V) :
    ℕ → MTState D V → Prop
  | idle (n : ℕ) (s : MTState D V) : s.thr = none → s.d ≤ D + 1 → upto c solvers junk st s.d = .ok (s.bufs false, s.bufs true) →
      (s.d < D + 1 → Shape dims (s.mesh false) s.d) → n = ∑ d ∈ range s.d, (2 + phaseCost c solvers bn junk st d) → MInv c solvers bn junk dims st n s
  | running (n : ℕ) (s : MTState D V) (hd : s.d < D + 1) (th : ℕ → Prog V Unit) (s0 : Mesh (D + 1) V × Mesh (D + 1) V) (hp : ℕ)
      (old new : Mesh (D + 1) V) : s.thr = some th →
      upto c solvers junk st s.d = .ok s0 → (old, new) = forkMeshes junk s0 s.d → Shape dims old s.d → hp = ∏ i : Fin D, old.dims i.castSucc →
      divN old.size (old.dims (Fin.last D)) = .ok hp →
      (s.mesh false).dims = old.dims → (s.mesh true).dims = new.dims →
      PInv (BlockCells old.dims (bn hp) hp) (blocks c (solvers (Fin.rev ⟨s.d, hd⟩)) old new (bn hp) hp) (toMem (old, new)) th s.mem →
      (∀ i, bn hp < i → th i = .ret ()) →
      n + ∑ i ∈ range (bn hp + 1), (th i).cost s.mem = ∑ d ∈ range s.d, (2 + phaseCost c solvers bn junk st d) + (1 + phaseCost c solvers bn junk st s.d) →
      MInv c solvers bn junk dims st n s

theorem mesh_of_even (s : MTState D V) (h : s.d % 2 = 0) (b : Bool) : s.mesh b = s.bufs b := by
  unfold mesh
  rw [show decide (s.d % 2 = 1) = false by simp [h]]
  simp

theorem mesh_of_odd (s : MTState D V) (h : s.d % 2 = 1) (b : Bool) : s.mesh b = s.bufs (!b) := by
  unfold mesh
  rw [show decide (s.d % 2 = 1) = true by simp [h]]
  simp

theorem setMem_mesh (s : MTState D V) (m : Bool → List V) (b : Bool) : (s.setMem m).mesh b = ⟨(s.mesh b).dims, m b⟩ := by
  unfold mesh setMem
  simp

theorem setMem_mem (s : MTState D V) (m : Bool → List V) : (s.setMem m).mem = m := by
  funext b
  unfold mem
  rw [setMem_mesh]

theorem forkMeshes_bufs (junk : ℕ → ℕ → V) (s : MTState D V) : forkMeshes junk (s.bufs false, s.bufs true) s.d =
    (s.mesh false, if D = 0 then s.mesh true else (s.mesh true).resizeJ (rightShift (s.mesh false).dims) (junk s.d)) := by
  unfold forkMeshes
  rcases Nat.mod_two_eq_zero_or_one s.d with h | h
  · simp [mesh_of_even s h, h]
  · simp [mesh_of_odd s h, h]

theorem dimBody_eq (c : Cfg) (solvers : Fin (D + 1) → Solver K) (junk : ℕ → ℕ → V) (st : Mesh (D + 1) V × Mesh (D + 1) V) (d : Fin (D + 1)) {hp : ℕ}
    (h : divN (forkMeshes junk st d).1.size ((forkMeshes junk st d).1.dims (Fin.last D)) = .ok hp) :
    dimBody c solvers junk st d = Fl.solveBlock c (solvers d.rev) 0 hp (forkMeshes junk st d) >>= fun r =>
      .ok (if d.val % 2 = 0 then r else (r.2, r.1)) := by
  unfold dimBody
  rcases Nat.mod_two_eq_zero_or_one d.val with hd | hd
  · rw [if_pos hd]
    simp only [forkMeshes, if_pos hd] at h ⊢
    unfold Fl.solveDimJ
    rw [h, ok_bind]
    change Fl.solveBlock c (solvers d.rev) 0 hp _ = _
    cases Fl.solveBlock c (solvers d.rev) 0 hp (st.1, if D = 0 then st.2 else st.2.resizeJ (rightShift st.1.dims) (junk d.val)) <;> rfl
  · have hd' : ¬ d.val % 2 = 0 := by omega
    rw [if_neg hd']
    simp only [forkMeshes, if_neg hd'] at h ⊢
    unfold Fl.solveDimJ
    simp only
    rw [h, ok_bind]
    rfl

theorem Shape.lines {dims : Fin (D + 1) → ℕ} (hpos : ∀ d, 0 < dims d) {m : Mesh (D + 1) V} {d : ℕ} (h : Shape dims m d) :
    (∀ e, 0 < m.dims e) ∧ divN m.size (m.dims (Fin.last D)) = .ok (∏ i : Fin D, m.dims i.castSucc) := by
  have hp : ∀ e, 0 < m.dims e := by rw [h.1]; exact rightShift_pos hpos d
  refine ⟨hp, ?_⟩
  rw [h.2, divN_ok (hp _).ne', Fin.prod_univ_castSucc, Nat.mul_div_cancel _ (hp _)]

theorem iter_last {dims : Fin (D + 1) → ℕ} {d : ℕ} (hd : d < D + 1) : (rightShift^[d] dims) (Fin.last D) = dims (Fin.rev ⟨d, hd⟩) := by
  rw [rightShift_iter, Function.comp_apply, rotIx_iter_last d (by omega)]

variable {c : Cfg} {solvers : Fin (D + 1) → Solver K} {bn : ℕ → ℕ} {junk : ℕ → ℕ → V} {dims : Fin (D + 1) → ℕ} {st : Mesh (D + 1) V × Mesh (D + 1) V}

theorem blocks_ret (s : Solver K) (old new : Mesh (D + 1) V) (k hp i : ℕ) (h : k + 1 ≤ i) : blocks c s old new k hp i = .ret () := by
  unfold blocks
  rw [if_neg (by omega), if_neg (by omega)]

/-- Confinement of the blocks of dimension `d`. -/
theorem fork_conf (hpos : ∀ d, 0 < dims d) (hs : ∀ d, (solvers d).dim = dims d) {d : ℕ} (hd : d < D + 1) {s0 : Mesh (D + 1) V × Mesh (D + 1) V}
    {old new : Mesh (D + 1) V} (hf : (old, new) = forkMeshes junk s0 d) (hsh : Shape dims old d) (k i : ℕ) :
    (blocks c (solvers (Fin.rev ⟨d, hd⟩)) old new k (∏ i : Fin D, old.dims i.castSucc) i).Conf
      (BlockCells old.dims k (∏ i : Fin D, old.dims i.castSucc) i) := by
  refine blocks_conf c (hsh.lines hpos).1 ?_ ?_ k i
  · rw [hs, hsh.1, iter_last hd]
  · intro hD
    have h1 := congrArg Prod.fst hf
    have h2 := congrArg Prod.snd hf
    simp only [forkMeshes] at h1 h2
    rw [h2, if_neg hD, h1]
    rfl

theorem MInv.step (hpos : ∀ d, 0 < dims d) (hs : ∀ d, (solvers d).dim = dims d) {n : ℕ} {s s' : MTState D V} (h : MInv c solvers bn junk dims st n s)
    (hstep : Step c solvers bn junk s s') : MInv c solvers bn junk dims st (n + 1) s' := by
  cases hstep with
  | fork hd hp new hthr hnew hdiv =>
    cases h with
    | running hd' th s0 hp' old new' h1 => rw [h1] at hthr; cases hthr
    | idle h1 h2 h3 h4 h5 =>
      have hsh := h4 hd
      have hfm := forkMeshes_bufs junk s
      rw [← hnew] at hfm
      have hl := (hsh.lines hpos).2
      have hhp : hp = ∏ i : Fin D, (s.mesh false).dims i.castSucc := by rw [hl] at hdiv; injection hdiv with e; exact e.symm
      have hmesh : ∀ b, (MTState.mesh ⟨s.d, fun x => if (x ^^ decide (s.d % 2 = 1)) then new else s.mesh false,
          some (Template.blocks c (solvers (Fin.rev ⟨s.d, hd⟩)) (s.mesh false) new (bn hp) hp)⟩ b) = if b then new else s.mesh false := by
        intro b
        simp only [MTState.mesh]
        simp
      have hmem : (MTState.mem ⟨s.d, fun x => if (x ^^ decide (s.d % 2 = 1)) then new else s.mesh false,
          some (Template.blocks c (solvers (Fin.rev ⟨s.d, hd⟩)) (s.mesh false) new (bn hp) hp)⟩) = toMem (s.mesh false, new) := by
        funext b
        unfold MTState.mem
        rw [hmesh]
        rfl
      have hcost : phaseCost c solvers bn junk st s.d = ∑ i ∈ range (bn hp + 1),
          (blocks c (solvers (Fin.rev ⟨s.d, hd⟩)) (s.mesh false) new (bn hp) hp i).cost (toMem (s.mesh false, new)) := by
        unfold phaseCost
        rw [dif_pos hd, h3]
        simp only [hfm]
        rw [← hhp]
      refine .running (n + 1) _ hd _ (s.bufs false, s.bufs true) hp (s.mesh false) new rfl h3 hfm.symm hsh hhp (by rw [hl, hhp])
        (by rw [hmesh]; rfl) (by rw [hmesh]; rfl) ?_ ?_ ?_
      · rw [hmem]
        apply PInv.init
        intro i
        subst hhp
        exact fork_conf hpos hs hd hfm.symm hsh _ i
      · intro i hi
        exact blocks_ret _ _ _ _ _ _ hi
      · rw [hmem, ← hcost, h5]
        show _ = ∑ d ∈ range s.d, (2 + phaseCost c solvers bn junk st d) + (1 + phaseCost c solvers bn junk st s.d)
        omega
  | op th i p m hthr hop =>
    cases h with
    | idle h1 => rw [h1] at hthr; cases hthr
    | running hd th' s0 hp old new h1 h2 h3 h4 h5 h6 h7 h8 h9 h10 h11 =>
      rw [h1] at hthr; injection hthr with hthr; subst hthr
      obtain ⟨k1, k2, k3⟩ := h9.step (BlockCells.disj old.dims (bn hp) hp) hop
      have hi : i ≤ bn hp := by
        by_contra hc
        rw [h10 i (by omega)] at hop
        simp [Prog.step] at hop
      have hmem : MTState.mem { s.setMem m with thr := some (Function.update th' i p) } = m := setMem_mem s m
      have hmesh : ∀ b, MTState.mesh { s.setMem m with thr := some (Function.update th' i p) } b = ⟨(s.mesh b).dims, m b⟩ := setMem_mesh s m
      refine .running (n + 1) _ hd _ s0 hp old new rfl h2 h3 h4 h5 h6 (by rw [hmesh]; exact h7) (by rw [hmesh]; exact h8) ?_ ?_ ?_
      · rw [hmem]; exact k1
      · intro j hj
        rw [Function.update_of_ne (by omega)]
        exact h10 j hj
      · rw [hmem]
        have e : ∀ (f : ℕ → ℕ), ∑ j ∈ range (bn hp + 1), f j = f i + ∑ j ∈ (range (bn hp + 1)).erase i, f j :=
          fun f => (Finset.add_sum_erase _ _ (mem_range.2 (by omega))).symm
        rw [e] at h11 ⊢
        rw [Function.update_self]
        rw [sum_congr rfl fun j hj => by rw [Function.update_of_ne (Finset.ne_of_mem_erase hj), k3 j (Finset.ne_of_mem_erase hj)]]
        show n + 1 + _ = ∑ d ∈ range s.d, (2 + phaseCost c solvers bn junk st d) + (1 + phaseCost c solvers bn junk st s.d)
        omega
  | join th hthr hret =>
    cases h with
    | idle h1 => rw [h1] at hthr; cases hthr
    | running hd th' s0 hp old new h1 h2 h3 h4 h5 h6 h7 h8 h9 h10 h11 =>
      rw [h1] at hthr; injection hthr with hthr; subst hthr
      have hconf : ∀ i, (blocks c (solvers (Fin.rev ⟨s.d, hd⟩)) old new (bn hp) hp i).Conf (BlockCells old.dims (bn hp) hp i) := by
        subst h5
        exact fun i => fork_conf hpos hs hd h3 h4 _ i
      have hseq := h9.ret (BlockCells.disj old.dims (bn hp) hp) hconf (n := bn hp + 1) (fun i hi => blocks_ret _ _ _ _ _ _ hi) hret
      rw [seq_blocks] at hseq
      cases hsb : Fl.solveBlock c (solvers (Fin.rev ⟨s.d, hd⟩)) 0 hp (old, new) with
      | error e => rw [hsb] at hseq; cases hseq
      | ok r =>
        rw [hsb, ok_bind] at hseq
        injection hseq with hseq
        have hd1 := solveBlock_dims hsb
        have hr1 : r.1 = s.mesh false := by
          have e1 : r.1.storage = (s.mesh false).storage := congrFun hseq false
          have e2 : r.1.dims = (s.mesh false).dims := hd1.1.trans h7.symm
          cases hr : r.1; cases hm : s.mesh false
          rw [hr, hm] at e1 e2
          simp only at e1 e2
          rw [e1, e2]
        have hr2 : r.2 = s.mesh true := by
          have e1 : r.2.storage = (s.mesh true).storage := congrFun hseq true
          have e2 : r.2.dims = (s.mesh true).dims := hd1.2.trans h8.symm
          cases hr : r.2; cases hm : s.mesh true
          rw [hr, hm] at e1 e2
          simp only at e1 e2
          rw [e1, e2]
        have hfm1 : (forkMeshes junk s0 s.d).1 = old := by rw [← h3]
        have hbody := dimBody_eq c solvers junk s0 ⟨s.d, hd⟩ (hp := hp) (by rw [hfm1]; exact h6)
        rw [← h3, hsb, ok_bind] at hbody
        have hup := upto_succ c solvers junk st hd
        rw [h2, ok_bind, hbody] at hup
        refine .idle (n + 1) _ rfl (by show s.d + 1 ≤ D + 1; omega) ?_ ?_ ?_
        · show upto c solvers junk st (s.d + 1) = _
          rw [hup]
          congr 1
          rcases Nat.mod_two_eq_zero_or_one s.d with hm | hm
          · rw [if_pos hm, ← mesh_of_even s hm, ← mesh_of_even s hm, ← hr1, ← hr2]
          · rw [if_neg (by show ¬ s.d % 2 = 0; omega)]
            have := mesh_of_odd s hm
            rw [show s.bufs false = s.mesh true by rw [this]; rfl, show s.bufs true = s.mesh false by rw [this]; rfl, ← hr1, ← hr2]
        · intro hlt
          have hD : D ≠ 0 := by
            rintro rfl
            have : s.d + 1 < 0 + 1 := hlt
            omega
          have hnew : MTState.mesh { s with d := s.d + 1, thr := none } false = s.mesh true := by
            rcases Nat.mod_two_eq_zero_or_one s.d with hm | hm
            · rw [mesh_of_odd _ (by show (s.d + 1) % 2 = 1; omega), mesh_of_even s hm]; rfl
            · rw [mesh_of_even _ (by show (s.d + 1) % 2 = 0; omega), mesh_of_odd s hm]; rfl
          have hndims : new.dims = rightShift old.dims := by
            have e1 := congrArg Prod.fst h3
            have e2 := congrArg Prod.snd h3
            simp only [forkMeshes] at e1 e2
            rw [e2, if_neg hD, e1]
            rfl
          have hnsize : new.size = ∏ e, new.dims e := by
            have e2 := congrArg Prod.snd h3
            simp only [forkMeshes, if_neg hD] at e2
            rw [e2]
            simp [Mesh.size, Mesh.resizeJ, dimsSize_eq]
            omega
          rw [hnew]
          refine ⟨?_, ?_⟩
          · rw [h8, hndims, h4.1]
            show _ = rightShift^[s.d + 1] dims
            rw [Function.iterate_succ', Function.comp_apply]
          · rw [h8, ← hnsize]
            exact h9.out.1 true
        · show n + 1 = ∑ d ∈ range (s.d + 1), (2 + phaseCost c solvers bn junk st d)
          rw [Finset.sum_range_succ]
          have : ∑ i ∈ range (bn hp + 1), (th' i).cost s.mem = 0 := by
            apply Finset.sum_eq_zero
            intro i _
            rw [hret i]; rfl
          omega

theorem MInv.exec (hpos : ∀ d, 0 < dims d) (hs : ∀ d, (solvers d).dim = dims d) (hst : st.1.dims = dims ∧ st.1.size = ∏ d, dims d) {n : ℕ}
    {s : MTState D V} (h : Exec c solvers bn junk n (start st.1 st.2) s) : MInv c solvers bn junk dims st n s := by
  generalize hs0 : start st.1 st.2 = s0 at h
  induction h with
  | refl =>
    subst hs0
    refine .idle 0 _ rfl (Nat.zero_le _) rfl (fun _ => ?_) rfl
    rw [mesh_of_even _ rfl]
    exact ⟨hst.1, by rw [hst.1.symm] at hst; exact hst.2⟩
  | tail _ hstep ih => exact (ih hs0).step hpos hs hstep

theorem MInv.done {n : ℕ} {s : MTState D V} (h : MInv c solvers bn junk dims st n s) (hd : s.Done) :
    Fl.solveDimsJ c solvers junk st = .ok (s.bufs false, s.bufs true) := by
  cases h with
  | idle h1 h2 h3 h4 h5 => rw [← upto_all, ← h3, hd.1]
  | running hd' th s0 hp old new h1 => rw [hd.2] at h1; cases h1

theorem MInv.no_race {n : ℕ} {s : MTState D V} (h : MInv c solvers bn junk dims st n s) : ¬ s.Race := by
  rintro ⟨th, i, j, b, k, w, w', hthr, hij, hi, hj, -⟩
  cases h with
  | idle h1 => rw [h1] at hthr; cases hthr
  | running hd th' s0 hp old new h1 h2 h3 h4 h5 h6 h7 h8 h9 =>
    rw [h1] at hthr; injection hthr with hthr; subst hthr
    exact hij (BlockCells.disj old.dims (bn hp) hp i j b k (next_conf (h9.conf i) hi) (next_conf (h9.conf j) hj))

theorem MInv.bound {n : ℕ} {s : MTState D V} (h : MInv c solvers bn junk dims st n s) : n ≤ ∑ d ∈ range (D + 1), (2 + phaseCost c solvers bn junk st d) := by
  cases h with
  | idle h1 h2 h3 h4 h5 =>
    rw [h5]
    exact Finset.sum_le_sum_of_subset (Finset.range_subset_range.2 h2)
  | running hd th s0 hp old new h1 h2 h3 h4 h5 h6 h7 h8 h9 h10 h11 =>
    have : ∑ d ∈ range (s.d + 1), (2 + phaseCost c solvers bn junk st d) ≤ ∑ d ∈ range (D + 1), (2 + phaseCost c solvers bn junk st d) :=
      Finset.sum_le_sum_of_subset (Finset.range_subset_range.2 (by omega))
    rw [Finset.sum_range_succ] at this
    omega

theorem MInv.progress (hpos : ∀ d, 0 < dims d) (hs : ∀ d, (solvers d).dim = dims d) {n : ℕ} {s : MTState D V}
    (h : MInv c solvers bn junk dims st n s) {r} (hr : Fl.solveDimsJ c solvers junk st = .ok r) :
    ¬ s.Failed ∧ (s.Done ∨ ∃ s', Step c solvers bn junk s s') := by
  cases h with
  | idle h1 h2 h3 h4 h5 =>
    refine ⟨?_, ?_⟩
    · rintro ⟨th, i, hthr, -⟩
      rw [h1] at hthr; cases hthr
    · rcases Nat.lt_or_ge s.d (D + 1) with hd | hd
      · right
        exact ⟨_, Step.fork s hd _ _ h1 rfl ((h4 hd).lines hpos).2⟩
      · left
        exact ⟨by omega, h1⟩
  | running hd th s0 hp old new h1 h2 h3 h4 h5 h6 h7 h8 h9 h10 h11 =>
    have hconf : ∀ i, (blocks c (solvers (Fin.rev ⟨s.d, hd⟩)) old new (bn hp) hp i).Conf (BlockCells old.dims (bn hp) hp i) := by
      subst h5
      exact fun i => fork_conf hpos hs hd h3 h4 _ i
    have hseq : ∃ m1, seq (blocks c (solvers (Fin.rev ⟨s.d, hd⟩)) old new (bn hp) hp) (bn hp + 1) (toMem (old, new)) = .ok m1 := by
      obtain ⟨r', hr'⟩ := upto_error c solvers junk st (k := s.d + 1) (by omega) hr
      have hfm1 : (forkMeshes junk s0 s.d).1 = old := by rw [← h3]
      have hbody := dimBody_eq c solvers junk s0 ⟨s.d, hd⟩ (hp := hp) (by rw [hfm1]; exact h6)
      rw [← h3] at hbody
      have hup := upto_succ c solvers junk st hd
      rw [h2, ok_bind, hbody, hr'] at hup
      rw [seq_blocks]
      cases hsb : Fl.solveBlock c (solvers (Fin.rev ⟨s.d, hd⟩)) 0 hp (old, new) with
      | ok r => exact ⟨_, rfl⟩
      | error e => rw [hsb] at hup; cases hup
    obtain ⟨m1, hm1⟩ := hseq
    have hns := h9.not_stuck (BlockCells.disj old.dims (bn hp) hp) hconf (n := bn hp + 1) (fun i hi => blocks_ret _ _ _ _ _ _ hi) hm1
    refine ⟨?_, Or.inr ?_⟩
    · rintro ⟨th', i, hthr, hne, hst⟩
      rw [h1] at hthr; injection hthr with hthr; subst hthr
      obtain ⟨r, hr⟩ := hns i (hne ())
      rw [hr] at hst; cases hst
    · by_cases hall : ∀ i, th i = .ret ()
      · exact ⟨_, Step.join s th h1 hall⟩
      · push Not at hall
        obtain ⟨i, hi⟩ := hall
        obtain ⟨⟨p, m⟩, hr⟩ := hns i hi
        exact ⟨_, Step.op s th i p m h1 hr⟩

end MTState

end Intp
