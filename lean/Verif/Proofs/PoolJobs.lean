import Verif.Proofs.ForkJoin
import Verif.Proofs.CellLayout

/-!
# The two uses of the pool: solving for the control points, filling the cell container
-/

namespace Intp

open Prog Finset

section

variable {K V : Type} [ValArith V] [ScaleArith K V] {D : ℕ}

open Template MTState

variable {c : Cfg} {solvers : Fin (D + 1) → Solver K} {bn : ℕ → ℕ} {junk : ℕ → ℕ → V} {dims : Fin (D + 1) → ℕ} {st : Mesh (D + 1) V × Mesh (D + 1) V}

omit [ValArith V] in
theorem conf_true {α : Type} : ∀ p : Prog V α, p.Conf fun _ _ => True
  | .ret _ => trivial
  | .fail _ => trivial
  | .read _ _ k => ⟨trivial, fun v => conf_true (k v)⟩
  | .write _ _ _ k => ⟨trivial, conf_true k⟩

theorem solveBlock_size {sv : Solver K} {b e : ℕ} {s r : Mesh (D + 1) V × Mesh (D + 1) V} (h : Fl.solveBlock c sv b e s = .ok r) :
    r.1.size = s.1.size ∧ r.2.size = s.2.size := by
  have h1 := solveBlockP_exec c sv s.1 s.2 b e s rfl rfl
  rw [h, ok_bind] at h1
  have := (exec_frame (conf_true _) h1).1
  exact ⟨this false, this true⟩

theorem solveJob_start (hpos : ∀ d, 0 < dims d) {s : ℕ × Mesh (D + 1) V × Mesh (D + 1) V} (hd : s.1 < D + 1)
    (hs : Shape dims (forkMeshes junk s.2 s.1).1 s.1) : (solveJob c solvers bn junk).start s = .ok (some
      ⟨bn (∏ i : Fin D, (forkMeshes junk s.2 s.1).1.dims i.castSucc),
        blocks c (solvers (Fin.rev ⟨s.1, hd⟩)) (forkMeshes junk s.2 s.1).1 (forkMeshes junk s.2 s.1).2 (bn (∏ i : Fin D, (forkMeshes junk s.2 s.1).1.dims i.castSucc))
          (∏ i : Fin D, (forkMeshes junk s.2 s.1).1.dims i.castSucc),
        toMem (forkMeshes junk s.2 s.1)⟩) := by
  have hdiv := (hs.lines hpos).2
  unfold solveJob
  simp only
  rw [dif_pos hd]
  unfold forkMeshes at hdiv ⊢
  simp only at hdiv ⊢
  rw [hdiv, ok_bind, pure_eq_ok]
  congr 3
  funext b
  cases b <;> rfl

theorem solveJob_end {s : ℕ × Mesh (D + 1) V × Mesh (D + 1) V} (hd : ¬ s.1 < D + 1) : (solveJob c solvers bn junk).start s = .ok none := by
  unfold solveJob
  simp only
  rw [dif_neg hd]
  rfl

theorem solveJob_finish {s : ℕ × Mesh (D + 1) V × Mesh (D + 1) V} {sv : Solver K} {b e : ℕ} {r : Mesh (D + 1) V × Mesh (D + 1) V}
    (h : Fl.solveBlock c sv b e (forkMeshes junk s.2 s.1) = .ok r) :
    (solveJob c solvers bn junk).finish s (toMem r) = (s.1 + 1, if s.1 % 2 = 0 then r else (r.2, r.1)) := by
  obtain ⟨h1, h2⟩ := solveBlock_dims h
  have e1 : (⟨(forkMeshes junk s.2 s.1).1.dims, r.1.storage⟩ : Mesh (D + 1) V) = r.1 := by rw [← h1]
  have e2 : (⟨if D = 0 then (if s.1 % 2 = 0 then s.2.2 else s.2.1).dims else rightShift (forkMeshes junk s.2 s.1).1.dims, r.2.storage⟩ : Mesh (D + 1) V) = r.2 := by
    have : (if D = 0 then (if s.1 % 2 = 0 then s.2.2 else s.2.1).dims else rightShift (forkMeshes junk s.2 s.1).1.dims) = r.2.dims := by
      rw [h2]
      unfold forkMeshes
      simp only
      by_cases hD : D = 0
      · rw [if_pos hD, if_pos hD]
      · rw [if_neg hD, if_neg hD]; rfl
    rw [this]
  unfold solveJob
  simp only
  refine Prod.ext rfl ?_
  show (if s.1 % 2 = 0 then _ else _) = _
  have f1 : (⟨(if s.1 % 2 = 0 then s.2.1 else s.2.2).dims, toMem r false⟩ : Mesh (D + 1) V) = r.1 := e1
  have f2 : (⟨if D = 0 then (if s.1 % 2 = 0 then s.2.2 else s.2.1).dims else rightShift (if s.1 % 2 = 0 then s.2.1 else s.2.2).dims,
      toMem r true⟩ : Mesh (D + 1) V) = r.2 := e2
  rw [f1, f2]

/-- States of the job between the dimensions. -/
def SolveInv (c : Cfg) (solvers : Fin (D + 1) → Solver K) (junk : ℕ → ℕ → V) (dims : Fin (D + 1) → ℕ) (st : Mesh (D + 1) V × Mesh (D + 1) V)
    (s : ℕ × Mesh (D + 1) V × Mesh (D + 1) V) : Prop :=
  s.1 ≤ D + 1 ∧ upto c solvers junk st s.1 = .ok s.2 ∧ (s.1 < D + 1 → Shape dims (forkMeshes junk s.2 s.1).1 s.1)

theorem SolveInv.init (hst : st.1.dims = dims ∧ st.1.size = ∏ d, dims d) : SolveInv c solvers junk dims st (0, st) :=
  ⟨Nat.zero_le _, rfl, fun _ => ⟨hst.1, by rw [hst.1.symm] at hst; exact hst.2⟩⟩

theorem SolveInv.body (hpos : ∀ d, 0 < dims d) {s : ℕ × Mesh (D + 1) V × Mesh (D + 1) V} (h : SolveInv c solvers junk dims st s) (hd : s.1 < D + 1) :
    upto c solvers junk st (s.1 + 1) = Fl.solveBlock c (solvers (Fin.rev ⟨s.1, hd⟩)) 0 (∏ i : Fin D, (forkMeshes junk s.2 s.1).1.dims i.castSucc)
      (forkMeshes junk s.2 s.1) >>= fun r => .ok (if s.1 % 2 = 0 then r else (r.2, r.1)) := by
  rw [upto_succ c solvers junk st hd, h.2.1, ok_bind, dimBody_eq c solvers junk s.2 ⟨s.1, hd⟩ ((h.2.2 hd).lines hpos).2]

theorem SolveInv.step (hpos : ∀ d, 0 < dims d) {s : ℕ × Mesh (D + 1) V × Mesh (D + 1) V}
    (h : SolveInv c solvers junk dims st s) (hd : s.1 < D + 1) {r : Mesh (D + 1) V × Mesh (D + 1) V}
    (hr : Fl.solveBlock c (solvers (Fin.rev ⟨s.1, hd⟩)) 0 (∏ i : Fin D, (forkMeshes junk s.2 s.1).1.dims i.castSucc) (forkMeshes junk s.2 s.1) = .ok r) :
    SolveInv c solvers junk dims st ((solveJob c solvers bn junk).finish s (toMem r)) := by
  rw [solveJob_finish hr]
  refine ⟨hd, ?_, fun hlt => ?_⟩
  · show upto c solvers junk st (s.1 + 1) = .ok (if s.1 % 2 = 0 then r else (r.2, r.1))
    rw [h.body hpos hd, hr, ok_bind]
  · have hlt : s.1 + 1 < D + 1 := hlt
    have hD : D ≠ 0 := by omega
    have hsh := h.2.2 hd
    have e : (forkMeshes junk (if s.1 % 2 = 0 then r else (r.2, r.1)) (s.1 + 1)).1 = r.2 := by
      unfold forkMeshes
      simp only
      rcases Nat.mod_two_eq_zero_or_one s.1 with hm | hm
      · rw [if_neg (by omega), if_pos hm]
      · rw [if_pos (by omega), if_neg (by omega)]
    obtain ⟨d1, d2⟩ := solveBlock_dims hr
    have hnd : (forkMeshes junk s.2 s.1).2.dims = rightShift (forkMeshes junk s.2 s.1).1.dims := by
      unfold forkMeshes
      simp only
      rw [if_neg hD]
      rfl
    have hns : (forkMeshes junk s.2 s.1).2.size = ∏ e, (forkMeshes junk s.2 s.1).2.dims e := by
      unfold forkMeshes
      simp only
      rw [if_neg hD]
      simp [Mesh.size, Mesh.resizeJ, dimsSize_eq]
      omega
    show Shape dims (forkMeshes junk (if s.1 % 2 = 0 then r else (r.2, r.1)) (s.1 + 1)).1 (s.1 + 1)
    rw [e]
    refine ⟨?_, ?_⟩
    · rw [d2, hnd, hsh.1, Function.iterate_succ', Function.comp_apply]
    · rw [d2, ← hns]
      exact (solveBlock_size hr).2

theorem SolveInv.indep (hpos : ∀ d, 0 < dims d) (hs : ∀ d, (solvers d).dim = dims d) {s : ℕ × Mesh (D + 1) V × Mesh (D + 1) V}
    (h : SolveInv c solvers junk dims st s) {r : Region V} (hr : (solveJob c solvers bn junk).start s = .ok (some r)) : r.Indep := by
  have hd : s.1 < D + 1 := by
    by_contra hd
    rw [solveJob_end hd] at hr
    simp at hr
  rw [solveJob_start hpos hd (h.2.2 hd)] at hr
  simp only [Except.ok.injEq, Option.some.injEq] at hr
  subst hr
  refine ⟨_, BlockCells.disj _ _ _, fun i => fork_conf hpos hs hd rfl (h.2.2 hd) _ i, fun i hi => blocks_ret _ _ _ _ _ _ hi⟩

theorem SolveInv.seq (hpos : ∀ d, 0 < dims d) {s s' : ℕ × Mesh (D + 1) V × Mesh (D + 1) V}
    (h : SolveInv c solvers junk dims st s) (hs : (solveJob c solvers bn junk).Seq s s') : SolveInv c solvers junk dims st s' := by
  induction hs with
  | refl => exact h
  | @tail t r m _ hst hm ih =>
    have hd : t.1 < D + 1 := by
      by_contra hd
      rw [solveJob_end hd] at hst
      simp at hst
    rw [solveJob_start hpos hd (ih.2.2 hd)] at hst
    simp only [Except.ok.injEq, Option.some.injEq] at hst
    subst hst
    rw [seq_blocks] at hm
    cases hsb : Fl.solveBlock c (solvers (Fin.rev ⟨t.1, hd⟩)) 0 (∏ i : Fin D, (forkMeshes junk t.2 t.1).1.dims i.castSucc) (forkMeshes junk t.2 t.1) with
    | error e =>
      have : Fl.solveBlock c (solvers (Fin.rev ⟨t.1, hd⟩)) 0 (∏ i : Fin D, (forkMeshes junk t.2 t.1).1.dims i.castSucc) ((forkMeshes junk t.2 t.1).1, (forkMeshes junk t.2 t.1).2) = .error e := hsb
      rw [this] at hm; cases hm
    | ok r =>
      have : Fl.solveBlock c (solvers (Fin.rev ⟨t.1, hd⟩)) 0 (∏ i : Fin D, (forkMeshes junk t.2 t.1).1.dims i.castSucc) ((forkMeshes junk t.2 t.1).1, (forkMeshes junk t.2 t.1).2) = .ok r := hsb
      rw [this, ok_bind] at hm
      injection hm with hm
      rw [← hm]
      exact ih.step hpos hd hsb

theorem SolveInv.run (hpos : ∀ d, 0 < dims d) (W : ℕ) {rr : Mesh (D + 1) V × Mesh (D + 1) V} (hrr : Fl.solveDimsJ c solvers junk st = .ok rr) (k : ℕ) :
    ∀ {s : ℕ × Mesh (D + 1) V × Mesh (D + 1) V}, SolveInv c solvers junk dims st s → s.1 + k = D + 1 →
      ∃ N, (solveJob c solvers bn junk).Run W s (D + 1, rr) N := by
  induction k with
  | zero =>
    intro s h hk
    refine ⟨0, ?_⟩
    have e : s = (D + 1, rr) := by
      have h1 := h.2.1
      rw [show s.1 = D + 1 by omega, upto_all, hrr] at h1
      injection h1 with h1
      exact Prod.ext (by show s.1 = D + 1; omega) h1.symm
    rw [e]
    exact .done (solveJob_end (by simp))
  | succ k ih =>
    intro s h hk
    have hd : s.1 < D + 1 := by omega
    have hup := h.body hpos hd
    obtain ⟨r', hr'⟩ := upto_error c solvers junk st (k := s.1 + 1) (by omega) hrr
    rw [hr'] at hup
    cases hsb : Fl.solveBlock c (solvers (Fin.rev ⟨s.1, hd⟩)) 0 (∏ i : Fin D, (forkMeshes junk s.2 s.1).1.dims i.castSucc) (forkMeshes junk s.2 s.1) with
    | error e => rw [hsb] at hup; cases hup
    | ok r =>
      have hst := solveJob_start (c := c) (solvers := solvers) (bn := bn) (junk := junk) hpos hd (h.2.2 hd)
      obtain ⟨N, hN⟩ := ih (h.step (bn := bn) (junk := junk) hpos hd hsb) (by
        show s.1 + 1 + k = D + 1
        omega)
      refine ⟨_, .step hst ?_ hN⟩
      rw [seq_blocks]
      have : Fl.solveBlock c (solvers (Fin.rev ⟨s.1, hd⟩)) 0 (∏ i : Fin D, (forkMeshes junk s.2 s.1).1.dims i.castSucc) ((forkMeshes junk s.2 s.1).1, (forkMeshes junk s.2 s.1).2) = .ok r := hsb
      rw [this, ok_bind]

end

/-! ## cell container -/

namespace Cell

variable {V : Type} {D : ℕ}

/-- `p` does to buffer `true` what `f` does to a mesh of dimensions `cd`. -/
def FillRef (cd : Fin (D + 2) → ℕ) (p : Prog V Unit) (f : Mesh (D + 2) V → M (Mesh (D + 2) V)) : Prop :=
  ∀ m : Bool → List V, (p.exec m = f ⟨cd, m true⟩ >>= fun r => .ok ((), Function.update m true r.storage)) ∧
    ∀ r, f ⟨cd, m true⟩ = .ok r → r.dims = cd

theorem FillRef.loop {cd : Fin (D + 2) → ℕ} {lo hi : ℕ} {p : ℕ → Prog V Unit} {f : ℕ → Mesh (D + 2) V → M (Mesh (D + 2) V)}
    (h : ∀ i, FillRef cd (p i) (f i)) : FillRef cd (Prog.loop lo hi p) fun cell => Intp.loop lo hi cell f := by
  unfold Prog.loop Intp.loop
  generalize hi - lo = n
  induction n generalizing lo with
  | zero =>
    intro m
    refine ⟨?_, fun r hr => ?_⟩
    · simp only [Prog.loopN, Intp.loopN, exec, ok_bind, Function.update_eq_self]
    · simp only [Intp.loopN] at hr
      injection hr with hr
      rw [← hr]
  | succ n ih =>
    intro m
    simp only [Prog.loopN, Intp.loopN, exec_bind]
    obtain ⟨h1, h2⟩ := h lo m
    rw [h1]
    cases hf : f lo ⟨cd, m true⟩ with
    | error e => exact ⟨rfl, fun r hr => by simp [error_bind] at hr⟩
    | ok r =>
      have hr := h2 r hf
      have e : r = ⟨cd, (Function.update m true r.storage) true⟩ := by
        rw [Function.update_self, ← hr]
      simp only [ok_bind]
      obtain ⟨h3, h4⟩ := ih (lo := lo + 1) (Function.update m true r.storage)
      rw [← e] at h3 h4
      refine ⟨?_, h4⟩
      rw [h3]
      simp only [Function.update_idem]

theorem FillRef.lift {α : Type} {cd : Fin (D + 2) → ℕ} {x : M α} {p : α → Prog V Unit} {f : α → Mesh (D + 2) V → M (Mesh (D + 2) V)}
    (h : ∀ a, FillRef cd (p a) (f a)) : FillRef cd (Prog.lift x p) fun cell => x >>= fun a => f a cell := by
  intro m
  rw [exec_lift]
  cases x with
  | error e => exact ⟨rfl, fun r hr => by simp [error_bind] at hr⟩
  | ok a => simp only [ok_bind]; exact h a m

theorem FillRef.write {cd : Fin (D + 2) → ℕ} (a : Fin (D + 2) → ℕ) (v : V) :
    FillRef cd (.write true (indexing cd a) v (.ret ())) fun cell => cell.set a v := by
  intro m
  rw [exec_write_wr]
  unfold Mesh.set
  simp only [exec_ret]
  cases hw : wr (m true) (indexing cd a) v with
  | error e => refine ⟨by simp only [error_bind], fun r hr => by simp [error_bind] at hr⟩
  | ok l =>
    simp only [ok_bind, pure_eq_ok]
    refine ⟨trivial, fun r hr => ?_⟩
    injection hr with hr
    rw [← hr]

theorem FillRef.congr {cd : Fin (D + 2) → ℕ} {p : Prog V Unit} {f g : Mesh (D + 2) V → M (Mesh (D + 2) V)} (h : FillRef cd p f)
    (e : ∀ cell, cell.dims = cd → g cell = f cell) : FillRef cd p g := by
  intro m
  rw [e _ rfl]
  exact h m

/-- The body of the loop over the lines, for a mesh of dimensions `cd`. -/
theorem fillP_ref (c : Cfg) (order lineSize : ℕ) (ctrl : Mesh (D + 1) V) (cell : Mesh (D + 2) V) (b e : ℕ) :
    FillRef cell.dims (fillP c order lineSize ctrl cell b e) (fill c order lineSize ctrl b e) := by
  unfold fillP fill
  refine FillRef.loop fun h => ?_
  refine FillRef.congr (f := fun x => dimwiseIndices cell.dims (h * lineSize) >>= fun a =>
    cell.lineBegin c (Fin.last D).castSucc a >>= fun it =>
    Intp.loop 0 (cell.dims (Fin.last D).castSucc) x fun k y => (cell.iterIndices (it.1 + k * it.2)) >>= fun ci =>
      Intp.loop 0 (dimsSize fun _ : Fin D => order + 1) y fun i z => dimwiseIndices (fun _ : Fin D => order + 1) i >>= fun sh =>
        source ctrl.dims ci sh >>= fun cp => ctrl.get cp >>= fun v => z.set (Function.update ci (Fin.last (D + 1)) i) v) ?_ ?_
  · refine FillRef.lift fun a => FillRef.lift fun it => FillRef.loop fun k => FillRef.lift fun ci => FillRef.loop fun i => FillRef.lift fun sh =>
      FillRef.lift fun cp => FillRef.lift fun v => FillRef.write _ _
  · intro x hx
    have e1 : ∀ a, x.lineBegin c (Fin.last D).castSucc a = cell.lineBegin c (Fin.last D).castSucc a := fun a => by unfold Mesh.lineBegin; rw [hx]
    simp only [hx, e1]
    congr 1; funext a
    congr 1; funext it
    -- the inner loops keep the dimensions
    have key : ∀ (n lo : ℕ) (y : Mesh (D + 2) V), y.dims = cell.dims →
        Intp.loopN n lo y (fun k y => y.iterIndices (it.1 + k * it.2) >>= fun ci => fillPoint order ctrl ci y) =
        Intp.loopN n lo y (fun k y => cell.iterIndices (it.1 + k * it.2) >>= fun ci => fillPoint order ctrl ci y) := by
      intro n
      induction n with
      | zero => intro lo y _; rfl
      | succ n ih =>
        intro lo y hy
        simp only [Intp.loopN]
        have e2 : y.iterIndices (it.1 + lo * it.2) = cell.iterIndices (it.1 + lo * it.2) := by unfold Mesh.iterIndices; rw [hy]
        rw [e2]
        cases hci : cell.iterIndices (it.1 + lo * it.2) with
        | error e => rfl
        | ok ci =>
          simp only [ok_bind]
          cases hfp : fillPoint order ctrl ci y with
          | error e => rfl
          | ok y' =>
            simp only [ok_bind]
            refine ih _ _ ?_
            have hspec : Spec (fillPoint order ctrl ci y) (fun y' => y'.dims = cell.dims) fun _ => True := by
              unfold fillPoint
              refine Spec.loop' (P := fun _ (y' : Mesh (D + 2) V) => y'.dims = cell.dims) hy fun i z _ _ hz => ?_
              refine Spec.skip fun sh => Spec.skip fun cp => Spec.skip fun v => ?_
              unfold Mesh.set
              exact Spec.skip fun l => Spec.pure hz
            exact hspec.get hfp
    exact key _ _ _ hx

/-- The blocks, one after the other, are the whole loop. -/
theorem seq_fillBlocks (c : Cfg) (order lineSize : ℕ) (ctrl : Mesh (D + 1) V) (cell : Mesh (D + 2) V) (bn hs : ℕ) (m : Bool → List V)
    (hm : m true = cell.storage) : seq (fillBlocks c order lineSize ctrl cell bn hs) (bn + 1) m =
      fill c order lineSize ctrl 0 hs cell >>= fun r => .ok (Function.update m true r.storage) := by
  have hcell : (⟨cell.dims, m true⟩ : Mesh (D + 2) V) = cell := by rw [hm]
  have step : ∀ b e, b ≤ e → ∀ {th : ℕ → Prog V Unit} {i : ℕ}, th i = fillP c order lineSize ctrl cell b e →
      seq th i m = (fill c order lineSize ctrl 0 b cell >>= fun r => .ok (Function.update m true r.storage)) →
      seq th (i + 1) m = fill c order lineSize ctrl 0 e cell >>= fun r => .ok (Function.update m true r.storage) := by
    intro b e hbe th i hth hi
    have happ : fill c order lineSize ctrl 0 e cell = fill c order lineSize ctrl 0 b cell >>= fun st => fill c order lineSize ctrl b e st :=
      Template.loop_append _ _ _ (Nat.zero_le _) hbe _ _
    unfold Prog.seq
    rw [hi, happ]
    cases hf : fill c order lineSize ctrl 0 b cell with
    | error e => rfl
    | ok r =>
      simp only [ok_bind]
      have hr : r.dims = cell.dims := by
        have := (fillP_ref c order lineSize ctrl cell 0 b m).2 r
        rw [hcell] at this
        exact this hf
      have h1 := (fillP_ref c order lineSize ctrl cell b e (Function.update m true r.storage)).1
      rw [Function.update_self] at h1
      have e1 : (⟨cell.dims, r.storage⟩ : Mesh (D + 2) V) = r := by rw [← hr]
      rw [e1] at h1
      rw [hth, h1]
      cases fill c order lineSize ctrl b e r with
      | error e => rfl
      | ok r' => simp only [ok_bind, Function.update_idem]; rfl
  have key : ∀ i ≤ bn, seq (fillBlocks c order lineSize ctrl cell bn hs) i m =
      fill c order lineSize ctrl 0 (i * Template.taskPerBlock bn hs) cell >>= fun r => .ok (Function.update m true r.storage) := by
    intro i
    induction i with
    | zero =>
      intro _
      rw [Nat.zero_mul]
      show Except.ok m = (.ok (Function.update m true cell.storage) : M _)
      rw [← hm, Function.update_eq_self]
    | succ i ih =>
      intro hi
      refine step _ _ (Nat.mul_le_mul_right _ (Nat.le_succ i)) ?_ (ih (by omega))
      unfold fillBlocks
      rw [if_pos (by omega)]
  refine step _ _ (Template.blocks_le bn hs) ?_ (key bn le_rfl)
  unfold fillBlocks
  rw [if_neg (by omega), if_pos rfl]

/-- Elements written by block `i`. -/
def FillCells (lineSize bn hs i : ℕ) (b : Bool) (t : ℕ) : Prop := b = true ∧ Template.InBlock bn hs i (t / lineSize)

theorem FillCells.disj (lineSize bn hs : ℕ) : Disj (FillCells lineSize bn hs) := by
  rintro i i' b t ⟨-, h1⟩ ⟨-, h2⟩
  exact h1.unique h2

theorem fillP_conf (c : Cfg) (order : ℕ) (ctrl : Mesh (D + 1) V) {cell : Mesh (D + 2) V} (hcd : ∀ d, 0 < cell.dims d)
    (hL : cell.dims (Fin.last (D + 1)) = (order + 1) ^ D) {bn i b e : ℕ}
    (hb : ∀ j, b ≤ j → j < e → Template.InBlock bn (∏ d : Fin D, cell.dims d.castSucc.castSucc) i j) :
    (fillP c order (cell.dims (Fin.last D).castSucc * cell.dims (Fin.last (D + 1))) ctrl cell b e).Conf
      (FillCells (cell.dims (Fin.last D).castSucc * cell.dims (Fin.last (D + 1))) bn (∏ d : Fin D, cell.dims d.castSucc.castSucc) i) := by
  set cd := cell.dims with hcd'
  set L := (order + 1) ^ D with hLd
  set n1 := cd (Fin.last D).castSucc with hn1
  have hL0 : 0 < L := by rw [← hL]; exact hcd _
  have h10 : 0 < n1 := hcd _
  have hp := dims_prod cd
  rw [hL, ← hn1] at hp
  rw [hL]
  unfold fillP
  refine Conf.loop fun h hh1 hh2 => ?_
  have hin := hb h hh1 hh2
  have hlt := hin.lt
  have hle : h * (n1 * L) + n1 * L ≤ ∏ d, cd d := by
    rw [hp]
    calc h * (n1 * L) + n1 * L = (h + 1) * (n1 * L) := by ring
      _ ≤ _ := Nat.mul_le_mul_right _ hlt
  have hnL : 0 < n1 * L := Nat.mul_pos h10 hL0
  refine Conf.lift fun a ha => ?_
  rw [← hcd', dimwiseIndices_ok hcd] at ha
  injection ha with ha
  subst ha
  have hz : Function.update (decode cd (h * (n1 * L))) (Fin.last D).castSucc 0 = decode cd (h * (n1 * L)) := by
    rw [Function.update_eq_self_iff, decode_castSucc, decode_last, hL, ← mul_assoc, Nat.mul_div_cancel _ hL0]
    show 0 = h * n1 % n1
    simp
  refine Conf.lift fun it hit => ?_
  rw [Mesh.lineBegin_ok c cell _ (by rw [← hcd', hz]; exact decode_inRange hcd), ← hcd', hz, indexing_decode (by omega)] at hit
  have hst : stride cd (Fin.last D).castSucc = L := by rw [stride_castSucc, stride_last, one_mul, hL]
  rw [hst] at hit
  injection hit with hit
  subst hit
  refine Conf.loop fun k _ hk => ?_
  refine Conf.lift fun ci hci => ?_
  have hm : h * (n1 * L) + k * L = (h * n1 + k) * L := by ring
  have hkl : (k + 1) * L ≤ n1 * L := Nat.mul_le_mul_right _ hk
  have hkl' : (k + 1) * L = k * L + L := by ring
  unfold Mesh.iterIndices at hci
  rw [← hcd', dimwiseIndices_ok hcd] at hci
  injection hci with hci
  subst hci
  refine Conf.loop fun i' _ hi' => ?_
  rw [dimsSize_eq, prod_const, card_univ, Fintype.card_fin] at hi'
  refine Conf.lift fun sh _ => Conf.lift fun cp _ => Conf.lift fun v _ => ?_
  refine ⟨⟨rfl, ?_⟩, trivial⟩
  show Template.InBlock bn _ i (indexing cd (Function.update (decode cd (h * (n1 * L) + k * L)) (Fin.last (D + 1)) i') / (n1 * L))
  rw [hm, decode_add hL hi', ← hm, indexing_decode (by omega)]
  have : (h * (n1 * L) + k * L + i') / (n1 * L) = h := by
    rw [add_assoc, Nat.mul_comm h, Nat.mul_add_div hnL, Nat.div_eq_of_lt (by omega), add_zero]
  rw [this]
  exact hin

theorem fillBlocks_conf (c : Cfg) (order : ℕ) (ctrl : Mesh (D + 1) V) {cell : Mesh (D + 2) V} (hcd : ∀ d, 0 < cell.dims d)
    (hL : cell.dims (Fin.last (D + 1)) = (order + 1) ^ D) (bn i : ℕ) :
    (fillBlocks c order (cell.dims (Fin.last D).castSucc * cell.dims (Fin.last (D + 1))) ctrl cell bn (∏ d : Fin D, cell.dims d.castSucc.castSucc) i).Conf
      (FillCells (cell.dims (Fin.last D).castSucc * cell.dims (Fin.last (D + 1))) bn (∏ d : Fin D, cell.dims d.castSucc.castSucc) i) := by
  unfold fillBlocks
  split
  · rename_i hi
    exact fillP_conf c order ctrl hcd hL fun j h1 h2 => by unfold Template.InBlock; rw [if_pos hi]; exact ⟨h1, h2⟩
  · rename_i hi
    split
    · rename_i hi'
      subst hi'
      exact fillP_conf c order ctrl hcd hL fun j h1 h2 => by unfold Template.InBlock; rw [if_neg hi]; exact ⟨rfl, h1, h2⟩
    · trivial

end Cell

end Intp
