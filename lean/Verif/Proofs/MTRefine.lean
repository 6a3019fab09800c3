import Verif.Proofs.Prog
import Verif.Proofs.SolveSweep

/-!
# Line programs: agreement with the sequential model, footprints
-/

namespace Intp

open Prog

variable {K V : Type} [ValArith V] [ScaleArith K V] {D : ℕ}

/-! ## refinement -/

omit [ValArith V] in
/-- `p` does to `old_weight` what `g` does. -/
def Refines (p : Prog V Unit) (g : List V → M (List V)) : Prop :=
  ∀ m : Bool → List V, p.exec m = g (m false) >>= fun b => .ok ((), Function.update m false b)

omit [ValArith V] in
theorem Refines.bind {p : Prog V Unit} {q : Unit → Prog V Unit} {g h : List V → M (List V)} (hp : Refines p g) (hq : Refines (q ()) h) :
    Refines (p.bind q) fun b => g b >>= h := by
  intro m
  rw [exec_bind, hp m]
  show _ = (g (m false) >>= h) >>= _
  cases g (m false) with
  | error e => rfl
  | ok b =>
    simp only [ok_bind]
    rw [hq]
    simp only [Function.update_self, Function.update_idem]

omit [ValArith V] in
theorem Refines.ret : Refines (Prog.ret () : Prog V Unit) fun b => pure b := by
  intro m
  simp only [pure_eq_ok, ok_bind, Function.update_eq_self]; rfl

omit [ValArith V] in
theorem Refines.lift {α : Type} {x : M α} {p : α → Prog V Unit} {g : α → List V → M (List V)} (h : ∀ a, Refines (p a) (g a)) :
    Refines (Prog.lift x p) fun b => x >>= fun a => g a b := by
  intro m
  rw [exec_lift]
  cases x with
  | error e => rfl
  | ok a => simp only [ok_bind]; exact h a m

omit [ValArith V] in
theorem Refines.loop {lo hi : ℕ} {f : ℕ → Prog V Unit} {g : ℕ → List V → M (List V)} (h : ∀ i, Refines (f i) (g i)) :
    Refines (Prog.loop lo hi f) fun b => Intp.loop lo hi b g := by
  unfold Prog.loop Intp.loop
  generalize hi - lo = n
  induction n generalizing lo with
  | zero => intro m; simp only [Prog.loopN, Intp.loopN, exec, ok_bind, Function.update_eq_self]
  | succ n ih => exact Refines.bind (h lo) (ih (lo := lo + 1))

omit [ValArith V] in
theorem Refines.loopDown {n : ℕ} {f : ℕ → Prog V Unit} {g : ℕ → List V → M (List V)} (h : ∀ i, Refines (f i) (g i)) :
    Refines (Prog.loopDown n f) fun b => Intp.loopDown n b g := by
  induction n with
  | zero => intro m; simp only [Prog.loopDown, Intp.loopDown, exec, ok_bind, Function.update_eq_self]
  | succ n ih => exact Refines.bind (h n) ih

omit [ValArith V] in
theorem Refines.ite {P : Prop} [Decidable P] {p q : Prog V Unit} {g h : List V → M (List V)} (hp : Refines p g) (hq : Refines q h) :
    Refines (if P then p else q) fun b => if P then g b else h b := by
  split <;> assumption

omit [ValArith V] in
theorem exec_ret {α : Type} (a : α) (m : Bool → List V) : (Prog.ret a : Prog V α).exec m = .ok (a, m) := rfl

omit [ValArith V] in
theorem exec_read_rd {α : Type} (b : Bool) (i : ℕ) (k : V → Prog V α) (m : Bool → List V) :
    (Prog.read b i k).exec m = rd (m b) i >>= fun v => (k v).exec m := by
  unfold rd
  simp only [exec]
  cases (m b)[i]? <;> rfl

omit [ValArith V] in
theorem exec_write_wr {α : Type} (b : Bool) (i : ℕ) (v : V) (k : Prog V α) (m : Bool → List V) :
    (Prog.write b i v k).exec m = wr (m b) i v >>= fun l => k.exec (Function.update m b l) := by
  unfold wr
  simp only [exec]
  split <;> rfl

theorem lineSubMulP_refines (off step i j : ℕ) (a : K) : Refines (lineSubMulP (V := V) off step i j a) fun b => Fl.lineSubMul b off step i j a := by
  intro m
  unfold lineSubMulP Fl.lineSubMul
  simp only [exec_read_rd, exec_write_wr, exec_ret, bind_assoc]

theorem lineDivP_refines (off step j : ℕ) (a : K) : Refines (lineDivP (V := V) off step j a) fun b => Fl.lineDiv b off step j a := by
  intro m
  unfold lineDivP Fl.lineDiv
  simp only [exec_read_rd, exec_lift, exec_write_wr, exec_ret, bind_assoc]

theorem BandMatrix.solveP_refines (c : Cfg) (lu : BandMatrix K) (off step : ℕ) :
    Refines (lu.solveP (V := V) c off step) fun b => Fl.bandSolve c lu b off step := by
  unfold BandMatrix.solveP Fl.bandSolve
  exact Refines.bind (Refines.loop fun j => Refines.loop fun i => Refines.lift fun a => lineSubMulP_refines off step _ _ _)
    (Refines.loopDown fun j => Refines.lift fun d => Refines.bind (lineDivP_refines off step _ _)
      (Refines.loop fun i => Refines.lift fun a => lineSubMulP_refines off step _ _ _))

theorem ExtBandMatrix.solveP_refines (c : Cfg) (lu : ExtBandMatrix K) (off step : ℕ) :
    Refines (lu.solveP (V := V) c off step) fun b => Fl.extSolve c lu b off step := by
  unfold ExtBandMatrix.solveP Fl.extSolve
  exact Refines.bind (Refines.loop fun j => Refines.bind (Refines.loop fun i => Refines.lift fun a => lineSubMulP_refines off step _ _ _)
      (Refines.lift fun np1 => Refines.ite (Refines.lift fun nq => Refines.loop fun i => Refines.lift fun a => lineSubMulP_refines off step _ _ _) Refines.ret))
    (Refines.loopDown fun j => Refines.lift fun d => Refines.bind (lineDivP_refines off step _ _)
      (Refines.bind (Refines.loop fun i => Refines.lift fun a => lineSubMulP_refines off step _ _ _)
        (Refines.lift fun np1 => Refines.ite (Refines.lift fun hi => Refines.loop fun i => Refines.lift fun a => lineSubMulP_refines off step _ _ _) Refines.ret)))

theorem Solver.solveP_refines (c : Cfg) (s : Solver K) (off step : ℕ) :
    Refines (s.solveP (V := V) c off step) fun b => Fl.solve c s b off step := by
  cases s with
  | band s => exact BandMatrix.solveP_refines c s.store off step
  | ext s => exact ExtBandMatrix.solveP_refines c s.store off step

/-- The loop of `Fl.solveDim`, from line `b` to line `e`. -/
def Fl.solveBlock (c : Cfg) (s : Solver K) (b e : ℕ) (st : Mesh (D + 1) V × Mesh (D + 1) V) : M (Mesh (D + 1) V × Mesh (D + 1) V) :=
  Intp.loop b e st fun j st => Fl.solveLine c s j st

namespace Template

/-- Buffers of a pair of meshes. -/
def toMem (st : Mesh (D + 1) V × Mesh (D + 1) V) (b : Bool) : List V := (if b then st.2 else st.1).storage

omit [ValArith V] in
theorem copyLineP_exec (n off step noff nstep : ℕ) (m : Bool → List V) : (copyLineP n off step noff nstep : Prog V Unit).exec m =
    copyLine n off step noff nstep (m false) (m true) >>= fun b => .ok ((), Function.update m true b) := by
  unfold copyLineP copyLine Prog.loop Intp.loop
  generalize n - 0 = n
  generalize 0 = lo
  induction n generalizing lo m with
  | zero => simp only [Prog.loopN, Intp.loopN, exec, ok_bind, Function.update_eq_self]
  | succ n ih =>
    simp only [Prog.loopN, Intp.loopN, exec_bind, exec_read_rd, exec_write_wr, exec_ret, bind_assoc]
    congr 1; funext v
    congr 1; funext l
    rw [ok_bind, ih]
    simp

/-- The sequential step on the pair of meshes is the execution of the line program. -/
theorem solveLineP_exec (c : Cfg) (s : Solver K) (old new : Mesh (D + 1) V) (j : ℕ) (st : Mesh (D + 1) V × Mesh (D + 1) V)
    (h1 : st.1.dims = old.dims) (h2 : st.2.dims = new.dims) :
    (solveLineP c s old new j).exec (toMem st) = Fl.solveLine c s j st >>= fun st' => .ok ((), toMem st') := by
  have e1 : ∀ a, st.1.lineBegin c (Fin.last D) a = old.lineBegin c (Fin.last D) a := fun a => by unfold Mesh.lineBegin; rw [h1]
  have e2 : ∀ a, st.2.lineBegin c 0 a = new.lineBegin c 0 a := fun a => by unfold Mesh.lineBegin; rw [h2]
  unfold solveLineP Fl.solveLine
  simp only [exec_lift, exec_bind, bind_assoc, h1, h2, e1, e2]
  congr 1; funext a
  congr 1; funext o
  congr 1; funext w
  rw [Solver.solveP_refines, bind_assoc]
  show Fl.solve c s st.1.storage o.1 o.2 >>= _ = _
  congr 1; funext buf
  rw [ok_bind]
  by_cases hD : D = 0
  · rw [if_pos hD, if_pos hD, pure_eq_ok, ok_bind]
    simp only [exec]
    congr 2
    funext b
    cases b <;> simp [toMem]
  · rw [if_neg hD, if_neg hD, copyLineP_exec, bind_assoc]
    simp only [Function.update_self]
    rw [Function.update_of_ne (by simp)]
    show copyLine _ _ _ _ _ buf st.2.storage >>= _ = _
    congr 1; funext nbuf
    rw [pure_eq_ok, ok_bind]
    congr 2
    funext b
    cases b <;> simp [toMem]

theorem solveLine_dims {c : Cfg} {s : Solver K} {j : ℕ} {st st' : Mesh (D + 1) V × Mesh (D + 1) V} (h : Fl.solveLine c s j st = .ok st') :
    st'.1.dims = st.1.dims ∧ st'.2.dims = st.2.dims := by
  have : Spec (Fl.solveLine c s j st) (fun st' => st'.1.dims = st.1.dims ∧ st'.2.dims = st.2.dims) fun _ => True := by
    unfold Fl.solveLine
    refine Spec.bind (Q := fun _ => True) (by unfold Spec; split <;> trivial) fun a _ => ?_
    refine Spec.bind (Q := fun _ => True) (by unfold Spec; split <;> trivial) fun o _ => ?_
    refine Spec.bind (Q := fun _ => True) (by unfold Spec; split <;> trivial) fun w _ => ?_
    refine Spec.bind (Q := fun _ => True) (by unfold Spec; split <;> trivial) fun buf _ => ?_
    refine Spec.ite (fun _ => Spec.pure ⟨rfl, rfl⟩) fun _ => ?_
    refine Spec.bind (Q := fun _ => True) (by unfold Spec; split <;> trivial) fun buf _ => ?_
    exact Spec.pure ⟨rfl, rfl⟩
  exact this.get h

theorem solveBlock_dims {c : Cfg} {s : Solver K} {b e : ℕ} {st st' : Mesh (D + 1) V × Mesh (D + 1) V} (h : Fl.solveBlock c s b e st = .ok st') :
    st'.1.dims = st.1.dims ∧ st'.2.dims = st.2.dims := by
  have : Spec (Fl.solveBlock c s b e st) (fun st' => st'.1.dims = st.1.dims ∧ st'.2.dims = st.2.dims) fun _ => True := by
    unfold Fl.solveBlock
    refine Spec.loop' (P := fun _ (st' : Mesh (D + 1) V × Mesh (D + 1) V) => st'.1.dims = st.1.dims ∧ st'.2.dims = st.2.dims) ⟨rfl, rfl⟩ fun i s' _ _ h => ?_
    cases hl : Fl.solveLine c s i s' with
    | error e => trivial
    | ok r => exact ⟨(solveLine_dims hl).1.trans h.1, (solveLine_dims hl).2.trans h.2⟩
  exact this.get h

theorem solveBlockP_exec (c : Cfg) (s : Solver K) (old new : Mesh (D + 1) V) (b e : ℕ) (st : Mesh (D + 1) V × Mesh (D + 1) V)
    (h1 : st.1.dims = old.dims) (h2 : st.2.dims = new.dims) :
    (solveBlockP c s old new b e).exec (toMem st) = Fl.solveBlock c s b e st >>= fun st' => .ok ((), toMem st') := by
  unfold solveBlockP Fl.solveBlock Prog.loop Intp.loop
  generalize e - b = n
  induction n generalizing b st with
  | zero => rfl
  | succ n ih =>
    simp only [Prog.loopN, Intp.loopN, exec_bind]
    rw [solveLineP_exec c s old new b st h1 h2]
    cases hl : Fl.solveLine c s b st with
    | error e => rfl
    | ok r =>
      simp only [ok_bind]
      exact ih (b + 1) r ((solveLine_dims hl).1.trans h1) ((solveLine_dims hl).2.trans h2)

/-! ## the blocks, one after the other, are the whole loop -/

theorem loop_append {σ : Type} (lo mid hi : ℕ) (h1 : lo ≤ mid) (h2 : mid ≤ hi) (s : σ) (f : ℕ → σ → M σ) :
    Intp.loop lo hi s f = Intp.loop lo mid s f >>= fun s => Intp.loop mid hi s f := by
  unfold Intp.loop
  obtain ⟨n, rfl⟩ := Nat.exists_eq_add_of_le h1
  rw [Nat.add_sub_cancel_left]
  have : hi - lo = n + (hi - (lo + n)) := by omega
  rw [this]
  generalize hi - (lo + n) = k
  clear this h1 h2
  induction n generalizing lo s with
  | zero => simp only [Intp.loopN, ok_bind, Nat.zero_add, Nat.add_zero]
  | succ n ih =>
    rw [show n + 1 + k = (n + k) + 1 by omega]
    simp only [Intp.loopN]
    cases f lo s with
    | error e => rfl
    | ok s' =>
      simp only [ok_bind]
      rw [ih, show lo + 1 + n = lo + (n + 1) by omega]

theorem blocks_le (bn hp : ℕ) : bn * taskPerBlock bn hp ≤ hp := by
  unfold taskPerBlock
  by_cases h : bn = 0
  · rw [if_pos h, h]; omega
  · rw [if_neg h]; exact Nat.mul_div_le hp bn

theorem seq_blocks (c : Cfg) (s : Solver K) (old new : Mesh (D + 1) V) (bn hp : ℕ) :
    seq (blocks c s old new bn hp) (bn + 1) (toMem (old, new)) = Fl.solveBlock c s 0 hp (old, new) >>= fun st => .ok (toMem st) := by
  have key : ∀ i ≤ bn, seq (blocks c s old new bn hp) i (toMem (old, new)) =
      Fl.solveBlock c s 0 (i * taskPerBlock bn hp) (old, new) >>= fun st => .ok (toMem st) := by
    intro i
    induction i with
    | zero => intro _; rw [Nat.zero_mul]; rfl
    | succ i ih =>
      intro hi
      unfold seq
      rw [ih (by omega)]
      have hb : blocks c s old new bn hp i = solveBlockP c s old new (i * taskPerBlock bn hp) ((i + 1) * taskPerBlock bn hp) := by
        unfold blocks; rw [if_pos (by omega)]
      have happ : Fl.solveBlock c s 0 ((i + 1) * taskPerBlock bn hp) (old, new) = Fl.solveBlock c s 0 (i * taskPerBlock bn hp) (old, new) >>=
          fun st => Fl.solveBlock c s (i * taskPerBlock bn hp) ((i + 1) * taskPerBlock bn hp) st :=
        loop_append _ _ _ (Nat.zero_le _) (Nat.mul_le_mul_right _ (Nat.le_succ i)) _ _
      rw [hb, happ]
      cases hr : Fl.solveBlock c s 0 (i * taskPerBlock bn hp) (old, new) with
      | error e => rfl
      | ok st =>
        simp only [ok_bind]
        rw [solveBlockP_exec c s old new _ _ st (solveBlock_dims hr).1 (solveBlock_dims hr).2, bind_assoc]
        rfl
  unfold seq
  rw [key bn le_rfl]
  have hb : blocks c s old new bn hp bn = solveBlockP c s old new (bn * taskPerBlock bn hp) hp := by
    unfold blocks; rw [if_neg (by omega), if_pos rfl]
  have happ : Fl.solveBlock c s 0 hp (old, new) = Fl.solveBlock c s 0 (bn * taskPerBlock bn hp) (old, new) >>=
      fun st => Fl.solveBlock c s (bn * taskPerBlock bn hp) hp st :=
    loop_append _ _ _ (Nat.zero_le _) (blocks_le bn hp) _ _
  rw [hb, happ]
  cases hr : Fl.solveBlock c s 0 (bn * taskPerBlock bn hp) (old, new) with
  | error e => rfl
  | ok st =>
    simp only [ok_bind]
    rw [solveBlockP_exec c s old new _ _ st (solveBlock_dims hr).1 (solveBlock_dims hr).2, bind_assoc]
    rfl

/-! ## footprints -/

/-- Number of unknowns of a solver. -/
def _root_.Intp.Solver.dim : Solver K → ℕ
  | .band s => s.store.n
  | .ext s => s.store.n

theorem lineSubMulP_conf {A : Bool → ℕ → Prop} {off step n i j : ℕ} (hA : ∀ k < n, A false (off + k * step)) (hi : i < n) (hj : j < n) (a : K) :
    (lineSubMulP (V := V) off step i j a).Conf A := ⟨hA i hi, fun _ => ⟨hA j hj, fun _ => ⟨hA i hi, trivial⟩⟩⟩

theorem lineDivP_conf {A : Bool → ℕ → Prop} {off step n j : ℕ} (hA : ∀ k < n, A false (off + k * step)) (hj : j < n) (a : K) :
    (lineDivP (V := V) off step j a).Conf A := ⟨hA j hj, fun _ => Conf.lift fun _ _ => ⟨hA j hj, trivial⟩⟩

theorem solveP_conf (c : Cfg) (s : Solver K) {A : Bool → ℕ → Prop} {off step : ℕ} (hA : ∀ k < s.dim, A false (off + k * step)) :
    (s.solveP (V := V) c off step).Conf A := by
  cases s with
  | band s =>
    simp only [Solver.dim] at hA
    unfold Solver.solveP BandMatrix.solveP
    refine Conf.bind (fun _ => Conf.loopDown _ fun j hj => Conf.lift fun d _ => (lineDivP_conf hA hj d).bind fun _ =>
      Conf.loop fun i _ hi => Conf.lift fun a _ => lineSubMulP_conf hA (by omega) hj a) ?_
    exact Conf.loop fun j _ hj => Conf.loop fun i _ hi => Conf.lift fun a _ => lineSubMulP_conf hA (by omega) hj a
  | ext s =>
    simp only [Solver.dim] at hA
    unfold Solver.solveP ExtBandMatrix.solveP
    refine Conf.bind (fun _ => Conf.loopDown _ fun j hj => Conf.lift fun d _ => (lineDivP_conf hA hj d).bind fun _ => ?_) ?_
    · refine Conf.bind (fun _ => Conf.lift fun np1 _ => ?_) (Conf.loop fun i _ hi => Conf.lift fun a _ => lineSubMulP_conf hA (by omega) hj a)
      split
      · refine Conf.lift fun hi hhi => Conf.loop fun i _ hi' => Conf.lift fun a _ => lineSubMulP_conf hA ?_ hj a
        unfold subM at hhi
        split at hhi
        · injection hhi with hhi; omega
        · cases hhi
      · trivial
    · refine Conf.loop fun j _ hj => Conf.bind (fun _ => Conf.lift fun np1 _ => ?_)
        (Conf.loop fun i _ hi => Conf.lift fun a _ => lineSubMulP_conf hA (by omega) hj a)
      split
      · exact Conf.lift fun nq _ => Conf.loop fun i _ hi => Conf.lift fun a _ => lineSubMulP_conf hA hi hj a
      · trivial

/-- Elements of the two meshes that belong to line `j`. -/
def LineCells (dims : Fin (D + 1) → ℕ) (j : ℕ) : Bool → ℕ → Prop
  | false, t => ∃ a, InRange dims a ∧ lineOf dims a = j ∧ t = indexing dims a
  | true, t => ∃ a, InRange dims a ∧ lineOf dims a = j ∧ t = indexing (rightShift dims) (rightShift a)

theorem LineCells.disj {dims : Fin (D + 1) → ℕ} {i j : ℕ} {b : Bool} {t : ℕ} (h1 : LineCells dims i b t) (h2 : LineCells dims j b t) : i = j := by
  cases b with
  | false =>
    obtain ⟨a, ha, rfl, rfl⟩ := h1
    obtain ⟨a', ha', rfl, he⟩ := h2
    rw [indexing_inj ha ha' he]
  | true =>
    obtain ⟨a, ha, rfl, rfl⟩ := h1
    obtain ⟨a', ha', rfl, he⟩ := h2
    rw [rightShift_injective (indexing_inj (rightShift_inRange.2 ha) (rightShift_inRange.2 ha') he)]

theorem solveLineP_conf (c : Cfg) {s : Solver K} {old new : Mesh (D + 1) V} {j : ℕ} (hpos : ∀ d, 0 < old.dims d)
    (hs : s.dim = old.dims (Fin.last D)) (hnew : D ≠ 0 → new.dims = rightShift old.dims) (hj : j < ∏ i : Fin D, old.dims i.castSucc) :
    (solveLineP c s old new j).Conf (LineCells old.dims j) := by
  set dims := old.dims with hdims
  set l := Fin.last D with hl
  set n := dims l with hn
  set a := decode dims (j * n) with ha
  have har : InRange dims a := decode_inRange hpos
  have hal : a l = 0 := decode_line hpos j
  have hup : Function.update a l 0 = a := by rw [← hal, Function.update_eq_self]
  have hline : lineOf dims a = j := lineOf_decode hpos hj
  unfold solveLineP
  rw [← hdims, dimwiseIndices_ok (dims := dims) hpos]
  show (Prog.lift (old.lineBegin c l a) _).Conf _
  rw [Mesh.lineBegin_ok c old l (by rw [hup, ← hdims]; exact har), ← hdims, hup]
  have hold : ∀ k < n, LineCells dims j false (indexing dims a + k * stride dims l) := by
    intro k hk
    refine ⟨Function.update a l k, har.update hk, by rw [lineOf_update, hline], ?_⟩
    rw [indexing_update, hup]
  refine Conf.lift fun o ho => ?_
  injection ho with ho
  subst ho
  refine Conf.lift fun w hw => (solveP_conf c s fun k hk => hold k (by omega)).bind fun _ => ?_
  split
  · trivial
  · rename_i hD
    have hra : InRange (rightShift dims) (rightShift a) := rightShift_inRange.2 har
    have hrup : Function.update (rightShift a) 0 0 = rightShift a := by rw [← rightShift_update, hup]
    rw [Mesh.lineBegin_ok c new 0 (by rw [hnew hD, hrup]; exact hra), hnew hD, hrup] at hw
    injection hw with hw
    subst hw
    unfold copyLineP
    refine Conf.loop fun k _ hk => ⟨hold k hk, fun v => ⟨?_, trivial⟩⟩
    refine ⟨Function.update a l k, har.update hk, by rw [lineOf_update, hline], ?_⟩
    rw [rightShift_update, indexing_update, hrup]

/-- Lines of block `i`. -/
def InBlock (bn hp i j : ℕ) : Prop :=
  if i < bn then i * taskPerBlock bn hp ≤ j ∧ j < (i + 1) * taskPerBlock bn hp else i = bn ∧ bn * taskPerBlock bn hp ≤ j ∧ j < hp

theorem InBlock.lt {bn hp i j : ℕ} (h : InBlock bn hp i j) : j < hp := by
  unfold InBlock at h
  split at h
  · exact lt_of_lt_of_le h.2 ((Nat.mul_le_mul_right _ (by omega)).trans (blocks_le bn hp))
  · exact h.2.2

theorem InBlock.unique {bn hp i i' j : ℕ} (h : InBlock bn hp i j) (h' : InBlock bn hp i' j) : i = i' := by
  have aux : ∀ {i i'}, i < i' → InBlock bn hp i j → InBlock bn hp i' j → False := by
    intro i i' hlt h h'
    unfold InBlock at h h'
    have hi : i < bn := by
      by_contra hc
      rw [if_neg hc] at h
      rw [if_neg (by omega)] at h'
      omega
    rw [if_pos hi] at h
    have : (i + 1) * taskPerBlock bn hp ≤ j := by
      split at h'
      · exact (Nat.mul_le_mul_right _ hlt).trans h'.1
      · exact (Nat.mul_le_mul_right _ (by omega)).trans h'.2.1
    omega
  rcases lt_trichotomy i i' with hlt | he | hlt
  · exact (aux hlt h h').elim
  · exact he
  · exact (aux hlt h' h).elim

/-- Elements of block `i`. -/
def BlockCells (dims : Fin (D + 1) → ℕ) (bn hp i : ℕ) (b : Bool) (t : ℕ) : Prop := ∃ j, InBlock bn hp i j ∧ LineCells dims j b t

theorem BlockCells.disj (dims : Fin (D + 1) → ℕ) (bn hp : ℕ) : Disj (BlockCells dims bn hp) := by
  rintro i i' b t ⟨j, h1, h2⟩ ⟨j', h3, h4⟩
  obtain rfl := h2.disj h4
  exact h1.unique h3

theorem blocks_conf (c : Cfg) {s : Solver K} {old new : Mesh (D + 1) V} (hpos : ∀ d, 0 < old.dims d)
    (hs : s.dim = old.dims (Fin.last D)) (hnew : D ≠ 0 → new.dims = rightShift old.dims) (bn i : ℕ) :
    (blocks c s old new bn (∏ i : Fin D, old.dims i.castSucc) i).Conf (BlockCells old.dims bn (∏ i : Fin D, old.dims i.castSucc) i) := by
  set hp := ∏ i : Fin D, old.dims i.castSucc with hhp
  have key : ∀ b e, (∀ j, b ≤ j → j < e → InBlock bn hp i j) → (solveBlockP c s old new b e).Conf (BlockCells old.dims bn hp i) := by
    intro b e h
    refine Conf.loop fun j h1 h2 => ?_
    exact (solveLineP_conf c hpos hs hnew (h j h1 h2).lt).mono fun b t ht => ⟨j, h j h1 h2, ht⟩
  unfold blocks
  split
  · rename_i hi
    exact key _ _ fun j h1 h2 => by unfold InBlock; rw [if_pos hi]; exact ⟨h1, h2⟩
  · rename_i hi
    split
    · rename_i hi'
      subst hi'
      exact key _ _ fun j h1 h2 => by unfold InBlock; rw [if_neg hi]; exact ⟨rfl, h1, h2⟩
    · trivial

end Template

end Intp
