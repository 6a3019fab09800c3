import Verif.CellFloat
import Verif.Proofs.CellLayout
import Verif.Proofs.FloatBuild

/-! # Both layouts compute with the same numbers, whatever the arithmetic -/

namespace Intp.Fl

open CoordArith ScaleArith

variable {K V : Type} [CoordArith K] [ValArith V] [ScaleArith K V] {D : ℕ}

/-- Element `i` of an array. -/
def el {α : Type} [Zero α] (l : List α) (i : ℕ) : α := l.getD i 0

omit [CoordArith K] in
theorem rd_el {α : Type} [Zero α] {l : List α} {i : ℕ} (h : i < l.length) : rd l i = .ok (el l i) := by
  rw [rd_ok h, el]; simp [h]

/-- `1 * e₀ * e₁ * …`, from the left. -/
def coefProd (e : Fin D → K) : K := (List.finRange D).foldl (fun a d => a * e d) 1

/-- The coefficient/index fold of the evaluation loops. -/
theorem fold_coef_any {E : Fin D → M K} {I : Fin D → M ℕ} {e : Fin D → K} {ind : Fin D → ℕ}
    (hE : ∀ d, E d = .ok (e d)) (hI : ∀ d, I d = .ok (ind d)) (a0 : Fin D → ℕ) :
    (List.finRange D).foldlM (fun (acc : K × (Fin D → ℕ)) d => do
      let x ← E d
      let k ← I d
      pure (acc.1 * x, Function.update acc.2 d k)) ((1 : K), a0) = (.ok (coefProd e, ind) : M _) := by
  have key : ∀ (l : List (Fin D)) (c : K) (a : Fin D → ℕ), l.foldlM (fun (acc : K × (Fin D → ℕ)) d => do
      let x ← E d
      let k ← I d
      pure (acc.1 * x, Function.update acc.2 d k)) (c, a) =
        (.ok (l.foldl (fun a d => a * e d) c, fun d => if d ∈ l then ind d else a d) : M _) := by
    intro l
    induction l with
    | nil => intro c a; simp [pure_eq_ok]
    | cons d l ih =>
      intro c a
      rw [List.foldlM_cons]
      simp only [hE, hI, ok_bind, pure_eq_ok]
      simp only [hE, hI, ok_bind, pure_eq_ok] at ih
      rw [ih]
      congr 2
      funext d'
      by_cases h1 : d' ∈ l
      · simp [h1]
      · by_cases h2 : d' = d
        · subst h2; simp
        · simp [h1, h2]
  rw [key]
  congr 2
  funext d
  simp

theorem fold_prod_any {E : Fin D → M K} {e : Fin D → K} (hE : ∀ d, E d = .ok (e d)) :
    (List.finRange D).foldlM (fun (acc : K) d => do
      let x ← E d
      pure (acc * x)) (1 : K) = (.ok (coefProd e) : M _) := by
  have key : ∀ (l : List (Fin D)) (c : K), l.foldlM (fun (acc : K) d => do
      let x ← E d
      pure (acc * x)) c = (.ok (l.foldl (fun a d => a * e d) c) : M _) := by
    intro l
    induction l with
    | nil => intro c; rfl
    | cons d l ih => intro c; rw [List.foldlM_cons, hE, ok_bind, pure_eq_ok, ok_bind, ih]; rfl
  exact key _ _

/-- The coefficient in the lambda of `pre_calc_coef`. -/
theorem cellCoef_any {order : ℕ} {base : Fin (D + 1) → List K} (hb : ∀ d, (base d).length = order + 1) (i : ℕ) :
    cellCoef order base i = .ok (coefProd fun d => el (base d) (i / (order + 1) ^ d.val % (order + 1))) := by
  have key : ∀ (l : List (Fin (D + 1))), l.Nodup → ∀ (a : Fin (D + 1) → ℕ) (i : ℕ) (v : K), ∃ q, l.foldlM (fun (acc : K × ℕ) d => do
      let m ← modM acc.2 (order + 1)
      let x ← rd (base d) m
      let q ← divN acc.2 (order + 1)
      pure (acc.1 * x, q)) (v, i) = (.ok (l.foldl (fun c d => c * el (base d) (digs (order + 1) l a i d)) v, q) : M _) := by
    intro l
    induction l with
    | nil => intro _ a i v; exact ⟨i, by simp [pure_eq_ok]⟩
    | cons d l ih =>
      intro hl a i v
      rw [List.nodup_cons] at hl
      obtain ⟨q, hq⟩ := ih hl.2 (Function.update a d (i % (order + 1))) (i / (order + 1)) (v * el (base d) (i % (order + 1)))
      refine ⟨q, ?_⟩
      have hm : i % (order + 1) < (base d).length := by rw [hb]; exact Nat.mod_lt _ (by omega)
      rw [List.foldlM_cons, modM_ok (by omega), ok_bind, rd_el hm, ok_bind, divN_ok (by omega), ok_bind, pure_eq_ok, ok_bind, hq]
      congr 2
      rw [List.foldl_cons]
      have e0 : digs (order + 1) (d :: l) a i d = i % (order + 1) := by rw [digs, digs_notMem hl.1, Function.update_self]
      rw [e0]
      rfl
  obtain ⟨q, hq⟩ := key (List.finRange (D + 1)) (List.nodup_finRange _) (fun _ => 0) i 1
  unfold cellCoef
  have e' : List.finRange (D + 1) = freeAxes fun _ : Fin (D + 1) => false := by simp [freeAxes]
  rw [hq, ok_bind, pure_eq_ok]
  have e2 : ∀ d : Fin (D + 1), digs (order + 1) (List.finRange (D + 1)) (fun _ => 0) i d = i / (order + 1) ^ d.val % (order + 1) := fun d => by
    rw [e', digs_all]
  simp only [e2]
  rfl

/-- Index of the control point of dimension `d` for local index `a` in segment `s`. -/
def ctrlNo (b : BSpline D K V) (s : Fin D → ℕ) (a : Fin D → ℕ) : Fin D → ℕ := fun d => (s d - b.order + a d) % b.ctrl.dims d

theorem ctrlIndex_any {b : BSpline D K V} (h : Shaped b) {d : Fin D} {s a : ℕ} (hs : SegIn b d s) (ha : a < b.order + 1) :
    b.ctrlIndex d s a = .ok ((s - b.order + a) % b.ctrl.dims d) := by
  have ⟨h1, h2⟩ := hs
  have hp := h.pos d
  have hz := h.size d
  unfold BSpline.ctrlIndex BSpline.ctrlShift
  have e : (if s = 0 then pure 0 else if s = (b.knots d).length then do
      let a ← subM (b.ctrl.dims d) b.order
      subM a 1
    else subM s b.order : M ℕ) = .ok (s - b.order) := by
    by_cases h0 : s = 0
    · subst h0; simp [pure_eq_ok]
    · rw [if_neg h0, if_neg (by omega), subM_ok h1]
  rw [e, ok_bind, add_comm a]
  split
  · rw [modM_ok (by omega)]
  · rename_i hper
    have := hz (by simpa using hper)
    rw [Nat.mod_eq_of_lt (by omega)]; rfl

theorem ctrlNo_inRange {b : BSpline D K V} (h : Shaped b) (s a : Fin D → ℕ) : InRange b.ctrl.dims (ctrlNo b s a) :=
  fun d => Nat.mod_lt _ (h.pos d)

/-- The control point at an index. -/
def ctrlAt (b : BSpline D K V) (k : Fin D → ℕ) : V := el b.ctrl.storage (indexing b.ctrl.dims k)

theorem Shaped.holds {b : BSpline D K V} (h : Shaped b) : b.ctrl.Holds b.ctrl.dims (ctrlAt b) :=
  ⟨rfl, h.wf, fun _ ha => rd_el (h.wf.lt ha)⟩

/-- `a` as local indices: the coefficient and the control point of one summand. -/
def term (b : BSpline D K V) (s : Fin D → ℕ) (base : Fin D → List K) (a : Fin D → ℕ) : K × V :=
  (coefProd fun d => el (base d) (a d), ctrlAt b (ctrlNo b s a))

section
variable {b : BSpline D K V} {segs : Fin D → K × ℕ} {base : Fin D → List K}

theorem coefFold_any (h : Shaped b) (hs : ∀ d, SegIn b d (segs d).2) (hb : ∀ d, (base d).length = b.order + 1) {a : Fin D → ℕ}
    (ha : ∀ d, a d < b.order + 1) (a0 : Fin D → ℕ) :
    (List.finRange D).foldlM (fun (acc : K × (Fin D → ℕ)) d => do
      let e ← rd (base d) (a d)
      let k ← b.ctrlIndex d (segs d).2 (a d)
      pure (acc.1 * e, Function.update acc.2 d k)) ((1 : K), a0) =
      (.ok (coefProd fun d => el (base d) (a d), ctrlNo b (fun d => (segs d).2) a) : M _) :=
  fold_coef_any (fun d => rd_el (by rw [hb]; exact ha d)) (fun d => ctrlIndex_any h (hs d) (ha d)) a0

/-- One summand of `operator()`. -/
theorem evalBody_any (h : Shaped b) (hs : ∀ d, SegIn b d (segs d).2) (hb : ∀ d, (base d).length = b.order + 1) (i : ℕ) (v : V) :
    evalBody b segs base i v = .ok (v + (term b (fun d => (segs d).2) base (decode (fun _ : Fin D => b.order + 1) i)).1 •
      (term b (fun d => (segs d).2) base (decode (fun _ : Fin D => b.order + 1) i)).2) := by
  unfold evalBody
  rw [dimwiseIndices_ok (fun _ => Nat.succ_pos _), ok_bind]
  have ha : InRange _ (decode (fun _ : Fin D => b.order + 1) i) := decode_inRange (fun _ => Nat.succ_pos _)
  rw [coefFold_any h hs hb ha, ok_bind, h.holds.get (ctrlNo_inRange h _ _), ok_bind]
  rfl

/-- Both meshes of `derivative_at` are filled with the summands. -/
theorem derivFill_any (h : Shaped b) (hs : ∀ d, SegIn b d (segs d).2) (hb : ∀ d, (base d).length = b.order + 1) :
    Ok (loop 0 ((b.order + 1) ^ D) ((Mesh.mk' fun _ => b.order + 1, Mesh.mk' fun _ => b.order + 1) : Mesh D K × Mesh D V)
      fun i st => derivFillBody b segs base i st) fun st =>
      st.1.Holds (fun _ => b.order + 1) (fun a => (term b (fun d => (segs d).2) base a).1) ∧
      st.2.Holds (fun _ => b.order + 1) (fun a => (term b (fun d => (segs d).2) base a).2) := by
  set dims : Fin D → ℕ := fun _ => b.order + 1 with hdims
  set L : ℕ → Fin D → ℕ := fun i => digs (b.order + 1) (freeAxes fun _ : Fin D => false) (fun _ => 0) i with hL
  set T := term b (fun d => (segs d).2) base with hT
  have hbij := digs_bijOn (D := D) (Nat.succ_pos b.order) (fun _ => false)
  rw [freeAxes_none_length] at hbij
  refine Spec.imp (Spec.loop (P := fun i st => ∃ f g, st.1.Holds dims f ∧ st.2.Holds dims g ∧ ∀ i' < i, f (L i') = (T (L i')).1 ∧ g (L i') = (T (L i')).2)
    (Nat.zero_le _) ⟨_, _, Mesh.mk'_holds dims, Mesh.mk'_holds dims, fun i hi => absurd hi (by omega)⟩ ?_) ?_
  · rintro i st _ hi ⟨f, g, h1, h2, h3⟩
    have hLi : InRange dims (L i) := fun d => digs_lt (Nat.succ_pos _) (by simp [freeAxes])
    unfold derivFillBody
    rw [localIndices_ok (Nat.succ_pos _), ok_bind, coefFold_any h hs hb hLi, ok_bind]
    obtain ⟨m1, e1, g1⟩ := h1.set hLi (T (L i)).1
    obtain ⟨m2, e2, g2⟩ := h2.set hLi (T (L i)).2
    rw [show digs (b.order + 1) (freeAxes fun x => false) (fun x => 0) i = L i from rfl]
    simp only
    rw [show (coefProd fun d => el (base d) (L i d)) = (T (L i)).1 from rfl, e1, ok_bind, h.holds.get (ctrlNo_inRange h _ _), ok_bind,
      show ctrlAt b (ctrlNo b (fun d => (segs d).2) (L i)) = (T (L i)).2 from rfl, e2, ok_bind]
    refine Spec.pure ⟨_, _, g1, g2, fun i' hi' => ?_⟩
    by_cases he : L i' = L i
    · rw [he]; simp
    · rw [Function.update_of_ne he, Function.update_of_ne he]
      refine h3 i' ?_
      by_contra hc
      exact he (by rw [show i' = i by omega])
  · rintro st ⟨f, g, h1, h2, h3⟩
    have hsurj : ∀ a, InRange dims a → ∃ i, i < (b.order + 1) ^ D ∧ L i = a := by
      intro a ha
      obtain ⟨i, hi, hia⟩ := hbij.2.2 (show a ∈ {a : Fin D → ℕ | ∀ d, if false = true then a d = 0 else a d < b.order + 1} by
        intro d; simpa [hdims] using ha d)
      exact ⟨i, hi, hia⟩
    refine ⟨h1.congr fun a ha => ?_, h2.congr fun a ha => ?_⟩
    · obtain ⟨i, hi, rfl⟩ := hsurj a ha; exact (h3 i hi).1
    · obtain ⟨i, hi, rfl⟩ := hsurj a ha; exact (h3 i hi).2

end

/-- Both layouts begin by looking for the segments and computing the basis values. -/
theorem point_cases {W : Type} {b : BSpline D K V} (h : Shaped b) {x : Fin D → K × ℕ} (hx : ∀ d, SegIn b d (x d).2) {p : Fin D → ℕ}
    (hp : ∀ d, p d ≤ b.order) {F G : (Fin D → K × ℕ) → (Fin D → List K) → M W}
    (H : ∀ segs base, tabM (fun d => getKnotIter' b d (x d).1 (x d).2) = .ok segs →
      tabM (fun d => baseSplineValue b.order (b.knots d) (segs d).2 (segs d).1 (p d)) = .ok base → (∀ d, SegIn b d (segs d).2) →
      (∀ d, (base d).length = b.order + 1) → F segs base = G segs base) :
    (do let segs ← tabM fun d => getKnotIter' b d (x d).1 (x d).2
        let base ← tabM fun d => baseSplineValue b.order (b.knots d) (segs d).2 (segs d).1 (p d)
        F segs base) =
    (do let segs ← tabM fun d => getKnotIter' b d (x d).1 (x d).2
        let base ← tabM fun d => baseSplineValue b.order (b.knots d) (segs d).2 (segs d).1 (p d)
        G segs base) := by
  have hE : DivE K V fun _ => True := fun _ => trivial
  have hsafe := tabM_spec (Q := fun d (r : K × ℕ) => SegIn b d r.2) fun d => getKnotIter'_safe hE h d (x d).1 (hx d)
  cases hsg : tabM fun d => getKnotIter' b d (x d).1 (x d).2 with
  | error e => rfl
  | ok segs =>
    rw [hsg] at hsafe
    have hs : ∀ d, SegIn b d (segs d).2 := hsafe
    rw [ok_bind, ok_bind]
    have hsafe2 := tabM_spec (f := fun d => baseSplineValue b.order (b.knots d) (segs d).2 (segs d).1 (p d)) (E := fun _ => True)
      (Q := fun d r => List.length r = b.order + 1) fun d => by
        have ⟨h1, h2⟩ := hs d
        have := hp d
        exact baseSplineValue_safe (V := V) hE this (by omega) (by omega)
    cases hbs : tabM fun d => baseSplineValue b.order (b.knots d) (segs d).2 (segs d).1 (p d) with
    | error e => rfl
    | ok base =>
      rw [hbs] at hsafe2
      rw [ok_bind, ok_bind]
      exact H segs base hsg hbs hs hsafe2

/-- `derivative` of order 0 in all dimensions is `operator()`. -/
theorem derivativeAtH_zero (c : Cfg) {b : BSpline D K V} (h : Shaped b) {x : Fin D → K × ℕ × ℕ} (hx : ∀ d, SegIn b d (x d).2.1)
    (h0 : ∀ d, (x d).2.2 = 0) : derivativeAtH c b x = eval b fun d => ((x d).1, (x d).2.1) := by
  unfold derivativeAtH eval
  rw [if_neg (by rintro ⟨d, hd⟩; rw [h0 d] at hd; omega)]
  simp only [h0, Nat.sub_zero]
  refine point_cases (x := fun d => ((x d).1, (x d).2.1)) h hx (fun _ => le_rfl) fun segs base _ _ hs hb => ?_
  obtain ⟨st, hst, h1, h2⟩ := (derivFill_any h hs hb).exists
  rw [hst, ok_bind]
  have hfold : ∀ (l : List (Fin D)) (m : Mesh D V), l.foldlM (fun m d => derivReduceDim c b segs d b.order m) m = .ok m := by
    intro l
    induction l with
    | nil => intro m; rfl
    | cons d l ih =>
      intro m
      rw [List.foldlM_cons, show derivReduceDim c b segs d b.order m = .ok m by unfold derivReduceDim; rw [if_pos rfl]; rfl, ok_bind, ih]
  rw [hfold, ok_bind]
  have hsz : st.1.size = (b.order + 1) ^ D := by
    have := h1.2.1
    unfold Mesh.WF at this
    unfold Mesh.size
    rw [this, h1.1]; simp
  rw [hsz]
  refine loop_congr (fun i hi v => ?_) _
  rw [evalBody_any h hs hb]
  have hr : InRange (fun _ : Fin D => b.order + 1) (decode (fun _ : Fin D => b.order + 1) i) := decode_inRange fun _ => Nat.succ_pos _
  have hi' : i < ∏ _ : Fin D, (b.order + 1) := by simpa using hi
  have g1 := h1.get hr
  have g2 := h2.get hr
  unfold Mesh.get at g1 g2
  rw [h1.1, indexing_decode hi'] at g1
  rw [h2.1, indexing_decode hi'] at g2
  rw [g1, ok_bind, g2, ok_bind]
  rfl

/-! ## the cells -/

/-- Segments for which every control point needed is in the cell container. -/
def CellSafe (b : BSpline (D + 1) K V) (s : Fin (D + 1) → ℕ) : Prop := ∀ d, b.periodicity d = true → s d < b.ctrl.dims d + b.order

section
variable {b : BSpline (D + 1) K V} {s : Fin (D + 1) → ℕ} {cell : Mesh (D + 2) V}

theorem seg_cell (h : Shaped b) (hs : ∀ d, SegIn b d (s d)) (hc : CellSafe b s) (d : Fin (D + 1)) :
    s d - b.order + (if d = Fin.last D then b.order else 0) < Cell.cdims b.order b.periodicity b.ctrl.dims d.castSucc := by
  rw [Cell.cdims_castSucc]
  have ⟨h1, h2⟩ := hs d
  have h3 := h.knots d
  cases hp : b.periodicity d with
  | true =>
    have := hc d hp
    have := h.pos d
    split <;> simp <;> omega
  | false =>
    have := h.size d hp
    split <;> simp <;> omega

theorem cell_read (h : Shaped b) (hs : ∀ d, SegIn b d (s d)) (hc : CellSafe b s)
    (hl : cell.Holds (Cell.cdims b.order b.periodicity b.ctrl.dims) (fun ci => ctrlAt b (Cell.src b.order b.ctrl.dims ci)))
    {i : ℕ} (hi : i < (b.order + 1) ^ (D + 1)) :
    rd cell.storage (indexing (Cell.cdims b.order b.periodicity b.ctrl.dims) (Fin.snoc (α := fun _ => ℕ) (fun d => s d - b.order) 0) + i) =
      .ok (ctrlAt b (ctrlNo b s fun d => i / (b.order + 1) ^ d.val % (b.order + 1))) := by
  rw [Cell.read_ok hl ?_ ?_ hi]
  · rfl
  · intro d hd
    have := seg_cell h hs hc d
    rw [if_neg hd] at this
    simpa using this
  · have := seg_cell h hs hc (Fin.last D)
    rwa [if_pos rfl] at this

theorem cellLine (c : Cfg) (h : Shaped b) (hs : ∀ d, SegIn b d (s d)) (hc : CellSafe b s) (hd : cell.dims = Cell.cdims b.order b.periodicity b.ctrl.dims) :
    cell.lineBegin c (Fin.last (D + 1)) (Fin.snoc (α := fun _ => ℕ) (fun d => s d - b.order) 0) =
      .ok (indexing (Cell.cdims b.order b.periodicity b.ctrl.dims) (Fin.snoc (α := fun _ => ℕ) (fun d => s d - b.order) 0), 1) := by
  have hu : Function.update (Fin.snoc (α := fun _ => ℕ) (fun d => s d - b.order) 0 : Fin (D + 2) → ℕ) (Fin.last (D + 1)) 0 =
      Fin.snoc (α := fun _ => ℕ) (fun d => s d - b.order) 0 := by
    rw [Function.update_eq_self_iff, Fin.snoc_last]
  rw [Mesh.lineBegin_ok, hd, hu, stride_last]
  rw [hd, hu]
  intro d
  refine Fin.lastCases ?_ (fun d => ?_) d
  · rw [Fin.snoc_last, Cell.cdims_last]; exact Nat.pow_pos (Nat.succ_pos _)
  · rw [Fin.snoc_castSucc]
    have := seg_cell h hs hc d
    omega

theorem cellIndex_any {segs : Fin (D + 1) → K × ℕ} (hs : ∀ d, SegIn b d (segs d).2) (cell : Mesh (D + 2) V) :
    (⟨b, cell⟩ : CellSpline D K V).cellIndex segs = .ok (Fin.snoc (α := fun _ => ℕ) (fun d => (segs d).2 - b.order) 0) := by
  unfold CellSpline.cellIndex
  rw [tabM_ok (g := fun d => (segs d).2 - b.order) (fun d => subM_ok (hs d).1), ok_bind]
  rfl

/-- A cell container with the control points of `b`. -/
def Cells (b : BSpline (D + 1) K V) (cell : Mesh (D + 2) V) : Prop :=
  cell.Holds (Cell.cdims b.order b.periodicity b.ctrl.dims) (fun ci => ctrlAt b (Cell.src b.order b.ctrl.dims ci))

theorem generate_any (c : Cfg) (h : Shaped b) : Ok (Cell.generate c b.order b.periodicity b.ctrl) (Cells b) :=
  Cell.generate_spec c h.holds h.pos fun d hd => by
    have := h.knots d
    have := h.size d hd
    omega

/-- `derivative_at` has the same outcome in both layouts. -/
theorem cellDerivativeAt_eq (c : Cfg) (h : Shaped b) {x : Fin (D + 1) → K × ℕ × ℕ} (hx : ∀ d, SegIn b d (x d).2.1)
    (hl : Cells b cell) (hcs : ∀ segs, tabM (fun d => getKnotIter' b d (x d).1 (x d).2.1) = .ok segs → CellSafe b fun d => (segs d).2) :
    cellDerivativeAt c ⟨b, cell⟩ x = derivativeAtH c b x := by
  unfold cellDerivativeAt derivativeAtH
  simp only
  split
  · rfl
  refine point_cases (x := fun d => ((x d).1, (x d).2.1)) h hx (fun _ => Nat.sub_le _ _) fun segs base hsg _ hs hb => ?_
  have hc := hcs segs hsg
  rw [cellIndex_any hs, ok_bind, cellLine c h hs hc hl.1, ok_bind]
  rw [loop_congr (g := fun i st => derivFillBody b segs base i st)]
  intro i hi st
  unfold cellDerivFillBody derivFillBody
  have hlt : ∀ d : Fin (D + 1), digs (b.order + 1) (freeAxes fun _ : Fin (D + 1) => false) (fun _ => 0) i d < b.order + 1 := fun d => by
    rw [digs_all]; exact Nat.mod_lt _ (Nat.succ_pos _)
  rw [localIndices_ok (n := b.order + 1) (Nat.succ_pos _), ok_bind, ok_bind, coefFold_any h hs hb hlt, ok_bind,
    fold_prod_any (fun d => rd_el (by rw [hb]; exact hlt d)), ok_bind]
  simp only [Nat.mul_one]
  rw [cell_read h hs hc hl hi, h.holds.get (ctrlNo_inRange h _ _)]
  have e : digs (b.order + 1) (freeAxes fun _ : Fin (D + 1) => false) (fun _ => 0) i = fun d => i / (b.order + 1) ^ d.val % (b.order + 1) :=
    funext fun d => digs_all _ _ _
  rw [e]

end

/-! ## values -/

/-- `p * e₀ * e₁ * …` for a value `p`, from the left. -/
def scaleProd (e : Fin D → K) (p : V) : V := (List.finRange D).foldl (fun a d => e d • a) p

theorem cellScale_any {order : ℕ} {base : Fin (D + 1) → List K} (hb : ∀ d, (base d).length = order + 1) (i : ℕ) (p : V) :
    cellScale order base i p = .ok (scaleProd (fun d => el (base d) (i / (order + 1) ^ d.val % (order + 1))) p) := by
  have key : ∀ (l : List (Fin (D + 1))), l.Nodup → ∀ (a : Fin (D + 1) → ℕ) (i : ℕ) (v : V), ∃ q, l.foldlM (fun (acc : V × ℕ) d => do
      let m ← modM acc.2 (order + 1)
      let x ← rd (base d) m
      let q ← divN acc.2 (order + 1)
      pure (x • acc.1, q)) (v, i) = (.ok (l.foldl (fun c d => el (base d) (digs (order + 1) l a i d) • c) v, q) : M _) := by
    intro l
    induction l with
    | nil => intro _ a i v; exact ⟨i, by simp [pure_eq_ok]⟩
    | cons d l ih =>
      intro hl a i v
      rw [List.nodup_cons] at hl
      obtain ⟨q, hq⟩ := ih hl.2 (Function.update a d (i % (order + 1))) (i / (order + 1)) (el (base d) (i % (order + 1)) • v)
      refine ⟨q, ?_⟩
      have hm : i % (order + 1) < (base d).length := by rw [hb]; exact Nat.mod_lt _ (by omega)
      rw [List.foldlM_cons, modM_ok (by omega), ok_bind, rd_el hm, ok_bind, divN_ok (by omega), ok_bind, pure_eq_ok, ok_bind, hq]
      congr 2
      rw [List.foldl_cons]
      have e0 : digs (order + 1) (d :: l) a i d = i % (order + 1) := by rw [digs, digs_notMem hl.1, Function.update_self]
      rw [e0]
      rfl
  obtain ⟨q, hq⟩ := key (List.finRange (D + 1)) (List.nodup_finRange _) (fun _ => 0) i p
  unfold cellScale
  have e' : List.finRange (D + 1) = freeAxes fun _ : Fin (D + 1) => false := by simp [freeAxes]
  rw [hq, ok_bind, pure_eq_ok]
  have e2 : ∀ d : Fin (D + 1), digs (order + 1) (List.finRange (D + 1)) (fun _ => 0) i d = i / (order + 1) ^ d.val % (order + 1) := fun d => by
    rw [e', digs_all]
  simp only [e2]
  rfl

section
variable {b : BSpline (D + 1) K V} {cell : Mesh (D + 2) V}

/-- `operator()` in the cell layout. -/
theorem cellEval_any (c : Cfg) (h : Shaped b) {x : Fin (D + 1) → K × ℕ} (hx : ∀ d, SegIn b d (x d).2)
    (hl : Cells b cell) (hcs : ∀ segs, tabM (fun d => getKnotIter' b d (x d).1 (x d).2) = .ok segs → CellSafe b fun d => (segs d).2) :
    cellEval c ⟨b, cell⟩ x = (do
      let segs ← tabM fun d => getKnotIter' b d (x d).1 (x d).2
      let base ← tabM fun d => baseSplineValue b.order (b.knots d) (segs d).2 (segs d).1 b.order
      loop 0 ((b.order + 1) ^ (D + 1)) 0 fun i v => pure (v + scaleProd (fun d => el (base d) (i / (b.order + 1) ^ d.val % (b.order + 1)))
        (ctrlAt b (ctrlNo b (fun d => (segs d).2) fun d => i / (b.order + 1) ^ d.val % (b.order + 1))))) := by
  unfold cellEval
  refine point_cases (x := x) h hx (fun _ => le_rfl) fun segs base hsg _ hs hb => ?_
  have hc := hcs segs hsg
  rw [cellIndex_any hs, ok_bind, cellLine c h hs hc hl.1, ok_bind]
  refine loop_congr (fun i hi v => ?_) _
  simp only [Nat.mul_one]
  rw [cell_read h hs hc hl hi, ok_bind, cellScale_any hb, ok_bind]

/-- The side lengths computed from the knots are those of the container. -/
theorem dimsFromKnots_any (hk : ∀ d, (b.knots d).length = knotLen b.order (b.ctrl.dims d + if b.periodicity d then 1 else 0) (b.periodicity d))
    (hn : ∀ d, b.periodicity d = false → b.order < b.ctrl.dims d)
    (ho : b.order % 2 = 1 ∨ ∀ d ≠ 0, b.periodicity d = false) (cell : Mesh (D + 2) V) (a : Fin (D + 2) → ℕ) :
    ∃ cd, (⟨b, cell⟩ : CellSpline D K V).dimsFromKnots = .ok cd ∧ indexing cd a = indexing (Cell.cdims b.order b.periodicity b.ctrl.dims) a := by
  refine ⟨Fin.snoc (α := fun _ => ℕ) (fun d => (b.knots d).length - (b.order + 1) - if d = Fin.last D then 0 else b.order) ((b.order + 1) ^ D), ?_, ?_⟩
  · unfold CellSpline.dimsFromKnots
    rw [tabM_ok (g := fun d => (b.knots d).length - (b.order + 1) - if d = Fin.last D then 0 else b.order), ok_bind]
    · rfl
    · intro d
      have h1 := hk d
      have h2 := hn d
      unfold knotLen at h1
      show (do let k ← subM (b.knots d).length (b.order + 1); subM k (if d = Fin.last D then 0 else b.order)) = _
      have h3 : 2 * b.order + 1 ≤ (b.knots d).length := by
        cases hp : b.periodicity d with
        | true => simp only [hp, if_true] at h1; omega
        | false => have := h2 hp; simp only [hp, Bool.false_eq_true, if_false] at h1; omega
      rw [subM_ok (by omega), ok_bind, subM_ok (by split <;> omega)]
  · refine indexing_congr_dims _ fun d => ?_
    refine Fin.lastCases (fun _ => ?_) (fun d hd0 => ?_) d
    · rw [Fin.snoc_last, Cell.cdims_last]
    · rw [Fin.snoc_castSucc, Cell.cdims_castSucc]
      have hd : d ≠ 0 := by simpa using hd0
      have h1 := hk d
      have h2 := hn d
      unfold knotLen at h1
      cases hp : b.periodicity d with
      | true =>
        have ho' : b.order % 2 = 1 := ho.resolve_right fun h => by rw [h d hd] at hp; cases hp
        simp only [hp, if_true] at h1
        split <;> simp <;> omega
      | false =>
        simp only [hp, Bool.false_eq_true, if_false] at h1
        split <;> simp <;> omega

/-- The evaluator made by `eval_proxy`, applied to the spline. -/
theorem proxy_any (h : Shaped b) (hk : ∀ d, (b.knots d).length = knotLen b.order (b.ctrl.dims d + if b.periodicity d then 1 else 0) (b.periodicity d))
    (ho : b.order % 2 = 1 ∨ ∀ d ≠ 0, b.periodicity d = false) {x : Fin (D + 1) → K × ℕ} (hx : ∀ d, SegIn b d (x d).2)
    (hl : Cells b cell) (hcs : ∀ segs, tabM (fun d => getKnotIter' b d (x d).1 (x d).2) = .ok segs → CellSafe b fun d => (segs d).2)
    (cell0 : Mesh (D + 2) V) :
    (do let p ← preCalcCoef ⟨b, cell0⟩ x; proxyCall p (⟨b, cell⟩ : CellSpline D K V)) = (do
      let segs ← tabM fun d => getKnotIter' b d (x d).1 (x d).2
      let base ← tabM fun d => baseSplineValue b.order (b.knots d) (segs d).2 (segs d).1 b.order
      loop 0 ((b.order + 1) ^ (D + 1)) 0 fun i v => pure (v + (if D = 0 then el (base 0) i else
          coefProd fun d => el (base d) (i / (b.order + 1) ^ d.val % (b.order + 1))) •
        ctrlAt b (ctrlNo b (fun d => (segs d).2) fun d => i / (b.order + 1) ^ d.val % (b.order + 1)))) := by
  have hn : ∀ d, b.periodicity d = false → b.order < b.ctrl.dims d := fun d hd => by
    have := h.knots d
    have := h.size d hd
    omega
  unfold preCalcCoef
  simp only [bind_assoc]
  refine point_cases (x := x) h hx (fun _ => le_rfl) fun segs base hsg _ hs hb => ?_
  have hc := hcs segs hsg
  rw [cellIndex_any hs, ok_bind]
  obtain ⟨cd, h1, h2⟩ := dimsFromKnots_any hk hn ho cell0 (Fin.snoc (α := fun _ => ℕ) (fun d => (segs d).2 - b.order) 0)
  rw [h1, ok_bind, pure_eq_ok, ok_bind, h2]
  unfold proxyCall
  have e1 : cell.dims (Fin.last (D + 1)) = (b.order + 1) ^ D := by
    have : cell.dims = _ := hl.1
    rw [this, Cell.cdims_last]
  simp only
  rw [e1, ← pow_succ]
  refine loop_congr (fun i hi v => ?_) _
  by_cases h0 : D = 0
  · subst h0
    have hi' : i < (base 0).length := by rw [hb]; exact lt_of_lt_of_eq hi (pow_one _)
    simp only [if_true]
    rw [rd_el hi', ok_bind, cell_read h hs hc hl hi, ok_bind]
  · simp only [if_neg h0]
    rw [cellCoef_any hb, ok_bind, cell_read h hs hc hl hi, ok_bind]

end

theorem finRange_one : List.finRange 1 = [0] := rfl

/-- With one dimension an evaluator of `eval_proxy` computes the same as `operator()` in the cell layout. -/
theorem proxy_one {b : BSpline 1 K V} {cell : Mesh 2 V} (c : Cfg) (h : Shaped b)
    (hk : ∀ d, (b.knots d).length = knotLen b.order (b.ctrl.dims d + if b.periodicity d then 1 else 0) (b.periodicity d)) {x : Fin 1 → K × ℕ} (hx : ∀ d, SegIn b d (x d).2)
    (hl : Cells b cell) (hcs : ∀ segs, tabM (fun d => getKnotIter' b d (x d).1 (x d).2) = .ok segs → CellSafe b fun d => (segs d).2)
    (cell0 : Mesh 2 V) : (do let p ← preCalcCoef ⟨b, cell0⟩ x; proxyCall p (⟨b, cell⟩ : CellSpline 0 K V)) = cellEval c ⟨b, cell⟩ x := by
  rw [proxy_any h hk (.inr fun d hd => absurd (Subsingleton.elim (α := Fin 1) d 0) hd) hx hl hcs cell0, cellEval_any c h hx hl hcs]
  refine point_cases (x := x) h hx (fun _ => le_rfl) fun segs base hsg _ hs hb => ?_
  refine loop_congr (fun i hi v => ?_) _
  have hi' : i < b.order + 1 := lt_of_lt_of_eq hi (pow_one _)
  simp [scaleProd, finRange_one, Nat.mod_eq_of_lt hi']

omit [CoordArith K] in
theorem Spec_true {α : Type} (m : M α) : Spec m (fun _ => True) fun _ => True := by cases m <;> trivial

/-- Multiplying by 1 changes none of the numbers that `base_spline_value` makes: 0, 1 and sums. -/
def OneMul (K : Type) [CoordArith K] : Prop := (1 : K) * 0 = 0 ∧ (1 : K) * 1 = 1 ∧ ∀ a b : K, 1 * (a + b) = a + b

theorem baseSplineValue_one (hone : OneMul K) {o s p : ℕ} {t : List K} {x : K} :
    Spec (baseSplineValue o t s x p) (fun r => ∀ v ∈ r, 1 * v = v) fun _ => True := by
  unfold baseSplineValue
  refine Spec.bind (Q := fun r => ∀ v ∈ r, (1 : K) * v = v) ?_ fun r hr => ?_
  · rw [wr_ok (by simp)]
    refine Spec.ok fun v hv => ?_
    rcases List.mem_or_eq_of_mem_set hv with h | h
    · rw [List.eq_of_mem_replicate h]; exact hone.1
    · rw [h]; exact hone.2.1
  · refine Spec.loopC (P := fun r => ∀ v ∈ r, (1 : K) * v = v) hr fun i r _ _ hr => ?_
    refine Spec.bind (Q := fun _ => True) (Spec_true _) fun k _ => Spec.loopC (P := fun r => ∀ v ∈ r, (1 : K) * v = v) hr fun j r _ _ hr => ?_
    unfold baseSplineBody
    refine Spec.bind (Q := fun _ => True) (Spec_true _) fun _ _ => Spec.bind (Q := fun _ => True) (Spec_true _) fun _ _ =>
      Spec.bind (Q := fun _ => True) (Spec_true _) fun u _ => Spec.bind (Q := fun _ => True) (Spec_true _) fun w _ => ?_
    unfold wr
    split
    · refine Spec.ok fun v hv => ?_
      rcases List.mem_or_eq_of_mem_set hv with h | h
      · exact hr v h
      · rw [h]; exact hone.2.2 _ _
    · trivial

/-- With one dimension `operator()` computes the same in both layouts. -/
theorem cellEval_one {b : BSpline 1 K V} {cell : Mesh 2 V} (c : Cfg) (hone : OneMul K) (h : Shaped b) {x : Fin 1 → K × ℕ} (hx : ∀ d, SegIn b d (x d).2)
    (hl : Cells b cell) (hcs : ∀ segs, tabM (fun d => getKnotIter' b d (x d).1 (x d).2) = .ok segs → CellSafe b fun d => (segs d).2) :
    cellEval c ⟨b, cell⟩ x = eval b x := by
  rw [cellEval_any c h hx hl hcs]
  unfold eval
  refine point_cases (x := x) h hx (fun _ => le_rfl) fun segs base hsg hbs hs hb => ?_
  have hone' : ∀ v ∈ base 0, (1 : K) * v = v := by
    have := tabM_spec (E := fun _ => True) (Q := fun d r => ∀ v ∈ r, (1 : K) * v = v) fun d => baseSplineValue_one hone (o := b.order)
      (t := b.knots d) (s := (segs d).2) (x := (segs d).1) (p := b.order)
    rw [hbs] at this
    exact this 0
  refine loop_congr (fun i hi v => ?_) _
  have hi' : i < b.order + 1 := lt_of_lt_of_eq hi (pow_one _)
  rw [evalBody_any h hs hb]
  have e : decode (fun _ : Fin 1 => b.order + 1) i = fun d => i / (b.order + 1) ^ d.val % (b.order + 1) := by
    funext d
    rw [Subsingleton.elim d (Fin.last 0), decode_last]; simp
  have e1 : (1 : K) * el (base 0) i = el (base 0) i := by
    refine hone' _ ?_
    have : i < (base 0).length := by rw [hb]; exact hi'
    unfold el
    simp [this]
  rw [e]
  simp [term, coefProd, scaleProd, finRange_one, Nat.mod_eq_of_lt hi', e1, pure_eq_ok]

/-- The segment found is the last one only if the wrapped coordinate is not below the end of the range. -/
theorem getKnotIter'_end {b : BSpline D K V} (h : Shaped b) (d : Fin D) (x : K) {hint : ℕ} (hh : SegIn b d hint) (ho : b.order + 2 + b.order < (b.knots d).length)
    (hw : ∀ w v, (if b.periodicity d then wrapCoord (b.range d) x else pure x) = .ok w → (b.knots d)[(b.knots d).length - b.order - 2]? = some v → w < v) :
    Spec (getKnotIter' b d x hint) (fun r => r.2 + b.order + 2 < (b.knots d).length) fun _ => True := by
  have hk := h.knots d
  have ⟨hh1, hh2⟩ := hh
  unfold getKnotIter' getKnotIter
  rw [subM_ok (by omega), ok_bind, subM_ok (by omega), ok_bind, itAdd_ok (r := hint) (by omega) (by omega), ok_bind]
  have rest : ∀ w : K, (∀ v, (b.knots d)[(b.knots d).length - b.order - 2]? = some v → w < v) → Spec (do
      let s ← findSegment b.order (b.knots d) w hint ((b.knots d).length - b.order - 2)
      pure (w, s) : M (K × ℕ)) (fun r => r.2 + b.order + 2 < (b.knots d).length) fun _ => True := by
    intro w hw
    have hlt := hw _ (List.getElem?_eq_getElem (by omega))
    refine Spec.bind (findSegment_safe (o := b.order) (by omega) (by omega) (by omega)) fun s hs => Spec.pure ?_
    show s + b.order + 2 < (b.knots d).length
    rcases hs with ⟨rfl, v, hv, hle, -⟩ | ⟨h1, h2, h3, -⟩
    · by_contra hc
      rw [show s = (b.knots d).length - b.order - 2 by omega, List.getElem?_eq_getElem (by omega)] at hv
      injection hv with hv
      rw [← hv] at hle
      exact le_not_lt _ _ hle hlt
    · by_contra hc
      have e : s = (b.knots d).length - b.order - 2 := by omega
      subst e
      exact h3 (by omega) _ (List.getElem?_eq_getElem (by omega)) hlt
  dsimp only
  refine Spec.ite (fun hp => ?_) fun hp => rest _ (hw x · (by rw [if_neg hp]; rfl))
  cases hwc : wrapCoord (b.range d) x with
  | error e => trivial
  | ok w => exact rest _ (hw w · (by rw [if_pos hp]; exact hwc))

end Intp.Fl
