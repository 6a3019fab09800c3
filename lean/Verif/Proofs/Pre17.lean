import Verif.Pre17
import Verif.Proofs.Interp

/-!
# The pre-C++17 branches do what the C++17 branches do
-/

namespace Intp

variable {K V : Type} {D : ℕ}

/-- Two loops in lockstep. -/
theorem loop_sim {σ τ : Type} {φ : τ → σ} {f : ℕ → σ → M σ} {g : ℕ → τ → M τ} {n : ℕ} {P : ℕ → τ → Prop} {s : τ} (h0 : P 0 s)
    (h : ∀ i s, i < n → P i s → (f i (φ s) = g i s >>= fun r => pure (φ r)) ∧ ∀ r, g i s = .ok r → P (i + 1) r) :
    loop 0 n (φ s) f = loop 0 n s g >>= fun r => pure (φ r) := by
  have key : ∀ (k i : ℕ) (s : τ), i + k ≤ n → P i s → loopN k i (φ s) f = loopN k i s g >>= fun r => pure (φ r) := by
    intro k
    induction k with
    | zero => intro i s _ _; rfl
    | succ k ih =>
      intro i s hik hs
      show (f i (φ s) >>= fun s => loopN k (i + 1) s f) = (g i s >>= fun s => loopN k (i + 1) s g) >>= fun r => pure (φ r)
      obtain ⟨h1, h2⟩ := h i s (by omega) hs
      rw [h1]
      cases hg : g i s with
      | ok s' => exact ih _ _ (by omega) (h2 s' hg)
      | error e => rfl
  exact key _ _ _ (by omega) h0

theorem tabM_map {α β : Type} {D : ℕ} {f : Fin D → M α} {g : Fin D → M β} {φ : Fin D → α → β} (h : ∀ d, g d = f d >>= fun a => pure (φ d a)) :
    tabM g = tabM f >>= fun a => pure fun d => φ d (a d) := by
  induction D with
  | zero => unfold tabM; rw [ok_bind, pure_eq_ok]; congr 1; funext d; exact d.elim0
  | succ D ih =>
    unfold tabM
    rw [h 0, ih (f := fun d => f d.succ) (φ := fun d => φ d.succ) (fun d => h d.succ)]
    cases f 0 with
    | error e => rfl
    | ok a =>
      simp only [ok_bind, pure_eq_ok]
      cases tabM fun d : Fin D => f d.succ with
      | error e => rfl
      | ok b =>
        simp only [ok_bind, pure_eq_ok]
        congr 1
        funext d
        refine Fin.cases ?_ (fun d => ?_) d <;> rfl

variable [Field K] [LinearOrder K] [FloorRing K] [AddCommGroup V] [Module K V]

omit [Field K] [LinearOrder K] [FloorRing K] in
theorem ExtBandMatrix.toBand_set (c : Cfg) (m : ExtBandMatrix K) (i j : ℕ) (v : K) :
    m.toBand.set c i j v = m.mainSet c i j v >>= fun r => pure r.toBand := by
  unfold BandMatrix.set ExtBandMatrix.mainSet
  show (assertM c (decide (j + m.p ≥ i ∧ i + m.q ≥ j)) >>= fun _ => subM (i + m.q) j >>= fun b => m.bands.setSafe c ![j, b] v >>= fun bands =>
    pure { m.toBand with bands := bands }) = _
  cases assertM c (decide (j + m.p ≥ i ∧ i + m.q ≥ j)) with
  | error e => rfl
  | ok _ =>
    simp only [ok_bind]
    cases subM (i + m.q) j with
    | error e => rfl
    | ok b =>
      simp only [ok_bind]
      cases m.bands.setSafe c ![j, b] v with
      | error e => rfl
      | ok _ => rfl

namespace Pre17

/-- Periodic rows: the same code in both branches. -/
theorem rowWrite_periodic (c : Cfg) (o n i ki s : ℕ) (vals : List K) (m : ExtBandMatrix K) :
    Intp.rowWrite c o n i ki s true vals (.ext m) = rowWrite c o n i ki s true vals m >>= fun r => pure (.ext r) := by
  unfold Intp.rowWrite rowWrite
  refine loop_sim (φ := CoefMat.ext) (P := fun _ _ => True) trivial fun j m _ _ => ⟨?_, fun _ _ => trivial⟩
  simp only [if_true]
  cases modM (i + bandWidth o true) n with
  | error e => rfl
  | ok row =>
    simp only [ok_bind]
    cases subM ki o with
    | error e => rfl
    | ok k =>
      simp only [ok_bind]
      cases modM (k + j) n with
      | error e => rfl
      | ok col =>
        simp only [ok_bind]
        cases rd vals j with
        | error e => rfl
        | ok v => simp only [ok_bind]; rfl

/-- Aperiodic rows that fit in the matrix. -/
theorem rowWrite_aperiodic (c : Cfg) {o n i ki s : ℕ} (hi : i < n) (ho : o ≤ ki) (hk : ki < n) (hs : s ≤ o + 1) (vals : List K) (m : ExtBandMatrix K) :
    Intp.rowWrite c o n i ki s false vals (.band m.toBand) = rowWrite c o n i ki s false vals m >>= fun r => pure (.band r.toBand) := by
  unfold Intp.rowWrite rowWrite
  refine loop_sim (φ := fun m => CoefMat.band (ExtBandMatrix.toBand m)) (P := fun _ _ => True) trivial fun j m hj _ => ⟨?_, fun _ _ => trivial⟩
  simp only [Bool.false_eq_true, if_false, Nat.add_zero]
  rw [modM_ok (by omega), ok_bind, subM_ok ho, ok_bind, ok_bind, modM_ok (by omega), ok_bind, Nat.mod_eq_of_lt hi, Nat.mod_eq_of_lt (by omega)]
  cases rd vals j with
  | error e => rfl
  | ok v =>
    simp only [ok_bind]
    show (m.toBand.set c i (ki - o + j) v >>= fun m => pure (CoefMat.band m)) = _
    rw [m.toBand_set]
    cases m.mainSet c i (ki - o + j) v <;> rfl

theorem assemble_periodic (c : Cfg) {f : InterpFn D K V} {d : Fin D} (hp : f.periodicity d = true) (coords : List K) (n : ℕ) (vals : List K) :
    Intp.assemble c f coords d n vals = assemble c f coords d n vals >>= fun r => pure (.ext r) := by
  unfold Intp.assemble assemble CoefMat.mk'
  rw [hp, if_pos rfl]
  cases ExtBandMatrix.mk' (K := K) n (bandWidth f.spline.order true) (bandWidth f.spline.order true) with
  | error e => rfl
  | ok m =>
    simp only [ok_bind, pure_eq_ok]
    rw [loop_sim (φ := fun st : ExtBandMatrix K × List K => (CoefMat.ext st.1, st.2)) (s := (m, vals)) (P := fun _ _ => True)
      (g := fun i st => assembleBody c f coords d n i st) trivial fun i st _ _ => ⟨?_, fun _ _ => trivial⟩]
    · cases loop 0 n (m, vals) fun i st => assembleBody c f coords d n i st <;> rfl
    · unfold Intp.assembleBody assembleBody
      rw [hp]
      simp only [Bool.true_eq_false, false_and, if_false]
      cases isInternal f.spline.order n i with
      | error e => rfl
      | ok inn =>
        simp only [ok_bind]
        cases rowData f coords d i st.2 with
        | error e => rfl
        | ok r =>
          simp only [ok_bind]
          rw [rowWrite_periodic]
          cases rowWrite c f.spline.order n i r.1 (sNum f.spline.order true (f.uniform d) inn) true r.2 st.1 <;> rfl

theorem assemble_aperiodic (c : Cfg) {f : InterpFn D K V} {d : Fin D} {o n : ℕ} (hp : f.periodicity d = false) (ho : f.spline.order = o)
    (hn : o < n) {coords vals : List K} {Inv : ℕ → List K → Prop}
    (h0 : Inv 0 vals) (hkeep : ∀ i vals, i = 0 ∨ i + 1 = n → Inv i vals → Inv (i + 1) vals)
    (hrow : ∀ i, 0 < i → i + 1 < n → ∀ vals, Inv i vals → ∃ ki vals', rowData f coords d i vals = .ok (ki, vals') ∧ o ≤ ki ∧ ki < n ∧
      Inv (i + 1) vals') :
    Intp.assemble c f coords d n vals = assemble c f coords d n vals >>= fun r => pure (.band r.toBand) := by
  unfold Intp.assemble assemble CoefMat.mk'
  rw [hp, if_neg (by simp), ho]
  have hbw : bandWidth o false < n := by unfold bandWidth; simp; split <;> omega
  have hmk : ExtBandMatrix.mk' (K := K) n (bandWidth o false) (bandWidth o false) = .ok ⟨n, bandWidth o false, bandWidth o false,
      Mesh.mk' ![n, 1 + bandWidth o false + bandWidth o false], Mesh.mk' ![n - (bandWidth o false + 1), bandWidth o false],
      Mesh.mk' ![n - (bandWidth o false + 1), bandWidth o false]⟩ := by
    unfold ExtBandMatrix.mk'
    rw [subM_ok (by omega), ok_bind, ok_bind, pure_eq_ok]
  rw [hmk, ok_bind, pure_eq_ok, ok_bind]
  set m : ExtBandMatrix K := ⟨n, bandWidth o false, bandWidth o false,
      Mesh.mk' ![n, 1 + bandWidth o false + bandWidth o false], Mesh.mk' ![n - (bandWidth o false + 1), bandWidth o false],
      Mesh.mk' ![n - (bandWidth o false + 1), bandWidth o false]⟩ with hm
  have hm' : BandMatrix.mk' n (bandWidth o false) (bandWidth o false) = m.toBand := rfl
  rw [hm']
  rw [loop_sim (φ := fun st : ExtBandMatrix K × List K => (CoefMat.band st.1.toBand, st.2)) (s := (m, vals)) (P := fun i st => Inv i st.2)
    (g := fun i st => assembleBody c f coords d n i st) h0 fun i st hi hst => ?_]
  · cases loop 0 n (m, vals) fun i st => assembleBody c f coords d n i st <;> rfl
  · unfold Intp.assembleBody assembleBody
    rw [hp, ho]
    by_cases he : i = 0 ∨ i + 1 = n
    · simp only [true_and]
      rw [if_pos he, if_pos he]
      show (((st.1.toBand.set c i i 1 >>= fun m => pure (CoefMat.band m)) >>= fun m => pure (m, st.2)) = _) ∧ _
      rw [st.1.toBand_set]
      cases hms : st.1.mainSet c i i 1 with
      | error e => exact ⟨rfl, fun r hr => by simp at hr⟩
      | ok r =>
        refine ⟨rfl, fun r' hr' => ?_⟩
        rw [ok_bind, pure_eq_ok] at hr'
        injection hr' with hr'
        rw [← hr']
        exact hkeep i _ he hst
    · simp only [true_and]
      rw [if_neg he, if_neg he]
      obtain ⟨ki, vals', hr, h1, h2, h3⟩ := hrow i (by omega) (by omega) st.2 hst
      rw [isInternal_ok (by omega), ok_bind, ok_bind]
      simp only [hr, ok_bind]
      rw [rowWrite_aperiodic c hi h1 h2 (sNum_le _ _ _ _)]
      cases rowWrite c o n i ki (sNum o false (f.uniform d) (decide (o / 2 < i ∧ i < n - (o / 2 + 1)))) false vals' st.1 with
      | error e => exact ⟨rfl, fun r hr => by simp at hr⟩
      | ok m' =>
        refine ⟨rfl, fun r' hr' => ?_⟩
        rw [ok_bind, pure_eq_ok] at hr'
        injection hr' with hr'
        rw [← hr']
        exact h3

theorem compute_eq (c : Cfg) (per : Bool) (m : ExtBandMatrix K) :
    compute c EitherSolver.default per m =
      Solver.ofMat c (if per then .ext m else .band m.toBand) >>= fun s => pure (⟨true, per, some s⟩ : EitherSolver K) := by
  unfold compute EitherSolver.assign Solver.ofMat
  cases per
  · simp only [EitherSolver.default, Bool.false_eq_true, if_false, pure_eq_ok, ok_bind, EitherSolver.aperiodicMember, EitherSolver.fresh]
    cases LUState.compute (BandMatrix.computeImpl c) (LUState.empty (BandMatrix.mk' 0 0 0)) m.toBand <;> rfl
  · simp only [EitherSolver.default, Bool.false_eq_true, if_false, if_true, pure_eq_ok, ok_bind, EitherSolver.periodicMember, EitherSolver.fresh]
    cases LUState.compute (ExtBandMatrix.computeImpl c)
      (LUState.empty ⟨0, 0, 0, Mesh.mk' fun _ => 0, Mesh.mk' fun _ => 0, Mesh.mk' fun _ => 0⟩) m <;> rfl

variable [IsStrictOrderedRing K]

/-- Matrix of a dimension of a valid interpolation. -/
theorem assemble_eq (c : Cfg) {o : ℕ} {per : Fin D → Bool} {dims : Fin D → ℕ} {x : Fin D → XRange K} {f : InterpFn D K V}
    {ic : Fin D → List K} (h : Built c o per dims x f ic) (hv : ValidAxes c o per dims x) (d : Fin D) {vals : List K} :
    Intp.assemble c f (ic d) d (unk (per d) (pointNum c (per d) (dims d))) vals =
      assemble c f (ic d) d (unk (per d) (pointNum c (per d) (dims d))) vals >>= fun r => pure (if per d then .ext r else .band r.toBand) := by
  have hb := h.dim d
  have hv := hv d
  set N := pointNum c (per d) (dims d) with hN
  have hper : f.periodicity d = per d := congrFun h.pers d
  have h2 := hv.two
  have hDim : DimIs f d o (per d) (x d).isUniform ((x d).knots o (unk (per d) N) (per d)) := ⟨h.order, hper, hb.uni, hb.knots⟩
  cases hpd : per d with
  | true =>
    simp only [if_true]
    exact assemble_periodic c (hper.trans hpd) _ _ _
  | false =>
    have hunk : unk false N = N := rfl
    simp only [Bool.false_eq_true, if_false]
    rw [hpd] at hDim hb hv hper
    have ax := hv.aAxis
    have hbig := ax.big
    cases hx : x d with
    | uniform a b =>
      rw [hx] at hDim hb hv ax
      have hdx := hb.dx a b rfl
      have hr : (f.range d).1 = a := by
        show (f.spline.range d).1 = a
        rw [hb.range]
        have := ax.left o le_rfl
        rw [this]
        simp [XRange.node]
      unfold XRange.knots at hDim ax
      simp only [Bool.false_eq_true, if_false] at hDim ax
      rw [hunk] at hDim ax hbig ⊢
      change AAxis o N _ (uNode a ((b - a) / ((N : K) - 1))) at ax
      refine assemble_aperiodic c hper h.order (by omega) (Inv := fun i vals => 2 ≤ i → i < N → vals = arr (o + 1) fun j =>
        piece (knotFn (arr (N + (o + 1)) (uaKnot o N a b ((b - a) / ((N : K) - 1))))) (ax.ki (i - 1)) o (ax.ki (i - 1) - o + j)
          (uNode a ((b - a) / ((N : K) - 1)) (i - 1))) (by omega) ?_ ?_
      · intro i vals hi _ h1 h2; omega
      · intro i h1 h2 vals hv'
        have hk := ax.ki_bounds i
        refine ⟨_, _, ua_row hv.step_pos ax hDim hr hdx h1 h2 hv', hk.1, by omega, fun _ _ => ?_⟩
        rw [show i + 1 - 1 = i by omega]
    | coords l =>
      rw [hx] at hDim hb hv ax
      have hc := hv.coords l rfl
      rw [hb.ic l rfl]
      unfold XRange.knots at hDim ax
      simp only [Bool.false_eq_true, if_false] at hDim ax
      rw [hunk] at hDim ax hbig ⊢
      change AAxis o N _ (knotFn l) at ax
      refine assemble_aperiodic c hper h.order (by omega) (Inv := fun _ _ => True) trivial (fun _ _ _ _ => trivial) ?_
      intro i h1 h2 vals _
      have hk := ax.ki_bounds i
      have ho1 := hc.2.2 rfl
      obtain ⟨k1, k2, k3⟩ := ca_ki (fun i j h1 h2 => hv.strict h1 h2) (hc.2.2 rfl) ax h1 h2
      refine ⟨_, _, ca_row (hc.2.2 rfl) hc.1 ax hDim h1 h2 ?_ vals, hk.1, by omega, trivial⟩
      by_cases h1o : o = 1
      · have := (k2 h1o).1; omega
      · have := k3 (by omega); omega

/-- A C++17 template, seen as a pre-C++17 one. -/
def ofTemplate (per : Fin D → Bool) (t : Intp.Template D K V) : Template D K V :=
  ⟨t.coords, t.dims, t.base, fun d => ⟨true, per d, some (t.solvers d)⟩⟩

theorem construct_eq (c : Cfg) {o : ℕ} {per : Fin D → Bool} {dims : Fin D → ℕ} {x : Fin D → XRange K} (hv : ValidAxes c o per dims x) :
    Template.construct (V := V) c o per dims x = Intp.Template.construct c o per dims x >>= fun t => pure (ofTemplate per t) := by
  unfold Template.construct Intp.Template.construct
  obtain ⟨r, e, hr⟩ := (partialConstruct_ok (V := V) c hv).exists
  rw [e, ok_bind, ok_bind, adjustDims_ok c hv, ok_bind, ok_bind]
  choose vals m A ki e1 e2 e3 e4 e5 using hr.assemble_ok c hv
  rw [tabM_ok e1, ok_bind, ok_bind]
  rw [tabM_map (f := fun d => do
      let m ← Intp.assemble c r.1 (r.2 d) d (unk (per d) (pointNum c (per d) (dims d))) (vals d)
      Solver.ofMat c m) (φ := fun d s => (⟨true, per d, some s⟩ : EitherSolver K)) fun d => ?_]
  · cases tabM fun d => do
      let m ← Intp.assemble c r.1 (r.2 d) d (unk (per d) (pointNum c (per d) (dims d))) (vals d)
      Solver.ofMat c m <;> rfl
  · have hp : r.1.periodicity d = per d := congrFun hr.pers d
    rw [assemble_eq c hr hv d, hp]
    cases assemble c r.1 (r.2 d) d (unk (per d) (pointNum c (per d) (dims d))) (vals d) with
    | error e => rfl
    | ok m =>
      simp only [ok_bind, pure_eq_ok]
      rw [compute_eq]
      rfl

/-- A solver of the kind of the dimension. -/
def Kind (per : Bool) : Solver K → Prop
  | .band _ => per = false
  | .ext _ => per = true

theorem construct_kind (c : Cfg) {o : ℕ} {per : Fin D → Bool} {dims : Fin D → ℕ} {x : Fin D → XRange K} (hv : ValidAxes c o per dims x)
    {t : Intp.Template D K V} (h : Intp.Template.construct c o per dims x = .ok t) : ∀ d, Kind (per d) (t.solvers d) := by
  unfold Intp.Template.construct at h
  obtain ⟨r, e, hr⟩ := (partialConstruct_ok (V := V) c hv).exists
  rw [e, ok_bind, adjustDims_ok c hv, ok_bind] at h
  choose vals m A ki e1 e2 e3 e4 e5 using hr.assemble_ok c hv
  rw [tabM_ok e1, ok_bind] at h
  cases hs : tabM fun d => do
      let m ← Intp.assemble c r.1 (r.2 d) d (unk (per d) (pointNum c (per d) (dims d))) (vals d)
      Solver.ofMat c m with
  | error e => rw [hs] at h; simp at h
  | ok s =>
    rw [hs, ok_bind, pure_eq_ok] at h
    injection h with h
    intro d
    have := tabM_ok_inv hs d
    rw [e2 d, ok_bind] at this
    rw [← h]
    show Kind (per d) (s d)
    have hR := (e3 d).1
    cases hm : m d with
    | band m' =>
      rw [hm] at this hR
      unfold Solver.ofMat at this
      simp only at this
      cases hc : LUState.compute (BandMatrix.computeImpl c) (LUState.empty (BandMatrix.mk' 0 0 0)) m' with
      | error e => rw [hc] at this; simp at this
      | ok s' =>
        rw [hc, ok_bind, pure_eq_ok] at this
        injection this with this
        rw [← this]
        exact hR.1
    | ext m' =>
      rw [hm] at this hR
      unfold Solver.ofMat at this
      simp only at this
      cases hc : LUState.compute (ExtBandMatrix.computeImpl c)
        (LUState.empty ⟨0, 0, 0, Mesh.mk' fun _ => 0, Mesh.mk' fun _ => 0, Mesh.mk' fun _ => 0⟩) m' with
      | error e => rw [hc] at this; simp at this
      | ok s' =>
        rw [hc, ok_bind, pure_eq_ok] at this
        injection this with this
        rw [← this]
        exact hR.1

omit [IsStrictOrderedRing K] [FloorRing K] in
theorem solve_eq (c : Cfg) {per : Bool} {s : Solver K} (h : Kind per s) (buf : List V) (off step : ℕ) :
    Template.solve c ⟨true, per, some s⟩ per buf off step = s.solve c buf off step := by
  cases s with
  | band s => obtain rfl : per = false := h; rfl
  | ext s => obtain rfl : per = true := h; rfl

omit [IsStrictOrderedRing K] in
theorem solveDim_eq (c : Cfg) {per : Bool} {s : Solver K} (h : Kind per s) (st : Mesh (D + 1) V × Mesh (D + 1) V) :
    Template.solveDim c ⟨true, per, some s⟩ per st = Intp.Template.solveDim c s st := by
  unfold Template.solveDim Intp.Template.solveDim Template.solveBlock Intp.Template.solveBlock Template.solveLine Intp.Template.solveLine
  simp only [solve_eq c h]

omit [IsStrictOrderedRing K] in
theorem solveForControlPoints_eq (c : Cfg) {per : Fin (D + 1) → Bool} {t : Intp.Template (D + 1) K V} (hp : t.base.periodicity = per)
    (h : ∀ d, Kind (per d) (t.solvers d)) (fm : Mesh (D + 1) V) :
    (ofTemplate per t).solveForControlPoints c fm = t.solveForControlPoints c fm := by
  unfold Template.solveForControlPoints Intp.Template.solveForControlPoints ofTemplate Template.solveDims Intp.Template.solveDims
  simp only [hp, solveDim_eq c (h _)]

/-- A line solved with an inactive solver. -/
theorem solveLine_dead (c : Cfg) {per : Bool} {e : EitherSolver K} (he : e.member = none) {st : Mesh (D + 1) V × Mesh (D + 1) V}
    (h1 : ∀ d, 0 < st.1.dims d) (h2 : (D = 0 ∧ 0 < st.2.dims 0) ∨ st.2.dims = Intp.Template.rightShift st.1.dims) (j : ℕ) :
    Template.solveLine c e per j st = .error .deadMember := by
  unfold Template.solveLine
  simp only
  rw [dimwiseIndices_ok h1, ok_bind]
  set a := decode st.1.dims (j * st.1.dims (Fin.last D)) with ha
  have har : InRange st.1.dims a := decode_inRange h1
  rw [Mesh.lineBegin_ok c st.1 _ (har.update (h1 _)), ok_bind]
  have hup : InRange st.2.dims (Function.update (Intp.Template.rightShift a) 0 0) := by
    rcases h2 with ⟨hD, h2⟩ | h2
    · intro d
      have hd0 : d = 0 := Fin.ext (by have := d.isLt; simp; omega)
      subst hd0
      rw [Function.update_self]; exact h2
    · have hra := Intp.Template.rightShift_inRange.2 har
      rw [h2]
      refine hra.update ?_
      exact (Nat.zero_le _).trans_lt (hra 0)
  rw [Mesh.lineBegin_ok c st.2 _ hup, ok_bind]
  unfold Template.solve EitherSolver.periodicMember EitherSolver.aperiodicMember
  rw [he]
  cases per <;> rfl

theorem solveForControlPoints_dead (c : Cfg) {t : Template (D + 1) K V} (hs : ∀ d, (t.solvers d).member = none) (hpos : ∀ d, 0 < t.dims d)
    {fm : Mesh (D + 1) V} {F : (Fin (D + 1) → ℕ) → V}
    (hd : ∀ d, fm.dims d = t.dims d + if t.base.periodicity d && !c.noDummy then 1 else 0) (hF : fm.Holds fm.dims F) :
    t.solveForControlPoints c fm = .error .deadMember := by
  unfold Template.solveForControlPoints
  obtain ⟨w, e, W, hW, -⟩ := (Intp.Template.initWeights_spec c (o := t.base.spline.order) hpos hd hF).exists
  rw [e, ok_bind]
  simp only
  have key : ∀ tmp : Mesh (D + 1) V, (D = 0 → 0 < tmp.dims 0) → Template.solveDims c t.solvers t.base.periodicity (w, tmp) = .error .deadMember := by
    intro tmp htmp
    unfold Template.solveDims
    rw [List.finRange_succ, List.foldlM_cons]
    simp only [Fin.val_zero, Nat.zero_mod, if_true]
    unfold Template.solveDim
    simp only
    have hl : w.dims (Fin.last D) ≠ 0 := by rw [hW.1]; exact (hpos _).ne'
    have hsz : w.size = ∏ d, t.dims d := hW.2.1.trans (by rw [hW.1])
    have hdiv : divN w.size (w.dims (Fin.last D)) = .ok (w.size / w.dims (Fin.last D)) := by unfold divN; rw [if_neg hl]
    rw [hdiv, ok_bind]
    have h1 : 1 ≤ w.size / w.dims (Fin.last D) := by
      rw [Nat.le_div_iff_mul_le (Nat.pos_of_ne_zero hl), one_mul, hsz, hW.1, Fin.prod_univ_castSucc]
      exact Nat.le_mul_of_pos_left _ (Finset.prod_pos fun d _ => hpos _)
    unfold Template.solveBlock loop
    obtain ⟨k, hk⟩ : ∃ k, w.size / w.dims (Fin.last D) - 0 = k + 1 := ⟨w.size / w.dims (Fin.last D) - 1, by omega⟩
    rw [hk, loopN, solveLine_dead c (hs _) (by simp only [hW.1]; exact hpos)]
    · rfl
    · by_cases hD : D = 0
      · left; simp only [if_pos hD]; exact ⟨hD, htmp hD⟩
      · right; simp only [if_neg hD]; rfl
  rw [key]
  · rfl
  · intro hD; simp only [if_pos hD]; simp [Mesh.mk']

end Pre17

end Intp
