import Verif.Proofs.FlSweep
import Verif.Proofs.PerAxes

/-!
# Splines of order 0 in any arithmetic
-/

namespace Intp.Fl

open CoordArith

variable {K V : Type} [CoordArith K] [ValArith V] [ScaleArith K V] {D : ℕ}

theorem baseSplineValue_zero (t : List K) (s : ℕ) (x : K) : baseSplineValue 0 t s x 0 = .ok [1] := by
  unfold baseSplineValue
  rw [wr_ok (by simp), ok_bind, loop_empty (by omega)]
  rfl

theorem baseAt_zero {b : BSpline D K V} (ho : b.order = 0) {d : Fin D} {ki : ℕ} (h : ki ≤ (b.knots d).length) (x : K) : baseAt b d ki x = .ok [1] := by
  unfold baseAt
  rw [itAdd_ok (r := ki) (by simp) h, ok_bind, ho]
  exact baseSplineValue_zero _ _ _

/-- Elimination of a diagonal matrix changes nothing. -/
theorem Elims.diag {n : ℕ} {Pat : ℕ → ℕ → Prop} (hP : ∀ i j, i < n → j < n → Pat i j → i = j) {A C : ℕ → ℕ → K} {k : ℕ} (h : Elims n Pat A k C) (hk : k < n)
    (i : ℕ) (hi : i < n) (hii : Pat i i) : C i i = A i i := by
  induction h with
  | zero => rfl
  | step _ hs ih =>
    rw [← ih (by omega)]
    refine hs.same i i hi hi hii fun h => ?_
    have := hP _ _ hi (by omega) h.2.2.1
    omega

/-- Solving with a diagonal matrix divides by its elements. -/
theorem Solved.diag {n : ℕ} {Pat : ℕ → ℕ → Prop} (hP : ∀ i j, i < n → j < n → Pat i j → i = j) {C : ℕ → ℕ → K} {b x : ℕ → V} (h : Solved n Pat C b x)
    (i : ℕ) (hi : i < n) : ScaleArith.divV (b i) (C i i) = .ok (x i) := by
  obtain ⟨y, h1, h2⟩ := h
  have hy : ∀ k y, Fwds n Pat C b k y → k ≤ n → ∀ i < n, y i = b i := by
    intro k y h
    induction h with
    | zero => exact fun _ _ _ => rfl
    | step _ hs ih =>
      intro hk i hi
      rw [hs.same i hi fun h => by have := hP _ _ hi (by omega) h.2; omega]
      exact ih (by omega) i hi
  have hx : ∀ k x, Bwds n Pat C y k x → ∀ i < n, if i < k then x i = y i else ScaleArith.divV (y i) (C i i) = .ok (x i) := by
    intro k x h
    induction h with
    | zero => intro i hi; rw [if_pos hi]
    | @step j x x' hj _ hs ih =>
      intro i hi
      by_cases hij : i = j
      · subst hij
        rw [if_neg (by omega)]
        have := ih i hi
        rw [if_pos (by omega)] at this
        rw [← this]
        exact hs.piv
      · have hsame := hs.same i hi hij fun h => hij (hP _ _ hi hj h.2)
        have := ih i hi
        by_cases hlt : i < j
        · rw [if_pos hlt, hsame]
          rwa [if_pos (by omega)] at this
        · rw [if_neg hlt, hsame]
          rwa [if_neg (by omega)] at this
  have := hx 0 x h2 i hi
  rw [if_neg (by omega), hy n y h1 le_rfl i hi] at this
  exact this

/-- Every element is divided by one. -/
def ByOne (K : Type) {V : Type} [CoordArith K] [ValArith V] [ScaleArith K V] (n : ℕ) (b x : ℕ → V) : Prop := ∀ i < n, ScaleArith.divV (b i) (1 : K) = .ok (x i)

theorem solvesRel_band {c : Cfg} {n : ℕ} (hn : 0 < n) {m : M (CoefMat K)} {A : ℕ → ℕ → K} {sol : Solver K} (hA : ∀ i < n, A i i = 1)
    (hm : Ok m fun m => ∃ bm, m = .band bm ∧ bm.Rep n 0 0 A) (hsol : (m >>= ofMat c) = .ok sol) : SolvesRel V c sol n (ByOne K n) := by
  obtain ⟨m, e1, bm, rfl, hrep⟩ := hm.exists
  rw [e1, ok_bind] at hsol
  have hP : ∀ i j, i < n → j < n → InBand 0 0 i j → i = j := fun i j _ _ h => by unfold InBand at h; omega
  have : Spec (ofMat c (.band bm)) (fun sol => ∃ lu C0, sol = .band ⟨true, lu⟩ ∧ lu.Rep n 0 0 C0 ∧ Elims n (InBand 0 0) A (n - 1) C0) (fun _ => True) := by
    unfold ofMat LUState.compute LUState.empty
    simp only [Bool.false_eq_true, if_false, bind_assoc, pure_bind]
    refine Spec.bind (bandCompute_elims c hn hrep) fun lu ⟨C, h1, h2⟩ => Spec.pure ⟨lu, C, rfl, h1, h2⟩
  obtain ⟨lu, C, rfl, hlu, hE⟩ := this.get hsol
  intro buf off step b hstep hb
  refine Spec.imp (bandSolve_solved c hlu hstep hb) fun buf' ⟨x, hx, hS⟩ => ⟨x, hx, fun i hi => ?_⟩
  have := hS.diag hP i hi
  rwa [hE.diag hP (by omega) i hi (by unfold InBand; omega), hA i hi] at this

theorem solvesRel_ext {c : Cfg} {n : ℕ} {m : M (CoefMat K)} {A : ℕ → ℕ → K} {sol : Solver K} (hA : ∀ i < n, A i i = 1)
    (hm : Ok m fun m => ∃ bm, m = .ext bm ∧ bm.Rep n 0 0 A) (hsol : (m >>= ofMat c) = .ok sol) : SolvesRel V c sol n (ByOne K n) := by
  obtain ⟨m, e1, bm, rfl, hrep⟩ := hm.exists
  rw [e1, ok_bind] at hsol
  have hP : ∀ i j, i < n → j < n → InPat n 0 0 i j → i = j := fun i j _ _ h => by unfold InPat InBand InSide at h; omega
  have : Spec (ofMat c (.ext bm)) (fun sol => ∃ lu C0, sol = .ext ⟨true, lu⟩ ∧ lu.Rep n 0 0 C0 ∧ Elims n (InPat n 0 0) A (n - 1) C0) (fun _ => True) := by
    unfold ofMat LUState.compute LUState.empty
    simp only [Bool.false_eq_true, if_false, bind_assoc, pure_bind]
    refine Spec.bind (extCompute_elims c hrep) fun lu ⟨C, h1, h2⟩ => Spec.pure ⟨lu, C, rfl, h1, h2⟩
  obtain ⟨lu, C, rfl, hlu, hE⟩ := this.get hsol
  intro buf off step b hstep hb
  refine Spec.imp (extSolve_solved c hlu (by omega) hstep hb) fun buf' ⟨x, hx, hS⟩ => ⟨x, hx, fun i hi => ?_⟩
  have := hS.diag hP i hi
  rwa [hE.diag hP (by omega) i hi (.inl (by unfold InBand; omega)), hA i hi] at this

variable {w : Bool} {c : Cfg} {per : Fin D → Bool} {dims : Fin D → ℕ} {x : Fin D → XRange K}

/-- The solvers of order 0. -/
theorem solvers_zero (hs : ShapeAxes c 0 per dims x) {t : Template D K V} (h : constructT (V := V) w c 0 per dims x = .ok t) (d : Fin D) :
    SolvesRel V c (t.solvers d) (t.dims d) (ByOne K (t.dims d)) := by
  obtain ⟨hb, hd, -⟩ := constructT_solvers hs h
  obtain ⟨vals, hpre, hsol⟩ := constructT_rows hs h d
  have hsd := hs d
  have ax := hb.ax d
  have ho := hb.order
  have hper : t.base.periodicity d = per d := congrFun hb.peri d
  have hlen := ax.len
  have htd : t.dims d = unk (per d) (pointNum c (per d) (dims d)) := congrFun hd d
  set n := t.dims d with hn
  cases hp : per d with
  | true =>
    rw [hp] at hper htd hlen hsd
    have h2 := hsd.periodic rfl
    have hu : unk true (pointNum c true (dims d)) = pointNum c true (dims d) - 1 := rfl
    simp only [knotLen, if_true] at hlen
    refine solvesRel_ext (A := perMat 0 n fun _ => [1]) (fun i hi => ?_) (assemble_per (Inv := fun v => t.base.uniform d = true → v = [1]) ho hper
      (by omega) ?_ (fun i hi v hv => ?_) fun i hi => rfl) hsol
    · unfold perMat nodeOfRow
      have e : colDist n ((i + (n - 0)) % n) i = 0 := by
        rw [Nat.sub_zero, Nat.add_mod_right, Nat.mod_eq_of_lt hi]
        unfold colDist
        rw [show i + (n - i) = n by omega, Nat.mod_self]
      have e' : (if (true : Bool) = true then (0 : ℕ) / 2 else 0) % n = 0 := by simp
      rw [e', e]
      rfl
    · intro hun
      unfold precalc at hpre
      rw [hper, hun] at hpre
      simp only [Bool.and_self, if_true, ho] at hpre
      cases hr : rd (t.base.spline.knots d) 0 with
      | error e => rw [hr] at hpre; cases hpre
      | ok q =>
        rw [hr, ok_bind, baseAt_zero ho (by omega)] at hpre
        injection hpre with hpre
        exact hpre.symm
    · unfold rowData
      by_cases hun : t.base.uniform d = true
      · rw [if_pos hun]
        unfold knotIndUniform uniformBase
        rw [if_pos hper, pure_bind, if_pos hper, pure_bind, ho, hv hun]
        exact ⟨rfl, fun _ => rfl⟩
      · rw [if_neg hun]
        refine ⟨?_, fun _ => rfl⟩
        cases hx : x d with
        | uniform a b => rw [ax.uni, hx] at hun; exact absurd rfl hun
        | coords l =>
          have hl := (ax.coords l hx).1
          have hll := (hsd.coords l hx).1
          rw [hl, rd_ok (by omega), ok_bind]
          unfold knotIndCoord
          rw [if_pos hper, pure_bind, ho, baseAt_zero ho (by omega)]
          rfl
  | false =>
    rw [hp] at hper htd hlen hsd
    have h2 := (hsd.aperiodic rfl).2
    have hu : unk false (pointNum c false (dims d)) = pointNum c false (dims d) := rfl
    simp only [knotLen, Bool.false_eq_true, if_false] at hlen
    have hun : t.base.uniform d = true := by
      rw [ax.uni]
      cases hx : x d with
      | uniform a b => rfl
      | coords l => exact absurd ((hsd.coords l hx).2 rfl) (by omega)
    refine solvesRel_band (by omega) (A := rowMat 0 n (fun _ => 1) (fun i => i) fun _ => [1]) (fun i hi => ?_) (assemble_rows ho hper (by omega)
      (fun i h1 h2 => ?_) (fun i h1 h2 vals hv => ?_) (fun _ _ _ => rfl) (fun _ _ _ => le_rfl) (fun i h1 h2 => ⟨Nat.zero_le _, by omega⟩)
      fun i h1 h2 j hj => ?_) hsol
    · unfold rowMat
      by_cases h : i = 0 ∨ i + 1 = n
      · rw [if_pos h, if_pos rfl]
      · rw [if_neg h]
        dsimp only
        rw [if_pos (by omega)]
        simp
    · unfold sNum
      simp [hun]
    · unfold rowData
      rw [if_pos hun]
      unfold knotIndUniform
      rw [hper, if_neg (by simp), ho, subM_ok (by omega), ok_bind]
      have e : min ((t.base.spline.knots d).length - (0 + 2)) (if i > 0 / 2 then i + (0 + 1) / 2 else 0) = i := by
        rw [if_pos (by omega)]; omega
      rw [e, pure_bind]
      unfold uniformBase
      rw [hper, if_neg (by simp), ho]
      by_cases h3 : i ≤ 2 * 0 + 1
      · rw [if_pos h3, baseAt_zero ho (by omega)]; rfl
      · rw [if_neg h3, subM_ok (by omega), ok_bind]
        by_cases h4 : i ≥ (t.base.spline.knots d).length - (2 * 0 + 2)
        · rw [if_pos h4, baseAt_zero ho (by omega)]; rfl
        · rw [if_neg h4, hv (by omega)]; rfl
    · unfold InBand bandWidth
      simp
      omega

/-- The control points of order 0 are the data. -/
theorem ctrl_zero {x : Fin (D + 1) → XRange K} {per : Fin (D + 1) → Bool} {fm : Mesh (D + 1) V} (hm : fm.WF) (hs : ShapeAxes c 0 per fm.dims x)
    (h1 : ∀ v ∈ fm.storage, ScaleArith.divV v (1 : K) = .ok v) {g : InterpFn (D + 1) K V} (h : construct w c 0 per fm x = .ok g) :
    g.spline.order = 0 ∧ ∀ v ∈ g.spline.ctrl.storage, v ∈ fm.storage := by
  unfold construct at h
  cases ht : constructT (V := V) w c 0 per fm.dims x with
  | error e => rw [ht] at h; cases h
  | ok t =>
    rw [ht, ok_bind] at h
    cases hW : solveForControlPoints c t fm with
    | error e => rw [hW] at h; cases h
    | ok W =>
      rw [hW, ok_bind] at h
      injection h with h
      obtain ⟨hb, hd, -⟩ := constructT_solvers hs ht
      have hpos : ∀ d, 0 < t.dims d := fun d => by
        rw [congrFun hd d]
        have hsd := hs d
        cases hp : per d with
        | true => rw [hp] at hsd; have := hsd.periodic rfl; simp only [unk, if_true]; omega
        | false => rw [hp] at hsd; have := (hsd.aperiodic rfl).2; simp only [unk, Bool.false_eq_true, if_false]; omega
      have hdd : ∀ d, fm.dims d = t.dims d + if t.base.periodicity d && !c.noDummy then 1 else 0 := fun d => by
        have hp0 := hpos d
        rw [congrFun hd d] at hp0 ⊢
        rw [show t.base.periodicity d = per d from congrFun hb.peri d]
        unfold unk pointNum at hp0 ⊢
        cases hp : per d <;> cases hc : c.noDummy <;> simp [hp, hc] at hp0 ⊢ <;> omega
      obtain ⟨f, hf⟩ : ∃ f, fm.Holds fm.dims f := ⟨fun a => (fm.storage[indexing fm.dims a]?).getD 0, rfl, hm, fun a ha => by
        unfold Mesh.get
        dsimp only
        rw [rd_ok (hm.lt ha), List.getElem?_eq_getElem (hm.lt ha)]
        rfl⟩
      have hsp := solveForControlPoints_rel c hpos (solvers_zero hs ht) hdd hf
      rw [hW] at hsp
      obtain ⟨F, hF0, hFh, hFR⟩ := hsp
      have hfr : ∀ a, InRange t.dims a → InRange fm.dims a := fun a ha d => by have := ha d; rw [hdd]; omega
      have hmem : ∀ a, InRange t.dims a → f a ∈ fm.storage := fun a ha => List.mem_of_getElem? (rd_eq_ok_iff.1 (hf.2.2 a (hfr a ha)))
      have hF : ∀ k, k ≤ D + 1 → ∀ a, InRange t.dims a → F k a = f a := by
        intro k
        induction k with
        | zero =>
          intro _ a ha
          rw [← hF0 a ha]
          congr 1
          funext d
          unfold Template.shiftIx rowShift
          rw [hb.order]
          simp [Nat.mod_eq_of_lt (ha d)]
        | succ k ih =>
          intro hk a ha
          have hrev : ((⟨k, by omega⟩ : Fin (D + 1)).rev.rev : ℕ) = k := by rw [Fin.rev_rev]
          obtain ⟨b, y, e1, e2, e3⟩ := hFR (⟨k, by omega⟩ : Fin (D + 1)).rev a ha
          set d : Fin (D + 1) := (⟨k, by omega⟩ : Fin (D + 1)).rev
          have := e3 (a d) (ha d)
          rw [e1 _ (ha d), e2 _ (ha d)] at this
          dsimp only at this
          rw [Function.update_eq_self, hrev, ih (by omega) a ha, h1 _ (hmem a ha)] at this
          injection this with this
          exact this.symm
      subst h
      refine ⟨hb.order, fun v hv => ?_⟩
      have hv : v ∈ W.storage := hv
      obtain ⟨i, hi, rfl⟩ := List.mem_iff_getElem.1 hv
      have hW2 := hFh.2.1
      have hlt : i < ∏ d, t.dims d := by
        have : W.storage.length = ∏ d, W.dims d := hW2
        rw [this, hFh.1] at hi
        exact hi
      have hr := decode_inRange (t := i) hpos
      have hg := hFh.2.2 _ hr
      unfold Mesh.get at hg
      rw [hFh.1, indexing_decode hlt, hF (D + 1) le_rfl _ hr, rd_ok hi] at hg
      injection hg with hg
      rw [hg]
      exact hmem _ hr

/-- The basis of order 0 is one, and the value one control point. -/
theorem eval_zero {b : BSpline D K V} (ho : b.order = 0) (h1 : (1 : K) * 1 = 1) {y : Fin D → K × ℕ} {v : V} (h : eval b y = .ok v) :
    ∃ c ∈ b.ctrl.storage, v = 0 + (1 : K) • c := by
  have triv : ∀ {α : Type} (m : M α), Spec m (fun _ => True) (fun _ => True) := fun m => by cases m <;> exact True.intro
  refine Spec.get (E := fun _ => True) (Q := fun v => ∃ c ∈ b.ctrl.storage, v = 0 + (1 : K) • c) ?_ h
  unfold eval
  rw [ho]
  refine Spec.bind (triv _) fun segs _ => ?_
  rw [tabM_ok fun d => baseSplineValue_zero _ _ _, ok_bind, zero_add, one_pow]
  refine Spec.imp (Spec.loop (P := fun k v => (k = 0 → v = 0) ∧ (k = 1 → ∃ c ∈ b.ctrl.storage, v = 0 + (1 : K) • c)) (Nat.zero_le _) ⟨fun _ => rfl, fun h => absurd h (by omega)⟩ ?_)
    fun v hv => hv.2 rfl
  intro k v _ hk hv
  obtain rfl : k = 0 := by omega
  rw [hv.1 rfl]
  refine Spec.imp (Q := fun v => ∃ c ∈ b.ctrl.storage, v = 0 + (1 : K) • c) ?_ fun v h => ⟨fun h => absurd h (by omega), fun _ => h⟩
  unfold evalBody
  refine Spec.bind (triv _) fun a _ => ?_
  refine Spec.bind (Q := fun r : K × (Fin D → ℕ) => r.1 = 1) (Spec.foldFin (P := fun _ (r : K × (Fin D → ℕ)) => r.1 = 1) rfl fun d r hr => ?_) fun r hr => ?_
  · refine Spec.bind (Q := fun e => e = 1) ?_ fun e he => Spec.bind (triv _) fun k _ => Spec.pure ?_
    · cases hrd : rd [(1 : K)] (a d) with
      | error e => trivial
      | ok e =>
        have := List.mem_of_getElem? (rd_eq_ok_iff.1 hrd)
        exact List.mem_singleton.1 this
    · dsimp only
      rw [hr, he, h1]
  · rw [hr]
    cases hc : b.ctrl.get r.2 with
    | error e => trivial
    | ok q =>
      rw [ok_bind]
      exact Spec.pure ⟨q, List.mem_of_getElem? (rd_eq_ok_iff.1 hc), rfl⟩

end Intp.Fl
