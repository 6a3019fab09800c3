import Verif.Proofs.FlElim
import Verif.Proofs.FloatBuild
import Verif.Proofs.MTMain
import Verif.Proofs.Param

/-!
# Two arithmetics side by side: pivots

The pivot of a step of the elimination is the diagonal entry of the result.  So if the diagonal of one result has no bad entry, then no division by a
bad pivot took place in the other arithmetic.
-/

namespace Intp

open List

section shape
variable {K : Type}

theorem Mesh.setSafe_wf {D : ℕ} (c : Cfg) (m : Mesh D K) (a : Fin D → ℕ) (v : K) :
    Spec (m.setSafe c a v) (fun m' => m'.dims = m.dims ∧ (m.WF → m'.WF)) fun _ => True := by
  unfold Mesh.setSafe
  refine Spec.skip fun i => ?_
  refine Spec.bind (Q := fun s => s.length = m.storage.length) ?_ fun s hs => Spec.pure ⟨rfl, fun h => ?_⟩
  · unfold wr
    exact Spec.ite (fun _ => Spec.ok (by simp)) fun _ => trivial
  · unfold Mesh.WF at *
    exact hs.trans h

/-- The store of a band matrix has the right size. -/
def BandMatrix.Sh (m : BandMatrix K) : Prop := m.bands.dims = ![m.n, 1 + m.p + m.q] ∧ m.bands.WF

/-- The stores of an extended band matrix have the right sizes. -/
def ExtBandMatrix.Sh (m : ExtBandMatrix K) : Prop :=
  m.p < m.n ∧ m.q < m.n ∧ (m.bands.dims = ![m.n, 1 + m.p + m.q] ∧ m.bands.WF) ∧ (m.right.dims = ![m.n - (m.q + 1), m.p] ∧ m.right.WF) ∧
    (m.bottom.dims = ![m.n - (m.p + 1), m.q] ∧ m.bottom.WF)

theorem BandMatrix.set_sh (c : Cfg) {m : BandMatrix K} (h : m.Sh) (i j : ℕ) (v : K) : Spec (m.set c i j v) BandMatrix.Sh fun _ => True := by
  unfold BandMatrix.set
  exact Spec.skip fun _ => Spec.skip fun _ => Spec.bind (Mesh.setSafe_wf c _ _ _) fun m' hm => Spec.pure ⟨hm.1.trans h.1, hm.2 h.2⟩

theorem ExtBandMatrix.mainSet_sh (c : Cfg) {m : ExtBandMatrix K} (h : m.Sh) (i j : ℕ) (v : K) : Spec (m.mainSet c i j v) ExtBandMatrix.Sh fun _ => True := by
  obtain ⟨h1, h2, h3, h4, h5⟩ := h
  unfold ExtBandMatrix.mainSet
  exact Spec.skip fun _ => Spec.skip fun _ => Spec.bind (Mesh.setSafe_wf c _ _ _) fun m' hm => Spec.pure ⟨h1, h2, ⟨hm.1.trans h3.1, hm.2 h3.2⟩, h4, h5⟩

theorem ExtBandMatrix.sideSet_sh (c : Cfg) {m : ExtBandMatrix K} (h : m.Sh) (i j : ℕ) (v : K) : Spec (m.sideSet c i j v) ExtBandMatrix.Sh fun _ => True := by
  obtain ⟨h1, h2, h3, h4, h5⟩ := h
  unfold ExtBandMatrix.sideSet
  exact Spec.skip fun _ => Spec.ite
    (fun _ => Spec.skip fun _ => Spec.bind (Mesh.setSafe_wf c _ _ _) fun m' hm => Spec.pure ⟨h1, h2, h3, ⟨hm.1.trans h4.1, hm.2 h4.2⟩, h5⟩)
    fun _ => Spec.skip fun _ => Spec.bind (Mesh.setSafe_wf c _ _ _) fun m' hm => Spec.pure ⟨h1, h2, h3, h4, ⟨hm.1.trans h5.1, hm.2 h5.2⟩⟩

/-- The stores of a matrix have the right sizes. -/
def CoefMat.Sh : CoefMat K → Prop
  | .band m => m.Sh
  | .ext m => m.Sh

theorem Mesh.exists_holds' [Inhabited K] {D : ℕ} (m : Mesh D K) (h : m.WF) : ∃ C, m.Holds m.dims C := by
  refine ⟨fun a => match m.get a with | .ok v => v | .error _ => default, rfl, h, fun a ha => ?_⟩
  obtain ⟨v, hv⟩ := h.get_ok ha
  simp only [hv]

theorem BandMatrix.Sh.rep [Inhabited K] {m : BandMatrix K} (h : m.Sh) : ∃ A, m.Rep m.n m.p m.q A := by
  obtain ⟨C, hC⟩ := m.bands.exists_holds' h.2
  rw [h.1] at hC
  exact ⟨fun i j => C ![j, i + m.q - j], rfl, rfl, rfl, C, hC, fun _ _ _ _ _ => rfl⟩

theorem ExtBandMatrix.Sh.rep [Inhabited K] {m : ExtBandMatrix K} (h : m.Sh) : ∃ A, m.Rep m.n m.p m.q A := by
  obtain ⟨h1, h2, h3, h4, h5⟩ := h
  obtain ⟨C, hC⟩ := m.bands.exists_holds' h3.2
  obtain ⟨F, hF⟩ := m.right.exists_holds' h4.2
  obtain ⟨G, hG⟩ := m.bottom.exists_holds' h5.2
  rw [h3.1] at hC
  rw [h4.1] at hF
  rw [h5.1] at hG
  refine ⟨fun i j => if InBand m.p m.q i j then C ![j, i + m.q - j] else if i + m.q < j then F ![i, j + m.p - m.n] else G ![j, i + m.q - m.n],
    h1, h2, rfl, rfl, rfl, C, F, G, hC, hF, hG, fun i j _ _ hb => ?_, fun i j _ _ ha hb => ?_, fun i j _ _ ha hb => ?_⟩
  · dsimp only; rw [if_pos hb]
  · dsimp only; rw [if_neg (by unfold InBand; omega), if_pos ha]
  · dsimp only; rw [if_neg (by unfold InBand; omega), if_neg (by omega)]

variable {K' : Type} {rK : K → K' → Prop}

theorem RMesh.wf {D : ℕ} {m : Mesh D K} {m' : Mesh D K'} (h : RMesh rK m m') (hw : m.WF) : m'.WF := by
  unfold Mesh.WF at *
  rw [← h.dims_eq, ← h.storage.length_eq]
  exact hw

theorem RBand.sh {m : BandMatrix K} {m' : BandMatrix K'} (h : RBand rK m m') (hm : m.Sh) : m'.Sh := by
  cases h with
  | mk h => exact ⟨h.dims_eq.symm.trans hm.1, h.wf hm.2⟩

theorem RExt.sh {m : ExtBandMatrix K} {m' : ExtBandMatrix K'} (h : RExt rK m m') (hm : m.Sh) : m'.Sh := by
  cases h with
  | mk h1 h2 h3 =>
    obtain ⟨a, b, c, d, e⟩ := hm
    exact ⟨a, b, ⟨h1.dims_eq.symm.trans c.1, h1.wf c.2⟩, ⟨h2.dims_eq.symm.trans d.1, h2.wf d.2⟩, h3.dims_eq.symm.trans e.1, h3.wf e.2⟩

end shape

namespace Fl

variable {K K' V V' : Type} [CoordArith K] [CoordArith K'] {D : ℕ}

omit [CoordArith K'] in
theorem coefMat_sh (per : Bool) (n bw : ℕ) : Spec (coefMat (K := K) per n bw) CoefMat.Sh fun _ => True := by
  unfold coefMat
  refine Spec.ite (fun _ => ?_) fun _ => Spec.pure ⟨rfl, Mesh.mk'_wf _⟩
  refine Spec.bind (Q := ExtBandMatrix.Sh) ?_ fun m h => Spec.pure h
  unfold ExtBandMatrix.mk'
  unfold subM
  by_cases h : bw + 1 ≤ n
  · rw [if_pos h, ok_bind, ok_bind]
    exact Spec.pure ⟨h, h, ⟨rfl, Mesh.mk'_wf _⟩, ⟨rfl, Mesh.mk'_wf _⟩, rfl, Mesh.mk'_wf _⟩
  · rw [if_neg h]; trivial

omit [CoordArith K] [CoordArith K'] in
theorem matSet_sh (w : Bool) (c : Cfg) {m : CoefMat K} (h : m.Sh) (i j : ℕ) (v : K) : Spec (matSet w c m i j v) CoefMat.Sh fun _ => True := by
  cases m with
  | band m =>
    refine Spec.bind (Q := BandMatrix.Sh) ?_ fun m' h => Spec.pure h
    unfold bandSet
    refine Spec.ite (fun _ => Spec.skip fun _ => ?_) fun _ => BandMatrix.set_sh c h i j v
    refine Spec.bind (Q := fun s => s.length = m.bands.storage.length) ?_ fun s hs => Spec.pure ⟨h.1, ?_⟩
    · unfold wr
      exact Spec.ite (fun _ => Spec.ok (by simp)) fun _ => trivial
    · have := h.2
      unfold Mesh.WF at *
      exact hs.trans this
  | ext m =>
    refine Spec.bind (Q := ExtBandMatrix.Sh) ?_ fun m' h => Spec.pure h
    unfold ExtBandMatrix.set
    exact Spec.ite (fun _ => ExtBandMatrix.sideSet_sh c h i j v) fun _ => ExtBandMatrix.mainSet_sh c h i j v

omit [CoordArith K'] in
theorem assemble_sh (w : Bool) (c : Cfg) (f : InterpFn D K V) (coords : List K) (d : Fin D) (n : ℕ) (vals : List K) :
    Spec (assemble w c f coords d n vals) CoefMat.Sh fun _ => True := by
  unfold assemble
  refine Spec.bind (coefMat_sh _ _ _) fun m hm => ?_
  refine Spec.bind (Q := fun st => st.1.Sh) (Spec.loop' (P := fun _ (st : CoefMat K × List K) => st.1.Sh) hm fun i st _ _ hst => ?_)
    fun st h => Spec.pure h
  unfold assembleBody
  refine Spec.ite (fun _ => ?_) fun _ => Spec.skip fun inner => Spec.skip fun r => ?_
  · exact Spec.bind (matSet_sh _ _ hst _ _ _) fun m h => Spec.pure h
  · refine Spec.bind (Q := CoefMat.Sh) ?_ fun m h => Spec.pure h
    unfold rowWrite
    refine Spec.loop' (P := fun _ (m : CoefMat K) => m.Sh) hst fun j m _ _ hm => ?_
    exact Spec.skip fun _ => Spec.skip fun _ => Spec.skip fun _ => Spec.skip fun _ => matSet_sh _ _ hm _ _ _

variable {E : Err → Prop} {rK : K → K' → Prop} {n : ℕ} {Pat : ℕ → ℕ → Prop} {A C : ℕ → ℕ → K} {A' C' : ℕ → ℕ → K'}

/-- Elimination in both arithmetics. -/
theorem Elims.rel (kr : KRel E rK) (hd : ∀ i, i < n → Pat i i) (hA : ∀ i j, i < n → j < n → Pat i j → rK (A i j) (A' i j)) {k : ℕ} (hk : k ≤ n)
    (h : Elims n Pat A k C) (h' : Elims n Pat A' k C') (i j : ℕ) (hi : i < n) (hj : j < n) (hp : Pat i j) : rK (C i j) (C' i j) := by
  induction h generalizing C' i j with
  | zero => cases h'; exact hA i j hi hj hp
  | @step k B B1 _ hs ih =>
    cases h' with
    | @step _ B' _ h2 hs' =>
      have ih := fun i j => ih (by omega) h2 i j
      have hcol : ∀ i, k < i → i < n → Pat i k → rK (B1 i k) (C' i k) := fun i hki hi hp => by
        have := kr.div (ih i k hi (by omega) hp) (ih k k (by omega) (by omega) (hd k (by omega))) trivial
        rw [hs.col i hki hi hp, hs'.col i hki hi hp] at this
        exact this
      by_cases hq : k < i ∧ k ≤ j ∧ Pat i k ∧ Pat k j
      · obtain ⟨q1, q2, q3, q4⟩ := hq
        rcases Nat.eq_or_lt_of_le q2 with e | q2
        · subst e; exact hcol i q1 hi q3
        · rw [hs.upd i j q1 hi q2 hj q3 q4, hs'.upd i j q1 hi q2 hj q3 q4]
          exact kr.sub (ih i j hi hj hp) (kr.mul (hcol i q1 hi q3) (ih k j (by omega) hj q4))
      · rw [hs.same i j hi hj hp hq, hs'.same i j hi hj hp hq]
        exact ih i j hi hj hp

omit [CoordArith K'] in
/-- The pivot of step `k` is the entry of the result. -/
theorem Elims.pivot {m : ℕ} (h : Elims n Pat A m C) {k : ℕ} (hk : k ≤ m) (hn : k < n) (hd : Pat k k) : ∃ B, Elims n Pat A k B ∧ B k k = C k k := by
  induction h with
  | zero =>
    have : k = 0 := by omega
    subst this
    exact ⟨_, .zero, rfl⟩
  | @step m B B1 h1 hs ih =>
    rcases Nat.lt_or_ge m k with hm | hm
    · have : k = m + 1 := by omega
      subst this
      exact ⟨_, .step h1 hs, rfl⟩
    · obtain ⟨C0, h2, h3⟩ := ih hm
      exact ⟨C0, h2, by rw [h3, hs.same k k hn hn hd (by omega)]⟩

/-- A failing division has a bad entry on the diagonal of the result in the other arithmetic. -/
theorem DivFails.bad (kr : KRel E rK) {Z : K' → Prop} (hZ : ∀ {a a' b b' e}, rK a a' → rK b b' → CoordArith.div a b = .error e → Z b')
    (hd : ∀ i, i < n → Pat i i) (hA : ∀ i j, i < n → j < n → Pat i j → rK (A i j) (A' i j)) {e : Err} (h : DivFails n Pat A e)
    (h' : Elims n Pat A' (n - 1) C') : ∃ k, k < n ∧ Z (C' k k) := by
  obtain ⟨k, B, i, h1, h2, h3, h4, h5, h6⟩ := h
  obtain ⟨B', h7, h8⟩ := h'.pivot (k := k) (by omega) (by omega) (hd k (by omega))
  refine ⟨k, by omega, ?_⟩
  have hr := h2.rel kr hd hA (by omega) h7
  rw [← h8]
  exact hZ (hr i k h4 (by omega) h5) (hr k k (by omega) (by omega) (hd k (by omega))) h6

/-- No pivot of a solver is in `Z`. -/
def PivNot (Z : K' → Prop) (c : Cfg) : Solver K' → Prop
  | .band s => ∀ j x, j < s.store.n → s.store.get c j j = .ok x → ¬ Z x
  | .ext s => ∀ j x, j < s.store.n → s.store.mainGet c j j = .ok x → ¬ Z x

theorem RelM.strict {α β : Type} {R : α → β → Prop} {a : M α} {b : M β} (h : RelM E R a b) {y : β} (hb : b = .ok y) (ha : ∀ e, a ≠ .error e) :
    ∃ x, a = .ok x ∧ R x y := by
  subst hb
  cases a with
  | error e => exact absurd rfl (ha e)
  | ok x => exact ⟨x, rfl, h⟩

theorem ofMat_strict (kr : KRel E rK) {Z : K' → Prop} (hZ : ∀ {a a' b b' e}, rK a a' → rK b b' → CoordArith.div a b = .error e → Z b') (c : Cfg)
    {m : CoefMat K} {m' : CoefMat K'} (h : RCoef rK m m') (hs : m.Sh) {s' : Solver K'} (h' : ofMat c m' = .ok s') (hp : PivNot Z c s') :
    ∃ s, ofMat c m = .ok s ∧ RSolver rK s s' := by
  have : Inhabited K := ⟨0⟩
  have : Inhabited K' := ⟨0⟩
  have hr := ofMat_param kr (fun _ => trivial) c h
  refine RelM.strict hr h' fun e he => ?_
  cases h with
  | @band m m' h =>
    have hn0 : 0 < m.n := by
      have := ofMat_dim c (.band m')
      rw [h'] at this
      rw [h.n_eq.1]
      exact this.2
    obtain ⟨A, hA⟩ := BandMatrix.Sh.rep hs
    obtain ⟨A', hA'⟩ := BandMatrix.Sh.rep (h.sh hs)
    rw [← h.n_eq.1, ← h.n_eq.2.1, ← h.n_eq.2.2] at hA'
    have hAA : ∀ i j, i < m.n → j < m.n → InBand m.p m.q i j → rK (A i j) (A' i j) := fun i j hi hj hb => by
      have := bget_param (E := E) h c i j
      rw [hA.get c hi hj hb, hA'.get c hi hj hb] at this
      exact this
    have e1 := bandCompute_elimsE c hn0 hA
    have e2 := bandCompute_elims c hn0 hA'
    change (bandCompute c m >>= fun lu => Pure.pure (⟨true, lu⟩ : LUState _)) >>= (fun s => Pure.pure (Solver.band s)) = _ at he
    change (bandCompute c m' >>= fun lu => Pure.pure (⟨true, lu⟩ : LUState _)) >>= (fun s => Pure.pure (Solver.band s)) = _ at h'
    cases hb : bandCompute c m with
    | ok lu => rw [hb] at he; cases he
    | error e3 =>
      cases hb' : bandCompute c m' with
      | error e4 => rw [hb'] at h'; cases h'
      | ok lu =>
        rw [hb'] at h' e2
        rw [hb] at e1
        cases h'
        obtain ⟨C', hC', hE'⟩ := e2
        have hdg : ∀ i, i < m.n → InBand m.p m.q i i := fun i _ => by unfold InBand; omega
        obtain ⟨k, hk, hz⟩ := DivFails.bad kr hZ hdg hAA e1 hE'
        exact hp k _ (by show k < lu.n; rw [hC'.1]; exact hk) (hC'.get c hk hk (hdg k hk)) hz
  | @ext m m' h =>
    have hn0 : 0 < m.n := by
      have := ofMat_dim c (.ext m')
      rw [h'] at this
      rw [h.n_eq.1]
      exact this.2
    obtain ⟨A, hA⟩ := ExtBandMatrix.Sh.rep hs
    obtain ⟨A', hA'⟩ := ExtBandMatrix.Sh.rep (h.sh hs)
    rw [← h.n_eq.1, ← h.n_eq.2.1, ← h.n_eq.2.2] at hA'
    have hAA : ∀ i j, i < m.n → j < m.n → InPat m.n m.p m.q i j → rK (A i j) (A' i j) := fun i j hi hj hb => by
      have := eget_param (E := E) h c i j
      rw [hA.get c hi hj hb, hA'.get c hi hj hb] at this
      exact this
    have e1 := extCompute_elimsE c hA
    have e2 := extCompute_elims c hA'
    change (extCompute c m >>= fun lu => Pure.pure (⟨true, lu⟩ : LUState _)) >>= (fun s => Pure.pure (Solver.ext s)) = _ at he
    change (extCompute c m' >>= fun lu => Pure.pure (⟨true, lu⟩ : LUState _)) >>= (fun s => Pure.pure (Solver.ext s)) = _ at h'
    cases hb : extCompute c m with
    | ok lu => rw [hb] at he; cases he
    | error e3 =>
      cases hb' : extCompute c m' with
      | error e4 => rw [hb'] at h'; cases h'
      | ok lu =>
        rw [hb'] at h' e2
        rw [hb] at e1
        cases h'
        obtain ⟨C', hC', hE'⟩ := e2
        have hdg' : ∀ i, i < m.n → InBand m.p m.q i i := fun i _ => by unfold InBand; omega
        have hdg : ∀ i, i < m.n → InPat m.n m.p m.q i i := fun i hi => .inl (hdg' i hi)
        obtain ⟨k, hk, hz⟩ := DivFails.bad kr hZ hdg hAA e1 hE'
        exact hp k _ (by show k < lu.n; rw [hC'.2.2.1]; exact hk) (hC'.mainGet c hk hk (hdg' k hk)) hz

end Fl

end Intp
