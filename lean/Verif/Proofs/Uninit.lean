import Verif.Uninit
import Verif.Proofs.SolveSweep
import Verif.Proofs.FloatTie

/-!
# Helper lemmas: uninitialised memory does not reach the control points
-/

namespace Intp

variable {K V : Type} [Field K] [LinearOrder K] [IsStrictOrderedRing K] [FloorRing K] [AddCommGroup V] [Module K V] {D : ℕ}

/-- Two runs fail alike or return related values. -/
def MRel {α β : Type} (R : α → β → Prop) : M α → M β → Prop
  | .ok a, .ok b => R a b
  | .error e, .error e' => e = e'
  | _, _ => False

theorem MRel.refl {α : Type} {R : α → α → Prop} (h : ∀ a, R a a) (m : M α) : MRel R m m := by
  cases m with
  | error e => rfl
  | ok a => exact h a

theorem MRel.bind {α β α' β' : Type} {R : α → β → Prop} {R' : α' → β' → Prop} {m : M α} {m' : M β} {f : α → M α'} {f' : β → M β'}
    (h : MRel R m m') (hf : ∀ a b, R a b → MRel R' (f a) (f' b)) : MRel R' (m >>= f) (m' >>= f') := by
  cases m with
  | error e =>
    cases m' with
    | error e' => exact h
    | ok b => exact h.elim
  | ok a =>
    cases m' with
    | error e' => exact h.elim
    | ok b => exact hf a b h

theorem MRel.mono {α β : Type} {R R' : α → β → Prop} {m : M α} {m' : M β} (h : MRel R m m') (hR : ∀ a b, R a b → R' a b) : MRel R' m m' := by
  cases m <;> cases m' <;> first | exact h | exact hR _ _ h

theorem MRel.eq {α : Type} {m m' : M α} (h : MRel (· = ·) m m') : m = m' := by
  cases m <;> cases m' <;> first | exact h.elim | exact congrArg _ h

theorem MRel.loopN {σ τ : Type} {R : ℕ → σ → τ → Prop} {f : ℕ → σ → M σ} {g : ℕ → τ → M τ} :
    ∀ (n i : ℕ) {s : σ} {t : τ}, R i s t → (∀ k, i ≤ k → k < i + n → ∀ s t, R k s t → MRel (R (k + 1)) (f k s) (g k t)) →
      MRel (R (i + n)) (loopN n i s f) (loopN n i t g)
  | 0, i, s, t, h, _ => h
  | n + 1, i, s, t, h, hf => by
    unfold Intp.loopN
    refine MRel.bind (hf i le_rfl (by omega) s t h) fun a b hab => ?_
    have := MRel.loopN n (i + 1) hab fun k h1 h2 => hf k (by omega) (by omega)
    rwa [show i + 1 + n = i + (n + 1) by omega] at this

theorem MRel.loop {σ τ : Type} {R : ℕ → σ → τ → Prop} {f : ℕ → σ → M σ} {g : ℕ → τ → M τ} {n : ℕ} {s : σ} {t : τ} (h : R 0 s t)
    (hf : ∀ k, k < n → ∀ s t, R k s t → MRel (R (k + 1)) (f k s) (g k t)) : MRel (R n) (Intp.loop 0 n s f) (Intp.loop 0 n t g) := by
  have := MRel.loopN (R := R) n 0 h fun k _ h2 => hf k (by omega)
  rwa [Nat.zero_add] at this

/-- Same length and same elements at the positions in `S`. -/
def AgreeOn (S : Set ℕ) (l l' : List V) : Prop := l.length = l'.length ∧ ∀ i ∈ S, l[i]? = l'[i]?

omit [AddCommGroup V] in
theorem AgreeOn.wr {S : Set ℕ} {l l' : List V} (h : AgreeOn S l l') (i : ℕ) (v : V) :
    MRel (fun p q => p.length = l.length ∧ AgreeOn (insert i S) p q) (wr l i v) (wr l' i v) := by
  unfold Intp.wr
  rw [← h.1]
  split
  · rename_i hi
    refine ⟨by simp, by simpa using h.1, ?_⟩
    rintro k hk
    by_cases he : i = k
    · subst he
      rw [List.getElem?_set_self hi, List.getElem?_set_self (by rw [← h.1]; exact hi)]
    · rw [List.getElem?_set_ne he, List.getElem?_set_ne he]
      rcases hk with hk | hk
      · exact absurd hk.symm he
      · exact h.2 k hk
  · rfl

omit [AddCommGroup V] in
theorem AgreeOn.mono {S T : Set ℕ} {l l' : List V} (h : AgreeOn S l l') (hT : T ⊆ S) : AgreeOn T l l' := ⟨h.1, fun i hi => h.2 i (hT hi)⟩

omit [AddCommGroup V] in
theorem AgreeOn.eq {l l' : List V} (h : AgreeOn {i | i < l.length} l l') : l = l' := by
  apply List.ext_getElem? fun i => ?_
  by_cases hi : i < l.length
  · exact h.2 i hi
  · rw [List.getElem?_eq_none (by omega), List.getElem?_eq_none (by have := h.1; omega)]

namespace Template

omit [AddCommGroup V] in
theorem copyLine_agree {n off step noff nstep : ℕ} {old new new' : List V} {S : Set ℕ} (h : AgreeOn S new new') :
    MRel (fun p q => p.length = new.length ∧ AgreeOn (S ∪ {i | ∃ k < n, i = noff + k * nstep}) p q)
      (copyLine n off step noff nstep old new) (copyLine n off step noff nstep old new') := by
  unfold copyLine
  refine MRel.mono (MRel.loop (R := fun m p q => p.length = new.length ∧ AgreeOn (S ∪ {i | ∃ k < m, i = noff + k * nstep}) p q) ?_ ?_)
    fun _ _ h => h
  · exact ⟨rfl, h.mono (by rintro i (hi | ⟨k, hk, -⟩); exact hi; omega)⟩
  · rintro k hk s t ⟨hl, hst⟩
    refine MRel.bind (MRel.refl (R := (· = ·)) (fun _ => rfl) _) ?_
    rintro v _ rfl
    refine (hst.wr _ v).mono fun a b hab => ⟨hab.1.trans hl, hab.2.mono ?_⟩
    rintro i (hi | ⟨m, hm, rfl⟩)
    · exact Or.inr (Or.inl hi)
    · by_cases he : m = k
      · subst he; exact Or.inl rfl
      · exact Or.inr (Or.inr ⟨m, by omega, rfl⟩)

end Template

namespace Fl

open Template

section

variable {K V : Type} [ValArith V] [ScaleArith K V]

/-- A sweep over one axis does not depend on what was in the target mesh. -/
theorem solveDimJ_indep (c : Cfg) (s : Solver K) (junk junk' : ℕ → V) (o x x' : Mesh (D + 1) V) (hD : D ≠ 0) (ho : o.WF) :
    MRel (fun r r' => r = r' ∧ r.2.WF) (solveDimJ c s junk (o, x)) (solveDimJ c s junk' (o, x')) := by
  unfold solveDimJ
  simp only [if_neg hD]
  set dims := o.dims with hdims
  have hlen : ∀ (x : Mesh (D + 1) V) (junk : ℕ → V), (x.resizeJ (rightShift dims) junk).storage.length = ∏ d, dims d := by
    intro x junk
    simp only [Mesh.resizeJ, List.length_take, List.length_append, List.length_map, List.length_range, dimsSize_eq, prod_rightShift]
    omega
  by_cases hpos : ∀ d, 0 < dims d
  · have hsize : o.size = (∏ i : Fin D, dims i.castSucc) * dims (Fin.last D) := by
      have := ho
      unfold Mesh.WF at this
      rw [← hdims, Fin.prod_univ_castSucc] at this
      exact this
    rw [divN_ok (hpos _).ne', ok_bind, ok_bind, hsize, Nat.mul_div_cancel _ (hpos _)]
    set N := ∏ i : Fin D, dims i.castSucc with hN
    refine MRel.mono (MRel.loop (R := fun m (st st' : Mesh (D + 1) V × Mesh (D + 1) V) => st.1 = st'.1 ∧ st.1.dims = dims ∧
      st.2.dims = rightShift dims ∧ st'.2.dims = rightShift dims ∧ st.2.storage.length = ∏ d, dims d ∧
      AgreeOn {i | ∃ a, InRange dims a ∧ lineOf dims a < m ∧ i = indexing (rightShift dims) (rightShift a)} st.2.storage st'.2.storage) ?_ ?_) ?_
    · refine ⟨rfl, rfl, rfl, rfl, hlen _ _, by rw [hlen, hlen], ?_⟩
      rintro i ⟨a, -, h, -⟩
      omega
    · rintro j hj ⟨o1, n1⟩ ⟨o2, n2⟩ ⟨rfl, h1, h2, h3, h4, h5⟩
      simp only at h1 h2 h3 h4 h5
      unfold solveLine
      simp only [h1, if_neg hD]
      rw [dimwiseIndices_ok hpos, ok_bind, ok_bind]
      set a := decode dims (j * dims (Fin.last D)) with ha
      have har : InRange dims a := decode_inRange hpos
      have hal : a (Fin.last D) = 0 := decode_line hpos j
      have hup : Function.update a (Fin.last D) 0 = a := by rw [← hal, Function.update_eq_self]
      have hra : InRange (rightShift dims) (rightShift a) := rightShift_inRange.2 har
      have hrup : Function.update (rightShift a) 0 0 = rightShift a := by rw [← rightShift_update, hup]
      refine MRel.bind (MRel.refl (R := (· = ·)) (fun _ => rfl) _) ?_
      rintro l _ rfl
      rw [Mesh.lineBegin_ok c n1 0 (by rw [h2, hrup]; exact hra), Mesh.lineBegin_ok c n2 0 (by rw [h3, hrup]; exact hra), h2, h3, ok_bind, ok_bind]
      refine MRel.bind (MRel.refl (R := (· = ·)) (fun _ => rfl) _) ?_
      rintro buf _ rfl
      refine MRel.bind (copyLine_agree (n := dims (Fin.last D)) (off := l.1) (step := l.2) (old := buf) h5) ?_
      rintro p q ⟨hp, hpq⟩
      refine ⟨rfl, rfl, rfl, rfl, hp.trans h4, hpq.mono ?_⟩
      rintro i ⟨b, hb, hbl, rfl⟩
      by_cases hbj : lineOf dims b = j
      · right
        refine ⟨b (Fin.last D), hb _, ?_⟩
        have he : Function.update b (Fin.last D) 0 = a := (line_eq_iff hpos hb hj).2 hbj
        rw [hrup, ← he, rightShift_update, ← indexing_update, ← rightShift_update, Function.update_eq_self]
      · exact Or.inl ⟨b, hb, by omega, rfl⟩
    · rintro ⟨o1, n1⟩ ⟨o2, n2⟩ ⟨rfl, h1, h2, h3, h4, h5⟩
      simp only at h1 h2 h3 h4 h5
      have : n1.storage = n2.storage := by
        apply AgreeOn.eq
        refine h5.mono ?_
        intro i hi
        have hi : i < ∏ d, rightShift dims d := by rw [prod_rightShift, ← h4]; exact hi
        obtain ⟨a, ha⟩ := rightShift_surj (decode (rightShift dims) i)
        have har : InRange dims a := by
          rw [← rightShift_inRange, ha]
          exact decode_inRange (rightShift_pos hpos 1)
        exact ⟨a, har, lineOf_lt har, by rw [ha, indexing_decode hi]⟩
      refine ⟨?_, by simp only [Mesh.WF, h4, h2, prod_rightShift]⟩
      rw [Prod.mk.injEq]
      refine ⟨rfl, ?_⟩
      rcases n1 with ⟨d1, s1⟩
      rcases n2 with ⟨d2, s2⟩
      simp only at h2 h3 this
      rw [h2, h3, this]
  · have h0 : ∏ d, dims d = 0 := by
      push Not at hpos
      obtain ⟨d, hd⟩ := hpos
      exact Finset.prod_eq_zero (Finset.mem_univ d) (by omega)
    have : ∀ (x : Mesh (D + 1) V) (junk : ℕ → V), x.resizeJ (rightShift dims) junk = ⟨rightShift dims, []⟩ := by
      intro x junk
      have := hlen x junk
      rw [h0, List.length_eq_zero_iff] at this
      unfold Mesh.resizeJ at this ⊢
      simp only at this
      rw [this]
    rw [this, this]
    have hs : o.size = 0 := by rw [← h0]; exact ho
    rw [hs]
    unfold divN
    split
    · rfl
    · rw [ok_bind, Nat.zero_div]
      exact ⟨rfl, by simp [Mesh.WF, prod_rightShift, h0]⟩

theorem solveDimJ_zero (c : Cfg) (s : Solver K) (st : Mesh (D + 1) V × Mesh (D + 1) V) : solveDimJ c s (fun _ => 0) st = solveDim c s st := by
  unfold solveDimJ solveDim
  have : ∀ (m : Mesh (D + 1) V) n, m.resizeJ n (fun _ => 0) = m.resize n 0 := by
    intro m n
    unfold Mesh.resizeJ Mesh.resize
    rw [List.map_const', List.length_range]
  rw [this]

/-- All sweeps: two runs that agree on the mesh to be read next. -/
theorem solveDimsJ_aux (c : Cfg) (solvers : Fin (D + 1) → Solver K) (junk junk' : ℕ → ℕ → V) (hD : D ≠ 0) :
    ∀ (l : List (Fin (D + 1))) (b : ℕ), (∀ i (h : i < l.length), (l[i]).val = b + i) → ∀ st st' : Mesh (D + 1) V × Mesh (D + 1) V,
      (if b % 2 = 0 then st.1 else st.2) = (if b % 2 = 0 then st'.1 else st'.2) → (if b % 2 = 0 then st.1 else st.2).WF →
      MRel (fun r r' => if (b + l.length) % 2 = 0 then r.1 = r'.1 else r.2 = r'.2)
        (l.foldlM (fun st d => if d.val % 2 = 0 then solveDimJ c (solvers d.rev) (junk d.val) st
          else do
            let r ← solveDimJ c (solvers d.rev) (junk d.val) (st.2, st.1)
            pure (r.2, r.1)) st)
        (l.foldlM (fun st d => if d.val % 2 = 0 then solveDimJ c (solvers d.rev) (junk' d.val) st
          else do
            let r ← solveDimJ c (solvers d.rev) (junk' d.val) (st.2, st.1)
            pure (r.2, r.1)) st')
  | [], b, _, st, st', he, _ => by
    show if _ then _ else _
    rw [List.length_nil, Nat.add_zero]
    split <;> simp_all
  | d :: l, b, hl, (w, t), (w', t'), he, hw => by
    have hd : d.val = b := hl 0 (Nat.succ_pos _)
    have hl' : ∀ i (h : i < l.length), (l[i]).val = b + 1 + i := fun i h => by
      have := hl (i + 1) (by simpa using h)
      simp only [List.getElem_cons_succ] at this
      omega
    rw [List.foldlM_cons, List.foldlM_cons]
    have hsucc : b + (d :: l).length = b + 1 + l.length := by simp; omega
    simp only [hsucc]
    by_cases hb : b % 2 = 0
    · rw [if_pos hb, if_pos hb] at he
      rw [if_pos hb] at hw
      simp only at he hw
      subst he
      rw [if_pos (by rw [hd]; exact hb), if_pos (by rw [hd]; exact hb)]
      refine MRel.bind (solveDimJ_indep c (solvers d.rev) (junk d.val) (junk' d.val) w t t' hD hw) ?_
      rintro r _ ⟨rfl, hr⟩
      refine solveDimsJ_aux c solvers junk junk' hD l (b + 1) hl' r r rfl ?_
      rw [if_neg (by omega)]
      exact hr
    · rw [if_neg hb, if_neg hb] at he
      rw [if_neg hb] at hw
      simp only at he hw
      subst he
      rw [if_neg (by rw [hd]; exact hb), if_neg (by rw [hd]; exact hb)]
      refine MRel.bind (R := fun r r' => r = r' ∧ r.1.WF) (MRel.bind (solveDimJ_indep c (solvers d.rev) (junk d.val) (junk' d.val) t w w' hD hw) ?_) ?_
      · rintro r _ ⟨rfl, hr⟩
        exact ⟨rfl, hr⟩
      rintro r _ ⟨rfl, hr⟩
      refine solveDimsJ_aux c solvers junk junk' hD l (b + 1) hl' r r rfl ?_
      rw [if_pos (by omega)]
      exact hr

theorem solveDimsJ_zero (c : Cfg) (solvers : Fin (D + 1) → Solver K) (st : Mesh (D + 1) V × Mesh (D + 1) V) :
    solveDimsJ c solvers (fun _ _ => 0) st = solveDims c solvers st := by
  unfold solveDimsJ solveDims
  simp only [solveDimJ_zero]

end

section

variable {K V : Type} [Field K] [LinearOrder K] [IsStrictOrderedRing K] [FloorRing K] [AddCommGroup V] [Module K V]

theorem tie_solveDimJ (c : Cfg) (s : Solver K) (junk : ℕ → V) (st : Mesh (D + 1) V × Mesh (D + 1) V) :
    @solveDimJ K V (exactVal V) (exactScale K V) D c s junk st = Template.solveDimJ c s junk st := by
  unfold solveDimJ Template.solveDimJ Template.solveBlock
  simp only [tie_solveLine]

theorem tie_solveForControlPointsJ (c : Cfg) (junk0 : ℕ → V) (junk : ℕ → ℕ → V) (t : Template (D + 1) K V) (fm : Mesh (D + 1) V) :
    @solveForControlPointsJ K V (exactVal V) (exactScale K V) D c junk0 junk t fm = t.solveForControlPointsJ c junk0 junk fm := by
  unfold solveForControlPointsJ Template.solveForControlPointsJ solveDimsJ Template.solveDimsJ
  simp only [tie_solveDimJ, tie_initWeights]

end

end Fl

end Intp
