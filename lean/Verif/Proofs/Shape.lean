import Verif.Proofs.Unique

/-!
# Inputs that do not fit: coordinates that are not increasing, data of another shape
-/

namespace Intp

open Finset

variable {K V : Type} [Field K] [LinearOrder K] [IsStrictOrderedRing K] [FloorRing K] [AddCommGroup V] [Module K V] {D : ℕ}

theorem assertM_fail {c : Cfg} (hc : c.assertions = true) {b : Bool} (hb : b = false) : assertM c b = .error .assertFail := by
  unfold assertM; simp [hc, hb]

omit [IsStrictOrderedRing K] [FloorRing K] in
theorem checkMonotonic_fail {c : Cfg} (hc : c.assertions = true) {l : List K} (h : ∃ i, i + 1 < l.length ∧ knotFn l (i + 1) ≤ knotFn l i) :
    checkMonotonic c l = .error .assertFail := by
  obtain ⟨i, hi, hle⟩ := h
  unfold checkMonotonic
  rw [subM_ok (by omega), ok_bind]
  have := Spec.loop (E := fun e => e = .assertFail) (lo := 0) (hi := l.length - 1) (s := ())
    (f := fun i _ => do
      let a ← rd l i
      let b ← rd l (i + 1)
      assertM c (decide (a < b))) (P := fun k _ => ∀ j < k, knotFn l j < knotFn l (j + 1)) (Nat.zero_le _) (fun j hj => absurd hj (by omega)) ?_
  · generalize loop _ _ _ _ = m at this
    cases m with
    | ok u => exact absurd (this i (by omega)) (not_lt.2 hle)
    | error e => rw [show e = .assertFail from this]
  · intro k _ _ hk hP
    rw [rd_knotFn (by omega), ok_bind, rd_knotFn (by omega), ok_bind]
    by_cases hlt : knotFn l k < knotFn l (k + 1)
    · rw [assertM_ok (by simpa using hlt)]
      refine Spec.ok fun j hj => ?_
      by_cases e : j = k
      · subst e; exact hlt
      · exact hP j (by omega)
    · rw [assertM_fail hc (by simpa using hlt)]
      exact Spec.error rfl

/-- Sizes and kinds of the dimensions, without any requirement on explicit coordinates. -/
def SizesOK (c : Cfg) (o : ℕ) (per : Fin D → Bool) (dims : Fin D → ℕ) (x : Fin D → XRange K) : Prop :=
  ∀ d, (per d = true → 2 * (o / 2) + 2 ≤ pointNum c (per d) (dims d)) ∧
    (per d = false → o + 1 ≤ pointNum c (per d) (dims d) ∧ 2 ≤ pointNum c (per d) (dims d)) ∧
    (∀ a b, x d = .uniform a b → a < b) ∧ ∀ l, x d = .coords l → per d = false → 1 ≤ o

/-- Coordinates of a dimension that do not fit: not as many as data points, or not increasing somewhere. -/
def BadCoords (c : Cfg) (per : Fin D → Bool) (dims : Fin D → ℕ) (x : Fin D → XRange K) (d : Fin D) : Prop :=
  ∃ l, x d = .coords l ∧ (l.length ≠ pointNum c (per d) (dims d) ∨ ∃ i, i + 1 < l.length ∧ l.getD (i + 1) 0 ≤ l.getD i 0)

theorem valid_of_not_bad {c : Cfg} {o : ℕ} {per : Fin D → Bool} {dims : Fin D → ℕ} {x : Fin D → XRange K} (hs : SizesOK c o per dims x) {d : Fin D}
    (h : ¬ BadCoords c per dims x d) : (x d).Valid o (pointNum c (per d) (dims d)) (per d) := by
  obtain ⟨h1, h2, h3, h4⟩ := hs d
  refine ⟨h1, h2, h3, fun l e => ?_⟩
  unfold BadCoords at h
  push Not at h
  obtain ⟨h5, h6⟩ := h l e
  exact ⟨h5, fun i hi => h6 i (by omega), h4 l e⟩

theorem createKnotVector_bad {c : Cfg} (hc : c.assertions = true) {o : ℕ} {per : Fin D → Bool} {dims : Fin D → ℕ} {x : Fin D → XRange K}
    (hs : SizesOK c o per dims x) {st : InterpFn D K V × (Fin D → List K)} {d : Fin D} (ho : st.1.spline.order = o) (hp : st.1.spline.periodicity = per)
    (hb : BadCoords c per dims x d) : InterpFn.createKnotVector c dims x st d = .error .assertFail := by
  obtain ⟨l, hx, hb⟩ := hb
  obtain ⟨h1, h2, -, h4⟩ := hs d
  have hp' : st.1.periodicity d = per d := congrFun hp d
  unfold InterpFn.createKnotVector
  rw [hx]
  simp only
  rw [hp', ho]
  unfold coordKnots
  by_cases hl : l.length = pointNum c (per d) (dims d)
  · rcases hb with hb | hb
    · exact absurd hl hb
    have hr : ∃ t, coordKnotsRaw o (per d) l = .ok (t, l) := by
      unfold coordKnotsRaw
      cases hpd : per d with
      | true =>
        have := h1 hpd
        exact ⟨_, coordKnotsPeriodic_ok o (l.length - 1) l (by omega) (by omega)⟩
      | false =>
        have := h2 hpd
        exact ⟨_, coordKnotsAperiodic_ok o l (h4 l hx hpd) (by omega)⟩
    obtain ⟨t, hr⟩ := hr
    rw [assertM_ok (by simpa using hl), ok_bind, hr, ok_bind, checkMonotonic_fail hc hb]
    rfl
  · rw [assertM_fail hc (by simpa using hl)]
    rfl

theorem partialConstruct_bad {c : Cfg} (hc : c.assertions = true) {o : ℕ} {per : Fin D → Bool} {dims : Fin D → ℕ} {x : Fin D → XRange K}
    (hs : SizesOK c o per dims x) (hb : ∃ d, BadCoords c per dims x d) :
    InterpFn.partialConstruct (V := V) c o per dims x = .error .assertFail := by
  have h : Spec (InterpFn.partialConstruct (V := V) c o per dims x) (fun _ => ∀ d : Fin D, ¬ BadCoords c per dims x d) (· = .assertFail) := by
    unfold InterpFn.partialConstruct
    refine Spec.imp (Spec.foldFin (P := fun k r => r.1.spline.order = o ∧ r.1.spline.periodicity = per ∧
      ∀ d : Fin D, d.val < k → ¬ BadCoords c per dims x d) ?_ ?_) ?_
    · exact ⟨rfl, rfl, fun d h => absurd h (by omega)⟩
    · rintro d r ⟨h1, h2, h3⟩
      by_cases hbd : BadCoords c per dims x d
      · rw [createKnotVector_bad hc hs h1 h2 hbd]
        exact Spec.error rfl
      · refine Spec.imp (Ok.toSpec (createKnotVector_ok c h1 h2 (valid_of_not_bad hs hbd))) ?_
        rintro r' ⟨g1, g2, -, -⟩
        refine ⟨g1, g2, fun e he => ?_⟩
        by_cases hed : e = d
        · subst hed; exact hbd
        · exact h3 e (by have : e.val ≠ d.val := fun h => hed (Fin.ext h); omega)
    · rintro r ⟨-, -, h3⟩ d
      exact h3 d d.isLt
  obtain ⟨d, hd⟩ := hb
  generalize InterpFn.partialConstruct (V := V) c o per dims x = m at h
  cases m with
  | ok r => exact absurd hd (h d)
  | error e => rw [show e = .assertFail from h]

theorem indexing_last : ∀ {D : ℕ} {dims : Fin D → ℕ}, (∀ d, 0 < dims d) → indexing dims (fun d => dims d - 1) + 1 = ∏ d, dims d
  | 0, dims, _ => by simp [indexing_zero]
  | D + 1, dims, h => by
    rw [indexing_succ, Fin.prod_univ_castSucc, ← indexing_last (dims := fun i => dims i.castSucc) fun d => h _]
    have := h (Fin.last D)
    generalize indexing (fun i => dims i.castSucc) (fun i => dims i.castSucc - 1) = I
    rw [add_mul, one_mul, mul_comm I]
    omega

namespace Template

omit [Field K] [LinearOrder K] [IsStrictOrderedRing K] [FloorRing K] [Module K V] in
/-- Data of a smaller shape: what is missing counts as zero. -/
theorem initWeights_short (c : Cfg) {o : ℕ} {per : Fin D → Bool} {dims : Fin D → ℕ} {fm : Mesh D V} {f : (Fin D → ℕ) → V}
    (hpos : ∀ d, 0 < dims d) (hd : ∀ d, fm.dims d ≤ dims d + if per d && !c.noDummy then 1 else 0) (hf : fm.Holds fm.dims f) :
    Ok (initWeights c o per dims fm) fun w => ∃ W, w.Holds dims W ∧
      ∀ a, InRange dims a → (InRange fm.dims a → W (shiftIx o per dims a) = f a) ∧ (¬ InRange fm.dims a → W (shiftIx o per dims a) = 0) := by
  have hsize : fm.size = ∏ d, fm.dims d := hf.2.1
  unfold initWeights
  refine Spec.imp (Spec.loop (P := fun pos w => ∃ W, w.Holds dims W ∧ ∀ a, InRange dims a → (InRange fm.dims a → indexing fm.dims a < pos →
    W (shiftIx o per dims a) = f a) ∧ (¬ InRange fm.dims a → W (shiftIx o per dims a) = 0)) (Nat.zero_le _)
    ⟨_, Mesh.mk'_holds dims, fun a _ => ⟨fun _ h => absurd h (by omega), fun _ => rfl⟩⟩ ?_) ?_
  · rintro pos w - hp ⟨W, hW, hWf⟩
    rw [hsize] at hp
    have hfpos : ∀ d, 0 < fm.dims d := dims_pos_of_lt hp
    unfold Mesh.iterIndices
    rw [dimwiseIndices_ok hfpos, ok_bind]
    set a := decode fm.dims pos with ha
    have har : InRange fm.dims a := decode_inRange hfpos
    have hia : indexing fm.dims a = pos := indexing_decode hp
    rw [weightIndex_ok c hpos (fun d => lt_of_lt_of_le (har d) (hd d)), ok_bind]
    by_cases hk : InRange dims a
    · rw [if_pos (by simpa using hk)]
      have hrd : rd fm.storage pos = .ok (f a) := by
        have := hf.get har
        unfold Mesh.get at this
        rwa [hia] at this
      rw [hrd, ok_bind]
      obtain ⟨w', e, hw'⟩ := hW.set (shiftIx_inRange (o := o) (per := per) (a := a) hpos) (f a)
      rw [e]
      refine Spec.ok ⟨_, hw', fun b hb => ⟨fun hbr hlt => ?_, fun hbr => ?_⟩⟩
      · by_cases hba : b = a
        · subst hba; rw [Function.update_self]
        · rw [Function.update_of_ne (fun hc => hba (shiftIx_inj hb hk hc))]
          refine (hWf b hb).1 hbr ?_
          have : indexing fm.dims b ≠ pos := fun hc => hba (indexing_inj hbr har (hc.trans hia.symm))
          omega
      · have hba : b ≠ a := fun e => hbr (e ▸ har)
        rw [Function.update_of_ne (fun hc => hba (shiftIx_inj hb hk hc))]
        exact (hWf b hb).2 hbr
    · rw [if_neg (by simpa using hk)]
      refine Spec.pure ⟨W, hW, fun b hb => ⟨fun hbr hlt => (hWf b hb).1 hbr ?_, (hWf b hb).2⟩⟩
      have : indexing fm.dims b ≠ pos := by
        intro hc
        have := indexing_inj hbr har (hc.trans hia.symm)
        rw [this] at hb
        exact hk hb
      omega
  · rintro w ⟨W, hW, hWf⟩
    refine ⟨W, hW, fun a ha => ⟨fun h => (hWf a ha).1 h ?_, (hWf a ha).2⟩⟩
    rw [hsize]
    exact indexing_lt h

omit [Field K] [LinearOrder K] [IsStrictOrderedRing K] [FloorRing K] [Module K V] in
theorem weightIndex_aperiodic (c : Cfg) (o : ℕ) {per : Fin D → Bool} (hp : ∀ d, per d = false) (dims a : Fin D → ℕ) :
    weightIndex c o per dims a = .ok (true, a) := by
  apply Ok.eq
  unfold weightIndex
  refine Spec.imp (Spec.foldFin (P := fun _ acc => acc = (true, a)) rfl ?_) fun _ h => h
  rintro d acc rfl
  rw [hp d]
  exact Spec.pure rfl

omit [Field K] [LinearOrder K] [IsStrictOrderedRing K] [FloorRing K] [Module K V] in
/-- Data of a larger shape are written outside the buffer. -/
theorem initWeights_long (c : Cfg) {o : ℕ} {per : Fin D → Bool} (hp : ∀ d, per d = false) {dims : Fin D → ℕ} {fm : Mesh D V} (hm : fm.WF)
    (hpos : ∀ d, 0 < dims d) (hd : ∀ d, dims d ≤ fm.dims d) {e : Fin D} (he : dims e < fm.dims e) :
    initWeights c o per dims fm = .error .oob := by
  have hfpos : ∀ d, 0 < fm.dims d := fun d => lt_of_lt_of_le (hpos d) (hd d)
  have h : Spec (initWeights c o per dims fm) (fun _ => ∀ k < fm.size, indexing dims (decode fm.dims k) < ∏ d, dims d) (· = .oob) := by
    unfold initWeights
    refine Spec.imp (Spec.loop (P := fun pos w => w.dims = dims ∧ w.WF ∧ ∀ k < pos, indexing dims (decode fm.dims k) < ∏ d, dims d) (Nat.zero_le _)
      ⟨rfl, Mesh.mk'_wf dims, fun k hk => absurd hk (by omega)⟩ ?_) fun _ h => h.2.2
    rintro pos w - hpp ⟨h1, h2, h3⟩
    unfold Mesh.iterIndices
    rw [dimwiseIndices_ok hfpos, ok_bind, weightIndex_aperiodic c o hp, ok_bind]
    simp only [if_true]
    have hrd : rd fm.storage pos = .ok (fm.storage[pos]'hpp) := rd_ok hpp
    rw [hrd, ok_bind]
    unfold Mesh.set wr
    rw [h1]
    have hlen : w.storage.length = ∏ d, dims d := by rw [← h1]; exact h2
    by_cases hlt : indexing dims (decode fm.dims pos) < w.storage.length
    · rw [if_pos hlt, ok_bind]
      refine Spec.pure ⟨rfl, ?_, fun k hk => ?_⟩
      · unfold Mesh.WF; rw [List.length_set]; exact hlen
      · by_cases e : k = pos
        · subst e; rw [← hlen]; exact hlt
        · exact h3 k (by omega)
    · rw [if_neg hlt]
      exact Spec.error rfl
  have hbad : ¬ ∀ k < fm.size, indexing dims (decode fm.dims k) < ∏ d, dims d := by
    intro hall
    have hr : InRange fm.dims (fun d => fm.dims d - 1) := fun d => Nat.sub_lt (hfpos d) one_pos
    have h1 := hall (indexing fm.dims fun d => fm.dims d - 1) (by
      show _ < fm.storage.length
      rw [hm]
      exact indexing_lt hr)
    rw [decode_indexing hr] at h1
    have h2 := indexing_last hpos
    have h3 : indexing dims (fun d => dims d - 1) < indexing dims (fun d => fm.dims d - 1) := by
      rw [indexing_eq_sum, indexing_eq_sum]
      refine sum_lt_sum (fun d _ => Nat.mul_le_mul_right _ (by have := hd d; omega)) ⟨e, mem_univ e, ?_⟩
      exact Nat.mul_lt_mul_of_pos_right (by have := hpos e; omega) (stride_pos hpos e)
    omega
  generalize initWeights c o per dims fm = m at h
  cases m with
  | ok r => exact absurd h hbad
  | error e => rw [show e = .oob from h]

end Template

end Intp
