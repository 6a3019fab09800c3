import Verif.Proofs.FloatBuild
import Verif.Proofs.FlElim

/-!
# Solving along the axes of a mesh, over arbitrary arithmetic

Between the data and the control points there is one array per axis, and each line of an array is related to the same line of the next one by what
the solver of that axis does.  No law of the arithmetic is used.
-/

namespace Intp.Fl

open CoordArith ScaleArith Template

variable {K V : Type} [CoordArith K] [ValArith V] [ScaleArith K V] {D : ℕ}

/-- What the solver does to a line of `n` numbers. -/
def Rel (R : (ℕ → V) → (ℕ → V) → Prop) (n : ℕ) (b x : ℕ → V) : Prop := ∃ b' x', (∀ i < n, b' i = b i) ∧ (∀ i < n, x' i = x i) ∧ R b' x'

theorem Rel.congr {R : (ℕ → V) → (ℕ → V) → Prop} {n : ℕ} {b x b' x' : ℕ → V} (h : Rel R n b x) (hb : ∀ i < n, b i = b' i) (hx : ∀ i < n, x i = x' i) :
    Rel R n b' x' := by
  obtain ⟨u, v, h1, h2, h3⟩ := h
  exact ⟨u, v, fun i hi => (h1 i hi).trans (hb i hi), fun i hi => (h2 i hi).trans (hx i hi), h3⟩

/-- The solver relates every line to its result by `R`. -/
def SolvesRel (V : Type) [ValArith V] [ScaleArith K V] (c : Cfg) (s : Solver K) (n : ℕ) (R : (ℕ → V) → (ℕ → V) → Prop) : Prop :=
  ∀ (buf : List V) (off step : ℕ) (b : ℕ → V), 0 < step → LineHolds buf off step n buf b →
    Spec (solve c s buf off step) (fun buf' => ∃ x, LineHolds buf off step n buf' x ∧ R b x) (fun _ => True)

/-- State of the two meshes after the lines in `S` have been solved and copied. -/
def SweptRel (dims : Fin (D + 1) → ℕ) (R : (ℕ → V) → (ℕ → V) → Prop) (f0 : (Fin (D + 1) → ℕ) → V) (S : Set ℕ)
    (st : Mesh (D + 1) V × Mesh (D + 1) V) : Prop :=
  ∃ f, st.1.Holds dims f ∧
    (∀ a, InRange dims a → lineOf dims a ∉ S → f a = f0 a) ∧
    (∀ a, InRange dims a → lineOf dims a ∈ S →
      Rel R (dims (Fin.last D)) (fun i => f0 (Function.update a (Fin.last D) i)) fun i => f (Function.update a (Fin.last D) i)) ∧
    (D ≠ 0 → ∃ g, st.2.Holds (rightShift dims) g ∧ ∀ a, InRange dims a → lineOf dims a ∈ S → g (rightShift a) = f a)

theorem solveLine_rel (c : Cfg) {s : Solver K} {dims : Fin (D + 1) → ℕ} {R : (ℕ → V) → (ℕ → V) → Prop} {f0 : (Fin (D + 1) → ℕ) → V} {S : Set ℕ}
    {st : Mesh (D + 1) V × Mesh (D + 1) V} (hpos : ∀ d, 0 < dims d) (hs : SolvesRel V c s (dims (Fin.last D)) R) (h : SweptRel dims R f0 S st)
    (h2 : D = 0 → st.2.dims 0 ≠ 0) {j : ℕ} (hj : j < ∏ i : Fin D, dims i.castSucc) (hjS : j ∉ S) :
    Spec (solveLine c s j st) (fun st' => SweptRel dims R f0 (insert j S) st' ∧ (D = 0 → st'.2 = st.2)) (fun _ => True) := by
  obtain ⟨f, h1, hf1, hf2, hf3⟩ := h
  set l := Fin.last D with hl
  set n := dims l with hn
  set a := decode dims (j * n) with ha
  have har : InRange dims a := decode_inRange hpos
  have hal : a l = 0 := decode_line hpos j
  have hup : Function.update a l 0 = a := by rw [← hal, Function.update_eq_self]
  unfold solveLine
  simp only [h1.1]
  rw [dimwiseIndices_ok (dims := dims) hpos, ok_bind]
  have e1 : st.1.lineBegin c l a = .ok (indexing dims a, stride dims l) := by
    rw [Mesh.lineBegin_ok c st.1 l (by rw [h1.1, hup]; exact har), h1.1, hup]
  rw [e1, ok_bind]
  have hlh := h1.line har l
  rw [hup] at hlh
  have hsolve := hs st.1.storage _ _ _ (stride_pos hpos l) hlh
  have hold : ∀ x : ℕ → V, ∀ b, InRange dims b → lineOf dims b ∉ insert j S →
      (if Function.update b l 0 = a then x (b l) else f b) = f0 b := by
    intro x b hb hbS
    rw [if_neg, hf1 b hb (fun h => hbS (Set.mem_insert_of_mem _ h))]
    intro hc
    exact hbS (by rw [(line_eq_iff hpos hb hj).1 hc]; exact Set.mem_insert _ _)
  have hnew : ∀ x : ℕ → V, R (fun i => f (Function.update a l i)) x → ∀ b, InRange dims b → lineOf dims b ∈ insert j S →
      Rel R n (fun i => f0 (Function.update b l i))
        fun i => if Function.update (Function.update b l i) l 0 = a then x (Function.update b l i l) else f (Function.update b l i) := by
    intro x hx b hb hbS
    simp only [Function.update_idem, Function.update_self]
    by_cases hbj : lineOf dims b = j
    · have he : Function.update b l 0 = a := (line_eq_iff hpos hb hj).2 hbj
      refine ⟨_, x, fun i hi => ?_, fun i _ => (if_pos he).symm, hx⟩
      simp only
      rw [← hf1 _ (hb.update hi) (by rw [lineOf_update, hbj]; exact hjS), ← he, Function.update_idem]
    · have he : ¬ Function.update b l 0 = a := fun hc => hbj ((line_eq_iff hpos hb hj).1 hc)
      simp only [if_neg he]
      exact hf2 b hb (by rcases hbS with h | h; exact absurd h hbj; exact h)
  by_cases hD : D = 0
  · have e2 : st.2.lineBegin c 0 (rightShift a) = .ok (indexing st.2.dims (Function.update (rightShift a) 0 0), stride st.2.dims 0) := by
      apply Mesh.lineBegin_ok
      intro d
      have hd0 : d = 0 := Fin.ext (by have := d.isLt; simp; omega)
      subst hd0
      rw [Function.update_self]
      exact Nat.pos_of_ne_zero (h2 hD)
    rw [e2, ok_bind]
    refine Spec.bind hsolve ?_
    rintro buf ⟨x, hx, hsol⟩
    rw [if_pos hD]
    refine Spec.pure ⟨?_, fun _ => rfl⟩
    have hx' : LineHolds st.1.storage (indexing dims (Function.update a l 0)) (stride dims l) (dims l) buf x := by rw [hup]; exact hx
    have hset := h1.setLine har l hx'
    rw [hup] at hset
    exact ⟨_, hset, hold x, hnew x hsol, fun h => absurd hD h⟩
  · obtain ⟨g, g1, g2⟩ := hf3 hD
    have hra : InRange (rightShift dims) (rightShift a) := rightShift_inRange.2 har
    have hrup : Function.update (rightShift a) 0 0 = rightShift a := by rw [← rightShift_update, hup]
    have e2 : st.2.lineBegin c 0 (rightShift a) = .ok (indexing (rightShift dims) (rightShift a), stride (rightShift dims) 0) := by
      rw [Mesh.lineBegin_ok c st.2 0 (by rw [g1.1, hrup]; exact hra), g1.1, hrup]
    rw [e2, ok_bind]
    refine Spec.bind hsolve ?_
    rintro buf ⟨x, hx, hsol⟩
    rw [if_neg hD]
    have hlg := g1.line hra 0
    rw [hrup] at hlg
    have hn0 : rightShift dims 0 = n := by rw [rightShift_eq, Function.comp_apply, rotIx_zero]
    rw [hn0] at hlg
    refine Spec.bind (Ok.toSpec (copyLine_spec hx hlg (stride_pos (rightShift_pos hpos 1) 0))) fun nbuf hnb => ?_
    rw [g1.1]
    refine Spec.pure ⟨?_, fun h => absurd h hD⟩
    have hx' : LineHolds st.1.storage (indexing dims (Function.update a l 0)) (stride dims l) (dims l) buf x := by rw [hup]; exact hx
    have hset := h1.setLine har l hx'
    rw [hup] at hset
    have hnb' : LineHolds st.2.storage (indexing (rightShift dims) (Function.update (rightShift a) 0 0)) (stride (rightShift dims) 0)
        (rightShift dims 0) nbuf x := by rw [hrup, hn0]; exact hnb
    have hnset := g1.setLine hra 0 hnb'
    rw [hrup] at hnset
    refine ⟨_, hset, hold x, hnew x hsol, fun _ => ⟨_, hnset, ?_⟩⟩
    intro b hb hbS
    rw [← rightShift_update]
    have hz : rightShift b 0 = b l := by rw [rightShift_eq, Function.comp_apply, rotIx_zero]
    by_cases hbj : lineOf dims b = j
    · have he : Function.update b l 0 = a := (line_eq_iff hpos hb hj).2 hbj
      rw [if_pos (by rw [he]), if_pos he, hz]
    · have he : ¬ Function.update b l 0 = a := fun hc => hbj ((line_eq_iff hpos hb hj).1 hc)
      rw [if_neg he, if_neg (fun hc => he (rightShift_injective hc))]
      exact g2 b hb (by rcases hbS with h | h; exact absurd h hbj; exact h)

theorem solveDim_rel (c : Cfg) {s : Solver K} {dims : Fin (D + 1) → ℕ} {R : (ℕ → V) → (ℕ → V) → Prop} {f0 : (Fin (D + 1) → ℕ) → V}
    {st : Mesh (D + 1) V × Mesh (D + 1) V} (hpos : ∀ d, 0 < dims d) (hs : SolvesRel V c s (dims (Fin.last D)) R)
    (h : st.1.Holds dims f0) (h2 : D = 0 → st.2.dims 0 ≠ 0) :
    Spec (solveDim c s st) (fun st' => (D = 0 → st'.2 = st.2) ∧
      ∃ g, (if D = 0 then st'.1 else st'.2).Holds (rightShift dims) g ∧ ∀ a, InRange dims a →
        Rel R (dims (Fin.last D)) (fun i => f0 (Function.update a (Fin.last D) i))
          fun i => g (rightShift (Function.update a (Fin.last D) i))) (fun _ => True) := by
  unfold solveDim
  have hsize : st.1.size = (∏ i : Fin D, dims i.castSucc) * dims (Fin.last D) := by
    have := h.2.1
    unfold Mesh.WF at this
    rw [h.1, Fin.prod_univ_castSucc] at this
    exact this
  dsimp only
  rw [h.1, divN_ok (hpos _).ne', ok_bind, hsize, Nat.mul_div_cancel _ (hpos _)]
  set N := ∏ i : Fin D, dims i.castSucc with hN
  set new := if D = 0 then st.2 else st.2.resize (rightShift dims) 0 with hnew
  refine Spec.imp (Spec.loop (P := fun j st' => SweptRel dims R f0 {j' | j' < j} st' ∧ (D = 0 → st'.2 = st.2))
    (lo := 0) (hi := N) (Nat.zero_le _) ?_ ?_) ?_
  · refine ⟨⟨f0, h, fun _ _ _ => rfl, fun a _ ha => absurd ha (by simp), fun hD => ?_⟩, fun hD => ?_⟩
    · have hw : new.WF := by
        rw [hnew, if_neg hD]
        simp [Mesh.WF, Mesh.resize, dimsSize_eq]
        omega
      have hd : new.dims = rightShift dims := by rw [hnew, if_neg hD]; rfl
      have : Inhabited V := ⟨0⟩
      have hh := hw.holds
      rw [hd] at hh
      exact ⟨_, hh, fun a _ ha => absurd ha (by simp)⟩
    · simp only [hnew, if_pos hD]
  · rintro j st' _ hj ⟨hsw, h0⟩
    refine Spec.imp (solveLine_rel c hpos hs hsw (fun hD => by rw [h0 hD]; exact h2 hD) hj (by simp)) ?_
    rintro st'' ⟨h3, h4⟩
    refine ⟨?_, fun hD => (h4 hD).trans (h0 hD)⟩
    convert h3 using 1
    ext j'
    simp only [Set.mem_setOf_eq, Set.mem_insert_iff]
    omega
  · rintro st' ⟨⟨f, h1, -, hf2, hf3⟩, h0⟩
    refine ⟨h0, ?_⟩
    have hmem : ∀ a, InRange dims a → lineOf dims a ∈ {j' | j' < N} := fun a ha => lineOf_lt ha
    by_cases hD : D = 0
    · have hid : ∀ a : Fin (D + 1) → ℕ, rightShift a = a := by
        subst hD
        intro a
        have := rightShift_iter_full (D := 0) a
        simpa using this
      simp only [if_pos hD, hid]
      exact ⟨f, h1, fun a ha => hf2 a ha (hmem a ha)⟩
    · obtain ⟨g, g1, g2⟩ := hf3 hD
      simp only [if_neg hD]
      refine ⟨g, g1, fun a ha => (hf2 a ha (hmem a ha)).congr (fun i _ => rfl) fun i hi => ?_⟩
      rw [g2 _ (ha.update hi) (hmem _ (ha.update hi))]

/-- Solving along all axes: `c 0` is the right-hand side, `c (D + 1)` the result, and along axis `D - k` every line of `c k` is related to that line
of `c (k + 1)`. -/
theorem solveDims_rel (c : Cfg) {solvers : Fin (D + 1) → Solver K} {dims : Fin (D + 1) → ℕ} {R : Fin (D + 1) → (ℕ → V) → (ℕ → V) → Prop}
    {W : (Fin (D + 1) → ℕ) → V} {st : Mesh (D + 1) V × Mesh (D + 1) V} (hpos : ∀ d, 0 < dims d)
    (hs : ∀ d, SolvesRel V c (solvers d) (dims d) (R d)) (h : st.1.Holds dims W) (h2 : D = 0 → st.2.dims 0 ≠ 0) :
    Spec (solveDims c solvers st) (fun st' => ∃ F : ℕ → (Fin (D + 1) → ℕ) → V, F 0 = W ∧
      (if (D + 1) % 2 = 0 ∨ D = 0 then st'.1 else st'.2).Holds dims (F (D + 1)) ∧
      ∀ d : Fin (D + 1), ∀ a, InRange dims a → Rel (R d) (dims d) (fun i => F d.rev (Function.update a d i))
        fun i => F (d.rev + 1) (Function.update a d i)) (fun _ => True) := by
  unfold solveDims
  refine Spec.imp (Spec.foldFin (P := fun k st' => (D = 0 → st'.2 = st.2) ∧ ∃ F : ℕ → (Fin (D + 1) → ℕ) → V, F 0 = W ∧
    ∃ G, (if k % 2 = 0 ∨ D = 0 then st'.1 else st'.2).Holds (rightShift^[k] dims) G ∧ (∀ a, F k a = G (rightShift^[k] a)) ∧
      ∀ d : Fin (D + 1), d.rev.val < k → ∀ a, InRange dims a → Rel (R d) (dims d) (fun i => F d.rev (Function.update a d i))
        fun i => F (d.rev + 1) (Function.update a d i)) ?_ ?_) ?_
  · exact ⟨fun _ => rfl, fun _ => W, rfl, W, by simpa using h, fun _ => rfl, fun d hd => absurd hd (by omega)⟩
  · rintro d st' ⟨h0, F, hF0, G, hG, hFG, hT⟩
    have hd : d.val ≤ D := by have := d.isLt; omega
    have hlast : (rightShift^[d.val] dims) (Fin.last D) = dims d.rev := by
      rw [rightShift_iter, Function.comp_apply, rotIx_iter_last d.val hd]
    have hs' : SolvesRel V c (solvers d.rev) ((rightShift^[d.val] dims) (Fin.last D)) (R d.rev) := by rw [hlast]; exact hs d.rev
    have hmix : ∀ st1 : Mesh (D + 1) V, ∀ g,
        st1.Holds (rightShift (rightShift^[d.val] dims)) g →
        (∀ a, InRange (rightShift^[d.val] dims) a → Rel (R d.rev) ((rightShift^[d.val] dims) (Fin.last D))
          (fun i => G (Function.update a (Fin.last D) i)) fun i => g (rightShift (Function.update a (Fin.last D) i))) →
        ∃ F : ℕ → (Fin (D + 1) → ℕ) → V, F 0 = W ∧
        ∃ G, st1.Holds (rightShift^[d.val + 1] dims) G ∧ (∀ a, F (d.val + 1) a = G (rightShift^[d.val + 1] a)) ∧
          ∀ e : Fin (D + 1), e.rev.val < d.val + 1 → ∀ a, InRange dims a → Rel (R e) (dims e) (fun i => F e.rev (Function.update a e i))
            fun i => F (e.rev + 1) (Function.update a e i) := by
      intro st1 g hh hsol
      refine ⟨Function.update F (d.val + 1) fun a => g (rightShift^[d.val + 1] a), ?_, g, ?_, fun a => by rw [Function.update_self], fun e he a ha => ?_⟩
      · rw [Function.update_of_ne (by omega), hF0]
      · rw [Function.iterate_succ', Function.comp_apply]; exact hh
      · rw [Function.update_of_ne (show e.rev.val ≠ d.val + 1 by omega)]
        by_cases hed : e.rev.val < d.val
        · rw [Function.update_of_ne (by omega)]
          exact hT e hed a ha
        · have : e = d.rev := by
            rw [← Fin.rev_rev e]; congr 1; exact Fin.ext (by omega)
          subst this
          rw [Fin.rev_rev, Function.update_self]
          have ha' : InRange (rightShift^[d.val] dims) (rightShift^[d.val] a) := by
            rw [rightShift_iter, rightShift_iter]; intro e; exact ha _
          have h := hsol _ ha'
          rw [hlast] at h
          refine h.congr (fun i _ => ?_) fun i _ => ?_
          · rw [hFG]
            congr 1
            exact (rightShift_iter_update d.val hd a i).symm
          · rw [Function.iterate_succ', Function.comp_apply]
            congr 2
            exact (rightShift_iter_update d.val hd a i).symm
    by_cases hpar : d.val % 2 = 0
    · rw [if_pos hpar]
      rw [if_pos (Or.inl hpar)] at hG
      refine Spec.imp (solveDim_rel c (rightShift_pos hpos _) hs' hG (fun hD => by rw [h0 hD]; exact h2 hD)) ?_
      rintro st'' ⟨r2, g, r3, r4⟩
      obtain ⟨F', m0, G', m2, m3⟩ := hmix _ g r3 r4
      refine ⟨fun hD => (r2 hD).trans (h0 hD), F', m0, G', ?_, m3⟩
      by_cases hD : D = 0
      · rw [if_pos (Or.inr hD)]; rwa [if_pos hD] at m2
      · rw [if_neg (by omega)]; rwa [if_neg hD] at m2
    · rw [if_neg hpar]
      have hD : D ≠ 0 := by rintro rfl; have := d.isLt; omega
      rw [if_neg (by omega)] at hG
      refine Spec.bind (solveDim_rel c (rightShift_pos hpos _) hs' (st := (st'.2, st'.1)) hG (fun h => absurd h hD)) ?_
      rintro st'' ⟨r2, g, r3, r4⟩
      rw [if_neg hD] at r3
      obtain ⟨F', m0, G', m2, m3⟩ := hmix _ g r3 r4
      refine Spec.pure ⟨fun h => absurd h hD, F', m0, G', ?_, m3⟩
      rw [if_pos (by omega)]
      exact m2
  · rintro st' ⟨-, F, hF0, G, hG, hFG, hT⟩
    refine ⟨F, hF0, ?_, fun d => hT d d.rev.isLt⟩
    have e : F (D + 1) = G := by
      funext a
      rw [hFG, rightShift_iter_full]
    rw [e]
    rw [rightShift_iter_full] at hG; exact hG

/-! ## Right-hand side -/

theorem initWeights_spec (c : Cfg) {o : ℕ} {per : Fin D → Bool} {dims : Fin D → ℕ} {fm : Mesh D V} {f : (Fin D → ℕ) → V}
    (hpos : ∀ d, 0 < dims d) (hd : ∀ d, fm.dims d = dims d + if per d && !c.noDummy then 1 else 0) (hf : fm.Holds fm.dims f) :
    Ok (initWeights c o per dims fm) fun w => ∃ W, w.Holds dims W ∧ ∀ a, InRange dims a → W (shiftIx o per dims a) = f a := by
  have hfpos : ∀ d, 0 < fm.dims d := fun d => by rw [hd]; have := hpos d; omega
  have hsize : fm.size = ∏ d, fm.dims d := hf.2.1
  unfold initWeights
  refine Spec.imp (Spec.loop (P := fun pos w => ∃ W, w.Holds dims W ∧ ∀ a, InRange dims a → indexing fm.dims a < pos →
    W (shiftIx o per dims a) = f a) (Nat.zero_le _) ⟨_, Mesh.mk'_holds dims, fun a _ h => absurd h (by omega)⟩ ?_) ?_
  · rintro pos w - hp ⟨W, hW, hWf⟩
    rw [hsize] at hp
    unfold Mesh.iterIndices
    rw [dimwiseIndices_ok hfpos, ok_bind]
    set a := decode fm.dims pos with ha
    have har : InRange fm.dims a := decode_inRange hfpos
    have hia : indexing fm.dims a = pos := indexing_decode hp
    rw [weightIndex_ok c hpos (fun d => by rw [← hd]; exact har d), ok_bind]
    by_cases hk : InRange dims a
    · rw [if_pos (by simpa using hk)]
      have hrd : rd fm.storage pos = .ok (f a) := by
        have := hf.get har
        unfold Mesh.get at this
        rwa [hia] at this
      rw [hrd, ok_bind]
      obtain ⟨w', e, hw'⟩ := hW.set (shiftIx_inRange (o := o) (per := per) (a := a) hpos) (f a)
      rw [e]
      refine Spec.ok ⟨_, hw', fun b hb hlt => ?_⟩
      by_cases hba : b = a
      · subst hba; rw [Function.update_self]
      · rw [Function.update_of_ne (fun hc => hba (shiftIx_inj hb hk hc))]
        refine hWf b hb ?_
        have hbr : InRange fm.dims b := fun d => by rw [hd]; have := hb d; omega
        have : indexing fm.dims b ≠ pos := fun hc => hba (indexing_inj hbr har (hc.trans hia.symm))
        omega
    · rw [if_neg (by simpa using hk)]
      refine Spec.pure ⟨W, hW, fun b hb hlt => hWf b hb ?_⟩
      have hbr : InRange fm.dims b := fun d => by rw [hd]; have := hb d; omega
      have : indexing fm.dims b ≠ pos := by
        intro hc
        have := indexing_inj hbr har (hc.trans hia.symm)
        rw [this] at hb
        exact hk hb
      omega
  · rintro w ⟨W, hW, hWf⟩
    refine ⟨W, hW, fun a ha => hWf a ha ?_⟩
    rw [hsize]
    exact indexing_lt fun d => by rw [hd]; have := ha d; omega

/-- `solve_for_control_points_`. -/
theorem solveForControlPoints_rel (c : Cfg) {t : Template (D + 1) K V} {fm : Mesh (D + 1) V} {R : Fin (D + 1) → (ℕ → V) → (ℕ → V) → Prop}
    {f : (Fin (D + 1) → ℕ) → V} (hpos : ∀ d, 0 < t.dims d) (hs : ∀ d, SolvesRel V c (t.solvers d) (t.dims d) (R d))
    (hd : ∀ d, fm.dims d = t.dims d + if t.base.periodicity d && !c.noDummy then 1 else 0) (hf : fm.Holds fm.dims f) :
    Spec (solveForControlPoints c t fm) (fun w => ∃ F : ℕ → (Fin (D + 1) → ℕ) → V,
      (∀ a, InRange t.dims a → F 0 (shiftIx t.base.spline.order t.base.periodicity t.dims a) = f a) ∧ w.Holds t.dims (F (D + 1)) ∧
      ∀ d : Fin (D + 1), ∀ a, InRange t.dims a → Rel (R d) (t.dims d) (fun i => F d.rev (Function.update a d i))
        fun i => F (d.rev + 1) (Function.update a d i)) (fun _ => True) := by
  unfold solveForControlPoints
  refine Spec.bind (Ok.toSpec (initWeights_spec c hpos hd hf)) ?_
  rintro w ⟨W, hW, hWf⟩
  dsimp only
  refine Spec.bind (solveDims_rel c hpos hs hW fun hD => ?_) ?_
  · simp only [if_pos hD]; simp [Mesh.mk']
  · rintro st ⟨F, hF0, hH, hR⟩
    refine Spec.ite (fun h => ?_) fun h => ?_
    · rw [if_pos h] at hH; exact Spec.pure ⟨F, by rw [hF0]; exact hWf, hH, hR⟩
    · rw [if_neg h] at hH; exact Spec.pure ⟨F, by rw [hF0]; exact hWf, hH, hR⟩

end Intp.Fl
