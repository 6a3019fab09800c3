import Verif.Proofs.Rows

/-!
# Solving along the axes of a mesh
-/

namespace Intp

open Finset

variable {K V : Type} [Field K] [LinearOrder K] [IsStrictOrderedRing K] [FloorRing K] [AddCommGroup V] [Module K V] {D : ℕ}

/-- All leading square blocks are invertible. -/
def Regular (n : ℕ) (A : ℕ → ℕ → K) : Prop := ∀ r, r < n → (lead A (r + 1)).det ≠ 0

/-- Specification of a solver for the matrix `A`: it solves every line, and fails only if a leading block of `A` is singular. -/
def Solver.Solves (V : Type) [AddCommGroup V] [Module K V] (c : Cfg) (s : Solver K) (n : ℕ) (A : ℕ → ℕ → K) : Prop :=
  ∀ (buf : List V) (off step : ℕ) (b : ℕ → V), 0 < step → LineHolds buf off step n buf b →
    Spec (s.solve c buf off step) (fun buf' => Regular n A ∧ ∃ x, LineHolds buf off step n buf' x ∧
      ∀ i < n, ∑ j ∈ range n, A i j • x j = b i) (PivotErr n A)

omit [IsStrictOrderedRing K] [FloorRing K] in
theorem solves_aux {n : ℕ} {A C : ℕ → ℕ → K} (hinv : LUInv n A n C) {buf : List V} {off step : ℕ} {b : ℕ → V} {run : M (List V)}
    (h : Spec run (SolvePost buf off step n C b) (DiagErr n C)) :
    Spec run (fun buf' => Regular n A ∧ ∃ x, LineHolds buf off step n buf' x ∧
      ∀ i < n, ∑ j ∈ range n, A i j • x j = b i) (PivotErr n A) := by
  refine h.mono ?_ ?_
  · rintro buf' ⟨x, y, hx, hf, hb⟩
    refine ⟨fun r hr => ?_, x, hx, lu_solves hinv hf hb⟩
    rw [hinv.det_lead (by omega) (by omega)]
    exact Finset.prod_ne_zero_iff.2 fun m hm => hb.2 m (Nat.zero_le _) (by have := mem_range.1 hm; omega)
  · rintro e ⟨rfl, r, hr, h0⟩
    refine ⟨rfl, r, hr, ?_⟩
    rw [hinv.det_lead (by omega) (by omega)]
    exact Finset.prod_eq_zero (mem_range.2 (Nat.lt_succ_self r)) h0

omit [IsStrictOrderedRing K] [FloorRing K] in
theorem Solver.ofMat_spec (V : Type) [AddCommGroup V] [Module K V] (c : Cfg) {per : Bool} {n bw : ℕ} {m : CoefMat K} {A : ℕ → ℕ → K}
    (h : CoefMat.Rep per n bw m A) (hn : 0 < n) (hbw : per = true → 2 * bw ≤ n) :
    Spec (Solver.ofMat c m) (fun s => s.Solves V c n A) (PivotErr n A) := by
  unfold Solver.ofMat
  cases m with
  | band m =>
    obtain ⟨⟨rfl, hr⟩, hoff⟩ := h
    refine Spec.bind (Q := fun s => ∃ C, BandMatrix.Rep n bw bw s.store C ∧ LUInv n A n C ∧
      ∀ i j, i < n → j < n → ¬ InBand bw bw i j → C i j = 0) ?_ ?_
    · unfold LUState.compute LUState.empty
      rw [if_neg (by simp)]
      refine Spec.bind (BandMatrix.computeImpl_spec c hn hr (fun i j h1 h2 h3 => hoff i j h1 h2 (by simpa [CoefMat.Pat] using h3)))
        fun lu hlu => Spec.pure hlu
    · rintro s ⟨C, h1, h2, h3⟩
      refine Spec.pure fun buf off step b hstep hb => ?_
      exact solves_aux h2 (BandMatrix.solveInPlace_spec c h1 h3 hstep hb)
  | ext m =>
    obtain ⟨⟨rfl, hr⟩, hoff⟩ := h
    refine Spec.bind (Q := fun s => ∃ C, ExtBandMatrix.Rep n bw bw s.store C ∧ LUInv n A n C ∧
      ∀ i j, i < n → j < n → ¬ InPat n bw bw i j → C i j = 0) ?_ ?_
    · unfold LUState.compute LUState.empty
      rw [if_neg (by simp)]
      refine Spec.bind (ExtBandMatrix.computeImpl_spec c hr (fun i j h1 h2 h3 => hoff i j h1 h2 (by simpa [CoefMat.Pat] using h3)))
        fun lu hlu => Spec.pure hlu
    · rintro s ⟨C, h1, h2, h3⟩
      refine Spec.pure fun buf off step b hstep hb => ?_
      exact solves_aux h2 (ExtBandMatrix.solveInPlace_spec c h1 (by have := hbw rfl; omega) h3 hstep hb)

/-! ## rotation of the axes -/

namespace Template

/-- The index map of `array_right_shift`. -/
def rotIx (d : Fin (D + 1)) : Fin (D + 1) := ⟨(d.val + (D + 1) - 1) % (D + 1), Nat.mod_lt _ (Nat.succ_pos D)⟩

theorem rightShift_eq (a : Fin (D + 1) → ℕ) : rightShift a = a ∘ rotIx := rfl

theorem rotIx_inj : Function.Injective (rotIx (D := D)) := by
  intro a b h
  have h1 := congrArg Fin.val h
  simp only [rotIx] at h1
  have ha := a.isLt
  have hb := b.isLt
  apply Fin.ext
  rw [show a.val + (D + 1) - 1 = D + a.val by omega, show b.val + (D + 1) - 1 = D + b.val by omega] at h1
  exact mod_inj ha hb h1

theorem rotIx_zero : rotIx (D := D) 0 = Fin.last D := by
  apply Fin.ext; simp [rotIx]

theorem rotIx_iter (k : ℕ) (d : Fin (D + 1)) : ((rotIx (D := D))^[k] d).val = (d.val + k * D) % (D + 1) := by
  induction k with
  | zero => simp [Nat.mod_eq_of_lt d.isLt]
  | succ k ih =>
    rw [Function.iterate_succ', Function.comp_apply]
    simp only [rotIx]
    rw [ih, show ∀ t, t + (D + 1) - 1 = t + D from fun t => by omega, Nat.mod_add_mod]
    congr 1; ring

theorem rotIx_iter_last (k : ℕ) (hk : k ≤ D) : ((rotIx (D := D))^[k] (Fin.last D)) = Fin.rev ⟨k, by omega⟩ := by
  apply Fin.ext
  rw [rotIx_iter, Fin.val_last, Fin.val_rev]
  simp only
  have : D + k * D = k * (D + 1) + (D - k) := by
    zify [hk]; ring
  rw [this, Nat.mul_add_mod_self_right, Nat.mod_eq_of_lt (by omega)]
  omega

theorem rotIx_iter_full : (rotIx (D := D))^[D + 1] = id := by
  funext d
  apply Fin.ext
  rw [rotIx_iter, id, Nat.add_mul_mod_self_left, Nat.mod_eq_of_lt d.isLt]

theorem rightShift_iter (k : ℕ) (a : Fin (D + 1) → ℕ) : rightShift^[k] a = a ∘ rotIx^[k] := by
  induction k generalizing a with
  | zero => rfl
  | succ k ih => rw [Function.iterate_succ, Function.comp_apply, ih, rightShift_eq, Function.iterate_succ', Function.comp_assoc]

theorem rightShift_iter_full (a : Fin (D + 1) → ℕ) : rightShift^[D + 1] a = a := by
  rw [rightShift_iter, rotIx_iter_full]; rfl

theorem rotIx_bij : Function.Bijective (rotIx (D := D)) := Finite.injective_iff_bijective.1 rotIx_inj

theorem rightShift_inRange {dims a : Fin (D + 1) → ℕ} : InRange (rightShift dims) (rightShift a) ↔ InRange dims a := by
  rw [rightShift_eq, rightShift_eq]
  constructor
  · intro h d
    obtain ⟨e, rfl⟩ := rotIx_bij.2 d
    exact h e
  · intro h d; exact h _

theorem rightShift_surj (b : Fin (D + 1) → ℕ) : ∃ a, rightShift a = b := by
  obtain ⟨g, h1, h2⟩ := Function.bijective_iff_has_inverse.1 (rotIx_bij (D := D))
  exact ⟨b ∘ g, by funext d; simp [rightShift_eq, h1 d]⟩

theorem rightShift_injective : Function.Injective (rightShift (D := D)) := by
  intro a b h
  funext d
  obtain ⟨e, rfl⟩ := rotIx_bij.2 d
  exact congrFun h e

theorem rightShift_update (a : Fin (D + 1) → ℕ) (j : ℕ) :
    rightShift (Function.update a (Fin.last D) j) = Function.update (rightShift a) 0 j := by
  funext d
  rw [rightShift_eq, rightShift_eq]
  simp only [Function.comp_apply]
  by_cases h : d = 0
  · subst h; rw [rotIx_zero]; simp
  · rw [Function.update_of_ne h, Function.update_of_ne]
    · rfl
    · intro hc; exact h (rotIx_inj (hc.trans rotIx_zero.symm))

theorem rightShift_iter_update (k : ℕ) (hk : k ≤ D) (a : Fin (D + 1) → ℕ) (j : ℕ) :
    rightShift^[k] (Function.update a (Fin.rev ⟨k, by omega⟩) j) = Function.update (rightShift^[k] a) (Fin.last D) j := by
  funext d
  rw [rightShift_iter, rightShift_iter]
  simp only [Function.comp_apply]
  by_cases h : d = Fin.last D
  · subst h; rw [rotIx_iter_last k hk]; simp
  · rw [Function.update_of_ne h, Function.update_of_ne]
    · rfl
    · intro hc; exact h (rotIx_inj.iterate k (hc.trans (rotIx_iter_last k hk).symm))

theorem prod_rightShift (dims : Fin (D + 1) → ℕ) : ∏ d, rightShift dims d = ∏ d, dims d := by
  rw [rightShift_eq]
  exact rotIx_bij.prod_comp dims

theorem rightShift_pos {dims : Fin (D + 1) → ℕ} (h : ∀ d, 0 < dims d) (k : ℕ) : ∀ d, 0 < (rightShift^[k] dims) d := by
  intro d; rw [rightShift_iter]; exact h _

/-! ## one line -/

/-- Number of the line along the last axis that contains `a`. -/
def lineOf (dims a : Fin (D + 1) → ℕ) : ℕ := indexing (fun i : Fin D => dims i.castSucc) fun i => a i.castSucc

theorem decode_line {dims : Fin (D + 1) → ℕ} (hpos : ∀ d, 0 < dims d) (j : ℕ) :
    decode dims (j * dims (Fin.last D)) (Fin.last D) = 0 := by
  rw [decode_last, Nat.mul_mod_left]

theorem lineOf_decode {dims : Fin (D + 1) → ℕ} (hpos : ∀ d, 0 < dims d) {j : ℕ} (hj : j < ∏ i : Fin D, dims i.castSucc) :
    lineOf dims (decode dims (j * dims (Fin.last D))) = j := by
  unfold lineOf
  simp only [decode_castSucc]
  rw [Nat.mul_div_cancel _ (hpos _)]
  exact indexing_decode hj

theorem line_eq_iff {dims a : Fin (D + 1) → ℕ} (hpos : ∀ d, 0 < dims d) (ha : InRange dims a) {j : ℕ}
    (hj : j < ∏ i : Fin D, dims i.castSucc) :
    Function.update a (Fin.last D) 0 = decode dims (j * dims (Fin.last D)) ↔ lineOf dims a = j := by
  constructor
  · intro h
    rw [← lineOf_decode hpos hj, ← h]
    unfold lineOf
    congr 1
    funext i
    rw [Function.update_of_ne (Fin.castSucc_lt_last i).ne]
  · rintro rfl
    funext d
    refine Fin.lastCases ?_ (fun i => ?_) d
    · rw [Function.update_self, decode_line hpos]
    · rw [Function.update_of_ne (Fin.castSucc_lt_last i).ne, decode_castSucc, Nat.mul_div_cancel _ (hpos _)]
      unfold lineOf
      rw [decode_indexing (fun d => ha _)]

theorem lineOf_lt {dims a : Fin (D + 1) → ℕ} (ha : InRange dims a) : lineOf dims a < ∏ i : Fin D, dims i.castSucc :=
  indexing_lt fun _ => ha _

theorem lineOf_update (dims a : Fin (D + 1) → ℕ) (j : ℕ) : lineOf dims (Function.update a (Fin.last D) j) = lineOf dims a := by
  unfold lineOf
  congr 1
  funext i
  rw [Function.update_of_ne (Fin.castSucc_lt_last i).ne]

/-- State of the two meshes after the lines in `S` have been solved and copied. -/
def Swept (dims : Fin (D + 1) → ℕ) (A : ℕ → ℕ → K) (f0 : (Fin (D + 1) → ℕ) → V) (S : Set ℕ)
    (st : Mesh (D + 1) V × Mesh (D + 1) V) : Prop :=
  (S.Nonempty → Regular (dims (Fin.last D)) A) ∧
  ∃ f, st.1.Holds dims f ∧
    (∀ a, InRange dims a → lineOf dims a ∉ S → f a = f0 a) ∧
    (∀ a, InRange dims a → lineOf dims a ∈ S → ∀ i < dims (Fin.last D),
      ∑ j ∈ range (dims (Fin.last D)), A i j • f (Function.update a (Fin.last D) j) = f0 (Function.update a (Fin.last D) i)) ∧
    (D ≠ 0 → ∃ g, st.2.Holds (rightShift dims) g ∧ ∀ a, InRange dims a → lineOf dims a ∈ S → g (rightShift a) = f a)

omit [Field K] [LinearOrder K] [IsStrictOrderedRing K] [FloorRing K] [AddCommGroup V] [Module K V] in
theorem copyLine_spec {n off step noff nstep : ℕ} {old0 old new : List V} {x y : ℕ → V}
    (ho : LineHolds old0 off step n old x) (hn : LineHolds new noff nstep n new y) (hstep : 0 < nstep) :
    Ok (copyLine n off step noff nstep old new) fun new' => LineHolds new noff nstep n new' x := by
  unfold copyLine
  refine Spec.imp (Spec.loop (P := fun k new' => LineHolds new noff nstep n new' fun i => if i < k then x i else y i)
    (Nat.zero_le _) (hn.congr fun i _ => by simp) ?_) fun new' h => h.congr fun i hi => by rw [if_pos hi]
  intro k new' _ hk h
  rw [ho.read hk, ok_bind]
  obtain ⟨buf', e, h'⟩ := h.write hstep hk (x k)
  rw [e]
  refine Spec.ok (h'.congr fun i hi => ?_)
  by_cases hik : i = k
  · subst hik; rw [Function.update_self, if_pos (Nat.lt_succ_self _)]
  · rw [Function.update_of_ne hik]
    by_cases h : i < k
    · rw [if_pos h, if_pos (by omega)]
    · rw [if_neg h, if_neg (by omega)]

omit [IsStrictOrderedRing K] [FloorRing K] in
theorem solveLine_spec (c : Cfg) {s : Solver K} {dims : Fin (D + 1) → ℕ} {A : ℕ → ℕ → K} {f0 : (Fin (D + 1) → ℕ) → V} {S : Set ℕ}
    {st : Mesh (D + 1) V × Mesh (D + 1) V} (hpos : ∀ d, 0 < dims d) (hs : s.Solves V c (dims (Fin.last D)) A) (h : Swept dims A f0 S st)
    (h2 : D = 0 → st.2.dims 0 ≠ 0)
    {j : ℕ} (hj : j < ∏ i : Fin D, dims i.castSucc) (hjS : j ∉ S) :
    Spec (solveLine c s j st) (fun st' => Swept dims A f0 (insert j S) st' ∧ (D = 0 → st'.2 = st.2)) (PivotErr (dims (Fin.last D)) A) := by
  obtain ⟨-, f, h1, hf1, hf2, hf3⟩ := h
  set l := Fin.last D with hl
  set n := dims l with hn
  set a := decode dims (j * n) with ha
  have har : InRange dims a := decode_inRange hpos
  have hal : a l = 0 := decode_line hpos j
  have hup : Function.update a l 0 = a := by rw [← hal, Function.update_eq_self]
  have hline : lineOf dims a = j := lineOf_decode hpos hj
  unfold solveLine
  simp only [h1.1]
  rw [dimwiseIndices_ok (dims := dims) hpos, ok_bind]
  have e1 : st.1.lineBegin c l a = .ok (indexing dims a, stride dims l) := by
    rw [Mesh.lineBegin_ok c st.1 l (by rw [h1.1, hup]; exact har), h1.1, hup]
  rw [e1, ok_bind]
  have hlh := h1.line har l
  rw [hup] at hlh
  have hsolve := hs st.1.storage _ _ _ (stride_pos hpos l) hlh
  by_cases hD : D = 0
  · have e2 : st.2.lineBegin c 0 (rightShift a) = .ok (indexing st.2.dims (Function.update (rightShift a) 0 0), stride st.2.dims 0) := by
      apply Mesh.lineBegin_ok
      intro d
      have hd0 : d = 0 := Fin.ext (by have := d.isLt; simp; omega)
      subst hd0
      rw [Function.update_self]
      exact Nat.pos_of_ne_zero (h2 hD)
    rw [e2, ok_bind]
    refine Spec.bind hsolve ?_
    rintro buf ⟨hreg, x, hx, hsol⟩
    rw [if_pos hD]
    refine Spec.pure ⟨⟨fun _ => hreg, ?_⟩, fun _ => rfl⟩
    have hx' : LineHolds st.1.storage (indexing dims (Function.update a l 0)) (stride dims l) (dims l) buf x := by rw [hup]; exact hx
    have hset := h1.setLine har l hx'
    rw [hup] at hset
    refine ⟨_, hset, ?_, ?_, fun h => absurd hD h⟩
    · intro b hb hbS
      rw [if_neg, hf1 b hb (fun h => hbS (Set.mem_insert_of_mem _ h))]
      intro hc
      exact hbS (by rw [(line_eq_iff hpos hb hj).1 hc]; exact Set.mem_insert _ _)
    · intro b hb hbS i hi
      simp only [← hl, Function.update_idem, Function.update_self]
      by_cases hbj : lineOf dims b = j
      · have he := (line_eq_iff hpos hb hj).2 hbj
        have hfb : f (Function.update a l i) = f0 (Function.update b l i) := by
          rw [← hf1 _ (hb.update hi) (by rw [lineOf_update, hbj]; exact hjS)]
          have he' : Function.update b l 0 = a := he
          rw [← he', Function.update_idem]
        rw [sum_congr rfl fun j' hj' => by rw [if_pos he]]
        rw [hsol i hi]
        exact hfb
      · have he : ¬ Function.update b l 0 = a := fun hc => hbj ((line_eq_iff hpos hb hj).1 hc)
        rw [sum_congr rfl fun j' hj' => by rw [if_neg he]]
        exact hf2 b hb (by rcases hbS with h | h; exact absurd h hbj; exact h) i hi
  · obtain ⟨g, g1, g2⟩ := hf3 hD
    have hra : InRange (rightShift dims) (rightShift a) := rightShift_inRange.2 har
    have hrup : Function.update (rightShift a) 0 0 = rightShift a := by rw [← rightShift_update, hup]
    have e2 : st.2.lineBegin c 0 (rightShift a) = .ok (indexing (rightShift dims) (rightShift a), stride (rightShift dims) 0) := by
      rw [Mesh.lineBegin_ok c st.2 0 (by rw [g1.1, hrup]; exact hra), g1.1, hrup]
    rw [e2, ok_bind]
    refine Spec.bind hsolve ?_
    rintro buf ⟨hreg, x, hx, hsol⟩
    rw [if_neg hD]
    have hlg := g1.line hra 0
    rw [hrup] at hlg
    have hn0 : rightShift dims 0 = n := by rw [rightShift_eq, Function.comp_apply, rotIx_zero]
    rw [hn0] at hlg
    refine Spec.bind (Ok.toSpec (copyLine_spec hx hlg (stride_pos (rightShift_pos hpos 1) 0))) fun nbuf hnb => ?_
    rw [g1.1]
    refine Spec.pure ⟨⟨fun _ => hreg, ?_⟩, fun h => absurd h hD⟩
    have hx' : LineHolds st.1.storage (indexing dims (Function.update a l 0)) (stride dims l) (dims l) buf x := by rw [hup]; exact hx
    have hset := h1.setLine har l hx'
    rw [hup] at hset
    have hnb' : LineHolds st.2.storage (indexing (rightShift dims) (Function.update (rightShift a) 0 0)) (stride (rightShift dims) 0)
        (rightShift dims 0) nbuf x := by rw [hrup, hn0]; exact hnb
    have hnset := g1.setLine hra 0 hnb'
    rw [hrup] at hnset
    refine ⟨_, hset, ?_, ?_, fun _ => ⟨_, hnset, ?_⟩⟩
    · intro b hb hbS
      rw [if_neg, hf1 b hb (fun h => hbS (Set.mem_insert_of_mem _ h))]
      intro hc
      exact hbS (by rw [(line_eq_iff hpos hb hj).1 hc]; exact Set.mem_insert _ _)
    · intro b hb hbS i hi
      simp only [← hl, Function.update_idem, Function.update_self]
      by_cases hbj : lineOf dims b = j
      · have he := (line_eq_iff hpos hb hj).2 hbj
        have hfb : f (Function.update a l i) = f0 (Function.update b l i) := by
          rw [← hf1 _ (hb.update hi) (by rw [lineOf_update, hbj]; exact hjS)]
          have he' : Function.update b l 0 = a := he
          rw [← he', Function.update_idem]
        rw [sum_congr rfl fun j' hj' => by rw [if_pos he]]
        rw [hsol i hi]
        exact hfb
      · have he : ¬ Function.update b l 0 = a := fun hc => hbj ((line_eq_iff hpos hb hj).1 hc)
        rw [sum_congr rfl fun j' hj' => by rw [if_neg he]]
        exact hf2 b hb (by rcases hbS with h | h; exact absurd h hbj; exact h) i hi
    · intro b hb hbS
      rw [← rightShift_update]
      have hz : rightShift b 0 = b l := by rw [rightShift_eq, Function.comp_apply, rotIx_zero]
      by_cases hbj : lineOf dims b = j
      · have he : Function.update b l 0 = a := (line_eq_iff hpos hb hj).2 hbj
        rw [if_pos (by rw [he]), if_pos he, hz]
      · have he : ¬ Function.update b l 0 = a := fun hc => hbj ((line_eq_iff hpos hb hj).1 hc)
        rw [if_neg he, if_neg (fun hc => he (rightShift_injective hc))]
        exact g2 b hb (by rcases hbS with h | h; exact absurd h hbj; exact h)

/-! ## one axis -/

omit [IsStrictOrderedRing K] [FloorRing K] in
theorem solveDim_spec (c : Cfg) {s : Solver K} {dims : Fin (D + 1) → ℕ} {A : ℕ → ℕ → K} {f0 : (Fin (D + 1) → ℕ) → V}
    {st : Mesh (D + 1) V × Mesh (D + 1) V} (hpos : ∀ d, 0 < dims d) (hs : s.Solves V c (dims (Fin.last D)) A)
    (h : st.1.Holds dims f0) (h2 : D = 0 → st.2.dims 0 ≠ 0) :
    Spec (solveDim c s st) (fun st' => Regular (dims (Fin.last D)) A ∧ (D = 0 → st'.2 = st.2) ∧
      ∃ g, (if D = 0 then st'.1 else st'.2).Holds (rightShift dims) g ∧ ∀ a, InRange dims a → ∀ i < dims (Fin.last D),
        ∑ j ∈ range (dims (Fin.last D)), A i j • g (rightShift (Function.update a (Fin.last D) j)) =
          f0 (Function.update a (Fin.last D) i)) (PivotErr (dims (Fin.last D)) A) := by
  unfold solveDim
  have hsize : st.1.size = (∏ i : Fin D, dims i.castSucc) * dims (Fin.last D) := by
    have := h.2.1
    unfold Mesh.WF at this
    rw [h.1, Fin.prod_univ_castSucc] at this
    exact this
  rw [h.1, divN_ok (hpos _).ne', ok_bind, hsize, Nat.mul_div_cancel _ (hpos _)]
  set N := ∏ i : Fin D, dims i.castSucc with hN
  have hNpos : 0 < N := Finset.prod_pos fun i _ => hpos _
  set new := if D = 0 then st.2 else st.2.resize (rightShift dims) 0 with hnew
  unfold solveBlock
  refine Spec.imp (Spec.loop (P := fun j st' => Swept dims A f0 {j' | j' < j} st' ∧ (D = 0 → st'.2 = st.2))
    (lo := 0) (hi := N) (Nat.zero_le _) ?_ ?_) ?_
  · refine ⟨⟨fun ⟨j, hj⟩ => absurd hj (by simp), f0, h, fun _ _ _ => rfl, fun a _ ha => absurd ha (by simp), fun hD => ?_⟩, fun hD => ?_⟩
    · have hw : new.WF := by
        rw [hnew, if_neg hD]
        simp [Mesh.WF, Mesh.resize, dimsSize_eq]
        omega
      have hd : new.dims = rightShift dims := by rw [hnew, if_neg hD]; rfl
      have : Inhabited V := ⟨0⟩
      have hh := hw.holds
      rw [hd] at hh
      exact ⟨_, hh, fun a _ ha => absurd ha (by simp)⟩
    · simp only [hnew, if_pos hD]
  · rintro j st' _ hj ⟨hsw, h0⟩
    refine Spec.imp (solveLine_spec c hpos hs hsw (fun hD => by rw [h0 hD]; exact h2 hD) hj (by simp)) ?_
    rintro st'' ⟨h3, h4⟩
    refine ⟨?_, fun hD => (h4 hD).trans (h0 hD)⟩
    convert h3 using 1
    ext j'
    simp only [Set.mem_setOf_eq, Set.mem_insert_iff]
    omega
  · rintro st' ⟨⟨hreg, f, h1, -, hf2, hf3⟩, h0⟩
    refine ⟨hreg ⟨0, hNpos⟩, h0, ?_⟩
    have hmem : ∀ a, InRange dims a → lineOf dims a ∈ {j' | j' < N} := fun a ha => lineOf_lt ha
    by_cases hD : D = 0
    · have hid : ∀ a : Fin (D + 1) → ℕ, rightShift a = a := by
        subst hD
        intro a
        have := rightShift_iter_full (D := 0) a
        simpa using this
      simp only [if_pos hD, hid]
      exact ⟨f, h1, fun a ha => hf2 a ha (hmem a ha)⟩
    · obtain ⟨g, g1, g2⟩ := hf3 hD
      simp only [if_neg hD]
      refine ⟨g, g1, fun a ha i hi => ?_⟩
      rw [← hf2 a ha (hmem a ha) i hi]
      refine sum_congr rfl fun j hj => ?_
      rw [g2 _ (ha.update (mem_range.1 hj)) (hmem _ (ha.update (mem_range.1 hj)))]

/-! ## all axes -/

open BSpline in
omit [LinearOrder K] [IsStrictOrderedRing K] [FloorRing K] in
/-- One more axis solved. -/
theorem tensor_step {dims : Fin D → ℕ} (e : Fin D) {w w' : Fin D → ℕ → K} {A : ℕ → K} {r : ℕ} {F F' : (Fin D → ℕ) → V}
    (hr : r < dims e) (hw : ∀ d, d ≠ e → w' d = w d) (hwe : ∀ J, w e J = if J = r then 1 else 0) (hwe' : w' e = A)
    (h : ∀ a, InRange dims a → ∑ j ∈ range (dims e), A j • F' (Function.update a e j) = F (Function.update a e r)) :
    tensorVal dims w' F' = tensorVal dims w F := by
  unfold tensorVal
  have key := tensor_line (dims := dims) e A (w e) (fun a => ∏ d ∈ univ.erase e, w d (a d)) ?_ F F' ?_
  · have e1 : ∀ a : Fin D → ℕ, ∏ d, w' d (a d) = A (a e) * ∏ d ∈ univ.erase e, w d (a d) := by
      intro a
      rw [← Finset.mul_prod_erase _ _ (mem_univ e), hwe']
      congr 1
      refine prod_congr rfl fun d hd => ?_
      rw [hw d (Finset.ne_of_mem_erase hd)]
    have e2 : ∀ a : Fin D → ℕ, ∏ d, w d (a d) = w e (a e) * ∏ d ∈ univ.erase e, w d (a d) := by
      intro a
      rw [← Finset.mul_prod_erase _ _ (mem_univ e)]
    simp only [e1, e2]
    exact key
  · intro a j
    refine prod_congr rfl fun d hd => ?_
    rw [Function.update_of_ne (Finset.ne_of_mem_erase hd)]
  · intro a ha
    rw [h a ha, Finset.sum_eq_single r]
    · rw [hwe, if_pos rfl, one_smul]
    · intro j _ hj
      rw [hwe, if_neg hj, zero_smul]
    · intro hc; exact absurd (mem_range.2 hr) hc

open BSpline in
omit [LinearOrder K] [IsStrictOrderedRing K] [FloorRing K] in
theorem tensor_delta {dims : Fin D → ℕ} {r : Fin D → ℕ} (hr : InRange dims r) (F : (Fin D → ℕ) → V) :
    tensorVal dims (fun d J => if J = r d then (1 : K) else 0) F = F r := by
  unfold tensorVal
  rw [Finset.sum_eq_single r]
  · simp
  · intro a _ ha
    obtain ⟨d, hd⟩ := Function.ne_iff.1 ha
    rw [Finset.prod_eq_zero (mem_univ d) (if_neg hd), zero_smul]
  · intro hc; exact absurd (mem_box.2 hr) hc

end Template

/-- Loop over all dimensions. -/
theorem Spec.foldFin {σ : Type} {E : Err → Prop} {n : ℕ} {f : σ → Fin n → M σ} {P : ℕ → σ → Prop} {s : σ} (h0 : P 0 s)
    (hs : ∀ (d : Fin n) s, P d s → Spec (f s d) (P (d + 1)) E) : Spec ((List.finRange n).foldlM f s) (P n) E := by
  have := Spec.foldlM (f := f) (E := E) (P := fun l s => l.length ≤ n ∧ l = (List.finRange n).drop (n - l.length) ∧ P (n - l.length) s)
    (List.finRange n) s ⟨by simp, by simp, by simpa using h0⟩ ?_
  · exact this.imp fun s h => by simpa using h.2.2
  rintro d l s ⟨h1, h2, h3⟩
  simp only [List.length_cons] at h1 h2 h3
  have hlt : n - (l.length + 1) < n := by omega
  rw [List.drop_eq_getElem_cons (by simpa using hlt)] at h2
  obtain ⟨hd, hl⟩ := List.cons_eq_cons.1 h2
  have hdv : d.val = n - (l.length + 1) := by rw [hd]; simp
  have := hs d s (by rw [hdv]; exact h3)
  refine this.imp fun s' h' => ⟨by omega, ?_, ?_⟩
  · rw [show n - l.length = n - (l.length + 1) + 1 by omega]; exact hl
  · rw [hdv] at h'
    rw [show n - l.length = n - (l.length + 1) + 1 by omega]; exact h'

namespace Template

open BSpline in
omit [IsStrictOrderedRing K] [FloorRing K] in
/-- Solving along all axes: the tensor product of the matrices maps the result to the right-hand side. -/
theorem solveDims_spec (c : Cfg) {solvers : Fin (D + 1) → Solver K} {dims : Fin (D + 1) → ℕ} {A : Fin (D + 1) → ℕ → ℕ → K}
    {W : (Fin (D + 1) → ℕ) → V} {st : Mesh (D + 1) V × Mesh (D + 1) V} (hpos : ∀ d, 0 < dims d)
    (hs : ∀ d, (solvers d).Solves V c (dims d) (A d)) (h : st.1.Holds dims W) (h2 : D = 0 → st.2.dims 0 ≠ 0) :
    Spec (solveDims c solvers st) (fun st' => (∀ d, Regular (dims d) (A d)) ∧
      ∃ C, (if (D + 1) % 2 = 0 ∨ D = 0 then st'.1 else st'.2).Holds dims C ∧
        ∀ r, InRange dims r → tensorVal dims (fun d => A d (r d)) C = W r) (fun e => ∃ d, PivotErr (dims d) (A d) e) := by
  unfold solveDims
  refine Spec.imp (Spec.foldFin (P := fun k st' => (∀ d : Fin (D + 1), d.rev.val < k → Regular (dims d) (A d)) ∧
    (D = 0 → st'.2 = st.2) ∧
    ∃ G, (if k % 2 = 0 ∨ D = 0 then st'.1 else st'.2).Holds (rightShift^[k] dims) G ∧
      ∀ r, InRange dims r → tensorVal dims (fun d J => if d.rev.val < k then A d (r d) J else if J = r d then 1 else 0)
        (fun a => G (rightShift^[k] a)) = W r) ?_ ?_) ?_
  · refine ⟨fun d hd => absurd hd (by omega), fun _ => rfl, W, by simpa using h, fun r hr => ?_⟩
    simp only [Nat.not_lt_zero, if_false, Function.iterate_zero, id]
    exact tensor_delta hr W
  · rintro d st' ⟨hreg, h0, G, hG, hT⟩
    have hd : d.val ≤ D := by have := d.isLt; omega
    have hlast : (rightShift^[d.val] dims) (Fin.last D) = dims d.rev := by
      rw [rightShift_iter, Function.comp_apply, rotIx_iter_last d.val hd]
    have hs' : (solvers d.rev).Solves V c ((rightShift^[d.val] dims) (Fin.last D)) (A d.rev) := by rw [hlast]; exact hs d.rev
    have hmix : ∀ st1 : Mesh (D + 1) V, ∀ g, Regular ((rightShift^[d.val] dims) (Fin.last D)) (A d.rev) →
        st1.Holds (rightShift (rightShift^[d.val] dims)) g →
        (∀ a, InRange (rightShift^[d.val] dims) a → ∀ i < (rightShift^[d.val] dims) (Fin.last D),
          ∑ j ∈ range ((rightShift^[d.val] dims) (Fin.last D)), A d.rev i j • g (rightShift (Function.update a (Fin.last D) j)) =
          G (Function.update a (Fin.last D) i)) →
        (∀ d' : Fin (D + 1), d'.rev.val < d.val + 1 → Regular (dims d') (A d')) ∧
        ∃ G, st1.Holds (rightShift^[d.val + 1] dims) G ∧
          ∀ r, InRange dims r → tensorVal dims (fun d' J => if d'.rev.val < d.val + 1 then A d' (r d') J else if J = r d' then 1 else 0)
            (fun a => G (rightShift^[d.val + 1] a)) = W r := by
      intro st1 g hr hh hsol
      refine ⟨fun d' hd' => ?_, g, ?_, fun r hr => ?_⟩
      · by_cases he : d'.rev.val < d.val
        · exact hreg d' he
        · have : d' = d.rev := by
            rw [← Fin.rev_rev d']; congr 1; exact Fin.ext (by omega)
          rw [this, ← hlast]; exact hr
      · rw [Function.iterate_succ', Function.comp_apply]; exact hh
      · rw [← hT r hr]
        refine tensor_step d.rev (r := r d.rev) (A := A d.rev (r d.rev)) (hr _) ?_ ?_ ?_ ?_
        · intro d' hd'
          have : d'.rev.val ≠ d.val := by
            intro hc
            apply hd'
            rw [← Fin.rev_rev d']; congr 1; exact Fin.ext hc
          funext J
          by_cases he : d'.rev.val < d.val
          · simp only [if_pos he, if_pos (show d'.rev.val < d.val + 1 by omega)]
          · simp only [if_neg he, if_neg (show ¬ d'.rev.val < d.val + 1 by omega)]
        · intro J
          rw [Fin.rev_rev, if_neg (lt_irrefl _)]
        · funext J
          rw [Fin.rev_rev, if_pos (Nat.lt_succ_self _)]
        · intro a ha
          have ha' : InRange (rightShift^[d.val] dims) (rightShift^[d.val] a) := by
            rw [rightShift_iter, rightShift_iter]; intro e; exact ha _
          have := hsol _ ha' (r d.rev) (by rw [hlast]; exact hr _)
          rw [hlast] at this
          have e : ∀ j, rightShift^[d.val + 1] (Function.update a d.rev j) =
              rightShift (Function.update (rightShift^[d.val] a) (Fin.last D) j) := by
            intro j
            rw [Function.iterate_succ', Function.comp_apply]
            congr 1
            exact rightShift_iter_update d.val hd a j
          simp only [e]
          rw [this]
          congr 1
          exact (rightShift_iter_update d.val hd a (r d.rev)).symm
    by_cases hpar : d.val % 2 = 0
    · rw [if_pos hpar]
      rw [if_pos (Or.inl hpar)] at hG
      refine Spec.mono (solveDim_spec c (rightShift_pos hpos _) hs' hG (fun hD => by rw [h0 hD]; exact h2 hD)) ?_ ?_
      · rintro st'' ⟨r1, r2, g, r3, r4⟩
        obtain ⟨m1, G', m2, m3⟩ := hmix _ g r1 r3 r4
        refine ⟨m1, fun hD => (r2 hD).trans (h0 hD), G', ?_, m3⟩
        by_cases hD : D = 0
        · rw [if_pos (Or.inr hD)]; rwa [if_pos hD] at m2
        · rw [if_neg (by omega)]; rwa [if_neg hD] at m2
      · rintro e he; rw [hlast] at he; exact ⟨_, he⟩
    · rw [if_neg hpar]
      have hD : D ≠ 0 := by rintro rfl; have := d.isLt; omega
      rw [if_neg (by omega)] at hG
      refine Spec.bind (Q := fun r => (∀ d' : Fin (D + 1), d'.rev.val < d.val + 1 → Regular (dims d') (A d')) ∧
        ∃ G, r.2.Holds (rightShift^[d.val + 1] dims) G ∧
          ∀ r, InRange dims r → tensorVal dims (fun d' J => if d'.rev.val < d.val + 1 then A d' (r d') J else if J = r d' then 1 else 0)
            (fun a => G (rightShift^[d.val + 1] a)) = W r) ?_ ?_
      · refine Spec.mono (solveDim_spec c (rightShift_pos hpos _) hs' (st := (st'.2, st'.1)) hG (fun h => absurd h hD)) ?_ ?_
        · rintro st'' ⟨r1, r2, g, r3, r4⟩
          rw [if_neg hD] at r3
          exact hmix _ g r1 r3 r4
        · rintro e he; rw [hlast] at he; exact ⟨_, he⟩
      · rintro st'' ⟨m1, G', m2, m3⟩
        refine Spec.pure ⟨m1, fun h => absurd h hD, G', ?_, m3⟩
        rw [if_pos (by omega)]
        exact m2
  · rintro st' ⟨hreg, -, G, hG, hT⟩
    refine ⟨fun d => hreg d d.rev.isLt, G, ?_, fun r hr => ?_⟩
    · rw [rightShift_iter_full] at hG; exact hG
    · have := hT r hr
      have e : (fun (d : Fin (D + 1)) J => if d.rev.val < D + 1 then A d (r d) J else if J = r d then 1 else 0) =
          fun d => A d (r d) := by
        funext d J; rw [if_pos d.rev.isLt]
      rw [e] at this
      simp only [rightShift_iter_full] at this
      exact this

end Template

end Intp
