import Verif.Proofs.BandLULemmas
import Mathlib.LinearAlgebra.Matrix.Notation

/-!
# Properties of band matrices and the LU solver (C06-C13)

A matrix is given to the code by a history of element writes into a freshly constructed (zero) matrix; its mathematical value is the
`Matrix` of last written values.
-/

namespace Intp

open Finset

variable {K V : Type}

/-- One write `mat(i, j) = v`. -/
structure Entry (K : Type) where
  i : ℕ
  j : ℕ
  v : K

/-- Specification: value of entry `(i, j)` after the writes `hist` to a zero matrix. -/
def entryAfter [Zero K] (hist : List (Entry K)) (i j : ℕ) : K :=
  ((hist.reverse.find? (fun w => decide (w.i = i ∧ w.j = j))).map (·.v)).getD 0

/-- The `n × n` matrix denoted by a history of writes. -/
def matrixOf [Zero K] (n : ℕ) (hist : List (Entry K)) : Matrix (Fin n) (Fin n) K :=
  Matrix.of fun i j => entryAfter hist i j

/-- Construct a band matrix and perform the writes. -/
def buildBand [Zero K] (c : Cfg) (n p q : ℕ) (hist : List (Entry K)) : M (BandMatrix K) :=
  hist.foldlM (fun m w => m.set c w.i w.j w.v) (BandMatrix.mk' n p q)

/-- Construct an extended band matrix and perform the writes. -/
def buildExt [Zero K] (c : Cfg) (n p q : ℕ) (hist : List (Entry K)) : M (ExtBandMatrix K) := do
  let m ← ExtBandMatrix.mk' n p q
  hist.foldlM (fun m w => m.set c w.i w.j w.v) m

theorem entryAfter_nil [Zero K] (i j : ℕ) : entryAfter ([] : List (Entry K)) i j = 0 := rfl

theorem entryAfter_append [Zero K] (l : List (Entry K)) (w : Entry K) :
    entryAfter (l ++ [w]) = upd2 (entryAfter l) w.i w.j w.v := by
  funext i j
  unfold entryAfter upd2
  rw [List.reverse_append, List.reverse_singleton, List.singleton_append, List.find?_cons]
  by_cases h : i = w.i ∧ j = w.j
  · obtain ⟨rfl, rfl⟩ := h; simp
  · rw [if_neg h]
    have : decide (w.i = i ∧ w.j = j) = false := by simp only [decide_eq_false_iff_not]; tauto
    rw [this]

theorem entryAfter_off [Zero K] {hist : List (Entry K)} {P : ℕ → ℕ → Prop} (h : ∀ w ∈ hist, P w.i w.j) {i j : ℕ}
    (hij : ¬ P i j) : entryAfter hist i j = 0 := by
  unfold entryAfter
  rw [List.find?_eq_none.2]
  · rfl
  · intro w hw
    simp only [decide_eq_true_eq]
    rintro ⟨rfl, rfl⟩
    exact hij (h w (by simpa using hw))

theorem buildBand_rep [Zero K] (c : Cfg) {n p q : ℕ} (hist : List (Entry K))
    (hh : ∀ w ∈ hist, w.i < n ∧ w.j < n ∧ InBand p q w.i w.j) :
    ∃ m, buildBand c n p q hist = .ok m ∧ m.Rep n p q (entryAfter hist) := by
  induction hist using List.reverseRecOn with
  | nil => exact ⟨_, rfl, BandMatrix.rep_mk' n p q⟩
  | append_singleton l w ih =>
    obtain ⟨m, h1, h2⟩ := ih (fun w' hw' => hh w' (by simp [hw']))
    obtain ⟨hi, hj, hb⟩ := hh w (by simp)
    obtain ⟨m', h3, h4⟩ := h2.set c hi hj hb w.v
    refine ⟨m', ?_, by rw [entryAfter_append]; exact h4⟩
    unfold buildBand at *
    rw [List.foldlM_append, h1, ok_bind, List.foldlM_cons, h3]; rfl

theorem buildExt_rep [Zero K] (c : Cfg) {n p q : ℕ} (hp : p < n) (hq : q < n) (hist : List (Entry K))
    (hh : ∀ w ∈ hist, w.i < n ∧ w.j < n ∧ InPat n p q w.i w.j) :
    ∃ m, buildExt c n p q hist = .ok m ∧ m.Rep n p q (entryAfter hist) := by
  obtain ⟨m0, h01, h02⟩ := ExtBandMatrix.mk'_rep (K := K) hp hq
  unfold buildExt
  rw [h01, ok_bind]
  induction hist using List.reverseRecOn with
  | nil => exact ⟨_, rfl, h02⟩
  | append_singleton l w ih =>
    obtain ⟨m, h1, h2⟩ := ih (fun w' hw' => hh w' (by simp [hw']))
    obtain ⟨hi, hj, hb⟩ := hh w (by simp)
    obtain ⟨m', h3, h4⟩ := h2.set c hi hj hb w.v
    refine ⟨m', ?_, by rw [entryAfter_append]; exact h4⟩
    rw [List.foldlM_append, h1, ok_bind, List.foldlM_cons, h3]; rfl

/-- **C06.** Band storage: after any history of in-band writes to a zero matrix every in-band entry reads as the last value written to
it, 0 if none. -/
theorem band_store [Zero K] (c : Cfg) (n p q : ℕ) (hist : List (Entry K))
    (hh : ∀ w ∈ hist, w.i < n ∧ w.j < n ∧ w.i ≤ w.j + p ∧ w.j ≤ w.i + q) :
    ∃ m, buildBand c n p q hist = .ok m ∧ m.n = n ∧ m.p = p ∧ m.q = q ∧
      ∀ i j, i < n → j < n → i ≤ j + p → j ≤ i + q → m.get c i j = .ok (entryAfter hist i j) := by
  obtain ⟨m, h1, h2⟩ := buildBand_rep c hist (n := n) (p := p) (q := q) hh
  exact ⟨m, h1, h2.1, h2.2.1, h2.2.2.1, fun i j hi hj a b => h2.get c hi hj ⟨a, b⟩⟩

example : ∃ m, buildBand ⟨true, false⟩ 3 1 1 [⟨0, 1, (5 : ℤ)⟩, ⟨2, 1, 7⟩, ⟨0, 1, 9⟩] = .ok m ∧
    m.get ⟨true, false⟩ 0 1 = .ok 9 ∧ m.get ⟨true, false⟩ 2 1 = .ok 7 ∧ m.get ⟨true, false⟩ 1 1 = .ok 0 :=
  ⟨_, rfl, rfl, rfl, rfl⟩

/-- **C07.** Extended band storage: the same for main and wrapped side bands, through `operator()`, `main_bands_val` and
`side_bands_val`. -/
theorem ext_band_store [Zero K] (c : Cfg) (n p q : ℕ) (hp : p < n) (hq : q < n) (hist : List (Entry K))
    (hh : ∀ w ∈ hist, w.i < n ∧ w.j < n ∧ ((w.i ≤ w.j + p ∧ w.j ≤ w.i + q) ∨ (w.i + q < w.j ∧ n ≤ w.j + p) ∨
      (w.j + p < w.i ∧ n ≤ w.i + q))) :
    ∃ m, buildExt c n p q hist = .ok m ∧ m.n = n ∧ m.p = p ∧ m.q = q ∧ ∀ i j, i < n → j < n →
      ((i ≤ j + p ∧ j ≤ i + q) → m.get c i j = .ok (entryAfter hist i j) ∧ m.mainGet c i j = .ok (entryAfter hist i j)) ∧
      ((i + q < j ∧ n ≤ j + p) ∨ (j + p < i ∧ n ≤ i + q) →
        m.get c i j = .ok (entryAfter hist i j) ∧ m.sideGet c i j = .ok (entryAfter hist i j)) := by
  obtain ⟨m, h1, h2⟩ := buildExt_rep c hp hq hist hh
  refine ⟨m, h1, h2.2.2.1, h2.2.2.2.1, h2.2.2.2.2.1, fun i j hi hj => ⟨fun h => ?_, fun h => ?_⟩⟩
  · exact ⟨h2.get c hi hj (.inl h), h2.mainGet c hi hj h⟩
  · exact ⟨h2.get c hi hj (.inr h), h2.sideGet c hi hj h⟩

example : ∃ m, buildExt ⟨true, false⟩ 4 1 1 [⟨0, 3, (5 : ℤ)⟩, ⟨3, 0, 7⟩, ⟨1, 1, 9⟩] = .ok m ∧
    m.get ⟨true, false⟩ 0 3 = .ok 5 ∧ m.get ⟨true, false⟩ 3 0 = .ok 7 ∧ m.get ⟨true, false⟩ 1 1 = .ok 9 :=
  ⟨_, rfl, rfl, rfl, rfl⟩

/-- The extended band matrix constructor wraps around for `dim ≤ lower` or `dim ≤ upper`. -/
theorem ext_band_ctor_iff [Zero K] (n p q : ℕ) :
    (∃ m : ExtBandMatrix K, ExtBandMatrix.mk' n p q = .ok m) ↔ p < n ∧ q < n := by
  constructor
  · rintro ⟨m, hm⟩
    unfold ExtBandMatrix.mk' subM at hm
    by_cases h1 : q + 1 ≤ n
    · by_cases h2 : p + 1 ≤ n
      · omega
      · rw [if_pos h1, ok_bind, if_neg h2] at hm; cases hm
    · rw [if_neg h1] at hm; cases hm
  · rintro ⟨h1, h2⟩
    obtain ⟨m, hm, _⟩ := ExtBandMatrix.mk'_rep (K := K) h1 h2
    exact ⟨m, hm⟩

/-! ## matrix-vector products -/

section mul
variable [Field K] [AddCommGroup V] [Module K V]

/-- Accumulation loop `for j in [lo,hi): xx[i] += a_j * x_j`. -/
private theorem accLoop {E : Err → Prop} {buf0 buf : List V} {n lo hi i : ℕ} {b : ℕ → V} {g : ℕ → M K} {xr : ℕ → M V}
    {C : ℕ → K} {X : ℕ → V} (h : LineHolds buf0 0 1 n buf b) (hi' : i < n) (hle : lo ≤ hi)
    (hg : ∀ j, lo ≤ j → j < hi → g j = .ok (C j)) (hx : ∀ j, lo ≤ j → j < hi → xr j = .ok (X j)) :
    Spec (Intp.loop lo hi buf fun j xx => do
      let y ← rd xx i
      let a ← g j
      let xv ← xr j
      wr xx i (y + a • xv))
      (fun buf' => LineHolds buf0 0 1 n buf' (Function.update b i (b i + ∑ j ∈ Ico lo hi, C j • X j))) E := by
  refine Spec.loop (P := fun j buf' => LineHolds buf0 0 1 n buf' (Function.update b i (b i + ∑ j ∈ Ico lo j, C j • X j))) hle ?_ ?_
  · simpa using h
  · intro j s hlo hhi hP
    have hr := hP.read hi'
    rw [zero_add, mul_one, Function.update_self] at hr
    rw [hr, ok_bind, hg j hlo hhi, ok_bind, hx j hlo hhi, ok_bind]
    obtain ⟨buf', h1, h2⟩ := hP.write one_pos hi' (b i + ∑ j ∈ Ico lo j, C j • X j + C j • X j)
    rw [zero_add, mul_one] at h1
    rw [h1]
    refine Spec.ok ?_
    rw [Function.update_idem] at h2
    rwa [Finset.sum_Ico_succ_top hlo, ← add_assoc]

private theorem lineHolds_zero (n : ℕ) : LineHolds (List.replicate n (0 : V)) 0 1 n (List.replicate n (0 : V)) (fun _ => 0) :=
  ⟨rfl, fun i hi => by simp [List.getElem?_replicate, hi], fun _ _ => rfl⟩

private theorem eq_ofFn_of_lineHolds {buf0 buf : List V} {n : ℕ} {b : ℕ → V} (hl : buf0.length = n)
    (h : LineHolds buf0 0 1 n buf b) : buf = List.ofFn (fun i : Fin n => b i) := by
  apply List.ext_getElem?
  intro t
  by_cases ht : t < n
  · have := h.2.1 t ht
    rw [zero_add, mul_one] at this
    rw [this]; simp [List.getElem?_ofFn, ht]
  · rw [List.getElem?_eq_none (by rw [h.1, hl]; omega), List.getElem?_eq_none (by simp; omega)]

private theorem rd_ofFn {n : ℕ} (x : Fin n → V) {j : ℕ} (hj : j < n) :
    rd (List.ofFn x) j = .ok ((fun t => if h : t < n then x ⟨t, h⟩ else 0) j) := by
  rw [rd_eq_ok_iff, List.getElem?_ofFn]; simp [hj]

private theorem ite_sub (a b : ℕ) : (if a > b then a - b else 0) = a - b := by split <;> omega

/-- **C08 is false of the code.** `BandMatrix::operator*` on `A = (1 1; 0 1)` (n = 2, p = 0, q = 1) and `x = (1, 2)` returns `(2, 2)`,
not `A x = (3, 2)`; on the tridiagonal `A = (1 1; 0 1)` (p = q = 1) it returns `Aᵀ x = (1, 3)`. -/
theorem band_mulVec_wrong :
    (∃ m : BandMatrix ℚ, buildBand ⟨true, false⟩ 2 0 1 [⟨0, 0, 1⟩, ⟨0, 1, 1⟩, ⟨1, 1, 1⟩] = .ok m ∧
      m.mulVec ⟨true, false⟩ [(1 : ℚ), 2] = .ok [2, 2]) ∧
    (∃ m : BandMatrix ℚ, buildBand ⟨true, false⟩ 2 1 1 [⟨0, 0, 1⟩, ⟨0, 1, 1⟩, ⟨1, 1, 1⟩] = .ok m ∧
      m.mulVec ⟨true, false⟩ [(1 : ℚ), 2] = .ok [1, 3]) ∧
    (matrixOf 2 [⟨0, 0, 1⟩, ⟨0, 1, 1⟩, ⟨1, 1, (1 : ℚ)⟩]).mulVec ![1, 2] = ![3, 2] := by
  refine ⟨⟨_, rfl, by decide +kernel⟩, ⟨_, rfl, by decide +kernel⟩, by decide +kernel⟩

/-- **C08**, what holds: for `p = q` the result is `Aᵀ x`, so it is `A x` exactly for inputs where the two agree, e.g. symmetric `A`.
Missing (false of the code): `A x` for arbitrary band matrices. -/
theorem band_mulVec_partial (c : Cfg) (n p : ℕ) (hist : List (Entry K))
    (hh : ∀ w ∈ hist, w.i < n ∧ w.j < n ∧ w.i ≤ w.j + p ∧ w.j ≤ w.i + p) (x : Fin n → V) :
    ∃ m, buildBand c n p p hist = .ok m ∧
      m.mulVec c (List.ofFn x) = .ok (List.ofFn fun i => ∑ j, (matrixOf n hist) j i • x j) ∧
      ((matrixOf n hist).IsSymm →
        m.mulVec c (List.ofFn x) = .ok (List.ofFn fun i => ∑ j, (matrixOf n hist) i j • x j)) := by
  obtain ⟨m, h1, h2⟩ := buildBand_rep c hist (n := n) (p := p) (q := p) hh
  have main : m.mulVec c (List.ofFn x) = .ok (List.ofFn fun i => ∑ j, (matrixOf n hist) j i • x j) := by
    set X : ℕ → V := fun t => if h : t < n then x ⟨t, h⟩ else 0
    set A := entryAfter hist
    have hoff : ∀ i j, ¬ InBand p p i j → A i j = 0 := fun i j h =>
      entryAfter_off (P := fun i j => InBand p p i j) (fun w hw => (hh w hw).2.2) h
    obtain ⟨e1, e2, e3, f, hf, hA⟩ := h2
    apply Ok.eq
    unfold BandMatrix.mulVec
    rw [e1, e2, e3, List.length_ofFn]
    simp only [ite_sub]
    refine Spec.imp (Spec.loop (P := fun i buf => LineHolds (List.replicate n 0) 0 1 n buf
      (fun i' => if i' < i then ∑ j ∈ range n, A j i' • X j else 0)) (Nat.zero_le _) ?_ ?_) ?_
    · simpa using lineHolds_zero (V := V) n
    · intro i buf _ hi hP
      rw [subM_ok (by omega), ok_bind]
      refine Spec.imp (accLoop (C := fun j => A (j + i - p) i) (X := fun j => X (j + i - p)) hP hi ?_ ?_ ?_) ?_
      · omega
      · intro j hlo hhi
        rw [hf.getSafe c (inRange2.2 ⟨hi, by omega⟩)]
        rw [← hA (j + i - p) i (by omega) hi (by unfold InBand; omega)]
        rw [show j + i - p + p - i = j by omega]
      · intro j hlo hhi
        rw [show j - (p - i) + (i - p) = j + i - p by omega]
        exact rd_ofFn x (by omega)
      · intro buf' hb'
        refine hb'.congr fun i' hi' => ?_
        by_cases hii : i' = i
        · subst hii
          rw [Function.update_self, if_neg (lt_irrefl _), zero_add, if_pos (Nat.lt_succ_self _)]
          have hsub : ∑ j ∈ Ico (i' - p) (min (i' + p + 1) n), A j i' • X j = ∑ j ∈ range n, A j i' • X j := by
            apply Finset.sum_subset
            · intro j; rw [mem_Ico, mem_range]; omega
            · intro j hj hj'
              rw [mem_range] at hj
              rw [mem_Ico] at hj'
              rw [hoff j i' (by unfold InBand; omega), zero_smul]
          rw [← hsub]
          refine Finset.sum_bij (fun j _ => j + i' - p) ?_ ?_ ?_ ?_
          · intro j hj
            rw [mem_Ico] at hj ⊢
            omega
          · intro a ha b hb hab
            rw [mem_Ico] at ha hb
            omega
          · intro k hk
            rw [mem_Ico] at hk
            exact ⟨k + p - i', by rw [mem_Ico]; omega, by omega⟩
          · intro j hj; rfl
        · rw [Function.update_of_ne hii]
          by_cases h : i' < i
          · rw [if_pos h, if_pos (by omega)]
          · rw [if_neg h, if_neg (by omega)]
    · intro buf hb
      rw [eq_ofFn_of_lineHolds (by simp) hb]
      congr 1
      funext i
      rw [if_pos i.isLt, ← Fin.sum_univ_eq_sum_range (fun j => A j i • X j) n]
      exact Finset.sum_congr rfl fun j _ => by simp [matrixOf, X, A]
  refine ⟨m, h1, main, fun hs => ?_⟩
  rw [main]
  have : ∀ i j, (matrixOf n hist) j i = (matrixOf n hist) i j := fun i j => hs.apply i j
  simp only [this]

example : ∀ w ∈ ([⟨0, 0, 2⟩, ⟨0, 1, 1⟩, ⟨1, 0, 1⟩, ⟨1, 1, 3⟩] : List (Entry ℚ)), w.i < 2 ∧ w.j < 2 ∧ w.i ≤ w.j + 1 ∧ w.j ≤ w.i + 1 := by
  decide

/-- **C09.** `ExtendedBandMatrix::operator*` is the matrix-vector product. -/
theorem ext_band_mulVec (c : Cfg) (n p q : ℕ) (hp : p < n) (hq : q < n) (hist : List (Entry K))
    (hh : ∀ w ∈ hist, w.i < n ∧ w.j < n ∧ ((w.i ≤ w.j + p ∧ w.j ≤ w.i + q) ∨ (w.i + q < w.j ∧ n ≤ w.j + p) ∨
      (w.j + p < w.i ∧ n ≤ w.i + q))) (x : Fin n → V) :
    ∃ m, buildExt c n p q hist = .ok m ∧
      m.mulVec c (List.ofFn x) = .ok (List.ofFn fun i => ∑ j, (matrixOf n hist) i j • x j) := by
  obtain ⟨m, h1, h2⟩ := buildExt_rep c hp hq hist hh
  refine ⟨m, h1, ?_⟩
  set X : ℕ → V := fun t => if h : t < n then x ⟨t, h⟩ else 0
  set A := entryAfter hist
  have hoff : ∀ i j, ¬ InPat n p q i j → A i j = 0 := fun i j h =>
    entryAfter_off (P := fun i j => InPat n p q i j) (fun w hw => (hh w hw).2.2) h
  have e1 := h2.2.2.1
  have e2 := h2.2.2.2.1
  have e3 := h2.2.2.2.2.1
  apply Ok.eq
  unfold ExtBandMatrix.mulVec
  rw [e1, e2, e3, List.length_ofFn]
  simp only [ite_sub]
  -- part of row i accumulated by the first loop nest
  set S : ℕ → V := fun i => ∑ j ∈ (range n).filter (fun j => ¬ (j + p < i ∧ n ≤ i + q)), A i j • X j with hS
  refine Spec.bind (Q := fun buf => LineHolds (List.replicate n 0) 0 1 n buf S) ?_ ?_
  · refine Spec.imp (Spec.loop (P := fun i buf => LineHolds (List.replicate n 0) 0 1 n buf
      (fun i' => if i' < i then S i' else 0)) (Nat.zero_le _) ?_ ?_) ?_
    · simpa using lineHolds_zero (V := V) n
    · intro i buf _ hi hP
      refine Spec.bind (accLoop (C := fun j => A i j) (X := X) hP hi ?_ ?_ ?_) ?_
      · omega
      · intro j hlo hhi
        exact h2.mainGet c hi (by omega) (by unfold InBand; omega)
      · intro j hlo hhi; exact rd_ofFn x (by omega)
      intro buf' hb'
      rw [subM_ok (show q + 1 ≤ n by omega), ok_bind]
      have hmain : ∀ i' < n, i' ≠ i → (if i' < i then S i' else 0) = (if i' < i + 1 then S i' else 0) := by
        intro i' _ hne
        by_cases h : i' < i
        · rw [if_pos h, if_pos (by omega)]
        · rw [if_neg h, if_neg (by omega)]
      refine Spec.ite ?_ ?_
      · intro hlt
        rw [subM_ok (show p ≤ n by omega), ok_bind]
        refine Spec.imp (accLoop (C := fun j => A i j) (X := X) hb' hi (by omega) ?_ ?_) ?_
        · intro j hlo hhi
          exact h2.sideGet c hi hhi (by unfold InSide; omega)
        · intro j hlo hhi; exact rd_ofFn x hhi
        · intro buf'' hb''
          refine hb''.congr fun i' hi' => ?_
          by_cases hii : i' = i
          · subst hii
            rw [Function.update_self, Function.update_self, if_neg (lt_irrefl _), zero_add, if_pos (Nat.lt_succ_self _)]
            rw [← Finset.sum_union]
            · simp only [hS]
              apply Finset.sum_subset
              · intro j hj
                rw [mem_union, mem_Ico, mem_Ico] at hj
                rw [mem_filter, mem_range]
                omega
              · intro j hj hj'
                rw [mem_filter, mem_range] at hj
                rw [mem_union, mem_Ico, mem_Ico] at hj'
                rw [hoff i' j, zero_smul]
                unfold InPat InBand InSide
                omega
            · rw [Finset.disjoint_left]
              intro j hj hj'
              rw [mem_Ico] at hj hj'
              omega
          · rw [Function.update_of_ne hii, Function.update_of_ne hii]
            exact hmain i' hi' hii
      · intro hlt
        refine Spec.pure (hb'.congr fun i' hi' => ?_)
        by_cases hii : i' = i
        · subst hii
          rw [Function.update_self, if_neg (lt_irrefl _), zero_add, if_pos (Nat.lt_succ_self _)]
          simp only [hS]
          apply Finset.sum_subset
          · intro j hj
            rw [mem_Ico] at hj
            rw [mem_filter, mem_range]
            omega
          · intro j hj hj'
            rw [mem_filter, mem_range] at hj
            rw [mem_Ico] at hj'
            rw [hoff i' j, zero_smul]
            unfold InPat InBand InSide
            omega
        · rw [Function.update_of_ne hii]
          exact hmain i' hi' hii
    · intro buf hb
      exact hb.congr fun i hi => by rw [if_pos hi]
  · intro buf hb
    rw [subM_ok (show p + 1 ≤ n by omega), ok_bind, subM_ok (show q ≤ n by omega), ok_bind]
    -- bottom side bands, column by column
    set B : ℕ → ℕ → V := fun j i => ∑ j' ∈ range j, if j' + p < i ∧ n ≤ i + q then A i j' • X j' else 0 with hB
    refine Spec.imp (Spec.loop (P := fun j buf => LineHolds (List.replicate n 0) 0 1 n buf (fun i => S i + B j i))
      (Nat.zero_le _) ?_ ?_) ?_
    · simpa [hB] using hb
    · intro j buf _ hj hP
      refine Spec.imp (Spec.loop' (P := fun i' buf => LineHolds (List.replicate n 0) 0 1 n buf
        (fun i => S i + B j i + if i < i' ∧ j + p < i ∧ n ≤ i + q then A i j • X j else 0)) ?_ ?_) ?_
      · exact hP.congr fun i hi => by rw [if_neg (by omega), add_zero]
      · intro i s hlo hhi hQ
        have hr := hQ.read hhi
        rw [zero_add, mul_one] at hr
        rw [hr, ok_bind, h2.sideGet c hhi (by omega) (by unfold InSide; omega), ok_bind, rd_ofFn x (show j < n by omega),
          ok_bind]
        obtain ⟨buf', hw1, hw2⟩ := hQ.write one_pos hhi (S i + B j i + (if i < i ∧ j + p < i ∧ n ≤ i + q then A i j • X j else 0) + A i j • X j)
        rw [zero_add, mul_one] at hw1
        rw [hw1]
        refine Spec.ok (hw2.congr fun i' hi' => ?_)
        by_cases hii : i' = i
        · subst hii
          rw [Function.update_self, if_neg (by omega), add_zero, if_pos (by omega)]
        · rw [Function.update_of_ne hii]
          congr 1
          by_cases hc : i' < i ∧ j + p < i' ∧ n ≤ i' + q
          · rw [if_pos hc, if_pos (by omega)]
          · rw [if_neg hc, if_neg (by omega)]
      · intro s hs
        refine hs.congr fun i hi => ?_
        simp only [hB]
        rw [Finset.sum_range_succ, ← add_assoc]
        congr 1
        by_cases hc : j + p < i ∧ n ≤ i + q
        · rw [if_pos (by omega), if_pos hc]
        · rw [if_neg (by omega), if_neg hc]
    · intro buf hb
      rw [eq_ofFn_of_lineHolds (by simp) hb]
      congr 1
      funext i
      have hsum : S i + B (n - (p + 1)) i = ∑ j ∈ range n, A i j • X j := by
        rw [← Finset.sum_filter_not_add_sum_filter (range n) (fun j => j + p < i.val ∧ n ≤ i.val + q)]
        congr 1
        simp only [hB]
        rw [Finset.sum_filter]
        apply Finset.sum_subset
        · intro j; rw [mem_range, mem_range]; omega
        · intro j _ hj
          rw [mem_range] at hj
          rw [if_neg (by have := i.isLt; omega)]
      rw [hsum, ← Fin.sum_univ_eq_sum_range (fun j => A i j • X j) n]
      exact Finset.sum_congr rfl fun j _ => by simp [matrixOf, X, A]

end mul

example : ∃ m : ExtBandMatrix ℚ, buildExt ⟨true, false⟩ 4 1 1 [⟨0, 0, 1⟩, ⟨0, 3, 5⟩, ⟨3, 0, 7⟩, ⟨1, 2, 2⟩] = .ok m ∧
    m.mulVec ⟨true, false⟩ [(1 : ℚ), 2, 3, 4] = .ok [21, 6, 0, 7] := ⟨_, rfl, by decide +kernel⟩

end Intp
