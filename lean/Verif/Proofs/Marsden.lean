import Verif.Proofs.Affine

/-!
# Marsden's identity and reproduction of polynomials
-/

namespace Intp

open Finset BSpline Polynomial

variable {K V : Type} [Field K] [LinearOrder K]

/-- Marsden's identity on a segment. -/
theorem marsden {t : ℕ → K} {s : ℕ} (x : K) : ∀ k, k ≤ s → Nondeg t s k →
    ∑ i ∈ range (s + 1), piece t s k i x • (∏ r ∈ range k, ((X : K[X]) - C (t (i + 1 + r)))) = (X - C x) ^ k
  | 0, _, _ => by
    simp only [piece, range_zero, prod_empty, pow_zero]
    rw [← sum_smul, Finset.sum_ite_eq' (range (s + 1)) s]
    simp
  | k + 1, hk, hn => by
    rw [sum_piece_succ k hk x, pow_succ', ← marsden x k (by omega) (hn.mono (by omega)), mul_sum]
    refine sum_congr rfl fun i _ => ?_
    by_cases h0 : piece t s k i x = 0
    · simp [h0]
    · obtain ⟨h1, h2⟩ := piece_support h0
      have := hn i (i + k + 1) (by omega) (by omega) (by omega) (by omega)
      have h3 : t (i + k + 1) - t i ≠ 0 := sub_ne_zero.2 this.ne'
      rw [mul_smul_comm]
      congr 1
      have e1 : ∏ r ∈ range (k + 1), ((X : K[X]) - C (t (i + 1 + r))) = (X - C (t (i + k + 1))) * ∏ r ∈ range k, (X - C (t (i + 1 + r))) := by
        rw [prod_range_succ, mul_comm, show i + 1 + k = i + k + 1 by omega]
      have e2 : ∏ r ∈ range (k + 1), ((X : K[X]) - C (t (i - 1 + 1 + r))) = (X - C (t i)) * ∏ r ∈ range k, (X - C (t (i + 1 + r))) := by
        rw [prod_range_succ', mul_comm, show i - 1 + 1 + 0 = i by omega]
        congr 1
        refine prod_congr rfl fun r _ => ?_
        rw [show i + (r + 1) = i + 1 + r by omega]
      rw [e1, e2, smul_eq_C_mul, smul_eq_C_mul, ← mul_assoc, ← mul_assoc, ← add_mul]
      congr 1
      have e3 : (x - t i) / (t (i + k + 1) - t i) + (t (i + k + 1) - x) / (t (i + k + 1) - t i) = 1 := by
        rw [← add_div, show x - t i + (t (i + k + 1) - x) = t (i + k + 1) - t i by ring, div_self h3]
      have e4 : (x - t i) / (t (i + k + 1) - t i) * t (i + k + 1) + (t (i + k + 1) - x) / (t (i + k + 1) - t i) * t i = x := by
        field_simp; ring
      rw [mul_sub, mul_sub, ← C_mul, ← C_mul, sub_add_sub_comm, ← add_mul, ← C_add, ← C_add, e3, e4, C_1, one_mul]

/-- Coefficients of the monomial `x ^ e` in the B-spline basis of degree `p`. -/
noncomputable def monoCoef (t : ℕ → K) (p e i : ℕ) : K :=
  (∏ r ∈ range p, ((X : K[X]) - C (t (i + 1 + r)))).coeff (p - e) / ((-1) ^ e * (p.choose e : K))

theorem sum_monoCoef [CharZero K] [Infinite K] {t : ℕ → K} {s p : ℕ} (hp : p ≤ s) (hn : Nondeg t s p) {e : ℕ} (he : e ≤ p) :
    ∑ i ∈ range (s + 1), pieceP t s p i * C (monoCoef t p e i) = X ^ e := by
  refine Polynomial.funext fun x => ?_
  rw [eval_finsetSum, eval_pow, eval_X]
  have hc : ((-1 : K) ^ e * (p.choose e : K)) ≠ 0 := by
    refine mul_ne_zero (pow_ne_zero _ (by simp)) ?_
    exact_mod_cast (Nat.choose_pos he).ne'
  have h := congrArg (fun P : K[X] => P.coeff (p - e)) (marsden (t := t) x p hp hn)
  simp only [finset_sum_coeff, coeff_smul, smul_eq_mul] at h
  rw [sub_eq_add_neg, ← C_neg, coeff_X_add_C_pow, show p - (p - e) = e by omega, Nat.choose_symm he, neg_pow, mul_right_comm] at h
  unfold monoCoef
  simp only [eval_mul, eval_C, pieceP_eval]
  rw [← mul_right_inj' hc, ← h, mul_sum]
  refine sum_congr rfl fun i _ => ?_
  rw [mul_left_comm, mul_div_cancel₀ _ hc]

variable [IsStrictOrderedRing K] [FloorRing K]

theorem axisWt_sum (o : ℕ) (per : Bool) (n : ℕ) (t : List K) (m : ℕ) (y : K) (ξ : ℕ → K)
    (hn : ∀ w, segAt o t w < n ∨ per = true ∧ 0 < n) : ∃ w, (per = false → w = y) ∧
    ∑ J ∈ range n, axisWt o per n t m y J * ξ J =
      (derivative^[m] (∑ i ∈ range (segAt o t w + 1), pieceP (knotFn t) (segAt o t w) o i * C (ξ (if per then i % n else i)))).eval w := by
  refine ⟨if per then wrapFn (knotFn t o, knotFn t (t.length - o - (2 - o % 2))) y else y, fun h => by rw [h]; rfl, ?_⟩
  unfold axisWt
  simp only
  generalize (if per then wrapFn (knotFn t o, knotFn t (t.length - o - (2 - o % 2))) y else y) = w
  have hmap : ∀ i ∈ Finset.range (segAt o t w + 1), (if per then i % n else i) ∈ Finset.range n := by
    intro i hi
    have h1 := mem_range.1 hi
    rw [mem_range]
    cases hp : per with
    | true =>
      rw [if_pos rfl]
      rcases hn w with h | h
      · exact Nat.mod_lt _ (by omega)
      · exact Nat.mod_lt _ h.2
    | false =>
      rw [if_neg (by simp)]
      rcases hn w with h | h
      · omega
      · rw [hp] at h; simp at h
  rw [iterate_derivative_sum, eval_finsetSum, ← sum_fiberwise_of_maps_to hmap]
  refine sum_congr rfl fun J _ => ?_
  rw [sum_mul]
  refine sum_congr rfl fun i hi => ?_
  rw [(mem_filter.1 hi).2, mul_comm (pieceP _ _ _ _), iterate_derivative_C_mul, eval_mul, eval_C, mul_comm]

theorem XRange.Valid.seg_lt {o N : ℕ} {per : Bool} {x : XRange K} (h : x.Valid o N per) (w : K) :
    IsSeg (knotFn (x.knots o (unk per N) per)) o ((x.knots o (unk per N) per).length - o - 2) w (segAt o (x.knots o (unk per N) per) w) ∧
    Nondeg (knotFn (x.knots o (unk per N) per)) (segAt o (x.knots o (unk per N) per) w) o := by
  have hs := segAt_spec h.kmono h.knots_length_le w
  refine ⟨hs, ?_⟩
  obtain ⟨h1, h2, -, -⟩ := hs
  have hlen := h.knots_length
  have hl2 := h.knots_length_le
  refine nondeg_of_mono h.kmono ?_ h1 (by omega)
  cases per with
  | true => exact h.pAxis.inc _ (by omega) (by omega)
  | false =>
    rw [if_neg (by simp)] at hlen
    exact h.aAxis.inc _ h1 (by omega)

/-- Highest degree, plus one, of the polynomials that splines of a dimension reproduce. -/
def degBound (o : ℕ) (per : Bool) : ℕ := if per then 1 else o + 1

/-- Control points of a monomial. -/
noncomputable def XRange.monoCtrl (o N : ℕ) (per : Bool) (x : XRange K) (e J : ℕ) : K :=
  if per then 1 else monoCoef (knotFn (x.knots o (unk per N) per)) o e J

/-- Splines of a dimension reproduce monomials and their derivatives. -/
theorem XRange.Valid.sum_wt {o N : ℕ} {per : Bool} {x : XRange K} (h : x.Valid o N per) {e : ℕ} (he : e < degBound o per) (m : ℕ) (y : K) :
    ∑ J ∈ range (unk per N), x.wt o N per m y J * x.monoCtrl o N per e J = (derivative^[m] ((X : K[X]) ^ e)).eval y := by
  have hlen := h.knots_length
  have hpos := h.unk_pos
  obtain ⟨w, hw, hsum⟩ := axisWt_sum o per (unk per N) (x.knots o (unk per N) per) m y (x.monoCtrl o N per e) (fun w => by
    have := (h.seg_lt w).1.2.1
    cases per
    · left; rw [if_neg (by simp)] at hlen; omega
    · right; exact ⟨rfl, hpos⟩)
  simp only [XRange.wt_eq]
  rw [hsum]
  obtain ⟨hs, hnd⟩ := h.seg_lt w
  have hinf : Infinite K := inferInstance
  cases hp : per with
  | false =>
    subst hp
    rw [hw rfl] at hs hnd ⊢
    congr 2
    rw [← sum_monoCoef hs.1 hnd (e := e) (by unfold degBound at he; rw [if_neg (by simp)] at he; omega)]
    rfl
  | true =>
    subst hp
    obtain rfl : e = 0 := by unfold degBound at he; rw [if_pos rfl] at he; omega
    have h1 : ∑ i ∈ range (segAt o (x.knots o (unk true N) true) w + 1), pieceP (knotFn (x.knots o (unk true N) true))
        (segAt o (x.knots o (unk true N) true) w) o i * C (x.monoCtrl o N true 0 (if true = true then i % unk true N else i)) = 1 := by
      refine Polynomial.funext fun z => ?_
      rw [eval_finsetSum, eval_one, ← sum_piece_eq_one z o hs.1 hnd]
      refine sum_congr rfl fun i _ => ?_
      rw [show x.monoCtrl o N true 0 (if true = true then i % unk true N else i) = 1 from rfl, eval_mul, eval_C, mul_one, pieceP_eval]
    rw [h1, pow_zero]
    cases m with
    | zero => simp
    | succ m => rw [Function.iterate_succ_apply, derivative_one, iterate_derivative_zero, eval_zero, eval_zero]

omit [LinearOrder K] [IsStrictOrderedRing K] [FloorRing K] in
theorem tensorVal_comp [AddCommGroup V] [Module K V] {D : ℕ} (n E : Fin D → ℕ) (w : Fin D → ℕ → K) (ξ : Fin D → ℕ → ℕ → K)
    (cf : (Fin D → ℕ) → V) :
    tensorVal n w (fun J => tensorVal E (fun d e => ξ d e (J d)) cf) = tensorVal E (fun d e => ∑ J ∈ range (n d), w d J * ξ d e J) cf := by
  unfold tensorVal
  simp only [smul_sum, smul_smul, ← prod_mul_distrib]
  rw [sum_comm]
  refine sum_congr rfl fun e _ => ?_
  rw [← sum_smul]
  congr 1
  exact (prod_univ_sum (fun d => range (n d)) fun d J => w d J * ξ d (e d) J).symm

variable [AddCommGroup V] [Module K V] {D : ℕ}

/-- Rows of the linear system are weights at the data points. -/
theorem InterpFn.Done.mat_eq {c : Cfg} {o : ℕ} {per : Fin D → Bool} {dims : Fin D → ℕ} {x : Fin D → XRange K} {g : InterpFn D K V}
    {C : (Fin D → ℕ) → V} (h : g.Done c o per dims x C) (hv : ValidAxes c o per dims x) (d : Fin D) {i J : ℕ} (hi : i < nOf c per dims d)
    (hJ : J < nOf c per dims d) :
    (x d).mat o (pointNum c (per d) (dims d)) (per d) ((i + rowShift o (per d)) % nOf c per dims d) J =
      (x d).wt o (pointNum c (per d) (dims d)) (per d) 0 ((x d).node (pointNum c (per d) (dims d)) i) J := by
  have e := h.dims_eq d
  have := h.wAt_node hv d (i := i) (J := J) (by rw [e]; exact hi) (by rw [e]; exact hJ)
  rw [h.wAt_eq, e] at this
  exact this.symm

theorem XRange.Valid.mat_affine {o N : ℕ} {per : Bool} {x x' : XRange K} (h : x.Valid o N per) (h' : x'.Valid o N per) {α β : K} (hα : 0 < α)
    (hX : ∀ i, i < N → x'.node N i = α * x.node N i + β) : x'.mat o N per = x.mat o N per := by
  funext r J
  unfold XRange.mat
  have hu : nodeOfRow o per (unk per N) r < N := by
    have h1 := h.unk_pos
    have h2 : unk per N ≤ N := by unfold unk; omega
    exact lt_of_lt_of_le (Nat.mod_lt _ h1) h2
  rw [hX _ hu]
  exact (h.kAff h' hX).colRow hα h.kmono h.knots_length_le _ _ _

/-- Interpolations of the same data on affinely related data coordinates. -/
theorem InterpFn.affine {c : Cfg} {o : ℕ} {per : Fin (D + 1) → Bool} {dims : Fin (D + 1) → ℕ} {x x' : Fin (D + 1) → XRange K}
    (hv : ValidAxes c o per dims x) (hv' : ValidAxes c o per dims x') {α β : Fin (D + 1) → K} (hα : ∀ d, 0 < α d)
    (hX : ∀ d i, i < pointNum c (per d) (dims d) →
      (x' d).node (pointNum c (per d) (dims d)) i = α d * (x d).node (pointNum c (per d) (dims d)) i + β d)
    {fm : Mesh (D + 1) V} (hm : fm.WF) (hd : fm.dims = dims) :
    (construct c o per fm x = .error .divZero ∧ construct c o per fm x' = .error .divZero) ∨
    ∃ g g', construct c o per fm x = .ok g ∧ construct c o per fm x' = .ok g' ∧
      (∀ y, g'.call (fun d => α d * y d + β d) = g.call y) ∧
      (∀ y m, ∃ v, g'.derivative c (fun d => α d * y d + β d) m = .ok v ∧ g.derivative c y m = .ok ((∏ d, α d ^ m d) • v)) ∧
      ∀ d, g'.range d = (α d * (g.range d).1 + β d, α d * (g.range d).2 + β d) := by
  obtain ⟨F, hF⟩ := fm.exists_holds hm
  rw [hd] at hF
  have hmat : ∀ d, (x' d).mat o (pointNum c (per d) (dims d)) (per d) = (x d).mat o (pointNum c (per d) (dims d)) (per d) :=
    fun d => (hv d).mat_affine (hv' d) (hα d) (hX d)
  have hreg : AllRegular c o per dims x' ↔ AllRegular c o per dims x := by
    unfold AllRegular
    simp only [hmat]
  have s1 := InterpFn.construct_spec (c := c) hv hd hF
  have s2 := InterpFn.construct_spec (c := c) hv' hd hF
  cases h1 : construct c o per fm x with
  | error e =>
    rw [h1] at s1
    obtain ⟨d, rfl, r, hr, h0⟩ := s1
    left
    refine ⟨rfl, ?_⟩
    cases h2 : construct c o per fm x' with
    | ok g => rw [h2] at s2; exact absurd h0 (hreg.1 s2.1 d r hr)
    | error e => rw [h2] at s2; obtain ⟨_, rfl, _⟩ := s2; rfl
  | ok g =>
    rw [h1] at s1
    obtain ⟨hr, C, hC, hE⟩ := s1
    right
    cases h2 : construct c o per fm x' with
    | error e =>
      rw [h2] at s2
      obtain ⟨d, rfl, r, hr', h0⟩ := s2
      exact absurd h0 (hreg.2 hr d r hr')
    | ok g' =>
      rw [h2] at s2
      obtain ⟨-, C', hC', hE'⟩ := s2
      have hCC : ∀ J, InRange (nOf c per dims) J → C' J = C J := by
        have hE'' : CtrlEqs c o per dims x F C' := by
          unfold CtrlEqs at hE' ⊢
          simpa only [hmat] using hE'
        exact fun J hJ => hr.unique hv hE'' hE (fun _ _ => rfl) hJ
      have key : ∀ m y, g.spline.val C m y = (∏ d, α d ^ m d) • g'.spline.val C' m (fun d => α d * y d + β d) := by
        intro m y
        rw [hC.val_eq, hC'.val_eq]
        unfold tensorVal
        rw [smul_sum]
        refine sum_congr rfl fun J hJ => ?_
        rw [hCC J (mem_box.1 hJ), smul_smul, ← prod_mul_distrib]
        congr 1
        refine prod_congr rfl fun d _ => ?_
        simp only [XRange.wt_eq]
        exact ((hv d).kAff (hv' d) (hX d)).axisWt (hα d) (hv d).kmono (hv d).knots_length_le _ _ _ _ _
      refine ⟨g, g', rfl, rfl, fun y => ?_, fun y m => ⟨_, hC'.derivative hv' _ m, ?_⟩, fun d => ?_⟩
      · rw [hC.call hv, hC'.call hv', key]; simp
      · rw [hC.derivative hv, key]
      · have ka := (hv d).kAff (hv' d) (hX d)
        have hl := (hv d).knots_length_le
        have e1 := hC.range_eq d
        have e2 := hC'.range_eq d
        unfold kn at e1 e2
        rw [hC.knots] at e1
        rw [hC'.knots, ka.1, ka.2 o (by omega) (by omega), ka.2 _ (by omega) (by omega)] at e2
        unfold InterpFn.range
        rw [e1, e2]

/-- Control points of data sampled from a polynomial. -/
theorem InterpFn.poly {c : Cfg} {o : ℕ} {per : Fin (D + 1) → Bool} {dims : Fin (D + 1) → ℕ} {x : Fin (D + 1) → XRange K}
    (hv : ValidAxes c o per dims x) {g : InterpFn (D + 1) K V} {F C : (Fin (D + 1) → ℕ) → V} (hr : AllRegular c o per dims x)
    (hC : g.Done c o per dims x C) (hE : CtrlEqs c o per dims x F C) (cf : (Fin (D + 1) → ℕ) → V)
    (hF : ∀ I, InRange (nOf c per dims) I → F I = tensorVal (fun d => degBound o (per d)) (fun d e => nodeAt c per dims x I d ^ e) cf)
    (m : Fin (D + 1) → ℕ) (y : Fin (D + 1) → K) :
    g.spline.val C m y = tensorVal (fun d => degBound o (per d)) (fun d e => (Polynomial.derivative^[m d] ((X : K[X]) ^ e)).eval (y d)) cf := by
  have hCC : ∀ J, InRange (nOf c per dims) J → C J = tensorVal (fun d => degBound o (per d))
      (fun d e => (x d).monoCtrl o (pointNum c (per d) (dims d)) (per d) e (J d)) cf := by
    refine fun J hJ => hr.unique hv hE (F' := F) (C' := fun J => tensorVal (fun d => degBound o (per d))
      (fun d e => (x d).monoCtrl o (pointNum c (per d) (dims d)) (per d) e (J d)) cf) ?_ (fun _ _ => rfl) hJ
    intro a ha
    rw [hF a ha, tensorVal_comp _ _ _ fun d e J => (x d).monoCtrl o (pointNum c (per d) (dims d)) (per d) e J]
    refine tensorVal_congr (fun _ _ => rfl) fun d e he => ?_
    have := (hv d).sum_wt he 0 (nodeAt c per dims x a d)
    simp only [Function.iterate_zero, id_eq, eval_pow, eval_X] at this
    rw [← this]
    refine sum_congr rfl fun J hJ => ?_
    have hm := hC.mat_eq hv d (ha d) (mem_range.1 hJ)
    unfold nOf at hm
    rw [hm]
    rfl
  rw [hC.val_eq, tensorVal_congr hCC fun _ _ _ => rfl, tensorVal_comp _ _ _ fun d e J => (x d).monoCtrl o (pointNum c (per d) (dims d)) (per d) e J]
  exact tensorVal_congr (fun _ _ => rfl) fun d e he => (hv d).sum_wt he (m d) (y d)

end Intp
