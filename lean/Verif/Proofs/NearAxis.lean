import Verif.Proofs.NearExact
import Verif.Proofs.NearKnotsDeriv
import Verif.Proofs.Affine
import Verif.Proofs.PivotU
import Verif.Proofs.PivotA

/-!
# The knots and the matrix of a non-periodic dimension in `double`, compared with the exact ones
-/

namespace Intp

open Finset BSpline

/-- The exact range of a dimension whose inputs are finite. -/
def XRange.rat : XRange F64 → XRange ℚ
  | .uniform a b => .uniform a.toRat b.toRat
  | .coords l => .coords (l.map F64.toRat)

/-- Inputs of one non-periodic dimension with `n` points, as in `GoodAxis`.  `ρ` bounds the quotient of the size of the coordinates and their distance:
`B / H` if the dimension is uniform, `n B / h` for explicit coordinates. -/
inductive RatioAxis (n : ℕ) : XRange F64 → ℚ → Prop
  | coords {l : List F64} {X : ℕ → ℚ} {B h ρ : ℚ} : CoordsIn l n X B → B ≤ 2 ^ 1000 → Separated n X B h → n ≤ 2 ^ 49 → n * B ≤ ρ * h →
      RatioAxis n (.coords l) ρ
  | uniform {a b B H ρ : ℚ} : UniformIn n a b B H → B ≤ ρ * H → RatioAxis n (.uniform (.fin a) (.fin b)) ρ

theorem RatioAxis.good {n : ℕ} {x : XRange F64} {ρ : ℚ} (h : RatioAxis n x ρ) (hρ : 0 ≤ ρ) : ∃ P r, GoodAxis n x P r ∧ r ≤ ρ := by
  cases h with
  | coords h1 h2 h3 h4 _ => exact ⟨_, 0, .coords h1 h2 h3 h4, hρ⟩
  | uniform h1 h2 => exact ⟨_, _, .uniform h1 h2, le_rfl⟩

/-- Knots of the exact dimension. -/
abbrev XRange.kx (x : XRange ℚ) (o n : ℕ) : ℕ → ℚ := knotFn (x.knots o n false)

/-- Rows of the exact matrix of a non-periodic dimension are values of basis functions. -/
theorem mat_aper {x : XRange ℚ} {o n : ℕ} (h : x.Valid o n false) {i J s : ℕ} (hi : i < n) (hJ : J < n)
    (hs : IsSeg (x.kx o n) o (n - 1) (x.node n i) s) : x.mat o n false i J = piece (x.kx o n) s o J (x.node n i) := by
  have hN : unk false n = n := rfl
  have hlen : (x.knots o n false).length = n + o + 1 := by
    have := h.knots_length
    rwa [if_neg (by simp), hN] at this
  have h2 := h.aperiodic rfl
  have hm : KMono (x.knots o n false) := by have := h.kmono; rwa [hN] at this
  have hseg : segAt o (x.knots o n false) (x.node n i) = s := hm.segAt (by omega) (by rw [hlen, show n + o + 1 - o - 2 = n - 1 by omega]; exact hs)
  have hrow : nodeOfRow o false n i = i := by
    have := nodeOfRow_shift (o := o) (per := false) (n := n) hi
    unfold rowShift at this
    simpa [Nat.mod_eq_of_lt hi] using this
  unfold XRange.mat
  simp only [hN]
  rw [hrow, hseg]
  unfold colRow
  have hs1 := hs.1
  have hs2 := hs.2.1
  rw [sum_congr rfl fun a ha => by rw [Nat.mod_eq_of_lt (show s - o + a < n by have := mem_range.1 ha; omega)]]
  by_cases hJs : s - o ≤ J ∧ J ≤ s
  · rw [sum_eq_single (J - (s - o))]
    · rw [if_pos (by omega), show s - o + (J - (s - o)) = J by omega]
    · intro a _ ha
      rw [if_neg (by omega)]
    · intro hc
      exact absurd (mem_range.2 (by omega)) hc
  · rw [sum_eq_zero]
    · by_contra hc
      have := piece_support (Ne.symm hc)
      omega
    · intro a ha
      rw [if_neg (by have := mem_range.1 ha; omega)]

/-- Every point has a segment. -/
theorem exists_seg {T : ℕ → ℚ} {o last : ℕ} (h : o ≤ last) (x : ℚ) : ∃ s, IsSeg T o last x s := by
  by_cases hx : ∃ k, o ≤ k ∧ k ≤ last ∧ x < T (k + 1)
  · classical
    obtain ⟨h1, h2, h3⟩ := Nat.find_spec hx
    refine ⟨Nat.find hx, h1, h2, ?_, .inr h3⟩
    by_cases e : Nat.find hx = o
    · exact .inl e
    · right
      have := Nat.find_min hx (m := Nat.find hx - 1) (by omega)
      rw [show Nat.find hx - 1 + 1 = Nat.find hx by omega] at this
      by_contra hc
      exact this ⟨by omega, by omega, not_le.1 hc⟩
  · refine ⟨last, h, le_rfl, ?_, .inl rfl⟩
    by_cases e : last = o
    · exact .inl e
    · right
      by_contra hc
      exact hx ⟨last - 1, by omega, by omega, by rw [show last - 1 + 1 = last by omega]; exact not_le.1 hc⟩

/-- Another matrix near the computed one. -/
theorem RowsNear.trans {sol : Solver F64} {o n : ℕ} {W V : ℕ → ℕ → ℚ} {κ δ : ℚ} (h : RowsNear sol o n W κ)
    (hV : ∀ i, i < n → ∑ J ∈ range n, |W i J - V i J| ≤ δ / 2 ^ 53) : RowsNear sol o n V (κ + δ) := by
  obtain ⟨A, lu, C0, h0, h1, h2, h3, h4⟩ := h
  refine ⟨A, lu, C0, h0, h1, h2, h3, fun k hk => ?_⟩
  calc _ ≤ ∑ J ∈ range n, (|Fl.entries F64.toRat (InBand (o - 1) (o - 1)) A k J - W k J| + |W k J - V k J|) :=
        sum_le_sum fun J _ => abs_sub_le _ _ _
    _ ≤ κ / 2 ^ 53 + δ / 2 ^ 53 := by rw [sum_add_distrib]; exact add_le_add (h4 k hk) (hV k hk)
    _ = _ := by ring

/-- One non-periodic dimension in `double` (knots `T`, solver `sol`), compared with the exact dimension `x`. -/
structure AxisExact {D : ℕ} (f : InterpFn D F64 F64) (d : Fin D) (o n : ℕ) (sol : Solver F64) (x : XRange ℚ) (κ θ : ℚ) (T : List ℚ) : Prop where
  valid : x.Valid o n false
  rows : RowsNear sol o n (x.mat o n false) κ
  cross : ∀ y s s', x.node n 0 ≤ y → y ≤ x.node n (n - 1) → IsSeg (knotFn T) o (n - 1) y s → IsSeg (x.kx o n) o (n - 1) y s' →
    ∑ J ∈ range n, |piece (knotFn T) s o J y - piece (x.kx o n) s' o J y| ≤ θ
  crossD : ∀ (Γ : ℚ) (m : ℕ) (y : ℚ) (s s' : ℕ), 1 ≤ Γ → x.MinGap n (6 * o / Γ) → m < o → x.node n 0 ≤ y → y ≤ x.node n (n - 1) →
    IsSeg (knotFn T) o (n - 1) y s → IsSeg (x.kx o n) o (n - 1) y s' →
    ∑ J ∈ range n, |(Polynomial.derivative^[m] (pieceP (knotFn T) s o J)).eval y - (Polynomial.derivative^[m] (pieceP (x.kx o n) s' o J)).eval y| ≤ Γ ^ m * θ
  steep : ∀ Γ : ℚ, 1 ≤ Γ → x.MinGap n (6 * o / Γ) → ∀ i k, k ≤ o → i + k ≤ n + o → knotFn T i < knotFn T (i + k) →
    2 * (k : ℚ) ≤ Γ * (knotFn T (i + k) - knotFn T i)
  left : knotFn T o = x.node n 0
  right : knotFn T n = x.node n (n - 1)
  hint : ∀ y, IsDouble y → x.node n 0 ≤ y → y ≤ x.node n (n - 1) → ∃ h, Fl.hint f d (.fin y) = .ok h

theorem kx_ends {x : XRange ℚ} {o n : ℕ} (ho : 1 ≤ o) (h : x.Valid o n false) : x.kx o n o = x.node n 0 ∧ x.kx o n n = x.node n (n - 1) := by
  have hlen : (x.knots o n false).length = n + o + 1 := by
    have := h.knots_length
    rwa [if_neg (by simp), show unk false n = n from rfl] at this
  have h2 := h.aperiodic rfl
  have hk : ∀ u, u ≤ n + o → x.kx o n u = caKnot o n (x.node n) u := fun u hu => h.knots_aper ho (by rw [show unk false n = n from rfl, hlen]; omega)
  exact ⟨by rw [hk o (by omega), caKnot_low le_rfl], by rw [hk n (by omega), caKnot_high (by omega) le_rfl]⟩

section
variable {D : ℕ} {f : InterpFn D F64 F64} {d : Fin D} {o n : ℕ} {w : Bool} {c : Cfg} {l : List F64} {vals : List F64} {sol : Solver F64}

/-- Points of a dimension and the ends of its knots. -/
theorem KnotsNear.crossAxis {x : XRange ℚ} {T : List ℚ} {δ g ρ : ℚ} (h : KnotsNear (knotFn T) (x.kx o n) o n δ g) (hv : x.Valid o n false)
    (hl : knotFn T o = x.node n 0) (hr : knotFn T n = x.node n (n - 1)) (hδ : δ ≤ 8 * (ρ * g) / 2 ^ 53) {y : ℚ} {s s' : ℕ}
    (h1 : x.node n 0 ≤ y) (h2 : y ≤ x.node n (n - 1)) (hs : IsSeg (knotFn T) o (n - 1) y s) (hs' : IsSeg (x.kx o n) o (n - 1) y s') :
    ∑ J ∈ range n, |piece (knotFn T) s o J y - piece (x.kx o n) s' o J y| ≤ 64 * (o * ρ) / 2 ^ 53 := by
  obtain ⟨e1, e2⟩ := kx_ends h.ho hv
  refine (h.cross ⟨by rw [hl]; exact h1, by rw [hr]; exact h2⟩ ⟨by rw [e1]; exact h1, by rw [e2]; exact h2⟩ hs hs').trans ?_
  have hg := h.pos
  have h3 : 8 * δ / g ≤ 64 * ρ / 2 ^ 53 := by
    rw [div_le_iff₀ hg]
    calc 8 * δ ≤ 8 * (8 * (ρ * g) / 2 ^ 53) := by linarith
      _ = _ := by ring
  calc (o : ℚ) * (8 * δ / g) ≤ o * (64 * ρ / 2 ^ 53) := mul_le_mul_of_nonneg_left h3 (Nat.cast_nonneg _)
    _ = _ := by ring

/-- Segments of the exact knots. -/
theorem XRange.Valid.kx_gap {x : XRange ℚ} (hv : x.Valid o n false) (ho : 1 ≤ o) {γ : ℚ} (hg : x.MinGap n γ) {i : ℕ} (h1 : o ≤ i) (h2 : i < n) :
    γ ≤ x.kx o n (i + 1) - x.kx o n i := by
  have hlen := hv.knots_length
  rw [if_neg (by simp)] at hlen
  exact hv.seg_min ho hg h1 (by rw [hlen, show unk false n = n from rfl]; omega)

theorem KnotsNear.crossAxisD {x : XRange ℚ} {T : List ℚ} {δ g ρ Γ : ℚ} (h : KnotsNear (knotFn T) (x.kx o n) o n δ g) (hv : x.Valid o n false)
    (hl : knotFn T o = x.node n 0) (hr : knotFn T n = x.node n (n - 1)) (hδ : δ ≤ 8 * (ρ * g) / 2 ^ 53) (hΓ : 1 ≤ Γ) (hΓ2 : x.MinGap n (6 * o / Γ)) {m : ℕ} (hm : m < o)
    {y : ℚ} {s s' : ℕ} (h1 : x.node n 0 ≤ y) (h2 : y ≤ x.node n (n - 1)) (hs : IsSeg (knotFn T) o (n - 1) y s) (hs' : IsSeg (x.kx o n) o (n - 1) y s') :
    ∑ J ∈ range n, |(Polynomial.derivative^[m] (pieceP (knotFn T) s o J)).eval y - (Polynomial.derivative^[m] (pieceP (x.kx o n) s' o J)).eval y| ≤
      Γ ^ m * (64 * (o * ρ) / 2 ^ 53) := by
  obtain ⟨e1, e2⟩ := kx_ends h.ho hv
  refine (h.crossD (Γ := Γ) (by linarith) (fun i h3 h4 => hv.kx_gap h.ho hΓ2 h3 h4) ⟨by rw [hl]; exact h1, by rw [hr]; exact h2⟩
    ⟨by rw [e1]; exact h1, by rw [e2]; exact h2⟩ hs hs' m o hm le_rfl).trans (mul_le_mul_of_nonneg_left ?_ (pow_nonneg (by linarith) _))
  have hg := h.pos
  have h3 : 8 * δ / g ≤ 64 * ρ / 2 ^ 53 := by
    rw [div_le_iff₀ hg]
    calc 8 * δ ≤ 8 * (8 * (ρ * g) / 2 ^ 53) := by linarith
      _ = _ := by ring
  calc (o : ℚ) * (8 * δ / g) ≤ o * (64 * ρ / 2 ^ 53) := mul_le_mul_of_nonneg_left h3 (Nat.cast_nonneg _)
    _ = _ := by ring

/-- Data points, knots and matrix of a uniform dimension. -/
theorem uniform_exact {a b H : ℚ} (ho : 1 ≤ o) (hn : o + 1 ≤ n) (hH : 0 < H) (hstep : H * (n - 1) = b - a) :
    (XRange.uniform a b).Valid o n false ∧ (∀ i, (XRange.uniform a b).node n i = gridPt a H (2 * i)) ∧ (XRange.uniform a b).node n 0 = a ∧
      (XRange.uniform a b).node n (n - 1) = b ∧ (∀ u, u ≤ n + o → (XRange.uniform a b).kx o n u = exKnot o n a H u) ∧
      ∀ i J, i < n → J < n → (XRange.uniform a b).mat o n false i J = exRow o n a H i J := by
  have htwo : 2 ≤ n := by omega
  have hn1 : (0 : ℚ) < n - 1 := by
    have : (2 : ℚ) ≤ n := by exact_mod_cast htwo
    linarith
  have hab : a < b := by
    have := mul_pos hH hn1
    linarith
  have hdx : (b - a) / ((n : ℚ) - 1) = H := by rw [div_eq_iff hn1.ne']; exact hstep.symm
  have hv : (XRange.uniform a b).Valid o n false := ⟨by simp, fun _ => ⟨hn, htwo⟩, fun a' b' e => by cases e; exact hab, fun l e => by cases e⟩
  have hnode : ∀ i, (XRange.uniform a b).node n i = gridPt a H (2 * i) := fun i => by
    show a + (i : ℚ) * ((b - a) / ((n : ℚ) - 1)) = _
    rw [hdx]
    unfold gridPt
    push_cast; ring
  have n0 : (XRange.uniform a b).node n 0 = a := by rw [hnode]; unfold gridPt; simp
  have nl : (XRange.uniform a b).node n (n - 1) = b := by
    rw [hnode]
    unfold gridPt
    push_cast [Nat.cast_sub (show 1 ≤ n by omega)]
    linarith
  have hkx : ∀ u, u ≤ n + o → (XRange.uniform a b).kx o n u = exKnot o n a H u := fun u hu => by
    show knotFn (arr (n + (o + 1)) (uaKnot o n a b ((b - a) / ((n : ℚ) - 1)))) u = _
    rw [knotFn_arr _ (by omega), hdx]
    unfold uaKnot exKnot gridKnot
    by_cases h1 : u ≤ o
    · rw [if_pos h1, if_pos h1]; unfold gridPt; simp
    · rw [if_neg h1, if_neg h1]
      by_cases h2 : u < n
      · rw [if_pos h2, if_pos h2]
        unfold uniformKnot gridPt
        push_cast [Nat.cast_sub (show o + 1 ≤ 2 * u by omega)]
        ring
      · rw [if_neg h2, if_neg h2, ← hnode, nl]
  refine ⟨hv, hnode, n0, nl, hkx, fun i J hi hJ => ?_⟩
  obtain ⟨k1, k2⟩ := uaKi_bounds hn i
  obtain ⟨g1, g2, g3⟩ := ua_grid ho hn hi
  have hseg : IsSeg ((XRange.uniform a b).kx o n) o (n - 1) ((XRange.uniform a b).node n i) (uaKi o n i) := by
    refine ⟨k1, by omega, .inr ?_, ?_⟩
    · rw [hkx _ (by omega), hnode]
      exact gridPt_le hH.le g1
    · by_cases hi1 : i + 1 < n
      · right
        rw [hkx _ (by omega), hnode]
        have := gridPt_gap (a := a) hH.le (show 2 * i + 1 ≤ _ from g3 hi1)
        unfold exKnot
        push_cast at this
        linarith
      · left
        unfold uaKi
        split <;> omega
  rw [mat_aper hv hi hJ hseg, hnode]
  unfold exRow
  exact piece_congr_le (B := n + o) (fun u hu => hkx u hu) _ o J (by omega) (.inl (by omega))

/-- A uniform dimension. -/
theorem axisExact_uniform {a b B H dx ρ : ℚ} {T : List ℚ} (h : UniRat f d o n a b B H dx T) (hord : f.spline.order = o) (hp : f.periodicity d = false)
    (hu : f.uniform d = true) (hr : B ≤ ρ * H) (hsol : (Fl.assemble w c f l d n vals >>= Fl.ofMat c) = .ok sol) :
    AxisExact f d o n sol (.uniform a b) (7 * o + 64 * (o * ρ)) (64 * (o * ρ) / 2 ^ 53) T := by
  have hn := h.hn
  have ho := h.ho.1
  have hH := h.uin.pos
  have hρ0 : 0 ≤ ρ := by
    have := h.uin.B0
    by_contra hc
    nlinarith
  obtain ⟨hv, hnode, n0, nl, hkx, hmat⟩ := uniform_exact (o := o) ho hn hH h.uin.step
  have hkn : KnotsNear (knotFn T) ((XRange.uniform a b).kx o n) o n (8 * B / 2 ^ 53) H := by
    refine ⟨ho, by omega, fun i j h1 h2 => h.mono h1 h2, fun i j h1 h2 => ?_, fun i hi => ?_, fun i h1 h2 => ?_, hH, ?_⟩
    · rw [hkx i (by omega), hkx j h2]; exact h.exMono h1
    · rw [hkx i hi]; exact h.near hi
    · rw [hkx i (by omega), hkx (i + 1) (by omega)]; exact h.exGap h1 h2
    · have := h.delta; linarith
  have hl : knotFn T o = (XRange.uniform a b).node n 0 := by rw [n0, h.left o le_rfl]
  have hr' : knotFn T n = (XRange.uniform a b).node n (n - 1) := by rw [nl, h.right n le_rfl (by omega)]
  obtain ⟨A, hA0, hA1, hA2⟩ := h.rows hord hp hu hr
  have hrows := rowsNear_of ho hn hA0 (hA1 w c l vals) hsol hA2
  have hδ : 8 * B / 2 ^ 53 ≤ 8 * (ρ * H) / 2 ^ 53 := div_le_div_of_nonneg_right (by linarith) (by positivity)
  refine ⟨hv, (hrows.trans (δ := 0) fun i hi => ?_).mono ?_, fun y s s' h1 h2 hs hs' => hkn.crossAxis hv hl hr' hδ h1 h2 hs hs',
    fun Γ m y s s' g1 g2 g3 h1 h2 hs hs' => hkn.crossAxisD hv hl hr' hδ g1 g2 g3 h1 h2 hs hs',
    fun Γ g1 g2 i k h1 h2 h3 => hkn.steep (by linarith) (fun i a1 a2 => hv.kx_gap ho g2 a1 a2) (fun i hi => by rw [h.left i hi, h.left o le_rfl])
      (fun i h1 h2 => by rw [h.right i h1 h2, h.right n le_rfl (by omega)]) h1 h2 h3, hl, hr',
    fun y h1 h2 h3 => h.hint hord hp hu h1 ⟨by rw [← n0]; exact h2, by rw [← nl]; exact h3⟩⟩
  · rw [sum_eq_zero, zero_div]
    intro J hJ
    rw [hmat i J hi (mem_range.1 hJ), sub_self, abs_zero]
  · have : 0 ≤ (o : ℚ) * ρ := by positivity
    linarith

/-- Exact knots of separated coordinates. -/
theorem Separated.caGap {X : ℕ → ℚ} {B h : ℚ} (hs : Separated n X B h) (ho : 1 ≤ o) (hn : o + 1 ≤ n) {u : ℕ} (h1 : o ≤ u) (h2 : u < n) :
    caKnot o n X u + h ≤ caKnot o n X (u + 1) := by
  have hpos := hs.pos
  have ho0 : (0 : ℚ) < o := by exact_mod_cast ho
  have ho1 : (1 : ℚ) ≤ o := by exact_mod_cast ho
  have hm : 0 ≤ ((o : ℚ) - 1) * h / o := div_nonneg (mul_nonneg (by linarith) hpos.le) ho0.le
  by_cases c1 : u = o
  · subst c1
    rw [caKnot_low le_rfl]
    by_cases c2 : u + 1 < n
    · unfold caKnot
      rw [if_neg (by omega), if_pos c2]
      have := (hs.avg ho (u := u + 1) (by omega) (by omega)).2
      rw [show u + 1 - u = 1 by omega] at this ⊢
      have := hs.step 0 (by omega)
      rw [zero_add] at this
      linarith
    · rw [caKnot_high (by omega) (by omega)]
      exact hs.lt (by omega) (by omega)
  · by_cases c2 : u + 1 < n
    · unfold caKnot
      rw [if_neg (by omega), if_pos h2, if_neg (by omega), if_pos c2, ← le_sub_iff_add_le', ← sub_div, le_div_iff₀ ho0]
      have e1 : ∑ k ∈ Ico (u - o) u, X k = X (u - o) + ∑ k ∈ Ico (u - o + 1) u, X k := sum_eq_sum_Ico_succ_bot (by omega) X
      have e2 : ∑ k ∈ Ico (u + 1 - o) (u + 1), X k = ∑ k ∈ Ico (u - o + 1) u, X k + X u := by
        rw [show u + 1 - o = u - o + 1 by omega]
        exact sum_Ico_succ_top (by omega) X
      rw [e1, e2]
      have := hs.le (i := u - o) (j := u) (by omega) (by omega)
      rw [Nat.cast_sub h1] at this
      linarith
    · rw [caKnot_high (i := u + 1) (by omega) (by omega)]
      unfold caKnot
      rw [if_neg (by omega), if_pos h2]
      have := (hs.avg ho (u := u) (by omega) (by omega)).1
      have h3 := hs.step (u - 1) (by omega)
      rw [show u - 1 + 1 = n - 1 by omega] at h3
      linarith

/-- The knots of explicit coordinates are near the exact ones. -/
theorem knots_sharp {N : ℕ} {t : List F64} {X : ℕ → ℚ} {B : ℚ} {T : List ℚ} (hc : CoordsIn l n X B) (ho : 1 ≤ o ∧ o ≤ 50)
    (hn : o + 1 ≤ n) (hn49 : n ≤ 2 ^ 49) (hB : B ≤ 2 ^ 1000) (ht : Fl.coordKnots c o N false l = .ok (t, l)) (hT : t = T.map F64.fin) {u : ℕ}
    (hu : u ≤ n + o) : |knotFn T u - caKnot o n X u| ≤ 4 * n * B / 2 ^ 53 + 1 / 2 ^ 1074 := by
  have hB0 : 0 ≤ B := (abs_nonneg _).trans (hc.le 0 (by omega))
  have h0 : 0 ≤ 4 * n * B / 2 ^ 53 + 1 / 2 ^ 1074 := add_nonneg (div_nonneg (mul_nonneg (mul_nonneg (by norm_num) (Nat.cast_nonneg _)) hB0) (pow_nonneg zero_le_two _)) (one_div_nonneg.2 (pow_nonneg zero_le_two _))
  obtain ⟨r, hr, -, -, h3, h4, h5⟩ := (hc.knots ho hn hn49 hB).exists
  have hrt : r.1 = T.map F64.fin := by
    rw [← hT]
    unfold Fl.coordKnots Fl.coordKnotsRaw at ht
    simp only [Bool.false_eq_true, if_false, hr] at ht
    cases ha : assertM c (decide (l.length = pointNum c false N)) with
    | error e => rw [ha] at ht; cases ht
    | ok _ =>
      rw [ha, ok_bind, ok_bind] at ht
      cases hm : Fl.checkMonotonic c r.2 with
      | error e => rw [hm] at ht; cases ht
      | ok _ =>
        rw [hm, ok_bind] at ht
        cases ht
        rfl
  by_cases c1 : u ≤ o
  · rw [caKnot_low c1, knotFn_of_get (by rw [← hrt]; exact h3 u c1), sub_self, abs_zero]
    exact h0
  · by_cases c2 : u < n
    · obtain ⟨q, q1, -, q3⟩ := h5 u (by omega) c2
      rw [knotFn_of_get (by rw [← hrt]; exact q1)]
      unfold caKnot
      rw [if_neg c1, if_pos c2]
      exact q3
    · rw [caKnot_high (by omega) (by omega), knotFn_of_get (by rw [← hrt]; exact h4 u (by omega) hu), sub_self, abs_zero]
      exact h0

/-- A dimension with explicit coordinates. -/
theorem axisExact_coords {X : ℕ → ℚ} {B h ρ : ℚ} {T : List ℚ} (ho : 1 ≤ o ∧ o ≤ 50) (hn : o + 1 ≤ n) (hord : f.spline.order = o) (hp : f.periodicity d = false)
    (hu : f.uniform d = false) (hc : CoordsIn l n X B) (hB : B ≤ 2 ^ 1000) (hs : Separated n X B h) (hk : f.spline.knots d = T.map F64.fin)
    (hlen : T.length = n + o + 1) (hT : NearKnots o n X h (knotFn T)) (hd : ∀ v ∈ T, IsDouble v ∧ |v| ≤ B) (hρ : n * B ≤ ρ * h)
    (hnear : ∀ u, u ≤ n + o → |knotFn T u - caKnot o n X u| ≤ 4 * n * B / 2 ^ 53 + 1 / 2 ^ 1074)
    (hsol : (Fl.assemble w c f l d n vals >>= Fl.ofMat c) = .ok sol) :
    AxisExact f d o n sol (.coords (l.map F64.toRat)) (7 * o + 64 * (o * ρ)) (64 * (o * ρ) / 2 ^ 53) T := by
  have hax : AxisIn f d o n l T X := axisIn_coords ho hn hord hp hu hc hB hs hk hlen hT hd
  have hpos := hs.pos
  have hl := hc.len
  have hnode : ∀ i, i < n → (XRange.coords (l.map F64.toRat)).node n i = X i := fun i hi => by
    show (l.map F64.toRat).getD i 0 = _
    rw [List.getD_eq_getElem?_getD, List.getElem?_map, hc.get i hi]
    rfl
  have hv : (XRange.coords (l.map F64.toRat)).Valid o n false := by
    refine ⟨by simp, fun _ => by omega, (fun a b e => by cases e), fun l' e => ?_⟩
    cases e
    refine ⟨by rw [List.length_map, hl], fun i hi => ?_, fun _ => ho.1⟩
    have e1 := hnode i (by omega)
    have e2 := hnode (i + 1) (by omega)
    have := hs.step i (by omega)
    show (XRange.coords (l.map F64.toRat)).node n i < (XRange.coords (l.map F64.toRat)).node n (i + 1)
    rw [e1, e2]
    linarith
  have hklen : ((XRange.coords (l.map F64.toRat)).knots o n false).length = n + o + 1 := by
    have := hv.knots_length
    rwa [if_neg (by simp), show unk false n = n from rfl] at this
  have hkx : ∀ u, u ≤ n + o → (XRange.coords (l.map F64.toRat)).kx o n u = caKnot o n X u := fun u hu => by
    rw [show (XRange.coords (l.map F64.toRat)).kx o n u = caKnot o n ((XRange.coords (l.map F64.toRat)).node n) u from
      hv.knots_aper ho.1 (by rw [show unk false n = n from rfl, hklen]; omega)]
    unfold caKnot
    rw [hnode 0 (by omega), hnode (n - 1) (by omega)]
    split
    · rfl
    · split
      · rw [sum_congr rfl fun k hk => hnode k (by have := (mem_Ico.1 hk).2; omega)]
      · rfl
  have hB0 : 0 ≤ B := (abs_nonneg _).trans (hc.le 0 (by omega))
  have hρ1 : 1 ≤ ρ := by
    have h1 := hs.le (i := 0) (j := n - 1) (by omega) (by omega)
    rw [Nat.cast_sub (by omega), Nat.cast_one, Nat.cast_zero, sub_zero] at h1
    have h2 := abs_le.1 (hc.le 0 (by omega))
    have h3 := abs_le.1 (hc.le (n - 1) (by omega))
    have h4 : (2 : ℚ) ≤ n := by exact_mod_cast (by omega : 2 ≤ n)
    have h5 : ((n : ℚ) - 1) * h ≤ 2 * B := by linarith
    have h6 : h ≤ 2 * B := by nlinarith
    have h7 : h ≤ n * B := by nlinarith
    by_contra hcon
    nlinarith [not_le.1 hcon]
  have htiny : (1 : ℚ) / 2 ^ 1074 ≤ h / 2 ^ 53 := by
    have h1 : (1 : ℚ) / 2 ^ 1074 ≤ 1 / 2 ^ 800 / 2 ^ 53 := by decide +kernel
    exact h1.trans (div_le_div_of_nonneg_right hs.least (pow_nonneg zero_le_two _))
  have hsmall : 3 * (4 * n * B / 2 ^ 53 + 1 / 2 ^ 1074) ≤ h := by
    have b1 := hs.big
    have b2 := hs.least
    have b3 : (12 : ℚ) * (1 / 2 ^ 1074) ≤ 1 / 2 ^ 800 := by decide +kernel
    have e1 : 16 * n * B / 2 ^ 53 = 4 * (4 * n * B / 2 ^ 53) := by ring
    rw [e1] at b1
    clear htiny hnear hsol hB
    generalize (1 : ℚ) / 2 ^ 1074 = a1 at *
    generalize (1 : ℚ) / 2 ^ 800 = a2 at *
    generalize 4 * n * B / 2 ^ 53 = a3 at *
    linarith
  have hkn : KnotsNear (knotFn T) ((XRange.coords (l.map F64.toRat)).kx o n) o n (4 * n * B / 2 ^ 53 + 1 / 2 ^ 1074) h := by
    refine ⟨ho.1, by omega, fun i j h1 h2 => hT.mono hs ho.1 hn h1 h2, fun i j h1 h2 => ?_, fun i hi => ?_, fun i h1 h2 => ?_, hpos, hsmall⟩
    · rcases Nat.eq_zero_or_pos i with rfl | hi
      · rcases Nat.eq_zero_or_pos j with rfl | hj
        · exact le_rfl
        · rw [hkx 0 (by omega), caKnot_low (by omega), ← caKnot_low (o := o) (n := n) (X := X) (i := 1) (by omega), ← hkx 1 (by omega)]
          exact hv.kmono 1 j le_rfl hj (by rw [show unk false n = n from rfl, hklen]; omega)
      · exact hv.kmono i j hi h1 (by rw [show unk false n = n from rfl, hklen]; omega)
    · rw [hkx i hi]; exact hnear i hi
    · rw [hkx i (by omega), hkx (i + 1) (by omega)]; exact hs.caGap ho.1 hn h1 h2
  have hdelta : 4 * n * B / 2 ^ 53 + 1 / 2 ^ 1074 ≤ 8 * (ρ * h) / 2 ^ 53 := by
    have e : 8 * (ρ * h) / 2 ^ 53 = 4 * (ρ * h) / 2 ^ 53 + 4 * (ρ * h) / 2 ^ 53 := by ring
    rw [e]
    refine add_le_add (div_le_div_of_nonneg_right (by linarith) (pow_nonneg zero_le_two _)) (htiny.trans (div_le_div_of_nonneg_right ?_ (pow_nonneg zero_le_two _)))
    nlinarith
  have hleft : knotFn T o = (XRange.coords (l.map F64.toRat)).node n 0 := by rw [hnode 0 (by omega), hT.left o le_rfl]
  have hright : knotFn T n = (XRange.coords (l.map F64.toRat)).node n (n - 1) := by rw [hnode (n - 1) (by omega), hT.right n le_rfl (by omega)]
  obtain ⟨s, hs1, hs2, hs3, hs4⟩ := hax.seg
  have hr := hax.elims hs1 hs2 hs3 hs4 hsol
  refine ⟨hv, hr.trans fun i hi => ?_, fun y s s' h1 h2 h3 h4 => hkn.crossAxis hv hleft hright hdelta h1 h2 h3 h4,
    fun Γ m y s s' g1 g2 g3 h1 h2 h3 h4 => hkn.crossAxisD hv hleft hright hdelta g1 g2 g3 h1 h2 h3 h4,
    fun Γ g1 g2 i k h1 h2 h3 => hkn.steep (by linarith) (fun i a1 a2 => hv.kx_gap ho.1 g2 a1 a2) (fun i hi => by rw [hT.left i hi, hT.left o le_rfl])
      (fun i h1 h2 => by rw [hT.right i h1 h2, hT.right n le_rfl (by omega)]) h1 h2 h3, hleft, hright, fun y _ _ _ => ⟨o, by
    unfold Fl.hint
    rw [hu, hord]
    rfl⟩⟩
  obtain ⟨s', hs'⟩ := exists_seg (T := (XRange.coords (l.map F64.toRat)).kx o n) (o := o) (last := n - 1) (by omega) (X i)
  rw [sum_congr rfl fun J hJ => by rw [mat_aper hv hi (mem_range.1 hJ) (by rw [hnode i hi]; exact hs'), hnode i hi]]
  exact hkn.crossAxis hv hleft hright hdelta (by rw [hnode 0 (by omega)]; exact hs.mono (Nat.zero_le _) hi)
    (by rw [hnode (n - 1) (by omega)]; exact hs.mono (by omega) (by omega)) (hs1 i hi) hs'

end

theorem RatioAxis.nonneg {n : ℕ} {x : XRange F64} {ρ : ℚ} (h : RatioAxis n x ρ) (hn : 0 < n) : 0 ≤ ρ := by
  cases h with
  | @coords _ _ B h _ h1 _ h3 _ h5 =>
    have hB0 : 0 ≤ B := (abs_nonneg _).trans (h1.le 0 hn)
    have := h3.pos
    have h6 : 0 ≤ (n : ℚ) * B := mul_nonneg (Nat.cast_nonneg _) hB0
    by_contra hc
    nlinarith [not_le.1 hc]
  | uniform h1 h2 =>
    have := h1.B0
    have := h1.pos
    by_contra hc
    nlinarith [not_le.1 hc]

/-- The template of an interpolation function, compared with the exact dimensions. -/
theorem axisExact_of {D : ℕ} {w : Bool} {c : Cfg} {o : ℕ} (ho : 1 ≤ o ∧ o ≤ 50) {dims : Fin D → ℕ} {x : Fin D → XRange F64} {ρ : ℚ}
    (hn : ∀ d, o + 1 ≤ dims d) (hx : ∀ d, RatioAxis (dims d) (x d) ρ) {t : Template D F64 F64}
    (ht : Fl.constructT w c o (fun _ => false) dims x = .ok t) :
    t.dims = dims ∧ t.base.spline.order = o ∧ (∀ d, t.base.spline.periodicity d = false) ∧ (∀ d, Fl.SolverOk (t.dims d) (t.solvers d)) ∧
      ∀ d, ∃ T P κ, AxisNear t.base d o (dims d) (t.solvers d) P κ T ∧
        AxisExact t.base d o (dims d) (t.solvers d) (x d).rat (7 * o + 64 * (o * ρ)) (64 * (o * ρ) / 2 ^ 53) T := by
  choose P r hg _ using fun d => (hx d).good ((hx d).nonneg (by have := hn d; omega))
  have hsh := shape_of (c := c) ho hn hg
  have htok := (template_ok (w := w) (c := c) ho hn hg).get ht
  obtain ⟨hbase, htd, hsol⟩ := Fl.constructT_solvers hsh ht
  have htd : t.dims = dims := by
    rw [htd]; funext d; unfold unk pointNum; simp
  have hper : ∀ d, t.base.spline.periodicity d = false := fun d => by rw [hbase.peri]
  refine ⟨htd, hbase.order, hper, fun d => by rw [htok.dims_eq]; exact htok.solvers d, fun d => ?_⟩
  obtain ⟨vals, hv⟩ := hsol d
  rw [htd] at hv
  have ax := hbase.ax d
  have hxd := hx d
  generalize hxe : x d = y at hxd ax
  cases hxd with
  | coords h1 h2 h3 h4 h5 =>
    obtain ⟨e1, e2, e3⟩ := ax.coords _ rfl
    obtain ⟨T, t1, t2, t3, t4⟩ := knots_of_coords h1 h3 ho (hn d) h4 h2 e2
    rw [e1] at hv
    exact ⟨T, _, _, axisNear_coords ho (hn d) hbase.order (hper d) ax.uni h1 h2 h3 t1 t2 t3 t4 hv,
      axisExact_coords ho (hn d) hbase.order (hper d) ax.uni h1 h2 h3 t1 t2 t3 t4 h5 (fun u hu => knots_sharp h1 ho (hn d) h4 h2 e2 t1 hu) hv⟩
  | uniform h1 h2 =>
    have hU := Fl.constructT_uniform ht hxe
    rw [show pointNum c false (dims d) = dims d by unfold pointNum; simp] at hU
    obtain ⟨dx, T, hT⟩ := uniRat_of ho (hn d) h1 hU
    exact ⟨T, _, _, axisNear_uniform hT hbase.order (hper d) ax.uni h2 hv, axisExact_uniform hT hbase.order (hper d) ax.uni h2 hv⟩

/-- Weights at a point of the dimension. -/
theorem seg_unity {T : List ℚ} {o n s : ℕ} {y : ℚ} (hm : KMono T) (hlen : T.length = n + o + 1) (hn : o + 1 ≤ n)
    (hinc : ∀ i, o ≤ i → i < n → knotFn T i < knotFn T (i + 1)) (h1 : knotFn T o ≤ y) (h2 : y ≤ knotFn T n) (hs : IsSeg (knotFn T) o (n - 1) y s) :
    (∀ J, 0 ≤ piece (knotFn T) s o J y) ∧ ∑ J ∈ range n, piece (knotFn T) s o J y = 1 := by
  obtain ⟨a1, a2, a3, a4⟩ := hs
  refine piece_unity hm hlen a1 (by omega) ?_ ?_ (hinc s a1 (by omega))
  · rcases a3 with rfl | a3
    · exact h1
    · exact a3
  · rcases a4 with e | a4
    · rw [show s + 1 = n by omega]; exact h2
    · exact a4.le

/-- Rows of the exact matrix. -/
theorem mat_unity {x : XRange ℚ} {o n : ℕ} (ho : 1 ≤ o) (h : x.Valid o n false) {i : ℕ} (hi : i < n) :
    (∀ J, J < n → 0 ≤ x.mat o n false i J) ∧ ∑ J ∈ range n, x.mat o n false i J = 1 := by
  have ax : AAxis o n (x.knots o n false) (x.node n) := h.aAxis
  have hm : KMono (x.knots o n false) := h.kmono
  obtain ⟨e1, e2⟩ := kx_ends ho h
  obtain ⟨s, hs⟩ := exists_seg (T := x.kx o n) (o := o) (last := n - 1) (by have := ax.big; omega) (x.node n i)
  have hle : ∀ a b, a ≤ b → b < n → x.node n a ≤ x.node n b := fun a b h1 h2 => by
    rcases Nat.eq_or_lt_of_le h1 with e | e
    · rw [e]
    · exact (h.node_lt e h2).le
  obtain ⟨p0, p1⟩ := seg_unity hm ax.len ax.big ax.inc (by rw [show knotFn (x.knots o n false) o = _ from e1]; exact hle 0 i (Nat.zero_le _) hi)
    (by rw [show knotFn (x.knots o n false) n = _ from e2]; exact hle i (n - 1) (by omega) (by omega)) hs
  refine ⟨fun J hJ => by rw [mat_aper h hi hJ hs]; exact p0 J, ?_⟩
  rw [sum_congr rfl fun J hJ => mat_aper h hi (mem_range.1 hJ) hs]
  exact p1

end Intp
