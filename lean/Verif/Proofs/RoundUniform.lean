import Verif.Proofs.RoundKnots
import Verif.Proofs.UniformBase
import Verif.Proofs.BasisPerturb

/-!
# Knots and data points of a uniform dimension in `double`

`H = (b - a) / (n - 1)` is the exact distance of the data points.  Knots and data points are `a + (p / 2) H` for natural numbers `p`, as far as they
are not one of the ends; the computed ones differ from these by at most `8 B / 2^53`, where `B` bounds the ends.
-/

namespace Intp

open Finset BSpline

/-- Multiplication in `double`. -/
theorem fl_mul {a b : ℚ} (h : |a * b| ≤ 2 ^ 1023) :
    ∃ r, (F64.fin a * F64.fin b : F64) = .fin r ∧ IsDouble r ∧ |r - a * b| ≤ |a * b| / 2 ^ 53 + 1 / 2 ^ 1074 := by
  have hf : F64.Fits (a * b) := by
    show |a * b| ≤ 2 ^ (1023 : ℤ)
    exact_mod_cast h
  refine ⟨F64.rnd (a * b), by rw [F64.mul_fin, F64.round_fits hf], ?_, ?_⟩
  · have h1 : |a * b| < 2 ^ 1024 - 2 ^ 970 := h.trans_lt (by decide +kernel)
    obtain ⟨r, h2, h3, -⟩ := double_round (a * b) h1
    rw [F64.round_fits hf] at h2
    cases h2
    exact h3
  · refine (F64.rnd_error (a * b)).trans ?_
    have h1 : F64.u * |a * b| = |a * b| / 2 ^ 53 := by rw [F64.u_eq]; ring
    have h2 : F64.η ≤ 1 / 2 ^ 1074 := by decide +kernel
    rw [h1]
    generalize (1 : ℚ) / 2 ^ 1074 = a at *
    linarith

theorem isDouble_half {p : ℤ} (h : |p| < 2 ^ 53) : IsDouble ((p : ℚ) / 2) :=
  ⟨p, -1, h, by norm_num, by norm_num, by rw [zpow_neg_one]; ring⟩

/-- Numbers of moderate size that are halves of integers are not rounded. -/
theorem round_half {p : ℤ} (h : |p| < 2 ^ 53) : F64.round ((p : ℚ) / 2) = .fin ((p : ℚ) / 2) := by
  have hp : |(p : ℚ)| ≤ 2 ^ 53 := by
    rw [← Int.cast_abs]; exact_mod_cast h.le
  have hb : |(p : ℚ) / 2| < 2 ^ 1024 - 2 ^ 970 := by
    rw [abs_div, abs_two]
    have h2 : (2 : ℚ) ^ 53 < 2 ^ 1024 - 2 ^ 970 := by decide +kernel
    have : |(p : ℚ)| / 2 ≤ |(p : ℚ)| := half_le_self (abs_nonneg _)
    generalize (2 : ℚ) ^ 1024 - 2 ^ 970 = z at *
    linarith
  obtain ⟨r, h2, -⟩ := double_round _ hb
  rw [h2, (double_round_mono le_rfl h2 h2).2 (isDouble_half h)]

/-- A uniform dimension with `n` data points in `[a, b]`: the ends are of size at most `B`, and the distance `H` of the data points is large compared to
the rounding of the ends. -/
structure UniformIn (n : ℕ) (a b B H : ℚ) : Prop where
  two : 2 ≤ n
  big : n ≤ 2 ^ 49
  da : IsDouble a
  db : IsDouble b
  ha : |a| ≤ B
  hb : |b| ≤ B
  hB : B ≤ 2 ^ 1000
  step : H * (n - 1) = b - a
  apart : 128 * B / 2 ^ 53 ≤ H
  least : 1 / 2 ^ 800 ≤ H

section
variable {n : ℕ} {a b B H : ℚ}

theorem UniformIn.pos (h : UniformIn n a b B H) : 0 < H := lt_of_lt_of_le (one_div_pos.2 (pow_pos two_pos _)) h.least

theorem UniformIn.B0 (h : UniformIn n a b B H) : 0 ≤ B := (abs_nonneg _).trans h.ha

theorem UniformIn.n1 (h : UniformIn n a b B H) : (1 : ℚ) ≤ n - 1 := by
  have : (2 : ℚ) ≤ n := by exact_mod_cast h.two
  linarith

/-- `dx`. -/
theorem UniformIn.dx (h : UniformIn n a b B H) : ∃ r, (Fl.uniformStep n (F64.fin a) (F64.fin b) : M F64) = .ok (.fin r) ∧ IsDouble r ∧ |r - H| ≤ 9 / 4 / 2 ^ 53 * H := by
  have hH := h.pos
  have hn := h.n1
  have h2 := h.two
  have hba : 0 ≤ b - a := by rw [← h.step]; exact mul_nonneg hH.le (by linarith)
  have hbB : b - a ≤ 2 * B := by have := abs_le.1 h.ha; have := abs_le.1 h.hb; linarith
  have hbig : b - a ≤ 2 ^ 1001 := by
    have := h.hB
    rw [pow_succ]
    generalize (2 : ℚ) ^ 1000 = z at *
    linarith
  have h1023 : (2 : ℚ) ^ 1001 * 2 ≤ 2 ^ 1023 := by decide +kernel
  obtain ⟨r1, e1, -, e3, -⟩ := fl_sub h.db h.da (by
    rw [abs_of_nonneg hba]
    generalize (2 : ℚ) ^ 1001 = z at *
    generalize (2 : ℚ) ^ 1023 = z' at *
    linarith)
  rw [abs_of_nonneg hba] at e3
  have hcast : ((n - 1 : ℕ) : ℚ) = n - 1 := by push_cast [Nat.cast_sub (show 1 ≤ n by omega)]; ring
  -- the quotient
  have hq : |r1 / (n - 1) - H| ≤ H / 2 ^ 53 := by
    have : r1 / (n - 1) - H = (r1 - (b - a)) / (n - 1) := by rw [← h.step]; field_simp
    rw [this, abs_div, abs_of_pos (show (0 : ℚ) < n - 1 by linarith), div_le_iff₀ (by linarith)]
    calc _ ≤ (b - a) / 2 ^ 53 := e3
      _ = H / 2 ^ 53 * (n - 1) := by rw [← h.step]; ring
  have hq2 : |r1 / (n - 1)| ≤ H * (1 + 1 / 2 ^ 53) := by
    have := abs_add_le (r1 / (n - 1) - H) H
    rw [sub_add_cancel, abs_of_pos hH] at this
    linarith
  have hHb : H ≤ 2 ^ 1001 := by
    refine le_trans ?_ hbig
    rw [← h.step]
    nlinarith
  obtain ⟨r, f1, f2, f3⟩ := fl_div (a := r1) (b := (n : ℚ) - 1) (by linarith) (by
    refine hq2.trans (le_trans ?_ h1023)
    generalize (2 : ℚ) ^ 1001 = z at *
    nlinarith)
  refine ⟨r, ?_, f2, ?_⟩
  · unfold Fl.uniformStep
    have hb49 := h.big
    rw [subM_ok (by omega), ok_bind, fl_ofNat (by omega), e1, hcast]
    exact f1
  · have tri := abs_add_le (r - r1 / (n - 1)) (r1 / (n - 1) - H)
    rw [sub_add_sub_cancel] at tri
    have ht : (1 : ℚ) / 2 ^ 1074 ≤ 1 / 8 / 2 ^ 53 * H := by
      have h1 : (1 : ℚ) / 2 ^ 1074 ≤ 1 / 8 / 2 ^ 53 * (1 / 2 ^ 800) := by decide +kernel
      exact h1.trans (mul_le_mul_of_nonneg_left h.least (by norm_num))
    generalize (1 : ℚ) / 2 ^ 1074 = z at *
    linarith

/-- Position `p` of the grid with distance `H / 2`. -/
def gridPt (a H : ℚ) (p : ℕ) : ℚ := a + p / 2 * H

theorem UniformIn.grid_le (h : UniformIn n a b B H) {p : ℕ} (hp : p ≤ 2 * (n - 1)) : a ≤ gridPt a H p ∧ gridPt a H p ≤ b ∧ |gridPt a H p| ≤ B := by
  have hH := h.pos
  have h2 := h.two
  have hcast : ((n - 1 : ℕ) : ℚ) = n - 1 := by push_cast [Nat.cast_sub (show 1 ≤ n by omega)]; ring
  have hp' : (p : ℚ) ≤ 2 * (n - 1) := by rw [← hcast]; exact_mod_cast hp
  have hp0 : (0 : ℚ) ≤ p := Nat.cast_nonneg p
  have h1 : a ≤ gridPt a H p := by unfold gridPt; have : 0 ≤ (p : ℚ) / 2 * H := by positivity
                                   linarith
  have h3 : gridPt a H p ≤ b := by
    unfold gridPt
    have : (p : ℚ) / 2 * H ≤ (n - 1) * H := mul_le_mul_of_nonneg_right (by linarith) hH.le
    have := h.step
    linarith
  exact ⟨h1, h3, abs_le.2 ⟨by have := (abs_le.1 h.ha).1; linarith, by have := (abs_le.1 h.hb).2; linarith⟩⟩

/-- A point `a + (p / 2) * dx` as computed. -/
theorem UniformIn.point (h : UniformIn n a b B H) {dx : ℚ} (hdx : |dx - H| ≤ 9 / 4 / 2 ^ 53 * H) {p : ℕ} (hp : p ≤ 2 * (n - 1)) :
    ∃ r, (F64.fin a + F64.fin ((p : ℚ) / 2) * F64.fin dx : F64) = .fin r ∧ IsDouble r ∧ |r - gridPt a H p| ≤ 8 * B / 2 ^ 53 := by
  have hH := h.pos
  have h2 := h.two
  have hB0 := h.B0
  obtain ⟨g1, g2, g3⟩ := h.grid_le hp
  have hp0 : (0 : ℚ) ≤ p / 2 := by positivity
  have hpH : (p : ℚ) / 2 * H ≤ 2 * B := by
    unfold gridPt at g2
    have := (abs_le.1 h.ha).1
    have := (abs_le.1 h.hb).2
    linarith
  have hpH0 : 0 ≤ (p : ℚ) / 2 * H := by positivity
  have hm : |(p : ℚ) / 2 * dx - p / 2 * H| ≤ 9 / 4 / 2 ^ 53 * (2 * B) := by
    rw [← mul_sub, abs_mul, abs_of_nonneg hp0]
    calc _ ≤ (p : ℚ) / 2 * (9 / 4 / 2 ^ 53 * H) := mul_le_mul_of_nonneg_left hdx hp0
      _ = 9 / 4 / 2 ^ 53 * (p / 2 * H) := by ring
      _ ≤ _ := mul_le_mul_of_nonneg_left hpH (by norm_num)
  have hm2 : |(p : ℚ) / 2 * dx| ≤ 2 * B * (1 + 9 / 4 / 2 ^ 53) := by
    have := abs_add_le ((p : ℚ) / 2 * dx - p / 2 * H) (p / 2 * H)
    rw [sub_add_cancel, abs_of_nonneg hpH0] at this
    linarith
  have hBig : 4 * B ≤ 2 ^ 1023 := by
    have h1 : (4 : ℚ) * 2 ^ 1000 ≤ 2 ^ 1023 := by decide +kernel
    have := h.hB
    generalize (2 : ℚ) ^ 1000 = z at *
    generalize (2 : ℚ) ^ 1023 = z' at *
    linarith
  obtain ⟨s, s1, s2, s3⟩ := fl_mul (a := (p : ℚ) / 2) (b := dx) (by
    refine hm2.trans (le_trans ?_ hBig)
    nlinarith)
  have ht : (1 : ℚ) / 2 ^ 1074 ≤ 1 / 8 / 2 ^ 53 * B := by
    have h1 : (1 : ℚ) / 2 ^ 1074 ≤ 1 / 8 / 2 ^ 53 * (1 / 2 * (1 / 2 ^ 800)) := by decide +kernel
    refine h1.trans (mul_le_mul_of_nonneg_left ?_ (by norm_num))
    have h3 : H ≤ 2 * B := by
      have h4 := h.n1
      have h5 := h.step
      have := (abs_le.1 h.ha).1
      have := (abs_le.1 h.hb).2
      nlinarith
    have := h.least
    generalize (1 : ℚ) / 2 ^ 800 = z at *
    linarith
  have hs : |s - p / 2 * H| ≤ (13 / 2 + 1 / 4) * B / 2 ^ 53 := by
    have tri := abs_add_le (s - p / 2 * dx) (p / 2 * dx - p / 2 * H)
    rw [sub_add_sub_cancel] at tri
    have e1 : |(p : ℚ) / 2 * dx| / 2 ^ 53 ≤ 2 * B * (1 + 9 / 4 / 2 ^ 53) / 2 ^ 53 := div_le_div_of_nonneg_right hm2 (by norm_num)
    generalize (1 : ℚ) / 2 ^ 1074 = z at *
    nlinarith
  have hs2 : |a + s| ≤ B * (1 + 7 / 2 ^ 53) := by
    have := abs_add_le (s - p / 2 * H) (gridPt a H p)
    rw [show s - p / 2 * H + gridPt a H p = a + s by unfold gridPt; ring] at this
    nlinarith
  obtain ⟨r, r1, r2, r3, -⟩ := fl_add h.da s2 (by refine hs2.trans (le_trans ?_ hBig); nlinarith)
  refine ⟨r, by rw [s1, r1], r2, ?_⟩
  have tri := abs_add_le (r - (a + s)) (a + s - gridPt a H p)
  rw [sub_add_sub_cancel, show a + s - gridPt a H p = s - p / 2 * H by unfold gridPt; ring] at tri
  have e1 : |a + s| / 2 ^ 53 ≤ B * (1 + 7 / 2 ^ 53) / 2 ^ 53 := div_le_div_of_nonneg_right hs2 (by norm_num)
  nlinarith

end

/-- The position of knot `u` on the grid with distance `H / 2`. -/
def gridKnot (o n u : ℕ) : ℕ := if u ≤ o then 0 else if u < n then 2 * u - (o + 1) else 2 * (n - 1)

/-- The coefficient of `dx` in a knot. -/
theorem uniformKnot_eq {o u : ℕ} {a dx : ℚ} (h1 : o < u) (h2 : u < 2 ^ 51) :
    (Fl.uniformKnot (F64.fin a) (F64.fin dx) (o + 1) u : F64) = F64.fin a + F64.fin (((2 * u - (o + 1) : ℕ) : ℚ) / 2) * F64.fin dx := by
  unfold Fl.uniformKnot
  rw [fl_ofNat (by omega), fl_ofNat (by omega)]
  have e1 : (CoordArith.half : F64) = .fin (1 / 2) := rfl
  have e2 : (F64.fin (1 / 2) * F64.fin ((o + 1 : ℕ) : ℚ) : F64) = .fin (((o + 1 : ℕ) : ℚ) / 2) := by
    rw [F64.mul_fin, show (1 : ℚ) / 2 * ((o + 1 : ℕ) : ℚ) = (((o + 1 : ℕ) : ℤ) : ℚ) / 2 by push_cast; ring, round_half (by rw [Nat.abs_cast]; exact_mod_cast (by omega : o + 1 < 2 ^ 53))]
    push_cast; rfl
  have e3 : (F64.fin ((u : ℕ) : ℚ) - F64.fin (((o + 1 : ℕ) : ℚ) / 2) : F64) = .fin (((2 * u - (o + 1) : ℕ) : ℚ) / 2) := by
    have e : ((u : ℕ) : ℚ) - ((o + 1 : ℕ) : ℚ) / 2 = (((2 * u - (o + 1) : ℕ) : ℤ) : ℚ) / 2 := by
      rw [Int.cast_natCast, Nat.cast_sub (by omega)]
      push_cast; ring
    rw [F64.sub_fin, e, round_half (by rw [Nat.abs_cast]; exact_mod_cast (by omega : 2 * u - (o + 1) < 2 ^ 53)), Int.cast_natCast]
  rw [e1, e2, e3]

/-- A non-periodic uniform dimension of an object: `a`, `b` the ends, `dx` the computed step, `T` the computed knots. -/
structure UniRat {D : ℕ} (f : InterpFn D F64 F64) (d : Fin D) (o n : ℕ) (a b B H dx : ℚ) (T : List ℚ) : Prop where
  ho : 1 ≤ o ∧ o ≤ 50
  hn : o + 1 ≤ n
  uin : UniformIn n a b B H
  step : f.dx d = .fin dx
  ddx : IsDouble dx
  near_dx : |dx - H| ≤ 9 / 4 / 2 ^ 53 * H
  lo : (f.range d).1 = .fin a
  knots : f.spline.knots d = T.map F64.fin
  len : T.length = n + o + 1
  left : ∀ u, u ≤ o → knotFn T u = a
  mid : ∀ u, o < u → u < n → (F64.fin a + F64.fin (((2 * u - (o + 1) : ℕ) : ℚ) / 2) * F64.fin dx : F64) = .fin (knotFn T u)
  right : ∀ u, n ≤ u → u ≤ n + o → knotFn T u = b
  dbl : ∀ v ∈ T, IsDouble v

theorem knotFn_of_get {T : List ℚ} {u : ℕ} {v : ℚ} (h : (T.map F64.fin)[u]? = some (.fin v)) : knotFn T u = v := by
  rw [List.getElem?_map] at h
  unfold knotFn
  rw [List.getD_eq_getElem?_getD]
  cases hT : T[u]? with
  | none => rw [hT] at h; cases h
  | some q => rw [hT] at h; cases h; rfl

theorem uniRat_of {D : ℕ} {f : InterpFn D F64 F64} {d : Fin D} {o n : ℕ} {a b B H : ℚ} (ho : 1 ≤ o ∧ o ≤ 50) (hn : o + 1 ≤ n) (h : UniformIn n a b B H)
    (hf : Fl.UniAx o n false (.fin a) (.fin b) f d) : ∃ dx T, UniRat f d o n a b B H dx T := by
  obtain ⟨dx, e1, e2, e3⟩ := h.dx
  have hdx : f.dx d = .fin dx := Except.ok.inj (hf.step.symm.trans e1)
  have hk := hf.knots
  rw [hdx] at hk
  obtain ⟨hlen, hget⟩ := (Fl.uniformKnotsAperiodic_get hn (F64.fin a) (F64.fin b) (F64.fin dx)).get hk
  have h49 := h.big
  -- every knot is finite
  have hfin : ∀ u, u ≤ n + o → ∃ q, (f.spline.knots d)[u]? = some (.fin q) ∧ IsDouble q := by
    intro u hu
    rw [hget u hu]
    by_cases h1 : u ≤ o
    · rw [if_pos h1]; exact ⟨a, rfl, h.da⟩
    · rw [if_neg h1]
      by_cases h2 : u < n
      · rw [if_pos h2, uniformKnot_eq (by omega) (by omega)]
        obtain ⟨r, r1, r2, -⟩ := h.point e3 (p := 2 * u - (o + 1)) (by omega)
        exact ⟨r, by rw [r1], r2⟩
      · rw [if_neg h2]; exact ⟨b, rfl, h.db⟩
  have hmap : f.spline.knots d = ((f.spline.knots d).map F64.toRat).map F64.fin := by
    rw [List.map_map]
    refine (List.map_id _).symm.trans (List.map_congr_left fun v hv => ?_)
    obtain ⟨u, hu, rfl⟩ := List.mem_iff_getElem.1 hv
    obtain ⟨q, e, -⟩ := hfin u (by omega)
    rw [List.getElem?_eq_getElem hu] at e
    rw [Option.some.inj e]
    rfl
  refine ⟨dx, (f.spline.knots d).map F64.toRat, ho, hn, h, hdx, e2, e3, ?_, hmap, by rw [List.length_map]; exact hlen, fun u hu => ?_, fun u h1 h2 => ?_, fun u h1 h2 => ?_,
    fun v hv => ?_⟩
  · have := hf.lo
    rw [rd_eq_ok_iff, hget o (by omega), if_pos le_rfl] at this
    exact (Option.some.inj this).symm
  · exact knotFn_of_get (by rw [← hmap, hget u (by omega), if_pos hu])
  · obtain ⟨r, r1, r2, -⟩ := h.point e3 (p := 2 * u - (o + 1)) (by omega)
    rw [r1]
    refine congrArg _ (knotFn_of_get ?_).symm
    rw [← hmap, hget u (by omega), if_neg (by omega), if_pos h2, uniformKnot_eq h1 (by omega), r1]
  · exact knotFn_of_get (by rw [← hmap, hget u (by omega), if_neg (by omega), if_neg (by omega)])
  · obtain ⟨w, hw, rfl⟩ := List.mem_map.1 hv
    obtain ⟨u, hu, rfl⟩ := List.mem_iff_getElem.1 hw
    obtain ⟨q, e, hq⟩ := hfin u (by omega)
    rw [List.getElem?_eq_getElem hu] at e
    rw [Option.some.inj e]
    exact hq

section
variable {D : ℕ} {f : InterpFn D F64 F64} {d : Fin D} {o n : ℕ} {a b B H dx : ℚ} {T : List ℚ}

/-- Exact knots. -/
def exKnot (o n : ℕ) (a H : ℚ) (u : ℕ) : ℚ := gridPt a H (gridKnot o n u)

theorem gridPt_le {a H : ℚ} (hH : 0 ≤ H) {p q : ℕ} (h : p ≤ q) : gridPt a H p ≤ gridPt a H q := by
  unfold gridPt
  have : (p : ℚ) ≤ q := by exact_mod_cast h
  have := mul_le_mul_of_nonneg_right (show (p : ℚ) / 2 ≤ q / 2 by linarith) hH
  linarith

theorem gridPt_gap {a H : ℚ} (hH : 0 ≤ H) {p q k : ℕ} (h : p + k ≤ q) : gridPt a H p + k / 2 * H ≤ gridPt a H q := by
  have := gridPt_le (a := a) hH h
  unfold gridPt at *
  push_cast at this
  linarith

theorem gridKnot_mono (ho : 1 ≤ o) (hn : o + 1 ≤ n) {i j : ℕ} (h : i ≤ j) : gridKnot o n i ≤ gridKnot o n j := by
  unfold gridKnot; split_ifs <;> omega

theorem gridKnot_gap (ho : 1 ≤ o) (hn : o + 1 ≤ n) {i : ℕ} (h1 : o ≤ i) (h2 : i < n) : gridKnot o n i + 2 ≤ gridKnot o n (i + 1) := by
  unfold gridKnot; split_ifs <;> omega

theorem UniRat.near (h : UniRat f d o n a b B H dx T) {u : ℕ} (hu : u ≤ n + o) : |knotFn T u - exKnot o n a H u| ≤ 8 * B / 2 ^ 53 := by
  have hB0 := h.uin.B0
  have h0 : 0 ≤ 8 * B / 2 ^ 53 := by positivity
  unfold exKnot gridKnot
  by_cases h1 : u ≤ o
  · rw [if_pos h1, h.left u h1]
    unfold gridPt
    simpa using h0
  · rw [if_neg h1]
    by_cases h2 : u < n
    · rw [if_pos h2]
      obtain ⟨r, r1, -, r3⟩ := h.uin.point h.near_dx (p := 2 * u - (o + 1)) (by omega)
      rw [h.mid u (by omega) h2] at r1
      cases r1
      exact r3
    · have hn := h.uin.two
      rw [if_neg h2, h.right u (by omega) hu]
      have e : gridPt a H (2 * (n - 1)) = b := by
        unfold gridPt
        have := h.uin.step
        push_cast [Nat.cast_sub (show 1 ≤ n by omega)]
        linarith
      rw [e, sub_self, abs_zero]
      exact h0

theorem UniRat.delta (h : UniRat f d o n a b B H dx T) : 8 * B / 2 ^ 53 ≤ H / 16 ∧ 0 ≤ 8 * B / 2 ^ 53 := by
  have hB0 := h.uin.B0
  refine ⟨?_, by positivity⟩
  have := h.uin.apart
  linarith

theorem UniRat.gap (h : UniRat f d o n a b B H dx T) {u : ℕ} (h1 : o ≤ u) (h2 : u < n) : knotFn T u + 7 / 8 * H ≤ knotFn T (u + 1) := by
  have hH := h.uin.pos
  have g := gridPt_gap (a := a) hH.le (gridKnot_gap h.ho.1 h.hn h1 h2)
  have n1 := abs_le.1 (h.near (u := u) (by omega))
  have n2 := abs_le.1 (h.near (u := u + 1) (by omega))
  unfold exKnot at n1 n2
  have := h.delta
  push_cast at g
  linarith

theorem UniRat.mono (h : UniRat f d o n a b B H dx T) {i j : ℕ} (hij : i ≤ j) (hj : j ≤ n + o) : knotFn T i ≤ knotFn T j := by
  have hH := h.uin.pos
  obtain ⟨k, rfl⟩ := Nat.exists_eq_add_of_le hij
  induction k with
  | zero => exact le_rfl
  | succ k ih =>
    refine (ih (by omega) (by omega)).trans ?_
    rw [← add_assoc]
    by_cases h1 : i + k < o
    · rw [h.left _ (by omega), h.left _ (by omega)]
    · by_cases h2 : i + k < n
      · have := h.gap (u := i + k) (by omega) h2
        linarith
      · rw [h.right _ (by omega) (by omega), h.right _ (by omega) (by omega)]

theorem UniRat.kmono (h : UniRat f d o n a b B H dx T) : KMono T := fun i j _ h2 h3 => h.mono h2 (by have := h.len; omega)

theorem UniRat.knot_le (h : UniRat f d o n a b B H dx T) {v : ℚ} (hv : v ∈ T) : |v| ≤ B := by
  obtain ⟨u, hu, rfl⟩ := List.mem_iff_getElem.1 hv
  have hl := h.len
  have e : T[u] = knotFn T u := by
    unfold knotFn
    rw [List.getD_eq_getElem?_getD, List.getElem?_eq_getElem hu]; rfl
  rw [e]
  have h1 := h.mono (Nat.zero_le u) (by omega)
  have h2 := h.mono (show u ≤ n + o by omega) le_rfl
  rw [h.left 0 (by omega)] at h1
  rw [h.right _ (by omega) le_rfl] at h2
  exact abs_le.2 ⟨by have := (abs_le.1 h.uin.ha).1; linarith, by have := (abs_le.1 h.uin.hb).2; linarith⟩

end

end Intp
