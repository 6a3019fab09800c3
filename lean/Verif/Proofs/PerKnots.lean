import Verif.Proofs.UniformAxis

/-!
# Knots of a periodic uniform dimension in `double`
-/

namespace Intp

open Finset BSpline

section
variable {n : ℕ} {a b B H : ℚ}

/-- A point `a + q * dx` as computed, for `q` that may lie outside the range. -/
theorem UniformIn.pointZ (h : UniformIn n a b B H) {dx : ℚ} (hdx : |dx - H| ≤ 9 / 4 / 2 ^ 53 * H) {q : ℚ} (hq : |q * H| ≤ 4 * B) :
    ∃ r, (F64.fin a + F64.fin q * F64.fin dx : F64) = .fin r ∧ IsDouble r ∧ |r - (a + q * H)| ≤ 24 * B / 2 ^ 53 := by
  have hH := h.pos
  have hB0 := h.B0
  have hm : |q * dx - q * H| ≤ 9 / 4 / 2 ^ 53 * (4 * B) := by
    rw [← mul_sub, abs_mul]
    rw [abs_mul, abs_of_pos hH] at hq
    calc _ ≤ |q| * (9 / 4 / 2 ^ 53 * H) := mul_le_mul_of_nonneg_left hdx (abs_nonneg _)
      _ = 9 / 4 / 2 ^ 53 * (|q| * H) := by ring
      _ ≤ _ := mul_le_mul_of_nonneg_left hq (by norm_num)
  have hm2 : |q * dx| ≤ 4 * B * (1 + 9 / 4 / 2 ^ 53) := by
    have := abs_add_le (q * dx - q * H) (q * H)
    rw [sub_add_cancel] at this
    linarith
  have hBig : 16 * B ≤ 2 ^ 1023 := by
    have h1 : (16 : ℚ) * 2 ^ 1000 ≤ 2 ^ 1023 := by decide +kernel
    have := h.hB
    generalize (2 : ℚ) ^ 1000 = z at *
    generalize (2 : ℚ) ^ 1023 = z' at *
    linarith
  obtain ⟨s, s1, s2, s3⟩ := fl_mul (a := q) (b := dx) (by
    refine hm2.trans (le_trans ?_ hBig)
    nlinarith)
  have ht : (1 : ℚ) / 2 ^ 1074 ≤ 1 / 8 / 2 ^ 53 * B := by
    have h1 : (1 : ℚ) / 2 ^ 1074 ≤ 1 / 8 / 2 ^ 53 * (1 / 2 * (1 / 2 ^ 800)) := by decide +kernel
    refine h1.trans (mul_le_mul_of_nonneg_left ?_ (by norm_num))
    have h3 : H ≤ 2 * B := by
      have h4 := h.n1
      have h5 := h.step
      have := (abs_le.1 h.ha).1
      have := (abs_le.1 h.hb).2
      nlinarith
    have := h.least
    generalize (1 : ℚ) / 2 ^ 800 = z at *
    linarith
  have hs : |s - q * H| ≤ 14 * B / 2 ^ 53 := by
    have tri := abs_add_le (s - q * dx) (q * dx - q * H)
    rw [sub_add_sub_cancel] at tri
    have e1 : |q * dx| / 2 ^ 53 ≤ 4 * B * (1 + 9 / 4 / 2 ^ 53) / 2 ^ 53 := div_le_div_of_nonneg_right hm2 (by norm_num)
    generalize (1 : ℚ) / 2 ^ 1074 = z at *
    nlinarith
  have hs2 : |a + s| ≤ 5 * B * (1 + 14 / 2 ^ 53) := by
    have := abs_add_le (s - q * H) (a + q * H)
    rw [show s - q * H + (a + q * H) = a + s by ring] at this
    have := abs_add_le a (q * H)
    have := h.ha
    nlinarith
  obtain ⟨r, r1, r2, r3, -⟩ := fl_add h.da s2 (by refine hs2.trans (le_trans ?_ hBig); nlinarith)
  refine ⟨r, by rw [s1, r1], r2, ?_⟩
  have tri := abs_add_le (r - (a + s)) (a + s - (a + q * H))
  rw [sub_add_sub_cancel, show a + s - (a + q * H) = s - q * H by ring] at tri
  have e1 : |a + s| / 2 ^ 53 ≤ 5 * B * (1 + 14 / 2 ^ 53) / 2 ^ 53 := div_le_div_of_nonneg_right hs2 (by norm_num)
  nlinarith

end

/-- The coefficient of `dx` in knot `u` of a periodic dimension. -/
def perCoef (o u : ℕ) : ℚ := u - (o + ((1 - o % 2 : ℕ) : ℚ) / 2)

/-- Exact knots of a periodic dimension. -/
def perKnot (o : ℕ) (a H : ℚ) (u : ℕ) : ℚ := a + perCoef o u * H

theorem perKnot_step (o : ℕ) (a H : ℚ) (u m : ℕ) : perKnot o a H (u + m) = perKnot o a H u + m * H := by
  unfold perKnot perCoef; push_cast; ring

theorem perKnot_mono {o : ℕ} {a H : ℚ} (hH : 0 ≤ H) {u v : ℕ} (h : u ≤ v) : perKnot o a H u ≤ perKnot o a H v := by
  obtain ⟨m, rfl⟩ := Nat.exists_eq_add_of_le h
  rw [perKnot_step]
  have : 0 ≤ (m : ℚ) * H := by positivity
  linarith

theorem uniformKnot_per {o u : ℕ} {a dx : ℚ} (h1 : o ≤ 50) (h2 : u < 2 ^ 51) :
    (Fl.uniformKnot (F64.fin a) (F64.fin dx) (2 * o + (1 - o % 2)) u : F64) = F64.fin a + F64.fin (perCoef o u) * F64.fin dx := by
  unfold Fl.uniformKnot
  rw [fl_ofNat (by omega), fl_ofNat (by omega)]
  have e1 : (CoordArith.half : F64) = .fin (1 / 2) := rfl
  generalize hk : 2 * o + (1 - o % 2) = k
  have hk' : k ≤ 102 := by omega
  have e2 : (F64.fin (1 / 2) * F64.fin (k : ℚ) : F64) = .fin ((k : ℚ) / 2) := by
    rw [F64.mul_fin, show (1 : ℚ) / 2 * (k : ℚ) = ((k : ℤ) : ℚ) / 2 by push_cast; ring, round_half (by rw [Nat.abs_cast]; exact_mod_cast (by omega : k < 2 ^ 53))]
    push_cast; rfl
  have e3 : (F64.fin ((u : ℕ) : ℚ) - F64.fin ((k : ℚ) / 2) : F64) = .fin (perCoef o u) := by
    have e : ((u : ℕ) : ℚ) - (k : ℚ) / 2 = ((2 * (u : ℤ) - (k : ℤ) : ℤ) : ℚ) / 2 := by push_cast; ring
    have e' : perCoef o u = ((2 * (u : ℤ) - (k : ℤ) : ℤ) : ℚ) / 2 := by unfold perCoef; rw [← hk]; push_cast; ring
    rw [F64.sub_fin, e, round_half (abs_lt.2 ⟨by omega, by omega⟩), e']
  rw [e1, e2, e3]

/-- A periodic uniform dimension of an object: `a`, `b` the ends, `dx` the computed step, `T` the computed knots. -/
structure PerRat {D : ℕ} (f : InterpFn D F64 F64) (d : Fin D) (o n : ℕ) (a b B H dx : ℚ) (T : List ℚ) : Prop where
  ho : 1 ≤ o ∧ o ≤ 50
  hn : 2 * (o / 2) + 2 ≤ n
  uin : UniformIn n a b B H
  apart : 512 * B / 2 ^ 53 ≤ H
  small : 6 * B ≤ 2 ^ 1000
  step : f.dx d = .fin dx
  ddx : IsDouble dx
  near_dx : |dx - H| ≤ 9 / 4 / 2 ^ 53 * H
  knots : f.spline.knots d = T.map F64.fin
  len : T.length = n + (2 * o + (1 - o % 2))
  comp : ∀ u, u < n + (2 * o + (1 - o % 2)) → (F64.fin a + F64.fin (perCoef o u) * F64.fin dx : F64) = .fin (knotFn T u)
  near : ∀ u, u < n + (2 * o + (1 - o % 2)) → |knotFn T u - perKnot o a H u| ≤ 24 * B / 2 ^ 53
  dbl : ∀ v ∈ T, IsDouble v
  lo : (f.range d).1 = .fin (knotFn T o)
  hi : (f.range d).2 = .fin (knotFn T (n - 1 + o))
  odd : o % 2 = 1 → knotFn T o = a

theorem UniformIn.coef_le {o n : ℕ} {a b B H : ℚ} (h : UniformIn n a b B H) (hn : 2 * (o / 2) + 2 ≤ n) {u : ℕ} (hu : u < n + (2 * o + (1 - o % 2))) :
    |perCoef o u * H| ≤ 4 * B := by
  have hH := h.pos
  have h2 := h.two
  have hcast : ((n - 1 : ℕ) : ℚ) = n - 1 := by push_cast [Nat.cast_sub (show 1 ≤ n by omega)]; ring
  have hN : ((n : ℚ) - 1) * H ≤ 2 * B := by
    have := h.step
    have := (abs_le.1 h.ha).1
    have := (abs_le.1 h.hb).2
    linarith
  rw [abs_mul, abs_of_pos hH]
  have : |perCoef o u| ≤ 2 * ((n : ℚ) - 1) := by
    unfold perCoef
    rw [← hcast]
    have h3 : ((1 - o % 2 : ℕ) : ℚ) ≤ 2 * ((n - 1 : ℕ) : ℚ) - 2 * o := by
      have : 2 * o + (1 - o % 2) ≤ 2 * (n - 1) := by omega
      have : ((2 * o + (1 - o % 2) : ℕ) : ℚ) ≤ ((2 * (n - 1) : ℕ) : ℚ) := by exact_mod_cast this
      push_cast at this
      linarith
    have h4 : (u : ℚ) ≤ ((n - 1 : ℕ) : ℚ) + 2 * o + ((1 - o % 2 : ℕ) : ℚ) := by
      have : u ≤ n - 1 + 2 * o + (1 - o % 2) := by omega
      exact_mod_cast this
    have h5 : (0 : ℚ) ≤ u := Nat.cast_nonneg _
    have h6 : (0 : ℚ) ≤ ((n - 1 : ℕ) : ℚ) := Nat.cast_nonneg _
    rw [abs_le]
    constructor <;> linarith
  nlinarith

theorem perRat_of {D : ℕ} {f : InterpFn D F64 F64} {d : Fin D} {o n : ℕ} {a b B H : ℚ} (ho : 1 ≤ o ∧ o ≤ 50) (hn : 2 * (o / 2) + 2 ≤ n)
    (h : UniformIn n a b B H) (hap : 512 * B / 2 ^ 53 ≤ H) (hsm : 6 * B ≤ 2 ^ 1000) (hf : Fl.UniAx o n true (.fin a) (.fin b) f d) : ∃ dx T, PerRat f d o n a b B H dx T := by
  obtain ⟨dx, e1, e2, e3⟩ := h.dx
  have hdx : f.dx d = .fin dx := Except.ok.inj (hf.step.symm.trans e1)
  have hk := hf.knots
  rw [hdx] at hk
  obtain ⟨hlen, hget⟩ := (Fl.uniformKnotsPeriodic_get o n (F64.fin a) (F64.fin b) (F64.fin dx)).get hk
  have h49 := h.big
  have hfin : ∀ u, u < n + (2 * o + (1 - o % 2)) → ∃ q, (f.spline.knots d)[u]? = some (.fin q) ∧
      (F64.fin a + F64.fin (perCoef o u) * F64.fin dx : F64) = .fin q ∧ IsDouble q ∧ |q - perKnot o a H u| ≤ 24 * B / 2 ^ 53 := by
    intro u hu
    rw [hget u hu, uniformKnot_per ho.2 (by omega)]
    obtain ⟨r, r1, r2, r3⟩ := h.pointZ e3 (h.coef_le hn hu)
    exact ⟨r, by rw [r1], r1, r2, r3⟩
  have hmap : f.spline.knots d = ((f.spline.knots d).map F64.toRat).map F64.fin := by
    rw [List.map_map]
    refine (List.map_id _).symm.trans (List.map_congr_left fun v hv => ?_)
    obtain ⟨u, hu, rfl⟩ := List.mem_iff_getElem.1 hv
    obtain ⟨q, e, -⟩ := hfin u (by omega)
    rw [List.getElem?_eq_getElem hu] at e
    rw [Option.some.inj e]
    rfl
  have hfn : ∀ u, u < n + (2 * o + (1 - o % 2)) → (f.spline.knots d)[u]? = some (.fin (knotFn ((f.spline.knots d).map F64.toRat) u)) := by
    intro u hu
    obtain ⟨q, q1, -⟩ := hfin u hu
    rw [knotFn_of_get (v := q) (by rw [← hmap, q1]), q1]
  refine ⟨dx, (f.spline.knots d).map F64.toRat, ho, hn, h, hap, hsm, hdx, e2, e3, hmap, by rw [List.length_map]; exact hlen, fun u hu => ?_, fun u hu => ?_, fun v hv => ?_,
    ?_, ?_, fun hodd => ?_⟩
  · obtain ⟨q, q1, q2, q3, q4⟩ := hfin u hu
    rw [q2, knotFn_of_get (v := q) (by rw [← hmap, q1])]
  · obtain ⟨q, q1, q2, q3, q4⟩ := hfin u hu
    rw [knotFn_of_get (v := q) (by rw [← hmap, q1])]
    exact q4
  · obtain ⟨w, hw, rfl⟩ := List.mem_map.1 hv
    obtain ⟨u, hu, rfl⟩ := List.mem_iff_getElem.1 hw
    obtain ⟨q, e, -, hq, -⟩ := hfin u (by omega)
    rw [List.getElem?_eq_getElem hu] at e
    rw [Option.some.inj e]
    exact hq
  · have := hf.lo
    rw [rd_eq_ok_iff, hfn o (by omega)] at this
    exact (Option.some.inj this).symm
  · have := hf.hi
    rw [rd_eq_ok_iff, hlen, show n + (2 * o + (1 - o % 2)) - o - (2 - o % 2) = n - 1 + o by omega, hfn _ (by omega)] at this
    exact (Option.some.inj this).symm
  · obtain ⟨q, q1, q2, q3, q4⟩ := hfin o (by omega)
    rw [knotFn_of_get (v := q) (by rw [← hmap, q1])]
    have hc : perCoef o o = 0 := by
      unfold perCoef
      rw [hodd]; simp
    rw [hc, F64.mul_fin, zero_mul, show F64.round 0 = .fin 0 by simpa using round_half (p := 0) (by norm_num), F64.add_fin, add_zero] at q2
    have hr := F64.round_fits (q := a) (by
      show |a| ≤ 2 ^ (1023 : ℤ)
      have h1 := h.ha
      have h2 := h.hB
      have h3 : (2 : ℚ) ^ 1000 ≤ 2 ^ (1023 : ℤ) := by decide +kernel
      exact h1.trans (h2.trans h3))
    rw [hr, F64.rnd_of_rep h.da.rep] at q2
    exact (F64.fin.inj q2).symm

section
variable {D : ℕ} {f : InterpFn D F64 F64} {d : Fin D} {o n : ℕ} {a b B H dx : ℚ} {T : List ℚ}

theorem PerRat.delta (h : PerRat f d o n a b B H dx T) : 32 * B / 2 ^ 53 ≤ H / 16 ∧ 0 ≤ B / 2 ^ 53 := by
  have := h.apart
  have := h.uin.B0
  exact ⟨by linarith, by positivity⟩

theorem PerRat.gap (h : PerRat f d o n a b B H dx T) {u : ℕ} (h2 : u + 1 < n + (2 * o + (1 - o % 2))) : knotFn T u + 7 / 8 * H ≤ knotFn T (u + 1) := by
  have h1 := abs_le.1 (h.near u (by omega))
  have h3 := abs_le.1 (h.near (u + 1) h2)
  rw [perKnot_step] at h3
  obtain ⟨h4, h5⟩ := h.delta
  push_cast at h3
  linarith

theorem PerRat.mono (h : PerRat f d o n a b B H dx T) {i j : ℕ} (hij : i ≤ j) (hj : j < n + (2 * o + (1 - o % 2))) : knotFn T i ≤ knotFn T j := by
  induction j, hij using Nat.le_induction with
  | base => exact le_rfl
  | succ j hij ih =>
    have := h.gap hj
    have := h.uin.pos
    have := ih (by omega)
    linarith

theorem PerRat.kmono (h : PerRat f d o n a b B H dx T) : KMono T := fun i j _ h2 h3 => h.mono h2 (by have := h.len; omega)

theorem PerRat.knot_le (h : PerRat f d o n a b B H dx T) {v : ℚ} (hv : v ∈ T) : |v| ≤ 6 * B ∧ |v| ≤ 2 ^ 1000 := by
  have hB0 := h.uin.B0
  obtain ⟨u, hu, rfl⟩ := List.mem_iff_getElem.1 hv
  have e : T[u] = knotFn T u := by
    unfold knotFn
    rw [List.getD_eq_getElem?_getD, List.getElem?_eq_getElem hu]; rfl
  have h6 : |T[u]| ≤ 6 * B := by
    rw [e]
    have h1 := h.near u (by have := h.len; omega)
    have h2 := h.uin.coef_le h.hn (u := u) (by have := h.len; omega)
    have h3 := abs_add_le (knotFn T u - perKnot o a H u) (perKnot o a H u)
    rw [sub_add_cancel] at h3
    have h4 := abs_add_le a (perCoef o u * H)
    have h5 := h.uin.ha
    unfold perKnot at *
    linarith
  exact ⟨h6, h6.trans h.small⟩

/-- Exact position of data point `i` relative to the exact knots. -/
theorem perKnot_node (o : ℕ) (a H : ℚ) (i : ℕ) : perKnot o a H (i + o) = a + i * H - ((1 - o % 2 : ℕ) : ℚ) / 2 * H := by
  unfold perKnot perCoef; push_cast; ring

/-- A coordinate near data point `i` is wrapped to a number near data point `i`. -/
theorem PerRat.wrap (h : PerRat f d o n a b B H dx T) {i : ℕ} (hi : i + 1 < n) {x : ℚ} (hxd : IsDouble x) (hx0 : a ≤ x)
    (hxn : |x - (a + i * H)| ≤ 8 * B / 2 ^ 53) :
    knotFn T o < knotFn T (n - 1 + o) ∧ ∃ w, Fl.wrapCoord (.fin (knotFn T o), .fin (knotFn T (n - 1 + o))) (F64.fin x) = .ok (.fin w) ∧ IsDouble w ∧
      knotFn T o ≤ w ∧ w < knotFn T (n - 1 + o) ∧ |w - (a + i * H)| ≤ 15 * B / 2 ^ 53 := by
  have hH := h.uin.pos
  have hB0 := h.uin.B0
  have ho := h.ho
  obtain ⟨hd1, hd2⟩ := h.delta
  have hlen := h.len
  have hn := h.hn
  have dT : ∀ u, u < n + (2 * o + (1 - o % 2)) → IsDouble (knotFn T u) := fun u hu => by
    have : knotFn T u = T[u]'(by omega) := by
      unfold knotFn
      rw [List.getD_eq_getElem?_getD, List.getElem?_eq_getElem (by omega)]; rfl
    rw [this]
    exact h.dbl _ (List.getElem_mem _)
  have dlo := dT o (by omega)
  have dhi := dT (n - 1 + o) (by omega)
  have n1 := abs_le.1 (h.near o (by omega))
  have n2 := abs_le.1 (h.near (n - 1 + o) (by omega))
  have p1 := perKnot_node o a H 0
  rw [Nat.zero_add] at p1
  have p2 := perKnot_node o a H (n - 1)
  rw [p1] at n1
  rw [p2] at n2
  have hcast : ((n - 1 : ℕ) : ℚ) = n - 1 := by push_cast [Nat.cast_sub (show 1 ≤ n by omega)]; ring
  have hstep := h.uin.step
  have hi' : (i : ℚ) + 1 ≤ n - 1 := by rw [← hcast]; exact_mod_cast (by omega : i + 1 ≤ n - 1)
  have hiH : ((i : ℚ) + 1) * H ≤ (n - 1) * H := mul_le_mul_of_nonneg_right hi' hH.le
  have hi0 : 0 ≤ (i : ℚ) * H := by positivity
  have hA := abs_le.1 h.uin.ha
  have hB := abs_le.1 h.uin.hb
  have q := abs_le.1 hxn
  have he : ((1 - o % 2 : ℕ) : ℚ) / 2 * H ≤ 1 / 2 * H ∧ 0 ≤ ((1 - o % 2 : ℕ) : ℚ) / 2 * H := by
    have : ((1 - o % 2 : ℕ) : ℚ) ≤ 1 := by exact_mod_cast (by omega : 1 - o % 2 ≤ 1)
    exact ⟨mul_le_mul_of_nonneg_right (by linarith) hH.le, by positivity⟩
  have hlo : knotFn T o ≤ x := by
    by_cases hodd : o % 2 = 1
    · rw [h.odd hodd]; exact hx0
    · have : ((1 - o % 2 : ℕ) : ℚ) = 1 := by rw [show 1 - o % 2 = 1 by omega]; rfl
      rw [this] at n1
      push_cast at n1
      linarith
  rw [hcast] at n2
  push_cast at n1
  set e := ((1 - o % 2 : ℕ) : ℚ) / 2 * H with hedef
  clear_value e
  generalize knotFn T o = lo at *
  generalize knotFn T (n - 1 + o) = hi at *
  have hx2 : x + 7 / 16 * H ≤ hi := by linarith
  have hhl : hi - lo ≤ 3 * B := by nlinarith
  have hBig : 16 * B ≤ 2 ^ 1023 := by
    have h1 : (16 : ℚ) * 2 ^ 1000 ≤ 2 ^ 1023 := by decide +kernel
    have := h.uin.hB
    generalize (2 : ℚ) ^ 1000 = z at *
    generalize (2 : ℚ) ^ 1023 = z' at *
    linarith
  obtain ⟨p, a1, a2, a3, a4⟩ := fl_sub dhi dlo (by
    rw [abs_of_nonneg (by linarith)]
    generalize (2 : ℚ) ^ 1023 = z at *
    linarith)
  obtain ⟨z, b1, b2, b3, b4⟩ := fl_sub hxd dlo (by
    rw [abs_of_nonneg (by linarith)]
    generalize (2 : ℚ) ^ 1023 = z at *
    linarith)
  rw [abs_of_nonneg (show 0 ≤ hi - lo by linarith)] at a3
  rw [abs_of_nonneg (show 0 ≤ x - lo by linarith)] at b3
  have a3' := abs_le.1 a3
  have b3' := abs_le.1 b3
  have hz0 : 0 ≤ z := by rw [b4]; exact F64.rnd_nonneg (by linarith)
  have hu1 : (hi - lo) / 2 ^ 53 ≤ 3 * B / 2 ^ 53 := div_le_div_of_nonneg_right hhl (by norm_num)
  have hu2 : (x - lo) / 2 ^ 53 ≤ 3 * B / 2 ^ 53 := div_le_div_of_nonneg_right (by linarith) (by norm_num)
  have hzp : z < p := by linarith
  obtain ⟨r, k, r1, r2, r3, r4, -, r6⟩ := double_fmod b2 a2 (by linarith)
  have hrz : r = z := by
    have h0 := r4 hz0
    rw [abs_of_pos (show 0 < p by linarith)] at r3
    have hr' := (abs_lt.1 r3).2
    have k1 : (k : ℚ) * p < 1 * p := by linarith
    have k2 : (-1 : ℚ) * p < k * p := by linarith
    have k3 : (k : ℚ) < 1 := lt_of_mul_lt_mul_right k1 (by linarith)
    have k4 : (-1 : ℚ) < k := lt_of_mul_lt_mul_right k2 (by linarith)
    have k5 : k = 0 := by
      have : k < 1 := by exact_mod_cast k3
      have : -1 < k := by exact_mod_cast k4
      omega
    rw [r2, k5]; simp
  subst hrz
  have hs0 : |lo + r| ≤ 4 * B := by
    rw [abs_le]
    constructor <;> linarith
  obtain ⟨s, s1, s2, s3, s4⟩ := fl_add dlo b2 (hs0.trans (by
    generalize (2 : ℚ) ^ 1023 = z at *
    linarith))
  have hs3 : |lo + r| / 2 ^ 53 ≤ 4 * B / 2 ^ 53 := div_le_div_of_nonneg_right hs0 (by norm_num)
  have s3' := abs_le.1 s3
  refine ⟨by linarith, s, ?_, s2, ?_, ?_, ?_⟩
  · unfold Fl.wrapCoord
    simp only
    rw [a1, b1, r1, ok_bind, s1, if_neg (fun hc => absurd ((double_ops x lo 0).2.2.2.2.2.2.1.1 hc) (not_lt.2 hlo))]
    have : (F64.fin s + 0 : F64) = .fin s := by
      show (F64.fin s + F64.fin 0 : F64) = _
      rw [F64.add_fin, add_zero, F64.round_fits, F64.rnd_of_rep s2.rep]
      show |s| ≤ 2 ^ (1023 : ℤ)
      have hs : |s| ≤ 16 * B := by
        have h1 := abs_add_le (s - (lo + r)) (lo + r)
        rw [sub_add_cancel] at h1
        linarith
      exact_mod_cast hs.trans hBig
    rw [this]
    rfl
  · rw [s4]
    have := F64.rnd_mono (show lo ≤ lo + r by linarith)
    rwa [F64.rnd_of_rep dlo.rep] at this
  · linarith
  · rw [abs_le]; constructor <;> linarith

end

end Intp
