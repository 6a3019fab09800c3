import Verif.Rounding
import Verif.Proofs.BaseSpline

/-! # Errors of `base_spline_value` in rounded arithmetic -/

namespace Intp

set_option linter.unusedSectionVars false

section Near

variable {F : Type} [Field F] [LinearOrder F] [IsStrictOrderedRing F]

/-- Two non-negative numbers agree up to a factor `g ^ k` and an absolute error `e`. -/
structure Near (g : F) (k : ℕ) (e a b : F) : Prop where
  left : 0 ≤ a
  right : 0 ≤ b
  le : a ≤ g ^ k * (b + e)
  ge : b ≤ g ^ k * (a + e)

variable {g : F} {k l : ℕ} {e f a b c : F}

theorem Near.symm (h : Near g k e a b) : Near g k e b a := ⟨h.right, h.left, h.ge, h.le⟩

theorem Near.refl (ha : 0 ≤ a) : Near g 0 0 a a := ⟨ha, ha, by simp, by simp⟩

theorem Near.mono (hg : 1 ≤ g) (he : 0 ≤ e) (h : Near g k e a b) (hk : k ≤ l) (hf : e ≤ f) : Near g l f a b := by
  have hp : g ^ k ≤ g ^ l := pow_le_pow_right₀ hg hk
  have h0 : 0 ≤ g ^ k := by positivity
  have h1 := h.left
  have h2 := h.right
  refine ⟨h1, h2, h.le.trans ?_, h.ge.trans ?_⟩
  · exact mul_le_mul hp (by linarith) (by linarith) (by linarith)
  · exact mul_le_mul hp (by linarith) (by linarith) (by linarith)

theorem Near.trans (hg : 1 ≤ g) (he : 0 ≤ e) (hf : 0 ≤ f) (h : Near g k e a b) (h' : Near g l f b c) : Near g (k + l) (e + f) a c := by
  have hk : 1 ≤ g ^ k := one_le_pow₀ hg
  have hl : 1 ≤ g ^ l := one_le_pow₀ hg
  have key : ∀ {e f a b c G H : F}, 1 ≤ G → 1 ≤ H → 0 ≤ e → a ≤ G * (b + e) → b ≤ H * (c + f) → a ≤ G * H * (c + (e + f)) := by
    intro e f a b c G H hG hH he h1 h2
    have h3 : b + e ≤ H * (c + (e + f)) := by nlinarith
    calc a ≤ G * (b + e) := h1
      _ ≤ G * (H * (c + (e + f))) := mul_le_mul_of_nonneg_left h3 (by linarith)
      _ = _ := by ring
  refine ⟨h.left, h'.right, ?_, ?_⟩
  · rw [pow_add]; exact key hk hl he h.le h'.le
  · have := key hl hk hf h'.ge h.ge
    rw [add_comm f e] at this
    rw [pow_add, mul_comm (g ^ k)]; exact this

theorem Near.scale (h : Near g k e a b) (hc : 0 ≤ c) : Near g k (e * c) (a * c) (b * c) := by
  refine ⟨mul_nonneg h.left hc, mul_nonneg h.right hc, ?_, ?_⟩
  · calc a * c ≤ (g ^ k * (b + e)) * c := mul_le_mul_of_nonneg_right h.le hc
      _ = _ := by ring
  · calc b * c ≤ (g ^ k * (a + e)) * c := mul_le_mul_of_nonneg_right h.ge hc
      _ = _ := by ring

/-- Products, the second factor without absolute error. -/
theorem Near.mul (hg : 1 ≤ g) (he : 0 ≤ e) {a' b' : F} (h : Near g k e a b) (h' : Near g l 0 a' b') : Near g (k + l) (e * b') (a * a') (b * b') := by
  have h1 : Near g l 0 (a * a') (a * b') := by
    have := h'.scale h.left
    rw [zero_mul, mul_comm a' a, mul_comm b' a] at this
    exact this
  have h2 := h.scale h'.right
  have := h1.trans hg le_rfl (mul_nonneg he h'.right) h2
  rwa [zero_add, add_comm l] at this

theorem Near.inv (hg : 1 ≤ g) (h : Near g k 0 a b) (ha : 0 < a) (hb : 0 < b) : Near g k 0 a⁻¹ b⁻¹ := by
  have h1 := h.le
  have h2 := h.ge
  rw [add_zero] at h1 h2
  refine ⟨by positivity, by positivity, ?_, ?_⟩
  · rw [add_zero, inv_eq_one_div, div_le_iff₀ ha, mul_assoc, mul_comm b⁻¹, ← mul_assoc]
    rw [← div_eq_mul_inv, le_div_iff₀ hb, one_mul]; exact h2
  · rw [add_zero, inv_eq_one_div, div_le_iff₀ hb, mul_assoc, mul_comm a⁻¹, ← mul_assoc]
    rw [← div_eq_mul_inv, le_div_iff₀ ha, one_mul]; exact h1

theorem Near.pos (hg : 1 ≤ g) (h : Near g k 0 a b) (hb : 0 < b) : 0 < a := by
  have := h.ge
  rw [add_zero] at this
  have hk : 1 ≤ g ^ k := one_le_pow₀ hg
  by_contra hc
  have : a = 0 := le_antisymm (not_lt.1 hc) h.left
  subst this
  linarith

theorem Near.add {a' b' : F} (h : Near g k e a b) (h' : Near g k f a' b') : Near g k (e + f) (a + a') (b + b') := by
  refine ⟨add_nonneg h.left h'.left, add_nonneg h.right h'.right, ?_, ?_⟩
  · have := add_le_add h.le h'.le; linarith
  · have := add_le_add h.ge h'.ge; linarith

/-- One rounding. -/
theorem near_round {u η z : F} (hu : 0 ≤ u) (hu1 : u < 1) (hη : 0 ≤ η) (ha : 0 ≤ a) (hz : 0 ≤ z) (h : |z - a| ≤ u * |a| + η) :
    Near (1 - u)⁻¹ 1 η z a := by
  have hp : 0 < 1 - u := by linarith
  rw [abs_of_nonneg ha, abs_le] at h
  refine ⟨hz, ha, ?_, ?_⟩
  · rw [pow_one, inv_mul_eq_div, le_div_iff₀ hp]
    nlinarith [mul_nonneg hu hz, mul_nonneg hu ha, mul_nonneg hu hη, mul_nonneg hu hu]
  · rw [pow_one, inv_mul_eq_div, le_div_iff₀ hp]
    nlinarith

theorem nonneg_of_round {u z : F} (hu1 : u < 1) (ha : 0 ≤ a) (h : |z - a| ≤ u * |a|) : 0 ≤ z := by
  rw [abs_of_nonneg ha, abs_le] at h
  nlinarith

theorem one_le_g {u : F} (hu : 0 ≤ u) (hu1 : u < 1) : 1 ≤ (1 - u)⁻¹ := by
  rw [inv_eq_one_div, le_div_iff₀ (by linarith)]; linarith

/-- The difference of two numbers that are near. -/
theorem Near.abs_sub (hg : 1 ≤ g) (he : 0 ≤ e) (h : Near g k e a b) : |a - b| ≤ (g ^ k - 1) * b + g ^ k * e := by
  have hk : 1 ≤ g ^ k := one_le_pow₀ hg
  have h1 := h.le
  have h2 := h.ge
  have h3 := h.left
  have h4 := h.right
  rw [abs_le]
  constructor
  · -- b - a ≤ …
    have : b - a ≤ (g ^ k - 1) * b + g ^ k * e := by
      by_cases hba : b ≤ a
      · nlinarith [mul_nonneg (by linarith : (0 : F) ≤ g ^ k - 1) h4, mul_nonneg (by linarith : (0 : F) ≤ g ^ k) he]
      · have : b - a ≤ (g ^ k - 1) * a + g ^ k * e := by linarith
        nlinarith [mul_le_mul_of_nonneg_left (not_le.1 hba).le (by linarith : (0 : F) ≤ g ^ k - 1)]
    linarith
  · linarith

end Near

variable {K F : Type} [CoordArith K] [Field F] [LinearOrder F] [IsStrictOrderedRing F]

namespace RoundK

variable (R : RoundK K F)

/-- The error factor of one operation. -/
def g : F := (1 - R.u)⁻¹

theorem one_le_g : 1 ≤ R.g := Intp.one_le_g R.u_nonneg R.u_lt_one

/-- Underflow in one term of the recursion, divided by knots at least `h` apart. -/
def under (h : F) : F := R.η * (1 / h + 1)

theorem under_nonneg {h : F} (hh : 0 < h) : 0 ≤ R.under h := by
  have := R.η_nonneg
  unfold under; positivity

/-- Absolute error of level `k`. -/
def absErr (h : F) (k : ℕ) : F := (2 ^ (k + 1) - 2) * R.under h

theorem absErr_nonneg {h : F} (hh : 0 < h) (k : ℕ) : 0 ≤ R.absErr h k := by
  unfold absErr
  refine mul_nonneg ?_ (R.under_nonneg hh)
  have : (1 : F) ≤ 2 ^ k := one_le_pow₀ (by norm_num)
  rw [pow_succ]; linarith

theorem absErr_succ (h : F) (k : ℕ) : R.absErr h (k + 1) = 2 * (R.absErr h k + R.under h) := by
  unfold absErr; ring

theorem absErr_mono {h : F} (hh : 0 < h) {k l : ℕ} (hk : k ≤ l) : R.absErr h k ≤ R.absErr h l := by
  unfold absErr
  refine mul_le_mul_of_nonneg_right ?_ (R.under_nonneg hh)
  have : (2 : F) ^ (k + 1) ≤ 2 ^ (l + 1) := pow_le_pow_right₀ (by norm_num) (by omega)
  linarith

theorem sub_near {a b : K} (ha : R.Finite a) (hb : R.Finite b) (h : R.val b ≤ R.val a) (hf : R.Fits (R.val a - R.val b)) :
    R.Finite (a - b) ∧ Near R.g 1 0 (R.val (a - b)) (R.val a - R.val b) := by
  obtain ⟨h1, h2⟩ := R.sub a b ha hb hf
  have h0 : 0 ≤ R.val a - R.val b := by linarith
  exact ⟨h1, near_round R.u_nonneg R.u_lt_one le_rfl h0 (nonneg_of_round R.u_lt_one h0 h2) (by simpa using h2)⟩

theorem fits_of_le {x y : F} (hx : 0 ≤ x) (h : x ≤ y) (hy : R.Fits y) : R.Fits x :=
  R.fits_mono x y (by rw [abs_of_nonneg hx, abs_of_nonneg (hx.trans h)]; exact h) hy

/-- One term of the recursion: `v * (a1 - a2) / (b1 - b2)`. -/
theorem term_near {k : ℕ} {e h P W : F} {v a1 a2 b1 b2 : K} (he : 0 ≤ e) (hh : 0 < h) (hv : R.Finite v) (ha1 : R.Finite a1) (ha2 : R.Finite a2)
    (hb1 : R.Finite b1) (hb2 : R.Finite b2) (hP : P ≤ 1) (hn : Near R.g k e (R.val v) P) (hd : R.val a2 ≤ R.val a1)
    (hD : R.val a1 - R.val a2 ≤ R.val b1 - R.val b2) (hhD : h ≤ R.val b1 - R.val b2) (hW : R.val b1 - R.val b2 ≤ W)
    (hB : R.g ^ (k + 4) * (1 + (e + R.under h)) ≤ 2) (hfW : R.Fits (4 * W)) (hf2 : R.Fits 2) :
    Ok (CoordArith.div (v * (a1 - a2)) (b1 - b2)) fun z => R.Finite z ∧
      Near R.g (k + 4) (e + R.under h) (R.val z) ((R.val a1 - R.val a2) / (R.val b1 - R.val b2) * P) := by
  set d := R.val a1 - R.val a2 with hdd
  set DD := R.val b1 - R.val b2 with hDD
  have hg := R.one_le_g
  have hd0 : 0 ≤ d := by linarith
  have hD0 : 0 < DD := by linarith
  have hW0 : 0 < W := by linarith
  have hη := R.η_nonneg
  have hU := R.under_nonneg hh
  obtain ⟨f1, n1⟩ := R.sub_near ha1 ha2 hd (R.fits_of_le hd0 (by linarith) hfW)
  obtain ⟨f2, n2⟩ := R.sub_near hb1 hb2 (by linarith) (R.fits_of_le hD0.le (by linarith) hfW)
  rw [← hdd] at n1
  rw [← hDD] at n2
  have hpos := n2.pos hg hD0
  have hgk : R.g ^ (k + 3) ≤ R.g ^ (k + 4) := pow_le_pow_right₀ hg (by omega)
  have hg1 : R.g ≤ R.g ^ (k + 4) := by
    calc R.g = R.g ^ 1 := (pow_one _).symm
      _ ≤ _ := pow_le_pow_right₀ hg (by omega)
  have hg0 : 0 < R.g ^ (k + 4) := by positivity
  have hg2 : R.g ≤ 2 := by nlinarith
  -- the product
  have m1 := hn.mul hg he n1
  have hk1 : R.g ^ (k + 1) * (P * d + e * d) ≤ 2 * d := by
    have : R.g ^ (k + 1) * (1 + e) ≤ 2 := by
      have h1 : R.g ^ (k + 1) ≤ R.g ^ (k + 4) := pow_le_pow_right₀ hg (by omega)
      have : R.g ^ (k + 1) * (1 + e) ≤ R.g ^ (k + 4) * (1 + (e + R.under h)) :=
        mul_le_mul h1 (by linarith) (by linarith) hg0.le
      linarith
    have h3 : R.g ^ (k + 1) * (P + e) ≤ 2 := by
      refine le_trans (mul_le_mul_of_nonneg_left (by linarith) (by positivity)) this
    calc R.g ^ (k + 1) * (P * d + e * d) = R.g ^ (k + 1) * (P + e) * d := by ring
      _ ≤ 2 * d := mul_le_mul_of_nonneg_right h3 hd0
  have hfit : R.Fits (R.val v * R.val (a1 - a2)) :=
    R.fits_of_le m1.left (by have := m1.le; linarith) hfW
  obtain ⟨f3, r3, s3⟩ := R.mul v (a1 - a2) hv f1 hfit
  have n3 : Near R.g 1 R.η (R.val (v * (a1 - a2))) (R.val v * R.val (a1 - a2)) :=
    near_round R.u_nonneg R.u_lt_one hη m1.left (s3 m1.left) r3
  have m3 := n3.trans hg hη (mul_nonneg he hd0) m1
  -- the quotient
  have n2i := n2.inv hg hpos hD0
  have m4 := m3.mul hg (by positivity) n2i
  have e4 : (R.η + e * d) * DD⁻¹ ≤ e + R.η * (1 / h) := by
    have h1 : DD⁻¹ ≤ 1 / h := by rw [inv_eq_one_div]; exact one_div_le_one_div_of_le hh hhD
    have h2 : d * DD⁻¹ ≤ 1 := by rw [← div_eq_mul_inv, div_le_one hD0]; exact hD
    nlinarith [mul_le_mul_of_nonneg_left h1 hη, mul_le_mul_of_nonneg_left h2 he]
  have e4' : 0 ≤ (R.η + e * d) * DD⁻¹ := by positivity
  have m5 := m4.mono hg e4' (le_refl _) e4
  rw [← div_eq_mul_inv] at m5
  have hval : P * d * DD⁻¹ = d / DD * P := by rw [div_eq_mul_inv]; ring
  rw [hval] at m5
  have hle1 : d / DD * P ≤ 1 := by
    have : d / DD ≤ 1 := by rw [div_le_one hD0]; exact hD
    have h0 : 0 ≤ d / DD := by positivity
    nlinarith [hn.right]
  have hU' : R.η * (1 / h) ≤ R.under h := by unfold RoundK.under; nlinarith
  have hU'' : 0 ≤ R.η * (1 / h) := by positivity
  have hq : R.val (v * (a1 - a2)) / R.val (b1 - b2) ≤ 2 := by
    have h1 := m5.le
    have h2 : R.g ^ (1 + (k + 1) + 1) * (d / DD * P + (e + R.η * (1 / h))) ≤ R.g ^ (k + 4) * (1 + (e + R.under h)) := by
      refine mul_le_mul (pow_le_pow_right₀ hg (by omega)) (by linarith) ?_ hg0.le
      have := m5.right
      linarith
    linarith
  refine (R.div _ _ f3 f2 hpos.ne' (R.fits_of_le m5.left hq hf2)).imp fun z ⟨z1, z2, z3⟩ => ⟨z1, ?_⟩
  have n5 := near_round R.u_nonneg R.u_lt_one hη m5.left (z3 m5.left) z2
  have := n5.trans hg hη (by linarith) m5
  refine this.mono hg (by linarith) (by omega) ?_
  unfold RoundK.under
  linarith

theorem add_near {k : ℕ} {e f P Q : F} {a b : K} (he : 0 ≤ e) (hf : 0 ≤ f) (ha : R.Finite a) (hb : R.Finite b) (hna : Near R.g k e (R.val a) P) (hnb : Near R.g k f (R.val b) Q)
    (hfit : R.Fits (R.val a + R.val b)) : R.Finite (a + b) ∧ Near R.g (k + 1) (e + f) (R.val (a + b)) (P + Q) := by
  obtain ⟨h1, h2⟩ := R.add a b ha hb hfit
  have h0 : 0 ≤ R.val a + R.val b := add_nonneg hna.left hnb.left
  have n1 : Near R.g 1 0 (R.val (a + b)) (R.val a + R.val b) :=
    near_round R.u_nonneg R.u_lt_one le_rfl h0 (nonneg_of_round R.u_lt_one h0 h2) (by simpa using h2)
  have := n1.trans R.one_le_g le_rfl (add_nonneg he hf) (hna.add hnb)
  rw [zero_add, add_comm 1 k] at this
  exact ⟨h1, this⟩

/-- Pieces are at most one. -/
theorem piece_le_one {t : ℕ → F} {s : ℕ} {x : F} {p k : ℕ} (hl : ∀ i, s < i + p → i ≤ s → t i ≤ x) (hr : ∀ j, s < j → j ≤ s + p → x ≤ t j)
    (hn : Nondeg t s p) (hp : p ≤ s) (hk : k ≤ p) (i : ℕ) : piece t s k i x ≤ 1 := by
  by_cases h0 : piece t s k i x = 0
  · rw [h0]; exact zero_le_one
  · have h1 := (piece_support h0).1
    rw [← sum_piece_eq_one x k (by omega) (hn.mono hk)]
    exact Finset.single_le_sum (f := fun i => piece t s k i x) (fun i _ => piece_nonneg hl hr k i hk) (Finset.mem_range.2 (by omega))

end RoundK

variable (R : RoundK K F)

theorem rd_map_val {t : List K} {i : ℕ} (h : i < t.length) : Ok (rd t i) fun v => v ∈ t ∧ R.val v = knotFn (t.map R.val) i := by
  rw [rd_ok h]
  refine ⟨List.getElem_mem h, ?_⟩
  unfold knotFn
  rw [List.getD_eq_getElem?_getD, List.getElem?_map, List.getElem?_eq_getElem h]; rfl

/-- What is known of an entry of the buffer. -/
def RoundK.Entry (h : F) (T : ℕ → F) (s order : ℕ) (x : F) (k a : ℕ) (b : List K) : Prop :=
  ∃ v, b[a]? = some v ∧ R.Finite v ∧ Near R.g (5 * k) (R.absErr h k) (R.val v) (piece T s k (s - order + a) x)

theorem Fl.baseSplineValue_near {order : ℕ} {t : List K} {s : ℕ} {x : K} {p : ℕ} (h1 : order ≤ s) (h2 : s + order < t.length)
    (hfin : ∀ v ∈ t, R.Finite v) (hx : R.Finite x)
    (hn : Nondeg (knotFn (t.map R.val)) s order) (hp : p ≤ order)
    (hl : ∀ i, s < i + order → i ≤ s → knotFn (t.map R.val) i ≤ R.val x)
    (hr : ∀ j, s < j → j ≤ s + order → R.val x ≤ knotFn (t.map R.val) j) {h W : F} (hh : 0 < h)
    (hh' : ∀ i j, s < i + order → i ≤ s → s < j → j ≤ s + order → h ≤ knotFn (t.map R.val) j - knotFn (t.map R.val) i ∧
      knotFn (t.map R.val) j - knotFn (t.map R.val) i ≤ W)
    (hB : R.g ^ (5 * order) * (1 + R.absErr h order) ≤ 2) (hfW : R.Fits (4 * W)) (hf2 : R.Fits 2) :
    Ok (Fl.baseSplineValue order t s x p) fun b => b.length = order + 1 ∧
      ∀ a, a ≤ order → R.Entry h (knotFn (t.map R.val)) s order (R.val x) p a b := by
  set T := knotFn (t.map R.val) with hT
  have hg := R.one_le_g
  unfold Fl.baseSplineValue
  rw [wr_ok (by simp), ok_bind]
  have := Spec.loop (E := fun _ => False) (lo := 1) (hi := p + 1)
    (s := (List.replicate (order + 1) (0 : K)).set order 1)
    (P := fun i b => b.length = order + 1 ∧ ∀ a, a ≤ order → R.Entry h T s order (R.val x) (i - 1) a b)
    (f := fun i b => do
      let idxBegin ← subM order i
      loop 0 (i + 1) b fun j b => Fl.baseSplineBody order t s x i idxBegin j b) (by omega) ?_ ?_
  · exact this.imp fun b hb => by simpa using hb
  · refine ⟨by simp, fun a ha => ?_⟩
    have hz : R.absErr h 0 = 0 := by unfold RoundK.absErr; simp
    by_cases hao : a = order
    · subst hao
      refine ⟨1, by simp, R.finite_one, ?_⟩
      rw [R.val_one]
      simp only [Nat.sub_self, Nat.mul_zero, piece]
      rw [if_pos (by omega), hz]
      exact Near.refl zero_le_one
    · refine ⟨0, ?_, R.finite_zero, ?_⟩
      · rw [List.getElem?_set_ne (by omega), List.getElem?_replicate, if_pos (by omega)]
      · rw [R.val_zero]
        simp only [Nat.sub_self, Nat.mul_zero, piece]
        rw [if_neg (by omega), hz]
        exact Near.refl le_rfl
  intro i b hi1 hi2 hb
  rw [subM_ok (by omega), ok_bind]
  have inner := Spec.loop (E := fun _ => False) (lo := 0) (hi := i + 1)
    (s := b)
    (P := fun j b => b.length = order + 1 ∧ ∀ a, a ≤ order → R.Entry h T s order (R.val x) (if a < order - i + j then i else i - 1) a b)
    (f := fun j b => Fl.baseSplineBody order t s x i (order - i) j b) (by omega) ?_ ?_
  · refine inner.imp fun b hb => ⟨hb.1, fun a ha => ?_⟩
    have := hb.2 a ha
    rw [if_pos (by omega)] at this
    simpa using this
  · refine ⟨hb.1, fun a ha => ?_⟩
    obtain ⟨v, v1, v2, v3⟩ := hb.2 a ha
    split
    · refine ⟨v, v1, v2, ?_⟩
      rw [piece_zero_of_gt _ _ _ _ _ (by omega)] at v3 ⊢
      exact v3.mono hg (R.absErr_nonneg hh _) (by omega) (R.absErr_mono hh (by omega))
    · exact ⟨v, v1, v2, v3⟩
  clear hb b
  intro j b _ hj hb
  obtain ⟨hlen, hb⟩ := hb
  obtain ⟨k, rfl⟩ : ∃ k, i = k + 1 := ⟨i - 1, by omega⟩
  set G := s - (k + 1) + j with hG
  have hga : s - order + (order - (k + 1) + j) = G := by omega
  have hB' : R.g ^ (5 * k + 4) * (1 + (R.absErr h k + R.under h)) ≤ 2 := by
    refine le_trans ?_ hB
    have e1 := R.absErr_mono hh (show k + 1 ≤ order by omega)
    have e2 := R.absErr_nonneg hh k
    have e3 := R.under_nonneg hh
    rw [R.absErr_succ] at e1
    exact mul_le_mul (pow_le_pow_right₀ hg (by omega)) (by linarith) (by linarith) (pow_nonneg (by linarith) _)
  have hB2 : R.g ^ (5 * k + 4) * (1 + R.absErr h (k + 1)) ≤ 2 := by
    refine le_trans ?_ hB
    have e1 := R.absErr_mono hh (show k + 1 ≤ order by omega)
    have e2 := R.absErr_nonneg hh (k + 1)
    exact mul_le_mul (pow_le_pow_right₀ hg (by omega)) (by linarith) (by linarith) (pow_nonneg (by linarith) _)
  unfold Fl.baseSplineBody
  rw [itAdd_ok (r := G) (by omega) (by omega), ok_bind, itAdd_ok (r := s + j + 1) (by omega) (by omega), ok_bind]
  have hz : Near R.g (5 * k + 4) (R.absErr h k + R.under h) (R.val 0) 0 := by
    rw [R.val_zero]
    refine (Near.refl le_rfl).mono hg le_rfl (by omega) ?_
    exact add_nonneg (R.absErr_nonneg hh k) (R.under_nonneg hh)
  have rdv : ∀ a, a ≤ order → ¬ a < order - (k + 1) + j → Ok (rd b a) fun v => R.Finite v ∧
      Near R.g (5 * k) (R.absErr h k) (R.val v) (piece T s k (s - order + a) (R.val x)) := by
    intro a ha hc
    obtain ⟨v, v1, v2, v3⟩ := hb a ha
    rw [if_neg hc] at v3
    exact (Ok_rd v1).imp fun w hw => by subst hw; exact ⟨v2, v3⟩
  -- first term
  have hu : Ok (Fl.baseLeftTerm t x j (order - (k + 1) + j) G (s + j + 1) b) fun z => R.Finite z ∧
      Near R.g (5 * k + 4) (R.absErr h k + R.under h) (R.val z) ((R.val x - T G) / (T (G + k + 1) - T G) * piece T s k G (R.val x)) := by
    unfold Fl.baseLeftTerm
    by_cases h0 : j = 0
    · rw [if_pos h0, piece_zero_of_gt _ _ _ _ _ (by omega), mul_zero]
      exact Spec.pure ⟨R.finite_zero, hz⟩
    · rw [if_neg h0]
      refine Spec.bind (rdv _ (by omega) (by omega)) fun v ⟨v1, v2⟩ => ?_
      refine Spec.bind (rd_map_val R (i := G) (by omega)) fun l ⟨l1, l2⟩ => ?_
      refine Spec.bind (rd_map_val R (i := s + j + 1 - 1) (by omega)) fun r ⟨r1, r2⟩ => ?_
      rw [← hT] at l2 r2
      rw [hga] at v2
      have a1 := hl G (by omega) (by omega)
      have a2 := hr (s + j + 1 - 1) (by omega) (by omega)
      have a3 := hh' G (s + j + 1 - 1) (by omega) (by omega) (by omega) (by omega)
      refine (R.term_near (W := W) (R.absErr_nonneg hh k) hh v1 hx (hfin l l1) (hfin r r1) (hfin l l1)
        (RoundK.piece_le_one hl hr hn h1 (by omega) G) v2 (by rw [l2]; exact a1) (by rw [l2, r2]; linarith)
        (by rw [l2, r2]; exact a3.1) (by rw [l2, r2]; exact a3.2) hB' hfW hf2).imp fun z hz => ⟨hz.1, ?_⟩
      have := hz.2
      rw [l2, r2] at this
      rwa [show G + k + 1 = s + j + 1 - 1 by omega]
  have hw : Ok (Fl.baseRightTerm order t x (order - (k + 1) + j) G (s + j + 1) b) fun z => R.Finite z ∧
      Near R.g (5 * k + 4) (R.absErr h k + R.under h) (R.val z)
        ((T (G + k + 2) - R.val x) / (T (G + k + 2) - T (G + 1)) * piece T s k (G + 1) (R.val x)) := by
    unfold Fl.baseRightTerm
    by_cases h0 : order - (k + 1) + j = order
    · rw [if_pos h0, piece_zero_of_lt _ _ _ _ _ (by omega), mul_zero]
      exact Spec.pure ⟨R.finite_zero, hz⟩
    · rw [if_neg h0]
      refine Spec.bind (rdv _ (by omega) (by omega)) fun v ⟨v1, v2⟩ => ?_
      refine Spec.bind (rd_map_val R (i := s + j + 1) (by omega)) fun r ⟨r1, r2⟩ => ?_
      refine Spec.bind (rd_map_val R (i := G + 1) (by omega)) fun l ⟨l1, l2⟩ => ?_
      rw [← hT] at l2 r2
      rw [← Nat.add_assoc (s - order), hga] at v2
      have a1 := hl (G + 1) (by omega) (by omega)
      have a2 := hr (s + j + 1) (by omega) (by omega)
      have a3 := hh' (G + 1) (s + j + 1) (by omega) (by omega) (by omega) (by omega)
      refine (R.term_near (W := W) (R.absErr_nonneg hh k) hh v1 (hfin r r1) hx (hfin r r1) (hfin l l1)
        (RoundK.piece_le_one hl hr hn h1 (by omega) (G + 1)) v2 (by rw [r2]; exact a2) (by rw [l2, r2]; linarith)
        (by rw [l2, r2]; exact a3.1) (by rw [l2, r2]; exact a3.2) hB' hfW hf2).imp fun z hz => ⟨hz.1, ?_⟩
      have := hz.2
      rw [l2, r2] at this
      rwa [show G + k + 2 = s + j + 1 by omega]
  refine Spec.bind hu fun y ⟨y1, y2⟩ => Spec.bind hw fun z ⟨z1, z2⟩ => ?_
  rw [wr_ok (by omega)]
  have e0 : 0 ≤ R.absErr h k + R.under h := add_nonneg (R.absErr_nonneg hh k) (R.under_nonneg hh)
  have hfit : R.Fits (R.val y + R.val z) := by
    have m := y2.add z2
    have m1 : R.val y + R.val z ≤ R.g ^ (5 * k + 4) * (1 + R.absErr h (k + 1)) := by
      refine m.le.trans (mul_le_mul_of_nonneg_left ?_ (pow_nonneg (by linarith) _))
      rw [R.absErr_succ]
      have := RoundK.piece_le_one hl hr hn h1 (show k + 1 ≤ order by omega) G
      rw [piece] at this
      linarith
    exact R.fits_of_le m.left (m1.trans hB2) hf2
  obtain ⟨n1, n2⟩ := R.add_near e0 e0 y1 z1 y2 z2 hfit
  refine Spec.ok ⟨by simpa using hlen, fun a ha => ?_⟩
  by_cases hak : a = order - (k + 1) + j
  · subst hak
    rw [if_pos (by omega)]
    refine ⟨y + z, by rw [List.getElem?_set_self (by omega)], n1, ?_⟩
    rw [hga, R.absErr_succ, piece]
    refine n2.mono hg (by linarith) (by omega) (by linarith)
  · obtain ⟨v, v1, v2, v3⟩ := hb a ha
    refine ⟨v, by rw [List.getElem?_set_ne (Ne.symm hak)]; exact v1, v2, ?_⟩
    by_cases h' : a < order - (k + 1) + j
    · rw [if_pos (by omega)]; rw [if_pos h'] at v3; exact v3
    · rw [if_neg (by omega)]; rw [if_neg h'] at v3; exact v3

end Intp
