import Verif.Proofs.Deriv
import Verif.Proofs.RoundEval

/-!
# Rounding errors of `derivative_at`

Values can have any sign here, so that errors are relative to a bound: `Close`.
-/

namespace Intp

open Finset

section Close

variable {F : Type} [Field F] [LinearOrder F] [IsStrictOrderedRing F]

/-- `b` is at most `B`, and `a` differs from it by `k` relative errors of `B` and an absolute error `e`. -/
structure Close (g : F) (k : ℕ) (e B a b : F) : Prop where
  bound : |b| ≤ B
  err : |a - b| + B ≤ g ^ k * (B + e)

variable {g : F} {k l : ℕ} {e f B C a b c d : F}

theorem Close.refl (h : |a| ≤ B) : Close g 0 0 B a a := ⟨h, by simp⟩

theorem Close.nonneg (h : Close g k e B a b) : 0 ≤ B := (abs_nonneg b).trans h.bound

theorem Close.mono (hg : 1 ≤ g) (he : 0 ≤ e) (h : Close g k e B a b) (hk : k ≤ l) (hf : e ≤ f) (hB : B ≤ C) : Close g l f C a b := by
  refine ⟨h.bound.trans hB, ?_⟩
  have h0 := h.nonneg
  have h1 : 1 ≤ g ^ k := one_le_pow₀ hg
  have h2 : g ^ k ≤ g ^ l := pow_le_pow_right₀ hg hk
  have h3 := h.err
  have h4 : g ^ k * (C + f) ≤ g ^ l * (C + f) := mul_le_mul_of_nonneg_right h2 (by linarith)
  have h5 : g ^ k * (B + e) + (C - B) ≤ g ^ k * (C + f) := by nlinarith
  linarith

theorem Close.abs_le (h : Close g k e B a b) : |a| ≤ g ^ k * (B + e) := by
  have h1 := abs_add_le (a - b) b
  rw [sub_add_cancel] at h1
  linarith [h.bound, h.err]

theorem Close.abs_sub (h : Close g k e B a b) : |a - b| ≤ (g ^ k - 1) * B + g ^ k * e := by
  have := h.err
  linarith

theorem Close.add (h : Close g k e B a b) (h' : Close g k f C c d) : Close g k (e + f) (B + C) (a + c) (b + d) := by
  refine ⟨(abs_add_le _ _).trans (add_le_add h.bound h'.bound), ?_⟩
  have h1 := abs_add_le (a - b) (c - d)
  rw [show a - b + (c - d) = a + c - (b + d) by ring] at h1
  have := h.err
  have := h'.err
  linarith

theorem Close.neg (h : Close g k e B a b) : Close g k e B (-a) (-b) := by
  refine ⟨by rw [abs_neg]; exact h.bound, ?_⟩
  rw [show -a - -b = -(a - b) by ring, abs_neg]
  exact h.err

theorem Close.sub (h : Close g k e B a b) (h' : Close g k f C c d) : Close g k (e + f) (B + C) (a - c) (b - d) := by
  rw [sub_eq_add_neg, sub_eq_add_neg]
  exact h.add h'.neg

theorem Close.smul (h : Close g k e B a b) (hc : 0 ≤ c) : Close g k (c * e) (c * B) (c * a) (c * b) := by
  refine ⟨by rw [abs_mul, abs_of_nonneg hc]; exact mul_le_mul_of_nonneg_left h.bound hc, ?_⟩
  rw [← mul_sub, abs_mul, abs_of_nonneg hc, ← mul_add]
  have := mul_le_mul_of_nonneg_left h.err hc
  linarith

/-- One rounding. -/
theorem Close.round {u η z : F} (hu : 0 ≤ u) (hu1 : u < 1) (hη : 0 ≤ η) (he : 0 ≤ e) (h : Close (1 - u)⁻¹ k e B a b)
    (hz : |z - a| ≤ u * |a| + η) : Close (1 - u)⁻¹ (k + 1) (e + η) B z b := by
  refine ⟨h.bound, ?_⟩
  have hg := Intp.one_le_g hu hu1
  set g := (1 - u)⁻¹ with hgd
  have hug : 1 + u ≤ g := by
    rw [hgd, inv_eq_one_div, le_div_iff₀ (by linarith)]
    nlinarith
  have h0 := h.nonneg
  have h1 := abs_add_le (z - a) (a - b)
  rw [sub_add_sub_cancel] at h1
  have h2 := abs_add_le (a - b) b
  rw [sub_add_cancel] at h2
  have h3 := h.err
  have h4 := h.bound
  have h5 : u * |a| ≤ u * (g ^ k * (B + e)) := mul_le_mul_of_nonneg_left h.abs_le hu
  have h6 : (1 + u) * (g ^ k * (B + e)) ≤ g * (g ^ k * (B + e)) := mul_le_mul_of_nonneg_right hug (by positivity)
  have h7 : (1 : F) ≤ g ^ (k + 1) := one_le_pow₀ hg
  have h8 : η ≤ g ^ (k + 1) * η := by nlinarith
  have h9 : g * (g ^ k * (B + e)) = g ^ (k + 1) * (B + e) := by ring
  linarith

/-- Division by a rounded number. -/
theorem Close.div {u x y : F} (hu : 0 ≤ u) (hu1 : u < 1) (he : 0 ≤ e) (h : Close (1 - u)⁻¹ k e B a b) (hy : 0 < y) (hx : |x - y| ≤ u * y) :
    0 < x ∧ Close (1 - u)⁻¹ (k + 1) (e / y) (B / y) (a / x) (b / y) := by
  have hg := Intp.one_le_g hu hu1
  set g := (1 - u)⁻¹ with hgd
  obtain ⟨x1, x2⟩ := _root_.abs_le.1 hx
  have hu' : 0 < 1 - u := by linarith
  have hxp : (1 - u) * y ≤ x := by linarith
  have hx0 : 0 < x := lt_of_lt_of_le (mul_pos hu' hy) hxp
  refine ⟨hx0, ?_, ?_⟩
  · rw [abs_div, abs_of_pos hy]
    exact div_le_div_of_nonneg_right h.bound hy.le
  have h0 := h.nonneg
  have hgu : g * (1 - u) = 1 := by rw [hgd]; exact inv_mul_cancel₀ hu'.ne'
  have i1 : 1 / x ≤ g / y := by
    rw [div_le_div_iff₀ hx0 hy]
    have := mul_le_mul_of_nonneg_left hxp (zero_le_one.trans hg)
    nlinarith
  have i2 : |1 / x - 1 / y| ≤ (g - 1) / y := by
    rw [_root_.abs_le]
    constructor
    · have : (2 - g) / y ≤ 1 / x := by
        rw [div_le_div_iff₀ hy hx0]
        by_cases h2 : g ≤ 2
        · have e1 : (2 - g) * x ≤ (2 - g) * ((1 + u) * y) := mul_le_mul_of_nonneg_left (by linarith) (by linarith)
          have e2 : (2 - g) * (1 + u) ≤ 1 := by nlinarith [mul_nonneg hu hu, mul_nonneg (by linarith : 0 ≤ g) (mul_nonneg hu hu)]
          nlinarith
        · have : (2 - g) * x ≤ 0 := mul_nonpos_of_nonpos_of_nonneg (by linarith) hx0.le
          linarith
      have e3 : (2 - g) / y = 1 / y - (g - 1) / y := by rw [← sub_div]; congr 1; ring
      linarith
    · have e3 : (g - 1) / y = g / y - 1 / y := sub_div _ _ _
      linarith
  have e1 : a / x - b / y = (a - b) * (1 / x) + b * (1 / x - 1 / y) := by ring
  have h1 : |a / x - b / y| ≤ |a - b| * (g / y) + B * ((g - 1) / y) := by
    rw [e1]
    refine (abs_add_le _ _).trans (add_le_add ?_ ?_)
    · rw [abs_mul, abs_of_pos (one_div_pos.2 hx0)]
      exact mul_le_mul_of_nonneg_left i1 (abs_nonneg _)
    · rw [abs_mul]
      exact mul_le_mul h.bound i2 (abs_nonneg _) h0
  have h2 : (|a - b| + B) * (g / y) ≤ g ^ k * (B + e) * (g / y) := mul_le_mul_of_nonneg_right h.err (by positivity)
  have e2 : g ^ (k + 1) * (B / y + e / y) = g ^ k * (B + e) * (g / y) := by ring
  have e3 : B * ((g - 1) / y) + B / y = B * (g / y) := by ring
  rw [e2]
  linarith

/-- The product with a non-negative factor with a relative error. -/
theorem Near.mul_close (hg : 1 ≤ g) (he : 0 ≤ e) (h : Near g k e a b) (h' : Close g l f C c d) :
    Close g (k + l) (b * f + e * (C + f)) (b * C) (a * c) (b * d) := by
  have hb := h.right
  have ha := h.left
  have hC := h'.nonneg
  refine ⟨by rw [abs_mul, abs_of_nonneg hb]; exact mul_le_mul_of_nonneg_left h'.bound hb, ?_⟩
  have e1 : a * c - b * d = a * (c - d) + (a - b) * d := by ring
  have h1 : |a * c - b * d| ≤ a * |c - d| + |a - b| * C := by
    rw [e1]
    refine (abs_add_le _ _).trans (add_le_add ?_ ?_)
    · rw [abs_mul, abs_of_nonneg ha]
    · rw [abs_mul]; exact mul_le_mul_of_nonneg_left h'.bound (abs_nonneg _)
  have h2 := h.abs_sub hg he
  have h3 : |a - b| + b ≤ g ^ k * (b + e) := by linarith
  have h4 : a * |c - d| ≤ g ^ k * (b + e) * |c - d| := mul_le_mul_of_nonneg_right h.le (abs_nonneg _)
  have h5 : (|a - b| + b) * C ≤ g ^ k * (b + e) * C := mul_le_mul_of_nonneg_right h3 hC
  have h6 : g ^ k * (b + e) * (|c - d| + C) ≤ g ^ k * (b + e) * (g ^ l * (C + f)) :=
    mul_le_mul_of_nonneg_left h'.err (mul_nonneg (by positivity) (by linarith))
  have e2 : g ^ (k + l) * (b * C + (b * f + e * (C + f))) = g ^ k * (b + e) * (g ^ l * (C + f)) := by rw [pow_add]; ring
  rw [e2]
  linarith

end Close

variable {K F V : Type} [CoordArith K] [Field F] [LinearOrder F] [IsStrictOrderedRing F] [FloorRing F] [ValArith V] [ScaleArith K V] {D : ℕ}
variable {R : RoundK K F} {S : RoundV R V} (T : RoundD S)

include T in
/-- One assignment of the reduction. -/
theorem reduce_step {hi lo : V} {a c : K} {k n : ℕ} {e B Γ x y L : F} (he : 0 ≤ e) (hhi : S.Finite hi) (hlo : S.Finite lo) (ha : R.Finite a)
    (hc : R.Finite c) (h1 : Close R.g n e B (S.val hi) x) (h2 : Close R.g n e B (S.val lo) y) (hlt : R.val c < R.val a) (hk1 : 1 ≤ k)
    (hk : k ≤ 2 ^ 20) (hΓ : 2 * k ≤ Γ * (R.val a - R.val c)) (hΓ1 : 1 ≤ Γ) (hfW : R.Fits (R.val a - R.val c)) (hfL : R.Fits L)
    (hL1 : R.g ^ (n + 3) * (2 * k * (B + e)) ≤ L) (hL2 : R.g ^ (n + 3) * (Γ * (B + e + R.η)) ≤ L) :
    Ok (ScaleArith.divV ((CoordArith.ofNat k : K) • (hi - lo)) (a - c)) fun z => S.Finite z ∧
      Close R.g (n + 4) (Γ * (e + 2 * R.η)) (Γ * B) (S.val z) ((R.val a - R.val c)⁻¹ * (k * (x - y))) := by
  have hg := R.one_le_g
  have hu := R.u_nonneg
  have hu1 := R.u_lt_one
  have hη := R.η_nonneg
  have hB := h1.nonneg
  have hk0 : (1 : F) ≤ k := by exact_mod_cast hk1
  have hΔ : 0 < R.val a - R.val c := sub_pos.2 hlt
  have fits : ∀ {m : ℕ} {e' B' p q : F}, Close R.g m e' B' p q → 0 ≤ e' → m ≤ n + 3 → R.g ^ (n + 3) * (B' + e') ≤ L → R.Fits p := by
    intro m e' B' p q h h0 hm h'
    have h3 := h.nonneg
    have h4 : R.g ^ m * (B' + e') ≤ R.g ^ (n + 3) * (B' + e') := mul_le_mul_of_nonneg_right (pow_le_pow_right₀ hg hm) (by linarith)
    have h5 := (h.abs_le.trans h4).trans h'
    exact R.fits_mono _ _ (h5.trans (le_abs_self _)) hfL
  have hgn : 0 ≤ R.g ^ (n + 3) := by positivity
  -- difference
  have d0 := h1.sub h2
  obtain ⟨f1, r1⟩ := T.sub hi lo hhi hlo (fits d0 (by linarith) (by omega) (by
    refine le_trans (mul_le_mul_of_nonneg_left ?_ hgn) hL1
    nlinarith))
  have d1 := d0.round hu hu1 le_rfl (by linarith) (z := S.val (hi - lo)) (by rw [add_zero]; exact r1)
  rw [add_zero] at d1
  -- product
  obtain ⟨k1, k2⟩ := T.ofNat k hk
  have d2 := d1.smul (c := (k : F)) (by linarith)
  obtain ⟨f2, r2⟩ := S.smul (CoordArith.ofNat k : K) (hi - lo) k1 f1 (by
    rw [k2]
    refine fits d2 (mul_nonneg (by linarith) (by linarith)) (by omega) ?_
    refine le_trans (mul_le_mul_of_nonneg_left ?_ hgn) hL1
    linarith)
  rw [k2] at r2
  have d3 := d2.round hu hu1 hη (mul_nonneg (by linarith) (by linarith)) r2
  -- denominator
  obtain ⟨f3, r3⟩ := R.sub a c ha hc hfW
  rw [abs_of_pos hΔ] at r3
  obtain ⟨hpos, d4⟩ := d3.div hu hu1 (add_nonneg (mul_nonneg (by linarith) (by linarith)) hη) hΔ r3
  -- bounds
  have hkΓ : (k : F) / (R.val a - R.val c) ≤ Γ / 2 := by
    rw [div_le_div_iff₀ hΔ (by norm_num)]; linarith
  have hηΓ : R.η / (R.val a - R.val c) ≤ Γ / 2 * R.η := by
    have s1 : (1 : F) / (R.val a - R.val c) ≤ Γ / 2 := (div_le_div_of_nonneg_right hk0 hΔ.le).trans hkΓ
    have := mul_le_mul_of_nonneg_right s1 hη
    rwa [one_div_mul_eq_div] at this
  have b1 : (k : F) * (B + B) / (R.val a - R.val c) ≤ Γ * B := by
    have e1 : (k : F) * (B + B) / (R.val a - R.val c) = k / (R.val a - R.val c) * (2 * B) := by ring
    rw [e1]
    have := mul_le_mul_of_nonneg_right hkΓ (by linarith : 0 ≤ 2 * B)
    linarith
  have b2 : ((k : F) * (e + e) + R.η) / (R.val a - R.val c) ≤ Γ * (e + R.η) := by
    have e1 : ((k : F) * (e + e) + R.η) / (R.val a - R.val c) = k / (R.val a - R.val c) * (2 * e) + R.η / (R.val a - R.val c) := by ring
    rw [e1]
    have := mul_le_mul_of_nonneg_right hkΓ (by linarith : 0 ≤ 2 * e)
    have : 0 ≤ Γ / 2 * R.η := mul_nonneg (by linarith) hη
    linarith
  have d5 := d4.mono hg (div_nonneg (add_nonneg (mul_nonneg (by linarith) (by linarith)) hη) hΔ.le) le_rfl b2 b1
  have hΓe : 0 ≤ Γ * (e + R.η) := mul_nonneg (by linarith) (by linarith)
  refine (T.divV _ _ f2 f3 hpos.ne' (fits d5 hΓe (by omega) ?_)).imp fun z ⟨z1, z2⟩ => ⟨z1, ?_⟩
  · refine le_trans (mul_le_mul_of_nonneg_left (le_of_eq ?_) hgn) hL2
    ring
  have d6 := d5.round hu hu1 hη hΓe z2
  rw [show (k : F) * (x - y) / (R.val a - R.val c) = (R.val a - R.val c)⁻¹ * (k * (x - y)) by rw [div_eq_mul_inv, mul_comm]] at d6
  refine d6.mono hg (add_nonneg hΓe hη) (by omega) ?_ le_rfl
  nlinarith

namespace BSpline

/-- What is known of the values of a line. -/
def LineClose (S : RoundV R V) (order n : ℕ) (e B : F) (l : ℕ → V) (c : ℕ → F) : Prop :=
  ∀ a, a ≤ order → S.Finite (l a) ∧ Close R.g n e B (S.val (l a)) (c a)

include T in
theorem Fl.derivReduceLine_near {buf0 buf : List V} {off step : ℕ} {order p s n : ℕ} {t : List K} {e B Γ : F} {l : ℕ → V} {c : ℕ → F} (hstep : 0 < step)
    (hs : order ≤ s) (hlen : s + order < t.length) (hfin : ∀ v ∈ t, R.Finite v) (hn : Nondeg (knotFn (t.map R.val)) s order) (hp : p ≤ order)
    (hord : order ≤ 2 ^ 20) (hΓ1 : 1 ≤ Γ)
    (hΓ : ∀ i k, i ≤ s → s < i + k → 1 ≤ k → k ≤ order → 2 * (k : F) ≤ Γ * (knotFn (t.map R.val) (i + k) - knotFn (t.map R.val) i))
    (hfW : ∀ i k, i ≤ s → s < i + k → 1 ≤ k → k ≤ order → R.Fits (knotFn (t.map R.val) (i + k) - knotFn (t.map R.val) i))
    (he : 0 ≤ e) (hb : LineHolds buf0 off step (order + 1) buf l) (hc : LineClose S order n e B l c)
    (hfit : R.Fits (2 * (order + 1) * (R.g ^ (n + 4 * (order - p)) * (Γ ^ (order - p) * (B + e + 2 * (order - p : ℕ) * R.η))))) :
    Ok (Fl.derivReduceLine order t s p off step buf) fun buf' => ∃ l' c', LineHolds buf0 off step (order + 1) buf' l' ∧
      LineClose S order (n + 4 * (order - p)) (Γ ^ (order - p) * (e + 2 * (order - p : ℕ) * R.η)) (Γ ^ (order - p) * B) l' c' ∧
      ∀ a, order - p ≤ a → a ≤ order →
        c' a = dctrlIter (knotFn (t.map R.val)) (order - p) order (fun i => c (i - (s - order))) (s - order + a) := by
  have hg := R.one_le_g
  have hη := R.η_nonneg
  have hB := (hc 0 (Nat.zero_le _)).2.nonneg
  set tv := knotFn (t.map R.val) with hT
  set cg : ℕ → F := fun i => c (i - (s - order)) with hcg
  have hmono : ∀ {q q' : ℕ} {x : F}, 0 ≤ x → q ≤ q' → Γ ^ q * x ≤ Γ ^ q' * x := fun hx hq =>
    mul_le_mul_of_nonneg_right (pow_le_pow_right₀ hΓ1 hq) hx
  have hq0 : ∀ q : ℕ, 0 ≤ e + 2 * (q : F) * R.η := fun q => by positivity
  have hΓ0 : ∀ q : ℕ, 0 ≤ Γ ^ q := fun q => pow_nonneg (by linarith) q
  unfold Fl.derivReduceLine
  have main := Spec.loopDown (E := fun _ => False) (P := fun kk buf => ∃ (l' : ℕ → V) (c' : ℕ → F), LineHolds buf0 off step (order + 1) buf l' ∧
      LineClose S order (n + 4 * (order - p - kk)) (Γ ^ (order - p - kk) * (e + 2 * (order - p - kk : ℕ) * R.η)) (Γ ^ (order - p - kk) * B) l' c' ∧
      ∀ a, order - (p + kk) ≤ a → a ≤ order → c' a = dctrlIter tv (order - p - kk) order cg (s - order + a))
    (f := fun kk buf => loopDown (p + kk + 1) buf fun jj buf => Fl.derivReduceBody order t s off step (p + kk + 1) (jj + 1) buf)
    (order - p) buf ?_ ?_
  · refine main.imp fun buf' ⟨l', c', h1, h2, h3⟩ => ⟨l', c', h1, by simpa using h2, fun a ha1 ha2 => ?_⟩
    simpa using h3 a (by simpa using ha1) ha2
  · refine ⟨l, c, hb, ?_, fun a _ ha => ?_⟩
    · rw [Nat.sub_self]; simpa using hc
    · rw [Nat.sub_self]
      simp only [dctrlIter, hcg]
      congr 1; omega
  rintro kk buf hkk ⟨l1, c1, h1, h1c, h2⟩
  set k := p + kk + 1 with hk
  obtain ⟨m, hm⟩ : ∃ m, order = m + k := ⟨order - k, by omega⟩
  have em : order - p - (kk + 1) = m := by omega
  have em1 : order - p - kk = m + 1 := by omega
  rw [em] at h1c h2
  have up : Γ * (Γ ^ m * (e + 2 * (m : F) * R.η) + 2 * R.η) ≤ Γ ^ (m + 1) * (e + 2 * (m + 1 : ℕ) * R.η) := by
    have h3 : Γ ^ 1 * (2 * R.η) ≤ Γ ^ (m + 1) * (2 * R.η) := hmono (by linarith) (by omega)
    rw [pow_one] at h3
    have e1 : Γ * (Γ ^ m * (e + 2 * (m : F) * R.η) + 2 * R.η) = Γ ^ (m + 1) * (e + 2 * (m : F) * R.η) + Γ * (2 * R.η) := by ring
    have e2 : Γ ^ (m + 1) * (e + 2 * (m + 1 : ℕ) * R.η) = Γ ^ (m + 1) * (e + 2 * (m : F) * R.η) + Γ ^ (m + 1) * (2 * R.η) := by push_cast; ring
    linarith
  have inner := Spec.loopDown (E := fun _ => False) (P := fun jj buf => ∃ (l' : ℕ → V) (c' : ℕ → F), LineHolds buf0 off step (order + 1) buf l' ∧
      (∀ a, m + jj < a → a ≤ order → S.Finite (l' a) ∧
        Close R.g (n + 4 * (m + 1)) (Γ ^ (m + 1) * (e + 2 * (m + 1 : ℕ) * R.η)) (Γ ^ (m + 1) * B) (S.val (l' a)) (c' a) ∧
        c' a = dctrlIter tv (m + 1) order cg (s - order + a)) ∧
      (∀ a, a ≤ m + jj → l' a = l1 a ∧ c' a = c1 a))
    (f := fun jj buf => Fl.derivReduceBody order t s off step k (jj + 1) buf) k buf ?_ ?_
  · refine inner.imp fun buf' ⟨l', c', g1, g2, g3⟩ => ⟨l', c', g1, ?_, fun a ha1 ha2 => ?_⟩
    · rw [em1]
      intro a ha
      by_cases hma : m < a
      · exact ⟨(g2 a (by omega) ha).1, (g2 a (by omega) ha).2.1⟩
      · obtain ⟨e1, e2⟩ := g3 a (by omega)
        rw [e1, e2]
        refine ⟨(h1c a ha).1, (h1c a ha).2.mono hg (mul_nonneg (hΓ0 _) (hq0 _)) (by omega) ?_ (hmono hB (by omega))⟩
        refine (hmono (hq0 m) (Nat.le_succ m)).trans (mul_le_mul_of_nonneg_left ?_ (hΓ0 _))
        push_cast; linarith
    · rw [em1]
      exact (g2 a (by omega) ha2).2.2
  · exact ⟨l1, c1, h1, fun a ha1 ha2 => by omega, fun a _ => ⟨rfl, rfl⟩⟩
  rintro jj buf hjj ⟨l2, c2, g1, g2, g3⟩
  unfold Fl.derivReduceBody
  rw [subM_ok (by omega), ok_bind, subM_ok (by omega), ok_bind]
  rw [show order + (jj + 1) - k = m + jj + 1 by omega, show m + jj + 1 - 1 = m + jj by omega]
  rw [g1.read (i := m + jj + 1) (by omega), ok_bind, g1.read (i := m + jj) (by omega), ok_bind]
  refine Spec.bind (rd_map_val R (by omega : s + (jj + 1) < t.length)) fun tj ⟨j1, j2⟩ => ?_
  rw [subM_ok (by omega), ok_bind]
  refine Spec.bind (rd_map_val R (by omega : s + (jj + 1) - k < t.length)) fun tjk ⟨q1, q2⟩ => ?_
  have hlt := hn (s + (jj + 1) - k) (s + (jj + 1)) (by omega) (by omega) (by omega) (by omega)
  have hik : s + (jj + 1) - k + k = s + (jj + 1) := by omega
  have hΓk := hΓ (s + (jj + 1) - k) k (by omega) (by omega) (by omega) (by omega)
  have hWk := hfW (s + (jj + 1) - k) k (by omega) (by omega) (by omega) (by omega)
  rw [hik] at hΓk hWk
  rw [← hT] at j2 q2
  rw [← j2, ← q2] at hΓk hWk
  obtain ⟨e1, e2⟩ := g3 (m + jj + 1) (by omega)
  obtain ⟨e3, e4⟩ := g3 (m + jj) (by omega)
  rw [e1, e3]
  obtain ⟨x1, x2⟩ := h1c (m + jj + 1) (by omega)
  obtain ⟨y1, y2⟩ := h1c (m + jj) (by omega)
  -- ranges
  set X := R.g ^ (n + 4 * (order - p)) * (Γ ^ (order - p) * (B + e + 2 * (order - p : ℕ) * R.η)) with hX
  have hop : m + 1 ≤ order - p := by omega
  have hk' : (k : F) ≤ order := by exact_mod_cast (by omega : k ≤ order)
  have hsum0 : 0 ≤ B + e + 2 * (order - p : ℕ) * R.η := by positivity
  have hX1 : ∀ y, 0 ≤ y → y ≤ Γ ^ (order - p) * (B + e + 2 * (order - p : ℕ) * R.η) → R.g ^ (n + 4 * m + 3) * y ≤ X := fun y hy0 hy =>
    mul_le_mul (pow_le_pow_right₀ hg (by omega)) hy hy0 (by positivity)
  have hmp : ((m : ℕ) : F) + 1 ≤ (order - p : ℕ) := by exact_mod_cast hop
  have hsum : B + e + 2 * (m : F) * R.η + R.η ≤ B + e + 2 * (order - p : ℕ) * R.η := by nlinarith
  have hs0 : 0 ≤ B + e + 2 * (m : F) * R.η := by positivity
  have hX0 : 0 ≤ X := mul_nonneg (by positivity) (mul_nonneg (hΓ0 _) hsum0)
  have ho0 : (0 : F) ≤ order := Nat.cast_nonneg _
  refine Spec.bind (reduce_step T (e := Γ ^ m * (e + 2 * (m : F) * R.η)) (B := Γ ^ m * B) (Γ := Γ) (mul_nonneg (hΓ0 _) (hq0 _)) x1 y1 (hfin _ j1) (hfin _ q1) x2 y2
    (by rw [j2, q2]; exact hlt) (by omega) (by omega) hΓk hΓ1 hWk hfit ?_ ?_) fun z ⟨z1, z2⟩ => ?_
  · rw [← mul_add, ← add_assoc]
    have a1 : Γ ^ m * (B + e + 2 * (m : F) * R.η) ≤ Γ ^ (order - p) * (B + e + 2 * (order - p : ℕ) * R.η) :=
      (hmono hs0 (by omega)).trans (mul_le_mul_of_nonneg_left (by linarith) (hΓ0 _))
    have a2 := hX1 _ (mul_nonneg (hΓ0 _) hs0) a1
    have a3 : 2 * (k : F) * (R.g ^ (n + 4 * m + 3) * (Γ ^ m * (B + e + 2 * (m : F) * R.η))) ≤ 2 * (order + 1) * X :=
      mul_le_mul (by linarith) a2 (mul_nonneg (by positivity) (mul_nonneg (hΓ0 _) hs0)) (by positivity)
    refine le_trans (le_of_eq ?_) a3
    ring
  · have a1 : Γ * (Γ ^ m * B + Γ ^ m * (e + 2 * (m : F) * R.η) + R.η) ≤ Γ ^ (order - p) * (B + e + 2 * (order - p : ℕ) * R.η) := by
      have b1 : Γ ^ 1 * R.η ≤ Γ ^ (m + 1) * R.η := hmono hη (by omega)
      rw [pow_one] at b1
      have b2 : Γ ^ (m + 1) * (B + e + 2 * (m : F) * R.η + R.η) ≤ Γ ^ (order - p) * (B + e + 2 * (m : F) * R.η + R.η) := hmono (by linarith) hop
      have b3 := mul_le_mul_of_nonneg_left hsum (hΓ0 (order - p))
      have b4 : Γ * (Γ ^ m * B + Γ ^ m * (e + 2 * (m : F) * R.η) + R.η) = Γ ^ (m + 1) * (B + e + 2 * (m : F) * R.η) + Γ * R.η := by ring
      have b5 : Γ ^ (m + 1) * (B + e + 2 * (m : F) * R.η + R.η) = Γ ^ (m + 1) * (B + e + 2 * (m : F) * R.η) + Γ ^ (m + 1) * R.η := by ring
      linarith
    have a0 : 0 ≤ Γ * (Γ ^ m * B + Γ ^ m * (e + 2 * (m : F) * R.η) + R.η) :=
      mul_nonneg (by linarith) (add_nonneg (add_nonneg (mul_nonneg (hΓ0 _) hB) (mul_nonneg (hΓ0 _) (hq0 _))) hη)
    have a2 := hX1 _ a0 a1
    have : 1 * X ≤ 2 * (order + 1) * X := mul_le_mul_of_nonneg_right (by linarith) hX0
    linarith
  obtain ⟨buf', w1, w2⟩ := g1.write hstep (i := m + jj + 1) (by omega) z
  rw [w1]
  refine Spec.ok ⟨_, Function.update c2 (m + jj + 1) ((R.val tj - R.val tjk)⁻¹ * (k * (c1 (m + jj + 1) - c1 (m + jj)))), w2, fun a ha1 ha2 => ?_, fun a ha => ?_⟩
  · by_cases hae : a = m + jj + 1
    · subst hae
      rw [Function.update_self, Function.update_self]
      refine ⟨z1, z2.mono hg (mul_nonneg (by linarith) (add_nonneg (mul_nonneg (hΓ0 _) (hq0 _)) (by linarith))) (by omega) up (le_of_eq (by ring)), ?_⟩
      rw [h2 (m + jj + 1) (by omega) (by omega), h2 (m + jj) (by omega) (by omega)]
      rw [dctrlIter_succ tv m order cg (by omega), show order - m = k by omega, dctrl, smul_eq_mul, j2, q2]
      rw [show s - order + (m + jj + 1) + k = s + (jj + 1) by omega, show s - order + (m + jj + 1) = s + (jj + 1) - k by omega,
        show s - order + (m + jj) = s + (jj + 1) - k - 1 by omega]
      ring
    · rw [Function.update_of_ne hae, Function.update_of_ne hae]; exact g2 a (by omega) ha2
  · rw [Function.update_of_ne (by omega), Function.update_of_ne (by omega)]; exact g3 a (by omega)

/-- `m` holds values close to `f`. -/
def MeshClose (S : RoundV R V) (dims : Fin D → ℕ) (n : ℕ) (e B : F) (m : Mesh D V) (f : (Fin D → ℕ) → F) : Prop :=
  ∃ l : (Fin D → ℕ) → V, m.Holds dims l ∧ ∀ a, InRange dims a → S.Finite (l a) ∧ Close R.g n e B (S.val (l a)) (f a)

/-- How much a difference quotient of control points can exceed them: the control points of the derivative are differences times
`k / (t (i + k) - t i)`. -/
structure Steep (b : BSpline D F F) (Γ : Fin D → F) : Prop where
  one : ∀ d, 1 ≤ Γ d
  quot : ∀ d i k, 1 ≤ i → 1 ≤ k → k ≤ b.order → i + k + 1 < (b.knots d).length → b.kn d i < b.kn d (i + k) →
    2 * (k : F) ≤ Γ d * (b.kn d (i + k) - b.kn d i)

variable {b : BSpline D K V}

include T in
theorem Fl.derivReduceDim_near (cfg : Cfg) (he : (b.exact R S).WF) {C h W : F} (hb : b.Bounded R S C) (hsp : (b.exact R S).Spaced h W) {Γ : Fin D → F}
    (hΓ : (b.exact R S).Steep Γ) {x w : Fin D → F} {w' : Fin D → K} {s : Fin D → ℕ} (hat : (b.exact R S).At x w s) (d : Fin D) {p : ℕ} (hp : p ≤ b.order)
    (hord : b.order ≤ 2 ^ 20) (hfW : R.Fits (4 * W)) {n : ℕ} {e B : F} (he0 : 0 ≤ e) {m : Mesh D V} {f : (Fin D → ℕ) → F}
    (hm : MeshClose S (fun _ => b.order + 1) n e B m f)
    (hfit : R.Fits (2 * (b.order + 1) * (R.g ^ (n + 4 * (b.order - p)) * (Γ d ^ (b.order - p) * (B + e + 2 * (b.order - p : ℕ) * R.η))))) :
    Ok (Fl.derivReduceDim cfg b (fun d => (w' d, s d)) d p m) fun m' => ∃ g,
      MeshClose S (fun _ => b.order + 1) (n + 4 * (b.order - p)) (Γ d ^ (b.order - p) * (e + 2 * (b.order - p : ℕ) * R.η)) (Γ d ^ (b.order - p) * B) m' g ∧
      ∀ a, InRange (fun _ => b.order + 1) a → ∑ j ∈ Finset.range (b.order + 1), piece ((b.exact R S).kn d) (s d) p (s d - b.order + j) (w d) • g (Function.update a d j) =
        ∑ j ∈ Finset.range (b.order + 1), (Polynomial.derivative^[b.order - p] (pieceP ((b.exact R S).kn d) (s d) b.order (s d - b.order + j))).eval (w d) •
          f (Function.update a d j) := by
  unfold Fl.derivReduceDim
  by_cases hpo : p = b.order
  · rw [if_pos hpo]
    refine Spec.ok ⟨f, ?_, fun a _ => ?_⟩
    · subst hpo
      simpa using hm
    · subst hpo
      simp [pieceP_eval]
  rw [if_neg hpo]
  obtain ⟨l, hml, hlc⟩ := hm
  have hord' : (b.exact R S).order = b.order := rfl
  have hlen : ((b.exact R S).knots d).length = (b.knots d).length := List.length_map _
  have hkn : (b.exact R S).kn d = knotFn ((b.knots d).map R.val) := rfl
  have hs1 := (hat.seg d).1
  have hs2 := (hat.seg d).2.1
  have hl := he.last_lt d
  rw [hlen, hord'] at hl
  rw [hord'] at hs1
  have hmono : ∀ i j, 1 ≤ i → i ≤ j → j < (b.knots d).length → (b.exact R S).kn d i ≤ (b.exact R S).kn d j := fun i j h1 h2 h3 =>
    he.mono d i j h1 h2 (by rw [hlen]; exact h3)
  have hn := he.seg_nondeg hat d
  rw [hord'] at hn
  have hsize : m.size = (b.order + 1) ^ D := by
    have := hml.2.1
    unfold Mesh.WF at this
    rw [hml.1] at this
    unfold Mesh.size; rw [this]; simp
  have hD : 0 < D := lt_of_le_of_lt (Nat.zero_le _) d.2
  have hdiv : m.size / m.dims d = (b.order + 1) ^ (D - 1) := by
    rw [hsize, hml.1]
    have : (b.order + 1) ^ D = (b.order + 1) ^ (D - 1) * (b.order + 1) := by
      rw [← pow_succ]; congr 1; omega
    rw [this, Nat.mul_div_cancel _ (Nat.succ_pos _)]
  have hdne : m.dims d ≠ 0 := by rw [hml.1]; simp
  rw [divN_ok hdne, ok_bind, hdiv]
  refine Spec.imp (sweep_lines (d := d) (dims := fun _ => b.order + 1) hml (bijOn_lines (Nat.succ_pos b.order) d)
    (Rel := fun a0 l' => ∃ c', LineClose S b.order (n + 4 * (b.order - p)) (Γ d ^ (b.order - p) * (e + 2 * (b.order - p : ℕ) * R.η)) (Γ d ^ (b.order - p) * B) l' c' ∧
      ∀ a, b.order - p ≤ a → a ≤ b.order →
        c' a = dctrlIter ((b.exact R S).kn d) (b.order - p) b.order (fun i => f (Function.update a0 d (i - (s d - b.order)))) (s d - b.order + a)) ?_) ?_
  · intro i m1 f1 hi hm1 hf1
    have hLi := (bijOn_lines (D := D) (Nat.succ_pos b.order) d).1 hi
    rw [localIndices_ok (Nat.succ_pos _), ok_bind]
    have hup : Function.update (digs (b.order + 1) (freeAxes fun dd => decide (dd = d)) (fun _ => 0) i) d 0 =
        digs (b.order + 1) (freeAxes fun dd => decide (dd = d)) (fun _ => 0) i := by
      conv_rhs => rw [← Function.update_eq_self d (digs (b.order + 1) (freeAxes fun dd => decide (dd = d)) (fun _ => 0) i)]
      rw [show digs (b.order + 1) (freeAxes fun dd => decide (dd = d)) (fun _ => 0) i d = 0 from hLi.2]
    rw [Mesh.lineBegin_ok cfg m1 d (by rw [hm1.1, hup]; exact hLi.1), ok_bind, hm1.1]
    have hl1 := hm1.line hLi.1 d
    have hcl : LineClose S b.order n e B (fun j => f1 (Function.update (digs (b.order + 1) (freeAxes fun dd => decide (dd = d)) (fun _ => 0) i) d j))
        (fun j => f (Function.update (digs (b.order + 1) (freeAxes fun dd => decide (dd = d)) (fun _ => 0) i) d j)) := by
      intro a ha
      simp only [hf1]
      exact hlc _ (hLi.1.update (Nat.lt_succ_of_le ha))
    refine Spec.bind (Fl.derivReduceLine_near T (stride_pos (fun _ => Nat.succ_pos _) d) hs1 (by simp only; omega) (hb.knots d) hn hp hord (hΓ.one d) ?_ ?_ he0 hl1 hcl hfit)
      fun buf' ⟨l', c', g1, g2, g3⟩ => ?_
    · intro i k h1 h2 h3 h4
      replace h1 : i ≤ s d := h1
      replace h2 : s d < i + k := h2
      have := hn i (i + k) (by omega) (by omega) (by omega) (by omega)
      exact hΓ.quot d i k (by omega) h3 h4 (by rw [hlen]; omega) this
    · intro i k h1 h2 h3 h4
      replace h1 : i ≤ s d := h1
      replace h2 : s d < i + k := h2
      have a1 := hn i (i + k) (by omega) (by omega) (by omega) (by omega)
      have a2 := hmono 1 i le_rfl (by omega) (by omega)
      have a3 := hmono (i + k) ((b.knots d).length - 1) (by omega) (by omega) (by omega)
      have a4 := hsp.max d
      rw [hlen] at a4
      rw [hkn] at a1 a2 a3 a4
      refine R.fits_of_le (by linarith) ?_ hfW
      linarith
    refine Spec.ok ⟨l', ⟨c', g2, g3⟩, ?_⟩
    have := hm1.setLine hLi.1 d g1
    rw [hup] at this
    exact this
  · rintro m' ⟨g, h1, h2⟩
    -- the exact values
    choose! ln hln1 hln2 using h2
    choose! cc hcc1 hcc2 using hln1
    have hbase : ∀ a, InRange (fun _ : Fin D => b.order + 1) a → InRange (fun _ : Fin D => b.order + 1) (Function.update a d 0) := fun a ha =>
      ha.update (Nat.succ_pos _)
    refine ⟨fun a => cc (Function.update a d 0) (a d), ⟨g, h1, fun a ha => ?_⟩, fun a ha => ?_⟩
    · have q1 := hln2 _ (hbase a ha) (a d) (ha d)
      rw [Function.update_idem, Function.update_eq_self] at q1
      rw [q1]
      exact hcc1 _ (hbase a ha) (a d) (Nat.lt_succ_iff.1 (ha d))
    · have q2 := he.line_sum hat d hp (l := fun j => f (Function.update a d j)) (l' := cc (Function.update a d 0)) (fun i hi1 hi2 => by
        have := hcc2 _ (hbase a ha) i hi1 hi2
        simp only [Function.update_idem] at this
        exact this)
      simp only [Function.update_idem, Function.update_self]
      exact q2

end BSpline

end Intp
