import Verif.Proofs.RoundBasis
import Verif.Proofs.Eval
import Verif.Proofs.Weights

/-! # Errors of `operator()` in rounded arithmetic -/

namespace Intp

set_option linter.unusedSectionVars false

open Finset

variable {K F V : Type} [CoordArith K] [Field F] [LinearOrder F] [IsStrictOrderedRing F] [FloorRing F] [ValArith V] [ScaleArith K V] {D : ℕ}

/-! ## Exact sum -/

namespace BSpline

/-- Local coefficient of the exact sum. -/
def locW (b : BSpline D F F) (w : Fin D → F) (s : Fin D → ℕ) (i : ℕ) : F :=
  ∏ d, piece (b.kn d) (s d) b.order (s d - b.order + decode (fun _ : Fin D => b.order + 1) i d) (w d)

/-- Index of the control point of the exact sum. -/
def locI (b : BSpline D F F) (s : Fin D → ℕ) (i : ℕ) (d : Fin D) : ℕ :=
  b.ctrlOf d (s d - b.order + decode (fun _ : Fin D => b.order + 1) i d)

variable {b : BSpline D F F}

theorem WF.eval_sum (h : b.WF) {x : Fin D → F × ℕ} {w : Fin D → F} {s : Fin D → ℕ} (hat : b.At (fun d => (x d).1) w s)
    (hh : ∀ d, ValidHint (b.knots d) b.order (b.last d) (w d) (x d).2) {C : (Fin D → ℕ) → F}
    (hC : b.ctrl.Holds b.ctrl.dims C) :
    b.eval x = .ok (∑ i ∈ Finset.range ((b.order + 1) ^ D), b.locW w s i * C (b.locI s i)) := by
  rw [h.eval_eq hat hh hC, ← h.local_sum hat (fun _ => 0) C]
  congr 1
  have e : (b.order + 1) ^ D = ∏ _d : Fin D, (b.order + 1) := by simp
  have := sum_decode (fun _ : Fin D => b.order + 1) (fun a => (∏ d, piece (b.kn d) (s d) b.order (s d - b.order + a d) (w d)) *
        C (fun d => b.ctrlOf d (s d - b.order + a d)))
  rw [e]
  unfold locW locI
  rw [this]
  refine sum_congr rfl fun a _ => ?_
  rw [smul_eq_mul]
  congr 1
  refine prod_congr rfl fun d _ => ?_
  simp [pieceP_eval]

theorem WF.locW_sum (h : b.WF) {x w : Fin D → F} {s : Fin D → ℕ} (hat : b.At x w s) :
    ∑ i ∈ Finset.range ((b.order + 1) ^ D), b.locW w s i = 1 := by
  have e : (b.order + 1) ^ D = ∏ _d : Fin D, (b.order + 1) := by simp
  rw [e]
  unfold locW
  rw [sum_decode (fun _ : Fin D => b.order + 1) (fun a => ∏ d, piece (b.kn d) (s d) b.order (s d - b.order + a d) (w d))]
  rw [← Finset.prod_univ_sum (fun _ : Fin D => Finset.range (b.order + 1)) (fun d a => piece (b.kn d) (s d) b.order (s d - b.order + a) (w d))]
  refine prod_eq_one fun d _ => ?_
  rw [sum_local (f := fun i => piece (b.kn d) (s d) b.order i (w d)) (hat.seg d).1 fun i hi => piece_zero_of_gt _ _ _ _ _ hi]
  exact sum_piece_eq_one _ _ (hat.seg d).1 (h.seg_nondeg hat d)

end BSpline

/-! ## The segment -/

variable (R : RoundK K F) (S : RoundV R V)

theorem rd_map {α β : Type} (f : α → β) (l : List α) (i : ℕ) : rd (l.map f) i = (rd l i).map f := by
  unfold rd
  rw [List.getElem?_map]
  cases l[i]? <;> rfl

theorem upperBoundGo_val {t : List K} (ht : ∀ v ∈ t, R.Finite v) {x : K} (hx : R.Finite x) : ∀ fuel first len,
    Fl.upperBoundGo t x fuel first len = upperBoundGo (t.map R.val) (R.val x) fuel first len
  | 0, first, len => rfl
  | fuel + 1, first, len => by
    unfold Fl.upperBoundGo upperBoundGo
    by_cases h0 : len = 0
    · rw [if_pos h0, if_pos h0]
    · rw [if_neg h0, if_neg h0]
      simp only
      rw [rd_map]
      cases hr : rd t (first + len / 2) with
      | error e => rfl
      | ok v =>
        have hv : v ∈ t := List.mem_of_getElem? (rd_eq_ok_iff.1 hr)
        show (if x < v then _ else _) = (if R.val x < R.val v then _ else _)
        by_cases hlt : x < v
        · rw [if_pos hlt, if_pos ((R.lt x v hx (ht v hv)).1 hlt), upperBoundGo_val ht hx]
        · rw [if_neg hlt, if_neg (fun h => hlt ((R.lt x v hx (ht v hv)).2 h)), upperBoundGo_val ht hx]

theorem findSegment_val {t : List K} (ht : ∀ v ∈ t, R.Finite v) {x : K} (hx : R.Finite x) (order hint last : ℕ) :
    Fl.findSegment order t x hint last = BSpline.findSegment order (t.map R.val) (R.val x) hint last := by
  unfold Fl.findSegment BSpline.findSegment Fl.upperBound upperBound
  rw [List.length_map]
  cases itAdd t.length 0 (hint : ℤ) with
  | error e => rfl
  | ok iter =>
    simp only [ok_bind, rd_map]
    cases ha : rd t iter with
    | error e => rfl
    | ok a =>
      have hav : a ∈ t := List.mem_of_getElem? (rd_eq_ok_iff.1 ha)
      have hle := R.le a x (ht a hav) hx
      simp only [upperBoundGo_val R ht hx]
      simp only [Except.map, ok_bind]
      by_cases h1 : a ≤ x
      · have h1' := hle.1 h1
        simp only [if_pos h1, if_pos h1']
        cases hb : rd t (iter + 1) with
        | error e => rfl
        | ok c =>
          have hcv : c ∈ t := List.mem_of_getElem? (rd_eq_ok_iff.1 hb)
          have hlt := R.lt x c hx (ht c hcv)
          have : decide (x < c) = decide (R.val x < R.val c) := by
            by_cases h : x < c
            · rw [decide_eq_true h, decide_eq_true (hlt.1 h)]
            · rw [decide_eq_false h, decide_eq_false (fun h' => h (hlt.2 h'))]
          simp only [ok_bind, pure_eq_ok, this]
      · have h1' : ¬ R.val a ≤ R.val x := fun h => h1 (hle.2 h)
        simp only [if_neg h1, if_neg h1']

/-! ## One coefficient -/

namespace RoundK

/-- Absolute error of a product of `m` basis values. -/
def coefErr (h : F) (order m : ℕ) : F := m * (2 * R.absErr h order + R.η)

theorem coefErr_nonneg {h : F} (hh : 0 < h) (order m : ℕ) : 0 ≤ R.coefErr h order m := by
  have := R.absErr_nonneg hh order
  have := R.η_nonneg
  unfold coefErr; positivity

theorem coefErr_mono {h : F} (hh : 0 < h) (order : ℕ) {m n : ℕ} (hm : m ≤ n) : R.coefErr h order m ≤ R.coefErr h order n := by
  have := R.absErr_nonneg hh order
  have := R.η_nonneg
  unfold coefErr
  exact mul_le_mul_of_nonneg_right (by exact_mod_cast hm) (by linarith)

/-- One factor more. -/
theorem mul_near {h : F} (hh : 0 < h) {order m n : ℕ} {c e : K} {P Q : F} (hc : R.Finite c) (he : R.Finite e) (hP : P ≤ 1) (hQ : Q ≤ 1)
    (hn : Near R.g (m * (5 * order + 1)) (R.coefErr h order m) (R.val c) Q) (hm : m + 1 ≤ n)
    (hb : Near R.g (5 * order) (R.absErr h order) (R.val e) P)
    (hB : R.g ^ (n * (5 * order + 1)) * (1 + R.coefErr h order n) ≤ 2) (hf2 : R.Fits 2) :
    R.Finite (c * e) ∧ Near R.g ((m + 1) * (5 * order + 1)) (R.coefErr h order (m + 1)) (R.val (c * e)) (Q * P) := by
  have hg := R.one_le_g
  have ha := R.absErr_nonneg hh order
  have hη := R.η_nonneg
  have h0 := R.coefErr_nonneg hh order m
  have bound : ∀ {k m' : ℕ} {z : F}, k ≤ n * (5 * order + 1) → m' ≤ n → z ≤ 1 → R.g ^ k * (z + R.coefErr h order m') ≤ 2 := by
    intro k m' z h1 h2 h3
    have e1 := R.coefErr_nonneg hh order m'
    have e2 := R.coefErr_mono hh order h2
    calc R.g ^ k * (z + R.coefErr h order m') ≤ R.g ^ k * (1 + R.coefErr h order n) := mul_le_mul_of_nonneg_left (by linarith) (by positivity)
      _ ≤ R.g ^ (n * (5 * order + 1)) * (1 + R.coefErr h order n) :=
        mul_le_mul_of_nonneg_right (pow_le_pow_right₀ hg h1) (by linarith)
      _ ≤ 2 := hB
  have hc2 : R.val c ≤ 2 := hn.le.trans (bound (Nat.mul_le_mul_right _ (by omega)) (by omega) hQ)
  have n1 := hb.scale hn.left
  rw [mul_comm P] at n1
  have n2 := hn.scale hb.right
  have n3 := n1.trans hg (mul_nonneg ha hn.left) (mul_nonneg h0 hb.right) n2
  have hen : R.coefErr h order m + R.η + 2 * R.absErr h order = R.coefErr h order (m + 1) := by unfold coefErr; push_cast; ring
  have herr : R.absErr h order * R.val c + R.coefErr h order m * P ≤ R.coefErr h order m + 2 * R.absErr h order := by
    nlinarith [mul_le_mul_of_nonneg_left hc2 ha, mul_le_mul_of_nonneg_left hP h0]
  have n4 := n3.mono (f := R.coefErr h order m + 2 * R.absErr h order) hg
    (add_nonneg (mul_nonneg ha hn.left) (mul_nonneg h0 hb.right)) (le_refl _) herr
  rw [mul_comm (R.val e)] at n4
  have hQP : Q * P ≤ 1 := by nlinarith [hn.right, hb.right]
  have hfit : R.Fits (R.val c * R.val e) := by
    refine R.fits_of_le n4.left (n4.le.trans ?_) hf2
    refine le_trans ?_ (bound (k := (m + 1) * (5 * order + 1)) (Nat.mul_le_mul_right _ hm) (le_refl n) hQP)
    · refine mul_le_mul (pow_le_pow_right₀ hg ?_) ?_ ?_ (by positivity)
      · ring_nf; omega
      · have := R.coefErr_mono hh order hm
        linarith
      · have := n4.right; linarith
  obtain ⟨f1, r1, s1⟩ := R.mul c e hc he hfit
  have n5 := near_round R.u_nonneg R.u_lt_one hη n4.left (s1 n4.left) r1
  have n6 := n5.trans hg hη (by linarith) n4
  refine ⟨f1, n6.mono hg (by linarith) ?_ (by linarith)⟩
  ring_nf; omega

end RoundK

/-- The fold of the coefficient and the index. -/
theorem fold_near {h : F} (hh : 0 < h) {order n : ℕ} {Ev : Fin D → M K} {I : Fin D → M ℕ} {P : Fin D → F} {ind : Fin D → ℕ}
    (hE : ∀ d, Ok (Ev d) fun e => R.Finite e ∧ Near R.g (5 * order) (R.absErr h order) (R.val e) (P d)) (hP : ∀ d, P d ≤ 1)
    (hI : ∀ d, I d = .ok (ind d)) (hB : R.g ^ (n * (5 * order + 1)) * (1 + R.coefErr h order n) ≤ 2) (hf2 : R.Fits 2) :
    ∀ (l : List (Fin D)) (m : ℕ) (c : K) (a : Fin D → ℕ) (Q : F), m + l.length ≤ n → R.Finite c → Q ≤ 1 →
      Near R.g (m * (5 * order + 1)) (R.coefErr h order m) (R.val c) Q →
      Ok (l.foldlM (fun (acc : K × (Fin D → ℕ)) d => do
        let x ← Ev d
        let k ← I d
        pure (acc.1 * x, Function.update acc.2 d k)) (c, a)) fun r => R.Finite r.1 ∧
          Near R.g ((m + l.length) * (5 * order + 1)) (R.coefErr h order (m + l.length)) (R.val r.1) (Q * (l.map P).prod) ∧
          r.2 = fun d => if d ∈ l then ind d else a d
  | [], m, c, a, Q, _, hc, _, hn => by
    refine Spec.pure ⟨hc, by simpa using hn, by simp⟩
  | d :: l, m, c, a, Q, hm, hc, hQ, hn => by
    rw [List.foldlM_cons]
    simp only [List.length_cons] at hm
    refine Spec.bind (Q := fun acc => R.Finite acc.1 ∧ Near R.g ((m + 1) * (5 * order + 1)) (R.coefErr h order (m + 1)) (R.val acc.1) (Q * P d) ∧
      acc.2 = Function.update a d (ind d)) ?_ ?_
    · refine Spec.bind (hE d) fun e ⟨e1, e2⟩ => ?_
      rw [hI d, ok_bind]
      obtain ⟨z1, z2⟩ := R.mul_near hh hc e1 (hP d) hQ hn (by omega) e2 hB hf2
      exact Spec.pure ⟨z1, z2, rfl⟩
    · rintro ⟨c', a'⟩ ⟨h1, h2, h3⟩
      simp only at h1 h2 h3
      have hPd : 0 ≤ P d := by
        obtain ⟨e, _, he⟩ := (hE d).exists
        exact he.2.right
      have := fold_near hh hE hP hI hB hf2 l (m + 1) c' a' (Q * P d) (by omega) h1 (by nlinarith [hn.right, hP d]) h2
      refine this.imp fun r ⟨r1, r2, r3⟩ => ⟨r1, ?_, ?_⟩
      · rw [List.map_cons, List.prod_cons, List.length_cons, ← mul_assoc]
        rwa [show m + (l.length + 1) = m + 1 + l.length by omega]
      · rw [r3, h3]
        funext d'
        by_cases h1 : d' ∈ l
        · simp [h1]
        · by_cases h2 : d' = d
          · subst h2; simp
          · simp [h1, h2]

/-! ## The sum -/

/-- One summand. -/
theorem summand {k : ℕ} {e P C : F} (he : 0 ≤ e) {a : K} {c : V} (ha : R.Finite a) (hc : S.Finite c)
    (hn : Near R.g k e (R.val a) P) (hC : |S.val c| ≤ C) (hfit : R.Fits (R.g ^ k * (P + e) * C)) :
    S.Finite (a • c) ∧ |S.val (a • c) - P * S.val c| ≤ (R.g ^ (k + 1) - 1) * (P * |S.val c|) + R.g ^ (k + 1) * (e * C + R.η) := by
  have hg := R.one_le_g
  have hu := R.u_nonneg
  have hη := R.η_nonneg
  have ha0 := hn.left
  have hP0 := hn.right
  have hc0 := abs_nonneg (S.val c)
  have hk : 1 ≤ R.g ^ k := one_le_pow₀ hg
  have hf : R.Fits (R.val a * S.val c) := by
    refine R.fits_mono _ _ ?_ hfit
    rw [abs_mul, abs_of_nonneg ha0, abs_of_nonneg (mul_nonneg (mul_nonneg (by linarith) (by linarith)) (hc0.trans hC))]
    exact mul_le_mul hn.le hC hc0 (mul_nonneg (by linarith) (by linarith))
  obtain ⟨f1, r1⟩ := S.smul a c ha hc hf
  refine ⟨f1, ?_⟩
  have d1 := hn.abs_sub hg he
  have t1 : |S.val (a • c) - P * S.val c| ≤ |S.val (a • c) - R.val a * S.val c| + |R.val a * S.val c - P * S.val c| := by
    have := abs_add_le (S.val (a • c) - R.val a * S.val c) (R.val a * S.val c - P * S.val c)
    rwa [sub_add_sub_cancel] at this
  rw [← sub_mul, abs_mul] at t1
  rw [abs_mul, abs_of_nonneg ha0] at r1
  have hug : (1 + R.u) * R.g ^ k ≤ R.g ^ (k + 1) := by
    have : 1 + R.u ≤ R.g := by
      unfold RoundK.g
      rw [inv_eq_one_div, le_div_iff₀ (by linarith [R.u_lt_one])]
      nlinarith
    rw [pow_succ, mul_comm]
    exact mul_le_mul_of_nonneg_left this (by linarith)
  set G := R.g ^ k
  set G' := R.g ^ (k + 1)
  set x := |S.val c|
  -- collect
  have s1 : |R.val a - P| * x ≤ ((G - 1) * P + G * e) * x := mul_le_mul_of_nonneg_right d1 hc0
  have s2 : R.u * (R.val a * x) ≤ R.u * (G * (P + e) * x) :=
    mul_le_mul_of_nonneg_left (mul_le_mul_of_nonneg_right hn.le hc0) hu
  have s3 : ((1 + R.u) * G) * ((P + e) * x) ≤ G' * ((P + e) * x) :=
    mul_le_mul_of_nonneg_right hug (mul_nonneg (by linarith) hc0)
  have hG' : 1 ≤ G' := one_le_pow₀ hg
  have s4 : G' * (e * x) ≤ G' * (e * C) := mul_le_mul_of_nonneg_left (mul_le_mul_of_nonneg_left hC he) (by linarith)
  have s5 : R.η ≤ G' * R.η := by nlinarith
  nlinarith

/-- One addition. -/
theorem add_step {k : ℕ} {v p : V} {A B a b E e C : F} (hv : S.Finite v) (hp : S.Finite p) (hB : |A| ≤ B) (hb : |a| ≤ b)
    (h1 : |S.val v - A| ≤ (R.g ^ k - 1) * B + R.g ^ k * E) (h2 : |S.val p - a| ≤ (R.g ^ k - 1) * b + R.g ^ k * e) (hE : 0 ≤ E) (he : 0 ≤ e)
    (hC : B + b + E + e ≤ C) (hfit : R.Fits (R.g ^ k * C)) :
    S.Finite (v + p) ∧ |S.val (v + p) - (A + a)| ≤ (R.g ^ (k + 1) - 1) * (B + b) + R.g ^ (k + 1) * (E + e) := by
  have hg := R.one_le_g
  have hu := R.u_nonneg
  have hk : 1 ≤ R.g ^ k := one_le_pow₀ hg
  have hB0 := (abs_nonneg A).trans hB
  have hb0 := (abs_nonneg a).trans hb
  have t1 : |S.val v + S.val p - (A + a)| ≤ (R.g ^ k - 1) * (B + b) + R.g ^ k * (E + e) := by
    have := abs_add_le (S.val v - A) (S.val p - a)
    rw [show S.val v - A + (S.val p - a) = S.val v + S.val p - (A + a) by ring] at this
    linarith
  have t2 : |A + a| ≤ B + b := (abs_add_le A a).trans (add_le_add hB hb)
  have t3 : |S.val v + S.val p| ≤ R.g ^ k * (B + b + (E + e)) := by
    have := abs_add_le (S.val v + S.val p - (A + a)) (A + a)
    rw [sub_add_cancel] at this
    linarith
  have hf : R.Fits (S.val v + S.val p) := by
    refine R.fits_mono _ _ (t3.trans ?_) hfit
    have h0 : R.g ^ k * (B + b + (E + e)) ≤ R.g ^ k * C := mul_le_mul_of_nonneg_left (by linarith) (by linarith)
    exact h0.trans (le_abs_self _)
  obtain ⟨f1, r1⟩ := S.add v p hv hp hf
  refine ⟨f1, ?_⟩
  have t4 : |S.val (v + p) - (A + a)| ≤ |S.val (v + p) - (S.val v + S.val p)| + |S.val v + S.val p - (A + a)| := by
    have := abs_add_le (S.val (v + p) - (S.val v + S.val p)) (S.val v + S.val p - (A + a))
    rwa [sub_add_sub_cancel] at this
  have hug : (1 + R.u) * R.g ^ k ≤ R.g ^ (k + 1) := by
    have : 1 + R.u ≤ R.g := by
      unfold RoundK.g
      rw [inv_eq_one_div, le_div_iff₀ (by linarith [R.u_lt_one])]
      nlinarith
    rw [pow_succ, mul_comm]
    exact mul_le_mul_of_nonneg_left this (by linarith)
  have s1 : R.u * |S.val v + S.val p| ≤ R.u * (R.g ^ k * (B + b + (E + e))) := mul_le_mul_of_nonneg_left t3 hu
  have s2 : ((1 + R.u) * R.g ^ k) * (B + b + (E + e)) ≤ R.g ^ (k + 1) * (B + b + (E + e)) :=
    mul_le_mul_of_nonneg_right hug (by linarith)
  nlinarith

/-! ## `operator()` -/

namespace BSpline

/-- All data are finite, the control points at most `C`. -/
structure Bounded (b : BSpline D K V) (C : F) : Prop where
  knots : ∀ d, ∀ v ∈ b.knots d, R.Finite v
  ctrl : ∀ v ∈ b.ctrl.storage, S.Finite v ∧ |S.val v| ≤ C

variable {b : BSpline D K V}

theorem rd_ctrl {C : (Fin D → ℕ) → F} (hC : (b.exact R S).ctrl.Holds b.ctrl.dims C) {B : F} (hb : b.Bounded R S B) {a : Fin D → ℕ}
    (ha : InRange b.ctrl.dims a) : Ok (b.ctrl.get a) fun v => S.Finite v ∧ |S.val v| ≤ B ∧ S.val v = C a := by
  have h := hC.get ha
  unfold Mesh.get at h ⊢
  have e : rd (b.exact R S).ctrl.storage (indexing (b.exact R S).ctrl.dims a) = (rd b.ctrl.storage (indexing b.ctrl.dims a)).map S.val :=
    rd_map _ _ _
  rw [e] at h
  cases hr : rd b.ctrl.storage (indexing b.ctrl.dims a) with
  | error er => rw [hr] at h; exact nomatch h
  | ok v =>
    rw [hr] at h
    have hv : v ∈ b.ctrl.storage := List.mem_of_getElem? (rd_eq_ok_iff.1 hr)
    exact ⟨(hb.ctrl v hv).1, (hb.ctrl v hv).2, Except.ok.inj h⟩

/-- Spacing and extent of the knots. -/
structure Spaced (b : BSpline D F F) (h W : F) : Prop where
  pos : 0 < h
  min : ∀ d i, b.order ≤ i → i ≤ b.last d → b.kn d i < b.kn d (i + 1) → h ≤ b.kn d (i + 1) - b.kn d i
  max : ∀ d, b.kn d ((b.knots d).length - 1) - b.kn d 1 ≤ W

/-- Number of roundings along the longest path of `operator()`. -/
def roundings (D order : ℕ) : ℕ := D * (5 * order + 1) + 1 + (order + 1) ^ D

/-- A point at which the rounded evaluation is analysed: `w` is the coordinate after wrapping, as computed. -/
structure Pt (b : BSpline D K V) (x : Fin D → K × ℕ) (w : Fin D → K) : Prop where
  wrap : ∀ d, if b.periodicity d then Fl.wrapCoord (b.range d) (x d).1 = .ok (w d) else w d = (x d).1
  finite : ∀ d, R.Finite (w d)
  dom : ∀ d, (b.exact R S).kn d b.order ≤ R.val (w d) ∧ R.val (w d) ≤ (b.exact R S).kn d ((b.exact R S).last d + 1)
  range : ∀ d, b.periodicity d = true → R.val (b.range d).1 ≤ R.val (w d) ∧ R.val (w d) < R.val (b.range d).2
  hint : ∀ d, ValidHint ((b.exact R S).knots d) b.order ((b.exact R S).last d) (R.val (w d)) (x d).2

variable {x : Fin D → K × ℕ} {w : Fin D → K}

theorem Pt.at (he : (b.exact R S).WF) (hp : b.Pt R S x w) : ∃ s, (b.exact R S).At (fun d => R.val (w d)) (fun d => R.val (w d)) s ∧
    ∀ d, (b.exact R S).kn d (s d) ≤ R.val (w d) ∧ R.val (w d) ≤ (b.exact R S).kn d (s d + 1) := by
  choose s hs using fun d => exists_isSeg (he.kmono d) (R.val (w d)) (he.last_ge d) (by have := he.last_lt d; omega)
  refine ⟨s, ⟨fun d => ?_, hs⟩, fun d => ⟨?_, ?_⟩⟩
  · unfold IsWrap
    split
    · rename_i hper
      obtain ⟨h1, h2⟩ := hp.range d hper
      refine ⟨⟨0, by simp⟩, ?_⟩
      rw [if_neg (show ¬ R.val (w d) < ((b.exact R S).range d).1 from not_lt.2 h1)]
      exact ⟨h1, h2⟩
    · rfl
  · rcases (hs d).2.2.1 with h | h
    · rw [h]; exact (hp.dom d).1
    · exact h
  · rcases (hs d).2.2.2 with h | h
    · rw [h]; exact (hp.dom d).2
    · exact h.le

theorem getKnotIter'_val (he : (b.exact R S).WF) {C : F} (hb : b.Bounded R S C) (hp : b.Pt R S x w) {s : Fin D → ℕ}
    (hat : (b.exact R S).At (fun d => R.val (w d)) (fun d => R.val (w d)) s) (d : Fin D) :
    Fl.getKnotIter' b d (x d).1 (x d).2 = .ok (w d, s d) := by
  have hlen : ((b.exact R S).knots d).length = (b.knots d).length := List.length_map _
  have h1 := he.len d
  have ho : (b.exact R S).order = b.order := rfl
  rw [hlen, ho] at h1
  have hhint := (hp.hint d).1
  rw [hlen] at hhint
  have hl : (b.exact R S).last d = (b.knots d).length - b.order - 2 := by unfold last; rw [hlen, ho]
  unfold Fl.getKnotIter' Fl.getKnotIter
  rw [subM_ok (by omega), ok_bind, subM_ok (by omega), ok_bind, itAdd_ok (r := (x d).2) (by omega) (by omega), ok_bind]
  have e : Fl.findSegment b.order (b.knots d) (w d) (x d).2 ((b.knots d).length - b.order - 2) = .ok (s d) := by
    rw [findSegment_val R (hb.knots d) (hp.finite d), ← hl]
    have h2 := he.last_lt d
    exact findSegment_eq (he.kmono d) (by omega) (hp.hint d) (hat.seg d)
  have hw := hp.wrap d
  by_cases hper : b.periodicity d = true
  · rw [if_pos hper] at hw
    simp only [hper, if_true, hw, ok_bind, e, pure_eq_ok]
  · rw [if_neg hper] at hw
    simp only [hper, Bool.false_eq_true, if_false, ok_bind, pure_eq_ok, ← hw, e]

theorem ctrlIndex_exact (d : Fin D) (s a : ℕ) : b.ctrlIndex d s a = (b.exact R S).ctrlIndex d s a := by
  unfold ctrlIndex ctrlShift
  have : ((b.exact R S).knots d).length = (b.knots d).length := List.length_map _
  rw [this]; rfl

theorem Fl.eval_near {C h W : F} (he : (b.exact R S).WF) (hb : b.Bounded R S C) (hp : b.Pt R S x w)
    (hs : (b.exact R S).Spaced h W)
    (hB : R.g ^ (D * (5 * b.order + 1)) * (1 + R.coefErr h b.order D) ≤ 2) (hfW : R.Fits (4 * W)) (hf2 : R.Fits 2)
    (hfC : R.Fits (R.g ^ roundings D b.order * (C + (b.order + 1) ^ D * (R.coefErr h b.order D * C + R.η)))) :
    ∃ y, (b.exact R S).eval (fun d => (R.val (w d), (x d).2)) = .ok y ∧
      Ok (Fl.eval b x) fun v => S.Finite v ∧
        |S.val v - y| ≤ (R.g ^ roundings D b.order - 1) * C +
          R.g ^ roundings D b.order * ((b.order + 1) ^ D * (R.coefErr h b.order D * C + R.η)) := by
  obtain ⟨s, hat, hin⟩ := hp.at R S he
  obtain ⟨Cf, hC⟩ := Mesh.exists_holds (b.exact R S).ctrl he.ctrl
  refine ⟨_, he.eval_sum (x := fun d => (R.val (w d), (x d).2)) hat hp.hint hC, ?_⟩
  have hg := R.one_le_g
  have hη := R.η_nonneg
  have hh := hs.pos
  have hcE := R.coefErr_nonneg hh b.order D
  have hord : (b.exact R S).order = b.order := rfl
  have hdims : (b.exact R S).ctrl.dims = b.ctrl.dims := rfl
  have hlen : ∀ d, ((b.exact R S).knots d).length = (b.knots d).length := fun d => List.length_map _
  have hkn : ∀ d, (b.exact R S).kn d = knotFn ((b.knots d).map R.val) := fun d => rfl
  have hmono : ∀ d i j, 1 ≤ i → i ≤ j → j < (b.knots d).length → (b.exact R S).kn d i ≤ (b.exact R S).kn d j := fun d i j h1 h2 h3 =>
    he.mono d i j h1 h2 (by rw [hlen]; exact h3)
  have hseg : ∀ d, b.order ≤ s d ∧ s d + b.order + 1 < (b.knots d).length ∧ s d ≤ (b.exact R S).last d := fun d => by
    have h1 := (hat.seg d).1
    have h2 := (hat.seg d).2.1
    have h3 := he.last_lt d
    rw [hlen, hord] at h3
    rw [hord] at h1
    exact ⟨h1, by omega, h2⟩
  have hl : ∀ d i, s d < i + b.order → i ≤ s d → (b.exact R S).kn d i ≤ R.val (w d) := fun d i h1 h2 => by
    have := hseg d
    exact (hmono d i (s d) (by omega) h2 (by omega)).trans (hin d).1
  have hr : ∀ d j, s d < j → j ≤ s d + b.order → R.val (w d) ≤ (b.exact R S).kn d j := fun d j h1 h2 => by
    have := hseg d
    exact (hin d).2.trans (hmono d (s d + 1) j (by omega) h1 (by omega))
  have hnd := fun d => he.seg_nondeg hat d
  unfold Fl.eval
  rw [tabM_ok (g := fun d => (w d, s d)) (fun d => getKnotIter'_val R S he hb hp hat d), ok_bind]
  refine Spec.bind (tabM_spec (Q := fun d l => l.length = b.order + 1 ∧ ∀ a, a ≤ b.order →
    R.Entry h ((b.exact R S).kn d) (s d) b.order (R.val (w d)) b.order a l) fun d => ?_) fun base hbase => ?_
  · have hsd := hseg d
    have hD : 1 ≤ D := d.pos
    refine Fl.baseSplineValue_near R (W := W) hsd.1 (by omega) (hb.knots d) (hp.finite d) (hnd d) le_rfl (hl d) (hr d) hh ?_ ?_ hfW hf2
    · intro i j h1 h2 h3 h4
      have hlt : (b.exact R S).kn d (s d) < (b.exact R S).kn d (s d + 1) :=
        IsSeg.nondeg (he.kmono d) (by have := he.last_lt d; omega) (he.first d) (he.lastSeg d) (hat.seg d)
      have a1 := hs.min d (s d) hsd.1 hsd.2.2 hlt
      have a2 := hmono d i (s d) (by omega) h2 (by omega)
      have a3 := hmono d (s d + 1) j (by omega) h3 (by omega)
      have a4 := hmono d 1 i (by omega) (by omega) (by omega)
      have a5 := hmono d j ((b.knots d).length - 1) (by omega) (by omega) (by omega)
      have a6 := hs.max d
      rw [hlen] at a6
      rw [← hkn]
      constructor <;> linarith
    · refine le_trans ?_ hB
      have e1 := R.absErr_nonneg hh b.order
      refine mul_le_mul (pow_le_pow_right₀ hg ?_) ?_ (by linarith) (by positivity)
      · calc 5 * b.order ≤ 1 * (5 * b.order + 1) := by omega
          _ ≤ _ := Nat.mul_le_mul_right _ hD
      · unfold RoundK.coefErr
        have : (1 : F) ≤ D := by exact_mod_cast hD
        nlinarith
  -- the loop
  set N := (b.order + 1) ^ D with hN
  set k1 := D * (5 * b.order + 1) with hk1
  set ce := R.coefErr h b.order D with hce
  set A := (b.exact R S).locW (fun d => R.val (w d)) s with hA
  set I := (b.exact R S).locI s with hI
  have hdec : ∀ i (d : Fin D), decode (fun _ : Fin D => b.order + 1) i d < b.order + 1 := fun i d =>
    decode_inRange (dims := fun _ : Fin D => b.order + 1) (fun _ => Nat.succ_pos _) d
  have hA0 : ∀ i, 0 ≤ A i := fun i => prod_nonneg fun d _ => piece_nonneg (hl d) (hr d) _ _ le_rfl
  have hAs : ∑ i ∈ Finset.range N, A i = 1 := he.locW_sum hat
  have hIr : ∀ i, InRange b.ctrl.dims (I i) := fun i d => by
    have h1 := hseg d
    have h2 := hdec i d
    have := he.ctrlOf_lt (d := d) (i := s d - b.order + decode (fun _ : Fin D => b.order + 1) i d) (by omega)
    exact this
  -- bound on the control points
  have hCf : ∀ i, |Cf (I i)| ≤ C := fun i => by
    obtain ⟨v, _, v2, v3, v4⟩ := (rd_ctrl R S hC hb (hIr i)).exists
    rw [← v4]; exact v3
  by_cases hN0 : N = 0
  · exact absurd hN0 (by positivity)
  have hC0 : 0 ≤ C := (abs_nonneg _).trans (hCf 0)
  have hsumle : ∀ n, n ≤ N → ∑ i ∈ Finset.range n, A i * |Cf (I i)| ≤ C := fun n hn => by
    calc ∑ i ∈ Finset.range n, A i * |Cf (I i)| ≤ ∑ i ∈ Finset.range n, A i * C :=
          sum_le_sum fun i _ => mul_le_mul_of_nonneg_left (hCf i) (hA0 i)
      _ ≤ ∑ i ∈ Finset.range N, A i * C := sum_le_sum_of_subset_of_nonneg (Finset.range_subset_range.2 hn) fun i _ _ => mul_nonneg (hA0 i) hC0
      _ = C := by rw [← sum_mul, hAs, one_mul]
  have main := Spec.loop (E := fun _ => False) (lo := 0) (hi := N) (s := (0 : V))
    (P := fun n v => S.Finite v ∧ |S.val v - ∑ i ∈ Finset.range n, A i * Cf (I i)| ≤
      (R.g ^ (k1 + 1 + n) - 1) * ∑ i ∈ Finset.range n, A i * |Cf (I i)| + R.g ^ (k1 + 1 + n) * (n * (ce * C + R.η)))
    (f := fun i v => Fl.evalBody b (fun d => (w d, s d)) base i v) (Nat.zero_le _) ?_ ?_
  · refine main.imp fun v ⟨v1, v2⟩ => ⟨v1, v2.trans ?_⟩
    have h1 : 1 ≤ R.g ^ (k1 + 1 + N) := one_le_pow₀ hg
    have h2 := mul_le_mul_of_nonneg_left (hsumle N le_rfl) (by linarith : 0 ≤ R.g ^ (k1 + 1 + N) - 1)
    have h3 : roundings D b.order = k1 + 1 + N := rfl
    have h4 : ((N : ℕ) : F) = (b.order + 1) ^ D := by rw [hN]; push_cast; rfl
    rw [h3, ← h4]
    linarith
  · exact ⟨S.finite_zero, by rw [S.val_zero]; simp⟩
  intro n v _ hn ⟨hv1, hv2⟩
  have hlt := hdec n
  unfold Fl.evalBody
  rw [dimwiseIndices_ok (dims := fun _ : Fin D => b.order + 1) (fun _ => Nat.succ_pos _), ok_bind]
  have fold := fold_near R hh (order := b.order) (n := D) (Ev := fun d => rd (base d) (decode (fun _ : Fin D => b.order + 1) n d))
    (I := fun d => b.ctrlIndex d (s d) (decode (fun _ : Fin D => b.order + 1) n d))
    (P := fun d => piece ((b.exact R S).kn d) (s d) b.order (s d - b.order + decode (fun _ : Fin D => b.order + 1) n d) (R.val (w d)))
    (ind := I n) (fun d => ?_) (fun d => RoundK.piece_le_one (hl d) (hr d) (hnd d) (hseg d).1 le_rfl _) (fun d => ?_) hB hf2
    (List.finRange D) 0 1 (decode (fun _ : Fin D => b.order + 1) n) 1 (by simp) R.finite_one le_rfl ?_
  rotate_left
  · obtain ⟨e, e1, e2, e3⟩ := (hbase d).2 _ (Nat.lt_succ_iff.1 (hlt d))
    exact (Ok_rd e1).imp fun w hw => by subst hw; exact ⟨e2, e3⟩
  · rw [ctrlIndex_exact R S]
    exact he.ctrlIndex_eq (hseg d).1 (hseg d).2.2
  · rw [R.val_one, Nat.zero_mul]
    exact (Near.refl zero_le_one).mono hg le_rfl le_rfl (R.coefErr_nonneg hh _ _)
  refine Spec.bind fold fun r ⟨r1, r2, r3⟩ => ?_
  have r3' : r.2 = I n := by rw [r3]; funext d; simp
  rw [r3']
  have hprod : (1 : F) * ((List.finRange D).map fun d => piece ((b.exact R S).kn d) (s d) b.order
      (s d - b.order + decode (fun _ : Fin D => b.order + 1) n d) (R.val (w d))).prod = A n := by
    rw [one_mul, ← List.ofFn_eq_map, List.prod_ofFn]; rfl
  rw [hprod, List.length_finRange, Nat.zero_add] at r2
  refine Spec.bind (rd_ctrl R S hC hb (hIr n)) fun c ⟨c1, c2, c3⟩ => ?_
  have hAn : A n ≤ 1 := by
    rw [← hAs]
    exact single_le_sum (f := A) (fun i _ => hA0 i) (Finset.mem_range.2 hn)
  have hNn : ((n : ℕ) : F) + 1 ≤ (b.order + 1) ^ D := by
    have : n + 1 ≤ (b.order + 1) ^ D := hn
    exact_mod_cast this
  have hq : 0 ≤ ce * C + R.η := by positivity
  have hone : (1 : F) ≤ (b.order + 1) ^ D := by
    have : (0 : F) ≤ n := Nat.cast_nonneg _
    linarith
  have hround : roundings D b.order = k1 + 1 + N := rfl
  obtain ⟨p1, p2⟩ := summand R S (C := C) hcE r1 c1 r2 c2 (by
    refine R.fits_of_le (mul_nonneg (mul_nonneg (by positivity) (add_nonneg (hA0 n) hcE)) hC0) ?_ hfC
    rw [mul_assoc, hround]
    refine mul_le_mul (pow_le_pow_right₀ hg (by omega)) ?_ (mul_nonneg (add_nonneg (hA0 n) hcE) hC0) (by positivity)
    have h1 : (A n + ce) * C ≤ (1 + ce) * C := mul_le_mul_of_nonneg_right (by linarith) hC0
    have h2 : 1 * (ce * C + R.η) ≤ (b.order + 1) ^ D * (ce * C + R.η) := mul_le_mul_of_nonneg_right hone hq
    linarith)
  have hstep := add_step R S (k := k1 + 1 + n) (v := v) (p := r.1 • c) (A := ∑ i ∈ Finset.range n, A i * Cf (I i))
    (B := ∑ i ∈ Finset.range n, A i * |Cf (I i)|) (a := A n * S.val c) (b := A n * |S.val c|) (E := n * (ce * C + R.η)) (e := ce * C + R.η)
    (C := C + (b.order + 1) ^ D * (ce * C + R.η)) hv1 p1 ?_ ?_ hv2 ?_ (by positivity) hq ?_ ?_
  · refine Spec.pure ⟨hstep.1, ?_⟩
    have := hstep.2
    rw [sum_range_succ, sum_range_succ, ← c3]
    refine this.trans (le_of_eq ?_)
    rw [show k1 + 1 + n + 1 = k1 + 1 + (n + 1) by omega]
    push_cast
    ring
  · refine (abs_sum_le_sum_abs _ _).trans (le_of_eq (sum_congr rfl fun i _ => ?_))
    rw [abs_mul, abs_of_nonneg (hA0 i)]
  · rw [abs_mul, abs_of_nonneg (hA0 n)]
  · refine p2.trans ?_
    have h1 : R.g ^ (k1 + 1) ≤ R.g ^ (k1 + 1 + n) := pow_le_pow_right₀ hg (by omega)
    have h2 : 0 ≤ A n * |S.val c| := mul_nonneg (hA0 n) (abs_nonneg _)
    have h3 := mul_le_mul_of_nonneg_right h1 h2
    have h4 := mul_le_mul_of_nonneg_right h1 hq
    linarith
  · have h1 := hsumle (n + 1) hn
    rw [sum_range_succ, ← c3] at h1
    have h2 := mul_le_mul_of_nonneg_right hNn hq
    linarith
  · refine R.fits_of_le (mul_nonneg (by positivity) (by positivity)) ?_ hfC
    rw [hround]
    exact mul_le_mul_of_nonneg_right (pow_le_pow_right₀ hg (by omega)) (by positivity)

end BSpline

end Intp
