import Verif.Proofs.RoundCell
import Verif.Props.CellFloat
import Verif.Props.Rounding
import Verif.Props.RoundUniform

/-!
# C93: accuracy in the cell layout
-/

namespace Intp

open Finset

section
variable {K F V : Type} [CoordArith K] [Field F] [LinearOrder F] [IsStrictOrderedRing F] [FloorRing F] [ValArith V] [ScaleArith K V] {D : ℕ}
variable (R : RoundK K F) (S : RoundV R V)

/-- The sum with the first dimension fastest has the same summands. -/
theorem sum_cell_order {o : ℕ} (G : (Fin D → ℕ) → F) : ∑ i ∈ Finset.range ((o + 1) ^ D), G (fun d => i / (o + 1) ^ d.val % (o + 1)) =
    ∑ i ∈ Finset.range ((o + 1) ^ D), G (decode (fun _ : Fin D => o + 1) i) := by
  rw [sum_digs (Nat.succ_pos o) G]
  have e : (o + 1) ^ D = ∏ _d : Fin D, (o + 1) := by simp
  rw [e, sum_decode]

/-- Absolute error of a summand in the cell layout. -/
theorem cell_summand {h C : F} (hh : 0 < h) {o : ℕ} (hB : R.g ^ (D * (5 * o + 1)) * (1 + R.coefErr h o D) ≤ 2) (hC : 0 ≤ C) :
    D * (2 * R.absErr h o) ≤ 1 ∧ 0 ≤ R.coefErr h o D * C + (2 * D + 1) * R.η ∧ 2 * D * (R.absErr h o * C + R.η) ≤ R.coefErr h o D * C + (2 * D + 1) * R.η ∧
      R.coefErr h o D * C + R.η ≤ R.coefErr h o D * C + (2 * D + 1) * R.η := by
  have hg : 1 ≤ R.g ^ (D * (5 * o + 1)) := one_le_pow₀ R.one_le_g
  have h0 := R.coefErr_nonneg hh o D
  have ha := R.absErr_nonneg hh o
  have hη := R.η_nonneg
  have hD : (0 : F) ≤ D := Nat.cast_nonneg _
  have h1 : R.coefErr h o D ≤ 1 := by nlinarith
  have hDη : 0 ≤ D * R.η := mul_nonneg hD hη
  have hDηC : 0 ≤ D * R.η * C := mul_nonneg hDη hC
  have e : R.coefErr h o D = D * (2 * R.absErr h o) + D * R.η := by unfold RoundK.coefErr; ring
  refine ⟨by linarith, by positivity, ?_, ?_⟩
  · rw [e]; nlinarith
  · nlinarith

/-- **C93**, any arithmetic with bounded rounding errors: in the cell layout `operator()` has the error bound of C74, but for the part that comes from underflow. -/
theorem rounded_cell {b : BSpline (D + 1) K V} {cell : Mesh (D + 2) V} {x : Fin (D + 1) → K × ℕ} {w : Fin (D + 1) → K} {C h W : F}
    (he : (b.exact R S).WF) (hsh : Fl.Shaped b) (hb : b.Bounded R S C) (hp : b.Pt R S x w) (hs : (b.exact R S).Spaced h W)
    (hx : ∀ d, Fl.SegIn b d (x d).2) (hl : Fl.Cells b cell)
    (hcs : ∀ segs, tabM (fun d => Fl.getKnotIter' b d (x d).1 (x d).2) = .ok segs → Fl.CellSafe b fun d => (segs d).2) {k : ℕ}
    (hk : k = (D + 1) * (5 * b.order + 1) + 1 + (b.order + 1) ^ (D + 1))
    {E : F} (hE : E = (D + 1 : ℕ) * (2 * ((2 ^ (b.order + 1) - 2) * (R.η * (1 / h + 1))) + R.η))
    (hB : (1 - R.u)⁻¹ ^ ((D + 1) * (5 * b.order + 1)) * (1 + E) ≤ 2) (hfW : R.Fits (4 * W)) (hf2 : R.Fits 2)
    (hfC : R.Fits ((1 - R.u)⁻¹ ^ k * (C + (b.order + 1) ^ (D + 1) * (E * C + (2 * (D + 1 : ℕ) + 1) * R.η)))) :
    ∃ y, (b.exact R S).eval (fun d => (R.val (w d), (x d).2)) = .ok y ∧
      (∀ c, ∃ v, Fl.cellEval c ⟨b, cell⟩ x = .ok v ∧ S.Finite v ∧
        |S.val v - y| ≤ ((1 - R.u)⁻¹ ^ k - 1) * C + (1 - R.u)⁻¹ ^ k * ((b.order + 1) ^ (D + 1) * (E * C + (2 * (D + 1 : ℕ) + 1) * R.η))) ∧
      ((∀ d, (b.knots d).length = Fl.knotLen b.order (b.ctrl.dims d + if b.periodicity d then 1 else 0) (b.periodicity d)) →
        (b.order % 2 = 1 ∨ ∀ d ≠ 0, b.periodicity d = false) →
        ∀ cell0, ∃ v, (do let p ← Fl.preCalcCoef ⟨b, cell0⟩ x; Fl.proxyCall p (⟨b, cell⟩ : CellSpline D K V)) = .ok v ∧ S.Finite v ∧
        |S.val v - y| ≤ ((1 - R.u)⁻¹ ^ k - 1) * C + (1 - R.u)⁻¹ ^ k * ((b.order + 1) ^ (D + 1) * (E * C + (2 * (D + 1 : ℕ) + 1) * R.η))) := by
  subst hk
  subst hE
  have hh := hs.pos
  have hg := R.one_le_g
  have hC0 : 0 ≤ C := by
    have h1 : 0 < b.ctrl.storage.length := by
      rw [show b.ctrl.storage.length = ∏ d, b.ctrl.dims d from hsh.wf]
      exact prod_pos fun d _ => hsh.pos d
    exact (abs_nonneg _).trans (hb.ctrl _ (List.getElem_mem h1)).2
  obtain ⟨c1, c2, c3, c4⟩ := cell_summand R (D := D + 1) hh hB hC0
  have hpow : R.g ^ ((D + 1) * (5 * b.order + 1)) ≤ R.g ^ ((D + 1) * (5 * b.order + 1) + 1) := pow_le_pow_right₀ hg (Nat.le_succ _)
  have hpow1 : 1 ≤ R.g ^ ((D + 1) * (5 * b.order + 1)) := one_le_pow₀ hg
  have hcE := R.coefErr_nonneg hh b.order (D + 1)
  have haE := R.absErr_nonneg hh b.order
  have hη := R.η_nonneg
  have hN : (1 : F) ≤ ((b.order : F) + 1) ^ (D + 1) := one_le_pow₀ (by linarith [Nat.cast_nonneg (α := F) b.order])
  have hNe : R.coefErr h b.order (D + 1) * C + (2 * (D + 1 : ℕ) + 1) * R.η ≤
      ((b.order : F) + 1) ^ (D + 1) * (R.coefErr h b.order (D + 1) * C + (2 * (D + 1 : ℕ) + 1) * R.η) := le_mul_of_one_le_left c2 hN
  have hfC' : R.Fits (R.g ^ BSpline.roundings (D + 1) b.order * (C + (b.order + 1) ^ (D + 1) * (R.coefErr h b.order (D + 1) * C + (2 * (D + 1 : ℕ) + 1) * R.η))) := hfC
  have hpr : R.g ^ ((D + 1) * (5 * b.order + 1)) ≤ R.g ^ BSpline.roundings (D + 1) b.order := pow_le_pow_right₀ hg (by unfold BSpline.roundings; omega)
  have hdg : ∀ i (d : Fin (D + 1)), i / (b.order + 1) ^ d.val % (b.order + 1) < b.order + 1 := fun i d => Nat.mod_lt _ (Nat.succ_pos _)
  -- `operator()`
  obtain ⟨y, hy, h1⟩ := BSpline.Fl.point_near R S (e := R.coefErr h b.order (D + 1) * C + (2 * (D + 1 : ℕ) + 1) * R.η) he hsh hb hp hs hB hfW hf2 c2 hfC'
    (fun i d => i / (b.order + 1) ^ d.val % (b.order + 1)) hdg sum_cell_order
    (fun base i c => Fl.scaleProd (fun d => Fl.el (base d) (i / (b.order + 1) ^ d.val % (b.order + 1))) c) (fun base i P c _ _ hP hE hc hcC => by
      have hP0 : 0 ≤ (∏ d, P d) * |S.val c| := mul_nonneg (prod_nonneg fun d _ => (hE d).2.right) (abs_nonneg _)
      obtain ⟨p1, p2⟩ := scaleProd_near R S haE hc hcC hE hP c1 (by
        refine R.fits_of_le (by positivity) ?_ hfC'
        exact mul_le_mul hpr (by linarith) (by positivity) (by positivity))
      refine ⟨p1, p2.trans (add_le_add (mul_le_mul_of_nonneg_right (by linarith) hP0) ?_)⟩
      exact mul_le_mul hpow c3 (by positivity) (by positivity))
  refine ⟨y, hy, fun c => ?_, fun hk ho cell0 => ?_⟩
  · obtain ⟨v, v1, v2, v3⟩ := h1.exists
    refine ⟨v, ?_, v2, v3⟩
    rw [Fl.cellEval_any c hsh hx hl hcs]
    exact v1
  · obtain ⟨y', hy', h2⟩ := BSpline.Fl.point_near R S (e := R.coefErr h b.order (D + 1) * C + (2 * (D + 1 : ℕ) + 1) * R.η) he hsh hb hp hs hB hfW hf2 c2 hfC'
      (fun i d => i / (b.order + 1) ^ d.val % (b.order + 1)) hdg sum_cell_order
      (fun base i c => (if D = 0 then Fl.el (base 0) i else Fl.coefProd fun d => Fl.el (base d) (i / (b.order + 1) ^ d.val % (b.order + 1))) • c)
      (fun base i P c hi _ hP hE hc hcC => by
        have hP0 : 0 ≤ ∏ d, P d := prod_nonneg fun d _ => (hE d).2.right
        have hP1 : ∏ d, P d ≤ 1 := prod_le_one (fun d _ => (hE d).2.right) fun d _ => hP d
        have hco : R.Finite (if D = 0 then Fl.el (base 0) i else Fl.coefProd fun d => Fl.el (base d) (i / (b.order + 1) ^ d.val % (b.order + 1))) ∧
            Near R.g ((D + 1) * (5 * b.order + 1)) (R.coefErr h b.order (D + 1))
              (R.val (if D = 0 then Fl.el (base 0) i else Fl.coefProd fun d => Fl.el (base d) (i / (b.order + 1) ^ d.val % (b.order + 1)))) (∏ d, P d) := by
          by_cases hD : D = 0
          · subst hD
            rw [if_pos rfl]
            have hi' : i / (b.order + 1) ^ (0 : Fin 1).val % (b.order + 1) = i := by
              rw [show (0 : Fin 1).val = 0 from rfl, pow_zero, Nat.div_one]
              exact Nat.mod_eq_of_lt (by simpa using hi)
            have := hE 0
            rw [hi'] at this
            refine ⟨this.1, ?_⟩
            rw [Fin.prod_univ_one]
            refine this.2.mono hg haE (by omega) ?_
            unfold RoundK.coefErr
            push_cast
            linarith
          · rw [if_neg hD]
            exact coefProd_near R hh hE hP hB hf2
        obtain ⟨p1, p2⟩ := summand R S hcE hco.1 hc hco.2 hcC (by
          refine R.fits_of_le (mul_nonneg (mul_nonneg (by positivity) (by linarith)) hC0) ?_ hfC'
          rw [mul_assoc]
          refine mul_le_mul hpr ?_ (mul_nonneg (by linarith) hC0) (by positivity)
          have : ((∏ d, P d) + R.coefErr h b.order (D + 1)) * C ≤ (1 + R.coefErr h b.order (D + 1)) * C := mul_le_mul_of_nonneg_right (by linarith) hC0
          linarith)
        exact ⟨p1, p2.trans (add_le_add le_rfl (mul_le_mul_of_nonneg_left c4 (by positivity)))⟩)
    rw [hy] at hy'
    obtain rfl := Except.ok.inj hy'
    obtain ⟨v, v1, v2, v3⟩ := h2.exists
    refine ⟨v, ?_, v2, v3⟩
    rw [Fl.proxy_any hsh hk ho hx hl hcs cell0]
    exact v1

end

/-! ## `double` -/

private lemma cell_err {G N E C η u k Z : ℚ} (hG : G ≤ 1 + 6 / 5 * (k * u)) (hG2 : G ≤ 5 / 4) (hN0 : 0 ≤ N) (hN : N ≤ k) (hE0 : 0 ≤ E)
    (hE : E ≤ u) (hC : 0 ≤ C) (hη : 0 ≤ η) (hZ : 5 / 4 * η ≤ Z) : (G - 1) * C + G * (N * (E * C + η)) ≤ 3 * (k * u * C) + k * Z := by
  have hk : 0 ≤ k := hN0.trans hN
  have s1 : (G - 1) * C ≤ 6 / 5 * (k * u) * C := mul_le_mul_of_nonneg_right (by linarith) hC
  have hq : 0 ≤ E * C + η := by positivity
  have s2 : G * (N * (E * C + η)) ≤ 5 / 4 * (k * (E * C + η)) :=
    mul_le_mul hG2 (mul_le_mul_of_nonneg_right hN hq) (by positivity) (by norm_num)
  have s4 : k * (E * C) ≤ k * (u * C) := mul_le_mul_of_nonneg_left (mul_le_mul_of_nonneg_right hE hC) hk
  have s6 : k * (5 / 4 * η) ≤ k * Z := mul_le_mul_of_nonneg_left hZ hk
  have s9 : 0 ≤ k * (u * C) := mul_nonneg hk (mul_nonneg (hE0.trans hE) hC)
  nlinarith

private lemma cell_fits {G N E C η B L : ℚ} (hG2 : G ≤ 5 / 4) (hN0 : 0 ≤ N) (hN : N ≤ 2 ^ 50) (hE0 : 0 ≤ E) (hE : E ≤ 1 / 2 ^ 60)
    (hC : 0 ≤ C) (hCB : C ≤ B) (hη : 0 ≤ η) (hη1 : η ≤ 1) (hL : 5 / 4 * (B + 2 ^ 50 * (1 / 2 ^ 60 * B + 1)) ≤ L) :
    G * (C + N * (E * C + η)) ≤ L := by
  have hB := hC.trans hCB
  have e1 : E * C + η ≤ 1 / 2 ^ 60 * B + 1 := add_le_add (mul_le_mul hE hCB hC (by positivity)) hη1
  have e2 : N * (E * C + η) ≤ 2 ^ 50 * (1 / 2 ^ 60 * B + 1) := mul_le_mul hN e1 (by positivity) (by positivity)
  exact (mul_le_mul hG2 (add_le_add hCB e2) (by positivity) (by norm_num)).trans hL

private lemma eta_many {n η t : ℚ} (hn : 1 ≤ n) (hn2 : n ≤ 2 ^ 50) (hη : 0 ≤ η) (h1 : 2 ^ 52 * η ≤ 1) (h2 : 2 * η ≤ t) :
    (2 * n + 1) * η ≤ 1 ∧ 5 / 4 * ((2 * n + 1) * η) ≤ 2 * n * t := by
  constructor
  · exact (mul_le_mul_of_nonneg_right (by linarith) hη).trans h1
  · have h3 : 2 * n * (2 * η) ≤ 2 * n * t := mul_le_mul_of_nonneg_left h2 (by linarith)
    have h4 : η ≤ n * η := le_mul_of_one_le_left hη hn
    linarith

/-- **C93**, on the spline. -/
theorem double_cell_eval {D : ℕ} {b : BSpline (D + 1) F64 F64} {cell : Mesh (D + 2) F64} {C : ℚ} (hb : DoubleSpline b C) {x : Fin (D + 1) → F64} {w : Fin (D + 1) → ℚ}
    (hp : DoublePt b x w) {h : Fin (D + 1) → ℕ} (hh : ∀ d, b.order ≤ h d ∧ h d ≤ b.rat.last d) (hl : Fl.Cells b cell)
    (hx : ∀ d, Fl.SegIn b d (h d)) (hcs : ∀ segs, tabM (fun d => Fl.getKnotIter' b d (x d) (h d)) = .ok segs → Fl.CellSafe b fun d => (segs d).2)
    {k : ℕ} (hk : k = (D + 1) * (5 * b.order + 1) + 1 + (b.order + 1) ^ (D + 1)) :
    ∃ y, b.rat.eval (fun d => (w d, h d)) = .ok y ∧
      (∀ c, ∃ v, Fl.cellEval c ⟨b, cell⟩ (fun d => (x d, h d)) = .ok (.fin v) ∧ |v - y| ≤ 3 * k / 2 ^ 53 * C + 2 * (D + 1) * k / 2 ^ 1074) ∧
      ((∀ d, (b.knots d).length = Fl.knotLen b.order (b.ctrl.dims d + if b.periodicity d then 1 else 0) (b.periodicity d)) →
        (b.order % 2 = 1 ∨ ∀ d ≠ 0, b.periodicity d = false) →
        ∀ cell0, ∃ v, (do let p ← Fl.preCalcCoef ⟨b, cell0⟩ (fun d => (x d, h d)); Fl.proxyCall p (⟨b, cell⟩ : CellSpline D F64 F64)) = .ok (.fin v) ∧
          |v - y| ≤ 3 * k / 2 ^ 53 * C + 2 * (D + 1) * k / 2 ^ 1074) := by
  have hu0 := F64.u_pos
  have hη0 := F64.η_pos
  obtain ⟨hC0, hC1⟩ := hb.bound
  have hk50 : k ≤ 2 ^ 50 := hk ▸ hb.small
  have hD : D + 1 ≤ 2 ^ 50 := by
    have h1 : D + 1 ≤ (D + 1) * (5 * b.order + 1) := Nat.le_mul_of_pos_right (D + 1) (by omega)
    exact le_trans (by rw [hk]; omega) hk50
  obtain ⟨hE0, hE1⟩ := small_err (P := F64.η * (1 / (1 / 2 ^ 900) + 1)) (by decide +kernel) (by decide +kernel) (by decide +kernel) hD hb.order
  obtain ⟨E, hE⟩ : ∃ E : ℚ, E = (D + 1 : ℕ) * (2 * ((2 ^ (b.order + 1) - 2) * (F64.η * (1 / (1 / 2 ^ 900) + 1))) + F64.η) := ⟨_, rfl⟩
  rw [← hE] at hE0 hE1
  have hG := g_bound k hk50
  have hk51 : (k : ℚ) ≤ 2 ^ 50 := by exact_mod_cast hk50
  have hku : (k : ℚ) * F64.u ≤ 1 / 8 := by
    rw [F64.u_eq]
    calc (k : ℚ) * (1 / 2 ^ 53) ≤ 2 ^ 50 * (1 / 2 ^ 53) := mul_le_mul_of_nonneg_right hk51 (by positivity)
      _ = 1 / 8 := by norm_num
  have hg1 : 1 ≤ (1 - F64.u)⁻¹ := one_le_g F64.u_pos.le (by rw [F64.u_eq]; norm_num)
  have hG1 : 1 ≤ (1 - F64.u)⁻¹ ^ k := one_le_pow₀ hg1
  have hG2 : (1 - F64.u)⁻¹ ^ k ≤ 5 / 4 := hG.trans (by clear hC1 hE; linarith)
  have hN0 : 0 ≤ ((b.order : ℚ) + 1) ^ (D + 1) := pow_nonneg (Nat.cast_add_one_pos _).le _
  have hNk : ((b.order : ℚ) + 1) ^ (D + 1) ≤ k := by
    have : (b.order + 1) ^ (D + 1) ≤ k := by rw [hk]; omega
    exact_mod_cast this
  have hn1 : (1 : ℚ) ≤ (D + 1 : ℕ) := by exact_mod_cast Nat.succ_pos D
  have hn2 : ((D + 1 : ℕ) : ℚ) ≤ 2 ^ 50 := by exact_mod_cast hD
  obtain ⟨m1, m2⟩ := eta_many hn1 hn2 hη0.le (t := 1 / 2 ^ 1074) (by decide +kernel) (by decide +kernel)
  have m0 : 0 ≤ (2 * ((D + 1 : ℕ) : ℚ) + 1) * F64.η := mul_nonneg (by linarith only [hn1]) hη0.le
  have fin_err : ((1 - F64.u)⁻¹ ^ k - 1) * C + (1 - F64.u)⁻¹ ^ k * (((b.order : ℚ) + 1) ^ (D + 1) * (E * C + (2 * ((D + 1 : ℕ) : ℚ) + 1) * F64.η)) ≤
      3 * k / 2 ^ 53 * C + 2 * (D + 1) * k / 2 ^ 1074 := by
    have s7 : (3 : ℚ) * k / 2 ^ 53 * C = 3 * (k * F64.u * C) := by rw [F64.u_eq]; ring
    have s8 : (2 : ℚ) * (D + 1) * k / 2 ^ 1074 = k * (2 * ((D + 1 : ℕ) : ℚ) * (1 / 2 ^ 1074)) := by
      push_cast
      generalize (2 : ℚ) ^ 1074 = B
      ring
    rw [s7, s8]
    exact cell_err hG hG2 hN0 hNk hE0 (hE1.trans (by rw [F64.u_eq]; norm_num)) hC0 m0 m2
  have main := rounded_cell F64.coord F64.value (b := b) (cell := cell) (x := fun d => (x d, h d)) (w := fun d => .fin (w d)) (C := C) (h := 1 / 2 ^ 900) (W := 2 * 2 ^ 1000)
    hb.wf hb.shaped hb.bounded (hp.pt hb hh) hb.spaced hx hl hcs hk (E := E) hE ?_ ?_ ?_ ?_
  · obtain ⟨y, h1, h2, h3⟩ := main
    refine ⟨y, h1, fun c => ?_, fun a1 a2 cell0 => ?_⟩
    · obtain ⟨v, v1, v2, v3⟩ := h2 c
      obtain ⟨q, rfl, -⟩ := F64.finite_iff.1 v2
      exact ⟨q, v1, v3.trans fin_err⟩
    · obtain ⟨v, v1, v2, v3⟩ := h3 a1 a2 cell0
      obtain ⟨q, rfl, -⟩ := F64.finite_iff.1 v2
      exact ⟨q, v1, v3.trans fin_err⟩
  · show (1 - F64.u)⁻¹ ^ ((D + 1) * (5 * b.order + 1)) * (1 + E) ≤ 2
    have : (1 - F64.u)⁻¹ ^ ((D + 1) * (5 * b.order + 1)) ≤ (1 - F64.u)⁻¹ ^ k := pow_le_pow_right₀ hg1 (by rw [hk]; omega)
    have e1 : (1 / 2 ^ 60 : ℚ) ≤ 1 / 2 := by norm_num
    calc (1 - F64.u)⁻¹ ^ ((D + 1) * (5 * b.order + 1)) * (1 + E) ≤ 5 / 4 * (1 + 1 / 2) :=
          mul_le_mul (this.trans hG2) (by linarith only [hE1, e1]) (by linarith only [hE0]) (by norm_num)
      _ ≤ 2 := by norm_num
  · show |(4 * (2 * 2 ^ 1000) : ℚ)| ≤ 2 ^ (1023 : ℤ); decide +kernel
  · show |(2 : ℚ)| ≤ 2 ^ (1023 : ℤ); decide +kernel
  · show |(1 - F64.u)⁻¹ ^ k * (C + ((b.order : ℚ) + 1) ^ (D + 1) * (E * C + (2 * ((D + 1 : ℕ) : ℚ) + 1) * F64.η))| ≤ 2 ^ (1023 : ℤ)
    have hq : 0 ≤ C + ((b.order : ℚ) + 1) ^ (D + 1) * (E * C + (2 * ((D + 1 : ℕ) : ℚ) + 1) * F64.η) :=
      add_nonneg hC0 (mul_nonneg hN0 (add_nonneg (mul_nonneg hE0 hC0) m0))
    rw [abs_of_nonneg (mul_nonneg (zero_le_one.trans hG1) hq)]
    exact cell_fits hG2 hN0 (hNk.trans hk51) hE0 hE1 hC0 hC1 m0 m1 (by decide +kernel)

/-- **C93.** A function constructed in `double` with both layouts: in the cell layout `operator()` has the error bound of C74, but for the factor of
the part that comes from underflow; so have the evaluators of `eval_proxy`, if the order is odd or no dimension other than the first is periodic.
As in C91, for even orders the coordinate has to lie below the end of the range of periodic dimensions. -/
theorem double_cell {D : ℕ} (c : Cfg) (o : ℕ) (per : Fin (D + 1) → Bool) (fm : Mesh (D + 1) F64) (x : Fin (D + 1) → XRange F64)
    (hs : ∀ d, SizesOk c o (per d) (fm.dims d) (x d)) (hf : fm.storage.length = ∏ d, fm.dims d)
    (f : InterpFn (D + 1) F64 F64) (h : Fl.construct true c o per fm x = .ok f) :
    ∃ t g, Fl.constructT true c o per fm.dims x = .ok t ∧ Fl.interpolateCell c t fm = .ok g ∧
      ∀ (C : ℚ) (y : Fin (D + 1) → F64) (w : Fin (D + 1) → ℚ) (k : ℕ), DoubleSpline f.spline C → DoublePt f.spline y w → BelowEnd o per f y →
        k = (D + 1) * (5 * o + 1) + 1 + (o + 1) ^ (D + 1) → ∀ v : F64,
        ((∃ c', Fl.cellCall c' g y = .ok v) ∨
          (do let p ← Fl.templateProxy t y; Fl.proxyCall p g.spline) = .ok v ∧ (o % 2 = 1 ∨ ∀ d ≠ 0, per d = false)) →
        ∃ z q, f.spline.rat.eval (fun d => (w d, o)) = .ok z ∧ v = .fin q ∧ |q - z| ≤ 3 * k / 2 ^ 53 * C + 2 * (D + 1) * k / 2 ^ 1074 := by
  obtain ⟨t, g, ht, hg, hp⟩ := Fl.pair_ok (fun d => (hs d).shape) hf h
  refine ⟨t, g, ht, hg, fun C y w k hb hw hy hk v hv => ?_⟩
  rw [← hp.order] at hk
  have hh := hp.hints y
  unfold Fl.cellCall Fl.templateProxy Fl.evalProxy at hv
  rw [hp.fn] at hv
  simp only [hp.hint, bind_assoc] at hv
  cases hkk : tabM fun d => Fl.hint f d (y d) with
  | error e => rw [hkk] at hv; rcases hv with ⟨c', hv⟩ | ⟨hv, -⟩ <;> cases hv
  | ok s =>
    rw [hkk] at hh hv
    have hcs := fun segs hsg => hp.safe hy hh segs hsg
    have hs' := hb.hints hkk
    obtain ⟨z, h1, h2, h3⟩ := double_cell_eval hb hw hs' hp.cells hh hcs hk
    obtain ⟨Cf, hC⟩ := Mesh.exists_holds f.spline.rat.ctrl hb.wf.ctrl
    rw [hb.wf.eval_val (fun d => hb.wf.validHint (hs' d).1 (hs' d).2 _) hC] at h1
    have hz : f.spline.rat.eval (fun d => (w d, o)) = .ok z := by
      rw [← hp.order, hb.wf.eval_val (fun d => hb.wf.validHint le_rfl (hb.wf.last_ge d) _) hC]
      exact h1
    have e1 : ∀ c', Fl.cellEval c' g.spline (fun d => (y d, s d)) = Fl.cellEval c' ⟨f.spline, g.cell⟩ (fun d => (y d, s d)) := fun c' => by
      unfold CellFn.spline
      rw [hp.fn]
      conv_rhs => rw [hp.eq]
      rfl
    have e2 : (do let p ← Fl.preCalcCoef (⟨t.base, ⟨fun _ => 0, []⟩⟩ : CellFn D F64 F64).spline (fun d => (y d, s d)); Fl.proxyCall p g.spline) =
        (do let p ← Fl.preCalcCoef ⟨f.spline, ⟨fun _ => 0, []⟩⟩ (fun d => (y d, s d)); Fl.proxyCall p (⟨f.spline, g.cell⟩ : CellSpline D F64 F64)) := by
      unfold CellFn.spline
      rw [hp.fn]
      conv_rhs => rw [hp.eq]
      rfl
    simp only [ok_bind, e1, e2] at hv
    rcases hv with ⟨c', hv⟩ | ⟨hv, ho⟩
    · obtain ⟨q, q1, q2⟩ := h2 c'
      rw [q1] at hv
      cases hv
      exact ⟨z, q, hz, rfl, q2⟩
    · obtain ⟨q, q1, q2⟩ := h3 (by rw [hp.order, hp.peri]; exact hp.len) (by rw [hp.order, hp.peri]; exact ho) ⟨fun _ => 0, []⟩
      rw [q1] at hv
      cases hv
      exact ⟨z, q, hz, rfl, q2⟩

/-- **C93.** The values computed in the two layouts. -/
theorem double_cell_call {D : ℕ} (c : Cfg) (o : ℕ) (per : Fin (D + 1) → Bool) (fm : Mesh (D + 1) F64) (x : Fin (D + 1) → XRange F64)
    (hs : ∀ d, SizesOk c o (per d) (fm.dims d) (x d)) (hf : fm.storage.length = ∏ d, fm.dims d)
    (f : InterpFn (D + 1) F64 F64) (h : Fl.construct true c o per fm x = .ok f) :
    ∃ t g, Fl.constructT true c o per fm.dims x = .ok t ∧ Fl.interpolateCell c t fm = .ok g ∧
      ∀ (C : ℚ) (y : Fin (D + 1) → F64) (w : Fin (D + 1) → ℚ) (k : ℕ), DoubleSpline f.spline C → DoublePt f.spline y w → BelowEnd o per f y →
        k = (D + 1) * (5 * o + 1) + 1 + (o + 1) ^ (D + 1) → ∀ v : F64, Fl.call f y = .ok v → ∀ c',
        ∃ p q, v = .fin p ∧ Fl.cellCall c' g y = .ok (.fin q) ∧ |q - p| ≤ 6 * k / 2 ^ 53 * C + (2 * D + 3) * k / 2 ^ 1074 := by
  obtain ⟨t, g, ht, hg, h1⟩ := double_cell c o per fm x hs hf f h
  obtain ⟨t', g', ht', hg', h2⟩ := cell_call_safe_partial c o per fm x hs hf f h
  rw [ht] at ht'
  cases ht'
  rw [hg] at hg'
  cases hg'
  refine ⟨t, g, ht, hg, fun C y w k hb hw hy hk v hv c' => ?_⟩
  have ho : f.spline.order = o := by
    obtain ⟨t', g', -, -, hp⟩ := Fl.pair_ok (fun d => (hs d).shape) hf h
    exact hp.order
  obtain ⟨z, p, hz, rfl, hp⟩ := double_call hb hw hv (k := k) (by rw [ho]; exact hk)
  cases hr : Fl.cellCall c' g y with
  | error e => rw [((h2 c' y hy).1 e).1 hr] at hv; cases hv
  | ok r =>
    obtain ⟨z', q, hz', rfl, hq⟩ := h1 C y w k hb hw hy hk r (.inl ⟨c', hr⟩)
    rw [ho, hz'] at hz
    cases hz
    refine ⟨p, q, rfl, rfl, ?_⟩
    have e : (6 : ℚ) * k / 2 ^ 53 * C + (2 * D + 3) * k / 2 ^ 1074 = (3 * k / 2 ^ 53 * C + 2 * (D + 1) * k / 2 ^ 1074) + (3 * k / 2 ^ 53 * C + k / 2 ^ 1074) := by
      generalize (2 : ℚ) ^ 1074 = B
      ring
    rw [e]
    calc |q - p| = |(q - z) - (p - z)| := by rw [sub_sub_sub_cancel_right]
      _ ≤ |q - z| + |p - z| := abs_sub _ _
      _ ≤ _ := add_le_add hq hp

/-! ## The hypotheses hold -/

namespace CellRoundExample

open RoundUniformExample

def y : Fin 2 → F64 := ![.fin (5404319552844595 / 2 ^ 54), .fin (5 / 4)]
def w : Fin 2 → ℚ := ![5404319552844595 / 2 ^ 54, 5 / 4]

/-- Order 2, 6 × 4 points, the first dimension uniform, the second with coordinates 0, 1/2, 7/4, 3: everything that C93 assumes, at the point (0.3, 1.25). -/
theorem hypotheses : ∃ f, Fl.construct true cfg 2 (fun _ => false) data range = .ok f ∧ (∀ d, SizesOk cfg 2 false (data.dims d) (range d)) ∧
    DoubleSpline f.spline 32 ∧ DoublePt f.spline y w ∧ BelowEnd 2 (fun _ => false) f y ∧ ∃ v, Fl.call f y = .ok v := by
  have h : (match Fl.constructT (V := F64) true cfg 2 (fun _ => false) data.dims range, Fl.construct true cfg 2 (fun _ => false) data range with
    | .ok _, .ok g => decide (∀ v ∈ g.spline.ctrl.storage, v = .fin v.toRat ∧ F64.round v.toRat = v ∧ |v.toRat| ≤ 32) &&
      decide (∀ d, g.spline.rat.kn d 2 ≤ w d ∧ w d ≤ g.spline.rat.kn d (g.spline.rat.last d + 1)) && (Fl.call g y).isOk
    | _, _ => false) = true := by decide +kernel
  cases ht : Fl.constructT (V := F64) true cfg 2 (fun _ => false) data.dims range with
  | error e => rw [ht] at h; cases h
  | ok t =>
    cases hg : Fl.construct true cfg 2 (fun _ => false) data range with
    | error e => rw [ht, hg] at h; cases h
    | ok g =>
      rw [ht, hg] at h
      dsimp only at h
      rw [Bool.and_eq_true, Bool.and_eq_true] at h
      obtain ⟨⟨h1, h2⟩, h3⟩ := h
      have h1 := of_decide_eq_true h1
      have h2 := of_decide_eq_true h2
      obtain ⟨htd, hord, hper, hok, hax⟩ := axisNear_of (by omega) (by decide) good ht
      choose T hT using hax
      have hg' := hg
      unfold Fl.construct at hg'
      rw [ht, ok_bind] at hg'
      cases hW : Fl.solveForControlPoints cfg t data with
      | error e => rw [hW] at hg'; cases hg'
      | ok W =>
        rw [hW, ok_bind] at hg'
        have gsp : g.spline = t.base.spline.loadCtrlPts W := by rw [← Except.ok.inj hg']
        have gper : ∀ d, g.spline.periodicity d = false := fun d => by rw [gsp]; exact hper d
        have gord : g.spline.order = 2 := by rw [gsp]; exact hord
        refine ⟨g, rfl, fun d => ?_, ?_, ⟨fun d => ?_, fun d => ?_, fun d => ?_, fun d hd => ?_⟩, (fun d hd => by simp at hd), ?_⟩
        · match d with
          | 0 => exact ⟨by decide, by decide, fun l h => by cases h⟩
          | 1 => exact ⟨by decide, by decide, fun l h => by cases h; decide⟩
        · have hC : ∀ v ∈ g.spline.ctrl.storage, ∃ q, v = .fin q ∧ IsDouble q ∧ |q| ≤ 32 := fun v hv => by
            obtain ⟨h1, h2, h3⟩ := h1 v hv
            exact ⟨_, h1, isDouble_of_round (h2.trans h1), h3⟩
          rw [gsp] at hC ⊢
          exact axes_spline (fm := data) (by omega) rfl (by decide) htd hord hper hok hT hW hC (by constructor <;> decide +kernel) (by norm_num)
        · rw [gper d, if_neg (by decide)]
          match d with
          | 0 => rfl
          | 1 => rfl
        · have : F64.round (w d) = .fin (w d) := by revert d; decide +kernel
          exact isDouble_of_round this
        · rw [gord]; exact h2 d
        · rw [gper d] at hd; cases hd
        · cases hc : Fl.call g y with
          | ok v => exact ⟨v, rfl⟩
          | error e => rw [hc] at h3; cases h3

/-- Hence both layouts give the same value up to `6 · 32 · 32 / 2 ^ 53`, roughly. -/
example : ∃ f t g p q, Fl.construct true cfg 2 (fun _ => false) data range = .ok f ∧ Fl.constructT true cfg 2 (fun _ => false) data.dims range = .ok t ∧
    Fl.interpolateCell cfg t data = .ok g ∧ Fl.call f y = .ok (.fin p) ∧ Fl.cellCall cfg g y = .ok (.fin q) ∧ |q - p| ≤ 6200 / 2 ^ 53 := by
  obtain ⟨f, hf, hs, hb, hw, he, v, hv⟩ := hypotheses
  obtain ⟨t, g, ht, hg, h⟩ := double_cell_call cfg 2 (fun _ => false) data range hs rfl f hf
  obtain ⟨p, q, rfl, h1, h2⟩ := h 32 y w 32 hb hw he (by norm_num) v hv cfg
  exact ⟨f, t, g, p, q, hf, ht, hg, hv, h1, h2.trans (by decide +kernel)⟩

end CellRoundExample

end Intp
