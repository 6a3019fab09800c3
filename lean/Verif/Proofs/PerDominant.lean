import Verif.Proofs.PerAxes
import Verif.Proofs.DominantRows

/-!
# Periodic uniform dimensions of order 1 to 6 are dominant

The rows of the matrix of a periodic uniform dimension hold the values of one basis function at the knots or between them.  Up to order 6 the largest of
them exceeds the sum of the others.
-/

namespace Intp

open Finset BSpline

section
variable {n : ℕ} {Pat : ℕ → ℕ → Prop} {w : ℕ → ℚ} {ω δ : ℚ} {C : ℕ → ℕ → F64} {mm : ℕ → ℕ → ℚ}

/-- The factors below the diagonal, by rows. -/
theorem DomInv.lower (h : DomInv n Pat w δ (n - 1) C mm) (hp : DomPars n Pat w ω δ) {i : ℕ} (hi : i < n) :
    ∑ m ∈ range i, |Fl.entries F64.toRat Pat C i m| ≤ 3 / δ := by
  have hδ := hp.δpos
  set a := Fl.entries F64.toRat Pat C with ha
  have key : ∀ k, k ≤ i → (∑ m ∈ range k, |a i m|) * (7 / 8 * δ) + mm 0 i ≤ mm k i + touch Pat k i * (16 / 2 ^ 53) := by
    intro k
    induction k with
    | zero =>
      intro _
      rw [sum_range_zero, zero_mul, zero_add, touch_zero]
      push_cast
      linarith
    | succ k ih =>
      intro hk
      have ih := ih (by omega)
      rw [sum_range_succ]
      have hm := h.mar2 hp (m := k) (i := k) (by omega) le_rfl (by omega)
      by_cases hP : Pat i k
      · have h1 := h.hit k i (by omega) (by omega) hi hP
        have h2 := mul_le_mul_of_nonneg_left hm (abs_nonneg (a i k))
        rw [← ha] at h1
        rw [touch_pos ⟨by omega, hP⟩]
        push_cast
        linarith
      · have h1 := h.miss k i (by omega) (by omega) hi hP
        rw [touch_neg (by tauto), show a i k = 0 from Fl.entries_neg hP, abs_zero, add_zero]
        linarith
  have h1 := key i le_rfl
  have h2 := h.top i i (by omega) le_rfl hi
  have h3 := h.mar2 hp (m := 0) (i := i) (Nat.zero_le _) (Nat.zero_le _) hi
  have h4 := hp.few i i hi
  rw [le_div_iff₀ hδ]
  have : (∑ m ∈ range i, |a i m|) * δ * 7 ≤ 16 := by linarith
  linarith

end

section
variable {c : Cfg} {sol : Solver F64} {p n : ℕ} {W : ℕ → ℕ → ℚ} {w : ℕ → ℚ} {ω δ κ : ℚ}

theorem touch_le (Pat : ℕ → ℕ → Prop) (k i : ℕ) : touch Pat k i ≤ i := by
  refine (touch_le_card (T := range i) fun m _ h1 _ => mem_range.2 h1).trans (le_of_eq (card_range _))

theorem rtouch_le_n (Pat : ℕ → ℕ → Prop) (n j i : ℕ) : rtouch Pat n j i ≤ n := by
  refine (rtouch_le_card (T := range n) fun m h1 _ _ => mem_range.2 h1).trans (le_of_eq (card_range _))

/-- Sizes for which the rounding errors of a whole row stay below the margin. -/
theorem RowsDom.parsExt (h : RowsDom n W w ω δ κ) (hn : n * (16 / 2 ^ 53 : ℚ) ≤ δ / 8) (hn49 : n ≤ 2 ^ 49) : DomPars n (InPat n p p) w ω δ := by
  refine ⟨hn49, closed_ext n p p, h.w0, h.w1, h.ω0, h.δ40, h.δ1, fun k i hi => le_trans ?_ hn⟩
  exact mul_le_mul_of_nonneg_right (by exact_mod_cast (touch_le _ k i).trans hi.le) (by norm_num)

/-- The elimination of a dominant periodic axis. -/
theorem RowsExt.dom (h : RowsExt sol p n W κ) (hd : RowsDom n W w ω δ κ) (hn : n * (16 / 2 ^ 53 : ℚ) ≤ δ / 8) (hn49 : n ≤ 2 ^ 49) :
    ∃ lu C0 mm, sol = .ext ⟨true, lu⟩ ∧ lu.Rep n p p C0 ∧ DomInv n (InPat n p p) w δ (n - 1) C0 mm := by
  obtain ⟨A, lu, C0, hA, e, hlu, hE, hr⟩ := h
  obtain ⟨mm, hm⟩ := dom_near (hd.parsExt hn hn49) hd hA hE hr
  exact ⟨lu, C0, mm, e, hlu, hm⟩

/-- The factors of a dominant periodic axis do not grow, whatever the size. -/
theorem RowsExt.domFactors (h : RowsExt sol p n W κ) (hd : RowsDom n W w ω δ κ) (hn : n * (16 / 2 ^ 53 : ℚ) ≤ δ / 8) (hn49 : n ≤ 2 ^ 49) :
    FactorsExt c sol n p ((2 + 6 / δ) / ω) := by
  obtain ⟨lu, C0, mm, rfl, hlu, hm⟩ := h.dom hd hn hn49
  have hp : DomPars n (InPat n p p) w ω δ := hd.parsExt hn hn49
  have hω : 0 < ω := lt_of_lt_of_le (one_div_pos.2 (pow_pos two_pos _)) hd.ω0
  have hw : ∀ j, 0 ≤ w j := fun j => (hp.wpos j).le
  have hδ := hp.δpos
  set a := Fl.entries F64.toRat (InPat n p p) C0 with ha
  have hin : ∀ i j, InPat n p p i j → a i j = (C0 i j).toRat := fun i j hb => Fl.entries_pos hb
  have hout : ∀ i j, ¬ InPat n p p i j → a i j = 0 := fun i j hb => Fl.entries_neg hb
  have hsum : ∀ i, i < n → wsum a w n i i ≤ 2 := fun i hi => by
    have := hm.sum2 hp hi
    rwa [show min (n - 1) i = i by omega] at this
  have hlow : ∀ m i, m < i → i < n → |a i m| * wsum a w n m m ≤ 5 ∧ |a i m| ≤ 2 ^ 300 := fun m i h1 h2 => hm.low m i (by omega) h1 h2
  refine ⟨⟨true, lu⟩, fun i j => (C0 i j).toRat, rfl, fun i j hi hj hb => ?_, fun i => ?_⟩
  · obtain ⟨q, hq⟩ := hm.fin i j hi hj hb
    refine ⟨by rw [hlu.get c hi hj hb]; simp only [hq]; rfl, ?_⟩
    show |(C0 i j).toRat| ≤ _
    rw [← hin i j hb]
    rcases Nat.lt_or_ge j i with hji | hij
    · exact (hlow j i hji hi).2
    · have h1 := entry_le_wsum (a := a) (w := w) (n := n) (k := i) (i := i) hw hij hj
      exact (hp.small (h1.trans (hsum i hi))).trans (by decide +kernel)
  · have hU : ∀ m : Fin n, ∑ j, |factorU id (InPat n p p) (fun i j => (C0 i j).toRat) n m j| ≤ 2 / ω := by
      intro m
      have e : ∀ j : Fin n, |factorU id (InPat n p p) (fun i j => (C0 i j).toRat) n m j| = (fun j : ℕ => if (m : ℕ) ≤ j then |a m j| else 0) j := by
        intro j
        unfold factorU
        simp only [Matrix.of_apply, id]
        by_cases h1 : (m : ℕ) ≤ j
        · by_cases h2 : InPat n p p m j
          · rw [if_pos ⟨h1, h2⟩, if_pos h1, hin _ _ h2]
          · rw [if_neg (fun h => h2 h.2), if_pos h1, hout _ _ h2]
        · rw [if_neg (fun h => h1 h.1), if_neg h1, abs_zero]
      rw [sum_congr rfl fun j _ => e j, Fin.sum_univ_eq_sum_range (fun j : ℕ => if (m : ℕ) ≤ j then |a m j| else 0) n, ← sum_filter]
      have hs : {j ∈ range n | (m : ℕ) ≤ j} = Ico (m : ℕ) n := by ext j; simp; omega
      rw [hs]
      refine le_trans ?_ (div_le_div_of_nonneg_right (hsum m m.isLt) hω.le)
      unfold wsum
      rw [sum_div]
      refine sum_le_sum fun j _ => ?_
      rw [le_div_iff₀ hω]
      exact mul_le_mul_of_nonneg_left (hd.w0 j) (abs_nonneg _)
    have hL : ∑ m, |factorL id (InPat n p p) (fun i j => (C0 i j).toRat) n i m| ≤ 1 + 3 / δ := by
      have e : ∀ m : Fin n, |factorL id (InPat n p p) (fun i j => (C0 i j).toRat) n i m| =
          (fun m : ℕ => (if m = (i : ℕ) then 1 else 0) + if m < (i : ℕ) then |a i m| else 0) m := by
        intro m
        unfold factorL
        simp only [Matrix.of_apply, id]
        by_cases h1 : i = m
        · subst h1
          rw [if_pos rfl, if_pos rfl, if_neg (lt_irrefl _), abs_one, add_zero]
        · have h1' : (m : ℕ) ≠ i := fun h => h1 (Fin.ext h.symm)
          rw [if_neg h1, if_neg h1', zero_add]
          by_cases h2 : (m : ℕ) < i
          · by_cases h3 : InPat n p p i m
            · rw [if_pos ⟨h2, h3⟩, if_pos h2, hin _ _ h3]
            · rw [if_neg (fun h => h3 h.2), if_pos h2, hout _ _ h3]
          · rw [if_neg (fun h => h2 h.1), if_neg h2, abs_zero]
      rw [sum_congr rfl fun m _ => e m, Fin.sum_univ_eq_sum_range (fun m : ℕ => (if m = (i : ℕ) then (1 : ℚ) else 0) + if m < (i : ℕ) then |a i m| else 0) n,
        sum_add_distrib, sum_ite_eq' (range n), if_pos (mem_range.2 i.isLt), ← sum_filter]
      have hs : {m ∈ range n | m < (i : ℕ)} = range i := by ext m; have := i.isLt; simp; omega
      rw [hs]
      exact add_le_add le_rfl (hm.lower hp i.isLt)
    calc _ ≤ ∑ m, |factorL id (InPat n p p) (fun i j => (C0 i j).toRat) n i m| * (2 / ω) :=
          sum_le_sum fun m _ => mul_le_mul_of_nonneg_left (hU m) (abs_nonneg _)
      _ = (∑ m, |factorL id (InPat n p p) (fun i j => (C0 i j).toRat) n i m|) * (2 / ω) := (sum_mul _ _ _).symm
      _ ≤ (1 + 3 / δ) * (2 / ω) := mul_le_mul_of_nonneg_right hL (div_nonneg zero_le_two hω.le)
      _ = _ := by ring

/-- The solutions of a dominant periodic axis are bounded. -/
theorem RowsExt.domBounded (h : RowsExt sol p n W κ) (hd : RowsDom n W w ω δ κ) (hpn : p + p ≤ n) (hn : n * (16 / 2 ^ 53 : ℚ) ≤ δ / 8)
    (hn49 : n ≤ 2 ^ 49) : AxisBounded c sol n (2 / δ) := by
  obtain ⟨lu, C0, mm, rfl, hlu, hm⟩ := h.dom hd hn hn49
  exact axisBounded_of (hd.parsExt hn hn49) hm (fun j i _ => le_trans (mul_le_mul_of_nonneg_right (by exact_mod_cast rtouch_le_n _ n j i) (by norm_num)) hn)
    fun buf off step b hstep hb => Fl.extSolve_solved c hlu hpn hstep hb

end

section
variable {o N : ℕ} {a H : ℚ}

/-- Margin used for an order. -/
def domMargin (o : ℕ) : ℚ := if o ≤ 3 then 1 / 10 else 1 / 50

/-- The middle value of the basis functions at a data point. -/
theorem perMid (hH : H ≠ 0) : piece (perKnot o a H) o o (o / 2) a = piece (perKnot o 0 1) o o (o / 2) 0 := by
  have := piece_affine (t := perKnot o a H) (t' := perKnot o 0 1) (n := 0) (s := o) (p := o) (P := a) hH le_rfl (fun u _ _ => by
    unfold perKnot; ring) 0 o (o / 2) le_rfl
  rwa [zero_mul, zero_add] at this

theorem perMid_large : ∀ o : Fin 6, (1 : ℚ) / 2 + domMargin (o + 1) / 2 + 1 / 1000 ≤ piece (perKnot (o + 1) 0 1) (o + 1) (o + 1) ((o + 1) / 2) 0 := by decide +kernel

/-- A periodic uniform dimension of order 1 to 6. -/
theorem periodic_dom {κ : ℚ} (hH : 0 < H) (ho : 1 ≤ o ∧ o ≤ 6) (hN : 0 < N) (hκ : κ / 2 ^ 53 ≤ 1 / 500) :
    RowsDom N (fun k => perRow o N a H (nodeOfRow o true N k)) (fun _ => 1) 1 (domMargin o) κ := by
  have hm : 1 / 2 ^ 40 ≤ domMargin o ∧ domMargin o ≤ 1 := by unfold domMargin; split <;> norm_num
  have habs : ∀ k J, |perRow o N a H (nodeOfRow o true N k) J| = perRow o N a H (nodeOfRow o true N k) J := fun k J =>
    abs_of_nonneg ((perRow_unity hH hN _).1 J)
  refine ⟨fun _ => le_rfl, fun _ => le_rfl, by norm_num, hm.1, hm.2, by linarith, fun k hk => ?_, fun k hk => ?_⟩
  · unfold wsum
    rw [← range_eq_Ico]
    simp only [habs, mul_one]
    exact (perRow_unity hH hN _).2.le
  · obtain ⟨i1, i2⟩ := row_nodeOfRow (o := o) (per := true) hk
    have h1 := (perRow_unity (o := o) (N := N) (a := a) hH hN (nodeOfRow o true N k)).2
    unfold marg
    rw [← range_eq_Ico]
    simp only [habs, mul_one]
    rw [← add_sum_erase _ _ (mem_range.2 hk)] at h1 ⊢
    rw [if_pos rfl, sum_congr rfl fun J hJ => if_neg (mem_erase.1 hJ).1, sum_neg_distrib]
    have h2 : piece (perKnot o a H) o o (o / 2) a ≤ perRow o N a H (nodeOfRow o true N k) k := by
      rw [perRow_shift]
      refine le_trans (le_of_eq ?_) (single_le_sum (f := fun j => if (nodeOfRow o true N k + j) % N = k then piece (perKnot o a H) o o j a else 0)
        (fun j _ => ?_) (mem_range.2 (show o / 2 < o + 1 by omega)))
      · exact (if_pos i2).symm
      · split
        · have hs := perKnot_seg (o := o) (a := a) hH.le 0
          simp only [Nat.zero_add, Nat.cast_zero, zero_mul, add_zero] at hs
          exact piece_nonneg (p := o) (fun j _ c => (perKnot_mono hH.le c).trans hs.1) (fun j a' _ => hs.2.trans (perKnot_mono hH.le a')) o j le_rfl
        · exact le_rfl
    have h3 := perMid_large ⟨o - 1, by omega⟩
    simp only [show o - 1 + 1 = o by omega] at h3
    rw [perMid hH.ne'] at h2
    linarith

end

end Intp
