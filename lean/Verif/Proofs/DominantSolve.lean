import Verif.Proofs.DominantElim

/-!
# Substitutions in `double` with the factors of a matrix with dominant diagonal

A right-hand side bounded by `X δ / 2` gives a solution bounded by `X`.
-/

namespace Intp

open Finset

/-- Number of the columns from `j` on that change row `i` in the backward substitution. -/
noncomputable def rtouch (Pat : ℕ → ℕ → Prop) (n j i : ℕ) : ℕ := by
  classical exact #{m ∈ Ico j n | i < m ∧ Pat i m}

theorem rtouch_top (Pat : ℕ → ℕ → Prop) (n i : ℕ) : rtouch Pat n n i = 0 := by simp [rtouch]

theorem rtouch_pos {Pat : ℕ → ℕ → Prop} {n j i : ℕ} (hj : j < n) (h : i < j ∧ Pat i j) : rtouch Pat n j i = rtouch Pat n (j + 1) i + 1 := by
  unfold rtouch
  rw [← Finset.insert_Ico_add_one_left_eq_Ico hj, filter_insert, if_pos h, card_insert_of_notMem (by simp)]

theorem rtouch_le (Pat : ℕ → ℕ → Prop) (n j i : ℕ) : rtouch Pat n (j + 1) i ≤ rtouch Pat n j i := by
  classical
  unfold rtouch
  refine Finset.card_le_card fun m hm => ?_
  have := Finset.mem_filter.1 hm
  exact Finset.mem_filter.2 ⟨mem_Ico.2 ⟨by have := (mem_Ico.1 this.1).1; omega, (mem_Ico.1 this.1).2⟩, this.2⟩

theorem rtouch_le_card {Pat : ℕ → ℕ → Prop} {n j i : ℕ} {T : Finset ℕ} (h : ∀ m, m < n → i < m → Pat i m → m ∈ T) : rtouch Pat n j i ≤ #T := by
  classical
  unfold rtouch
  refine Finset.card_le_card fun m hm => ?_
  have := Finset.mem_filter.1 hm
  exact h m (mem_Ico.1 this.1).2 this.2.1 this.2.2

theorem rtouch_band (p q n j i : ℕ) : rtouch (InBand p q) n j i ≤ q := by
  have h : #(Ico (i + 1) (i + q + 1)) = i + q + 1 - (i + 1) := Nat.card_Ico _ _
  refine (rtouch_le_card (T := Ico (i + 1) (i + q + 1)) fun m _ h1 h2 => ?_).trans (by omega)
  unfold InBand at h2
  exact mem_Ico.2 (by omega)

section
variable {n : ℕ} {Pat : ℕ → ℕ → Prop} {w : ℕ → ℚ} {ω δ X : ℚ} {C : ℕ → ℕ → F64} {mm : ℕ → ℕ → ℚ} {b y x : ℕ → F64} {j : ℕ}

/-- What underflow adds. -/
theorem under_small {X z : ℚ} (hX : 1 / 2 ^ 800 ≤ X) (hz : |z| ≤ 2 * X) : 4 * (1 + |z|) / 2 ^ 1074 ≤ X / 2 ^ 53 := by
  have h1 : 4 * (1 + |z|) / 2 ^ 1074 ≤ 4 * (2 ^ 800 * X + 2 * X) / 2 ^ 1074 := by
    refine div_le_div_of_nonneg_right ?_ (pow_nonneg zero_le_two _)
    have : 1 ≤ 2 ^ 800 * X := by
      have := mul_le_mul_of_nonneg_left hX (show (0 : ℚ) ≤ 2 ^ 800 from pow_nonneg zero_le_two _)
      rwa [mul_one_div, div_self (pow_ne_zero _ two_ne_zero)] at this
    generalize (2 : ℚ) ^ 800 * X = c at *
    linarith
  have hX0 : 0 ≤ X := le_trans (one_div_nonneg.2 (pow_nonneg zero_le_two _)) hX
  have h2 : 4 * (2 ^ 800 * X + 2 * X) / 2 ^ 1074 = X * (4 * (2 ^ 800 + 2) / 2 ^ 1074) := by
    generalize (2 : ℚ) ^ 800 = c
    generalize (2 : ℚ) ^ 1074 = d
    ring
  have h3 : (4 * (2 ^ 800 + 2) / 2 ^ 1074 : ℚ) ≤ 1 / 2 ^ 53 := by decide +kernel
  refine h1.trans (h2.le.trans ((mul_le_mul_of_nonneg_left h3 hX0).trans (le_of_eq ?_)))
  ring

/-- Forward substitution. -/
theorem DomInv.fwd (h : DomInv n Pat w δ (n - 1) C mm) (hp : DomPars n Pat w ω δ) (hX : 1 / 2 ^ 800 ≤ X) (hX1 : X ≤ 2 ^ 900)
    (hb : ∀ i, i < n → ∃ q, b i = .fin q ∧ |q| ≤ X * (δ / 2)) (hF : Fl.Fwds n Pat C b j y) (hj : j ≤ n) :
    ∀ i, i < n → ∃ q, y i = .fin q ∧ |q| ≤ X * (mm (min j i) i - δ / 2 + touch Pat j i * (32 / 2 ^ 53)) := by
  have hX0 : 0 < X := lt_of_lt_of_le (one_div_pos.2 (pow_pos two_pos _)) hX
  have big : ∀ z : ℚ, z ≤ 5 * X → z ≤ 2 ^ 1000 := fun z hz => hz.trans ((mul_le_mul_of_nonneg_left hX1 (by norm_num)).trans (by decide +kernel))
  clear hX1
  have hδ := hp.δpos
  induction hF with
  | zero =>
    intro i hi
    obtain ⟨q, q1, q3⟩ := hb i hi
    refine ⟨q, q1, q3.trans (mul_le_mul_of_nonneg_left ?_ hX0.le)⟩
    have := h.mar 0 i (Nat.zero_le _) (Nat.zero_le _) hi
    rw [touch_zero] at this ⊢
    rw [Nat.zero_min]
    push_cast at this ⊢
    linarith
  | @step j y y' _ hst ih =>
    have ih := ih (by omega)
    intro i hi
    by_cases hji : j < i
    · have hjn : j < n - 1 := by omega
      obtain ⟨qi, i1, i3⟩ := ih i hi
      rw [min_eq_left hji.le] at i3
      rw [min_eq_left (show j + 1 ≤ i from hji)]
      by_cases hP : Pat i j
      · obtain ⟨qj, j1, j3⟩ := ih j (by omega)
        rw [min_self] at j3
        obtain ⟨l, l1⟩ := h.fin i j hi (by omega) hP
        have hl : Fl.entries F64.toRat Pat C i j = l := by rw [Fl.entries_pos hP, l1]; rfl
        have hit := h.hit j i hjn hji hi hP
        rw [hl] at hit
        have t1 := hp.few j j (by omega)
        have t2 := hp.few j i hi
        have m1 := h.mar2 hp (m := j) (i := j) (by omega) le_rfl (by omega)
        have m2 := h.mar2 hp (m := j) (i := i) (by omega) hji.le hi
        have m3 := h.top j i (by omega) hji.le hi
        have m4 := h.top (j + 1) i (by omega) hji hi
        have m5 := h.top j j (by omega) le_rfl (by omega)
        have hqj : |qj| ≤ X * mm j j := j3.trans (mul_le_mul_of_nonneg_left (by linarith) hX0.le)
        have hqj2 : |qj| ≤ 2 * X := by
          have := mul_le_mul_of_nonneg_left m5 hX0.le
          linarith
        have hqi : |qi| ≤ 2 * X := by
          have := mul_le_mul_of_nonneg_left (show mm j i - δ / 2 + touch Pat j i * (32 / 2 ^ 53) ≤ 2 by linarith) hX0.le
          linarith
        have hlq : |l| * |qj| ≤ X * (|l| * mm j j) := by
          have := mul_le_mul_of_nonneg_left hqj (abs_nonneg l)
          linarith
        have hlq3 : |l| * |qj| ≤ 3 * X := by
          have := mul_le_mul_of_nonneg_left (show |l| * mm j j ≤ 3 by linarith) hX0.le
          linarith
        obtain ⟨r, r1, -, r3⟩ := upd_round (a := qi) (l := l) (b := qj) (f := l) (by
          rw [sub_self, abs_zero]
          exact add_nonneg (by positivity) (one_div_nonneg.2 (pow_nonneg zero_le_two _))) (big _ (by linarith)) (big _ (by linarith)) (big _ (by linarith))
        refine ⟨r, ?_, ?_⟩
        · rw [hst.upd i hji hi hP, i1, j1, l1]
          exact r1
        · have u1 := under_small hX hqj2
          have e1 : |r| ≤ |r - (qi - l * qj)| + |qi| + |l| * |qj| := by
            have a1 := abs_add_le (r - (qi - l * qj)) (qi - l * qj)
            have a2 := abs_sub qi (l * qj)
            rw [abs_mul] at a2
            rw [sub_add_cancel] at a1
            linarith
          rw [touch_pos ⟨hji, hP⟩]
          push_cast
          generalize 4 * (1 + |qj|) / 2 ^ 1074 = z at *
          have hit' := mul_le_mul_of_nonneg_left hit hX0.le
          have e2 : X * (mm (j + 1) i - δ / 2 + ((touch Pat j i : ℚ) + 1) * (32 / 2 ^ 53)) = X * (mm (j + 1) i + 16 / 2 ^ 53) - X * (mm j i + |l| * mm j j) +
              X * (mm j i - δ / 2 + touch Pat j i * (32 / 2 ^ 53)) + X * (|l| * mm j j) + 16 * X / 2 ^ 53 := by ring
          rw [e2]
          linarith
      · refine ⟨qi, by rw [hst.same i hi (by tauto)]; exact i1, i3.trans ?_⟩
        rw [touch_neg (by tauto)]
        have := h.miss j i hjn hji hi hP
        exact mul_le_mul_of_nonneg_left (by linarith) hX0.le
    · obtain ⟨q, q1, q3⟩ := ih i hi
      rw [min_eq_right (by omega)] at q3
      refine ⟨q, by rw [hst.same i hi (by tauto)]; exact q1, ?_⟩
      rw [min_eq_right (by omega), touch_neg (by tauto)]
      exact q3

/-- Backward substitution. -/
theorem DomInv.bwd (h : DomInv n Pat w δ (n - 1) C mm) (hp : DomPars n Pat w ω δ) (hr : ∀ j i, i < n → rtouch Pat n j i * (16 / 2 ^ 53 : ℚ) ≤ δ / 8)
    (hX : 1 / 2 ^ 800 ≤ X) (hX1 : X ≤ 2 ^ 900)
    (hy : ∀ i, i < n → ∃ q, y i = .fin q ∧ |q| ≤ X * (mm i i - δ / 4)) (hB : Fl.Bwds n Pat C y j x) :
    (∀ i, j ≤ i → i < n → ∃ q, x i = .fin q ∧ IsDouble q ∧ |q| ≤ X * w i) ∧
      ∀ i, i < j → i < n → ∃ q, x i = .fin q ∧
        |q| ≤ X * (mm i i - δ / 4 + wsum (Fl.entries F64.toRat Pat C) w n j i + rtouch Pat n j i * (16 / 2 ^ 53)) := by
  have hX0 : 0 < X := lt_of_lt_of_le (one_div_pos.2 (pow_pos two_pos _)) hX
  have big : ∀ z : ℚ, z ≤ 5 * X → z ≤ 2 ^ 1000 := fun z hz => hz.trans ((mul_le_mul_of_nonneg_left hX1 (by norm_num)).trans (by decide +kernel))
  clear hX1
  have hδ := hp.δpos
  have hw : ∀ j, 0 ≤ w j := fun j => (hp.wpos j).le
  set a := Fl.entries F64.toRat Pat C with ha
  have hval : ∀ i j, i < n → j < n → Pat i j → C i j = .fin (a i j) := by
    intro i j hi hj hP
    obtain ⟨q, q1⟩ := h.fin i j hi hj hP
    rw [ha, Fl.entries_pos hP, q1]
    rfl
  induction hB with
  | zero =>
    refine ⟨fun i h1 h2 => absurd h1 (by omega), fun i _ hi => ?_⟩
    obtain ⟨q, q1, q3⟩ := hy i hi
    refine ⟨q, q1, ?_⟩
    rw [rtouch_top]
    unfold wsum
    rw [Ico_self, sum_empty]
    push_cast
    rw [zero_mul, add_zero, add_zero]
    exact q3
  | @step j x x' hj _ hst ih =>
    obtain ⟨ih1, ih2⟩ := ih
    -- the pivot
    have hpiv : ∃ q, x' j = .fin q ∧ IsDouble q ∧ |q| ≤ X * w j := by
      obtain ⟨q, q1, q3⟩ := ih2 j (by omega) hj
      have hnow := h.now j hj
      rw [min_eq_right (by omega), ← ha, marg_self hj] at hnow
      have hR0 : 0 ≤ wsum a w n (j + 1) j := wsum_nonneg hw
      have hm := h.mar2 hp (m := j) (i := j) (by omega) le_rfl hj
      have hrt := hr (j + 1) j hj
      have hq : |q| ≤ X * (|a j j| * w j - δ / 8) := q3.trans (mul_le_mul_of_nonneg_left (by linarith) hX0.le)
      have hjj : 0 < |a j j| := by
        have h1 := mul_le_mul_of_nonneg_left (hp.w1 j) (abs_nonneg (a j j))
        linarith
      have hjj2 : |a j j| * w j ≤ 2 := by
        have h1 := h.sum2 hp hj
        rw [min_eq_right (by omega)] at h1
        exact (entry_le_wsum hw le_rfl hj).trans h1
      have hquo : |q / a j j| ≤ X * w j - X * (δ / 8) * (w j / 2) := by
        rw [abs_div, div_le_iff₀ hjj]
        refine hq.trans ?_
        have h1 : X * (δ / 8) * (w j / 2) * |a j j| ≤ X * (δ / 8) := by
          have := mul_le_mul_of_nonneg_left (show w j / 2 * |a j j| ≤ 1 by linarith) (show 0 ≤ X * (δ / 8) by positivity)
          linarith
        linarith
      have hXw : 0 ≤ X * (δ / 8) * (w j / 2) := by have := hw j; positivity
      have hXw1 : X * w j ≤ X := by
        have := mul_le_mul_of_nonneg_left (hp.w1 j) hX0.le
        linarith
      have hquo1 : |q / a j j| ≤ 2 ^ 1023 := (big _ (hquo.trans (by linarith))).trans (by decide +kernel)
      obtain ⟨r, r1, r2, r3⟩ := fl_div (a := q) (b := a j j) (abs_pos.1 hjj) hquo1
      refine ⟨r, ?_, r2, ?_⟩
      · have := hst.piv
        rw [q1, hval j j hj hj (hp.closed.1 j hj)] at this
        exact (Except.ok.inj (this.symm.trans r1))
      · have e1 : |r| ≤ |q / a j j| + |r - q / a j j| := by
          have := abs_add_le (q / a j j) (r - q / a j j)
          rwa [add_sub_cancel] at this
        have hη : (1 : ℚ) / 2 ^ 1074 ≤ X * (δ / 8) * (w j / 2) / 2 := by
          have h1 : (1 : ℚ) / 2 ^ 1074 ≤ 1 / 2 ^ 800 * (1 / 2 ^ 100 / 8) * (1 / 2 ^ 100 / 2) / 2 := by decide +kernel
          refine h1.trans (div_le_div_of_nonneg_right ?_ (by norm_num))
          have hz : (0 : ℚ) ≤ 1 / 2 ^ 100 := by positivity
          refine mul_le_mul (mul_le_mul hX (div_le_div_of_nonneg_right hp.δ0 (by norm_num)) (div_nonneg hz (by norm_num)) hX0.le)
            (div_le_div_of_nonneg_right (hp.ω0.trans (hp.w0 j)) (by norm_num)) (div_nonneg hz (by norm_num)) (by positivity)
        have hu : X * w j / 2 ^ 53 ≤ X * (δ / 8) * (w j / 2) / 2 := by
          have h1 : 16 * (2 / 2 ^ 53) ≤ δ := by
            have := hp.δ40
            linarith
          have := mul_le_mul_of_nonneg_left h1 (show 0 ≤ X * w j by have := hw j; positivity)
          linarith
        have e2 : |q / a j j| / 2 ^ 53 ≤ X * w j / 2 ^ 53 := div_le_div_of_nonneg_right (hquo.trans (by linarith)) (by positivity)
        generalize (1 : ℚ) / 2 ^ 1074 = η at *
        linarith
    obtain ⟨p, p1, p2, p3⟩ := hpiv
    refine ⟨fun i h1 h2 => ?_, fun i h1 h2 => ?_⟩
    · rcases Nat.eq_or_lt_of_le h1 with rfl | h3
      · exact ⟨p, p1, p2, p3⟩
      · rw [hst.same i h2 (by omega) (by omega)]
        exact ih1 i h3 h2
    · obtain ⟨q, q1, q3⟩ := ih2 i (by omega) h2
      have hws : wsum a w n j i = |a i j| * w j + wsum a w n (j + 1) i := wsum_succ hj
      by_cases hP : Pat i j
      · have hi2 : |a i j| * w j ≤ 2 ∧ wsum a w n (j + 1) i ≤ 2 := by
          have h3 := h.sum2 hp h2
          rw [min_eq_right (by omega)] at h3
          have h4 : wsum a w n j i ≤ wsum a w n i i := by
            unfold wsum
            exact sum_le_sum_of_subset_of_nonneg (fun m hm => mem_Ico.2 ⟨by have := (mem_Ico.1 hm).1; omega, (mem_Ico.1 hm).2⟩)
              fun m _ _ => mul_nonneg (abs_nonneg _) (hw m)
          have h5 := mul_nonneg (abs_nonneg (a i j)) (hw j)
          have h6 : 0 ≤ wsum a w n (j + 1) i := wsum_nonneg hw
          rw [← ha] at h3
          constructor <;> linarith
        have hrt := hr (j + 1) i h2
        have hrt' := rtouch_pos hj ⟨h1, hP⟩
        have hδ1 := hp.δ1
        have m3 := h.top i i (by omega) le_rfl h2
        have hq5 : |q| ≤ 5 * X := by
          have := mul_le_mul_of_nonneg_left (show mm i i - δ / 4 + wsum a w n (j + 1) i + rtouch Pat n (j + 1) i * (16 / 2 ^ 53) ≤ 5 by linarith) hX0.le
          linarith
        have hp2 : |p| ≤ 2 * X := by
          have := mul_le_mul_of_nonneg_left (hp.w1 j) hX0.le
          linarith
        have hap : |a i j| * |p| ≤ X * (|a i j| * w j) := by
          have := mul_le_mul_of_nonneg_left p3 (abs_nonneg (a i j))
          linarith
        have hap2 : |a i j| * |p| ≤ 2 * X := by
          have := mul_le_mul_of_nonneg_left hi2.1 hX0.le
          linarith
        obtain ⟨r, r1, -, r3⟩ := upd_round (a := q) (l := a i j) (b := p) (f := a i j) (by
          rw [sub_self, abs_zero]
          exact add_nonneg (by positivity) (one_div_nonneg.2 (pow_nonneg zero_le_two _))) (big _ hq5) (big _ (by linarith)) (big _ (by linarith))
        refine ⟨r, ?_, ?_⟩
        · rw [hst.upd i h1 hP, q1, p1, hval i j h2 hj hP]
          exact r1
        · have u1 := under_small hX hp2
          have e1 : |r| ≤ |r - (q - a i j * p)| + |q| + |a i j| * |p| := by
            have a1 := abs_add_le (r - (q - a i j * p)) (q - a i j * p)
            have a2 := abs_sub q (a i j * p)
            rw [abs_mul] at a2
            rw [sub_add_cancel] at a1
            linarith
          rw [hrt', hws]
          push_cast
          generalize 4 * (1 + |p|) / 2 ^ 1074 = z at *
          have e2 : X * (mm i i - δ / 4 + (|a i j| * w j + wsum a w n (j + 1) i) + ((rtouch Pat n (j + 1) i : ℚ) + 1) * (16 / 2 ^ 53)) =
              X * (mm i i - δ / 4 + wsum a w n (j + 1) i + rtouch Pat n (j + 1) i * (16 / 2 ^ 53)) + X * (|a i j| * w j) + 16 * X / 2 ^ 53 := by ring
          rw [e2]
          linarith
      · refine ⟨q, by rw [hst.same i h2 (by omega) (by tauto)]; exact q1, q3.trans (mul_le_mul_of_nonneg_left ?_ hX0.le)⟩
        have := mul_nonneg (abs_nonneg (a i j)) (hw j)
        have h5 : (rtouch Pat n (j + 1) i : ℚ) * (16 / 2 ^ 53) ≤ rtouch Pat n j i * (16 / 2 ^ 53) :=
          mul_le_mul_of_nonneg_right (by exact_mod_cast rtouch_le Pat n j i) (by norm_num)
        linarith

end

end Intp
