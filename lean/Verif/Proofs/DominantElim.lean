import Verif.Proofs.Dominant
import Mathlib.Algebra.BigOperators.Field

/-!
# Elimination in `double` of a matrix with dominant diagonal: the invariant
-/

namespace Intp

open Finset

/-- Pattern of the stored entries, weights of the columns and margin `δ`. -/
structure DomPars (n : ℕ) (Pat : ℕ → ℕ → Prop) (w : ℕ → ℚ) (ω δ : ℚ) : Prop where
  n49 : n ≤ 2 ^ 49
  closed : Fl.Closed n Pat
  w0 : ∀ j, ω ≤ w j
  w1 : ∀ j, w j ≤ 1
  ω0 : 1 / 2 ^ 100 ≤ ω
  δ40 : 1 / 2 ^ 40 ≤ δ
  δ1 : δ ≤ 1
  few : ∀ k i, i < n → touch Pat k i * (16 / 2 ^ 53 : ℚ) ≤ δ / 8

/-- State of the elimination after `k` steps.  `mm m i` is the margin of row `i` before step `m`. -/
structure DomInv (n : ℕ) (Pat : ℕ → ℕ → Prop) (w : ℕ → ℚ) (δ : ℚ) (k : ℕ) (C : ℕ → ℕ → F64) (mm : ℕ → ℕ → ℚ) : Prop where
  fin : ∀ i j, i < n → j < n → Pat i j → ∃ q, C i j = .fin q
  sum : ∀ i, i < n → wsum (Fl.entries F64.toRat Pat C) w n (min k i) i ≤ 3 / 2 + touch Pat k i * (16 / 2 ^ 53)
  now : ∀ i, i < n → mm (min k i) i = marg (Fl.entries F64.toRat Pat C) w n (min k i) i
  mar : ∀ m i, m ≤ k → m ≤ i → i < n → δ - touch Pat m i * (16 / 2 ^ 53) ≤ mm m i
  top : ∀ m i, m ≤ k → m ≤ i → i < n → mm m i ≤ 2
  hit : ∀ m i, m < k → m < i → i < n → Pat i m → mm m i + |Fl.entries F64.toRat Pat C i m| * mm m m ≤ mm (m + 1) i + 16 / 2 ^ 53
  miss : ∀ m i, m < k → m < i → i < n → ¬ Pat i m → mm m i ≤ mm (m + 1) i
  low : ∀ m i, m < k → m < i → i < n → |Fl.entries F64.toRat Pat C i m| * wsum (Fl.entries F64.toRat Pat C) w n m m ≤ 5 ∧
    |Fl.entries F64.toRat Pat C i m| ≤ 2 ^ 300

section
variable {n k : ℕ} {Pat : ℕ → ℕ → Prop} {w : ℕ → ℚ} {ω δ : ℚ} {C C' : ℕ → ℕ → F64} {mm : ℕ → ℕ → ℚ}

theorem DomPars.wpos (h : DomPars n Pat w ω δ) (j : ℕ) : 0 < w j :=
  lt_of_lt_of_le (one_div_pos.2 (pow_pos two_pos _)) (h.ω0.trans (h.w0 j))

theorem DomPars.δ0 (h : DomPars n Pat w ω δ) : 1 / 2 ^ 100 ≤ δ := le_trans (by norm_num) h.δ40

theorem DomPars.δpos (h : DomPars n Pat w ω δ) : 0 < δ := lt_of_lt_of_le (one_div_pos.2 (pow_pos two_pos _)) h.δ0

/-- An entry whose weighted size is at most `2`. -/
theorem DomPars.small (h : DomPars n Pat w ω δ) {x : ℚ} {j : ℕ} (hx : |x| * w j ≤ 2) : |x| ≤ 2 ^ 101 := by
  have h1 := mul_le_mul_of_nonneg_left (h.ω0.trans (h.w0 j)) (abs_nonneg x)
  have h2 : |x| * (1 / 2 ^ 100) ≤ 2 := h1.trans hx
  rw [mul_one_div, div_le_iff₀ (by positivity)] at h2
  exact h2.trans (by norm_num)

theorem DomInv.sum2 (h : DomInv n Pat w δ k C mm) (hp : DomPars n Pat w ω δ) {i : ℕ} (hi : i < n) :
    wsum (Fl.entries F64.toRat Pat C) w n (min k i) i ≤ 2 := by
  have h1 := h.sum i hi
  have h2 := hp.few k i hi
  have h3 := hp.δ1
  linarith

theorem DomInv.mar2 (h : DomInv n Pat w δ k C mm) (hp : DomPars n Pat w ω δ) {m i : ℕ} (hm : m ≤ k) (hmi : m ≤ i) (hi : i < n) : 7 / 8 * δ ≤ mm m i := by
  have h1 := h.mar m i hm hmi hi
  have h2 := hp.few m i hi
  linarith

theorem domInv_zero (hp : DomPars n Pat w ω δ) (hfin : ∀ i j, i < n → j < n → Pat i j → ∃ q, C i j = .fin q)
    (hs : ∀ i, i < n → wsum (Fl.entries F64.toRat Pat C) w n 0 i ≤ 3 / 2) (hm : ∀ i, i < n → δ ≤ marg (Fl.entries F64.toRat Pat C) w n 0 i) :
    DomInv n Pat w δ 0 C fun _ i => marg (Fl.entries F64.toRat Pat C) w n 0 i := by
  refine ⟨hfin, fun i hi => ?_, fun i _ => by rw [Nat.zero_min], fun m i h0 _ hi => ?_, fun m i _ _ hi => ?_, fun m i h => absurd h (Nat.not_lt_zero _),
    fun m i h => absurd h (Nat.not_lt_zero _), fun m i h => absurd h (Nat.not_lt_zero _)⟩
  · rw [Nat.zero_min, touch_zero]
    have := hs i hi
    push_cast
    linarith
  · rw [Nat.le_zero.1 h0, touch_zero]
    have := hm i hi
    push_cast
    linarith
  · have := marg_le_wsum (a := Fl.entries F64.toRat Pat C) (n := n) (k := 0) (i := i) fun j => (hp.wpos j).le
    have := hs i hi
    linarith

/-- One step. -/
theorem DomInv.step (h : DomInv n Pat w δ k C mm) (hp : DomPars n Pat w ω δ) (hk : k < n) (hst : Fl.ElimStep n k Pat C C') :
    ∃ mm', DomInv n Pat w δ (k + 1) C' mm' ∧ ∀ m i, m ≤ k → mm' m i = mm m i := by
  set a := Fl.entries F64.toRat Pat C with ha
  set a' := Fl.entries F64.toRat Pat C' with ha'
  have hw : ∀ j, 0 ≤ w j := fun j => (hp.wpos j).le
  have hη : (0 : ℚ) ≤ 1 / 2 ^ 1074 := one_div_nonneg.2 (pow_nonneg zero_le_two _)
  -- entries that are not touched
  have hsame : ∀ i j, i < n → j < n → ¬ (k < i ∧ k ≤ j ∧ Pat i k ∧ Pat k j) → a' i j = a i j := by
    intro i j hi hj hn
    by_cases hP : Pat i j
    · rw [ha, ha', Fl.entries_pos hP, Fl.entries_pos hP, hst.same i j hi hj hP hn]
    · rw [ha, ha', Fl.entries_neg hP, Fl.entries_neg hP]
  have hval : ∀ i j, i < n → j < n → Pat i j → C i j = .fin (a i j) := by
    intro i j hi hj hP
    obtain ⟨q, q1⟩ := h.fin i j hi hj hP
    rw [ha, Fl.entries_pos hP, q1]
    rfl
  have hzero : ∀ i j, ¬ Pat i j → a i j = 0 := fun i j hP => Fl.entries_neg hP
  have hsum2 : ∀ i, k ≤ i → i < n → wsum a w n k i ≤ 2 := fun i h1 h2 => by
    have := h.sum2 hp h2
    rwa [min_eq_left h1] at this
  have hent : ∀ i j, k ≤ i → i < n → k ≤ j → j < n → |a i j| * w j ≤ 2 := fun i j h1 h2 h3 h4 => (entry_le_wsum hw h3 h4).trans (hsum2 i h1 h2)
  -- the pivot
  have hmk : mm k k = marg a w n k k := by have := h.now k hk; rwa [min_self] at this
  have hmk1 : 7 / 8 * δ ≤ marg a w n k k := by rw [← hmk]; exact h.mar2 hp le_rfl le_rfl hk
  have hmk2 : marg a w n k k + wsum a w n (k + 1) k = |a k k| * w k := by rw [marg_self hk]; ring
  have hδ := hp.δpos
  have hR0 : 0 ≤ wsum a w n (k + 1) k := wsum_nonneg hw
  have hkk : 7 / 8 * δ ≤ |a k k| := by
    have h1 := mul_le_mul_of_nonneg_left (hp.w1 k) (abs_nonneg (a k k))
    linarith
  have hkk0 : a k k ≠ 0 := fun h0 => by rw [h0, abs_zero] at hkk; linarith
  have hkkp : 0 < |a k k| := abs_pos.2 hkk0
  have hPkk : Pat k k := hp.closed.1 k hk
  -- touched rows
  have hrow : ∀ i, k < i → i < n → Pat i k → (∀ j, j < n → Pat i j → ∃ q, C' i j = .fin q) ∧
      marg a w n k i + |a' i k| * marg a w n k k ≤ marg a' w n (k + 1) i + 16 / 2 ^ 53 ∧ wsum a' w n (k + 1) i ≤ wsum a w n k i + 16 / 2 ^ 53 ∧
      marg a w n k i ≤ marg a' w n (k + 1) i + 16 / 2 ^ 53 ∧
      |a' i k| * wsum a w n k k ≤ 5 ∧ |a' i k| ≤ 2 ^ 300 := by
    intro i hki hi hP
    set f := a i k / a k k with hf
    have hff : |a i k| = |f| * |a k k| := by rw [hf, abs_div, div_mul_cancel₀ _ hkkp.ne']
    have hik := hp.small (hent i k hki.le hi le_rfl hk)
    have hf2 : |f| ≤ 2 ^ 202 := by
      have h1 : |f| * (7 / 8 * (1 / 2 ^ 100)) ≤ 2 ^ 101 := by
        refine le_trans (mul_le_mul_of_nonneg_left (le_trans ?_ hkk) (abs_nonneg f)) (hff ▸ hik)
        exact mul_le_mul_of_nonneg_left hp.δ0 (by norm_num)
      have hc : (7 / 8 * (1 / 2 ^ 100) : ℚ) * (2 ^ 100 * (8 / 7)) = 1 := by decide +kernel
      have h2 : |f| = |f| * (7 / 8 * (1 / 2 ^ 100)) * (2 ^ 100 * (8 / 7)) := by rw [mul_assoc, hc, mul_one]
      rw [h2]
      exact (mul_le_mul_of_nonneg_right h1 (by decide +kernel)).trans (by decide +kernel)
    have hf1 : |f| ≤ 2 ^ 300 := hf2.trans (by decide +kernel)
    obtain ⟨l, l1, -, l3⟩ := fl_div (a := a i k) (b := a k k) hkk0 (hf1.trans (by decide +kernel))
    rw [← hf] at l3
    have hl : C' i k = .fin l := by
      have := hst.col i hki hi hP
      rw [hval i k hi hk hP, hval k k hk hk hPkk, l1] at this
      exact (Except.ok.inj this).symm
    have hal : a' i k = l := by rw [ha', Fl.entries_pos hP, hl]; rfl
    have hupd : ∀ j, k < j → j < n → Pat k j → ∃ r, C' i j = .fin r ∧
        |r - (a i j - f * a k j)| ≤ (|a i j| + 4 * (|f| * |a k j|)) / 2 ^ 53 + 4 * (1 + |a k j|) / 2 ^ 1074 := by
      intro j hkj hj hPj
      have hPij := hp.closed.2 k i j hki hi hkj hj hP hPj
      obtain ⟨r, r1, -, r3⟩ := upd_round (a := a i j) (l := l) (b := a k j) (f := f) l3
        ((hp.small (hent i j hki.le hi hkj.le hj)).trans (by decide +kernel)) ((hp.small (hent k j le_rfl hk hkj.le hj)).trans (by decide +kernel))
        ((mul_le_mul hf1 (hp.small (hent k j le_rfl hk hkj.le hj)) (abs_nonneg _) (pow_nonneg zero_le_two _)).trans (by decide +kernel))
      refine ⟨r, ?_, r3⟩
      rw [hst.upd i j hki hi hkj hj hP hPj, hl, hval i j hi hj hPij, hval k j hk hj hPj]
      exact r1
    -- rounding errors of the row
    have hfR : |f| * wsum a w n (k + 1) k ≤ 2 := by
      have h1 := hent i k hki.le hi le_rfl hk
      rw [hff] at h1
      have h2 : |f| * wsum a w n (k + 1) k ≤ |f| * (|a k k| * w k) := mul_le_mul_of_nonneg_left (by linarith) (abs_nonneg f)
      linarith
    have herr : ∑ j ∈ Ico (k + 1) n, |a' i j - (a i j - f * a k j)| * w j ≤ 11 / 2 ^ 53 := by
      have e1 : ∀ j ∈ Ico (k + 1) n, |a' i j - (a i j - f * a k j)| * w j ≤
          (|a i j| * w j + 4 * (|f| * (|a k j| * w j))) / 2 ^ 53 + (4 + 4 * (|a k j| * w j)) * (1 / 2 ^ 1074) := by
        intro j hj
        obtain ⟨j1, j2⟩ := mem_Ico.1 hj
        have hj0 := abs_nonneg (a k j)
        have hw1 := hp.w1 j
        by_cases hPj : Pat k j
        · obtain ⟨r, r1, r3⟩ := hupd j (by omega) j2 hPj
          have hPij := hp.closed.2 k i j hki hi (by omega) j2 hP hPj
          have : a' i j = r := by rw [ha', Fl.entries_pos hPij, r1]; rfl
          rw [this]
          refine (mul_le_mul_of_nonneg_right r3 (hw j)).trans ?_
          have hdiv : 4 * (1 + |a k j|) / 2 ^ 1074 = 4 * (1 + |a k j|) * (1 / 2 ^ 1074) := by rw [mul_one_div]
          rw [hdiv]
          generalize (1 : ℚ) / 2 ^ 1074 = η at *
          have : η * w j ≤ η * 1 := mul_le_mul_of_nonneg_left hw1 hη
          have e : ((|a i j| + 4 * (|f| * |a k j|)) / 2 ^ 53 + 4 * (1 + |a k j|) * η) * w j =
            (|a i j| * w j + 4 * (|f| * (|a k j| * w j))) / 2 ^ 53 + (4 * (η * w j) + 4 * (|a k j| * w j) * η) := by ring
          rw [e]
          linarith
        · have e2 := hsame i j hi j2 (fun h => hPj h.2.2.2)
          rw [e2, hzero k j hPj, mul_zero, sub_zero, sub_self, abs_zero]
          have h0 : 0 ≤ |a i j| * w j / 2 ^ 53 := div_nonneg (mul_nonneg (abs_nonneg _) (hw j)) (by positivity)
          generalize (1 : ℚ) / 2 ^ 1074 = η at *
          linarith
      refine (sum_le_sum e1).trans ?_
      rw [sum_add_distrib, ← sum_div, sum_add_distrib, ← sum_mul, sum_add_distrib, sum_const, ← mul_sum, ← mul_sum, ← mul_sum, Nat.card_Ico, nsmul_eq_mul]
      change (wsum a w n (k + 1) i + 4 * (|f| * wsum a w n (k + 1) k)) / 2 ^ 53 + (((n - (k + 1) : ℕ) : ℚ) * 4 + 4 * wsum a w n (k + 1) k) * (1 / 2 ^ 1074) ≤ _
      have h1 : wsum a w n (k + 1) i ≤ 2 := by
        have := hsum2 i hki.le hi
        rw [wsum_succ hk] at this
        have := mul_nonneg (abs_nonneg (a i k)) (hw k)
        linarith
      have h2 : wsum a w n (k + 1) k ≤ 2 := by
        have := hsum2 k le_rfl hk
        rw [wsum_succ hk] at this
        have := mul_nonneg (abs_nonneg (a k k)) (hw k)
        linarith
      have h3 : ((n - (k + 1) : ℕ) : ℚ) ≤ 2 ^ 49 := by exact_mod_cast (Nat.sub_le _ _).trans hp.n49
      have h4 : (((n - (k + 1) : ℕ) : ℚ) * 4 + 4 * wsum a w n (k + 1) k) * (1 / 2 ^ 1074) ≤ (2 ^ 49 * 4 + 4 * 2) * (1 / 2 ^ 1074) :=
        mul_le_mul_of_nonneg_right (by linarith) hη
      have h5 : ((2 : ℚ) ^ 49 * 4 + 4 * 2) * (1 / 2 ^ 1074) ≤ 1 / 2 ^ 53 := by decide +kernel
      have h6 := h4.trans h5
      generalize (((n - (k + 1) : ℕ) : ℚ) * 4 + 4 * wsum a w n (k + 1) k) * (1 / 2 ^ 1074) = z at *
      linarith
    obtain ⟨s1, s2⟩ := marg_step hw hki hi hff herr
    have hmk0 : 0 ≤ marg a w n k k := by linarith
    have hfm : 0 ≤ |f| * marg a w n k k := mul_nonneg (abs_nonneg _) hmk0
    have hl1 : |l| ≤ |f| + |f| / 2 ^ 53 + 1 / 2 ^ 1074 := by
      have := abs_sub_abs_le_abs_sub l f
      generalize (1 : ℚ) / 2 ^ 1074 = η at *
      linarith
    have hη1 : (1 : ℚ) / 2 ^ 1074 ≤ 1 / 2 ^ 53 := by decide +kernel
    have hwk2 : |f| * (|a k k| * w k) ≤ 2 := by
      have h1 := hent i k hki.le hi le_rfl hk
      rw [hff] at h1
      linarith
    have hmk3 : marg a w n k k ≤ 2 := by
      have := hent k k le_rfl hk le_rfl hk
      linarith
    have hlm : |l| * marg a w n k k ≤ |f| * marg a w n k k + 4 / 2 ^ 53 := by
      have h1 := mul_le_mul_of_nonneg_right hl1 hmk0
      have h2 : |f| * marg a w n k k ≤ 2 := (mul_le_mul_of_nonneg_left (by linarith) (abs_nonneg f)).trans hwk2
      have h3 : 1 / 2 ^ 1074 * marg a w n k k ≤ 1 / 2 ^ 53 * 2 := mul_le_mul hη1 hmk3 hmk0 (by norm_num)
      have e : (|f| + |f| / 2 ^ 53 + 1 / 2 ^ 1074) * marg a w n k k = |f| * marg a w n k k + |f| * marg a w n k k / 2 ^ 53 + 1 / 2 ^ 1074 * marg a w n k k := by
        generalize (1 : ℚ) / 2 ^ 1074 = η
        ring
      rw [e] at h1
      generalize 1 / 2 ^ 1074 * marg a w n k k = z at *
      linarith
    refine ⟨fun j hj hPj => ?_, ?_, ?_, ?_, ?_, ?_⟩
    · by_cases ht : k ≤ j ∧ Pat k j
      · rcases Nat.eq_or_lt_of_le ht.1 with rfl | hkj
        · exact ⟨l, hl⟩
        · obtain ⟨r, r1, -⟩ := hupd j hkj hj ht.2
          exact ⟨r, r1⟩
      · rw [hst.same i j hi hj hPj (by tauto)]
        exact h.fin i j hi hj hPj
    · rw [hal]; linarith
    · linarith
    · linarith
    · rw [hal]
      have h1 : wsum a w n k k ≤ 2 * (|a k k| * w k) := by rw [wsum_succ hk]; linarith
      have hs0 : 0 ≤ wsum a w n k k := wsum_nonneg hw
      have h2 : |f| * wsum a w n k k ≤ 4 := by
        have := mul_le_mul_of_nonneg_left h1 (abs_nonneg f)
        linarith
      have h3 := mul_le_mul_of_nonneg_right hl1 hs0
      have h4 : 1 / 2 ^ 1074 * wsum a w n k k ≤ 1 / 2 ^ 53 * 2 := mul_le_mul hη1 (hsum2 k le_rfl hk) hs0 (by norm_num)
      have e : (|f| + |f| / 2 ^ 53 + 1 / 2 ^ 1074) * wsum a w n k k = |f| * wsum a w n k k + |f| * wsum a w n k k / 2 ^ 53 + 1 / 2 ^ 1074 * wsum a w n k k := by
        generalize (1 : ℚ) / 2 ^ 1074 = η
        ring
      rw [e] at h3
      generalize 1 / 2 ^ 1074 * wsum a w n k k = z at *
      linarith
    · rw [hal]
      have h1 : (2 : ℚ) ^ 202 + 2 ^ 202 / 2 ^ 53 + 1 / 2 ^ 53 ≤ 2 ^ 300 := by decide +kernel
      refine hl1.trans (le_trans ?_ h1)
      exact add_le_add (add_le_add hf2 (div_le_div_of_nonneg_right hf2 (by positivity))) hη1
  -- rows that stay
  have hstay : ∀ i, i < n → ¬ (k < i ∧ Pat i k) → ∀ j, j < n → a' i j = a i j := fun i hi hn j hj => hsame i j hi hj (by tauto)
  have hshift : ∀ i, k < i → i < n → ¬ Pat i k → wsum a' w n (k + 1) i = wsum a w n k i ∧ marg a' w n (k + 1) i = marg a w n k i := by
    intro i hki hi hP
    rw [wsum_congr (hstay i hi (by tauto)), marg_congr (hstay i hi (by tauto)), wsum_succ hk, marg_succ hk hki, hzero i k hP, abs_zero]
    constructor <;> ring
  refine ⟨fun m i => if m ≤ k then mm m i else marg a' w n (k + 1) i, ⟨fun i j hi hj hP => ?_, fun i hi => ?_, fun i hi => ?_, fun m i hm hmi hi => ?_,
    fun m i hm hmi hi => ?_, fun m i hm hmi hi hP => ?_, fun m i hm hmi hi hP => ?_, fun m i hm hmi hi => ?_⟩, fun m i hm => if_pos hm⟩
  · by_cases ht : k < i ∧ Pat i k
    · exact (hrow i ht.1 hi ht.2).1 j hj hP
    · rw [hst.same i j hi hj hP (by tauto)]
      exact h.fin i j hi hj hP
  · by_cases hki : k < i
    · rw [min_eq_left (show k + 1 ≤ i from hki)]
      have h1 := h.sum i hi
      rw [min_eq_left hki.le] at h1
      by_cases hP : Pat i k
      · rw [touch_pos ⟨hki, hP⟩]
        have := (hrow i hki hi hP).2.2.1
        push_cast
        linarith
      · rw [touch_neg (by tauto), (hshift i hki hi hP).1]
        exact h1
    · rw [min_eq_right (by omega), touch_neg (by tauto), wsum_congr (hstay i hi (by tauto))]
      have h1 := h.sum i hi
      rwa [min_eq_right (by omega)] at h1
  · by_cases hki : k < i
    · rw [min_eq_left (show k + 1 ≤ i from hki), if_neg (by omega)]
    · rw [min_eq_right (by omega), if_pos (by omega), marg_congr (hstay i hi (by tauto))]
      have h1 := h.now i hi
      rwa [min_eq_right (by omega)] at h1
  · by_cases hmk' : m ≤ k
    · rw [if_pos hmk']; exact h.mar m i hmk' hmi hi
    · have e : m = k + 1 := by omega
      subst e
      rw [if_neg hmk']
      have h1 := h.mar k i le_rfl (by omega) hi
      have h2 := h.now i hi
      rw [min_eq_left (by omega)] at h2
      by_cases hP : Pat i k
      · rw [touch_pos ⟨by omega, hP⟩]
        have := (hrow i (by omega) hi hP).2.2.2.1
        push_cast
        linarith
      · rw [touch_neg (by tauto), (hshift i (by omega) hi hP).2]
        linarith
  · by_cases hmk' : m ≤ k
    · rw [if_pos hmk']; exact h.top m i hmk' hmi hi
    · have e : m = k + 1 := by omega
      subst e
      rw [if_neg hmk']
      refine (marg_le_wsum hw).trans ?_
      have h1 := h.sum i hi
      rw [min_eq_left (by omega)] at h1
      by_cases hP : Pat i k
      · have h3 := (hrow i (by omega) hi hP).2.2.1
        have h4 := hp.few (k + 1) i hi
        rw [touch_pos ⟨by omega, hP⟩] at h4
        push_cast at h4
        have := hp.δ1
        linarith
      · rw [(hshift i (by omega) hi hP).1]
        exact hsum2 i (by omega) hi
  · by_cases hmk' : m < k
    · change _ + |a' i m| * _ ≤ _
      rw [if_pos (by omega), if_pos (by omega), if_pos (by omega), hsame i m hi (by omega) (by omega)]
      exact h.hit m i hmk' hmi hi hP
    · have e : m = k := by omega
      subst e
      rw [if_pos le_rfl, if_pos le_rfl, if_neg (by omega), hmk]
      have h2 := h.now i hi
      rw [min_eq_left (by omega)] at h2
      rw [h2]
      exact (hrow i hmi hi hP).2.1
  · by_cases hmk' : m < k
    · rw [if_pos (by omega), if_pos (by omega)]
      exact h.miss m i hmk' hmi hi hP
    · have e : m = k := by omega
      subst e
      rw [if_pos le_rfl, if_neg (by omega), (hshift i hmi hi hP).2]
      have h2 := h.now i hi
      rw [min_eq_left (by omega)] at h2
      exact h2.le
  · change |a' i m| * wsum a' w n m m ≤ 5 ∧ |a' i m| ≤ 2 ^ 300
    by_cases hmk' : m < k
    · rw [hsame i m hi (by omega) (by omega), wsum_congr (hstay m (by omega) (by omega))]
      exact h.low m i hmk' hmi hi
    · have e : m = k := by omega
      subst e
      rw [wsum_congr (hstay m hk (by omega))]
      by_cases hP : Pat i m
      · exact (hrow i hmi hi hP).2.2.2.2
      · rw [hsame i m hi hk (by tauto), hzero i m hP, abs_zero, zero_mul]
        exact ⟨by norm_num, by positivity⟩

/-- The factors. -/
theorem dom_elims {A : ℕ → ℕ → F64} (hp : DomPars n Pat w ω δ) (hE : Fl.Elims n Pat A k C) (hk : k ≤ n)
    (hfin : ∀ i j, i < n → j < n → Pat i j → ∃ q, A i j = .fin q)
    (hs : ∀ i, i < n → wsum (Fl.entries F64.toRat Pat A) w n 0 i ≤ 3 / 2) (hm : ∀ i, i < n → δ ≤ marg (Fl.entries F64.toRat Pat A) w n 0 i) :
    ∃ mm, DomInv n Pat w δ k C mm := by
  induction hE with
  | zero => exact ⟨_, domInv_zero hp hfin hs hm⟩
  | step _ hst ih =>
    obtain ⟨mm, h⟩ := ih (by omega)
    obtain ⟨mm', h', -⟩ := h.step hp (by omega) hst
    exact ⟨mm', h'⟩

end

end Intp
