import Verif.Proofs.BandStore
import Verif.Proofs.Line

/-! # The factorisation and solve loops refine mathematical LU elimination -/

namespace Intp

open Finset

variable {K V : Type} [Field K] [DecidableEq K] [AddCommGroup V] [Module K V]

/-- Failure allowed to the solver: division by zero, caused by a singular leading block of `A`. -/
def PivotErr (n : ℕ) (A : ℕ → ℕ → K) (e : Err) : Prop := e = .divZero ∧ ∃ r, r < n ∧ (lead A (r + 1)).det = 0

theorem LUInv.pivotErr {n k : ℕ} {A C : ℕ → ℕ → K} (h : LUInv n A k C) (hk : k < n) (h0 : C k k = 0) :
    PivotErr n A .divZero := by
  refine ⟨rfl, k, hk, ?_⟩
  rw [h.det_lead le_rfl (by omega)]
  exact Finset.prod_eq_zero (mem_range.2 (Nat.lt_succ_self k)) h0

/-! ## band factorisation -/

namespace BandMatrix

theorem computeImpl_spec (c : Cfg) {n p q : ℕ} {m : BandMatrix K} {A : ℕ → ℕ → K} (hn : 0 < n) (hm : Rep n p q m A)
    (hz : ∀ i j, i < n → j < n → ¬ InBand p q i j → A i j = 0) :
    Spec (m.computeImpl c)
      (fun lu => ∃ C, Rep n p q lu C ∧ LUInv n A n C ∧ ∀ i j, i < n → j < n → ¬ InBand p q i j → C i j = 0)
      (PivotErr n A) := by
  have h1 := hm.1
  have h2 := hm.2.1
  have h3 := hm.2.2.1
  unfold computeImpl
  simp only [h1, h2, h3]
  rw [subM_ok (show 1 ≤ n from hn), ok_bind]
  refine Spec.imp (Spec.loop (P := fun k s => ∃ C, Rep n p q s C ∧ LUInv n A k C ∧
      ∀ i j, i < n → j < n → ¬ InBand p q i j → C i j = 0) (Nat.zero_le _) ⟨A, hm, LUInv.zero n A, hz⟩ ?_) ?_
  · rintro k s - hk ⟨C, hC, hinv, hoff⟩
    have hkn : k < n := by omega
    have hdiag : InBand p q k k := by unfold InBand; omega
    -- column k
    set T1 : ℕ → ℕ → K := fun i _ => C i k / C k k
    set S1 : ℕ → ℕ → Prop := fun a b => False ∨ (k + 1 ≤ a ∧ a < min (k + p + 1) n ∧ b = k)
    refine Spec.bind (Q := fun s => Rep n p q s (mix2 S1 T1 C) ∧ (C k k ≠ 0 ∨ mix2 S1 T1 C = C)) ?_ ?_
    · refine Spec.loop_col (R := fun s B => Rep n p q s B ∧ (C k k ≠ 0 ∨ B = C)) (Reg := fun a b => k < a ∧ b = k)
        (S0 := fun _ _ => False) (T := T1) (A := C) (j := k) ?_ (by simp) (by simp) ?_ ?_
      · rw [mix2_empty]; exact ⟨hC, .inr rfl⟩
      · intro i hlo hhi; exact ⟨by omega, rfl⟩
      · rintro i s S hlo hhi hS hSi ⟨hR, hne⟩
        have hi : i < n := by omega
        have hb : InBand p q i k := by unfold InBand; omega
        rw [hR.get c hi hkn hb, ok_bind, hR.get c hkn hkn hdiag, ok_bind, mix2_neg hSi,
          mix2_neg (fun h => absurd (hS k k h).1 (lt_irrefl _))]
        by_cases h0 : C k k = 0
        · have : divM (C i k) (C k k) = .error .divZero := if_pos h0
          rw [this]
          exact hinv.pivotErr hkn h0
        · rw [divM_ok h0, ok_bind]
          obtain ⟨m', hm1, hm2⟩ := hR.set c hi hkn hb (C i k / C k k)
          rw [hm1]
          refine Spec.ok ⟨?_, .inl h0⟩
          rw [← upd2_mix2]; exact hm2
    · rintro s ⟨hR1, hne⟩
      set A1 := mix2 S1 T1 C
      have hA1 : ∀ i j, i < n → j < n → A1 i j = if k < i ∧ j = k then C i k / C k k else C i j := by
        intro i j hi hj
        by_cases h : k < i ∧ j = k
        · obtain ⟨hki, rfl⟩ := h
          by_cases hb : i < j + p + 1
          · rw [if_pos ⟨hki, rfl⟩]; exact mix2_pos (.inr ⟨hki, by omega, rfl⟩)
          · rw [if_pos ⟨hki, rfl⟩, hoff i j hi hj (by unfold InBand; omega), zero_div]
            rw [show A1 i j = C i j from mix2_neg (by simp only [S1, false_or]; omega)]
            exact hoff i j hi hj (by unfold InBand; omega)
        · rw [if_neg h]; exact mix2_neg (by simp only [S1, false_or]; omega)
      have hpiv : C k k ≠ 0 ∨ ∀ i, k < i → i < n → C i k = 0 := by
        rcases hne with h | h
        · exact .inl h
        · by_cases h0 : C k k = 0
          · right; intro i hki hi
            have := hA1 i k hi hkn
            rw [h, if_pos ⟨hki, rfl⟩, h0, div_zero] at this
            exact this
          · exact .inl h0
      set T2 : ℕ → ℕ → K := fun i j => A1 i j - A1 i k * A1 k j
      refine Spec.imp (Spec.loop_rect_ji (R := fun s B => Rep n p q s B) (Reg := fun a b => k < a ∧ k < b)
        (S0 := fun _ _ => False) (T := T2) (A := A1) ?_ (by simp) (by simp) ?_ ?_) ?_
      · rw [mix2_empty]; exact hR1
      · intro i j h; unfold Rect at h; omega
      · intro i j s S hr hS hSi hR
        have hr' := hr
        unfold Rect at hr
        rw [hR.get c (by omega) (by omega) (by unfold InBand; omega), ok_bind,
          hR.get c (by omega) hkn (by unfold InBand; omega), ok_bind,
          hR.get c hkn (by omega) (by unfold InBand; omega), ok_bind, mix2_neg hSi,
          mix2_neg (fun h => absurd (hS i k h).2 (lt_irrefl _)), mix2_neg (fun h => absurd (hS k j h).1 (lt_irrefl _))]
        obtain ⟨m', hm1, hm2⟩ := hR.set c (i := i) (j := j) (by omega) (by omega) (by unfold InBand; omega) (T2 i j)
        rw [hm1]
        refine Spec.ok ?_
        rw [← upd2_mix2]; exact hm2
      · intro s' hs'
        have hfin : ∀ i j, i < n → j < n →
            mix2 (fun a b => False ∨ Rect (k + 1) (min (k + p + 1) n) (k + 1) (min (k + q + 1) n) a b) T2 A1 i j =
              luStep k C i j := by
          intro i j hi hj
          have hval : (if k < i ∧ k < j then T2 i j else A1 i j) = luStep k C i j := by
            unfold luStep
            by_cases hij : k < i ∧ k < j
            · simp only [T2]
              rw [if_pos hij, hA1 i j hi hj, hA1 i k hi hkn, hA1 k j hkn hj, if_neg (by omega), if_pos ⟨hij.1, rfl⟩,
                if_neg (by omega), if_neg (by omega), if_pos hij]
            · rw [if_neg hij, hA1 i j hi hj, if_neg hij]
          rw [← hval]
          by_cases hr : Rect (k + 1) (min (k + p + 1) n) (k + 1) (min (k + q + 1) n) i j
          · rw [mix2_pos (.inr hr), if_pos (by unfold Rect at hr; omega)]
          · rw [mix2_neg (by tauto)]
            by_cases hij : k < i ∧ k < j
            · rw [if_pos hij]
              simp only [T2]
              have : A1 i k * A1 k j = 0 := by
                rw [hA1 i k hi hkn, hA1 k j hkn hj, if_pos ⟨hij.1, rfl⟩, if_neg (by omega)]
                by_cases hb : InBand p q i k
                · rw [hoff k j hkn hj (by unfold Rect at hr; unfold InBand at *; omega), mul_zero]
                · rw [hoff i k hi hkn hb, zero_div, zero_mul]
              rw [this, sub_zero]
            · rw [if_neg hij]
        refine ⟨luStep k C, hs'.congr fun i j hi hj _ => hfin i j hi hj, hinv.step hpiv, ?_⟩
        intro i j hi hj hb
        unfold luStep
        by_cases h1 : k < i ∧ j = k
        · rw [if_pos h1, hoff i k hi hkn (by rw [← h1.2]; exact hb), zero_div]
        · rw [if_neg h1]
          by_cases h2 : k < i ∧ k < j
          · rw [if_pos h2, hoff i j hi hj hb]
            by_cases hb1 : InBand p q i k
            · rw [hoff k j hkn hj (by unfold InBand at *; omega), mul_zero, sub_zero]
            · rw [hoff i k hi hkn hb1, zero_div, zero_mul, sub_zero]
          · rw [if_neg h2]; exact hoff i j hi hj hb
  · rintro s ⟨C, hC, hinv, hoff⟩
    exact ⟨C, hC, hinv.final hn, hoff⟩

end BandMatrix

/-! ## extended band factorisation -/

/-- Entries stored by an extended band matrix. -/
def InPat (n p q i j : ℕ) : Prop := InBand p q i j ∨ InSide n p q i j

namespace ExtBandMatrix

theorem computeImpl_spec (c : Cfg) {n p q : ℕ} {m : ExtBandMatrix K} {A : ℕ → ℕ → K} (hm : Rep n p q m A)
    (hz : ∀ i j, i < n → j < n → ¬ InPat n p q i j → A i j = 0) :
    Spec (m.computeImpl c)
      (fun lu => ∃ C, Rep n p q lu C ∧ LUInv n A n C ∧ ∀ i j, i < n → j < n → ¬ InPat n p q i j → C i j = 0)
      (PivotErr n A) := by
  have hp := hm.1
  have hq := hm.2.1
  have h1 := hm.2.2.1
  have h2 := hm.2.2.2.1
  have h3 := hm.2.2.2.2.1
  unfold computeImpl
  simp only [h1, h2, h3]
  rw [subM_ok (show 1 ≤ n by omega), ok_bind]
  refine Spec.imp (Spec.loop (P := fun k s => ∃ C, Rep n p q s C ∧ LUInv n A k C ∧
      ∀ i j, i < n → j < n → ¬ InPat n p q i j → C i j = 0) (Nat.zero_le _) ⟨A, hm, LUInv.zero n A, hz⟩ ?_) ?_
  · rintro k s - hk ⟨C, hC, hinv, hoff⟩
    have hkn : k < n := by omega
    have hdiag : InBand p q k k := by unfold InBand; omega
    rw [subM_ok (show q ≤ n by omega), ok_bind, subM_ok (show p ≤ n by omega), ok_bind]
    set T1 : ℕ → ℕ → K := fun i _ => C i k / C k k
    set S1 : ℕ → ℕ → Prop := fun a b => False ∨ (k + 1 ≤ a ∧ a < min (k + p + 1) n ∧ b = k)
    set S1' : ℕ → ℕ → Prop := fun a b => S1 a b ∨ (max (n - q) (k + p + 1) ≤ a ∧ a < n ∧ b = k)
    refine Spec.bind (Q := fun s => Rep n p q s (mix2 S1 T1 C) ∧ (C k k ≠ 0 ∨ mix2 S1 T1 C = C)) ?_ ?_
    · refine Spec.loop_col (R := fun s B => Rep n p q s B ∧ (C k k ≠ 0 ∨ B = C)) (Reg := fun a b => k < a ∧ b = k)
        (S0 := fun _ _ => False) (T := T1) (A := C) (j := k) ?_ (by simp) (by simp) ?_ ?_
      · rw [mix2_empty]; exact ⟨hC, .inr rfl⟩
      · intro i hlo hhi; exact ⟨by omega, rfl⟩
      · rintro i s S hlo hhi hS hSi ⟨hR, hne⟩
        have hi : i < n := by omega
        have hb : InBand p q i k := by unfold InBand; omega
        rw [hR.mainGet c hi hkn hb, ok_bind, hR.mainGet c hkn hkn hdiag, ok_bind, mix2_neg hSi,
          mix2_neg (fun h => absurd (hS k k h).1 (lt_irrefl _))]
        by_cases h0 : C k k = 0
        · have : divM (C i k) (C k k) = .error .divZero := if_pos h0
          rw [this]
          exact hinv.pivotErr hkn h0
        · rw [divM_ok h0, ok_bind]
          obtain ⟨m', hm1, hm2⟩ := hR.mainSet c hi hkn hb (C i k / C k k)
          rw [hm1]
          refine Spec.ok ⟨?_, .inl h0⟩
          rw [← upd2_mix2]; exact hm2
    intro s hs1
    refine Spec.bind (Q := fun s => Rep n p q s (mix2 S1' T1 C) ∧ (C k k ≠ 0 ∨ mix2 S1' T1 C = C)) ?_ ?_
    · refine Spec.loop_col (R := fun s B => Rep n p q s B ∧ (C k k ≠ 0 ∨ B = C)) (Reg := fun a b => k < a ∧ b = k)
        (S0 := S1) (T := T1) (A := C) (j := k) hs1 ?_ ?_ ?_ ?_
      · intro a b h; simp only [S1, false_or] at h; omega
      · intro i h1 h2; simp only [S1, false_or]; omega
      · intro i hlo hhi; exact ⟨by omega, rfl⟩
      · rintro i s S hlo hhi hS hSi ⟨hR, hne⟩
        have hi : i < n := by omega
        have hb : InSide n p q i k := by unfold InSide; omega
        rw [hR.sideGet c hi hkn hb, ok_bind, hR.mainGet c hkn hkn hdiag, ok_bind, mix2_neg hSi,
          mix2_neg (fun h => absurd (hS k k h).1 (lt_irrefl _))]
        by_cases h0 : C k k = 0
        · have : divM (C i k) (C k k) = .error .divZero := if_pos h0
          rw [this]
          exact hinv.pivotErr hkn h0
        · rw [divM_ok h0, ok_bind]
          obtain ⟨m', hm1, hm2⟩ := hR.sideSet c hi hkn hb (C i k / C k k)
          rw [hm1]
          refine Spec.ok ⟨?_, .inl h0⟩
          rw [← upd2_mix2]; exact hm2
    rintro s ⟨hR1, hne⟩
    set A1 := mix2 S1' T1 C
    have hA1 : ∀ i j, i < n → j < n → A1 i j = if k < i ∧ j = k then C i k / C k k else C i j := by
      intro i j hi hj
      by_cases h : k < i ∧ j = k
      · obtain ⟨hki, rfl⟩ := h
        by_cases hb : InPat n p q i j
        · rw [if_pos ⟨hki, rfl⟩]
          refine mix2_pos ?_
          unfold InPat InBand InSide at hb
          by_cases hb' : i < j + p + 1
          · exact .inl (.inr ⟨hki, by omega, rfl⟩)
          · exact .inr ⟨by omega, hi, rfl⟩
        · rw [if_pos ⟨hki, rfl⟩, hoff i j hi hj hb, zero_div]
          rw [show A1 i j = C i j from mix2_neg (by unfold InPat InBand InSide at hb; simp only [S1', S1, false_or]; omega)]
          exact hoff i j hi hj hb
      · rw [if_neg h]; exact mix2_neg (by simp only [S1', S1, false_or]; omega)
    have hpiv : C k k ≠ 0 ∨ ∀ i, k < i → i < n → C i k = 0 := by
      rcases hne with h | h
      · exact .inl h
      · by_cases h0 : C k k = 0
        · right; intro i hki hi
          have := hA1 i k hi hkn
          rw [h, if_pos ⟨hki, rfl⟩, h0, div_zero] at this
          exact this
        · exact .inl h0
    set T2 : ℕ → ℕ → K := fun i j => A1 i j - A1 i k * A1 k j
    -- the four rectangles
    have hTkj : ∀ {S : ℕ → ℕ → Prop} {i}, (∀ a b, S a b → k < a ∧ k < b) → mix2 S T2 A1 i k = A1 i k :=
      fun hS => mix2_neg (fun h => absurd (hS _ k h).2 (lt_irrefl _))
    have hTik : ∀ {S : ℕ → ℕ → Prop} {j}, (∀ a b, S a b → k < a ∧ k < b) → mix2 S T2 A1 k j = A1 k j :=
      fun hS => mix2_neg (fun h => absurd (hS k _ h).1 (lt_irrefl _))
    set R1 := Rect (k + 1) (min (k + p + 1) n) (k + 1) (min (k + q + 1) n)
    set R2 := Rect (k + 1) (min (k + p + 1) n) (max (n - p) (k + q + 1)) n
    set R3 := Rect (max (n - q) (k + p + 1)) n (k + 1) (min (k + q + 1) n)
    set R4 := Rect (max (n - q) (k + p + 1)) n (max (n - p) (k + q + 1)) n
    refine Spec.bind (Spec.loop_rect_ji (R := fun s B => Rep n p q s B) (Reg := fun a b => k < a ∧ k < b)
        (S0 := fun _ _ => False) (T := T2) (A := A1) ?_ (by simp) (by simp) ?_ ?_) ?_
    · rw [mix2_empty]; exact hR1
    · intro i j h; unfold Rect at h; omega
    · intro i j s S hr hS hSi hR
      unfold Rect at hr
      rw [hR.mainGet c (by omega) (by omega) (by unfold InBand; omega), ok_bind,
        hR.mainGet c (by omega) hkn (by unfold InBand; omega), ok_bind,
        hR.mainGet c hkn (by omega) (by unfold InBand; omega), ok_bind, mix2_neg hSi, hTkj hS, hTik hS]
      obtain ⟨m', hm1, hm2⟩ := hR.mainSet c (i := i) (j := j) (by omega) (by omega) (by unfold InBand; omega) (T2 i j)
      rw [hm1]
      refine Spec.ok ?_
      rw [← upd2_mix2]; exact hm2
    intro s hs
    refine Spec.bind (Spec.loop_rect_ij (R := fun s B => Rep n p q s B) (Reg := fun a b => k < a ∧ k < b)
        (S0 := fun a b => False ∨ R1 a b) (T := T2) (A := A1) hs ?_ ?_ ?_ ?_) ?_
    · intro a b h; simp only [false_or, R1, Rect] at h; omega
    · intro i j h; simp only [false_or, R1, Rect] at *; omega
    · intro i j h; unfold Rect at h; omega
    · intro i j s S hr hS hSi hR
      unfold Rect at hr
      have hpat : InBand p q i j ∨ InSide n p q i j := by unfold InBand InSide; omega
      rw [hR.get c (by omega) (by omega) hpat, ok_bind,
        hR.mainGet c (by omega) hkn (by unfold InBand; omega), ok_bind,
        hR.sideGet c hkn (by omega) (by unfold InSide; omega), ok_bind, mix2_neg hSi, hTkj hS, hTik hS]
      obtain ⟨m', hm1, hm2⟩ := hR.set c (i := i) (j := j) (by omega) (by omega) hpat (T2 i j)
      rw [hm1]
      refine Spec.ok ?_
      rw [← upd2_mix2]; exact hm2
    intro s hs
    refine Spec.bind (Spec.loop_rect_ji (R := fun s B => Rep n p q s B) (Reg := fun a b => k < a ∧ k < b)
        (S0 := fun a b => (False ∨ R1 a b) ∨ R2 a b) (T := T2) (A := A1) hs ?_ ?_ ?_ ?_) ?_
    · intro a b h; simp only [false_or, R1, R2, Rect] at h; omega
    · intro i j h; simp only [false_or, R1, R2, Rect] at *; omega
    · intro i j h; unfold Rect at h; omega
    · intro i j s S hr hS hSi hR
      unfold Rect at hr
      have hpat : InBand p q i j ∨ InSide n p q i j := by unfold InBand InSide; omega
      rw [hR.get c (by omega) (by omega) hpat, ok_bind,
        hR.sideGet c (by omega) hkn (by unfold InSide; omega), ok_bind,
        hR.mainGet c hkn (by omega) (by unfold InBand; omega), ok_bind, mix2_neg hSi, hTkj hS, hTik hS]
      obtain ⟨m', hm1, hm2⟩ := hR.set c (i := i) (j := j) (by omega) (by omega) hpat (T2 i j)
      rw [hm1]
      refine Spec.ok ?_
      rw [← upd2_mix2]; exact hm2
    intro s hs
    rw [subM_ok (show p + 1 ≤ n by omega), ok_bind, subM_ok (show q + 1 ≤ n by omega), ok_bind]
    refine Spec.imp (Q := fun s => Rep n p q s (mix2 (fun a b => ((((False ∨ R1 a b) ∨ R2 a b) ∨ R3 a b) ∨ R4 a b)) T2 A1)) ?_ ?_
    · refine Spec.ite ?_ ?_
      · intro _
        refine Spec.loop_rect_ij (R := fun s B => Rep n p q s B) (Reg := fun a b => k < a ∧ k < b)
          (S0 := fun a b => ((False ∨ R1 a b) ∨ R2 a b) ∨ R3 a b) (T := T2) (A := A1) hs ?_ ?_ ?_ ?_
        · intro a b h; simp only [false_or, R1, R2, R3, Rect] at h; omega
        · intro i j h; simp only [false_or, R1, R2, R3, Rect] at *; omega
        · intro i j h; unfold Rect at h; omega
        · intro i j s S hr hS hSi hR
          unfold Rect at hr
          rw [hR.mainGet c (by omega) (by omega) (by unfold InBand; omega), ok_bind,
            hR.sideGet c (by omega) hkn (by unfold InSide; omega), ok_bind,
            hR.sideGet c hkn (by omega) (by unfold InSide; omega), ok_bind, mix2_neg hSi, hTkj hS, hTik hS]
          obtain ⟨m', hm1, hm2⟩ := hR.mainSet c (i := i) (j := j) (by omega) (by omega) (by unfold InBand; omega) (T2 i j)
          rw [hm1]
          refine Spec.ok ?_
          rw [← upd2_mix2]; exact hm2
      · intro hlt
        refine Spec.pure ?_
        rwa [mix2_congr_set (S' := fun a b => (((False ∨ R1 a b) ∨ R2 a b) ∨ R3 a b) ∨ R4 a b)] at hs
        intro a b
        constructor
        · exact fun h => .inl h
        · rintro (h | h)
          · exact h
          · exfalso; simp only [R4, Rect] at h; omega
    · intro s' hs'
      have hfin : ∀ i j, i < n → j < n →
          mix2 (fun a b => ((((False ∨ R1 a b) ∨ R2 a b) ∨ R3 a b) ∨ R4 a b)) T2 A1 i j = luStep k C i j := by
        intro i j hi hj
        have hval : (if k < i ∧ k < j then T2 i j else A1 i j) = luStep k C i j := by
          unfold luStep
          by_cases hij : k < i ∧ k < j
          · simp only [T2]
            rw [if_pos hij, hA1 i j hi hj, hA1 i k hi hkn, hA1 k j hkn hj, if_neg (by omega), if_pos ⟨hij.1, rfl⟩,
              if_neg (by omega), if_neg (by omega), if_pos hij]
          · rw [if_neg hij, hA1 i j hi hj, if_neg hij]
        rw [← hval]
        by_cases hr : ((((False ∨ R1 i j) ∨ R2 i j) ∨ R3 i j) ∨ R4 i j)
        · rw [mix2_pos hr, if_pos (by simp only [false_or, R1, R2, R3, R4, Rect] at hr; omega)]
        · rw [mix2_neg hr]
          by_cases hij : k < i ∧ k < j
          · rw [if_pos hij]
            simp only [T2]
            have : A1 i k * A1 k j = 0 := by
              rw [hA1 i k hi hkn, hA1 k j hkn hj, if_pos ⟨hij.1, rfl⟩, if_neg (by omega)]
              by_cases hb : InPat n p q i k
              · rw [hoff k j hkn hj (by
                  simp only [false_or, R1, R2, R3, R4, Rect] at hr; unfold InPat InBand InSide at *; omega), mul_zero]
              · rw [hoff i k hi hkn hb, zero_div, zero_mul]
            rw [this, sub_zero]
          · rw [if_neg hij]
      refine ⟨luStep k C, hs'.congr fun i j hi hj _ => hfin i j hi hj, hinv.step hpiv, ?_⟩
      intro i j hi hj hb
      unfold luStep
      by_cases h1 : k < i ∧ j = k
      · rw [if_pos h1, hoff i k hi hkn (by rw [← h1.2]; exact hb), zero_div]
      · rw [if_neg h1]
        by_cases h2 : k < i ∧ k < j
        · rw [if_pos h2, hoff i j hi hj hb]
          by_cases hb1 : InPat n p q i k
          · rw [hoff k j hkn hj (by unfold InPat InBand InSide at *; omega), mul_zero, sub_zero]
          · rw [hoff i k hi hkn hb1, zero_div, zero_mul, sub_zero]
        · rw [if_neg h2]; exact hoff i j hi hj hb
  · rintro s ⟨C, hC, hinv, hoff⟩
    exact ⟨C, hC, hinv.final (by omega), hoff⟩

end ExtBandMatrix

/-! ## solving on a line -/

variable {buf0 buf : List V} {off step n : ℕ} {b : ℕ → V}

theorem lineSubMul_ok (h : LineHolds buf0 off step n buf b) (hstep : 0 < step) {i j : ℕ} (hi : i < n) (hj : j < n)
    (a : K) : ∃ buf', lineSubMul buf off step i j a = .ok buf' ∧
      LineHolds buf0 off step n buf' (Function.update b i (b i - a • b j)) := by
  unfold lineSubMul
  rw [h.read hi, ok_bind, h.read hj, ok_bind]
  exact h.write hstep hi _

/-- A loop `for i in [lo,hi): iter[i] -= C(i,j) * iter[j]`. -/
theorem lineCol_spec {E : Err → Prop} {C : ℕ → ℕ → K} {g : ℕ → M K} {lo hi j : ℕ}
    (h : LineHolds buf0 off step n buf b) (hstep : 0 < step) (hj : j < n) (hhi : hi ≤ n)
    (hne : ∀ i, lo ≤ i → i < hi → i ≠ j) (hg : ∀ i, lo ≤ i → i < hi → g i = .ok (C i j)) :
    Spec (Intp.loop lo hi buf fun i buf => do
      let a ← g i
      lineSubMul buf off step i j a)
      (fun buf' => LineHolds buf0 off step n buf' (fun i => if lo ≤ i ∧ i < hi then b i - C i j • b j else b i)) E := by
  refine Spec.imp (Spec.loop' (P := fun i' buf' => LineHolds buf0 off step n buf'
    (fun i => if lo ≤ i ∧ i < i' then b i - C i j • b j else b i)) ?_ ?_) ?_
  · exact h.congr fun i _ => by rw [if_neg (by omega)]
  · intro i' s hlo hh hP
    rw [hg i' hlo hh, ok_bind]
    obtain ⟨buf', h1, h2⟩ := lineSubMul_ok hP hstep (i := i') (j := j) (by omega) hj (C i' j)
    rw [h1]
    refine Spec.ok (h2.congr fun i hi => ?_)
    by_cases hii : i = i'
    · subst hii
      rw [Function.update_self, if_neg (by omega), if_neg (fun h => hne j h.1 (by omega) rfl), if_pos (by omega)]
    · rw [Function.update_of_ne hii]
      by_cases hc : lo ≤ i ∧ i < i'
      · rw [if_pos hc, if_pos (by omega)]
      · rw [if_neg hc, if_neg (by omega)]
  · intro s hs
    exact hs.congr fun i _ => by
      by_cases hc : lo ≤ i ∧ i < hi
      · rw [if_pos (by omega), if_pos hc]
      · rw [if_neg (by omega), if_neg hc]

theorem lineDiv_ok (h : LineHolds buf0 off step n buf b) (hstep : 0 < step) {j : ℕ} (hj : j < n) {a : K} (ha : a ≠ 0) :
    ∃ buf', lineDiv buf off step j a = .ok buf' ∧ LineHolds buf0 off step n buf' (Function.update b j (a⁻¹ • b j)) := by
  unfold lineDiv
  rw [h.read hj, ok_bind, divV_ok ha, ok_bind]
  exact h.write hstep hj _

theorem lineDiv_zero (h : LineHolds buf0 off step n buf b) {j : ℕ} (hj : j < n) {a : K} (ha : a = 0) :
    lineDiv buf off step j a = .error .divZero := by
  unfold lineDiv
  rw [h.read hj, ok_bind]
  have : divV (b j) a = .error .divZero := if_pos ha
  rw [this]; rfl

/-- Postcondition of solving: forward and backward substitution have been completed. -/
def SolvePost (buf0 : List V) (off step n : ℕ) (C : ℕ → ℕ → K) (b : ℕ → V) (buf' : List V) : Prop :=
  ∃ x y, LineHolds buf0 off step n buf' x ∧ FwdInv n C b n y ∧ BwdInv n C y 0 x

/-- Failure allowed when solving: a zero on the diagonal of the factors. -/
def DiagErr (n : ℕ) (C : ℕ → ℕ → K) (e : Err) : Prop := e = .divZero ∧ ∃ r, r < n ∧ C r r = 0

namespace BandMatrix

theorem solveInPlace_spec (c : Cfg) {p q : ℕ} {lu : BandMatrix K} {C : ℕ → ℕ → K} (hlu : Rep n p q lu C)
    (hoff : ∀ i j, i < n → j < n → ¬ InBand p q i j → C i j = 0) (hstep : 0 < step)
    (hb : LineHolds buf0 off step n buf b) :
    Spec (lu.solveInPlace c buf off step) (SolvePost buf0 off step n C b) (DiagErr n C) := by
  have h1 := hlu.1
  have h2 := hlu.2.1
  have h3 := hlu.2.2.1
  unfold solveInPlace
  simp only [h1, h2, h3]
  refine Spec.bind (Q := fun buf => ∃ y, LineHolds buf0 off step n buf y ∧ FwdInv n C b n y) ?_ ?_
  · refine Spec.loop (P := fun j buf => ∃ y, LineHolds buf0 off step n buf y ∧ FwdInv n C b j y) (Nat.zero_le _)
      ⟨b, hb, FwdInv.zero n C b⟩ ?_
    rintro j s - hj ⟨y, hy, hinv⟩
    refine Spec.imp (lineCol_spec (C := C) hy hstep hj (by omega) (by omega)
      (fun i hlo hhi => hlu.get c (by omega) hj (by unfold InBand; omega))) fun buf' hb' => ⟨_, hb', hinv.step hj ?_⟩
    intro i hi
    by_cases hij : j < i
    · rw [if_pos hij]
      by_cases hib : i < j + p + 1
      · rw [if_pos (by omega)]
      · rw [if_neg (by omega), hoff i j hi hj (by unfold InBand; omega), zero_smul, sub_zero]
    · rw [if_neg hij, if_neg (by omega)]
  · rintro buf1 ⟨y, hy, hfwd⟩
    refine Spec.imp (Spec.loopDown (P := fun j buf => ∃ x, LineHolds buf0 off step n buf x ∧ BwdInv n C y j x) n buf1
      ⟨y, hy, BwdInv.zero n C y⟩ ?_) ?_
    · rintro j s hj ⟨x, hx, hinv⟩
      rw [hlu.get c hj hj (by unfold InBand; omega), ok_bind]
      by_cases h0 : C j j = 0
      · rw [lineDiv_zero hx hj h0]
        exact ⟨rfl, j, hj, h0⟩
      · obtain ⟨buf', hb1, hb2⟩ := lineDiv_ok hx hstep hj h0
        rw [hb1, ok_bind]
        refine Spec.imp (lineCol_spec (C := C) hb2 hstep hj hj.le (by omega)
          (fun i hlo hhi => hlu.get c (by omega) hj (by unfold InBand; split at hlo <;> omega)))
          fun buf'' hb'' => ⟨_, hb'', hinv.step hj h0 ?_⟩
        intro i hi
        rw [Function.update_self]
        by_cases hij : i < j
        · rw [if_pos hij, Function.update_of_ne (by omega)]
          by_cases hib : (if j < q then 0 else j - q) ≤ i ∧ i < j
          · rw [if_pos hib]
          · rw [if_neg hib, hoff i j hi hj (by unfold InBand; split at hib <;> omega), zero_smul, sub_zero]
        · rw [if_neg hij, if_neg (by omega)]
          by_cases hieq : i = j
          · subst hieq; rw [if_pos rfl, Function.update_self]
          · rw [if_neg hieq, Function.update_of_ne hieq]
    · rintro buf2 ⟨x, hx, hbwd⟩
      exact ⟨x, y, hx, hfwd, hbwd⟩

end BandMatrix

namespace ExtBandMatrix

theorem solveInPlace_spec (c : Cfg) {p q : ℕ} {lu : ExtBandMatrix K} {C : ℕ → ℕ → K} (hlu : Rep n p q lu C)
    (hpq : p + q ≤ n)
    (hoff : ∀ i j, i < n → j < n → ¬ InPat n p q i j → C i j = 0) (hstep : 0 < step)
    (hb : LineHolds buf0 off step n buf b) :
    Spec (lu.solveInPlace c buf off step) (SolvePost buf0 off step n C b) (DiagErr n C) := by
  have hp := hlu.1
  have hq := hlu.2.1
  have h1 := hlu.2.2.1
  have h2 := hlu.2.2.2.1
  have h3 := hlu.2.2.2.2.1
  unfold solveInPlace
  simp only [h1, h2, h3]
  refine Spec.bind (Q := fun buf => ∃ y, LineHolds buf0 off step n buf y ∧ FwdInv n C b n y) ?_ ?_
  · refine Spec.loop (P := fun j buf => ∃ y, LineHolds buf0 off step n buf y ∧ FwdInv n C b j y) (Nat.zero_le _)
      ⟨b, hb, FwdInv.zero n C b⟩ ?_
    rintro j s - hj ⟨y, hy, hinv⟩
    refine Spec.bind (lineCol_spec (C := C) hy hstep hj (by omega) (by omega)
      (fun i hlo hhi => hlu.mainGet c (by omega) hj (by unfold InBand; omega))) fun buf' hb' => ?_
    rw [subM_ok (show p + 1 ≤ n by omega), ok_bind]
    have hyj : (if j + 1 ≤ j ∧ j < min (j + p + 1) n then y j - C j j • y j else y j) = y j := if_neg (by omega)
    refine Spec.ite ?_ ?_
    · intro hjlt
      rw [subM_ok (show q ≤ n by omega), ok_bind]
      refine Spec.imp (lineCol_spec (C := C) hb' hstep hj le_rfl (by omega)
        (fun i hlo hhi => hlu.sideGet c hhi hj (by unfold InSide; omega))) fun buf'' hb'' => ⟨_, hb'', hinv.step hj ?_⟩
      intro i hi
      simp only [hyj]
      by_cases hij : j < i
      · rw [if_pos hij]
        by_cases hib : i < j + p + 1
        · rw [if_neg (by omega), if_pos (by omega)]
        · by_cases hside : n - q ≤ i
          · rw [if_pos (by omega), if_neg (by omega)]
          · rw [if_neg (by omega), if_neg (by omega), hoff i j hi hj (by unfold InPat InBand InSide; omega), zero_smul,
              sub_zero]
      · rw [if_neg hij, if_neg (by omega), if_neg (by omega)]
    · intro hjlt
      refine Spec.pure ⟨_, hb', hinv.step hj ?_⟩
      intro i hi
      by_cases hij : j < i
      · rw [if_pos hij, if_pos (by omega)]
      · rw [if_neg hij, if_neg (by omega)]
  · rintro buf1 ⟨y, hy, hfwd⟩
    refine Spec.imp (Spec.loopDown (P := fun j buf => ∃ x, LineHolds buf0 off step n buf x ∧ BwdInv n C y j x) n buf1
      ⟨y, hy, BwdInv.zero n C y⟩ ?_) ?_
    · rintro j s hj ⟨x, hx, hinv⟩
      rw [hlu.mainGet c hj hj (by unfold InBand; omega), ok_bind]
      by_cases h0 : C j j = 0
      · rw [lineDiv_zero hx hj h0]
        exact ⟨rfl, j, hj, h0⟩
      · obtain ⟨buf', hb1, hb2⟩ := lineDiv_ok hx hstep hj h0
        rw [hb1, ok_bind]
        refine Spec.bind (lineCol_spec (C := C) hb2 hstep hj hj.le (by omega)
          (fun i hlo hhi => hlu.mainGet c (by omega) hj (by unfold InBand; split at hlo <;> omega))) fun buf'' hb'' => ?_
        rw [subM_ok (show p + 1 ≤ n by omega), ok_bind]
        rw [Function.update_self] at hb''
        have hself : ∀ (P : Prop) [Decidable P], ¬ P → (if P then Function.update x j ((C j j)⁻¹ • x j) j - C j j • (C j j)⁻¹ • x j else
          Function.update x j ((C j j)⁻¹ • x j) j) = (C j j)⁻¹ • x j := by
          intro P _ hP; rw [if_neg hP, Function.update_self]
        refine Spec.ite ?_ ?_
        · intro hjgt
          rw [subM_ok (show q ≤ j by omega), ok_bind]
          refine Spec.imp (lineCol_spec (C := C) hb'' hstep hj (by omega) (by omega)
            (fun i hlo hhi => hlu.sideGet c (by omega) hj (by unfold InSide; omega)))
            fun buf3 hb3 => ⟨_, hb3, hinv.step hj h0 ?_⟩
          intro i hi
          rw [hself _ (by omega), if_neg (show ¬ j < q by omega)]
          by_cases hij : i < j
          · rw [if_pos hij, Function.update_of_ne (by omega)]
            by_cases hib : i < j - q
            · rw [if_pos (by omega), if_neg (by omega)]
            · rw [if_neg (by omega), if_pos (by omega)]
          · rw [if_neg hij, if_neg (by omega), if_neg (by omega)]
            by_cases hieq : i = j
            · subst hieq; rw [if_pos rfl, Function.update_self]
            · rw [if_neg hieq, Function.update_of_ne hieq]
        · intro hjgt
          refine Spec.pure ⟨_, hb'', hinv.step hj h0 ?_⟩
          intro i hi
          by_cases hij : i < j
          · rw [if_pos hij, Function.update_of_ne (by omega)]
            by_cases hib : (if j < q then 0 else j - q) ≤ i ∧ i < j
            · rw [if_pos hib]
            · rw [if_neg hib, hoff i j hi hj (by unfold InPat InBand InSide; split at hib <;> omega), zero_smul, sub_zero]
          · rw [if_neg hij, if_neg (by omega)]
            by_cases hieq : i = j
            · subst hieq; rw [if_pos rfl, Function.update_self]
            · rw [if_neg hieq, Function.update_of_ne hieq]
    · rintro buf2 ⟨x, hx, hbwd⟩
      exact ⟨x, y, hx, hfwd, hbwd⟩

end ExtBandMatrix

end Intp
