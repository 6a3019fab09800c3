import Verif.FloatModel
import Verif.Proofs.BandLULemmas

/-!
# What the solver computes, over arbitrary arithmetic

The loops over the bands carry out, on two-index arrays, elimination steps restricted to the stored entries, then substitutions restricted to the
stored entries.  No law of the arithmetic is used.
-/

namespace Intp.Fl

open Finset CoordArith

variable {K V : Type} [CoordArith K] [ValArith V] [ScaleArith K V]

/-- Step `k` of the elimination of the stored entries `Pat`. -/
structure ElimStep (n k : ℕ) (Pat : ℕ → ℕ → Prop) (C C' : ℕ → ℕ → K) : Prop where
  col : ∀ i, k < i → i < n → Pat i k → CoordArith.div (C i k) (C k k) = .ok (C' i k)
  upd : ∀ i j, k < i → i < n → k < j → j < n → Pat i k → Pat k j → C' i j = C i j - C' i k * C k j
  same : ∀ i j, i < n → j < n → Pat i j → ¬ (k < i ∧ k ≤ j ∧ Pat i k ∧ Pat k j) → C' i j = C i j

/-- The array after `k` steps. -/
inductive Elims (n : ℕ) (Pat : ℕ → ℕ → Prop) (A : ℕ → ℕ → K) : ℕ → (ℕ → ℕ → K) → Prop
  | zero : Elims n Pat A 0 A
  | step {k C C'} : Elims n Pat A k C → ElimStep n k Pat C C' → Elims n Pat A (k + 1) C'

/-- A division by the pivot, after the steps before, fails with `e`. -/
def DivFails (n : ℕ) (Pat : ℕ → ℕ → Prop) (A : ℕ → ℕ → K) (e : Err) : Prop :=
  ∃ k C i, k + 1 < n ∧ Elims n Pat A k C ∧ k < i ∧ i < n ∧ Pat i k ∧ CoordArith.div (C i k) (C k k) = .error e

/-- Column `j` of the forward substitution. -/
structure FwdStep (n j : ℕ) (Pat : ℕ → ℕ → Prop) (C : ℕ → ℕ → K) (y y' : ℕ → V) : Prop where
  upd : ∀ i, j < i → i < n → Pat i j → y' i = y i - C i j • y j
  same : ∀ i, i < n → ¬ (j < i ∧ Pat i j) → y' i = y i

/-- The right-hand side after `j` columns. -/
inductive Fwds (n : ℕ) (Pat : ℕ → ℕ → Prop) (C : ℕ → ℕ → K) (b : ℕ → V) : ℕ → (ℕ → V) → Prop
  | zero : Fwds n Pat C b 0 b
  | step {j y y'} : Fwds n Pat C b j y → FwdStep n j Pat C y y' → Fwds n Pat C b (j + 1) y'

/-- Column `j` of the backward substitution. -/
structure BwdStep (n j : ℕ) (Pat : ℕ → ℕ → Prop) (C : ℕ → ℕ → K) (x x' : ℕ → V) : Prop where
  piv : ScaleArith.divV (x j) (C j j) = .ok (x' j)
  upd : ∀ i, i < j → Pat i j → x' i = x i - C i j • x' j
  same : ∀ i, i < n → i ≠ j → ¬ (i < j ∧ Pat i j) → x' i = x i

/-- The right-hand side after the columns from `j` on. -/
inductive Bwds (n : ℕ) (Pat : ℕ → ℕ → Prop) (C : ℕ → ℕ → K) (y : ℕ → V) : ℕ → (ℕ → V) → Prop
  | zero : Bwds n Pat C y n y
  | step {j x x'} : j < n → Bwds n Pat C y (j + 1) x → BwdStep n j Pat C x x' → Bwds n Pat C y j x'

/-- Both substitutions. -/
def Solved (n : ℕ) (Pat : ℕ → ℕ → Prop) (C : ℕ → ℕ → K) (b x : ℕ → V) : Prop :=
  ∃ y, Fwds n Pat C b n y ∧ Bwds n Pat C y 0 x

section band

variable {n p q : ℕ}

/-- The store holds the numbers that the computations `B` return. -/
def RepM (n p q : ℕ) (s : BandMatrix K) (B : ℕ → ℕ → M K) : Prop :=
  ∃ B0, s.Rep n p q B0 ∧ ∀ i j, i < n → j < n → InBand p q i j → B i j = .ok (B0 i j)

theorem bandCompute_elimsE (c : Cfg) {m : BandMatrix K} {A : ℕ → ℕ → K} (hn : 0 < n) (hm : m.Rep n p q A) :
    Spec (bandCompute c m) (fun lu => ∃ C, lu.Rep n p q C ∧ Elims n (InBand p q) A (n - 1) C) (DivFails n (InBand p q) A) := by
  have h1 := hm.1
  have h2 := hm.2.1
  have h3 := hm.2.2.1
  unfold bandCompute
  simp only [h1, h2, h3]
  rw [subM_ok (show 1 ≤ n from hn), ok_bind]
  refine Spec.loop (P := fun k (s : BandMatrix K) => ∃ C, s.Rep n p q C ∧ Elims n (InBand p q) A k C) (Nat.zero_le _) ⟨A, hm, .zero⟩ ?_
  rintro k s - hk ⟨C, hC, hinv⟩
  have hkn : k < n := by omega
  have hdiag : InBand p q k k := by unfold InBand; omega
  set T1 : ℕ → ℕ → M K := fun i _ => CoordArith.div (C i k) (C k k)
  set S1 : ℕ → ℕ → Prop := fun a b => False ∨ (k + 1 ≤ a ∧ a < min (k + p + 1) n ∧ b = k)
  set CM : ℕ → ℕ → M K := fun i j => .ok (C i j)
  refine Spec.bind (Q := fun s => RepM n p q s (mix2 S1 T1 CM)) ?_ ?_
  · refine Spec.loop_col (R := fun s B => RepM n p q s B) (Reg := fun a b => k < a ∧ b = k)
      (S0 := fun _ _ => False) (T := T1) (A := CM) (j := k) ?_ (by simp) (by simp) ?_ ?_
    · rw [mix2_empty]; exact ⟨C, hC, fun _ _ _ _ _ => rfl⟩
    · intro i hlo hhi; exact ⟨by omega, rfl⟩
    · rintro i s S hlo hhi hS hSi ⟨B0, hR, hB0⟩
      have hi : i < n := by omega
      have hb : InBand p q i k := by unfold InBand; omega
      have e1 : B0 i k = C i k := by
        have := hB0 i k hi hkn hb
        rw [mix2_neg hSi] at this
        exact (Except.ok.inj this).symm
      have e2 : B0 k k = C k k := by
        have := hB0 k k hkn hkn hdiag
        rw [mix2_neg (fun h => absurd (hS k k h).1 (lt_irrefl _))] at this
        exact (Except.ok.inj this).symm
      rw [hR.get c hi hkn hb, ok_bind, hR.get c hkn hkn hdiag, ok_bind, e1, e2]
      rcases hz : CoordArith.div (C i k) (C k k) with e | z
      · exact ⟨k, C, i, by omega, hinv, by omega, hi, hb, hz⟩
      rw [ok_bind]
      obtain ⟨m', hm1, hm2⟩ := hR.set c hi hkn hb z
      rw [hm1]
      refine Spec.ok ⟨_, hm2, fun a b ha hb' hab => ?_⟩
      unfold upd2
      by_cases h : a = i ∧ b = k
      · rw [mix2_pos (.inr h), if_pos h]; rw [h.1]; exact hz
      · rw [if_neg h, ← hB0 a b ha hb' hab]
        by_cases hs : S a b
        · rw [mix2_pos hs, mix2_pos (.inl hs)]
        · rw [mix2_neg hs, mix2_neg (by tauto)]
  · rintro s ⟨A1, hR1, hA1⟩
    have hcol : ∀ i, k < i → i < n → InBand p q i k → CoordArith.div (C i k) (C k k) = .ok (A1 i k) := by
      intro i hki hi hb
      rw [← hA1 i k hi hkn hb, mix2_pos]
      exact .inr (by unfold InBand at hb; omega)
    have hsame : ∀ i j, i < n → j < n → InBand p q i j → ¬ (k < i ∧ j = k) → A1 i j = C i j := by
      intro i j hi hj hb h
      have := hA1 i j hi hj hb
      rw [mix2_neg (by simp only [S1, false_or]; omega)] at this
      exact (Except.ok.inj this).symm
    set T2 : ℕ → ℕ → K := fun i j => A1 i j - A1 i k * A1 k j
    refine Spec.imp (Spec.loop_rect_ji (R := fun s B => BandMatrix.Rep n p q s B) (Reg := fun a b => k < a ∧ k < b)
      (S0 := fun _ _ => False) (T := T2) (A := A1) ?_ (by simp) (by simp) ?_ ?_) ?_
    · rw [mix2_empty]; exact hR1
    · intro i j h; unfold Rect at h; omega
    · intro i j s S hr hS hSi hR
      unfold Rect at hr
      rw [hR.get c (by omega) (by omega) (by unfold InBand; omega), ok_bind,
        hR.get c (by omega) hkn (by unfold InBand; omega), ok_bind,
        hR.get c hkn (by omega) (by unfold InBand; omega), ok_bind, mix2_neg hSi,
        mix2_neg (fun h => absurd (hS i k h).2 (lt_irrefl _)), mix2_neg (fun h => absurd (hS k j h).1 (lt_irrefl _))]
      obtain ⟨m', hm1, hm2⟩ := hR.set c (i := i) (j := j) (by omega) (by omega) (by unfold InBand; omega) (T2 i j)
      rw [hm1]
      refine Spec.ok ?_
      rw [← upd2_mix2]; exact hm2
    · intro s' hs'
      refine ⟨_, hs', hinv.step ⟨?_, ?_, ?_⟩⟩
      · intro i hki hi hb
        rw [mix2_neg (by simp only [false_or, Rect]; omega)]
        exact hcol i hki hi hb
      · intro i j hki hi hkj hj hb1 hb2
        rw [mix2_pos (.inr (by unfold Rect; unfold InBand at hb1 hb2; omega)), mix2_neg (by simp only [false_or, Rect]; omega)]
        simp only [T2]
        rw [hsame i j hi hj (by unfold InBand at *; omega) (by omega), hsame k j hkn hj hb2 (by omega)]
      · intro i j hi hj hb h
        have hnr : ¬ (False ∨ Rect (k + 1) (min (k + p + 1) n) (k + 1) (min (k + q + 1) n) i j) := by
          intro hr
          apply h
          simp only [false_or, Rect] at hr
          unfold InBand
          omega
        rw [mix2_neg hnr]
        refine hsame i j hi hj hb fun hc => h ⟨hc.1, hc.2.ge, ?_, ?_⟩
        · rw [← hc.2]; exact hb
        · rw [hc.2]; exact hdiag

theorem bandCompute_elims (c : Cfg) {m : BandMatrix K} {A : ℕ → ℕ → K} (hn : 0 < n) (hm : m.Rep n p q A) :
    Spec (bandCompute c m) (fun lu => ∃ C, lu.Rep n p q C ∧ Elims n (InBand p q) A (n - 1) C) (fun _ => True) :=
  (bandCompute_elimsE c hn hm).mono (fun _ h => h) fun _ _ => trivial

end band

section ext

variable {n p q : ℕ}

/-- The store holds the numbers that the computations `B` return. -/
def RepE (n p q : ℕ) (s : ExtBandMatrix K) (B : ℕ → ℕ → M K) : Prop :=
  ∃ B0, s.Rep n p q B0 ∧ ∀ i j, i < n → j < n → InPat n p q i j → B i j = .ok (B0 i j)

theorem extCompute_elimsE (c : Cfg) {m : ExtBandMatrix K} {A : ℕ → ℕ → K} (hm : m.Rep n p q A) :
    Spec (extCompute c m) (fun lu => ∃ C, lu.Rep n p q C ∧ Elims n (InPat n p q) A (n - 1) C) (DivFails n (InPat n p q) A) := by
  have hp := hm.1
  have hq := hm.2.1
  have h1 := hm.2.2.1
  have h2 := hm.2.2.2.1
  have h3 := hm.2.2.2.2.1
  unfold extCompute
  simp only [h1, h2, h3]
  rw [subM_ok (show 1 ≤ n by omega), ok_bind]
  refine Spec.loop (P := fun k (s : ExtBandMatrix K) => ∃ C, s.Rep n p q C ∧ Elims n (InPat n p q) A k C) (Nat.zero_le _) ⟨A, hm, .zero⟩ ?_
  rintro k s - hk ⟨C, hC, hinv⟩
  have hkn : k < n := by omega
  have hdiag : InBand p q k k := by unfold InBand; omega
  rw [subM_ok (show q ≤ n by omega), ok_bind, subM_ok (show p ≤ n by omega), ok_bind]
  set T1 : ℕ → ℕ → M K := fun i _ => CoordArith.div (C i k) (C k k)
  set S1 : ℕ → ℕ → Prop := fun a b => False ∨ (k + 1 ≤ a ∧ a < min (k + p + 1) n ∧ b = k)
  set S1' : ℕ → ℕ → Prop := fun a b => S1 a b ∨ (max (n - q) (k + p + 1) ≤ a ∧ a < n ∧ b = k)
  set CM : ℕ → ℕ → M K := fun i j => .ok (C i j)
  -- one division
  have hone : ∀ {i : ℕ} {S : ℕ → ℕ → Prop} {B0 B1 : ℕ → ℕ → K} {z : K},
      (∀ a b, a < n → b < n → InPat n p q a b → mix2 S T1 CM a b = .ok (B0 a b)) →
      CoordArith.div (C i k) (C k k) = .ok z → B1 = upd2 B0 i k z →
      ∀ a b, a < n → b < n → InPat n p q a b → mix2 (fun a b => S a b ∨ (a = i ∧ b = k)) T1 CM a b = .ok (B1 a b) := by
    rintro i S B0 B1 z hB0 hz rfl a b ha hb' hab
    unfold upd2
    by_cases h : a = i ∧ b = k
    · rw [mix2_pos (.inr h), if_pos h]; rw [h.1]; exact hz
    · rw [if_neg h, ← hB0 a b ha hb' hab]
      by_cases hs : S a b
      · rw [mix2_pos hs, mix2_pos (.inl hs)]
      · rw [mix2_neg hs, mix2_neg (by tauto)]
  have hold : ∀ {S : ℕ → ℕ → Prop} {B0 : ℕ → ℕ → K} {i j : ℕ},
      (∀ a b, a < n → b < n → InPat n p q a b → mix2 S T1 CM a b = .ok (B0 a b)) → i < n → j < n → InPat n p q i j → ¬ S i j →
      B0 i j = C i j := by
    intro S B0 i j hB0 hi hj hb hS
    have := hB0 i j hi hj hb
    rw [mix2_neg hS] at this
    exact (Except.ok.inj this).symm
  refine Spec.bind (Q := fun s => RepE n p q s (mix2 S1 T1 CM)) ?_ ?_
  · refine Spec.loop_col (R := fun s B => RepE n p q s B) (Reg := fun a b => k < a ∧ b = k)
      (S0 := fun _ _ => False) (T := T1) (A := CM) (j := k) ?_ (by simp) (by simp) ?_ ?_
    · rw [mix2_empty]; exact ⟨C, hC, fun _ _ _ _ _ => rfl⟩
    · intro i hlo hhi; exact ⟨by omega, rfl⟩
    · rintro i s S hlo hhi hS hSi ⟨B0, hR, hB0⟩
      have hi : i < n := by omega
      have hb : InBand p q i k := by unfold InBand; omega
      rw [hR.mainGet c hi hkn hb, ok_bind, hR.mainGet c hkn hkn hdiag, ok_bind, hold hB0 hi hkn (.inl hb) hSi,
        hold hB0 hkn hkn (.inl hdiag) (fun h => absurd (hS k k h).1 (lt_irrefl _))]
      rcases hz : CoordArith.div (C i k) (C k k) with e | z
      · exact ⟨k, C, i, by omega, hinv, by omega, hi, .inl hb, hz⟩
      rw [ok_bind]
      obtain ⟨m', hm1, hm2⟩ := hR.mainSet c hi hkn hb z
      rw [hm1]
      exact Spec.ok ⟨_, hm2, hone hB0 hz rfl⟩
  intro s hs1
  refine Spec.bind (Q := fun s => RepE n p q s (mix2 S1' T1 CM)) ?_ ?_
  · refine Spec.loop_col (R := fun s B => RepE n p q s B) (Reg := fun a b => k < a ∧ b = k)
      (S0 := S1) (T := T1) (A := CM) (j := k) hs1 ?_ ?_ ?_ ?_
    · intro a b h; simp only [S1, false_or] at h; omega
    · intro i h1 h2; simp only [S1, false_or]; omega
    · intro i hlo hhi; exact ⟨by omega, rfl⟩
    · rintro i s S hlo hhi hS hSi ⟨B0, hR, hB0⟩
      have hi : i < n := by omega
      have hb : InSide n p q i k := by unfold InSide; omega
      rw [hR.sideGet c hi hkn hb, ok_bind, hR.mainGet c hkn hkn hdiag, ok_bind, hold hB0 hi hkn (.inr hb) hSi,
        hold hB0 hkn hkn (.inl hdiag) (fun h => absurd (hS k k h).1 (lt_irrefl _))]
      rcases hz : CoordArith.div (C i k) (C k k) with e | z
      · exact ⟨k, C, i, by omega, hinv, by omega, hi, .inr hb, hz⟩
      rw [ok_bind]
      obtain ⟨m', hm1, hm2⟩ := hR.sideSet c hi hkn hb z
      rw [hm1]
      exact Spec.ok ⟨_, hm2, hone hB0 hz rfl⟩
  rintro s ⟨A1, hR1, hA1⟩
  have hcol : ∀ i, k < i → i < n → InPat n p q i k → CoordArith.div (C i k) (C k k) = .ok (A1 i k) := by
    intro i hki hi hb
    rw [← hA1 i k hi hkn hb, mix2_pos]
    unfold InPat InBand InSide at hb
    by_cases hb' : i < k + p + 1
    · exact .inl (.inr ⟨hki, by omega, rfl⟩)
    · exact .inr ⟨by omega, hi, rfl⟩
  have hsame : ∀ i j, i < n → j < n → InPat n p q i j → ¬ (k < i ∧ j = k) → A1 i j = C i j := by
    intro i j hi hj hb h
    exact hold hA1 hi hj hb (by simp only [S1', S1, false_or]; omega)
  set T2 : ℕ → ℕ → K := fun i j => A1 i j - A1 i k * A1 k j
  have hTkj : ∀ {S : ℕ → ℕ → Prop} {i}, (∀ a b, S a b → k < a ∧ k < b) → mix2 S T2 A1 i k = A1 i k :=
    fun hS => mix2_neg (fun h => absurd (hS _ k h).2 (lt_irrefl _))
  have hTik : ∀ {S : ℕ → ℕ → Prop} {j}, (∀ a b, S a b → k < a ∧ k < b) → mix2 S T2 A1 k j = A1 k j :=
    fun hS => mix2_neg (fun h => absurd (hS k _ h).1 (lt_irrefl _))
  set R1 := Rect (k + 1) (min (k + p + 1) n) (k + 1) (min (k + q + 1) n)
  set R2 := Rect (k + 1) (min (k + p + 1) n) (max (n - p) (k + q + 1)) n
  set R3 := Rect (max (n - q) (k + p + 1)) n (k + 1) (min (k + q + 1) n)
  set R4 := Rect (max (n - q) (k + p + 1)) n (max (n - p) (k + q + 1)) n
  refine Spec.bind (Spec.loop_rect_ji (R := fun s B => ExtBandMatrix.Rep n p q s B) (Reg := fun a b => k < a ∧ k < b)
      (S0 := fun _ _ => False) (T := T2) (A := A1) ?_ (by simp) (by simp) ?_ ?_) ?_
  · rw [mix2_empty]; exact hR1
  · intro i j h; unfold Rect at h; omega
  · intro i j s S hr hS hSi hR
    unfold Rect at hr
    rw [hR.mainGet c (by omega) (by omega) (by unfold InBand; omega), ok_bind,
      hR.mainGet c (by omega) hkn (by unfold InBand; omega), ok_bind,
      hR.mainGet c hkn (by omega) (by unfold InBand; omega), ok_bind, mix2_neg hSi, hTkj hS, hTik hS]
    obtain ⟨m', hm1, hm2⟩ := hR.mainSet c (i := i) (j := j) (by omega) (by omega) (by unfold InBand; omega) (T2 i j)
    rw [hm1]
    refine Spec.ok ?_
    rw [← upd2_mix2]; exact hm2
  intro s hs
  refine Spec.bind (Spec.loop_rect_ij (R := fun s B => ExtBandMatrix.Rep n p q s B) (Reg := fun a b => k < a ∧ k < b)
      (S0 := fun a b => False ∨ R1 a b) (T := T2) (A := A1) hs ?_ ?_ ?_ ?_) ?_
  · intro a b h; simp only [false_or, R1, Rect] at h; omega
  · intro i j h; simp only [false_or, R1, Rect] at *; omega
  · intro i j h; unfold Rect at h; omega
  · intro i j s S hr hS hSi hR
    unfold Rect at hr
    have hpat : InBand p q i j ∨ InSide n p q i j := by unfold InBand InSide; omega
    rw [hR.get c (by omega) (by omega) hpat, ok_bind,
      hR.mainGet c (by omega) hkn (by unfold InBand; omega), ok_bind,
      hR.sideGet c hkn (by omega) (by unfold InSide; omega), ok_bind, mix2_neg hSi, hTkj hS, hTik hS]
    obtain ⟨m', hm1, hm2⟩ := hR.set c (i := i) (j := j) (by omega) (by omega) hpat (T2 i j)
    rw [hm1]
    refine Spec.ok ?_
    rw [← upd2_mix2]; exact hm2
  intro s hs
  refine Spec.bind (Spec.loop_rect_ji (R := fun s B => ExtBandMatrix.Rep n p q s B) (Reg := fun a b => k < a ∧ k < b)
      (S0 := fun a b => (False ∨ R1 a b) ∨ R2 a b) (T := T2) (A := A1) hs ?_ ?_ ?_ ?_) ?_
  · intro a b h; simp only [false_or, R1, R2, Rect] at h; omega
  · intro i j h; simp only [false_or, R1, R2, Rect] at *; omega
  · intro i j h; unfold Rect at h; omega
  · intro i j s S hr hS hSi hR
    unfold Rect at hr
    have hpat : InBand p q i j ∨ InSide n p q i j := by unfold InBand InSide; omega
    rw [hR.get c (by omega) (by omega) hpat, ok_bind,
      hR.sideGet c (by omega) hkn (by unfold InSide; omega), ok_bind,
      hR.mainGet c hkn (by omega) (by unfold InBand; omega), ok_bind, mix2_neg hSi, hTkj hS, hTik hS]
    obtain ⟨m', hm1, hm2⟩ := hR.set c (i := i) (j := j) (by omega) (by omega) hpat (T2 i j)
    rw [hm1]
    refine Spec.ok ?_
    rw [← upd2_mix2]; exact hm2
  intro s hs
  rw [subM_ok (show p + 1 ≤ n by omega), ok_bind, subM_ok (show q + 1 ≤ n by omega), ok_bind]
  refine Spec.imp (Q := fun s => ExtBandMatrix.Rep n p q s (mix2 (fun a b => ((((False ∨ R1 a b) ∨ R2 a b) ∨ R3 a b) ∨ R4 a b)) T2 A1)) ?_ ?_
  · refine Spec.ite ?_ ?_
    · intro _
      refine Spec.loop_rect_ij (R := fun s B => ExtBandMatrix.Rep n p q s B) (Reg := fun a b => k < a ∧ k < b)
        (S0 := fun a b => ((False ∨ R1 a b) ∨ R2 a b) ∨ R3 a b) (T := T2) (A := A1) hs ?_ ?_ ?_ ?_
      · intro a b h; simp only [false_or, R1, R2, R3, Rect] at h; omega
      · intro i j h; simp only [false_or, R1, R2, R3, Rect] at *; omega
      · intro i j h; unfold Rect at h; omega
      · intro i j s S hr hS hSi hR
        unfold Rect at hr
        rw [hR.mainGet c (by omega) (by omega) (by unfold InBand; omega), ok_bind,
          hR.sideGet c (by omega) hkn (by unfold InSide; omega), ok_bind,
          hR.sideGet c hkn (by omega) (by unfold InSide; omega), ok_bind, mix2_neg hSi, hTkj hS, hTik hS]
        obtain ⟨m', hm1, hm2⟩ := hR.mainSet c (i := i) (j := j) (by omega) (by omega) (by unfold InBand; omega) (T2 i j)
        rw [hm1]
        refine Spec.ok ?_
        rw [← upd2_mix2]; exact hm2
    · intro hlt
      refine Spec.pure ?_
      rwa [mix2_congr_set (S' := fun a b => (((False ∨ R1 a b) ∨ R2 a b) ∨ R3 a b) ∨ R4 a b)] at hs
      intro a b
      constructor
      · exact fun h => .inl h
      · rintro (h | h)
        · exact h
        · exfalso; simp only [R4, Rect] at h; omega
  · intro s' hs'
    refine ⟨_, hs', hinv.step ⟨?_, ?_, ?_⟩⟩
    · intro i hki hi hb
      rw [mix2_neg (by simp only [false_or, R1, R2, R3, R4, Rect]; omega)]
      exact hcol i hki hi hb
    · intro i j hki hi hkj hj hb1 hb2
      have hpat : InPat n p q i j := by unfold InPat InBand InSide at *; omega
      rw [mix2_pos (by simp only [false_or, R1, R2, R3, R4, Rect]; unfold InPat InBand InSide at hb1 hb2; omega),
        mix2_neg (by simp only [false_or, R1, R2, R3, R4, Rect]; omega)]
      simp only [T2]
      rw [hsame i j hi hj hpat (by omega), hsame k j hkn hj hb2 (by omega)]
    · intro i j hi hj hb h
      have hnr : ¬ ((((False ∨ R1 i j) ∨ R2 i j) ∨ R3 i j) ∨ R4 i j) := by
        intro hr
        apply h
        simp only [false_or, R1, R2, R3, R4, Rect] at hr
        unfold InPat InBand InSide
        omega
      rw [mix2_neg hnr]
      refine hsame i j hi hj hb fun hc => h ⟨hc.1, hc.2.ge, ?_, ?_⟩
      · rw [← hc.2]; exact hb
      · rw [hc.2]; exact .inl hdiag

theorem extCompute_elims (c : Cfg) {m : ExtBandMatrix K} {A : ℕ → ℕ → K} (hm : m.Rep n p q A) :
    Spec (extCompute c m) (fun lu => ∃ C, lu.Rep n p q C ∧ Elims n (InPat n p q) A (n - 1) C) (fun _ => True) :=
  (extCompute_elimsE c hm).mono (fun _ h => h) fun _ _ => trivial

end ext

/-! ## substitution -/

section solve

variable {buf0 buf : List V} {off step n : ℕ} {b : ℕ → V}

omit [CoordArith K] in
theorem lineSubMul_ok (h : LineHolds buf0 off step n buf b) (hstep : 0 < step) {i j : ℕ} (hi : i < n) (hj : j < n)
    (a : K) : ∃ buf', lineSubMul buf off step i j a = .ok buf' ∧
      LineHolds buf0 off step n buf' (Function.update b i (b i - a • b j)) := by
  unfold lineSubMul
  rw [h.read hi, ok_bind, h.read hj, ok_bind]
  exact h.write hstep hi _

omit [CoordArith K] in
theorem lineCol_spec {E : Err → Prop} {C : ℕ → ℕ → K} {g : ℕ → M K} {lo hi j : ℕ}
    (h : LineHolds buf0 off step n buf b) (hstep : 0 < step) (hj : j < n) (hhi : hi ≤ n)
    (hne : ∀ i, lo ≤ i → i < hi → i ≠ j) (hg : ∀ i, lo ≤ i → i < hi → g i = .ok (C i j)) :
    Spec (Intp.loop lo hi buf fun i buf => do
      let a ← g i
      lineSubMul buf off step i j a)
      (fun buf' => LineHolds buf0 off step n buf' (fun i => if lo ≤ i ∧ i < hi then b i - C i j • b j else b i)) E := by
  refine Spec.imp (Spec.loop' (P := fun i' buf' => LineHolds buf0 off step n buf'
    (fun i => if lo ≤ i ∧ i < i' then b i - C i j • b j else b i)) ?_ ?_) ?_
  · exact h.congr fun i _ => by rw [if_neg (by omega)]
  · intro i' s hlo hh hP
    rw [hg i' hlo hh, ok_bind]
    obtain ⟨buf', h1, h2⟩ := lineSubMul_ok hP hstep (i := i') (j := j) (by omega) hj (C i' j)
    rw [h1]
    refine Spec.ok (h2.congr fun i hi => ?_)
    by_cases hii : i = i'
    · subst hii
      rw [Function.update_self, if_neg (by omega), if_neg (fun h => hne j h.1 (by omega) rfl), if_pos (by omega)]
    · rw [Function.update_of_ne hii]
      by_cases hc : lo ≤ i ∧ i < i'
      · rw [if_pos hc, if_pos (by omega)]
      · rw [if_neg hc, if_neg (by omega)]
  · intro s hs
    exact hs.congr fun i _ => by
      by_cases hc : lo ≤ i ∧ i < hi
      · rw [if_pos (by omega), if_pos hc]
      · rw [if_neg (by omega), if_neg hc]

theorem bandSolve_solved (c : Cfg) {p q : ℕ} {lu : BandMatrix K} {C : ℕ → ℕ → K} (hlu : lu.Rep n p q C)
    (hstep : 0 < step) (hb : LineHolds buf0 off step n buf b) :
    Spec (bandSolve c lu buf off step)
      (fun buf' => ∃ x, LineHolds buf0 off step n buf' x ∧ Solved n (InBand p q) C b x) (fun _ => True) := by
  have h1 := hlu.1
  have h2 := hlu.2.1
  have h3 := hlu.2.2.1
  unfold bandSolve
  simp only [h1, h2, h3]
  refine Spec.bind (Q := fun buf => ∃ y, LineHolds buf0 off step n buf y ∧ Fwds n (InBand p q) C b n y) ?_ ?_
  · refine Spec.loop (P := fun j buf => ∃ y, LineHolds buf0 off step n buf y ∧ Fwds n (InBand p q) C b j y) (Nat.zero_le _)
      ⟨b, hb, .zero⟩ ?_
    rintro j s - hj ⟨y, hy, hinv⟩
    refine Spec.imp (lineCol_spec (C := C) hy hstep hj (by omega) (by omega)
      (fun i hlo hhi => hlu.get c (by omega) hj (by unfold InBand; omega))) fun buf' hb' => ⟨_, hb', hinv.step ⟨?_, ?_⟩⟩
    · intro i hij hi hp
      exact if_pos (by unfold InBand at hp; omega)
    · intro i hi h
      exact if_neg (by unfold InBand at h; omega)
  · rintro buf1 ⟨y, hy, hfwd⟩
    refine Spec.imp (Spec.loopDown (P := fun j buf => ∃ x, LineHolds buf0 off step n buf x ∧ Bwds n (InBand p q) C y j x) n buf1
      ⟨y, hy, .zero⟩ ?_) fun buf2 ⟨x, hx, hbwd⟩ => ⟨x, hx, y, hfwd, hbwd⟩
    rintro j s hj ⟨x, hx, hinv⟩
    rw [hlu.get c hj hj (by unfold InBand; omega), ok_bind]
    unfold lineDiv
    rw [hx.read hj, ok_bind]
    rcases hz : ScaleArith.divV (x j) (C j j) with e | z
    · trivial
    rw [ok_bind]
    obtain ⟨buf', hb1, hb2⟩ := hx.write hstep hj z
    rw [hb1, ok_bind]
    refine Spec.imp (lineCol_spec (C := C) hb2 hstep hj hj.le (by omega)
      (fun i hlo hhi => hlu.get c (by omega) hj (by unfold InBand; split at hlo <;> omega)))
      fun buf'' hb'' => ⟨_, hb'', hinv.step hj ⟨?_, ?_, ?_⟩⟩
    · rw [if_neg (by omega), Function.update_self]; exact hz
    · intro i hij hp
      rw [if_pos (by unfold InBand at hp; split <;> omega), if_neg (by omega), Function.update_of_ne (by omega)]
    · intro i hi hij h
      rw [if_neg (by unfold InBand at h; split <;> omega), Function.update_of_ne hij]

theorem extSolve_solved (c : Cfg) {p q : ℕ} {lu : ExtBandMatrix K} {C : ℕ → ℕ → K} (hlu : lu.Rep n p q C)
    (hpq : p + q ≤ n) (hstep : 0 < step) (hb : LineHolds buf0 off step n buf b) :
    Spec (extSolve c lu buf off step)
      (fun buf' => ∃ x, LineHolds buf0 off step n buf' x ∧ Solved n (InPat n p q) C b x) (fun _ => True) := by
  have hp := hlu.1
  have hq := hlu.2.1
  have h1 := hlu.2.2.1
  have h2 := hlu.2.2.2.1
  have h3 := hlu.2.2.2.2.1
  unfold extSolve
  simp only [h1, h2, h3]
  refine Spec.bind (Q := fun buf => ∃ y, LineHolds buf0 off step n buf y ∧ Fwds n (InPat n p q) C b n y) ?_ ?_
  · refine Spec.loop (P := fun j buf => ∃ y, LineHolds buf0 off step n buf y ∧ Fwds n (InPat n p q) C b j y) (Nat.zero_le _)
      ⟨b, hb, .zero⟩ ?_
    rintro j s - hj ⟨y, hy, hinv⟩
    refine Spec.bind (lineCol_spec (C := C) hy hstep hj (by omega) (by omega)
      (fun i hlo hhi => hlu.mainGet c (by omega) hj (by unfold InBand; omega))) fun buf' hb' => ?_
    rw [subM_ok (show p + 1 ≤ n by omega), ok_bind]
    have hyj : (if j + 1 ≤ j ∧ j < min (j + p + 1) n then y j - C j j • y j else y j) = y j := if_neg (by omega)
    refine Spec.ite ?_ ?_
    · intro hjlt
      rw [subM_ok (show q ≤ n by omega), ok_bind]
      refine Spec.imp (lineCol_spec (C := C) hb' hstep hj le_rfl (by omega)
        (fun i hlo hhi => hlu.sideGet c hhi hj (by unfold InSide; omega))) fun buf'' hb'' => ⟨_, hb'', hinv.step ⟨?_, ?_⟩⟩
      · intro i hij hi hpt
        simp only [hyj]
        unfold InPat InBand InSide at hpt
        by_cases hib : i < j + p + 1
        · rw [if_neg (by omega), if_pos (by omega)]
        · rw [if_pos (by omega), if_neg (by omega)]
      · intro i hi h
        unfold InPat InBand InSide at h
        rw [if_neg (by omega), if_neg (by omega)]
    · intro hjlt
      refine Spec.pure ⟨_, hb', hinv.step ⟨?_, ?_⟩⟩
      · intro i hij hi hpt
        rw [if_pos (by omega)]
      · intro i hi h
        unfold InPat InBand InSide at h
        rw [if_neg (by omega)]
  · rintro buf1 ⟨y, hy, hfwd⟩
    refine Spec.imp (Spec.loopDown (P := fun j buf => ∃ x, LineHolds buf0 off step n buf x ∧ Bwds n (InPat n p q) C y j x) n buf1
      ⟨y, hy, .zero⟩ ?_) fun buf2 ⟨x, hx, hbwd⟩ => ⟨x, hx, y, hfwd, hbwd⟩
    rintro j s hj ⟨x, hx, hinv⟩
    rw [hlu.mainGet c hj hj (by unfold InBand; omega), ok_bind]
    unfold lineDiv
    rw [hx.read hj, ok_bind]
    rcases hz : ScaleArith.divV (x j) (C j j) with e | z
    · trivial
    rw [ok_bind]
    obtain ⟨buf', hb1, hb2⟩ := hx.write hstep hj z
    rw [hb1, ok_bind]
    refine Spec.bind (lineCol_spec (C := C) hb2 hstep hj hj.le (by omega)
      (fun i hlo hhi => hlu.mainGet c (by omega) hj (by unfold InBand; split at hlo <;> omega))) fun buf'' hb'' => ?_
    rw [subM_ok (show p + 1 ≤ n by omega), ok_bind]
    rw [Function.update_self] at hb''
    refine Spec.ite ?_ ?_
    · intro hjgt
      rw [subM_ok (show q ≤ j by omega), ok_bind]
      refine Spec.imp (lineCol_spec (C := C) hb'' hstep hj (by omega) (by omega)
        (fun i hlo hhi => hlu.sideGet c (by omega) hj (by unfold InSide; omega)))
        fun buf3 hb3 => ⟨_, hb3, hinv.step hj ⟨?_, ?_, ?_⟩⟩
      · rw [if_neg (by omega), if_neg (by omega), Function.update_self]; exact hz
      · intro i hij hpt
        unfold InPat InBand InSide at hpt
        rw [if_neg (show ¬ j < q by omega)]
        simp only [show ¬ (0 ≤ j ∧ j < j - q) by omega, show ¬ (j - q ≤ j ∧ j < j) by omega, if_false, Function.update_self]
        by_cases hib : i < j - q
        · rw [if_pos (by omega), if_neg (by omega), Function.update_of_ne (by omega)]
        · rw [if_neg (by omega), if_pos (by omega), Function.update_of_ne (by omega)]
      · intro i hi hij h
        unfold InPat InBand InSide at h
        rw [if_neg (show ¬ j < q by omega), if_neg (by omega), if_neg (by omega), Function.update_of_ne hij]
    · intro hjgt
      refine Spec.pure ⟨_, hb'', hinv.step hj ⟨?_, ?_, ?_⟩⟩
      · rw [if_neg (by omega), Function.update_self]; exact hz
      · intro i hij hpt
        unfold InPat InBand InSide at hpt
        rw [if_pos (by split <;> omega), if_neg (show ¬ ((if j < q then 0 else j - q) ≤ j ∧ j < j) by omega), Function.update_self,
          Function.update_of_ne (by omega)]
      · intro i hi hij h
        unfold InPat InBand InSide at h
        rw [if_neg (by split <;> omega), Function.update_of_ne hij]

end solve

end Intp.Fl
