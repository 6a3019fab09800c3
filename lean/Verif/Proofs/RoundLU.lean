import Verif.Backward
import Verif.Proofs.FlElim
import Mathlib.Algebra.Order.BigOperators.Ring.Finset
import Mathlib.Tactic.Positivity
import Mathlib.Tactic.Linarith
import Mathlib.Tactic.GCongr

/-! # Backward error of elimination and substitution in rounded arithmetic -/

namespace Intp.Fl

open Finset

variable {K V F : Type} [CoordArith K] [ValArith V] [ScaleArith K V] [Field F] [LinearOrder F] [IsStrictOrderedRing F]

/-! ## one operation -/

section scalar

variable {u η : F}

theorem one_le_pow_u (hu : 0 ≤ u) (N : ℕ) : 1 ≤ (1 + u) ^ N := one_le_pow₀ (by linarith)

/-- Subtracting a product from an entry on which `N` operations were done. -/
theorem upd_step (hu : 0 ≤ u) (hη : 0 ≤ η) {N : ℕ} {e S a a' p l v : F} (hS : 0 ≤ S)
    (he : |e| ≤ ((1 + u) ^ N - 1) * (S + |a|) + 2 * N * (1 + u) ^ N * η)
    (hp : |p - l * v| ≤ u * |l * v| + η) (ha : |a - p - a'| ≤ u * |a'| + η) :
    |e + (a - l * v - a')| ≤ ((1 + u) ^ (N + 1) - 1) * (S + |l * v| + |a'|) + 2 * (N + 1 : ℕ) * (1 + u) ^ (N + 1) * η := by
  have hg := one_le_pow_u hu N
  set g := (1 + u) ^ N
  set w := |l * v|
  have hw : 0 ≤ w := abs_nonneg _
  have ha' : 0 ≤ |a'| := abs_nonneg _
  have h1 : |a - l * v - a'| ≤ u * (w + |a'|) + 2 * η := by
    have : a - l * v - a' = (p - l * v) + (a - p - a') := by ring
    rw [this]
    have := abs_add_le (p - l * v) (a - p - a')
    linarith
  have h2 : |a| ≤ (1 + u) * (w + |a'|) + 2 * η := by
    have e1 : a = l * v + a' + (a - l * v - a') := by ring
    have h3 := abs_add_le (l * v + a') (a - l * v - a')
    have h4 := abs_add_le (l * v) a'
    rw [← e1] at h3
    have : (1 + u) * (w + |a'|) = w + |a'| + u * (w + |a'|) := by ring
    linarith
  have h5 : |e + (a - l * v - a')| ≤ (g - 1) * (S + ((1 + u) * (w + |a'|) + 2 * η)) + 2 * N * g * η + (u * (w + |a'|) + 2 * η) := by
    refine (abs_add_le _ _).trans (add_le_add (he.trans ?_) h1)
    gcongr
  refine h5.trans ?_
  rw [pow_succ]
  push_cast
  have hN : (0 : F) ≤ N := Nat.cast_nonneg N
  have k1 : 0 ≤ g * u * S := by positivity
  have k2 : 0 ≤ N * g * u * η := by positivity
  have k3 : 0 ≤ g * u * η := by positivity
  nlinarith [k1, k2, k3]

/-- Dividing an entry on which `N` operations were done by the pivot. -/
theorem div_step (hu : 0 ≤ u) (hη : 0 ≤ η) {N : ℕ} {e S a d z : F} (hS : 0 ≤ S) (hd : d ≠ 0)
    (he : |e| ≤ ((1 + u) ^ N - 1) * (S + |a|) + 2 * N * (1 + u) ^ N * η)
    (hz : |z - a / d| ≤ u * |z| + η) :
    |e + (a - z * d)| ≤ ((1 + u) ^ (N + 1) - 1) * (S + |z * d|) + 2 * (N + 1 : ℕ) * (1 + u) ^ (N + 1) * η * (1 + |d|) := by
  have hg := one_le_pow_u hu N
  set g := (1 + u) ^ N
  set w := |z * d|
  have hw : 0 ≤ w := abs_nonneg _
  have hd' : 0 ≤ |d| := abs_nonneg _
  have h1 : |a - z * d| ≤ u * w + η * |d| := by
    have : a - z * d = -((z - a / d) * d) := by field_simp; ring
    rw [this, abs_neg, abs_mul]
    calc |z - a / d| * |d| ≤ (u * |z| + η) * |d| := by gcongr
      _ = u * w + η * |d| := by simp only [w, abs_mul]; ring
  have h2 : |a| ≤ (1 + u) * w + η * |d| := by
    have h3 := abs_add_le (z * d) (a - z * d)
    rw [add_sub_cancel] at h3
    have : (1 + u) * w = w + u * w := by ring
    linarith
  have h5 : |e + (a - z * d)| ≤ (g - 1) * (S + ((1 + u) * w + η * |d|)) + 2 * N * g * η + (u * w + η * |d|) := by
    refine (abs_add_le _ _).trans (add_le_add (he.trans ?_) h1)
    gcongr
  refine h5.trans ?_
  rw [pow_succ]
  push_cast
  have hN : (0 : F) ≤ N := Nat.cast_nonneg N
  have k1 : 0 ≤ g * u * S := by positivity
  have k2 : 0 ≤ N * g * u * η := by positivity
  have k3 : 0 ≤ g * u * η := by positivity
  have k4 : 0 ≤ N * g * u * η * |d| := by positivity
  have k5 : 0 ≤ g * u * η * |d| := by positivity
  have k6 : 0 ≤ N * g * η * |d| := by positivity
  have k7 : 0 ≤ g * η * |d| := by positivity
  have k8 : 0 ≤ g * η := by positivity
  nlinarith [k1, k2, k3, k4, k5, k6, k7, k8]

/-- The bound grows with the number of operations. -/
theorem bound_mono (hu : 0 ≤ u) (hη : 0 ≤ η) {N N' : ℕ} (h : N ≤ N') {S T : F} (hS : 0 ≤ S) (hT : 0 ≤ T) :
    ((1 + u) ^ N - 1) * S + 2 * N * (1 + u) ^ N * η * T ≤ ((1 + u) ^ N' - 1) * S + 2 * N' * (1 + u) ^ N' * η * T := by
  have h1 : (1 + u) ^ N ≤ (1 + u) ^ N' := pow_le_pow_right₀ (by linarith) h
  have h2 : (N : F) ≤ N' := by exact_mod_cast h
  have h3 : 0 ≤ (1 + u) ^ N := by positivity
  gcongr

end scalar

/-! ## elimination -/

/-- The numbers held by the stored entries, zero elsewhere. -/
noncomputable def entries (val : K → F) (Pat : ℕ → ℕ → Prop) (C : ℕ → ℕ → K) : ℕ → ℕ → F := by
  classical exact fun i j => if Pat i j then val (C i j) else 0

omit [CoordArith K] [LinearOrder F] [IsStrictOrderedRing F] in
theorem entries_pos {val : K → F} {Pat : ℕ → ℕ → Prop} {C : ℕ → ℕ → K} {i j : ℕ} (h : Pat i j) : entries val Pat C i j = val (C i j) :=
  if_pos h

omit [CoordArith K] [LinearOrder F] [IsStrictOrderedRing F] in
theorem entries_neg {val : K → F} {Pat : ℕ → ℕ → Prop} {C : ℕ → ℕ → K} {i j : ℕ} (h : ¬ Pat i j) : entries val Pat C i j = 0 :=
  if_neg h

/-- Number of operations on entry `(i,j)` in the first `k` steps. -/
noncomputable def ops (Pat : ℕ → ℕ → Prop) (k i j : ℕ) : ℕ := by
  classical exact #{m ∈ range k | m < i ∧ m ≤ j ∧ Pat i m ∧ Pat m j}

theorem ops_zero (Pat : ℕ → ℕ → Prop) (i j : ℕ) : ops Pat 0 i j = 0 := by simp [ops]

theorem ops_succ_pos {Pat : ℕ → ℕ → Prop} {k i j : ℕ} (h : k < i ∧ k ≤ j ∧ Pat i k ∧ Pat k j) :
    ops Pat (k + 1) i j = ops Pat k i j + 1 := by
  unfold ops
  rw [range_add_one, filter_insert, if_pos h, card_insert_of_notMem (by simp)]

theorem ops_succ_neg {Pat : ℕ → ℕ → Prop} {k i j : ℕ} (h : ¬ (k < i ∧ k ≤ j ∧ Pat i k ∧ Pat k j)) :
    ops Pat (k + 1) i j = ops Pat k i j := by
  unfold ops
  rw [range_add_one, filter_insert, if_neg h]

theorem ops_le_card {Pat : ℕ → ℕ → Prop} {k i j : ℕ} {T : Finset ℕ}
    (h : ∀ m, m < k → m < i → m ≤ j → Pat i m → Pat m j → m ∈ T) : ops Pat k i j ≤ #T := by
  classical
  unfold ops
  refine Finset.card_le_card fun m hm => ?_
  have := Finset.mem_filter.1 hm
  exact h m (mem_range.1 this.1) this.2.1 this.2.2.1 this.2.2.2.1 this.2.2.2.2

/-- Difference between the matrix and what the first `k` columns of the factors account for. -/
def gap (a c : ℕ → ℕ → F) (k i j : ℕ) : F :=
  a i j - ∑ m ∈ range k, lwP c i m * upP c m j - if k ≤ i ∧ k ≤ j then c i j else 0

/-- The same sum with absolute values. -/
def mass (c : ℕ → ℕ → F) (k i j : ℕ) : F :=
  ∑ m ∈ range k, |lwP c i m| * |upP c m j| + if k ≤ i ∧ k ≤ j then |c i j| else 0

/-- Weight of the underflows. -/
def flow (c : ℕ → ℕ → F) (k i j : ℕ) : F := if j < k ∧ j < i then 1 + |c j j| else 1

theorem flow_ge (c : ℕ → ℕ → F) (k i j : ℕ) : 1 ≤ flow c k i j := by
  unfold flow; split
  · have := abs_nonneg (c j j); linarith
  · exact le_rfl

section elim

variable {n : ℕ} {Pat : ℕ → ℕ → Prop} {A : ℕ → ℕ → K}

/-- All stored entries are finite. -/
def AllFin (R : BackK K F) (n : ℕ) (Pat : ℕ → ℕ → Prop) (C : ℕ → ℕ → K) : Prop :=
  ∀ i j, i < n → j < n → Pat i j → R.Fin (C i j)

/-- Elimination produces no entries that are not stored. -/
def Closed (n : ℕ) (Pat : ℕ → ℕ → Prop) : Prop :=
  (∀ i, i < n → Pat i i) ∧ ∀ k i j, k < i → i < n → k < j → j < n → Pat i k → Pat k j → Pat i j

omit [IsStrictOrderedRing F] in
theorem ElimStep.allFin {R : BackK K F} (hc : Closed n Pat) {k : ℕ} (hk : k < n) {C C' : ℕ → ℕ → K} (h : ElimStep n k Pat C C')
    (hf : AllFin R n Pat C') : AllFin R n Pat C := by
  intro i j hi hj hp
  by_cases ht : k < i ∧ k ≤ j ∧ Pat i k ∧ Pat k j
  · rcases Nat.eq_or_lt_of_le ht.2.1 with rfl | hkj
    · have hkk := hc.1 k hk
      refine (R.div _ _ _ (h.col i ht.1 hi hp) (hf i k hi hk hp) ?_).1
      rw [← h.same k k hk hk hkk (by omega)]
      exact hf k k hk hk hkk
    · have := hf i j hi hj hp
      rw [h.upd i j ht.1 hi hkj hj ht.2.2.1 ht.2.2.2] at this
      exact (R.sub _ _ this).1
  · rw [← h.same i j hi hj hp ht]; exact hf i j hi hj hp

theorem Elims.bound (R : BackK K F) (hc : Closed n Pat) {k : ℕ} {C : ℕ → ℕ → K} (h : Elims n Pat A k C) (hk : k ≤ n)
    (hf : AllFin R n Pat C) : AllFin R n Pat A ∧ ∀ i j, i < n → j < n →
      |gap (entries R.val Pat A) (entries R.val Pat C) k i j| ≤
        ((1 + R.u) ^ ops Pat k i j - 1) * mass (entries R.val Pat C) k i j +
          2 * ops Pat k i j * (1 + R.u) ^ ops Pat k i j * R.η * flow (entries R.val Pat C) k i j := by
  induction h with
  | zero =>
    refine ⟨hf, fun i j hi hj => ?_⟩
    rw [ops_zero]
    simp [gap]
  | @step k C C' h0 hs ih =>
    have hkn : k < n := by omega
    have hkk := hc.1 k hkn
    have hfC := hs.allFin hc hkn hf
    obtain ⟨hfA, hB⟩ := ih hkn.le hfC
    refine ⟨hfA, fun i j hi hj => ?_⟩
    replace hB := hB i j hi hj
    set a := entries R.val Pat A
    set c := entries R.val Pat C with hcdef
    set c' := entries R.val Pat C' with hc'def
    have hsame : ∀ r s, r < n → s < n → ¬ (k < r ∧ k ≤ s ∧ Pat r k ∧ Pat k s) → c' r s = c r s := by
      intro r s hr hs' h
      by_cases hp : Pat r s
      · rw [hcdef, hc'def, entries_pos hp, entries_pos hp, hs.same r s hr hs' hp h]
      · rw [hcdef, hc'def, entries_neg hp, entries_neg hp]
    have hL : ∀ m, m < k → lwP c' i m = lwP c i m := by
      intro m hm; unfold lwP; rw [hsame i m hi (by omega) (by omega)]
    have hU : ∀ m, m ≤ k → upP c' m j = upP c m j := by
      intro m hm; unfold upP; rw [hsame m j (by omega) hj (by omega)]
    have hsum1 : ∑ m ∈ range k, lwP c' i m * upP c' m j = ∑ m ∈ range k, lwP c i m * upP c m j :=
      Finset.sum_congr rfl fun m hm => by rw [hL m (mem_range.1 hm), hU m (mem_range.1 hm).le]
    have hsum2 : ∑ m ∈ range k, |lwP c' i m| * |upP c' m j| = ∑ m ∈ range k, |lwP c i m| * |upP c m j| :=
      Finset.sum_congr rfl fun m hm => by rw [hL m (mem_range.1 hm), hU m (mem_range.1 hm).le]
    have hS : 0 ≤ ∑ m ∈ range k, |lwP c i m| * |upP c m j| := Finset.sum_nonneg fun m _ => by positivity
    have hgap : gap a c' (k + 1) i j = a i j - (∑ m ∈ range k, lwP c i m * upP c m j + lwP c' i k * upP c k j) -
        if k + 1 ≤ i ∧ k + 1 ≤ j then c' i j else 0 := by
      unfold gap; rw [sum_range_succ, hsum1, hU k le_rfl]
    have hmass : mass c' (k + 1) i j = ∑ m ∈ range k, |lwP c i m| * |upP c m j| + |lwP c' i k| * |upP c k j| +
        if k + 1 ≤ i ∧ k + 1 ≤ j then |c' i j| else 0 := by
      unfold mass; rw [sum_range_succ, hsum2, hU k le_rfl]
    by_cases hlow : i < k ∨ j < k
    · -- entries already final
      have hz : lwP c' i k * upP c k j = 0 := by
        rcases hlow with h | h
        · unfold lwP; rw [if_neg (by omega), if_neg (by omega), zero_mul]
        · unfold upP; rw [if_neg (by omega), mul_zero]
      have hz' : |lwP c' i k| * |upP c k j| = 0 := by rw [← abs_mul, hz, abs_zero]
      have e1 : gap a c' (k + 1) i j = gap a c k i j := by
        rw [hgap, hz, if_neg (by omega)]; unfold gap; rw [if_neg (by omega), add_zero]
      have e2 : mass c' (k + 1) i j = mass c k i j := by
        rw [hmass, hz', if_neg (by omega)]; unfold mass; rw [if_neg (by omega), add_zero]
      have e3 : flow c' (k + 1) i j = flow c k i j := by
        unfold flow
        by_cases hjk : j < k
        · rw [hsame j j hj hj (by omega)]
          by_cases hji : j < i
          · rw [if_pos (by omega), if_pos (by omega)]
          · rw [if_neg (by omega), if_neg (by omega)]
        · rw [if_neg (by omega), if_neg (by omega)]
      rw [e1, e2, e3, ops_succ_neg (by omega)]
      exact hB
    have hge : k ≤ i ∧ k ≤ j := by omega
    have hgap0 : gap a c k i j = a i j - ∑ m ∈ range k, lwP c i m * upP c m j - c i j := by unfold gap; rw [if_pos hge]
    have hmass0 : mass c k i j = ∑ m ∈ range k, |lwP c i m| * |upP c m j| + |c i j| := by unfold mass; rw [if_pos hge]
    have hflow0 : flow c k i j = 1 := by unfold flow; rw [if_neg (by omega)]
    rw [hflow0, mul_one] at hB
    have hUk : upP c k j = c k j := by unfold upP; rw [if_pos hge.2]
    rcases Nat.eq_or_lt_of_le hge.1 with hik | hik
    · -- the pivot row
      subst hik
      have hl : lwP c' k k = 1 := by unfold lwP; rw [if_pos rfl]
      have e1 : gap a c' (k + 1) k j = gap a c k k j := by
        rw [hgap, hgap0, hl, hUk, if_neg (by omega)]; ring
      have e2 : mass c' (k + 1) k j = mass c k k j := by
        rw [hmass, hmass0, hl, hUk, if_neg (by omega)]; simp
      have e3 : flow c' (k + 1) k j = 1 := by unfold flow; rw [if_neg (by omega)]
      rw [e1, e2, e3, ops_succ_neg (by omega), mul_one]
      exact hB
    have hl : lwP c' i k = c' i k := by unfold lwP; rw [if_neg (by omega), if_pos hik]
    rcases Nat.eq_or_lt_of_le hge.2 with hjk | hjk
    · -- the pivot column
      subst hjk
      have e1 : gap a c' (k + 1) i k = gap a c k i k + (c i k - c' i k * c k k) := by
        rw [hgap, hgap0, hl, hUk, if_neg (by omega)]; ring
      have e2 : mass c' (k + 1) i k = ∑ m ∈ range k, |lwP c i m| * |upP c m k| + |c' i k * c k k| := by
        rw [hmass, hl, hUk, if_neg (by omega), abs_mul, add_zero]
      have e3 : flow c' (k + 1) i k = 1 + |c k k| := by
        unfold flow; rw [if_pos (by omega), hsame k k hkn hkn (by omega)]
      rw [e1, e2, e3]
      by_cases hp : Pat i k
      · rw [ops_succ_pos ⟨hik, le_rfl, hp, hkk⟩]
        have hfz := hf i k hi hkn hp
        have hd := R.div _ _ _ (hs.col i hik hi hp) hfz (hfC k k hkn hkn hkk)
        have ed : c k k = R.val (C k k) := entries_pos hkk
        have ea : c i k = R.val (C i k) := entries_pos hp
        have ez : c' i k = R.val (C' i k) := entries_pos hp
        rw [hmass0] at hB
        refine div_step R.u_nonneg R.η_nonneg hS ?_ hB ?_
        · rw [ed]; exact hd.2.1
        · rw [ed, ea, ez]; exact hd.2.2
      · rw [ops_succ_neg (by tauto)]
        have z1 : c i k = 0 := entries_neg hp
        have z2 : c' i k = 0 := entries_neg hp
        rw [z1, z2, zero_mul, sub_zero, add_zero, abs_zero, add_zero]
        rw [hmass0, z1, abs_zero, add_zero] at hB
        refine hB.trans (add_le_add le_rfl (le_mul_of_one_le_right ?_ (by have := abs_nonneg (c k k); linarith)))
        have := R.u_nonneg
        have := R.η_nonneg
        positivity
    · -- the rest
      have e1 : gap a c' (k + 1) i j = gap a c k i j + (c i j - c' i k * c k j - c' i j) := by
        rw [hgap, hgap0, hl, hUk, if_pos (by omega)]; ring
      have e2 : mass c' (k + 1) i j = ∑ m ∈ range k, |lwP c i m| * |upP c m j| + |c' i k * c k j| + |c' i j| := by
        rw [hmass, hl, hUk, if_pos (by omega), abs_mul]
      have e3 : flow c' (k + 1) i j = 1 := by unfold flow; rw [if_neg (by omega)]
      rw [e1, e2, e3, mul_one]
      by_cases hp : Pat i k ∧ Pat k j
      · have hpij := hc.2 k i j hik hi hjk hj hp.1 hp.2
        rw [ops_succ_pos ⟨hik, hjk.le, hp.1, hp.2⟩]
        have hfz := hf i j hi hj hpij
        rw [hs.upd i j hik hi hjk hj hp.1 hp.2] at hfz
        have h1 := R.sub _ _ hfz
        have h2 := R.mul _ _ h1.2.1
        have ea : c i j = R.val (C i j) := entries_pos hpij
        have ea' : c' i j = R.val (C' i j) := entries_pos hpij
        have el : c' i k = R.val (C' i k) := entries_pos hp.1
        have eu : c k j = R.val (C k j) := entries_pos hp.2
        rw [hmass0] at hB
        refine upd_step R.u_nonneg R.η_nonneg (p := R.val (C' i k * C k j)) hS hB ?_ ?_
        · rw [el, eu]; exact h2.2.2
        · rw [ea, ea', hs.upd i j hik hi hjk hj hp.1 hp.2]; exact h1.2.2
      · rw [ops_succ_neg (by tauto)]
        have z1 : c' i k * c k j = 0 := by
          by_cases hp1 : Pat i k
          · rw [show c k j = 0 from entries_neg (by tauto), mul_zero]
          · rw [show c' i k = 0 from entries_neg hp1, zero_mul]
        rw [z1, hsame i j hi hj (by tauto), sub_zero, sub_self, add_zero, abs_zero, add_zero]
        rw [hmass0] at hB
        exact hB

end elim

/-! ## substitution -/

section subst

variable {n : ℕ} {Pat : ℕ → ℕ → Prop} {C : ℕ → ℕ → K} {R : BackK K F}

/-- Number of operations on entry `i` in the first `j` columns of the forward substitution. -/
noncomputable def fops (Pat : ℕ → ℕ → Prop) (j i : ℕ) : ℕ := by
  classical exact #{m ∈ range j | m < i ∧ Pat i m}

theorem fops_zero (Pat : ℕ → ℕ → Prop) (i : ℕ) : fops Pat 0 i = 0 := by simp [fops]

theorem fops_succ_pos {j i : ℕ} (h : j < i ∧ Pat i j) : fops Pat (j + 1) i = fops Pat j i + 1 := by
  unfold fops
  rw [range_add_one, filter_insert, if_pos h, card_insert_of_notMem (by simp)]

theorem fops_succ_neg {j i : ℕ} (h : ¬ (j < i ∧ Pat i j)) : fops Pat (j + 1) i = fops Pat j i := by
  unfold fops
  rw [range_add_one, filter_insert, if_neg h]

theorem fops_le_card {k i : ℕ} {T : Finset ℕ} (h : ∀ m, m < k → m < i → Pat i m → m ∈ T) : fops Pat k i ≤ #T := by
  classical
  unfold fops
  refine Finset.card_le_card fun m hm => ?_
  have := Finset.mem_filter.1 hm
  exact h m (mem_range.1 this.1) this.2.1 this.2.2

omit [IsStrictOrderedRing F] in
theorem FwdStep.allFin (S : BackV R V) {j : ℕ} {y y' : ℕ → V} (h : FwdStep n j Pat C y y') (hf : ∀ i, i < n → S.Fin (y' i)) :
    ∀ i, i < n → S.Fin (y i) := by
  intro i hi
  by_cases ht : j < i ∧ Pat i j
  · have := hf i hi
    rw [h.upd i ht.1 hi ht.2] at this
    exact (S.sub _ _ this).1
  · rw [← h.same i hi ht]; exact hf i hi

theorem Fwds.bound (S : BackV R V) {b y : ℕ → V} {j : ℕ} (h : Fwds n Pat C b j y) (hj : j ≤ n)
    (hf : ∀ i, i < n → S.Fin (y i)) : (∀ i, i < n → S.Fin (b i)) ∧ ∀ i, i < n →
      |S.val (b i) - ∑ m ∈ range (min j i), entries R.val Pat C i m * S.val (y m) - S.val (y i)| ≤
        ((1 + R.u) ^ fops Pat j i - 1) * (∑ m ∈ range (min j i), |entries R.val Pat C i m| * |S.val (y m)| + |S.val (y i)|) +
          2 * fops Pat j i * (1 + R.u) ^ fops Pat j i * R.η := by
  induction h with
  | zero =>
    refine ⟨hf, fun i hi => ?_⟩
    rw [fops_zero]; simp
  | @step j y y' h0 hs ih =>
    have hjn : j < n := by omega
    obtain ⟨hfb, hB⟩ := ih hjn.le (hs.allFin S hf)
    refine ⟨hfb, fun i hi => ?_⟩
    replace hB := hB i hi
    set l := entries R.val Pat C
    have hsame : ∀ m, m ≤ j → m < n → y' m = y m := fun m hm hmn => hs.same m hmn (by omega)
    have hsum1 : ∀ t, t ≤ j + 1 → ∑ m ∈ range t, l i m * S.val (y' m) = ∑ m ∈ range t, l i m * S.val (y m) := fun t ht =>
      Finset.sum_congr rfl fun m hm => by have := mem_range.1 hm; rw [hsame m (by omega) (by omega)]
    have hsum2 : ∀ t, t ≤ j + 1 → ∑ m ∈ range t, |l i m| * |S.val (y' m)| = ∑ m ∈ range t, |l i m| * |S.val (y m)| := fun t ht =>
      Finset.sum_congr rfl fun m hm => by have := mem_range.1 hm; rw [hsame m (by omega) (by omega)]
    rw [hsum1 _ (min_le_left _ _), hsum2 _ (min_le_left _ _)]
    by_cases hij : j < i
    · rw [show min (j + 1) i = j + 1 by omega, sum_range_succ, sum_range_succ]
      rw [show min j i = j by omega] at hB
      have hS : 0 ≤ ∑ m ∈ range j, |l i m| * |S.val (y m)| := Finset.sum_nonneg fun m _ => by positivity
      have e1 : S.val (b i) - (∑ m ∈ range j, l i m * S.val (y m) + l i j * S.val (y j)) - S.val (y' i) =
          S.val (b i) - ∑ m ∈ range j, l i m * S.val (y m) - S.val (y i) + (S.val (y i) - l i j * S.val (y j) - S.val (y' i)) := by ring
      rw [e1, ← abs_mul]
      by_cases hp : Pat i j
      · rw [fops_succ_pos ⟨hij, hp⟩]
        have hfz := hf i hi
        rw [hs.upd i hij hi hp] at hfz
        have h1 := S.sub _ _ hfz
        have h2 := S.smul _ _ h1.2.1
        have el : l i j = R.val (C i j) := entries_pos hp
        refine upd_step R.u_nonneg R.η_nonneg (p := S.val (C i j • y j)) hS hB ?_ ?_
        · rw [el]; exact h2.2.2
        · rw [hs.upd i hij hi hp]; exact h1.2.2
      · rw [fops_succ_neg (by tauto)]
        have z : l i j = 0 := entries_neg hp
        rw [z, zero_mul, sub_zero, hs.same i hi (by tauto), sub_self, add_zero, abs_zero, add_zero]
        exact hB
    · rw [show min (j + 1) i = i by omega, fops_succ_neg (by omega), hs.same i hi (by omega)]
      rw [show min j i = i by omega] at hB
      exact hB

/-- Number of operations on entry `i` in the columns of the backward substitution from `j` on. -/
noncomputable def bops (n : ℕ) (Pat : ℕ → ℕ → Prop) (j i : ℕ) : ℕ := by
  classical exact #{m ∈ Ico j n | i ≤ m ∧ Pat i m}

theorem bops_zero (Pat : ℕ → ℕ → Prop) (i : ℕ) : bops n Pat n i = 0 := by simp [bops]

theorem bops_succ_pos {j i : ℕ} (hj : j < n) (h : i ≤ j ∧ Pat i j) : bops n Pat j i = bops n Pat (j + 1) i + 1 := by
  unfold bops
  rw [← insert_Ico_add_one_left_eq_Ico hj, filter_insert, if_pos h, card_insert_of_notMem (by simp)]

theorem bops_succ_neg {j i : ℕ} (hj : j < n) (h : ¬ (i ≤ j ∧ Pat i j)) : bops n Pat j i = bops n Pat (j + 1) i := by
  unfold bops
  rw [← insert_Ico_add_one_left_eq_Ico hj, filter_insert, if_neg h]

theorem bops_le_card {k i : ℕ} {T : Finset ℕ} (h : ∀ m, k ≤ m → m < n → i ≤ m → Pat i m → m ∈ T) : bops n Pat k i ≤ #T := by
  classical
  unfold bops
  refine Finset.card_le_card fun m hm => ?_
  have := Finset.mem_filter.1 hm
  exact h m (mem_Ico.1 this.1).1 (mem_Ico.1 this.1).2 this.2.1 this.2.2

omit [IsStrictOrderedRing F] in
theorem BwdStep.allFin (S : BackV R V) (hd : ∀ i, i < n → R.Fin (C i i)) {j : ℕ} (hj : j < n) {x x' : ℕ → V} (h : BwdStep n j Pat C x x')
    (hf : ∀ i, i < n → S.Fin (x' i)) : ∀ i, i < n → S.Fin (x i) := by
  intro i hi
  by_cases hij : i = j
  · subst hij
    exact (S.div _ _ _ h.piv (hf i hi) (hd i hi)).1
  by_cases ht : i < j ∧ Pat i j
  · have := hf i hi
    rw [h.upd i ht.1 ht.2] at this
    exact (S.sub _ _ this).1
  · rw [← h.same i hi hij ht]; exact hf i hi

theorem Bwds.bound (S : BackV R V) (hdiag : ∀ i, i < n → Pat i i) (hd : ∀ i, i < n → R.Fin (C i i)) {y x : ℕ → V} {j : ℕ}
    (h : Bwds n Pat C y j x) (hf : ∀ i, i < n → S.Fin (x i)) :
    (∀ i, i < n → S.Fin (y i)) ∧ (∀ r, j ≤ r → r < n → R.val (C r r) ≠ 0) ∧ ∀ i, i < n →
      |S.val (y i) - ∑ m ∈ Ico (max i j) n, entries R.val Pat C i m * S.val (x m) - (if i < j then S.val (x i) else 0)| ≤
        ((1 + R.u) ^ bops n Pat j i - 1) *
          (∑ m ∈ Ico (max i j) n, |entries R.val Pat C i m| * |S.val (x m)| + if i < j then |S.val (x i)| else 0) +
          2 * bops n Pat j i * (1 + R.u) ^ bops n Pat j i * R.η * (if i < j then 1 else 1 + |entries R.val Pat C i i|) := by
  induction h with
  | zero =>
    refine ⟨hf, fun r h1 h2 => absurd h2 (by omega), fun i hi => ?_⟩
    rw [bops_zero, max_eq_right hi.le, if_pos hi]; simp
  | @step j x x' hjn h0 hs ih =>
    obtain ⟨hfb, hpiv, hB⟩ := ih (hs.allFin S hd hjn hf)
    have hdj := S.div _ _ _ hs.piv (hf j hjn) (hd j hjn)
    refine ⟨hfb, fun r h1 h2 => ?_, fun i hi => ?_⟩
    · rcases Nat.eq_or_lt_of_le h1 with rfl | h1
      · exact hdj.2.1
      · exact hpiv r h1 h2
    replace hB := hB i hi
    set l := entries R.val Pat C
    have hsame : ∀ m, j < m → m < n → x' m = x m := fun m hm hmn => hs.same m hmn (by omega) (by omega)
    have hsum1 : ∀ t, j < t → ∑ m ∈ Ico t n, l i m * S.val (x' m) = ∑ m ∈ Ico t n, l i m * S.val (x m) := fun t ht =>
      Finset.sum_congr rfl fun m hm => by have := mem_Ico.1 hm; rw [hsame m (by omega) (by omega)]
    have hsum2 : ∀ t, j < t → ∑ m ∈ Ico t n, |l i m| * |S.val (x' m)| = ∑ m ∈ Ico t n, |l i m| * |S.val (x m)| := fun t ht =>
      Finset.sum_congr rfl fun m hm => by have := mem_Ico.1 hm; rw [hsame m (by omega) (by omega)]
    have hS : ∀ t, 0 ≤ ∑ m ∈ Ico t n, |l i m| * |S.val (x m)| := fun t => Finset.sum_nonneg fun m _ => by positivity
    rcases lt_trichotomy i j with hij | rfl | hij
    · rw [max_eq_right hij.le, Finset.sum_eq_sum_Ico_succ_bot hjn, Finset.sum_eq_sum_Ico_succ_bot hjn, hsum1 _ (by omega),
        hsum2 _ (by omega), if_pos hij, if_pos hij, if_pos hij, mul_one]
      rw [max_eq_right (by omega), if_pos (by omega), if_pos (by omega), if_pos (by omega), mul_one] at hB
      have e1 : S.val (y i) - (l i j * S.val (x' j) + ∑ m ∈ Ico (j + 1) n, l i m * S.val (x m)) - S.val (x' i) =
          S.val (y i) - ∑ m ∈ Ico (j + 1) n, l i m * S.val (x m) - S.val (x i) + (S.val (x i) - l i j * S.val (x' j) - S.val (x' i)) := by
        ring
      rw [e1, ← abs_mul, add_comm |l i j * _|]
      by_cases hp : Pat i j
      · rw [bops_succ_pos hjn ⟨hij.le, hp⟩]
        have hfz := hf i hi
        rw [hs.upd i hij hp] at hfz
        have h1 := S.sub _ _ hfz
        have h2 := S.smul _ _ h1.2.1
        have el : l i j = R.val (C i j) := entries_pos hp
        refine upd_step R.u_nonneg R.η_nonneg (p := S.val (C i j • x' j)) (hS _) hB ?_ ?_
        · rw [el]; exact h2.2.2
        · rw [hs.upd i hij hp]; exact h1.2.2
      · rw [bops_succ_neg hjn (by tauto)]
        have z : l i j = 0 := entries_neg hp
        rw [z, zero_mul, sub_zero, hs.same i hi (by omega) (by tauto), sub_self, add_zero, abs_zero, add_zero]
        exact hB
    · rw [max_self, Finset.sum_eq_sum_Ico_succ_bot hjn, Finset.sum_eq_sum_Ico_succ_bot hjn, hsum1 _ (by omega),
        hsum2 _ (by omega), if_neg (lt_irrefl _), if_neg (lt_irrefl _), if_neg (lt_irrefl _), bops_succ_pos hjn ⟨le_rfl, hdiag i hi⟩]
      rw [max_eq_right (by omega), if_pos (by omega), if_pos (by omega), if_pos (by omega), mul_one] at hB
      have e1 : S.val (y i) - (l i i * S.val (x' i) + ∑ m ∈ Ico (i + 1) n, l i m * S.val (x m)) - 0 =
          S.val (y i) - ∑ m ∈ Ico (i + 1) n, l i m * S.val (x m) - S.val (x i) + (S.val (x i) - S.val (x' i) * l i i) := by ring
      have el : l i i = R.val (C i i) := entries_pos (hdiag i hi)
      rw [e1, ← abs_mul, add_zero, add_comm |l i i * _|, mul_comm (l i i)]
      refine div_step R.u_nonneg R.η_nonneg (hS _) ?_ hB ?_
      · rw [el]; exact hdj.2.1
      · rw [el]; exact hdj.2.2
    · rw [max_eq_left hij.le, hsum1 _ hij, hsum2 _ hij, if_neg (by omega), if_neg (by omega), if_neg (by omega), bops_succ_neg hjn (by omega)]
      rw [max_eq_left (by omega), if_neg (by omega), if_neg (by omega), if_neg (by omega)] at hB
      exact hB

end subst

/-! ## all together -/

section residual

variable {n : ℕ} {Pat : ℕ → ℕ → Prop} {A C : ℕ → ℕ → K} {R : BackK K F} {S : BackV R V} {b x y : ℕ → V} {w : ℕ}

omit [LinearOrder F] [IsStrictOrderedRing F] in
theorem sum_last (hn : 0 < n) (c : ℕ → ℕ → F) {i j : ℕ} (hi : i < n) (hj : j < n) :
    ∑ m ∈ range (n - 1), lwP c i m * upP c m j + (if n - 1 ≤ i ∧ n - 1 ≤ j then c i j else 0) = ∑ m ∈ range n, lwP c i m * upP c m j := by
  conv_rhs => rw [show n = (n - 1) + 1 by omega, sum_range_succ]
  congr 1
  unfold lwP upP
  by_cases hin : i = n - 1
  · subst hin
    by_cases hjn : j = n - 1
    · subst hjn; simp
    · rw [if_neg (by omega), if_neg (show ¬ n - 1 ≤ j by omega)]; simp
  · rw [if_neg (by omega), if_neg hin, if_neg (by omega)]; simp

omit [IsStrictOrderedRing F] in
theorem mass_last [IsStrictOrderedRing F] (hn : 0 < n) (c : ℕ → ℕ → F) {i j : ℕ} (hi : i < n) (hj : j < n) :
    mass c (n - 1) i j = ∑ m ∈ range n, |lwP c i m| * |upP c m j| := by
  unfold mass
  conv_rhs => rw [show n = (n - 1) + 1 by omega, sum_range_succ]
  congr 1
  unfold lwP upP
  by_cases hin : i = n - 1
  · subst hin
    by_cases hjn : j = n - 1
    · subst hjn; simp
    · rw [if_neg (by omega), if_neg (show ¬ n - 1 ≤ j by omega)]; simp
  · rw [if_neg (by omega), if_neg hin, if_neg (by omega)]; simp

/-- Backward error of the factors. -/
theorem factors_bound (hc : Closed n Pat) (hn : 0 < n) (hE : Elims n Pat A (n - 1) C) (hf : AllFin R n Pat C)
    (hw : ∀ i j, i < n → j < n → ops Pat (n - 1) i j ≤ w) {i j : ℕ} (hi : i < n) (hj : j < n) :
    |entries R.val Pat A i j - ∑ m ∈ range n, lwP (entries R.val Pat C) i m * upP (entries R.val Pat C) m j| ≤
      ((1 + R.u) ^ w - 1) * ∑ m ∈ range n, |lwP (entries R.val Pat C) i m| * |upP (entries R.val Pat C) m j| +
        2 * w * (1 + R.u) ^ w * R.η * (1 + |upP (entries R.val Pat C) j j|) := by
  have h := (hE.bound R hc (by omega) hf).2 i j hi hj
  set c := entries R.val Pat C
  rw [mass_last hn c hi hj] at h
  have e1 : gap (entries R.val Pat A) c (n - 1) i j = entries R.val Pat A i j - ∑ m ∈ range n, lwP c i m * upP c m j := by
    unfold gap; rw [sub_sub, sum_last hn c hi hj]
  rw [e1] at h
  have hS : 0 ≤ ∑ m ∈ range n, |lwP c i m| * |upP c m j| := Finset.sum_nonneg fun m _ => by positivity
  have e2 : upP c j j = c j j := by unfold upP; rw [if_pos le_rfl]
  refine h.trans ((bound_mono R.u_nonneg R.η_nonneg (hw i j hi hj) hS (by linarith [flow_ge c (n - 1) i j])).trans ?_)
  have : flow c (n - 1) i j ≤ 1 + |upP c j j| := by
    rw [e2]; unfold flow
    have := abs_nonneg (c j j)
    split <;> linarith
  have := R.u_nonneg
  have := R.η_nonneg
  gcongr

/-- Backward error of the forward substitution. -/
theorem forward_bound (hf : ∀ i, i < n → S.Fin (y i)) (h : Fwds n Pat C b n y) (hw : ∀ i, i < n → fops Pat n i ≤ w) {i : ℕ} (hi : i < n) :
    |S.val (b i) - ∑ m ∈ range n, lwP (entries R.val Pat C) i m * S.val (y m)| ≤
      ((1 + R.u) ^ w - 1) * ∑ m ∈ range n, |lwP (entries R.val Pat C) i m| * |S.val (y m)| + 2 * w * (1 + R.u) ^ w * R.η := by
  have h := (h.bound S le_rfl hf).2 i hi
  set c := entries R.val Pat C
  rw [min_eq_right hi.le] at h
  have hsplit : ∀ f : F → F, f 0 = 0 → f 1 = 1 → ∀ g : ℕ → F,
      ∑ m ∈ range n, f (lwP c i m) * g m = ∑ m ∈ range i, f (c i m) * g m + g i := by
    intro f h0 h1 g
    rw [← Finset.sum_range_add_sum_Ico _ hi.le, Finset.sum_eq_sum_Ico_succ_bot hi]
    congr 1
    · apply Finset.sum_congr rfl
      intro m hm
      have := mem_range.1 hm
      unfold lwP; rw [if_neg (by omega), if_pos (by omega)]
    · rw [Finset.sum_eq_zero]
      · unfold lwP; rw [if_pos rfl, h1]; ring
      · intro m hm
        have := mem_Ico.1 hm
        unfold lwP; rw [if_neg (by omega), if_neg (by omega), h0, zero_mul]
  have e1 := hsplit id rfl rfl fun m => S.val (y m)
  have e2 := hsplit (fun a => |a|) abs_zero abs_one fun m => |S.val (y m)|
  simp only [id] at e1
  rw [e1, e2, ← sub_sub]
  refine h.trans ?_
  have := bound_mono R.u_nonneg R.η_nonneg (hw i hi)
    (show 0 ≤ ∑ m ∈ range i, |c i m| * |S.val (y m)| + |S.val (y i)| from add_nonneg (Finset.sum_nonneg fun m _ => by positivity) (abs_nonneg _))
    zero_le_one
  simpa using this

/-- Backward error of the backward substitution. -/
theorem backward_bound (hdiag : ∀ i, i < n → Pat i i) (hd : ∀ i, i < n → R.Fin (C i i)) (hf : ∀ i, i < n → S.Fin (x i))
    (h : Bwds n Pat C y 0 x) (hw : ∀ i, i < n → bops n Pat 0 i ≤ w) {i : ℕ} (hi : i < n) :
    |S.val (y i) - ∑ m ∈ range n, upP (entries R.val Pat C) i m * S.val (x m)| ≤
      ((1 + R.u) ^ w - 1) * ∑ m ∈ range n, |upP (entries R.val Pat C) i m| * |S.val (x m)| +
        2 * w * (1 + R.u) ^ w * R.η * (1 + |upP (entries R.val Pat C) i i|) := by
  have h := (h.bound S hdiag hd hf).2.2 i hi
  set c := entries R.val Pat C
  rw [max_eq_left (Nat.zero_le _), if_neg (by omega), if_neg (by omega), if_neg (by omega), sub_zero, add_zero] at h
  have hsplit : ∀ f : F → F, f 0 = 0 → ∀ g : ℕ → F,
      ∑ m ∈ range n, f (upP c i m) * g m = ∑ m ∈ Ico i n, f (c i m) * g m := by
    intro f h0 g
    symm
    apply Finset.sum_subset_zero_on_sdiff
    · intro a; simp only [mem_Ico, mem_range]; omega
    · intro a ha
      simp only [mem_sdiff, mem_range, mem_Ico] at ha
      unfold upP; rw [if_neg (by omega), h0, zero_mul]
    · intro a ha
      have := mem_Ico.1 ha
      unfold upP; rw [if_pos (by omega)]
  have e1 := hsplit id rfl fun m => S.val (x m)
  have e2 := hsplit (fun a => |a|) abs_zero fun m => |S.val (x m)|
  have e3 : upP c i i = c i i := by unfold upP; rw [if_pos le_rfl]
  simp only [id] at e1
  rw [e1, e2, e3]
  refine h.trans ?_
  have h1 := abs_nonneg (c i i)
  exact bound_mono R.u_nonneg R.η_nonneg (hw i hi)
    (show 0 ≤ ∑ m ∈ Ico i n, |c i m| * |S.val (x m)| from Finset.sum_nonneg fun m _ => by positivity) (by linarith)

/-- The residual, from the three errors. -/
theorem residual_math {g t : F} (hg : 0 ≤ g) (ht : 0 ≤ t) {a L U : ℕ → ℕ → F} {β υ ξ : ℕ → F}
    (hLU : ∀ i j, i < n → j < n → |a i j - ∑ m ∈ range n, L i m * U m j| ≤ g * ∑ m ∈ range n, |L i m| * |U m j| + t * (1 + |U j j|))
    (hL : ∀ i, i < n → |β i - ∑ m ∈ range n, L i m * υ m| ≤ g * ∑ m ∈ range n, |L i m| * |υ m| + t)
    (hU : ∀ i, i < n → |υ i - ∑ j ∈ range n, U i j * ξ j| ≤ g * ∑ j ∈ range n, |U i j| * |ξ j| + t * (1 + |U i i|))
    {i : ℕ} (hi : i < n) :
    |β i - ∑ j ∈ range n, a i j * ξ j| ≤ ((1 + g) ^ 3 - 1) * ∑ m ∈ range n, |L i m| * ∑ j ∈ range n, |U m j| * |ξ j| +
      t * (1 + g) * (1 + ∑ m ∈ range n, |L i m| * (1 + |U m m|) + ∑ j ∈ range n, (1 + |U j j|) * |ξ j|) := by
  set T := ∑ m ∈ range n, |L i m| * ∑ j ∈ range n, |U m j| * |ξ j| with hT
  set P := ∑ m ∈ range n, |L i m| * (1 + |U m m|) with hP
  set Q := ∑ j ∈ range n, (1 + |U j j|) * |ξ j| with hQ
  have hT0 : 0 ≤ T := Finset.sum_nonneg fun m _ => mul_nonneg (abs_nonneg _) (Finset.sum_nonneg fun j _ => by positivity)
  have hP0 : 0 ≤ P := Finset.sum_nonneg fun m _ => by positivity
  have hQ0 : 0 ≤ Q := Finset.sum_nonneg fun m _ => by positivity
  -- three parts
  have hsplit : β i - ∑ j ∈ range n, a i j * ξ j = (β i - ∑ m ∈ range n, L i m * υ m) +
      ∑ m ∈ range n, L i m * (υ m - ∑ j ∈ range n, U m j * ξ j) -
      ∑ j ∈ range n, (a i j - ∑ m ∈ range n, L i m * U m j) * ξ j := by
    have e1 : ∑ m ∈ range n, L i m * (υ m - ∑ j ∈ range n, U m j * ξ j) =
        ∑ m ∈ range n, L i m * υ m - ∑ m ∈ range n, ∑ j ∈ range n, L i m * U m j * ξ j := by
      rw [← Finset.sum_sub_distrib]
      refine Finset.sum_congr rfl fun m _ => ?_
      rw [mul_sub, Finset.mul_sum]
      congr 1
      exact Finset.sum_congr rfl fun j _ => by ring
    have e2 : ∑ j ∈ range n, (a i j - ∑ m ∈ range n, L i m * U m j) * ξ j =
        ∑ j ∈ range n, a i j * ξ j - ∑ m ∈ range n, ∑ j ∈ range n, L i m * U m j * ξ j := by
      rw [Finset.sum_comm, ← Finset.sum_sub_distrib]
      refine Finset.sum_congr rfl fun j _ => ?_
      rw [sub_mul, Finset.sum_mul]
    rw [e1, e2]; ring
  have hy : ∀ m, m < n → |υ m| ≤ (1 + g) * ∑ j ∈ range n, |U m j| * |ξ j| + t * (1 + |U m m|) := by
    intro m hm
    have h1 := abs_add_le (υ m - ∑ j ∈ range n, U m j * ξ j) (∑ j ∈ range n, U m j * ξ j)
    rw [sub_add_cancel] at h1
    have h2 : |∑ j ∈ range n, U m j * ξ j| ≤ ∑ j ∈ range n, |U m j| * |ξ j| :=
      (Finset.abs_sum_le_sum_abs _ _).trans (Finset.sum_le_sum fun j _ => by rw [abs_mul])
    have h3 := hU m hm
    have : (1 + g) * ∑ j ∈ range n, |U m j| * |ξ j| = ∑ j ∈ range n, |U m j| * |ξ j| + g * ∑ j ∈ range n, |U m j| * |ξ j| := by ring
    linarith
  have p1 : |β i - ∑ m ∈ range n, L i m * υ m| ≤ g * ((1 + g) * T + t * P) + t := by
    refine (hL i hi).trans ?_
    have : ∑ m ∈ range n, |L i m| * |υ m| ≤ (1 + g) * T + t * P := by
      rw [hT, hP, Finset.mul_sum, Finset.mul_sum, ← Finset.sum_add_distrib]
      refine Finset.sum_le_sum fun m hm => ?_
      have := mul_le_mul_of_nonneg_left (hy m (mem_range.1 hm)) (abs_nonneg (L i m))
      refine this.trans (le_of_eq ?_)
      ring
    have := mul_le_mul_of_nonneg_left this hg
    linarith
  have p2 : |∑ m ∈ range n, L i m * (υ m - ∑ j ∈ range n, U m j * ξ j)| ≤ g * T + t * P := by
    refine (Finset.abs_sum_le_sum_abs _ _).trans ?_
    rw [hT, hP, Finset.mul_sum, Finset.mul_sum, ← Finset.sum_add_distrib]
    refine Finset.sum_le_sum fun m hm => ?_
    rw [abs_mul]
    refine (mul_le_mul_of_nonneg_left (hU m (mem_range.1 hm)) (abs_nonneg (L i m))).trans (le_of_eq ?_)
    ring
  have p3 : |∑ j ∈ range n, (a i j - ∑ m ∈ range n, L i m * U m j) * ξ j| ≤ g * T + t * Q := by
    refine (Finset.abs_sum_le_sum_abs _ _).trans ?_
    have e : T = ∑ j ∈ range n, (∑ m ∈ range n, |L i m| * |U m j|) * |ξ j| := by
      rw [hT]
      simp only [Finset.mul_sum, Finset.sum_mul]
      rw [Finset.sum_comm]
      exact Finset.sum_congr rfl fun j _ => Finset.sum_congr rfl fun m _ => by ring
    rw [e, hQ, Finset.mul_sum, Finset.mul_sum, ← Finset.sum_add_distrib]
    refine Finset.sum_le_sum fun j hj => ?_
    rw [abs_mul]
    refine (mul_le_mul_of_nonneg_right (hLU i j hi (mem_range.1 hj)) (abs_nonneg (ξ j))).trans (le_of_eq ?_)
    ring
  rw [hsplit]
  have q1 := abs_sub (β i - ∑ m ∈ range n, L i m * υ m + ∑ m ∈ range n, L i m * (υ m - ∑ j ∈ range n, U m j * ξ j))
    (∑ j ∈ range n, (a i j - ∑ m ∈ range n, L i m * U m j) * ξ j)
  have q2 := abs_add_le (β i - ∑ m ∈ range n, L i m * υ m) (∑ m ∈ range n, L i m * (υ m - ∑ j ∈ range n, U m j * ξ j))
  have k1 : 0 ≤ g * g * T := by positivity
  have k2 : 0 ≤ g * g * g * T := by positivity
  have k3 : 0 ≤ t * g := by positivity
  have k4 : 0 ≤ t * g * Q := by positivity
  nlinarith [k1, k2, k3, k4]

end residual

end Intp.Fl
