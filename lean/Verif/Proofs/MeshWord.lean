import Verif.MeshWord
import Verif.Proofs.MeshLemmas

/-! # Lemmas about 64-bit mesh arithmetic -/

namespace Intp.Word

open Finset

variable {D : ℕ} {V : Type}

theorem dimsSize_mod (dims : Fin D → ℕ) : dimsSize dims = (∏ d, dims d) % wordSize := by
  have key : ∀ (l : List (Fin D)) (s t : ℕ), s = t % wordSize → l.foldl (fun s d => mul s (dims d)) s = (l.foldl (fun s d => s * dims d) t) % wordSize := by
    intro l
    induction l with
    | nil => intro s t h; exact h
    | cons d l ih =>
      intro s t h
      refine ih _ _ ?_
      show s * dims d % wordSize = t * dims d % wordSize
      rw [h, Nat.mod_mul_mod]
  have := key (List.finRange D) 1 1 (by decide)
  unfold dimsSize
  rw [this, ← dimsSize_eq]
  rfl

theorem indexingFold_mod (dims a : Fin D → ℕ) (l : List (Fin D)) : ∀ s t : ℕ × ℕ, s.1 = t.1 % wordSize → s.2 = t.2 % wordSize →
    (l.foldl (fun acc d => indexingStep dims a acc d.rev) s).1 = (l.foldl (fun acc d => Intp.indexingStep dims a acc d.rev) t).1 % wordSize := by
  induction l with
  | nil => intro s t h _; exact h
  | cons d l ih =>
    intro s t h1 h2
    refine ih _ _ ?_ ?_
    · unfold indexingStep Intp.indexingStep add mul
      dsimp only
      rw [h1, h2, Nat.mul_mod_mod, Nat.mod_add_mod, Nat.add_mod_mod]
    · unfold indexingStep Intp.indexingStep mul
      dsimp only
      rw [h2, Nat.mod_mul_mod]

theorem indexing_mod (dims a : Fin D → ℕ) : indexing dims a = Intp.indexing dims a % wordSize :=
  indexingFold_mod dims a _ (0, 1) (0, 1) (by decide) (by decide)

theorem indexingSafe_ok (c : Cfg) {dims a : Fin D → ℕ} (h : InRange dims a) : indexingSafe c dims a = .ok (indexing dims a) := by
  unfold indexingSafe indexing
  have key : ∀ (l : List (Fin D)) (s : ℕ × ℕ),
      (l.foldlM (fun (acc : ℕ × ℕ) d => do
        assertM c (decide (a d.rev < dims d.rev))
        pure (indexingStep dims a acc d.rev)) s : M (ℕ × ℕ)) =
      .ok (l.foldl (fun acc d => indexingStep dims a acc d.rev) s) := by
    intro l
    induction l with
    | nil => intro s; rfl
    | cons d l ih =>
      intro s
      rw [List.foldlM_cons, assertM_ok (by simpa using h d.rev)]
      exact ih _
  rw [key]; rfl

theorem dimAccSize_mod (dims : Fin D → ℕ) {k : ℕ} (hk : k ≤ D) :
    dimAccSize dims k = .ok ((∏ e : Fin D, if D - k ≤ e.val then dims e else 1) % wordSize) := by
  have h := dimAccSize_ok dims hk
  suffices hs : Spec (dimAccSize dims k) (fun s => ∃ t, Intp.dimAccSize dims k = .ok t ∧ s = t % wordSize) (fun _ => False) by
    obtain ⟨s, e, t, e', rfl⟩ := Ok.exists hs
    rw [h] at e'
    cases e'
    exact e
  unfold dimAccSize
  refine Spec.imp (Spec.loop (P := fun k' s => ∃ t, Intp.dimAccSize dims k' = .ok t ∧ s = t % wordSize) (Nat.zero_le _) ⟨1, rfl, by decide⟩ ?_) (fun a h => h)
  rintro i s - hi ⟨t, ht, rfl⟩
  rw [subM_ok (by omega), ok_bind, dimGet_ok dims (show D - (i + 1) < D by omega), ok_bind]
  refine Spec.pure ⟨t * dims ⟨D - (i + 1), by omega⟩, ?_, by unfold mul; rw [Nat.mod_mul_mod]⟩
  rw [dimAccSize_ok dims (by omega)] at ht ⊢
  cases ht
  congr 1
  set d : Fin D := ⟨D - (i + 1), by omega⟩
  rw [← Finset.prod_erase_mul _ _ (mem_univ d), ← Finset.prod_erase_mul (a := d) univ (fun e => if D - i ≤ e.val then dims e else 1) (mem_univ d)]
  rw [if_pos (show D - (i + 1) ≤ d.val from le_refl (D - (i + 1))), if_neg (show ¬ D - i ≤ d.val by show ¬ D - i ≤ D - (i + 1); omega), mul_one]
  congr 1
  apply Finset.prod_congr rfl
  intro e he
  have hne : e.val ≠ D - (i + 1) := fun h => Finset.ne_of_mem_erase he (Fin.ext h)
  by_cases h : D - i ≤ e.val
  · rw [if_pos h, if_pos (by omega)]
  · rw [if_neg h, if_neg (by omega)]

theorem dimAccSize_stride (dims : Fin D → ℕ) (d : Fin D) : dimAccSize dims (D - (d.val + 1)) = .ok (stride dims d % wordSize) := by
  have h1 := dimAccSize_mod dims (show D - (d.val + 1) ≤ D by omega)
  have h2 := Intp.dimAccSize_stride dims d
  rw [dimAccSize_ok dims (by omega)] at h2
  rw [h1, Except.ok.inj h2]

/-! ## where the end of a line is -/

theorem indexing_succ_lt : ∀ {D : ℕ} {dims a : Fin D → ℕ}, InRange dims a → (Intp.indexing dims a + 1 < ∏ d, dims d ↔ ∃ e, a e + 1 < dims e)
  | 0, dims, a, _ => by
    rw [indexing_zero]
    constructor
    · intro h; simp at h
    · rintro ⟨e, -⟩; exact e.elim0
  | D + 1, dims, a, h => by
    have ih := indexing_succ_lt (dims := fun i => dims i.castSucc) (a := fun i => a i.castSucc) fun d => h _
    have hlt := indexing_lt (dims := fun i => dims i.castSucc) (a := fun i => a i.castSucc) fun d => h _
    have hl := h (Fin.last D)
    rw [indexing_succ, Fin.prod_univ_castSucc]
    set I := Intp.indexing (fun i => dims i.castSucc) (fun i => a i.castSucc)
    set P := ∏ i : Fin D, dims i.castSucc
    set n := dims (Fin.last D)
    rw [Fin.exists_fin_succ']
    obtain ⟨k, hk⟩ : ∃ k, P = I + 1 + k := ⟨P - (I + 1), by omega⟩
    rw [hk] at ih ⊢
    rcases Nat.eq_zero_or_pos k with rfl | hk0
    · have : ¬ ∃ e : Fin D, a e.castSucc + 1 < dims e.castSucc := fun h => by have := ih.2 h; omega
      constructor
      · intro h1
        refine .inr ?_
        have : (I + 1 + 0) * n = n * I + n := by ring
        omega
      · rintro (h1 | h1)
        · exact absurd h1 this
        · have : (I + 1 + 0) * n = n * I + n := by ring
          omega
    · refine ⟨fun _ => .inl (ih.1 (by omega)), fun _ => ?_⟩
      obtain ⟨k, rfl⟩ : ∃ j, k = j + 1 := ⟨k - 1, by omega⟩
      have : (I + 1 + (k + 1)) * n = n * I + n + (k + 1) * n := by ring
      have : n ≤ (k + 1) * n := Nat.le_mul_of_pos_left n (by omega)
      omega

/-- The end of a line along `d` is before the end of the buffer exactly if an earlier index is not the last one. -/
theorem lineEnd_lt : ∀ {D : ℕ} {dims a : Fin D → ℕ} (_ : InRange dims a) (d : Fin D),
    (Intp.indexing dims (Function.update a d (dims d)) < ∏ d, dims d ↔ ∃ e < d, a e + 1 < dims e)
  | 0, _, _, _, d => d.elim0
  | D + 1, dims, a, h, d => by
    have hl := h (Fin.last D)
    rw [indexing_succ, Fin.prod_univ_castSucc]
    refine Fin.lastCases ?_ (fun d => ?_) d
    · have ih := indexing_succ_lt (dims := fun i => dims i.castSucc) (a := fun i => a i.castSucc) fun d => h _
      rw [Function.update_self, show (fun i : Fin D => Function.update a (Fin.last D) (dims (Fin.last D)) i.castSucc) = fun i => a i.castSucc from
        funext fun i => Function.update_of_ne (Fin.castSucc_lt_last i).ne _ _, Fin.exists_fin_succ']
      simp only [lt_irrefl, false_and, or_false, Fin.castSucc_lt_last, true_and]
      rw [← ih]
      set I := Intp.indexing (fun i => dims i.castSucc) (fun i => a i.castSucc)
      rw [mul_comm _ (dims (Fin.last D)), show dims (Fin.last D) + dims (Fin.last D) * I = dims (Fin.last D) * (I + 1) by ring]
      exact Nat.mul_lt_mul_left (by omega)
    · have ih := lineEnd_lt (dims := fun i => dims i.castSucc) (a := fun i => a i.castSucc) (fun d => h _) d
      rw [Function.update_of_ne (Fin.castSucc_lt_last d).ne', show (fun i : Fin D => Function.update a d.castSucc (dims d.castSucc) i.castSucc) =
        Function.update (fun i => a i.castSucc) d (dims d.castSucc) from funext fun i => by
          by_cases hi : i = d
          · subst hi; simp
          · rw [Function.update_of_ne hi, Function.update_of_ne (fun hh => hi (Fin.castSucc_injective _ hh))], Fin.exists_fin_succ']
      have : ¬ Fin.last D < d.castSucc := not_lt.2 (Fin.le_last _)
      simp only [Fin.castSucc_lt_castSucc_iff, this, false_and, or_false]
      rw [← ih]
      set I := Intp.indexing (fun i => dims i.castSucc) (Function.update (fun i => a i.castSucc) d (dims d.castSucc))
      set P := ∏ i : Fin D, dims i.castSucc
      set n := dims (Fin.last D)
      constructor
      · intro h1
        by_contra h2
        have : P * n ≤ n * I := by rw [mul_comm]; exact Nat.mul_le_mul_left _ (not_lt.1 h2)
        omega
      · intro h1
        have : n * (I + 1) ≤ P * n := by rw [mul_comm P]; exact Nat.mul_le_mul_left _ h1
        have : n * (I + 1) = n * I + n := by ring
        omega

/-- The end of a line along `d` is inside the buffer or at its end exactly if an earlier index is not the last one or all later ones are zero. -/
theorem lineEnd_le : ∀ {D : ℕ} {dims a : Fin D → ℕ} (_ : InRange dims a) (d : Fin D),
    (Intp.indexing dims (Function.update a d (dims d)) ≤ ∏ d, dims d ↔ (∃ e < d, a e + 1 < dims e) ∨ ∀ e > d, a e = 0)
  | 0, _, _, _, d => d.elim0
  | D + 1, dims, a, h, d => by
    have hl := h (Fin.last D)
    have hlt := lineEnd_lt h d
    rw [indexing_succ, Fin.prod_univ_castSucc] at *
    revert hlt
    refine Fin.lastCases ?_ (fun d => ?_) d
    · intro _
      have ih := indexing_lt (dims := fun i => dims i.castSucc) (a := fun i => a i.castSucc) fun d => h _
      rw [Function.update_self, show (fun i : Fin D => Function.update a (Fin.last D) (dims (Fin.last D)) i.castSucc) = fun i => a i.castSucc from
        funext fun i => Function.update_of_ne (Fin.castSucc_lt_last i).ne _ _]
      set I := Intp.indexing (fun i => dims i.castSucc) (fun i => a i.castSucc)
      refine iff_of_true ?_ (.inr fun e he => absurd he (not_lt.2 (Fin.le_last _)))
      rw [mul_comm _ (dims (Fin.last D)), show dims (Fin.last D) + dims (Fin.last D) * I = dims (Fin.last D) * (I + 1) by ring]
      exact Nat.mul_le_mul_left _ ih
    · intro hlt
      have ih := lineEnd_le (dims := fun i => dims i.castSucc) (a := fun i => a i.castSucc) (fun d => h _) d
      have ihlt := lineEnd_lt (dims := fun i => dims i.castSucc) (a := fun i => a i.castSucc) (fun d => h _) d
      have e1 : (∃ e < d.castSucc, a e + 1 < dims e) ↔ ∃ e < d, a e.castSucc + 1 < dims e.castSucc := by
        rw [Fin.exists_fin_succ']
        have : ¬ Fin.last D < d.castSucc := not_lt.2 (Fin.le_last _)
        simp only [Fin.castSucc_lt_castSucc_iff, this, false_and, or_false]
      have e2 : (∀ e > d.castSucc, a e = 0) ↔ (∀ e > d, a e.castSucc = 0) ∧ a (Fin.last D) = 0 := by
        rw [Fin.forall_fin_succ']
        simp only [gt_iff_lt, Fin.castSucc_lt_castSucc_iff, Fin.castSucc_lt_last, true_imp_iff]
      rw [e1, e2]
      rw [Function.update_of_ne (Fin.castSucc_lt_last d).ne', show (fun i : Fin D => Function.update a d.castSucc (dims d.castSucc) i.castSucc) =
        Function.update (fun i => a i.castSucc) d (dims d.castSucc) from funext fun i => by
          by_cases hi : i = d
          · subst hi; simp
          · rw [Function.update_of_ne hi, Function.update_of_ne (fun hh => hi (Fin.castSucc_injective _ hh))]]
      set I := Intp.indexing (fun i => dims i.castSucc) (Function.update (fun i => a i.castSucc) d (dims d.castSucc))
      set P := ∏ i : Fin D, dims i.castSucc
      set n := dims (Fin.last D)
      have hn : 0 < n := by omega
      by_cases hE : ∃ e < d, a e.castSucc + 1 < dims e.castSucc
      · refine iff_of_true ?_ (.inl hE)
        have h1 := ihlt.2 hE
        have : n * (I + 1) ≤ P * n := by rw [mul_comm P]; exact Nat.mul_le_mul_left _ h1
        have : n * (I + 1) = n * I + n := by ring
        omega
      · have h1 : P ≤ I := by by_contra h1; exact hE (ihlt.1 (by omega))
        simp only [hE, false_or] at ih ⊢
        rw [← ih]
        constructor
        · intro h2
          have h3 : n * P ≤ n * I := Nat.mul_le_mul_left _ h1
          rw [mul_comm P] at h2
          exact ⟨Nat.le_of_mul_le_mul_left (by omega : n * I ≤ n * P) hn, by omega⟩
        · rintro ⟨h2, h3⟩
          rw [h3, mul_comm P, zero_add]
          exact Nat.mul_le_mul_left _ h2

end Intp.Word
