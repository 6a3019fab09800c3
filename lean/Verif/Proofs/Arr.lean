import Verif.BSpline

/-! # Buffers given by a function; left-to-right initialiser lists -/

namespace Intp

variable {α : Type}

/-- The buffer `f 0, …, f (n-1)`. -/
def arr (n : ℕ) (f : ℕ → α) : List α := (List.range n).map f

@[simp] theorem arr_length (n : ℕ) (f : ℕ → α) : (arr n f).length = n := by simp [arr]

theorem arr_get? {n i : ℕ} (f : ℕ → α) (h : i < n) : (arr n f)[i]? = some (f i) := by
  simp [arr, h]

theorem rd_arr {n i : ℕ} (f : ℕ → α) (h : i < n) : rd (arr n f) i = .ok (f i) :=
  rd_eq_ok_iff.2 (arr_get? f h)

theorem arr_congr {n : ℕ} {f g : ℕ → α} (h : ∀ i, i < n → f i = g i) : arr n f = arr n g := by
  unfold arr
  exact List.map_congr_left fun i hi => h i (List.mem_range.1 hi)

theorem wr_arr {n i : ℕ} (f : ℕ → α) (v : α) (h : i < n) :
    wr (arr n f) i v = .ok (arr n (Function.update f i v)) := by
  rw [wr_ok (by simpa using h)]
  congr 1
  apply List.ext_getElem?
  intro k
  by_cases hk : k < n
  · rw [arr_get? _ hk, List.getElem?_set]
    by_cases hki : i = k
    · subst hki; simp [h]
    · rw [if_neg hki, arr_get? f hk, Function.update_of_ne (Ne.symm hki)]
  · rw [List.getElem?_eq_none (by simp; omega), List.getElem?_eq_none (by simp; omega)]

theorem eq_arr_of_get? {n : ℕ} {f : ℕ → α} {l : List α} (hl : l.length = n) (h : ∀ i, i < n → l[i]? = some (f i)) :
    l = arr n f := by
  apply List.ext_getElem?
  intro k
  by_cases hk : k < n
  · rw [h k hk, arr_get? f hk]
  · rw [List.getElem?_eq_none (by omega), List.getElem?_eq_none (by simp; omega)]

theorem list_eq_arr [Inhabited α] (l : List α) : l = arr l.length (fun i => l.getD i default) :=
  eq_arr_of_get? rfl fun i hi => by simp [hi]

theorem tabM_ok {D : ℕ} {f : Fin D → M α} {g : Fin D → α} (h : ∀ d, f d = .ok (g d)) : tabM f = .ok g := by
  induction D with
  | zero => unfold tabM; congr 1; funext d; exact d.elim0
  | succ D ih =>
    unfold tabM
    rw [h 0, ok_bind, ih (g := fun d => g d.succ) (fun d => h d.succ), ok_bind]
    congr 1
    funext d
    refine Fin.cases ?_ ?_ d <;> simp

theorem tabM_spec {D : ℕ} {f : Fin D → M α} {Q : Fin D → α → Prop} {E : Err → Prop} (h : ∀ d, Spec (f d) (Q d) E) :
    Spec (tabM f) (fun g => ∀ d, Q d (g d)) E := by
  induction D with
  | zero => unfold tabM; exact fun d => d.elim0
  | succ D ih =>
    unfold tabM
    refine Spec.bind (h 0) fun x hx => Spec.bind (ih (Q := fun d => Q d.succ) (fun d => h d.succ)) fun r hr => ?_
    refine Spec.pure fun d => ?_
    refine Fin.cases ?_ ?_ d
    · simpa using hx
    · intro i; simpa using hr i

theorem tabM_ok_inv {D : ℕ} {f : Fin D → M α} {g : Fin D → α} (h : tabM f = .ok g) : ∀ d, f d = .ok (g d) := by
  induction D with
  | zero => intro d; exact d.elim0
  | succ D ih =>
    unfold tabM at h
    cases h0 : f 0 with
    | error e => rw [h0] at h; simp at h
    | ok x =>
      rw [h0, ok_bind] at h
      cases h1 : (tabM fun d => f d.succ) with
      | error e => rw [h1] at h; simp at h
      | ok r =>
        rw [h1, ok_bind] at h
        have hg : g = Fin.cons x r := by simpa [pure_eq_ok] using h.symm
        subst hg
        intro d
        refine Fin.cases ?_ ?_ d
        · simpa using h0
        · intro i; simpa using ih h1 i

theorem itAdd_ok {len pos : ℕ} {off : ℤ} {r : ℕ} (h : (pos : ℤ) + off = r) (hr : r ≤ len) : itAdd len pos off = .ok r := by
  unfold itAdd
  rw [h, if_pos ⟨by omega, by omega⟩]
  simp

theorem rd_knot {K : Type} [Field K] {t : List K} {i : ℕ} (h : i < t.length) : rd t i = .ok (t.getD i 0) := by
  rw [rd_ok h, List.getD_eq_getElem?_getD, List.getElem?_eq_getElem h]; rfl

end Intp
