import Verif.BSpline
import Mathlib.Data.Set.Function

/-! # `localIndices` enumerates index tuples -/

namespace Intp

variable {D : ℕ}

/-- Pure version of the decoding loop. -/
def digs (n : ℕ) : List (Fin D) → (Fin D → ℕ) → ℕ → Fin D → ℕ
  | [], a, _ => a
  | d :: l, a, i => digs n l (Function.update a d (i % n)) (i / n)

/-- Inverse of `digs`. -/
def enc (n : ℕ) : List (Fin D) → (Fin D → ℕ) → ℕ
  | [], _ => 0
  | d :: l, a => a d + n * enc n l a

theorem digs_notMem {n : ℕ} : ∀ {l : List (Fin D)} {a : Fin D → ℕ} {i : ℕ} {d : Fin D}, d ∉ l → digs n l a i d = a d
  | [], _, _, _, _ => rfl
  | e :: l, a, i, d, h => by
    rw [digs, digs_notMem (by simp_all), Function.update_of_ne (by simp_all)]

theorem digs_lt {n : ℕ} (hn : 0 < n) : ∀ {l : List (Fin D)} {a : Fin D → ℕ} {i : ℕ} {d : Fin D}, d ∈ l → digs n l a i d < n
  | e :: l, a, i, d, h => by
    rw [digs]
    by_cases hd : d ∈ l
    · exact digs_lt hn hd
    · rw [digs_notMem hd]
      obtain rfl : d = e := by simpa [hd] using h
      rw [Function.update_self]; exact Nat.mod_lt _ hn

theorem enc_digs {n : ℕ} : ∀ {l : List (Fin D)}, l.Nodup → ∀ (a : Fin D → ℕ) (i : ℕ), enc n l (digs n l a i) = i % n ^ l.length
  | [], _, a, i => by simp [enc, Nat.mod_one]
  | d :: l, h, a, i => by
    rw [List.nodup_cons] at h
    rw [enc, digs, digs_notMem h.1, Function.update_self, enc_digs h.2, List.length_cons, pow_succ', Nat.mod_mul]

theorem enc_lt {n : ℕ} : ∀ {l : List (Fin D)} {a : Fin D → ℕ}, (∀ d ∈ l, a d < n) → enc n l a < n ^ l.length
  | [], a, _ => by simp [enc]
  | d :: l, a, h => by
    rw [enc, List.length_cons, pow_succ']
    have h1 := h d (by simp)
    have h2 := enc_lt (l := l) (a := a) (fun e he => h e (by simp [he]))
    calc a d + n * enc n l a < n + n * enc n l a := by omega
      _ = n * (enc n l a + 1) := by ring
      _ ≤ n * n ^ l.length := Nat.mul_le_mul_left _ h2

theorem enc_inj {n : ℕ} : ∀ {l : List (Fin D)} {a a' : Fin D → ℕ}, (∀ d ∈ l, a d < n) → (∀ d ∈ l, a' d < n) →
    enc n l a = enc n l a' → ∀ d ∈ l, a d = a' d
  | [], _, _, _, _, _ => by simp
  | e :: l, a, a', h, h', heq => by
    rw [enc, enc] at heq
    have h1 := h e (by simp)
    have h2 := h' e (by simp)
    have hn : 0 < n := by omega
    have e1 : a e = a' e := by
      have := congrArg (· % n) heq
      simpa [Nat.add_mul_mod_self_left, Nat.mod_eq_of_lt h1, Nat.mod_eq_of_lt h2] using this
    have e2 : enc n l a = enc n l a' := by
      rw [e1] at heq
      exact Nat.eq_of_mul_eq_mul_left hn (by omega)
    intro d hd
    rcases List.mem_cons.1 hd with rfl | hd
    · exact e1
    · exact enc_inj (fun d hd => h d (by simp [hd])) (fun d hd => h' d (by simp [hd])) e2 d hd

/-- The axes that are decoded. -/
def freeAxes (skip : Fin D → Bool) : List (Fin D) := (List.finRange D).filter fun d => !skip d

theorem localIndices_ok {n : ℕ} (hn : 0 < n) (skip : Fin D → Bool) (i : ℕ) :
    BSpline.localIndices n skip i = .ok (digs n (freeAxes skip) (fun _ => 0) i) := by
  unfold BSpline.localIndices freeAxes
  have key : ∀ (l : List (Fin D)) (a : Fin D → ℕ) (i : ℕ), ∃ q, l.foldlM (fun (acc : (Fin D → ℕ) × ℕ) d =>
      if skip d then pure acc
      else do
        let m ← modM acc.2 n
        let q ← divN acc.2 n
        pure (Function.update acc.1 d m, q)) (a, i) =
      (.ok (digs n (l.filter fun d => !skip d) a i, q) : M _) := by
    intro l
    induction l with
    | nil => intro a i; exact ⟨i, rfl⟩
    | cons d l ih =>
      intro a i
      rw [List.foldlM_cons]
      by_cases hs : skip d = true
      · obtain ⟨q, hq⟩ := ih a i
        refine ⟨q, ?_⟩
        rw [if_pos hs, pure_eq_ok, ok_bind, hq, List.filter_cons_of_neg (by simp [hs])]
      · obtain ⟨q, hq⟩ := ih (Function.update a d (i % n)) (i / n)
        refine ⟨q, ?_⟩
        rw [if_neg hs, modM_ok (by omega), ok_bind, divN_ok (by omega), ok_bind, pure_eq_ok, ok_bind, hq,
          List.filter_cons_of_pos (by simp [hs])]
        rfl
  obtain ⟨q, hq⟩ := key (List.finRange D) (fun _ => 0) i
  rw [hq]; rfl

theorem digs_bijOn {n : ℕ} (hn : 0 < n) (skip : Fin D → Bool) :
    Set.BijOn (digs n (freeAxes skip) (fun _ => 0)) (Set.Iio (n ^ (freeAxes skip).length))
      {a | ∀ d, if skip d then a d = 0 else a d < n} := by
  have hnd : (freeAxes skip).Nodup := (List.nodup_finRange D).filter _
  have hmem : ∀ d, d ∈ freeAxes skip ↔ skip d = false := by intro d; simp [freeAxes]
  refine ⟨fun i _ d => ?_, fun i hi j hj h => ?_, fun a ha => ?_⟩
  · by_cases hs : skip d = true
    · rw [if_pos hs]; exact digs_notMem (by rw [hmem]; simp [hs])
    · rw [if_neg hs]; exact digs_lt hn (by rw [hmem]; simpa using hs)
  · have := congrArg (enc n (freeAxes skip)) h
    rw [enc_digs hnd, enc_digs hnd, Nat.mod_eq_of_lt hi, Nat.mod_eq_of_lt hj] at this
    exact this
  · have hb : ∀ d ∈ freeAxes skip, a d < n := by
      intro d hd
      have := ha d
      rw [hmem] at hd
      simpa [hd] using this
    refine ⟨enc n (freeAxes skip) a, enc_lt hb, ?_⟩
    funext d
    by_cases hd : d ∈ freeAxes skip
    · refine enc_inj (fun d hd => digs_lt hn hd) hb ?_ d hd
      rw [enc_digs hnd, Nat.mod_eq_of_lt (enc_lt hb)]
    · rw [digs_notMem hd]
      have h1 := ha d
      rw [hmem] at hd
      have h2 : skip d = true := by simpa using hd
      rw [if_pos h2] at h1
      exact h1.symm

theorem freeAxes_none_length : (freeAxes (fun _ : Fin D => false)).length = D := by simp [freeAxes]

theorem freeAxes_one_length (d : Fin D) : (freeAxes (fun dd => decide (dd = d))).length = D - 1 := by
  unfold freeAxes
  have h1 : (List.finRange D).filter (fun x => !decide (x = d)) = (List.finRange D).erase d := by
    rw [List.Nodup.erase_eq_filter (List.nodup_finRange D)]
    congr 1
  rw [h1, List.length_erase_of_mem (List.mem_finRange d), List.length_finRange]

end Intp
