import Verif.InterpolationTemplate
import Verif.Proofs.Axis
import Verif.Proofs.BandLULemmas
import Verif.Proofs.Smooth

/-!
# The assembled matrix of one dimension is the collocation matrix
-/

namespace Intp

open Finset

variable {K V : Type} [Field K] [LinearOrder K] [IsStrictOrderedRing K] [FloorRing K] [AddCommGroup V] [Module K V] {D : ℕ}

theorem or_one_eq (o : ℕ) : o ||| 1 = 2 * (o / 2) + 1 := by
  apply Nat.eq_of_testBit_eq
  intro i
  rw [Nat.testBit_or]
  cases i with
  | zero => simp [Nat.testBit_zero]
  | succ i =>
    have h1 : (2 * (o / 2) + 1) / 2 = o / 2 := by omega
    rw [Nat.testBit_succ, Nat.testBit_succ, Nat.testBit_succ, h1]
    simp

/-- Entries stored by the matrix of a dimension. -/
def CoefMat.Pat (per : Bool) (n bw i j : ℕ) : Prop := if per then InPat n bw bw i j else InBand bw bw i j

/-- `m` holds the `n × n` matrix `A`. -/
def CoefMat.Rep (per : Bool) (n bw : ℕ) (m : CoefMat K) (A : ℕ → ℕ → K) : Prop :=
  (match m with
    | .band m => per = false ∧ BandMatrix.Rep n bw bw m A
    | .ext m => per = true ∧ ExtBandMatrix.Rep n bw bw m A) ∧
  ∀ i j, i < n → j < n → ¬ CoefMat.Pat per n bw i j → A i j = 0

omit [IsStrictOrderedRing K] [FloorRing K] [LinearOrder K] in
theorem CoefMat.mk'_rep {per : Bool} {n bw : ℕ} (h : per = true → bw < n) :
    ∃ m : CoefMat K, CoefMat.mk' per n bw = .ok m ∧ CoefMat.Rep per n bw m fun _ _ => 0 := by
  unfold CoefMat.mk'
  cases per with
  | true =>
    obtain ⟨m, h1, h2⟩ := ExtBandMatrix.mk'_rep (K := K) (h rfl) (h rfl)
    refine ⟨.ext m, ?_, ⟨rfl, h2⟩, fun _ _ _ _ _ => rfl⟩
    simp [h1, ok_bind, pure_eq_ok]
  | false => exact ⟨.band (BandMatrix.mk' n bw bw), rfl, ⟨rfl, BandMatrix.rep_mk' n bw bw⟩, fun _ _ _ _ _ => rfl⟩

omit [IsStrictOrderedRing K] [FloorRing K] [LinearOrder K] in
theorem CoefMat.Rep.set (c : Cfg) {per : Bool} {n bw : ℕ} {m : CoefMat K} {A : ℕ → ℕ → K} (h : CoefMat.Rep per n bw m A) {i j : ℕ}
    (hi : i < n) (hj : j < n) (hp : CoefMat.Pat per n bw i j) (v : K) :
    ∃ m', m.set c i j v = .ok m' ∧ CoefMat.Rep per n bw m' (upd2 A i j v) := by
  have hz : ∀ i' j', i' < n → j' < n → ¬ CoefMat.Pat per n bw i' j' → upd2 A i j v i' j' = 0 := by
    intro i' j' h1 h2 h3
    unfold upd2
    rw [if_neg, h.2 i' j' h1 h2 h3]
    rintro ⟨rfl, rfl⟩
    exact h3 hp
  unfold CoefMat.set
  cases m with
  | band m =>
    obtain ⟨⟨rfl, h1⟩, _⟩ := h
    obtain ⟨m', e, r⟩ := h1.set c hi hj (by simpa [CoefMat.Pat] using hp) v
    exact ⟨.band m', by simp only [e, ok_bind, pure_eq_ok], ⟨rfl, r⟩, hz⟩
  | ext m =>
    obtain ⟨⟨rfl, h1⟩, _⟩ := h
    obtain ⟨m', e, r⟩ := h1.set c hi hj (by simpa [CoefMat.Pat, InPat] using hp) v
    exact ⟨.ext m', by simp only [e, ok_bind, pure_eq_ok], ⟨rfl, r⟩, hz⟩

omit [IsStrictOrderedRing K] [FloorRing K] [LinearOrder K] in
theorem CoefMat.Rep.congr {per : Bool} {n bw : ℕ} {m : CoefMat K} {A B : ℕ → ℕ → K} (h : CoefMat.Rep per n bw m A)
    (e : ∀ i j, i < n → j < n → A i j = B i j) : CoefMat.Rep per n bw m B := by
  refine ⟨?_, fun i j h1 h2 h3 => by rw [← e i j h1 h2]; exact h.2 i j h1 h2 h3⟩
  cases m with
  | band m => exact ⟨h.1.1, h.1.2.congr fun i j h1 h2 _ => e i j h1 h2⟩
  | ext m => exact ⟨h.1.1, h.1.2.congr fun i j h1 h2 _ => e i j h1 h2⟩

/-- Shift between data points and rows. -/
def rowShift (o : ℕ) (per : Bool) : ℕ := if per then o / 2 else 0

theorem mod_inj {n k i j : ℕ} (hi : i < n) (hj : j < n) (h : (k + i) % n = (k + j) % n) : i = j := by
  have := Nat.ModEq.add_left_cancel' k (h : k + i ≡ k + j [MOD n])
  exact Nat.ModEq.eq_of_lt_of_lt this hi hj

omit [LinearOrder K] [FloorRing K] [IsStrictOrderedRing K] in
theorem rowWrite_spec (c : Cfg) {o n i ki s bw : ℕ} {per : Bool} {m : CoefMat K} {A : ℕ → ℕ → K} {v : ℕ → K} {N : ℕ}
    (hm : CoefMat.Rep per n bw m A) (hn : 0 < n) (hki : o ≤ ki) (hs : s ≤ n) (hsN : s ≤ N)
    (h0 : ∀ J, J < n → A ((i + rowShift o per) % n) J = 0)
    (hpat : ∀ j, j < s → CoefMat.Pat per n bw ((i + rowShift o per) % n) ((ki - o + j) % n)) :
    Ok (rowWrite c o n i ki s per (arr N v) m) fun m' => CoefMat.Rep per n bw m' fun r J =>
      if r = (i + rowShift o per) % n then ∑ j ∈ range s, (if (ki - o + j) % n = J then v j else 0) else A r J := by
  unfold rowWrite
  set row := (i + rowShift o per) % n with hrow
  refine Spec.loop (P := fun k m' => CoefMat.Rep per n bw m' fun r J =>
    if r = row then ∑ j ∈ range k, (if (ki - o + j) % n = J then v j else 0) else A r J) (Nat.zero_le _) ?_ ?_
  · refine hm.congr fun r J _ hJ => ?_
    by_cases hr : r = row
    · rw [if_pos hr, hr, h0 J hJ]; simp
    · rw [if_neg hr]
  · intro k m' _ hk hm'
    have hsh : (if per = true then bandWidth o per else 0) = rowShift o per := by
      cases per <;> rfl
    rw [hsh, modM_ok (by omega), ok_bind, subM_ok hki, ok_bind, modM_ok (by omega), ok_bind, rd_arr _ (by omega), ok_bind]
    obtain ⟨m'', e, hm''⟩ := hm'.set c (Nat.mod_lt _ hn) (Nat.mod_lt _ hn) (hpat k hk) (v k)
    rw [e]
    refine Spec.ok (hm''.congr fun r J _ hJ => ?_)
    unfold upd2
    by_cases hr : r = row
    · simp only [hr, ← hrow, true_and, if_true]
      rw [sum_range_succ]
      by_cases hJk : (ki - o + k) % n = J
      · rw [if_pos hJk.symm, if_pos hJk, sum_eq_zero, zero_add]
        intro j hj
        rw [mem_range] at hj
        rw [if_neg]
        intro hc
        have := mod_inj (by omega) (by omega) (hc.trans hJk.symm)
        omega
      · rw [if_neg (fun h => hJk h.symm), if_neg hJk, add_zero]
    · rw [if_neg (fun h => hr h.1)]
      simp only [if_neg hr]

/-- Collocation row: the weights of the control points at a data point in segment `ki`. -/
def colRow (T : ℕ → K) (o n ki : ℕ) (x : K) (J : ℕ) : K :=
  ∑ a ∈ range (o + 1), if (ki - o + a) % n = J then piece T ki o (ki - o + a) x else 0

omit [LinearOrder K] [FloorRing K] [IsStrictOrderedRing K] in
theorem rowShift_inj {o n : ℕ} {per : Bool} {i j : ℕ} (hi : i < n) (hj : j < n) (h : (i + rowShift o per) % n = (j + rowShift o per) % n) :
    i = j := by
  rw [Nat.add_comm i, Nat.add_comm j] at h
  exact mod_inj hi hj h

theorem isInternal_ok {o n i : ℕ} (h : o / 2 + 1 ≤ n) : isInternal o n i = .ok (decide (o / 2 < i ∧ i < n - (o / 2 + 1))) := by
  unfold isInternal
  by_cases h1 : i > o / 2
  · rw [if_pos h1, subM_ok h, ok_bind, pure_eq_ok]
    congr 1
    have : (i < n - (o / 2 + 1)) ↔ (o / 2 < i ∧ i < n - (o / 2 + 1)) := ⟨fun h => ⟨h1, h⟩, fun h => h.2⟩
    exact decide_eq_decide.2 this
  · rw [if_neg h1, pure_eq_ok]
    congr 1
    symm
    rw [decide_eq_false_iff_not]
    omega

/-- Number of entries written for data point `i`. -/
def sOf (o n : ℕ) (per uni : Bool) (i : ℕ) : ℕ := sNum o per uni (decide (o / 2 < i ∧ i < n - (o / 2 + 1)))

theorem sNum_le (o : ℕ) (per uni inn : Bool) : sNum o per uni inn ≤ o + 1 := by
  unfold sNum
  rw [or_one_eq]
  cases per <;> cases uni <;> cases inn <;> simp <;> (try split) <;> omega

/-- Assembly of the matrix of one dimension from the rows. -/
theorem assemble_spec (c : Cfg) {f : InterpFn D K V} {coords : List K} {d : Fin D} {n : ℕ} {vals : List K} {per : Bool} {o : ℕ} {T : ℕ → K}
    {X : ℕ → K} {ki : ℕ → ℕ} {Inv : ℕ → List K → Prop} (hper : f.periodicity d = per) (ho : f.spline.order = o) (hn : 2 * (o / 2) + 1 ≤ n)
    (hs : ∀ i, i < n → sOf o n per (f.uniform d) i ≤ n)
    (h0 : Inv 0 vals)
    (hkeep : per = false → ∀ i vals, i = 0 ∨ i + 1 = n → Inv i vals → Inv (i + 1) vals)
    (hrow : ∀ i, i < n → ¬ (per = false ∧ (i = 0 ∨ i + 1 = n)) → ∀ vals, Inv i vals →
      rowData f coords d i vals = .ok (ki i, arr (o + 1) fun a => piece T (ki i) o (ki i - o + a) (X i)) ∧
        Inv (i + 1) (arr (o + 1) fun a => piece T (ki i) o (ki i - o + a) (X i)))
    (hki : ∀ i, i < n → o ≤ ki i)
    (hdrop : ∀ i, i < n → ¬ (per = false ∧ (i = 0 ∨ i + 1 = n)) → ∀ a, sOf o n per (f.uniform d) i ≤ a → a ≤ o →
      piece T (ki i) o (ki i - o + a) (X i) = 0)
    (hpat : ∀ i, i < n → ¬ (per = false ∧ (i = 0 ∨ i + 1 = n)) → ∀ j, j < sOf o n per (f.uniform d) i →
      CoefMat.Pat per n (bandWidth o per) ((i + rowShift o per) % n) ((ki i - o + j) % n))
    (hend : per = false → ∀ i, i < n → (i = 0 ∨ i + 1 = n) → ∀ J, J < n → colRow T o n (ki i) (X i) J = if J = i then 1 else 0) :
    ∃ m A, assemble c f coords d n vals = .ok m ∧ CoefMat.Rep per n (bandWidth o per) m A ∧
      ∀ i, i < n → ∀ J, J < n → A ((i + rowShift o per) % n) J = colRow T o n (ki i) (X i) J := by
  have hbw : per = true → bandWidth o per < n := by
    rintro rfl
    show o / 2 < n
    omega
  obtain ⟨m0, e0, r0⟩ := CoefMat.mk'_rep (K := K) hbw
  unfold assemble
  rw [hper, ho, e0, ok_bind]
  have key : Ok (loop 0 n (m0, vals) fun i st => assembleBody c f coords d n i st) fun st =>
      (∃ A, CoefMat.Rep per n (bandWidth o per) st.1 A ∧
        ∀ i, i < n → ∀ J, J < n → A ((i + rowShift o per) % n) J = if i < n then colRow T o n (ki i) (X i) J else 0) ∧ Inv n st.2 := by
    refine Spec.loop (P := fun k (st : CoefMat K × List K) => (∃ A, CoefMat.Rep per n (bandWidth o per) st.1 A ∧
        ∀ i, i < n → ∀ J, J < n → A ((i + rowShift o per) % n) J = if i < k then colRow T o n (ki i) (X i) J else 0) ∧ Inv k st.2)
      (Nat.zero_le _) ⟨⟨_, r0, fun _ _ _ _ => by simp⟩, h0⟩ ?_
    rintro i ⟨m, vals⟩ _ hi ⟨⟨A, hA, hrows⟩, hinv⟩
    simp only at hA hinv
    unfold assembleBody
    simp only [hper, ho]
    by_cases he : per = false ∧ (i = 0 ∨ i + 1 = n)
    · rw [if_pos he]
      obtain ⟨hp, hie⟩ := he
      subst hp
      obtain ⟨m', e, hm'⟩ := hA.set c hi hi (by unfold CoefMat.Pat InBand; simp) 1
      rw [e, ok_bind, pure_eq_ok]
      refine Spec.ok ⟨⟨_, hm', fun i' hi' J hJ => ?_⟩, hkeep rfl i vals hie hinv⟩
      have hr : (i' + rowShift o false) % n = i' := by
        show (i' + 0) % n = i'
        rw [Nat.add_zero, Nat.mod_eq_of_lt hi']
      have := hrows i' hi' J hJ
      rw [hr] at this
      rw [hr]
      unfold upd2
      by_cases hii : i' = i
      · subst hii
        rw [if_pos (c := i' < i' + 1) (by omega), hend rfl i' hi' hie J hJ]
        by_cases hJ' : J = i'
        · rw [if_pos ⟨rfl, hJ'⟩, if_pos hJ']
        · rw [if_neg (fun h => hJ' h.2), if_neg hJ', this, if_neg (by omega)]
      · rw [if_neg (fun h => hii h.1), this]
        by_cases hlt : i' < i
        · rw [if_pos hlt, if_pos (by omega)]
        · rw [if_neg hlt, if_neg (by omega)]
    · rw [if_neg he, isInternal_ok (by omega), ok_bind]
      obtain ⟨e, hinv'⟩ := hrow i hi he vals hinv
      rw [e, ok_bind]
      simp only
      have hsn := sNum_le o per (f.uniform d) (decide (o / 2 < i ∧ i < n - (o / 2 + 1)))
      have hrw := rowWrite_spec c (o := o) (i := i) (ki := ki i) (s := sOf o n per (f.uniform d) i) (N := o + 1)
        (v := fun a => piece T (ki i) o (ki i - o + a) (X i)) hA (by omega) (hki i hi) (hs i hi) hsn ?_ (hpat i hi he)
      · obtain ⟨m', e', hm'⟩ := Ok.exists hrw
        unfold sOf at e'
        rw [e', ok_bind, pure_eq_ok]
        refine Spec.ok ⟨⟨_, hm', fun i' hi' J hJ => ?_⟩, hinv'⟩
        by_cases hii : i' = i
        · subst hii
          rw [if_pos rfl, if_pos (by omega)]
          unfold colRow
          rw [← sum_range_add_sum_Ico _ (show sOf o n per (f.uniform d) i' ≤ o + 1 from hsn), sum_eq_zero (s := Ico _ _), add_zero]
          intro a ha
          rw [mem_Ico] at ha
          rw [hdrop i' hi' he a ha.1 (by omega), ite_self]
        · rw [if_neg, hrows i' hi' J hJ]
          · by_cases hlt : i' < i
            · rw [if_pos hlt, if_pos (by omega)]
            · rw [if_neg hlt, if_neg (by omega)]
          · exact fun h => hii (rowShift_inj hi' hi h)
      · intro J hJ
        rw [hrows i hi J hJ, if_neg (by omega)]
  obtain ⟨⟨m, vals'⟩, e, ⟨A, hA, hr⟩, _⟩ := Ok.exists key
  refine ⟨m, A, ?_, hA, fun i hi J hJ => by rw [hr i hi J hJ, if_pos hi]⟩
  rw [e, ok_bind]; rfl

end Intp
