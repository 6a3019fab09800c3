import Verif.Proofs.FlAssemble
import Verif.Proofs.Construct

/-!
# Matrix of a periodic dimension, over arbitrary arithmetic
-/

namespace Intp.Fl

open CoordArith ScaleArith

variable {K V : Type} [CoordArith K] [ValArith V] [ScaleArith K V] {D : ℕ}

/-- How far column `J` is behind column `i`, in the cyclic order of `N` columns. -/
def colDist (N i J : ℕ) : ℕ := (J + (N - i)) % N

theorem colDist_iff {N i J j : ℕ} (hi : i < N) (hJ : J < N) (hj : j < N) : colDist N i J = j ↔ J = (i + j) % N := by
  unfold colDist
  have m1 : (J + (N - i)) % N = if i ≤ J then J - i else J + (N - i) := by
    split
    · rw [Nat.mod_eq_sub_mod (by omega), Nat.mod_eq_of_lt (by omega)]; omega
    · exact Nat.mod_eq_of_lt (by omega)
  have m2 : (i + j) % N = if i + j < N then i + j else i + j - N := by
    split
    · rename_i hc; exact Nat.mod_eq_of_lt hc
    · rw [Nat.mod_eq_sub_mod (by omega), Nat.mod_eq_of_lt (by omega)]
  rw [m1, m2]
  split <;> split <;> omega

/-- The places of a row are stored. -/
theorem per_inPat {o N i j : ℕ} (hi : i < N) (hj : j < 2 * (o / 2) + 1) (hN : 2 * (o / 2) + 1 ≤ N) :
    InPat N (o / 2) (o / 2) ((i + o / 2) % N) ((i + j) % N) := by
  have m1 : (i + o / 2) % N = if i + o / 2 < N then i + o / 2 else i + o / 2 - N := by
    split
    · rename_i hc; exact Nat.mod_eq_of_lt hc
    · rw [Nat.mod_eq_sub_mod (by omega), Nat.mod_eq_of_lt (by omega)]
  have m2 : (i + j) % N = if i + j < N then i + j else i + j - N := by
    split
    · rename_i hc; exact Nat.mod_eq_of_lt hc
    · rw [Nat.mod_eq_sub_mod (by omega), Nat.mod_eq_of_lt (by omega)]
  rw [m1, m2]
  unfold InPat InBand InSide
  split <;> split <;> omega

/-- One row of values written into a row of zeros of an extended band matrix. -/
theorem rowWrite_per {w : Bool} {c : Cfg} {o N i : ℕ} {m : ExtBandMatrix K} {A : ℕ → ℕ → K} {vals : List K} (hm : m.Rep N (o / 2) (o / 2) A)
    (hi : i < N) (hN : 2 * (o / 2) + 1 ≤ N) (hs : 2 * (o / 2) + 1 ≤ vals.length) (h0 : ∀ j, A ((i + o / 2) % N) j = 0) :
    Ok (rowWrite w c o N i (i + o) (2 * (o / 2) + 1) true vals (.ext m)) fun m' => ∃ bm, m' = .ext bm ∧ bm.Rep N (o / 2) (o / 2) fun r J =>
      if r = (i + o / 2) % N then (if colDist N i J < 2 * (o / 2) + 1 then vals.getD (colDist N i J) 0 else 0) else A r J := by
  unfold rowWrite
  refine Spec.imp (Spec.loop (P := fun k m' => ∃ bm, m' = CoefMat.ext bm ∧ bm.Rep N (o / 2) (o / 2) fun r J =>
      if r = (i + o / 2) % N then (if colDist N i J < k then vals.getD (colDist N i J) 0 else 0) else A r J) (Nat.zero_le _) ⟨m, rfl, ?_⟩ ?_) fun _ h => h
  · refine hm.congr fun r J _ _ _ => ?_
    by_cases hr : r = (i + o / 2) % N
    · rw [if_pos hr, if_neg (by omega), hr, h0]
    · rw [if_neg hr]
  · rintro k m' _ hk ⟨bm, rfl, hbm⟩
    have hb : bandWidth o true = o / 2 := rfl
    rw [if_pos rfl, hb, modM_ok (by omega), ok_bind, subM_ok (by omega), ok_bind, modM_ok (by omega), ok_bind, rd_ok (by omega), ok_bind]
    rw [show i + o - o + k = i + k by omega]
    unfold matSet
    obtain ⟨m'', e, hm''⟩ := hbm.set c (i := (i + o / 2) % N) (j := (i + k) % N) (Nat.mod_lt _ (by omega)) (Nat.mod_lt _ (by omega)) (per_inPat hi hk hN)
      (vals[k]'(by omega))
    simp only [e, ok_bind]
    refine Spec.pure ⟨m'', rfl, hm''.congr fun r J _ hJ _ => ?_⟩
    unfold upd2
    by_cases hr : r = (i + o / 2) % N
    · by_cases hJ' : J = (i + k) % N
      · rw [if_pos ⟨hr, hJ'⟩, if_pos hr, (colDist_iff hi hJ (show k < N by omega)).2 hJ', if_pos (by omega), List.getD_eq_getElem?_getD,
          List.getElem?_eq_getElem (by omega)]
        rfl
      · rw [if_neg (fun h => hJ' h.2)]
        simp only [if_pos hr]
        have hne : colDist N i J ≠ k := fun hc => hJ' ((colDist_iff hi hJ (show k < N by omega)).1 hc)
        by_cases h1 : colDist N i J < k
        · rw [if_pos h1, if_pos (by omega)]
        · rw [if_neg h1, if_neg (by omega)]
    · rw [if_neg (fun h => hr h.1)]
      simp only [if_neg hr]

/-- The matrix of a periodic dimension with values `v i` for data point `i`. -/
def perMat (o N : ℕ) (v : ℕ → List K) (r J : ℕ) : K :=
  if colDist N (nodeOfRow o true N r) J < 2 * (o / 2) + 1 then (v (nodeOfRow o true N r)).getD (colDist N (nodeOfRow o true N r) J) 0 else 0

/-- Matrix of a periodic dimension. -/
theorem assemble_per {w : Bool} {c : Cfg} {f : InterpFn D K V} {coords : List K} {d : Fin D} {o N : ℕ} {vals : List K} {v : ℕ → List K}
    {Inv : List K → Prop} (ho : f.spline.order = o) (hp : f.periodicity d = true) (hN : 2 * (o / 2) + 1 ≤ N) (h0 : Inv vals)
    (hrow : ∀ i, i < N → ∀ vals, Inv vals → rowData f coords d i vals = .ok (i + o, v i) ∧ Inv (v i)) (hlen : ∀ i, i < N → (v i).length = o + 1) :
    Ok (assemble w c f coords d N vals) fun m => ∃ bm, m = .ext bm ∧ bm.Rep N (o / 2) (o / 2) (perMat o N v) := by
  unfold assemble coefMat
  rw [hp, ho, if_pos rfl]
  have hb : bandWidth o true = o / 2 := rfl
  rw [hb]
  obtain ⟨m0, e0, r0⟩ := ExtBandMatrix.mk'_rep (K := K) (n := N) (p := o / 2) (q := o / 2) (by omega) (by omega)
  rw [e0]
  simp only [ok_bind, pure_bind]
  refine Spec.bind (Q := fun st : CoefMat K × List K => ∃ bm, st.1 = .ext bm ∧ bm.Rep N (o / 2) (o / 2) (perMat o N v)) ?_ fun st hst => Spec.pure hst
  refine Spec.imp (Spec.loop (P := fun k (st : CoefMat K × List K) => Inv st.2 ∧ ∃ bm, st.1 = .ext bm ∧ bm.Rep N (o / 2) (o / 2) fun r J =>
    if nodeOfRow o true N r < k then perMat o N v r J else 0) (Nat.zero_le _) ⟨h0, _, rfl, ?_⟩ ?_) ?_
  · exact r0.congr fun i j _ _ _ => (if_neg (by omega)).symm
  · rintro i ⟨m, vs⟩ _ hi ⟨hvs, bm, hm, hbm⟩
    simp only at hm hvs
    subst hm
    have hnode : nodeOfRow o true N ((i + o / 2) % N) = i := nodeOfRow_shift (per := true) hi
    unfold assembleBody
    rw [hp, ho, if_neg (fun h => nomatch h.1), isInternal_ok (by omega), ok_bind, (hrow i hi _ hvs).1, ok_bind]
    simp only
    rw [show sNum o true (f.uniform d) (decide (o / 2 < i ∧ i < N - (o / 2 + 1))) = 2 * (o / 2) + 1 by unfold sNum; rw [if_pos rfl, or_one_eq]]
    refine Spec.bind (rowWrite_per hbm hi hN (by rw [hlen i hi]; omega) (fun j => if_neg (by rw [hnode]; omega))) ?_
    rintro m' ⟨bm', rfl, hbm'⟩
    refine Spec.pure ⟨(hrow i hi _ hvs).2, bm', rfl, hbm'.congr fun r J hr _ _ => ?_⟩
    by_cases hri : r = (i + o / 2) % N
    · rw [if_pos hri, hri, hnode, if_pos (show i < i + 1 by omega)]
      unfold perMat
      rw [hnode]
    · rw [if_neg hri]
      have hne : nodeOfRow o true N r ≠ i := fun hc => hri (by rw [← hc]; exact (row_nodeOfRow (per := true) hr).2.symm)
      by_cases h2 : nodeOfRow o true N r < i
      · simp only [if_pos h2, if_pos (show nodeOfRow o true N r < i + 1 by omega)]
      · simp only [if_neg h2, if_neg (show ¬ nodeOfRow o true N r < i + 1 by omega)]
  · rintro st ⟨-, bm, h1, h2⟩
    exact ⟨bm, h1, h2.congr fun i j hi _ _ => if_pos (row_nodeOfRow (per := true) hi).1⟩

end Intp.Fl
