import Verif.Proofs.FlSweep

/-!
# Matrix of a non-periodic dimension with explicit coordinates, over arbitrary arithmetic
-/

namespace Intp.Fl

open CoordArith ScaleArith

variable {K V : Type} [CoordArith K] [ValArith V] [ScaleArith K V] {D : ℕ}

/-- The last knots are the last coordinate. -/
theorem coordKnotsAperiodic_right {o : ℕ} {l : List K} (ho : 1 ≤ o) (h : o + 1 ≤ l.length) :
    Spec (coordKnotsAperiodic o l) (fun r => ∀ u, l.length ≤ u → u ≤ l.length + o → r.1[u]? = l[l.length - 1]?) (fun _ => True) := by
  unfold coordKnotsAperiodic
  dsimp only
  rw [rd_ok (show 0 < l.length by omega), ok_bind]
  refine Spec.bind (Spec.loopC (P := fun xs : List K => xs.length = l.length + (o + 1)) (by simp; omega) fun i xs _ hi hx => ?_) fun xs hx => ?_
  · rw [wr_ok (by omega)]; exact Spec.ok (List.length_set.trans hx)
  refine Spec.bind (Spec.loopN (P := fun i (st : CoordSt K) => st.pos + 1 = i ∧ st.xs.length = l.length + (o + 1)) ho ⟨rfl, hx⟩
    fun i st hi1 hi2 ⟨p1, p2⟩ => ?_) fun st ⟨p1, p2⟩ => ?_
  · rw [rd_ok (show st.pos + 1 < l.length by omega), ok_bind]
    refine Spec.bind (Q := fun _ => True) ?_ fun u _ => Spec.pure ⟨by show st.pos + 1 + 1 = _; omega, p2⟩
    cases rd (st.ic ++ [l[st.pos + 1]]) i <;> trivial
  refine Spec.bind (Spec.loopN (P := fun i (st : CoordSt K) => st.pos + 2 = i ∧ st.xs.length = l.length + (o + 1)) h ⟨by omega, p2⟩
    fun i st hi1 hi2 ⟨p1, p2⟩ => ?_) fun st ⟨p1, p2⟩ => ?_
  · rw [rd_ok (show st.pos + 1 < l.length by omega), ok_bind, subM_ok (by omega), ok_bind]
    refine Spec.bind (Q := fun _ => True) ?_ fun u _ => ?_
    · cases rd (st.ic ++ [l[st.pos + 1]]) (i - 1) <;> trivial
    refine Spec.bind (Q := fun _ => True) ?_ fun w _ => ?_
    · cases div (st.sum + u) (ofNat o : K) <;> trivial
    rw [wr_ok (by omega), ok_bind, subM_ok (by omega), ok_bind]
    refine Spec.bind (Q := fun _ => True) ?_ fun z _ => Spec.pure ⟨by show st.pos + 1 + 2 = _; omega, List.length_set.trans p2⟩
    cases rd (st.ic ++ [l[st.pos + 1]]) (i - o) <;> trivial
  have hlast : l[l.length - 1]? = some (l[st.pos + 1]'(by omega)) := by
    rw [show l.length - 1 = st.pos + 1 by omega]; exact List.getElem?_eq_getElem _
  rw [rd_ok (show st.pos + 1 < l.length by omega), ok_bind]
  refine Spec.bind (Spec.loopN (P := fun i (xs : List K) => xs.length = l.length + (o + 1) ∧ ∀ u, l.length ≤ u → u < i → xs[u]? = l[l.length - 1]?)
    (by omega) ⟨p2, fun u h1 h2 => absurd h2 (by omega)⟩ fun i xs hi1 hi2 ⟨q1, q2⟩ => ?_) fun xs hxs => Spec.pure fun u h1 h2 => hxs.2 u h1 (by omega)
  rw [wr_ok (by omega)]
  refine Spec.ok ⟨List.length_set.trans q1, fun u h1 h2 => ?_⟩
  rw [List.getElem?_set]
  by_cases hui : i = u
  · rw [if_pos hui, if_pos (by omega), hlast]
  · rw [if_neg hui]; exact q2 u h1 (by omega)

theorem coordKnots_right {c : Cfg} {o N : ℕ} {l : List K} {r : List K × List K} (ho : 1 ≤ o) (h : o + 1 ≤ l.length)
    (hr : coordKnots c o N false l = .ok r) : ∀ u, l.length ≤ u → u ≤ l.length + o → r.1[u]? = l[l.length - 1]? := by
  have : Spec (coordKnots c o N false l) (fun r => ∀ u, l.length ≤ u → u ≤ l.length + o → r.1[u]? = l[l.length - 1]?) (fun _ => True) := by
    unfold coordKnots coordKnotsRaw
    rw [if_neg (by simp)]
    refine Spec.bind (Q := fun _ => True) ?_ fun _ _ => Spec.bind (coordKnotsAperiodic_right ho h) fun r hr => Spec.bind (Q := fun _ => True) ?_ fun _ _ => Spec.pure hr
    · cases assertM c _ <;> trivial
    · cases checkMonotonic c r.2 <;> trivial
  rw [hr] at this
  exact this

theorem bandSet_rep {w : Bool} {c : Cfg} {n p q i j : ℕ} {m : BandMatrix K} {A : ℕ → ℕ → K} (h : m.Rep n p q A) (hi : i < n) (hj : j < n)
    (hb : InBand p q i j) (v : K) : ∃ m', bandSet w c m i j v = .ok m' ∧ m'.Rep n p q (upd2 A i j v) := by
  unfold bandSet
  have h2 : m.p = p := h.2.1
  have h3 : m.q = q := h.2.2.1
  rw [if_neg (by rw [h2, h3]; unfold InBand at hb; simp only [not_and]; intro _; omega)]
  exact h.set c hi hj hb v

/-- One row of values written into a row of zeros. -/
theorem rowWrite_rep {w : Bool} {c : Cfg} {o n i ki s p : ℕ} {m : BandMatrix K} {A : ℕ → ℕ → K} {vals : List K} (hm : m.Rep n p p A) (hi : i < n)
    (hki : o ≤ ki) (hkn : ki < n) (hs : s ≤ vals.length) (hso : s ≤ o + 1) (h0 : ∀ j, A i j = 0) (hb : ∀ j < s, InBand p p i (ki - o + j)) :
    Ok (rowWrite w c o n i ki s false vals (.band m)) fun m' => ∃ bm, m' = .band bm ∧ bm.Rep n p p fun r J =>
      if r = i then (if ki - o ≤ J ∧ J < ki - o + s then vals.getD (J - (ki - o)) 0 else 0) else A r J := by
  unfold rowWrite
  refine Spec.imp (Spec.loop (P := fun k m' => ∃ bm, m' = CoefMat.band bm ∧ bm.Rep n p p fun r J =>
      if r = i then (if ki - o ≤ J ∧ J < ki - o + k then vals.getD (J - (ki - o)) 0 else 0) else A r J) (Nat.zero_le _) ⟨m, rfl, ?_⟩ ?_) fun _ h => h
  · refine hm.congr fun r J _ _ _ => ?_
    by_cases hr : r = i
    · rw [if_pos hr, if_neg (by omega), hr, h0]
    · rw [if_neg hr]
  · rintro k m' _ hk ⟨bm, rfl, hbm⟩
    rw [modM_ok (by omega), ok_bind, subM_ok hki, ok_bind, modM_ok (by omega), ok_bind, rd_ok (by omega), ok_bind]
    simp only [Bool.false_eq_true, if_false, Nat.add_zero]
    rw [Nat.mod_eq_of_lt hi, Nat.mod_eq_of_lt (show ki - o + k < n by omega)]
    unfold matSet
    obtain ⟨m'', e, hm''⟩ := bandSet_rep (w := w) (c := c) hbm hi (show ki - o + k < n by omega) (hb k hk) (vals[k]'(by omega))
    simp only [e, ok_bind]
    refine Spec.pure ⟨m'', rfl, hm''.congr fun r J _ _ _ => ?_⟩
    unfold upd2
    by_cases hr : r = i
    · by_cases hJ : J = ki - o + k
      · subst hJ
        rw [if_pos ⟨hr, rfl⟩, if_pos hr, if_pos (by omega), Nat.add_sub_cancel_left, List.getD_eq_getElem?_getD, List.getElem?_eq_getElem (by omega)]
        rfl
      · rw [if_neg (fun h => hJ h.2)]
        simp only [if_pos hr]
        by_cases h1 : ki - o ≤ J ∧ J < ki - o + k
        · rw [if_pos h1, if_pos (by omega)]
        · rw [if_neg h1, if_neg (by omega)]
    · rw [if_neg (fun h => hr h.1)]
      simp only [if_neg hr]

/-- Number of values written into an interior row. -/
def rowNum (o : ℕ) : ℕ := if o = 1 then 1 else o + 1

/-- The matrix of the data points: unit rows for the first and the last one, and `o + 1` values of basis functions from column `ki i - o` on for the
others. -/
def colMat (o n : ℕ) (ki : ℕ → ℕ) (v : ℕ → List K) (i j : ℕ) : K :=
  if i = 0 ∨ i + 1 = n then (if j = i then 1 else 0)
  else if ki i - o ≤ j ∧ j < ki i - o + rowNum o then (v i).getD (j - (ki i - o)) 0 else 0

/-- The same with `sn i` values in row `i`. -/
def rowMat (o n : ℕ) (sn ki : ℕ → ℕ) (v : ℕ → List K) (i j : ℕ) : K :=
  if i = 0 ∨ i + 1 = n then (if j = i then 1 else 0)
  else if ki i - o ≤ j ∧ j < ki i - o + sn i then (v i).getD (j - (ki i - o)) 0 else 0

/-- Matrix of a non-periodic dimension; the values of a row may depend on those of the row before. -/
theorem assemble_rows {w : Bool} {c : Cfg} {f : InterpFn D K V} {coords : List K} {d : Fin D} {o n : ℕ} {vals : List K} {sn ki : ℕ → ℕ} {v : ℕ → List K}
    (ho : f.spline.order = o) (hp : f.periodicity d = false) (hn : o / 2 + 1 ≤ n)
    (hsn : ∀ i, 0 < i → i + 1 < n → sNum o false (f.uniform d) (decide (o / 2 < i ∧ i < n - (o / 2 + 1))) = sn i)
    (hrow : ∀ i, 0 < i → i + 1 < n → ∀ vals, (1 < i → vals = v (i - 1)) → rowData f coords d i vals = .ok (ki i, v i))
    (hlen : ∀ i, 0 < i → i + 1 < n → (v i).length = o + 1) (hs1 : ∀ i, 0 < i → i + 1 < n → sn i ≤ o + 1)
    (hki : ∀ i, 0 < i → i + 1 < n → o ≤ ki i ∧ ki i < n)
    (hb : ∀ i, 0 < i → i + 1 < n → ∀ j < sn i, InBand (bandWidth o false) (bandWidth o false) i (ki i - o + j)) :
    Ok (assemble w c f coords d n vals) fun m => ∃ bm, m = .band bm ∧
      bm.Rep n (bandWidth o false) (bandWidth o false) (rowMat o n sn ki v) := by
  unfold assemble coefMat
  rw [hp, ho, if_neg (by simp), pure_bind]
  set bw := bandWidth o false
  refine Spec.bind (Q := fun st : CoefMat K × List K => ∃ bm, st.1 = .band bm ∧ bm.Rep n bw bw (rowMat o n sn ki v)) ?_ fun st hst => Spec.pure hst
  refine Spec.imp (Spec.loop (P := fun k (st : CoefMat K × List K) => (1 < k → k < n → st.2 = v (k - 1)) ∧ ∃ bm, st.1 = .band bm ∧ bm.Rep n bw bw fun i j =>
    if i < k then rowMat o n sn ki v i j else 0) (Nat.zero_le _) ⟨fun h => absurd h (by omega), _, rfl, ?_⟩ ?_) ?_
  · exact (BandMatrix.rep_mk' n bw bw).congr fun i j _ _ _ => (if_neg (by omega)).symm
  · rintro i ⟨m, vs⟩ _ hi ⟨hvs, bm, hm, hbm⟩
    simp only at hm hvs
    subst hm
    unfold assembleBody
    rw [hp, ho]
    refine Spec.ite (fun hend => ?_) fun hend => ?_
    · unfold matSet
      obtain ⟨m', e, hm'⟩ := bandSet_rep (w := w) (c := c) hbm hi hi (by unfold InBand; omega) (1 : K)
      simp only [e, ok_bind, pure_bind]
      refine Spec.pure ⟨fun h1 h2 => by have := hend.2; omega, m', rfl, hm'.congr fun r J _ _ _ => ?_⟩
      unfold upd2
      by_cases hr : r = i
      · subst hr
        rw [if_pos (show r < r + 1 by omega)]
        unfold rowMat
        rw [if_pos hend.2]
        by_cases hJ : J = r
        · rw [if_pos ⟨rfl, hJ⟩, if_pos hJ]
        · rw [if_neg (fun h => hJ h.2), if_neg hJ]; exact if_neg (by omega)
      · rw [if_neg (fun h => hr h.1)]
        by_cases h1 : r < i
        · simp only [if_pos h1, if_pos (show r < i + 1 by omega)]
        · simp only [if_neg h1, if_neg (show ¬ r < i + 1 by omega)]
    · have h1 : 0 < i ∧ i + 1 < n := by simp only [true_and, not_or] at hend; omega
      rw [isInternal_ok hn, ok_bind, hrow i h1.1 h1.2 _ fun h => hvs h hi, ok_bind, hsn i h1.1 h1.2]
      obtain ⟨k1, k2⟩ := hki i h1.1 h1.2
      refine Spec.bind (rowWrite_rep hbm hi k1 k2 (by rw [hlen i h1.1 h1.2]; exact hs1 i h1.1 h1.2) (hs1 i h1.1 h1.2) (fun j => if_neg (by omega))
        (hb i h1.1 h1.2)) ?_
      rintro m' ⟨bm', rfl, hbm'⟩
      refine Spec.pure ⟨fun _ _ => rfl, bm', rfl, hbm'.congr fun r J _ _ _ => ?_⟩
      by_cases hr : r = i
      · subst hr
        rw [if_pos rfl, if_pos (show r < r + 1 by omega)]
        unfold rowMat
        rw [if_neg (show ¬ (r = 0 ∨ r + 1 = n) by omega)]
      · rw [if_neg hr]
        by_cases h2 : r < i
        · simp only [if_pos h2, if_pos (show r < i + 1 by omega)]
        · simp only [if_neg h2, if_neg (show ¬ r < i + 1 by omega)]
  · rintro st ⟨-, bm, h1, h2⟩
    exact ⟨bm, h1, h2.congr fun i j hi _ _ => if_pos hi⟩

theorem assemble_rep {w : Bool} {c : Cfg} {f : InterpFn D K V} {coords : List K} {d : Fin D} {o n : ℕ} {vals : List K} {ki : ℕ → ℕ} {v : ℕ → List K}
    (ho : f.spline.order = o) (hp : f.periodicity d = false) (hu : f.uniform d = false) (hn : o / 2 + 1 ≤ n)
    (hrow : ∀ i, 0 < i → i + 1 < n → ∀ vals, rowData f coords d i vals = .ok (ki i, v i))
    (hlen : ∀ i, 0 < i → i + 1 < n → (v i).length = o + 1)
    (hki : ∀ i, 0 < i → i + 1 < n → o ≤ ki i ∧ ki i < n)
    (hb : ∀ i, 0 < i → i + 1 < n → ∀ j < rowNum o, InBand (bandWidth o false) (bandWidth o false) i (ki i - o + j)) :
    Ok (assemble w c f coords d n vals) fun m => ∃ bm, m = .band bm ∧
      bm.Rep n (bandWidth o false) (bandWidth o false) (colMat o n ki v) :=
  assemble_rows (sn := fun _ => rowNum o) ho hp hn (fun i _ _ => by rw [hu]; unfold sNum rowNum; simp) (fun i h0 h1 vals _ => hrow i h0 h1 vals) hlen
    (fun i _ _ => by unfold rowNum; split <;> omega) hki hb

section
variable {w : Bool} {c : Cfg} {o : ℕ} {per : Fin D → Bool} {dims : Fin D → ℕ} {x : Fin D → XRange K}

/-- The solvers of a template are the factors of the assembled matrices. -/
theorem constructT_solvers (hs : ShapeAxes c o per dims x) {t : Template D K V} (h : constructT (V := V) w c o per dims x = .ok t) :
    BaseOk c o per dims x t.base t.coords ∧ (t.dims = fun d => unk (per d) (pointNum c (per d) (dims d))) ∧
      ∀ d, ∃ vals, (assemble w c t.base (t.coords d) d (t.dims d) vals >>= ofMat c) = .ok (t.solvers d) := by
  have : Spec (constructT (V := V) w c o per dims x) (fun t => BaseOk c o per dims x t.base t.coords ∧
      (t.dims = fun d => unk (per d) (pointNum c (per d) (dims d))) ∧
      ∀ d, ∃ vals, (assemble w c t.base (t.coords d) d (t.dims d) vals >>= ofMat c) = .ok (t.solvers d)) (fun _ => True) := by
    unfold constructT
    refine Spec.bind (partialConstruct_safe (fun _ => trivial) (fun _ => trivial) hs) fun r hr => ?_
    rw [adjustDims_ok hs, ok_bind]
    refine Spec.bind (Q := fun _ => True) ?_ fun vals _ => ?_
    · cases tabM fun d => precalc r.1 d <;> trivial
    cases hsv : tabM (fun d => do
        let m ← assemble w c r.1 (r.2 d) d (unk (per d) (pointNum c (per d) (dims d))) (vals d)
        ofMat c m) with
    | error e => trivial
    | ok s => exact Spec.ok ⟨hr, rfl, fun d => ⟨vals d, tabM_ok_inv hsv d⟩⟩
  rw [h] at this
  exact this

end

end Intp.Fl
