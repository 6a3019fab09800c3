import Verif.Mesh
import Mathlib.Algebra.BigOperators.Fin
import Mathlib.Algebra.BigOperators.Group.Finset.Basic
import Mathlib.Algebra.Order.BigOperators.Group.Finset
import Mathlib.Order.Interval.Finset.Fin
import Mathlib.Data.Fintype.BigOperators

/-! # Lemmas about the mesh model -/

namespace Intp

open Finset

variable {D : ℕ} {V : Type}

/-- An index array is within the side lengths. -/
def InRange (dims a : Fin D → ℕ) : Prop := ∀ d, a d < dims d

instance (dims a : Fin D → ℕ) : Decidable (InRange dims a) := inferInstanceAs (Decidable (∀ d, a d < dims d))

theorem dimGet_ok {α : Type} (a : Fin D → α) {i : ℕ} (h : i < D) : dimGet a i = .ok (a ⟨i, h⟩) := dif_pos h

theorem dimsSize_eq (dims : Fin D → ℕ) : dimsSize dims = ∏ d, dims d := by
  unfold dimsSize
  rw [← List.prod_ofFn, List.ofFn_eq_map, ← List.foldl_map (f := dims) (g := fun s x => s * x),
    List.prod_eq_foldl]

/-! ## indexing -/

private theorem idxFold_succ (dims a : Fin (D + 1) → ℕ) (s : ℕ × ℕ) :
    (List.finRange (D + 1)).foldl (fun acc d => indexingStep dims a acc d.rev) s =
    (List.finRange D).foldl (fun acc d => indexingStep (fun i => dims i.castSucc) (fun i => a i.castSucc) acc d.rev)
      (s.1 + a (Fin.last D) * s.2, s.2 * dims (Fin.last D)) := by
  rw [List.finRange_succ, List.foldl_cons, List.foldl_map]
  simp only [Fin.rev_zero, Fin.rev_succ]
  rfl

private theorem idxFold_eq : ∀ {D : ℕ} (dims a : Fin D → ℕ) (i m : ℕ),
    (List.finRange D).foldl (fun acc d => indexingStep dims a acc d.rev) (i, m) =
      (i + m * indexing dims a, m * ∏ d, dims d)
  | 0, dims, a, i, m => by simp [indexing]
  | D + 1, dims, a, i, m => by
    unfold indexing
    rw [idxFold_succ, idxFold_succ, idxFold_eq, idxFold_eq, Fin.prod_univ_castSucc]
    simp only [Prod.mk.injEq]
    constructor <;> ring

/-- Horner form of `indexing`. -/
theorem indexing_succ (dims a : Fin (D + 1) → ℕ) :
    indexing dims a = a (Fin.last D) +
      dims (Fin.last D) * indexing (fun i => dims i.castSucc) (fun i => a i.castSucc) := by
  conv_lhs => unfold indexing
  rw [idxFold_succ, idxFold_eq]; simp

theorem indexing_zero (dims a : Fin 0 → ℕ) : indexing dims a = 0 := rfl

theorem indexing_lt : ∀ {D : ℕ} {dims a : Fin D → ℕ}, InRange dims a → indexing dims a < ∏ d, dims d
  | 0, dims, a, _ => by simp [indexing_zero]
  | D + 1, dims, a, h => by
    rw [indexing_succ, Fin.prod_univ_castSucc]
    have ih := indexing_lt (dims := fun i => dims i.castSucc) (a := fun i => a i.castSucc) (fun d => h _)
    have hl := h (Fin.last D)
    set I := indexing (fun i => dims i.castSucc) (fun i => a i.castSucc)
    set P := ∏ i : Fin D, dims i.castSucc
    have : dims (Fin.last D) * (I + 1) ≤ dims (Fin.last D) * P := Nat.mul_le_mul_left _ ih
    nlinarith

/-- Multi-index of a storage position: the mathematical content of `dimwise_indices`. -/
def decode : {D : ℕ} → (Fin D → ℕ) → ℕ → Fin D → ℕ
  | 0, _, _ => Fin.elim0
  | _ + 1, dims, t =>
    Fin.snoc (α := fun _ => ℕ) (decode (fun i => dims i.castSucc) (t / dims (Fin.last _)))
      (t % dims (Fin.last _))

theorem decode_castSucc (dims : Fin (D + 1) → ℕ) (t : ℕ) (i : Fin D) :
    decode dims t i.castSucc = decode (fun i => dims i.castSucc) (t / dims (Fin.last _)) i := by
  simp [decode]

theorem decode_last (dims : Fin (D + 1) → ℕ) (t : ℕ) :
    decode dims t (Fin.last D) = t % dims (Fin.last _) := by
  simp [decode]

theorem decode_indexing : ∀ {D : ℕ} {dims a : Fin D → ℕ}, InRange dims a → decode dims (indexing dims a) = a
  | 0, dims, a, _ => by funext i; exact i.elim0
  | D + 1, dims, a, h => by
    have ih := decode_indexing (dims := fun i => dims i.castSucc) (a := fun i => a i.castSucc) (fun d => h _)
    have hl := h (Fin.last D)
    funext i
    refine Fin.lastCases ?_ (fun i => ?_) i
    · rw [decode_last, indexing_succ, Nat.add_mul_mod_self_left, Nat.mod_eq_of_lt hl]
    · rw [decode_castSucc, indexing_succ, Nat.add_mul_div_left _ _ (by omega), Nat.div_eq_of_lt hl, zero_add, ih]

theorem indexing_decode : ∀ {D : ℕ} {dims : Fin D → ℕ} {t : ℕ}, t < ∏ d, dims d →
    indexing dims (decode dims t) = t
  | 0, dims, t, h => by simp at h; simp [indexing_zero, h]
  | D + 1, dims, t, h => by
    rw [Fin.prod_univ_castSucc] at h
    rw [indexing_succ, decode_last]
    simp only [decode_castSucc]
    rw [indexing_decode (Nat.div_lt_of_lt_mul (by rwa [mul_comm] at h))]
    exact Nat.mod_add_div _ _

theorem decode_inRange : ∀ {D : ℕ} {dims : Fin D → ℕ} {t : ℕ}, (∀ d, 0 < dims d) → InRange dims (decode dims t)
  | 0, dims, t, _ => fun d => d.elim0
  | D + 1, dims, t, h => by
    intro i
    refine Fin.lastCases ?_ (fun i => ?_) i
    · rw [decode_last]; exact Nat.mod_lt _ (h _)
    · rw [decode_castSucc]; exact decode_inRange (dims := fun i => dims i.castSucc) (fun d => h _) i

theorem dims_pos_of_lt {dims : Fin D → ℕ} {t : ℕ} (h : t < ∏ d, dims d) (d : Fin D) : 0 < dims d := by
  rcases Nat.eq_zero_or_pos (dims d) with h0 | h0
  · rw [Finset.prod_eq_zero (mem_univ d) h0] at h; omega
  · exact h0

theorem indexing_inj {dims a b : Fin D → ℕ} (ha : InRange dims a) (hb : InRange dims b)
    (h : indexing dims a = indexing dims b) : a = b := by
  rw [← decode_indexing ha, ← decode_indexing hb, h]

private theorem dimwise_fold : ∀ {D N : ℕ} (e : Fin D → Fin N), Function.Injective e → ∀ (dims : Fin N → ℕ)
    (f0 : Fin N → ℕ) (t : ℕ), (∀ i, dims (e i) ≠ 0) →
    Ok ((List.finRange D).foldlM (fun (acc : (Fin N → ℕ) × ℕ) d => do
      let m ← modM acc.2 (dims (e d.rev))
      let q ← divN acc.2 (dims (e d.rev))
      pure (Function.update acc.1 (e d.rev) m, q)) (f0, t))
      (fun r => (∀ i, r.1 (e i) = decode (fun i => dims (e i)) t i) ∧ ∀ j, (∀ i, e i ≠ j) → r.1 j = f0 j)
  | 0, N, e, he, dims, f0, t, h => by
    refine ⟨fun i => i.elim0, fun j hj => rfl⟩
  | D + 1, N, e, he, dims, f0, t, h => by
    rw [List.finRange_succ, List.foldlM_cons, Fin.rev_zero, modM_ok (h _), divN_ok (h _), ok_bind, ok_bind]
    erw [ok_bind]
    rw [List.foldlM_map]
    simp only [Fin.rev_succ]
    have ih := dimwise_fold (fun i : Fin D => e i.castSucc) (he.comp (Fin.castSucc_injective D)) dims
      (Function.update f0 (e (Fin.last D)) (t % dims (e (Fin.last D)))) (t / dims (e (Fin.last D))) (fun i => h _)
    refine Spec.imp ih fun r hr => ⟨fun i => ?_, fun j hj => ?_⟩
    · refine Fin.lastCases ?_ (fun i => ?_) i
      · rw [decode_last, hr.2 _ (fun i hi => ?_), Function.update_self]
        exact absurd (he hi) (Fin.castSucc_lt_last i).ne
      · rw [decode_castSucc, hr.1]
    · rw [hr.2 j (fun i => hj _), Function.update_of_ne (hj _).symm]

theorem dimwiseIndices_ok {dims : Fin D → ℕ} (h : ∀ d, 0 < dims d) (t : ℕ) :
    dimwiseIndices dims t = .ok (decode dims t) := by
  apply Ok.eq
  unfold dimwiseIndices
  refine Spec.bind (dimwise_fold id Function.injective_id dims _ t (fun i => (h i).ne')) fun r hr => ?_
  funext i; exact hr.1 i

/-! ## strides -/

/-- Distance in storage between neighbours along dimension `d`. -/
def stride (dims : Fin D → ℕ) (d : Fin D) : ℕ := ∏ e, if d < e then dims e else 1

theorem stride_eq_prod_Ioi (dims : Fin D → ℕ) (d : Fin D) : stride dims d = ∏ e ∈ Finset.Ioi d, dims e := by
  unfold stride
  rw [← Finset.prod_filter]
  congr 1; ext e; simp

theorem stride_castSucc (dims : Fin (D + 1) → ℕ) (d : Fin D) :
    stride dims d.castSucc = stride (fun i => dims i.castSucc) d * dims (Fin.last D) := by
  unfold stride
  rw [Fin.prod_univ_castSucc]
  simp [Fin.castSucc_lt_last]

theorem stride_last (dims : Fin (D + 1) → ℕ) : stride dims (Fin.last D) = 1 := by
  unfold stride
  apply Finset.prod_eq_one
  intro i _
  rw [if_neg (not_lt.2 (Fin.le_last i))]

theorem indexing_eq_sum : ∀ {D : ℕ} (dims a : Fin D → ℕ), indexing dims a = ∑ d, a d * stride dims d
  | 0, dims, a => by simp [indexing_zero]
  | D + 1, dims, a => by
    rw [indexing_succ, indexing_eq_sum, Fin.sum_univ_castSucc, stride_last, Finset.mul_sum, add_comm, mul_one]
    congr 1
    apply Finset.sum_congr rfl
    intro i _
    rw [stride_castSucc]; ring

theorem indexing_update (dims a : Fin D → ℕ) (d : Fin D) (j : ℕ) :
    indexing dims (Function.update a d j) = indexing dims (Function.update a d 0) + j * stride dims d := by
  simp only [indexing_eq_sum]
  rw [← Finset.add_sum_erase _ _ (mem_univ d), ← Finset.add_sum_erase (a := d) univ _ (mem_univ d)]
  simp only [Function.update_self, zero_mul, zero_add]
  rw [add_comm]
  congr 1
  apply Finset.sum_congr rfl
  intro e he
  rw [Function.update_of_ne (Finset.ne_of_mem_erase he), Function.update_of_ne (Finset.ne_of_mem_erase he)]

theorem stride_pos {dims : Fin D → ℕ} (h : ∀ d, 0 < dims d) (d : Fin D) : 0 < stride dims d := by
  unfold stride
  apply Nat.pos_of_ne_zero
  rw [Finset.prod_ne_zero_iff]
  intro e _
  apply Nat.ne_of_gt
  split
  · exact h e
  · exact one_pos

theorem dimAccSize_ok (dims : Fin D → ℕ) {k : ℕ} (hk : k ≤ D) :
    dimAccSize dims k = .ok (∏ e : Fin D, if D - k ≤ e.val then dims e else 1) := by
  apply Ok.eq
  unfold dimAccSize
  refine Spec.imp (Spec.loop (P := fun k' s => s = ∏ e : Fin D, if D - k' ≤ e.val then dims e else 1)
    (Nat.zero_le _) ?_ ?_) (fun a h => h)
  · symm; apply Finset.prod_eq_one
    intro e _
    rw [if_neg (by have := e.isLt; omega)]
  · intro i s _ hi hs
    rw [subM_ok (by omega)]
    simp only [ok_bind]
    rw [dimGet_ok dims (show D - (i + 1) < D by omega)]
    simp only [ok_bind, pure_eq_ok]
    refine Spec.ok ?_
    set d : Fin D := ⟨D - (i + 1), by omega⟩
    rw [hs, ← Finset.prod_erase_mul _ _ (mem_univ d), ← Finset.prod_erase_mul (a := d) univ _ (mem_univ d)]
    rw [if_neg (by show ¬ D - i ≤ D - (i + 1); omega), if_pos (le_refl (D - (i+1))), mul_one]
    congr 1
    apply Finset.prod_congr rfl
    intro e he
    have hne : e.val ≠ D - (i + 1) := fun h => Finset.ne_of_mem_erase he (Fin.ext h)
    have := e.isLt
    by_cases h : D - i ≤ e.val
    · rw [if_pos h, if_pos (by omega)]
    · rw [if_neg h, if_neg (by omega)]

theorem dimAccSize_stride (dims : Fin D → ℕ) (d : Fin D) :
    dimAccSize dims (D - (d.val + 1)) = .ok (stride dims d) := by
  rw [dimAccSize_ok dims (by omega)]
  unfold stride
  congr 1
  apply Finset.prod_congr rfl
  intro e _
  have := d.isLt
  by_cases h : d < e
  · rw [if_pos h, if_pos (by have : d.val < e.val := h; omega)]
  · rw [if_neg h, if_neg (by have : ¬ d.val < e.val := h; omega)]

/-! ## checked indexing -/

theorem indexingSafe_ok (c : Cfg) {dims a : Fin D → ℕ} (h : InRange dims a) :
    indexingSafe c dims a = .ok (indexing dims a) := by
  unfold indexingSafe indexing
  have key : ∀ (l : List (Fin D)) (s : ℕ × ℕ),
      (l.foldlM (fun (acc : ℕ × ℕ) d => do
        assertM c (decide (a d.rev < dims d.rev))
        pure (indexingStep dims a acc d.rev)) s : M (ℕ × ℕ)) =
      .ok (l.foldl (fun acc d => indexingStep dims a acc d.rev) s) := by
    intro l
    induction l with
    | nil => intro s; rfl
    | cons d l ih =>
      intro s
      rw [List.foldlM_cons, assertM_ok (by simpa using h d.rev)]
      exact ih _
  rw [key]; rfl

/-- Without assertions `indexing_safe` is `indexing`. -/
theorem indexingSafe_unchecked (c : Cfg) (hc : c.assertions = false) (dims a : Fin D → ℕ) :
    indexingSafe c dims a = .ok (indexing dims a) := by
  unfold indexingSafe indexing
  have key : ∀ (l : List (Fin D)) (s : ℕ × ℕ),
      (l.foldlM (fun (acc : ℕ × ℕ) d => do
        assertM c (decide (a d.rev < dims d.rev))
        pure (indexingStep dims a acc d.rev)) s : M (ℕ × ℕ)) =
      .ok (l.foldl (fun acc d => indexingStep dims a acc d.rev) s) := by
    intro l
    induction l with
    | nil => intro s; rfl
    | cons d l ih =>
      intro s
      rw [List.foldlM_cons]
      have : assertM c (decide (a d.rev < dims d.rev)) = .ok () := by unfold assertM; simp [hc]
      rw [this]
      exact ih _
  rw [key]; rfl

/-- With assertions `indexing_safe` throws as soon as one index is out of range. -/
theorem indexingSafe_throws (c : Cfg) (hc : c.assertions = true) {dims a : Fin D → ℕ} (h : ¬ InRange dims a) :
    indexingSafe c dims a = .error .assertFail := by
  unfold indexingSafe
  have key : ∀ (l : List (Fin D)) (s : ℕ × ℕ), (∃ d ∈ l, ¬ a d.rev < dims d.rev) →
      (l.foldlM (fun (acc : ℕ × ℕ) d => do
        assertM c (decide (a d.rev < dims d.rev))
        pure (indexingStep dims a acc d.rev)) s : M (ℕ × ℕ)) = .error .assertFail := by
    intro l
    induction l with
    | nil => intro s h; simp at h
    | cons d l ih =>
      intro s ⟨e, he, hlt⟩
      rw [List.foldlM_cons]
      by_cases hd : a d.rev < dims d.rev
      · rw [assertM_ok (by simpa using hd)]
        refine ih _ ⟨e, ?_, hlt⟩
        rcases List.mem_cons.1 he with rfl | he
        · exact absurd hd hlt
        · exact he
      · have : assertM c (decide (a d.rev < dims d.rev)) = .error .assertFail := by
          unfold assertM; simp [hc, hd]
        rw [this]; rfl
  unfold InRange at h
  push Not at h
  obtain ⟨d, hd⟩ := h
  rw [key _ _ ⟨d.rev, List.mem_finRange _, by simpa using hd⟩]
  rfl

/-! ## meshes as maps -/

namespace Mesh

/-- The storage vector has as many elements as the shape says (class invariant of `Mesh`). -/
def WF (m : Mesh D V) : Prop := m.storage.length = ∏ d, m.dims d

/-- `m` is well formed with shape `dims` and holds the value `f a` at every in-range multi-index `a`. -/
def Holds (m : Mesh D V) (dims : Fin D → ℕ) (f : (Fin D → ℕ) → V) : Prop :=
  m.dims = dims ∧ m.WF ∧ ∀ a, InRange dims a → m.get a = .ok (f a)

theorem mk'_wf [Zero V] (dims : Fin D → ℕ) : (mk' dims : Mesh D V).WF := by
  simp [WF, mk', dimsSize_eq]

theorem WF.lt {m : Mesh D V} (h : m.WF) {a : Fin D → ℕ} (ha : InRange m.dims a) :
    indexing m.dims a < m.storage.length := by rw [h]; exact indexing_lt ha

theorem WF.get_ok {m : Mesh D V} (h : m.WF) {a : Fin D → ℕ} (ha : InRange m.dims a) :
    ∃ v, m.get a = .ok v := ⟨_, rd_ok (h.lt ha)⟩

theorem mk'_holds [Zero V] (dims : Fin D → ℕ) : (mk' dims : Mesh D V).Holds dims (fun _ => 0) := by
  refine ⟨rfl, mk'_wf dims, fun a ha => ?_⟩
  show rd (List.replicate (dimsSize dims) 0) (indexing dims a) = _
  rw [rd_eq_ok_iff, List.getElem?_replicate, if_pos]
  rw [dimsSize_eq]; exact indexing_lt ha

theorem Holds.get {m : Mesh D V} {dims : Fin D → ℕ} {f : (Fin D → ℕ) → V} (h : m.Holds dims f)
    {a : Fin D → ℕ} (ha : InRange dims a) : m.get a = .ok (f a) := h.2.2 a ha

theorem Holds.getSafe (c : Cfg) {m : Mesh D V} {dims : Fin D → ℕ} {f : (Fin D → ℕ) → V} (h : m.Holds dims f)
    {a : Fin D → ℕ} (ha : InRange dims a) : m.getSafe c a = .ok (f a) := by
  obtain ⟨rfl, hw, hf⟩ := h
  unfold Mesh.getSafe
  rw [indexingSafe_ok c ha]
  exact hf a ha

theorem Holds.set {m : Mesh D V} {dims : Fin D → ℕ} {f : (Fin D → ℕ) → V} (h : m.Holds dims f)
    {a : Fin D → ℕ} (ha : InRange dims a) (v : V) :
    ∃ m', m.set a v = .ok m' ∧ m'.Holds dims (Function.update f a v) := by
  obtain ⟨rfl, hw, hf⟩ := h
  refine ⟨⟨m.dims, m.storage.set (indexing m.dims a) v⟩, ?_, rfl, ?_, fun b hb => ?_⟩
  · unfold Mesh.set; rw [wr_ok (hw.lt ha)]; rfl
  · simpa [WF] using hw
  · show rd (m.storage.set (indexing m.dims a) v) (indexing m.dims b) = _
    rw [rd_eq_ok_iff, List.getElem?_set]
    by_cases hab : b = a
    · subst hab
      rw [if_pos rfl, if_pos (hw.lt hb), Function.update_self]
    · rw [if_neg (fun e => hab (indexing_inj ha hb e).symm), Function.update_of_ne hab]
      exact rd_eq_ok_iff.1 (hf b hb)

theorem Holds.setSafe (c : Cfg) {m : Mesh D V} {dims : Fin D → ℕ} {f : (Fin D → ℕ) → V} (h : m.Holds dims f)
    {a : Fin D → ℕ} (ha : InRange dims a) (v : V) :
    ∃ m', m.setSafe c a v = .ok m' ∧ m'.Holds dims (Function.update f a v) := by
  obtain ⟨m', h1, h2⟩ := h.set ha v
  refine ⟨m', ?_, h2⟩
  unfold Mesh.setSafe
  rw [h.1, indexingSafe_ok c ha]
  unfold Mesh.set at h1
  rw [h.1] at h1
  exact h1

theorem Holds.congr {m : Mesh D V} {dims : Fin D → ℕ} {f g : (Fin D → ℕ) → V} (h : m.Holds dims f)
    (e : ∀ a, InRange dims a → f a = g a) : m.Holds dims g :=
  ⟨h.1, h.2.1, fun a ha => by rw [h.2.2 a ha, e a ha]⟩

/-- Every well-formed mesh holds some function. -/
theorem WF.holds [Inhabited V] {m : Mesh D V} (h : m.WF) :
    m.Holds m.dims (fun a => (m.storage[indexing m.dims a]?).getD default) := by
  refine ⟨rfl, h, fun a ha => ?_⟩
  unfold Mesh.get
  rw [rd_eq_ok_iff]
  simp [List.getElem?_eq_getElem (h.lt ha)]

theorem lineBegin_ok (c : Cfg) (m : Mesh D V) (d : Fin D) {a : Fin D → ℕ}
    (h : InRange m.dims (Function.update a d 0)) :
    m.lineBegin c d a = .ok (indexing m.dims (Function.update a d 0), stride m.dims d) := by
  unfold lineBegin
  rw [indexingSafe_ok c h]
  simp only [ok_bind]
  rw [subM_ok (by omega)]
  simp only [ok_bind]
  rw [dimAccSize_stride]; rfl

theorem lineEnd_ok (m : Mesh D V) (d : Fin D) (a : Fin D → ℕ) :
    m.lineEnd d a = .ok (indexing m.dims (Function.update a d 0) + m.dims d * stride m.dims d, stride m.dims d) := by
  unfold lineEnd
  rw [subM_ok (by omega)]
  simp only [ok_bind]
  rw [dimAccSize_stride, indexing_update]; rfl

end Mesh

/-! ## sums over a mesh -/

/-- Summing over storage positions is summing over in-range multi-indices. -/
theorem sum_decode {W : Type} [AddCommMonoid W] (dims : Fin D → ℕ) (g : (Fin D → ℕ) → W) :
    ∑ t ∈ range (∏ d, dims d), g (decode dims t) = ∑ a ∈ Fintype.piFinset (fun d => range (dims d)), g a := by
  refine Finset.sum_bij' (fun t _ => decode dims t) (fun a _ => indexing dims a) ?_ ?_ ?_ ?_ ?_
  · intro t ht
    rw [mem_range] at ht
    rw [Fintype.mem_piFinset]
    intro d
    rw [mem_range]
    exact decode_inRange (dims_pos_of_lt ht) d
  · intro a ha
    rw [Fintype.mem_piFinset] at ha
    rw [mem_range]
    exact indexing_lt (fun d => mem_range.1 (ha d))
  · intro t ht
    exact indexing_decode (mem_range.1 ht)
  · intro a ha
    rw [Fintype.mem_piFinset] at ha
    exact decode_indexing (fun d => mem_range.1 (ha d))
  · intro t _; rfl

end Intp
