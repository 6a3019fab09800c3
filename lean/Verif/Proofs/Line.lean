import Verif.Proofs.MeshLemmas
import Mathlib.Algebra.BigOperators.Ring.Finset
import Mathlib.Algebra.BigOperators.Group.Finset.Sigma
import Mathlib.Algebra.Module.BigOperators

/-! # Lines of a mesh, tensor-product sums -/

namespace Intp

open Finset

variable {V : Type} {D : ℕ}

/-- `buf` agrees with `buf0` except on the line `off, off+step, …`, which holds `b`. -/
def LineHolds (buf0 : List V) (off step n : ℕ) (buf : List V) (b : ℕ → V) : Prop :=
  buf.length = buf0.length ∧ (∀ i < n, buf[off + i * step]? = some (b i)) ∧
    ∀ t, (∀ i < n, t ≠ off + i * step) → buf[t]? = buf0[t]?

variable {buf0 buf : List V} {off step n : ℕ} {b : ℕ → V}

theorem LineHolds.congr {b' : ℕ → V} (h : LineHolds buf0 off step n buf b) (e : ∀ i < n, b i = b' i) :
    LineHolds buf0 off step n buf b' :=
  ⟨h.1, fun i hi => by rw [h.2.1 i hi, e i hi], h.2.2⟩

theorem LineHolds.write (h : LineHolds buf0 off step n buf b) (hstep : 0 < step) {i : ℕ} (hi : i < n) (v : V) :
    ∃ buf', wr buf (off + i * step) v = .ok buf' ∧ LineHolds buf0 off step n buf' (Function.update b i v) := by
  have hlt : off + i * step < buf.length := by
    by_contra hc
    have := h.2.1 i hi
    rw [List.getElem?_eq_none (by omega)] at this
    cases this
  refine ⟨_, wr_ok hlt, by rw [List.length_set]; exact h.1, fun j hj => ?_, fun t ht => ?_⟩
  · rw [List.getElem?_set]
    by_cases hij : i = j
    · subst hij; rw [if_pos rfl, if_pos hlt, Function.update_self]
    · rw [if_neg, Function.update_of_ne (Ne.symm hij), h.2.1 j hj]
      intro he
      apply hij
      have : i * step = j * step := by omega
      exact Nat.eq_of_mul_eq_mul_right hstep this
  · rw [List.getElem?_set, if_neg (Ne.symm (ht i hi)), h.2.2 t ht]

theorem LineHolds.read (h : LineHolds buf0 off step n buf b) {i : ℕ} (hi : i < n) :
    rd buf (off + i * step) = .ok (b i) := rd_eq_ok_iff.2 (h.2.1 i hi)

/-! ## Lines of a mesh -/

theorem InRange.update {dims a : Fin D → ℕ} (h : InRange dims a) {d : Fin D} {j : ℕ} (hj : j < dims d) :
    InRange dims (Function.update a d j) := by
  intro e
  by_cases he : e = d
  · subst he; simpa using hj
  · rw [Function.update_of_ne he]; exact h e

theorem Mesh.Holds.line {m : Mesh D V} {dims : Fin D → ℕ} {f : (Fin D → ℕ) → V} (h : m.Holds dims f) {a : Fin D → ℕ}
    (ha : InRange dims a) (d : Fin D) :
    LineHolds m.storage (indexing dims (Function.update a d 0)) (stride dims d) (dims d) m.storage
      (fun j => f (Function.update a d j)) := by
  refine ⟨rfl, fun j hj => ?_, fun _ _ => rfl⟩
  rw [← indexing_update]
  have := h.get (ha.update hj)
  unfold Mesh.get at this
  rw [h.1] at this
  exact rd_eq_ok_iff.1 this

theorem Mesh.Holds.setLine {m : Mesh D V} {dims : Fin D → ℕ} {f : (Fin D → ℕ) → V} (h : m.Holds dims f) {a : Fin D → ℕ}
    (ha : InRange dims a) (d : Fin D) {buf : List V} {g : ℕ → V}
    (hb : LineHolds m.storage (indexing dims (Function.update a d 0)) (stride dims d) (dims d) buf g) :
    (⟨dims, buf⟩ : Mesh D V).Holds dims
      (fun b => if Function.update b d 0 = Function.update a d 0 then g (b d) else f b) := by
  refine ⟨rfl, ?_, fun b hbr => ?_⟩
  · have := h.2.1
    unfold Mesh.WF at this ⊢
    rw [h.1] at this
    simp only
    rw [hb.1, this]
  · unfold Mesh.get
    simp only
    rw [rd_eq_ok_iff]
    by_cases he : Function.update b d 0 = Function.update a d 0
    · rw [if_pos he]
      have e : indexing dims b = indexing dims (Function.update a d 0) + b d * stride dims d := by
        have := indexing_update dims b d (b d)
        rw [Function.update_eq_self] at this
        rw [this, he]
      rw [e]
      exact hb.2.1 (b d) (hbr d)
    · rw [if_neg he, hb.2.2]
      · have := h.get hbr
        unfold Mesh.get at this
        rw [h.1] at this
        exact rd_eq_ok_iff.1 this
      · intro j hj hc
        rw [← indexing_update] at hc
        have := indexing_inj hbr (ha.update hj) hc
        apply he
        rw [this, Function.update_idem]

/-! ## Tensor-product sums -/

/-- Index set of a mesh. -/
abbrev box (dims : Fin D → ℕ) : Finset (Fin D → ℕ) := Fintype.piFinset fun d => range (dims d)

theorem mem_box {dims a : Fin D → ℕ} : a ∈ box dims ↔ InRange dims a := by
  simp [box, InRange]

/-- Sum over a mesh as a sum over lines. -/
theorem sum_lines {W : Type} [AddCommMonoid W] {dims : Fin D → ℕ} (d : Fin D) (hd : 0 < dims d) (F : (Fin D → ℕ) → W) :
    ∑ a ∈ box dims, F a = ∑ a ∈ (box dims).filter (fun a => a d = 0), ∑ j ∈ range (dims d), F (Function.update a d j) := by
  rw [← Finset.sum_product']
  symm
  refine Finset.sum_bij' (fun p _ => Function.update p.1 d p.2) (fun b _ => (Function.update b d 0, b d)) ?_ ?_ ?_ ?_ ?_
  · rintro ⟨a, j⟩ h
    simp only [mem_product, mem_filter, mem_box, mem_range] at h
    exact mem_box.2 (h.1.1.update h.2)
  · intro b h
    rw [mem_box] at h
    simp only [mem_product, mem_filter, mem_box, mem_range]
    exact ⟨⟨h.update hd, by simp⟩, h d⟩
  · rintro ⟨a, j⟩ h
    simp only [mem_product, mem_filter, mem_box, mem_range] at h
    simp only [Function.update_self, Function.update_idem, Prod.mk.injEq, and_true]
    rw [← h.1.2, Function.update_eq_self]
  · intro b _
    simp
  · intro _ _; rfl

variable {K : Type} [Field K] [AddCommGroup V] [Module K V]

/-- Moving an operation along axis `d` from the values to the weights. -/
theorem tensor_line {dims : Fin D → ℕ} (d : Fin D) (β γ : ℕ → K) (R : (Fin D → ℕ) → K)
    (hR : ∀ a j, R (Function.update a d j) = R a) (f g : (Fin D → ℕ) → V)
    (h : ∀ a, InRange dims a → ∑ j ∈ range (dims d), β j • g (Function.update a d j) =
      ∑ j ∈ range (dims d), γ j • f (Function.update a d j)) :
    ∑ a ∈ box dims, (β (a d) * R a) • g a = ∑ a ∈ box dims, (γ (a d) * R a) • f a := by
  by_cases hd : 0 < dims d
  · rw [sum_lines d hd, sum_lines d hd]
    refine sum_congr rfl fun a ha => ?_
    have h' := h a (mem_box.1 (mem_of_mem_filter a ha))
    have e : ∀ (β : ℕ → K) (g : (Fin D → ℕ) → V),
        ∑ j ∈ range (dims d), (β (Function.update a d j d) * R (Function.update a d j)) • g (Function.update a d j) =
        R a • ∑ j ∈ range (dims d), β j • g (Function.update a d j) := by
      intro β g
      rw [Finset.smul_sum]
      refine sum_congr rfl fun j _ => ?_
      rw [hR, Function.update_self, mul_comm, mul_smul]
    rw [e, e, h']
  · have : box dims = ∅ := by
      ext a
      simp only [mem_box, notMem_empty, iff_false]
      intro h'
      exact hd (lt_of_le_of_lt (Nat.zero_le _) (h' d))
    rw [this]; simp

/-- Push a tensor-product sum forward along index maps. -/
theorem tensor_push {m n : Fin D → ℕ} (β : Fin D → ℕ → K) (g : Fin D → ℕ → ℕ) (hg : ∀ d a, a < m d → g d a < n d)
    (C : (Fin D → ℕ) → V) :
    ∑ a ∈ box m, (∏ d, β d (a d)) • C (fun d => g d (a d)) =
      ∑ J ∈ box n, (∏ d, ∑ a ∈ (range (m d)).filter (fun a => g d a = J d), β d a) • C J := by
  have hmap : ∀ a ∈ box m, (fun d => g d (a d)) ∈ box n := by
    intro a ha
    rw [mem_box] at ha ⊢
    exact fun d => hg d _ (ha d)
  rw [← Finset.sum_fiberwise_of_maps_to hmap]
  refine sum_congr rfl fun J _ => ?_
  rw [Finset.prod_univ_sum, Finset.sum_smul]
  have : (Fintype.piFinset fun d => (range (m d)).filter (fun a => g d a = J d)) =
      (box m).filter (fun a => (fun d => g d (a d)) = J) := by
    ext a
    simp only [Fintype.mem_piFinset, mem_filter, mem_range, box, funext_iff, forall_and]
  rw [this]
  refine sum_congr rfl fun a ha => ?_
  rw [(mem_filter.1 ha).2]

end Intp
