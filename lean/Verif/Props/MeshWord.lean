import Verif.Proofs.MeshWord
import Mathlib.Data.Fin.VecNotation

/-!
# Meshes in 64-bit arithmetic (C81), pointers of line iteration (C82)
-/

namespace Intp

open Finset

variable {D : ℕ} {V : Type}

/-- **C81**, meshes with fewer than `2^64` elements: sizes, strides and offsets are those of unbounded arithmetic, and so are construction and access. -/
theorem mesh_word [Zero V] (c : Cfg) (dims : Fin D → ℕ) (hd : ∏ d, dims d < 2 ^ 64) :
    (Word.mk' dims : Mesh D V) = Mesh.mk' dims ∧ (Word.mk' dims : Mesh D V).storage.length = ∏ d, dims d ∧
    ∀ (m : Mesh D V) (a : Fin D → ℕ), m.dims = dims → InRange dims a →
      Word.getSafe c m a = m.getSafe c a ∧ Word.indexing dims a = indexing dims a ∧
      ∀ d : Fin D, Word.dimAccSize dims (D - (d.val + 1)) = dimAccSize dims (D - (d.val + 1)) := by
  have hs : Word.dimsSize dims = dimsSize dims := by rw [Word.dimsSize_mod, dimsSize_eq, Nat.mod_eq_of_lt hd]
  refine ⟨?_, ?_, fun m a hm ha => ?_⟩
  · unfold Word.mk' Mesh.mk'; rw [hs]
  · unfold Word.mk'; rw [List.length_replicate, hs, dimsSize_eq]
  · have hi : Word.indexing dims a = indexing dims a := by
      rw [Word.indexing_mod, Nat.mod_eq_of_lt ((indexing_lt ha).trans hd)]
    refine ⟨?_, hi, fun d => ?_⟩
    · unfold Word.getSafe Mesh.getSafe
      rw [hm, Word.indexingSafe_ok c ha, indexingSafe_ok c ha, hi]
    · rw [Word.dimAccSize_stride, dimAccSize_stride, Nat.mod_eq_of_lt]
      refine lt_of_le_of_lt ?_ hd
      unfold stride
      refine Finset.prod_le_prod' fun e _ => ?_
      split
      · exact le_rfl
      · have := ha e; omega

/-- **C81**, larger shapes: the constructor makes a mesh of `∏ dims` modulo `2^64` elements without notice.  Some element whose indices are all in range is then
outside the buffer, with and without assertions; and if the product is not exactly `2^64`, two different elements share a cell. -/
theorem mesh_word_overflow [Zero V] (c : Cfg) (dims : Fin D → ℕ) (hd : 2 ^ 64 ≤ ∏ d, dims d) :
    (Word.mk' dims : Mesh D V).storage.length = (∏ d, dims d) % 2 ^ 64 ∧
    (∃ a, InRange dims a ∧ Word.getSafe c (Word.mk' dims : Mesh D V) a = .error .oob) ∧
    (2 ^ 64 < ∏ d, dims d → ∃ a b, InRange dims a ∧ InRange dims b ∧ a ≠ b ∧ Word.indexing dims a = Word.indexing dims b) := by
  have hlen : (Word.mk' dims : Mesh D V).storage.length = (∏ d, dims d) % 2 ^ 64 := by
    unfold Word.mk'; rw [List.length_replicate, Word.dimsSize_mod]
  have hlt : (∏ d, dims d) % 2 ^ 64 < 2 ^ 64 := Nat.mod_lt _ (by positivity)
  have hpos : ∀ d, 0 < dims d := dims_pos_of_lt (lt_of_lt_of_le hlt hd)
  refine ⟨hlen, ⟨decode dims ((∏ d, dims d) % 2 ^ 64), decode_inRange hpos, ?_⟩, fun h => ⟨decode dims 0, decode dims (2 ^ 64), decode_inRange hpos, decode_inRange hpos,
    fun e => ?_, ?_⟩⟩
  · unfold Word.getSafe
    show (Word.indexingSafe c dims _ >>= _) = _
    rw [Word.indexingSafe_ok c (decode_inRange hpos), ok_bind, Word.indexing_mod, indexing_decode (lt_of_lt_of_le hlt hd), Nat.mod_eq_of_lt hlt]
    unfold rd
    rw [List.getElem?_eq_none (by rw [hlen])]
  · have := congrArg (indexing dims) e
    rw [indexing_decode (by omega), indexing_decode h] at this
    omega
  · rw [Word.indexing_mod, Word.indexing_mod, indexing_decode (by omega), indexing_decode h]
    decide

/-- A mesh of `2^32` by `2^32` elements has none; no access is inside the buffer. -/
example (c : Cfg) (a : Fin 2 → ℕ) (ha : InRange ![2 ^ 32, 2 ^ 32] a) :
    (Word.mk' ![2 ^ 32, 2 ^ 32] : Mesh 2 ℤ).storage = [] ∧ Word.getSafe c (Word.mk' ![2 ^ 32, 2 ^ 32] : Mesh 2 ℤ) a = .error .oob := by
  have h : (Word.mk' ![2 ^ 32, 2 ^ 32] : Mesh 2 ℤ).storage = [] := rfl
  refine ⟨h, ?_⟩
  unfold Word.getSafe
  show (Word.indexingSafe c ![2 ^ 32, 2 ^ 32] a >>= _) = _
  rw [Word.indexingSafe_ok c ha, ok_bind, h]
  rfl

example : (∏ d, (![3, 2 ^ 40] : Fin 2 → ℕ) d) < 2 ^ 64 ∧ InRange ![3, 2 ^ 40] ![2, 2 ^ 40 - 1] := by
  refine ⟨by simp [Fin.prod_univ_two], by decide⟩

/-! ## C82 -/

/-- Shape of the result of the two iterators. -/
private theorem step_eq (dims : Fin D → ℕ) {d : Fin D} (hd : ∏ d, dims d < 2 ^ 63) (hpos : ∀ e, 0 < dims e) :
    Word.dimAccSize dims (D - (d.val + 1)) = .ok (stride dims d) ∧ stride dims d < 2 ^ 63 := by
  have : stride dims d < 2 ^ 63 := by
    refine lt_of_le_of_lt ?_ hd
    unfold stride
    refine Finset.prod_le_prod' fun e _ => ?_
    split
    · exact le_rfl
    · exact hpos e
  refine ⟨?_, this⟩
  rw [Word.dimAccSize_stride, Nat.mod_eq_of_lt (this.trans (by norm_num))]

/-- **C82**, when `end(d, a)` may be formed: exactly if some index before `d` is not the last one of its dimension or all indices after `d` are zero.  Then the
loop from `begin(d, a)` to `end(d, a)` visits the elements of the line; otherwise `end` is a pointer behind the buffer and not one past it, which is undefined. -/
theorem mesh_line_pointers_partial (c : Cfg) (m : Mesh D V) (hm : m.storage.length = ∏ d, m.dims d) (hsz : ∏ d, m.dims d < 2 ^ 63) (d : Fin D) {a : Fin D → ℕ}
    (ha : InRange m.dims a) :
    (((∃ e < d, a e + 1 < m.dims e) ∨ ∀ e > d, a e = 0) →
      ∃ vs, Word.collect c m d a = .ok vs ∧ vs.length = m.dims d ∧ ∀ j < m.dims d, ∃ v, vs[j]? = some v ∧ m.get (Function.update a d j) = .ok v) ∧
    (¬ ((∃ e < d, a e + 1 < m.dims e) ∨ ∀ e > d, a e = 0) → Word.endIter m d a = .error .oob ∧ Word.collect c m d a = .error .oob) := by
  have hpos : ∀ e, 0 < m.dims e := fun e => lt_of_le_of_lt (Nat.zero_le _) (ha e)
  obtain ⟨hst, hst63⟩ := step_eq m.dims (d := d) hsz hpos
  have hup : ∀ j, j < m.dims d → InRange m.dims (Function.update a d j) := by
    intro j hj e
    by_cases h : e = d
    · subst h; simpa using hj
    · rw [Function.update_of_ne h]; exact ha e
  set o := indexing m.dims (Function.update a d 0) with ho
  set s := stride m.dims d with hs
  have hs0 : 0 < s := stride_pos hpos d
  have hix : ∀ j, indexing m.dims (Function.update a d j) = o + j * s := fun j => indexing_update _ _ _ _
  have hlast : o + (m.dims d - 1) * s < ∏ d, m.dims d := by
    rw [← hix]
    exact indexing_lt (hup _ (by have := hpos d; omega))
  have hsle : s ≤ ∏ d, m.dims d := by
    unfold s stride
    refine Finset.prod_le_prod' fun e _ => ?_
    split
    · exact le_rfl
    · exact hpos e
  have hendval : o + m.dims d * s = o + (m.dims d - 1) * s + s := by
    obtain ⟨n, hn⟩ : ∃ n, m.dims d = n + 1 := ⟨m.dims d - 1, by have := hpos d; omega⟩
    rw [hn, Nat.add_sub_cancel]; ring
  have hbegin : Word.beginIter c m d a = .ok ⟨o, s⟩ := by
    unfold Word.beginIter
    have h1 := indexing_lt (hup 0 (hpos d))
    rw [Word.indexingSafe_ok c (hup 0 (hpos d)), ok_bind, Word.indexing_mod, Nat.mod_eq_of_lt (h1.trans (hsz.trans (by norm_num)))]
    unfold Word.ptr
    rw [if_pos ⟨by positivity, by rw [hm]; exact_mod_cast h1.le⟩, ok_bind, subM_ok (by omega), ok_bind, hst, ok_bind, if_pos hst63]
    rfl
  have hoff : Word.indexing m.dims (Function.update a d (m.dims d)) = o + m.dims d * s := by
    rw [Word.indexing_mod, hix, Nat.mod_eq_of_lt]
    rw [hendval]
    show _ < 2 ^ 64
    omega
  have hle := Word.lineEnd_le ha d
  rw [hix] at hle
  refine ⟨fun h => ?_, fun h => ?_⟩
  · have hle := hle.2 h
    have hend : Word.endIter m d a = .ok ⟨o + m.dims d * s, s⟩ := by
      unfold Word.endIter
      rw [hoff]
      unfold Word.ptr
      dsimp only
      rw [if_pos ⟨by positivity, by rw [hm]; exact_mod_cast hle⟩, ok_bind, subM_ok (by omega), ok_bind, hst, ok_bind, if_pos hst63]
      push_cast
      rfl
    have hget : ∀ j, j < m.dims d → ∃ v, m.get (Function.update a d j) = .ok v ∧ rd m.storage (o + j * s) = .ok v := by
      intro j hj
      obtain ⟨v, hv⟩ := Mesh.WF.get_ok (m := m) hm (hup j hj)
      refine ⟨v, hv, ?_⟩
      rw [← hix]; exact hv
    have key : ∀ k j (vs : List V), j + k = m.dims d → vs.length = j →
        (∀ i < j, ∃ v, vs[i]? = some v ∧ m.get (Function.update a d i) = .ok v) →
        ∃ ws, Word.collectGo m d a (k + 1) ⟨o + j * s, s⟩ vs = .ok ws ∧ ws.length = m.dims d ∧
          ∀ i < m.dims d, ∃ v, ws[i]? = some v ∧ m.get (Function.update a d i) = .ok v := by
      intro k
      induction k with
      | zero =>
        intro j vs hj hl hv
        refine ⟨vs, ?_, by omega, fun i hi => hv i (by omega)⟩
        unfold Word.collectGo
        rw [hend, ok_bind, if_pos]
        rw [show j = m.dims d by omega]
        unfold SkipIter.eq
        simp
      | succ k ih =>
        intro j vs hj hl hv
        obtain ⟨v, hv1, hv2⟩ := hget j (by omega)
        obtain ⟨ws, h1, h2⟩ := ih (j + 1) (vs ++ [v]) (by omega) (by rw [List.length_append, hl]; rfl) (fun i hi => by
          by_cases hij : i = j
          · subst hij
            exact ⟨v, by rw [List.getElem?_append_right (by omega), hl, Nat.sub_self]; rfl, hv1⟩
          · obtain ⟨w, hw⟩ := hv i (by omega)
            exact ⟨w, by rw [List.getElem?_append_left (by omega)]; exact hw.1, hw.2⟩)
        refine ⟨ws, ?_, h2⟩
        unfold Word.collectGo
        rw [hend, ok_bind, if_neg]
        · have hd : Word.deref m ⟨o + j * s, s⟩ = .ok v := by
            unfold Word.deref SkipIter.deref
            dsimp only
            rw [if_neg (by push Not; positivity), show ((o : ℤ) + j * s).toNat = o + j * s by omega]
            exact hv2
          have hi : Word.inc m ⟨o + j * s, s⟩ = .ok ⟨o + (j + 1 : ℕ) * s, s⟩ := by
            unfold Word.inc Word.ptr
            dsimp only
            have e : (o : ℤ) + j * s + s = ((o + (j + 1) * s : ℕ) : ℤ) := by push_cast; ring
            have h3 : (j + 1) * s ≤ m.dims d * s := Nat.mul_le_mul_right _ (by omega)
            rw [e, if_pos ⟨by positivity, by rw [hm]; exact_mod_cast (by omega : o + (j + 1) * s ≤ _)⟩, ok_bind]
            push_cast
            rfl
          rw [hd, ok_bind, hi, ok_bind]
          exact h1
        · unfold SkipIter.eq
          simp only [Bool.and_eq_true, beq_iff_eq, and_true]
          intro he
          have h3 : (j : ℤ) * s = m.dims d * s := by linarith
          have := mul_right_cancel₀ (by exact_mod_cast hs0.ne' : (s : ℤ) ≠ 0) h3
          omega
    obtain ⟨ws, h1, h2, h3⟩ := key (m.dims d) 0 [] (by omega) rfl (fun i hi => by omega)
    refine ⟨ws, ?_, h2, h3⟩
    unfold Word.collect
    rw [hbegin, ok_bind]
    rw [← h1]
    simp
  · have hgt : ¬ o + m.dims d * s ≤ ∏ d, m.dims d := fun h1 => h (hle.1 h1)
    have hend : Word.endIter m d a = .error .oob := by
      unfold Word.endIter
      rw [hoff]
      unfold Word.ptr
      dsimp only
      rw [if_neg]
      · rfl
      · rintro ⟨-, h1⟩
        rw [hm] at h1
        exact hgt (by exact_mod_cast h1)
    refine ⟨hend, ?_⟩
    unfold Word.collect
    rw [hbegin, ok_bind]
    unfold Word.collectGo
    rw [hend]
    rfl

/-- **C82**, along the last dimension, the only one along which the library calls `end` (InterpolationTemplate.hpp:523, BSpline.hpp:710): always defined. -/
theorem mesh_line_pointers_last (c : Cfg) (m : Mesh (D + 1) V) (hm : m.storage.length = ∏ d, m.dims d) (hsz : ∏ d, m.dims d < 2 ^ 63) {a : Fin (D + 1) → ℕ}
    (ha : InRange m.dims a) :
    ∃ vs, Word.collect c m (Fin.last D) a = .ok vs ∧ vs.length = m.dims (Fin.last D) ∧
      ∀ j < m.dims (Fin.last D), ∃ v, vs[j]? = some v ∧ m.get (Function.update a (Fin.last D) j) = .ok v :=
  (mesh_line_pointers_partial c m hm hsz (Fin.last D) ha).1 (.inr fun e he => absurd he (not_lt.2 (Fin.le_last e)))

/-- **C82** fails: in the mesh of mesh-test.cpp (30 x 20 x 5 elements), `end(0, {0, 6, 2})` of line 44 is 32 elements behind the end of the buffer. -/
theorem mesh_end_outside : Word.endIter (Mesh.mk' ![30, 20, 5] : Mesh 3 ℤ) 0 ![0, 6, 2] = .error .oob ∧
    Word.collect ⟨false, false⟩ (Mesh.mk' ![30, 20, 5] : Mesh 3 ℤ) 0 ![0, 6, 2] = .error .oob ∧
    (Mesh.mk' ![30, 20, 5] : Mesh 3 ℤ).endIter 0 ![0, 6, 2] = .ok ⟨3032, 100⟩ ∧ (Mesh.mk' ![30, 20, 5] : Mesh 3 ℤ).size = 3000 := by
  have h := (mesh_line_pointers_partial ⟨false, false⟩ (Mesh.mk' ![30, 20, 5] : Mesh 3 ℤ) (Mesh.mk'_wf _) (by decide +kernel) 0 (a := ![0, 6, 2]) (by
    show InRange ![30, 20, 5] ![0, 6, 2]; decide)).2 (by
      show ¬ ((∃ e < (0 : Fin 3), ![0, 6, 2] e + 1 < ![30, 20, 5] e) ∨ ∀ e > (0 : Fin 3), ![0, 6, 2] e = 0); decide)
  refine ⟨h.1, h.2, rfl, ?_⟩
  unfold Mesh.size Mesh.mk'
  rw [List.length_replicate]
  rfl

/-- A line in the middle of a mesh. -/
example : Word.collect ⟨true, false⟩ (⟨![2, 3, 2], [1, 2, 3, 4, 5, 6, 7, 8, 9, 10, 11, 12]⟩ : Mesh 3 ℤ) 1 ![0, 2, 1] = .ok [2, 4, 6] := rfl

/-- The last line along the middle dimension. -/
example : Word.collect ⟨true, false⟩ (⟨![2, 3, 2], [1, 2, 3, 4, 5, 6, 7, 8, 9, 10, 11, 12]⟩ : Mesh 3 ℤ) 1 ![1, 2, 1] = .error .oob := rfl

end Intp
