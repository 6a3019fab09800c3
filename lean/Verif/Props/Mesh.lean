import Verif.Proofs.MeshLemmas
import Mathlib.Data.Set.Function
import Mathlib.Tactic.Positivity

/-!
# Properties of the mesh (C01-C05)

Statements use: `InRange dims a` (every index below its side length), products of side lengths and `Function.update`.
-/

namespace Intp

open Finset

variable {D : ℕ} {V : Type}

/-- **C01.** Storage of a mesh built by the constructor or by `resize` has `∏ dims` cells; addressing is row-major, and maps in-range
multi-indices one-to-one onto the storage cells. -/
theorem mesh_indexing_bijection (dims : Fin D → ℕ) :
    Set.BijOn (indexing dims) {a | ∀ d, a d < dims d} (Set.Iio (∏ d, dims d)) ∧
    (∀ a, indexing dims a = ∑ d, a d * ∏ e ∈ Ioi d, dims e) ∧
    dimsSize dims = ∏ d, dims d := by
  refine ⟨⟨fun a ha => indexing_lt ha, fun a ha b hb h => indexing_inj ha hb h, fun t ht => ?_⟩, fun a => ?_,
    dimsSize_eq dims⟩
  · exact ⟨decode dims t, decode_inRange (dims_pos_of_lt ht), indexing_decode ht⟩
  · rw [indexing_eq_sum]
    exact Finset.sum_congr rfl fun d _ => by rw [stride_eq_prod_Ioi]

/-- **C01**, for mesh objects: element access through the constructed or resized mesh never leaves the buffer, and the buffer has
exactly one cell per in-range multi-index. -/
theorem mesh_access_in_buffer [Zero V] (dims : Fin D → ℕ) (m0 : Mesh D V) (fill : V) :
    (∀ m ∈ [Mesh.mk' dims, m0.resize dims fill],
      m.size = ∏ d, dims d ∧ ∀ a, (∀ d, a d < dims d) → ∃ v, m.get a = .ok v) := by
  have hres : (m0.resize dims fill).storage.length = ∏ d, dims d := by
    simp only [Mesh.resize, List.length_take, List.length_append, List.length_replicate, dimsSize_eq]
    omega
  intro m hm
  simp only [List.mem_cons, List.not_mem_nil, or_false] at hm
  rcases hm with rfl | rfl
  · exact ⟨Mesh.mk'_wf dims, fun a ha => (Mesh.mk'_wf dims).get_ok ha⟩
  · exact ⟨hres, fun a ha => Mesh.WF.get_ok (m := m0.resize dims fill) hres ha⟩

example : InRange ![2, 3, 4] ![1, 2, 3] ∧ indexing ![2, 3, 4] ![1, 2, 3] = 23 := by decide

/-- **C02.** `iter_indices` and addressing are inverse to each other on in-range positions. -/
theorem mesh_iter_indices_inverse (m : Mesh D V) (hm : m.storage.length = ∏ d, m.dims d) :
    (∀ a, (∀ d, a d < m.dims d) → m.iterIndices (indexing m.dims a) = .ok a) ∧
    (∀ p, p < m.size → ∃ a, m.iterIndices p = .ok a ∧ (∀ d, a d < m.dims d) ∧ indexing m.dims a = p) := by
  constructor
  · intro a ha
    unfold Mesh.iterIndices
    rw [dimwiseIndices_ok (fun d => lt_of_le_of_lt (Nat.zero_le _) (ha d)), decode_indexing ha]
  · intro p hp
    have hp' : p < ∏ d, m.dims d := by rw [← hm]; exact hp
    have hpos := dims_pos_of_lt hp'
    exact ⟨decode m.dims p, dimwiseIndices_ok hpos p, decode_inRange hpos, indexing_decode hp'⟩

example : (Mesh.mk' ![2, 3] : Mesh 2 ℤ).storage.length = ∏ d, (Mesh.mk' ![2, 3] : Mesh 2 ℤ).dims d := by decide

/-- One element write, by index array (`false`) or by separate checked indices (`true`). -/
structure MeshWrite (D : ℕ) (V : Type) where
  checked : Bool
  idx : Fin D → ℕ
  val : V

/-- Execute a history of writes. -/
def runWrites (c : Cfg) (m : Mesh D V) (hist : List (MeshWrite D V)) : M (Mesh D V) :=
  hist.foldlM (fun m w => if w.checked then m.setSafe c w.idx w.val else m.set w.idx w.val) m

/-- Specification: the value of the most recent write to `a`, if any. -/
def lastWrite (hist : List (MeshWrite D V)) (a : Fin D → ℕ) : Option V :=
  (hist.reverse.find? (fun w => decide (w.idx = a))).map (·.val)

/-- **C03, initial values.**  A one-dimensional mesh made from a sequence has its length, and its elements in order. -/
theorem mesh_of_list (c : Cfg) (l : List V) :
    (Mesh.ofList l).storage.length = ∏ d, (Mesh.ofList l).dims d ∧ (∀ d, (Mesh.ofList l).dims d = l.length) ∧
      ∀ (i : ℕ) (h : i < l.length), (Mesh.ofList l).get (fun _ => i) = .ok l[i] ∧ (Mesh.ofList l).getSafe c (fun _ => i) = .ok l[i] := by
  have hw : (Mesh.ofList l).storage.length = ∏ d, (Mesh.ofList l).dims d := by simp [Mesh.ofList]
  refine ⟨hw, fun _ => rfl, fun i hi => ?_⟩
  have hg : ∀ a : Fin 1 → ℕ, InRange (Mesh.ofList l).dims a → (Mesh.ofList l).get a = .ok ((l[a 0]?).getD l[i]) := fun a ha => by
    have h0 : a 0 < l.length := ha 0
    rw [Mesh.get, show indexing (Mesh.ofList l).dims a = a 0 by rw [indexing_succ, indexing_zero]; simp, List.getElem?_eq_getElem h0]
    exact rd_ok h0
  have hf : (Mesh.ofList l).Holds (Mesh.ofList l).dims fun a => (l[a 0]?).getD l[i] := ⟨rfl, hw, hg⟩
  have hin : InRange (Mesh.ofList l).dims fun _ => i := fun _ => hi
  rw [hf.get hin, hf.getSafe c hin, List.getElem?_eq_getElem hi]
  exact ⟨rfl, rfl⟩

example : (Mesh.ofList [(4 : ℤ), 7, 9]).get ![1] = .ok 7 := by decide

/-- **C03.** A mesh is a map: after any history of in-range writes, reading `a` gives the last value written to `a`, else the
initial one; the shape is unchanged. -/
theorem mesh_is_map (c : Cfg) (m : Mesh D V) (hm : m.storage.length = ∏ d, m.dims d) (f : (Fin D → ℕ) → V)
    (hf : ∀ a, (∀ d, a d < m.dims d) → m.get a = .ok (f a))
    (hist : List (MeshWrite D V)) (hh : ∀ w ∈ hist, ∀ d, w.idx d < m.dims d) :
    ∃ m', runWrites c m hist = .ok m' ∧ m'.dims = m.dims ∧ m'.size = m.size ∧
      ∀ a, (∀ d, a d < m.dims d) → m'.get a = .ok ((lastWrite hist a).getD (f a)) ∧
        m'.getSafe c a = .ok ((lastWrite hist a).getD (f a)) := by
  suffices H : ∀ (hist : List (MeshWrite D V)) (m : Mesh D V) (dims : Fin D → ℕ) (f : (Fin D → ℕ) → V),
      m.Holds dims f → (∀ w ∈ hist, ∀ d, w.idx d < dims d) →
      ∃ m', runWrites c m hist = .ok m' ∧ m'.Holds dims (fun a => (lastWrite hist a).getD (f a)) by
    obtain ⟨m', h1, h2⟩ := H hist m m.dims f ⟨rfl, hm, hf⟩ hh
    refine ⟨m', h1, h2.1, ?_, fun a ha => ⟨h2.get ha, h2.getSafe c ha⟩⟩
    unfold Mesh.size
    rw [h2.2.1, hm, h2.1]
  intro hist
  induction hist with
  | nil => intro m dims f h _; exact ⟨m, rfl, by simpa [lastWrite] using h⟩
  | cons w l ih =>
    intro m dims f h hl
    have hw : InRange dims w.idx := hl w (by simp)
    obtain ⟨m1, h1, h2⟩ : ∃ m1, (if w.checked then m.setSafe c w.idx w.val else m.set w.idx w.val) = .ok m1 ∧
        m1.Holds dims (Function.update f w.idx w.val) := by
      split
      · exact h.setSafe c hw w.val
      · exact h.set hw w.val
    obtain ⟨m2, h3, h4⟩ := ih m1 dims _ h2 (fun w' hw' => hl w' (by simp [hw']))
    refine ⟨m2, ?_, h4.congr fun a _ => ?_⟩
    · unfold runWrites
      rw [List.foldlM_cons, h1]
      exact h3
    · simp only [lastWrite, List.reverse_cons, List.find?_append]
      cases hfind : List.find? (fun w' => decide (w'.idx = a)) l.reverse with
      | some w' => simp
      | none =>
        by_cases hwa : w.idx = a
        · subst hwa; simp
        · simp [hwa, Function.update_of_ne (Ne.symm hwa)]

example : ∃ m', runWrites ⟨true, false⟩ (Mesh.mk' ![2, 3] : Mesh 2 ℤ)
    [⟨true, ![1, 2], 5⟩, ⟨false, ![0, 1], 7⟩, ⟨false, ![1, 2], 9⟩] = .ok m' ∧ m'.get ![1, 2] = .ok 9 := by
  exact ⟨_, rfl, rfl⟩

private theorem inc_iterate (it : SkipIter) (n : ℕ) : SkipIter.inc^[n] it = ⟨it.ptr + n * it.step, it.step⟩ := by
  induction n with
  | zero => simp
  | succ n ih => rw [Function.iterate_succ_apply', ih]; unfold SkipIter.inc; simp; ring

/-- **C04.** `begin(d, idx)` … `end(d, idx)` is the line through `idx` along axis `d`: `dims d` increments lead from one to the other and
not fewer; the `j`-th position holds element `idx[d := j]` and `iter_indices` says so; `it[n]`, `+`, `-`, `--`, difference and `<` agree
with that numbering. -/
theorem mesh_line_iteration (c : Cfg) (m : Mesh D V) (hm : m.storage.length = ∏ d, m.dims d) (d : Fin D)
    (idx : Fin D → ℕ) (hidx : ∀ e, idx e < m.dims e) :
    ∃ b e, m.beginIter c d idx = .ok b ∧ m.endIter d idx = .ok e ∧
      SkipIter.inc^[m.dims d] b = e ∧
      (∀ j < m.dims d, (SkipIter.inc^[j] b).eq e = false) ∧
      (∀ j < m.dims d, ∃ v, m.get (Function.update idx d j) = .ok v ∧ (SkipIter.inc^[j] b).deref m = .ok v ∧
        b.at' m j = .ok v ∧ m.skipIterIndices (SkipIter.inc^[j] b) = .ok (Function.update idx d j)) ∧
      (∀ j : ℕ, b.add j = SkipIter.inc^[j] b ∧ (SkipIter.inc^[j] b).sub j = b ∧ (SkipIter.inc^[j + 1] b).dec = SkipIter.inc^[j] b) ∧
      (∀ i j : ℕ, (SkipIter.inc^[i] b).diff (SkipIter.inc^[j] b) = (i : ℤ) - j ∧
        ((SkipIter.inc^[i] b).lt (SkipIter.inc^[j] b) = true ↔ i < j)) := by
  have hpos : ∀ e, 0 < m.dims e := fun e => lt_of_le_of_lt (Nat.zero_le _) (hidx e)
  have hup : ∀ j, j < m.dims d → InRange m.dims (Function.update idx d j) := by
    intro j hj e
    by_cases h : e = d
    · subst h; simpa using hj
    · rw [Function.update_of_ne h]; exact hidx e
  set o := indexing m.dims (Function.update idx d 0)
  set s := stride m.dims d
  have hs : 0 < s := stride_pos hpos d
  have hdiff : ∀ i j : ℕ, Int.tdiv ((o : ℤ) + i * s - (o + j * s)) s = (i : ℤ) - j := by
    intro i j
    rw [show ((o : ℤ) + i * s - (o + j * s)) = ((i : ℤ) - j) * s by ring]
    exact Int.mul_tdiv_cancel _ (by exact_mod_cast hs.ne')
  refine ⟨⟨o, s⟩, ⟨o + m.dims d * s, s⟩, ?_, ?_, ?_, ?_, ?_, ?_, ?_⟩
  · unfold Mesh.beginIter
    rw [Mesh.lineBegin_ok c m d (hup 0 (hpos d))]; rfl
  · unfold Mesh.endIter
    rw [Mesh.lineEnd_ok]
    simp [o, s]
  · rw [inc_iterate]
  · intro j hj
    rw [inc_iterate]
    simp only [SkipIter.eq, Bool.and_eq_false_iff, beq_eq_false_iff_ne]
    left
    intro h
    have : (j : ℤ) * s = m.dims d * s := by linarith
    have := mul_right_cancel₀ (by exact_mod_cast hs.ne' : (s : ℤ) ≠ 0) this
    omega
  · intro j hj
    obtain ⟨v, hv⟩ := Mesh.WF.get_ok (m := m) hm (hup j hj)
    have hix : indexing m.dims (Function.update idx d j) = o + j * s := indexing_update _ _ _ _
    have hv' : rd m.storage (o + j * s) = .ok v := by rw [← hix]; exact hv
    have hnn : ¬ ((o : ℤ) + j * s < 0) := by push Not; positivity
    have htn : ((o : ℤ) + j * s).toNat = o + j * s := by omega
    refine ⟨v, hv, ?_, ?_, ?_⟩
    · rw [inc_iterate]; unfold SkipIter.deref; rw [if_neg hnn, htn]; exact hv'
    · unfold SkipIter.at'; rw [if_neg hnn, htn]; exact hv'
    · rw [inc_iterate]; unfold Mesh.skipIterIndices; rw [if_neg hnn, htn, ← hix, dimwiseIndices_ok hpos,
        decode_indexing (hup j hj)]
  · intro j
    simp only [inc_iterate]
    refine ⟨rfl, ?_, ?_⟩ <;> simp only [SkipIter.sub, SkipIter.dec, SkipIter.mk.injEq, and_true] <;> push_cast <;> ring
  · intro i j
    simp only [inc_iterate, SkipIter.lt, SkipIter.diff, decide_eq_true_eq, hdiff]
    exact ⟨trivial, by omega⟩

example : ∃ b e, (Mesh.mk' ![2, 3, 4] : Mesh 3 ℤ).beginIter ⟨true, false⟩ 1 ![1, 2, 3] = .ok b ∧
    (Mesh.mk' ![2, 3, 4] : Mesh 3 ℤ).endIter 1 ![1, 2, 3] = .ok e ∧ b = ⟨15, 4⟩ ∧ e = ⟨27, 4⟩ := ⟨_, _, rfl, rfl, rfl, rfl⟩

/-- **C05.** Checked element access throws iff some index is out of range (assertions on), never for in-range indices, and for in-range
indices reads and writes coincide with the unchecked access, whatever the assertion setting. -/
theorem mesh_checked_access (m : Mesh D V) (hm : m.storage.length = ∏ d, m.dims d) (nd : Bool) (a : Fin D → ℕ) (v : V) :
    ((∃ e, m.getSafe ⟨true, nd⟩ a = .error e) ↔ ∃ d, m.dims d ≤ a d) ∧
    ((∃ d, m.dims d ≤ a d) → m.getSafe ⟨true, nd⟩ a = .error .assertFail ∧ m.setSafe ⟨true, nd⟩ a v = .error .assertFail) ∧
    ((∀ d, a d < m.dims d) → ∀ asr, ∃ w m', m.getSafe ⟨asr, nd⟩ a = .ok w ∧ m.get a = .ok w ∧
      m.setSafe ⟨asr, nd⟩ a v = .ok m' ∧ m.set a v = .ok m') := by
  have hex : (∃ d, m.dims d ≤ a d) ↔ ¬ InRange m.dims a := by unfold InRange; push Not; rfl
  have h3 : InRange m.dims a → ∀ asr, ∃ w m', m.getSafe ⟨asr, nd⟩ a = .ok w ∧ m.get a = .ok w ∧
      m.setSafe ⟨asr, nd⟩ a v = .ok m' ∧ m.set a v = .ok m' := by
    intro h asr
    obtain ⟨w, hw⟩ := Mesh.WF.get_ok (m := m) hm h
    have hlt := Mesh.WF.lt (m := m) hm h
    refine ⟨w, ⟨m.dims, m.storage.set (indexing m.dims a) v⟩, ?_, hw, ?_, ?_⟩
    · unfold Mesh.getSafe; rw [indexingSafe_ok _ h]; exact hw
    · unfold Mesh.setSafe; rw [indexingSafe_ok _ h, ok_bind, wr_ok hlt]; rfl
    · unfold Mesh.set; rw [wr_ok hlt]; rfl
  have h2 : ¬ InRange m.dims a → m.getSafe ⟨true, nd⟩ a = .error .assertFail ∧
      m.setSafe ⟨true, nd⟩ a v = .error .assertFail := by
    intro h
    constructor
    · unfold Mesh.getSafe; rw [indexingSafe_throws _ rfl h]; rfl
    · unfold Mesh.setSafe; rw [indexingSafe_throws _ rfl h]; rfl
  refine ⟨?_, fun h => h2 (hex.1 h), h3⟩
  rw [hex]
  constructor
  · rintro ⟨e, he⟩ h
    obtain ⟨w, _, hw, _⟩ := h3 h true
    rw [hw] at he; cases he
  · intro h; exact ⟨_, (h2 h).1⟩

example : (Mesh.mk' ![2, 3] : Mesh 2 ℤ).getSafe ⟨true, false⟩ ![1, 3] = .error .assertFail ∧
    (Mesh.mk' ![2, 3] : Mesh 2 ℤ).getSafe ⟨true, false⟩ ![1, 2] = .ok 0 := ⟨rfl, rfl⟩

end Intp
