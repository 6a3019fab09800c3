import Verif.CellLayout
import Verif.Proofs.Deriv

/-! # The cell layout holds the control points in evaluation order -/

namespace Intp

open Finset

/-! ## digits -/

theorem decode_const (n : ℕ) : ∀ {D : ℕ} (t : ℕ) (d : Fin D), decode (fun _ : Fin D => n) t d.rev = t / n ^ d.val % n
  | 0, _, d => d.elim0
  | D + 1, t, d => by
    refine Fin.cases ?_ (fun d => ?_) d
    · rw [Fin.rev_zero, decode_last]; simp
    · rw [Fin.rev_succ, decode_castSucc, decode_const n (t / n) d, Nat.div_div_eq_div_mul, Fin.val_succ, pow_succ']

theorem digs_get {D n : ℕ} : ∀ (l : List (Fin D)), l.Nodup → ∀ (k : ℕ) (hk : k < l.length) (a : Fin D → ℕ) (i : ℕ),
    digs n l a i l[k] = i / n ^ k % n
  | d :: l, hl, 0, _, a, i => by
    rw [List.nodup_cons] at hl
    rw [List.getElem_cons_zero, digs, digs_notMem hl.1, Function.update_self]; simp
  | d :: l, hl, k + 1, hk, a, i => by
    rw [List.nodup_cons] at hl
    rw [List.getElem_cons_succ, digs, digs_get l hl.2 k (by simpa using hk), Nat.div_div_eq_div_mul, pow_succ']

theorem digs_all {D n : ℕ} (a : Fin D → ℕ) (i : ℕ) (d : Fin D) : digs n (freeAxes fun _ : Fin D => false) a i d = i / n ^ d.val % n := by
  have e : freeAxes (fun _ : Fin D => false) = List.finRange D := by simp [freeAxes]
  rw [e]
  have := digs_get (n := n) (List.finRange D) (List.nodup_finRange D) d.val (by simp) a i
  simpa using this

/-- The size of the first dimension does not matter for positions. -/
theorem indexing_congr_dims : ∀ {D : ℕ} {n n' : Fin (D + 1) → ℕ} (a : Fin (D + 1) → ℕ), (∀ d ≠ 0, n d = n' d) → indexing n a = indexing n' a
  | 0, n, n', a, _ => by rw [indexing_succ, indexing_succ, indexing_zero, indexing_zero]; rfl
  | D + 1, n, n', a, h => by
    rw [indexing_succ, indexing_succ n', h (Fin.last (D + 1)) (by simp), indexing_congr_dims (fun i => a i.castSucc) fun d hd => h _ (by simpa using hd)]

variable {K V : Type} {D : ℕ}

/-- Sum over the digits, first dimension fastest. -/
theorem sum_digs {W : Type} [AddCommMonoid W] {n : ℕ} (hn : 0 < n) (g : (Fin D → ℕ) → W) :
    ∑ i ∈ range (n ^ D), g (fun d => i / n ^ d.val % n) = ∑ a ∈ box (fun _ : Fin D => n), g a := by
  have hb := digs_bijOn (D := D) hn (fun _ => false)
  rw [freeAxes_none_length] at hb
  have e : ∀ i, digs n (freeAxes fun _ : Fin D => false) (fun _ => 0) i = fun d : Fin D => i / n ^ d.val % n :=
    fun i => funext fun d => digs_all _ i d
  refine sum_bij (fun i _ => fun d : Fin D => i / n ^ d.val % n) ?_ ?_ ?_ (fun _ _ => rfl)
  · intro i hi
    rw [mem_box]
    intro d
    exact Nat.mod_lt _ hn
  · intro i hi j hj h
    refine hb.2.1 (show i ∈ Set.Iio _ from mem_range.1 hi) (show j ∈ Set.Iio _ from mem_range.1 hj) ?_
    rw [e, e]; exact h
  · intro a ha
    rw [mem_box] at ha
    obtain ⟨i, hi, hia⟩ := hb.2.2 (show a ∈ {a : Fin D → ℕ | ∀ d, if false = true then a d = 0 else a d < n} by intro d; simpa using ha d)
    rw [e] at hia
    exact ⟨i, mem_range.2 hi, hia⟩

/-! ## the container -/

namespace Cell

/-- Side lengths of the cell container. -/
def cdims (order : ℕ) (per : Fin (D + 1) → Bool) (n : Fin (D + 1) → ℕ) : Fin (D + 2) → ℕ :=
  Fin.snoc (α := fun _ => ℕ) (fun d : Fin (D + 1) => if d = Fin.last D then n d + if per d then order else 0 else if per d then n d else n d - order)
    ((order + 1) ^ D)

theorem cdims_last (order : ℕ) (per : Fin (D + 1) → Bool) (n : Fin (D + 1) → ℕ) : cdims order per n (Fin.last (D + 1)) = (order + 1) ^ D := by
  simp [cdims]

theorem cdims_castSucc (order : ℕ) (per : Fin (D + 1) → Bool) (n : Fin (D + 1) → ℕ) (d : Fin (D + 1)) : cdims order per n d.castSucc =
    if d = Fin.last D then n d + if per d then order else 0 else if per d then n d else n d - order := by
  simp [cdims]

theorem dims_ok {order : ℕ} {per : Fin (D + 1) → Bool} {n : Fin (D + 1) → ℕ} (h : ∀ d, per d = false → order < n d) :
    dims order per n = .ok (cdims order per n) := by
  unfold dims
  rw [tabM_ok (g := fun d : Fin (D + 1) => if d = Fin.last D then n d + if per d then order else 0 else if per d then n d else n d - order), ok_bind]
  · rfl
  · intro d
    by_cases h1 : d = Fin.last D
    · rw [if_pos h1, if_pos h1]; rfl
    · rw [if_neg h1, if_neg h1]
      cases hp : per d with
      | true => rfl
      | false => simp only [Bool.false_eq_true, if_false]; exact subM_ok (h d hp).le

/-- Shift along dimension `d` for position `i` in a cell. -/
def shift (order i : ℕ) (d : Fin (D + 1)) : ℕ := if d.val < D then i / (order + 1) ^ d.val % (order + 1) else 0

/-- Index of the control point stored at cell index `ci`. -/
def src (order : ℕ) (n : Fin (D + 1) → ℕ) (ci : Fin (D + 2) → ℕ) : Fin (D + 1) → ℕ :=
  fun d => (ci d.castSucc + shift order (ci (Fin.last (D + 1))) d) % n d

theorem source_ok {order : ℕ} {n : Fin (D + 1) → ℕ} (hn : ∀ d, 0 < n d) (ci : Fin (D + 2) → ℕ) (i : ℕ) :
    source n ci (decode (fun _ : Fin D => order + 1) i) = .ok (src order n (Function.update ci (Fin.last (D + 1)) i)) := by
  unfold source
  refine tabM_ok fun d => ?_
  rw [modM_ok (hn d).ne']
  unfold src shift
  rw [Function.update_self, Function.update_of_ne (Fin.castSucc_lt_last d).ne]
  congr 3
  by_cases h : d.val < D
  · rw [dif_pos h, if_pos h, decode_const]
  · rw [dif_neg h, if_neg h]

/-- The first `q` cells in storage order are filled. -/
def Filled (cd : Fin (D + 2) → ℕ) (F : ℕ → V) (q : ℕ) (cell : Mesh (D + 2) V) : Prop :=
  cell.dims = cd ∧ cell.storage.length = ∏ d, cd d ∧ ∀ r < q, cell.storage[r]? = some (F r)

theorem decode_add {cd : Fin (D + 2) → ℕ} {L m i : ℕ} (hL : cd (Fin.last (D + 1)) = L) (hi : i < L) :
    Function.update (decode cd (m * L)) (Fin.last (D + 1)) i = decode cd (m * L + i) := by
  have h0 : 0 < L := by omega
  funext d
  refine Fin.lastCases ?_ (fun d => ?_) d
  · rw [Function.update_self, decode_last, hL, Nat.mul_add_mod_self_right, Nat.mod_eq_of_lt hi]
  · rw [Function.update_of_ne (Fin.castSucc_lt_last d).ne, decode_castSucc, decode_castSucc, hL, Nat.mul_div_cancel _ h0,
      Nat.mul_comm m L, Nat.mul_add_div h0, Nat.div_eq_of_lt hi]; rfl

theorem dims_prod (cd : Fin (D + 2) → ℕ) : ∏ d, cd d = (∏ d : Fin D, cd d.castSucc.castSucc) * (cd (Fin.last D).castSucc * cd (Fin.last (D + 1))) := by
  rw [Fin.prod_univ_castSucc, Fin.prod_univ_castSucc, mul_assoc]

/-- One cell. -/
theorem fillPoint_spec {order : ℕ} {ctrl : Mesh (D + 1) V} {n : Fin (D + 1) → ℕ} {C : (Fin (D + 1) → ℕ) → V} (hC : ctrl.Holds n C)
    (hn : ∀ d, 0 < n d) {cd : Fin (D + 2) → ℕ} (hL : cd (Fin.last (D + 1)) = (order + 1) ^ D) {m : ℕ}
    (hm : m * (order + 1) ^ D + (order + 1) ^ D ≤ ∏ d, cd d) {cell : Mesh (D + 2) V}
    (hf : Filled cd (fun r => C (src order n (decode cd r))) (m * (order + 1) ^ D) cell) :
    Ok (fillPoint order ctrl (decode cd (m * (order + 1) ^ D)) cell)
      (Filled cd (fun r => C (src order n (decode cd r))) ((m + 1) * (order + 1) ^ D)) := by
  unfold fillPoint
  rw [dimsSize_eq, prod_const, card_univ, Fintype.card_fin]
  refine Spec.imp (Spec.loop (P := fun i => Filled cd (fun r => C (src order n (decode cd r))) (m * (order + 1) ^ D + i)) (Nat.zero_le _)
    (by simpa using hf) ?_) fun cell h => by rw [add_mul, one_mul]; exact h
  rintro i cell _ hi ⟨h1, h2, h3⟩
  rw [dimwiseIndices_ok (dims := fun _ : Fin D => order + 1) (fun _ => Nat.succ_pos _), ok_bind, hC.1, source_ok hn, ok_bind, hC.get, ok_bind]
  swap
  · intro d; exact Nat.mod_lt _ (hn d)
  unfold Mesh.set
  rw [h1, decode_add hL hi, indexing_decode (by omega), wr_ok (by omega), ok_bind]
  refine Spec.pure ⟨rfl, by rw [List.length_set]; exact h2, fun r hr => ?_⟩
  rw [List.getElem?_set]
  by_cases hri : m * (order + 1) ^ D + i = r
  · rw [if_pos hri, if_pos (by omega), ← hri]
  · rw [if_neg hri]; exact h3 r (by omega)

/-- `fill_cell` on a range of lines. -/
theorem fill_spec (c : Cfg) {order : ℕ} {ctrl : Mesh (D + 1) V} {n : Fin (D + 1) → ℕ} {C : (Fin (D + 1) → ℕ) → V} (hC : ctrl.Holds n C)
    (hn : ∀ d, 0 < n d) {cd : Fin (D + 2) → ℕ} (hcd : ∀ d, 0 < cd d) (hL : cd (Fin.last (D + 1)) = (order + 1) ^ D) {cell : Mesh (D + 2) V}
    (hf : Filled cd (fun r => C (src order n (decode cd r))) 0 cell) :
    Ok (fill c order (cd (Fin.last D).castSucc * cd (Fin.last (D + 1))) ctrl 0 (∏ d : Fin D, cd d.castSucc.castSucc) cell)
      (Filled cd (fun r => C (src order n (decode cd r))) (∏ d, cd d)) := by
  set F : ℕ → V := fun r => C (src order n (decode cd r)) with hF
  set L := (order + 1) ^ D with hLd
  set n1 := cd (Fin.last D).castSucc with hn1
  have hL0 : 0 < L := by rw [← hL]; exact hcd _
  have h10 : 0 < n1 := hcd _
  rw [hL]
  have hp := dims_prod cd
  rw [hL, ← hn1] at hp
  unfold fill
  refine Spec.imp (Spec.loop (P := fun h => Filled cd F (h * (n1 * L))) (Nat.zero_le _) (by simpa using hf) ?_) fun cell h => by rw [hp]; exact h
  intro h cell _ hh hc
  have hc0 := hc
  obtain ⟨h1, h2, h3⟩ := hc
  have hle : h * (n1 * L) + n1 * L ≤ ∏ d, cd d := by
    rw [hp]
    calc h * (n1 * L) + n1 * L = (h + 1) * (n1 * L) := by ring
      _ ≤ _ := Nat.mul_le_mul_right _ hh
  rw [h1, dimwiseIndices_ok hcd, ok_bind]
  have hz : Function.update (decode cd (h * (n1 * L))) (Fin.last D).castSucc 0 = decode cd (h * (n1 * L)) := by
    rw [Function.update_eq_self_iff, decode_castSucc, decode_last, hL, ← mul_assoc, Nat.mul_div_cancel _ hL0]
    show 0 = h * n1 % n1
    simp
  rw [Mesh.lineBegin_ok c cell _ (by rw [h1, hz]; exact decode_inRange hcd), ok_bind, h1, hz,
    indexing_decode (by have : 0 < n1 * L := Nat.mul_pos h10 hL0; omega)]
  have hst : stride cd (Fin.last D).castSucc = L := by rw [stride_castSucc, stride_last, one_mul, hL]
  rw [hst]
  refine Spec.imp (Spec.loop (P := fun k => Filled cd F (h * (n1 * L) + k * L)) (Nat.zero_le _) (by simpa using hc0) ?_) fun cell hq => by
    have : (h + 1) * (n1 * L) = h * (n1 * L) + n1 * L := by ring
    rw [this]; exact hq
  intro k cell _ hk hq
  show Spec (cell.iterIndices (h * (n1 * L) + k * L) >>= fun ci => fillPoint order ctrl ci cell) _ _
  have hm : h * (n1 * L) + k * L = (h * n1 + k) * L := by ring
  have hm' : h * (n1 * L) + (k + 1) * L = (h * n1 + k + 1) * L := by ring
  have hkl : (k + 1) * L ≤ n1 * L := Nat.mul_le_mul_right _ hk
  unfold Mesh.iterIndices
  rw [hq.1, dimwiseIndices_ok hcd, ok_bind, hm, hm']
  rw [hm] at hq
  refine fillPoint_spec hC hn hL ?_ hq
  have : (h * n1 + k) * L + L = h * (n1 * L) + (k + 1) * L := by ring
  rw [this]; omega

/-- `generate_cell_layout`. -/
theorem generate_spec [Zero V] (c : Cfg) {order : ℕ} {per : Fin (D + 1) → Bool} {ctrl : Mesh (D + 1) V} {n : Fin (D + 1) → ℕ} {C : (Fin (D + 1) → ℕ) → V} (hC : ctrl.Holds n C)
    (hn : ∀ d, 0 < n d) (ha : ∀ d, per d = false → order < n d) :
    Ok (generate c order per ctrl) fun cell => cell.Holds (cdims order per n) (fun ci => C (src order n ci)) := by
  unfold generate
  rw [hC.1, dims_ok ha, ok_bind]
  set cd := cdims order per n with hcd
  have hpos : ∀ d, 0 < cd d := by
    intro d
    refine Fin.lastCases ?_ (fun d => ?_) d
    · rw [hcd, cdims_last]; exact Nat.pow_pos (Nat.succ_pos _)
    · rw [hcd, cdims_castSucc]
      have := hn d
      split
      · omega
      · split
        · omega
        · rename_i hp
          have := ha d (by simpa using hp)
          omega
  have hl : 0 < cd (Fin.last D).castSucc * cd (Fin.last (D + 1)) := Nat.mul_pos (hpos _) (hpos _)
  have hsz : (Mesh.mk' cd : Mesh (D + 2) V).size = ∏ d, cd d := by
    simp [Mesh.size, Mesh.mk', dimsSize_eq]
  simp only
  rw [hsz, divN_ok hl.ne', ok_bind, dims_prod, Nat.mul_div_cancel _ hl]
  refine Spec.imp (fill_spec c hC hn hpos (cdims_last _ _ _) ⟨rfl, by simp [Mesh.mk', dimsSize_eq], fun r hr => by omega⟩) fun cell ⟨h1, h2, h3⟩ => ?_
  refine ⟨h1, by rw [Mesh.WF, h1]; exact h2, fun a hr => ?_⟩
  unfold Mesh.get
  rw [h1, rd_eq_ok_iff, h3 _ (indexing_lt hr)]
  simp only [decode_indexing hr]

/-- Reading `i` steps after the first control point of a cell. -/
theorem read_ok {order : ℕ} {per : Fin (D + 1) → Bool} {n σ : Fin (D + 1) → ℕ} {C : (Fin (D + 1) → ℕ) → V} {cell : Mesh (D + 2) V}
    (hc : cell.Holds (cdims order per n) (fun ci => C (src order n ci))) (h1 : ∀ d ≠ Fin.last D, σ d < cdims order per n d.castSucc)
    (h2 : σ (Fin.last D) + order < cdims order per n (Fin.last D).castSucc) {i : ℕ} (hi : i < (order + 1) ^ (D + 1)) :
    rd cell.storage (indexing (cdims order per n) (Fin.snoc (α := fun _ => ℕ) σ 0) + i) =
      .ok (C fun d => (σ d + i / (order + 1) ^ d.val % (order + 1)) % n d) := by
  set cd := cdims order per n with hcd
  set L := (order + 1) ^ D with hL
  have hL0 : 0 < L := Nat.pow_pos (Nat.succ_pos _)
  have hq : i / L < order + 1 := by rw [Nat.div_lt_iff_lt_mul hL0]; rw [pow_succ'] at hi; exact hi
  set τ : Fin (D + 1) → ℕ := Function.update σ (Fin.last D) (σ (Fin.last D) + i / L) with hτ
  have hr : InRange cd (Fin.snoc (α := fun _ => ℕ) τ (i % L)) := by
    intro d
    refine Fin.lastCases ?_ (fun d => ?_) d
    · rw [Fin.snoc_last, hcd, cdims_last]; exact Nat.mod_lt _ hL0
    · rw [Fin.snoc_castSucc]
      by_cases hd : d = Fin.last D
      · subst hd; rw [hτ, Function.update_self]; omega
      · rw [hτ, Function.update_of_ne hd]; exact h1 d hd
  have hix : indexing cd (Fin.snoc (α := fun _ => ℕ) τ (i % L)) = indexing cd (Fin.snoc (α := fun _ => ℕ) σ 0) + i := by
    rw [indexing_succ, indexing_succ, indexing_succ cd, indexing_succ (fun d : Fin (D + 1) => cd d.castSucc)]
    simp only [Fin.snoc_last, Fin.snoc_castSucc]
    have e1 : τ (Fin.last D) = σ (Fin.last D) + i / L := by rw [hτ, Function.update_self]
    have e2 : (fun d : Fin D => τ d.castSucc) = fun d => σ d.castSucc := by
      funext d; rw [hτ, Function.update_of_ne (Fin.castSucc_lt_last d).ne]
    have e3 : cd (Fin.last (D + 1)) = L := by rw [hcd, cdims_last]
    rw [e1, e2, e3]
    have := Nat.mod_add_div i L
    generalize cd (Fin.last D).castSucc * indexing _ _ = z
    rw [mul_add, mul_add, mul_add]
    omega
  have hg := hc.get hr
  unfold Mesh.get at hg
  rw [hc.1, hix] at hg
  rw [hg]
  congr 2
  funext d
  unfold src shift
  rw [Fin.snoc_last, Fin.snoc_castSucc]
  congr 1
  by_cases hd : d = Fin.last D
  · subst hd
    rw [if_neg (by simp), hτ, Function.update_self, Fin.val_last, Nat.mod_eq_of_lt hq, Nat.add_zero]
  · have hlt : d.val < D := by
      have := d.isLt
      have : d.val ≠ D := fun e => hd (Fin.ext e)
      omega
    rw [if_pos hlt, hτ, Function.update_of_ne hd]
    congr 1
    have e : L = (order + 1) ^ d.val * (order + 1) ^ (D - d.val) := by rw [hL, ← pow_add]; congr 1; omega
    rw [e, Nat.mod_mul_right_div_self, Nat.mod_mod_of_dvd]
    exact dvd_pow_self _ (by omega)

end Cell

namespace CellSpline

variable [Field K] {n : ℕ}

/-- The product loop over the dimensions. -/
theorem scale_ok {W : Type} [AddCommGroup W] [Module K W] {order : ℕ} {base : Fin (D + 1) → List K} {e : Fin (D + 1) → ℕ → K}
    (he : ∀ d m, m < order + 1 → rd (base d) m = .ok (e d m)) (i : ℕ) (v : W) :
    scale order base i v = .ok ((∏ d, e d (i / (order + 1) ^ d.val % (order + 1))) • v) := by
  have key : ∀ (l : List (Fin (D + 1))), l.Nodup → ∀ (a : Fin (D + 1) → ℕ) (i : ℕ) (v : W), ∃ q, l.foldlM (fun (acc : W × ℕ) d => do
      let m ← modM acc.2 (order + 1)
      let x ← rd (base d) m
      let q ← divN acc.2 (order + 1)
      pure (x • acc.1, q)) (v, i) = (.ok ((l.map fun d => e d (digs (order + 1) l a i d)).prod • v, q) : M _) := by
    intro l
    induction l with
    | nil => intro _ a i v; exact ⟨i, by simp [pure_eq_ok]⟩
    | cons d l ih =>
      intro hl a i v
      rw [List.nodup_cons] at hl
      obtain ⟨q, hq⟩ := ih hl.2 (Function.update a d (i % (order + 1))) (i / (order + 1)) (e d (i % (order + 1)) • v)
      refine ⟨q, ?_⟩
      rw [List.foldlM_cons, modM_ok (by omega), ok_bind, he _ _ (Nat.mod_lt _ (by omega)), ok_bind, divN_ok (by omega), ok_bind, pure_eq_ok, ok_bind, hq]
      congr 2
      rw [List.map_cons, List.prod_cons, digs, digs_notMem hl.1, Function.update_self, mul_comm, mul_smul]
  obtain ⟨q, hq⟩ := key (List.finRange (D + 1)) (List.nodup_finRange _) (fun _ => 0) i v
  unfold scale
  have e' : List.finRange (D + 1) = freeAxes fun _ : Fin (D + 1) => false := by simp [freeAxes]
  have e2 : (fun d => e d (digs (order + 1) (List.finRange (D + 1)) (fun _ => 0) i d)) = fun d : Fin (D + 1) => e d (i / (order + 1) ^ d.val % (order + 1)) := by
    funext d; rw [e', digs_all]
  rw [hq, ok_bind, pure_eq_ok, e2, ← List.ofFn_eq_map, List.prod_ofFn]

theorem fold_prod {E : Fin D → M K} {e : Fin D → K} (hE : ∀ d, E d = .ok (e d)) :
    (List.finRange D).foldlM (fun (acc : K) d => do
      let x ← E d
      pure (acc * x)) (1 : K) = (.ok (∏ d, e d) : M _) := by
  have key : ∀ (l : List (Fin D)) (c : K), l.foldlM (fun (acc : K) d => do
      let x ← E d
      pure (acc * x)) c = (.ok (c * (l.map e).prod) : M _) := by
    intro l
    induction l with
    | nil => intro c; simp [pure_eq_ok]
    | cons d l ih => intro c; rw [List.foldlM_cons, hE, ok_bind, pure_eq_ok, ok_bind, ih, List.map_cons, List.prod_cons, mul_assoc]
  rw [key, one_mul, ← List.ofFn_eq_map, List.prod_ofFn]

end CellSpline

theorem loop_congr {σ : Type} {f g : ℕ → σ → M σ} {n : ℕ} (h : ∀ i, i < n → ∀ s, f i s = g i s) (s : σ) : loop 0 n s f = loop 0 n s g := by
  have key : ∀ (k i : ℕ) (s : σ), i + k ≤ n → loopN k i s f = loopN k i s g := by
    intro k
    induction k with
    | zero => intro i s _; rfl
    | succ k ih =>
      intro i s hik
      show (f i s >>= fun s => loopN k (i + 1) s f) = (g i s >>= fun s => loopN k (i + 1) s g)
      rw [h i (by omega)]
      cases g i s with
      | ok s' => exact ih _ _ (by omega)
      | error e => rfl
  exact key _ _ _ (by omega)

namespace BSpline

variable [Field K] [LinearOrder K] [IsStrictOrderedRing K] [FloorRing K] [AddCommGroup V] [Module K V] {b : BSpline (D + 1) K V}

theorem WF.ctrl_pos (h : b.WF) (d : Fin (D + 1)) : 0 < b.ctrl.dims d := (Nat.zero_le _).trans_lt (h.ctrlOf_lt (Nat.zero_le (b.last d)))

theorem WF.ctrl_gt (h : b.WF) (d : Fin (D + 1)) (hp : b.periodicity d = false) : b.order < b.ctrl.dims d := by
  have h1 := h.aper d hp
  have h2 := h.len d
  omega

/-- Segments for which every control point needed is in the cell container. -/
def CellSafe (b : BSpline (D + 1) K V) (s : Fin (D + 1) → ℕ) : Prop := ∀ d, b.periodicity d = true → s d < b.ctrl.dims d + b.order

theorem WF.seg_cell (h : b.WF) {x w : Fin (D + 1) → K} {s : Fin (D + 1) → ℕ} (hat : b.At x w s) (hs : b.CellSafe s) (d : Fin (D + 1)) :
    s d - b.order + (if d = Fin.last D then b.order else 0) < Cell.cdims b.order b.periodicity b.ctrl.dims d.castSucc := by
  rw [Cell.cdims_castSucc]
  have h1 := (hat.seg d).1
  have h2 := (hat.seg d).2.1
  have h3 := h.len d
  unfold last at h2
  cases hp : b.periodicity d with
  | true =>
    have := hs d hp
    split <;> simp <;> omega
  | false =>
    have := h.aper d hp
    have := h.ctrl_gt d hp
    split <;> simp <;> omega

/-- The control points read from a cell are those of the plain layout. -/
theorem WF.cell_read (h : b.WF) {x w : Fin (D + 1) → K} {s : Fin (D + 1) → ℕ} (hat : b.At x w s) (hs : b.CellSafe s) {C : (Fin (D + 1) → ℕ) → V}
    {cell : Mesh (D + 2) V} (hc : cell.Holds (Cell.cdims b.order b.periodicity b.ctrl.dims) (fun ci => C (Cell.src b.order b.ctrl.dims ci)))
    {i : ℕ} (hi : i < (b.order + 1) ^ (D + 1)) :
    rd cell.storage (indexing (Cell.cdims b.order b.periodicity b.ctrl.dims) (Fin.snoc (α := fun _ => ℕ) (fun d => s d - b.order) 0) + i) =
      .ok (C fun d => b.ctrlOf d (s d - b.order + i / (b.order + 1) ^ d.val % (b.order + 1))) := by
  rw [Cell.read_ok hc ?_ ?_ hi]
  · congr 2
    funext d
    unfold ctrlOf
    split
    · rfl
    · rename_i hp
      have hp' : b.periodicity d = false := by simpa using hp
      have h1 := h.ctrlOf_lt (d := d) (i := s d - b.order + i / (b.order + 1) ^ d.val % (b.order + 1)) (by
        have := (hat.seg d).1; have := (hat.seg d).2.1
        have := Nat.mod_lt (i / (b.order + 1) ^ d.val) (Nat.succ_pos b.order)
        simp only [Nat.succ_eq_add_one] at this
        omega)
      unfold ctrlOf at h1
      rw [if_neg hp] at h1
      exact Nat.mod_eq_of_lt h1
  · intro d hd
    have := h.seg_cell hat hs d
    rw [if_neg hd] at this
    simpa using this
  · have := h.seg_cell hat hs (Fin.last D)
    rwa [if_pos rfl] at this

theorem WF.cellLine (c : Cfg) (h : b.WF) {x w : Fin (D + 1) → K} {s : Fin (D + 1) → ℕ} (hat : b.At x w s) (hs : b.CellSafe s)
    {cell : Mesh (D + 2) V} (hd : cell.dims = Cell.cdims b.order b.periodicity b.ctrl.dims) :
    cell.lineBegin c (Fin.last (D + 1)) (Fin.snoc (α := fun _ => ℕ) (fun d => s d - b.order) 0) =
      .ok (indexing (Cell.cdims b.order b.periodicity b.ctrl.dims) (Fin.snoc (α := fun _ => ℕ) (fun d => s d - b.order) 0), 1) := by
  have hu : Function.update (Fin.snoc (α := fun _ => ℕ) (fun d => s d - b.order) 0 : Fin (D + 2) → ℕ) (Fin.last (D + 1)) 0 =
      Fin.snoc (α := fun _ => ℕ) (fun d => s d - b.order) 0 := by
    rw [Function.update_eq_self_iff, Fin.snoc_last]
  rw [Mesh.lineBegin_ok, hd, hu, stride_last]
  rw [hd, hu]
  intro d
  refine Fin.lastCases ?_ (fun d => ?_) d
  · rw [Fin.snoc_last, Cell.cdims_last]; exact Nat.pow_pos (Nat.succ_pos _)
  · rw [Fin.snoc_castSucc]
    have := h.seg_cell hat hs d
    omega

theorem WF.cellIndex_ok (h : b.WF) {x w : Fin (D + 1) → K} {s : Fin (D + 1) → ℕ} (hat : b.At x w s) (cell : Mesh (D + 2) V) :
    (⟨b, cell⟩ : CellSpline D K V).cellIndex (fun d => (w d, s d)) = .ok (Fin.snoc (α := fun _ => ℕ) (fun d => s d - b.order) 0) := by
  unfold CellSpline.cellIndex
  rw [tabM_ok (g := fun d => s d - b.order) (fun d => subM_ok (hat.seg d).1), ok_bind]
  rfl

theorem WF.base_ok (h : b.WF) {x w : Fin (D + 1) → K} {s : Fin (D + 1) → ℕ} (hat : b.At x w s) {p : Fin (D + 1) → ℕ} (hp : ∀ d, p d ≤ b.order) :
    tabM (fun d => baseSplineValue b.order (b.knots d) (s d) (w d) (p d)) =
      .ok fun d => arr (b.order + 1) fun a => piece (b.kn d) (s d) (p d) (s d - b.order + a) (w d) :=
  tabM_ok fun d => by
    have h1 := (hat.seg d).2.1
    have h2 := h.last_lt d
    exact baseSplineValue_ok (hat.seg d).1 (by omega) (h.seg_nondeg hat d) (hp d)

/-- The sum with the first dimension fastest. -/
theorem WF.sum_digits (h : b.WF) {x w : Fin (D + 1) → K} {s : Fin (D + 1) → ℕ} (hat : b.At x w s) (C : (Fin (D + 1) → ℕ) → V) :
    ∑ i ∈ Finset.range ((b.order + 1) ^ (D + 1)), (∏ d, piece (b.kn d) (s d) b.order (s d - b.order + i / (b.order + 1) ^ d.val % (b.order + 1)) (w d)) •
      C (fun d => b.ctrlOf d (s d - b.order + i / (b.order + 1) ^ d.val % (b.order + 1))) =
      tensorVal b.ctrl.dims (fun d => b.weight d (s d) 0 (w d)) C := by
  rw [sum_digs (Nat.succ_pos b.order) (fun a : Fin (D + 1) → ℕ => (∏ d, piece (b.kn d) (s d) b.order (s d - b.order + a d) (w d)) •
    C (fun d => b.ctrlOf d (s d - b.order + a d))), ← h.local_sum hat (fun _ => 0) C]
  refine sum_congr rfl fun a _ => ?_
  congr 1
  refine prod_congr rfl fun d _ => ?_
  simp [pieceP_eval]

/-- `operator()` in the cell layout. -/
theorem WF.cellEval_eq (c : Cfg) (h : b.WF) {x : Fin (D + 1) → K × ℕ} {w : Fin (D + 1) → K} {s : Fin (D + 1) → ℕ} (hat : b.At (fun d => (x d).1) w s)
    (hh : ∀ d, ValidHint (b.knots d) b.order (b.last d) (w d) (x d).2) (hs : b.CellSafe s) {C : (Fin (D + 1) → ℕ) → V} {cell : Mesh (D + 2) V}
    (hc : cell.Holds (Cell.cdims b.order b.periodicity b.ctrl.dims) (fun ci => C (Cell.src b.order b.ctrl.dims ci))) :
    (⟨b, cell⟩ : CellSpline D K V).eval c x = .ok (tensorVal b.ctrl.dims (fun d => b.weight d (s d) 0 (w d)) C) := by
  unfold CellSpline.eval
  simp only
  rw [tabM_ok (g := fun d => (w d, s d)) (fun d => h.getKnotIter'_eq (hat.wrap d) (hat.seg d) (hh d)), ok_bind]
  simp only
  rw [h.base_ok hat (fun _ => le_rfl), ok_bind, h.cellIndex_ok hat, ok_bind, h.cellLine c hat hs hc.1, ok_bind]
  rw [loop_sum (g := fun i => (∏ d, piece (b.kn d) (s d) b.order (s d - b.order + i / (b.order + 1) ^ d.val % (b.order + 1)) (w d)) •
      C (fun d => b.ctrlOf d (s d - b.order + i / (b.order + 1) ^ d.val % (b.order + 1)))), zero_add, h.sum_digits hat]
  intro i hi v
  simp only [Nat.mul_one]
  rw [h.cell_read hat hs hc hi, ok_bind, CellSpline.scale_ok (fun d m hm => rd_arr _ hm), ok_bind]
  rfl

/-- `derivative_at` in the cell layout is that of the plain layout. -/
theorem WF.cellDerivativeAt_eq (c : Cfg) (h : b.WF) {x : Fin (D + 1) → K × ℕ × ℕ} {w : Fin (D + 1) → K} {s : Fin (D + 1) → ℕ} (hat : b.At (fun d => (x d).1) w s)
    (hh : ∀ d, ValidHint (b.knots d) b.order (b.last d) (w d) (x d).2.1) (hs : b.CellSafe s) {C : (Fin (D + 1) → ℕ) → V} {cell : Mesh (D + 2) V}
    (hC : b.ctrl.Holds b.ctrl.dims C)
    (hc : cell.Holds (Cell.cdims b.order b.periodicity b.ctrl.dims) (fun ci => C (Cell.src b.order b.ctrl.dims ci))) :
    (⟨b, cell⟩ : CellSpline D K V).derivativeAt c x = b.derivativeAt c x := by
  unfold CellSpline.derivativeAt BSpline.derivativeAt
  simp only
  split
  · rfl
  have hple : ∀ d, b.order - (x d).2.2 ≤ b.order := fun d => Nat.sub_le _ _
  rw [tabM_ok (g := fun d => (w d, s d)) (fun d => h.getKnotIter'_eq (hat.wrap d) (hat.seg d) (hh d)), ok_bind, ok_bind]
  simp only
  rw [h.base_ok hat hple, ok_bind, ok_bind, h.cellIndex_ok hat, ok_bind, h.cellLine c hat hs hc.1, ok_bind]
  rw [loop_congr (g := fun i st => b.derivFillBody (fun d => (w d, s d))
    (fun d => arr (b.order + 1) fun a => piece (b.kn d) (s d) (b.order - (x d).2.2) (s d - b.order + a) (w d)) i st)]
  intro i hi st
  unfold CellSpline.derivFillBody BSpline.derivFillBody
  have hlt : ∀ d : Fin (D + 1), digs (b.order + 1) (freeAxes fun _ : Fin (D + 1) => false) (fun _ => 0) i d < b.order + 1 := fun d => by
    rw [digs_all]; exact Nat.mod_lt _ (Nat.succ_pos _)
  rw [localIndices_ok (n := b.order + 1) (Nat.succ_pos _), ok_bind, ok_bind]
  rw [fold_coef (fun d => rd_arr _ (hlt d)) (fun d => h.ctrlIndex_eq (hat.seg d).1 (hat.seg d).2.1), ok_bind,
    CellSpline.fold_prod (fun d => rd_arr _ (hlt d)), ok_bind]
  simp only [Nat.mul_one]
  rw [h.cell_read hat hs hc hi, hC.get]
  · simp only [digs_all]
  · intro d
    exact h.ctrlOf_lt (by have := (hat.seg d).1; have := (hat.seg d).2.1; have := hlt d; omega)

end BSpline

end Intp
