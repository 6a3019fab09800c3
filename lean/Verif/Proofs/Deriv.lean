import Verif.Proofs.Eval
import Verif.Proofs.LocalIdx

/-! # `derivative_at` computes derivatives of the tensor-product sum -/

namespace Intp

open Finset Polynomial

variable {K V : Type} [Field K] [LinearOrder K] [AddCommGroup V] [Module K V] {D : ℕ}

theorem dctrlIter_succ (t : ℕ → K) : ∀ (m k : ℕ) (c : ℕ → V), m ≤ k →
    dctrlIter t (m + 1) k c = dctrl t (k - m) (dctrlIter t m k c)
  | 0, k, c, _ => rfl
  | m + 1, k, c, h => by
    rw [dctrlIter, dctrlIter_succ t m (k - 1) (dctrl t k c) (by omega), dctrlIter,
      show k - 1 - m = k - (m + 1) by omega]

namespace BSpline

variable {buf0 buf : List V} {off step : ℕ} {c : ℕ → V}

theorem derivReduceLine_spec {order p s : ℕ} {t : List K} (hstep : 0 < step) (hs : order ≤ s) (hlen : s + order < t.length)
    (hn : Nondeg (knotFn t) s order) (hp : p ≤ order) (hb : LineHolds buf0 off step (order + 1) buf c) :
    Ok (derivReduceLine order t s p off step buf) fun buf' => ∃ c', LineHolds buf0 off step (order + 1) buf' c' ∧
      ∀ a, order - p ≤ a → a ≤ order →
        c' a = dctrlIter (knotFn t) (order - p) order (fun i => c (i - (s - order))) (s - order + a) := by
  set T := knotFn t with hT
  set cg : ℕ → V := fun i => c (i - (s - order)) with hcg
  unfold derivReduceLine
  have main := Spec.loopDown (E := fun _ => False) (P := fun kk buf => ∃ c', LineHolds buf0 off step (order + 1) buf c' ∧
      ∀ a, order - (p + kk) ≤ a → a ≤ order → c' a = dctrlIter T (order - p - kk) order cg (s - order + a))
    (f := fun kk buf => loopDown (p + kk + 1) buf fun jj buf => derivReduceBody order t s off step (p + kk + 1) (jj + 1) buf)
    (order - p) buf ?_ ?_
  · refine main.imp fun buf' ⟨c', h1, h2⟩ => ⟨c', h1, fun a ha1 ha2 => ?_⟩
    simpa using h2 a (by simpa using ha1) ha2
  · refine ⟨c, hb, fun a _ ha => ?_⟩
    rw [Nat.sub_self]
    simp only [dctrlIter, hcg]
    congr 1; omega
  rintro kk buf hkk ⟨c1, h1, h2⟩
  set k := p + kk + 1 with hk
  obtain ⟨m, hm⟩ : ∃ m, order = m + k := ⟨order - k, by omega⟩
  have em : order - p - (kk + 1) = m := by omega
  have em1 : order - p - kk = m + 1 := by omega
  have inner := Spec.loopDown (E := fun _ => False) (P := fun jj buf => ∃ c', LineHolds buf0 off step (order + 1) buf c' ∧
      (∀ a, m + jj < a → a ≤ order → c' a = dctrlIter T (m + 1) order cg (s - order + a)) ∧
      (∀ a, a ≤ m + jj → c' a = c1 a))
    (f := fun jj buf => derivReduceBody order t s off step k (jj + 1) buf) k buf ?_ ?_
  · refine inner.imp fun buf' ⟨c', g1, g2, _⟩ => ⟨c', g1, fun a ha1 ha2 => ?_⟩
    rw [em1]
    exact g2 a (by omega) ha2
  · exact ⟨c1, h1, fun a ha1 ha2 => by omega, fun a _ => rfl⟩
  rintro jj buf hjj ⟨c2, g1, g2, g3⟩
  unfold derivReduceBody
  rw [subM_ok (by omega), ok_bind, subM_ok (by omega), ok_bind]
  rw [show order + (jj + 1) - k = m + jj + 1 by omega, show m + jj + 1 - 1 = m + jj by omega]
  rw [g1.read (i := m + jj + 1) (by omega), ok_bind, g1.read (i := m + jj) (by omega), ok_bind]
  rw [rd_knotFn (by omega), ok_bind, subM_ok (by omega), ok_bind, rd_knotFn (by omega), ok_bind]
  have hlt := hn (s + (jj + 1) - k) (s + (jj + 1)) (by omega) (by omega) (by omega) (by omega)
  rw [divV_ok (sub_ne_zero.2 hlt.ne'), ok_bind]
  obtain ⟨buf', w1, w2⟩ := g1.write hstep (i := m + jj + 1) (by omega)
    ((knotFn t (s + (jj + 1)) - knotFn t (s + (jj + 1) - k))⁻¹ • (k : K) • (c2 (m + jj + 1) - c2 (m + jj)))
  rw [w1]
  refine Spec.ok ⟨_, w2, fun a ha1 ha2 => ?_, fun a ha => ?_⟩
  · by_cases hae : a = m + jj + 1
    · subst hae
      have e1 : c2 (m + jj + 1) = dctrlIter T m order cg (s - order + (m + jj + 1)) := by
        rw [g3 _ (by omega), h2 _ (by omega) (by omega), em]
      have e2 : c2 (m + jj) = dctrlIter T m order cg (s - order + (m + jj)) := by
        rw [g3 _ (by omega), h2 _ (by omega) (by omega), em]
      rw [Function.update_self, dctrlIter_succ T m order cg (by omega), show order - m = k by omega, dctrl, e1, e2,
        smul_smul, mul_comm]
      rw [show s - order + (m + jj + 1) + k = s + (jj + 1) by omega, show s - order + (m + jj + 1) = s + (jj + 1) - k by omega,
        show s - order + (m + jj) = s + (jj + 1) - k - 1 by omega]
    · rw [Function.update_of_ne hae]; exact g2 a (by omega) ha2
  · rw [Function.update_of_ne (by omega)]; exact g3 a (by omega)

variable [IsStrictOrderedRing K] [FloorRing K] {b : BSpline D K V}

omit [AddCommGroup V] [Module K V] in
/-- A full sweep along one axis replaces every line by some `l'` such that `Rel` holds of the start of the line and `l'`; when a line is replaced,
it still has its old values. -/
theorem sweep_lines {E : Err → Prop} {dims : Fin D → ℕ} {d : Fin D} {N : ℕ} {L : ℕ → Fin D → ℕ} {m0 : Mesh D V} {f : (Fin D → ℕ) → V}
    (hm : m0.Holds dims f) (hL : Set.BijOn L (Set.Iio N) {a | InRange dims a ∧ a d = 0})
    {body : ℕ → Mesh D V → M (Mesh D V)} {Rel : (Fin D → ℕ) → (ℕ → V) → Prop}
    (hbody : ∀ i m f', i < N → m.Holds dims f' → (∀ j, f' (Function.update (L i) d j) = f (Function.update (L i) d j)) →
      Spec (body i m) (fun m' => ∃ l', Rel (L i) l' ∧
        m'.Holds dims (fun a => if Function.update a d 0 = L i then l' (a d) else f' a)) E) :
    Spec (loop 0 N m0 body) (fun m => ∃ g, m.Holds dims g ∧
      ∀ a, InRange dims a → ∃ l', Rel (Function.update a d 0) l' ∧ ∀ j < dims d, g (Function.update a d j) = l' j) E := by
  have main := Spec.loop (E := E) (lo := 0) (hi := N) (s := m0) (f := body)
    (P := fun i m => ∃ g, m.Holds dims g ∧ (∀ i' < i, ∃ l', Rel (L i') l' ∧
      ∀ j < dims d, g (Function.update (L i') d j) = l' j) ∧
      (∀ i', i ≤ i' → i' < N → ∀ j, g (Function.update (L i') d j) = f (Function.update (L i') d j)))
    (Nat.zero_le _) ⟨f, hm, fun i' h => by omega, fun _ _ _ _ => rfl⟩ ?_
  · refine main.imp fun m ⟨g, h1, h2, _⟩ => ⟨g, h1, fun a ha => ?_⟩
    have hd : 0 < dims d := lt_of_le_of_lt (Nat.zero_le _) (ha d)
    obtain ⟨i, hi, hia⟩ := hL.2.2 (show Function.update a d 0 ∈ {a | InRange dims a ∧ a d = 0} from ⟨ha.update hd, by simp⟩)
    obtain ⟨l', h3, h4⟩ := h2 i hi
    rw [hia] at h3 h4
    simp only [Function.update_idem] at h4
    exact ⟨l', h3, h4⟩
  · rintro i m _ hi ⟨g, h1, h2, h3⟩
    refine (hbody i m g hi h1 (h3 i le_rfl hi)).imp fun m' ⟨l', h4, h5⟩ => ⟨_, h5, fun i' hi' => ?_, fun i' hi' hi'N j => ?_⟩
    · have hmem' := hL.1 (show i' ∈ Set.Iio N from by simp; omega)
      have hz : ∀ j, Function.update (Function.update (L i') d j) d 0 = L i' := by
        intro j; rw [Function.update_idem, ← hmem'.2, Function.update_eq_self]
      by_cases he : i' = i
      · subst he
        exact ⟨l', h4, fun j hj => by rw [if_pos (hz j), Function.update_self]⟩
      · obtain ⟨l'', h6, h7⟩ := h2 i' (by omega)
        refine ⟨l'', h6, fun j hj => ?_⟩
        rw [if_neg, h7 j hj]
        rw [hz]
        intro hc
        exact he (hL.2.1 (show i' ∈ Set.Iio N from by simp; omega) (show i ∈ Set.Iio N from hi) hc)
    · have hmem' := hL.1 (show i' ∈ Set.Iio N from hi'N)
      have hz : ∀ j, Function.update (Function.update (L i') d j) d 0 = L i' := by
        intro j; rw [Function.update_idem, ← hmem'.2, Function.update_eq_self]
      rw [if_neg, h3 i' (by omega) hi'N j]
      rw [hz]
      intro hc
      have := hL.2.1 (show i' ∈ Set.Iio N from hi'N) (show i ∈ Set.Iio N from hi) hc
      omega

/-- A full sweep along one axis replaces every line `l` by some `l'` related by `Rel`. -/
theorem sweep_spec {E : Err → Prop} {dims : Fin D → ℕ} {d : Fin D} {N : ℕ} {L : ℕ → Fin D → ℕ} {m0 : Mesh D V} {f : (Fin D → ℕ) → V}
    (hm : m0.Holds dims f) (hL : Set.BijOn L (Set.Iio N) {a | InRange dims a ∧ a d = 0})
    {body : ℕ → Mesh D V → M (Mesh D V)} {Rel : (ℕ → V) → (ℕ → V) → Prop}
    (hbody : ∀ i m f', i < N → m.Holds dims f' → Spec (body i m) (fun m' => ∃ l', Rel (fun j => f' (Function.update (L i) d j)) l' ∧
      m'.Holds dims (fun a => if Function.update a d 0 = L i then l' (a d) else f' a)) E) :
    Spec (loop 0 N m0 body) (fun m => ∃ g, m.Holds dims g ∧
      ∀ a, InRange dims a → ∃ l', Rel (fun j => f (Function.update a d j)) l' ∧ ∀ j < dims d, g (Function.update a d j) = l' j) E := by
  refine (sweep_lines hm hL (Rel := fun a l' => Rel (fun j => f (Function.update a d j)) l') fun i m f' hi hm' hf' => ?_).imp
    fun m ⟨g, h1, h2⟩ => ⟨g, h1, fun a ha => ?_⟩
  · have := hbody i m f' hi hm'
    simp only [hf'] at this
    exact this
  · simpa only [Function.update_idem] using h2 a ha

theorem bijOn_lines {n : ℕ} (hn : 0 < n) (d : Fin D) :
    Set.BijOn (digs n (freeAxes fun dd => decide (dd = d)) (fun _ => 0)) (Set.Iio (n ^ (D - 1)))
      {a | InRange (fun _ : Fin D => n) a ∧ a d = 0} := by
  have h := digs_bijOn hn (fun dd => decide (dd = d))
  rw [freeAxes_one_length] at h
  convert h using 1
  ext a
  simp only [Set.mem_setOf_eq, InRange, decide_eq_true_eq]
  constructor
  · rintro ⟨h1, h2⟩ e
    split
    · rename_i he; rw [he]; exact h2
    · exact h1 e
  · intro h1
    have h2 : a d = 0 := by simpa using h1 d
    refine ⟨fun e => ?_, h2⟩
    by_cases he : e = d
    · rw [he, h2]; exact hn
    · simpa [he] using h1 e

/-- What the reduction of a line means for the sum along it. -/
theorem WF.line_sum (h : b.WF) {x w : Fin D → K} {s : Fin D → ℕ} (hat : b.At x w s) (d : Fin D) {p : ℕ} (hp : p ≤ b.order) {l l' : ℕ → V}
    (h3 : ∀ a, b.order - p ≤ a → a ≤ b.order →
      l' a = dctrlIter (b.kn d) (b.order - p) b.order (fun i => l (i - (s d - b.order))) (s d - b.order + a)) :
    ∑ j ∈ Finset.range (b.order + 1), piece (b.kn d) (s d) p (s d - b.order + j) (w d) • l' j =
      ∑ j ∈ Finset.range (b.order + 1), (derivative^[b.order - p] (pieceP (b.kn d) (s d) b.order (s d - b.order + j))).eval (w d) • l j := by
  have hs1 := (hat.seg d).1
  have hn := h.seg_nondeg hat d
  set cg : ℕ → V := fun i => l (i - (s d - b.order)) with hcg
  have e1 : ∑ j ∈ Finset.range (b.order + 1), piece (b.kn d) (s d) p (s d - b.order + j) (w d) • l' j =
      ∑ j ∈ Finset.range (b.order + 1), piece (b.kn d) (s d) p (s d - b.order + j) (w d) •
        dctrlIter (b.kn d) (b.order - p) b.order cg (s d - b.order + j) := by
    refine sum_congr rfl fun j hj => ?_
    rw [mem_range] at hj
    by_cases hj' : b.order - p ≤ j
    · rw [h3 j hj' (by omega)]
    · rw [piece_zero_of_gt _ _ _ _ _ (by omega), zero_smul, zero_smul]
  have e2 : ∑ j ∈ Finset.range (b.order + 1), (derivative^[b.order - p] (pieceP (b.kn d) (s d) b.order (s d - b.order + j))).eval (w d) • l j =
      ∑ j ∈ Finset.range (b.order + 1), (derivative^[b.order - p] (pieceP (b.kn d) (s d) b.order (s d - b.order + j))).eval (w d) • cg (s d - b.order + j) := by
    refine sum_congr rfl fun j _ => ?_
    simp only [hcg]
    rw [show s d - b.order + j - (s d - b.order) = j by omega]
  rw [e1, e2]
  rw [sum_local (f := fun i => piece (b.kn d) (s d) p i (w d) • dctrlIter (b.kn d) (b.order - p) b.order cg i) hs1
    (fun i hi => by rw [piece_zero_of_gt _ _ _ _ _ (by omega), zero_smul])]
  rw [sum_local (f := fun i => (derivative^[b.order - p] (pieceP (b.kn d) (s d) b.order i)).eval (w d) • cg i) hs1
    (fun i hi => by rw [pieceP_zero_of_gt _ _ _ _ hi]; simp)]
  rw [sum_deriv_iter (w d) (b.order - p) b.order cg (by omega) hs1 hn, show b.order - (b.order - p) = p by omega]

omit [LinearOrder K] [IsStrictOrderedRing K] [FloorRing K] in
/-- One more dimension is reduced. -/
theorem tensor_step {dims : Fin D → ℕ} {β γ : Fin D → ℕ → K} {d : Fin D} {l : List (Fin D)} (hd : d ∉ l) {f g : (Fin D → ℕ) → V}
    (h : ∀ a, InRange dims a → ∑ j ∈ Finset.range (dims d), β d j • g (Function.update a d j) =
      ∑ j ∈ Finset.range (dims d), γ d j • f (Function.update a d j)) :
    ∑ a ∈ box dims, (∏ e, (if e ∈ l then γ e (a e) else β e (a e))) • g a =
      ∑ a ∈ box dims, (∏ e, (if e ∈ d :: l then γ e (a e) else β e (a e))) • f a := by
  set R : (Fin D → ℕ) → K := fun a => ∏ e ∈ univ.erase d, (if e ∈ l then γ e (a e) else β e (a e)) with hR
  have t := tensor_line (dims := dims) d (β d) (γ d) R (fun a j => by
      simp only [hR]
      refine prod_congr rfl fun e he => ?_
      rw [Function.update_of_ne (Finset.ne_of_mem_erase he)]) f g h
  have e1 : ∀ a : Fin D → ℕ, (∏ e, (if e ∈ l then γ e (a e) else β e (a e))) = β d (a d) * R a := by
    intro a
    rw [← Finset.mul_prod_erase univ _ (mem_univ d), if_neg hd]
  have e2 : ∀ a : Fin D → ℕ, (∏ e, (if e ∈ d :: l then γ e (a e) else β e (a e))) = γ d (a d) * R a := by
    intro a
    rw [← Finset.mul_prod_erase univ _ (mem_univ d), if_pos (by simp)]
    congr 1
    refine prod_congr rfl fun e he => ?_
    have : e ≠ d := Finset.ne_of_mem_erase he
    simp [this]
  simp only [e1, e2]
  exact t

/-- Reduction along one axis, as a statement on lines. -/
theorem derivReduceDim_spec (cfg : Cfg) (h : b.WF) {x w : Fin D → K} {s : Fin D → ℕ} (hat : b.At x w s) (d : Fin D) {p : ℕ}
    (hp : p ≤ b.order) {m : Mesh D V} {f : (Fin D → ℕ) → V} (hm : m.Holds (fun _ => b.order + 1) f) :
    Ok (b.derivReduceDim cfg (fun d => (w d, s d)) d p m) fun m' => ∃ g, m'.Holds (fun _ => b.order + 1) g ∧
      ∀ a, InRange (fun _ => b.order + 1) a → ∑ j ∈ Finset.range (b.order + 1), piece (b.kn d) (s d) p (s d - b.order + j) (w d) • g (Function.update a d j) =
        ∑ j ∈ Finset.range (b.order + 1), (derivative^[b.order - p] (pieceP (b.kn d) (s d) b.order (s d - b.order + j))).eval (w d) • f (Function.update a d j) := by
  unfold derivReduceDim
  by_cases hpo : p = b.order
  · rw [if_pos hpo]
    refine Spec.ok ⟨f, hm, fun a _ => ?_⟩
    subst hpo
    simp [pieceP_eval]
  rw [if_neg hpo]
  have hs1 := (hat.seg d).1
  have hs2 := (hat.seg d).2.1
  have hl := h.last_lt d
  have hsize : m.size = (b.order + 1) ^ D := by
    have := hm.2.1
    unfold Mesh.WF at this
    rw [hm.1] at this
    unfold Mesh.size; rw [this]; simp
  have hD : 0 < D := lt_of_le_of_lt (Nat.zero_le _) d.2
  have hdiv : m.size / m.dims d = (b.order + 1) ^ (D - 1) := by
    rw [hsize, hm.1]
    have : (b.order + 1) ^ D = (b.order + 1) ^ (D - 1) * (b.order + 1) := by
      rw [← pow_succ]; congr 1; omega
    rw [this, Nat.mul_div_cancel _ (Nat.succ_pos _)]
  have hdne : m.dims d ≠ 0 := by rw [hm.1]; simp
  rw [divN_ok hdne, ok_bind, hdiv]
  have hn := h.seg_nondeg hat d
  refine Spec.imp (sweep_spec (d := d) (dims := fun _ => b.order + 1) hm (bijOn_lines (Nat.succ_pos b.order) d)
    (Rel := fun l l' => ∀ a, b.order - p ≤ a → a ≤ b.order →
        l' a = dctrlIter (b.kn d) (b.order - p) b.order (fun i => l (i - (s d - b.order))) (s d - b.order + a)) ?_) ?_
  · intro i m1 f1 hi hm1
    have hLi := (bijOn_lines (D := D) (Nat.succ_pos b.order) d).1 hi
    rw [localIndices_ok (Nat.succ_pos _), ok_bind]
    have hup : Function.update (digs (b.order + 1) (freeAxes fun dd => decide (dd = d)) (fun _ => 0) i) d 0 =
        digs (b.order + 1) (freeAxes fun dd => decide (dd = d)) (fun _ => 0) i := by
      conv_rhs => rw [← Function.update_eq_self d (digs (b.order + 1) (freeAxes fun dd => decide (dd = d)) (fun _ => 0) i)]
      rw [show digs (b.order + 1) (freeAxes fun dd => decide (dd = d)) (fun _ => 0) i d = 0 from hLi.2]
    rw [Mesh.lineBegin_ok cfg m1 d (by rw [hm1.1, hup]; exact hLi.1), ok_bind, hm1.1]
    have hl := hm1.line hLi.1 d
    refine Spec.bind (derivReduceLine_spec (stride_pos (fun _ => Nat.succ_pos _) d) hs1 (by simp only; omega) hn hp hl)
      fun buf' ⟨c', h1, h2⟩ => ?_
    refine Spec.ok ⟨c', h2, ?_⟩
    have := hm1.setLine hLi.1 d h1
    rw [hup] at this
    exact this
  · rintro m' ⟨g, h1, h2⟩
    refine ⟨g, h1, fun a ha => ?_⟩
    obtain ⟨l', h3, h4⟩ := h2 a ha
    rw [sum_congr rfl fun j hj => by rw [h4 j (mem_range.1 hj)]]
    exact h.line_sum hat d hp (l := fun j => f (Function.update a d j)) h3

/-- `derivative_at`. -/
theorem WF.derivativeAt_eq (cfg : Cfg) (h : b.WF) {x : Fin D → K × ℕ × ℕ} {w : Fin D → K} {s : Fin D → ℕ} (hat : b.At (fun d => (x d).1) w s)
    (hh : ∀ d, ValidHint (b.knots d) b.order (b.last d) (w d) (x d).2.1) (hm : ∀ d, (x d).2.2 ≤ b.order) {C : (Fin D → ℕ) → V}
    (hC : b.ctrl.Holds b.ctrl.dims C) :
    b.derivativeAt cfg x = .ok (tensorVal b.ctrl.dims (fun d => b.weight d (s d) (x d).2.2 (w d)) C) := by
  unfold derivativeAt
  rw [if_neg (by push Not; exact hm)]
  simp only
  set p : Fin D → ℕ := fun d => b.order - (x d).2.2 with hp
  have hple : ∀ d, p d ≤ b.order := fun d => Nat.sub_le _ _
  have hpm : ∀ d, b.order - p d = (x d).2.2 := by intro d; have := hm d; simp only [hp]; omega
  rw [tabM_ok (g := fun d => (w d, s d)) (fun d => h.getKnotIter'_eq (hat.wrap d) (hat.seg d) (hh d)), ok_bind]
  rw [tabM_ok (g := fun d => arr (b.order + 1) fun a => piece (b.kn d) (s d) (p d) (s d - b.order + a) (w d)) ?_, ok_bind]
  swap
  · intro d
    have h1 := (hat.seg d).2.1
    have h2 := h.last_lt d
    exact baseSplineValue_ok (hat.seg d).1 (by simp only; omega) (h.seg_nondeg hat d) (hple d)
  set dims : Fin D → ℕ := fun _ => b.order + 1 with hdims
  set W : (Fin D → ℕ) → K := fun a => ∏ d, piece (b.kn d) (s d) (p d) (s d - b.order + a d) (w d) with hW
  set F : (Fin D → ℕ) → V := fun a => C (fun d => b.ctrlOf d (s d - b.order + a d)) with hF
  set L := digs (b.order + 1) (freeAxes (fun _ : Fin D => false)) (fun _ => 0) with hL
  have hbij := digs_bijOn (D := D) (Nat.succ_pos b.order) (fun _ => false)
  rw [freeAxes_none_length] at hbij
  apply Ok.eq
  refine Spec.bind (Q := fun st => st.1.Holds dims W ∧ st.2.Holds dims F) ?_ fun st ⟨hs1, hs2⟩ => ?_
  · -- filling
    refine Spec.imp (Spec.loop (P := fun i (st : Mesh D K × Mesh D V) => ∃ f g, st.1.Holds dims f ∧ st.2.Holds dims g ∧
      ∀ i' < i, f (L i') = W (L i') ∧ g (L i') = F (L i')) (Nat.zero_le _) ?_ ?_) ?_
    · exact ⟨_, _, Mesh.mk'_holds _, Mesh.mk'_holds _, fun i' h => by omega⟩
    · rintro i st _ hi ⟨f, g, h1, h2, h3⟩
      have hLi : InRange dims (L i) := by
        intro d
        have := hbij.1 (show i ∈ Set.Iio _ from hi) d
        simpa [hdims] using this
      unfold derivFillBody
      rw [localIndices_ok (Nat.succ_pos _), ok_bind]
      rw [fold_coef (fun d => rd_arr _ (hLi d)) (fun d => h.ctrlIndex_eq (hat.seg d).1 (hat.seg d).2.1), ok_bind]
      obtain ⟨m1, e1, g1⟩ := h1.set hLi (W (L i))
      rw [show (∏ d, piece (b.kn d) (s d) (p d) (s d - b.order + digs (b.order + 1) (freeAxes fun x => false) (fun x => 0) i d) (w d)) = W (L i) from rfl]
      rw [show digs (b.order + 1) (freeAxes fun x => false) (fun x => 0) i = L i from rfl]
      simp only
      rw [e1, ok_bind, hC.get, ok_bind]
      · obtain ⟨m2, e2, g2⟩ := h2.set hLi (F (L i))
        rw [show C (fun d => b.ctrlOf d (s d - b.order + L i d)) = F (L i) from rfl, e2, ok_bind]
        refine Spec.pure ⟨_, _, g1, g2, fun i' hi' => ?_⟩
        by_cases he : L i' = L i
        · rw [he]; simp
        · rw [Function.update_of_ne he, Function.update_of_ne he]
          refine h3 i' ?_
          by_contra hc
          exact he (by rw [show i' = i by omega])
      · intro d
        exact h.ctrlOf_lt (by have := (hat.seg d).1; have := (hat.seg d).2.1; have := hLi d; simp only [hdims] at this; omega)
    · rintro st ⟨f, g, h1, h2, h3⟩
      have hsurj : ∀ a, InRange dims a → ∃ i, i < (b.order + 1) ^ D ∧ L i = a := by
        intro a ha
        obtain ⟨i, hi, hia⟩ := hbij.2.2 (show a ∈ {a : Fin D → ℕ | ∀ d, if false = true then a d = 0 else a d < b.order + 1} by
          intro d; simpa [hdims] using ha d)
        exact ⟨i, hi, hia⟩
      refine ⟨h1.congr fun a ha => ?_, h2.congr fun a ha => ?_⟩
      · obtain ⟨i, hi, rfl⟩ := hsurj a ha; exact (h3 i hi).1
      · obtain ⟨i, hi, rfl⟩ := hsurj a ha; exact (h3 i hi).2
  · -- reduction
    set γ : Fin D → ℕ → K := fun d a => (derivative^[(x d).2.2] (pieceP (b.kn d) (s d) b.order (s d - b.order + a))).eval (w d) with hγ
    set β : Fin D → ℕ → K := fun d a => piece (b.kn d) (s d) (p d) (s d - b.order + a) (w d) with hβ
    refine Spec.bind (Q := fun cv => ∃ g, cv.Holds dims g ∧ ∑ a ∈ box dims, (∏ d, β d (a d)) • g a = ∑ a ∈ box dims, (∏ d, γ d (a d)) • F a) ?_ ?_
    · have fold : ∀ (l : List (Fin D)), l.Nodup → ∀ (m : Mesh D V) (f : (Fin D → ℕ) → V), m.Holds dims f →
          ∑ a ∈ box dims, (∏ d, (if d ∈ l then γ d (a d) else β d (a d))) • f a = ∑ a ∈ box dims, (∏ d, γ d (a d)) • F a →
          Ok (l.foldlM (fun m d => b.derivReduceDim cfg (fun d => (w d, s d)) d (p d) m) m) fun cv =>
            ∃ g, cv.Holds dims g ∧ ∑ a ∈ box dims, (∏ d, β d (a d)) • g a = ∑ a ∈ box dims, (∏ d, γ d (a d)) • F a := by
        intro l
        induction l with
        | nil =>
          intro _ m f hm hsum
          exact Spec.ok ⟨f, hm, by simpa using hsum⟩
        | cons d l ih =>
          intro hnd m f hmf hsum
          rw [List.nodup_cons] at hnd
          rw [List.foldlM_cons]
          refine Spec.bind (derivReduceDim_spec cfg h hat d (hple d) hmf) fun m' ⟨g, hg1, hg2⟩ => ?_
          refine ih hnd.2 m' g hg1 ?_
          rw [← hsum]
          refine tensor_step hnd.1 fun a ha => ?_
          have := hg2 a ha
          rw [hpm d] at this
          exact this
      refine fold (List.finRange D) (List.nodup_finRange D) st.2 F hs2 ?_
      simp
    · rintro cv ⟨g, hg1, hg2⟩
      have hsz : st.1.size = ∏ d, dims d := by
        have := hs1.2.1
        unfold Mesh.WF at this
        rw [hs1.1] at this
        exact this
      rw [hsz, loop_sum (g := fun i => W (decode dims i) • g (decode dims i))]
      · refine Spec.ok ?_
        rw [zero_add, sum_decode dims (fun a => W a • g a), ← h.local_sum hat (fun d => (x d).2.2) C]
        exact hg2
      · intro i hi v
        have hpos : ∀ d, 0 < dims d := fun _ => Nat.succ_pos _
        have hr := decode_inRange (dims := dims) (t := i) hpos
        have r1 := hs1.get hr
        have r2 := hg1.get hr
        unfold Mesh.get at r1 r2
        rw [hs1.1, indexing_decode hi] at r1
        rw [hg1.1, indexing_decode hi] at r2
        rw [r1, ok_bind, r2, ok_bind]
        rfl

end BSpline
end Intp
