import Verif.FloatModel
import Verif.Proofs.BandLULemmas
import Verif.Proofs.SolveSweep
import Verif.Proofs.Assemble
import Verif.Proofs.LocalIdx

/-!
# Index safety for every arithmetic

Nothing here uses a law of arithmetic.
-/

namespace Intp

variable {α : Type} {E : Err → Prop}

theorem Safe_rd {l : List α} {i : ℕ} (h : i < l.length) : Spec (rd l i) (fun _ => True) E := by
  rw [rd_ok h]; trivial

theorem Safe_wr {l : List α} {i : ℕ} {v : α} (h : i < l.length) : Spec (wr l i v) (fun l' => l'.length = l.length) E := by
  rw [wr_ok h]; exact List.length_set

namespace Fl

open CoordArith ScaleArith

variable {K V : Type} [CoordArith K] [ValArith V] [ScaleArith K V] {D : ℕ}

/-- Where divisions can fail, `E` contains the division by zero. -/
def DivE (K V : Type) [CoordArith K] [ScaleArith K V] (E : Err → Prop) : Prop := divErr K ∨ divErrV K V → E .divZero

theorem Safe_div (hE : DivE K V E) (a b : K) : Spec (div a b) (fun _ => True) E :=
  (div_err a b).mono (fun _ h => h) fun _ h => h.1 ▸ hE (.inl h.2)

theorem Safe_fmod (hE : DivE K V E) (a b : K) : Spec (fmod a b) (fun _ => True) E :=
  (fmod_err a b).mono (fun _ h => h) fun _ h => h.1 ▸ hE (.inl h.2)

theorem Safe_divV (hE : DivE K V E) (v : V) (a : K) : Spec (ScaleArith.divV v a) (fun _ => True) E :=
  (divV_err v a).mono (fun _ h => h) fun _ h => h.1 ▸ hE (.inr h.2)

/-! ## Solvers -/

/-- A band matrix of the given shape. -/
def BandOk (n p q : ℕ) (m : BandMatrix K) : Prop := ∃ A, BandMatrix.Rep n p q m A

/-- An extended band matrix of the given shape. -/
def ExtOk (n p q : ℕ) (m : ExtBandMatrix K) : Prop := ∃ A, ExtBandMatrix.Rep n p q m A

section
variable {n p q i j : ℕ} {c : Cfg}

theorem BandOk.get {m : BandMatrix K} (h : BandOk n p q m) (hi : i < n) (hj : j < n) (hb : InBand p q i j) :
    Spec (m.get c i j) (fun _ => True) E := by
  obtain ⟨A, h⟩ := h
  rw [h.get c hi hj hb]; trivial

theorem BandOk.set {m : BandMatrix K} (h : BandOk n p q m) (hi : i < n) (hj : j < n) (hb : InBand p q i j) (v : K) :
    Spec (m.set c i j v) (BandOk n p q) E := by
  obtain ⟨A, h⟩ := h
  obtain ⟨m', e, h'⟩ := h.set c hi hj hb v
  rw [e]; exact ⟨_, h'⟩

theorem ExtOk.mainGet {m : ExtBandMatrix K} (h : ExtOk n p q m) (hi : i < n) (hj : j < n) (hb : InBand p q i j) :
    Spec (m.mainGet c i j) (fun _ => True) E := by
  obtain ⟨A, h⟩ := h
  rw [h.mainGet c hi hj hb]; trivial

theorem ExtOk.mainSet {m : ExtBandMatrix K} (h : ExtOk n p q m) (hi : i < n) (hj : j < n) (hb : InBand p q i j) (v : K) :
    Spec (m.mainSet c i j v) (ExtOk n p q) E := by
  obtain ⟨A, h⟩ := h
  obtain ⟨m', e, h'⟩ := h.mainSet c hi hj hb v
  rw [e]; exact ⟨_, h'⟩

theorem ExtOk.sideGet {m : ExtBandMatrix K} (h : ExtOk n p q m) (hi : i < n) (hj : j < n) (hb : InSide n p q i j) :
    Spec (m.sideGet c i j) (fun _ => True) E := by
  obtain ⟨A, h⟩ := h
  rw [h.sideGet c hi hj hb]; trivial

theorem ExtOk.sideSet {m : ExtBandMatrix K} (h : ExtOk n p q m) (hi : i < n) (hj : j < n) (hb : InSide n p q i j) (v : K) :
    Spec (m.sideSet c i j v) (ExtOk n p q) E := by
  obtain ⟨A, h⟩ := h
  obtain ⟨m', e, h'⟩ := h.sideSet c hi hj hb v
  rw [e]; exact ⟨_, h'⟩

theorem ExtOk.get {m : ExtBandMatrix K} (h : ExtOk n p q m) (hi : i < n) (hj : j < n) (hb : InBand p q i j ∨ InSide n p q i j) :
    Spec (m.get c i j) (fun _ => True) E := by
  obtain ⟨A, h⟩ := h
  rw [h.get c hi hj hb]; trivial

theorem ExtOk.set {m : ExtBandMatrix K} (h : ExtOk n p q m) (hi : i < n) (hj : j < n) (hb : InBand p q i j ∨ InSide n p q i j) (v : K) :
    Spec (m.set c i j v) (ExtOk n p q) E := by
  obtain ⟨A, h⟩ := h
  obtain ⟨m', e, h'⟩ := h.set c hi hj hb v
  rw [e]; exact ⟨_, h'⟩

/-- Loop rule for an invariant that does not depend on the counter. -/
theorem Spec.loopC {σ : Type} {f : ℕ → σ → M σ} {P : σ → Prop} {lo hi : ℕ} {s : σ} (h0 : P s)
    (hs : ∀ i s, lo ≤ i → i < hi → P s → Spec (f i s) P E) : Spec (Intp.loop lo hi s f) P E :=
  Spec.loop' (P := fun _ => P) h0 hs

theorem bandCompute_safe (hE : DivE K V E) (hn : 0 < n) {m : BandMatrix K} (hm : BandOk n p q m) :
    Spec (bandCompute c m) (BandOk n p q) E := by
  have h1 : m.n = n := hm.choose_spec.1
  have h2 : m.p = p := hm.choose_spec.2.1
  have h3 : m.q = q := hm.choose_spec.2.2.1
  unfold bandCompute
  simp only [h1, h2, h3]
  rw [subM_ok (show 1 ≤ n by omega), ok_bind]
  refine Spec.loopC hm fun k a _ hk ha => ?_
  refine Spec.bind (Spec.loopC (P := BandOk n p q) ha fun i a hi1 hi2 ha => ?_) fun a ha =>
    Spec.loopC ha fun j a hj1 hj2 ha => Spec.loopC ha fun i a hi1 hi2 ha => ?_
  · refine Spec.bind (ha.get (by omega) (by omega) (by unfold InBand; omega)) fun x _ =>
      Spec.bind (ha.get (by omega) (by omega) (by unfold InBand; omega)) fun d _ => Spec.bind (Safe_div hE _ _) fun z _ => ?_
    exact ha.set (by omega) (by omega) (by unfold InBand; omega) _
  · refine Spec.bind (ha.get (by omega) (by omega) (by unfold InBand; omega)) fun x _ =>
      Spec.bind (ha.get (by omega) (by omega) (by unfold InBand; omega)) fun d _ =>
      Spec.bind (ha.get (by omega) (by omega) (by unfold InBand; omega)) fun d _ => ?_
    exact ha.set (by omega) (by omega) (by unfold InBand; omega) _

theorem extCompute_safe (hE : DivE K V E) {m : ExtBandMatrix K} (hm : ExtOk n p q m) :
    Spec (extCompute c m) (ExtOk n p q) E := by
  have hp : p < n := hm.choose_spec.1
  have hq : q < n := hm.choose_spec.2.1
  have h1 : m.n = n := hm.choose_spec.2.2.1
  have h2 : m.p = p := hm.choose_spec.2.2.2.1
  have h3 : m.q = q := hm.choose_spec.2.2.2.2.1
  unfold extCompute
  simp only [h1, h2, h3]
  rw [subM_ok (show 1 ≤ n by omega), ok_bind]
  refine Spec.loopC hm fun k a _ hk ha => ?_
  rw [subM_ok hq.le, ok_bind, subM_ok hp.le, ok_bind]
  refine Spec.bind (Q := ExtOk n p q) (Spec.loopC ha fun i a hi1 hi2 ha => ?_) fun a ha => ?_
  · refine Spec.bind (ha.mainGet (by omega) (by omega) (by unfold InBand; omega)) fun x _ =>
      Spec.bind (ha.mainGet (by omega) (by omega) (by unfold InBand; omega)) fun d _ => Spec.bind (Safe_div hE _ _) fun z _ => ?_
    exact ha.mainSet (by omega) (by omega) (by unfold InBand; omega) _
  refine Spec.bind (Q := ExtOk n p q) (Spec.loopC ha fun i a hi1 hi2 ha => ?_) fun a ha => ?_
  · refine Spec.bind (ha.sideGet (by omega) (by omega) (by unfold InSide; omega)) fun x _ =>
      Spec.bind (ha.mainGet (by omega) (by omega) (by unfold InBand; omega)) fun d _ => Spec.bind (Safe_div hE _ _) fun z _ => ?_
    exact ha.sideSet (by omega) (by omega) (by unfold InSide; omega) _
  refine Spec.bind (Q := ExtOk n p q) (Spec.loopC ha fun j a hj1 hj2 ha => Spec.loopC ha fun i a hi1 hi2 ha => ?_) fun a ha => ?_
  · refine Spec.bind (ha.mainGet (by omega) (by omega) (by unfold InBand; omega)) fun x _ =>
      Spec.bind (ha.mainGet (by omega) (by omega) (by unfold InBand; omega)) fun d _ =>
      Spec.bind (ha.mainGet (by omega) (by omega) (by unfold InBand; omega)) fun d _ => ?_
    exact ha.mainSet (by omega) (by omega) (by unfold InBand; omega) _
  refine Spec.bind (Q := ExtOk n p q) (Spec.loopC ha fun i a hi1 hi2 ha => Spec.loopC ha fun j a hj1 hj2 ha => ?_) fun a ha => ?_
  · refine Spec.bind (ha.get (by omega) (by omega) (by unfold InBand InSide; omega)) fun x _ =>
      Spec.bind (ha.mainGet (by omega) (by omega) (by unfold InBand; omega)) fun d _ =>
      Spec.bind (ha.sideGet (by omega) (by omega) (by unfold InSide; omega)) fun d _ => ?_
    exact ha.set (by omega) (by omega) (by unfold InBand InSide; omega) _
  refine Spec.bind (Q := ExtOk n p q) (Spec.loopC ha fun j a hj1 hj2 ha => Spec.loopC ha fun i a hi1 hi2 ha => ?_) fun a ha => ?_
  · refine Spec.bind (ha.get (by omega) (by omega) (by unfold InBand InSide; omega)) fun x _ =>
      Spec.bind (ha.sideGet (by omega) (by omega) (by unfold InSide; omega)) fun d _ =>
      Spec.bind (ha.mainGet (by omega) (by omega) (by unfold InBand; omega)) fun d _ => ?_
    exact ha.set (by omega) (by omega) (by unfold InBand InSide; omega) _
  rw [subM_ok (by omega), ok_bind, subM_ok (by omega), ok_bind]
  refine Spec.ite (fun h => Spec.loopC ha fun i a hi1 hi2 ha => Spec.loopC ha fun j a hj1 hj2 ha => ?_) fun _ => Spec.pure ha
  refine Spec.bind (ha.mainGet (by omega) (by omega) (by unfold InBand; omega)) fun x _ =>
    Spec.bind (ha.sideGet (by omega) (by omega) (by unfold InSide; omega)) fun d _ =>
    Spec.bind (ha.sideGet (by omega) (by omega) (by unfold InSide; omega)) fun d _ => ?_
  exact ha.mainSet (by omega) (by omega) (by unfold InBand; omega) _

/-- The buffer has length `N` and contains the line. -/
def LineIn (N off step n : ℕ) (buf : List V) : Prop := buf.length = N ∧ ∀ i < n, off + i * step < N

variable {N off step : ℕ}

theorem LineIn.subMul {buf : List V} (h : LineIn N off step n buf) (hi : i < n) (hj : j < n) (a : K) :
    Spec (lineSubMul buf off step i j a) (LineIn N off step n) E := by
  unfold lineSubMul
  have h1 := h.2 i hi
  have h2 := h.2 j hj
  rw [← h.1] at h1 h2
  refine Spec.bind (Safe_rd h1) fun _ _ => Spec.bind (Safe_rd h2) fun _ _ => (Safe_wr h1).imp fun l hl => ⟨hl.trans h.1, h.2⟩

theorem LineIn.div {buf : List V} (hE : DivE K V E) (h : LineIn N off step n buf) (hj : j < n) (a : K) :
    Spec (lineDiv buf off step j a) (LineIn N off step n) E := by
  unfold lineDiv
  have h2 := h.2 j hj
  rw [← h.1] at h2
  refine Spec.bind (Safe_rd h2) fun _ _ => Spec.bind (Safe_divV hE _ _) fun _ _ => (Safe_wr h2).imp fun l hl => ⟨hl.trans h.1, h.2⟩

theorem bandSolve_safe (hE : DivE K V E) {m : BandMatrix K} (hm : BandOk n p q m) {buf : List V} (hb : LineIn N off step n buf) :
    Spec (bandSolve c m buf off step) (LineIn N off step n) E := by
  have h1 : m.n = n := hm.choose_spec.1
  have h2 : m.p = p := hm.choose_spec.2.1
  have h3 : m.q = q := hm.choose_spec.2.2.1
  unfold bandSolve
  simp only [h1, h2, h3]
  refine Spec.bind (Q := LineIn N off step n) (Spec.loopC hb fun j b _ hj hb => Spec.loopC hb fun i b hi1 hi2 hb => ?_) fun b hb => ?_
  · exact Spec.bind (hm.get (by omega) (by omega) (by unfold InBand; omega)) fun a _ => hb.subMul (by omega) (by omega) a
  refine Spec.loopDown (P := fun _ => LineIn N off step n) n b hb fun j b hj hb => ?_
  refine Spec.bind (hm.get (by omega) (by omega) (by unfold InBand; omega)) fun a _ => Spec.bind (hb.div hE hj a) fun b hb => ?_
  refine Spec.loopC hb fun i b hi1 hi2 hb => ?_
  exact Spec.bind (hm.get (by omega) (by omega) (by unfold InBand; split at hi1 <;> omega)) fun a _ => hb.subMul (by omega) (by omega) a

theorem extSolve_safe (hE : DivE K V E) {m : ExtBandMatrix K} (hm : ExtOk n p q m) (hpq : p + q ≤ n) {buf : List V}
    (hb : LineIn N off step n buf) : Spec (extSolve c m buf off step) (LineIn N off step n) E := by
  have hp : p < n := hm.choose_spec.1
  have hq : q < n := hm.choose_spec.2.1
  have h1 : m.n = n := hm.choose_spec.2.2.1
  have h2 : m.p = p := hm.choose_spec.2.2.2.1
  have h3 : m.q = q := hm.choose_spec.2.2.2.2.1
  unfold extSolve
  simp only [h1, h2, h3]
  refine Spec.bind (Q := LineIn N off step n) (Spec.loopC hb fun j b _ hj hb => ?_) fun b hb => ?_
  · refine Spec.bind (Q := LineIn N off step n) (Spec.loopC hb fun i b hi1 hi2 hb => ?_) fun b hb => ?_
    · exact Spec.bind (hm.mainGet (by omega) (by omega) (by unfold InBand; omega)) fun a _ => hb.subMul (by omega) (by omega) a
    rw [subM_ok (by omega), ok_bind]
    refine Spec.ite (fun h => ?_) fun _ => Spec.pure hb
    rw [subM_ok hq.le, ok_bind]
    refine Spec.loopC hb fun i b hi1 hi2 hb => ?_
    exact Spec.bind (hm.sideGet (by omega) (by omega) (by unfold InSide; omega)) fun a _ => hb.subMul (by omega) (by omega) a
  refine Spec.loopDown (P := fun _ => LineIn N off step n) n b hb fun j b hj hb => ?_
  refine Spec.bind (hm.mainGet (by omega) (by omega) (by unfold InBand; omega)) fun a _ => Spec.bind (hb.div hE hj a) fun b hb => ?_
  refine Spec.bind (Q := LineIn N off step n) (Spec.loopC hb fun i b hi1 hi2 hb => ?_) fun b hb => ?_
  · exact Spec.bind (hm.mainGet (by omega) (by omega) (by unfold InBand; split at hi1 <;> omega)) fun a _ => hb.subMul (by omega) (by omega) a
  rw [subM_ok (by omega), ok_bind]
  refine Spec.ite (fun h => ?_) fun _ => Spec.pure hb
  rw [subM_ok (by omega), ok_bind]
  refine Spec.loopC hb fun i b hi1 hi2 hb => ?_
  exact Spec.bind (hm.sideGet (by omega) (by omega) (by unfold InSide; omega)) fun a _ => hb.subMul (by omega) (by omega) a

end

/-! ## Evaluation -/

theorem baseSplineBody_safe (hE : DivE K V E) {o s i j : ℕ} {t : List K} {x : K} {b : List K} (hi1 : 1 ≤ i) (hio : i ≤ o) (his : i ≤ s)
    (hst : s + i < t.length) (hj : j ≤ i) (hb : b.length = o + 1) :
    Spec (baseSplineBody o t s x i (o - i) j b) (fun b' => b'.length = o + 1) E := by
  unfold baseSplineBody
  rw [itAdd_ok (r := s + j - i) (by omega) (by omega), ok_bind, itAdd_ok (r := s + j + 1) (by omega) (by omega), ok_bind]
  refine Spec.bind (Q := fun _ => True) ?_ fun u _ => Spec.bind (Q := fun _ => True) ?_ fun w _ =>
    (Safe_wr (by omega)).imp fun l hl => hl.trans hb
  · unfold baseLeftTerm
    refine Spec.ite (fun _ => Spec.pure trivial) fun h0 => ?_
    exact Spec.bind (Safe_rd (by omega)) fun v _ => Spec.bind (Safe_rd (by omega)) fun l _ => Spec.bind (Safe_rd (by omega)) fun r _ =>
      Safe_div hE _ _
  · unfold baseRightTerm
    refine Spec.ite (fun _ => Spec.pure trivial) fun h0 => ?_
    exact Spec.bind (Safe_rd (by omega)) fun v _ => Spec.bind (Safe_rd (by omega)) fun l _ => Spec.bind (Safe_rd (by omega)) fun r _ =>
      Safe_div hE _ _

theorem baseSplineValue_safe (hE : DivE K V E) {o s p : ℕ} {t : List K} {x : K} (hp : p ≤ o) (hs : p ≤ s) (hst : s + p < t.length) :
    Spec (baseSplineValue o t s x p) (fun b => b.length = o + 1) E := by
  unfold baseSplineValue
  rw [wr_ok (by simp), ok_bind]
  refine Spec.loopC (by simp) fun i b hi1 hi2 hb => ?_
  rw [subM_ok (by omega), ok_bind]
  exact Spec.loopC hb fun j b _ hj hb => baseSplineBody_safe hE hi1 (by omega) (by omega) (by omega) (by omega) hb

theorem upperBoundGo_safe {t : List K} {x : K} : ∀ (fuel first len : ℕ), first + len ≤ t.length → len ≤ fuel →
    Spec (upperBoundGo t x fuel first len) (fun u => first ≤ u ∧ u ≤ first + len ∧
      (first < u → ∀ v, t[u - 1]? = some v → ¬ x < v) ∧ (u < first + len → ∀ v, t[u]? = some v → x < v)) E
  | 0, first, len, _, h => by
    unfold upperBoundGo
    exact Spec.ok ⟨le_rfl, by omega, fun h => by omega, fun h => by omega⟩
  | fuel + 1, first, len, h1, h2 => by
    unfold upperBoundGo
    refine Spec.ite (fun h => Spec.ok ⟨le_rfl, by omega, fun h => by omega, fun h => by omega⟩) fun h0 => ?_
    have hlt : first + len / 2 < t.length := by omega
    dsimp only
    rw [rd_ok hlt, ok_bind]
    have hget : t[first + len / 2]? = some t[first + len / 2] := List.getElem?_eq_getElem hlt
    refine Spec.ite (fun hx => ?_) fun hx => ?_
    · refine (upperBoundGo_safe fuel first (len / 2) (by omega) (by omega)).imp fun u ⟨a, b, e, f⟩ => ⟨a, by omega, e, fun hu v hv => ?_⟩
      by_cases hu' : u < first + len / 2
      · exact f hu' v hv
      · obtain rfl : u = first + len / 2 := by omega
        rw [hget] at hv
        injection hv with hv
        exact hv ▸ hx
    · refine (upperBoundGo_safe fuel (first + len / 2 + 1) (len - len / 2 - 1) (by omega) (by omega)).imp
        fun u ⟨a, b, e, f⟩ => ⟨by omega, by omega, fun hu v hv => ?_, fun hu => f (by omega)⟩
      by_cases hu' : first + len / 2 + 1 < u
      · exact e hu' v hv
      · obtain rfl : u = first + len / 2 + 1 := by omega
        rw [Nat.add_sub_cancel, hget] at hv
        injection hv with hv
        exact hv ▸ hx

/-- Whatever the comparisons say, the segment found is the hint or lies between `order` and `last`. -/
theorem findSegment_safe {o hint last : ℕ} {t : List K} {x : K} (h1 : hint + 1 < t.length) (h2 : o ≤ last) (h3 : last < t.length) :
    Spec (findSegment o t x hint last) (fun s => (s = hint ∧ ∃ v, t[hint]? = some v ∧ v ≤ x ∧ ∀ w, t[hint + 1]? = some w → x < w) ∨ (o ≤ s ∧ s ≤ last ∧ (o < s → ∀ v, t[s]? = some v → ¬ x < v) ∧
      (s < last → ∀ v, t[s + 1]? = some v → x < v))) E := by
  unfold findSegment
  rw [itAdd_ok (r := hint) (by omega) (by omega), ok_bind]
  have rest : ∀ hit : Bool, (hit = true → ∃ v, t[hint]? = some v ∧ v ≤ x ∧ ∀ w, t[hint + 1]? = some w → x < w) → Spec (if hit = true then (pure hint : M ℕ) else do
      let lo ← itAdd t.length 0 (o + 1)
      let hi ← itAdd t.length 0 (last + 1)
      let u ← upperBound t lo hi x
      itAdd t.length u (-1)) (fun s => (s = hint ∧ ∃ v, t[hint]? = some v ∧ v ≤ x ∧ ∀ w, t[hint + 1]? = some w → x < w) ∨ (o ≤ s ∧ s ≤ last ∧ (o < s → ∀ v, t[s]? = some v → ¬ x < v) ∧
      (s < last → ∀ v, t[s + 1]? = some v → x < v))) E := by
    intro hit hhit
    refine Spec.ite (fun ht => Spec.pure (.inl ⟨rfl, hhit ht⟩)) fun _ => ?_
    rw [itAdd_ok (r := o + 1) (by push_cast; omega) (by omega), ok_bind, itAdd_ok (r := last + 1) (by push_cast; omega) (by omega), ok_bind]
    unfold upperBound
    rw [if_neg (by omega)]
    refine Spec.bind (upperBoundGo_safe (last + 1 - (o + 1)) (o + 1) _ (by omega) le_rfl) fun u ⟨a, b, e, f⟩ => ?_
    rw [itAdd_ok (r := u - 1) (by omega) (by omega)]
    refine Spec.ok (.inr ⟨by omega, by omega, fun h => e (by omega), fun h => ?_⟩)
    have : u - 1 + 1 = u := by omega
    rw [this]
    exact f (by omega)
  rw [rd_ok (show hint < t.length by omega), ok_bind]
  dsimp only
  refine Spec.ite (fun ha => ?_) fun _ => rest false (by simp)
  rw [rd_ok h1, ok_bind]
  refine rest (decide (x < t[hint + 1])) fun hx => ⟨_, List.getElem?_eq_getElem _, ha, fun w hw => ?_⟩
  rw [List.getElem?_eq_getElem h1] at hw
  injection hw with hw
  rw [← hw]
  exact of_decide_eq_true hx

/-- What evaluation needs to know about a spline: the sizes of its parts. -/
structure Shaped (b : BSpline D K V) : Prop where
  knots : ∀ d, 2 * b.order + 2 ≤ (b.knots d).length
  wf : b.ctrl.WF
  pos : ∀ d, 0 < b.ctrl.dims d
  size : ∀ d, b.periodicity d = false → (b.knots d).length ≤ b.ctrl.dims d + b.order + 1

/-- A valid segment of dimension `d`. -/
def SegIn (b : BSpline D K V) (d : Fin D) (s : ℕ) : Prop := b.order ≤ s ∧ s + b.order + 2 ≤ (b.knots d).length

theorem getKnotIter'_safe (hE : DivE K V E) {b : BSpline D K V} (h : Shaped b) (d : Fin D) (x : K) {hint : ℕ} (hh : SegIn b d hint) :
    Spec (getKnotIter' b d x hint) (fun r => SegIn b d r.2) E := by
  have hk := h.knots d
  have ⟨hh1, hh2⟩ := hh
  unfold getKnotIter' getKnotIter
  rw [subM_ok (by omega), ok_bind, subM_ok (by omega), ok_bind, itAdd_ok (r := hint) (by omega) (by omega), ok_bind]
  have rest : ∀ y : K, Spec (do
      let s ← findSegment b.order (b.knots d) y hint ((b.knots d).length - b.order - 2)
      pure (y, s) : M (K × ℕ)) (fun r => SegIn b d r.2) E := by
    intro y
    refine Spec.bind (findSegment_safe (o := b.order) (by omega) (by omega) (by omega)) fun s hs => Spec.pure ?_
    rcases hs with ⟨rfl, -⟩ | ⟨h1, h2, -⟩
    · exact hh
    · exact ⟨h1, by show s + _ + 2 ≤ _; omega⟩
  dsimp only
  refine Spec.ite (fun _ => Spec.bind (Q := fun _ => True) ?_ fun y _ => rest y) fun _ => rest _
  unfold wrapCoord
  exact Spec.bind (Safe_fmod hE _ _) fun _ _ => Spec.pure trivial

theorem ctrlIndex_safe {b : BSpline D K V} (h : Shaped b) {d : Fin D} {s a : ℕ} (hs : SegIn b d s) (ha : a < b.order + 1) :
    Spec (b.ctrlIndex d s a) (fun k => k < b.ctrl.dims d) E := by
  have ⟨h1, h2⟩ := hs
  have hp := h.pos d
  have hz := h.size d
  unfold BSpline.ctrlIndex BSpline.ctrlShift
  refine Spec.bind (Q := fun k => k + b.order ≤ s) ?_ fun k hk => ?_
  · refine Spec.ite (fun h => Spec.pure (by omega)) fun _ => ?_
    rw [if_neg (by omega), subM_ok h1]
    exact Spec.ok (by omega)
  · refine Spec.ite (fun _ => ?_) fun hper => Spec.pure ?_
    · rw [modM_ok (by omega)]
      exact Spec.ok (Nat.mod_lt _ hp)
    · have := hz (by simpa using hper)
      omega

theorem Safe_get {m : Mesh D V} (h : m.WF) {a : Fin D → ℕ} (ha : InRange m.dims a) : Spec (m.get a) (fun _ => True) E := by
  unfold Mesh.get
  exact Safe_rd (by rw [h]; exact indexing_lt ha)

theorem Safe_set {α : Type} {m : Mesh D α} (h : m.WF) {a : Fin D → ℕ} (ha : InRange m.dims a) (v : α) :
    Spec (m.set a v) (fun m' => m'.WF ∧ m'.dims = m.dims) E := by
  unfold Mesh.set
  exact Spec.bind (Safe_wr (by rw [h]; exact indexing_lt ha)) fun l hl => Spec.pure ⟨hl.trans h, rfl⟩

/-- The loop over the dimensions that computes the product of basis values and the index of a control point. -/
theorem coefFold_safe {b : BSpline D K V} (h : Shaped b) {segs : Fin D → K × ℕ} (hs : ∀ d, SegIn b d (segs d).2) {base : Fin D → List K}
    (hb : ∀ d, (base d).length = b.order + 1) {a : Fin D → ℕ} (ha : ∀ d, a d < b.order + 1) (s : K × (Fin D → ℕ)) :
    Spec ((List.finRange D).foldlM (fun (acc : K × (Fin D → ℕ)) d => do
      let e ← rd (base d) (a d)
      let k ← b.ctrlIndex d (segs d).2 (a d)
      pure (acc.1 * e, Function.update acc.2 d k)) s) (fun r => InRange b.ctrl.dims r.2) E := by
  refine Spec.imp (Spec.foldFin (P := fun k r => ∀ d : Fin D, d.val < k → r.2 d < b.ctrl.dims d) (fun d h => absurd h (by omega)) ?_)
    fun r hr d => hr d d.isLt
  rintro d r hr
  refine Spec.bind (Safe_rd (by rw [hb]; exact ha d)) fun e _ => Spec.bind (ctrlIndex_safe h (hs d) (ha d)) fun k hk => Spec.pure fun e he => ?_
  dsimp only
  by_cases hed : e = d
  · subst hed; rw [Function.update_self]; exact hk
  · rw [Function.update_of_ne hed]
    exact hr e (by have : e.val ≠ d.val := fun h => hed (Fin.ext h); omega)

theorem evalBody_safe {b : BSpline D K V} (h : Shaped b) {segs : Fin D → K × ℕ} (hs : ∀ d, SegIn b d (segs d).2) {base : Fin D → List K}
    (hb : ∀ d, (base d).length = b.order + 1) (i : ℕ) (v : V) : Spec (evalBody b segs base i v) (fun _ => True) E := by
  unfold evalBody
  rw [dimwiseIndices_ok (fun _ => Nat.succ_pos _), ok_bind]
  have ha : InRange _ (decode (fun _ : Fin D => b.order + 1) i) := decode_inRange (fun _ => Nat.succ_pos _)
  exact Spec.bind (coefFold_safe h hs hb ha _) fun r hr => Spec.bind (Safe_get h.wf hr) fun _ _ => Spec.pure trivial

theorem eval_safe (hE : DivE K V E) {b : BSpline D K V} (h : Shaped b) {x : Fin D → K × ℕ} (hx : ∀ d, SegIn b d (x d).2) :
    Spec (eval b x) (fun _ => True) E := by
  unfold eval
  refine Spec.bind (tabM_spec (Q := fun d r => SegIn b d r.2) fun d => getKnotIter'_safe hE h d _ (hx d)) fun segs hs => ?_
  refine Spec.bind (tabM_spec (Q := fun d r => List.length r = b.order + 1) fun d => ?_) fun base hb => ?_
  · have ⟨h1, h2⟩ := hs d
    exact baseSplineValue_safe hE le_rfl h1 (by omega)
  · exact Spec.loopC trivial fun i v _ _ _ => evalBody_safe h hs hb i v

/-! ### derivatives -/

theorem indexing_line_lt {dims a : Fin D → ℕ} {d : Fin D} (h : InRange dims (Function.update a d 0)) {i : ℕ} (hi : i < dims d) :
    indexing dims (Function.update a d 0) + i * stride dims d < ∏ e, dims e := by
  rw [← indexing_update]
  refine indexing_lt fun e => ?_
  by_cases hed : e = d
  · subst hed; rw [Function.update_self]; exact hi
  · have := h e
    rwa [Function.update_of_ne hed] at this ⊢

theorem derivFillBody_safe {b : BSpline D K V} (h : Shaped b) {segs : Fin D → K × ℕ} (hs : ∀ d, SegIn b d (segs d).2) {base : Fin D → List K}
    (hb : ∀ d, (base d).length = b.order + 1) (i : ℕ) {st : Mesh D K × Mesh D V}
    (h1 : st.1.WF ∧ st.1.dims = fun _ => b.order + 1) (h2 : st.2.WF ∧ st.2.dims = fun _ => b.order + 1) :
    Spec (derivFillBody b segs base i st) (fun st' => (st'.1.WF ∧ st'.1.dims = fun _ => b.order + 1) ∧
      (st'.2.WF ∧ st'.2.dims = fun _ => b.order + 1)) E := by
  unfold derivFillBody
  rw [localIndices_ok (Nat.succ_pos _), ok_bind]
  have ha : ∀ d : Fin D, digs (b.order + 1) (freeAxes fun _ => false) (fun _ => 0) i d < b.order + 1 := fun d =>
    digs_lt (Nat.succ_pos _) (by simp [freeAxes])
  refine Spec.bind (coefFold_safe h hs hb ha _) fun r hr => Spec.bind (Safe_set h1.1 (by rw [h1.2]; exact ha) _) fun sv hsv =>
    Spec.bind (Safe_get h.wf hr) fun c _ => Spec.bind (Safe_set h2.1 (by rw [h2.2]; exact ha) _) fun cv hcv => Spec.pure ?_
  exact ⟨⟨hsv.1, hsv.2.trans h1.2⟩, ⟨hcv.1, hcv.2.trans h2.2⟩⟩

theorem derivReduceLine_safe (hE : DivE K V E) {o s p off step N : ℕ} {t : List K} {buf : List V} (hs : o ≤ s) (hst : s + o < t.length)
    (hb : LineIn N off step (o + 1) buf) : Spec (derivReduceLine o t s p off step buf) (LineIn N off step (o + 1)) E := by
  unfold derivReduceLine
  refine Spec.loopDown (P := fun _ => LineIn N off step (o + 1)) _ _ hb fun kk b hk hb =>
    Spec.loopDown (P := fun _ => LineIn N off step (o + 1)) _ _ hb fun jj b hj hb => ?_
  unfold derivReduceBody
  rw [subM_ok (by omega), ok_bind, subM_ok (by omega), ok_bind]
  have e1 := hb.2 (o + (jj + 1) - (p + kk + 1)) (by omega)
  have e2 := hb.2 (o + (jj + 1) - (p + kk + 1) - 1) (by omega)
  rw [← hb.1] at e1 e2
  refine Spec.bind (Safe_rd e1) fun _ _ => Spec.bind (Safe_rd e2) fun _ _ => Spec.bind (Safe_rd (by omega)) fun _ _ => ?_
  rw [subM_ok (by omega), ok_bind]
  refine Spec.bind (Safe_rd (by omega)) fun _ _ => Spec.bind (Safe_divV hE _ _) fun _ _ => (Safe_wr e1).imp fun l hl => ⟨hl.trans hb.1, hb.2⟩

theorem derivReduceDim_safe (hE : DivE K V E) (c : Cfg) {b : BSpline D K V} {segs : Fin D → K × ℕ} {d : Fin D} (hs : SegIn b d (segs d).2)
    (p : ℕ) {m : Mesh D V} (hm : m.WF ∧ m.dims = fun _ => b.order + 1) :
    Spec (derivReduceDim c b segs d p m) (fun m' => m'.WF ∧ m'.dims = fun _ => b.order + 1) E := by
  unfold derivReduceDim
  have ⟨hs1, hs2⟩ := hs
  refine Spec.ite (fun _ => Spec.pure hm) fun _ => ?_
  rw [divN_ok (by rw [hm.2]; simp), ok_bind]
  refine Spec.loopC (P := fun m' : Mesh D V => m'.WF ∧ m'.dims = fun _ => b.order + 1) hm fun i m' _ _ hm' => ?_
  rw [localIndices_ok (Nat.succ_pos _), ok_bind]
  have hr : InRange m'.dims (Function.update (digs (b.order + 1) (freeAxes fun dd => decide (dd = d)) (fun _ => 0) i) d 0) := by
    intro e
    rw [hm'.2]
    by_cases hed : e = d
    · subst hed; rw [Function.update_self]; exact Nat.succ_pos _
    · rw [Function.update_of_ne hed]
      exact digs_lt (Nat.succ_pos _) (by simp [freeAxes, hed])
  rw [Mesh.lineBegin_ok c m' d hr, ok_bind]
  refine Spec.bind (derivReduceLine_safe hE (N := ∏ e, m'.dims e) hs1 (by omega) ⟨hm'.1, fun i hi => indexing_line_lt hr (by rw [hm'.2]; exact hi)⟩)
    fun buf hbuf => Spec.pure ⟨hbuf.1, hm'.2⟩

theorem derivativeAtH_safe (hE : DivE K V E) (c : Cfg) {b : BSpline D K V} (h : Shaped b) {x : Fin D → K × ℕ × ℕ}
    (hx : ∀ d, SegIn b d (x d).2.1) : Spec (derivativeAtH c b x) (fun _ => True) E := by
  unfold derivativeAtH
  refine Spec.ite (fun _ => Spec.pure trivial) fun _ => ?_
  dsimp only
  refine Spec.bind (tabM_spec (Q := fun d r => SegIn b d r.2) fun d => getKnotIter'_safe hE h d _ (hx d)) fun segs hs => ?_
  refine Spec.bind (tabM_spec (Q := fun d r => List.length r = b.order + 1) fun d => ?_) fun base hb => ?_
  · have ⟨h1, h2⟩ := hs d
    exact baseSplineValue_safe hE (by omega) (by omega) (by omega)
  refine Spec.bind (Q := fun st' => (st'.1.WF ∧ st'.1.dims = fun _ => b.order + 1) ∧ (st'.2.WF ∧ st'.2.dims = fun _ => b.order + 1))
    (Spec.loopC ⟨⟨Mesh.mk'_wf _, rfl⟩, ⟨Mesh.mk'_wf _, rfl⟩⟩ fun i st _ _ hst => derivFillBody_safe h hs hb i hst.1 hst.2) fun st hst => ?_
  refine Spec.bind (Q := fun m' => m'.WF ∧ m'.dims = fun _ => b.order + 1)
    (Spec.foldFin (P := fun _ (m' : Mesh D V) => m'.WF ∧ m'.dims = fun _ => b.order + 1) hst.2 fun d m hm => derivReduceDim_safe hE c (hs d) _ hm)
    fun cv hcv => ?_
  refine Spec.loopC trivial fun i v _ hi _ => ?_
  have e1 : st.1.storage.length = ∏ d, st.1.dims d := hst.1.1
  have e2 : cv.storage.length = ∏ d, cv.dims d := hcv.1
  rw [hst.1.2] at e1
  rw [hcv.2] at e2
  unfold Mesh.size at hi
  exact Spec.bind (Safe_rd hi) fun _ _ => Spec.bind (Safe_rd (by rw [e2, ← e1]; exact hi)) fun _ _ => Spec.pure trivial

/-! ### the public functions -/

theorem hint_safe (hE : DivE K V E) {f : InterpFn D K V} (h : Shaped f.spline) (d : Fin D) (hB : f.uniform d = true → E .badCast) (x : K) :
    Spec (hint f d x) (SegIn f.spline d) E := by
  have hk := h.knots d
  unfold hint
  refine Spec.ite (fun hu => ?_) fun _ => Spec.pure ⟨le_rfl, by omega⟩
  rw [subM_ok (by omega), ok_bind]
  refine Spec.bind (Safe_div hE _ _) fun q _ => Spec.bind ((ceil_err _).mono (fun _ h => h) fun _ h => h ▸ hB hu) fun k _ => Spec.pure ?_
  unfold SegIn
  omega

theorem call_safe (hE : DivE K V E) {f : InterpFn D K V} (hB : ∀ d, f.uniform d = true → E .badCast) (h : Shaped f.spline) (x : Fin D → K) :
    Spec (call f x) (fun _ => True) E := by
  unfold call
  exact Spec.bind (tabM_spec fun d => hint_safe hE h d (hB d) (x d)) fun g hg => eval_safe hE h hg

theorem derivative_safe (hE : DivE K V E) (c : Cfg) {f : InterpFn D K V} (hB : ∀ d, f.uniform d = true → E .badCast) (h : Shaped f.spline) (x : Fin D → K) (m : Fin D → ℕ) :
    Spec (derivative c f x m) (fun _ => True) E := by
  unfold derivative
  exact Spec.bind (tabM_spec fun d => hint_safe hE h d (hB d) (x d)) fun g hg => derivativeAtH_safe hE c h hg

theorem boundaryCheck_safe (hD : E .domainError) (f : InterpFn D K V) (x : Fin D → K) : Spec (boundaryCheck f x) (fun _ => True) E := by
  unfold boundaryCheck
  exact Spec.foldFin (P := fun _ _ => True) trivial fun d _ _ => Spec.ite (fun _ => hD) fun _ => trivial

theorem at'_safe (hE : DivE K V E) {f : InterpFn D K V} (hB : ∀ d, f.uniform d = true → E .badCast) (hD : E .domainError) (h : Shaped f.spline) (x : Fin D → K) :
    Spec (at' f x) (fun _ => True) E := by
  unfold at'
  exact Spec.bind (boundaryCheck_safe hD f x) fun _ _ => call_safe hE hB h x

theorem derivativeAt_safe (hE : DivE K V E) (c : Cfg) {f : InterpFn D K V} (hB : ∀ d, f.uniform d = true → E .badCast) (hD : E .domainError) (h : Shaped f.spline)
    (x : Fin D → K) (m : Fin D → ℕ) : Spec (derivativeAt c f x m) (fun _ => True) E := by
  unfold derivativeAt
  exact Spec.bind (boundaryCheck_safe hD f x) fun _ _ => derivative_safe hE c hB h x m

end Fl

end Intp
