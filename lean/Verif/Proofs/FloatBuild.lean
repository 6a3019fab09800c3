import Verif.Proofs.FloatSafe
import Verif.Proofs.Control
import Verif.Proofs.Construct

/-!
# Index safety of the construction for every arithmetic
-/

set_option linter.unusedSectionVars false

namespace Intp.Fl

open CoordArith ScaleArith

variable {K V : Type} [CoordArith K] [ValArith V] [ScaleArith K V] {D : ℕ} {E : Err → Prop}

/-! ## Knots -/

/-- Sizes for which the library is meant to work, for a dimension with `N` data points. -/
structure Shape (o N : ℕ) (per : Bool) (x : XRange K) : Prop where
  periodic : per = true → 2 * (o / 2) + 2 ≤ N
  aperiodic : per = false → o + 1 ≤ N ∧ 2 ≤ N
  coords : ∀ l, x = .coords l → l.length = N ∧ (per = false → 1 ≤ o)

/-- Number of knots. -/
def knotLen (o N : ℕ) (per : Bool) : ℕ := if per then N + (2 * o + (1 - o % 2)) else N + (o + 1)

theorem Spec.loopN {σ : Type} {f : ℕ → σ → M σ} {P : ℕ → σ → Prop} {lo hi : ℕ} {s : σ} (hle : lo ≤ hi) (h0 : P lo s)
    (hs : ∀ i s, lo ≤ i → i < hi → P i s → Spec (f i s) (P (i + 1)) E) : Spec (loop lo hi s f) (P hi) E :=
  Spec.loop (P := P) hle h0 hs

theorem uniformKnots_safe {o N : ℕ} {per : Bool} (h : per = false → o + 1 ≤ N) (a b dx : K) :
    Spec (uniformKnots o N per a b dx) (fun t => t.length = knotLen o N per) E := by
  unfold uniformKnots knotLen
  cases per with
  | true =>
    rw [if_pos rfl]
    unfold uniformKnotsPeriodic
    exact Spec.loopC (by simp) fun i xs _ hi hxs => (Safe_wr (by simp at hxs; omega)).imp fun l hl => hl.trans hxs
  | false =>
    have h := h rfl
    rw [if_neg (by simp)]
    unfold uniformKnotsAperiodic
    dsimp only
    rw [subM_ok (by omega), ok_bind]
    simp only [Bool.false_eq_true, if_false]
    refine Spec.bind (Q := fun t : List K => t.length = N + (o + 1)) (Spec.loopC (by simp) fun i xs _ hi hxs =>
      (Safe_wr (by omega)).imp fun l hl => hl.trans hxs) fun xs hxs => Spec.loopC hxs fun i xs _ hi hxs =>
      (Safe_wr (by omega)).imp fun l hl => hl.trans hxs

theorem take_succ_getElem {α : Type} {l : List α} {k : ℕ} (h : k < l.length) : l.take k ++ [l[k]] = l.take (k + 1) := by
  rw [List.take_add_one, List.getElem?_eq_getElem h]; rfl

theorem backM_safe {l : List K} (h : 1 ≤ l.length) : Spec (backM l) (fun _ => True) E := by
  unfold backM
  rw [subM_ok h, ok_bind]
  exact Safe_rd (by omega)

theorem coordKnotsPeriodic_safe {o : ℕ} {l : List K} (h : 1 ≤ l.length) :
    Spec (coordKnotsPeriodic o l) (fun r => r.1.length = l.length + (2 * o + (1 - o % 2)) ∧ r.2 = l) E := by
  unfold coordKnotsPeriodic
  dsimp only
  rw [rd_ok (show 0 < l.length by omega), ok_bind]
  have h1 : [l[0]] = l.take 1 := by
    have := take_succ_getElem (l := l) (k := 0) (by omega)
    simpa using this
  refine Spec.bind (Spec.loopN (P := fun i (st : List K × List K) => st.1.length = l.length + (2 * o + (1 - o % 2)) ∧ st.2 = l.take (i - o))
    (by omega) ⟨by simp; omega, by rw [h1, show o + 1 - o = 1 by omega]⟩ fun i st hi1 hi2 hst => ?_) fun st hst => ?_
  · rw [rd_ok (show i - o < l.length by omega), ok_bind]
    have hne : st.2.length = i - o := by rw [hst.2, List.length_take]; omega
    refine Spec.bind (backM_safe (by omega)) fun back _ => ?_
    · refine Spec.bind (Safe_wr (by omega)) fun xs hxs => Spec.pure ⟨hxs.trans hst.1, ?_⟩
      show st.2 ++ [l[i - o]] = l.take (i + 1 - o)
      rw [hst.2, take_succ_getElem, show i + 1 - o = i - o + 1 by omega]
  · have hst2 : st.2 = l := by
      rw [hst.2, show o + l.length - o = l.length by omega, List.take_length]
    refine Spec.bind (backM_safe (by rw [hst2]; exact h)) fun back _ => ?_
    · refine Spec.bind (Safe_rd (by rw [hst2]; omega)) fun front _ => ?_
      refine Spec.bind (Q := fun xs : List K => xs.length = l.length + (2 * o + (1 - o % 2))) (Spec.loopC hst.1 fun i xs _ hi hxs => ?_)
        fun xs hxs => Spec.pure ⟨hxs, hst2⟩
      rw [subM_ok (by omega), ok_bind]
      refine Spec.bind (Safe_rd (by omega)) fun u _ => Spec.bind (Safe_wr (by omega)) fun ys hys => ?_
      rw [subM_ok (by omega), ok_bind, subM_ok (by omega), ok_bind]
      exact Spec.bind (Safe_rd (by omega)) fun v _ => (Safe_wr (by omega)).imp fun zs hzs => hzs.trans (hys.trans hxs)

theorem Clamp.wr {o : ℕ} {v w : K} {xs : List K} {i : ℕ} (h : ∀ u ≤ o, xs[u]? = some v) (hi : i < xs.length) (ho : o < i) :
    Spec (Intp.wr xs i w) (fun ys => ys.length = xs.length ∧ ∀ u ≤ o, ys[u]? = some v) E := by
  rw [wr_ok hi]
  refine Spec.ok ⟨List.length_set, fun u hu => ?_⟩
  rw [List.getElem?_set, if_neg (by omega)]
  exact h u hu

theorem coordKnotsAperiodic_safe (hE : DivE K V E) {o : ℕ} {l : List K} (ho : 1 ≤ o) (h : o + 1 ≤ l.length) :
    Spec (coordKnotsAperiodic o l) (fun r => r.1.length = l.length + (o + 1) ∧ r.2 = l ∧ ∀ u ≤ o, r.1[u]? = l[0]?) E := by
  unfold coordKnotsAperiodic
  dsimp only
  rw [rd_ok (show 0 < l.length by omega), ok_bind]
  have h0 : l[0]? = some l[0] := List.getElem?_eq_getElem _
  have h1 : [l[0]] = l.take 1 := by
    have := take_succ_getElem (l := l) (k := 0) (by omega)
    simpa using this
  refine Spec.bind (Spec.loopN (P := fun i (xs : List K) => xs.length = l.length + (o + 1) ∧ ∀ u < i, xs[u]? = some l[0]) (Nat.zero_le _)
    ⟨by simp; omega, fun u hu => absurd hu (by omega)⟩ fun i xs _ hi ⟨hx1, hx2⟩ => ?_) fun xs ⟨hx1, hx2⟩ => ?_
  · rw [wr_ok (by omega)]
    refine Spec.ok ⟨List.length_set.trans hx1, fun u hu => ?_⟩
    rw [List.getElem?_set]
    by_cases hui : i = u
    · rw [if_pos hui, if_pos (by omega)]
    · rw [if_neg hui]; exact hx2 u (by omega)
  have hx2 : ∀ u ≤ o, xs[u]? = some l[0] := fun u hu => hx2 u (by omega)
  refine Spec.bind (Spec.loopN (P := fun i (st : CoordSt K) => st.pos + 1 = i ∧ st.xs.length = l.length + (o + 1) ∧ st.ic = l.take i ∧
    ∀ u ≤ o, st.xs[u]? = some l[0]) ho
    ⟨rfl, hx1, h1, hx2⟩ fun i st hi1 hi2 ⟨p1, p2, p3, p4⟩ => ?_) fun st ⟨p1, p2, p3, p4⟩ => ?_
  · have hpos : st.pos + 1 < l.length := by omega
    rw [rd_ok hpos, ok_bind]
    have e : st.ic ++ [l[st.pos + 1]] = l.take (i + 1) := by
      subst p1; rw [p3, take_succ_getElem]
    rw [e]
    refine Spec.bind (Safe_rd (by rw [List.length_take]; omega)) fun u _ => Spec.pure ⟨by show st.pos + 1 + 1 = _; omega, p2, rfl, p4⟩
  refine Spec.bind (Spec.loopN (P := fun i (st : CoordSt K) => st.pos + 2 = i ∧ st.xs.length = l.length + (o + 1) ∧ st.ic = l.take (i - 1) ∧
    ∀ u ≤ o, st.xs[u]? = some l[0])
    h ⟨by omega, p2, p3, p4⟩ fun i st hi1 hi2 ⟨p1, p2, p3, p4⟩ => ?_) fun st ⟨p1, p2, p3, p4⟩ => ?_
  · have hpos : st.pos + 1 < l.length := by omega
    rw [rd_ok hpos, ok_bind, subM_ok (by omega), ok_bind]
    have e : st.ic ++ [l[st.pos + 1]] = l.take i := by
      subst p1
      rw [p3, show st.pos + 2 - 1 = st.pos + 1 by omega, take_succ_getElem]
    rw [e]
    refine Spec.bind (Safe_rd (by rw [List.length_take]; omega)) fun u _ => Spec.bind (Safe_div hE _ _) fun w _ =>
      Spec.bind (Clamp.wr p4 (by omega) (by omega)) fun xs hxs => ?_
    rw [subM_ok (by omega), ok_bind]
    refine Spec.bind (Safe_rd (by rw [List.length_take]; omega)) fun z _ =>
      Spec.pure ⟨by show st.pos + 1 + 2 = _; omega, hxs.1.trans p2, ?_, hxs.2⟩
    rfl
  · have hpos : st.pos + 1 < l.length := by omega
    rw [rd_ok hpos, ok_bind]
    refine Spec.bind (Q := fun xs : List K => xs.length = l.length + (o + 1) ∧ ∀ u ≤ o, xs[u]? = some l[0])
      (Spec.loopC ⟨p2, p4⟩ fun i xs _ hi hxs => (Clamp.wr hxs.2 (by omega) (by omega)).imp fun l hl => ⟨hl.1.trans hxs.1, hl.2⟩)
      fun xs hxs => Spec.pure ⟨hxs.1, ?_, fun u hu => by rw [h0]; exact hxs.2 u hu⟩
    show st.ic ++ [l[st.pos + 1]] = l
    rw [p3, show l.length - 1 = st.pos + 1 by omega, take_succ_getElem, List.take_of_length_le (by omega)]

/-- With assertions, failing ones are allowed or the coordinates increase. -/
def Checked (E : Err → Prop) (c : Cfg) (l : List K) : Prop :=
  c.assertions = true → E .assertFail ∨ ∀ i a b, l[i]? = some a → l[i + 1]? = some b → a < b

theorem checkMonotonic_safe {c : Cfg} {l : List K} (hA : Checked E c l) (h : 1 ≤ l.length) :
    Spec (checkMonotonic c l) (fun _ => True) E := by
  unfold checkMonotonic
  rw [subM_ok h, ok_bind]
  refine Spec.loopC trivial fun i _ _ hi _ => ?_
  rw [rd_ok (show i < l.length by omega), ok_bind, rd_ok (show i + 1 < l.length by omega), ok_bind]
  unfold assertM
  refine Spec.ite (fun h => ?_) fun _ => Spec.ok trivial
  rw [Bool.and_eq_true] at h
  refine (hA h.1).resolve_right fun hl => ?_
  have := hl i l[i] l[i + 1] (List.getElem?_eq_getElem _) (List.getElem?_eq_getElem _)
  rw [decide_eq_true this] at h
  cases h.2

theorem coordKnots_safe (hE : DivE K V E) {c : Cfg} {o N : ℕ} {per : Bool} {l : List K} (hA : Checked E c l)
    (h : Shape o (pointNum c per N) per (.coords l)) :
    Spec (coordKnots c o N per l) (fun r => r.1.length = knotLen o (pointNum c per N) per ∧ r.2 = l ∧
      (per = false → ∀ u ≤ o, r.1[u]? = l[0]?)) E := by
  obtain ⟨hl, ho⟩ := h.coords l rfl
  unfold coordKnots
  rw [assertM_ok (by simpa using hl), ok_bind]
  have h1 : 1 ≤ l.length := by
    rw [hl]
    cases per with
    | true => have := h.periodic rfl; omega
    | false => have := h.aperiodic rfl; omega
  refine Spec.bind (Q := fun r => r.1.length = knotLen o (pointNum c per N) per ∧ r.2 = l ∧ (per = false → ∀ u ≤ o, r.1[u]? = l[0]?)) ?_ fun r hr =>
    Spec.bind (checkMonotonic_safe (by rw [hr.2.1]; exact hA) (by rw [hr.2.1]; exact h1)) fun _ _ => Spec.pure hr
  unfold coordKnotsRaw knotLen
  cases per with
  | true => rw [if_pos rfl]; exact (coordKnotsPeriodic_safe h1).imp fun r hr => by rw [← hl]; exact ⟨hr.1, hr.2, by simp⟩
  | false =>
    rw [if_neg (by simp)]
    exact (coordKnotsAperiodic_safe hE (ho rfl) (by rw [hl]; exact (h.aperiodic rfl).1)).imp fun r hr => by rw [← hl]; exact ⟨hr.1, hr.2.1, fun _ => hr.2.2⟩

/-- State of one dimension after `create_knot_vector_`. -/
structure AxOk (c : Cfg) (o N : ℕ) (per : Bool) (x : XRange K) (f : InterpFn D K V) (C : Fin D → List K) (d : Fin D) : Prop where
  len : (f.spline.knots d).length = knotLen o (pointNum c per N) per
  uni : f.uniform d = x.isUniform
  coords : ∀ l, x = .coords l → C d = l ∧ coordKnots c o N per l = .ok (f.spline.knots d, l) ∧
    (per = false → ∀ u ≤ o, (f.spline.knots d)[u]? = l[0]?)

theorem Spec.and_eq {α : Type} {m : M α} {Q : α → Prop} (h : Spec m Q E) : Spec m (fun a => m = .ok a ∧ Q a) E := by
  cases m with
  | ok a => exact ⟨rfl, h⟩
  | error e => exact h

theorem loadKnots_safe {b : BSpline D K V} {d : Fin D} {t : List K} (h : b.order + 2 ≤ t.length) :
    Spec (b.loadKnots d t) (fun b' => b'.order = b.order ∧ b'.periodicity = b.periodicity ∧ b'.knots = Function.update b.knots d t) E := by
  unfold BSpline.loadKnots
  refine Spec.bind (Safe_rd (by omega)) fun lo _ => ?_
  rw [subM_ok (by omega), ok_bind, subM_ok (by omega), ok_bind]
  exact Spec.bind (Safe_rd (by omega)) fun hi _ => Spec.pure ⟨rfl, rfl, rfl⟩

theorem knotLen_ge {o N : ℕ} {per : Bool} {x : XRange K} (h : Shape o N per x) : 2 * o + 2 ≤ knotLen o N per := by
  unfold knotLen
  cases per with
  | true => have := h.periodic rfl; simp only [if_true]; omega
  | false => have := h.aperiodic rfl; simp only [Bool.false_eq_true, if_false]; omega

theorem createKnotVector_safe (hE : DivE K V E) {c : Cfg} {o : ℕ} {per : Fin D → Bool}
    {dims : Fin D → ℕ} {x : Fin D → XRange K} {st : InterpFn D K V × (Fin D → List K)} {d : Fin D} (hA : ∀ l, x d = .coords l → Checked E c l) (ho : st.1.spline.order = o)
    (hp : st.1.spline.periodicity = per) (h : Shape o (pointNum c (per d) (dims d)) (per d) (x d)) :
    Spec (createKnotVector c dims x st d) (fun r => r.1.spline.order = o ∧ r.1.spline.periodicity = per ∧
      AxOk c o (dims d) (per d) (x d) r.1 r.2 d ∧ ∀ e, e ≠ d → r.1.spline.knots e = st.1.spline.knots e ∧ r.1.uniform e = st.1.uniform e ∧
        r.2 e = st.2 e) E := by
  have hp' : st.1.periodicity d = per d := congrFun hp d
  have hk := knotLen_ge h
  unfold createKnotVector
  rw [hp', ho]
  cases hx : x d with
  | uniform a b =>
    dsimp only
    rw [hx] at h
    refine Spec.bind (Q := fun _ => True) ?_ fun dx _ => Spec.bind (uniformKnots_safe (fun hp => (h.aperiodic hp).1) _ _ _) fun t ht =>
      Spec.bind (loadKnots_safe (by rw [ht, ho]; omega)) fun s hs => Spec.pure ⟨hs.1.trans ho, hs.2.1.trans hp, ⟨?_, ?_, ?_⟩, fun e he => ⟨?_, ?_, rfl⟩⟩
    · unfold uniformStep
      have : 1 ≤ pointNum c (per d) (dims d) := by
        cases hpd : per d with
        | true => have := h.periodic hpd; rw [hpd] at this; omega
        | false => have := h.aperiodic hpd; rw [hpd] at this; omega
      rw [subM_ok this, ok_bind]
      exact Safe_div hE _ _
    · simp only [hs.2.2, Function.update_self]; exact ht
    · simp [XRange.isUniform]
    · intro l hl; simp at hl
    · simp only [hs.2.2, Function.update_of_ne he]
    · simp only [Function.update_of_ne he]
  | coords l =>
    dsimp only
    rw [hx] at h
    refine Spec.bind (Spec.and_eq (coordKnots_safe hE (hA l hx) h)) fun t ht =>
      Spec.bind (loadKnots_safe (by rw [ht.2.1, ho]; omega)) fun s hs => Spec.pure ⟨hs.1.trans ho, hs.2.1.trans hp, ⟨?_, ?_, ?_⟩, fun e he => ⟨?_, ?_, ?_⟩⟩
    · simp only [hs.2.2, Function.update_self]; exact ht.2.1
    · simp [XRange.isUniform]
    · intro l' hl
      injection hl with hl
      subst hl
      simp only [hs.2.2, Function.update_self]
      refine ⟨ht.2.2.1, ?_, ht.2.2.2⟩
      rw [ht.1]
      congr 1
      exact Prod.ext rfl ht.2.2.1
    · simp only [hs.2.2, Function.update_of_ne he]
    · simp only [Function.update_of_ne he]
    · simp only [Function.update_of_ne he]

/-- Sizes of all dimensions of an interpolation problem. -/
def ShapeAxes (c : Cfg) (o : ℕ) (per : Fin D → Bool) (dims : Fin D → ℕ) (x : Fin D → XRange K) : Prop :=
  ∀ d, Shape o (pointNum c (per d) (dims d)) (per d) (x d)

/-- State after the loop over the dimensions. -/
structure BaseOk (c : Cfg) (o : ℕ) (per : Fin D → Bool) (dims : Fin D → ℕ) (x : Fin D → XRange K) (f : InterpFn D K V)
    (C : Fin D → List K) : Prop where
  order : f.spline.order = o
  peri : f.spline.periodicity = per
  ax : ∀ d, AxOk c o (dims d) (per d) (x d) f C d

theorem partialConstruct_safe' (hE : DivE K V E) {c : Cfg} {o : ℕ} {per : Fin D → Bool}
    {dims : Fin D → ℕ} {x : Fin D → XRange K} (hA : ∀ d l, x d = .coords l → Checked E c l) (h : ShapeAxes c o per dims x) :
    Spec (partialConstruct (V := V) c o per dims x) (fun r => BaseOk c o per dims x r.1 r.2) E := by
  unfold partialConstruct
  refine Spec.imp (Spec.foldFin (P := fun k r => r.1.spline.order = o ∧ r.1.spline.periodicity = per ∧
    ∀ d : Fin D, d.val < k → AxOk c o (dims d) (per d) (x d) r.1 r.2 d) ?_ ?_) ?_
  · exact ⟨rfl, rfl, fun d h => absurd h (by omega)⟩
  · rintro d r ⟨h1, h2, h3⟩
    refine Spec.imp (createKnotVector_safe hE (hA d) h1 h2 (h d)) ?_
    rintro r' ⟨g1, g2, g3, g4⟩
    refine ⟨g1, g2, fun e he => ?_⟩
    by_cases hed : e = d
    · subst hed; exact g3
    · have h3e := h3 e (by have : e.val ≠ d.val := fun h => hed (Fin.ext h); omega)
      obtain ⟨a1, a2, a3⟩ := g4 e hed
      exact ⟨by rw [a1]; exact h3e.len, a2.trans h3e.uni, fun l hl => by rw [a1, a3]; exact h3e.coords l hl⟩
  · rintro r ⟨h1, h2, h3⟩
    exact ⟨h1, h2, fun d => h3 d d.isLt⟩

theorem partialConstruct_safe (hE : DivE K V E) {c : Cfg} (hA : c.assertions = true → E .assertFail) {o : ℕ} {per : Fin D → Bool}
    {dims : Fin D → ℕ} {x : Fin D → XRange K} (h : ShapeAxes c o per dims x) :
    Spec (partialConstruct (V := V) c o per dims x) (fun r => BaseOk c o per dims x r.1 r.2) E :=
  partialConstruct_safe' hE (fun _ _ _ h => .inl (hA h)) h

/-! ## Coefficient matrices -/

/-- A matrix of the kind and shape of a dimension. -/
def MatOk (per : Bool) (n bw : ℕ) : CoefMat K → Prop
  | .band m => per = false ∧ BandOk n bw bw m
  | .ext m => per = true ∧ ExtOk n bw bw m

theorem coefMat_safe {per : Bool} {n bw : ℕ} (h : per = true → bw < n) : Spec (coefMat (K := K) per n bw) (MatOk per n bw) E := by
  unfold coefMat
  cases per with
  | true =>
    rw [if_pos rfl]
    obtain ⟨m, h1, h2⟩ := ExtBandMatrix.mk'_rep (K := K) (h rfl) (h rfl)
    rw [h1, ok_bind]
    exact Spec.pure ⟨rfl, _, h2⟩
  | false => exact Spec.pure ⟨rfl, _, BandMatrix.rep_mk' n bw bw⟩

/-- Writing an entry that the matrix does not store is caught by an assertion when assertions are enabled, or changes another element. -/
def Caught (E : Err → Prop) (w : Bool) (c : Cfg) (per : Bool) : Prop :=
  per = false ∧ (c.assertions = true → E .assertFail) ∧ (c.assertions = true ∨ w = true)

theorem exists_holds (m : Mesh D K) (h : m.WF) : ∃ C, m.Holds m.dims C := by
  refine ⟨fun a => match m.get a with | .ok v => v | .error _ => 0, rfl, h, fun a ha => ?_⟩
  obtain ⟨v, hv⟩ := h.get_ok ha
  simp only [hv]

/-- Writing outside the band stays inside the buffer. -/
theorem bandSet_safe {w : Bool} {c : Cfg} {n p q i j : ℕ} {m : BandMatrix K} (h : BandOk n p q m) (hi : i < n) (hj : j < n)
    (hp : InBand p q i j ∨ Caught E w c false) (v : K) : Spec (bandSet w c m i j v) (BandOk n p q) E := by
  by_cases hb : InBand p q i j
  · unfold bandSet
    have h2 : m.p = p := h.choose_spec.2.1
    have h3 : m.q = q := h.choose_spec.2.2.1
    rw [if_neg (by rw [h2, h3]; unfold InBand at hb; simp only [not_and]; intro _; omega)]
    exact h.set hi hj hb v
  · have hp := hp.resolve_left hb
    unfold bandSet
    have h2 : m.p = p := h.choose_spec.2.1
    have h3 : m.q = q := h.choose_spec.2.2.1
    have hb' : ¬ (j + m.p ≥ i ∧ i + m.q ≥ j) := by rw [h2, h3]; unfold InBand at hb; omega
    cases hc : c.assertions with
    | true =>
      have ha : ∀ b : Bool, b = false → assertM c b = .error .assertFail := by
        intro b hb; unfold assertM; rw [if_pos (by simp [hc, hb])]
      refine Spec.ite (fun _ => ?_) fun _ => ?_
      · rw [ha _ rfl]; exact hp.2.1 hc
      · unfold BandMatrix.set
        rw [ha _ (by simpa using hb')]; exact hp.2.1 hc
    | false =>
      have hw : w = true := by rcases hp.2.2 with h | h; · rw [hc] at h; cases h
                               · exact h
      rw [if_pos ⟨hw, hb'⟩, show assertM c false = .ok () by unfold assertM; simp [hc], ok_bind]
      obtain ⟨A, h1, -, -, f, hf, -⟩ := h
      have hlen : m.bands.storage.length = n * (1 + p + q) := by
        rw [hf.2.1]
        simp [Fin.prod_univ_two, hf.1]
      have hlt : j * m.bands.dims 1 + (i + m.q) - j < m.bands.storage.length := by
        have hd : m.bands.dims 1 = 1 + p + q := by rw [hf.1]; rfl
        rw [hlen, hd, h3, show j * (1 + p + q) = j * (p + q) + j by ring]
        have : j * (p + q) ≤ (n - 1) * (p + q) := Nat.mul_le_mul_right _ (by omega)
        have e : n * (1 + p + q) = (n - 1) * (p + q) + (n + (p + q)) := by
          obtain ⟨k, rfl⟩ : ∃ k, n = k + 1 := ⟨n - 1, by omega⟩
          simp only [Nat.add_sub_cancel]; ring
        omega
      rw [wr_ok hlt, ok_bind]
      have hwf : (⟨m.bands.dims, m.bands.storage.set (j * m.bands.dims 1 + (i + m.q) - j) v⟩ : Mesh 2 K).WF := by
        unfold Mesh.WF; rw [List.length_set]; exact hf.2.1
      obtain ⟨g, hg⟩ := exists_holds _ hwf
      refine Spec.pure ⟨fun i j => g ![j, i + q - j], h1, h2, h3, g, ?_, fun _ _ _ _ _ => rfl⟩
      have hd : m.bands.dims = ![n, 1 + p + q] := hf.1
      simp only [hd] at hg ⊢
      exact hg

theorem matSet_safe {w : Bool} {c : Cfg} {per : Bool} {n bw i j : ℕ} {m : CoefMat K} (h : MatOk per n bw m) (hi : i < n) (hj : j < n)
    (hp : CoefMat.Pat per n bw i j ∨ Caught E w c per) (v : K) : Spec (matSet w c m i j v) (MatOk per n bw) E := by
  unfold matSet
  cases m with
  | band m =>
    obtain ⟨rfl, h1⟩ := h
    exact Spec.bind (bandSet_safe h1 hi hj (hp.imp (fun hp => by simpa [CoefMat.Pat] using hp) id) v) fun m' hm' => Spec.pure ⟨rfl, hm'⟩
  | ext m =>
    obtain ⟨rfl, h1⟩ := h
    refine Spec.bind (h1.set hi hj ?_ v) fun m' hm' => Spec.pure ⟨rfl, hm'⟩
    rcases hp with hp | hp
    · simpa [CoefMat.Pat, InPat] using hp
    · simp [Caught] at hp

theorem rowWrite_safe {w : Bool} {c : Cfg} {o n i ki s bw : ℕ} {per : Bool} {m : CoefMat K} {vals : List K} (hm : MatOk per n bw m) (hn : 0 < n)
    (hki : o ≤ ki) (hs : s ≤ vals.length)
    (hpat : ∀ j, j < s → CoefMat.Pat per n bw ((i + rowShift o per) % n) ((ki - o + j) % n) ∨ Caught E w c per) :
    Spec (rowWrite w c o n i ki s per vals m) (MatOk per n bw) E := by
  unfold rowWrite
  refine Spec.loopC hm fun k m _ hk hm => ?_
  have hsh : (if per = true then bandWidth o per else 0) = rowShift o per := by
    cases per <;> rfl
  rw [hsh, modM_ok (by omega), ok_bind, subM_ok hki, ok_bind, modM_ok (by omega), ok_bind]
  exact Spec.bind (Safe_rd (by omega)) fun v _ => matSet_safe hm (Nat.mod_lt _ hn) (Nat.mod_lt _ hn) (hpat k hk) v

theorem baseAt_safe (hE : DivE K V E) {b : BSpline D K V} {d : Fin D} {ki : ℕ} (h1 : b.order ≤ ki) (h2 : ki + b.order < (b.knots d).length) (x : K) :
    Spec (baseAt b d ki x) (fun v => v.length = b.order + 1) E := by
  unfold baseAt
  rw [itAdd_ok (r := ki) (by omega) (by omega), ok_bind]
  exact baseSplineValue_safe hE le_rfl h1 h2

/-- Computed knots for which the interior data points `x` lie in segments inside the band of the matrix. -/
def GoodKnots (o : ℕ) (x t : List K) : Prop :=
  ∀ i, 0 < i → i + 1 < x.length → ∀ xi, x[i]? = some xi →
    (∀ u v, o < u → u ≤ i + 1 → t[u]? = some v → ¬ xi < v) ∧
    (2 ≤ o → ∀ v, t[min x.length (i + o)]? = some v → xi < v)

/-- What a row needs: the segment, the number of values, and the entries of the matrix it is written to. -/
def RowOk (E : Err → Prop) (w : Bool) (c : Cfg) (o n i len : ℕ) (per uni : Bool) (r : ℕ × List K) : Prop :=
  o ≤ r.1 ∧ r.1 + o < len ∧ r.2.length = o + 1 ∧
    ∀ j, j < sOf o n per uni i → CoefMat.Pat per n (bandWidth o per) ((i + rowShift o per) % n) ((r.1 - o + j) % n) ∨ Caught E w c per

section
variable {w : Bool} {c : Cfg} {o N : ℕ} {x : XRange K} {f : InterpFn D K V} {C : Fin D → List K} {d : Fin D} {i : ℕ} {vals : List K}

/-- Rows of periodic dimensions. -/
theorem rowData_per (hE : DivE K V E) (ho : f.spline.order = o) (hp : f.periodicity d = true) (h : AxOk c o N true x f C d)
    (hs : Shape o (pointNum c true N) true x) (hi : i < pointNum c true N - 1) (hv : f.uniform d = true → vals.length = o + 1) :
    Spec (rowData f (C d) d i vals) (RowOk E w c o (pointNum c true N - 1) i (f.spline.knots d).length true (f.uniform d)) E := by
  have hN := hs.periodic rfl
  have hlen := h.len
  unfold knotLen at hlen
  simp only [if_true] at hlen
  have hpat : ∀ j, j < sOf o (pointNum c true N - 1) true (f.uniform d) i →
      CoefMat.Pat true (pointNum c true N - 1) (bandWidth o true) ((i + rowShift o true) % (pointNum c true N - 1))
        ((i + o - o + j) % (pointNum c true N - 1)) ∨ Caught E w c true := by
    intro j hj
    left
    unfold sOf sNum at hj
    rw [if_pos rfl, or_one_eq] at hj
    show InPat _ (o / 2) (o / 2) ((i + o / 2) % _) _
    rw [show i + o - o + j = i + j by omega]
    have hN' : 2 * (o / 2) + 1 ≤ pointNum c true N - 1 := by omega
    clear hlen hs hN h
    generalize pointNum c true N - 1 = n at *
    have m1 : (i + o / 2) % n = if i + o / 2 < n then i + o / 2 else i + o / 2 - n := by
      split
      · rename_i hc; exact Nat.mod_eq_of_lt hc
      · rw [Nat.mod_eq_sub_mod (by omega), Nat.mod_eq_of_lt (by omega)]
    have m2 : (i + j) % n = if i + j < n then i + j else i + j - n := by
      split
      · rename_i hc; exact Nat.mod_eq_of_lt hc
      · rw [Nat.mod_eq_sub_mod (by omega), Nat.mod_eq_of_lt (by omega)]
    rw [m1, m2]
    unfold InPat InBand InSide
    split <;> split <;> omega
  unfold rowData
  refine Spec.ite (fun hu => ?_) fun hu => ?_
  · unfold knotIndUniform uniformBase
    rw [hp, if_pos rfl, pure_bind, if_pos rfl, pure_bind, ho]
    exact Spec.pure ⟨by simp, by simp only; omega, hv hu, hpat⟩
  · cases hx : x with
    | uniform a b => rw [hx] at h; exact absurd (by rw [h.uni]; rfl) hu
    | coords l =>
      rw [hx] at h hs
      obtain ⟨h1, -⟩ := h.coords l rfl
      have hl := (hs.coords l rfl).1
      rw [h1]
      refine Spec.bind (Safe_rd (by omega)) fun y _ => ?_
      unfold knotIndCoord
      rw [hp, if_pos rfl, pure_bind, ho]
      refine Spec.bind (baseAt_safe hE (by rw [ho]; omega) (by rw [ho]; omega) y) fun v hv => Spec.pure ⟨by simp, by simp only; omega, ?_, hpat⟩
      rw [← ho]; exact hv

/-- Rows of uniform non-periodic dimensions. -/
theorem rowData_ua (hE : DivE K V E) (ho : f.spline.order = o) (hp : f.periodicity d = false) (h : AxOk c o N false x f C d)
    (hs : Shape o (pointNum c false N) false x) (hu : f.uniform d = true) (h1 : 0 < i) (h2 : i + 1 < pointNum c false N)
    (hv : 2 ≤ i → vals.length = o + 1) :
    Spec (rowData f (C d) d i vals) (RowOk E w c o (pointNum c false N) i (f.spline.knots d).length false true) E := by
  have hN := hs.aperiodic rfl
  have hlen := h.len
  unfold knotLen at hlen
  simp only [Bool.false_eq_true, if_false] at hlen
  generalize pointNum c false N = n at *
  unfold rowData
  rw [if_pos hu]
  unfold knotIndUniform
  rw [hp, if_neg (by simp), ho, subM_ok (by omega), ok_bind, pure_bind]
  have hk : min ((f.spline.knots d).length - (o + 2)) (if i > o / 2 then i + (o + 1) / 2 else o) = uaKi o n i := by
    unfold uaKi; rw [hlen]; congr 1; omega
  rw [hk]
  have hk1 : o ≤ uaKi o n i := by unfold uaKi; split <;> omega
  have hk2 : uaKi o n i ≤ n - 1 := by unfold uaKi; omega
  refine Spec.bind (Q := fun v : List K => v.length = o + 1) ?_ fun v hv => Spec.pure ⟨hk1, by simp only; omega, hv, fun j hj => .inl ?_⟩
  · unfold uniformBase
    rw [hp, if_neg (by simp), ho]
    have hb : ∀ y, Spec (baseAt f.spline d (uaKi o n i) y) (fun v => v.length = o + 1) E := fun y => by
      have := baseAt_safe (E := E) hE (b := f.spline) (d := d) (ki := uaKi o n i) (by rw [ho]; exact hk1) (by rw [ho]; omega) y
      rwa [ho] at this
    refine Spec.ite (fun _ => hb _) fun hge => ?_
    rw [subM_ok (by omega), ok_bind]
    refine Spec.ite (fun _ => hb _) fun _ => Spec.pure (hv ?_)
    by_contra hc
    obtain rfl : i = 1 := by omega
    apply hge
    unfold uaKi
    split <;> omega
  · show CoefMat.Pat false n _ ((i + 0) % n) ((uaKi o n i - o + j) % n)
    unfold sOf sNum at hj
    rw [or_one_eq] at hj
    have hj' : j ≤ o := by
      simp only [Bool.false_eq_true, if_false, Bool.true_and] at hj
      split at hj
      · omega
      · split at hj <;> omega
    rw [Nat.add_zero, Nat.mod_eq_of_lt (by omega), Nat.mod_eq_of_lt (by omega)]
    unfold CoefMat.Pat
    rw [if_neg (by simp)]
    unfold uaKi InBand bandWidth
    simp only [Bool.false_eq_true, if_false, Bool.true_and, decide_eq_true_eq] at hj ⊢
    split <;> split <;> split at hj <;> (try split at hj) <;> omega

/-- Rows of non-periodic dimensions with explicit coordinates. -/
theorem rowData_ca (hE : DivE K V E) {l : List K} (ho : f.spline.order = o) (hp : f.periodicity d = false) (h : AxOk c o N false (.coords l) f C d)
    (hs : Shape o (pointNum c false N) false (.coords l)) (h1 : 0 < i) (h2 : i + 1 < pointNum c false N)
    (hg : ((c.assertions = true → E .assertFail) ∧ (c.assertions = true ∨ w = true)) ∨ GoodKnots o l (f.spline.knots d)) :
    Spec (rowData f (C d) d i vals) (RowOk E w c o (pointNum c false N) i (f.spline.knots d).length false false) E := by
  have hN := hs.aperiodic rfl
  obtain ⟨hl, ho1⟩ := hs.coords l rfl
  have ho1 := ho1 rfl
  obtain ⟨hC, -, hcl⟩ := h.coords l rfl
  have hcl := hcl rfl
  have hu : f.uniform d = false := h.uni
  have hlen := h.len
  unfold knotLen at hlen
  simp only [Bool.false_eq_true, if_false] at hlen
  generalize pointNum c false N = n at *
  unfold rowData
  rw [if_neg (by simp [hu]), hC, rd_ok (show i < l.length by omega), ok_bind]
  refine Spec.bind (Q := fun ki => o ≤ ki ∧ (ki = i + 1 ∨ (ki ≤ min n (i + o) ∧ (o < ki → ∀ v, (f.spline.knots d)[ki]? = some v → ¬ l[i] < v) ∧
      (ki < min n (i + o) → ∀ v, (f.spline.knots d)[ki + 1]? = some v → l[i] < v)))) ?_ fun ki hki => ?_
  · unfold knotIndCoord
    rw [hp, if_neg (by simp), if_neg (by omega), subM_ok (by omega), ok_bind, if_neg (by omega), ho, subM_ok (by omega), ok_bind]
    unfold getKnotIter
    have hp' : f.spline.periodicity d = false := hp
    rw [hp', itAdd_ok (r := i + 1) (by omega) (by omega), ok_bind]
    simp only [Bool.false_eq_true, if_false, pure_bind]
    rw [ho, hlen, show n + (o + 1) - (o + 1) = n by omega]
    refine Spec.bind (Q := fun r : K × ℕ => o ≤ r.2 ∧ (r.2 = i + 1 ∨ (r.2 ≤ min n (i + o) ∧
      (o < r.2 → ∀ v, (f.spline.knots d)[r.2]? = some v → ¬ l[i] < v) ∧
      (r.2 < min n (i + o) → ∀ v, (f.spline.knots d)[r.2 + 1]? = some v → l[i] < v)))) ?_ fun r hr => Spec.pure hr
    refine Spec.bind (findSegment_safe (o := o) (by omega) (by omega) (by omega)) fun s hs => Spec.pure ?_
    rcases hs with ⟨rfl, v, hv1, hv2, hv3⟩ | ⟨q1, q2⟩
    · refine ⟨?_, .inl rfl⟩
      by_contra hlt
      show False
      rw [hcl (i + 1) (by simp only at hlt; omega)] at hv1
      have := hv3 v (by rw [hcl (i + 1 + 1) (by simp only at hlt; omega)]; exact hv1)
      exact CoordArith.le_not_lt _ _ hv2 this
    · exact ⟨q1, .inr q2⟩
  · obtain ⟨hok, hki⟩ := hki
    have hb1 : ki ≤ n := by rcases hki with rfl | hki <;> omega
    refine Spec.bind (baseAt_safe hE (by rw [ho]; exact hok) (by rw [ho]; omega) _) fun v hv => Spec.pure ⟨hok, by simp only; omega, by rw [← ho]; exact hv, ?_⟩
    intro j hj
    rcases hg with hg | hg
    · exact .inr ⟨rfl, hg⟩
    left
    obtain ⟨g1, g2⟩ := hg i h1 (by omega) l[i] (List.getElem?_eq_getElem _)
    have hlow : i + 1 ≤ ki := by
      rcases hki with rfl | ⟨q1, q2, q3⟩
      · exact le_rfl
      by_contra hlt
      have hlt' : ki + 1 < (f.spline.knots d).length := by omega
      exact g1 (ki + 1) _ (by omega) (by omega) (List.getElem?_eq_getElem hlt') (q3 (by omega) _ (List.getElem?_eq_getElem hlt'))
    have hup : 2 ≤ o → ki + 1 ≤ min n (i + o) := by
      intro h2o
      rcases hki with rfl | ⟨q1, q2, q3⟩
      · omega
      by_contra hge
      have hlt' : ki < (f.spline.knots d).length := by omega
      have he : ki = min l.length (i + o) := by omega
      refine q2 (by omega) _ (List.getElem?_eq_getElem hlt') (g2 h2o _ ?_)
      rw [← he]; exact List.getElem?_eq_getElem hlt'
    show CoefMat.Pat false n _ ((i + 0) % n) ((ki - o + j) % n)
    unfold sOf sNum at hj
    by_cases h1o : o = 1
    · subst h1o
      have : ki = i + 1 := by rcases hki with rfl | hki <;> omega
      simp at hj
      subst this hj
      unfold CoefMat.Pat InBand
      simp
    · have hup := hup (by omega)
      simp only [Bool.false_eq_true, if_false, h1o, Bool.false_and] at hj
      rw [Nat.add_zero, Nat.mod_eq_of_lt (by omega), Nat.mod_eq_of_lt (by omega)]
      unfold CoefMat.Pat InBand bandWidth
      simp only [Bool.false_eq_true, if_false]
      rw [if_neg (by omega)]
      omega

end

section
variable {w : Bool} {c : Cfg} {o : ℕ} {per : Fin D → Bool} {dims : Fin D → ℕ} {x : Fin D → XRange K} {f : InterpFn D K V} {C : Fin D → List K} {d : Fin D}

/-- The explicit coordinates of the non-periodic dimensions give usable knots, or assertions are enabled, or elements outside the band are
allowed to overwrite others. -/
def GoodAxes (w : Bool) (c : Cfg) (o : ℕ) (per : Fin D → Bool) (dims : Fin D → ℕ) (x : Fin D → XRange K) : Prop :=
  w = true ∨ c.assertions = true ∨ ∀ d l t, per d = false → x d = .coords l → coordKnots c o (dims d) (per d) l = .ok (t, l) → GoodKnots o l t

/-- As `GoodAxes`, with the outcomes allowed when an entry outside the band is written. -/
def GoodAxesE (E : Err → Prop) (w : Bool) (c : Cfg) (o : ℕ) (per : Fin D → Bool) (dims : Fin D → ℕ) (x : Fin D → XRange K) : Prop :=
  ((c.assertions = true → E .assertFail) ∧ (c.assertions = true ∨ w = true)) ∨
    ∀ d l t, per d = false → x d = .coords l → coordKnots c o (dims d) (per d) l = .ok (t, l) → GoodKnots o l t

theorem GoodAxes.toE (hA : c.assertions = true → E .assertFail) (h : GoodAxes w c o per dims x) : GoodAxesE E w c o per dims x := by
  rcases h with h | h | h
  · exact .inl ⟨hA, .inr h⟩
  · exact .inl ⟨hA, .inl h⟩
  · exact .inr h

theorem unk_bounds (hs : Shape o (pointNum c (per d) (dims d)) (per d) (x d)) :
    0 < unk (per d) (pointNum c (per d) (dims d)) ∧ o / 2 + 1 ≤ unk (per d) (pointNum c (per d) (dims d)) ∧
      (per d = true → 2 * (o / 2) + 1 ≤ unk (per d) (pointNum c (per d) (dims d))) := by
  unfold unk
  cases hp : per d with
  | true => rw [hp] at hs; have := hs.periodic rfl; simp only [if_true]; omega
  | false => rw [hp] at hs; have := hs.aperiodic rfl; simp only [Bool.false_eq_true, if_false]; simp; omega

/-- Invariant of the values kept between the rows. -/
def ValsOk (o n : ℕ) (per uni : Bool) (i : ℕ) (vals : List K) : Prop :=
  uni = true → (if per then True else 2 ≤ i ∧ i < n) → vals.length = o + 1

theorem precalc_safe (hE : DivE K V E) (hf : BaseOk c o per dims x f C) (hs : Shape o (pointNum c (per d) (dims d)) (per d) (x d)) :
    Spec (precalc f d) (ValsOk o (unk (per d) (pointNum c (per d) (dims d))) (per d) (f.uniform d) 0) E := by
  have hp : f.periodicity d = per d := congrFun hf.peri d
  have hlen := (hf.ax d).len
  have hk := knotLen_ge hs
  unfold precalc
  rw [hp]
  refine Spec.ite (fun h => ?_) fun h => Spec.pure fun hu hc => ?_
  · refine Spec.bind (Safe_rd (by rw [hf.order]; omega)) fun t _ => ?_
    refine (baseAt_safe hE le_rfl (by rw [hf.order]; omega) _).imp fun v hv _ _ => ?_
    rw [hv, hf.order]
  · rw [hu] at h
    cases hp' : per d <;> rw [hp'] at h hc <;> simp at h hc

theorem assemble_safe (hE : DivE K V E) (hf : BaseOk c o per dims x f C)
    (hs : Shape o (pointNum c (per d) (dims d)) (per d) (x d)) (hg : GoodAxesE E w c o per dims x) {vals : List K}
    (hv : ValsOk o (unk (per d) (pointNum c (per d) (dims d))) (per d) (f.uniform d) 0 vals) :
    Spec (assemble w c f (C d) d (unk (per d) (pointNum c (per d) (dims d))) vals)
      (MatOk (per d) (unk (per d) (pointNum c (per d) (dims d))) (bandWidth o (per d))) E := by
  have hp : f.periodicity d = per d := congrFun hf.peri d
  have ho := hf.order
  have hax := hf.ax d
  obtain ⟨u1, u2, u3⟩ := unk_bounds (o := o) (c := c) (dims := dims) (x := x) hs
  unfold assemble
  rw [hp, ho]
  set n := unk (per d) (pointNum c (per d) (dims d)) with hn
  refine Spec.bind (coefMat_safe fun hpd => ?_) fun m hm => ?_
  · have := u3 hpd; unfold bandWidth; rw [hpd, if_pos rfl]; omega
  refine Spec.bind (Spec.loopN (P := fun i (st : CoefMat K × List K) => MatOk (per d) n (bandWidth o (per d)) st.1 ∧
    ValsOk o n (per d) (f.uniform d) i st.2) (Nat.zero_le _) ⟨hm, hv⟩ fun i st _ hi ⟨hm, hv⟩ => ?_) fun st hst => Spec.pure hst.1
  unfold assembleBody
  rw [hp, ho]
  refine Spec.ite (fun hend => ?_) fun hend => ?_
  · refine Spec.bind (matSet_safe hm hi hi (.inl ?_) _) fun m' hm' => Spec.pure ⟨hm', fun hu hc => ?_⟩
    · unfold CoefMat.Pat InBand; rw [hend.1]; simp
    · rw [hend.1] at hc
      simp at hc
      omega
  · rw [isInternal_ok u2, ok_bind]
    have key : Spec (rowData f (C d) d i st.2) (RowOk E w c o n i (f.spline.knots d).length (per d) (f.uniform d)) E := by
      cases hpd : per d with
      | true =>
        rw [hpd] at hax hs hv hp
        have hnn : n = pointNum c true (dims d) - 1 := by rw [hn]; unfold unk; rw [hpd, if_pos rfl]
        rw [hnn] at hi hv ⊢
        exact rowData_per hE ho hp hax hs hi fun hu => hv hu (by simp)
      | false =>
        rw [hpd] at hax hs hv hp hend
        have hnn : n = pointNum c false (dims d) := by rw [hn]; unfold unk; rw [hpd]; simp
        rw [hnn] at hi hv hend ⊢
        cases hx : x d with
        | uniform a b =>
          have hu : f.uniform d = true := by rw [hax.uni, hx]; rfl
          rw [hu]
          simp only [true_and, not_or] at hend
          exact rowData_ua hE ho hp hax hs hu (by omega) (by omega) fun h2 => hv hu (by simp; omega)
        | coords l =>
          rw [hx] at hax hs
          have hu : f.uniform d = false := by rw [hax.uni]; rfl
          rw [hu]
          simp only [true_and, not_or] at hend
          refine rowData_ca hE ho hp hax hs (by omega) (by omega) (hg.imp id fun hg => hg d l _ hpd hx ?_)
          rw [hpd]
          exact (hax.coords l rfl).2.1
    refine Spec.bind key fun r ⟨r1, r2, r3, r4⟩ => Spec.bind (rowWrite_safe hm u1 r1 (by rw [r3]; exact sNum_le _ _ _ _) r4) fun m' hm' =>
      Spec.pure ⟨hm', fun _ _ => r3⟩

/-- A solver for lines of length `n`. -/
def SolverOk (n : ℕ) : Solver K → Prop
  | .band s => ∃ p q, BandOk n p q s.store
  | .ext s => ∃ p q, p + q ≤ n ∧ ExtOk n p q s.store

theorem ofMat_safe (hE : DivE K V E) {per : Bool} {n bw : ℕ} (hn : 0 < n) (h : per = true → 2 * bw ≤ n) {m : CoefMat K} (hm : MatOk per n bw m) :
    Spec (ofMat c m) (SolverOk n) E := by
  unfold ofMat
  cases m with
  | band m =>
    unfold LUState.compute LUState.empty
    simp only [Bool.false_eq_true, if_false]
    exact Spec.bind (Spec.bind (bandCompute_safe hE hn hm.2) fun s hs => Spec.pure (Q := fun s : LUState (BandMatrix K) => BandOk n bw bw s.store) hs)
      fun s hs => Spec.pure ⟨bw, bw, hs⟩
  | ext m =>
    unfold LUState.compute LUState.empty
    simp only [Bool.false_eq_true, if_false]
    exact Spec.bind (Spec.bind (extCompute_safe hE hm.2) fun s hs => Spec.pure (Q := fun s : LUState (ExtBandMatrix K) => ExtOk n bw bw s.store) hs)
      fun s hs => Spec.pure ⟨bw, bw, by have := h hm.1; omega, hs⟩

theorem adjustDims_ok (hs : ShapeAxes c o per dims x) :
    adjustDims c per dims = .ok fun d => unk (per d) (pointNum c (per d) (dims d)) := by
  unfold adjustDims
  by_cases hn : c.noDummy = true
  · rw [if_pos hn, pure_eq_ok]
    congr 1
    funext d
    unfold unk pointNum
    rw [hn]
    cases per d <;> simp
  · rw [if_neg hn]
    refine tabM_ok fun d => ?_
    have := hs d
    unfold unk pointNum
    unfold pointNum at this
    simp only [hn, Bool.false_and, Bool.false_eq_true, if_false, Nat.add_zero] at this ⊢
    cases hp : per d with
    | true => rw [hp] at this; have := this.periodic rfl; rw [subM_ok (by simp; omega)]
    | false => rw [subM_ok (by simp)]

/-- What the constructor of the template establishes. -/
structure TmplOk (c : Cfg) (o : ℕ) (per : Fin D → Bool) (dims : Fin D → ℕ) (x : Fin D → XRange K) (t : Template D K V) : Prop where
  base : BaseOk c o per dims x t.base t.coords
  dims_eq : t.dims = fun d => unk (per d) (pointNum c (per d) (dims d))
  solvers : ∀ d, SolverOk (unk (per d) (pointNum c (per d) (dims d))) (t.solvers d)

theorem constructT_safe' (hE : DivE K V E) (hA : ∀ d l, x d = .coords l → Checked E c l) (hs : ShapeAxes c o per dims x) (hg : GoodAxesE E w c o per dims x) :
    Spec (constructT (V := V) w c o per dims x) (TmplOk c o per dims x) E := by
  unfold constructT
  refine Spec.bind (partialConstruct_safe' hE hA hs) fun r hr => ?_
  rw [adjustDims_ok hs, ok_bind]
  refine Spec.bind (tabM_spec fun d => precalc_safe hE hr (hs d)) fun vals hvals => ?_
  refine Spec.bind (tabM_spec (Q := fun d s => SolverOk (unk (per d) (pointNum c (per d) (dims d))) s) fun d => ?_) fun s hss => Spec.pure ⟨hr, rfl, hss⟩
  obtain ⟨u1, u2, u3⟩ := unk_bounds (o := o) (c := c) (dims := dims) (x := x) (hs d)
  refine Spec.bind (assemble_safe hE hr (hs d) hg (hvals d)) fun m hm => ofMat_safe hE u1 (fun hp => ?_) hm
  have := u3 hp
  have e : bandWidth o (per d) = o / 2 := by unfold bandWidth; rw [hp, if_pos rfl]
  rw [e]
  omega

theorem constructT_safe (hE : DivE K V E) (hA : c.assertions = true → E .assertFail) (hs : ShapeAxes c o per dims x) (hg : GoodAxes w c o per dims x) :
    Spec (constructT (V := V) w c o per dims x) (TmplOk c o per dims x) E :=
  constructT_safe' hE (fun _ _ _ h => .inl (hA h)) hs (hg.toE hA)

end

/-! ## Solving for the control points -/

section
variable {c : Cfg}

theorem solve_safe (hE : DivE K V E) {n N off step : ℕ} {s : Solver K} (hs : SolverOk n s) {buf : List V} (hb : LineIn N off step n buf) :
    Spec (solve c s buf off step) (LineIn N off step n) E := by
  unfold solve
  cases s with
  | band s => obtain ⟨p, q, h⟩ := hs; exact bandSolve_safe hE h hb
  | ext s => obtain ⟨p, q, hpq, h⟩ := hs; exact extSolve_safe hE h hpq hb

/-- A well-formed mesh of the given sizes. -/
def MeshOk (dims : Fin D → ℕ) (m : Mesh D V) : Prop := m.WF ∧ m.dims = dims

theorem MeshOk.mk'' {dims : Fin D → ℕ} {m : Mesh D V} (h : MeshOk dims m) {buf : List V} (hb : buf.length = ∏ d, dims d) :
    MeshOk dims ⟨m.dims, buf⟩ := ⟨by unfold Mesh.WF; rw [h.2]; exact hb, h.2⟩

theorem initWeights_safe {o : ℕ} {per : Fin D → Bool} {dims : Fin D → ℕ} {fm : Mesh D V}
    (hpos : ∀ d, 0 < dims d) (hd : ∀ d, fm.dims d = dims d + if per d && !c.noDummy then 1 else 0) (hf : fm.WF) :
    Spec (initWeights c o per dims fm) (MeshOk dims) E := by
  have hfpos : ∀ d, 0 < fm.dims d := fun d => by rw [hd]; have := hpos d; omega
  unfold initWeights
  refine Spec.loopC ⟨Mesh.mk'_wf _, rfl⟩ fun pos w _ hp hw => ?_
  unfold Mesh.iterIndices
  rw [dimwiseIndices_ok hfpos, ok_bind]
  have har : InRange fm.dims (decode fm.dims pos) := decode_inRange hfpos
  rw [Template.weightIndex_ok c hpos (fun d => by rw [← hd]; exact har d), ok_bind]
  refine Spec.ite (fun _ => ?_) fun _ => Spec.pure hw
  refine Spec.bind (Safe_rd hp) fun v _ => (Safe_set hw.1 ?_ v).imp fun w' hw' => ⟨hw'.1, hw'.2.trans hw.2⟩
  rw [hw.2]
  exact Template.shiftIx_inRange hpos

open Template in
theorem solveLine_safe (hE : DivE K V E) {s : Solver K} {dims : Fin (D + 1) → ℕ} {st : Mesh (D + 1) V × Mesh (D + 1) V} (hpos : ∀ d, 0 < dims d)
    (hs : SolverOk (dims (Fin.last D)) s) (h1 : MeshOk dims st.1) (h2 : if D = 0 then st.2.dims 0 ≠ 0 else MeshOk (rightShift dims) st.2) (j : ℕ) :
    Spec (solveLine c s j st) (fun st' => MeshOk dims st'.1 ∧ if D = 0 then st'.2.dims 0 ≠ 0 else MeshOk (rightShift dims) st'.2) E := by
  unfold solveLine
  simp only [h1.2]
  rw [dimwiseIndices_ok hpos, ok_bind]
  set a := decode dims (j * dims (Fin.last D)) with ha
  have har : InRange dims a := decode_inRange hpos
  have hup : ∀ {dims a : Fin (D + 1) → ℕ} (d : Fin (D + 1)), (∀ d, 0 < dims d) → InRange dims a → InRange dims (Function.update a d 0) := by
    intro dims a d hp ha e
    by_cases hed : e = d
    · subst hed; rw [Function.update_self]; exact hp e
    · rw [Function.update_of_ne hed]; exact ha e
  have hr1 := hup (Fin.last D) hpos har
  rw [Mesh.lineBegin_ok c st.1 (Fin.last D) (by rw [h1.2]; exact hr1), ok_bind, h1.2]
  have hl1 : LineIn (∏ e, dims e) (indexing dims (Function.update a (Fin.last D) 0)) (stride dims (Fin.last D)) (dims (Fin.last D)) st.1.storage := by
    refine ⟨?_, fun i hi => indexing_line_lt hr1 hi⟩
    have := h1.1
    unfold Mesh.WF at this
    rw [this, h1.2]
  by_cases hD : D = 0
  · rw [if_pos hD] at h2
    have hr2 : InRange st.2.dims (Function.update (rightShift a) 0 0) := by
      intro d
      have hd0 : d = 0 := Fin.ext (by have := d.isLt; simp; omega)
      subst hd0
      rw [Function.update_self]
      exact Nat.pos_of_ne_zero h2
    rw [Mesh.lineBegin_ok c st.2 0 hr2, ok_bind]
    refine Spec.bind (solve_safe hE hs hl1) fun buf hb => ?_
    rw [if_pos hD]
    exact Spec.pure ⟨⟨hb.1, rfl⟩, by rw [if_pos hD]; exact h2⟩
  · rw [if_neg hD] at h2
    have hrp : ∀ d, 0 < rightShift dims d := fun d => hpos _
    have hr2 := hup (0 : Fin (D + 1)) hrp (rightShift_inRange.2 har)
    rw [Mesh.lineBegin_ok c st.2 0 (by rw [h2.2]; exact hr2), ok_bind, h2.2]
    refine Spec.bind (solve_safe hE hs hl1) fun buf hb => ?_
    rw [if_neg hD]
    have hlen : rightShift dims 0 = dims (Fin.last D) := by
      show dims (rotIx 0) = _
      rw [rotIx_zero]
    refine Spec.bind (Q := fun nb : List V => nb.length = ∏ e, rightShift dims e) ?_ fun nb hnb =>
      Spec.pure ⟨⟨hb.1, rfl⟩, by rw [if_neg hD]; exact ⟨hnb, rfl⟩⟩
    unfold copyLine
    refine Spec.loopC ?_ fun k nb _ hk hnb => ?_
    · have := h2.1
      unfold Mesh.WF at this
      rw [this, h2.2]
    · have e1 := hb.2 k hk
      rw [← hb.1] at e1
      have e2 := indexing_line_lt hr2 (i := k) (by rw [hlen]; exact hk)
      rw [← hnb] at e2
      exact Spec.bind (Safe_rd e1) fun v _ => (Safe_wr e2).imp fun l hl => hl.trans hnb

open Template in
theorem solveDim_safe (hE : DivE K V E) {s : Solver K} {dims : Fin (D + 1) → ℕ} {st : Mesh (D + 1) V × Mesh (D + 1) V} (hpos : ∀ d, 0 < dims d)
    (hs : SolverOk (dims (Fin.last D)) s) (h1 : MeshOk dims st.1) (h2 : D = 0 → st.2.dims 0 ≠ 0) :
    Spec (solveDim c s st) (fun st' => MeshOk dims st'.1 ∧ if D = 0 then st'.2.dims 0 ≠ 0 else MeshOk (rightShift dims) st'.2) E := by
  unfold solveDim
  dsimp only
  rw [h1.2, divN_ok (hpos _).ne', ok_bind]
  refine Spec.loopC ⟨h1, ?_⟩ fun j st _ _ hst => solveLine_safe hE hpos hs hst.1 hst.2 j
  by_cases hD : D = 0
  · rw [if_pos hD]; simp only [if_pos hD]; exact h2 hD
  · rw [if_neg hD]
    simp only [if_neg hD]
    refine ⟨?_, rfl⟩
    simp [Mesh.WF, Mesh.resize, dimsSize_eq]
    omega

open Template in
theorem solveDims_safe (hE : DivE K V E) {solvers : Fin (D + 1) → Solver K} {dims : Fin (D + 1) → ℕ} {st : Mesh (D + 1) V × Mesh (D + 1) V}
    (hpos : ∀ d, 0 < dims d) (hs : ∀ d, SolverOk (dims d) (solvers d)) (h1 : MeshOk dims st.1) (h2 : D = 0 → st.2.dims 0 ≠ 0) :
    Spec (solveDims c solvers st) (fun st' => MeshOk dims (if (D + 1) % 2 = 0 ∨ D = 0 then st'.1 else st'.2)) E := by
  unfold solveDims
  refine Spec.imp (Spec.foldFin (P := fun k st' => MeshOk (rightShift^[k] dims) (if k % 2 = 0 ∨ D = 0 then st'.1 else st'.2) ∧
    (D = 0 → st'.2.dims 0 ≠ 0)) ⟨by simpa using h1, h2⟩ ?_) fun st' h => ?_
  · rintro d st' ⟨h1, h2⟩
    have hd : d.val ≤ D := by have := d.isLt; omega
    have hlast : (rightShift^[d.val] dims) (Fin.last D) = dims d.rev := by
      rw [rightShift_iter, Function.comp_apply, rotIx_iter_last d.val hd]
    have hs' : SolverOk ((rightShift^[d.val] dims) (Fin.last D)) (solvers d.rev) := by rw [hlast]; exact hs d.rev
    have hstep : rightShift^[d.val + 1] dims = rightShift (rightShift^[d.val] dims) := by
      rw [Function.iterate_succ', Function.comp_apply]
    refine Spec.ite (fun hpar => ?_) fun hpar => ?_
    · rw [if_pos (Or.inl hpar)] at h1
      refine (solveDim_safe hE (rightShift_pos hpos _) hs' h1 h2).imp fun st'' h => ?_
      by_cases hD : D = 0
      · rw [if_pos hD] at h
        rw [if_pos (Or.inr hD)]
        refine ⟨?_, fun _ => h.2⟩
        have hid : rightShift (rightShift^[d.val] dims) = rightShift^[d.val] dims := by
          subst hD
          have := rightShift_iter_full (D := 0) (rightShift^[d.val] dims)
          simpa using this
        rw [hstep, hid]
        exact h.1
      · rw [if_neg hD] at h
        rw [if_neg (by omega), hstep]
        exact ⟨h.2, fun h => absurd h hD⟩
    · have hD : D ≠ 0 := by rintro rfl; have := d.isLt; omega
      rw [if_neg (by omega)] at h1
      refine Spec.bind (solveDim_safe hE (rightShift_pos hpos _) hs' h1 fun h => absurd h hD) fun r hr => Spec.pure ?_
      rw [if_neg hD] at hr
      rw [if_pos (Or.inl (by omega)), hstep]
      exact ⟨hr.2, fun h => absurd h hD⟩
  · have := h.1
    rwa [rightShift_iter_full] at this

open Template in
theorem solveForControlPoints_safe (hE : DivE K V E) {t : Template (D + 1) K V} {fm : Mesh (D + 1) V} (hpos : ∀ d, 0 < t.dims d)
    (hs : ∀ d, SolverOk (t.dims d) (t.solvers d)) (hd : ∀ d, fm.dims d = t.dims d + if t.base.periodicity d && !c.noDummy then 1 else 0) (hf : fm.WF) :
    Spec (solveForControlPoints c t fm) (MeshOk t.dims) E := by
  unfold solveForControlPoints
  refine Spec.bind (initWeights_safe hpos hd hf) fun w hw => ?_
  dsimp only
  refine Spec.bind (solveDims_safe hE hpos hs hw fun hD => ?_) fun st hst => ?_
  · simp only [if_pos hD]; simp [Mesh.mk']
  · refine Spec.ite (fun h => ?_) fun h => ?_
    · rw [if_pos h] at hst; exact Spec.pure hst
    · rw [if_neg h] at hst; exact Spec.pure hst

theorem construct_safe (hE : DivE K V E) (hA : c.assertions = true → E .assertFail) {o : ℕ} {per : Fin (D + 1) → Bool} {fm : Mesh (D + 1) V}
    {x : Fin (D + 1) → XRange K} (hs : ShapeAxes c o per fm.dims x) (hg : GoodAxes w c o per fm.dims x) (hf : fm.WF) :
    Spec (construct w c o per fm x) (fun f => Shaped f.spline ∧ f.spline.order = o ∧ f.spline.periodicity = per ∧
      ∀ d, f.uniform d = (x d).isUniform) E := by
  unfold construct
  refine Spec.bind (constructT_safe hE hA hs hg) fun t ht => ?_
  have hu := fun d => unk_bounds (o := o) (c := c) (per := per) (dims := fm.dims) (x := x) (hs d)
  have hper : t.base.periodicity = per := ht.base.peri
  refine Spec.bind (solveForControlPoints_safe hE (fun d => by rw [ht.dims_eq]; exact (hu d).1) (fun d => by rw [ht.dims_eq]; exact ht.solvers d)
    (fun d => ?_) hf) fun w hw => Spec.pure ⟨⟨fun d => ?_, hw.1, fun d => ?_, fun d hp => ?_⟩, ht.base.order, ht.base.peri, fun d => (ht.base.ax d).uni⟩
  · rw [ht.dims_eq, hper]
    have h1 := (hs d).periodic
    unfold pointNum at h1
    unfold unk pointNum
    cases hp : per d <;> cases hn : c.noDummy <;> simp [hp, hn] at h1 ⊢
    omega
  · show 2 * t.base.spline.order + 2 ≤ (t.base.spline.knots d).length
    rw [ht.base.order, (ht.base.ax d).len]
    exact knotLen_ge (hs d)
  · show 0 < w.dims d
    rw [hw.2, ht.dims_eq]; exact (hu d).1
  · show (t.base.spline.knots d).length ≤ w.dims d + t.base.spline.order + 1
    have hp' : per d = false := by rw [← ht.base.peri]; exact hp
    rw [ht.base.order, (ht.base.ax d).len, hw.2, ht.dims_eq]
    unfold unk knotLen
    simp [hp']
    omega

end

end Intp.Fl
