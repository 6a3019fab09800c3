import Verif.Proofs.Control
import Verif.Spec.Interp

/-!
# Construction of an interpolation: knots, solvers
-/

namespace Intp

open Finset

variable {K V : Type} [Field K] [LinearOrder K] [IsStrictOrderedRing K] [FloorRing K] [AddCommGroup V] [Module K V] {D : ℕ}

/-- Closed form of the knot vector of a dimension with `n` unknowns. -/
def XRange.knots (o n : ℕ) (per : Bool) : XRange K → List K
  | .uniform a b => if per then arr (n + 1 + (2 * o + (1 - o % 2))) (uniformKnot a ((b - a) / (n : K)) (2 * o + (1 - o % 2)))
      else arr (n + (o + 1)) (uaKnot o n a b ((b - a) / ((n : K) - 1)))
  | .coords l => if per then arr (n + 1 + 2 * o + (1 - o % 2)) (cpKnot o n (knotFn l)) else arr (n + o + 1) (caKnot o n (knotFn l))

/-- Number of unknowns of a dimension with `N` data points. -/
def unk (per : Bool) (N : ℕ) : ℕ := N - if per then 1 else 0

/-- Spacing stored for a uniform dimension. -/
def XRange.step (N : ℕ) : XRange K → K
  | .uniform a b => (b - a) / ((N : K) - 1)
  | .coords _ => 0

def XRange.isUniform : XRange K → Bool
  | .uniform _ _ => true
  | .coords _ => false

theorem XRange.Valid.two {o N : ℕ} {per : Bool} {x : XRange K} (h : x.Valid o N per) : 2 ≤ N := by
  cases per
  · exact (h.aperiodic rfl).2
  · have := h.periodic rfl; omega

theorem XRange.Valid.unk_pos {o N : ℕ} {per : Bool} {x : XRange K} (h : x.Valid o N per) : 0 < unk per N := by
  have := h.two
  unfold unk; split <;> omega

theorem XRange.Valid.step_pos {o N : ℕ} {per : Bool} {a b : K} (h : (XRange.uniform a b).Valid o N per) : 0 < (b - a) / ((N : K) - 1) := by
  have h2 : (2 : K) ≤ (N : K) := by exact_mod_cast h.two
  exact div_pos (sub_pos.2 (h.uniform a b rfl)) (by linarith)

theorem XRange.Valid.strict {o N : ℕ} {per : Bool} {l : List K} (h : (XRange.coords l).Valid o N per) {i j : ℕ} (hij : i < j) (hj : j < N) :
    knotFn l i < knotFn l j :=
  strict_of_succ (f := knotFn l) (lo := 0) (hi := N - 1) (fun i _ hi => (h.coords l rfl).2.1 i (by omega)) (Nat.zero_le _) hij (by omega)

theorem XRange.Valid.pAxis {o N : ℕ} {x : XRange K} (h : x.Valid o N true) : PAxis o (unk true N) (x.knots o (unk true N) true) (x.node N) := by
  have h2 := h.periodic rfl
  have hN : unk true N = N - 1 := rfl
  cases x with
  | uniform a b =>
    have e : ((unk true N : ℕ) : K) = (N : K) - 1 := by rw [hN, Nat.cast_sub (by omega)]; simp
    have := pAxis_uniform (o := o) (a := a) h.step_pos (n' := unk true N) (by omega)
    have hk : (XRange.uniform a b).knots o (unk true N) true = arr (unk true N + 1 + (2 * o + (1 - o % 2)))
        (uniformKnot a ((b - a) / ((N : K) - 1)) (2 * o + (1 - o % 2))) := by rw [← e]; rfl
    rw [hk]
    exact this
  | coords l => exact pAxis_coords (o := o) (X := knotFn l) (fun i hi => h.strict (by omega) (by omega)) (by omega)

theorem XRange.Valid.aAxis {o N : ℕ} {x : XRange K} (h : x.Valid o N false) : AAxis o (unk false N) (x.knots o (unk false N) false) (x.node N) := by
  have h2 := h.aperiodic rfl
  have hN : unk false N = N := rfl
  rw [hN]
  cases x with
  | uniform a b =>
    have hN2 : (2 : K) ≤ (N : K) := by exact_mod_cast h.two
    refine aAxis_uniform (b := b) h.step_pos ?_ h2.1 h2.2
    unfold uNode
    rw [Nat.cast_sub (by omega), Nat.cast_one, mul_div_cancel₀]
    · ring
    · linarith
  | coords l => exact aAxis_coords (X := knotFn l) (fun i j h1 h2 => h.strict h1 h2) ((h.coords l rfl).2.2 rfl) h2.1

/-- Knots, range and related data of dimension `d` after construction. -/
structure BuiltDim (o : ℕ) (per : Bool) (N : ℕ) (x : XRange K) (f : InterpFn D K V) (ic : Fin D → List K) (d : Fin D) : Prop where
  knots : f.spline.knots d = x.knots o (unk per N) per
  range : f.spline.range d = (knotFn (x.knots o (unk per N) per) o,
    knotFn (x.knots o (unk per N) per) ((x.knots o (unk per N) per).length - o - (2 - o % 2)))
  uni : f.uniform d = x.isUniform
  dx : ∀ a b, x = .uniform a b → f.dx d = (b - a) / ((N : K) - 1)
  ic : ∀ l, x = .coords l → ic d = l

/-- Knots, ranges and related data of all dimensions. -/
structure Built (c : Cfg) (o : ℕ) (per : Fin D → Bool) (dims : Fin D → ℕ) (x : Fin D → XRange K) (f : InterpFn D K V) (ic : Fin D → List K) : Prop where
  order : f.spline.order = o
  pers : f.spline.periodicity = per
  dim : ∀ d, BuiltDim o (per d) (pointNum c (per d) (dims d)) (x d) f ic d

theorem loadKnots_ok {b : BSpline D K V} {d : Fin D} {t : List K} (h : b.order + 2 ≤ t.length) :
    b.loadKnots d t = .ok { b with
      knots := Function.update b.knots d t
      range := Function.update b.range d (knotFn t b.order, knotFn t (t.length - b.order - (2 - b.order % 2))) } := by
  unfold BSpline.loadKnots
  rw [rd_knotFn (by omega), ok_bind, subM_ok (by omega), ok_bind, subM_ok (by omega), ok_bind, rd_knotFn (by omega), ok_bind, pure_eq_ok]

theorem XRange.Valid.knots_length {o N : ℕ} {per : Bool} {x : XRange K} (h : x.Valid o N per) :
    (x.knots o (unk per N) per).length = if per then unk per N + 2 * o + (2 - o % 2) else unk per N + o + 1 := by
  cases per
  · exact h.aAxis.len
  · exact h.pAxis.len

theorem createKnotVector_ok (c : Cfg) {o : ℕ} {per : Fin D → Bool} {dims : Fin D → ℕ} {x : Fin D → XRange K} {st : InterpFn D K V × (Fin D → List K)}
    {d : Fin D} (ho : st.1.spline.order = o) (hp : st.1.spline.periodicity = per) (hv : (x d).Valid o (pointNum c (per d) (dims d)) (per d)) :
    Ok (InterpFn.createKnotVector c dims x st d) fun r => r.1.spline.order = o ∧ r.1.spline.periodicity = per ∧
      BuiltDim o (per d) (pointNum c (per d) (dims d)) (x d) r.1 r.2 d ∧
      ∀ e, e ≠ d → r.1.spline.knots e = st.1.spline.knots e ∧ r.1.spline.range e = st.1.spline.range e ∧ r.1.uniform e = st.1.uniform e ∧
        r.1.dx e = st.1.dx e ∧ r.2 e = st.2 e := by
  set N := pointNum c (per d) (dims d) with hN
  have hp' : st.1.periodicity d = per d := congrFun hp d
  have h2 := hv.two
  have hlen := hv.knots_length
  have hl : o + 2 ≤ ((x d).knots o (unk (per d) N) (per d)).length := by
    rw [hlen]
    have := hv.unk_pos
    have := hv.periodic
    unfold unk at *
    split
    · omega
    · omega
  unfold InterpFn.createKnotVector
  cases hx : x d with
  | uniform a b =>
    rw [hx] at hl hv hlen
    simp only
    rw [hp', ho, ← hN]
    have hcast : ((N - 1 : ℕ) : K) = (N : K) - 1 := by rw [Nat.cast_sub (by omega)]; simp
    have hN2 : (2 : K) ≤ (N : K) := by exact_mod_cast h2
    have hs : uniformStep N a b = .ok ((b - a) / ((N : K) - 1)) := by
      unfold uniformStep
      rw [subM_ok (by omega), ok_bind, hcast, divM_ok (by linarith)]
    have hk : uniformKnots o N (per d) a b ((b - a) / ((N : K) - 1)) = .ok ((XRange.uniform a b).knots o (unk (per d) N) (per d)) := by
      unfold uniformKnots XRange.knots
      by_cases hpd : per d = true
      · have hunk : unk (per d) N = N - 1 := by unfold unk; rw [if_pos hpd]
        rw [if_pos hpd]
        simp only [if_pos hpd]
        rw [uniformKnotsPeriodic_ok, hunk, hcast, show N - 1 + 1 = N by omega]
      · have hunk : unk (per d) N = N := by unfold unk; rw [if_neg hpd]; rfl
        rw [if_neg hpd]
        simp only [if_neg hpd]
        rw [uniformKnotsAperiodic_ok _ _ _ _ _ (hv.aperiodic (by simpa using hpd)).1, hunk]
    rw [hs, ok_bind, hk, ok_bind, loadKnots_ok (by rw [ho]; exact hl), ok_bind]
    refine Spec.pure ⟨ho, hp, ⟨?_, ?_, ?_, ?_, ?_⟩, fun e he => ?_⟩
    · simp
    · simp [ho]
    · simp [XRange.isUniform]
    · rintro a' b' h
      injection h with h1 h2
      subst h1 h2
      simp
    · intro l h; simp at h
    · simp [Function.update_of_ne he]
  | coords l =>
    rw [hx] at hl hv hlen
    simp only
    rw [hp', ho]
    obtain ⟨hll, hinc, ho1⟩ := hv.coords l rfl
    have hk : coordKnots c o (dims d) (per d) l = .ok ((XRange.coords l).knots o (unk (per d) N) (per d), l) := by
      have hr : coordKnotsRaw o (per d) l = .ok ((XRange.coords l).knots o (unk (per d) N) (per d), l) := by
        unfold XRange.knots coordKnotsRaw
        by_cases hpd : per d = true
        · have hunk : unk (per d) N = N - 1 := by unfold unk; rw [if_pos hpd]
          rw [if_pos hpd]
          simp only [if_pos hpd]
          rw [hunk, coordKnotsPeriodic_ok o (N - 1) l (by omega) (by omega)]
        · have hunk : unk (per d) N = N := by unfold unk; rw [if_neg hpd]; rfl
          rw [if_neg hpd]
          simp only [if_neg hpd]
          have hpd' : per d = false := by simpa using hpd
          rw [hunk, coordKnotsAperiodic_ok o l (ho1 hpd') (by rw [hll]; exact (hv.aperiodic hpd').1), hll]
      unfold coordKnots
      rw [assertM_ok (by simpa using hll), ok_bind, hr, ok_bind, checkMonotonic_ok c l (by omega) (fun i hi => hinc i (by omega)), ok_bind, pure_eq_ok]
    rw [hk, ok_bind, loadKnots_ok (by rw [ho]; exact hl), ok_bind]
    refine Spec.pure ⟨ho, hp, ⟨?_, ?_, ?_, ?_, ?_⟩, fun e he => ?_⟩
    · simp
    · simp [ho]
    · simp [XRange.isUniform]
    · rintro a' b' h; simp at h
    · rintro l' h
      injection h with h1
      subst h1
      simp
    · simp [Function.update_of_ne he]

theorem partialConstruct_ok (c : Cfg) {o : ℕ} {per : Fin D → Bool} {dims : Fin D → ℕ} {x : Fin D → XRange K} (hv : ValidAxes c o per dims x) :
    Ok (InterpFn.partialConstruct (V := V) c o per dims x) fun r => Built c o per dims x r.1 r.2 := by
  unfold InterpFn.partialConstruct
  refine Spec.imp (Spec.foldFin (P := fun k r => r.1.spline.order = o ∧ r.1.spline.periodicity = per ∧
    ∀ d : Fin D, d.val < k → BuiltDim o (per d) (pointNum c (per d) (dims d)) (x d) r.1 r.2 d) ?_ ?_) ?_
  · exact ⟨rfl, rfl, fun d h => absurd h (by omega)⟩
  · rintro d r ⟨h1, h2, h3⟩
    refine Spec.imp (createKnotVector_ok c h1 h2 (hv d)) ?_
    rintro r' ⟨g1, g2, g3, g4⟩
    refine ⟨g1, g2, fun e he => ?_⟩
    by_cases hed : e = d
    · subst hed; exact g3
    · have h3e := h3 e (by have : e.val ≠ d.val := fun h => hed (Fin.ext h); omega)
      obtain ⟨a1, a2, a3, a4, a5⟩ := g4 e hed
      exact ⟨a1.trans h3e.knots, a2.trans h3e.range, a3.trans h3e.uni, fun a b h => a4.trans (h3e.dx a b h), fun l h => a5.trans (h3e.ic l h)⟩
  · rintro r ⟨h1, h2, h3⟩
    exact ⟨h1, h2, fun d => h3 d d.isLt⟩

theorem adjustDims_ok (c : Cfg) {o : ℕ} {per : Fin D → Bool} {dims : Fin D → ℕ} {x : Fin D → XRange K} (hv : ValidAxes c o per dims x) :
    adjustDims c per dims = .ok fun d => unk (per d) (pointNum c (per d) (dims d)) := by
  unfold adjustDims
  by_cases hn : c.noDummy = true
  · rw [if_pos hn, pure_eq_ok]
    congr 1
    funext d
    unfold unk pointNum
    rw [hn]
    cases per d <;> simp
  · rw [if_neg hn]
    refine tabM_ok fun d => ?_
    have := (hv d).two
    have hn' : c.noDummy = false := by simpa using hn
    unfold pointNum at this
    rw [hn'] at this
    simp only [Bool.false_and, Bool.false_eq_true, if_false, Nat.add_zero] at this
    rw [subM_ok (by split <;> omega)]
    unfold unk pointNum
    rw [hn']
    simp

/-- Segment used for data point `i`. -/
def SegOfNode (o n : ℕ) (t : List K) (X : ℕ → K) (ki : ℕ → ℕ) : Prop :=
  ∀ i, i < n → IsSeg (knotFn t) o (t.length - o - 2) (X i) (ki i)

theorem PAxis.segOfNode {o n : ℕ} {t : List K} {X : ℕ → K} (h : PAxis o n t X) : SegOfNode o n t X fun i => i + o := fun i hi =>
  ⟨Nat.le_add_left o i, show i + o ≤ _ by have := h.len; omega, .inr (h.node i hi).1, .inr (h.node i hi).2⟩

theorem AAxis.segOfNode {o n : ℕ} {t : List K} {X : ℕ → K} (h : AAxis o n t X) : SegOfNode o n t X h.ki := fun i _ => by
  have := h.ki_spec i
  rwa [show n - 1 = t.length - o - 2 by have := h.len; omega] at this

/-- Assembled matrix of a dimension. -/
theorem Built.assemble_ok (c : Cfg) {o : ℕ} {per : Fin D → Bool} {dims : Fin D → ℕ} {x : Fin D → XRange K} {f : InterpFn D K V}
    {ic : Fin D → List K} (h : Built c o per dims x f ic) (hv : ValidAxes c o per dims x) (d : Fin D) :
    ∃ vals m A ki, precalc f d = .ok vals ∧ assemble c f (ic d) d (unk (per d) (pointNum c (per d) (dims d))) vals = .ok m ∧
      CoefMat.Rep (per d) (unk (per d) (pointNum c (per d) (dims d))) (bandWidth o (per d)) m A ∧
      SegOfNode o (unk (per d) (pointNum c (per d) (dims d))) (f.spline.knots d) ((x d).node (pointNum c (per d) (dims d))) ki ∧
      ∀ i < unk (per d) (pointNum c (per d) (dims d)), ∀ J < unk (per d) (pointNum c (per d) (dims d)),
        A ((i + rowShift o (per d)) % unk (per d) (pointNum c (per d) (dims d))) J =
          colRow (knotFn (f.spline.knots d)) o (unk (per d) (pointNum c (per d) (dims d))) (ki i)
            ((x d).node (pointNum c (per d) (dims d)) i) J := by
  have hb := h.dim d
  have hv := hv d
  set N := pointNum c (per d) (dims d) with hN
  have hper : f.periodicity d = per d := congrFun h.pers d
  have h2 := hv.two
  have hDim : DimIs f d o (per d) (x d).isUniform ((x d).knots o (unk (per d) N) (per d)) := ⟨h.order, hper, hb.uni, hb.knots⟩
  rw [hb.knots]
  cases hpd : per d with
  | true =>
    have hunk : unk true N = N - 1 := rfl
    rw [hpd] at hDim hb hv hper
    have ax := hv.pAxis
    cases hx : x d with
    | uniform a b =>
      rw [hx] at hDim hb hv ax
      have e : ((unk true N : ℕ) : K) = (N : K) - 1 := by rw [hunk, Nat.cast_sub (by omega)]; simp
      have hdx := hb.dx a b rfl
      have hk : (XRange.uniform a b).knots o (unk true N) true = arr (unk true N + 1 + (2 * o + (1 - o % 2)))
          (uniformKnot a ((b - a) / ((N : K) - 1)) (2 * o + (1 - o % 2))) := by rw [← e]; rfl
      rw [hk] at hDim ax ⊢
      change PAxis o (unk true N) _ (uNode a ((b - a) / ((N : K) - 1))) at ax
      obtain ⟨m, A, e1, e2, e3⟩ := up_assemble c ax hDim (coords := ic d)
      exact ⟨_, m, A, fun i => i + o, up_precalc ax hDim hdx, e1, e2, ax.segOfNode, e3⟩
    | coords l =>
      rw [hx] at hDim hb hv ax
      have hpre : precalc f d = .ok [] := by
        unfold precalc
        rw [hDim.uni]
        simp [XRange.isUniform]
      obtain ⟨m, A, e1, e2, e3⟩ := cp_assemble c (l := l) (by have := (hv.coords l rfl).1; omega) ax hDim (vals := [])
      rw [hb.ic l rfl]
      exact ⟨[], m, A, fun i => i + o, hpre, e1, e2, ax.segOfNode, e3⟩
  | false =>
    have hunk : unk false N = N := rfl
    rw [hpd] at hDim hb hv hper
    have ax := hv.aAxis
    have hpre : precalc f d = .ok [] := by
      unfold precalc
      rw [hper]
      simp
    cases hx : x d with
    | uniform a b =>
      rw [hx] at hDim hb hv ax
      have hdx := hb.dx a b rfl
      have hr : (f.range d).1 = a := by
        show (f.spline.range d).1 = a
        rw [hb.range]
        have := ax.left o le_rfl
        rw [this]
        simp [XRange.node]
      unfold XRange.knots at hDim ax ⊢
      simp only [Bool.false_eq_true, if_false] at hDim ax ⊢
      rw [hunk] at hDim ax ⊢
      change AAxis o N _ (uNode a ((b - a) / ((N : K) - 1))) at ax
      obtain ⟨m, A, e1, e2, e3⟩ := ua_assemble c hv.step_pos ax hDim hr hdx (coords := ic d) (vals := [])
      exact ⟨[], m, A, ax.ki, hpre, e1, e2, ax.segOfNode, e3⟩
    | coords l =>
      rw [hx] at hDim hb hv ax
      have hc := hv.coords l rfl
      obtain ⟨m, A, e1, e2, e3⟩ := ca_assemble c (l := l) hc.1 (fun i j h1 h2 => hv.strict h1 h2) (hc.2.2 rfl) ax hDim (vals := [])
      rw [hb.ic l rfl]
      exact ⟨[], m, A, ax.ki, hpre, e1, e2, ax.segOfNode, e3⟩


/-! ## solvers -/

theorem KMono.segAt {t : List K} (hm : KMono t) {o : ℕ} (hl : 2 * o + 2 ≤ t.length) {x : K} {s : ℕ}
    (hs : IsSeg (knotFn t) o (t.length - o - 2) x s) : segAt o t x = s := by
  have he : ∃ s, IsSeg (knotFn t) o (t.length - o - 2) x s := ⟨s, hs⟩
  unfold Intp.segAt
  rw [dif_pos he]
  exact IsSeg.unique hm (by omega) he.choose_spec hs

theorem XRange.Valid.kmono {o N : ℕ} {per : Bool} {x : XRange K} (h : x.Valid o N per) : KMono (x.knots o (unk per N) per) := by
  cases per
  · exact h.aAxis.kmono
  · exact h.pAxis.kmono

theorem XRange.Valid.knots_length_le {o N : ℕ} {per : Bool} {x : XRange K} (h : x.Valid o N per) :
    2 * o + 2 ≤ (x.knots o (unk per N) per).length := by
  rw [h.knots_length]
  cases per
  · have := h.aperiodic rfl; simp [unk]; omega
  · have := h.periodic rfl; simp [unk]; omega

/-- Matrix of a dimension: row `(i + shift) % n` belongs to data point `i`. -/
noncomputable def XRange.mat (o N : ℕ) (per : Bool) (x : XRange K) : ℕ → ℕ → K := fun r J =>
  colRow (knotFn (x.knots o (unk per N) per)) o (unk per N)
    (segAt o (x.knots o (unk per N) per) (x.node N (nodeOfRow o per (unk per N) r))) (x.node N (nodeOfRow o per (unk per N) r)) J

theorem nodeOfRow_shift {o n : ℕ} {per : Bool} {i : ℕ} (hi : i < n) : nodeOfRow o per n ((i + rowShift o per) % n) = i := by
  unfold nodeOfRow
  have h : (i + rowShift o per) % n + (n - rowShift o per % n) ≡ i [MOD n] := by
    have h1 : (i + rowShift o per) % n ≡ i + rowShift o per [MOD n] := Nat.mod_modEq _ _
    have h2 : rowShift o per ≡ rowShift o per % n [MOD n] := (Nat.mod_modEq _ _).symm
    refine (h1.add_right _).trans ?_
    have h3 : i + rowShift o per + (n - rowShift o per % n) ≡ i + rowShift o per % n + (n - rowShift o per % n) [MOD n] :=
      (h2.add_left i).add_right _
    refine h3.trans ?_
    have := Nat.mod_lt (rowShift o per) (show 0 < n by omega)
    rw [show i + rowShift o per % n + (n - rowShift o per % n) = i + n by omega]
    exact Nat.add_mod_right i n
  exact (Nat.ModEq.eq_of_lt_of_lt ((Nat.mod_modEq _ _).trans h) (Nat.mod_lt _ (by omega)) hi)

theorem row_nodeOfRow {o n : ℕ} {per : Bool} {r : ℕ} (hr : r < n) :
    nodeOfRow o per n r < n ∧ (nodeOfRow o per n r + rowShift o per) % n = r := by
  unfold nodeOfRow
  refine ⟨Nat.mod_lt _ (by omega), ?_⟩
  have h1 : (r + (n - rowShift o per % n)) % n ≡ r + (n - rowShift o per % n) [MOD n] := Nat.mod_modEq _ _
  have h2 : rowShift o per ≡ rowShift o per % n [MOD n] := (Nat.mod_modEq _ _).symm
  have h3 : (r + (n - rowShift o per % n)) % n + rowShift o per ≡ r [MOD n] := by
    refine (h1.add h2).trans ?_
    have := Nat.mod_lt (rowShift o per) (show 0 < n by omega)
    rw [show r + (n - rowShift o per % n) + rowShift o per % n = r + n by omega]
    exact Nat.add_mod_right r n
  exact (Nat.ModEq.eq_of_lt_of_lt ((Nat.mod_modEq _ _).trans h3) (Nat.mod_lt _ (by omega)) hr)

/-- What is known about a constructed template. -/
structure Template.Good (c : Cfg) (o : ℕ) (per : Fin D → Bool) (dims : Fin D → ℕ) (x : Fin D → XRange K) (t : Template D K V) : Prop where
  dims_eq : t.dims = fun d => unk (per d) (pointNum c (per d) (dims d))
  built : Built c o per dims x t.base t.coords
  solves : ∀ d, (t.solvers d).Solves V c (unk (per d) (pointNum c (per d) (dims d))) ((x d).mat o (pointNum c (per d) (dims d)) (per d))

theorem Template.construct_spec (c : Cfg) {o : ℕ} {per : Fin D → Bool} {dims : Fin D → ℕ} {x : Fin D → XRange K} (hv : ValidAxes c o per dims x) :
    Spec (Template.construct (V := V) c o per dims x) (Template.Good c o per dims x)
      (fun e => ∃ d, PivotErr (unk (per d) (pointNum c (per d) (dims d))) ((x d).mat o (pointNum c (per d) (dims d)) (per d)) e) := by
  unfold Template.construct
  refine Spec.bind (Ok.toSpec (partialConstruct_ok c hv)) ?_
  rintro r hr
  rw [adjustDims_ok c hv, ok_bind]
  choose vals m A ki e1 e2 e3 e4 e5 using hr.assemble_ok c hv
  rw [tabM_ok e1, ok_bind]
  refine Spec.bind (Q := fun s => ∀ d, (s d).Solves V c (unk (per d) (pointNum c (per d) (dims d))) ((x d).mat o (pointNum c (per d) (dims d)) (per d)))
    (tabM_spec (Q := fun d (s : Solver K) => s.Solves V c (unk (per d) (pointNum c (per d) (dims d))) ((x d).mat o (pointNum c (per d) (dims d)) (per d)))
      fun d => ?_) fun s hs => Spec.pure ⟨rfl, hr, hs⟩
  rw [e2 d, ok_bind]
  have hv' := hv d
  have hpos := hv'.unk_pos
  refine Spec.mono (Solver.ofMat_spec V c ((e3 d).congr (B := (x d).mat o (pointNum c (per d) (dims d)) (per d)) ?_) hpos ?_) (fun _ h => h) fun e he => ⟨d, he⟩
  · intro r' J hr' hJ
    obtain ⟨h1, h2⟩ := row_nodeOfRow (o := o) (per := per d) hr'
    have := e5 d _ h1 J hJ
    rw [h2] at this
    rw [this]
    unfold XRange.mat
    have hk := (hr.dim d).knots
    rw [hk]
    rw [KMono.segAt hv'.kmono hv'.knots_length_le]
    have := e4 d _ h1
    rwa [hk] at this
  · intro hp
    rw [hp] at hv' ⊢
    have := hv'.periodic rfl
    simp [bandWidth, unk]
    omega

/-! ## evaluation of a constructed interpolation -/

/-- A finished interpolation with control points `C`. -/
structure InterpFn.Done (c : Cfg) (o : ℕ) (per : Fin D → Bool) (dims : Fin D → ℕ) (x : Fin D → XRange K) (g : InterpFn D K V)
    (C : (Fin D → ℕ) → V) : Prop where
  built : ∃ ic, Built c o per dims x g ic
  ctrl : g.spline.ctrl.Holds (fun d => unk (per d) (pointNum c (per d) (dims d))) C

end Intp
