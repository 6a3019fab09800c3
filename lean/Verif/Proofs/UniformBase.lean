import Verif.Proofs.FlAssemble

/-!
# Knots, step and range of a uniform dimension, over arbitrary arithmetic
-/

namespace Intp.Fl

open CoordArith ScaleArith

variable {K V : Type} [CoordArith K] [ValArith V] [ScaleArith K V] {D : ℕ}

/-- What `create_knot_vector_` stores for a dimension given by its range. -/
structure UniAx (o n : ℕ) (per : Bool) (a b : K) (f : InterpFn D K V) (d : Fin D) : Prop where
  step : uniformStep n a b = .ok (f.dx d)
  knots : uniformKnots o n per a b (f.dx d) = .ok (f.spline.knots d)
  lo : rd (f.spline.knots d) o = .ok (f.range d).1
  hi : rd (f.spline.knots d) ((f.spline.knots d).length - o - (2 - o % 2)) = .ok (f.range d).2

theorem createKnotVector_uniform {c : Cfg} {dims : Fin D → ℕ} {x : Fin D → XRange K} {st : InterpFn D K V × (Fin D → List K)} {d : Fin D} :
    Spec (createKnotVector c dims x st d) (fun r => r.1.spline.order = st.1.spline.order ∧ r.1.spline.periodicity = st.1.spline.periodicity ∧
      (∀ a b, x d = .uniform a b → UniAx st.1.spline.order (pointNum c (st.1.periodicity d) (dims d)) (st.1.periodicity d) a b r.1 d) ∧
      ∀ e, e ≠ d → r.1.spline.knots e = st.1.spline.knots e ∧ r.1.dx e = st.1.dx e ∧ r.1.range e = st.1.range e) (fun _ => True) := by
  have load : ∀ (b : BSpline D K V) (t : List K), Spec (b.loadKnots d t) (fun b' => b'.order = b.order ∧ b'.periodicity = b.periodicity ∧
      b'.knots = Function.update b.knots d t ∧ rd t b.order = .ok (b'.range d).1 ∧
      rd t (t.length - b.order - (2 - b.order % 2)) = .ok (b'.range d).2 ∧ ∀ e, e ≠ d → b'.range e = b.range e) (fun _ => True) := by
    intro b t
    unfold BSpline.loadKnots
    cases h1 : rd t b.order with
    | error e => trivial
    | ok lo =>
      rw [ok_bind]
      cases hi1 : subM t.length b.order with
      | error e => trivial
      | ok i =>
        rw [ok_bind]
        cases hj1 : subM i (2 - b.order % 2) with
        | error e => trivial
        | ok j =>
          rw [ok_bind]
          cases h2 : rd t j with
          | error e => trivial
          | ok hi =>
            rw [ok_bind]
            have ei : i = t.length - b.order := by
              unfold subM at hi1
              split at hi1
              · exact (Except.ok.inj hi1).symm
              · cases hi1
            have ej : j = i - (2 - b.order % 2) := by
              unfold subM at hj1
              split at hj1
              · exact (Except.ok.inj hj1).symm
              · cases hj1
            refine Spec.pure ⟨rfl, rfl, rfl, ?_, ?_, fun e he => ?_⟩
            · simp only [Function.update_self]
            · simp only [Function.update_self]
              rw [← ei, ← ej]; exact h2
            · simp only [Function.update_of_ne he]
  unfold createKnotVector
  cases hx : x d with
  | uniform a b =>
    dsimp only
    cases h1 : uniformStep (pointNum c (st.1.periodicity d) (dims d)) a b with
    | error e => trivial
    | ok dx =>
      rw [ok_bind]
      cases h2 : uniformKnots st.1.spline.order (pointNum c (st.1.periodicity d) (dims d)) (st.1.periodicity d) a b dx with
      | error e => trivial
      | ok t =>
        rw [ok_bind]
        refine Spec.bind (load _ _) fun s hs => Spec.pure ⟨hs.1, hs.2.1, ?_, fun e he => ⟨?_, ?_, ?_⟩⟩
        · rintro a' b' e
          cases e
          have e1 : (Function.update st.1.dx d dx) d = dx := Function.update_self ..
          have e2 : s.knots d = t := by rw [hs.2.2.1, Function.update_self]
          refine ⟨?_, ?_, ?_, ?_⟩
          · simp only [e1, h1]
          · simp only [e1, e2, h2]
          · simp only [e2]; exact hs.2.2.2.1
          · simp only [e2]; exact hs.2.2.2.2.1
        · simp only [hs.2.2.1, Function.update_of_ne he]
        · simp only [Function.update_of_ne he]
        · exact hs.2.2.2.2.2 e he
  | coords l =>
    dsimp only
    cases coordKnots c st.1.spline.order (dims d) (st.1.periodicity d) l with
    | error e => trivial
    | ok r =>
      rw [ok_bind]
      refine Spec.bind (load _ _) fun s hs => Spec.pure ⟨hs.1, hs.2.1, fun a b e => (nomatch e), fun e he => ⟨?_, rfl, ?_⟩⟩
      · simp only [hs.2.2.1, Function.update_of_ne he]
      · exact hs.2.2.2.2.2 e he

theorem partialConstruct_uniform {c : Cfg} {o : ℕ} {per : Fin D → Bool} {dims : Fin D → ℕ} {x : Fin D → XRange K} :
    Spec (partialConstruct (V := V) c o per dims x) (fun r => ∀ d a b, x d = .uniform a b →
      UniAx o (pointNum c (per d) (dims d)) (per d) a b r.1 d) (fun _ => True) := by
  unfold partialConstruct
  refine Spec.imp (Spec.foldFin (P := fun k r => r.1.spline.order = o ∧ r.1.spline.periodicity = per ∧
    ∀ d : Fin D, d.val < k → ∀ a b, x d = .uniform a b → UniAx o (pointNum c (per d) (dims d)) (per d) a b r.1 d) ?_ ?_) ?_
  · exact ⟨rfl, rfl, fun d h => absurd h (by omega)⟩
  · rintro d r ⟨h1, h2, h3⟩
    refine Spec.imp createKnotVector_uniform ?_
    rintro r' ⟨g1, g2, g3, g4⟩
    refine ⟨g1.trans h1, g2.trans h2, fun e he a b hx => ?_⟩
    by_cases hed : e = d
    · subst hed
      have := g3 a b hx
      rw [h1, show r.1.periodicity e = per e from congrFun h2 e] at this
      exact this
    · have h3e := h3 e (by have : e.val ≠ d.val := fun h => hed (Fin.ext h); omega) a b hx
      obtain ⟨a1, a2, a3⟩ := g4 e hed
      exact ⟨by rw [a2]; exact h3e.step, by rw [a1, a2]; exact h3e.knots, by
        rw [a1, show r'.1.range e = r.1.range e from a3]; exact h3e.lo, by
        rw [a1, show r'.1.range e = r.1.range e from a3]; exact h3e.hi⟩
  · rintro r ⟨h1, h2, h3⟩ d
    exact h3 d d.isLt

theorem constructT_uniform {w : Bool} {c : Cfg} {o : ℕ} {per : Fin D → Bool} {dims : Fin D → ℕ} {x : Fin D → XRange K} {t : Template D K V}
    (h : constructT (V := V) w c o per dims x = .ok t) {d : Fin D} {a b : K} (hx : x d = .uniform a b) :
    UniAx o (pointNum c (per d) (dims d)) (per d) a b t.base d := by
  have : Spec (constructT (V := V) w c o per dims x) (fun t => ∀ d a b, x d = .uniform a b →
      UniAx o (pointNum c (per d) (dims d)) (per d) a b t.base d) (fun _ => True) := by
    unfold constructT
    refine Spec.bind partialConstruct_uniform fun r hr => ?_
    cases adjustDims c per dims with
    | error e => trivial
    | ok dims' =>
      rw [ok_bind]
      cases tabM fun d => precalc r.1 d with
      | error e => trivial
      | ok vals =>
        rw [ok_bind]
        cases tabM (fun d => do
            let m ← assemble w c r.1 (r.2 d) d (dims' d) (vals d)
            ofMat c m) with
        | error e => trivial
        | ok s => exact Spec.ok hr
  rw [h] at this
  exact this d a b hx

/-- The knots of a non-periodic uniform dimension. -/
theorem uniformKnotsAperiodic_get {o n : ℕ} (hn : o + 1 ≤ n) (a b dx : K) :
    Ok (uniformKnots o n false a b dx) fun t => t.length = n + o + 1 ∧
      ∀ u, u ≤ n + o → t[u]? = some (if u ≤ o then a else if u < n then uniformKnot a dx (o + 1) u else b) := by
  unfold uniformKnots
  rw [if_neg (by simp)]
  unfold uniformKnotsAperiodic
  dsimp only
  rw [subM_ok (by omega), ok_bind, show n + (o + 1) - (o + 1) = n by omega]
  refine Spec.bind (Spec.loopN (P := fun i (xs : List K) => xs.length = n + o + 1 ∧
    ∀ u, u ≤ n + o → xs[u]? = some (if u ≤ o then a else if u < i then uniformKnot a dx (o + 1) u else a)) hn ⟨by simp; omega, fun u hu => ?_⟩
    fun i xs h1 h2 ⟨q1, q2⟩ => ?_) fun xs hxs => ?_
  · rw [List.getElem?_replicate, if_pos (by omega)]
    split
    · rfl
    · rw [if_neg (by omega)]
  · rw [wr_ok (by omega)]
    refine Spec.ok ⟨List.length_set.trans q1, fun u hu => ?_⟩
    rw [List.getElem?_set]
    by_cases e : i = u
    · subst e
      rw [if_pos rfl, if_pos (by omega), if_neg (by omega), if_pos (by omega)]
    · rw [if_neg e, q2 u hu]
      by_cases h3 : u < i
      · rw [if_pos h3, if_pos (show u < i + 1 by omega)]
      · rw [if_neg h3, if_neg (show ¬ u < i + 1 by omega)]
  refine Spec.imp (Spec.loopN (P := fun i (ys : List K) => ys.length = n + o + 1 ∧
    ∀ u, u ≤ n + o → ys[u]? = some (if u ≤ o then a else if u < n then uniformKnot a dx (o + 1) u else if u < i then b else a)) (by omega)
    ⟨hxs.1, fun u hu => ?_⟩ fun i ys h1 h2 ⟨q1, q2⟩ => ?_) fun ys hys => ⟨hys.1, fun u hu => ?_⟩
  · rw [hxs.2 u hu]
    by_cases h1 : u < n
    · rw [if_pos h1, if_pos h1]
    · rw [if_neg h1, if_neg h1, if_neg h1]
  · rw [wr_ok (by omega)]
    refine Spec.ok ⟨List.length_set.trans q1, fun u hu => ?_⟩
    rw [List.getElem?_set]
    by_cases e : i = u
    · subst e
      rw [if_pos rfl, if_pos (by omega), if_neg (by omega), if_neg (by omega), if_pos (by omega)]
    · rw [if_neg e, q2 u hu]
      by_cases h3 : u < i
      · rw [if_pos h3, if_pos (show u < i + 1 by omega)]
      · rw [if_neg h3, if_neg (show ¬ u < i + 1 by omega)]
  · rw [hys.2 u hu, if_pos (show u < n + (o + 1) by omega)]

/-- The knots of a periodic uniform dimension. -/
theorem uniformKnotsPeriodic_get (o n : ℕ) (a b dx : K) :
    Ok (uniformKnots o n true a b dx) fun t => t.length = n + (2 * o + (1 - o % 2)) ∧
      ∀ u, u < n + (2 * o + (1 - o % 2)) → t[u]? = some (uniformKnot a dx (2 * o + (1 - o % 2)) u) := by
  unfold uniformKnots
  rw [if_pos rfl]
  unfold uniformKnotsPeriodic
  dsimp only
  generalize 2 * o + (1 - o % 2) = k
  refine Spec.imp (Spec.loopN (P := fun i (xs : List K) => xs.length = n + k ∧
    ∀ u, u < i → xs[u]? = some (uniformKnot a dx k u)) (Nat.zero_le _) ⟨by simp, fun u hu => absurd hu (by omega)⟩
    fun i xs h1 h2 ⟨q1, q2⟩ => ?_) fun xs hxs => hxs
  rw [wr_ok (by omega)]
  refine Spec.ok ⟨List.length_set.trans q1, fun u hu => ?_⟩
  rw [List.getElem?_set]
  by_cases e : i = u
  · subst e
    rw [if_pos rfl, if_pos (by omega)]
  · rw [if_neg e, q2 u (by omega)]

end Intp.Fl
