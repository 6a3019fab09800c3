import Verif.Trace
import Verif.Proofs.Uninit

/-!
# Helper lemmas: the trace of the coefficient matrices
-/

namespace Intp

variable {K V : Type} [Field K] [LinearOrder K] [FloorRing K] [AddCommGroup V] [Module K V] {D : ℕ}

theorem modM_lt {i n : ℕ} (h : i < n) : modM i n = .ok i := by
  unfold modM
  rw [if_neg (by omega), Nat.mod_eq_of_lt h]

theorem rowWriteT_rel (c : Cfg) (order n i ki s : ℕ) (per : Bool) (vals : List K) (m : CoefMat K) (tr : List (TraceLine K))
    (hi : i < n) :
    MRel (fun p m' => p.1 = m' ∧ ∃ w, p.2 = tr ++ w ∧ replay c m w = .ok m')
      (rowWriteT c order n i ki s per vals (m, tr)) (rowWrite c order n i ki s per vals m) := by
  unfold rowWriteT rowWrite
  refine MRel.loop (R := fun _ (p : CoefMat K × List (TraceLine K)) m' => p.1 = m' ∧ ∃ w, p.2 = tr ++ w ∧ replay c m w = .ok m')
    ⟨rfl, [], by simp, rfl⟩ ?_
  rintro j hj ⟨m1, t1⟩ m' ⟨rfl, w, hw, hr⟩
  dsimp only at hw hr ⊢
  cases hrow : modM (i + if per then bandWidth order per else 0) n with
  | error e => exact rfl
  | ok row =>
    simp only [ok_bind]
    cases subM ki order with
    | error e => exact rfl
    | ok k =>
      simp only [ok_bind]
      cases modM (k + j) n with
      | error e => exact rfl
      | ok col =>
        simp only [ok_bind]
        cases rd vals j with
        | error e => exact rfl
        | ok v =>
          simp only [ok_bind]
          cases hset : m1.set c row col v with
          | error e => exact rfl
          | ok m2 =>
            have hfin : MRel (fun (p : CoefMat K × List (TraceLine K)) m' => p.1 = m' ∧ ∃ w, p.2 = tr ++ w ∧ replay c m w = .ok m')
                (.ok (m2, t1 ++ [(row, col, v)])) (.ok m2) := by
              refine ⟨rfl, w ++ [(row, col, v)], by simp [hw], ?_⟩
              unfold replay at hr ⊢
              rw [List.foldlM_append, hr]
              simp only [ok_bind, List.foldlM_cons, List.foldlM_nil, hset]
              rfl
            cases per with
            | true =>
              simp only [if_true] at hrow
              simp only [ok_bind, if_true, hrow]
              exact hfin
            | false =>
              simp only [Bool.false_eq_true, if_false, Nat.add_zero] at hrow
              rw [modM_lt hi] at hrow
              injection hrow with hrow
              subst hrow
              exact hfin

/-- What the loop over the data points has printed before data point `i`. -/
def Traced (c : Cfg) (per : Bool) (n : ℕ) (m0 : CoefMat K) (i : ℕ) (p : (CoefMat K × List K) × List (TraceLine K)) (q : CoefMat K × List K) : Prop :=
  p.1 = q ∧ ∃ w, p.2 = (0, 0, 1) :: w ∧ (per = true → replay c m0 w = .ok q.1) ∧
    (per = false → 2 ≤ n → (i = 0 → q.1 = m0 ∧ w = []) ∧ (0 < i → i < n → replay c m0 ((0, 0, 1) :: w) = .ok q.1) ∧
      (i = n → replay c m0 ((0, 0, 1) :: w ++ [(n - 1, n - 1, 1)]) = .ok q.1))

theorem replay_append (c : Cfg) (m : CoefMat K) (a b : List (TraceLine K)) :
    replay c m (a ++ b) = replay c m a >>= fun m => replay c m b := by
  unfold replay
  exact List.foldlM_append

theorem assembleBodyT_rel (c : Cfg) (f : InterpFn D K V) (coords : List K) (d : Fin D) (n i : ℕ) (hi : i < n) (m0 : CoefMat K)
    {p : (CoefMat K × List K) × List (TraceLine K)} {q : CoefMat K × List K} (h : Traced c (f.periodicity d) n m0 i p q) :
    MRel (Traced c (f.periodicity d) n m0 (i + 1)) (assembleBodyT c f coords d n i p) (assembleBody c f coords d n i q) := by
  obtain ⟨rfl, w, hw, hp, ha⟩ := h
  unfold assembleBodyT assembleBody
  by_cases he : f.periodicity d = false ∧ (i = 0 ∨ i + 1 = n)
  · rw [if_pos he, if_pos he]
    cases hset : p.1.1.set c i i 1 with
    | error e => exact rfl
    | ok m =>
      refine ⟨rfl, w, hw, fun h => (by rw [he.1] at h; cases h), fun h hn => ?_⟩
      obtain ⟨h0, h1, -⟩ := ha h hn
      refine ⟨fun h => (by omega), fun _ hlt => ?_, fun hin => ?_⟩
      · have hi0 : i = 0 := by omega
        obtain ⟨g1, g2⟩ := h0 hi0
        subst hi0
        rw [g1] at hset
        rw [g2]
        unfold replay
        simp only [List.foldlM_cons, List.foldlM_nil, hset, ok_bind]
        rfl
      · rw [List.cons_append, ← List.cons_append, replay_append, h1 (by omega) (by omega), ok_bind]
        unfold replay
        rw [show n - 1 = i by omega]
        simp only [List.foldlM_cons, List.foldlM_nil, hset, ok_bind]
        rfl
  · rw [if_neg he, if_neg he]
    cases isInternal f.spline.order n i with
    | error e => exact rfl
    | ok inner =>
      simp only [ok_bind]
      cases rowData f coords d i p.1.2 with
      | error e => exact rfl
      | ok r =>
        simp only [ok_bind]
        refine MRel.bind (rowWriteT_rel c f.spline.order n i r.1 _ _ r.2 p.1.1 p.2 hi) ?_
        rintro ⟨m1, t1⟩ m' ⟨rfl, w', hw', hr'⟩
        dsimp only at hw' hr' ⊢
        refine ⟨rfl, w ++ w', by rw [hw', hw]; rfl, fun h => ?_, fun h hn => ?_⟩
        · rw [replay_append, hp h, ok_bind]; exact hr'
        · have hne : i ≠ 0 ∧ i + 1 ≠ n := by
            constructor <;> intro hc <;> exact he ⟨h, by omega⟩
          obtain ⟨-, h1, -⟩ := ha h hn
          refine ⟨fun h => (by omega), fun _ _ => ?_, fun h => (by omega)⟩
          rw [← List.cons_append, replay_append, h1 (by omega) hi, ok_bind]
          exact hr'

theorem assembleT_rel (c : Cfg) (f : InterpFn D K V) (coords : List K) (d : Fin D) (n : ℕ) (vals : List K) :
    MRel (fun (p : CoefMat K × List (TraceLine K)) m => p.1 = m ∧ ∃ m0 w,
        CoefMat.mk' (f.periodicity d) n (bandWidth f.spline.order (f.periodicity d)) = .ok m0 ∧ p.2 = (0, 0, 1) :: w ++ [(n - 1, n - 1, 1)] ∧
        (f.periodicity d = true → replay c m0 w = .ok m) ∧ (f.periodicity d = false → 2 ≤ n → replay c m0 p.2 = .ok m))
      (assembleT c f coords d n vals) (assemble c f coords d n vals) := by
  unfold assembleT assemble
  cases hm : CoefMat.mk' (K := K) (f.periodicity d) n (bandWidth f.spline.order (f.periodicity d)) with
  | error e => exact rfl
  | ok m0 =>
    simp only [ok_bind]
    refine MRel.bind (MRel.loop (R := Traced c (f.periodicity d) n m0) ⟨rfl, [], rfl, fun _ => rfl, fun _ h2 => ⟨fun _ => ⟨rfl, rfl⟩, fun h => (by omega),
      fun h => (by omega)⟩⟩ fun i hi p q h => assembleBodyT_rel c f coords d n i hi m0 h) ?_
    rintro p q ⟨rfl, w, hw, hp, ha⟩
    exact ⟨rfl, m0, w, rfl, by rw [hw], hp, fun h h2 => by rw [hw]; exact (ha h h2).2.2 rfl⟩

theorem MRel.tabM {α β : Type} {D : ℕ} {f : Fin D → M α} {g : Fin D → M β} {R : Fin D → α → β → Prop} (h : ∀ d, MRel (R d) (f d) (g d)) :
    MRel (fun a b => ∀ d, R d (a d) (b d)) (tabM f) (tabM g) := by
  induction D with
  | zero => exact fun d => d.elim0
  | succ D ih =>
    unfold Intp.tabM
    refine MRel.bind (h 0) fun a b hab => ?_
    refine MRel.bind (ih fun d => h d.succ) fun a' b' hab' => ?_
    intro d
    refine Fin.cases ?_ (fun d => ?_) d
    · exact hab
    · exact hab' d

end Intp
