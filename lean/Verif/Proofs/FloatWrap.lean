import Verif.Proofs.FloatBuild

/-!
# Where no index wraps around, wrapping makes no difference
-/

set_option linter.unusedSectionVars false

namespace Intp

/-- If the first returns a value, the second returns the same. -/
def Sub {α : Type} (m m' : M α) : Prop := ∀ a, m = .ok a → m' = .ok a

theorem Sub.refl {α : Type} (m : M α) : Sub m m := fun _ h => h

theorem Sub.bind {α β : Type} {m m' : M α} {f f' : α → M β} (h : Sub m m') (hf : ∀ a, Sub (f a) (f' a)) : Sub (m >>= f) (m' >>= f') := by
  intro b hb
  cases hm : m with
  | error e => rw [hm] at hb; cases hb
  | ok a =>
    rw [hm, ok_bind] at hb
    rw [h a hm, ok_bind]
    exact hf a b hb

theorem Sub.loopN {σ : Type} {f g : ℕ → σ → M σ} (h : ∀ i s, Sub (f i s) (g i s)) : ∀ n i s, Sub (loopN n i s f) (loopN n i s g)
  | 0, _, _ => Sub.refl _
  | n + 1, i, s => Sub.bind (h i s) fun a => Sub.loopN h n (i + 1) a

theorem Sub.loop {σ : Type} {f g : ℕ → σ → M σ} {lo hi : ℕ} {s : σ} (h : ∀ i s, Sub (f i s) (g i s)) : Sub (loop lo hi s f) (loop lo hi s g) :=
  Sub.loopN h _ _ _

theorem Sub.ite {α : Type} {p : Prop} [Decidable p] {m n m' n' : M α} (h : Sub m m') (h' : Sub n n') :
    Sub (if p then m else n) (if p then m' else n') := by
  split
  · exact h
  · exact h'

theorem Sub.tabM {D : ℕ} {α : Type} {f g : Fin D → M α} (h : ∀ d, Sub (f d) (g d)) : Sub (tabM f) (tabM g) := by
  induction D with
  | zero => exact Sub.refl _
  | succ D ih => exact Sub.bind (h 0) fun x => Sub.bind (ih fun d => h d.succ) fun r => Sub.refl _

namespace Fl

variable {K V : Type} [CoordArith K] [ValArith V] [ScaleArith K V] {D : ℕ}

theorem bandSet_sub (c : Cfg) (m : BandMatrix K) (i j : ℕ) (v : K) :
    Sub (bandSet false c m i j v) (bandSet true c m i j v) := by
  intro m' h
  unfold bandSet at h ⊢
  simp only [Bool.false_eq_true, false_and, if_false] at h
  split
  · rename_i hb
    have hb := hb.2
    unfold BandMatrix.set at h
    cases hc : c.assertions with
    | true =>
      rw [show assertM c (decide (j + m.p ≥ i ∧ i + m.q ≥ j)) = .error .assertFail by unfold assertM; rw [if_pos (by simp [hc]; omega)]] at h
      cases h
    | false =>
      have ha : ∀ b, assertM c b = .ok () := by intro b; unfold assertM; simp [hc]
      rw [ha, ok_bind] at h ⊢
      by_cases hlt : j ≤ i + m.q
      · rw [subM_ok hlt, ok_bind] at h
        unfold Mesh.setSafe at h
        have : indexingSafe c m.bands.dims ![j, i + m.q - j] = .ok (j * m.bands.dims 1 + (i + m.q) - j) := by
          unfold indexingSafe
          simp [ha, List.finRange_succ, indexingStep]
          omega
        rw [this, ok_bind] at h
        cases hw : wr m.bands.storage (j * m.bands.dims 1 + (i + m.q) - j) v with
        | error e => rw [hw] at h; cases h
        | ok l => rw [hw] at h; exact h
      · unfold subM at h
        rw [if_neg hlt] at h
        cases h
  · exact h

theorem matSet_sub (c : Cfg) (m : CoefMat K) (i j : ℕ) (v : K) : Sub (matSet false c m i j v) (matSet true c m i j v) := by
  unfold matSet
  cases m with
  | band m => exact Sub.bind (bandSet_sub c m i j v) fun _ => Sub.refl _
  | ext m => exact Sub.refl _

theorem rowWrite_sub (c : Cfg) (order n i ki s : ℕ) (per : Bool) (vals : List K) (m : CoefMat K) :
    Sub (rowWrite false c order n i ki s per vals m) (rowWrite true c order n i ki s per vals m) := by
  unfold rowWrite
  exact Sub.loop fun j m => Sub.bind (Sub.refl _) fun _ => Sub.bind (Sub.refl _) fun _ => Sub.bind (Sub.refl _) fun _ =>
    Sub.bind (Sub.refl _) fun _ => matSet_sub _ _ _ _ _

theorem assemble_sub (c : Cfg) (f : InterpFn D K V) (coords : List K) (d : Fin D) (n : ℕ) (vals : List K) :
    Sub (assemble false c f coords d n vals) (assemble true c f coords d n vals) := by
  unfold assemble
  refine Sub.bind (Sub.refl _) fun m => Sub.bind (Sub.loop fun i st => ?_) fun _ => Sub.refl _
  unfold assembleBody
  refine Sub.ite (Sub.bind (matSet_sub _ _ _ _ _) fun _ => Sub.refl _) (Sub.bind (Sub.refl _) fun _ => Sub.bind (Sub.refl _) fun _ =>
    Sub.bind (rowWrite_sub _ _ _ _ _ _ _ _ _) fun _ => Sub.refl _)

theorem construct_sub (c : Cfg) (o : ℕ) (per : Fin (D + 1) → Bool) (fm : Mesh (D + 1) V) (x : Fin (D + 1) → XRange K) :
    Sub (construct false c o per fm x) (construct true c o per fm x) := by
  unfold construct
  refine Sub.bind ?_ fun _ => Sub.refl _
  unfold constructT
  exact Sub.bind (Sub.refl _) fun _ => Sub.bind (Sub.refl _) fun _ => Sub.bind (Sub.refl _) fun _ =>
    Sub.bind (Sub.tabM fun d => Sub.bind (assemble_sub _ _ _ _ _ _) fun _ => Sub.refl _) fun _ => Sub.refl _

end Fl

end Intp
