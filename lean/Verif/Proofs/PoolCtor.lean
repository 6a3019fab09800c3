import Verif.PoolCtor
import Verif.Proofs.PoolInv

/-!
# Invariants of the construction of the thread pool
-/

namespace Intp

open Pool CtorState

/-- A worker takes its steps without looking at the position of the others. -/
theorem Pool.worker_pc {s s' : Pool} {w : ℕ} (f : ℕ → WPc) (hf : f w = s.pc w) (h : s.worker w = some s') :
    { s with pc := f }.worker w = some { s' with pc := Function.update f w (s'.pc w) } := by
  have hpop : ∀ v, { s with pc := f }.tryPop v = (s.tryPop v).map fun a => (a.1, { a.2 with pc := f }) := fun v => by
    unfold tryPop
    show (match (s.wq v).getLast? with | none => none | some t => some (t, _)) = _
    cases (s.wq v).getLast? <;> rfl
  have hsteal : ∀ v, { s with pc := f }.trySteal v = (s.trySteal v).map fun a => (a.1, { a.2 with pc := f }) := fun v => by
    unfold trySteal
    show (match s.wq v with | [] => none | t :: l => some (t, _)) = _
    cases s.wq v <;> rfl
  have go : ∀ {a : Pool} {q : WPc}, a.goto w q = s' → { a with pc := f }.goto w q = { s' with pc := Function.update f w (s'.pc w) } := by
    rintro a q rfl
    rw [goto_pc, if_pos rfl]
    rfl
  unfold Pool.worker at h ⊢
  simp only [hf, hpop, hsteal]
  cases hp : s.pc w <;> simp only [hp] at h ⊢
  case popOwn => cases ht : s.tryPop w <;> simp only [ht, Option.map] at h ⊢ <;> injection h with h <;> exact congrArg some (go h)
  case popOwn2 => cases ht : s.tryPop w <;> simp only [ht, Option.map] at h ⊢ <;> injection h with h <;> exact congrArg some (go h)
  case moving c =>
    cases hm : s.mainQ <;> simp only [hm] at h ⊢
    · injection h with h; exact congrArg some (go h)
    · split at h <;> rename_i hc <;> injection h with h
      · rw [if_pos hc]; exact congrArg some (go h)
      · rw [if_neg hc]; exact congrArg some (go h)
  case steal i =>
    split at h <;> rename_i hc
    · rw [if_pos hc]
      cases ht : s.trySteal ((w + i + 1) % s.n) <;> simp only [ht, Option.map] at h ⊢ <;> injection h with h <;> exact congrArg some (go h)
    · rw [if_neg hc]; injection h with h; exact congrArg some (go h)
  case popMain =>
    split at h <;> rename_i hc
    · cases h
    · rw [if_neg hc]
      split at h <;> rename_i hc <;> injection h with h
      · rw [if_pos hc]; exact congrArg some (go h)
      · rw [if_neg hc]; exact congrArg some (go h)
  case lockWait =>
    split at h <;> rename_i hc
    · cases h
    · rw [if_neg hc]; injection h with h; exact congrArg some (go h)
  case relock =>
    split at h <;> rename_i hc
    · cases h
    · rw [if_neg hc]; injection h with h; exact congrArg some (go h)
  case asleep => cases h
  case exited => cases h
  all_goals injection h with h; exact congrArg some (go h)

/-- A step of a worker does not move the others. -/
theorem Pool.worker_other {s s' : Pool} {w : ℕ} (h : s.worker w = some s') :
    s'.n = s.n ∧ s'.dtor = s.dtor ∧ s'.notifies = s.notifies ∧ s'.submitted = s.submitted ∧ ∀ v, v ≠ w → s'.pc v = s.pc v := by
  have := worker_cases h
  cases this <;> exact ⟨rfl, rfl, rfl, rfl, fun v hv => by rw [goto_pc, if_neg hv]⟩

namespace CtorState

/-- What holds throughout: the threads that have not been started are at the beginning of their loop. -/
structure Inv (num : ℕ) (x : CtorState) : Prop where
  n : x.pool.n = (Pool.init num).n
  le : x.started ≤ x.pool.n
  top : ∀ w, x.started ≤ w → x.pool.pc w = .top
  notifies : x.pool.notifies = 0
  sub : x.pool.submitted = []
  reach : x.pool.dtor = .alive → Pool.Reachable num x.pool

theorem Inv.step {num : ℕ} {x y : CtorState} {l : Label} (h : x.Inv num) (hs : Step x l y) : y.Inv num := by
  cases hs with
  | start hd hlt => exact ⟨h.n, hlt, fun w hw => h.top w (by have : x.started + 1 ≤ w := hw; omega), h.notifies, h.sub, h.reach⟩
  | fail hd hlt => exact ⟨h.n, h.le, h.top, h.notifies, h.sub, fun hd => by cases hd⟩
  | @worker w p hw hp =>
    obtain ⟨h1, h2, h3, h4, h5⟩ := worker_other hp
    refine ⟨h1.trans h.n, h.le.trans h1.ge, fun v hv => ?_, h3.trans h.notifies, h4.trans h.sub, fun hd => ?_⟩
    · have hv : x.started ≤ v := hv
      exact (h5 v (by omega)).trans (h.top v hv)
    · obtain ⟨ls, he⟩ := h.reach (h2.symm.trans hd)
      exact ⟨_, .snoc he (.worker (hw.trans_le h.le) hp)⟩
  | @spurious w hw hp =>
    refine ⟨h.n, h.le, fun v hv => ?_, h.notifies, h.sub, fun hd => ?_⟩
    · have hv : x.started ≤ v := hv
      show (x.pool.goto w .relock).pc v = _
      rw [goto_pc, if_neg (by omega)]
      exact h.top v hv
    · obtain ⟨ls, he⟩ := h.reach hd
      exact ⟨_, .snoc he (.spurious (hw.trans_le h.le) hp)⟩
  | notifyAll hd =>
    refine ⟨h.n, h.le, fun v hv => ?_, h.notifies, h.sub, fun hd => by cases hd⟩
    show (if x.pool.pc v = .asleep then WPc.relock else x.pool.pc v) = _
    rw [h.top v hv]
    rfl
  | join hd hx => exact ⟨h.n, h.le, h.top, h.notifies, h.sub, fun hd => by cases hd⟩

theorem Exec.inv {num : ℕ} {x y : CtorState} {ls : List Label} (h : x.Inv num) (he : Exec x ls y) : y.Inv num := by
  induction he with
  | nil => exact h
  | snoc _ hs ih => exact ih.step hs

theorem init_inv (num : ℕ) : (init num).Inv num :=
  ⟨rfl, Nat.zero_le _, fun _ _ => rfl, rfl, rfl, fun _ => ⟨_, .nil _⟩⟩

/-- The threads that have not been started count as finished. -/
def proj (x : CtorState) : Pool := { x.pool with pc := fun w => if w < x.started then x.pool.pc w else .exited }

end CtorState

namespace CtorState

/-- After the failure the steps are those of a pool whose other threads have ended. -/
theorem Step.proj {x y : CtorState} {l : Label} (hd : x.pool.dtor ≠ .alive) (hle : x.started ≤ x.pool.n) (hs : Step x l y) :
    (∃ l', Pool.Step x.proj l' y.proj) ∧ y.pool.dtor ≠ .alive := by
  cases hs with
  | start h _ => exact absurd h hd
  | fail h _ => exact absurd h hd
  | @worker w p hw hp =>
    obtain ⟨h1, h2, -, -, h5⟩ := worker_other hp
    refine ⟨⟨_, .worker (w := w) (hw.trans_le hle) ?_⟩, fun e => hd (h2.symm.trans e)⟩
    have := worker_pc (fun v => if v < x.started then x.pool.pc v else .exited) (if_pos hw) hp
    refine this.trans ?_
    unfold CtorState.proj
    congr 2
    funext v
    by_cases hv : v = w
    · subst hv
      rw [Function.update_self, if_pos hw]
    · rw [Function.update_of_ne hv]
      show _ = if v < x.started then p.pc v else _
      rw [h5 v hv]
  | @spurious w hw hp =>
    refine ⟨⟨.spurious w, ?_⟩, hd⟩
    have := Pool.Step.spurious (s := x.proj) (w := w) (hw.trans_le hle) (by show (if w < x.started then _ else _) = _; rw [if_pos hw]; exact hp)
    convert this using 1
    refine congrArg (fun f : ℕ → WPc => ({ x.pool with pc := f } : Pool)) (a₁ := fun v => if v < x.started then Function.update x.pool.pc w .relock v else .exited)
      (a₂ := Function.update (fun v => if v < x.started then x.pool.pc v else .exited) w .relock) (funext fun v => ?_)
    by_cases hv : v = w
    · subst hv
      simp [hw]
    · simp [Function.update_of_ne hv]
  | notifyAll h =>
    refine ⟨⟨.dtor, ?_⟩, by simp [Pool.notifyAll]⟩
    have := Pool.Step.notifyAll (s := x.proj) h
    convert this using 1
    refine congrArg (fun f : ℕ → WPc => ({ x.pool with dtor := .joining, pc := f } : Pool))
      (a₁ := fun v => if v < x.started then (if x.pool.pc v = .asleep then .relock else x.pool.pc v) else .exited)
      (a₂ := fun v => if (if v < x.started then x.pool.pc v else .exited) = .asleep then .relock else if v < x.started then x.pool.pc v else .exited)
      (funext fun v => ?_)
    by_cases hv : v < x.started <;> simp [hv]
  | join h hx =>
    refine ⟨⟨_, Pool.Step.joinAll (s := x.proj) h fun w _ => ?_⟩, by simp [Pool.joinAll]⟩
    show (if w < x.started then x.pool.pc w else .exited) = _
    split
    · rename_i hw; exact hx w hw
    · rfl

end CtorState

end Intp
