import Verif.Proofs.PoolInv

/-!
# Progress of the thread pool: a potential that decreases with every step
-/

namespace Intp

namespace Pool

open Finset

/-- Steps a worker can take before it blocks, leaves, or does something to a task; `empty` tells whether the main queue is empty. -/
def rank (n : ℕ) (stop empty : Bool) : WPc → ℕ
  | .top => if stop then 1 else if empty then 8 + n else 3
  | .popOwn => if stop then 8 + n else if empty then 7 + n else 2
  | .popMain => if stop then 7 + n else if empty then 6 + n else 1
  | .moving c => if stop then 6 + n else if empty then 5 + n else if c < batchSize then 0 else 8 + n
  | .popOwn2 => if stop then 5 + n else if empty then 4 + n else 7 + n
  | .steal i => (n - 1 - i) + if stop then 5 else if empty then 4 else 7
  | .run _ => 0
  | .lockWait => if stop then 4 else if empty then 3 else 6
  | .relock => if stop then 4 else if empty then 3 else 6
  | .pred => if stop then 3 else if empty then 2 else 5
  | .blocking => if stop then 6 else 1
  | .asleep => if stop then 5 else 0
  | .unlock => if stop then 2 else if empty then 9 + n else 4
  | .exited => 0

theorem rank_le {n : ℕ} (hn : 1 ≤ n) (stop empty : Bool) (p : WPc) : rank n stop empty p ≤ n + 9 := by
  cases p <;> cases stop <;> cases empty <;> simp [rank] <;> (try split) <;> omega

def rankOf (s : Pool) (w : ℕ) : ℕ := rank s.n s.stop s.mainQ.isEmpty (s.pc w)

/-- 1 if the worker has a task in hands. -/
def busy : WPc → ℕ
  | .run _ => 1
  | _ => 0

theorem busy_zero {p : WPc} (h : ∀ t, p ≠ .run t) : busy p = 0 := by
  cases p <;> first | rfl | exact absurd rfl (h _)

/-- Steps that remain to be done to tasks. -/
def work (s : Pool) : ℕ := 3 * s.mainQ.length + ∑ w ∈ range s.n, (2 * (s.wq w).length + busy (s.pc w))

/-- The potential. -/
def potential (s : Pool) : ℕ := s.work * (s.n * (s.n + 9) + 1) + ∑ w ∈ range s.n, s.rankOf w + s.notifies * (s.n + 10)

theorem sum_rank_le {s : Pool} (h : 1 ≤ s.n) : ∑ w ∈ range s.n, s.rankOf w ≤ s.n * (s.n + 9) := by
  have := sum_le_card_nsmul (range s.n) s.rankOf (s.n + 9) fun w _ => rank_le h _ _ _
  simpa using this

/-- A step that does something to a task. -/
theorem potential_task {s s' : Pool} (hp : 1 ≤ s.n) (hn : s'.n = s.n) (hk : s'.notifies = s.notifies) (hw : s'.work + 1 = s.work) :
    s'.potential + 1 ≤ s.potential := by
  unfold potential
  have := sum_rank_le (s := s') (by omega)
  rw [hn] at this ⊢
  rw [hk, ← hw]
  nlinarith

/-- A step that does nothing to tasks. -/
theorem potential_plain {s s' : Pool} {w : ℕ} (hw : w < s.n) (hn : s'.n = s.n) (hk : s'.notifies = s.notifies) (hq : s'.mainQ = s.mainQ)
    (hwq : s'.wq = s.wq) (hst : s'.stop = s.stop) (hpc : ∀ v, v ≠ w → s'.pc v = s.pc v) (hr : ∀ t, s.pc w ≠ .run t) (hr' : ∀ t, s'.pc w ≠ .run t)
    (hlt : rank s.n s.stop s.mainQ.isEmpty (s'.pc w) + 1 ≤ rank s.n s.stop s.mainQ.isEmpty (s.pc w)) : s'.potential + 1 ≤ s.potential := by
  have e1 : s'.work = s.work := by
    unfold work
    rw [hq, hn, hwq]
    refine congrArg _ (sum_congr rfl fun v _ => ?_)
    by_cases e : v = w
    · subst e
      rw [busy_zero hr, busy_zero hr']
    · simp only [hpc v e]
  have e2 := sum_change (n := s.n) hw (f := fun v => s'.rankOf v) (g := fun v => s.rankOf v) fun v _ hv => by
    unfold rankOf; rw [hn, hst, hq, hpc v hv]
  have e3 : s'.rankOf w = rank s.n s.stop s.mainQ.isEmpty (s'.pc w) := by unfold rankOf; rw [hn, hst, hq]
  have e4 : s.rankOf w = rank s.n s.stop s.mainQ.isEmpty (s.pc w) := rfl
  simp only [e3, e4] at e2
  unfold potential
  rw [e1, hn, hk]
  omega

theorem WStep.potential_lt {s s' : Pool} {w : ℕ} (h : s.Inv) (hw : w < s.n) (hs : WStep s w s') : s'.potential + 1 ≤ s.potential := by
  have hpos := h.pos
  have plain : ∀ (p : WPc) (o : Option ℕ), s' = { s with owner := o }.goto w p → (∀ t, p ≠ .run t) → (∀ t, s.pc w ≠ .run t) →
      rank s.n s.stop s.mainQ.isEmpty p + 1 ≤ rank s.n s.stop s.mainQ.isEmpty (s.pc w) → s'.potential + 1 ≤ s.potential := by
    rintro p o rfl hr hr' hlt
    refine potential_plain hw rfl rfl rfl rfl rfl (fun v hv => ?_) hr' ?_ ?_
    · rw [goto_pc, if_neg hv]
    · rw [goto_pc, if_pos rfl]; exact hr
    · rw [goto_pc, if_pos rfl]; exact hlt
  have take : ∀ (v t : ℕ) (l : List ℕ), v < s.n → s' = { s with wq := Function.update s.wq v l }.goto w (.run t) →
      (s.wq v).length = l.length + 1 → (∀ t, s.pc w ≠ .run t) → s'.potential + 1 ≤ s.potential := by
    rintro v t l hv rfl hl hr
    refine potential_task h.pos rfl rfl ?_
    have e1 : ∀ z : Pool, z.work = 3 * z.mainQ.length + (∑ x ∈ range z.n, 2 * (z.wq x).length) + ∑ x ∈ range z.n, busy (z.pc x) := by
      intro z
      unfold work
      rw [sum_add_distrib]
      omega
    rw [e1, e1]
    have h3 := sum_change (n := s.n) (w := v) hv (f := fun x => 2 * (Function.update s.wq v l x).length) (g := fun x => 2 * (s.wq x).length)
      fun x _ hx => by simp only [Function.update_apply, if_neg hx]
    have h4 := sum_change (n := s.n) (w := w) hw (f := fun x => busy ((s.goto w (.run t)).pc x))
      (g := fun x => busy (s.pc x)) fun x _ hx => by simp only [goto_pc, if_neg hx]
    have h5 := busy_zero hr
    have h6 : busy ((s.goto w (.run t)).pc w) = 1 := by rw [goto_pc, if_pos rfl]; rfl
    simp only [Function.update_self] at h3
    simp only [h5, h6] at h4
    show 3 * s.mainQ.length + (∑ x ∈ range s.n, 2 * (Function.update s.wq v l x).length) +
      (∑ x ∈ range s.n, busy ((s.goto w (.run t)).pc x)) + 1 = _
    omega
  have hem : s.mainQ ≠ [] → s.mainQ.isEmpty = false := fun hq => by simp [hq]
  have hem' : s.mainQ = [] → s.mainQ.isEmpty = true := fun hq => by simp [hq]
  cases hs with
  | topExit hpc hst => exact plain _ s.owner rfl (by simp) (by simp [hpc]) (by rw [hpc, hst]; simp [rank])
  | topGo hpc hst => exact plain _ s.owner rfl (by simp) (by simp [hpc]) (by rw [hpc, hst]; cases s.mainQ.isEmpty <;> simp [rank]; omega)
  | popOwn hpc hq => exact take w _ _ hw rfl (by rw [hq]; simp) (by simp [hpc])
  | popOwnNone hpc hq => exact plain _ s.owner rfl (by simp) (by simp [hpc]) (by rw [hpc]; cases s.stop <;> cases s.mainQ.isEmpty <;> simp [rank] <;> omega)
  | popMainNone hpc hn hq => exact plain _ s.owner rfl (by simp) (by simp [hpc]) (by rw [hpc, hem' hq]; cases s.stop <;> simp [rank] <;> omega)
  | popMain hpc hn hq => exact plain _ (some w) rfl (by simp) (by simp [hpc]) (by rw [hpc, hem hq]; cases s.stop <;> simp [rank, batchSize]; omega)
  | @move c t l hpc hq hc =>
    refine potential_task h.pos rfl rfl ?_
    unfold work
    have h3 := sum_change (n := s.n) (w := w) hw (f := fun x => 2 * (Function.update s.wq w (s.wq w ++ [t]) x).length + busy ((s.goto w (.moving (c + 1))).pc x))
      (g := fun x => 2 * (s.wq x).length + busy (s.pc x))
      fun x _ hx => by simp only [Function.update_apply, if_neg hx, goto_pc]
    have h5 : busy (s.pc w) = 0 := by rw [hpc]; rfl
    have h6 : busy ((s.goto w (.moving (c + 1))).pc w) = 0 := by rw [goto_pc, if_pos rfl]; rfl
    simp only [Function.update_self, h5, h6, List.length_append, List.length_singleton] at h3
    show 3 * l.length + (∑ x ∈ range s.n, (2 * (Function.update s.wq w (s.wq w ++ [t]) x).length +
      busy ((s.goto w (.moving (c + 1))).pc x))) + 1 = _
    rw [hq, List.length_cons]
    omega
  | @moveEnd c hpc hc =>
    refine plain _ none rfl (by simp) (by simp [hpc]) ?_
    rw [hpc]
    rcases hc with hq | hq
    · rw [hem' hq]; cases s.stop <;> simp [rank] <;> omega
    · cases s.stop <;> cases s.mainQ.isEmpty <;> simp [rank, hq] <;> omega
  | popOwn2 hpc hq => exact take w _ _ hw rfl (by rw [hq]; simp) (by simp [hpc])
  | popOwn2None hpc hq => exact plain _ s.owner rfl (by simp) (by simp [hpc]) (by rw [hpc]; cases s.stop <;> cases s.mainQ.isEmpty <;> simp [rank] <;> omega)
  | @steal i v t l hpc hi hv hq => exact take v t l (by rw [hv]; exact Nat.mod_lt _ (by have := h.pos; omega)) rfl (by rw [hq]; simp) (by simp [hpc])
  | stealNone hpc hi => exact plain _ s.owner rfl (by simp) (by simp [hpc]) (by rw [hpc]; cases s.stop <;> cases s.mainQ.isEmpty <;> simp [rank] <;> omega)
  | stealEnd hpc hi => exact plain _ s.owner rfl (by simp) (by simp [hpc]) (by rw [hpc]; cases s.stop <;> cases s.mainQ.isEmpty <;> simp [rank] <;> omega)
  | @run t hpc =>
    refine potential_task h.pos rfl rfl ?_
    unfold work
    have h3 := sum_change (n := s.n) (w := w) hw (f := fun x => 2 * (s.wq x).length + busy ((s.goto w .top).pc x))
      (g := fun x => 2 * (s.wq x).length + busy (s.pc x))
      fun x _ hx => by simp only [goto_pc, if_neg hx]
    have h5 : busy (s.pc w) = 1 := by rw [hpc]; rfl
    have h6 : busy ((s.goto w .top).pc w) = 0 := by rw [goto_pc, if_pos rfl]; rfl
    simp only [h5, h6] at h3
    show 3 * s.mainQ.length + (∑ x ∈ range s.n, (2 * (s.wq x).length + busy ((s.goto w .top).pc x))) + 1 = _
    omega
  | lockWait hpc hn => exact plain _ (some w) rfl (by simp) (by simp [hpc]) (by rw [hpc]; cases s.stop <;> cases s.mainQ.isEmpty <;> simp [rank])
  | relock hpc hn => exact plain _ (some w) rfl (by simp) (by simp [hpc]) (by rw [hpc]; cases s.stop <;> cases s.mainQ.isEmpty <;> simp [rank])
  | predTrue hpc hc =>
    refine plain _ s.owner rfl (by simp) (by simp [hpc]) ?_
    rw [hpc]
    rcases hc with hq | hq
    · rw [hem hq]; cases s.stop <;> simp [rank]
    · rw [hq]; simp [rank]
  | predFalse hpc hq hst => exact plain _ s.owner rfl (by simp) (by simp [hpc]) (by rw [hpc, hst, hem' hq]; simp [rank])
  | block hpc => exact plain _ none rfl (by simp) (by simp [hpc]) (by rw [hpc]; cases s.stop <;> simp [rank])
  | unlock hpc => exact plain _ none rfl (by simp) (by simp [hpc]) (by rw [hpc]; cases s.stop <;> cases s.mainQ.isEmpty <;> simp [rank]; omega)

theorem Step.n_eq {s s' : Pool} {l : Label} (hs : Step s l s') : s'.n = s.n := by
  cases hs with
  | worker hw hs => have := worker_cases hs; cases this <;> rfl
  | submit _ _ hs =>
    unfold Pool.submit at hs
    split at hs
    · simp at hs
    · injection hs with hs; subst hs; rfl
  | _ => rfl

/-- Steps of workers and of `notify_one`. -/
def Label.isWork : Label → Bool
  | .worker _ => true
  | .notify => true
  | _ => false

theorem work_wake {s : Pool} {w : ℕ} (hp : s.pc w = .asleep) (k : ℕ) : ({ s with notifies := k }.goto w .relock).work = s.work := by
  unfold work
  refine congrArg _ (sum_congr rfl fun v _ => ?_)
  rw [goto_pc]
  split
  · rename_i e; subst e; rw [hp]; rfl
  · rfl

theorem rank_wake {s : Pool} {w : ℕ} (hw : w < s.n) (hp : s.pc w = .asleep) (k : ℕ) :
    ∑ v ∈ range s.n, ({ s with notifies := k }.goto w .relock).rankOf v + rank s.n s.stop s.mainQ.isEmpty .asleep =
    ∑ v ∈ range s.n, s.rankOf v + rank s.n s.stop s.mainQ.isEmpty .relock := by
  have := sum_change (n := s.n) hw (f := fun v => ({ s with notifies := k }.goto w .relock).rankOf v) (g := fun v => s.rankOf v) fun v _ hv => by
    unfold rankOf; rw [goto_pc, if_neg hv]; rfl
  have e1 : ({ s with notifies := k }.goto w .relock).rankOf w = rank s.n s.stop s.mainQ.isEmpty .relock := by
    unfold rankOf; rw [goto_pc, if_pos rfl]; rfl
  have e2 : s.rankOf w = rank s.n s.stop s.mainQ.isEmpty .asleep := by unfold rankOf; rw [hp]
  simp only [e1, e2] at this
  exact this

theorem Step.potential_lt {s s' : Pool} {l : Label} (h : s.Inv) (hs : Step s l s') (hl : l.isWork = true) :
    s'.potential + 1 ≤ s.potential := by
  cases hs with
  | worker hw hs => exact (worker_cases hs).potential_lt h hw
  | @notify w hk hw hp =>
    have h1 := work_wake hp (s.notifies - 1)
    have h2 := rank_wake hw hp (s.notifies - 1)
    have h3 : rank s.n s.stop s.mainQ.isEmpty .relock ≤ 6 := by cases s.stop <;> cases s.mainQ.isEmpty <;> simp [rank]
    unfold potential Pool.notifyOne
    rw [h1]
    show s.work * _ + ∑ v ∈ range s.n, _ + (s.notifies - 1) * (s.n + 10) + 1 ≤ _
    obtain ⟨k, hk'⟩ : ∃ k, s.notifies = k + 1 := ⟨s.notifies - 1, by omega⟩
    rw [hk'] at h2 ⊢
    rw [Nat.add_sub_cancel] at *
    have : (k + 1) * (s.n + 10) = k * (s.n + 10) + (s.n + 10) := by ring
    change s.work * (s.n * (s.n + 9) + 1) + _ + _ + 1 ≤ _
    omega
  | notifyNone hk hp =>
    unfold potential
    have e : ∀ v, s.notifyNone.rankOf v = s.rankOf v := fun v => rfl
    have e2 : s.notifyNone.work = s.work := rfl
    simp only [e, e2]
    show s.work * _ + ∑ v ∈ range s.n, _ + (s.notifies - 1) * (s.n + 10) + 1 ≤ _
    obtain ⟨k, hk'⟩ : ∃ k, s.notifies = k + 1 := ⟨s.notifies - 1, by omega⟩
    rw [hk', Nat.add_sub_cancel]
    have : (k + 1) * (s.n + 10) = k * (s.n + 10) + (s.n + 10) := by ring
    change s.work * (s.n * (s.n + 9) + 1) + _ + _ + 1 ≤ _
    omega
  | _ => simp [Label.isWork] at hl

/-- What a step that is not a worker's or `notify_one`'s adds to the potential at most. -/
def grow (n : ℕ) : ℕ := 4 * (n * (n + 9) + 1) + n + 10

theorem Step.potential_le {s s' : Pool} {l : Label} (h : s.Inv) (hs : Step s l s') : s'.potential ≤ s.potential + grow s.n := by
  by_cases hl : l.isWork = true
  · have := hs.potential_lt h hl
    omega
  have hr := sum_rank_le (s := s') (by rw [hs.n_eq]; exact h.pos)
  have hn := hs.n_eq
  have key : s'.work ≤ s.work + 3 → s'.notifies ≤ s.notifies + 1 → s'.potential ≤ s.potential + grow s.n := by
    intro h1 h2
    unfold potential grow
    rw [hn] at hr ⊢
    nlinarith
  cases hs with
  | worker hw hs => simp [Label.isWork] at hl
  | submit _ _ hs =>
    unfold Pool.submit at hs
    split at hs
    · simp at hs
    · injection hs with hs; subst hs
      refine key ?_ le_rfl
      unfold work
      show 3 * (s.mainQ ++ [_]).length + ∑ w ∈ range s.n, (2 * (s.wq w).length + busy (s.pc w)) ≤ _
      rw [List.length_append, List.length_singleton]
      omega
  | notify hk hw hp => simp [Label.isWork] at hl
  | notifyNone hk hp => simp [Label.isWork] at hl
  | spurious hw hp => exact key (by rw [work_wake hp s.notifies]; omega) (Nat.le_succ _)
  | setStop ha hk => exact key (by show s.work ≤ _; omega) (Nat.le_succ _)
  | notifyAll hd =>
    refine key ?_ (Nat.le_succ _)
    unfold work
    show 3 * s.mainQ.length + ∑ w ∈ range s.n, (2 * (s.wq w).length + busy (if s.pc w = .asleep then .relock else s.pc w)) ≤ _
    have : ∀ w, busy (if s.pc w = .asleep then .relock else s.pc w) = busy (s.pc w) := by
      intro w
      split
      · rename_i e; rw [e]; rfl
      · rfl
    simp only [this]
    omega
  | joinAll hd hx => exact key (by show s.work ≤ _; omega) (Nat.le_succ _)

theorem Exec.n_eq {s s' : Pool} {ls : List Label} (he : Exec s ls s') : s'.n = s.n := by
  induction he with
  | nil => rfl
  | snoc _ hs ih => rw [hs.n_eq, ih]

theorem Exec.bound {s s' : Pool} {ls : List Label} (h : s.Inv) (he : Exec s ls s') :
    ls.countP Label.isWork + s'.potential ≤ s.potential + ls.countP (fun l => !l.isWork) * grow s.n := by
  induction he with
  | nil => simp
  | @snoc s' s'' ls l he hs ih =>
    have hi := he.inv h
    rw [List.countP_append, List.countP_append, List.countP_singleton, List.countP_singleton]
    by_cases hl : l.isWork = true
    · have := hs.potential_lt hi hl
      simp only [hl, if_true, Bool.not_true, Bool.false_eq_true, if_false, add_zero]
      omega
    · have := hs.potential_le hi
      rw [he.n_eq] at this
      simp only [hl, Bool.false_eq_true, if_false, Bool.not_eq_true] at *
      simp only [Bool.not_false, if_true]
      have e : (ls.countP (fun l => !l.isWork) + 1) * grow s.n = ls.countP (fun l => !l.isWork) * grow s.n + grow s.n := by ring
      omega

/-- If no worker can take a step, no worker holds the mutex and all are asleep or have left. -/
theorem Inv.stuck {s : Pool} (h : s.Inv) (hs : ∀ w < s.n, s.worker w = none) :
    ∀ w < s.n, s.pc w = .asleep ∨ s.pc w = .exited := by
  have ho : s.owner = none := by
    cases hw : s.owner with
    | none => rfl
    | some w =>
      have hlt := h.owner w hw
      have hH := (h.holds w hlt).2 hw
      have := hs w hlt
      unfold worker at this
      cases hp : s.pc w <;> rw [hp] at this hH <;> simp [Holds] at hH <;> simp at this
      split at this
      · split at this <;> simp at this
      · simp at this
  intro w hw
  have := hs w hw
  unfold worker at this
  cases hp : s.pc w <;> rw [hp] at this <;> simp [ho] at this ⊢
  · split at this <;> simp at this
  · split at this <;> simp at this
  · split at this
    · split at this <;> simp at this
    · simp at this
  · split at this <;> simp at this
  · split at this
    · split at this <;> simp at this
    · simp at this

end Pool

end Intp
