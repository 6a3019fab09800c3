import Verif.Proofs.Nested

/-!
# Properties of tasks that use the pool they run on (C83)

`NState.Reachable P num x`: state `x` occurs in some execution of a pool constructed with argument `num`, in which the tasks make the calls
`P.body` and other threads submit the tasks `P.root` — in any interleaving of the workers, other threads, notifications, spurious wake-ups and
the destructor.
-/

namespace Intp

open Finset NState

theorem Pool.notify_enabled {s : Pool} (h : 0 < s.notifies) : ∃ p, Pool.Step s .notify p := by
  by_cases hx : ∃ w < s.n, s.pc w = .asleep
  · obtain ⟨w, hw, hp⟩ := hx
    exact ⟨_, .notify h hw hp⟩
  · push Not at hx
    exact ⟨_, .notifyNone h hx⟩

/-- If the mutex is free, only blocked workers and those that have left their loop cannot take a step. -/
theorem Pool.stuck_one {s : Pool} (ho : s.owner = none) {w : ℕ} (h : s.worker w = none) : s.pc w = .asleep ∨ s.pc w = .exited := by
  unfold Pool.worker at h
  cases hp : s.pc w <;> rw [hp] at h <;> simp [ho] at h ⊢
  · split at h <;> simp at h
  · split at h <;> simp at h
  · split at h
    · split at h <;> simp at h
    · simp at h
  · split at h <;> simp at h
  · split at h
    · split at h <;> simp at h
    · simp at h

theorem idxOf_lt_of_sublist {l : List ℕ} (hl : l.Nodup) {a b : ℕ} (h : [a, b].Sublist l) : l.idxOf a < l.idxOf b := by
  have : l.Pairwise fun a b => l.idxOf a < l.idxOf b := by
    rw [List.pairwise_iff_getElem]
    intro i j hi hj hij
    rw [hl.idxOf_getElem, hl.idxOf_getElem]
    exact hij
  have := this.sublist h
  simpa using this

/-- **C83, partial: no deadlock while a worker is free.**  While the pool is alive and a submitted task has not finished, and at least one worker
is not blocked in `get()` of a task it runs, some thread can take a step.  Missing for the full claim: the case in which all workers are
blocked in `get()`, see `nested_deadlock`. -/
theorem nested_no_deadlock_partial {P : Tasks} (hP : P.WF) {num : ℕ} {x : NState} (h : Reachable P num x) (ha : x.pool.dtor = .alive) {t : ℕ}
    (ht : t ∈ x.pool.submitted) (hd : t ∉ x.pool.done) (hfree : ∃ w < x.pool.n, ¬ x.Waiting w) :
    ∃ l y, l.isWork = true ∧ Step P x l y := by
  by_contra hc
  push Not at hc
  have hI := h.inv hP
  have hi := hI.pool.inv
  have hst : x.pool.stop = false := by
    by_contra hc
    exact (hi.stop.1 (by simpa using hc)) ha
  have ho : x.pool.owner = none := by
    cases hw : x.pool.owner with
    | none => rfl
    | some w =>
      obtain ⟨hlt, ⟨s', hs'⟩, hr⟩ := hi.owner_step hw
      exact absurd (.pool (.worker hlt hs') fun t ht => absurd ht (hr t)) (hc (.pool (.worker w)) _ rfl)
  have hk : x.pool.notifies = 0 := by
    by_contra hk
    obtain ⟨p, hp⟩ := Pool.notify_enabled (Nat.pos_of_ne_zero hk)
    by_cases he : x.owed = 0
    · exact hc _ _ rfl (.pool hp (by show x.owed < _; omega))
    · obtain ⟨w, hw⟩ := card_pos.1 (Nat.pos_of_ne_zero he)
      rw [mem_filter, mem_range, atNote_iff] at hw
      obtain ⟨hw, t, hpc, hn⟩ := hw
      exact hc _ _ rfl (.notify hw hpc hn hp)
  have hnote : ∀ w < x.pool.n, ∀ t, x.pool.pc w = .run t → x.note t = false := by
    intro w hw t hpc
    by_contra hn
    have : 0 < x.owed := card_pos.2 ⟨w, by
      rw [mem_filter, mem_range, atNote_iff]
      exact ⟨hw, t, hpc, by simpa using hn⟩⟩
    have := hI.owed
    omega
  have hwork : ∀ w < x.pool.n, x.Waiting w ∨ x.pool.pc w = .asleep := by
    intro w hw
    by_cases hr : ∃ t, x.pool.pc w = .run t
    · obtain ⟨t, hpc⟩ := hr
      left
      have hn := hnote w hw t hpc
      cases hrest : x.rest t with
      | nil =>
        refine absurd (Step.pool (P := P) (.worker hw (by unfold Pool.worker; rw [hpc])) fun t' ht' => ?_) (hc (.pool (.worker w)) _ rfl)
        rw [hpc] at ht'
        injection ht' with ht'
        exact ht' ▸ ⟨hrest, hn⟩
      | cons a r =>
        cases a with
        | queue u =>
          have hf := hI.fresh t u (by rw [hrest]; simp [Act.queued])
          exact absurd (Step.push (P := P) hw hpc hn hrest (.submit ha hf (by unfold Pool.submit; simp [ho]; rfl))) (hc _ _ rfl)
        | wait u =>
          refine ⟨t, u, r, hpc, hn, hrest, fun hu => ?_⟩
          exact absurd (Step.get (P := P) hw hpc hn hrest hu) (hc _ _ rfl)
    · right
      push Not at hr
      have hw0 : x.pool.worker w = none := by
        by_contra hx
        obtain ⟨s', hs'⟩ := Option.ne_none_iff_exists'.1 hx
        exact absurd (Step.pool (P := P) (.worker hw hs') fun t ht => absurd ht (hr t)) (hc _ _ rfl)
      rcases Pool.stuck_one ho hw0 with h' | h'
      · exact h'
      · exact absurd (hi.exited w hw h') (by rw [hst]; simp)
  have hord := hI.ord hst
  have hmain : x.pool.mainQ = [] := by
    obtain ⟨w, hw, hn⟩ := hfree
    have h1 := hord.en hst ⟨w, hw, (hwork w hw).resolve_left hn⟩
    have h2 : x.pool.enroutes = 0 := by
      unfold Pool.enroutes
      rw [card_eq_zero, filter_eq_empty_iff]
      intro v hv
      rcases hwork v (mem_range.1 hv) with ⟨t, u, r, hp, _⟩ | hp
      · unfold Pool.enroute; rw [hp]; simp [Pool.Toward]
      · unfold Pool.enroute; rw [hp]; simp [Pool.Toward]
    rw [hk, h2] at h1
    exact List.length_eq_zero_iff.1 (by omega)
  -- the last task that has not run
  obtain ⟨u, hu, hmax⟩ := exists_max_image (x.pool.submitted.toFinset.filter fun t => t ∉ x.pool.done) (fun t => x.pool.submitted.idxOf t)
    ⟨t, by simp [ht, hd]⟩
  rw [mem_filter, List.mem_toFinset] at hu
  have later : ∀ u', [u, u'].Sublist x.pool.submitted → u' ∈ x.pool.done := by
    intro u' hs
    by_contra hn
    have h1 := hmax u' (by rw [mem_filter, List.mem_toFinset]; exact ⟨hs.subset (by simp), hn⟩)
    have h2 := idxOf_lt_of_sublist hi.nodup hs
    omega
  have hplace := task_in_one_place hI.pool u
  rw [if_pos hu.1, hmain, List.count_nil, List.count_eq_zero_of_not_mem hu.2] at hplace
  by_cases hr : ∃ w < x.pool.n, x.pool.pc w = .run u
  · obtain ⟨w, hw, hpc⟩ := hr
    rcases hwork w hw with ⟨t', u', r, hp, _, hrest, hnd⟩ | hp
    · rw [hpc] at hp
      injection hp with hp; subst hp
      rcases hI.order u [] u' r hrest with h' | h'
      · simp [Act.queued] at h'
      · exact hnd (later u' h')
    · rw [hpc] at hp; simp at hp
  · push Not at hr
    have h0 : ((range x.pool.n).filter fun w => x.pool.pc w = .run u).card = 0 := by
      rw [card_eq_zero, filter_eq_empty_iff]
      intro w hw
      exact hr w (mem_range.1 hw)
    rw [h0] at hplace
    obtain ⟨w, hw, hq⟩ := exists_ne_zero_of_sum_ne_zero (s := range x.pool.n) (f := fun w => (x.pool.wq w).count u) (by omega)
    have hmem : u ∈ x.pool.wq w := List.count_pos_iff.1 (Nat.pos_of_ne_zero hq)
    rw [mem_range] at hw
    rcases hwork w hw with ⟨t', u', r, hp, _, hrest, hnd⟩ | hp
    · rcases hord.run w hw t' hp with h' | h'
      · rw [h'] at hmem; simp at hmem
      · refine ((task_runs_once hI.pool).2.2.2 w hw t' hp).2 (later t' (List.Sublist.trans ?_ h'))
        exact List.Sublist.append (List.singleton_sublist.2 hmem) (List.Sublist.refl [t'])
    · rw [hi.own w hw (by rw [hp]; trivial)] at hmem
      simp at hmem

/-- Task `t` calls `get()`. -/
def Tasks.Waits (P : Tasks) (t : ℕ) : Prop := ∃ u, .wait u ∈ P.body t

/-- If fewer tasks than there are workers call `get()`, at least one worker is not blocked in it. -/
theorem NState.Inv.free {P : Tasks} {num : ℕ} {x : NState} (hI : Inv P num x) {S : Finset ℕ} (hS : ∀ t, P.Waits t → t ∈ S)
    (hc : S.card < x.pool.n) : ∃ w < x.pool.n, ¬ x.Waiting w := by
  by_contra hx
  push Not at hx
  have : (range x.pool.n).card ≤ S.card := by
    refine card_le_card_of_injOn (fun w => match x.pool.pc w with | .run t => t | _ => 0) (fun w hw => ?_) (fun w hw v hv e => ?_)
    · obtain ⟨t, u, r, hp, _, hr, _⟩ := hx w (mem_range.1 hw)
      simp only [hp]
      exact hS t ⟨u, (hI.suf t).subset (by rw [hr]; simp)⟩
    · obtain ⟨t, u, r, hp, _, hr, _⟩ := hx w (mem_range.1 hw)
      obtain ⟨t', u', r', hp', _, hr', _⟩ := hx v (mem_range.1 hv)
      simp only [hp, hp'] at e
      exact (task_runs_once hI.pool).2.2.1 w (mem_range.1 hw) v (mem_range.1 hv) t hp (e ▸ hp')
  rw [card_range] at this
  omega

/-- Steps left: those of the pool, and calls of tasks. -/
def NState.measure (T : Finset ℕ) (x : NState) : ℕ := x.pool.potential + (∑ t ∈ T, (x.rest t).length) * (Pool.grow x.pool.n + 1)

theorem NState.Step.measure {P : Tasks} {num : ℕ} {T : Finset ℕ} (hT : ∀ t, P.body t ≠ [] → t ∈ T) {x y : NState} {l : NLabel}
    (hI : Inv P num x) (hs : Step P x l y) :
    (l.isWork = true → y.measure T + 1 ≤ x.measure T) ∧ y.measure T ≤ x.measure T + Pool.grow x.pool.n ∧ y.pool.n = x.pool.n := by
  have hi := hI.pool.inv
  have call : ∀ {t a r}, x.rest t = a :: r → ∑ t' ∈ T, (Function.update x.rest t r t').length + 1 = ∑ t' ∈ T, (x.rest t').length := by
    intro t a r hr
    have ht : t ∈ T := hT t fun h0 => by
      have := hI.suf t
      rw [h0, List.suffix_nil, hr] at this
      simp at this
    rw [← add_sum_erase T _ ht, ← add_sum_erase T (fun t' => (x.rest t').length) ht, Function.update_self, hr, List.length_cons]
    have : ∑ t' ∈ T.erase t, (Function.update x.rest t r t').length = ∑ t' ∈ T.erase t, (x.rest t').length :=
      sum_congr rfl fun t' ht' => by rw [Function.update_of_ne (ne_of_mem_erase ht')]
    omega
  cases hs with
  | @pool l p hp ho =>
    refine ⟨fun hl => ?_, ?_, hp.n_eq⟩
    · have := hp.potential_lt hi (by cases l <;> simp [NLabel.isWork] at hl <;> rfl)
      unfold NState.measure
      show p.potential + (∑ t ∈ T, (x.rest t).length) * (Pool.grow p.n + 1) + 1 ≤ _
      rw [hp.n_eq]
      omega
    · have := hp.potential_le hi
      unfold NState.measure
      show p.potential + (∑ t ∈ T, (x.rest t).length) * (Pool.grow p.n + 1) ≤ _
      rw [hp.n_eq]
      omega
  | @push w t u r p hw hpc hn hr hp =>
    have h1 := hp.potential_le hi
    have h2 := call hr
    have key : NState.measure T { pool := p, rest := Function.update x.rest t r, note := Function.update x.note t true } + 1 ≤ x.measure T := by
      unfold NState.measure
      show p.potential + (∑ t' ∈ T, (Function.update x.rest t r t').length) * (Pool.grow p.n + 1) + 1 ≤ _
      rw [hp.n_eq, ← h2, add_mul, one_mul]
      omega
    exact ⟨fun _ => key, by omega, hp.n_eq⟩
  | @notify w t p hw hpc hn hp =>
    have h1 := hp.potential_lt hi rfl
    have key : NState.measure T { x with pool := p, note := Function.update x.note t false } + 1 ≤ x.measure T := by
      unfold NState.measure
      show p.potential + _ * (Pool.grow p.n + 1) + 1 ≤ _
      rw [hp.n_eq]
      show p.potential + (∑ t ∈ T, (x.rest t).length) * _ + 1 ≤ _
      omega
    exact ⟨fun _ => key, by omega, hp.n_eq⟩
  | @get w t u r hw hpc hn hr hu =>
    have h2 := call hr
    have key : NState.measure T { x with rest := Function.update x.rest t r } + 1 ≤ x.measure T := by
      unfold NState.measure
      rw [← h2, add_mul, one_mul]
      show x.pool.potential + (∑ t' ∈ T, (Function.update x.rest t r t').length) * (Pool.grow x.pool.n + 1) + 1 ≤ _
      omega
    exact ⟨fun _ => key, by omega, rfl⟩

theorem NState.Exec.measure {P : Tasks} (hP : P.WF) {num : ℕ} {T : Finset ℕ} (hT : ∀ t, P.body t ≠ [] → t ∈ T) {x y : NState} {ls : List NLabel}
    (hI : Inv P num x) (he : Exec P x ls y) :
    ls.countP NLabel.isWork + y.measure T ≤ x.measure T + ls.countP (fun l => !l.isWork) * Pool.grow x.pool.n ∧ y.pool.n = x.pool.n := by
  induction he with
  | nil => simp
  | @snoc y z ls l he hs ih =>
    obtain ⟨h1, h2, h3⟩ := hs.measure hT (hI.exec hP he)
    rw [ih.2] at h2
    refine ⟨?_, h3.trans ih.2⟩
    have ih := ih.1
    rw [List.countP_append, List.countP_append, List.countP_singleton, List.countP_singleton]
    by_cases hl : l.isWork = true
    · have := h1 hl
      simp only [hl, if_true, Bool.not_true, Bool.false_eq_true, if_false, add_zero]
      omega
    · simp only [hl, Bool.false_eq_true, if_false, Bool.not_eq_true] at *
      simp only [Bool.not_false, if_true]
      rw [add_mul, one_mul]
      omega

/-- **C83, partial: every task runs if fewer tasks wait than there are workers.**  Let finitely many tasks use the pool (`T`), and fewer of them
than there are workers call `get()` (`S`).  From every reachable state of a live pool, an execution without further submissions by other threads
and without destruction has a bounded number of steps (bounded per spurious wake-up, if there are any), and when it cannot go on, every task
submitted — by other threads or by tasks — has run.  Missing for the full claim: as many waiting tasks as workers, see `nested_deadlock`. -/
theorem nested_all_tasks_run_partial {P : Tasks} (hP : P.WF) {T S : Finset ℕ} (hT : ∀ t, P.body t ≠ [] → t ∈ T) (hS : ∀ t, P.Waits t → t ∈ S)
    {num : ℕ} {x : NState} (h : Reachable P num x) (hc : S.card < x.pool.n) (ha : x.pool.dtor = .alive) :
    ∃ N B : ℕ, ∀ (ls : List NLabel) (y : NState), Exec P x ls y → (∀ l ∈ ls, l.isWork = true ∨ ∃ w, l = .pool (.spurious w)) →
      ls.length ≤ N + B * ls.countP (fun l => !l.isWork) ∧
      ((∀ l z, Step P y l z → ¬ l.isWork = true) → ∀ t ∈ y.pool.submitted, t ∈ y.pool.done) := by
  have hI := h.inv hP
  refine ⟨x.measure T, Pool.grow x.pool.n + 1, fun ls y he hl => ?_⟩
  have hb := he.measure hP hT hI
  refine ⟨?_, fun hq t ht => ?_⟩
  · have h2 : ls.length = ls.countP NLabel.isWork + ls.countP (fun l => !l.isWork) := by
      rw [List.length_eq_countP_add_countP NLabel.isWork]
      simp
    rw [add_mul, one_mul, mul_comm (Pool.grow _)]
    have := hb.1
    omega
  · have hIy := hI.exec hP he
    have hay : y.pool.dtor = .alive := by
      clear hq hb hIy ht
      induction he with
      | nil => exact ha
      | @snoc y z ls l he hs ih =>
        have ih := ih fun l hl' => hl l (List.mem_append_left _ hl')
        have hl' := hl l (List.mem_append_right _ (List.mem_singleton_self l))
        cases hs with
        | pool hp ho => exact (hp.ghost.2.2.1 (by rintro rfl; simp [NLabel.isWork] at hl')).trans ih
        | push _ _ _ _ hp => exact (hp.ghost.2.2.1 (by simp)).trans ih
        | notify _ _ _ hp => exact (hp.ghost.2.2.1 (by simp)).trans ih
        | get => exact ih
    have hr : Reachable P num y := by
      obtain ⟨ls0, h0⟩ := h
      clear hq hb hIy ht hay hl
      induction he with
      | nil => exact ⟨_, h0⟩
      | snoc _ hs ih => obtain ⟨ls1, h1⟩ := ih; exact ⟨_, .snoc h1 hs⟩
    by_contra hd
    obtain ⟨l, z, h1, h2⟩ := nested_no_deadlock_partial hP hr hay ht hd (hIy.free hS (by rw [hb.2]; exact hc))
    exact hq l z h2 h1

/-! ## As many waiting tasks as workers -/

/-- `n` tasks, each of which queues one task and waits for it. -/
def pairTasks (n : ℕ) : Tasks where
  body t := if t < n then [.queue (n + t), .wait (n + t)] else []
  root t := t < n

theorem pairTasks_wf (n : ℕ) : (pairTasks n).WF := by
  have hq : ∀ t u, u ∈ Act.queued ((pairTasks n).body t) → t < n ∧ u = n + t := by
    intro t u hu
    unfold pairTasks at hu
    dsimp only at hu
    split at hu
    · rename_i ht; simp [Act.queued] at hu; exact ⟨ht, hu⟩
    · simp [Act.queued] at hu
  refine ⟨fun t => ?_, fun t t' u h1 h2 => ?_, fun t u h1 h2 => ?_, fun t r₁ u r₂ h => ?_⟩
  · unfold pairTasks
    dsimp only
    split <;> simp [Act.queued]
  · have := hq t u h1
    have := hq t' u h2
    omega
  · have := hq t u h1
    have : u < n := h2
    omega
  · unfold pairTasks at h
    dsimp only at h
    split at h
    · match r₁ with
      | [] => simp at h
      | [a] => simp at h; rw [← h.1, ← h.2.1]; simp [Act.queued]
      | a :: b :: r => simp at h
    · simp at h

namespace NestedDeadlock

/-- The first `k` tasks are held by the first `k` workers, which have not begun with them. -/
def taken (n k : ℕ) : NState where
  pool := { n := n, mainQ := [], wq := fun _ => [], pc := fun w => if w < k then .run w else .top, owner := none, notifies := 0,
            stop := false, dtor := .alive, submitted := List.range k, done := [] }
  rest := (pairTasks n).body
  note := fun _ => false

/-- The first `k` of `n` tasks have queued their subtasks. -/
def queued (n k : ℕ) : NState where
  pool := { n := n, mainQ := (List.range k).map (n + ·), wq := fun _ => [], pc := fun w => if w < n then .run w else .top, owner := none,
            notifies := 0, stop := false, dtor := .alive, submitted := List.range n ++ (List.range k).map (n + ·), done := [] }
  rest := fun t => if t < k then [.wait (n + t)] else (pairTasks n).body t
  note := fun _ => false

theorem trans {P : Tasks} {x y z : NState} {l1 l2 : List NLabel} (e1 : Exec P x l1 y) (e2 : Exec P y l2 z) : ∃ ls, Exec P x ls z := by
  induction e2 with
  | nil => exact ⟨_, e1⟩
  | snoc _ hs ih => obtain ⟨ls, h⟩ := ih; exact ⟨_, .snoc h hs⟩

/-- Worker `k` takes the next task. -/
theorem take_next {n k : ℕ} (hk : k < n) : ∃ ls, Exec (pairTasks n) (taken n k) ls (taken n (k + 1)) := by
  set s := (taken n k).pool with hs
  let s1 : Pool := { s with mainQ := [k], submitted := List.range k ++ [k], notifies := 1 }
  let s2 : Pool := { s1 with notifies := 0 }
  let s3 : Pool := s2.goto k .popOwn
  let s4 : Pool := s3.goto k .popMain
  let s5 : Pool := { s4 with owner := some k }.goto k (.moving 0)
  let s6 : Pool := { s5 with mainQ := [], wq := Function.update s5.wq k [k] }.goto k (.moving 1)
  let s7 : Pool := { s6 with owner := none }.goto k .popOwn2
  let s8 : Pool := { s7 with wq := Function.update s7.wq k [] }.goto k (.run k)
  have pcs : ∀ v, s.pc v = if v < k then .run v else .top := fun v => rfl
  have gt : ∀ (q : Pool) p, (q.goto k p).pc k = p := fun q p => by rw [Pool.goto_pc, if_pos rfl]
  have e1 : Pool.Step s (.submit k) s1 := .submit rfl (by show k ∉ List.range k; simp) (by unfold Pool.submit; rfl)
  have e2 : Pool.Step s1 .notify s2 := .notifyNone (by show 0 < 1; omega) fun w hw => by
    show s.pc w ≠ _
    rw [pcs]; split <;> simp
  have e3 : Pool.Step s2 (.worker k) s3 := .worker hk (by
    unfold Pool.worker
    rw [show s2.pc k = .top by show s.pc k = _; rw [pcs, if_neg (by omega)]]
    rfl)
  have e4 : Pool.Step s3 (.worker k) s4 := .worker hk (by
    unfold Pool.worker
    rw [gt]
    rfl)
  have e5 : Pool.Step s4 (.worker k) s5 := .worker hk (by
    unfold Pool.worker
    rw [gt]
    rfl)
  have e6 : Pool.Step s5 (.worker k) s6 := .worker hk (by
    unfold Pool.worker
    rw [gt]
    rfl)
  have e7 : Pool.Step s6 (.worker k) s7 := .worker hk (by
    unfold Pool.worker
    rw [gt]
    rfl)
  have e8 : Pool.Step s7 (.worker k) s8 := .worker hk (by
    unfold Pool.worker
    rw [gt]
    have hwq : s7.wq k = [k] := by show Function.update s5.wq k [k] k = _; rw [Function.update_self]
    have : s7.tryPop k = some (k, { s7 with wq := Function.update s7.wq k [] }) := by
      unfold Pool.tryPop
      rw [hwq]
      rfl
    simp only [this]
    rfl)
  have fin : s8 = (taken n (k + 1)).pool := by
    have h1 : s8.wq = fun _ => [] := by
      funext v
      show Function.update s7.wq k [] v = []
      rw [Function.update_apply]
      split
      · rfl
      · rename_i e
        show Function.update s5.wq k [k] v = []
        rw [Function.update_of_ne e]
        rfl
    have h2 : s8.pc = fun w => if w < k + 1 then .run w else .top := by
      funext v
      by_cases e : v = k
      · subst e
        show (Pool.goto _ v _).pc v = _
        rw [gt, if_pos (Nat.lt_succ_self v)]
      · have : s8.pc v = s.pc v := by
          show (Pool.goto _ k _).pc v = _
          rw [Pool.goto_pc, if_neg e]
          show (Pool.goto _ k _).pc v = _
          rw [Pool.goto_pc, if_neg e]
          show (Pool.goto _ k _).pc v = _
          rw [Pool.goto_pc, if_neg e]
          show (Pool.goto _ k _).pc v = _
          rw [Pool.goto_pc, if_neg e]
          show (Pool.goto _ k _).pc v = _
          rw [Pool.goto_pc, if_neg e]
          show (Pool.goto _ k _).pc v = _
          rw [Pool.goto_pc, if_neg e]
        rw [this, pcs]
        by_cases hv : v < k
        · rw [if_pos hv, if_pos (by omega)]
        · rw [if_neg hv, if_neg (by omega)]
    have h3 : s8.submitted = List.range (k + 1) := by
      show List.range k ++ [k] = _
      rw [List.range_succ]
    calc s8 = { s8 with wq := fun _ => [], pc := fun w => if w < k + 1 then .run w else .top, submitted := List.range (k + 1) } := by
          rw [← h1, ← h2, ← h3]
      _ = _ := rfl
  -- the same steps with the tasks
  have other : ∀ (q : Pool) p, (∀ t, p ≠ .run t) → ({ taken n k with pool := q.goto k p } : NState).Other (pairTasks n) (.worker k) :=
    fun q p hp t ht => absurd ((gt q p).symm.trans ht) (hp t)
  have hown : ({ taken n k with pool := s1 } : NState).owed = 0 := by
    unfold NState.owed
    rw [card_eq_zero, filter_eq_empty_iff]
    intro w _
    rw [atNote_iff]
    rintro ⟨t, _, ht⟩
    simp [taken] at ht
  have x1 : Exec (pairTasks n) (taken n k) _ { taken n k with pool := s1 } := .snoc (.nil _) (.pool e1 hk)
  have x2 : Exec (pairTasks n) (taken n k) _ { taken n k with pool := s2 } :=
    .snoc x1 (Step.pool (x := { taken n k with pool := s1 }) e2 (by show _ < 1; rw [hown]; omega))
  have x3 : Exec (pairTasks n) (taken n k) _ { taken n k with pool := s3 } :=
    .snoc x2 (Step.pool (x := { taken n k with pool := s2 }) e3 fun t ht => by
      have : s.pc k = .run t := ht
      rw [pcs, if_neg (by omega)] at this
      simp at this)
  have x4 : Exec (pairTasks n) (taken n k) _ { taken n k with pool := s4 } :=
    .snoc x3 (Step.pool (x := { taken n k with pool := s3 }) e4 (other _ _ (by simp)))
  have x5 : Exec (pairTasks n) (taken n k) _ { taken n k with pool := s5 } :=
    .snoc x4 (Step.pool (x := { taken n k with pool := s4 }) e5 (other _ _ (by simp)))
  have x6 : Exec (pairTasks n) (taken n k) _ { taken n k with pool := s6 } :=
    .snoc x5 (Step.pool (x := { taken n k with pool := s5 }) e6 (other _ _ (by simp)))
  have x7 : Exec (pairTasks n) (taken n k) _ { taken n k with pool := s7 } :=
    .snoc x6 (Step.pool (x := { taken n k with pool := s6 }) e7 (other _ _ (by simp)))
  have x8 : Exec (pairTasks n) (taken n k) _ { taken n k with pool := s8 } :=
    .snoc x7 (Step.pool (x := { taken n k with pool := s7 }) e8 (other _ _ (by simp)))
  rw [fin] at x8
  exact ⟨_, x8⟩

/-- Task `k` queues its subtask. -/
theorem queue_next {n k : ℕ} (hk : k < n) : ∃ ls, Exec (pairTasks n) (queued n k) ls (queued n (k + 1)) := by
  set s := (queued n k).pool with hs
  let s1 : Pool := { s with mainQ := s.mainQ ++ [n + k], submitted := s.submitted ++ [n + k], notifies := 1 }
  let s2 : Pool := { s1 with notifies := 0 }
  have pcs : ∀ v, s.pc v = if v < n then .run v else .top := fun v => rfl
  have e1 : Pool.Step s (.submit (n + k)) s1 := .submit rfl (by
    show n + k ∉ List.range n ++ (List.range k).map (n + ·)
    simp) (by unfold Pool.submit; rfl)
  have e2 : Pool.Step s1 .notify s2 := .notifyNone (by show 0 < 1; omega) fun w hw => by
    show s.pc w ≠ _
    rw [pcs]; split <;> simp
  have hpc : s.pc k = .run k := by rw [pcs, if_pos hk]
  have hrest : (queued n k).rest k = [.queue (n + k), .wait (n + k)] := by
    show (if k < k then _ else (if k < n then _ else _)) = _
    rw [if_neg (by omega), if_pos hk]
  have x1 := Exec.snoc (.nil _) (Step.push (P := pairTasks n) (x := queued n k) hk hpc rfl hrest e1)
  have x2 := Exec.snoc x1 (Step.notify (P := pairTasks n) (w := k) (t := k) hk hpc (by simp) e2)
  have h1 : Function.update (queued n k).rest k [.wait (n + k)] = (queued n (k + 1)).rest := by
    funext t
    rw [Function.update_apply]
    show (if t = k then _ else (if t < k then _ else _)) = if t < k + 1 then _ else _
    by_cases e : t = k
    · subst e; rw [if_pos rfl, if_pos (Nat.lt_succ_self t)]
    · rw [if_neg e]
      by_cases h : t < k
      · rw [if_pos h, if_pos (by omega)]
      · rw [if_neg h, if_neg (by omega)]
  have h2 : Function.update (Function.update (queued n k).note k true) k false = (queued n (k + 1)).note := by
    funext t
    rw [Function.update_apply]
    split
    · rfl
    · rename_i e; rw [Function.update_of_ne e]; rfl
  have h3 : s2 = (queued n (k + 1)).pool := by
    show Pool.mk _ _ _ _ _ _ _ _ _ _ = Pool.mk _ _ _ _ _ _ _ _ _ _
    congr 1
    · show (List.range k).map (n + ·) ++ [n + k] = _
      rw [List.range_succ, List.map_append]; rfl
    · show (List.range n ++ (List.range k).map (n + ·)) ++ [n + k] = _
      rw [List.range_succ, List.map_append, List.append_assoc]; rfl
  dsimp only at x2
  rw [h1, h2, h3] at x2
  exact ⟨_, x2⟩

/-- All workers wait. -/
theorem reach (num : ℕ) : Reachable (pairTasks (Pool.init num).n) num (queued (Pool.init num).n (Pool.init num).n) := by
  set n := (Pool.init num).n with hn
  have h0 : NState.init (pairTasks n) num = taken n 0 := by
    show NState.mk _ _ _ = NState.mk _ _ _
    congr 1
  have h1 : ∀ k, k ≤ n → Reachable (pairTasks n) num (taken n k) := by
    intro k
    induction k with
    | zero => exact fun _ => ⟨[], h0 ▸ .nil _⟩
    | succ k ih =>
      intro hk
      obtain ⟨l1, h1⟩ := ih (by omega)
      obtain ⟨l2, h2⟩ := take_next (n := n) (k := k) (by omega)
      exact trans h1 h2
  have h2 : taken n n = queued n 0 := by
    show NState.mk _ _ _ = NState.mk _ _ _
    congr 1
    · show Pool.mk _ _ _ _ _ _ _ _ _ _ = Pool.mk _ _ _ _ _ _ _ _ _ _
      congr 1
      simp
  have h3 : ∀ k, k ≤ n → Reachable (pairTasks n) num (queued n k) := by
    intro k
    induction k with
    | zero => exact fun _ => h2 ▸ h1 n le_rfl
    | succ k ih =>
      intro hk
      obtain ⟨l1, h1⟩ := ih (by omega)
      obtain ⟨l2, h2⟩ := queue_next (n := n) (k := k) (by omega)
      exact trans h1 h2
  exact h3 n le_rfl

end NestedDeadlock

/-- **C83 fails.**  For every number of workers `n` there is an execution in which `n` tasks, each of which queues one task and waits for it, are
held by the `n` workers, and then none of them ever returns: whatever happens afterwards — including spurious wake-ups, further submissions and
the destructor — no task finishes, no worker leaves its task, and the destructor does not return. -/
theorem nested_deadlock (num : ℕ) : ∃ x, Reachable (pairTasks (Pool.init num).n) num x ∧ x.pool.dtor = .alive ∧
    (∀ t < x.pool.n, t ∈ x.pool.submitted ∧ x.pool.n + t ∈ x.pool.submitted) ∧
    ∀ ls y, Exec (pairTasks (Pool.init num).n) x ls y →
      y.pool.done = [] ∧ (∀ w < y.pool.n, y.pool.pc w = .run w ∧ y.Waiting w) ∧ y.pool.dtor ≠ .finished := by
  set n := (Pool.init num).n with hn
  have hpos : 1 ≤ n := (Pool.init_inv num).pos
  refine ⟨_, NestedDeadlock.reach num, rfl, fun t ht => ?_, fun ls y he => ?_⟩
  · rw [← hn] at ht ⊢
    replace ht : t < n := ht
    show t ∈ List.range n ++ (List.range n).map (n + ·) ∧ n + t ∈ List.range n ++ (List.range n).map (n + ·)
    simp [ht]
  · rw [← hn] at he
    suffices key : y.pool.n = n ∧ y.pool.done = [] ∧ (∀ w < n, y.pool.pc w = .run w) ∧
        (∀ t < n, y.rest t = [.wait (n + t)]) ∧ (∀ t < n, y.note t = false) ∧ y.pool.dtor ≠ .finished by
      obtain ⟨h1, h2, h3, h4, h5, h6⟩ := key
      refine ⟨h2, fun w hw => ?_, h6⟩
      rw [h1] at hw
      exact ⟨h3 w hw, w, n + w, [], h3 w hw, h5 w hw, h4 w hw, by rw [h2]; simp⟩
    induction he with
    | nil =>
      refine ⟨rfl, rfl, fun w hw => ?_, fun t ht => ?_, fun t ht => rfl, by simp [NestedDeadlock.queued]⟩
      · show (if w < n then WPc.run w else .top) = _; rw [if_pos hw]
      · show (if t < n then _ else _) = _; rw [if_pos ht]
    | @snoc y z ls l he hs ih =>
      obtain ⟨h1, h2, h3, h4, h5, h6⟩ := ih
      cases hs with
      | @pool l p hp ho =>
        have hnw : ∀ w < n, l ≠ .worker w := by
          rintro w hw rfl
          have := (ho w (h3 w hw)).1
          rw [h4 w hw] at this
          simp at this
        refine ⟨hp.n_eq.trans h1, ?_, fun w hw => hp.run_keep (h3 w hw) (hnw w hw), h4, h5, ?_⟩
        · refine List.eq_nil_iff_forall_not_mem.2 fun t ht => ?_
          rcases hp.ghost.2.1 t ht with h' | ⟨w, e, _⟩
          · rw [h2] at h'; simp at h'
          · subst e
            cases hp with
            | worker hw _ => exact hnw w (h1 ▸ hw) rfl
        · cases hp with
          | worker hw _ => exact absurd rfl (hnw _ (h1 ▸ hw))
          | joinAll _ hx => exact absurd (hx 0 (by omega)) (by rw [h3 0 (by omega)]; simp)
          | submit _ _ hs =>
            unfold Pool.submit at hs
            split at hs
            · simp at hs
            · injection hs with hs; subst hs; exact h6
          | setStop => simp [Pool.setStop]
          | notifyAll => simp [Pool.notifyAll]
          | _ => exact h6
      | @push w t u r p hw hpc hn' hr hp =>
        rw [h1] at hw
        rw [h3 w hw] at hpc
        injection hpc with hpc; subst hpc
        rw [h4 w hw] at hr
        simp at hr
      | @notify w t p hw hpc hn' hp =>
        rw [h1] at hw
        rw [h3 w hw] at hpc
        injection hpc with hpc; subst hpc
        rw [h5 w hw] at hn'
        simp at hn'
      | @get w t u r hw hpc hn' hr hu =>
        rw [h2] at hu
        simp at hu

/-- With one worker more than tasks of this kind, all of them run (`nested_all_tasks_run_partial` applies). -/
theorem nested_one_more_partial (k num : ℕ) (hk : k < (Pool.init num).n) :
    ∃ N B : ℕ, ∀ (ls : List NLabel) (y : NState), Exec (pairTasks k) (NState.init (pairTasks k) num) ls y →
      (∀ l ∈ ls, l.isWork = true ∨ (∃ t, l = .pool (.submit t)) ∨ ∃ w, l = .pool (.spurious w)) →
      ls.length ≤ N + B * ls.countP (fun l => !l.isWork) ∧
      ((∀ l z, Step (pairTasks k) y l z → ¬ l.isWork = true) → ∀ t ∈ y.pool.submitted, t ∈ y.pool.done) := by
  have hP := pairTasks_wf k
  have hT : ∀ t, (pairTasks k).body t ≠ [] → t ∈ range k := fun t ht => by
    by_contra hc
    rw [mem_range] at hc
    exact ht (if_neg hc)
  have hS : ∀ t, (pairTasks k).Waits t → t ∈ range k := fun t ⟨u, hu⟩ => hT t fun h => by rw [h] at hu; simp at hu
  have h0 : Inv (pairTasks k) num (NState.init (pairTasks k) num) := Inv.init hP num
  refine ⟨(NState.init (pairTasks k) num).measure (range k), Pool.grow (Pool.init num).n + 1, fun ls y he hl => ?_⟩
  have hb := he.measure hP hT h0
  refine ⟨?_, fun hq t ht => ?_⟩
  · have h2 : ls.length = ls.countP NLabel.isWork + ls.countP (fun l => !l.isWork) := by
      rw [List.length_eq_countP_add_countP NLabel.isWork]
      simp
    rw [add_mul, one_mul, mul_comm (Pool.grow _)]
    have := hb.1
    have e : (NState.init (pairTasks k) num).pool.n = (Pool.init num).n := rfl
    rw [e] at this
    omega
  · have hy : y.pool.dtor = .alive := by
      clear hq hb ht
      induction he with
      | nil => rfl
      | @snoc y z ls l he hs ih =>
        have ih := ih fun l hl' => hl l (List.mem_append_left _ hl')
        have hl' := hl l (List.mem_append_right _ (List.mem_singleton_self l))
        cases hs with
        | pool hp ho => exact (hp.ghost.2.2.1 (by rintro rfl; simp [NLabel.isWork] at hl')).trans ih
        | push _ _ _ _ hp => exact (hp.ghost.2.2.1 (by simp)).trans ih
        | notify _ _ _ hp => exact (hp.ghost.2.2.1 (by simp)).trans ih
        | get => exact ih
    obtain ⟨N, B, h'⟩ := nested_all_tasks_run_partial hP hT hS ⟨_, he⟩ (by rw [card_range, hb.2]; exact hk) hy
    exact (h' [] y (.nil _) (by simp)).2 hq t ht

end Intp
