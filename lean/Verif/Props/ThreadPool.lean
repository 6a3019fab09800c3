import Verif.Proofs.PoolProgress

/-!
# Properties of the thread pool (C43–C45)

`Pool.Reachable num s`: state `s` occurs in some execution (any interleaving of workers, submitters, notifications, spurious wake-ups and the
destructor) of a pool constructed with argument `num`.
-/

namespace Intp

open Pool Finset

/-! ## C43 -/

/-- **C43.**  In every reachable state, a submitted task is in exactly one place — the main queue, one worker's queue, one worker's hands, or
done — and there once; a task that was not submitted is nowhere. -/
theorem task_in_one_place {num : ℕ} {s : Pool} (h : Reachable num s) (t : ℕ) :
    s.mainQ.count t + ∑ w ∈ range s.n, (s.wq w).count t + ((range s.n).filter fun w => s.pc w = .run t).card + s.done.count t =
      if t ∈ s.submitted then 1 else 0 := by
  have hi := h.inv
  have e1 := hi.count t
  have e2 : s.submitted.count t = if t ∈ s.submitted then 1 else 0 := by
    split
    · rename_i ht; exact List.count_eq_one_of_mem hi.nodup ht
    · rename_i ht; exact List.count_eq_zero_of_not_mem ht
  rw [← e2, e1, card_eq_sum_ones, sum_filter]
  have : ∑ w ∈ range s.n, s.atWorker t w = ∑ w ∈ range s.n, (s.wq w).count t + ∑ w ∈ range s.n, if s.pc w = .run t then 1 else 0 := by
    rw [← sum_add_distrib]; rfl
  omega

/-- C43, at most once: no task runs twice, no two workers run the same task, only submitted tasks run. -/
theorem task_runs_once {num : ℕ} {s : Pool} (h : Reachable num s) :
    s.done.Nodup ∧ (∀ t ∈ s.done, t ∈ s.submitted) ∧
    (∀ w < s.n, ∀ v < s.n, ∀ t, s.pc w = .run t → s.pc v = .run t → w = v) ∧ ∀ w < s.n, ∀ t, s.pc w = .run t → t ∈ s.submitted ∧ t ∉ s.done := by
  have key := fun t => task_in_one_place h t
  refine ⟨?_, fun t ht => ?_, fun w hw v hv t h1 h2 => ?_, fun w hw t hp => ?_⟩
  · rw [List.nodup_iff_count_le_one]
    intro t
    have := key t
    split at this <;> omega
  · by_contra hc
    have := key t
    rw [if_neg hc] at this
    have := List.count_pos_iff.2 ht
    omega
  · by_contra hc
    have : 1 < ((range s.n).filter fun w => s.pc w = .run t).card := by
      rw [one_lt_card]
      exact ⟨w, by simp [hw, h1], v, by simp [hv, h2], hc⟩
    have := key t
    split at this <;> omega
  · have h1 : 0 < ((range s.n).filter fun w => s.pc w = .run t).card := card_pos.2 ⟨w, by simp [hw, hp]⟩
    have := key t
    constructor
    · by_contra hc
      rw [if_neg hc] at this
      omega
    · intro hc
      have := List.count_pos_iff.2 hc
      split at * <;> omega

/-- C43, nothing is undone: a step only adds to the tasks submitted and done. -/
theorem done_grows {s s' : Pool} {l : Label} (h : Step s l s') : s.done <+: s'.done ∧ s.submitted <+: s'.submitted := by
  cases h with
  | worker hw hs =>
    have := worker_cases hs
    cases this <;> first | exact ⟨List.prefix_rfl, List.prefix_rfl⟩ | exact ⟨List.prefix_append _ _, List.prefix_rfl⟩
  | submit _ _ hs =>
    unfold Pool.submit at hs
    split at hs
    · simp at hs
    · injection hs with hs; subst hs
      exact ⟨List.prefix_rfl, List.prefix_append _ _⟩
  | _ => exact ⟨List.prefix_rfl, List.prefix_rfl⟩

/-! ## C44 -/

/-- **C44, no lost wake-up.**  While the pool is alive, if every worker is blocked and no `notify_one` is outstanding, all submitted tasks have
run. -/
theorem no_lost_wakeup {num : ℕ} {s : Pool} (h : Reachable num s) (ha : s.dtor = .alive) (hk : s.notifies = 0)
    (hs : ∀ w < s.n, s.pc w = .asleep) : ∀ t ∈ s.submitted, t ∈ s.done := by
  intro t ht
  have hi := h.inv
  have hst : s.stop = false := by
    by_contra hc
    exact (hi.stop.1 (by simpa using hc)) ha
  have hm : s.mainQ = [] := by
    by_contra hc
    rcases hi.wake hc hst with h | ⟨w, hw, hp⟩
    · omega
    · exact hp (hs w hw)
  have hq : ∑ w ∈ range s.n, (s.wq w).count t = 0 := sum_eq_zero fun w hw => by
    rw [hi.own w (mem_range.1 hw) (by rw [hs w (mem_range.1 hw)]; trivial)]
    rfl
  have hr : ((range s.n).filter fun w => s.pc w = .run t).card = 0 := by
    rw [card_eq_zero, filter_eq_empty_iff]
    intro w hw
    rw [hs w (mem_range.1 hw)]
    simp
  have := task_in_one_place h t
  rw [if_pos ht, hm, hq, hr] at this
  simp at this
  exact List.count_pos_iff.1 (by omega)

/-- **C44, no deadlock.**  While the pool is alive and a submitted task has not finished, some worker can take a step or a `notify_one` is
outstanding. -/
theorem pool_no_deadlock {num : ℕ} {s : Pool} (h : Reachable num s) (ha : s.dtor = .alive) {t : ℕ} (ht : t ∈ s.submitted) (hd : t ∉ s.done) :
    ∃ l s', l.isWork = true ∧ Step s l s' := by
  by_contra hc
  push Not at hc
  have hi := h.inv
  have hst : s.stop = false := by
    by_contra hc
    exact (hi.stop.1 (by simpa using hc)) ha
  have hk : s.notifies = 0 := by
    by_contra hk
    by_cases hx : ∃ w < s.n, s.pc w = .asleep
    · obtain ⟨w, hw, hp⟩ := hx
      exact hc _ _ rfl (.notify (by omega) hw hp)
    · push Not at hx
      exact hc _ _ rfl (.notifyNone (by omega) hx)
  have hw : ∀ w < s.n, s.worker w = none := fun w hw => by
    by_contra hx
    obtain ⟨s', hs'⟩ := Option.ne_none_iff_exists'.1 hx
    exact hc _ _ rfl (.worker hw hs')
  refine hd (no_lost_wakeup h ha hk (fun w hw' => ?_) t ht)
  rcases hi.stuck hw w hw' with hp | hp
  · exact hp
  · exact absurd (hi.exited w hw' hp) (by rw [hst]; simp)

/-- **C44, every task runs.**  From every reachable state of a live pool, an execution without further submissions and without destruction has
a bounded number of steps (bounded per spurious wake-up, if there are any); and when it cannot go on, every submitted task has run. -/
theorem all_tasks_run {num : ℕ} {s : Pool} (h : Reachable num s) (ha : s.dtor = .alive) :
    ∃ N B : ℕ, ∀ (ls : List Label) (s' : Pool), Exec s ls s' → (∀ l ∈ ls, l.isWork = true ∨ ∃ w, l = .spurious w) →
      ls.length ≤ N + B * ls.countP (fun l => !l.isWork) ∧
      ((∀ l s'', Step s' l s'' → ¬ l.isWork = true) → ∀ t ∈ s.submitted, t ∈ s'.done) := by
  refine ⟨s.potential, grow s.n + 1, fun ls s' he hl => ⟨?_, fun hq t ht => ?_⟩⟩
  · have h1 := he.bound h.inv
    have h2 : ls.length = ls.countP Label.isWork + ls.countP (fun l => !l.isWork) := by
      rw [List.length_eq_countP_add_countP Label.isWork]
      simp
    rw [add_mul, one_mul, mul_comm (grow s.n)]
    omega
  · obtain ⟨ls0, h0⟩ := h
    -- properties of the execution
    have trans : ∀ {a b c : Pool} {l1 l2 : List Label}, Exec a l1 b → Exec b l2 c → Exec a (l1 ++ l2) c := by
      intro a b c l1 l2 e1 e2
      induction e2 with
      | nil => simpa using e1
      | snoc _ hs ih => rw [← List.append_assoc]; exact .snoc ih hs
    have h' : Reachable num s' := ⟨_, trans h0 he⟩
    have hsub : s.submitted <+: s'.submitted ∧ s'.dtor = .alive := by
      clear hq h0 h'
      induction he with
      | nil => exact ⟨List.prefix_rfl, ha⟩
      | @snoc a b ls l he hs ih =>
        obtain ⟨h1, h2⟩ := ih fun l hl' => hl l (List.mem_append_left _ hl')
        refine ⟨h1.trans (done_grows hs).2, ?_⟩
        have hl' := hl l (List.mem_append_right _ (List.mem_singleton_self l))
        cases hs with
        | worker hw hs => have := worker_cases hs; cases this <;> exact h2
        | submit _ _ hs => simp [Label.isWork] at hl'
        | notify _ _ _ => exact h2
        | notifyNone _ _ => exact h2
        | spurious _ _ => exact h2
        | setStop _ _ => simp [Label.isWork] at hl'
        | notifyAll _ => simp [Label.isWork] at hl'
        | joinAll _ _ => simp [Label.isWork] at hl'
    by_contra hd
    obtain ⟨l, s'', h1, h2⟩ := pool_no_deadlock h' hsub.2 (hsub.1.subset ht) hd
    exact hq l s'' h2 h1

/-! ## C45 -/

theorem goto_goto (s : Pool) (w : ℕ) (p q : WPc) : (s.goto w p).goto w q = s.goto w q := by
  unfold Pool.goto
  simp

/-- Worker 0 of a new pool finds nothing to do and evaluates its waiting condition, holding the mutex. -/
theorem Pool.to_blocking (num : ℕ) :
    ∃ ls, Exec (Pool.init num) ls ({ Pool.init num with owner := some 0 }.goto 0 .blocking) ∧ ∀ l ∈ ls, l = .worker 0 := by
  set i := Pool.init num with hi
  have hn : 1 ≤ i.n := (init_inv num).pos
  have hq : i.mainQ = [] := rfl
  have hwq : ∀ w, i.wq w = [] := fun _ => rfl
  have hst : i.stop = false := rfl
  have ho : i.owner = none := rfl
  have pcg : ∀ p, (i.goto 0 p).pc 0 = p := fun p => by rw [goto_pc, if_pos rfl]
  have step : ∀ {a b : Pool}, (∃ ls, Exec i ls a ∧ ∀ l ∈ ls, l = .worker 0) → a.n = i.n → a.worker 0 = some b → ∃ ls, Exec i ls b ∧ ∀ l ∈ ls, l = .worker 0 := by
    rintro a b ⟨ls, h1, h2⟩ hna hw
    refine ⟨_, .snoc h1 (.worker (by omega) hw), fun l hl => ?_⟩
    rcases List.mem_append.1 hl with h | h
    · exact h2 l h
    · exact List.mem_singleton.1 h
  have e1 := step (b := i.goto 0 .popOwn) ⟨[], .nil i, by simp⟩ rfl (by
    unfold Pool.worker
    rw [show i.pc 0 = .top from rfl]
    simp [hst])
  have e2 := step (b := i.goto 0 .popMain) e1 rfl (by
    unfold Pool.worker
    rw [pcg]
    have : (i.goto 0 .popOwn).tryPop 0 = none := by unfold tryPop; simp [Pool.goto, hwq]
    simp only [this, goto_goto])
  have e3 := step (b := i.goto 0 (.steal 0)) e2 rfl (by
    unfold Pool.worker
    rw [pcg]
    simp only [show (i.goto 0 .popMain).owner = none from ho, show (i.goto 0 .popMain).mainQ = [] from hq, goto_goto]
    simp)
  have e4 : ∀ k, k ≤ i.n - 1 → ∃ ls, Exec i ls (i.goto 0 (.steal k)) ∧ ∀ l ∈ ls, l = .worker 0 := by
    intro k
    induction k with
    | zero => exact fun _ => e3
    | succ k ih =>
      intro hk
      refine step (ih (by omega)) rfl ?_
      unfold Pool.worker
      rw [pcg]
      have h1 : k < (i.goto 0 (.steal k)).n - 1 := by show k < i.n - 1; omega
      have h2 : (i.goto 0 (.steal k)).trySteal ((0 + k + 1) % (i.goto 0 (.steal k)).n) = none := by
        unfold trySteal
        rw [show (i.goto 0 (.steal k)).wq ((0 + k + 1) % (i.goto 0 (.steal k)).n) = [] from hwq ((0 + k + 1) % i.n)]
      simp only [if_pos h1, h2, goto_goto]
  have e5 := step (b := i.goto 0 .lockWait) (e4 _ le_rfl) rfl (by
    unfold Pool.worker
    rw [pcg]
    have h1 : ¬ i.n - 1 < (i.goto 0 (.steal (i.n - 1))).n - 1 := by show ¬ i.n - 1 < i.n - 1; omega
    simp only [if_neg h1, goto_goto])
  -- it locks the mutex and finds nothing to wait for
  set j : Pool := { i with owner := some 0 } with hj
  have pcj : ∀ p, (j.goto 0 p).pc 0 = p := fun p => by rw [goto_pc, if_pos rfl]
  have e6 := step (b := j.goto 0 .pred) e5 rfl (by
    unfold Pool.worker
    rw [pcg]
    simp only [show (i.goto 0 .lockWait).owner = none from ho]
    simp [Pool.goto, hj])
  exact step e6 rfl (by
    unfold Pool.worker
    rw [pcj]
    simp only [show (j.goto 0 .pred).mainQ = [] from hq, show (j.goto 0 .pred).stop = false from hst, goto_goto]
    simp)

/-- **C45 fails.**  For every number of workers there is an execution in which worker 0 finds nothing to do, evaluates its waiting condition,
then the destructor sets the flag and notifies, and only then worker 0 blocks: unless a spurious wake-up helps, it stays blocked and
the destructor waits for it forever. -/
theorem destructor_may_hang (num : ℕ) : ∃ s, Reachable num s ∧ s.dtor = .joining ∧ s.pc 0 = .asleep ∧
    ∀ ls s', Exec s ls s' → (∀ w, .spurious w ∉ ls) → s'.pc 0 = .asleep ∧ s'.dtor = .joining := by
  set i := Pool.init num with hi
  have hn : 1 ≤ i.n := (init_inv num).pos
  set j : Pool := { i with owner := some 0 } with hj
  have pcj : ∀ p, (j.goto 0 p).pc 0 = p := fun p => by rw [goto_pc, if_pos rfl]
  obtain ⟨ls7, e7, -⟩ := Pool.to_blocking num
  -- the destructor runs
  have e8 : ∃ ls, Exec i ls (j.goto 0 .blocking).setStop := ⟨_, .snoc e7 (.setStop rfl rfl)⟩
  have e9 : ∃ ls, Exec i ls (j.goto 0 .blocking).setStop.notifyAll := ⟨_, .snoc e8.choose_spec (.notifyAll rfl)⟩
  set k := (j.goto 0 .blocking).setStop.notifyAll with hk
  have hk0 : k.pc 0 = .blocking := by
    show (if (j.goto 0 .blocking).pc 0 = .asleep then WPc.relock else (j.goto 0 .blocking).pc 0) = _
    rw [pcj]
    simp
  have e10 : ∃ ls, Exec i ls ({ k with owner := none }.goto 0 .asleep) := ⟨_, .snoc e9.choose_spec (.worker hn (by
    unfold Pool.worker
    rw [hk0]))⟩
  refine ⟨_, e10, rfl, by rw [goto_pc, if_pos rfl], ?_⟩
  intro ls s' he hsp
  suffices hh : s'.pc 0 = .asleep ∧ s'.dtor = .joining ∧ s'.notifies = 0 ∧ 1 ≤ s'.n from ⟨hh.1, hh.2.1⟩
  induction he with
  | nil => exact ⟨by rw [goto_pc, if_pos rfl], rfl, rfl, hn⟩
  | @snoc a b ls l he hs ih =>
    obtain ⟨h1, h2, h3, h4⟩ := ih fun w hw => hsp w (List.mem_append_left _ hw)
    cases hs with
    | @worker _ w hw hs =>
      have hne : (0 : ℕ) ≠ w := by
        rintro rfl
        unfold Pool.worker at hs
        rw [h1] at hs
        simp at hs
      have := worker_cases hs
      cases this <;> exact ⟨by rw [goto_pc, if_neg hne]; exact h1, h2, h3, h4⟩
    | submit ha _ _ => rw [h2] at ha; simp at ha
    | notify h _ _ => omega
    | notifyNone h _ => omega
    | @spurious w _ _ => exact absurd (List.mem_append_right _ (List.mem_singleton_self _)) (hsp w)
    | setStop ha _ => rw [h2] at ha; simp at ha
    | notifyAll ha => rw [h2] at ha; simp at ha
    | joinAll _ hx => rw [hx 0 h4] at h1; simp at h1

/-- The destructor's write to `should_terminate` (an ordinary `bool`) is not ordered with the workers' reads: in the initial state both are
possible, without any common mutex. -/
theorem stop_flag_race (num : ℕ) : (Pool.init num).pc 0 = .top ∧ (Pool.init num).owner = none ∧
    (∃ s', Step (Pool.init num) (.worker 0) s') ∧ Step (Pool.init num) .dtor (Pool.init num).setStop :=
  ⟨rfl, rfl, ⟨_, .worker (init_inv num).pos rfl⟩, .setStop rfl rfl⟩

/-- Steps left to the destructor. -/
def dtorRank : DPc → ℕ
  | .alive => 3
  | .flagSet => 2
  | .joining => 1
  | .finished => 0

theorem Pool.stop_potential {s s' : Pool} {l : Label} (h : s.Inv) (hst : s.stop = true) (hs : Step s l s') :
    s'.potential + dtorRank s'.dtor + 1 ≤ s.potential + dtorRank s.dtor ∧ s'.stop = true := by
  have hd : s.dtor ≠ .alive := h.stop.1 hst
  cases hs with
  | worker hw hs =>
    have hp := (worker_cases hs).potential_lt h hw
    have := worker_cases hs
    cases this <;> exact ⟨by change _ + dtorRank s.dtor + 1 ≤ _; omega, hst⟩
  | submit ha _ _ => exact absurd ha hd
  | notify hk hw hp => exact ⟨by
      have := Step.potential_lt h (.notify hk hw hp) rfl
      change _ + dtorRank s.dtor + 1 ≤ _
      omega, hst⟩
  | notifyNone hk hp => exact ⟨by
      have := Step.potential_lt h (.notifyNone hk hp) rfl
      change _ + dtorRank s.dtor + 1 ≤ _
      omega, hst⟩
  | @spurious w hw hp =>
    refine ⟨?_, hst⟩
    have h1 := work_wake hp s.notifies
    have h2 : ∑ v ∈ range s.n, (s.goto w .relock).rankOf v + rank s.n s.stop s.mainQ.isEmpty .asleep = _ := rank_wake hw hp s.notifies
    rw [hst] at h2
    simp only [rank, if_true] at h2
    change (Pool.goto _ _ _).potential + dtorRank s.dtor + 1 ≤ _
    unfold potential
    rw [show (s.goto _ .relock).work = s.work from h1]
    change s.work * (s.n * (s.n + 9) + 1) + ∑ v ∈ range s.n, _ + s.notifies * (s.n + 10) + dtorRank s.dtor + 1 ≤ _
    omega
  | setStop ha _ => exact absurd ha hd
  | notifyAll hd' =>
    refine ⟨?_, hst⟩
    have e1 : s.notifyAll.work = s.work := by
      unfold work
      show 3 * s.mainQ.length + ∑ w ∈ range s.n, (2 * (s.wq w).length + busy (if s.pc w = .asleep then .relock else s.pc w)) = _
      congr 1
      refine sum_congr rfl fun w _ => ?_
      split
      · rename_i e; rw [e]; rfl
      · rfl
    have e2 : ∑ w ∈ range s.n, s.notifyAll.rankOf w ≤ ∑ w ∈ range s.n, s.rankOf w := by
      refine sum_le_sum fun w _ => ?_
      show rank s.n s.stop s.mainQ.isEmpty (if s.pc w = .asleep then .relock else s.pc w) ≤ rank s.n s.stop s.mainQ.isEmpty (s.pc w)
      split
      · rename_i e; rw [e, hst]; simp [rank]
      · exact le_rfl
    rw [hd']
    change s.notifyAll.potential + 1 + 1 ≤ s.potential + 2
    unfold potential
    rw [e1]
    change s.work * (s.n * (s.n + 9) + 1) + ∑ v ∈ range s.n, _ + s.notifies * (s.n + 10) + 1 + 1 ≤ _
    omega
  | joinAll hd' _ =>
    refine ⟨?_, hst⟩
    rw [hd']
    change s.potential + 0 + 1 ≤ s.potential + 1
    omega

/-- Once the flag is set while no worker is between evaluating its waiting condition and blocking, the pool comes to an end. -/
theorem Pool.stop_terminates {s : Pool} (hi0 : s.setStop.Inv) (hb : ∀ w < s.n, s.pc w ≠ .blocking) :
    ∃ N : ℕ, ∀ (ls : List Label) (s' : Pool), Exec s.setStop ls s' →
      ls.length ≤ N ∧ ((∀ l s'', ¬ Step s' l s'') → s'.dtor = .finished ∧ ∀ w < s'.n, s'.pc w = .exited) := by
  refine ⟨s.setStop.potential + 2, fun ls s' he => ?_⟩
  have key : ls.length + s'.potential + dtorRank s'.dtor ≤ s.setStop.potential + 2 ∧ s'.stop = true ∧ (∀ w < s'.n, s'.pc w ≠ .blocking) ∧
      (s'.dtor = .flagSet ∨ ((s'.dtor = .joining ∨ s'.dtor = .finished) ∧ ∀ w < s'.n, s'.pc w ≠ .asleep)) ∧
      (s'.dtor = .finished → ∀ w < s'.n, s'.pc w = .exited) := by
    induction he with
    | nil => exact ⟨by show 0 + _ + 2 ≤ _; omega, rfl, hb, .inl rfl, by simp [Pool.setStop]⟩
    | @snoc a b ls l he hs ih =>
      obtain ⟨h1, h2, h3, h4, h5⟩ := ih
      have hia := he.inv hi0
      obtain ⟨h6, h7⟩ := stop_potential hia h2 hs
      refine ⟨by rw [List.length_append, List.length_singleton]; omega, h7, ?_⟩
      -- waking up a worker
      have wake : ∀ w (k : ℕ), (∀ v < a.n, ({ a with notifies := k }.goto w .relock).pc v ≠ .blocking) ∧
          ((∀ v < a.n, a.pc v ≠ .asleep) → ∀ v < a.n, ({ a with notifies := k }.goto w .relock).pc v ≠ .asleep) := by
        intro w k
        refine ⟨fun v hv => ?_, fun hx v hv => ?_⟩ <;> rw [goto_pc]
        · split
          · simp
          · exact h3 v hv
        · split
          · simp
          · exact hx v hv
      have fin : ∀ w < a.n, a.pc w = .asleep → a.dtor ≠ .finished := fun w hw hp hd => by
        rw [h5 hd w hw] at hp
        simp at hp
      cases hs with
      | @worker _ w hw hs =>
        have hcs := worker_cases hs
        have hd : b.dtor = a.dtor := by cases hcs <;> rfl
        have hn : b.n = a.n := by cases hcs <;> rfl
        have hpc : ∀ v, v ≠ w → b.pc v = a.pc v := fun v hv => by cases hcs <;> rw [goto_pc, if_neg hv]
        have hpw : b.pc w ≠ .blocking ∧ b.pc w ≠ .asleep := by
          cases hcs with
          | predFalse _ _ hst => rw [h2] at hst; simp at hst
          | block hp => exact absurd hp (h3 w hw)
          | _ => rw [goto_pc, if_pos rfl]; simp
        have hnx : a.pc w ≠ .exited := fun hp => by
          unfold Pool.worker at hs
          rw [hp] at hs
          simp at hs
        rw [hd, hn]
        refine ⟨fun v hv => ?_, ?_, fun hf => absurd (h5 hf w hw) hnx⟩
        · by_cases e : v = w
          · rw [e]; exact hpw.1
          · rw [hpc v e]; exact h3 v hv
        · rcases h4 with h4 | ⟨h4, h4'⟩
          · exact .inl h4
          · refine .inr ⟨h4, fun v hv => ?_⟩
            by_cases e : v = w
            · rw [e]; exact hpw.2
            · rw [hpc v e]; exact h4' v hv
      | submit ha' _ _ => exact absurd ha' (hia.stop.1 h2)
      | @notify w _ hw hp =>
        refine ⟨(wake w _).1, ?_, fun hf => absurd hf (fin w hw hp)⟩
        rcases h4 with h4 | ⟨h4, h4'⟩
        · exact .inl h4
        · exact absurd hp (h4' w hw)
      | notifyNone _ _ => exact ⟨h3, h4, h5⟩
      | @spurious w hw hp =>
        refine ⟨(wake w a.notifies).1, ?_, fun hf => absurd hf (fin w hw hp)⟩
        rcases h4 with h4 | ⟨h4, h4'⟩
        · exact .inl h4
        · exact absurd hp (h4' w hw)
      | setStop ha' _ => exact absurd ha' (hia.stop.1 h2)
      | notifyAll hd =>
        have e : ∀ v, a.notifyAll.pc v = if a.pc v = .asleep then .relock else a.pc v := fun v => rfl
        refine ⟨fun v hv => ?_, .inr ⟨.inl rfl, fun v hv => ?_⟩, fun hf => by simp [Pool.notifyAll] at hf⟩ <;> rw [e] <;> split
        · simp
        · exact h3 v hv
        · simp
        · rename_i hp; exact hp
      | joinAll hd hx =>
        refine ⟨h3, .inr ⟨.inr rfl, fun v hv => ?_⟩, fun _ => hx⟩
        show a.pc v ≠ _
        rw [hx v hv]
        simp
  obtain ⟨h1, h2, h3, h4, h5⟩ := key
  refine ⟨by omega, fun hno => ?_⟩
  have hi := he.inv hi0
  have hstuck := hi.stuck fun w hw => by
    by_contra hx
    obtain ⟨s'', hs''⟩ := Option.ne_none_iff_exists'.1 hx
    exact hno _ _ (.worker hw hs'')
  rcases h4 with h4 | ⟨h4, h4'⟩
  · exact absurd (.notifyAll h4) (hno _ _)
  · have hex : ∀ w < s'.n, s'.pc w = .exited := fun w hw => (hstuck w hw).resolve_left (h4' w hw)
    refine ⟨?_, hex⟩
    rcases h4 with h4 | h4
    · exact absurd (.joinAll h4 hex) (hno _ _)
    · exact h4

/-- **C45, partial.**  If no worker is between evaluating its waiting condition and blocking when the destructor sets the flag (setting the flag
under `main_queue_mutex` would guarantee this), destruction terminates: executions from there have a bounded number of steps — even with
spurious wake-ups — and end only when all workers have left their loops and the destructor has returned.  Missing for the full claim: the
code does not take the mutex, see `destructor_may_hang`. -/
theorem destructor_terminates_partial {num : ℕ} {s : Pool} (h : Reachable num s)
    (hb : ∀ w < s.n, s.pc w ≠ .blocking) :
    ∃ N : ℕ, ∀ (ls : List Label) (s' : Pool), Exec s.setStop ls s' →
      ls.length ≤ N ∧ ((∀ l s'', ¬ Step s' l s'') → s'.dtor = .finished ∧ ∀ w < s'.n, s'.pc w = .exited) := by
  refine Pool.stop_terminates ?_ hb
  have h := h.inv
  refine ⟨h.pos, h.holds, h.owner, h.blocking, h.own, fun v hv hp => rfl, fun _ hst => absurd hst (by simp [Pool.setStop]), h.count, h.nodup, ?_⟩
  simp [Pool.setStop]

/-! ## Example: an execution of a pool with two workers that runs three tasks -/

/-- Steps of the given workers in turn. -/
def Pool.runs (s : Pool) : List ℕ → Option Pool
  | [] => some s
  | w :: ws => (s.worker w).bind fun s' => s'.runs ws

theorem Pool.runs_exec {i s s' : Pool} {ls : List Label} {ws : List ℕ} (h : Exec i ls s) (hs : s.runs ws = some s') (hw : ∀ w ∈ ws, w < s.n) :
    ∃ ls', Exec i ls' s' := by
  induction ws generalizing s ls with
  | nil => injection hs with hs; subst hs; exact ⟨_, h⟩
  | cons w ws ih =>
    unfold Pool.runs at hs
    cases hx : s.worker w with
    | none => rw [hx] at hs; simp at hs
    | some a =>
      rw [hx] at hs
      have hst : Step s (.worker w) a := .worker (hw w (by simp)) hx
      refine ih (.snoc h hst) hs fun v hv => ?_
      rw [hst.n_eq]
      exact hw v (by simp [hv])

/-- Three tasks are submitted; worker 0 moves all of them to its queue and runs the last, meanwhile worker 1 steals the first. -/
example : ∃ s, Reachable 2 s ∧ s.submitted = [5, 6, 7] ∧ s.done = [7, 5] ∧ s.wq 0 = [6] ∧ s.notifies = 3 := by
  have h : ∃ ls s, Exec (Pool.init 2) ls s ∧ s = { Pool.init 2 with mainQ := [5, 6, 7], submitted := [5, 6, 7], notifies := 3 } :=
    ⟨_, _, .snoc (.snoc (.snoc (.nil _) (.submit (t := 5) rfl (by decide) rfl)) (.submit (t := 6) rfl (by decide) rfl))
      (.submit (t := 7) rfl (by decide) rfl), rfl⟩
  obtain ⟨ls, s, h, hs⟩ := h
  have key : ((s.runs [0, 0, 0, 0, 0, 0, 0, 0, 1, 1, 1, 1, 0, 1]).map fun s' => (s'.submitted, s'.done, s'.wq 0, s'.notifies)) =
      some ([5, 6, 7], [7, 5], [6], 3) := by
    rw [hs]; decide +kernel
  rw [Option.map_eq_some_iff] at key
  obtain ⟨s', h1, h2⟩ := key
  simp only [Prod.mk.injEq] at h2
  obtain ⟨ls', h'⟩ := runs_exec h h1 (by rw [hs]; decide)
  exact ⟨s', ⟨ls', h'⟩, h2⟩

end Intp
