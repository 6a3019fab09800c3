import Verif.Proofs.PoolStats

/-!
# C67: statistics of the thread pool (INTP_DEBUG)

`Counted.Reachable num s`: state `s` (pool and counters) occurs in some execution of a pool constructed with argument `num`.
-/

namespace Intp

open Pool Finset Counted

/-- **C67.** At any time, the tasks counted as submitted to a worker queue are those counted as executed or stolen from it, and those still in it. -/
theorem stats_queue {num : ℕ} {s : Counted} (h : Counted.Reachable num s) {w : ℕ} (hw : w < s.pool.n) :
    s.cnt.submitted w = s.cnt.executed w + s.cnt.stolen w + (s.pool.wq w).length :=
  h.inv.2.queue w hw

/-- **C67.** The counter of the main queue is the number of tasks ever submitted, and these are in the main queue or have been passed on to
the worker queues. -/
theorem stats_main {num : ℕ} {s : Counted} (h : Counted.Reachable num s) :
    s.cnt.mainSubmitted = s.pool.submitted.length ∧ s.cnt.mainSubmitted = s.pool.mainQ.length + ∑ w ∈ range s.pool.n, s.cnt.submitted w :=
  ⟨h.inv.2.length, h.inv.2.main⟩

/-- **C67.** Every stolen task has a thief, who has counted it or is about to. -/
theorem stats_steals {num : ℕ} {s : Counted} (h : Counted.Reachable num s) :
    ∑ w ∈ range s.pool.n, s.cnt.stolen w =
      ∑ w ∈ range s.pool.n, s.cnt.stealing w + ((range s.pool.n).filter fun w => s.thief w = true).card := by
  have := h.inv.2.steals
  rw [this, card_eq_sum_ones, sum_filter]
  congr 1
  refine sum_congr rfl fun w _ => ?_
  cases s.thief w <;> rfl

/-- **C67.** When all tasks have run, the column "Executed" adds up to the number of tasks, "Stolen" and "Stealing" have the same sum, and in the
line of every worker Submitted = Executed + Stolen - Stealing. -/
theorem stats_final {num : ℕ} {s : Counted} (h : Counted.Reachable num s) (hd : ∀ t ∈ s.pool.submitted, t ∈ s.pool.done) :
    ∑ w ∈ range s.pool.n, (line s.cnt w).2.1 = s.pool.submitted.length ∧
    ∑ w ∈ range s.pool.n, (line s.cnt w).2.2.1 = ∑ w ∈ range s.pool.n, (line s.cnt w).2.2.2 ∧
    ∀ w < s.pool.n, ((line s.cnt w).1 : ℤ) = (line s.cnt w).2.1 + (line s.cnt w).2.2.1 - (line s.cnt w).2.2.2 := by
  obtain ⟨hp, hi⟩ := h.inv
  have hpi := hp.inv
  have hmem : ∀ t, t ∈ s.pool.done → s.pool.mainQ.count t = 0 ∧ ∑ w ∈ range s.pool.n, s.pool.atWorker t w = 0 := by
    intro t ht
    have h1 := hpi.count t
    have h2 := List.nodup_iff_count_le_one.1 hpi.nodup t
    have h3 := List.count_pos_iff.2 ht
    omega
  have hall : ∀ t, s.pool.mainQ.count t = 0 ∧ ∀ w < s.pool.n, (s.pool.wq w).count t = 0 ∧ s.pool.pc w ≠ .run t := by
    intro t
    have h0 : s.pool.mainQ.count t = 0 ∧ ∑ w ∈ range s.pool.n, s.pool.atWorker t w = 0 := by
      by_cases ht : t ∈ s.pool.submitted
      · exact hmem t (hd t ht)
      · have h1 := hpi.count t
        rw [List.count_eq_zero_of_not_mem ht] at h1
        omega
    refine ⟨h0.1, fun w hw => ?_⟩
    have := (sum_eq_zero_iff.1 h0.2) w (mem_range.2 hw)
    unfold atWorker hand at this
    constructor
    · omega
    · intro hc
      rw [if_pos hc] at this
      omega
  have hq : ∀ w < s.pool.n, s.pool.wq w = [] := fun w hw =>
    List.eq_nil_iff_forall_not_mem.2 fun t ht => by
      have := (hall t).2 w hw
      have := List.count_pos_iff.2 ht
      omega
  have hm : s.pool.mainQ = [] := List.eq_nil_iff_forall_not_mem.2 fun t ht => by
    have := (hall t).1
    have := List.count_pos_iff.2 ht
    omega
  have hb : ∀ w < s.pool.n, busy (s.pool.pc w) = 0 := fun w hw => busy_zero fun t => ((hall t).2 w hw).2
  have hth : ∀ w < s.pool.n, s.thief w = false := fun w hw => by
    by_contra hc
    have := hi.thief w hw (by simpa using hc)
    simp only [hb w hw] at this
    omega
  have hst : ∑ w ∈ range s.pool.n, s.cnt.stolen w = ∑ w ∈ range s.pool.n, s.cnt.stealing w := by
    rw [hi.steals, sum_eq_zero (f := fun w => (s.thief w).toNat) fun w hw => by rw [hth w (mem_range.1 hw)]; rfl, Nat.add_zero]
  have hsub : ∀ w < s.pool.n, s.cnt.submitted w = s.cnt.executed w + s.cnt.stolen w := fun w hw => by
    have := hi.queue w hw
    simp only [hq w hw] at this
    simpa using this
  refine ⟨?_, hst, fun w hw => ?_⟩
  · have h1 := hi.main
    rw [hi.length, hm, sum_congr rfl fun w hw => hsub w (mem_range.1 hw), sum_add_distrib] at h1
    simp only [List.length_nil] at h1
    show ∑ w ∈ range s.pool.n, (s.cnt.executed w + s.cnt.stealing w) = _
    rw [sum_add_distrib]
    omega
  · have := hsub w hw
    simp only [line]
    push_cast [this]
    ring

/-- **C67, the printed note.** When all tasks have run, the relation the destructor prints holds exactly for the workers from which as many
tasks were stolen as they stole. -/
theorem stats_note_iff {num : ℕ} {s : Counted} (h : Counted.Reachable num s) (hd : ∀ t ∈ s.pool.submitted, t ∈ s.pool.done) {w : ℕ}
    (hw : w < s.pool.n) : note (line s.cnt w) ↔ s.cnt.stolen w = s.cnt.stealing w := by
  have := (stats_final h hd).2.2 w hw
  unfold note
  rw [this]
  simp only [line]
  push_cast
  constructor
  · intro h; omega
  · intro h; omega

/-- Every execution of the pool is one of the counted pool. -/
theorem stats_lift {num : ℕ} {p : Pool} (h : Pool.Reachable num p) : ∃ s, Counted.Reachable num s ∧ s.pool = p ∧ ∀ w, s.thief w = false := by
  obtain ⟨ls, he⟩ := h
  generalize hi : Pool.init num = i at he
  induction he with
  | nil => subst hi; exact ⟨_, .init, rfl, fun _ => rfl⟩
  | @snoc p' p'' ls l _ hs ih =>
    obtain ⟨s, h1, rfl, h3⟩ := ih
    cases l with
    | worker w =>
      cases hs with
      | worker hw hst =>
        have h4 := Counted.Reachable.step h1 (.worker hw (h3 w) hst)
        by_cases ht : (count s.pool s.cnt w).2 = true
        · have hn : p''.n = s.pool.n := Pool.Step.n_eq (.worker hw hst)
          refine ⟨_, .step h4 (.stealing (w := w) (by simp only [hn]; exact hw) (by simp only [Function.update_self]; exact ht)), rfl, fun v => ?_⟩
          simp only [Function.update_idem]
          by_cases he : v = w
          · subst he; rw [Function.update_self]
          · rw [Function.update_of_ne he]; exact h3 v
        · refine ⟨_, h4, rfl, fun v => ?_⟩
          by_cases he : v = w
          · subst he; simp only [Function.update_self]; simpa using ht
          · simp only [Function.update_of_ne he]; exact h3 v
    | submit t => exact ⟨_, .step h1 (.submit hs), rfl, h3⟩
    | notify => exact ⟨_, .step h1 (.other (by simp) (by simp) hs), rfl, h3⟩
    | spurious w => exact ⟨_, .step h1 (.other (by simp) (by simp) hs), rfl, h3⟩
    | dtor => exact ⟨_, .step h1 (.other (by simp) (by simp) hs), rfl, h3⟩

namespace StatsExample

/-- One step by label, for the executions below. -/
def next (s : Counted) : Label → Option Counted
  | .worker w =>
    if w < s.pool.n then
      if s.thief w = true then some ⟨s.pool, { s.cnt with stealing := incr s.cnt.stealing w }, Function.update s.thief w false⟩
      else (s.pool.worker w).map fun p => ⟨p, (count s.pool s.cnt w).1, Function.update s.thief w (count s.pool s.cnt w).2⟩
    else none
  | .submit t =>
    if s.pool.dtor = .alive ∧ t ∉ s.pool.submitted then
      (s.pool.submit t).map fun p => ⟨p, { s.cnt with mainSubmitted := s.cnt.mainSubmitted + 1 }, s.thief⟩
    else none
  | .notify => if 0 < s.pool.notifies ∧ ∀ w < s.pool.n, s.pool.pc w ≠ .asleep then some ⟨s.pool.notifyNone, s.cnt, s.thief⟩ else none
  | .spurious _ => none
  | .dtor =>
    if s.pool.dtor = .alive ∧ s.pool.notifies = 0 then some ⟨s.pool.setStop, s.cnt, s.thief⟩
    else if s.pool.dtor = .flagSet then some ⟨s.pool.notifyAll, s.cnt, s.thief⟩
    else none

/-- Execution of a list of labels. -/
def exec (s : Counted) (ls : List Label) : Option Counted := ls.foldlM next s

theorem next_step {s s' : Counted} {l : Label} (h : next s l = some s') : Counted.Step s l s' := by
  unfold next at h
  split at h
  · split at h
    · rename_i hw
      split at h
      · rename_i ht
        injection h with h; subst h
        exact .stealing hw ht
      · rename_i ht
        obtain ⟨p, hp, rfl⟩ := Option.map_eq_some_iff.1 h
        exact .worker hw (by simpa using ht) hp
    · simp at h
  · split at h
    · rename_i ht
      obtain ⟨p, hp, rfl⟩ := Option.map_eq_some_iff.1 h
      exact .submit (.submit ht.1 ht.2 hp)
    · simp at h
  · split at h
    · rename_i ht
      injection h with h; subst h
      exact .other (by simp) (by simp) (.notifyNone ht.1 ht.2)
    · simp at h
  · simp at h
  · split at h
    · rename_i ht
      injection h with h; subst h
      exact .other (by simp) (by simp) (.setStop ht.1 ht.2)
    · split at h
      · rename_i ht
        injection h with h; subst h
        exact .other (by simp) (by simp) (.notifyAll ht)
      · simp at h

theorem exec_reachable {num : ℕ} : ∀ (ls : List Label) {s s' : Counted}, Counted.Reachable num s → exec s ls = some s' → Counted.Reachable num s'
  | [], s, s', h, he => by
    simp only [exec, List.foldlM_nil, Option.pure_def, Option.some.injEq] at he
    exact he ▸ h
  | l :: ls, s, s', h, he => by
    unfold exec at he
    rw [List.foldlM_cons] at he
    obtain ⟨s1, h1, h2⟩ := Option.bind_eq_some_iff.1 he
    exact exec_reachable ls (.step h (next_step h1)) h2

/-- Two tasks; worker 0 takes both from the main queue and runs one, worker 1 steals and runs the other. -/
def labels : List Label :=
  [.submit 0, .notify, .submit 1, .notify] ++ List.replicate 7 (.worker 0) ++ List.replicate 5 (.worker 1) ++ [.worker 0, .worker 1]

/-- The note is wrong: two workers, two tasks, all done, and the lines printed are 2 1 1 0 and 0 1 0 1. -/
theorem stats_note_wrong : ∃ s, Counted.Reachable 2 s ∧ s.pool.n = 2 ∧ (∀ t ∈ s.pool.submitted, t ∈ s.pool.done) ∧
    line s.cnt 0 = (2, 1, 1, 0) ∧ line s.cnt 1 = (0, 1, 0, 1) ∧ ¬ note (line s.cnt 0) ∧ ¬ note (line s.cnt 1) := by
  have hs : ((exec (Counted.init 2) labels).map fun s => ((s.pool.n, s.pool.submitted, s.pool.done), (line s.cnt 0, line s.cnt 1))) =
      some ((2, [0, 1], [1, 0]), ((2, 1, 1, 0), (0, 1, 0, 1))) := by rfl
  obtain ⟨s, h1, h2⟩ := Option.map_eq_some_iff.1 hs
  rw [Prod.mk.injEq, Prod.mk.injEq, Prod.mk.injEq, Prod.mk.injEq] at h2
  obtain ⟨⟨e1, e2, e3⟩, e4, e5⟩ := h2
  refine ⟨s, exec_reachable _ .init h1, e1, ?_, ?_, ?_, ?_, ?_⟩
  · rw [e2, e3]; simp
  · exact e4
  · exact e5
  · rw [e4, note]; decide
  · rw [e5, note]; decide

/-- The destructor prints the counters before the threads are joined: it may read them while a worker is about to change one. -/
theorem stats_race : ∃ s, Counted.Reachable 2 s ∧ s.pool.dtor = .joining ∧ ∃ s', Counted.Step s (.worker 0) s' ∧
    line s'.cnt 0 ≠ line s.cnt 0 := by
  have hs : ((exec (Counted.init 2) ([.submit 0, .notify] ++ List.replicate 3 (.worker 0) ++ [.dtor, .dtor])).bind fun s =>
      (next s (.worker 0)).map fun s' => (s.pool.dtor, line s.cnt 0, line s'.cnt 0)) = some (.joining, (0, 0, 0, 0), (1, 0, 0, 0)) := by
    decide +kernel
  obtain ⟨s, h1, h2⟩ := Option.bind_eq_some_iff.1 hs
  obtain ⟨s', h3, h4⟩ := Option.map_eq_some_iff.1 h2
  simp only [Prod.mk.injEq] at h4
  refine ⟨s, exec_reachable _ .init h1, h4.1, s', next_step h3, ?_⟩
  rw [Ne, Prod.ext_iff]
  simp only [h4.2.1, h4.2.2]
  decide

end StatsExample

/-- The hypotheses of `stats_final` and `stats_note_iff` hold in the execution of `stats_note_wrong`, whose columns add up. -/
example : ∃ s, Counted.Reachable 2 s ∧ (∀ t ∈ s.pool.submitted, t ∈ s.pool.done) ∧
    ∑ w ∈ range s.pool.n, (line s.cnt w).2.1 = 2 := by
  obtain ⟨s, h1, h2, h3, h4, h5, -⟩ := StatsExample.stats_note_wrong
  exact ⟨s, h1, h3, by rw [h2, sum_range_succ, sum_range_one, h4, h5]; rfl⟩

end Intp
