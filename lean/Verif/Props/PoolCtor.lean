import Verif.Proofs.PoolCtor
import Verif.Props.ThreadPool

/-!
# Construction of the thread pool (C87)

C87 as stated — if a thread cannot be started the constructor joins all threads it has started and throws — is false: it may wait forever for a thread
that blocks just after the notification, as the destructor may (C45).
-/

namespace Intp

open Pool CtorState

/-- **C87, the states during construction.**  As long as no thread has failed to start, the state of the pool is one of those of a constructed pool (in which the
threads that have not been started have not taken a step).  So everything proved about reachable states holds, and when the constructor returns all threads
have been started and no task is queued. -/
theorem ctor_reachable {num : ℕ} {ls : List CtorState.Label} {x : CtorState} (he : CtorState.Exec (CtorState.init num) ls x) (ha : x.pool.dtor = .alive) :
    Pool.Reachable num x.pool ∧ x.pool.submitted = [] ∧ x.started ≤ x.pool.n ∧ ∀ w, x.started ≤ w → x.pool.pc w = .top := by
  have hi := Exec.inv (CtorState.init_inv num) he
  exact ⟨hi.reach ha, hi.sub, hi.le, hi.top⟩

/-- **C87, nothing is left.**  When the exception leaves the constructor all threads that were started have ended, so none can access the destroyed members; and
this happens only after a thread could not be started. -/
theorem ctor_thrown {num : ℕ} {ls : List CtorState.Label} {x : CtorState} (he : CtorState.Exec (CtorState.init num) ls x) (ht : x.Thrown) :
    (∀ w < x.started, x.pool.pc w = .exited) ∧ (∀ l y, ¬ CtorState.Step x l y) ∧ .fail ∈ ls ∧ x.started < x.pool.n := by
  have key : (x.Thrown → ∀ w < x.started, x.pool.pc w = .exited) ∧ (x.pool.dtor ≠ .alive → .fail ∈ ls ∧ x.started < x.pool.n) := by
    clear ht
    induction he with
    | nil => exact ⟨fun h => (by cases h), fun h => absurd rfl h⟩
    | @snoc y z ls l he hs ih =>
      obtain ⟨h1, h2⟩ := ih
      have app : ∀ l, y.pool.dtor ≠ .alive → CtorState.Label.fail ∈ ls ++ [l] := fun l h => List.mem_append_left _ (h2 h).1
      cases hs with
      | start hd hlt => exact ⟨fun h => (by rw [show y.pool.dtor = .finished from h] at hd; cases hd), fun h => absurd hd h⟩
      | fail hd hlt => exact ⟨fun h => (by cases h), fun _ => ⟨by simp, hlt⟩⟩
      | @worker w p hw hp =>
        obtain ⟨g1, g2, -, -, g5⟩ := worker_other hp
        refine ⟨fun h => ?_, fun h => ⟨app _ (fun e => h (g2.trans e)), ?_⟩⟩
        · have := h1 (g2.symm.trans h) w hw
          unfold Pool.worker at hp
          rw [this] at hp
          cases hp
        · show y.started < p.n
          rw [g1]; exact (h2 fun e => h (g2.trans e)).2
      | @spurious w hw hp =>
        refine ⟨fun h => ?_, fun h => ⟨app _ h, (h2 h).2⟩⟩
        rw [h1 h w hw] at hp
        cases hp
      | notifyAll hd => exact ⟨fun h => (by cases h), fun _ => ⟨app _ (by rw [hd]; simp), (h2 (by rw [hd]; simp)).2⟩⟩
      | join hd hx => exact ⟨fun _ => hx, fun _ => ⟨app _ (by rw [hd]; simp), (h2 (by rw [hd]; simp)).2⟩⟩
  have hx := key.1 ht
  have hd : x.pool.dtor = .finished := ht
  refine ⟨hx, fun l y hs => ?_, key.2 (by rw [hd]; simp)⟩
  cases hs with
  | start h _ => rw [hd] at h; cases h
  | fail h _ => rw [hd] at h; cases h
  | worker hw hp => unfold Pool.worker at hp; rw [hx _ hw] at hp; cases hp
  | spurious hw hp => rw [hx _ hw] at hp; cases hp
  | notifyAll h => rw [hd] at h; cases h
  | join h _ => rw [hd] at h; cases h

/-- **C87, partial.**  If no thread is between evaluating its waiting condition and blocking when the handler sets the flag, the constructor comes to an end: all
executions from there have a bounded number of steps, even with spurious wake-ups, and can only stop when the exception has left the constructor.  Missing
for the full claim: the handler does not take the mutex, see `ctor_may_hang`. -/
theorem ctor_terminates_partial {num : ℕ} {ls : List CtorState.Label} {x y : CtorState} (he : CtorState.Exec (CtorState.init num) ls x)
    (hf : CtorState.Step x .fail y) (hb : ∀ w < x.started, x.pool.pc w ≠ .blocking) :
    ∃ N : ℕ, ∀ (ls' : List CtorState.Label) (z : CtorState), CtorState.Exec y ls' z →
      ls'.length ≤ N ∧ ((∀ l z', ¬ CtorState.Step z l z') → z.Thrown ∧ ∀ w < z.started, z.pool.pc w = .exited) := by
  have hi := Exec.inv (CtorState.init_inv num) he
  cases hf with
  | fail hd hlt =>
    have hr := (hi.reach hd).inv
    have hpc : ∀ w, x.proj.pc w = if w < x.started then x.pool.pc w else .exited := fun _ => rfl
    have hi0 : x.proj.setStop.Inv := by
      refine ⟨hr.pos, fun w hw => ?_, hr.owner, fun w hw hp => ?_, fun w hw hp => ?_, fun v hv hp => rfl, fun _ hst => (by cases hst), fun t => ?_, hr.nodup,
        by simp [Pool.setStop]⟩
      · show Holds (x.proj.pc w) ↔ _
        rw [hpc]
        split
        · exact hr.holds w hw
        · rename_i h
          refine Iff.trans ?_ (hr.holds w hw)
          rw [hi.top w (by omega)]
          simp [Holds]
      · have hp : x.proj.pc w = .blocking := hp
        rw [hpc] at hp
        split at hp
        · exact hr.blocking w hw hp
        · cases hp
      · have hp : OwnEmpty (x.proj.pc w) := hp
        rw [hpc] at hp
        split at hp
        · exact hr.own w hw hp
        · simp [OwnEmpty] at hp
      · refine (hr.count t).trans ?_
        show _ = x.pool.mainQ.count t + ∑ w ∈ Finset.range x.pool.n, x.proj.setStop.atWorker t w + x.pool.done.count t
        congr 2
        refine Finset.sum_congr rfl fun w _ => ?_
        unfold atWorker
        show (x.pool.wq w).count t + hand (x.pool.pc w) t = (x.pool.wq w).count t + hand (x.proj.pc w) t
        rw [hpc]
        split
        · rfl
        · rename_i h
          rw [hi.top w (by omega)]
          rfl
    obtain ⟨N, hN⟩ := Pool.stop_terminates hi0 fun w hw => by
      rw [hpc]
      split
      · rename_i h; exact hb w h
      · simp
    refine ⟨N, fun ls' z hz => ?_⟩
    have key : ∃ ls2, Pool.Exec x.proj.setStop ls2 z.proj ∧ ls2.length = ls'.length ∧ z.pool.dtor ≠ .alive ∧ z.Inv num := by
      induction hz with
      | nil => exact ⟨[], .nil _, rfl, by simp [Pool.setStop], hi.step (.fail hd hlt)⟩
      | snoc _ hs ih =>
        obtain ⟨ls2, h1, h2, h3, h4⟩ := ih
        obtain ⟨⟨l', h5⟩, h6⟩ := hs.proj h3 h4.le
        exact ⟨_, .snoc h1 h5, by simp [h2], h6, h4.step hs⟩
    obtain ⟨ls2, h1, h2, h3, h4⟩ := key
    obtain ⟨g1, g2⟩ := hN ls2 z.proj h1
    refine ⟨by omega, fun hno => ?_⟩
    obtain ⟨g3, g4⟩ := g2 fun l s'' hs => by
      have hz : ∀ w, z.proj.pc w = if w < z.started then z.pool.pc w else .exited := fun _ => rfl
      cases hs with
      | @worker _ w hw hp =>
        by_cases h : w < z.started
        · refine hno (.worker w) _ (.worker h (worker_pc (s := z.proj) z.pool.pc ?_ hp))
          rw [hz, if_pos h]
        · unfold Pool.worker at hp
          rw [hz, if_neg h] at hp
          cases hp
      | submit h _ _ => exact h3 h
      | notify h _ _ => have : z.proj.notifies = 0 := h4.notifies; omega
      | notifyNone h _ => have : z.proj.notifies = 0 := h4.notifies; omega
      | @spurious w hw hp =>
        rw [hz] at hp
        split at hp
        · rename_i h; exact hno _ _ (.spurious h hp)
        · cases hp
      | setStop h _ => exact h3 h
      | notifyAll h => exact hno _ _ (.notifyAll h)
      | joinAll h hx => exact hno _ _ (.join h fun w hw => by
          have := hx w (hw.trans_le h4.le)
          rwa [hz, if_pos hw] at this)
    refine ⟨g3, fun w hw => ?_⟩
    have : (if w < z.started then z.pool.pc w else .exited) = .exited := g4 w (hw.trans_le h4.le)
    rwa [if_pos hw] at this

/-- **C87 fails.**  Whenever at least one thread has been started before one fails, there is an execution in which the first thread finds nothing to do, evaluates its
waiting condition, the handler sets the flag and notifies, and only then the thread blocks: unless a spurious wake-up helps, the constructor waits for it
forever. -/
theorem ctor_may_hang (num k : ℕ) (h1 : 1 ≤ k) (hk : k < (Pool.init num).n) :
    ∃ ls x, CtorState.Exec (CtorState.init num) ls x ∧ x.started = k ∧ x.pool.dtor = .joining ∧ x.pool.pc 0 = .asleep ∧
      ∀ ls' y, CtorState.Exec x ls' y → (∀ w, .spurious w ∉ ls') → y.pool.pc 0 = .asleep ∧ y.pool.dtor = .joining := by
  -- the threads are started
  have e0 : ∀ m ≤ k, ∃ ls, CtorState.Exec (CtorState.init num) ls ⟨Pool.init num, m⟩ := by
    intro m
    induction m with
    | zero => exact fun _ => ⟨_, .nil _⟩
    | succ m ih =>
      intro hm
      obtain ⟨ls, h⟩ := ih (by omega)
      exact ⟨_, .snoc h (.start rfl (show m < (Pool.init num).n by omega))⟩
  -- worker 0 gets to the point before blocking
  have lift : ∀ {ls p}, Pool.Exec (Pool.init num) ls p → (∀ l ∈ ls, l = .worker 0) → ∃ ls', CtorState.Exec (CtorState.init num) ls' ⟨p, k⟩ := by
    intro ls p he hl
    induction he with
    | nil => exact e0 k le_rfl
    | @snoc a b ls l he hs ih =>
      obtain ⟨ls', h⟩ := ih fun l hl' => hl l (List.mem_append_left _ hl')
      have := hl l (List.mem_append_right _ (List.mem_singleton_self l))
      subst this
      cases hs with
      | worker hw hp => exact ⟨_, .snoc h (.worker h1 hp)⟩
  obtain ⟨ls7, g7, g7'⟩ := Pool.to_blocking num
  obtain ⟨ls, e7⟩ := lift g7 g7'
  have e8 := CtorState.Exec.snoc e7 (.fail rfl hk)
  have e9 := CtorState.Exec.snoc e8 (.notifyAll rfl)
  have e10 := CtorState.Exec.snoc e9 (.worker (w := 0) h1 rfl)
  refine ⟨_, _, e10, rfl, rfl, rfl, ?_⟩
  intro ls' y hy hsp
  suffices hh : y.pool.pc 0 = .asleep ∧ y.pool.dtor = .joining ∧ y.started = k from ⟨hh.1, hh.2.1⟩
  induction hy with
  | nil => exact ⟨rfl, rfl, rfl⟩
  | @snoc a b ls l he hs ih =>
    obtain ⟨h2, h3, h4⟩ := ih fun w hw => hsp w (List.mem_append_left _ hw)
    cases hs with
    | start h _ => rw [h3] at h; cases h
    | fail h _ => rw [h3] at h; cases h
    | @worker w p hw hp =>
      obtain ⟨-, g2, -, -, g5⟩ := worker_other hp
      have hne : (0 : ℕ) ≠ w := by
        rintro rfl
        unfold Pool.worker at hp
        rw [h2] at hp
        cases hp
      exact ⟨(g5 0 hne).trans h2, g2.trans h3, h4⟩
    | @spurious w hw hp => exact absurd (List.mem_append_right _ (List.mem_singleton_self _)) (hsp w)
    | notifyAll h => rw [h3] at h; cases h
    | join _ hx => rw [hx 0 (by omega)] at h2; cases h2

/-- The project's pool of 8 threads: construction fails at the fourth thread while the first three have not taken a step (`ctor_terminates_partial` applies), and the
exception leaves the constructor. -/
example : ∃ ls x y ls' z, CtorState.Exec (CtorState.init 8) ls x ∧ x.started = 3 ∧ CtorState.Step x .fail y ∧ (∀ w < x.started, x.pool.pc w ≠ .blocking) ∧
    CtorState.Exec y ls' z ∧ z.Thrown := by
  have e : CtorState.Exec (CtorState.init 8) _ ⟨Pool.init 8, 3⟩ :=
    .snoc (.snoc (.snoc (.nil _) (.start rfl (by decide))) (.start rfl (by decide))) (.start rfl (by decide))
  refine ⟨_, ⟨Pool.init 8, 3⟩, _, _, _, e, rfl, .fail rfl (by decide), fun w _ => by simp [Pool.init],
    .snoc (.snoc (.snoc (.snoc (.snoc (.nil _) (.notifyAll rfl)) (.worker (w := 0) (by decide) rfl)) (.worker (w := 1) (by decide) rfl))
      (.worker (w := 2) (by decide) rfl)) (.join rfl fun w hw => ?_), rfl⟩
  have hw : w < 3 := hw
  obtain rfl | rfl | rfl : w = 0 ∨ w = 1 ∨ w = 2 := by omega
  all_goals rfl

/-- The hypotheses of `ctor_may_hang`, and an execution in which the constructor returns. -/
example : (1 ≤ 3 ∧ 3 < (Pool.init 8).n) ∧ ∃ ls x, CtorState.Exec (CtorState.init 2) ls x ∧ x.Built :=
  ⟨by decide, _, ⟨Pool.init 2, 2⟩, .snoc (.snoc (.nil _) (.start rfl (by decide))) (.start rfl (by decide)), rfl, rfl⟩

end Intp
