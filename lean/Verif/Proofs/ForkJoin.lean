import Verif.ForkJoin
import Verif.Proofs.MTMain
import Verif.Props.ThreadPool

/-!
# Parallel regions on the pool: invariant and progress
-/

namespace Intp

open Prog Finset

variable {σ V : Type}

theorem taskId_inj {k i k' i' : ℕ} : taskId k i = taskId k' i' ↔ k = k' ∧ i = i' := by
  unfold taskId
  constructor
  · intro h
    have : Nat.pair k i = Nat.pair k' i' := by omega
    exact Nat.pair_eq_pair.1 this
  · rintro ⟨rfl, rfl⟩; rfl

namespace Pool

theorem WStep.ghost {s s' : Pool} {w : ℕ} (h : WStep s w s') :
    s'.submitted = s.submitted ∧ s'.notifies = s.notifies ∧ s'.dtor = s.dtor ∧ ((s'.done = s.done) ∨ ∃ t, s.pc w = .run t ∧ s'.done = s.done ++ [t]) := by
  cases h with
  | run hp => exact ⟨rfl, rfl, rfl, .inr ⟨_, hp, rfl⟩⟩
  | _ => exact ⟨rfl, rfl, rfl, .inl rfl⟩

/-- What a step does to the tasks submitted and done. -/
theorem Step.ghost {s s' : Pool} {l : Label} (h : Step s l s') :
    (∀ t ∈ s'.submitted, t ∈ s.submitted ∨ l = .submit t) ∧ (∀ t ∈ s'.done, t ∈ s.done ∨ ∃ w, l = .worker w ∧ s.pc w = .run t) ∧
    (l ≠ .dtor → s'.dtor = s.dtor) ∧ (l ≠ .notify → s.notifies ≤ s'.notifies) ∧ (l = .notify → s'.notifies = s.notifies - 1) ∧
    (∀ t, l = .submit t → t ∈ s'.submitted ∧ s'.notifies = s.notifies + 1 ∧ t ∉ s.submitted) := by
  cases h with
  | worker hw hs =>
    obtain ⟨h1, h2, h3, h4⟩ := (worker_cases hs).ghost
    refine ⟨fun t ht => .inl (h1 ▸ ht), fun t ht => ?_, fun _ => h3, fun _ => h2.ge, fun h => (by cases h), fun t h => (by cases h)⟩
    rcases h4 with h4 | ⟨t', hp, h4⟩
    · exact .inl (h4 ▸ ht)
    · rw [h4, List.mem_append, List.mem_singleton] at ht
      rcases ht with ht | rfl
      · exact .inl ht
      · exact .inr ⟨_, rfl, hp⟩
  | submit _ hn hs =>
    unfold Pool.submit at hs
    split at hs
    · simp at hs
    · injection hs with hs; subst hs
      refine ⟨fun t ht => ?_, fun t ht => .inl ht, fun _ => rfl, fun _ => Nat.le_succ _, fun h => (by cases h), fun t h => ?_⟩
      · simp only [List.mem_append, List.mem_singleton] at ht
        rcases ht with ht | rfl
        · exact .inl ht
        · exact .inr rfl
      · cases h
        exact ⟨by simp, rfl, hn⟩
  | notify _ _ _ => exact ⟨fun t ht => .inl ht, fun t ht => .inl ht, fun _ => rfl, fun h => absurd rfl h, fun _ => rfl, fun t h => (by cases h)⟩
  | notifyNone _ _ => exact ⟨fun t ht => .inl ht, fun t ht => .inl ht, fun _ => rfl, fun h => absurd rfl h, fun _ => rfl, fun t h => (by cases h)⟩
  | spurious _ _ => exact ⟨fun t ht => .inl ht, fun t ht => .inl ht, fun _ => rfl, fun _ => le_rfl, fun h => (by cases h), fun t h => (by cases h)⟩
  | setStop _ _ => exact ⟨fun t ht => .inl ht, fun t ht => .inl ht, fun h => absurd rfl h, fun _ => le_rfl, fun h => (by cases h), fun t h => (by cases h)⟩
  | notifyAll _ => exact ⟨fun t ht => .inl ht, fun t ht => .inl ht, fun h => absurd rfl h, fun _ => le_rfl, fun h => (by cases h), fun t h => (by cases h)⟩
  | joinAll _ _ => exact ⟨fun t ht => .inl ht, fun t ht => .inl ht, fun h => absurd rfl h, fun _ => le_rfl, fun h => (by cases h), fun t h => (by cases h)⟩

theorem Reachable.step {num : ℕ} {s s' : Pool} {l : Label} (h : Reachable num s) (hs : Step s l s') : Reachable num s' := by
  obtain ⟨ls, he⟩ := h
  exact ⟨_, .snoc he hs⟩

/-- The mutex is free or its owner can take a step. -/
theorem Inv.owner_step {s : Pool} (h : s.Inv) {w : ℕ} (hw : s.owner = some w) : w < s.n ∧ (∃ s', s.worker w = some s') ∧ ∀ t, s.pc w ≠ .run t := by
  have hlt := h.owner w hw
  have hH := (h.holds w hlt).2 hw
  refine ⟨hlt, ?_, fun t ht => by rw [ht] at hH; exact hH⟩
  unfold worker
  cases hp : s.pc w <;> rw [hp] at hH <;> simp [Holds] at hH <;> simp
  split
  · split <;> simp
  · simp

end Pool

/-- The programs of the region touch disjoint sets of elements. -/
def Region.Indep (r : Region V) : Prop :=
  ∃ A : ℕ → Bool → ℕ → Prop, Disj A ∧ (∀ i, (r.prog i).Conf (A i)) ∧ ∀ i, r.num + 1 ≤ i → r.prog i = .ret ()

/-- States between regions reached if regions are performed by a single thread, one program after the other. -/
inductive Job.Seq (J : Job σ V) : σ → σ → Prop
  | refl (s : σ) : Job.Seq J s s
  | tail {s t : σ} {r : Region V} {m : Bool → List V} : Job.Seq J s t → J.start t = .ok (some r) → seq r.prog (r.num + 1) r.mem = .ok m →
      Job.Seq J s (J.finish t m)

namespace FJState

variable {J : Job σ V}

/-- Number of tasks of the current region submitted so far. -/
def sent (x : FJState σ V) : ℕ :=
  match x.call with
  | .idle => 0
  | .queue i => i
  | .notify i => i + 1
  | .own => x.num
  | .get _ => x.num

/-- The part of the invariant that concerns the current region. -/
structure InRegion (J : Job σ V) (x : FJState σ V) (r : Region V) (A : ℕ → Bool → ℕ → Prop) : Prop where
  start : J.start x.s = .ok (some r)
  num : x.num = r.num
  disj : Disj A
  conf0 : ∀ i, (r.prog i).Conf (A i)
  tail0 : ∀ i, r.num + 1 ≤ i → r.prog i = .ret ()
  pinv : PInv A r.prog r.mem x.prog x.mem
  tail : ∀ i, r.num + 1 ≤ i → x.prog i = .ret ()
  sentLe : x.sent ≤ x.num
  sub : ∀ i < x.sent, taskId x.k i ∈ x.pool.submitted
  ret : ∀ i, taskId x.k i ∈ x.pool.done → x.prog i = .ret ()
  got : ∀ i, x.call = .get i → i ≤ x.num ∧ x.prog x.num = .ret () ∧ ∀ j < i, taskId x.k j ∈ x.pool.done

/-- Invariant of executions. -/
structure Inv (J : Job σ V) (num : ℕ) (p0 : Pool) (s0 : σ) (x : FJState σ V) : Prop where
  reach : Pool.Reachable num x.pool
  alive : x.pool.dtor = .alive
  n : x.pool.n = p0.n
  seq : J.Seq s0 x.s
  ours : ∀ k i, taskId k i ∈ x.pool.submitted → k < x.k ∨ (k = x.k ∧ i < x.sent)
  old : ∀ k i, k < x.k → taskId k i ∈ x.pool.submitted → taskId k i ∈ x.pool.done
  note : ∀ i, x.call = .notify i → 0 < x.pool.notifies
  region : x.call ≠ .idle → ∃ r A, InRegion J x r A

theorem Inv.init {num : ℕ} {p0 : Pool} {s0 : σ} (hp : Pool.Reachable num p0) (ha : p0.dtor = .alive) (hf : ∀ t ∈ p0.submitted, t % 2 = 1) :
    Inv J num p0 s0 (init p0 s0) where
  reach := hp
  alive := ha
  n := rfl
  seq := .refl _
  ours := fun k i h => by have := hf _ h; unfold taskId at this; omega
  old := fun k i h => absurd h (Nat.not_lt_zero k)
  note := fun i h => by cases h
  region := fun h => absurd rfl h

/-- Task numbers of workers' hands are submitted and not done. -/
theorem Inv.hand {num : ℕ} {p0 : Pool} {s0 : σ} {x : FJState σ V} (h : Inv J num p0 s0 x) {w i : ℕ} (hw : w < x.pool.n)
    (hp : x.pool.pc w = .run (taskId x.k i)) : x.call ≠ .idle ∧ i < x.sent ∧ taskId x.k i ∉ x.pool.done := by
  obtain ⟨h1, h2⟩ := (task_runs_once h.reach).2.2.2 w hw _ hp
  have h3 : i < x.sent := by
    rcases h.ours _ _ h1 with h3 | h3
    · omega
    · exact h3.2
  refine ⟨fun hc => ?_, h3, h2⟩
  unfold sent at h3
  rw [hc] at h3
  exact Nat.not_lt_zero _ h3

theorem InRegion.op {x : FJState σ V} {r : Region V} {A : ℕ → Bool → ℕ → Prop} (h : InRegion J x r A) {i : ℕ} {p : Prog V Unit}
    {m : Bool → List V} (hnd : taskId x.k i ∉ x.pool.done) (hi : i ≤ x.num) (hg : i = x.num → ∀ j, x.call ≠ .get j) (hs : (x.prog i).step x.mem = some (p, m)) :
    InRegion J { x with prog := Function.update x.prog i p, mem := m } r A where
  start := h.start
  num := h.num
  disj := h.disj
  conf0 := h.conf0
  tail0 := h.tail0
  pinv := (h.pinv.step h.disj hs).1
  tail := fun j hj => by
    have : j ≠ i := by have := h.num; omega
    simp only [Function.update_of_ne this]
    exact h.tail j hj
  sentLe := h.sentLe
  sub := h.sub
  ret := fun j hj => by
    have : j ≠ i := fun e => hnd (e ▸ hj)
    simp only [Function.update_of_ne this]
    exact h.ret j hj
  got := fun j hj => by
    obtain ⟨h1, h2, h3⟩ := h.got j hj
    refine ⟨h1, ?_, h3⟩
    have : x.num ≠ i := fun e => hg e.symm j hj
    simp only [Function.update_of_ne this]
    exact h2

theorem InRegion.pool {x : FJState σ V} {r : Region V} {A : ℕ → Bool → ℕ → Prop} (h : InRegion J x r A) {l : Pool.Label} {p : Pool}
    (hs : Pool.Step x.pool l p) (ho : ∀ w, l = .worker w → ∀ i, x.pool.pc w = .run (taskId x.k i) → x.prog i = .ret ()) :
    InRegion J { x with pool := p } r A where
  start := h.start
  num := h.num
  disj := h.disj
  conf0 := h.conf0
  tail0 := h.tail0
  pinv := h.pinv
  tail := h.tail
  sentLe := h.sentLe
  sub := fun i hi => (done_grows hs).2.subset (h.sub i hi)
  ret := fun j hj => by
    rcases hs.ghost.2.1 _ hj with h1 | ⟨w, h1, h2⟩
    · exact h.ret j h1
    · exact ho w h1 j h2
  got := fun j hj => by
    obtain ⟨h1, h2, h3⟩ := h.got j hj
    exact ⟨h1, h2, fun i hi => (done_grows hs).1.subset (h3 i hi)⟩

/-- All programs of a region whose futures were all ready have finished. -/
theorem InRegion.all_ret {x : FJState σ V} {r : Region V} {A : ℕ → Bool → ℕ → Prop} (h : InRegion J x r A) {i : ℕ} (hc : x.call = .get i)
    (hi : ¬ i < x.num) (j : ℕ) : x.prog j = .ret () := by
  obtain ⟨h1, h2, h3⟩ := h.got i hc
  rcases lt_trichotomy j x.num with hj | hj | hj
  · exact h.ret j (h3 j (by omega))
  · rw [hj]; exact h2
  · exact h.tail j (by have := h.num; omega)

theorem Inv.step {num : ℕ} {p0 : Pool} {s0 : σ} {x y : FJState σ V} {l : FJLabel}
    (hJ : ∀ s r, J.Seq s0 s → J.start s = .ok (some r) → r.Indep) (h : Inv J num p0 s0 x) (hs : Step J x l y) : Inv J num p0 s0 y := by
  cases hs with
  | @pool l p hs ho =>
    have hg := hs.ghost
    have hnd : l ≠ .dtor := fun e => by subst e; exact ho
    refine ⟨h.reach.step hs, (hg.2.2.1 hnd).trans h.alive, hs.n_eq.trans h.n, h.seq, fun k i hk => ?_, fun k i hk hsub => ?_, fun i hi => ?_, fun hc => ?_⟩
    · rcases hg.1 _ hk with h1 | h1
      · exact h.ours k i h1
      · subst h1
        have : taskId k i % 2 = 1 := ho
        unfold taskId at this
        omega
    · rcases hg.1 _ hsub with h1 | h1
      · exact (done_grows hs).1.subset (h.old k i hk h1)
      · subst h1
        have : taskId k i % 2 = 1 := ho
        unfold taskId at this
        omega
    · have h0 := h.note i hi
      by_cases hl : l = .notify
      · subst hl
        have h1 : x.ownNotifies < x.pool.notifies := ho
        have hi' : x.call = .notify i := hi
        have h2 := hg.2.2.2.2.1 rfl
        unfold ownNotifies at h1
        rw [hi'] at h1
        simp only at h1
        show 0 < p.notifies
        omega
      · exact lt_of_lt_of_le h0 (hg.2.2.2.1 hl)
    · obtain ⟨r, A, hr⟩ := h.region hc
      exact ⟨r, A, hr.pool hs fun w e i hp => by subst e; exact ho i hp⟩
  | @op w i p m hw hp hi hst =>
    obtain ⟨h1, h2, h3⟩ := h.hand hw hp
    refine ⟨h.reach, h.alive, h.n, h.seq, h.ours, h.old, h.note, fun hc => ?_⟩
    obtain ⟨r, A, hr⟩ := h.region hc
    exact ⟨r, A, hr.op h3 hi.le (fun e => absurd e hi.ne) hst⟩
  | @fork r hc hst =>
    refine ⟨h.reach, h.alive, h.n, h.seq, fun k i hk => ?_, h.old, fun i hi => (by cases hi), fun _ => ?_⟩
    · rcases h.ours k i hk with h1 | ⟨h1, h2⟩
      · exact .inl h1
      · unfold sent at h2
        rw [hc] at h2
        exact absurd h2 (Nat.not_lt_zero _)
    · obtain ⟨A, h1, h2, h3⟩ := hJ _ _ h.seq hst
      refine ⟨r, A, hst, rfl, h1, h2, h3, PInv.init h2, h3, Nat.zero_le _, fun i hi => absurd hi (Nat.not_lt_zero _), fun i hi => ?_, fun i hi => (by cases hi)⟩
      have := (task_runs_once h.reach).2.1 _ hi
      rcases h.ours _ _ this with h4 | ⟨h4, h5⟩
      · exact absurd h4 (lt_irrefl _)
      · unfold sent at h5
        rw [hc] at h5
        exact absurd h5 (Nat.not_lt_zero _)
  | @submit i p hc hi hs =>
    have hg := hs.ghost
    obtain ⟨g1, g2, g3⟩ := hg.2.2.2.2.2 _ rfl
    refine ⟨h.reach.step hs, (hg.2.2.1 (by simp)).trans h.alive, hs.n_eq.trans h.n, h.seq, fun k j hk => ?_, fun k j hk hsub => ?_, fun j hj => ?_, fun _ => ?_⟩
    · rcases hg.1 _ hk with h1 | h1
      · rcases h.ours k j h1 with h2 | ⟨h2, h3⟩
        · exact .inl h2
        · refine .inr ⟨h2, ?_⟩
          unfold sent at h3 ⊢
          rw [hc] at h3
          simp only at h3 ⊢
          omega
      · injection h1 with h1
        obtain ⟨rfl, rfl⟩ := taskId_inj.1 h1
        exact .inr ⟨rfl, Nat.lt_succ_self _⟩
    · rcases hg.1 _ hsub with h1 | h1
      · exact (done_grows hs).1.subset (h.old k j hk h1)
      · injection h1 with h1
        obtain ⟨rfl, rfl⟩ := taskId_inj.1 h1
        exact absurd hk (lt_irrefl _)
    · show 0 < p.notifies
      omega
    · obtain ⟨r, A, hr⟩ := h.region (by rw [hc]; simp)
      have hr' := hr.pool hs fun w e => by cases e
      refine ⟨r, A, hr'.start, hr'.num, hr'.disj, hr'.conf0, hr'.tail0, hr'.pinv, hr'.tail, ?_, fun j hj => ?_, hr'.ret, fun j hj => (by cases hj)⟩
      · show i + 1 ≤ x.num
        omega
      · have hj : j < i + 1 := hj
        by_cases e : j = i
        · rw [e]; exact g1
        · refine hr'.sub j ?_
          show j < sent x
          unfold sent; rw [hc]
          show j < i
          omega
  | @notified i p hc hs =>
    have hg := hs.ghost
    have hsent : ∀ c, sent { x with pool := c, call := .queue (i + 1) } = x.sent := fun c => by unfold sent; rw [hc]
    refine ⟨h.reach.step hs, (hg.2.2.1 (by simp)).trans h.alive, hs.n_eq.trans h.n, h.seq, fun k j hk => ?_, fun k j hk hsub => ?_, fun j hj => (by cases hj), fun _ => ?_⟩
    · rcases hg.1 _ hk with h1 | h1
      · rw [hsent]; exact h.ours k j h1
      · cases h1
    · rcases hg.1 _ hsub with h1 | h1
      · exact (done_grows hs).1.subset (h.old k j hk h1)
      · cases h1
    · obtain ⟨r, A, hr⟩ := h.region (by rw [hc]; simp)
      have hr' := hr.pool hs fun w e => by cases e
      refine ⟨r, A, hr'.start, hr'.num, hr'.disj, hr'.conf0, hr'.tail0, hr'.pinv, hr'.tail, ?_, fun j hj => ?_, hr'.ret, fun j hj => (by cases hj)⟩
      · rw [hsent]; exact hr.sentLe
      · rw [hsent] at hj; exact hr'.sub j hj
  | @queued i hc hi =>
    obtain ⟨r, A, hr⟩ := h.region (by rw [hc]; simp)
    have hsent : x.sent = x.num := by
      have := hr.sentLe
      unfold sent at this ⊢; rw [hc] at this ⊢
      simp only at this ⊢
      omega
    refine ⟨h.reach, h.alive, h.n, h.seq, fun k j hk => ?_, h.old, fun j hj => (by cases hj), fun _ => ?_⟩
    · have := h.ours k j hk
      rw [hsent] at this
      exact this
    · refine ⟨r, A, hr.start, hr.num, hr.disj, hr.conf0, hr.tail0, hr.pinv, hr.tail, le_rfl, fun j hj => ?_, hr.ret, fun j hj => (by cases hj)⟩
      exact hr.sub j (by rw [hsent]; exact hj)
  | @ownOp p m hc hst =>
    refine ⟨h.reach, h.alive, h.n, h.seq, h.ours, h.old, h.note, fun hc' => ?_⟩
    obtain ⟨r, A, hr⟩ := h.region hc'
    refine ⟨r, A, hr.op (fun hd => ?_) le_rfl (fun _ j hj => by rw [hc] at hj; cases hj) hst⟩
    have := (task_runs_once h.reach).2.1 _ hd
    rcases h.ours _ _ this with h4 | ⟨h4, h5⟩
    · exact lt_irrefl _ h4
    · unfold sent at h5
      rw [hc] at h5
      exact lt_irrefl _ h5
  | ownEnd hc hret =>
    obtain ⟨r, A, hr⟩ := h.region (by rw [hc]; simp)
    have hsent : sent { x with call := .get 0 } = x.sent := by unfold sent; rw [hc]
    refine ⟨h.reach, h.alive, h.n, h.seq, fun k j hk => ?_, h.old, fun j hj => (by cases hj), fun _ => ?_⟩
    · rw [hsent]; exact h.ours k j hk
    · refine ⟨r, A, hr.start, hr.num, hr.disj, hr.conf0, hr.tail0, hr.pinv, hr.tail, le_rfl, fun j hj => ?_, hr.ret, fun j hj => ?_⟩
      · rw [hsent] at hj; exact hr.sub j hj
      · injection hj with hj
        subst hj
        exact ⟨Nat.zero_le _, hret, fun j hj => absurd hj (Nat.not_lt_zero _)⟩
  | @get i hc hi hd =>
    obtain ⟨r, A, hr⟩ := h.region (by rw [hc]; simp)
    have hsent : sent { x with call := .get (i + 1) } = x.sent := by unfold sent; rw [hc]
    refine ⟨h.reach, h.alive, h.n, h.seq, fun k j hk => ?_, h.old, fun j hj => (by cases hj), fun _ => ?_⟩
    · rw [hsent]; exact h.ours k j hk
    · refine ⟨r, A, hr.start, hr.num, hr.disj, hr.conf0, hr.tail0, hr.pinv, hr.tail, le_rfl, fun j hj => ?_, hr.ret, fun j hj => ?_⟩
      · rw [hsent] at hj; exact hr.sub j hj
      · injection hj with hj
        subst hj
        obtain ⟨h1, h2, h3⟩ := hr.got i hc
        refine ⟨hi, h2, fun j hj => ?_⟩
        by_cases e : j = i
        · rw [e]; exact hd
        · exact h3 j (by omega)
  | @join i hc hi =>
    obtain ⟨r, A, hr⟩ := h.region (by rw [hc]; simp)
    obtain ⟨h1, h2, h3⟩ := hr.got i hc
    have hm := hr.pinv.ret hr.disj hr.conf0 hr.tail0 (hr.all_ret hc hi)
    have hsent : x.sent = x.num := by unfold sent; rw [hc]
    refine ⟨h.reach, h.alive, h.n, .tail h.seq hr.start hm, fun k j hk => ?_, fun k j hk hsub => ?_, fun j hj => (by cases hj), fun hc => absurd rfl hc⟩
    · left
      show k < x.k + 1
      rcases h.ours k j hk with h4 | h4 <;> omega
    · have hk : k < x.k + 1 := hk
      rcases h.ours k j hsub with h4 | ⟨h4, h5⟩
      · exact h.old k j h4 hsub
      · rw [hsent] at h5
        subst h4
        exact h3 j (by omega)

theorem Inv.exec {num : ℕ} {p0 : Pool} {s0 : σ} {x y : FJState σ V} {ls : List FJLabel}
    (hJ : ∀ s r, J.Seq s0 s → J.start s = .ok (some r) → r.Indep) (h : Inv J num p0 s0 x) (he : Exec J x ls y) : Inv J num p0 s0 y := by
  induction he with
  | nil => exact h
  | snoc _ hs ih => exact ih.step hJ hs

theorem Inv.no_race {num : ℕ} {p0 : Pool} {s0 : σ} {x : FJState σ V} (h : Inv J num p0 s0 x) : ¬ x.Race := by
  rintro ⟨a, a', i, j, b, e, w, w', hne, hi, hj, h1, h2, -⟩
  have hact : x.call ≠ .idle := by
    cases a with
    | none => rw [hi.1]; simp
    | some v => exact (h.hand hi.1 hi.2).1
  obtain ⟨r, A, hr⟩ := h.region hact
  have hij : i = j := hr.disj i j b e (next_conf (hr.pinv.conf i) h1) (next_conf (hr.pinv.conf j) h2)
  subst hij
  have aux : ∀ v, x.At (some v) i → ¬ x.At none i := by
    rintro v h3 ⟨h4, h5⟩
    have := (h.hand h3.1 h3.2).2.1
    unfold sent at this
    rw [h4] at this
    simp only at this
    omega
  cases a with
  | none =>
    cases a' with
    | none => exact hne rfl
    | some v => exact aux v hj hi
  | some v =>
    cases a' with
    | none => exact aux v hi hj
    | some v' => exact hne (congrArg some ((task_runs_once h.reach).2.2.1 v hi.1 v' hj.1 _ hi.2 hj.2))

/-! ## progress -/

/-- Steps the calling thread still takes in the current region; each submission counts `W + 2`. -/
def rem (W num : ℕ) : Caller → ℕ
  | .idle => 0
  | .queue i => (num - i) * (W + 2) + num + 3
  | .notify i => (num - (i + 1)) * (W + 2) + num + 3
  | .own => num + 2
  | .get i => num - i + 1

end FJState

/-- Sequential execution of the regions to the end, with an upper bound of the steps of all threads. -/
inductive Job.Run (J : Job σ V) (W : ℕ) : σ → σ → ℕ → Prop
  | done {s : σ} : J.start s = .ok none → Job.Run J W s s 0
  | step {s e : σ} {r : Region V} {m : Bool → List V} {N : ℕ} : J.start s = .ok (some r) → seq r.prog (r.num + 1) r.mem = .ok m →
      Job.Run J W (J.finish s m) e N →
      Job.Run J W s e (N + (1 + FJState.rem W r.num (.queue 0) + ∑ i ∈ range (r.num + 1), (r.prog i).cost r.mem))

namespace FJState

variable {J : Job σ V}

/-- `N` bounds the number of steps left. -/
inductive Budget (J : Job σ V) (W : ℕ) (e : σ) : FJState σ V → ℕ → Prop
  | idle {x : FJState σ V} {N : ℕ} : x.call = .idle → J.Run W x.s e N → Budget J W e x (x.pool.potential + N)
  | busy {x : FJState σ V} {r : Region V} {m : Bool → List V} {N : ℕ} : x.call ≠ .idle → J.start x.s = .ok (some r) →
      seq r.prog (r.num + 1) r.mem = .ok m → J.Run W (J.finish x.s m) e N →
      Budget J W e x (x.pool.potential + N + rem W x.num x.call + ∑ i ∈ range (x.num + 1), (x.prog i).cost x.mem)

theorem sum_cost_step {A : ℕ → Bool → ℕ → Prop} {th0 th : ℕ → Prog V Unit} {m0 m m' : Bool → List V} (h : PInv A th0 m0 th m) (hA : Disj A)
    {i : ℕ} {p : Prog V Unit} (hs : (th i).step m = some (p, m')) {n : ℕ} (hi : i < n) :
    ∑ j ∈ range n, (Function.update th i p j).cost m' + 1 = ∑ j ∈ range n, (th j).cost m := by
  obtain ⟨-, h2, h3⟩ := h.step hA hs
  have := Pool.sum_change hi (f := fun j => (Function.update th i p j).cost m') (g := fun j => (th j).cost m) fun v _ hv => by
    rw [Function.update_of_ne hv]; exact h3 v hv
  simp only [Function.update_self] at this
  omega

theorem Budget.step {num : ℕ} {p0 : Pool} {s0 e : σ} {x y : FJState σ V} {l : FJLabel} {N : ℕ} (h : Inv J num p0 s0 x)
    (hb : Budget J (Pool.grow p0.n) e x N) (hs : Step J x l y) :
    ∃ N', Budget J (Pool.grow p0.n) e y N' ∧ (l.isWork = true → N' + 1 ≤ N) ∧ N' ≤ N + Pool.grow p0.n := by
  have hpinv := h.reach.inv
  cases hs with
  | @pool l p hs ho =>
    have hle := hs.potential_le hpinv
    rw [h.n] at hle
    have hlt : (FJLabel.pool l).isWork = true → p.potential + 1 ≤ x.pool.potential := by
      intro hw
      refine hs.potential_lt hpinv ?_
      cases l <;> simp [FJLabel.isWork, Pool.Label.isWork] at hw ⊢
    cases hb with
    | @idle N h1 h2 =>
      refine ⟨p.potential + N, .idle (x := { x with pool := p }) h1 h2, fun hw => ?_, by omega⟩
      have := hlt hw
      omega
    | @busy r m N h1 h2 h3 h4 =>
      refine ⟨_, .busy (x := { x with pool := p }) h1 h2 h3 h4, fun hw => ?_, ?_⟩
      · have := hlt hw
        simp only
        omega
      · simp only
        omega
  | @op w i p m hw hp hi hst =>
    cases hb with
    | idle h1 h2 => exact absurd h1 (h.hand hw hp).1
    | @busy r m' N h1 h2 h3 h4 =>
      obtain ⟨r', A, hr⟩ := h.region h1
      have := sum_cost_step hr.pinv hr.disj hst (n := x.num + 1) (by omega)
      refine ⟨_, .busy (x := { x with prog := Function.update x.prog i p, mem := m }) h1 h2 h3 h4, fun _ => ?_, ?_⟩ <;>
      · simp only
        omega
  | @fork r hc hst =>
    cases hb with
    | busy h1 => exact absurd hc h1
    | @idle N h1 h2 =>
      cases h2 with
      | done h3 => rw [h3] at hst; simp at hst
      | @step _ _ r' m N h3 h4 h5 =>
        rw [h3] at hst
        simp only [Except.ok.injEq, Option.some.injEq] at hst
        subst hst
        refine ⟨_, .busy (x := { x with call := .queue 0, num := r'.num, prog := r'.prog, mem := r'.mem }) (by simp) h3 h4 h5, fun _ => ?_, ?_⟩ <;>
        · simp only
          omega
  | @submit i p hc hi hs =>
    have hle := hs.potential_le hpinv
    rw [h.n] at hle
    cases hb with
    | idle h1 => rw [hc] at h1; cases h1
    | @busy r m' N h1 h2 h3 h4 =>
      have hrem : rem (Pool.grow p0.n) x.num (.notify i) + (Pool.grow p0.n + 2) = rem (Pool.grow p0.n) x.num x.call := by
        rw [hc]
        simp only [rem]
        obtain ⟨k, hk⟩ : ∃ k, x.num - i = k + 1 := ⟨x.num - i - 1, by omega⟩
        rw [show x.num - (i + 1) = k by omega, hk]
        ring
      refine ⟨_, .busy (x := { x with pool := p, call := .notify i }) (by simp) h2 h3 h4, fun _ => ?_, ?_⟩ <;>
      · simp only
        omega
  | @notified i p hc hs =>
    have hlt := hs.potential_lt hpinv rfl
    cases hb with
    | idle h1 => rw [hc] at h1; cases h1
    | @busy r m' N h1 h2 h3 h4 =>
      have hrem : rem (Pool.grow p0.n) x.num (.queue (i + 1)) = rem (Pool.grow p0.n) x.num x.call := by rw [hc]; rfl
      refine ⟨_, .busy (x := { x with pool := p, call := .queue (i + 1) }) (by simp) h2 h3 h4, fun _ => ?_, ?_⟩ <;>
      · simp only
        omega
  | @queued i hc hi =>
    cases hb with
    | idle h1 => rw [hc] at h1; cases h1
    | @busy r m' N h1 h2 h3 h4 =>
      have hrem : rem (Pool.grow p0.n) x.num .own + 1 ≤ rem (Pool.grow p0.n) x.num x.call := by rw [hc]; simp only [rem]; omega
      refine ⟨_, .busy (x := { x with call := .own }) (by simp) h2 h3 h4, fun _ => ?_, ?_⟩ <;>
      · simp only
        omega
  | @ownOp p m hc hst =>
    cases hb with
    | idle h1 => rw [hc] at h1; cases h1
    | @busy r m' N h1 h2 h3 h4 =>
      obtain ⟨r', A, hr⟩ := h.region h1
      have := sum_cost_step hr.pinv hr.disj hst (n := x.num + 1) (by omega)
      refine ⟨_, .busy (x := { x with prog := Function.update x.prog x.num p, mem := m }) h1 h2 h3 h4, fun _ => ?_, ?_⟩ <;>
      · simp only
        omega
  | ownEnd hc hret =>
    cases hb with
    | idle h1 => rw [hc] at h1; cases h1
    | @busy r m' N h1 h2 h3 h4 =>
      have hrem : rem (Pool.grow p0.n) x.num (.get 0) + 1 ≤ rem (Pool.grow p0.n) x.num x.call := by rw [hc]; simp only [rem]; omega
      refine ⟨_, .busy (x := { x with call := .get 0 }) (by simp) h2 h3 h4, fun _ => ?_, ?_⟩ <;>
      · simp only
        omega
  | @get i hc hi hd =>
    cases hb with
    | idle h1 => rw [hc] at h1; cases h1
    | @busy r m' N h1 h2 h3 h4 =>
      have hrem : rem (Pool.grow p0.n) x.num (.get (i + 1)) + 1 ≤ rem (Pool.grow p0.n) x.num x.call := by rw [hc]; simp only [rem]; omega
      refine ⟨_, .busy (x := { x with call := .get (i + 1) }) (by simp) h2 h3 h4, fun _ => ?_, ?_⟩ <;>
      · simp only
        omega
  | @join i hc hi =>
    cases hb with
    | idle h1 => rw [hc] at h1; cases h1
    | @busy r m' N h1 h2 h3 h4 =>
      obtain ⟨r', A, hr⟩ := h.region h1
      have hm := hr.pinv.ret hr.disj hr.conf0 hr.tail0 (hr.all_ret hc hi)
      have e1 := hr.start
      rw [h2] at e1
      simp only [Except.ok.injEq, Option.some.injEq] at e1
      subst e1
      rw [h3] at hm
      injection hm with hm
      subst hm
      have hrem : 1 ≤ rem (Pool.grow p0.n) x.num x.call := by rw [hc]; simp only [rem]; omega
      refine ⟨_, .idle (x := { x with s := J.finish x.s x.mem, k := x.k + 1, call := .idle }) rfl h4, fun _ => ?_, ?_⟩ <;>
      · simp only
        omega

theorem Budget.exec {num : ℕ} {p0 : Pool} {s0 e : σ} {x y : FJState σ V} {ls : List FJLabel} {N : ℕ}
    (hJ : ∀ s r, J.Seq s0 s → J.start s = .ok (some r) → r.Indep) (h : Inv J num p0 s0 x)
    (hb : Budget J (Pool.grow p0.n) e x N) (he : Exec J x ls y) :
    ∃ N', Budget J (Pool.grow p0.n) e y N' ∧ ls.length + N' ≤ N + (Pool.grow p0.n + 1) * ls.countP (fun l => !l.isWork) := by
  induction he with
  | nil => exact ⟨N, hb, by simp⟩
  | @snoc y z ls l he hs ih =>
    obtain ⟨N', h1, h2⟩ := ih
    obtain ⟨N'', h3, h4, h5⟩ := h1.step (h.exec hJ he) hs
    refine ⟨N'', h3, ?_⟩
    rw [List.length_append, List.countP_append, List.length_singleton, List.countP_singleton]
    by_cases hw : l.isWork = true
    · have := h4 hw
      simp only [hw, Bool.not_true, Bool.false_eq_true, if_false, add_zero]
      omega
    · simp only [hw, Bool.not_false, if_true]
      rw [mul_add, mul_one]
      omega

/-- A state that is not the end has a step, and no thread has failed. -/
theorem Budget.progress {num : ℕ} {p0 : Pool} {s0 e : σ} {x : FJState σ V} {N : ℕ} (h : Inv J num p0 s0 x)
    (hb : Budget J (Pool.grow p0.n) e x N) :
    ¬ x.Failed ∧ ((x.Done J ∧ x.s = e) ∨ ∃ l y, l.isWork = true ∧ Step J x l y) := by
  have hidle : x.call = .idle → ¬ x.Failed := by
    rintro hc ⟨a, i, h1, -, -⟩
    cases a with
    | none => rw [h1.1] at hc; cases hc
    | some w => exact (h.hand h1.1 h1.2).1 hc
  cases hb with
  | @idle N h1 h2 =>
    refine ⟨hidle h1, ?_⟩
    cases h2 with
    | done h3 => exact .inl ⟨⟨h1, h3⟩, rfl⟩
    | step h3 h4 h5 => exact .inr ⟨.caller, _, rfl, .fork h1 h3⟩
  | @busy r m N h1 h2 h3 h4 =>
    obtain ⟨r', A, hr⟩ := h.region h1
    have e1 := hr.start
    rw [h2] at e1
    simp only [Except.ok.injEq, Option.some.injEq] at e1
    subst e1
    have hns := hr.pinv.not_stuck hr.disj hr.conf0 hr.tail0 h3
    refine ⟨?_, .inr ?_⟩
    · rintro ⟨a, i, -, hne, hst⟩
      obtain ⟨q, hq⟩ := hns i hne
      rw [hq] at hst; cases hst
    -- a worker whose task is not finished
    have hpool : ∀ l p, l.isWork = true → x.ownNotifies = 0 → Pool.Step x.pool l p → ∃ l y, FJLabel.isWork l = true ∧ Step J x l y := by
      intro l p hl hz hs
      cases l with
      | worker w =>
        by_cases ho : ∀ i, x.pool.pc w = .run (taskId x.k i) → x.prog i = .ret ()
        · exact ⟨_, _, rfl, .pool hs ho⟩
        · push Not at ho
          obtain ⟨i, hp, hne⟩ := ho
          obtain ⟨⟨q, m'⟩, hq⟩ := hns i hne
          have hw : w < x.pool.n := by cases hs; assumption
          exact ⟨_, _, rfl, .op hw hp (lt_of_lt_of_le (h.hand hw hp).2.1 hr.sentLe) hq⟩
      | notify =>
        refine ⟨_, _, rfl, .pool hs ?_⟩
        show x.ownNotifies < x.pool.notifies
        rw [hz]
        cases hs <;> assumption
      | submit t => cases hl
      | spurious w => cases hl
      | dtor => cases hl
    cases hc : x.call with
    | idle => exact absurd hc h1
    | queue i =>
      by_cases hi : i < x.num
      · cases ho : x.pool.owner with
        | none =>
          have hsubmit : x.pool.submit (taskId x.k i) = some { x.pool with mainQ := x.pool.mainQ ++ [taskId x.k i], submitted := x.pool.submitted ++ [taskId x.k i], notifies := x.pool.notifies + 1 } := by
            unfold Pool.submit
            rw [if_neg (by rw [ho]; simp)]
          refine ⟨.caller, _, rfl, .submit hc hi (.submit h.alive (fun hsub => ?_) hsubmit)⟩
          rcases h.ours _ _ hsub with h5 | ⟨-, h5⟩
          · exact lt_irrefl _ h5
          · unfold sent at h5; rw [hc] at h5; exact lt_irrefl _ h5
        | some w =>
          obtain ⟨g1, ⟨p, g2⟩, g3⟩ := h.reach.inv.owner_step ho
          exact hpool (.worker w) p rfl (by unfold ownNotifies; rw [hc]) (.worker g1 g2)
      · exact ⟨.caller, _, rfl, .queued hc hi⟩
    | notify i =>
      have hk := h.note i hc
      by_cases hx : ∃ w < x.pool.n, x.pool.pc w = .asleep
      · obtain ⟨w, hw, hp⟩ := hx
        exact ⟨.caller, _, rfl, .notified hc (.notify hk hw hp)⟩
      · push Not at hx
        exact ⟨.caller, _, rfl, .notified hc (.notifyNone hk hx)⟩
    | own =>
      by_cases hret : x.prog x.num = .ret ()
      · exact ⟨.caller, _, rfl, .ownEnd hc hret⟩
      · obtain ⟨⟨q, m'⟩, hq⟩ := hns _ hret
        exact ⟨.caller, _, rfl, .ownOp hc hq⟩
    | get i =>
      by_cases hi : i < x.num
      · by_cases hd : taskId x.k i ∈ x.pool.done
        · exact ⟨.caller, _, rfl, .get hc hi hd⟩
        · have hsub := hr.sub i (by unfold sent; rw [hc]; exact hi)
          obtain ⟨l, p, hl, hs⟩ := pool_no_deadlock h.reach h.alive hsub hd
          exact hpool l p hl (by unfold ownNotifies; rw [hc]) hs
      · exact ⟨.caller, _, rfl, .join hc hi⟩

end FJState

end Intp
