import Verif.Unwind
import Verif.Proofs.ForkJoin

/-! # Invariants of parallel regions with exceptions -/

namespace Intp

variable {σ V : Type} {J : Job σ V}

/-- What the calling thread knows about its tasks, whatever they do. -/
structure FJState.FInv (num : ℕ) (x : FJState σ V) : Prop where
  reach : Pool.Reachable num x.pool
  alive : x.pool.dtor = .alive
  ours : ∀ k i, taskId k i ∈ x.pool.submitted → k < x.k ∨ (k = x.k ∧ i < x.sent)
  old : ∀ k i, k < x.k → taskId k i ∈ x.pool.submitted → taskId k i ∈ x.pool.done
  sentLe : x.call ≠ .idle → x.sent ≤ x.num
  got : ∀ i, x.call = .get i → i ≤ x.num ∧ ∀ j < i, taskId x.k j ∈ x.pool.done

namespace FJState

theorem FInv.init {num : ℕ} {p0 : Pool} {s0 : σ} (hp : Pool.Reachable num p0) (ha : p0.dtor = .alive) (hf : ∀ t ∈ p0.submitted, t % 2 = 1) :
    FInv num (init p0 s0 : FJState σ V) where
  reach := hp
  alive := ha
  ours := fun k i h => by have := hf _ h; unfold taskId at this; omega
  old := fun k i h => absurd h (Nat.not_lt_zero k)
  sentLe := fun h => absurd rfl h
  got := fun i h => by cases h

/-- Steps of the pool that are not the caller's. -/
theorem FInv.pool {num : ℕ} {x : FJState σ V} (h : FInv num x) {l : Pool.Label} {p : Pool} (hs : Pool.Step x.pool l p) (hnd : l ≠ .dtor)
    (ho : ∀ t, l = .submit t → t % 2 = 1) : FInv num { x with pool := p } := by
  have hg := hs.ghost
  have hd := (done_grows hs).1.subset
  have hsub : ∀ k i, taskId k i ∈ p.submitted → taskId k i ∈ x.pool.submitted := fun k i hk => by
    rcases hg.1 _ hk with h1 | h1
    · exact h1
    · have := ho _ h1
      unfold taskId at this
      omega
  exact ⟨h.reach.step hs, (hg.2.2.1 hnd).trans h.alive, fun k i hk => h.ours k i (hsub k i hk), fun k i hk hi => hd (h.old k i hk (hsub k i hi)), h.sentLe,
    fun i hi => ⟨(h.got i hi).1, fun j hj => hd ((h.got i hi).2 j hj)⟩⟩

theorem FInv.step {num : ℕ} {x y : FJState σ V} {l : FJLabel} (h : FInv num x) (hs : Step J x l y) : FInv num y := by
  cases hs with
  | @pool l p hs ho => exact h.pool hs (fun e => by subst e; exact ho) (fun t e => by subst e; exact ho)
  | @op w i p m hw hp hi hst => exact ⟨h.reach, h.alive, h.ours, h.old, h.sentLe, h.got⟩
  | @fork r hc hst =>
    refine ⟨h.reach, h.alive, fun k i hk => ?_, h.old, fun _ => Nat.zero_le _, fun i hi => (by cases hi)⟩
    rcases h.ours k i hk with h1 | ⟨h1, h2⟩
    · exact .inl h1
    · unfold sent at h2
      rw [hc] at h2
      exact absurd h2 (Nat.not_lt_zero _)
  | @submit i p hc hi hs =>
    have hg := hs.ghost
    refine ⟨h.reach.step hs, (hg.2.2.1 (by simp)).trans h.alive, fun k j hk => ?_, fun k j hk hsub => ?_, fun _ => hi, fun j hj => (by cases hj)⟩
    · rcases hg.1 _ hk with h1 | h1
      · rcases h.ours k j h1 with h2 | ⟨h2, h3⟩
        · exact .inl h2
        · refine .inr ⟨h2, ?_⟩
          unfold sent at h3 ⊢
          rw [hc] at h3
          simp only at h3 ⊢
          omega
      · injection h1 with h1
        obtain ⟨rfl, rfl⟩ := taskId_inj.1 h1
        exact .inr ⟨rfl, Nat.lt_succ_self _⟩
    · rcases hg.1 _ hsub with h1 | h1
      · exact (done_grows hs).1.subset (h.old k j hk h1)
      · injection h1 with h1
        obtain ⟨rfl, rfl⟩ := taskId_inj.1 h1
        exact absurd hk (lt_irrefl _)
  | @notified i p hc hs =>
    have hp := h.pool hs (by simp) (fun t e => by cases e)
    have hsent : ∀ c, sent { x with pool := c, call := .queue (i + 1) } = x.sent := fun c => by unfold sent; rw [hc]
    refine ⟨hp.reach, hp.alive, fun k j hk => ?_, hp.old, fun _ => ?_, fun j hj => (by cases hj)⟩
    · rw [hsent]; exact hp.ours k j hk
    · rw [hsent]; exact h.sentLe (by rw [hc]; simp)
  | @queued i hc hi =>
    have hle := h.sentLe (by rw [hc]; simp)
    have hsent : x.sent = x.num := by
      unfold sent at hle ⊢; rw [hc] at hle ⊢
      simp only at hle ⊢
      omega
    refine ⟨h.reach, h.alive, fun k j hk => ?_, h.old, fun _ => le_rfl, fun j hj => (by cases hj)⟩
    have := h.ours k j hk
    rw [hsent] at this
    exact this
  | @ownOp p m hc hst => exact ⟨h.reach, h.alive, h.ours, h.old, h.sentLe, h.got⟩
  | ownEnd hc hret =>
    have hsent : sent { x with call := .get 0 } = x.sent := by unfold sent; rw [hc]
    refine ⟨h.reach, h.alive, fun k j hk => ?_, h.old, fun _ => le_rfl, fun j hj => ?_⟩
    · rw [hsent]; exact h.ours k j hk
    · injection hj with hj
      subst hj
      exact ⟨Nat.zero_le _, fun j hj => absurd hj (Nat.not_lt_zero _)⟩
  | @get i hc hi hd =>
    have hsent : sent { x with call := .get (i + 1) } = x.sent := by unfold sent; rw [hc]
    refine ⟨h.reach, h.alive, fun k j hk => ?_, h.old, fun _ => le_rfl, fun j hj => ?_⟩
    · rw [hsent]; exact h.ours k j hk
    · injection hj with hj
      subst hj
      refine ⟨hi, fun j hj => ?_⟩
      by_cases e : j = i
      · rw [e]; exact hd
      · exact (h.got i hc).2 j (by omega)
  | @join i hc hi =>
    have hsent : x.sent = x.num := by unfold sent; rw [hc]
    refine ⟨h.reach, h.alive, fun k j hk => ?_, fun k j hk hsub => ?_, fun hc => absurd rfl hc, fun j hj => (by cases hj)⟩
    · left
      show k < x.k + 1
      rcases h.ours k j hk with h4 | h4 <;> omega
    · have hk : k < x.k + 1 := hk
      rcases h.ours k j hsub with h4 | ⟨h4, h5⟩
      · exact h.old k j h4 hsub
      · rw [hsent] at h5
        subst h4
        exact (h.got i hc).2 j (by omega)

/-- What a step that is not the caller's leaves unchanged. -/
theorem Step.others {x y : FJState σ V} {l : FJLabel} (hs : Step J x l y) (hl : l ≠ .caller) :
    y.call = x.call ∧ y.num = x.num ∧ y.k = x.k ∧ ∀ t ∈ x.pool.done, t ∈ y.pool.done := by
  cases hs with
  | pool hs _ => exact ⟨rfl, rfl, rfl, fun t ht => (done_grows hs).1.subset ht⟩
  | op => exact ⟨rfl, rfl, rfl, fun t ht => ht⟩
  | _ => exact absurd rfl hl

end FJState

namespace UState

open FJState Finset

/-- Invariant of executions with exceptions. -/
structure Inv (num : ℕ) (x : UState σ V) : Prop where
  fj : x.fj.FInv num
  fail : x.left = false → ∀ i, x.failed i = true → x.fj.call ≠ .idle ∧ i < x.fj.num ∧ ∀ j, x.fj.call = .get j → j ≤ i
  gotLeft : x.left = true → x.fj.call ≠ .idle ∧ ∀ i, x.fj.call = .get i → taskId x.fj.k i ∈ x.fj.pool.done

theorem Inv.init {num : ℕ} {p0 : Pool} {s0 : σ} (hp : Pool.Reachable num p0) (ha : p0.dtor = .alive) (hf : ∀ t ∈ p0.submitted, t % 2 = 1) :
    Inv num (init p0 s0 : UState σ V) :=
  ⟨.init hp ha hf, fun _ i h => (by cases h), fun h => (by cases h)⟩

theorem Inv.step {num : ℕ} {x y : UState σ V} (h : Inv num x) (hs : Step J x y) : Inv num y := by
  cases hs with
  | @run l z hs hc =>
    refine ⟨h.fj.step hs, fun hl i hi => ?_, fun hl => ?_⟩
    · obtain ⟨h1, h2, h3⟩ := h.fail hl i hi
      have hi : x.failed i = true := hi
      by_cases hcl : l = .caller
      · have h4 := (hc hcl).2
        cases hs with
        | pool => cases hcl
        | op => cases hcl
        | fork e => exact absurd e h1
        | submit e => exact ⟨by simp, h2, fun j hj => by cases hj⟩
        | notified e => exact ⟨by simp, h2, fun j hj => by cases hj⟩
        | queued e => exact ⟨by simp, h2, fun j hj => by cases hj⟩
        | ownOp e => exact ⟨h1, h2, h3⟩
        | ownEnd e => exact ⟨by simp, h2, fun j hj => by cases hj; exact Nat.zero_le _⟩
        | @get k e e1 =>
          refine ⟨by simp, h2, fun j hj => ?_⟩
          cases hj
          have h5 := h3 k e
          have h6 := h4 k e e1
          rcases h5.lt_or_eq with h7 | rfl
          · exact h7
          · rw [hi] at h6; cases h6
        | @join k e e1 => have := h3 k e; omega
      · obtain ⟨e1, e2, e3, e4⟩ := hs.others hcl
        exact ⟨by show z.call ≠ _; rw [e1]; exact h1, by show i < z.num; rw [e2]; exact h2, fun j hj => h3 j (by rw [← e1]; exact hj)⟩
    · have hcl : l ≠ .caller := fun e => by
        have h1 := (hc e).1
        have hl : x.left = true := hl
        rw [h1] at hl; cases hl
      obtain ⟨e1, e2, e3, e4⟩ := hs.others hcl
      obtain ⟨h1, h2⟩ := h.gotLeft hl
      exact ⟨by show z.call ≠ _; rw [e1]; exact h1, fun i hi => by
        have : taskId z.k i ∈ z.pool.done := by rw [e3]; exact e4 _ (h2 i (by rw [← e1]; exact hi))
        exact this⟩
  | @task w i hw hp hi hret =>
    refine ⟨⟨h.fj.reach, h.fj.alive, h.fj.ours, h.fj.old, h.fj.sentLe, h.fj.got⟩, fun hl j hj => ?_, h.gotLeft⟩
    by_cases e : j = i
    · subst e
      obtain ⟨h1, h2⟩ := (task_runs_once h.fj.reach).2.2.2 w hw _ hp
      have h3 : j < x.fj.sent := by
        rcases h.fj.ours _ _ h1 with h3 | h3
        · omega
        · exact h3.2
      refine ⟨fun hc => ?_, hi, fun k hk => ?_⟩
      · unfold sent at h3
        rw [show x.fj.call = .idle from hc] at h3
        exact absurd h3 (Nat.not_lt_zero _)
      · by_contra hlt
        exact h2 ((h.fj.got k hk).2 j (by omega))
    · have hj : Function.update x.failed i true j = true := hj
      rw [Function.update_of_ne e] at hj
      exact h.fail hl j hj
  | @submit i hl hc hi => exact ⟨h.fj, fun e => (by cases e), fun _ => ⟨(by show x.fj.call ≠ _; rw [hc]; simp), fun j hj => by rw [show x.fj.call = .get j from hj] at hc; cases hc⟩⟩
  | own hl hc hi => exact ⟨h.fj, fun e => (by cases e), fun _ => ⟨(by show x.fj.call ≠ _; rw [hc]; simp), fun j hj => by rw [show x.fj.call = .get j from hj] at hc; cases hc⟩⟩
  | @get i hl hc hi hd hf => exact ⟨h.fj, fun e => (by cases e), fun _ => ⟨(by show x.fj.call ≠ _; rw [hc]; simp), fun j hj => by
      rw [show x.fj.call = .get j from hj] at hc; cases hc; exact hd⟩⟩

theorem Inv.exec {num : ℕ} {x y : UState σ V} (h : Inv num x) (he : Exec J x y) : Inv num y := by
  induction he with
  | nil => exact h
  | snoc _ hs ih => exact ih.step hs

/-- An execution in which nothing has failed is one without exceptions. -/
theorem Exec.plain {x y : UState σ V} (he : Exec J x y) (hl : y.left = false) (hf : ∀ i, y.failed i = false) : ∃ ls, FJState.Exec J x.fj ls y.fj := by
  induction he with
  | nil => exact ⟨_, .nil _⟩
  | snoc _ hs ih =>
    cases hs with
    | run hs _ =>
      obtain ⟨ls, h⟩ := ih hl hf
      exact ⟨_, .snoc h hs⟩
    | @task w i => have := hf i; simp at this
    | submit => cases hl
    | own => cases hl
    | get => cases hl

/-- Tasks done are in no queue and in no hand. -/
theorem not_pending {num : ℕ} {x : UState σ V} (h : x.fj.FInv num) {t : ℕ} (ht : t ∉ x.fj.pool.submitted ∨ t ∈ x.fj.pool.done) : ¬ x.Pending t := by
  have hcount := task_in_one_place h.reach t
  have hz : x.fj.pool.mainQ.count t + ∑ w ∈ range x.fj.pool.n, (x.fj.pool.wq w).count t + ((range x.fj.pool.n).filter fun w => x.fj.pool.pc w = .run t).card = 0 := by
    rcases ht with h | h
    · rw [if_neg h] at hcount; omega
    · have := List.count_pos_iff.2 h
      split at hcount <;> omega
  rintro (h | ⟨w, hw, h | h⟩)
  · have := List.count_pos_iff.2 h
    omega
  · have h1 := List.count_pos_iff.2 h
    have h2 : (x.fj.pool.wq w).count t ≤ ∑ w ∈ range x.fj.pool.n, (x.fj.pool.wq w).count t :=
      single_le_sum (f := fun w => (x.fj.pool.wq w).count t) (fun _ _ => Nat.zero_le _) (mem_range.2 hw)
    omega
  · have : 0 < ((range x.fj.pool.n).filter fun w => x.fj.pool.pc w = .run t).card := card_pos.2 ⟨w, by simp [hw, h]⟩
    omega

end UState

end Intp
