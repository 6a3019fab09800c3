import Verif.Nested
import Verif.Proofs.ForkJoin

/-!
# Tasks that use the pool they run on: invariants and progress
-/

namespace Intp

open Finset

namespace Pool

/-- A worker at one of these positions, with an empty queue of its own, will look into the main queue before anything else. -/
def Toward : WPc → Bool
  | .relock | .pred | .unlock | .top | .popOwn | .popMain => true
  | .moving c => c == 0
  | _ => false

/-- Worker `w` will look into the main queue next. -/
def enroute (s : Pool) (w : ℕ) : Bool := (s.wq w).isEmpty && Toward (s.pc w)

/-- Number of workers that will look into the main queue next. -/
def enroutes (s : Pool) : ℕ := ((range s.n).filter fun w => s.enroute w = true).card

/-- Order of the tasks in the queues, and enough workers on their way to the main queue. -/
structure Ord (s : Pool) : Prop where
  main : s.mainQ.Sublist s.submitted
  wq : ∀ w < s.n, (s.wq w).Sublist s.submitted
  moving : ∀ w < s.n, ∀ c, s.pc w = .moving c → (s.wq w ++ s.mainQ).Sublist s.submitted
  run : ∀ w < s.n, ∀ t, s.pc w = .run t → s.wq w = [] ∨ (s.wq w ++ [t]).Sublist s.submitted
  en : s.stop = false → (∃ w < s.n, s.pc w = .asleep) → s.mainQ.length ≤ s.notifies + s.enroutes

theorem init_ord (num : ℕ) : (init num).Ord :=
  ⟨List.Sublist.refl _, fun _ _ => List.Sublist.refl _, fun _ _ _ h => by simp [init] at h, fun _ _ _ h => by simp [init] at h,
    fun _ _ => Nat.zero_le _⟩

theorem enroutes_le {s s' : Pool} (hn : s'.n = s.n) (h : ∀ w < s.n, s.enroute w = true → s'.enroute w = true) : s.enroutes ≤ s'.enroutes := by
  unfold enroutes
  rw [hn]
  refine card_le_card fun w hw => ?_
  rw [mem_filter, mem_range] at hw ⊢
  exact ⟨hw.1, h w hw.1 hw.2⟩

theorem enroutes_le_succ {s s' : Pool} {w : ℕ} (hn : s'.n = s.n) (h : ∀ v < s.n, v ≠ w → s.enroute v = true → s'.enroute v = true) :
    s.enroutes ≤ s'.enroutes + 1 := by
  unfold enroutes
  rw [hn]
  refine (card_le_card (t := insert w ((range s.n).filter fun w => s'.enroute w = true)) fun v hv => ?_).trans (card_insert_le _ _)
  rw [mem_filter, mem_range] at hv
  rw [mem_insert, mem_filter, mem_range]
  by_cases e : v = w
  · exact .inl e
  · exact .inr ⟨hv.1, h v hv.1 e hv.2⟩

theorem enroutes_succ_le {s s' : Pool} {w : ℕ} (hw : w < s.n) (hn : s'.n = s.n) (h : ∀ v < s.n, v ≠ w → s.enroute v = true → s'.enroute v = true)
    (h0 : s.enroute w = false) (h1 : s'.enroute w = true) : s.enroutes + 1 ≤ s'.enroutes := by
  unfold enroutes
  rw [hn]
  have hx : w ∉ (range s.n).filter fun w => s.enroute w = true := by simp [h0]
  rw [← card_insert_of_notMem hx]
  refine card_le_card fun v hv => ?_
  rw [mem_insert, mem_filter, mem_range] at hv
  rw [mem_filter, mem_range]
  rcases hv with rfl | ⟨h2, h3⟩
  · exact ⟨hw, h1⟩
  · by_cases e : v = w
    · subst e; exact ⟨hw, h1⟩
    · exact ⟨h2, h v h2 e h3⟩

/-- A step of worker `w` that only changes its position, to one that is no worse. -/
theorem Ord.plain {s s' : Pool} {w : ℕ} {p : WPc} (o : s.Ord) (hs : s' = s.goto w p ∨ s' = { s with owner := none }.goto w p ∨
    s' = { s with owner := some w }.goto w p ∨ ∃ t, s' = { s with done := s.done ++ [t] }.goto w p)
    (hp : ∀ c, p = .moving c → (s.wq w ++ s.mainQ).Sublist s.submitted) (hr : ∀ t, p ≠ .run t)
    (he : s.mainQ = [] ∨ (p ≠ .asleep ∧ ((s.wq w).isEmpty = true → Toward (s.pc w) = true → Toward p = true))) : s'.Ord := by
  have e1 : s'.n = s.n ∧ s'.mainQ = s.mainQ ∧ s'.wq = s.wq ∧ s'.submitted = s.submitted ∧ s'.stop = s.stop ∧ s'.notifies = s.notifies ∧
      ∀ v, s'.pc v = if v = w then p else s.pc v := by
    rcases hs with rfl | rfl | rfl | ⟨t, rfl⟩ <;> exact ⟨rfl, rfl, rfl, rfl, rfl, rfl, fun v => goto_pc _ w p v⟩
  obtain ⟨hn, hm, hq, hsub, hst, hk, hpc⟩ := e1
  refine ⟨by rw [hm, hsub]; exact o.main, fun v hv => by rw [hq, hsub]; exact o.wq v (hn ▸ hv), fun v hv c h => ?_, fun v hv t h => ?_,
    fun h1 h2 => ?_⟩
  · rw [hpc] at h
    rw [hq, hm, hsub]
    split at h
    · rename_i e; subst e; exact hp c h
    · exact o.moving v (hn ▸ hv) c h
  · rw [hpc] at h
    rw [hq, hsub]
    split at h
    · exact absurd h (hr t)
    · exact o.run v (hn ▸ hv) t h
  · rw [hm, hk]
    rcases he with he | ⟨he1, he⟩
    · rw [he]; exact Nat.zero_le _
    · obtain ⟨v, hv, h2⟩ := h2
      rw [hpc] at h2
      have hvw : v ≠ w := by
        intro e
        rw [if_pos e] at h2
        exact he1 h2
      rw [if_neg hvw] at h2
      refine (o.en (hst ▸ h1) ⟨v, hn ▸ hv, h2⟩).trans (Nat.add_le_add_left (enroutes_le hn fun v hv h => ?_) _)
      unfold enroute at h ⊢
      rw [Bool.and_eq_true] at h ⊢
      rw [hq, hpc]
      refine ⟨h.1, ?_⟩
      split
      · rename_i e; subst e; exact he h.1 h.2
      · exact h.2

theorem Ord.take {s : Pool} {w v : ℕ} {p : WPc} {l : List ℕ} (o : s.Ord) (hl : l.Sublist (s.wq v))
    (hr : (∃ t, p = .run t ∧ (Function.update s.wq v l w = [] ∨ (Function.update s.wq v l w ++ [t]).Sublist s.submitted)))
    (he : s.enroute w = false) : ({ s with wq := Function.update s.wq v l }.goto w p).Ord := by
  obtain ⟨t, rfl, hr⟩ := hr
  have hsub : ∀ x, (Function.update s.wq v l x).Sublist (s.wq x) := fun x => by
    rw [Function.update_apply]
    split
    · rename_i e; rw [e]; exact hl
    · exact List.Sublist.refl _
  refine ⟨o.main, fun x hx => (hsub x).trans (o.wq x hx), fun x hx c h => ?_, fun x hx t' h => ?_, fun h1 h2 => ?_⟩
  · rw [goto_pc] at h
    split at h
    · simp at h
    · exact ((hsub x).append (List.Sublist.refl _)).trans (o.moving x hx c h)
  · rw [goto_pc] at h
    split at h
    · rename_i e; subst e
      injection h with h; subst h
      exact hr
    · rcases o.run x hx t' h with h' | h'
      · exact .inl (List.sublist_nil.1 (h' ▸ hsub x))
      · exact .inr (((hsub x).append (List.Sublist.refl _)).trans h')
  · obtain ⟨x, hx, h2⟩ := h2
    rw [goto_pc] at h2
    split at h2
    · simp at h2
    · have h3 := o.en h1 ⟨x, hx, h2⟩
      suffices h4 : s.enroutes ≤ ({ s with wq := Function.update s.wq v l }.goto w (.run t)).enroutes by
        show s.mainQ.length ≤ s.notifies + _
        omega
      refine enroutes_le rfl fun x hx h => ?_
      have hxw : x ≠ w := fun e => by rw [e, he] at h; simp at h
      unfold enroute at h ⊢
      rw [Bool.and_eq_true] at h ⊢
      rw [goto_pc, if_neg hxw]
      refine ⟨?_, h.2⟩
      have h0 := List.isEmpty_iff.1 h.1
      exact List.isEmpty_iff.2 (List.sublist_nil.1 (h0 ▸ hsub x))

theorem WStep.ord {s s' : Pool} {w : ℕ} (i : s.Inv) (o : s.Ord) (hw : w < s.n) (hst : s.stop = false) (h : WStep s w s') : s'.Ord := by
  cases h with
  | topExit _ h => rw [hst] at h; simp at h
  | topGo _ _ => exact o.plain (.inl rfl) (by simp) (by simp) (.inr ⟨by simp, fun _ _ => rfl⟩)
  | popOwn hp hq =>
    refine o.take (hq ▸ List.sublist_append_left _ _) ⟨_, rfl, .inr ?_⟩ ?_
    · rw [Function.update_self, ← hq]; exact o.wq w hw
    · unfold enroute; rw [hq]; simp
  | popOwnNone _ _ => exact o.plain (.inl rfl) (by simp) (by simp) (.inr ⟨by simp, fun _ _ => rfl⟩)
  | popMainNone _ _ hm => exact o.plain (.inl rfl) (by simp) (by simp) (.inl hm)
  | popMain hp _ _ =>
    refine o.plain (.inr (.inr (.inl rfl))) (fun c hc => ?_) (by simp) (.inr ⟨by simp, fun _ _ => rfl⟩)
    rw [i.own w hw (by rw [hp]; trivial)]
    exact o.main
  | @move c t l hp hm hc =>
    have hsub := o.moving w hw c hp
    rw [hm] at hsub
    have hq : ∀ v, Function.update s.wq w (s.wq w ++ [t]) v = if v = w then s.wq w ++ [t] else s.wq v := fun v => Function.update_apply _ _ _ _
    refine ⟨(List.sublist_cons_self t l).trans (hm ▸ o.main), fun v hv => ?_, fun v hv c' h => ?_, fun v hv t' h => ?_, fun h1 h2 => ?_⟩
    · show (Function.update s.wq w (s.wq w ++ [t]) v).Sublist s.submitted
      rw [hq]
      split
      · exact (List.Sublist.append (List.Sublist.refl _) (List.singleton_sublist.2 (List.mem_cons_self))).trans hsub
      · exact o.wq v hv
    · rw [goto_pc] at h
      show (Function.update s.wq w (s.wq w ++ [t]) v ++ l).Sublist s.submitted
      rw [hq]
      split at h
      · rename_i e
        rw [if_pos e, List.append_assoc]
        exact hsub
      · rename_i e
        have h1 := (i.holds w hw).1 (by rw [hp]; trivial)
        have h2 := (i.holds v hv).1 (by rw [show s.pc v = _ from h]; trivial)
        rw [h1] at h2
        exact absurd (Option.some.inj h2).symm e
    · rw [goto_pc] at h
      split at h
      · simp at h
      · rename_i e
        show Function.update s.wq w (s.wq w ++ [t]) v = [] ∨ (Function.update s.wq w (s.wq w ++ [t]) v ++ [t']).Sublist s.submitted
        rw [hq, if_neg e]
        exact o.run v hv t' h
    · obtain ⟨v, hv, h2⟩ := h2
      rw [goto_pc] at h2
      split at h2
      · simp at h2
      · have := o.en h1 ⟨v, hv, h2⟩
        rw [hm, List.length_cons] at this
        have e2 : s.enroutes ≤ ({ s with mainQ := l, wq := Function.update s.wq w (s.wq w ++ [t]) }.goto w (.moving (c + 1))).enroutes + 1 := by
          refine enroutes_le_succ (w := w) rfl fun v hv hvw h => ?_
          unfold enroute at h ⊢
          rw [goto_pc, if_neg hvw]
          show ((Function.update s.wq w (s.wq w ++ [t]) v).isEmpty && _) = true
          rw [hq, if_neg hvw]
          exact h
        show l.length ≤ s.notifies + _
        omega
  | @moveEnd c hp hc =>
    refine o.plain (.inr (.inl rfl)) (by simp) (by simp) ?_
    rcases hc with hc | hc
    · exact .inl hc
    · refine .inr ⟨by simp, fun _ ht => ?_⟩
      rw [hp] at ht
      have : c = 0 := by simpa [Toward] using ht
      subst this
      exact absurd (by decide) hc
  | popOwn2 hp hq =>
    refine o.take (hq ▸ List.sublist_append_left _ _) ⟨_, rfl, .inr ?_⟩ ?_
    · rw [Function.update_self, ← hq]; exact o.wq w hw
    · unfold enroute; rw [hq]; simp
  | popOwn2None hp hq => exact o.plain (.inl rfl) (by simp) (by simp) (.inr ⟨by simp, fun _ ht => by rw [hp] at ht; simp [Toward] at ht⟩)
  | steal hp hi hv hq =>
    refine o.take (hq ▸ List.sublist_cons_self _ _) ⟨_, rfl, .inl ?_⟩ ?_
    · have h0 := i.own w hw (by rw [hp]; trivial)
      rw [Function.update_apply]
      split
      · rename_i e
        rw [← e, h0] at hq
        simp at hq
      · exact h0
    · unfold enroute; rw [hp]; simp [Toward]
  | stealNone hp _ => exact o.plain (.inl rfl) (by simp) (by simp) (.inr ⟨by simp, fun _ ht => by rw [hp] at ht; simp [Toward] at ht⟩)
  | stealEnd hp _ => exact o.plain (.inl rfl) (by simp) (by simp) (.inr ⟨by simp, fun _ ht => by rw [hp] at ht; simp [Toward] at ht⟩)
  | run hp => exact o.plain (.inr (.inr (.inr ⟨_, rfl⟩))) (by simp) (by simp) (.inr ⟨by simp, fun _ _ => rfl⟩)
  | lockWait _ _ => exact o.plain (.inr (.inr (.inl rfl))) (by simp) (by simp) (.inr ⟨by simp, fun _ _ => rfl⟩)
  | relock _ _ => exact o.plain (.inr (.inr (.inl rfl))) (by simp) (by simp) (.inr ⟨by simp, fun _ _ => rfl⟩)
  | predTrue _ _ => exact o.plain (.inl rfl) (by simp) (by simp) (.inr ⟨by simp, fun _ _ => rfl⟩)
  | predFalse _ hm _ => exact o.plain (.inl rfl) (by simp) (by simp) (.inl hm)
  | block hp => exact o.plain (.inr (.inl rfl)) (by simp) (by simp) (.inl (i.blocking w hw hp))
  | unlock _ => exact o.plain (.inr (.inl rfl)) (by simp) (by simp) (.inr ⟨by simp, fun _ _ => rfl⟩)

/-- Waking up worker `w`. -/
theorem Ord.wake {s : Pool} {w k : ℕ} (i : s.Inv) (o : s.Ord) (hw : w < s.n) (hp : s.pc w = .asleep) (hk : s.notifies ≤ k + 1) :
    ({ s with notifies := k }.goto w .relock).Ord := by
  refine ⟨o.main, o.wq, fun v hv c h => ?_, fun v hv t h => ?_, fun h1 h2 => ?_⟩
  · rw [goto_pc] at h
    split at h
    · simp at h
    · exact o.moving v hv c h
  · rw [goto_pc] at h
    split at h
    · simp at h
    · exact o.run v hv t h
  · have h0 := o.en h1 ⟨w, hw, hp⟩
    have h3 : s.enroutes + 1 ≤ ({ s with notifies := k }.goto w .relock).enroutes := by
      refine enroutes_succ_le hw rfl (fun v hv hvw h => ?_) ?_ ?_
      · unfold enroute at h ⊢
        rw [goto_pc, if_neg hvw]
        exact h
      · unfold enroute; rw [hp]; simp [Toward]
      · unfold enroute
        rw [goto_pc, if_pos rfl, Bool.and_eq_true]
        exact ⟨List.isEmpty_iff.2 (i.own w hw (by rw [hp]; trivial)), rfl⟩
    show s.mainQ.length ≤ k + _
    omega

theorem Step.ord {s s' : Pool} {l : Label} (i : s.Inv) (o : s.Ord) (hst : s.stop = false) (h : Step s l s') : s'.stop = true ∨ s'.Ord := by
  cases h with
  | worker hw hs => exact .inr ((worker_cases hs).ord i o hw hst)
  | @submit _ t _ _ hs =>
    unfold Pool.submit at hs
    split at hs
    · simp at hs
    · injection hs with hs; subst hs
      have hl : ∀ {a : List ℕ}, a.Sublist s.submitted → a.Sublist (s.submitted ++ [t]) := fun h => h.trans (List.sublist_append_left _ _)
      refine .inr ⟨o.main.append (List.Sublist.refl _), fun w hw => hl (o.wq w hw), fun w hw c h => ?_, fun w hw t' h => ?_, fun h1 h2 => ?_⟩
      · rw [← List.append_assoc]
        exact (o.moving w hw c h).append (List.Sublist.refl _)
      · rcases o.run w hw t' h with h' | h'
        · exact .inl h'
        · exact .inr (hl h')
      · have := o.en h1 h2
        show (s.mainQ ++ [t]).length ≤ s.notifies + 1 + s.enroutes
        rw [List.length_append, List.length_singleton]
        omega
  | notify hk hw hp => exact .inr (o.wake i hw hp (by omega))
  | notifyNone hk hx =>
    refine .inr ⟨o.main, o.wq, o.moving, o.run, fun _ h2 => ?_⟩
    obtain ⟨w, hw, h2⟩ := h2
    exact absurd h2 (hx w hw)
  | spurious hw hp => exact .inr (o.wake i hw hp (Nat.le_succ _))
  | setStop _ _ => exact .inl rfl
  | notifyAll hd => exact absurd hst (by rw [i.stop.2 (by rw [hd]; simp)]; simp)
  | joinAll hd _ => exact absurd hst (by rw [i.stop.2 (by rw [hd]; simp)]; simp)

/-- A task stays with the worker that holds it, unless that worker takes a step. -/
theorem Step.run_keep {s s' : Pool} {l : Label} (h : Step s l s') {v t : ℕ} (hp : s.pc v = .run t) (hl : l ≠ .worker v) : s'.pc v = .run t := by
  cases h with
  | @worker _ w hw hs =>
    have hne : v ≠ w := fun e => hl (by rw [e])
    have := worker_cases hs
    cases this <;> (rw [goto_pc, if_neg hne]; exact hp)
  | submit _ _ hs =>
    unfold Pool.submit at hs
    split at hs
    · simp at hs
    · injection hs with hs; subst hs; exact hp
  | @notify w _ _ hq =>
    unfold Pool.notifyOne
    rw [goto_pc, if_neg (fun e => by rw [← e, hp] at hq; simp at hq)]
    exact hp
  | notifyNone _ _ => exact hp
  | @spurious w _ hq =>
    rw [goto_pc, if_neg (fun e => by rw [← e, hp] at hq; simp at hq)]
    exact hp
  | setStop _ _ => exact hp
  | notifyAll _ => show (if s.pc v = .asleep then WPc.relock else s.pc v) = _; rw [hp]; simp
  | joinAll _ _ => exact hp

/-- A worker gets a task only by its own step. -/
theorem Step.run_new {s s' : Pool} {l : Label} (h : Step s l s') {v t : ℕ} (hp : s'.pc v = .run t) : s.pc v = .run t ∨ l = .worker v := by
  cases h with
  | @worker _ w hw hs =>
    by_cases e : v = w
    · exact .inr (by rw [e])
    · have := worker_cases hs
      left
      cases this <;> (rw [goto_pc, if_neg e] at hp; exact hp)
  | submit _ _ hs =>
    unfold Pool.submit at hs
    split at hs
    · simp at hs
    · injection hs with hs; subst hs; exact .inl hp
  | @notify w _ _ hq =>
    unfold Pool.notifyOne at hp
    rw [goto_pc] at hp
    split at hp
    · simp at hp
    · exact .inl hp
  | notifyNone _ _ => exact .inl hp
  | @spurious w _ hq =>
    rw [goto_pc] at hp
    split at hp
    · simp at hp
    · exact .inl hp
  | setStop _ _ => exact .inl hp
  | notifyAll _ =>
    replace hp : (if s.pc v = .asleep then WPc.relock else s.pc v) = .run t := hp
    split at hp
    · simp at hp
    · exact .inl hp
  | joinAll _ _ => exact .inl hp

theorem Step.stop_mono {s s' : Pool} {l : Label} (h : Step s l s') (hst : s'.stop = false) : s.stop = false := by
  cases h with
  | worker hw hs => have := worker_cases hs; cases this <;> exact hst
  | submit _ _ hs =>
    unfold Pool.submit at hs
    split at hs
    · simp at hs
    · injection hs with hs; subst hs; exact hst
  | setStop _ _ => simp [Pool.setStop] at hst
  | _ => exact hst

theorem Step.submitted {s s' : Pool} {l : Label} (h : Step s l s') :
    (∃ t, l = .submit t ∧ s'.submitted = s.submitted ++ [t]) ∨ (∀ t, l ≠ .submit t) ∧ s'.submitted = s.submitted := by
  cases h with
  | worker hw hs => exact .inr ⟨by simp, (worker_cases hs).ghost.1⟩
  | submit _ _ hs =>
    unfold Pool.submit at hs
    split at hs
    · simp at hs
    · injection hs with hs; subst hs; exact .inl ⟨_, rfl, rfl⟩
  | _ => exact .inr ⟨by simp, rfl⟩

end Pool

theorem Act.queued_append (a b : List Act) : Act.queued (a ++ b) = Act.queued a ++ Act.queued b := by
  induction a with
  | nil => rfl
  | cons x a ih => cases x <;> simp [Act.queued, ih]

namespace NState

/-- Invariant of reachable states. -/
structure Inv (P : Tasks) (num : ℕ) (x : NState) : Prop where
  pool : Pool.Reachable num x.pool
  ord : x.pool.stop = false → x.pool.Ord
  suf : ∀ t, x.rest t <:+ P.body t
  fresh : ∀ t u, u ∈ Act.queued (x.rest t) → u ∉ x.pool.submitted
  order : ∀ t r₁ u r₂, x.rest t = r₁ ++ .wait u :: r₂ → u ∈ Act.queued r₁ ∨ [t, u].Sublist x.pool.submitted
  note : ∀ t, x.note t = true → ∃ w < x.pool.n, x.pool.pc w = .run t
  owed : x.owed ≤ x.pool.notifies

theorem Inv.init {P : Tasks} (hP : P.WF) (num : ℕ) : Inv P num (init P num) where
  pool := ⟨[], .nil _⟩
  ord := fun _ => Pool.init_ord num
  suf := fun _ => List.suffix_rfl
  fresh := fun _ _ _ h => by simp [NState.init, Pool.init] at h
  order := fun t r₁ u r₂ h => .inl (hP.order t r₁ u r₂ h)
  note := fun _ h => by simp [NState.init] at h
  owed := by
    have : (NState.init P num).owed = 0 := by
      unfold NState.owed
      rw [card_eq_zero, filter_eq_empty_iff]
      intro w _
      simp [NState.init, Pool.init, atNote]
    omega

theorem atNote_iff (x : NState) (p : WPc) : x.atNote p = true ↔ ∃ t, p = .run t ∧ x.note t = true := by
  constructor
  · intro h
    cases p <;> simp only [atNote] at h
    all_goals first | exact ⟨_, rfl, h⟩ | exact absurd h (by simp)
  · rintro ⟨t, rfl, h⟩; exact h

theorem queued_suffix {a b : List Act} (h : a <:+ b) : Act.queued a <:+ Act.queued b := by
  obtain ⟨c, rfl⟩ := h
  rw [Act.queued_append]
  exact List.suffix_append _ _

theorem Inv.step {P : Tasks} (hP : P.WF) {num : ℕ} {x y : NState} {l : NLabel} (h : Inv P num x) (hs : Step P x l y) : Inv P num y := by
  have ordS : ∀ {l p}, Pool.Step x.pool l p → p.stop = false → p.Ord := fun hp hst =>
    ((hp.ord h.pool.inv (h.ord (hp.stop_mono hst)) (hp.stop_mono hst)).resolve_left (by rw [hst]; simp))
  cases hs with
  | @pool l p hp ho =>
    have hr' := h.pool.step hp
    have keepRun : ∀ t, x.note t = true → ∀ w, w < x.pool.n → x.pool.pc w = .run t → p.pc w = .run t := fun t ht w hw hpc =>
      hp.run_keep hpc fun e => by
        subst e
        have := (ho t hpc).2
        rw [ht] at this
        simp at this
    have note' : ∀ t, x.note t = true → ∃ w < p.n, p.pc w = .run t := fun t ht => by
      obtain ⟨w, hw, hpc⟩ := h.note t ht
      exact ⟨w, by rw [hp.n_eq]; exact hw, keepRun t ht w hw hpc⟩
    refine ⟨hr', ordS hp, h.suf, fun t u hu => ?_, fun t r₁ u r₂ hr => ?_, note', ?_⟩
    · rcases hp.submitted with ⟨t', rfl, e⟩ | ⟨_, e⟩
      · rw [e, List.mem_append, List.mem_singleton]
        rintro (h' | rfl)
        · exact h.fresh t u hu h'
        · exact hP.root t u ((queued_suffix (h.suf t)).subset hu) ho
      · rw [e]; exact h.fresh t u hu
    · rcases h.order t r₁ u r₂ hr with h' | h'
      · exact .inl h'
      · exact .inr (h'.trans (Pool.Step.submitted hp |>.elim (fun ⟨_, _, e⟩ => by rw [e]; exact List.sublist_append_left _ _) fun e => by rw [e.2]))
    · have e : ({ x with pool := p } : NState).owed ≤ x.owed := by
        unfold NState.owed
        rw [show ({ x with pool := p } : NState).pool = p from rfl, hp.n_eq]
        refine card_le_card fun w hw => ?_
        rw [mem_filter, mem_range, atNote_iff] at hw ⊢
        obtain ⟨hw, t, hpc, hn⟩ := hw
        refine ⟨hw, t, ?_, hn⟩
        obtain ⟨v, hv, hpv⟩ := h.note t hn
        have := (task_runs_once hr').2.2.1 w (by rw [hp.n_eq]; exact hw) v (by rw [hp.n_eq]; exact hv) t hpc (keepRun t hn v hv hpv)
        rw [this]
        exact hpv
      by_cases hl : l = .notify
      · subst hl
        have h1 : x.owed < x.pool.notifies := ho
        have h2 := hp.ghost.2.2.2.2.1 rfl
        show _ ≤ p.notifies
        omega
      · have h2 := hp.ghost.2.2.2.1 hl
        have h3 := h.owed
        show _ ≤ p.notifies
        omega
  | @push w t u r p hw hpc hn hr hp =>
    have hr' := h.pool.step hp
    have hsub : p.submitted = x.pool.submitted ++ [u] := by
      rcases hp.submitted with ⟨t', e1, e⟩ | ⟨e1, _⟩
      · injection e1 with e1; rw [e, e1]
      · exact absurd rfl (e1 u)
    have hts : t ∈ x.pool.submitted := ((task_runs_once h.pool).2.2.2 w hw t hpc).1
    have upd : ∀ t', Function.update x.rest t r t' = if t' = t then r else x.rest t' := fun t' => Function.update_apply _ _ _ _
    refine ⟨hr', ordS hp, fun t' => ?_, fun t' u' hu => ?_, fun t' r₁ u' r₂ he => ?_, fun t' ht => ?_, ?_⟩
    · show Function.update x.rest t r t' <:+ _
      rw [upd]
      split
      · rename_i e; subst e
        exact (List.suffix_cons _ _).trans (hr ▸ h.suf t')
      · exact h.suf t'
    · replace hu : u' ∈ Act.queued (Function.update x.rest t r t') := hu
      show u' ∉ p.submitted
      rw [hsub, List.mem_append, List.mem_singleton]
      rw [upd] at hu
      have hut : u ∈ Act.queued (x.rest t) := by rw [hr]; simp [Act.queued]
      rintro (h' | rfl)
      · split at hu
        · rename_i e; subst e
          exact h.fresh t' u' (by rw [hr]; simp [Act.queued, hu]) h'
        · exact h.fresh t' u' hu h'
      · split at hu
        · rename_i e; subst e
          have := (hP.nodup t').sublist (queued_suffix (h.suf t')).sublist
          rw [hr] at this
          simp only [Act.queued, List.nodup_cons] at this
          exact this.1 hu
        · rename_i e
          exact e (hP.disj t' t u' ((queued_suffix (h.suf t')).subset hu) ((queued_suffix (h.suf t)).subset hut))
    · replace he : Function.update x.rest t r t' = _ := he
      rw [show (NState.mk p (Function.update x.rest t r) (Function.update x.note t true)).pool.submitted = x.pool.submitted ++ [u] from hsub]
      rw [upd] at he
      split at he
      · rename_i e; subst e
        rcases h.order t' (.queue u :: r₁) u' r₂ (by rw [hr, he]; rfl) with h' | h'
        · simp only [Act.queued, List.mem_cons] at h'
          rcases h' with rfl | h'
          · exact .inr (List.Sublist.append (List.singleton_sublist.2 hts) (List.Sublist.refl [u']))
          · exact .inl h'
        · exact .inr (h'.trans (List.sublist_append_left _ _))
      · rcases h.order t' r₁ u' r₂ he with h' | h'
        · exact .inl h'
        · exact .inr (h'.trans (List.sublist_append_left _ _))
    · replace ht : Function.update x.note t true t' = true := ht
      rw [Function.update_apply] at ht
      show ∃ w < p.n, p.pc w = _
      rw [hp.n_eq]
      split at ht
      · rename_i e; subst e; exact ⟨w, hw, hp.run_keep hpc (by simp)⟩
      · obtain ⟨v, hv, h'⟩ := h.note t' ht
        exact ⟨v, hv, hp.run_keep h' (by simp)⟩
    · have h2 := (hp.ghost.2.2.2.2.2 u rfl).2.1
      have h3 := h.owed
      have e : (NState.mk p (Function.update x.rest t r) (Function.update x.note t true)).owed ≤ x.owed + 1 := by
        unfold NState.owed
        rw [show (NState.mk p (Function.update x.rest t r) (Function.update x.note t true)).pool = p from rfl, hp.n_eq]
        refine (card_le_card (t := insert w ((range x.pool.n).filter fun w => x.atNote (x.pool.pc w) = true)) fun v hv => ?_).trans
          (card_insert_le _ _)
        rw [mem_filter, mem_range, atNote_iff] at hv
        rw [mem_insert, mem_filter, mem_range, atNote_iff]
        obtain ⟨hv, t', hpv, hn'⟩ := hv
        replace hn' : Function.update x.note t true t' = true := hn'
        rw [Function.update_apply] at hn'
        have hpv' := (hp.run_new hpv).resolve_right (by simp)
        split at hn'
        · rename_i e; subst e
          exact .inl ((task_runs_once h.pool).2.2.1 v hv w hw t' hpv' hpc)
        · exact .inr ⟨hv, t', hpv', hn'⟩
      show _ ≤ p.notifies
      omega
  | @notify w t p hw hpc hn hp =>
    have hr' := h.pool.step hp
    have hsub : p.submitted = x.pool.submitted := by
      rcases hp.submitted with ⟨t', e1, e⟩ | ⟨_, e1⟩
      · simp at e1
      · exact e1
    refine ⟨hr', ordS hp, h.suf, fun t' u' hu => ?_, fun t' r₁ u' r₂ he => ?_, fun t' ht => ?_, ?_⟩
    · show u' ∉ p.submitted
      rw [hsub]; exact h.fresh t' u' hu
    · show _ ∨ [t', u'].Sublist p.submitted
      rw [hsub]; exact h.order t' r₁ u' r₂ he
    · replace ht : Function.update x.note t false t' = true := ht
      rw [Function.update_apply] at ht
      split at ht
      · simp at ht
      · obtain ⟨v, hv, h'⟩ := h.note t' ht
        exact ⟨v, by show v < p.n; rw [hp.n_eq]; exact hv, hp.run_keep h' (by simp)⟩
    · have h2 := hp.ghost.2.2.2.2.1 rfl
      have h3 := h.owed
      have e : ({ x with pool := p, note := Function.update x.note t false } : NState).owed + 1 ≤ x.owed := by
        unfold NState.owed
        have hx : w ∉ (range p.n).filter fun w => ({ x with pool := p, note := Function.update x.note t false } : NState).atNote (p.pc w) = true := by
          rw [mem_filter, atNote_iff]
          rintro ⟨_, t', h4, h5⟩
          rw [hp.run_keep hpc (by simp)] at h4
          injection h4 with h4; subst h4
          simp at h5
        rw [← card_insert_of_notMem hx]
        refine card_le_card fun v hv => ?_
        rw [mem_insert, mem_filter, mem_range, atNote_iff, hp.n_eq] at hv
        rw [mem_filter, mem_range, atNote_iff]
        rcases hv with rfl | ⟨hv, t', hpv, hn'⟩
        · exact ⟨hw, t, hpc, hn⟩
        · replace hn' : Function.update x.note t false t' = true := hn'
          rw [Function.update_apply] at hn'
          split at hn'
          · simp at hn'
          · exact ⟨hv, t', (hp.run_new hpv).resolve_right (by simp), hn'⟩
      show _ ≤ p.notifies
      omega
  | @get w t u r hw hpc hn hr hu =>
    have upd : ∀ t', Function.update x.rest t r t' = if t' = t then r else x.rest t' := fun t' => Function.update_apply _ _ _ _
    refine ⟨h.pool, h.ord, fun t' => ?_, fun t' u' hu => ?_, fun t' r₁ u' r₂ he => ?_, h.note, h.owed⟩
    · show Function.update x.rest t r t' <:+ _
      rw [upd]
      split
      · rename_i e; subst e
        exact (List.suffix_cons _ _).trans (hr ▸ h.suf t')
      · exact h.suf t'
    · replace hu : u' ∈ Act.queued (Function.update x.rest t r t') := hu
      rw [upd] at hu
      split at hu
      · rename_i e; subst e
        exact h.fresh t' u' (by rw [hr]; exact hu)
      · exact h.fresh t' u' hu
    · replace he : Function.update x.rest t r t' = _ := he
      rw [upd] at he
      split at he
      · rename_i e; subst e
        exact h.order t' (.wait u :: r₁) u' r₂ (by rw [hr, he]; rfl)
      · exact h.order t' r₁ u' r₂ he

theorem Inv.exec {P : Tasks} (hP : P.WF) {num : ℕ} {x y : NState} {ls : List NLabel} (h : Inv P num x) (he : Exec P x ls y) : Inv P num y := by
  induction he with
  | nil => exact h
  | snoc _ hs ih => exact ih.step hP hs

theorem Reachable.inv {P : Tasks} (hP : P.WF) {num : ℕ} {x : NState} (h : Reachable P num x) : Inv P num x := by
  obtain ⟨ls, he⟩ := h
  exact (Inv.init hP num).exec hP he

end NState

end Intp
