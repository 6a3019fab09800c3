import Verif.ThreadPool
import Mathlib.Algebra.BigOperators.Group.Finset.Basic
import Mathlib.Algebra.Order.BigOperators.Group.Finset
import Mathlib.Tactic.Ring
import Mathlib.Tactic.Linarith

/-!
# Invariants of the thread pool
-/

namespace Intp

namespace Pool

open Finset

/-- Steps of a worker, case by case. -/
inductive WStep (s : Pool) (w : ℕ) : Pool → Prop
  | topExit : s.pc w = .top → s.stop = true → WStep s w (s.goto w .exited)
  | topGo : s.pc w = .top → s.stop = false → WStep s w (s.goto w .popOwn)
  | popOwn {t : ℕ} {l : List ℕ} : s.pc w = .popOwn → s.wq w = l ++ [t] →
      WStep s w ({ s with wq := Function.update s.wq w l }.goto w (.run t))
  | popOwnNone : s.pc w = .popOwn → s.wq w = [] → WStep s w (s.goto w .popMain)
  | popMainNone : s.pc w = .popMain → s.owner = none → s.mainQ = [] → WStep s w (s.goto w (.steal 0))
  | popMain : s.pc w = .popMain → s.owner = none → s.mainQ ≠ [] → WStep s w ({ s with owner := some w }.goto w (.moving 0))
  | move {c t : ℕ} {l : List ℕ} : s.pc w = .moving c → s.mainQ = t :: l → c < batchSize →
      WStep s w ({ s with mainQ := l, wq := Function.update s.wq w (s.wq w ++ [t]) }.goto w (.moving (c + 1)))
  | moveEnd {c : ℕ} : s.pc w = .moving c → (s.mainQ = [] ∨ ¬ c < batchSize) → WStep s w ({ s with owner := none }.goto w .popOwn2)
  | popOwn2 {t : ℕ} {l : List ℕ} : s.pc w = .popOwn2 → s.wq w = l ++ [t] →
      WStep s w ({ s with wq := Function.update s.wq w l }.goto w (.run t))
  | popOwn2None : s.pc w = .popOwn2 → s.wq w = [] → WStep s w (s.goto w (.steal 0))
  | steal {i v t : ℕ} {l : List ℕ} : s.pc w = .steal i → i < s.n - 1 → v = (w + i + 1) % s.n → s.wq v = t :: l →
      WStep s w ({ s with wq := Function.update s.wq v l }.goto w (.run t))
  | stealNone {i : ℕ} : s.pc w = .steal i → i < s.n - 1 → WStep s w (s.goto w (.steal (i + 1)))
  | stealEnd {i : ℕ} : s.pc w = .steal i → ¬ i < s.n - 1 → WStep s w (s.goto w .lockWait)
  | run {t : ℕ} : s.pc w = .run t → WStep s w ({ s with done := s.done ++ [t] }.goto w .top)
  | lockWait : s.pc w = .lockWait → s.owner = none → WStep s w ({ s with owner := some w }.goto w .pred)
  | relock : s.pc w = .relock → s.owner = none → WStep s w ({ s with owner := some w }.goto w .pred)
  | predTrue : s.pc w = .pred → (s.mainQ ≠ [] ∨ s.stop = true) → WStep s w (s.goto w .unlock)
  | predFalse : s.pc w = .pred → s.mainQ = [] → s.stop = false → WStep s w (s.goto w .blocking)
  | block : s.pc w = .blocking → WStep s w ({ s with owner := none }.goto w .asleep)
  | unlock : s.pc w = .unlock → WStep s w ({ s with owner := none }.goto w .top)

theorem tryPop_some {s : Pool} {w t : ℕ} {s' : Pool} (h : s.tryPop w = some (t, s')) :
    ∃ l, s.wq w = l ++ [t] ∧ s' = { s with wq := Function.update s.wq w l } := by
  unfold tryPop at h
  split at h
  · simp at h
  · rename_i x hx
    simp only [Option.some.injEq, Prod.mk.injEq] at h
    obtain ⟨rfl, rfl⟩ := h
    exact ⟨_, (List.dropLast_append_getLast? _ hx).symm, rfl⟩

theorem tryPop_none {s : Pool} {w : ℕ} (h : s.tryPop w = none) : s.wq w = [] := by
  unfold tryPop at h
  split at h
  · rename_i hx; exact List.getLast?_eq_none_iff.1 hx
  · simp at h

theorem worker_cases {s s' : Pool} {w : ℕ} (h : s.worker w = some s') : WStep s w s' := by
  unfold worker at h
  split at h <;> rename_i hpc
  · injection h with h
    subst h
    split
    · rename_i hs; exact .topExit hpc hs
    · rename_i hs; exact .topGo hpc (by simpa using hs)
  · split at h
    · rename_i t s'' hp
      obtain ⟨l, h1, rfl⟩ := tryPop_some hp
      injection h with h; subst h
      exact .popOwn hpc h1
    · rename_i hp
      injection h with h; subst h
      exact .popOwnNone hpc (tryPop_none hp)
  · split at h
    · simp at h
    · rename_i ho
      push Not at ho
      split at h
      · rename_i hm
        injection h with h; subst h
        exact .popMainNone hpc ho hm
      · rename_i hm
        injection h with h; subst h
        exact .popMain hpc ho hm
  · split at h
    · rename_i t l hm
      split at h
      · rename_i hc
        injection h with h; subst h
        exact .move hpc hm hc
      · rename_i hc
        injection h with h; subst h
        exact .moveEnd hpc (.inr hc)
    · rename_i hm
      injection h with h; subst h
      exact .moveEnd hpc (.inl hm)
  · split at h
    · rename_i t s'' hp
      obtain ⟨l, h1, rfl⟩ := tryPop_some hp
      injection h with h; subst h
      exact .popOwn2 hpc h1
    · rename_i hp
      injection h with h; subst h
      exact .popOwn2None hpc (tryPop_none hp)
  · split at h
    · rename_i hi
      split at h
      · rename_i t s'' hp
        injection h with h; subst h
        unfold trySteal at hp
        split at hp
        · simp at hp
        · rename_i t' l hq
          simp only [Option.some.injEq, Prod.mk.injEq] at hp
          obtain ⟨rfl, rfl⟩ := hp
          exact .steal hpc hi rfl hq
      · injection h with h; subst h
        exact .stealNone hpc hi
    · rename_i hi
      injection h with h; subst h
      exact .stealEnd hpc hi
  · injection h with h; subst h
    exact .run hpc
  · split at h
    · simp at h
    · rename_i ho
      push Not at ho
      injection h with h; subst h
      exact .lockWait hpc ho
  · injection h with h; subst h
    split
    · rename_i hc; exact .predTrue hpc hc
    · rename_i hc
      push Not at hc
      exact .predFalse hpc hc.1 (by simpa using hc.2)
  · injection h with h; subst h
    exact .block hpc
  · simp at h
  · split at h
    · simp at h
    · rename_i ho
      push Not at ho
      injection h with h; subst h
      exact .relock hpc ho
  · injection h with h; subst h
    exact .unlock hpc
  · simp at h

/-- Positions at which a worker holds `main_queue_mutex`. -/
def Holds : WPc → Prop
  | .moving _ | .pred | .blocking | .unlock => True
  | _ => False

/-- Positions at which a worker's own queue is empty. -/
def OwnEmpty : WPc → Prop
  | .popMain | .steal _ | .lockWait | .pred | .blocking | .asleep | .relock | .unlock => True
  | _ => False

/-- Occurrences of task `t` in the hands of a worker. -/
def hand (p : WPc) (t : ℕ) : ℕ := if p = .run t then 1 else 0

/-- Occurrences of task `t` in the queue or hands of worker `w`. -/
def atWorker (s : Pool) (t w : ℕ) : ℕ := (s.wq w).count t + hand (s.pc w) t

/-- Invariant of reachable states. -/
structure Inv (s : Pool) : Prop where
  pos : 1 ≤ s.n
  holds : ∀ w < s.n, Holds (s.pc w) ↔ s.owner = some w
  owner : ∀ w, s.owner = some w → w < s.n
  blocking : ∀ w < s.n, s.pc w = .blocking → s.mainQ = []
  own : ∀ w < s.n, OwnEmpty (s.pc w) → s.wq w = []
  exited : ∀ w < s.n, s.pc w = .exited → s.stop = true
  wake : s.mainQ ≠ [] → s.stop = false → 0 < s.notifies ∨ ∃ w < s.n, s.pc w ≠ .asleep
  count : ∀ t, s.submitted.count t = s.mainQ.count t + ∑ w ∈ range s.n, s.atWorker t w + s.done.count t
  nodup : s.submitted.Nodup
  stop : s.stop = true ↔ s.dtor ≠ .alive

theorem init_inv (num : ℕ) : (init num).Inv := by
  refine ⟨?_, ?_, ?_, ?_, ?_, ?_, ?_, ?_, ?_, ?_⟩ <;> simp [init, Holds, OwnEmpty, atWorker, hand, defaultThreadNum]
  split <;> omega

theorem goto_pc (s : Pool) (w : ℕ) (p : WPc) (v : ℕ) : (s.goto w p).pc v = if v = w then p else s.pc v := by
  unfold goto
  simp [Function.update_apply]

/-- Sum over the workers after a change at `w`. -/
theorem sum_change {n w : ℕ} (hw : w < n) {f g : ℕ → ℕ} (h : ∀ v < n, v ≠ w → f v = g v) :
    ∑ v ∈ range n, f v + g w = ∑ v ∈ range n, g v + f w := by
  rw [← add_sum_erase _ f (mem_range.2 hw), ← add_sum_erase _ g (mem_range.2 hw)]
  have : ∑ x ∈ (range n).erase w, f x = ∑ x ∈ (range n).erase w, g x :=
    sum_congr rfl fun v hv => h v (mem_range.1 (mem_erase.1 hv).2) (mem_erase.1 hv).1
  omega

theorem atWorker_congr {s s' : Pool} {t v : ℕ} (h1 : s'.wq v = s.wq v) (h2 : s'.pc v = s.pc v) : s'.atWorker t v = s.atWorker t v := by
  unfold atWorker; rw [h1, h2]

/-- A step that changes neither queues nor hands keeps the count of every task. -/
theorem count_goto {s s' : Pool} (h : s.Inv) (hn : s'.n = s.n) (hq : s'.mainQ = s.mainQ) (hsub : s'.submitted = s.submitted)
    (hd : s'.done = s.done) (hwq : s'.wq = s.wq) (hpc : ∀ w t, w < s.n → (s'.pc w = .run t ↔ s.pc w = .run t)) (t : ℕ) :
    s'.submitted.count t = s'.mainQ.count t + ∑ w ∈ range s'.n, s'.atWorker t w + s'.done.count t := by
  rw [hn, hq, hsub, hd, h.count t]
  congr 2
  refine sum_congr rfl fun v hv => ?_
  unfold atWorker hand
  rw [hwq]
  simp only [hpc v t (mem_range.1 hv)]

theorem WStep.inv {s s' : Pool} {w : ℕ} (h : s.Inv) (hw : w < s.n) (hs : WStep s w s') : s'.Inv := by
  have hh := h.holds w hw
  have ho := h.own w hw
  have only : ∀ v < s.n, Holds (s.pc v) → s.owner ≠ none := fun v hv hp => by rw [(h.holds v hv).1 hp]; simp
  -- steps that leave queues and tasks alone
  have plain : ∀ (p : WPc) (o : Option ℕ), s' = { s with owner := o }.goto w p → (∀ t, p ≠ .run t) → (∀ t, s.pc w ≠ .run t) →
      (Holds p ↔ o = some w) → (o = s.owner ∨ s.owner = none ∨ (o = none ∧ s.owner = some w)) → (o ≠ s.owner → o = none ∨ o = some w) →
      (p = .blocking → s.mainQ = []) →
      (OwnEmpty p → s.wq w = []) → (p = .exited → s.stop = true) → (s.mainQ ≠ [] → p ≠ .asleep) → s'.Inv := by
    rintro p o rfl hr hr' hH hO hO2 hB hE hX hA
    refine ⟨h.pos, fun v hv => ?_, fun v hv => ?_, fun v hv hp => ?_, fun v hv hp => ?_, fun v hv hp => ?_, fun hm hst => ?_, ?_, h.nodup, h.stop⟩
    · rw [goto_pc]
      show _ ↔ o = some v
      split
      · rename_i e; subst e; exact hH
      · rename_i hne
        rw [h.holds v hv]
        rcases hO with hO | hO | hO
        · rw [hO]
        · rw [hO]
          by_cases e : o = s.owner
          · rw [e, hO]
          · rcases hO2 e with e | e <;> rw [e]
            simp
            omega
        · rw [hO.1, hO.2]; simp; omega
    · have hv' : o = some v := hv
      by_cases e : o = s.owner
      · exact h.owner v (by rw [← e]; exact hv')
      · rcases hO2 e with e | e <;> rw [e] at hv'
        · simp at hv'
        · injection hv' with hv'; subst hv'; exact hw
    · rw [goto_pc] at hp
      split at hp
      · exact hB hp
      · exact h.blocking v hv hp
    · rw [goto_pc] at hp
      split at hp
      · rename_i e; subst e; exact hE hp
      · exact h.own v hv hp
    · rw [goto_pc] at hp
      split at hp
      · exact hX hp
      · exact h.exited v hv hp
    · exact .inr ⟨w, hw, by rw [goto_pc, if_pos rfl]; exact hA hm⟩
    · refine count_goto h rfl rfl rfl rfl rfl fun v t hv => ?_
      rw [goto_pc]
      split
      · rename_i e; subst e
        simp [hr t, hr' t]
      · exact Iff.rfl
  -- steps that take a task out of a queue
  have take : ∀ (v t : ℕ) (l : List ℕ), v < s.n → s' = { s with wq := Function.update s.wq v l }.goto w (.run t) →
      (∀ u, (s.wq v).count u = l.count u + if t = u then 1 else 0) → (∀ t, s.pc w ≠ .run t) → ¬ Holds (s.pc w) → s'.Inv := by
    rintro v t l hv rfl hl hr hH
    refine ⟨h.pos, fun u hu => ?_, h.owner, fun u hu hp => ?_, fun u hu hp => ?_, fun u hu hp => ?_, fun hm hst => ?_, fun u => ?_, h.nodup, h.stop⟩
    · rw [goto_pc]
      show _ ↔ s.owner = some u
      split
      · rename_i e; subst e
        rw [← h.holds u hu]
        simp [Holds]
        exact hH
      · exact h.holds u hu
    · rw [goto_pc] at hp
      split at hp
      · simp at hp
      · exact h.blocking u hu hp
    · rw [goto_pc] at hp
      split at hp
      · simp [OwnEmpty] at hp
      · have h1 := h.own u hu hp
        show Function.update s.wq v l u = []
        rw [Function.update_apply]
        split
        · rename_i e; subst e
          have := hl t
          rw [h1] at this
          simp at this
        · exact h1
    · rw [goto_pc] at hp
      split at hp
      · simp at hp
      · exact h.exited u hu hp
    · exact .inr ⟨w, hw, by rw [goto_pc, if_pos rfl]; simp⟩
    · show s.submitted.count u = s.mainQ.count u + ∑ x ∈ range s.n, (Pool.goto _ w (.run t)).atWorker u x + s.done.count u
      rw [h.count u]
      have h1 : ∑ x ∈ range s.n, (Pool.goto { s with wq := Function.update s.wq v l } w (.run t)).atWorker u x =
          ∑ x ∈ range s.n, (Function.update s.wq v l x).count u + ∑ x ∈ range s.n, hand ((s.goto w (.run t)).pc x) u := by
        rw [← sum_add_distrib]; rfl
      have h2 : ∑ x ∈ range s.n, s.atWorker u x = ∑ x ∈ range s.n, (s.wq x).count u + ∑ x ∈ range s.n, hand (s.pc x) u := by
        rw [← sum_add_distrib]; rfl
      have h3 := sum_change (n := s.n) (w := v) hv (f := fun x => (Function.update s.wq v l x).count u) (g := fun x => (s.wq x).count u)
        fun x _ hx => by simp only [Function.update_apply, if_neg hx]
      have h4 := sum_change (n := s.n) (w := w) hw (f := fun x => hand ((s.goto w (.run t)).pc x) u) (g := fun x => hand (s.pc x) u)
        fun x _ hx => by simp only [goto_pc, if_neg hx]
      simp only [Function.update_self, goto_pc, if_true] at h3 h4
      have h5 := hl u
      have h6 : hand (s.pc w) u = 0 := by unfold hand; rw [if_neg (hr u)]
      have h7 : hand (.run t) u = if t = u then 1 else 0 := by simp [hand]
      rw [h6, h7] at h4
      rw [h1, h2]
      simp only [goto_pc] at h4 ⊢
      omega
  cases hs with
  | topExit hpc hst => exact plain _ s.owner rfl (by simp) (by simp [hpc]) (by rw [← hh, hpc]; simp [Holds]) (.inl rfl) (by simp) (by simp) (by simp [OwnEmpty]) (fun _ => hst) (by simp)
  | topGo hpc hst => exact plain _ s.owner rfl (by simp) (by simp [hpc]) (by rw [← hh, hpc]; simp [Holds]) (.inl rfl) (by simp) (by simp) (by simp [OwnEmpty]) (by simp) (by simp)
  | popOwn hpc hq => exact take w _ _ hw rfl (fun u => by rw [hq]; simp [List.count_singleton]) (by simp [hpc]) (by simp [hpc, Holds])
  | popOwnNone hpc hq => exact plain _ s.owner rfl (by simp) (by simp [hpc]) (by rw [← hh, hpc]; simp [Holds]) (.inl rfl) (by simp) (by simp) (fun _ => hq) (by simp) (by simp)
  | popMainNone hpc hn hq => exact plain _ s.owner rfl (by simp) (by simp [hpc]) (by rw [← hh, hpc]; simp [Holds]) (.inl rfl) (by simp) (by simp) (fun _ => ho (by simp [hpc, OwnEmpty])) (by simp) (by simp)
  | popMain hpc hn hq => exact plain _ (some w) rfl (by simp) (by simp [hpc]) (by simp [Holds]) (.inr (.inl hn)) (by simp) (by simp) (by simp [OwnEmpty]) (by simp) (by simp)
  | @move c t l hpc hq hc =>
    refine ⟨h.pos, fun u hu => ?_, h.owner, fun u hu hp => ?_, fun u hu hp => ?_, fun u hu hp => ?_, fun hm hst => ?_, fun u => ?_, h.nodup, h.stop⟩
    · rw [goto_pc]
      show _ ↔ s.owner = some u
      split
      · rename_i e; subst e
        rw [← h.holds u hu, hpc]
        simp [Holds]
      · exact h.holds u hu
    · rw [goto_pc] at hp
      split at hp
      · simp at hp
      · exact absurd (h.blocking u hu hp) (by rw [hq]; simp)
    · rw [goto_pc] at hp
      split at hp
      · simp [OwnEmpty] at hp
      · rename_i hne
        show Function.update s.wq w _ u = []
        rw [Function.update_apply, if_neg hne]
        exact h.own u hu hp
    · rw [goto_pc] at hp
      split at hp
      · simp at hp
      · exact h.exited u hu hp
    · exact .inr ⟨w, hw, by rw [goto_pc, if_pos rfl]; simp⟩
    · show s.submitted.count u = l.count u + ∑ x ∈ range s.n, (Pool.goto _ w (.moving (c + 1))).atWorker u x + s.done.count u
      rw [h.count u, hq]
      have := sum_change (n := s.n) (w := w) hw (f := fun x =>
        (Pool.goto { s with mainQ := l, wq := Function.update s.wq w (s.wq w ++ [t]) } w (.moving (c + 1))).atWorker u x) (g := fun x => s.atWorker u x)
        fun x _ hx => atWorker_congr (by show Function.update s.wq w _ x = _; rw [Function.update_apply, if_neg hx]) (by rw [goto_pc, if_neg hx])
      have h1 : (Pool.goto { s with mainQ := l, wq := Function.update s.wq w (s.wq w ++ [t]) } w (.moving (c + 1))).atWorker u w =
          (s.wq w).count u + if t = u then 1 else 0 := by
        unfold atWorker
        rw [goto_pc, if_pos rfl]
        show (Function.update s.wq w (s.wq w ++ [t]) w).count u + hand (.moving (c + 1)) u = _
        rw [Function.update_self]
        simp [hand, List.count_singleton]
      have h2 : s.atWorker u w = (s.wq w).count u := by
        unfold atWorker hand
        rw [hpc]
        simp
      rw [h1, h2] at this
      rw [List.count_cons]
      simp only [beq_iff_eq]
      omega
  | moveEnd hpc hc => exact plain _ none rfl (by simp) (by simp [hpc]) (by simp [Holds]) (.inr (.inr ⟨rfl, hh.1 (by simp [hpc, Holds])⟩)) (by simp) (by simp) (by simp [OwnEmpty]) (by simp) (by simp)
  | popOwn2 hpc hq => exact take w _ _ hw rfl (fun u => by rw [hq]; simp [List.count_singleton]) (by simp [hpc]) (by simp [hpc, Holds])
  | popOwn2None hpc hq => exact plain _ s.owner rfl (by simp) (by simp [hpc]) (by rw [← hh, hpc]; simp [Holds]) (.inl rfl) (by simp) (by simp) (fun _ => hq) (by simp) (by simp)
  | @steal i v t l hpc hi hv hq => exact take v t l (by rw [hv]; exact Nat.mod_lt _ (by have := h.pos; omega)) rfl (fun u => by rw [hq, List.count_cons]; simp) (by simp [hpc]) (by simp [hpc, Holds])
  | stealNone hpc hi => exact plain _ s.owner rfl (by simp) (by simp [hpc]) (by rw [← hh, hpc]; simp [Holds]) (.inl rfl) (by simp) (by simp) (fun _ => ho (by simp [hpc, OwnEmpty])) (by simp) (by simp)
  | stealEnd hpc hi => exact plain _ s.owner rfl (by simp) (by simp [hpc]) (by rw [← hh, hpc]; simp [Holds]) (.inl rfl) (by simp) (by simp) (fun _ => ho (by simp [hpc, OwnEmpty])) (by simp) (by simp)
  | @run t hpc =>
    refine ⟨h.pos, fun u hu => ?_, h.owner, fun u hu hp => ?_, fun u hu hp => ?_, fun u hu hp => ?_, fun hm hst => ?_, fun u => ?_, h.nodup, h.stop⟩
    · rw [goto_pc]
      show _ ↔ s.owner = some u
      split
      · rename_i e; subst e
        rw [← h.holds u hu, hpc]
        simp [Holds]
      · exact h.holds u hu
    · rw [goto_pc] at hp
      split at hp
      · simp at hp
      · exact h.blocking u hu hp
    · rw [goto_pc] at hp
      split at hp
      · simp [OwnEmpty] at hp
      · exact h.own u hu hp
    · rw [goto_pc] at hp
      split at hp
      · simp at hp
      · exact h.exited u hu hp
    · exact .inr ⟨w, hw, by rw [goto_pc, if_pos rfl]; simp⟩
    · show s.submitted.count u = s.mainQ.count u + ∑ x ∈ range s.n, (Pool.goto _ w .top).atWorker u x + (s.done ++ [t]).count u
      rw [h.count u]
      have := sum_change (n := s.n) (w := w) hw (f := fun x =>
        (Pool.goto { s with done := s.done ++ [t] } w .top).atWorker u x) (g := fun x => s.atWorker u x)
        fun x _ hx => atWorker_congr rfl (by rw [goto_pc, if_neg hx])
      have h1 : (Pool.goto { s with done := s.done ++ [t] } w .top).atWorker u w = (s.wq w).count u := by
        unfold atWorker
        rw [goto_pc, if_pos rfl]
        simp [hand, goto]
      have h2 : s.atWorker u w = (s.wq w).count u + if t = u then 1 else 0 := by
        unfold atWorker hand
        rw [hpc]
        simp
      rw [h1, h2] at this
      simp [List.count_singleton]
      omega
  | lockWait hpc hn => exact plain _ (some w) rfl (by simp) (by simp [hpc]) (by simp [Holds]) (.inr (.inl hn)) (by simp) (by simp) (fun _ => ho (by simp [hpc, OwnEmpty])) (by simp) (by simp)
  | relock hpc hn => exact plain _ (some w) rfl (by simp) (by simp [hpc]) (by simp [Holds]) (.inr (.inl hn)) (by simp) (by simp) (fun _ => ho (by simp [hpc, OwnEmpty])) (by simp) (by simp)
  | predTrue hpc hc => exact plain _ s.owner rfl (by simp) (by simp [hpc]) (by rw [← hh, hpc]; simp [Holds]) (.inl rfl) (by simp) (by simp) (fun _ => ho (by simp [hpc, OwnEmpty])) (by simp) (by simp)
  | predFalse hpc hq hst => exact plain _ s.owner rfl (by simp) (by simp [hpc]) (by rw [← hh, hpc]; simp [Holds]) (.inl rfl) (by simp) (fun _ => hq) (fun _ => ho (by simp [hpc, OwnEmpty])) (by simp) (by simp)
  | block hpc => exact plain _ none rfl (by simp) (by simp [hpc]) (by simp [Holds]) (.inr (.inr ⟨rfl, hh.1 (by simp [hpc, Holds])⟩)) (by simp) (by simp) (fun _ => ho (by simp [hpc, OwnEmpty])) (by simp) (fun hm => absurd (h.blocking w hw hpc) hm)
  | unlock hpc => exact plain _ none rfl (by simp) (by simp [hpc]) (by simp [Holds]) (.inr (.inr ⟨rfl, hh.1 (by simp [hpc, Holds])⟩)) (by simp) (by simp) (by simp [OwnEmpty]) (by simp) (by simp)

theorem Step.inv {s s' : Pool} {l : Label} (h : s.Inv) (hs : Step s l s') : s'.Inv := by
  -- a sleeping worker wakes up
  have wakeUp : ∀ w < s.n, s.pc w = .asleep → ∀ k, ({ s with notifies := k }.goto w .relock).Inv := by
    intro w hw hp k
    refine ⟨h.pos, fun v hv => ?_, h.owner, fun v hv hp' => ?_, fun v hv hp' => ?_, fun v hv hp' => ?_, fun hm hst => ?_, ?_, h.nodup, h.stop⟩
    · rw [goto_pc]
      show _ ↔ s.owner = some v
      rw [← h.holds v hv]
      split
      · rename_i e; subst e; rw [hp]; simp [Holds]
      · exact Iff.rfl
    · rw [goto_pc] at hp'
      split at hp'
      · simp at hp'
      · exact h.blocking v hv hp'
    · rw [goto_pc] at hp'
      split at hp'
      · rename_i e; subst e
        exact h.own v hv (by simp [hp, OwnEmpty])
      · exact h.own v hv hp'
    · rw [goto_pc] at hp'
      split at hp'
      · simp at hp'
      · exact h.exited v hv hp'
    · exact .inr ⟨w, hw, by rw [goto_pc, if_pos rfl]; simp⟩
    · refine count_goto h rfl rfl rfl rfl rfl fun v t hv => ?_
      rw [goto_pc]
      split
      · rename_i e; subst e; simp [hp]
      · exact Iff.rfl
  cases hs with
  | worker hw hs => exact (worker_cases hs).inv h hw
  | @submit _ t ha ht hs =>
    unfold Pool.submit at hs
    split at hs
    · simp at hs
    · rename_i ho
      push Not at ho
      injection hs with hs
      subst hs
      refine ⟨h.pos, h.holds, h.owner, fun v hv hp => ?_, h.own, h.exited, fun _ _ => .inl (Nat.succ_pos _), fun u => ?_, ?_, h.stop⟩
      · have := (h.holds v hv).1 (by rw [hp]; trivial)
        rw [ho] at this
        simp at this
      · show (s.submitted ++ [t]).count u = (s.mainQ ++ [t]).count u + ∑ w ∈ range s.n, s.atWorker u w + s.done.count u
        rw [List.count_append, List.count_append, h.count u]
        omega
      · show (s.submitted ++ [t]).Nodup
        rw [List.nodup_append]
        refine ⟨h.nodup, by simp, fun a ha b hb => ?_⟩
        simp only [List.mem_singleton] at hb
        subst hb
        rintro rfl
        exact ht ha
  | notify hk hw hp => exact wakeUp _ hw hp _
  | notifyNone hk hp =>
    refine ⟨h.pos, h.holds, h.owner, h.blocking, h.own, h.exited, fun _ _ => .inr ⟨0, h.pos, hp 0 h.pos⟩, h.count, h.nodup, h.stop⟩
  | spurious hw hp => exact wakeUp _ hw hp s.notifies
  | setStop ha hk =>
    refine ⟨h.pos, h.holds, h.owner, h.blocking, h.own, fun v hv hp => rfl, fun _ hst => absurd hst (by simp [Pool.setStop]), h.count, h.nodup, ?_⟩
    simp [Pool.setStop]
  | notifyAll hd =>
    have hst : s.stop = true := h.stop.2 (by rw [hd]; simp)
    have e : ∀ v, s.notifyAll.pc v = if s.pc v = .asleep then .relock else s.pc v := fun v => rfl
    refine ⟨h.pos, fun v hv => ?_, h.owner, fun v hv hp => ?_, fun v hv hp => ?_, fun v hv hp => hst, fun _ hst' => ?_, ?_, h.nodup, ?_⟩
    · rw [e]
      show _ ↔ s.owner = some v
      rw [← h.holds v hv]
      split
      · rename_i hp; rw [hp]; simp [Holds]
      · exact Iff.rfl
    · rw [e] at hp
      split at hp
      · simp at hp
      · exact h.blocking v hv hp
    · rw [e] at hp
      split at hp
      · rename_i hp'
        exact h.own v hv (by simp [hp', OwnEmpty])
      · exact h.own v hv hp
    · have : s.stop = false := hst'
      rw [hst] at this
      simp at this
    · refine count_goto h rfl rfl rfl rfl rfl fun v t hv => ?_
      rw [e]
      split
      · rename_i hp; simp [hp]
      · exact Iff.rfl
    · show s.stop = true ↔ DPc.joining ≠ .alive
      simp [hst]
  | joinAll hd hx =>
    have hst : s.stop = true := h.stop.2 (by rw [hd]; simp)
    refine ⟨h.pos, h.holds, h.owner, h.blocking, h.own, h.exited, h.wake, h.count, h.nodup, ?_⟩
    show s.stop = true ↔ DPc.finished ≠ .alive
    simp [hst]

theorem Exec.inv {s s' : Pool} {ls : List Label} (h : s.Inv) (he : Exec s ls s') : s'.Inv := by
  induction he with
  | nil => exact h
  | snoc _ hs ih => exact hs.inv ih

theorem Reachable.inv {num : ℕ} {s : Pool} (h : Reachable num s) : s.Inv := by
  obtain ⟨ls, h⟩ := h
  exact h.inv (init_inv num)

end Pool

end Intp
