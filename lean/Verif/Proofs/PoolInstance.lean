import Verif.PoolInstance
import Mathlib.Logic.Function.Basic

/-!
# Helper lemmas: invariant of `get_instance`
-/

namespace Intp

namespace GetState

/-- Before the pool exists only exceptions have been returned; afterwards the log is: exceptions, the call that made the pool, calls that got it.  At most
one thread runs the constructor, and none when the pool exists. -/
structure Inv (x : GetState) : Prop where
  shape : (x.inst = none ∧ ∀ e ∈ x.log, e.2.2 = none) ∨
    ∃ a t num b, x.log = a ++ (t, num, some (Pool.init num)) :: b ∧ (∀ e ∈ a, e.2.2 = none) ∧ (∀ e ∈ b, e.2.2 = some (Pool.init num)) ∧
      x.inst = some (Pool.init num)
  one : ∀ t t' num num', x.pc t = .building num → x.pc t' = .building num' → t = t'
  none : x.inst ≠ none → ¬ x.Busy

theorem Reach.inv {x : GetState} (h : Reach x) : x.Inv := by
  induction h with
  | init => exact ⟨.inl ⟨rfl, fun e he => (by cases he)⟩, fun t t' num num' h => (by cases h), fun h => absurd rfl h⟩
  | @step x y t _ hs ih =>
    have upd : ∀ {q : GetPc} {num : ℕ} {s : ℕ}, (∀ n, q ≠ .building n) → Function.update x.pc t q s = .building num → x.pc s = .building num := by
      intro q num s hq hu
      by_cases hst : s = t
      · rw [hst, Function.update_self] at hu; exact absurd hu (hq num)
      · rwa [Function.update_of_ne hst] at hu
    cases hs with
    | call num hp =>
      refine ⟨ih.shape, fun s s' n n' h h' => ih.one s s' n n' (upd (by simp) h) (upd (by simp) h'), fun hn hb => ih.none hn ?_⟩
      obtain ⟨s, n, hb⟩ := hb
      exact ⟨s, n, upd (by simp) hb⟩
    | @ready num p hp hi =>
      refine ⟨?_, fun s s' n n' h h' => ih.one s s' n n' (upd (by simp) h) (upd (by simp) h'), fun hn hb => ih.none hn ?_⟩
      · rcases ih.shape with ⟨h, -⟩ | ⟨a, t', m, b, h1, h2, h3, h4⟩
        · rw [h] at hi; cases hi
        · right
          rw [h4] at hi
          injection hi with hi
          refine ⟨a, t', m, b ++ [(t, num, some p)], by simp [h1], h2, fun e he => ?_, h4⟩
          rcases List.mem_append.1 he with he | he
          · exact h3 e he
          · rw [List.mem_singleton.1 he, hi]
      · obtain ⟨s, n, hb⟩ := hb
        exact ⟨s, n, upd (by simp) hb⟩
    | @build num hp hi hb =>
      refine ⟨ih.shape, fun s s' n n' h h' => ?_, fun hn => absurd hi hn⟩
      have key : ∀ s n, Function.update x.pc t (.building num) s = .building n → s = t := by
        intro s n h
        by_contra hst
        rw [Function.update_of_ne hst] at h
        exact hb ⟨s, n, h⟩
      rw [key s n h, key s' n' h']
    | @built num hp =>
      have hn : x.inst = Option.none := by
        by_contra hc
        exact ih.none hc ⟨t, num, hp⟩
      refine ⟨?_, fun s s' n n' h h' => ih.one s s' n n' (upd (by simp) h) (upd (by simp) h'), fun _ hb => ?_⟩
      · rcases ih.shape with ⟨-, h⟩ | ⟨a, t', m, b, -, -, -, h4⟩
        · exact .inr ⟨x.log, t, num, [], rfl, h, fun e he => (by cases he), rfl⟩
        · rw [hn] at h4; cases h4
      · obtain ⟨s, n, hb⟩ := hb
        have hst : s = t := ih.one s t n num (upd (by simp) hb) hp
        rw [hst] at hb
        simp at hb
    | @throws num hp =>
      have hn : x.inst = Option.none := by
        by_contra hc
        exact ih.none hc ⟨t, num, hp⟩
      refine ⟨?_, fun s s' n n' h h' => ih.one s s' n n' (upd (by simp) h) (upd (by simp) h'), fun h => absurd hn h⟩
      rcases ih.shape with ⟨-, h⟩ | ⟨a, t', m, b, -, -, -, h4⟩
      · left
        refine ⟨hn, fun e he => ?_⟩
        rcases List.mem_append.1 he with he | he
        · exact h e he
        · rw [List.mem_singleton.1 he]
      · rw [hn] at h4; cases h4

end GetState

end Intp
