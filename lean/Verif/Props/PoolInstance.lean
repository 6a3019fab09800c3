import Verif.Proofs.PoolInstance
import Verif.Props.ForkJoin

/-!
# C111: one pool for the whole program, with the number of threads of the first call that succeeds
-/

namespace Intp

open GetState

/-- **C111.**  In every execution, with any number of threads that call `get_instance` with any arguments: all calls that return have returned the same
pool; it was made for the argument `num` of the first of them, and has `num` workers (8 if `num = 0`), whatever the other arguments are; the calls before it
threw. -/
theorem instance_unique {x : GetState} (h : Reach x) {t num : ℕ} {p : Pool} (hp : (t, num, some p) ∈ x.log) :
    ∃ a t0 num0 b, x.log = a ++ (t0, num0, some p) :: b ∧ (∀ e ∈ a, e.2.2 = none) ∧ (∀ e ∈ b, e.2.2 = some p) ∧
      p = Pool.init num0 ∧ p.n = (if num0 = 0 then 8 else num0) := by
  rcases h.inv.shape with ⟨-, h1⟩ | ⟨a, t0, num0, b, h1, h2, h3, h4⟩
  · have := h1 _ hp; cases this
  · have he : p = Pool.init num0 := by
      rw [h1] at hp
      rcases List.mem_append.1 hp with hp | hp
      · have := h2 _ hp; cases this
      · rcases List.mem_cons.1 hp with hp | hp
        · have h5 := congrArg (fun e : ℕ × ℕ × Option Pool => e.2.2) hp
          injection h5
        · have h5 := h3 _ hp
          injection h5
    exact ⟨a, t0, num0, b, by rw [h1, he], h2, by rw [he]; exact h3, he, by rw [he]; rfl⟩

/-- **C111.**  At most one thread runs the constructor, nobody runs it once the pool exists, and the pool that exists is never replaced. -/
theorem instance_built_once {x : GetState} (h : Reach x) :
    (∀ t t' num num', x.pc t = .building num → x.pc t' = .building num' → t = t') ∧ (x.inst ≠ none → ∀ t num, x.pc t ≠ .building num) ∧
    ∀ p, x.inst = some p → ∀ t y, Step x t y → y.inst = some p := by
  have hi := h.inv
  refine ⟨hi.one, fun hn t num hb => hi.none hn ⟨t, num, hb⟩, fun p hp t y hs => ?_⟩
  cases hs with
  | call => exact hp
  | ready => exact hp
  | build _ hn => rw [hn] at hp; cases hp
  | built hb => exact absurd ⟨t, _, hb⟩ (hi.none (by rw [hp]; exact Option.some_ne_none p))
  | throws hb => exact absurd ⟨t, _, hb⟩ (hi.none (by rw [hp]; exact Option.some_ne_none p))

/-- **C111.**  No call waits without reason: a thread in `get_instance` can take a step, or another one is running the constructor, which can take a step
(it returns or throws; termination of the constructor is C87).  After an exception the next thread tries again, with its own argument. -/
theorem instance_progress (x : GetState) {t num : ℕ} (ht : x.pc t = .entered num) :
    (∃ y, Step x t y ∧ y.pc t ≠ .entered num) ∨ ∃ t' num', x.pc t' = .building num' ∧ t' ≠ t ∧ ∃ y, Step x t' y ∧ y.pc t' = .out := by
  by_cases hb : x.Busy
  · obtain ⟨t', num', hb⟩ := hb
    exact .inr ⟨t', num', hb, fun h => (by rw [h, ht] at hb; cases hb), _, .built hb, by simp⟩
  · left
    cases hi : x.inst with
    | none => exact ⟨_, .build ht hi hb, by simp⟩
    | some p => exact ⟨_, .ready ht hi, by simp⟩

/-- **C111.**  The library asks for 8 threads (InterpolationTemplate.hpp:554, BSpline.hpp:741).  It gets 8 iff the call that made the pool asked for 8 or
for 0; otherwise the pool has as many as that call asked for.  -/
theorem instance_library {x : GetState} (h : Reach x) {t : ℕ} {p : Pool} (hp : (t, 8, some p) ∈ x.log) :
    ∃ num0, (∃ t0, (t0, num0, some p) ∈ x.log) ∧ (p.n = 8 ↔ num0 = 8 ∨ num0 = 0) ∧ Pool.Reachable num0 p ∧ p.dtor = .alive ∧ p.submitted = [] := by
  obtain ⟨a, t0, num0, b, h1, -, -, h2, h3⟩ := instance_unique h hp
  refine ⟨num0, ⟨t0, by rw [h1]; simp⟩, ?_, by rw [h2]; exact ⟨[], .nil _⟩, by rw [h2]; rfl, by rw [h2]; rfl⟩
  rw [h3]
  split <;> omega

section

open FJState Template

variable {D : ℕ} {K V : Type} [CoordArith K] [ValArith V] [ScaleArith K V] {b : Bool} {c : Cfg} {o : ℕ} {per : Fin (D + 1) → Bool} {x : Fin (D + 1) → XRange K}
  {fm : Mesh (D + 1) V} {bn : ℕ → ℕ} {junk0 : ℕ → V} {junk : ℕ → ℕ → V}

/-- **C111.**  Whoever made the pool, with whatever number of threads, and whatever has run on it since: if the single-threaded build constructs `g`, every
construction on this pool ends with `g`, does not fail and does not get stuck. -/
theorem instance_construct {y : GetState} (h : Reach y) {t num : ℕ} {p p0 : Pool} (hp : (t, num, some p) ∈ y.log) {ls : List Pool.Label}
    (hr : Pool.Exec p ls p0) (ha : p0.dtor = .alive) (hf : ∀ t ∈ p0.submitted, t % 2 = 1) {g : InterpFn (D + 1) K V}
    (hg : Fl.construct b c o per fm x = .ok g) :
    ∃ t s0, Fl.constructT b c o per fm.dims x = .ok t ∧ t.solveStart c junk0 fm = .ok s0 ∧
      ∃ N B, ∀ ls z, FJState.Exec (solveJob c t.solvers bn junk) (FJState.init p0 s0) ls z → ls.length ≤ N + B * ls.countP (fun l => !l.isWork) ∧
        ¬ z.Race ∧ ¬ z.Failed ∧ ((z.Done (solveJob c t.solvers bn junk) ∧
          { t.base with spline := t.base.spline.loadCtrlPts (solveResult z.s) } = g) ∨
          ∃ l z', l.isWork = true ∧ FJState.Step (solveJob c t.solvers bn junk) z l z') := by
  obtain ⟨_, _, num0, _, -, -, -, h2, -⟩ := instance_unique h hp
  exact pool_solve_construct hg (num := num0) ⟨ls, h2 ▸ hr⟩ ha hf

end

/-- Thread 1 asks for 5 threads and the constructor throws; then thread 2 asks for 3 and makes the pool, while thread 7, the library, waits; it gets a pool
of 3 threads. -/
example : ∃ x, Reach x ∧ x.log = [(1, 5, none), (2, 3, some (Pool.init 3)), (7, 8, some (Pool.init 3))] ∧ (Pool.init 3).n = 3 := by
  have h0 := Reach.init
  have h1 := h0.step (.call (t := 1) 5 rfl)
  have h2 := h1.step (.build (t := 1) (num := 5) (by simp) rfl (fun ⟨s, n, hb⟩ => by
    by_cases hs : s = 1 <;> simp [GetState.init, Function.update_apply, hs] at hb))
  have h3 := h2.step (.throws (t := 1) (num := 5) (by simp))
  have h4 := h3.step (.call (t := 2) 3 (by simp [GetState.init]))
  have h5 := h4.step (.call (t := 7) 8 (by simp [GetState.init]))
  have h6 := h5.step (.build (t := 2) (num := 3) (by simp) rfl (fun ⟨s, n, hb⟩ => by
    by_cases hs : s = 1 <;> by_cases hs' : s = 2 <;> by_cases hs'' : s = 7 <;> simp [GetState.init, Function.update_apply, hs, hs', hs''] at hb))
  have h7 := h6.step (.built (t := 2) (num := 3) (by simp))
  have h8 := h7.step (.ready (t := 7) (num := 8) (p := Pool.init 3) (by simp) rfl)
  exact ⟨_, h8, rfl, rfl⟩

end Intp
