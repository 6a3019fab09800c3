import Verif.PoolStats
import Verif.Proofs.PoolProgress

/-!
# Helper lemmas: invariants of the counters of the thread pool
-/

namespace Intp

open Finset Pool

namespace Counted

theorem sum_incr {n w : ℕ} (hw : w < n) (f : ℕ → ℕ) : ∑ v ∈ range n, incr f w v = ∑ v ∈ range n, f v + 1 := by
  have := sum_change hw (f := incr f w) (g := f) fun v _ hv => by rw [incr, Function.update_of_ne hv]
  have h2 : incr f w w = f w + 1 := by rw [incr, Function.update_self]
  omega

theorem incr_ne (f : ℕ → ℕ) {v w : ℕ} (h : v ≠ w) : incr f w v = f v := by rw [incr, Function.update_of_ne h]

theorem incr_self (f : ℕ → ℕ) (w : ℕ) : incr f w w = f w + 1 := by rw [incr, Function.update_self]

/-- Invariant of the counters, in terms of the lengths `q` of the worker queues, `m` of the main queue, the numbers of tasks `d` done and `u`
submitted, and of tasks `b` in the hands of the workers. -/
structure CInv (n : ℕ) (q : ℕ → ℕ) (m d u : ℕ) (b : ℕ → ℕ) (c : Counters) (th : ℕ → Bool) : Prop where
  queue : ∀ w < n, c.submitted w = c.executed w + c.stolen w + q w
  main : c.mainSubmitted = m + ∑ w ∈ range n, c.submitted w
  steals : ∑ w ∈ range n, c.stolen w = ∑ w ∈ range n, c.stealing w + ∑ w ∈ range n, (th w).toNat
  hands : ∑ w ∈ range n, c.executed w + ∑ w ∈ range n, c.stolen w = d + ∑ w ∈ range n, b w
  thief : ∀ w < n, th w = true → b w = 1
  length : c.mainSubmitted = u

namespace CInv

variable {n m d u w : ℕ} {q q' b b' : ℕ → ℕ} {c : Counters} {th : ℕ → Bool}

theorem congr (h : CInv n q m d u b c th) (hq : ∀ v < n, q' v = q v) (hb : ∀ v < n, b' v = b v) : CInv n q' m d u b' c th := by
  refine ⟨fun v hv => by rw [hq v hv]; exact h.queue v hv, h.main, h.steals, ?_, fun v hv ht => by rw [hb v hv]; exact h.thief v hv ht, h.length⟩
  rw [h.hands, sum_congr rfl fun v hv => (hb v (mem_range.1 hv)).symm]

theorem pop (h : CInv n q m d u b c th) (hw : w < n) (hq : ∀ v, v ≠ w → q' v = q v) (hqw : q' w + 1 = q w) (hb : ∀ v, v ≠ w → b' v = b v)
    (hbw : b w = 0) (hbw' : b' w = 1) : CInv n q' m d u b' { c with executed := incr c.executed w } th := by
  refine ⟨fun v hv => ?_, h.main, h.steals, ?_, fun v hv ht => ?_, h.length⟩
  · have := h.queue v hv
    by_cases he : v = w
    · subst he
      simp only [incr_self]
      omega
    · simp only [incr_ne _ he, hq v he]
      exact this
  · have h1 := sum_change hw (f := b') (g := b) fun v _ hv => hb v hv
    have h2 := h.hands
    simp only [sum_incr hw]
    omega
  · by_cases he : v = w
    · rw [he]; exact hbw'
    · rw [hb v he]; exact h.thief v hv ht

theorem move {m' : ℕ} (h : CInv n q m d u b c th) (hw : w < n) (hq : ∀ v, v ≠ w → q' v = q v) (hqw : q' w = q w + 1) (hm : m = m' + 1) :
    CInv n q' m' d u b { c with submitted := incr c.submitted w } th := by
  refine ⟨fun v hv => ?_, ?_, h.steals, h.hands, h.thief, h.length⟩
  · have := h.queue v hv
    by_cases he : v = w
    · subst he
      simp only [incr_self]
      omega
    · simp only [incr_ne _ he, hq v he]
      exact this
  · have := h.main
    simp only [sum_incr hw]
    omega

theorem steal {v : ℕ} (h : CInv n q m d u b c th) (hw : w < n) (hv : v < n) (hq : ∀ x, x ≠ v → q' x = q x) (hqv : q' v + 1 = q v)
    (hb : ∀ x, x ≠ w → b' x = b x) (hbw : b w = 0) (hbw' : b' w = 1) (ht : th w = false) :
    CInv n q' m d u b' { c with stolen := incr c.stolen v } (Function.update th w true) := by
  refine ⟨fun x hx => ?_, h.main, ?_, ?_, fun x hx htx => ?_, h.length⟩
  · have := h.queue x hx
    by_cases he : x = v
    · subst he
      simp only [incr_self]
      omega
    · simp only [incr_ne _ he, hq x he]
      exact this
  · have h1 := sum_change hw (f := fun x => (Function.update th w true x).toNat) (g := fun x => (th x).toNat) fun x _ hx => by
      simp only [Function.update_of_ne hx]
    simp only [Function.update_self, ht, Bool.toNat_false, Bool.toNat_true] at h1
    have h2 := h.steals
    simp only [sum_incr hv]
    omega
  · have h1 := sum_change hw (f := b') (g := b) fun v _ hv => hb v hv
    have h2 := h.hands
    simp only [sum_incr hv]
    omega
  · by_cases he : x = w
    · rw [he]; exact hbw'
    · rw [hb x he]
      rw [Function.update_of_ne he] at htx
      exact h.thief x hx htx

theorem run (h : CInv n q m d u b c th) (hw : w < n) (hb : ∀ v, v ≠ w → b' v = b v) (hbw : b w = 1) (hbw' : b' w = 0) (ht : th w = false) :
    CInv n q m (d + 1) u b' c th := by
  refine ⟨h.queue, h.main, h.steals, ?_, fun v hv htv => ?_, h.length⟩
  · have h1 := sum_change hw (f := b') (g := b) fun v _ hv => hb v hv
    have h2 := h.hands
    omega
  · by_cases he : v = w
    · rw [he, ht] at htv; simp at htv
    · rw [hb v he]; exact h.thief v hv htv

theorem stealing (h : CInv n q m d u b c th) (hw : w < n) (ht : th w = true) :
    CInv n q m d u b { c with stealing := incr c.stealing w } (Function.update th w false) := by
  refine ⟨h.queue, h.main, ?_, h.hands, fun x hx htx => ?_, h.length⟩
  · have h1 := sum_change hw (f := fun x => (Function.update th w false x).toNat) (g := fun x => (th x).toNat) fun x _ hx => by
      simp only [Function.update_of_ne hx]
    simp only [Function.update_self, ht, Bool.toNat_false, Bool.toNat_true] at h1
    have h2 := h.steals
    simp only [sum_incr hw]
    omega
  · by_cases he : x = w
    · rw [he, Function.update_self] at htx; simp at htx
    · rw [Function.update_of_ne he] at htx
      exact h.thief x hx htx

theorem submit (h : CInv n q m d u b c th) : CInv n q (m + 1) d (u + 1) b { c with mainSubmitted := c.mainSubmitted + 1 } th := by
  refine ⟨h.queue, ?_, h.steals, h.hands, h.thief, ?_⟩
  · have := h.main
    simp only
    omega
  · have := h.length
    simp only
    omega

end CInv

/-- `CInv` of a state. -/
def Inv (s : Counted) : Prop :=
  CInv s.pool.n (fun w => (s.pool.wq w).length) s.pool.mainQ.length s.pool.done.length s.pool.submitted.length (fun w => busy (s.pool.pc w)) s.cnt
    s.thief

theorem update_false {f : ℕ → Bool} {w : ℕ} (h : f w = false) : Function.update f w false = f := by
  rw [← h, Function.update_eq_self]

theorem count_pop {s : Pool} {c : Counters} {w : ℕ} (h : s.pc w = .popOwn ∨ s.pc w = .popOwn2) :
    count s c w = (if s.wq w = [] then c else { c with executed := incr c.executed w }, false) := by
  unfold count
  rcases h with h | h <;> rw [h]

theorem goto_ne (s : Pool) {v w : ℕ} (p : WPc) (h : v ≠ w) : (s.goto w p).pc v = s.pc v := by rw [goto_pc, if_neg h]

theorem goto_self (s : Pool) (w : ℕ) (p : WPc) : (s.goto w p).pc w = p := by rw [goto_pc, if_pos rfl]

/-- Worker steps that count nothing. -/
theorem Inv.plain {s : Counted} (h : s.Inv) {w : ℕ} {q : Pool} {x y : WPc} (hth : s.thief w = false) (hn : q.n = s.pool.n)
    (hwq : q.wq = s.pool.wq) (hm : q.mainQ = s.pool.mainQ) (hd : q.done = s.pool.done) (hsub : q.submitted = s.pool.submitted)
    (hpc : q.pc = s.pool.pc) (hx : s.pool.pc w = x) (hb0 : busy x = 0) (hb1 : busy y = 0) (hc : count s.pool s.cnt w = (s.cnt, false)) :
    Inv ⟨q.goto w y, (count s.pool s.cnt w).1, Function.update s.thief w (count s.pool s.cnt w).2⟩ := by
  rw [hc, update_false hth]
  unfold Inv
  have e1 : (q.goto w y).n = s.pool.n := hn
  have e2 : (q.goto w y).wq = s.pool.wq := hwq
  have e3 : (q.goto w y).mainQ = s.pool.mainQ := hm
  have e4 : (q.goto w y).done = s.pool.done := hd
  have e5 : (q.goto w y).submitted = s.pool.submitted := hsub
  simp only [e1, e2, e3, e4, e5]
  refine CInv.congr h (fun v _ => rfl) fun v _ => ?_
  by_cases he : v = w
  · subst he; rw [goto_self, hb1, hx, hb0]
  · rw [goto_ne _ _ he, hpc]

theorem Inv.pop {s : Counted} (h : s.Inv) {w t : ℕ} {l : List ℕ} (hw : w < s.pool.n) (hp : s.pool.pc w = .popOwn ∨ s.pool.pc w = .popOwn2)
    (hq : s.pool.wq w = l ++ [t]) (hth : s.thief w = false) :
    Inv ⟨{ s.pool with wq := Function.update s.pool.wq w l }.goto w (.run t), (count s.pool s.cnt w).1,
      Function.update s.thief w (count s.pool s.cnt w).2⟩ := by
  rw [count_pop hp, if_neg (by rw [hq]; simp), update_false hth]
  refine CInv.pop h hw (fun v hv => ?_) ?_ (fun v hv => ?_) ?_ ?_
  · show (Function.update s.pool.wq w l v).length = _
    rw [Function.update_of_ne hv]
  · show (Function.update s.pool.wq w l w).length + 1 = _
    rw [Function.update_self, hq]; simp
  · show busy ((Pool.goto _ _ _).pc v) = _
    rw [goto_ne _ _ hv]
  · rcases hp with hp | hp <;> simp only [hp] <;> rfl
  · show busy ((Pool.goto _ _ _).pc w) = _
    rw [goto_self]; rfl

theorem Inv.step {s s' : Counted} {l : Label} (hn : 1 ≤ s.pool.n) (h : s.Inv) (hs : Step s l s') : s'.Inv := by
  cases hs with
  | @worker w p hw hth hst =>
    have hws := worker_cases hst
    have oth : ∀ {x : WPc}, s.pool.pc w = x → x ≠ .popOwn → x ≠ .popOwn2 → (∀ k, x ≠ .moving k) → (∀ i, x ≠ .steal i) →
        count s.pool s.cnt w = (s.cnt, false) := by
      rintro x rfl h1 h2 h3 h4
      unfold count
      split <;> simp_all
    cases hws with
    | topExit hpc _ | topGo hpc _ | popMainNone hpc _ _ | popMain hpc _ _ | lockWait hpc _ | relock hpc _ | predTrue hpc _ | predFalse hpc _ _
      | block hpc | unlock hpc =>
      exact h.plain hth rfl rfl rfl rfl rfl rfl hpc rfl rfl (oth hpc (by simp) (by simp) (by simp) (by simp))
    | popOwn hpc hq => exact h.pop hw (.inl hpc) hq hth
    | popOwn2 hpc hq => exact h.pop hw (.inr hpc) hq hth
    | popOwnNone hpc hq =>
      exact h.plain hth rfl rfl rfl rfl rfl rfl hpc rfl rfl (by rw [count_pop (.inl hpc), if_pos hq])
    | popOwn2None hpc hq =>
      exact h.plain hth rfl rfl rfl rfl rfl rfl hpc rfl rfl (by rw [count_pop (.inr hpc), if_pos hq])
    | @moveEnd k hpc hx =>
      refine h.plain hth rfl rfl rfl rfl rfl rfl hpc rfl rfl ?_
      unfold count
      rw [hpc]
      simp only
      rw [if_neg]
      rintro ⟨h1, h2⟩
      rcases hx with hx | hx
      · exact h1 hx
      · exact hx h2
    | @stealEnd i hpc hx =>
      refine h.plain hth rfl rfl rfl rfl rfl rfl hpc rfl rfl ?_
      unfold count
      rw [hpc]
      simp only
      rw [if_neg (fun h => hx h.1)]
    | @stealNone i hpc hx =>
      refine h.plain hth rfl rfl rfl rfl rfl rfl hpc rfl rfl ?_
      unfold Pool.worker at hst
      rw [hpc] at hst
      simp only [if_pos hx] at hst
      unfold count
      rw [hpc]
      simp only
      rw [if_neg]
      rintro ⟨-, h2⟩
      obtain ⟨t, l, hq⟩ := List.exists_cons_of_ne_nil h2
      have : s.pool.trySteal ((w + i + 1) % s.pool.n) =
          some (t, { s.pool with wq := Function.update s.pool.wq ((w + i + 1) % s.pool.n) l }) := by
        unfold trySteal; rw [hq]
      rw [this] at hst
      simp only [Option.some.injEq] at hst
      have := congrArg (fun p : Pool => p.pc w) hst
      simp only [goto_self] at this
      exact absurd this (by simp)
    | @move k t l hpc hm hk =>
      have : count s.pool s.cnt w = ({ s.cnt with submitted := incr s.cnt.submitted w }, false) := by
        unfold count
        rw [hpc]
        simp only
        rw [if_pos ⟨by rw [hm]; simp, hk⟩]
      rw [this, update_false hth]
      have h' : CInv s.pool.n (fun w => (s.pool.wq w).length) s.pool.mainQ.length s.pool.done.length s.pool.submitted.length
          (fun v => busy (({ s.pool with mainQ := l, wq := Function.update s.pool.wq w (s.pool.wq w ++ [t]) }.goto w (.moving (k + 1))).pc v))
          s.cnt s.thief := by
        refine CInv.congr h (fun _ _ => rfl) fun v _ => ?_
        by_cases he : v = w
        · subst he; rw [goto_self, hpc]; rfl
        · rw [goto_ne _ _ he]
      refine CInv.move h' hw (fun v hv => ?_) ?_ ?_
      · show (Function.update s.pool.wq w (s.pool.wq w ++ [t]) v).length = _
        rw [Function.update_of_ne hv]
      · show (Function.update s.pool.wq w (s.pool.wq w ++ [t]) w).length = _
        rw [Function.update_self]; simp
      · show _ = l.length + 1
        rw [hm]; rfl
    | @steal i v t l hpc hx hv hq =>
      have : count s.pool s.cnt w = ({ s.cnt with stolen := incr s.cnt.stolen v }, true) := by
        unfold count
        rw [hpc]
        simp only
        rw [← hv, if_pos ⟨hx, by rw [hq]; simp⟩]
      rw [this]
      refine CInv.steal h hw (by rw [hv]; exact Nat.mod_lt _ hn) (fun x hx => ?_) ?_ (fun x hx => ?_) ?_ ?_ hth
      · show (Function.update s.pool.wq v l x).length = _
        rw [Function.update_of_ne hx]
      · show (Function.update s.pool.wq v l v).length + 1 = _
        rw [Function.update_self, hq]; rfl
      · show busy ((Pool.goto _ _ _).pc x) = _
        rw [goto_ne _ _ hx]
      · simp only [hpc]; rfl
      · show busy ((Pool.goto _ _ _).pc w) = _
        rw [goto_self]; rfl
    | @run t hpc =>
      rw [oth hpc (by simp) (by simp) (by simp) (by simp), update_false hth]
      unfold Inv
      have e : ({ s.pool with done := s.pool.done ++ [t] }.goto w .top).done.length = s.pool.done.length + 1 := by
        show (s.pool.done ++ [t]).length = _
        simp
      simp only [e]
      refine CInv.run h hw (fun v hv => ?_) ?_ ?_ hth
      · rw [goto_ne _ _ hv]
      · simp only [hpc]; rfl
      · rw [goto_self]; rfl
  | @stealing w hw hth => exact CInv.stealing h hw hth
  | @submit t p hst =>
    cases hst with
    | submit _ _ hst =>
      unfold Pool.submit at hst
      split at hst
      · simp at hst
      · injection hst with hst
        subst hst
        have := CInv.submit h
        unfold Inv
        simpa using this
  | @other l p h1 h2 hst =>
    cases hst with
    | worker hw _ => exact absurd rfl (h1 _)
    | submit _ _ _ => exact absurd rfl (h2 _)
    | @notify w _ _ hp =>
      refine CInv.congr h (fun _ _ => rfl) fun v _ => ?_
      show busy ((Pool.goto _ _ _).pc v) = _
      by_cases he : v = w
      · subst he; rw [goto_self, hp]; rfl
      · rw [goto_ne _ _ he]
    | notifyNone _ _ => exact h
    | @spurious w _ hp =>
      refine CInv.congr h (fun _ _ => rfl) fun v _ => ?_
      show busy ((Pool.goto _ _ _).pc v) = _
      by_cases he : v = w
      · subst he; rw [goto_self, hp]; rfl
      · rw [goto_ne _ _ he]
    | setStop _ _ => exact h
    | notifyAll _ =>
      refine CInv.congr h (fun _ _ => rfl) fun v _ => ?_
      show busy (if s.pool.pc v = .asleep then .relock else s.pool.pc v) = _
      split
      · rename_i he; rw [he]; rfl
      · rfl
    | joinAll _ _ => exact h

theorem init_inv (num : ℕ) : (init num).Inv := by
  refine ⟨?_, ?_, ?_, ?_, ?_, ?_⟩ <;> simp [init, Pool.init, busy]

/-- Every step of the counted pool is a step of the pool, or increments `stealing`. -/
theorem Step.pool {s s' : Counted} {l : Label} (hs : Step s l s') : Pool.Step s.pool l s'.pool ∨ s'.pool = s.pool := by
  cases hs with
  | worker hw _ hst => exact .inl (.worker hw hst)
  | stealing _ _ => exact .inr rfl
  | submit h => exact .inl h
  | other _ _ h => exact .inl h

theorem Reachable.inv {num : ℕ} {s : Counted} (h : Reachable num s) : Pool.Reachable num s.pool ∧ s.Inv := by
  induction h with
  | init => exact ⟨⟨_, .nil _⟩, init_inv num⟩
  | step h hs ih =>
    refine ⟨?_, ih.2.step ih.1.inv.pos hs⟩
    rcases hs.pool with hp | hp
    · obtain ⟨ls, he⟩ := ih.1
      exact ⟨_, .snoc he hp⟩
    · rw [hp]; exact ih.1

end Counted
end Intp
