import Verif.Allocator
import Mathlib.Data.List.Pairwise
import Mathlib.Tactic.NormNum

/-!
# Properties of the allocators
-/

namespace Intp

namespace StackHeap

/-- Cell `x` belongs to block `b`. -/
def InBlock (b : ℕ × ℕ) (x : ℕ) : Prop := b.1 ≤ x ∧ x < b.1 + b.2

/-- The live blocks are stacked without gaps from cell 0 to the stack pointer. -/
def Stacked : List (ℕ × ℕ) → ℕ → Prop
  | [], sp => sp = 0
  | b :: bs, sp => sp = b.1 + b.2 ∧ Stacked bs b.1

theorem Stacked.le : ∀ {bs : List (ℕ × ℕ)} {sp : ℕ}, Stacked bs sp → ∀ b ∈ bs, b.1 + b.2 ≤ sp
  | [], _, _, b, hb => by simp at hb
  | b' :: bs, sp, h, b, hb => by
    rcases List.mem_cons.1 hb with rfl | hb
    · exact h.1.ge
    · have := h.2.le b hb
      have := h.1
      omega

theorem Stacked.disj : ∀ {bs : List (ℕ × ℕ)} {sp : ℕ}, Stacked bs sp → bs.Pairwise fun b b' => ∀ x, ¬(InBlock b x ∧ InBlock b' x)
  | [], _, _ => List.Pairwise.nil
  | b' :: bs, sp, h => by
    refine List.Pairwise.cons (fun b hb x hx => ?_) h.2.disj
    have := h.2.le b hb
    have h1 := hx.1
    have h2 := hx.2
    unfold InBlock at h1 h2
    omega

theorem Stacked.sum : ∀ {bs : List (ℕ × ℕ)} {sp : ℕ}, Stacked bs sp → sp = (bs.map Prod.snd).sum
  | [], _, h => h
  | b :: bs, sp, h => by
    rw [List.map_cons, List.sum_cons, ← h.2.sum]
    have := h.1
    omega

theorem lifo_inv {cap : ℕ} : ∀ (os : List Op) {h h' : StackHeap}, Lifo os → h.runs os = .ok h' → Stacked h.live h.alloc.sp → h.alloc.cap = cap →
    h.alloc.sp ≤ cap → Stacked h'.live h'.alloc.sp ∧ h'.alloc.cap = cap ∧ h'.alloc.sp ≤ cap
  | [], h, h', _, hr, h1, h2, h3 => by
    simp only [runs] at hr; injection hr with hr; subst hr; exact ⟨h1, h2, h3⟩
  | .freeAt _ :: _, _, _, hl, _, _, _, _ => hl.elim
  | .alloc n :: os, h, h', hl, hr, h1, h2, h3 => by
    simp only [runs, run, StackAlloc.allocate, subM, if_pos (h2 ▸ h3 : h.alloc.sp ≤ h.alloc.cap)] at hr
    by_cases hn : n ≤ h.alloc.cap - h.alloc.sp
    · have hr' : StackHeap.runs ⟨⟨h.alloc.cap, h.alloc.sp + n⟩, (h.alloc.sp, n) :: h.live⟩ os = .ok h' := by
        have hb : ((if n ≤ h.alloc.cap - h.alloc.sp then pure (h.alloc.sp, (⟨h.alloc.cap, h.alloc.sp + n⟩ : StackAlloc))
          else .error .badAlloc : M (ℕ × StackAlloc))) = .ok (h.alloc.sp, ⟨h.alloc.cap, h.alloc.sp + n⟩) := if_pos hn
        rw [ok_bind, hb] at hr
        exact hr
      exact lifo_inv os (cap := cap) hl hr' ⟨rfl, h1⟩ h2 (by show h.alloc.sp + n ≤ cap; omega)
    · rw [ok_bind, if_neg hn] at hr
      cases hr
  | .freeNewest :: os, h, h', hl, hr, h1, h2, h3 => by
    rcases h with ⟨a, live⟩
    cases live with
    | nil => exact lifo_inv os (cap := cap) hl hr h1 h2 h3
    | cons b bs =>
      have hsp : a.sp = b.1 + b.2 := h1.1
      have hr' : StackHeap.runs ⟨⟨a.cap, a.sp - b.2⟩, bs⟩ os = .ok h' := by
        simp only [runs, run, StackAlloc.deallocate, if_pos (show b.2 ≤ a.sp by omega)] at hr
        exact hr
      refine lifo_inv os (cap := cap) hl hr' ?_ h2 (by show a.sp - b.2 ≤ cap; simp only at h3; omega)
      show Stacked bs (a.sp - b.2)
      rw [hsp, Nat.add_sub_cancel]
      exact h1.2

end StackHeap

open StackHeap

/-- C46: after any last-in-first-out history, the live blocks lie in the buffer and are pairwise disjoint. -/
theorem stack_allocator_disjoint {cap : ℕ} {os : List Op} (hl : Lifo os) {h : StackHeap}
    (hr : StackHeap.runs ⟨StackAlloc.fresh cap, []⟩ os = .ok h) :
    (∀ b ∈ h.live, ∀ x, StackHeap.InBlock b x → x < cap) ∧ h.live.Pairwise fun b b' => ∀ x, ¬(StackHeap.InBlock b x ∧ StackHeap.InBlock b' x) := by
  obtain ⟨h1, h2, h3⟩ := lifo_inv (cap := cap) os hl hr rfl rfl (Nat.zero_le _)
  refine ⟨fun b hb x hx => ?_, h1.disj⟩
  have := h1.le b hb
  unfold StackHeap.InBlock at hx
  omega

/-- C46: after any last-in-first-out history, an allocation of `n` cells succeeds iff at least `n` cells are not in live blocks, and otherwise
is `std::bad_alloc`. -/
theorem stack_allocator_succeeds_iff {cap : ℕ} {os : List Op} (hl : Lifo os) {h : StackHeap}
    (hr : StackHeap.runs ⟨StackAlloc.fresh cap, []⟩ os = .ok h) (n : ℕ) :
    ((∃ r, h.alloc.allocate n = .ok r) ↔ n + (h.live.map Prod.snd).sum ≤ cap) ∧
    (¬ n + (h.live.map Prod.snd).sum ≤ cap → h.alloc.allocate n = .error .badAlloc) := by
  obtain ⟨h1, h2, h3⟩ := lifo_inv (cap := cap) os hl hr rfl rfl (Nat.zero_le _)
  have hs := h1.sum
  unfold StackAlloc.allocate
  rw [subM_ok (by omega), ok_bind, ← hs, h2]
  by_cases hn : n ≤ cap - h.alloc.sp
  · rw [if_pos hn]
    exact ⟨⟨fun _ => by omega, fun _ => ⟨_, rfl⟩⟩, fun hc => absurd (by omega) hc⟩
  · rw [if_neg hn]
    exact ⟨⟨fun ⟨r, hx⟩ => (by cases hx), fun h => absurd h (by omega)⟩, fun _ => rfl⟩

/-- C46: a last-in-first-out history that has released everything leaves the allocator as it was. -/
theorem stack_allocator_restored {cap : ℕ} {os : List Op} (hl : Lifo os) {h : StackHeap}
    (hr : StackHeap.runs ⟨StackAlloc.fresh cap, []⟩ os = .ok h) (he : h.live = []) : h.alloc = StackAlloc.fresh cap := by
  obtain ⟨h1, h2, h3⟩ := lifo_inv (cap := cap) os hl hr rfl rfl (Nat.zero_le _)
  rw [he] at h1
  have h1 : h.alloc.sp = 0 := h1
  rcases h with ⟨⟨c, s⟩, l⟩
  simp only at h1 h2
  subst h1 h2
  rfl

/-- C46: a last-in-first-out history fails only with `std::bad_alloc`. -/
theorem stack_allocator_errors {cap : ℕ} {os : List Op} (hl : Lifo os) {e : Err}
    (hr : StackHeap.runs ⟨StackAlloc.fresh cap, []⟩ os = .error e) : e = .badAlloc := by
  have key : ∀ (os : List Op) {h : StackHeap}, Lifo os → h.runs os = .error e → Stacked h.live h.alloc.sp → h.alloc.sp ≤ h.alloc.cap →
      e = .badAlloc := by
    intro os
    induction os with
    | nil => intro h _ hr; cases hr
    | cons o os ih =>
      intro h hl hr hst hle
      cases hrun : h.run o with
      | ok h' =>
        have h1 : h.runs [o] = .ok h' := by simp only [runs, hrun, ok_bind]
        have hl1 : Lifo [o] := by cases o <;> first | trivial | exact hl
        obtain ⟨k1, k2, k3⟩ := lifo_inv (cap := h.alloc.cap) [o] hl1 h1 hst rfl hle
        refine ih (h := h') ?_ ?_ k1 (by omega)
        · cases o with
          | freeAt k => exact hl.elim
          | _ => exact hl
        · simp only [runs, hrun, ok_bind] at hr; exact hr
      | error e' =>
        simp only [runs, hrun, error_bind] at hr
        injection hr with hr
        subst hr
        cases o with
        | freeAt k => exact hl.elim
        | alloc n =>
          simp only [run, StackAlloc.allocate, subM, if_pos hle, ok_bind] at hrun
          by_cases hn : n ≤ h.alloc.cap - h.alloc.sp
          · rw [if_pos hn] at hrun; cases hrun
          · rw [if_neg hn, error_bind] at hrun
            injection hrun with hrun
            exact hrun.symm
        | freeNewest =>
          rcases h with ⟨a, live⟩
          cases live with
          | nil => cases hrun
          | cons b bs =>
            have hsp : a.sp = b.1 + b.2 := hst.1
            simp only [run, StackAlloc.deallocate, if_pos (show b.2 ≤ a.sp by omega)] at hrun
            cases hrun
  exact key os hl hr rfl (Nat.zero_le _)

/-- C46: `max_size()` is the largest request that can succeed: one of that size succeeds when nothing is live, and after every
last-in-first-out history a larger one is `std::bad_alloc`. -/
theorem stack_allocator_max_size {cap : ℕ} {os : List Op} (hl : Lifo os) {h : StackHeap}
    (hr : StackHeap.runs ⟨StackAlloc.fresh cap, []⟩ os = .ok h) :
    h.alloc.maxSize = cap ∧
    (h.live = [] → ∃ r, h.alloc.allocate h.alloc.maxSize = .ok r) ∧
    ∀ n, h.alloc.maxSize < n → h.alloc.allocate n = .error .badAlloc := by
  obtain ⟨h1, h2, h3⟩ := lifo_inv (cap := cap) os hl hr rfl rfl (Nat.zero_le _)
  have hm : h.alloc.maxSize = cap := h2
  refine ⟨hm, fun he => ?_, fun n hn => (stack_allocator_succeeds_iff hl hr n).2 (by omega)⟩
  refine (stack_allocator_succeeds_iff hl hr _).1.2 ?_
  simp [hm, he]

/-- A history with three live blocks, and one whose last allocation fails. -/
example : (StackHeap.runs ⟨StackAlloc.fresh 10, []⟩ [.alloc 4, .alloc 3, .freeNewest, .alloc 2, .alloc 4]).toOption.map (fun h => (h.alloc, h.live)) =
    some (⟨10, 10⟩, [(6, 4), (4, 2), (0, 4)]) ∧
    StackHeap.runs ⟨StackAlloc.fresh 10, []⟩ [.alloc 4, .alloc 7] = .error .badAlloc := by
  refine ⟨by decide, rfl⟩

/-! ## other uses (C54) -/

/-- C54: a container that grows (allocates the new block, then releases the old one) leaves its new block partly free: the next
allocation overlaps it. -/
theorem stack_allocator_growth_overlaps (n : ℕ) (hn : 0 < n) :
    ∃ h b b' x, StackHeap.runs ⟨StackAlloc.fresh (4 * n), []⟩ [.alloc n, .alloc (2 * n), .freeAt 1, .alloc n] = .ok h ∧
      h.live = [b', b] ∧ StackHeap.InBlock b x ∧ StackHeap.InBlock b' x := by
  refine ⟨⟨⟨4 * n, 3 * n⟩, [(2 * n, n), (n, 2 * n)]⟩, (n, 2 * n), (2 * n, n), 2 * n, ?_, rfl, ?_, ?_⟩
  · simp only [runs, run, StackAlloc.fresh, StackAlloc.allocate, StackAlloc.deallocate, subM, Nat.zero_le, if_true, ok_bind, Nat.sub_zero,
      pure_eq_ok, Nat.zero_add]
    rw [if_pos (by omega)]
    simp only [ok_bind]
    rw [if_pos (by omega)]
    simp only [ok_bind]
    rw [if_pos (by omega)]
    simp only [ok_bind, List.getElem?_cons_succ, List.getElem?_cons_zero]
    rw [if_pos (by omega)]
    simp only [ok_bind, List.eraseIdx]
    rw [if_pos (by omega)]
    simp only [ok_bind]
    rw [if_pos (by omega)]
    simp only [ok_bind]
    congr 3
    · congr 1; omega
    · congr 1; congr 1; omega
  · unfold StackHeap.InBlock; simp only; omega
  · unfold StackHeap.InBlock; simp only; omega

/-- C54: two copies of one allocator hand out the same cells. -/
theorem stack_allocator_copies_overlap (a : StackAlloc) (n : ℕ) (hn : 0 < n) (h : a.sp + n ≤ a.cap) :
    ∃ r r' x, a.allocate n = .ok r ∧ a.allocate n = .ok r' ∧ StackHeap.InBlock (r.1, n) x ∧ StackHeap.InBlock (r'.1, n) x := by
  have e : a.allocate n = .ok (a.sp, ⟨a.cap, a.sp + n⟩) := by
    unfold StackAlloc.allocate
    rw [subM_ok (by omega), ok_bind, if_pos (by omega), pure_eq_ok]
  exact ⟨_, _, a.sp, e, e, ⟨le_rfl, by simp only; omega⟩, ⟨le_rfl, by simp only; omega⟩⟩

/-- C54: the two local meshes of `derivative_at` get disjoint blocks inside the buffer when both fit, and the evaluation is `std::bad_alloc`
when they do not: with the buffer of 1000 cells (BSpline.hpp:647), it fails iff `2 * (order + 1)^dim > 1000`. -/
theorem derivative_buffers (order dim : ℕ) :
    (2 * (order + 1) ^ dim ≤ 1000 → ∃ b b', derivativeBuffers 1000 ((order + 1) ^ dim) = .ok (b, b') ∧ b.2 = (order + 1) ^ dim ∧
      b'.2 = (order + 1) ^ dim ∧ (∀ x, ¬(StackHeap.InBlock b x ∧ StackHeap.InBlock b' x)) ∧
      ∀ x, StackHeap.InBlock b x ∨ StackHeap.InBlock b' x → x < 1000) ∧
    (1000 < 2 * (order + 1) ^ dim → derivativeBuffers 1000 ((order + 1) ^ dim) = .error .badAlloc) := by
  generalize (order + 1) ^ dim = n
  unfold derivativeBuffers StackAlloc.allocate StackAlloc.fresh
  constructor
  · intro h
    refine ⟨(0, n), (n, n), ?_, rfl, rfl, fun x => ?_, fun x => ?_⟩
    · simp only [subM_ok (Nat.zero_le _), ok_bind]
      rw [if_pos (by omega), pure_eq_ok, ok_bind]
      simp only [Nat.zero_add]
      rw [subM_ok (by omega), ok_bind, if_pos (by omega), pure_eq_ok, ok_bind]
      rfl
    · unfold StackHeap.InBlock; simp only; omega
    · unfold StackHeap.InBlock; simp only; omega
  · intro h
    simp only [subM_ok (Nat.zero_le _), ok_bind]
    by_cases hn : n ≤ 1000 - 0
    · rw [if_pos hn, pure_eq_ok, ok_bind]
      simp only [Nat.zero_add]
      rw [subM_ok (by omega), ok_bind, if_neg (by omega), error_bind]
    · rw [if_neg hn, error_bind]

/-- Order 3: four dimensions fit, five do not. -/
example : derivativeBuffers 1000 ((3 + 1) ^ 4) = .ok ((0, 256), (256, 256)) ∧ derivativeBuffers 1000 ((3 + 1) ^ 5) = .error .badAlloc :=
  ⟨by decide, by decide⟩

/-! ## C47 -/

/-- C47: up to `max_size()` the byte count does not wrap, and the alignment still fits in `size_t`. -/
theorem aligned_bytes_exact (w al sz n : ℕ) (hal : al < 2 ^ w) (hn : n ≤ alignedMaxSize w al sz) (hsz : 0 < sz) :
    alignedBytes w sz n = n * sz ∧ n * sz + al ≤ 2 ^ w - 1 := by
  have h : n * sz ≤ 2 ^ w - 1 - al := (Nat.le_div_iff_mul_le hsz).1 hn
  have hw : 0 < 2 ^ w := Nat.two_pow_pos w
  exact ⟨Nat.mod_eq_of_lt (by omega), by omega⟩

/-- C47: `max_size()` is the largest such count. -/
theorem aligned_max_size_largest (w al sz n : ℕ) (hal : al < 2 ^ w) (hsz : 0 < sz) (h : n * sz + al ≤ 2 ^ w - 1) : n ≤ alignedMaxSize w al sz :=
  (Nat.le_div_iff_mul_le hsz).2 (by omega)

/-- C47: above `max_size()` the byte count may wrap: for every element size of at least 2 bytes there is a count, representable in `size_t`, for
which at most `sizeof(T)` bytes are requested. -/
theorem aligned_bytes_wrap (w al sz : ℕ) (hsz : 2 ≤ sz) (hw : 2 ^ w / sz + 1 < 2 ^ w) :
    ∃ n, n < 2 ^ w ∧ alignedMaxSize w al sz < n ∧ alignedBytes w sz n < n * sz ∧ alignedBytes w sz n ≤ sz := by
  set W := 2 ^ w with hW
  have h1 : W / sz * sz ≤ W := Nat.div_mul_le_self W sz
  have h2 : W < (W / sz + 1) * sz := by
    have := Nat.lt_div_mul_add (a := W) (b := sz) (by omega)
    rw [Nat.add_mul, Nat.one_mul]; exact this
  refine ⟨W / sz + 1, hw, ?_, ?_, ?_⟩
  · unfold alignedMaxSize
    have := Nat.div_le_div_right (c := sz) (show 2 ^ w - 1 - al ≤ W by omega)
    omega
  all_goals
    unfold alignedBytes
    rw [← hW]
    have h3 : (W / sz + 1) * sz = (W / sz * sz + sz - W) + W := by
      rw [Nat.add_mul, Nat.one_mul] at h2 ⊢; omega
    have h4 : (W / sz + 1) * sz % W ≤ W / sz * sz + sz - W := by
      rw [h3, Nat.add_mod_right]; exact Nat.mod_le _ _
    have h5 : 0 < W := by rw [hW]; exact Nat.two_pow_pos w
    have h6 : (W / sz + 1) * sz = W / sz * sz + sz := by rw [Nat.add_mul, Nat.one_mul]
    omega

/-- 64-bit `size_t`, AVX alignment, `double`: largest count, and a wrapping count. -/
example : alignedMaxSize 64 32 8 = 2305843009213693947 ∧ alignedBytes 64 8 2305843009213693947 = 18446744073709551576 ∧
    alignedBytes 64 8 (2 ^ 61 + 1) = 8 := by
  refine ⟨by norm_num [alignedMaxSize], by norm_num [alignedBytes], by norm_num [alignedBytes]⟩

end Intp
