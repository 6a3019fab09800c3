import Mathlib.Algebra.Order.Field.Basic
import Mathlib.Algebra.Module.Basic
import Mathlib.Data.List.FinRange
import Mathlib.Tactic.Ring
import Mathlib.Tactic.Linarith

/-!
# Execution monad of the model

All modelled functions run in `M = Except Err`.  Outcomes that C++ leaves undefined (out-of-range access),
that silently corrupt an index (unsigned wrap-around) or that break the numeric contract (division by zero)
are errors of this monad, so that a theorem saying "the result is `.ok v`" also says that none of them happens.
-/

namespace Intp

/-- Abnormal outcomes of the modelled code. -/
inductive Err
  /-- access outside a buffer: undefined behaviour in C++ -/
  | oob
  /-- unsigned (`size_t`) subtraction below zero: wraps around in C++ -/
  | wrap
  /-- division by zero: inf/nan for floating point, undefined for integers -/
  | divZero
  /-- `INTP_ASSERT` failed with assertions enabled: `std::runtime_error` (util.hpp:251-258) -/
  | assertFail
  /-- `std::domain_error` (Interpolation.hpp:482-491) -/
  | domainError
  /-- `std::bad_alloc` -/
  | badAlloc
  /-- use of a union member that is not alive: undefined behaviour in C++ -/
  | deadMember
  /-- `std::runtime_error("Can not switch solver type.")` (InterpolationTemplate.hpp:209-211) -/
  | switchSolver
  /-- conversion of a floating-point value outside the range of the integer type: undefined behaviour in C++ -/
  | badCast
  /-- overflow of signed integer arithmetic: undefined behaviour in C++ -/
  | overflow
  deriving DecidableEq, Repr

abbrev M := Except Err

/-- Preprocessor configuration (README.md:48-59).  `assertions` is `INTP_ENABLE_ASSERTION` (util.hpp:251),
`noDummy` is `INTP_PERIODIC_NO_DUMMY_POINT`. -/
structure Cfg where
  assertions : Bool
  noDummy : Bool
  deriving DecidableEq, Repr

variable {α β σ : Type}

/-- `buf[i]` read of a `std::vector`/array/pointer into a buffer. -/
def rd (l : List α) (i : ℕ) : M α :=
  match l[i]? with
  | some v => .ok v
  | none => .error .oob

/-- `buf[i] = v`. -/
def wr (l : List α) (i : ℕ) (v : α) : M (List α) :=
  if i < l.length then .ok (l.set i v) else .error .oob

/-- `a - b` on `size_t`. -/
def subM (a b : ℕ) : M ℕ := if b ≤ a then .ok (a - b) else .error .wrap

/-- `a % b` on `size_t`. -/
def modM (a b : ℕ) : M ℕ := if b = 0 then .error .divZero else .ok (a % b)

/-- `a / b` on `size_t`. -/
def divN (a b : ℕ) : M ℕ := if b = 0 then .error .divZero else .ok (a / b)

/-- `a / b` on coordinates. -/
def divM {K : Type} [Field K] [DecidableEq K] (a b : K) : M K :=
  if b = 0 then .error .divZero else .ok (a / b)

/-- `v / b` of a value by a coordinate. -/
def divV {K V : Type} [Field K] [DecidableEq K] [AddCommGroup V] [Module K V] (v : V) (b : K) : M V :=
  if b = 0 then .error .divZero else .ok (b⁻¹ • v)

/-- `INTP_ASSERT(cond, msg)` (util.hpp:251-258): does nothing unless assertions are enabled. -/
def assertM (c : Cfg) (cond : Bool) : M Unit :=
  if c.assertions && !cond then .error .assertFail else .ok ()

/-- `n` iterations of a loop body, the counter starting at `i`. -/
def loopN : ℕ → ℕ → σ → (ℕ → σ → M σ) → M σ
  | 0, _, s, _ => .ok s
  | n + 1, i, s, f => do
    let s ← f i s
    loopN n (i + 1) s f

/-- `for (i = lo; i < hi; ++i) s = f(i, s)`. -/
def loop (lo hi : ℕ) (s : σ) (f : ℕ → σ → M σ) : M σ := loopN (hi - lo) lo s f

/-- `for (i = n - 1; i < n; --i) s = f(i, s)`, the descending unsigned loop idiom of BandLU.hpp:136, 242
(`i` wraps to a huge value after 0, which ends the loop). -/
def loopDown : ℕ → σ → (ℕ → σ → M σ) → M σ
  | 0, s, _ => .ok s
  | n + 1, s, f => do
    let s ← f n s
    loopDown n s f

/-! ## Hoare-style reasoning -/

/-- `m` either returns a value satisfying `Q` or fails with an error satisfying `E`. -/
def Spec (m : M α) (Q : α → Prop) (E : Err → Prop) : Prop :=
  match m with
  | .ok a => Q a
  | .error e => E e

/-- `m` returns a value satisfying `Q`. -/
abbrev Ok (m : M α) (Q : α → Prop) : Prop := Spec m Q (fun _ => False)

variable {Q R : α → Prop} {E F : Err → Prop}

theorem Spec.ok {a : α} (h : Q a) : Spec (.ok a) Q E := h
theorem Spec.pure {a : α} (h : Q a) : Spec (Pure.pure a) Q E := h
theorem Spec.error {e : Err} (h : E e) : Spec (.error e : M α) Q E := h

theorem Spec.mono {m : M α} (h : Spec m Q E) (hq : ∀ a, Q a → R a) (he : ∀ e, E e → F e) : Spec m R F := by
  unfold Spec at *; split <;> rename_i heq
  · simp only at h; exact hq _ h
  · simp only at h; exact he _ h

theorem Spec.imp {m : M α} (h : Spec m Q E) (hq : ∀ a, Q a → R a) : Spec m R E := h.mono hq (fun _ h => h)

theorem Ok.toSpec {m : M α} (h : Ok m Q) : Spec m Q E := h.mono (fun _ h => h) (fun _ h => h.elim)

theorem Spec.bind {m : M α} {f : α → M β} {S : β → Prop} (h : Spec m Q E)
    (hf : ∀ a, Q a → Spec (f a) S E) : Spec (m >>= f) S E := by
  cases m with
  | ok a => exact hf a h
  | error e => exact h

theorem Spec.and {m : M α} (h1 : Spec m Q E) (h2 : Spec m R E) : Spec m (fun a => Q a ∧ R a) E := by
  cases m with
  | ok a => exact ⟨h1, h2⟩
  | error e => exact h1

theorem Ok.and {m : M α} (h1 : Ok m Q) (h2 : Ok m R) : Ok m (fun a => Q a ∧ R a) := Spec.and h1 h2

theorem Ok.exists {m : M α} (h : Ok m Q) : ∃ a, m = .ok a ∧ Q a := by
  cases m with
  | ok a => exact ⟨a, rfl, h⟩
  | error e => exact h.elim

theorem Ok.of_eq {m : M α} {a : α} (h : m = .ok a) (hq : Q a) : Ok m Q := by subst h; exact hq

theorem Ok.get {m : M α} {a : α} (h : Ok m Q) (e : m = .ok a) : Q a := by subst e; exact h

theorem Spec.get {m : M α} {a : α} (h : Spec m Q E) (e : m = .ok a) : Q a := by subst e; exact h

theorem Ok.eq {m : M α} {a : α} (h : Ok m (· = a)) : m = .ok a := by
  obtain ⟨b, hb, rfl⟩ := h.exists; exact hb

theorem ok_iff {m : M α} {a : α} : Ok m (· = a) ↔ m = .ok a := ⟨Ok.eq, fun h => Ok.of_eq h rfl⟩

theorem Spec.ite {c : Prop} [Decidable c] {m n : M α} (h1 : c → Spec m Q E) (h2 : ¬c → Spec n Q E) :
    Spec (if c then m else n) Q E := by
  split
  · exact h1 ‹_›
  · exact h2 ‹_›

theorem Spec.loopN {f : ℕ → σ → M σ} {P : ℕ → σ → Prop} :
    ∀ (n i : ℕ) (s : σ), P i s →
      (∀ j s, i ≤ j → j < i + n → P j s → Spec (f j s) (P (j + 1)) E) →
      Spec (loopN n i s f) (P (i + n)) E
  | 0, i, s, h0, _ => h0
  | n + 1, i, s, h0, hs => by
    refine Spec.bind (hs i s le_rfl (by omega) h0) fun s' h' => ?_
    have := Spec.loopN n (i + 1) s' h' (fun j s hj hj' hp => hs j s (by omega) (by omega) hp)
    have e : i + (n + 1) = i + 1 + n := by omega
    rw [e]; exact this

/-- Loop rule: `P i` holds before iteration `i`. -/
theorem Spec.loop {f : ℕ → σ → M σ} {P : ℕ → σ → Prop} {lo hi : ℕ} {s : σ} (hle : lo ≤ hi) (h0 : P lo s)
    (hs : ∀ i s, lo ≤ i → i < hi → P i s → Spec (f i s) (P (i + 1)) E) :
    Spec (Intp.loop lo hi s f) (P hi) E := by
  have := Spec.loopN (f := f) (P := P) (E := E) (hi - lo) lo s h0
    (fun j s h1 h2 hp => hs j s h1 (by omega) hp)
  rwa [show lo + (hi - lo) = hi by omega] at this

/-- Loop rule without the side condition `lo ≤ hi` (the loop is empty otherwise). -/
theorem Spec.loop' {f : ℕ → σ → M σ} {P : ℕ → σ → Prop} {lo hi : ℕ} {s : σ} (h0 : P lo s)
    (hs : ∀ i s, lo ≤ i → i < hi → P i s → Spec (f i s) (P (i + 1)) E) :
    Spec (Intp.loop lo hi s f) (P (max lo hi)) E := by
  rcases le_total lo hi with h | h
  · rw [max_eq_right h]; exact Spec.loop h h0 hs
  · rw [max_eq_left h]; unfold Intp.loop; rw [show hi - lo = 0 by omega]; exact h0

/-- Descending loop rule: `P (i+1)` holds before iteration `i`, `P 0` at the end. -/
theorem Spec.loopDown {f : ℕ → σ → M σ} {P : ℕ → σ → Prop} :
    ∀ (n : ℕ) (s : σ), P n s → (∀ i s, i < n → P (i + 1) s → Spec (f i s) (P i) E) →
      Spec (loopDown n s f) (P 0) E
  | 0, _, h0, _ => h0
  | n + 1, s, h0, hs => by
    refine Spec.bind (hs n s (by omega) h0) fun s' h' => ?_
    exact Spec.loopDown n s' h' (fun i s hi hp => hs i s (by omega) hp)

/-- Fold rule over a list. -/
theorem Spec.foldlM {f : σ → α → M σ} {P : List α → σ → Prop} :
    ∀ (l : List α) (s : σ), P l s →
      (∀ a l s, P (a :: l) s → Spec (f s a) (P l) E) → Spec (l.foldlM f s) (P []) E
  | [], s, h0, _ => h0
  | a :: l, s, h0, hs => by
    rw [List.foldlM_cons]
    exact Spec.bind (hs a l s h0) fun s' h' => Spec.foldlM l s' h' hs

/-! ## Primitive operations -/

theorem rd_ok {l : List α} {i : ℕ} (h : i < l.length) : rd l i = .ok l[i] := by
  unfold rd; rw [List.getElem?_eq_getElem h]

theorem rd_eq_ok_iff {l : List α} {i : ℕ} {v : α} : rd l i = .ok v ↔ l[i]? = some v := by
  unfold rd; split <;> simp_all

theorem Ok_rd {l : List α} {i : ℕ} {v : α} (h : l[i]? = some v) : Spec (rd l i) (· = v) E := by
  rw [rd_eq_ok_iff.2 h]; exact rfl

theorem wr_ok {l : List α} {i : ℕ} {v : α} (h : i < l.length) : wr l i v = .ok (l.set i v) := if_pos h

theorem Ok_wr {l : List α} {i : ℕ} {v : α} (h : i < l.length) : Spec (wr l i v) (· = l.set i v) E := by
  rw [wr_ok h]; exact rfl

theorem subM_ok {a b : ℕ} (h : b ≤ a) : subM a b = .ok (a - b) := if_pos h

theorem Ok_subM {a b : ℕ} (h : b ≤ a) : Spec (subM a b) (· = a - b) E := by rw [subM_ok h]; exact rfl

theorem modM_ok {a b : ℕ} (h : b ≠ 0) : modM a b = .ok (a % b) := if_neg h
theorem divN_ok {a b : ℕ} (h : b ≠ 0) : divN a b = .ok (a / b) := if_neg h

theorem assertM_ok {c : Cfg} {b : Bool} (h : b = true) : assertM c b = .ok () := by
  subst h; unfold assertM; simp

theorem divM_ok {K : Type} [Field K] [DecidableEq K] {a b : K} (h : b ≠ 0) : divM a b = .ok (a / b) :=
  if_neg h

theorem divV_ok {K V : Type} [Field K] [DecidableEq K] [AddCommGroup V] [Module K V] {v : V} {b : K}
    (h : b ≠ 0) : divV v b = .ok (b⁻¹ • v) := if_neg h

@[simp] theorem ok_bind {a : α} {f : α → M β} : (Except.ok a >>= f : M β) = f a := rfl
@[simp] theorem error_bind {e : Err} {f : α → M β} : ((Except.error e : M α) >>= f) = .error e := rfl
@[simp] theorem pure_eq_ok {a : α} : (Pure.pure a : M α) = .ok a := rfl

@[simp] theorem loop_empty {lo hi : ℕ} (h : hi ≤ lo) (s : σ) (f : ℕ → σ → M σ) : loop lo hi s f = .ok s := by
  unfold loop; rw [show hi - lo = 0 by omega]; rfl

end Intp
