import Verif.MultiThread

/-!
# Interleavings of programs with disjoint footprints
-/

namespace Intp

variable {V α β : Type}

namespace Prog

/-- Solo execution to the end. -/
def exec : Prog V α → (Bool → List V) → M (α × (Bool → List V))
  | ret a, m => .ok (a, m)
  | fail e, _ => .error e
  | read b i k, m =>
    match (m b)[i]? with
    | some v => (k v).exec m
    | none => .error .oob
  | write b i v k, m => if i < (m b).length then k.exec (Function.update m b ((m b).set i v)) else .error .oob

/-- Number of memory operations of the solo execution. -/
def cost : Prog V α → (Bool → List V) → ℕ
  | ret _, _ => 0
  | fail _, _ => 0
  | read b i k, m =>
    match (m b)[i]? with
    | some v => (k v).cost m + 1
    | none => 0
  | write b i v k, m => if i < (m b).length then k.cost (Function.update m b ((m b).set i v)) + 1 else 0

/-- All accesses are in `A`, whatever is read. -/
def Conf (A : Bool → ℕ → Prop) : Prog V α → Prop
  | ret _ => True
  | fail _ => True
  | read b i k => A b i ∧ ∀ v, (k v).Conf A
  | write b i _ k => A b i ∧ k.Conf A

theorem Conf.mono {A B : Bool → ℕ → Prop} (hAB : ∀ b i, A b i → B b i) : ∀ {p : Prog V α}, p.Conf A → p.Conf B
  | ret _, _ => trivial
  | fail _, _ => trivial
  | read _ _ _, h => ⟨hAB _ _ h.1, fun v => (h.2 v).mono hAB⟩
  | write _ _ _ _, h => ⟨hAB _ _ h.1, h.2.mono hAB⟩

theorem Conf.bind {A : Bool → ℕ → Prop} {f : α → Prog V β} (hf : ∀ a, (f a).Conf A) : ∀ {p : Prog V α}, p.Conf A → (p.bind f).Conf A
  | ret a, _ => hf a
  | fail _, _ => trivial
  | read _ _ _, h => ⟨h.1, fun v => (h.2 v).bind hf⟩
  | write _ _ _ _, h => ⟨h.1, h.2.bind hf⟩

theorem Conf.lift {A : Bool → ℕ → Prop} {m : M α} {f : α → Prog V β} (hf : ∀ a, m = .ok a → (f a).Conf A) : (Prog.lift m f).Conf A := by
  cases m with
  | ok a => exact hf a rfl
  | error e => trivial

theorem Conf.loopN {A : Bool → ℕ → Prop} {f : ℕ → Prog V Unit} : ∀ n i, (∀ j, i ≤ j → j < i + n → (f j).Conf A) → (Prog.loopN n i f).Conf A
  | 0, _, _ => trivial
  | n + 1, i, h => (h i le_rfl (by omega)).bind fun _ => Conf.loopN n (i + 1) fun j h1 h2 => h j (by omega) (by omega)

theorem Conf.loop {A : Bool → ℕ → Prop} {f : ℕ → Prog V Unit} {lo hi : ℕ} (h : ∀ j, lo ≤ j → j < hi → (f j).Conf A) :
    (Prog.loop lo hi f).Conf A := Conf.loopN _ _ fun j h1 h2 => h j h1 (by omega)

theorem Conf.loopDown {A : Bool → ℕ → Prop} {f : ℕ → Prog V Unit} : ∀ n, (∀ j, j < n → (f j).Conf A) → (Prog.loopDown n f).Conf A
  | 0, _ => trivial
  | n + 1, h => (h n (by omega)).bind fun _ => Conf.loopDown n fun j hj => h j (by omega)

theorem exec_bind (f : α → Prog V β) : ∀ (p : Prog V α) (m : Bool → List V), (p.bind f).exec m = p.exec m >>= fun r => (f r.1).exec r.2
  | ret a, m => rfl
  | fail e, m => rfl
  | read b i k, m => by
    simp only [Prog.bind, exec]
    cases (m b)[i]? with
    | none => rfl
    | some v => exact exec_bind f (k v) m
  | write b i v k, m => by
    simp only [Prog.bind, exec]
    split
    · exact exec_bind f k _
    · rfl

theorem exec_lift (f : α → Prog V β) (x : M α) (m : Bool → List V) : (Prog.lift x f).exec m = x >>= fun a => (f a).exec m := by
  cases x <;> rfl

/-! ## frame properties -/

/-- Same lengths, same contents on `A`. -/
def Agree (A : Bool → ℕ → Prop) (m m' : Bool → List V) : Prop :=
  (∀ b, (m b).length = (m' b).length) ∧ ∀ b i, A b i → (m b)[i]? = (m' b)[i]?

variable {A B : Bool → ℕ → Prop} {m m' n : Bool → List V}

theorem Agree.refl (m : Bool → List V) : Agree A m m := ⟨fun _ => rfl, fun _ _ _ => rfl⟩
theorem Agree.symm (h : Agree A m m') : Agree A m' m := ⟨fun b => (h.1 b).symm, fun b i hi => (h.2 b i hi).symm⟩
theorem Agree.trans (h : Agree A m m') (h' : Agree A m' n) : Agree A m n :=
  ⟨fun b => (h.1 b).trans (h'.1 b), fun b i hi => (h.2 b i hi).trans (h'.2 b i hi)⟩

theorem get_update_set (m : Bool → List V) (b c : Bool) (i j : ℕ) (v : V) :
    (Function.update m b ((m b).set i v) c)[j]? = if c = b ∧ j = i ∧ i < (m b).length then some v else (m c)[j]? := by
  by_cases hc : c = b
  · subst hc
    rw [Function.update_self, List.getElem?_set]
    by_cases hj : i = j
    · subst hj
      by_cases hl : i < (m c).length
      · simp [hl]
      · simp [hl]
    · rw [if_neg hj, if_neg]; exact fun h => hj h.2.1.symm
  · rw [Function.update_of_ne hc, if_neg]; exact fun h => hc h.1

theorem length_update_set (m : Bool → List V) (b c : Bool) (i : ℕ) (v : V) : (Function.update m b ((m b).set i v) c).length = (m c).length := by
  by_cases hc : c = b
  · subst hc; rw [Function.update_self, List.length_set]
  · rw [Function.update_of_ne hc]

theorem Agree.write (h : Agree A m m') (b : Bool) (i : ℕ) (v : V) :
    Agree A (Function.update m b ((m b).set i v)) (Function.update m' b ((m' b).set i v)) := by
  refine ⟨fun c => by rw [length_update_set, length_update_set, h.1 c], fun c j hj => ?_⟩
  rw [get_update_set, get_update_set, h.1 b, h.2 c j hj]

/-- Same outcome, resulting memories agreeing on `A`. -/
def Rel (A : Bool → ℕ → Prop) : M (α × (Bool → List V)) → M (α × (Bool → List V)) → Prop
  | .ok r, .ok r' => r.1 = r'.1 ∧ Agree A r.2 r'.2
  | .error e, .error e' => e = e'
  | _, _ => False

theorem Rel.refl (x : M (α × (Bool → List V))) : Rel A x x := by
  cases x with
  | ok r => exact ⟨rfl, Agree.refl _⟩
  | error e => exact rfl

theorem Rel.trans {x y z : M (α × (Bool → List V))} (h : Rel A x y) (h' : Rel A y z) : Rel A x z := by
  cases x <;> cases y <;> cases z <;> simp only [Rel] at *
  · exact h.trans h'
  · exact ⟨h.1.trans h'.1, h.2.trans h'.2⟩

/-- The solo execution depends on, and changes, the footprint only. -/
theorem exec_agree : ∀ {p : Prog V α} {m m' : Bool → List V}, p.Conf A → Agree A m m' → Rel A (p.exec m) (p.exec m') ∧ p.cost m = p.cost m'
  | ret a, m, m', _, h => ⟨⟨rfl, h⟩, rfl⟩
  | fail e, m, m', _, h => ⟨rfl, rfl⟩
  | read b i k, m, m', hc, h => by
    simp only [exec, cost]
    rw [h.2 b i hc.1]
    cases (m' b)[i]? with
    | none => exact ⟨rfl, rfl⟩
    | some v => exact ⟨(exec_agree (hc.2 v) h).1, by simp only [(exec_agree (hc.2 v) h).2]⟩
  | write b i v k, m, m', hc, h => by
    simp only [exec, cost]
    rw [h.1 b]
    split
    · exact ⟨(exec_agree hc.2 (h.write b i v)).1, by rw [(exec_agree hc.2 (h.write b i v)).2]⟩
    · exact ⟨rfl, rfl⟩

theorem exec_frame : ∀ {p : Prog V α} {m : Bool → List V} {r}, p.Conf A → p.exec m = .ok r → Agree (fun b i => ¬A b i) r.2 m
  | ret a, m, r, _, h => by
    simp only [exec] at h; injection h with h; subst h; exact Agree.refl _
  | fail e, m, r, _, h => by simp only [exec] at h; cases h
  | read b i k, m, r, hc, h => by
    simp only [exec] at h
    cases hv : (m b)[i]? with
    | none => rw [hv] at h; cases h
    | some v => rw [hv] at h; exact exec_frame (hc.2 v) h
  | write b i v k, m, r, hc, h => by
    simp only [exec] at h
    split at h
    · refine (exec_frame hc.2 h).trans ⟨fun c => length_update_set .., fun c j hj => ?_⟩
      rw [get_update_set, if_neg]
      rintro ⟨rfl, rfl, -⟩; exact hj hc.1
    · cases h

/-- A step is confined and keeps the outcome of the solo execution. -/
theorem step_spec : ∀ {p p' : Prog V α} {m m' : Bool → List V}, p.Conf A → p.step m = some (p', m') →
    p'.Conf A ∧ p'.exec m' = p.exec m ∧ p.cost m = p'.cost m' + 1 ∧ Agree (fun b i => ¬A b i) m' m
  | ret a, p', m, m', _, h => by simp [step] at h
  | fail e, p', m, m', _, h => by simp [step] at h
  | read b i k, p', m, m', hc, h => by
    simp only [step, Option.map_eq_some_iff] at h
    obtain ⟨v, hv, h⟩ := h
    injection h with h1 h2; subst h1 h2
    refine ⟨hc.2 v, ?_, ?_, Agree.refl _⟩
    · simp only [exec, hv]
    · simp only [cost, hv]
  | write b i v k, p', m, m', hc, h => by
    simp only [step] at h
    split at h
    · rename_i hl
      injection h with h; injection h with h1 h2; subst h1 h2
      refine ⟨hc.2, by simp only [exec, if_pos hl], by simp only [cost, if_pos hl], fun c => length_update_set .., fun c j hj => ?_⟩
      rw [get_update_set, if_neg]
      rintro ⟨rfl, rfl, -⟩; exact hj hc.1
    · cases h

theorem step_none {p : Prog V α} {m : Bool → List V} (h : p.step m = none) (hr : ∀ a, p ≠ ret a) : ∃ e, p.exec m = .error e := by
  cases p with
  | ret a => exact absurd rfl (hr a)
  | fail e => exact ⟨e, rfl⟩
  | read b i k =>
    simp only [step, Option.map_eq_none_iff] at h
    exact ⟨.oob, by simp only [exec, h]⟩
  | write b i v k =>
    simp only [step] at h
    split at h
    · cases h
    · rename_i hl; exact ⟨.oob, by simp only [exec, if_neg hl]⟩

theorem next_conf {p : Prog V α} {b : Bool} {i : ℕ} {w : Bool} (hc : p.Conf A) (h : p.next = some (b, i, w)) : A b i := by
  cases p with
  | ret a => simp [next] at h
  | fail e => simp [next] at h
  | read b' i' k => simp only [next, Option.some.injEq, Prod.mk.injEq] at h; obtain ⟨rfl, rfl, -⟩ := h; exact hc.1
  | write b' i' v k => simp only [next, Option.some.injEq, Prod.mk.injEq] at h; obtain ⟨rfl, rfl, -⟩ := h; exact hc.1

/-! ## interleavings -/

/-- Disjoint footprints. -/
def Disj (A : ℕ → Bool → ℕ → Prop) : Prop := ∀ i j b k, A i b k → A j b k → i = j

/-- What every interleaving keeps. -/
structure PInv (A : ℕ → Bool → ℕ → Prop) (th0 : ℕ → Prog V Unit) (m0 : Bool → List V) (th : ℕ → Prog V Unit) (m : Bool → List V) : Prop where
  conf : ∀ i, (th i).Conf (A i)
  rel : ∀ i, Rel (A i) ((th i).exec m) ((th0 i).exec m0)
  out : Agree (fun b k => ∀ i, ¬A i b k) m m0

theorem PInv.init {A : ℕ → Bool → ℕ → Prop} {th0 : ℕ → Prog V Unit} {m0 : Bool → List V} (h : ∀ i, (th0 i).Conf (A i)) :
    PInv A th0 m0 th0 m0 := ⟨h, fun _ => Rel.refl _, Agree.refl _⟩

theorem PInv.step {A : ℕ → Bool → ℕ → Prop} {th0 th : ℕ → Prog V Unit} {m0 m m' : Bool → List V} (h : PInv A th0 m0 th m) (hA : Disj A)
    {i : ℕ} {p : Prog V Unit} (hs : (th i).step m = some (p, m')) :
    PInv A th0 m0 (Function.update th i p) m' ∧ (th i).cost m = p.cost m' + 1 ∧ ∀ j, j ≠ i → (th j).cost m' = (th j).cost m := by
  obtain ⟨h1, h2, h3, h4⟩ := step_spec (h.conf i) hs
  have hag : ∀ j, j ≠ i → Agree (A j) m' m := fun j hj => ⟨h4.1, fun b k hk => h4.2 b k fun hc => hj (hA _ _ _ _ hk hc)⟩
  refine ⟨⟨fun j => ?_, fun j => ?_, ⟨fun b => (h4.1 b).trans (h.out.1 b), fun b k hk => (h4.2 b k (hk i)).trans (h.out.2 b k hk)⟩⟩, h3, ?_⟩
  · by_cases hj : j = i
    · subst hj; rw [Function.update_self]; exact h1
    · rw [Function.update_of_ne hj]; exact h.conf j
  · by_cases hj : j = i
    · subst hj; rw [Function.update_self, h2]; exact h.rel j
    · rw [Function.update_of_ne hj]
      exact (exec_agree (h.conf j) (hag j hj)).1.trans (h.rel j)
  · intro j hj
    exact (exec_agree (h.conf j) (hag j hj)).2

/-- All programs one after the other. -/
def seq (th : ℕ → Prog V Unit) : ℕ → (Bool → List V) → M (Bool → List V)
  | 0, m => .ok m
  | n + 1, m => do
    let m ← seq th n m
    let r ← (th n).exec m
    pure r.2

theorem seq_ok {A : ℕ → Bool → ℕ → Prop} {th : ℕ → Prog V Unit} {m0 : Bool → List V} (hA : Disj A) (hc : ∀ i, (th i).Conf (A i)) :
    ∀ n, match seq th n m0 with
      | .ok m => (∀ i < n, ∃ r, (th i).exec m0 = .ok r ∧ Agree (A i) m r.2) ∧ Agree (fun b k => ∀ i < n, ¬A i b k) m m0
      | .error e => ∃ i < n, (th i).exec m0 = .error e
  | 0 => ⟨fun i hi => absurd hi (Nat.not_lt_zero i), Agree.refl _⟩
  | n + 1 => by
    have ih := seq_ok hA hc n (m0 := m0)
    unfold seq
    cases hs : seq th n m0 with
    | error e =>
      rw [hs] at ih
      obtain ⟨i, hi, he⟩ := ih
      exact ⟨i, by omega, he⟩
    | ok m =>
      rw [hs] at ih
      obtain ⟨h1, h2⟩ := ih
      have hag : Agree (A n) m m0 := ⟨h2.1, fun b k hk => h2.2 b k fun i hi hc => by have := hA _ _ _ _ hc hk; omega⟩
      have hrel := (exec_agree (hc n) hag).1
      cases he : (th n).exec m with
      | error e =>
        rw [he] at hrel
        cases he0 : (th n).exec m0 with
        | ok r => rw [he0] at hrel; exact hrel.elim
        | error e' =>
          rw [he0] at hrel
          have : e = e' := hrel
          subst this
          rw [ok_bind, he, error_bind]
          exact ⟨n, by omega, he0⟩
      | ok r =>
        rw [he] at hrel
        have hfr := exec_frame (hc n) he
        rw [ok_bind, he, ok_bind, pure_eq_ok]
        show (∀ i < n + 1, ∃ r', (th i).exec m0 = .ok r' ∧ Agree (A i) r.2 r'.2) ∧ Agree (fun b k => ∀ i < n + 1, ¬A i b k) r.2 m0
        refine ⟨fun i hi => ?_, ?_⟩
        · by_cases hin : i = n
          · subst hin
            cases he0 : (th i).exec m0 with
            | ok r' => rw [he0] at hrel; exact ⟨r', rfl, hrel.2⟩
            | error e' => rw [he0] at hrel; exact hrel.elim
          · obtain ⟨r', e1, e2⟩ := h1 i (by omega)
            refine ⟨r', e1, Agree.trans ⟨hfr.1, fun b k hk => hfr.2 b k fun hc => hin (hA _ _ _ _ hk hc)⟩ e2⟩
        · exact ⟨fun b => (hfr.1 b).trans (h2.1 b), fun b k hk =>
            (hfr.2 b k (hk n (by omega))).trans (h2.2 b k fun i hi => hk i (by omega))⟩

theorem PInv.ret {A : ℕ → Bool → ℕ → Prop} {th0 th : ℕ → Prog V Unit} {m0 m : Bool → List V} (h : PInv A th0 m0 th m) (hA : Disj A)
    (hc : ∀ i, (th0 i).Conf (A i)) {n : ℕ} (hn : ∀ i, n ≤ i → th0 i = .ret ()) (hr : ∀ i, th i = .ret ()) : seq th0 n m0 = .ok m := by
  have hex : ∀ i, ∃ r, (th0 i).exec m0 = .ok r ∧ Agree (A i) m r.2 := by
    intro i
    have := h.rel i
    rw [hr i] at this
    simp only [exec] at this
    cases he : (th0 i).exec m0 with
    | ok r => rw [he] at this; exact ⟨r, rfl, this.2⟩
    | error e => rw [he] at this; exact this.elim
  have hs := seq_ok hA hc n (m0 := m0)
  cases he : seq th0 n m0 with
  | error e =>
    rw [he] at hs
    obtain ⟨i, -, hi⟩ := hs
    obtain ⟨r, hr', -⟩ := hex i
    rw [hr'] at hi; cases hi
  | ok m1 =>
    rw [he] at hs
    obtain ⟨h1, h2⟩ := hs
    congr 1
    funext b
    refine List.ext_getElem? fun k => ?_
    by_cases hk : ∃ i, A i b k
    · obtain ⟨i, hi⟩ := hk
      obtain ⟨r, e1, e2⟩ := hex i
      rw [e2.2 b k hi]
      by_cases hin : i < n
      · obtain ⟨r', e3, e4⟩ := h1 i hin
        rw [e1] at e3; injection e3 with e3; subst e3
        exact e4.2 b k hi
      · rw [h2.2 b k fun j hj hc => by have := hA _ _ _ _ hc hi; omega]
        rw [hn i (by omega)] at e1
        simp only [exec] at e1
        injection e1 with e1; subst e1
        rfl
    · push Not at hk
      rw [h.out.2 b k hk, h2.2 b k fun i _ => hk i]

theorem PInv.not_stuck {A : ℕ → Bool → ℕ → Prop} {th0 th : ℕ → Prog V Unit} {m0 m m1 : Bool → List V} (h : PInv A th0 m0 th m) (hA : Disj A)
    (hc : ∀ i, (th0 i).Conf (A i)) {n : ℕ} (hn : ∀ i, n ≤ i → th0 i = .ret ()) (hs : seq th0 n m0 = .ok m1) (i : ℕ)
    (hi : th i ≠ .ret ()) : ∃ r, (th i).step m = some r := by
  cases hst : (th i).step m with
  | some r => exact ⟨r, rfl⟩
  | none =>
    obtain ⟨e, he⟩ := step_none hst (fun a => by cases a; exact hi)
    have hrel := h.rel i
    rw [he] at hrel
    have hex : ∃ r, (th0 i).exec m0 = .ok r := by
      by_cases hin : i < n
      · have := seq_ok hA hc n (m0 := m0)
        rw [hs] at this
        obtain ⟨r, hr, -⟩ := this.1 i hin
        exact ⟨r, hr⟩
      · rw [hn i (by omega)]; exact ⟨_, rfl⟩
    obtain ⟨r, hr⟩ := hex
    rw [hr] at hrel
    exact hrel.elim

end Prog

end Intp
