import Verif.BandLU
import Verif.Proofs.MeshLemmas
import Verif.Proofs.LU

/-! # The band stores refine two-index arrays, and loops over them -/

namespace Intp

open Finset

variable {K V : Type}

/-- Array update. -/
def upd2 (A : ℕ → ℕ → K) (i j : ℕ) (v : K) : ℕ → ℕ → K := fun a b => if a = i ∧ b = j then v else A a b

theorem inRange2 {a b i j : ℕ} : InRange ![a, b] ![i, j] ↔ i < a ∧ j < b := by
  unfold InRange; rw [Fin.forall_fin_two]; rfl

theorem vec2_inj {a b c d : ℕ} : (![a, b] = ![c, d]) ↔ a = c ∧ b = d := by
  constructor
  · intro h; exact ⟨congrFun h 0, congrFun h 1⟩
  · rintro ⟨rfl, rfl⟩; rfl

/-- `(i,j)` lies in the main bands. -/
def InBand (p q i j : ℕ) : Prop := i ≤ j + p ∧ j ≤ i + q

/-- `(i,j)` lies in the wrapped side bands. -/
def InSide (n p q i j : ℕ) : Prop := (i + q < j ∧ n ≤ j + p) ∨ (j + p < i ∧ n ≤ i + q)

instance (p q i j : ℕ) : Decidable (InBand p q i j) := inferInstanceAs (Decidable (_ ∧ _))
instance (n p q i j : ℕ) : Decidable (InSide n p q i j) := inferInstanceAs (Decidable (_ ∨ _))

namespace BandMatrix

/-- `m` is a well-formed `n × n` band matrix holding `A` on its bands. -/
def Rep (n p q : ℕ) (m : BandMatrix K) (A : ℕ → ℕ → K) : Prop :=
  m.n = n ∧ m.p = p ∧ m.q = q ∧ ∃ f, m.bands.Holds ![n, 1 + p + q] f ∧
    ∀ i j, i < n → j < n → InBand p q i j → f ![j, i + q - j] = A i j

variable {n p q : ℕ} {m : BandMatrix K} {A B : ℕ → ℕ → K} {i j : ℕ}

theorem Rep.congr (h : Rep n p q m A) (e : ∀ i j, i < n → j < n → InBand p q i j → A i j = B i j) : Rep n p q m B := by
  obtain ⟨h1, h2, h3, f, hf, hA⟩ := h
  exact ⟨h1, h2, h3, f, hf, fun i j hi hj hb => by rw [hA i j hi hj hb, e i j hi hj hb]⟩

theorem rep_mk' [Zero K] (n p q : ℕ) : Rep n p q (BandMatrix.mk' n p q : BandMatrix K) (fun _ _ => 0) :=
  ⟨rfl, rfl, rfl, _, Mesh.mk'_holds _, fun _ _ _ _ _ => rfl⟩

theorem Rep.get (c : Cfg) (h : Rep n p q m A) (hi : i < n) (hj : j < n) (hb : InBand p q i j) :
    m.get c i j = .ok (A i j) := by
  obtain ⟨h1, h2, h3, f, hf, hA⟩ := h
  have hb' := hb
  unfold InBand at hb
  unfold BandMatrix.get
  rw [h2, h3, assertM_ok (by simpa using hb), ok_bind, subM_ok hb.2, ok_bind,
    hf.getSafe c (inRange2.2 ⟨hj, by omega⟩), hA i j hi hj hb']

theorem Rep.set (c : Cfg) (h : Rep n p q m A) (hi : i < n) (hj : j < n) (hb : InBand p q i j) (v : K) :
    ∃ m', m.set c i j v = .ok m' ∧ Rep n p q m' (upd2 A i j v) := by
  obtain ⟨h1, h2, h3, f, hf, hA⟩ := h
  have hb' := hb
  unfold InBand at hb
  obtain ⟨b', hb1, hb2⟩ := hf.setSafe c (a := ![j, i + q - j]) (inRange2.2 ⟨hj, by omega⟩) v
  refine ⟨{ m with bands := b' }, ?_, h1, h2, h3, _, hb2, ?_⟩
  · unfold BandMatrix.set
    rw [h2, h3, assertM_ok (by simpa using hb), ok_bind, subM_ok hb.2, ok_bind, hb1]; rfl
  · intro i' j' hi' hj' hbb
    unfold upd2
    have hbb' := hbb
    unfold InBand at hbb
    by_cases heq : i' = i ∧ j' = j
    · obtain ⟨rfl, rfl⟩ := heq
      simp
    · rw [if_neg heq, Function.update_of_ne, hA i' j' hi' hj' hbb']
      rw [Ne, vec2_inj]; omega

end BandMatrix

namespace ExtBandMatrix

/-- `m` is a well-formed `n × n` extended band matrix holding `A` on its main and side bands. -/
def Rep (n p q : ℕ) (m : ExtBandMatrix K) (A : ℕ → ℕ → K) : Prop :=
  p < n ∧ q < n ∧ m.n = n ∧ m.p = p ∧ m.q = q ∧ ∃ f g h, m.bands.Holds ![n, 1 + p + q] f ∧
    m.right.Holds ![n - (q + 1), p] g ∧ m.bottom.Holds ![n - (p + 1), q] h ∧
    (∀ i j, i < n → j < n → InBand p q i j → f ![j, i + q - j] = A i j) ∧
    (∀ i j, i < n → j < n → i + q < j → n ≤ j + p → g ![i, j + p - n] = A i j) ∧
    (∀ i j, i < n → j < n → j + p < i → n ≤ i + q → h ![j, i + q - n] = A i j)

variable {n p q : ℕ} {m : ExtBandMatrix K} {A B : ℕ → ℕ → K} {i j : ℕ}

theorem Rep.congr (h : Rep n p q m A) (e : ∀ i j, i < n → j < n → InBand p q i j ∨ InSide n p q i j → A i j = B i j) :
    Rep n p q m B := by
  obtain ⟨hp, hq, h1, h2, h3, f, g, h, hf, hg, hh, hA, hR, hB⟩ := h
  refine ⟨hp, hq, h1, h2, h3, f, g, h, hf, hg, hh, fun i j hi hj hb => ?_, fun i j hi hj a b => ?_, fun i j hi hj a b => ?_⟩
  · rw [hA i j hi hj hb, e i j hi hj (.inl hb)]
  · rw [hR i j hi hj a b, e i j hi hj (.inr (.inl ⟨a, b⟩))]
  · rw [hB i j hi hj a b, e i j hi hj (.inr (.inr ⟨a, b⟩))]

theorem mk'_rep [Zero K] (hp : p < n) (hq : q < n) :
    ∃ m : ExtBandMatrix K, mk' n p q = .ok m ∧ Rep n p q m (fun _ _ => 0) := by
  refine ⟨⟨n, p, q, Mesh.mk' ![n, 1 + p + q], Mesh.mk' ![n - (q + 1), p], Mesh.mk' ![n - (p + 1), q]⟩, ?_, hp, hq, rfl,
    rfl, rfl, _, _, _, Mesh.mk'_holds _, Mesh.mk'_holds _, Mesh.mk'_holds _,
    fun _ _ _ _ _ => rfl, fun _ _ _ _ _ _ => rfl, fun _ _ _ _ _ _ => rfl⟩
  unfold mk'
  rw [subM_ok (by omega), ok_bind, subM_ok (by omega)]; rfl

theorem Rep.mainGet (c : Cfg) (h : Rep n p q m A) (hi : i < n) (hj : j < n) (hb : InBand p q i j) :
    m.mainGet c i j = .ok (A i j) := by
  obtain ⟨hp, hq, h1, h2, h3, f, g, h, hf, hg, hh, hA, hR, hB⟩ := h
  have hb' := hb
  unfold InBand at hb
  unfold ExtBandMatrix.mainGet
  rw [h2, h3, assertM_ok (by simpa using hb), ok_bind, subM_ok hb.2, ok_bind,
    hf.getSafe c (inRange2.2 ⟨hj, by omega⟩), hA i j hi hj hb']

theorem Rep.mainSet (c : Cfg) (h : Rep n p q m A) (hi : i < n) (hj : j < n) (hb : InBand p q i j) (v : K) :
    ∃ m', m.mainSet c i j v = .ok m' ∧ Rep n p q m' (upd2 A i j v) := by
  obtain ⟨hp, hq, h1, h2, h3, f, g, h, hf, hg, hh, hA, hR, hB⟩ := h
  have hb' := hb
  unfold InBand at hb
  obtain ⟨b', hb1, hb2⟩ := hf.setSafe c (a := ![j, i + q - j]) (inRange2.2 ⟨hj, by omega⟩) v
  refine ⟨{ m with bands := b' }, ?_, hp, hq, h1, h2, h3, _, g, h, hb2, hg, hh, ?_, ?_, ?_⟩
  · unfold ExtBandMatrix.mainSet
    rw [h2, h3, assertM_ok (by simpa using hb), ok_bind, subM_ok hb.2, ok_bind, hb1]; rfl
  · intro i' j' hi' hj' hbb
    unfold upd2
    have hbb' := hbb
    unfold InBand at hbb
    by_cases heq : i' = i ∧ j' = j
    · obtain ⟨rfl, rfl⟩ := heq
      simp
    · rw [if_neg heq, Function.update_of_ne, hA i' j' hi' hj' hbb']
      rw [Ne, vec2_inj]; omega
  · intro i' j' hi' hj' a b
    unfold upd2
    rw [if_neg (by omega), hR i' j' hi' hj' a b]
  · intro i' j' hi' hj' a b
    unfold upd2
    rw [if_neg (by omega), hB i' j' hi' hj' a b]

theorem Rep.sideGet (c : Cfg) (h : Rep n p q m A) (hi : i < n) (hj : j < n) (hs : InSide n p q i j) :
    m.sideGet c i j = .ok (A i j) := by
  obtain ⟨hp, hq, h1, h2, h3, f, g, h, hf, hg, hh, hA, hR, hB⟩ := h
  unfold ExtBandMatrix.sideGet sideCond
  rw [h1, h2, h3, assertM_ok (by unfold InSide at hs; simp only [decide_eq_true_eq]; omega), ok_bind]
  rcases hs with ⟨a, b⟩ | ⟨a, b⟩
  · rw [if_pos (by omega), subM_ok b, ok_bind, hg.getSafe c (inRange2.2 ⟨by omega, by omega⟩), hR i j hi hj a b]
  · rw [if_neg (by omega), subM_ok b, ok_bind, hh.getSafe c (inRange2.2 ⟨by omega, by omega⟩), hB i j hi hj a b]

theorem Rep.sideSet (c : Cfg) (h : Rep n p q m A) (hi : i < n) (hj : j < n) (hs : InSide n p q i j) (v : K) :
    ∃ m', m.sideSet c i j v = .ok m' ∧ Rep n p q m' (upd2 A i j v) := by
  obtain ⟨hp, hq, h1, h2, h3, f, g, h, hf, hg, hh, hA, hR, hB⟩ := h
  have hassert : assertM c (m.sideCond i j) = .ok () :=
    assertM_ok (by unfold InSide at hs; unfold sideCond; rw [h1, h2, h3]; simp only [decide_eq_true_eq]; omega)
  unfold ExtBandMatrix.sideSet
  rw [hassert, ok_bind, h1, h2, h3]
  rcases hs with ⟨a, b⟩ | ⟨a, b⟩
  · rw [if_pos (by omega), subM_ok b, ok_bind]
    obtain ⟨b', hb1, hb2⟩ := hg.setSafe c (a := ![i, j + p - n]) (inRange2.2 ⟨by omega, by omega⟩) v
    refine ⟨{ m with right := b' }, ?_, hp, hq, h1, h2, h3, f, _, h, hf, hb2, hh, ?_, ?_, ?_⟩
    · rw [hb1, ok_bind, ← h1, ← h2, ← h3]; rfl
    · intro i' j' hi' hj' hbb
      unfold upd2
      rw [if_neg (by unfold InBand at hbb; omega), hA i' j' hi' hj' hbb]
    · intro i' j' hi' hj' a' b'
      unfold upd2
      by_cases heq : i' = i ∧ j' = j
      · obtain ⟨rfl, rfl⟩ := heq
        simp
      · rw [if_neg heq, Function.update_of_ne, hR i' j' hi' hj' a' b']
        rw [Ne, vec2_inj]; omega
    · intro i' j' hi' hj' a' b'
      unfold upd2
      rw [if_neg (by omega), hB i' j' hi' hj' a' b']
  · rw [if_neg (by omega), subM_ok b, ok_bind]
    obtain ⟨b', hb1, hb2⟩ := hh.setSafe c (a := ![j, i + q - n]) (inRange2.2 ⟨by omega, by omega⟩) v
    refine ⟨{ m with bottom := b' }, ?_, hp, hq, h1, h2, h3, f, g, _, hf, hg, hb2, ?_, ?_, ?_⟩
    · rw [hb1, ok_bind, ← h1, ← h2, ← h3]; rfl
    · intro i' j' hi' hj' hbb
      unfold upd2
      rw [if_neg (by unfold InBand at hbb; omega), hA i' j' hi' hj' hbb]
    · intro i' j' hi' hj' a' b'
      unfold upd2
      rw [if_neg (by omega), hR i' j' hi' hj' a' b']
    · intro i' j' hi' hj' a' b'
      unfold upd2
      by_cases heq : i' = i ∧ j' = j
      · obtain ⟨rfl, rfl⟩ := heq
        simp
      · rw [if_neg heq, Function.update_of_ne, hB i' j' hi' hj' a' b']
        rw [Ne, vec2_inj]; omega

theorem Rep.get (c : Cfg) (h : Rep n p q m A) (hi : i < n) (hj : j < n) (hs : InBand p q i j ∨ InSide n p q i j) :
    m.get c i j = .ok (A i j) := by
  unfold ExtBandMatrix.get
  have h2 : m.p = p := h.2.2.2.1
  have h3 : m.q = q := h.2.2.2.2.1
  by_cases hb : InBand p q i j
  · rw [h2, h3, if_neg (by unfold InBand at hb; omega)]; exact h.mainGet c hi hj hb
  · rw [h2, h3, if_pos (by unfold InBand at hb; omega)]; exact h.sideGet c hi hj (hs.resolve_left hb)

theorem Rep.set (c : Cfg) (h : Rep n p q m A) (hi : i < n) (hj : j < n) (hs : InBand p q i j ∨ InSide n p q i j)
    (v : K) : ∃ m', m.set c i j v = .ok m' ∧ Rep n p q m' (upd2 A i j v) := by
  unfold ExtBandMatrix.set
  have h2 : m.p = p := h.2.2.2.1
  have h3 : m.q = q := h.2.2.2.2.1
  by_cases hb : InBand p q i j
  · rw [h2, h3, if_neg (by unfold InBand at hb; omega)]; exact h.mainSet c hi hj hb v
  · rw [h2, h3, if_pos (by unfold InBand at hb; omega)]; exact h.sideSet c hi hj (hs.resolve_left hb) v

end ExtBandMatrix

/-! ## loops that overwrite a set of entries -/

/-- `T` on the set `S`, `A` elsewhere. -/
noncomputable def mix2 {α : Type} (S : ℕ → ℕ → Prop) (T A : ℕ → ℕ → α) : ℕ → ℕ → α := by
  classical exact fun i j => if S i j then T i j else A i j

theorem mix2_pos {α : Type} {S : ℕ → ℕ → Prop} {T A : ℕ → ℕ → α} {i j : ℕ} (h : S i j) : mix2 S T A i j = T i j := if_pos h
theorem mix2_neg {α : Type} {S : ℕ → ℕ → Prop} {T A : ℕ → ℕ → α} {i j : ℕ} (h : ¬S i j) : mix2 S T A i j = A i j := if_neg h

theorem upd2_mix2 {S : ℕ → ℕ → Prop} {T A : ℕ → ℕ → K} {i j : ℕ} :
    upd2 (mix2 S T A) i j (T i j) = mix2 (fun a b => S a b ∨ (a = i ∧ b = j)) T A := by
  funext a b
  unfold upd2
  by_cases h : a = i ∧ b = j
  · rw [if_pos h, mix2_pos (.inr h), h.1, h.2]
  · rw [if_neg h]
    by_cases hs : S a b
    · rw [mix2_pos hs, mix2_pos (.inl hs)]
    · rw [mix2_neg hs, mix2_neg (by tauto)]

variable {σ : Type} {R : σ → (ℕ → ℕ → K) → Prop} {E : Err → Prop}

theorem mix2_empty {α : Type} (T A : ℕ → ℕ → α) : mix2 (fun _ _ => False) T A = A := by
  funext i j; exact mix2_neg (by simp)

theorem mix2_congr_set {α : Type} {S S' : ℕ → ℕ → Prop} {T A : ℕ → ℕ → α} (h : ∀ i j, S i j ↔ S' i j) :
    mix2 S T A = mix2 S' T A := by
  have : S = S' := by funext i j; exact propext (h i j)
  rw [this]

/-- A loop over row indices `i ∈ [lo,hi)` at a fixed column `j`. -/
theorem Spec.loop_col {Reg S0 : ℕ → ℕ → Prop} {T A : ℕ → ℕ → K} {f : ℕ → σ → M σ} {lo hi j : ℕ} {s : σ}
    (h0 : R s (mix2 S0 T A)) (hS0 : ∀ a b, S0 a b → Reg a b) (hdis : ∀ i, lo ≤ i → i < hi → ¬ S0 i j)
    (hReg : ∀ i, lo ≤ i → i < hi → Reg i j)
    (hbody : ∀ i s S, lo ≤ i → i < hi → (∀ a b, S a b → Reg a b) → ¬ S i j → R s (mix2 S T A) →
      Spec (f i s) (fun s' => R s' (mix2 (fun a b => S a b ∨ (a = i ∧ b = j)) T A)) E) :
    Spec (Intp.loop lo hi s f)
      (fun s' => R s' (mix2 (fun a b => S0 a b ∨ (lo ≤ a ∧ a < hi ∧ b = j)) T A)) E := by
  refine Spec.imp (Spec.loop' (P := fun i s => R s (mix2 (fun a b => S0 a b ∨ (lo ≤ a ∧ a < i ∧ b = j)) T A)) ?_ ?_) ?_
  · rwa [mix2_congr_set (S' := S0) (fun a b => by constructor <;> intro h <;> [(rcases h with h | h; exact h; omega); exact .inl h])]
  · intro i s hlo hhi hR
    refine Spec.imp (hbody i s _ hlo hhi ?_ ?_ hR) ?_
    · rintro a b (h | ⟨h1, h2, rfl⟩)
      · exact hS0 a b h
      · exact hReg a h1 (by omega)
    · rintro (h | h)
      · exact hdis i hlo hhi h
      · omega
    · intro s' hs'
      rwa [mix2_congr_set (S' := fun a b => S0 a b ∨ (lo ≤ a ∧ a < i + 1 ∧ b = j))] at hs'
      intro a b
      constructor
      · rintro ((h | h) | h) <;> [exact .inl h; exact .inr (by omega); exact .inr (by omega)]
      · rintro (h | h)
        · exact .inl (.inl h)
        · by_cases ha : a = i
          · exact .inr (by omega)
          · exact .inl (.inr (by omega))
  · intro s' hs'
    rwa [mix2_congr_set (S' := fun a b => S0 a b ∨ (lo ≤ a ∧ a < hi ∧ b = j))] at hs'
    intro a b
    constructor <;> rintro (h | h) <;> [exact .inl h; exact .inr (by omega); exact .inl h; exact .inr (by omega)]

/-- A loop over column indices `j ∈ [lo,hi)` at a fixed row `i`. -/
theorem Spec.loop_row {Reg S0 : ℕ → ℕ → Prop} {T A : ℕ → ℕ → K} {f : ℕ → σ → M σ} {lo hi i : ℕ} {s : σ}
    (h0 : R s (mix2 S0 T A)) (hS0 : ∀ a b, S0 a b → Reg a b) (hdis : ∀ j, lo ≤ j → j < hi → ¬ S0 i j)
    (hReg : ∀ j, lo ≤ j → j < hi → Reg i j)
    (hbody : ∀ j s S, lo ≤ j → j < hi → (∀ a b, S a b → Reg a b) → ¬ S i j → R s (mix2 S T A) →
      Spec (f j s) (fun s' => R s' (mix2 (fun a b => S a b ∨ (a = i ∧ b = j)) T A)) E) :
    Spec (Intp.loop lo hi s f)
      (fun s' => R s' (mix2 (fun a b => S0 a b ∨ (lo ≤ b ∧ b < hi ∧ a = i)) T A)) E := by
  refine Spec.imp (Spec.loop' (P := fun j s => R s (mix2 (fun a b => S0 a b ∨ (lo ≤ b ∧ b < j ∧ a = i)) T A)) ?_ ?_) ?_
  · rwa [mix2_congr_set (S' := S0) (fun a b => by constructor <;> intro h <;> [(rcases h with h | h; exact h; omega); exact .inl h])]
  · intro j s hlo hhi hR
    refine Spec.imp (hbody j s _ hlo hhi ?_ ?_ hR) ?_
    · rintro a b (h | ⟨h1, h2, rfl⟩)
      · exact hS0 a b h
      · exact hReg b h1 (by omega)
    · rintro (h | h)
      · exact hdis j hlo hhi h
      · omega
    · intro s' hs'
      rwa [mix2_congr_set (S' := fun a b => S0 a b ∨ (lo ≤ b ∧ b < j + 1 ∧ a = i))] at hs'
      intro a b
      constructor
      · rintro ((h | h) | h) <;> [exact .inl h; exact .inr (by omega); exact .inr (by omega)]
      · rintro (h | h)
        · exact .inl (.inl h)
        · by_cases ha : b = j
          · exact .inr (by omega)
          · exact .inl (.inr (by omega))
  · intro s' hs'
    rwa [mix2_congr_set (S' := fun a b => S0 a b ∨ (lo ≤ b ∧ b < hi ∧ a = i))] at hs'
    intro a b
    constructor <;> rintro (h | h) <;> [exact .inl h; exact .inr (by omega); exact .inl h; exact .inr (by omega)]

/-- The rectangle `[li,hi) × [lj,hj)`. -/
def Rect (li hi lj hj a b : ℕ) : Prop := (li ≤ a ∧ a < hi) ∧ lj ≤ b ∧ b < hj

/-- Nested loops, columns outside. -/
theorem Spec.loop_rect_ji {Reg S0 : ℕ → ℕ → Prop} {T A : ℕ → ℕ → K} {f : ℕ → ℕ → σ → M σ} {li hi lj hj : ℕ} {s : σ}
    (h0 : R s (mix2 S0 T A)) (hS0 : ∀ a b, S0 a b → Reg a b) (hdis : ∀ i j, Rect li hi lj hj i j → ¬ S0 i j)
    (hReg : ∀ i j, Rect li hi lj hj i j → Reg i j)
    (hbody : ∀ i j s S, Rect li hi lj hj i j → (∀ a b, S a b → Reg a b) → ¬ S i j → R s (mix2 S T A) →
      Spec (f i j s) (fun s' => R s' (mix2 (fun a b => S a b ∨ (a = i ∧ b = j)) T A)) E) :
    Spec (Intp.loop lj hj s fun j s => Intp.loop li hi s fun i s => f i j s)
      (fun s' => R s' (mix2 (fun a b => S0 a b ∨ Rect li hi lj hj a b) T A)) E := by
  refine Spec.imp (Spec.loop' (P := fun j s => R s (mix2 (fun a b => S0 a b ∨ Rect li hi lj j a b) T A)) ?_ ?_) ?_
  · rwa [mix2_congr_set (S' := S0)]
    intro a b; unfold Rect; constructor <;> intro h <;> [(rcases h with h | h; exact h; omega); exact .inl h]
  · intro j s hlo hhi hR
    refine Spec.imp (Spec.loop_col (R := R) (Reg := Reg) (S0 := fun a b => S0 a b ∨ Rect li hi lj j a b) (j := j) hR
      ?_ ?_ ?_ ?_) ?_
    · rintro a b (h | h)
      · exact hS0 a b h
      · exact hReg a b (by unfold Rect at *; omega)
    · rintro i h1 h2 (h | h)
      · exact hdis i j ⟨⟨h1, h2⟩, hlo, hhi⟩ h
      · unfold Rect at h; omega
    · intro i h1 h2; exact hReg i j ⟨⟨h1, h2⟩, hlo, hhi⟩
    · intro i s S h1 h2; exact hbody i j s S ⟨⟨h1, h2⟩, hlo, hhi⟩
    · intro s' hs'
      rwa [mix2_congr_set (S' := fun a b => S0 a b ∨ Rect li hi lj (j + 1) a b)] at hs'
      intro a b
      unfold Rect
      constructor
      · rintro ((h | h) | h) <;> [exact .inl h; exact .inr (by omega); exact .inr (by omega)]
      · rintro (h | h)
        · exact .inl (.inl h)
        · by_cases ha : b = j
          · exact .inr (by omega)
          · exact .inl (.inr (by omega))
  · intro s' hs'
    rwa [mix2_congr_set (S' := fun a b => S0 a b ∨ Rect li hi lj hj a b)] at hs'
    intro a b; unfold Rect
    constructor <;> rintro (h | h) <;> [exact .inl h; exact .inr (by omega); exact .inl h; exact .inr (by omega)]

/-- Nested loops, rows outside. -/
theorem Spec.loop_rect_ij {Reg S0 : ℕ → ℕ → Prop} {T A : ℕ → ℕ → K} {f : ℕ → ℕ → σ → M σ} {li hi lj hj : ℕ} {s : σ}
    (h0 : R s (mix2 S0 T A)) (hS0 : ∀ a b, S0 a b → Reg a b) (hdis : ∀ i j, Rect li hi lj hj i j → ¬ S0 i j)
    (hReg : ∀ i j, Rect li hi lj hj i j → Reg i j)
    (hbody : ∀ i j s S, Rect li hi lj hj i j → (∀ a b, S a b → Reg a b) → ¬ S i j → R s (mix2 S T A) →
      Spec (f i j s) (fun s' => R s' (mix2 (fun a b => S a b ∨ (a = i ∧ b = j)) T A)) E) :
    Spec (Intp.loop li hi s fun i s => Intp.loop lj hj s fun j s => f i j s)
      (fun s' => R s' (mix2 (fun a b => S0 a b ∨ Rect li hi lj hj a b) T A)) E := by
  refine Spec.imp (Spec.loop' (P := fun i s => R s (mix2 (fun a b => S0 a b ∨ Rect li i lj hj a b) T A)) ?_ ?_) ?_
  · rwa [mix2_congr_set (S' := S0)]
    intro a b; unfold Rect; constructor <;> intro h <;> [(rcases h with h | h; exact h; omega); exact .inl h]
  · intro i s hlo hhi hR
    refine Spec.imp (Spec.loop_row (R := R) (Reg := Reg) (S0 := fun a b => S0 a b ∨ Rect li i lj hj a b) (i := i) hR
      ?_ ?_ ?_ ?_) ?_
    · rintro a b (h | h)
      · exact hS0 a b h
      · exact hReg a b (by unfold Rect at *; omega)
    · rintro j h1 h2 (h | h)
      · exact hdis i j ⟨⟨hlo, hhi⟩, h1, h2⟩ h
      · unfold Rect at h; omega
    · intro j h1 h2; exact hReg i j ⟨⟨hlo, hhi⟩, h1, h2⟩
    · intro j s S h1 h2; exact hbody i j s S ⟨⟨hlo, hhi⟩, h1, h2⟩
    · intro s' hs'
      rwa [mix2_congr_set (S' := fun a b => S0 a b ∨ Rect li (i + 1) lj hj a b)] at hs'
      intro a b
      unfold Rect
      constructor
      · rintro ((h | h) | h) <;> [exact .inl h; exact .inr (by omega); exact .inr (by omega)]
      · rintro (h | h)
        · exact .inl (.inl h)
        · by_cases ha : a = i
          · exact .inr (by omega)
          · exact .inl (.inr (by omega))
  · intro s' hs'
    rwa [mix2_congr_set (S' := fun a b => S0 a b ∨ Rect li hi lj hj a b)] at hs'
    intro a b; unfold Rect
    constructor <;> rintro (h | h) <;> [exact .inl h; exact .inr (by omega); exact .inl h; exact .inr (by omega)]

end Intp
