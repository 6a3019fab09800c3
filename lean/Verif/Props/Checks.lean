import Verif.Proofs.Shape
import Verif.Props.Interpolation

/-!
# What the constructors reject: coordinates (C56), data of another shape (C57)
-/

namespace Intp

open Finset

variable {K V : Type} [Field K] [LinearOrder K] [IsStrictOrderedRing K] [FloorRing K] [AddCommGroup V] [Module K V] {D : ℕ}

/-- **C56.**  With assertions enabled and enough points per dimension, the constructor fails with an assertion exactly if some dimension has
explicit coordinates of the wrong number or not strictly increasing. -/
theorem coords_check (c : Cfg) (hc : c.assertions = true) {o : ℕ} {per : Fin (D + 1) → Bool} {fm : Mesh (D + 1) V} {x : Fin (D + 1) → XRange K}
    (hm : fm.WF) (hp : ∀ d, per d = true → 2 * (o / 2) + 2 ≤ pointNum c (per d) (fm.dims d))
    (hn : ∀ d, per d = false → o + 1 ≤ pointNum c (per d) (fm.dims d) ∧ 2 ≤ pointNum c (per d) (fm.dims d))
    (hu : ∀ d a b, x d = .uniform a b → a < b) (ho : ∀ d l, x d = .coords l → per d = false → 1 ≤ o) :
    InterpFn.construct c o per fm x = .error .assertFail ↔
      ∃ d l, x d = .coords l ∧ (l.length ≠ pointNum c (per d) (fm.dims d) ∨ ∃ i, i + 1 < l.length ∧ l.getD (i + 1) 0 ≤ l.getD i 0) := by
  have hs : SizesOK c o per fm.dims x := fun d => ⟨hp d, hn d, hu d, ho d⟩
  constructor
  · intro h
    by_contra hb
    have hv : ValidAxes c o per fm.dims x := fun d => valid_of_not_bad hs fun hbd => hb ⟨d, hbd⟩
    rcases construct_ok_or_singular c hm hv with ⟨⟨g, h1⟩, -⟩ | ⟨h1, -⟩ <;> rw [h] at h1 <;> cases h1
  · rintro ⟨d, hb⟩
    unfold InterpFn.construct Template.construct
    rw [partialConstruct_bad hc hs ⟨d, hb⟩]
    rfl

/-- **C56, templates.**  The same for the constructor of a template. -/
theorem template_coords_check (c : Cfg) (hc : c.assertions = true) {o : ℕ} {per : Fin D → Bool} {dims : Fin D → ℕ} {x : Fin D → XRange K}
    (hp : ∀ d, per d = true → 2 * (o / 2) + 2 ≤ pointNum c (per d) (dims d))
    (hn : ∀ d, per d = false → o + 1 ≤ pointNum c (per d) (dims d) ∧ 2 ≤ pointNum c (per d) (dims d))
    (hu : ∀ d a b, x d = .uniform a b → a < b) (ho : ∀ d l, x d = .coords l → per d = false → 1 ≤ o) :
    Template.construct (V := V) c o per dims x = .error .assertFail ↔
      ∃ d l, x d = .coords l ∧ (l.length ≠ pointNum c (per d) (dims d) ∨ ∃ i, i + 1 < l.length ∧ l.getD (i + 1) 0 ≤ l.getD i 0) := by
  have hs : SizesOK c o per dims x := fun d => ⟨hp d, hn d, hu d, ho d⟩
  constructor
  · intro h
    by_contra hb
    have hv : ValidAxes c o per dims x := fun d => valid_of_not_bad hs fun hbd => hb ⟨d, hbd⟩
    have := Template.construct_spec (V := V) c hv
    rw [h] at this
    obtain ⟨d, h1, -⟩ := this
    cases h1
  · rintro ⟨d, hb⟩
    unfold Template.construct
    rw [partialConstruct_bad hc hs ⟨d, hb⟩]
    rfl

/-- Coordinates 0, 2, 1, 3: rejected with assertions. -/
example : InterpFn.construct (K := ℚ) ⟨true, false⟩ 1 (fun _ => false) (Mesh.ofList [(1 : ℚ), 2, 3, 4]) (fun _ => .coords [0, 2, 1, 3]) =
    .error .assertFail :=
  (coords_check _ rfl (by unfold Mesh.WF; decide) (by simp) (fun _ _ => by simp [pointNum, Mesh.ofList]) (fun _ _ _ h => by cases h) fun _ _ _ _ => le_rfl).2
    ⟨0, _, rfl, .inr ⟨1, by decide, by norm_num⟩⟩

/-- **C56, without assertions** nothing is checked: the same coordinates give a function that misses a data point. -/
theorem coords_unchecked : ∃ g, InterpFn.construct (K := ℚ) ⟨false, false⟩ 1 (fun _ => false) (Mesh.ofList [(1 : ℚ), 2, 3, 4])
    (fun _ => .coords [0, 2, 1, 3]) = .ok g ∧ g.call (fun _ => 2) ≠ .ok 2 := by
  have h : (do
      let g ← InterpFn.construct (K := ℚ) ⟨false, false⟩ 1 (fun _ => false) (Mesh.ofList [(1 : ℚ), 2, 3, 4]) (fun _ => .coords [0, 2, 1, 3])
      g.call (fun _ => 2)) = .ok (7 / 2) := by decide +kernel
  cases hg : InterpFn.construct (K := ℚ) ⟨false, false⟩ 1 (fun _ => false) (Mesh.ofList [(1 : ℚ), 2, 3, 4]) (fun _ => .coords [0, 2, 1, 3]) with
  | error e => rw [hg] at h; cases h
  | ok g =>
    rw [hg, ok_bind] at h
    refine ⟨g, rfl, ?_⟩
    rw [h]
    intro e
    injection e with e
    norm_num at e

/-! ## C57 -/

/-- Data that agree on the positions that are kept give the same function; missing values count as zero. -/
theorem Template.interpolate_short (c : Cfg) {o : ℕ} {per : Fin (D + 1) → Bool} {fm fm' : Mesh (D + 1) V} {x : Fin (D + 1) → XRange K}
    {t : Template (D + 1) K V} (hv : ValidAxes c o per fm'.dims x) (ht : Template.construct c o per fm'.dims x = .ok t) (hm : fm.WF) (hm' : fm'.WF)
    (hd : ∀ d, fm.dims d ≤ fm'.dims d) (hin : ∀ a, InRange fm.dims a → fm'.get a = fm.get a)
    (hout : ∀ a, InRange t.dims a → ¬ InRange fm.dims a → fm'.get a = .ok 0) :
    t.interpolate c fm = InterpFn.construct c o per fm' x := by
  rw [← template_interpolate c ht]
  have hgood := (Template.construct_spec (V := V) c hv).get ht
  obtain ⟨f, hf⟩ := fm.exists_holds hm
  obtain ⟨f', hf'⟩ := fm'.exists_holds hm'
  have hpos : ∀ d, 0 < t.dims d := fun d => by rw [hgood.dims_eq]; exact (hv d).unk_pos
  have hdim : ∀ d, fm'.dims d = t.dims d + if per d && !c.noDummy then 1 else 0 := fun d => by rw [hgood.dims_eq]; exact hv.dims_eq d
  suffices h : Template.initWeights c o per t.dims fm = Template.initWeights c o per t.dims fm' by
    have h1 : t.base.spline.order = o := hgood.built.order
    have h2 : t.base.periodicity = per := hgood.built.pers
    unfold Template.interpolate Template.solveForControlPoints
    rw [h1, h2, h]
  obtain ⟨w, e, W, hW, hWf⟩ := (Template.initWeights_short c (o := o) hpos (fun d => (hd d).trans (hdim d).le) hf).exists
  obtain ⟨w', e', W', hW', hWf'⟩ := (Template.initWeights_short c (o := o) hpos (fun d => (hdim d).le) hf').exists
  rw [e, e']
  congr 1
  refine Mesh.ext_holds hpos hW hW' fun J hJ => ?_
  obtain ⟨a, ha, rfl⟩ : ∃ a, InRange t.dims a ∧ Template.shiftIx o per t.dims a = J :=
    ⟨fun d => nodeOfRow o (per d) (t.dims d) (J d), fun d => (row_nodeOfRow (hJ d)).1, funext fun d => (row_nodeOfRow (hJ d)).2⟩
  have har : InRange fm'.dims a := fun d => lt_of_lt_of_le (ha d) (by rw [hdim d]; omega)
  rw [(hWf' a ha).1 har]
  have g' := hf'.get har
  by_cases hb : InRange fm.dims a
  · rw [(hWf a ha).1 hb]
    have g := hf.get hb
    rw [hin a hb, g] at g'
    injection g'
  · rw [(hWf a ha).2 hb]
    rw [hout a ha hb] at g'
    injection g'

/-- **C57, data of a smaller shape** than the template was built for are not rejected: the missing values count as zero. -/
theorem short_data (c : Cfg) {o : ℕ} {per : Fin (D + 1) → Bool} {fm fm' : Mesh (D + 1) V} {x : Fin (D + 1) → XRange K} {t : Template (D + 1) K V}
    (hv : ValidAxes c o per fm'.dims x) (ht : Template.construct c o per fm'.dims x = .ok t) (hm : fm.WF) (hm' : fm'.WF)
    (hd : ∀ d, fm.dims d ≤ fm'.dims d) (hin : ∀ a, InRange fm.dims a → fm'.get a = fm.get a)
    (hout : ∀ a, InRange fm'.dims a → ¬ InRange fm.dims a → fm'.get a = .ok 0) :
    t.interpolate c fm = InterpFn.construct c o per fm' x := by
  have hgood := (Template.construct_spec (V := V) c hv).get ht
  refine Template.interpolate_short c hv ht hm hm' hd hin fun a ha => hout a fun d => lt_of_lt_of_le (ha d) ?_
  have := hv.dims_eq d
  rw [hgood.dims_eq]
  show unk (per d) (pointNum c (per d) (fm'.dims d)) ≤ _
  omega

/-- **C57, periodic dimensions**: the repeated last value may be left out of the data. -/
theorem dummy_omitted (c : Cfg) {o : ℕ} {per : Fin (D + 1) → Bool} {fm fm' : Mesh (D + 1) V} {x : Fin (D + 1) → XRange K} {t : Template (D + 1) K V}
    (hv : ValidAxes c o per fm'.dims x) (ht : Template.construct c o per fm'.dims x = .ok t) (hm : fm.WF) (hm' : fm'.WF)
    (hd : ∀ d, fm.dims d = fm'.dims d ∨ per d = true ∧ c.noDummy = false ∧ fm.dims d + 1 = fm'.dims d)
    (hin : ∀ a, InRange fm.dims a → fm'.get a = fm.get a) :
    t.interpolate c fm = InterpFn.construct c o per fm' x := by
  have hgood := (Template.construct_spec (V := V) c hv).get ht
  refine Template.interpolate_short c hv ht hm hm' (fun d => by rcases hd d with h | ⟨-, -, h⟩ <;> omega) hin fun a ha hn => ?_
  refine absurd (fun d => lt_of_lt_of_le (ha d) ?_) hn
  have h1 := hv.dims_eq d
  rw [hgood.dims_eq]
  show unk (per d) (pointNum c (per d) (fm'.dims d)) ≤ _
  rcases hd d with h | ⟨h2, h3, h⟩
  · omega
  · simp [h2, h3] at h1 h ⊢
    omega

/-- **C57, data of a larger shape**: without periodic dimensions, a value is written behind the end of the control point buffer. -/
theorem long_data (c : Cfg) {o : ℕ} {dims : Fin (D + 1) → ℕ} {x : Fin (D + 1) → XRange K} {t : Template (D + 1) K V} {fm : Mesh (D + 1) V}
    (hv : ValidAxes c o (fun _ => false) dims x) (ht : Template.construct c o (fun _ => false) dims x = .ok t) (hm : fm.WF)
    (hd : ∀ d, dims d ≤ fm.dims d) (he : ∃ d, dims d < fm.dims d) : t.interpolate c fm = .error .oob := by
  have hgood := (Template.construct_spec (V := V) c hv).get ht
  have hdim : t.dims = dims := by
    rw [hgood.dims_eq]
    funext d
    simp [unk, pointNum]
  obtain ⟨e, he⟩ := he
  have h1 : t.base.spline.order = o := hgood.built.order
  have h2 : t.base.periodicity = fun _ => false := hgood.built.pers
  unfold Template.interpolate Template.solveForControlPoints
  rw [h1, h2, hdim, Template.initWeights_long c (fun _ => rfl) hm (fun d => by
    have := (hv d).two
    simp [pointNum] at this
    omega) hd he]
  rfl

/-- A template for four points, data of two, four and five points. -/
example : (do
    let t ← Template.construct (K := ℚ) (V := ℚ) ⟨true, false⟩ 3 (fun _ => false) (fun _ => 4) (fun _ : Fin 1 => .uniform 0 3)
    let g ← t.interpolate ⟨true, false⟩ (Mesh.ofList [(1 : ℚ), 2])
    pure (g.call (fun _ => 1), g.call (fun _ => 2), g.call (fun _ => 1 / 2))) = .ok (.ok 2, .ok 0, .ok (35 / 16)) := by
  decide +kernel

example : (do
    let t ← Template.construct (K := ℚ) (V := ℚ) ⟨true, false⟩ 3 (fun _ => false) (fun _ => 4) (fun _ : Fin 1 => .uniform 0 3)
    let g ← t.interpolate ⟨true, false⟩ (Mesh.ofList [(1 : ℚ), 2, 3, 4, 5])
    g.call (fun _ => 1)) = .error .oob := by
  decide +kernel

/-- The hypotheses of `short_data` hold for two of four values. -/
example {t : Template 1 ℚ ℚ} (ht : Template.construct ⟨true, false⟩ 3 (fun _ => false) (fun _ => 4) (fun _ : Fin 1 => .uniform (0 : ℚ) 3) = .ok t) :
    t.interpolate ⟨true, false⟩ (Mesh.ofList [(1 : ℚ), 2]) =
      InterpFn.construct ⟨true, false⟩ 3 (fun _ => false) (Mesh.ofList [(1 : ℚ), 2, 0, 0]) (fun _ => .uniform 0 3) := by
  refine short_data (fm' := Mesh.ofList [(1 : ℚ), 2, 0, 0]) _ ?_ ht (by unfold Mesh.WF; decide) (by unfold Mesh.WF; decide) (fun _ => by simp [Mesh.ofList])
    (fun a ha => ?_) fun a ha hn => ?_
  · exact fun d => ⟨by simp, fun _ => by simp [pointNum, Mesh.ofList], (fun a b e => by cases e; norm_num), fun l e => by cases e⟩
  · have h0 : a 0 < 2 := ha 0
    rcases (by omega : a 0 = 0 ∨ a 0 = 1) with h | h <;> simp [Mesh.get, indexing_succ, indexing_zero, h, rd, Mesh.ofList]
  · have h0 : a 0 < 4 := ha 0
    have h1 : ¬ a 0 < 2 := fun h => hn fun d => by rw [Fin.fin_one_eq_zero d]; exact h
    rcases (by omega : a 0 = 2 ∨ a 0 = 3) with h | h <;> simp [Mesh.get, indexing_succ, indexing_zero, h, rd, Mesh.ofList]

end Intp
