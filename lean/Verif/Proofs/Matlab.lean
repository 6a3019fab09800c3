import Verif.Matlab
import Verif.Props.Symmetry
import Verif.Props.Pivot

/-!
# Lemmas on the MATLAB interface
-/

namespace Intp

variable {V : Type} {D : ℕ}

/-- A mesh with given contents. -/
theorem Mesh.exists_of_fun (dims : Fin D → ℕ) (F : (Fin D → ℕ) → V) : ∃ m : Mesh D V, m.Holds dims F := by
  refine ⟨⟨dims, (List.range (∏ d, dims d)).map fun t => F (decode dims t)⟩, rfl, by simp [Mesh.WF], fun a ha => ?_⟩
  unfold Mesh.get
  rw [rd_eq_ok_iff]
  simp only [List.getElem?_map]
  rw [List.getElem?_range (indexing_lt ha), Option.map_some, decode_indexing ha]

namespace Matlab

variable {N : ℕ}

/-- What the nested loops leave in the mesh: index `b` was visited if its reversal agrees with `a` outside of `ds` and is in range inside. -/
theorem colMajorGo_fill {E : Err → Prop} (c : Cfg) (range : Fin N → ℕ) (W : Fin N → ℕ) (hW : ∀ d, range d.rev ≤ W d) (val : (Fin N → ℕ) → V)
    {rdv : (Fin N → ℕ) → M V} (hrd : ∀ a, (∀ d, a d < range d) → rdv a = .ok (val a)) :
    ∀ (ds : List (Fin N)), ds.Nodup → ∀ (a : Fin N → ℕ), (∀ d, d ∉ ds → a d < range d) → ∀ (F : (Fin N → ℕ) → V) (f : Mesh N V), f.Holds W F →
      Spec (colMajorGo range (fun a f => do let v ← rdv a; f.setSafe c (fun d => a d.rev) v) ds a f)
        (fun f' => f'.Holds W (by classical exact fun b => if (∀ d, d ∉ ds → b d.rev = a d) ∧ (∀ d, d ∈ ds → b d.rev < range d) then val (fun d => b d.rev) else F b)) E := by
  classical
  intro ds
  induction ds with
  | nil =>
    intro _ a ha F f hf
    have ha' : ∀ d, a d < range d := fun d => ha d (by simp)
    unfold colMajorGo
    rw [hrd a ha', ok_bind]
    obtain ⟨f', h1, h2⟩ := hf.setSafe c (a := fun d => a d.rev) (fun d => lt_of_lt_of_le (ha' d.rev) (hW d)) (val a)
    rw [h1]
    refine h2.congr fun b _ => ?_
    by_cases hb : b = fun d => a d.rev
    · subst hb
      rw [Function.update_self, if_pos (by simp)]
      congr 1
      funext d
      simp
    · rw [Function.update_of_ne hb, if_neg]
      rintro ⟨h, -⟩
      refine hb (funext fun d => ?_)
      have := h d.rev (by simp)
      simpa using this
  | cons d ds ih =>
    intro hnd a ha F f hf
    rw [List.nodup_cons] at hnd
    unfold colMajorGo
    refine Spec.imp (Spec.loop (P := fun i (f : Mesh N V) => f.Holds W fun b =>
      if (∀ e, e ∉ d :: ds → b e.rev = a e) ∧ (∀ e, e ∈ ds → b e.rev < range e) ∧ b d.rev < i then val (fun d => b d.rev) else F b)
      (Nat.zero_le _) ?_ fun i f _ hi hf => ?_) fun f hf => ?_
    · exact hf.congr fun b _ => by rw [if_neg (by omega)]
    · refine (ih hnd.2 (Function.update a d i) (fun e he => ?_) _ f hf).imp fun f' hf' => ?_
      · by_cases hed : e = d
        · subst hed; rwa [Function.update_self]
        · rw [Function.update_of_ne hed]
          exact ha e (by simp [hed, he])
      · refine hf'.congr fun b _ => ?_
        by_cases h1 : (∀ e, e ∉ d :: ds → b e.rev = a e) ∧ ∀ e, e ∈ ds → b e.rev < range e
        · by_cases h2 : b d.rev = i
          · rw [if_pos, if_pos ⟨h1.1, h1.2, by omega⟩]
            refine ⟨fun e he => ?_, h1.2⟩
            by_cases hed : e = d
            · subst hed; rw [Function.update_self, h2]
            · rw [Function.update_of_ne hed]
              exact h1.1 e (by simp [hed, he])
          · rw [if_neg fun h => h2 (by have := h.1 d hnd.1; rwa [Function.update_self] at this)]
            by_cases h3 : b d.rev < i
            · rw [if_pos ⟨h1.1, h1.2, h3⟩, if_pos ⟨h1.1, h1.2, by omega⟩]
            · rw [if_neg (by tauto), if_neg fun h => by have := h.2.2; omega]
        · rw [if_neg, if_neg (by tauto), if_neg (by tauto)]
          rintro ⟨h2, h3⟩
          refine h1 ⟨fun e he => ?_, h3⟩
          rw [List.mem_cons, not_or] at he
          have := h2 e he.2
          rwa [Function.update_of_ne he.1] at this
    · refine hf.congr fun b _ => ?_
      congr 1
      simp only [List.mem_cons, forall_eq_or_imp, eq_iff_iff]
      tauto

/-- The filled mesh: reversed indices, zeros outside of the array. -/
theorem colMajor_fill [Zero V] {E : Err → Prop} (c : Cfg) (range : Fin N → ℕ) (W : Fin N → ℕ) (hW : ∀ d, range d.rev ≤ W d) (val : (Fin N → ℕ) → V)
    {rdv : (Fin N → ℕ) → M V} (hrd : ∀ a, (∀ d, a d < range d) → rdv a = .ok (val a)) :
    Spec (colMajor range (Mesh.mk' W) fun a f => do let v ← rdv a; f.setSafe c (fun d => a d.rev) v)
      (fun f' => f'.Holds W (by classical exact fun b => if ∀ d : Fin N, b d.rev < range d then val (fun d => b d.rev) else 0)) E := by
  classical
  refine (colMajorGo_fill c range W hW val hrd (List.finRange N).reverse (by simpa using List.nodup_finRange N) (fun _ => 0) (by simp) _ _
    (Mesh.mk'_holds W)).imp fun f hf => hf.congr fun b _ => ?_
  simp

end Matlab

end Intp
