import Verif.Proofs.Param

/-! # The relation of a map -/

namespace Intp

open List

variable {K K' V V' α β : Type} {D : ℕ}

/-- The mesh of the images. -/
def Mesh.mapV (φ : V → V') (m : Mesh D V) : Mesh D V' := ⟨m.dims, m.storage.map φ⟩

/-- The range with the images of the coordinates. -/
def XRange.mapK (g : K → K') : XRange K → XRange K'
  | .uniform a b => .uniform (g a) (g b)
  | .coords l => .coords (l.map g)

/-- The interpolation function with the images of all coordinates and values. -/
def InterpFn.mapKV (g : K → K') (φ : V → V') (f : InterpFn D K V) : InterpFn D K' V' where
  spline := ⟨f.spline.order, f.spline.periodicity, fun d => (f.spline.knots d).map g, f.spline.ctrl.mapV φ,
    fun d => (g (f.spline.range d).1, g (f.spline.range d).2)⟩
  dx d := g (f.dx d)
  uniform := f.uniform

/-- Graph of a map. -/
def Graph (φ : α → β) : α → β → Prop := fun a b => φ a = b

theorem graph_self (φ : α → β) (a : α) : Graph φ a (φ a) := rfl

theorem forall₂_graph {φ : α → β} {l : List α} {l' : List β} : Forall₂ (Graph φ) l l' ↔ l' = l.map φ := by
  constructor
  · intro h
    induction h with
    | nil => rfl
    | cons h _ ih => cases h; rw [ih]; rfl
  · rintro rfl
    induction l with
    | nil => exact .nil
    | cons a l ih => exact .cons rfl ih

theorem rmesh_graph {φ : V → V'} {m : Mesh D V} {m' : Mesh D V'} : RMesh (Graph φ) m m' ↔ m' = m.mapV φ := by
  constructor
  · rintro ⟨h⟩
    rw [forall₂_graph] at h
    subst h; rfl
  · rintro rfl
    exact .mk (forall₂_graph.2 rfl)

theorem rx_graph {g : K → K'} {x : XRange K} {x' : XRange K'} : RX (Graph g) x x' ↔ x' = x.mapK g := by
  constructor
  · intro h
    cases h with
    | uniform ha hb => cases ha; cases hb; rfl
    | coords h => rw [forall₂_graph] at h; subst h; rfl
  · rintro rfl
    cases x with
    | uniform a b => exact .uniform rfl rfl
    | coords l => exact .coords (forall₂_graph.2 rfl)

theorem rfn_graph {g : K → K'} {φ : V → V'} {f : InterpFn D K V} {f' : InterpFn D K' V'} : RFn (Graph g) (Graph φ) f f' ↔ f' = f.mapKV g φ := by
  constructor
  · intro h
    cases h with
    | mk hs hd =>
      cases hs with
      | @mk o per k k' c c' r r' hk hc hr =>
        rw [rmesh_graph] at hc
        subst hc
        simp only [forall₂_graph] at hk
        obtain rfl := funext hk
        obtain rfl : _ = _ := funext fun d => (hd d).symm
        obtain rfl : r' = fun d => (g (r d).1, g (r d).2) := funext fun d => Prod.ext (hr d).1.symm (hr d).2.symm
        rfl
  · rintro rfl
    exact .mk (.mk (fun _ => forall₂_graph.2 rfl) (rmesh_graph.2 rfl) fun _ => ⟨rfl, rfl⟩) fun _ => rfl

theorem relM_graph {φ : α → β} {a : M α} {b : M β} : RelM (fun _ => False) (Graph φ) a b ↔ b = a.map φ := by
  cases a <;> cases b <;> simp [RelM, Graph, Except.map, eq_comm]

/-- Left to right only, with the errors `E`. -/
theorem relM_map {E : Err → Prop} {φ : α → β} {a : M α} {b : M β} (h : RelM E (Graph φ) a b) (he : ∀ e, a = .error e → ¬ E e) : b = a.map φ := by
  refine relM_graph.1 ?_
  cases a <;> cases b
  · exact .inl (h.resolve_right (he _ rfl))
  · exact he _ rfl h
  · exact h
  · exact h

theorem RelM.map {E : Err → Prop} {R : α → β → Prop} {φ : α → β} {a : M α} {b : M β} (h : RelM E R a b) (hr : ∀ x y, R x y → y = φ x) : RelM E (Graph φ) a b :=
  h.mono fun x y h => (hr x y h).symm

end Intp
