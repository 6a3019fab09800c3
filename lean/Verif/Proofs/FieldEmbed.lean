import Verif.Proofs.ParamMap
import Verif.Proofs.FloatTie
import Verif.Spec.Approx
import Mathlib.Algebra.Order.Floor.Ring
import Mathlib.Algebra.Module.LinearMap.Defs

/-! # Exact arithmetic in two ordered fields -/

namespace Intp

open List

section
variable {K K' V V' : Type} [Field K] [LinearOrder K] [IsStrictOrderedRing K] [FloorRing K] [AddCommGroup V] [Module K V]
  [Field K'] [LinearOrder K'] [IsStrictOrderedRing K'] [FloorRing K'] [AddCommGroup V'] [Module K' V']

theorem embed_kRel {φ : K →+* K'} (hφ : StrictMono φ) :
    @KRelP K K' (exactCoord K) (exactCoord K') (fun _ => False) (fun _ => True) (Graph φ) := by
  letI := exactCoord K
  letI := exactCoord K'
  have hz : ∀ a, φ a = 0 ↔ a = 0 := fun a => map_eq_zero φ
  constructor
  · exact map_zero φ
  · exact map_one φ
  · rintro _ _ _ _ rfl rfl; exact map_add φ _ _
  · rintro _ _ _ _ rfl rfl; exact map_sub φ _ _
  · rintro _ _ _ _ rfl rfl; exact map_mul φ _ _
  · rintro _ _ _ _ rfl rfl; exact hφ.lt_iff_lt.symm
  · rintro _ _ _ _ rfl rfl; exact hφ.le_iff_le.symm
  · exact fun n => map_natCast φ n
  · show φ (1 / 2) = 1 / 2
    rw [map_div₀, map_one, map_ofNat]
  · rintro a _ b _ rfl rfl -
    rw [relM_graph]
    show divM (φ a) (φ b) = (divM a b).map φ
    unfold divM
    simp only [hz]
    split
    · rfl
    · simp [Except.map, map_div₀]
  · exact fun _ => trivial
  · rintro a _ b _ rfl rfl
    rw [relM_graph]
    show fmodM (φ a) (φ b) = (fmodM a b).map φ
    unfold fmodM
    simp only [hz]
    split
    · rfl
    · have h1 : (0 ≤ φ a / φ b) ↔ 0 ≤ a / b := by rw [← map_div₀, ← map_zero φ, hφ.le_iff_le]
      have h2 : ⌊φ a / φ b⌋ = ⌊a / b⌋ := by rw [← map_div₀, Int.map_floor φ hφ]
      have h3 : ⌈φ a / φ b⌉ = ⌈a / b⌉ := by rw [← map_div₀, Int.map_ceil φ hφ]
      simp only [h1, h2, h3, Except.map]
      split <;> simp
  · rintro a _ rfl
    show RelM _ Eq (.ok ⌈a⌉.toNat) (.ok ⌈φ a⌉.toNat)
    rw [Int.map_ceil φ hφ]
    exact RelM.pure rfl

theorem embed_vRel {φ : K →+* K'} (ψ : V →ₛₗ[φ] V') :
    @VRelP K K' V V' (exactVal V) (exactScale K V) (exactVal V') (exactScale K' V') (fun _ => False) (fun _ => True) (Graph φ) (Graph ψ) := by
  letI := exactVal V
  letI := exactVal V'
  letI := exactScale K V
  letI := exactScale K' V'
  have hz : ∀ a, φ a = 0 ↔ a = 0 := fun a => map_eq_zero φ
  constructor
  · exact map_zero ψ
  · rintro _ _ _ _ rfl rfl; exact map_add ψ _ _
  · rintro _ _ _ _ rfl rfl; exact map_sub ψ _ _
  · rintro _ _ _ _ rfl rfl; exact map_smulₛₗ ψ _ _
  · rintro a _ b _ rfl rfl -
    rw [relM_graph]
    show divV (ψ a) (φ b) = (divV a b).map ψ
    unfold divV
    simp only [hz]
    split
    · rfl
    · simp [Except.map, map_smulₛₗ, map_inv₀]

/-! Axes in two fields -/

omit [LinearOrder K] [IsStrictOrderedRing K] [FloorRing K] [LinearOrder K'] [IsStrictOrderedRing K'] [FloorRing K'] in
theorem XRange.node_mapK (φ : K →+* K') (x : XRange K) (N i : ℕ) : (x.mapK φ).node N i = φ (x.node N i) := by
  cases x with
  | uniform a b => simp [XRange.mapK, XRange.node]
  | coords l =>
    simp only [XRange.mapK, XRange.node, getD_eq_getElem?_getD, getElem?_map]
    cases l[i]? <;> simp

omit [IsStrictOrderedRing K] [FloorRing K] [IsStrictOrderedRing K'] [FloorRing K'] in
theorem XRange.Valid.mapK {φ : K →+* K'} (hφ : StrictMono φ) {x : XRange K} {o N : ℕ} {per : Bool} (h : x.Valid o N per) : (x.mapK φ).Valid o N per := by
  refine ⟨h.periodic, h.aperiodic, fun a' b' e => ?_, fun l' e => ?_⟩
  · cases x with
    | uniform a b => cases e; exact hφ (h.uniform a b rfl)
    | coords l => cases e
  · cases x with
    | uniform a b => cases e
    | coords l =>
      obtain ⟨h1, h2, h3⟩ := h.coords l rfl
      have hn : ∀ i, l'.getD i 0 = φ (l.getD i 0) := fun i => by
        have := XRange.node_mapK φ (.coords l) N i
        rw [e] at this
        exact this
      cases e
      refine ⟨by rw [length_map, h1], fun i hi => ?_, h3⟩
      rw [hn, hn]
      exact hφ (h2 i hi)

omit [LinearOrder K] [IsStrictOrderedRing K] [FloorRing K] [LinearOrder K'] [IsStrictOrderedRing K'] [FloorRing K'] in
theorem XRange.Low.mapK (φ : K →+* K') {x : XRange K} {o : ℕ} {per : Bool} (h : x.Low o per) : (x.mapK φ).Low o per := by
  rcases h with h | ⟨⟨a, b, rfl⟩, h⟩
  · exact .inl h
  · exact .inr ⟨⟨_, _, rfl⟩, h⟩

end

end Intp
