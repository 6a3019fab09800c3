import Verif.Proofs.BasisPerturb
import Verif.Proofs.Smooth

/-!
# Basis functions of two knot vectors that are near each other

A point may lie in segment `s` of one vector and in the next segment of the other.
-/

namespace Intp

open Finset

variable {F : Type} [Field F] [LinearOrder F] [IsStrictOrderedRing F]

/-- Knots `t` and `t'` differ by at most `δ`, knots `t'` are at least `g` apart between `o` and `n`. -/
structure KnotsNear (t t' : ℕ → F) (o n : ℕ) (δ g : F) : Prop where
  ho : 1 ≤ o
  hn : o < n
  mono : ∀ i j, i ≤ j → j ≤ n + o → t i ≤ t j
  mono' : ∀ i j, i ≤ j → j ≤ n + o → t' i ≤ t' j
  near : ∀ i, i ≤ n + o → |t i - t' i| ≤ δ
  gap : ∀ i, o ≤ i → i < n → t' i + g ≤ t' (i + 1)
  pos : 0 < g
  small : 3 * δ ≤ g

/-- Basis functions of any degree `p`. -/
theorem KnotsNear.crossP {t t' : ℕ → F} {o n : ℕ} {δ g : F} (h : KnotsNear t t' o n δ g) {x : F} (hx : t o ≤ x ∧ x ≤ t n) (hx' : t' o ≤ x ∧ x ≤ t' n)
    {s s' : ℕ} (hs : IsSeg t o (n - 1) x s) (hs' : IsSeg t' o (n - 1) x s') {p : ℕ} (hp : 1 ≤ p) (hpo : p ≤ o) :
    ∑ J ∈ range n, |piece t s p J x - piece t' s' p J x| ≤ p * (8 * δ / g) := by
  have ho := h.ho
  have hn := h.hn
  have hg := h.pos
  have hδ : 0 ≤ δ := (abs_nonneg _).trans (h.near 0 (by omega))
  have hsm := h.small
  obtain ⟨a1, a2, a3, a4⟩ := hs
  obtain ⟨b1, b2, b3, b4⟩ := hs'
  have hl : t s ≤ x := by
    rcases a3 with rfl | a3
    · exact hx.1
    · exact a3
  have hr : x ≤ t (s + 1) := by
    rcases a4 with e | a4
    · rw [show s + 1 = n by omega]; exact hx.2
    · exact a4.le
  have hl' : t' s' ≤ x := by
    rcases b3 with rfl | b3
    · exact hx'.1
    · exact b3
  have hr' : x ≤ t' (s' + 1) := by
    rcases b4 with e | b4
    · rw [show s' + 1 = n by omega]; exact hx'.2
    · exact b4.le
  have gapt : ∀ i, o ≤ i → i < n → t i < t (i + 1) := fun i h1 h2 => by
    have := h.gap i h1 h2
    have := abs_le.1 (h.near i (by omega))
    have := abs_le.1 (h.near (i + 1) (by omega))
    linarith
  have p1 : ∀ q y, o ≤ q → q < n → t q ≤ x → x ≤ t (q + 1) → t' q ≤ y → y ≤ t' (q + 1) → |x - y| ≤ δ →
      ∑ J ∈ range n, |piece t q p J x - piece t' q p J y| ≤ p * (4 * δ / g) := fun q y q1 q2 q3 q4 q5 q6 q7 =>
    piece_near (hpo.trans q1) (fun i j _ h2 h3 => h.mono i j h2 (by omega)) (fun i j _ h2 h3 => h.mono' i j h2 (by omega)) hp ⟨q3, q4⟩ ⟨q5, q6⟩ (gapt q q1 q2) hg
      (by have := h.gap q q1 q2; linarith) (fun i _ h3 => h.near i (by omega)) q7 q2
  have p2 : ∀ q y z, o ≤ q → q < n → t' q ≤ y → y ≤ t' (q + 1) → t' q ≤ z → z ≤ t' (q + 1) → |y - z| ≤ δ →
      ∑ J ∈ range n, |piece t' q p J y - piece t' q p J z| ≤ p * (4 * δ / g) := fun q y z q1 q2 q3 q4 q5 q6 q7 =>
    piece_near (hpo.trans q1) (fun i j _ h2 h3 => h.mono' i j h2 (by omega)) (fun i j _ h2 h3 => h.mono' i j h2 (by omega)) hp ⟨q3, q4⟩ ⟨q5, q6⟩
      (by have := h.gap q q1 q2; linarith) hg (by have := h.gap q q1 q2; linarith) (fun i _ h3 => by rw [sub_self, abs_zero]; exact hδ) q7 q2
  have join : ∀ (u v w : ℕ → F), ∑ J ∈ range n, |u J - v J| ≤ p * (4 * δ / g) → ∑ J ∈ range n, |v J - w J| ≤ p * (4 * δ / g) →
      ∑ J ∈ range n, |u J - w J| ≤ p * (8 * δ / g) := fun u v w h1 h2 => by
    calc ∑ J ∈ range n, |u J - w J| ≤ ∑ J ∈ range n, (|u J - v J| + |v J - w J|) := sum_le_sum fun J _ => abs_sub_le _ _ _
      _ ≤ p * (4 * δ / g) + p * (4 * δ / g) := by rw [sum_add_distrib]; exact add_le_add h1 h2
      _ = _ := by ring
  have n1 := fun i (hi : i ≤ n + o) => abs_le.1 (h.near i hi)
  rcases lt_trichotomy s s' with hlt | heq | hlt
  · have hr2 : x < t (s + 1) := by
      rcases a4 with e | a4
      · omega
      · exact a4
    have c1 : s' = s + 1 := by
      by_contra hne
      have h1 := h.mono' (s + 1 + 1) s' (by omega) (by omega)
      have h2 := h.gap (s + 1) (by omega) (by omega)
      have := n1 (s + 1) (by omega)
      linarith
    subst c1
    have h3 := n1 (s + 1) (by omega)
    have g0 := h.gap s a1 (by omega)
    have g1 := h.gap (s + 1) b1 (by omega)
    have hd : |x - t' (s + 1)| ≤ δ := by rw [abs_of_nonneg (by linarith)]; linarith
    have k1 := p1 s (t' (s + 1)) a1 (by omega) hl hr (by linarith) le_rfl hd
    have k2 := p2 (s + 1) (t' (s + 1)) x b1 (by omega) le_rfl (by linarith) hl' hr' (by rw [abs_sub_comm]; exact hd)
    refine join _ _ _ k1 ?_
    rw [sum_congr rfl fun J _ => by rw [piece_knot_eq (t := t') (r := s) (m := 1) (by linarith) (by linarith) (fun j j1 j2 => by rw [show j = s + 1 by omega]) p J hp]]
    exact k2
  · subst heq
    refine (p1 s x a1 (by omega) hl hr hl' hr' (by rw [sub_self, abs_zero]; exact hδ)).trans ?_
    refine mul_le_mul_of_nonneg_left (div_le_div_of_nonneg_right (by linarith) hg.le) (Nat.cast_nonneg _)
  · have hr2 : x < t' (s' + 1) := by
      rcases b4 with e | b4
      · omega
      · exact b4
    have c1 : s = s' + 1 := by
      by_contra hne
      have h1 := h.mono (s' + 1 + 1) s (by omega) (by omega)
      have h2 := h.gap (s' + 1) (by omega) (by omega)
      have := n1 (s' + 1 + 1) (by omega)
      linarith
    subst c1
    have h3 := n1 (s' + 1) (by omega)
    have g0 := h.gap s' b1 (by omega)
    have g1 := h.gap (s' + 1) a1 (by omega)
    have hd : |x - t' (s' + 1)| ≤ δ := by rw [abs_of_nonpos (by linarith)]; linarith
    have k1 := p1 (s' + 1) (t' (s' + 1)) a1 (by omega) hl hr le_rfl (by linarith) hd
    have k2 := p2 s' (t' (s' + 1)) x b1 (by omega) (by linarith) le_rfl hl' hr' (by rw [abs_sub_comm]; exact hd)
    refine join _ _ _ k1 ?_
    rw [sum_congr rfl fun J _ => by rw [← piece_knot_eq (t := t') (r := s') (m := 1) (by linarith) (by linarith) (fun j j1 j2 => by rw [show j = s' + 1 by omega]) p J hp]]
    exact k2

theorem KnotsNear.cross {t t' : ℕ → F} {o n : ℕ} {δ g : F} (h : KnotsNear t t' o n δ g) {x : F} (hx : t o ≤ x ∧ x ≤ t n) (hx' : t' o ≤ x ∧ x ≤ t' n)
    {s s' : ℕ} (hs : IsSeg t o (n - 1) x s) (hs' : IsSeg t' o (n - 1) x s') :
    ∑ J ∈ range n, |piece t s o J x - piece t' s' o J x| ≤ o * (8 * δ / g) :=
  h.crossP hx hx' hs hs' h.ho le_rfl

end Intp
