import Verif.Proofs.PerWrap
import Verif.Proofs.Rotate
import Verif.Proofs.Cardinal
import Verif.Proofs.LowOrder
import Verif.Proofs.NearAxis

/-!
# A periodic uniform dimension in `double`, compared with the exact one at any coordinate
-/

namespace Intp

open Finset BSpline

theorem piece_translate {F : Type} [Field F] (t : ℕ → F) (e : F) (s : ℕ) (x : F) : ∀ k i, piece (fun i => t i + e) s k i (x + e) = piece t s k i x
  | 0, i => by unfold piece; rfl
  | k + 1, i => by
    unfold piece
    rw [piece_translate t e s x k i, piece_translate t e s x k (i + 1)]
    simp only [add_sub_add_right_eq_sub]

/-- The representative of `y` strictly inside the range, or `y` itself. -/
theorem wrapFn_unique {K : Type} [Field K] [LinearOrder K] [IsStrictOrderedRing K] [FloorRing K] {r : K × K} (hlt : r.1 < r.2) {y w : K} {k : ℤ}
    (hk : w = y + k * (r.2 - r.1)) (h : r.1 < w ∧ w < r.2 ∨ w = y ∧ r.1 ≤ w ∧ w < r.2) : wrapFn r y = w := by
  have h1 := wrapFn_mem hlt y
  obtain ⟨j, hj⟩ := wrapFn_shift r y
  have hP : 0 < r.2 - r.1 := by linarith
  have hd : |wrapFn r y - w| < r.2 - r.1 := by
    rcases h with ⟨h2, h3⟩ | ⟨h2, h3, h4⟩
    · rw [abs_lt]
      split at h1 <;> constructor <;> linarith [h1.1, h1.2]
    · rw [if_neg (not_lt.2 (h2 ▸ h3))] at h1
      rw [abs_lt]
      constructor <;> linarith [h1.1, h1.2]
  have he : wrapFn r y - w = ((j - k : ℤ) : K) * (r.2 - r.1) := by rw [hj, hk]; push_cast; ring
  rw [he, abs_mul, abs_of_pos hP] at hd
  have hz : |((j - k : ℤ) : K)| < 1 := by
    by_contra hc
    nlinarith [not_lt.1 hc]
  have : j - k = 0 := by
    rw [← Int.cast_abs] at hz
    have : |j - k| < 1 := by exact_mod_cast hz
    exact Int.abs_lt_one_iff.1 this
  rw [this, Int.cast_zero, zero_mul, sub_eq_zero] at he
  exact he

/-- Exact weights of a periodic dimension. -/
theorem XRange.Valid.wt_per {x : XRange ℚ} {o N : ℕ} (h : x.Valid o N true) {y w : ℚ} {k : ℤ}
    (hk : w = y + k * (x.kt o N true (unk true N + o) - x.kt o N true o))
    (hw : x.kt o N true o < w ∧ w < x.kt o N true (unk true N + o) ∨ w = y ∧ x.kt o N true o ≤ w ∧ w < x.kt o N true (unk true N + o)) :
    ∃ s, IsSeg (x.kt o N true) o (unk true N + o - 1) w s ∧
      (∀ J, x.wt o N true 0 y J = cyc (unk true N) (s + 1) (fun i => piece (x.kt o N true) s o i w) J) ∧
      ∀ m J, x.wt o N true m y J = cyc (unk true N) (s + 1) (fun i => (Polynomial.derivative^[m] (pieceP (x.kt o N true) s o i)).eval w) J := by
  have ax := h.pAxis
  have hlen := ax.len
  have hbig := ax.big
  have hidx : (x.knots o (unk true N) true).length - o - (2 - o % 2) = unk true N + o := by omega
  have hlt : x.kt o N true o < x.kt o N true (unk true N + o) := by
    rcases hw with h | h
    · exact h.1.trans h.2
    · exact h.2.1.trans_lt h.2.2
  have e := wrapFn_unique (r := (x.kt o N true o, x.kt o N true (unk true N + o))) hlt hk hw
  have hs := segAt_spec h.kmono h.knots_length_le w
  have hwhi : w < x.kt o N true (unk true N + o) := by
    rcases hw with h | h
    · exact h.2
    · exact h.2.2
  have key : ∀ m J, x.wt o N true m y J = cyc (unk true N) (segAt o (x.knots o (unk true N) true) w + 1)
      (fun i => (Polynomial.derivative^[m] (pieceP (x.kt o N true) (segAt o (x.knots o (unk true N) true) w) o i)).eval w) J := fun m J => by
    rw [XRange.wt_eq]
    unfold axisWt
    simp only [if_true, hidx]
    rw [show wrapFn (knotFn (x.knots o (unk true N) true) o, knotFn (x.knots o (unk true N) true) (unk true N + o)) y = w from e, sum_filter]
    rfl
  refine ⟨segAt o (x.knots o (unk true N) true) w, ?_, fun J => ?_, key⟩
  · obtain ⟨a1, a2, a3, a4⟩ := hs
    have hle : segAt o (x.knots o (unk true N) true) w ≤ unk true N + o - 1 := by
      by_contra hc
      rcases a3 with e3 | a3
      · omega
      · have := h.kmono (unk true N + o) _ (by omega) (show unk true N + o ≤ segAt o (x.knots o (unk true N) true) w by omega) (by omega)
        exact absurd hwhi (not_lt.2 (this.trans a3))
    refine ⟨a1, hle, a3, ?_⟩
    rcases a4 with e4 | a4
    · left; omega
    · exact .inr a4
  · rw [key]
    simp only [Function.iterate_zero, id, pieceP_eval]

/-- Exact weights of a non-periodic dimension. -/
theorem XRange.Valid.wt_aper {x : XRange ℚ} {o N : ℕ} (h : x.Valid o N false) (y : ℚ) :
    ∃ s, IsSeg (x.kx o N) o (N - 1) y s ∧ (∀ J, x.wt o N false 0 y J = piece (x.kx o N) s o J y) ∧
      ∀ m J, x.wt o N false m y J = (Polynomial.derivative^[m] (pieceP (x.kx o N) s o J)).eval y := by
  have hlen := h.aAxis.len
  rw [show unk false N = N from rfl] at hlen
  have hs := segAt_spec h.kmono h.knots_length_le y
  rw [show unk false N = N from rfl, hlen, show N + o + 1 - o - 2 = N - 1 by omega] at hs
  have key : ∀ m J, x.wt o N false m y J = (Polynomial.derivative^[m] (pieceP (x.kx o N) (segAt o (x.knots o (unk false N) false) y) o J)).eval y := fun m J => by
    rw [XRange.wt_eq]
    unfold axisWt
    simp only [Bool.false_eq_true, if_false]
    rw [show unk false N = N from rfl, sum_filter, sum_ite_eq']
    split
    · rfl
    · rename_i hc
      rw [Finset.mem_range] at hc
      rw [pieceP_zero_of_lt _ _ _ _ (by omega)]
      simp
  refine ⟨_, hs, fun J => ?_, key⟩
  rw [key]
  simp only [Function.iterate_zero, id, pieceP_eval]
  rfl

/-- Knots of a periodic uniform dimension. -/
theorem uniform_per {o N : ℕ} {a b H : ℚ} (hN : 2 * (o / 2) + 2 ≤ N) (hH : 0 < H) (hstep : H * (N - 1) = b - a) :
    (XRange.uniform a b).Valid o N true ∧ (∀ u, u < N + (2 * o + (1 - o % 2)) → (XRange.uniform a b).kt o N true u = perKnot o a H u) ∧
      (∀ i, (XRange.uniform a b).node N i = a + i * H) ∧
      ∀ r J, r < N - 1 → (XRange.uniform a b).mat o N true r J = perRow o (N - 1) a H (nodeOfRow o true (N - 1) r) J := by
  have hn1 : (0 : ℚ) < N - 1 := by
    have : (2 : ℚ) ≤ N := by exact_mod_cast (by omega : 2 ≤ N)
    linarith
  have hab : a < b := by
    have := mul_pos hH hn1
    linarith
  have hdx : (b - a) / ((N : ℚ) - 1) = H := by rw [div_eq_iff hn1.ne']; exact hstep.symm
  have h : (XRange.uniform a b).Valid o N true := ⟨fun _ => hN, by simp, fun a' b' e => by cases e; exact hab, fun l e => by cases e⟩
  have hu : unk true N = N - 1 := rfl
  have hk : ∀ u, u < N + (2 * o + (1 - o % 2)) → (XRange.uniform a b).kt o N true u = perKnot o a H u := fun u hu' => by
    have e : ((unk true N : ℕ) : ℚ) = (N : ℚ) - 1 := by rw [hu, Nat.cast_sub (by omega)]; simp
    show knotFn (arr _ _) u = _
    rw [knotFn_arr _ (by omega), e, hdx]
    unfold uniformKnot perKnot perCoef
    push_cast; ring
  have hnode : ∀ i, (XRange.uniform a b).node N i = a + i * H := fun i => by
    show a + (i : ℚ) * ((b - a) / ((N : ℚ) - 1)) = _
    rw [hdx]
  refine ⟨h, hk, hnode, fun r J hr => ?_⟩
  have ax := h.pAxis
  have hlen := ax.len
  set i := nodeOfRow o true (N - 1) r with hi
  have hi' : i < N - 1 := Nat.mod_lt _ (by omega)
  have hseg : segAt o ((XRange.uniform a b).knots o (N - 1) true) ((XRange.uniform a b).node N i) = i + o := by
    have := ax.node i hi'
    exact h.kmono.segAt h.knots_length_le ⟨by omega, by omega, .inr this.1, .inr this.2⟩
  unfold XRange.mat
  simp only [hu]
  rw [← hi, hseg, hnode]
  unfold colRow perRow
  rw [cyc_shift (fun m hm => by
    by_contra hc
    have := piece_support hc
    omega)]
  refine sum_congr rfl fun c hc => ?_
  rw [show i + o - o + c = i + c by omega]
  split
  · have hc' := mem_range.1 hc
    exact piece_congr_le (B := i + 2 * o + 1) (fun u hu' => hk u (by omega)) _ o _ (by omega) (.inl (by omega))
  · rfl

/-- Coordinates of a periodic dimension of order `o` with ends `a`, `b` and step `H`: doubles that are at most `K` periods away from the base period, and not within
`64 (K + 1) B / 2^53` of the boundary of a period.  The base period starts half a step before `a` if the order is even.  In odd orders its left end belongs to it. -/
def PerPt (o K : ℕ) (a b B H y : ℚ) : Prop :=
  IsDouble y ∧ ∃ k : ℤ, |k| ≤ K ∧
    (k = 0 ∧ o % 2 = 1 ∧ a ≤ y ∨ a - ((1 - o % 2 : ℕ) : ℚ) / 2 * H + 64 * ((K + 1) * B / 2 ^ 53) ≤ y - k * (b - a)) ∧
    y - k * (b - a) + 64 * ((K + 1) * B / 2 ^ 53) ≤ b - ((1 - o % 2 : ℕ) : ℚ) / 2 * H

section
variable {D : ℕ} {f : InterpFn D F64 F64} {d : Fin D} {o n : ℕ} {a b B H dx : ℚ} {T : List ℚ}

theorem PerRat.knot_double (h : PerRat f d o n a b B H dx T) {u : ℕ} (hu : u < n + (2 * o + (1 - o % 2))) : IsDouble (knotFn T u) := by
  have hlen := h.len
  have : knotFn T u = T[u]'(by omega) := by
    unfold knotFn
    rw [List.getD_eq_getElem?_getD, List.getElem?_eq_getElem (by omega)]; rfl
  rw [this]
  exact h.dbl _ (List.getElem_mem _)

/-- Exact ends of the base period. -/
theorem PerRat.ends (h : PerRat f d o n a b B H dx T) : perKnot o a H o = a - ((1 - o % 2 : ℕ) : ℚ) / 2 * H ∧
    perKnot o a H (n - 1 + o) = b - ((1 - o % 2 : ℕ) : ℚ) / 2 * H := by
  have p1 := perKnot_node o a H 0
  have p2 := perKnot_node o a H (n - 1)
  have hn := h.hn
  have hcast : ((n - 1 : ℕ) : ℚ) = n - 1 := by push_cast [Nat.cast_sub (show 1 ≤ n by omega)]; ring
  have := h.uin.step
  rw [Nat.zero_add] at p1
  rw [p1, p2, hcast]
  push_cast
  constructor <;> linarith

theorem PerRat.wrapK (h : PerRat f d o n a b B H dx T) {K : ℕ} (hKs : 6 * ((K + 1) * B) ≤ 2 ^ 1000) {y : ℚ} (hy : PerPt o K a b B H y) :
    ∃ (k : ℤ) (u : ℚ), |k| ≤ K ∧ (k = 0 ∧ perKnot o a H o ≤ y ∨ perKnot o a H o < y - k * (b - a)) ∧ y - k * (b - a) < perKnot o a H (n - 1 + o) ∧
      Fl.wrapCoord (.fin (knotFn T o), .fin (knotFn T (n - 1 + o))) (F64.fin y) = .ok (.fin u) ∧ IsDouble u ∧
      knotFn T o ≤ u ∧ u < knotFn T (n - 1 + o) ∧ |u - (y - k * (b - a))| + 24 * B / 2 ^ 53 ≤ 64 * ((K + 1) * B / 2 ^ 53) := by
  obtain ⟨hyd, k, hkK, hy1, hy2⟩ := hy
  obtain ⟨p1, p2⟩ := h.ends
  have hn := h.hn
  have hH := h.uin.pos
  have hHB : H ≤ 2 * B := by
    have h4 := h.uin.n1
    have h5 := h.uin.step
    have := (abs_le.1 h.uin.ha).1
    have := (abs_le.1 h.uin.hb).2
    nlinarith
  have hB0 : 0 < B := by linarith
  have n1 := abs_le.1 (h.near o (by omega))
  have n2 := abs_le.1 (h.near (n - 1 + o) (by omega))
  rw [p1] at n1 ⊢
  rw [p2] at n2 ⊢
  have hK0 : (0 : ℚ) ≤ K := Nat.cast_nonneg _
  have hkq : |(k : ℚ)| ≤ K := by exact_mod_cast hkK
  have hε0 : 0 < B / 2 ^ 53 := div_pos hB0 (by norm_num)
  have e0 : (K + 1) * B / 2 ^ 53 = K * (B / 2 ^ 53) + B / 2 ^ 53 := by ring
  have hη0 : 0 ≤ K * (B / 2 ^ 53) := mul_nonneg hK0 hε0.le
  have e24 : 24 * B / 2 ^ 53 = 24 * (B / 2 ^ 53) := by ring
  have hbig : Unit → 16 * ((K + 1) * B) ≤ 2 ^ 1023 := fun _ => by
    have h1 : (3 : ℚ) * 2 ^ 1000 ≤ 2 ^ 1023 := by decide +kernel
    generalize (2 : ℚ) ^ 1000 = z at *
    generalize (2 : ℚ) ^ 1023 = z' at *
    nlinarith
  have dlo := h.knot_double (u := o) (by omega)
  have dhi := h.knot_double (u := n - 1 + o) (by omega)
  have hlt := h.gap (u := o) (by omega)
  have hlt2 := h.mono (i := o + 1) (j := n - 1 + o) (by omega) (by omega)
  have hodd := h.odd
  have hA := abs_le.1 h.uin.ha
  have hBb := abs_le.1 h.uin.hb
  have hstep := h.uin.step
  have hn1 := h.uin.n1
  clear hKs
  have he : ((1 - o % 2 : ℕ) : ℚ) / 2 * H ≤ 1 / 2 * H ∧ 0 ≤ ((1 - o % 2 : ℕ) : ℚ) / 2 * H := by
    have : ((1 - o % 2 : ℕ) : ℚ) ≤ 1 := by exact_mod_cast (by omega : 1 - o % 2 ≤ 1)
    exact ⟨mul_le_mul_of_nonneg_right (by linarith) hH.le, by positivity⟩
  have heo : o % 2 = 1 → ((1 - o % 2 : ℕ) : ℚ) / 2 * H = 0 := fun e => by rw [e]; norm_num
  have hba : H ≤ b - a := by nlinarith
  rw [e24] at n1 n2 ⊢
  rw [e0] at hy1 hy2 ⊢
  set e := ((1 - o % 2 : ℕ) : ℚ) / 2 * H with hedef
  set lo := knotFn T o with hlo
  set hi := knotFn T (n - 1 + o) with hhi
  set ε := B / 2 ^ 53 with hεdef
  have hεB : 1024 * ε ≤ B := by rw [hεdef]; linarith
  set c := hi - lo - (b - a) with hc
  have hcε : |c| ≤ 48 * ε := by rw [abs_le]; constructor <;> linarith [n1.1, n1.2, n2.1, n2.2]
  have hkc : |(k : ℚ) * c| ≤ 48 * (K * ε) := by
    rw [abs_mul]
    calc |(k : ℚ)| * |c| ≤ K * (48 * ε) := mul_le_mul hkq hcε (abs_nonneg _) hK0
      _ = _ := by ring
  have hkc' := abs_le.1 hkc
  have exf : y - k * (hi - lo) = y - k * (b - a) - k * c := by rw [hc]; ring
  set x0 := y - k * (b - a) with hx0
  obtain ⟨u, u1, u2, u3, u4, u5⟩ := fl_wrap (K := K) (k := k) (x0 := y - k * (hi - lo)) dlo dhi hyd (B := B)
    (by rw [abs_le]; constructor <;> linarith [n1.1, n1.2, he.1, he.2]) (by rw [abs_le]; constructor <;> linarith [n2.1, n2.2, he.1, he.2]) (by linarith)
    (by linarith [n1.1, n1.2, n2.1, n2.2]) hkK (by ring)
    (by
      rw [e0, exf]
      rcases hy1 with ⟨h1, h2, h3⟩ | h1
      · left
        refine ⟨h1, ?_⟩
        rw [hodd h2, hx0, h1]
        push_cast
        linarith
      · right
        linarith [n1.2, hkc'.2])
    (by rw [e0, exf]; linarith [n2.1, hkc'.1]) (hbig ())
  refine ⟨k, u, hkK, ?_, by linarith, u1, u2, u3, u4, ?_⟩
  · rcases hy1 with ⟨h1, h2, h3⟩ | h1
    · left; exact ⟨h1, by linarith [heo h2]⟩
    · right; linarith
  · rw [e0, exf] at u5
    have := abs_add_le (u - (x0 - k * c)) (-(k * c))
    rw [abs_neg, show u - (x0 - k * c) + -(k * c) = u - x0 by ring] at this
    linarith

/-- The hint of a periodic uniform dimension, for any coordinate that is not too far away. -/
theorem PerRat.hintK (h : PerRat f d o n a b B H dx T) (ho : f.spline.order = o) (hp : f.periodicity d = true) (hu : f.uniform d = true)
    {x : ℚ} (hxd : IsDouble x) (hxn : |x - knotFn T o| ≤ 2 ^ 48 * H) (hx2 : |x - knotFn T o| ≤ 2 ^ 1010) : ∃ k, Fl.hint f d (.fin x) = .ok k := by
  have hn := h.hn
  have ho50 := h.ho.2
  have ho1 := h.ho.1
  have hH := h.uin.pos
  have hlen := h.len
  have h1023 : (2 : ℚ) ^ 1010 ≤ 2 ^ 1023 := by decide +kernel
  obtain ⟨r1, e1, -, e3, -⟩ := fl_sub hxd (h.knot_double (u := o) (by omega)) (hx2.trans h1023)
  clear h1023 hx2
  have hdx := abs_le.1 h.near_dx
  have hdx0 : H / 2 ≤ dx := by
    have : (9 : ℚ) / 4 / 2 ^ 53 ≤ 1 / 2 := by norm_num
    have : (9 : ℚ) / 4 / 2 ^ 53 * H ≤ 1 / 2 * H := mul_le_mul_of_nonneg_right this hH.le
    linarith
  have hr1 : |r1| ≤ 2 * (2 ^ 48 * H) := by
    have := abs_add_le (r1 - (x - knotFn T o)) (x - knotFn T o)
    rw [sub_add_cancel] at this
    have : |x - knotFn T o| / 2 ^ 53 ≤ |x - knotFn T o| := div_le_self (abs_nonneg _) (by norm_num)
    linarith
  have hq : |r1 / dx| ≤ 2 ^ 51 := by
    rw [abs_div, abs_of_pos (show 0 < dx by linarith), div_le_iff₀ (by linarith)]
    refine hr1.trans ?_
    nlinarith
  have hs : (2 : ℚ) ^ 51 ≤ 2 ^ 1023 := by decide +kernel
  obtain ⟨r, f1, f2, f3⟩ := fl_div (a := r1) (b := dx) (by linarith) (hq.trans hs)
  have hr : |r| ≤ 2 ^ 52 := by
    have := abs_add_le (r - r1 / dx) (r1 / dx)
    rw [sub_add_cancel] at this
    have h1 : |r1 / dx| / 2 ^ 53 ≤ |r1 / dx| / 8 := div_le_div_of_nonneg_left (abs_nonneg _) (by norm_num) (by norm_num)
    have h2 : (1 : ℚ) / 2 ^ 1074 ≤ 1 := by decide +kernel
    generalize (1 : ℚ) / 2 ^ 1074 = z at *
    linarith
  have hd1 : IsDouble 1 := isDouble_of_round (show F64.round 1 = .fin 1 by decide +kernel)
  have hsub : |r - 1| ≤ 2 ^ 53 := by
    have := abs_le.1 hr
    rw [abs_le]; constructor <;> linarith
  have hs3 : (2 : ℚ) ^ 53 ≤ 2 ^ 1023 := by decide +kernel
  obtain ⟨u, u1, -, u3, -⟩ := fl_sub f2 hd1 (hsub.trans hs3)
  have hu1 : |u| ≤ 2 ^ 54 := by
    have := abs_add_le (u - (r - 1)) (r - 1)
    rw [sub_add_cancel] at this
    have : |r - 1| / 2 ^ 53 ≤ |r - 1| := div_le_self (abs_nonneg _) (by norm_num)
    linarith
  obtain ⟨q, q1, q2, q3⟩ : ∃ q, Fl.maxZero (F64.fin u) = .fin q ∧ 0 ≤ q ∧ q ≤ 2 ^ 54 := by
    unfold Fl.maxZero
    split
    · rename_i hlt
      exact ⟨u, rfl, (of_decide_eq_true hlt : (0 : ℚ) < u).le, (abs_le.1 hu1).2⟩
    · exact ⟨0, rfl, le_rfl, by norm_num⟩
  unfold Fl.hint
  have hlen : (f.spline.knots d).length = n + (2 * o + (1 - o % 2)) := by rw [h.knots, List.length_map, h.len]
  rw [if_pos hu, hlen, ho, subM_ok (by omega), ok_bind, h.lo, h.step, e1, f1, ok_bind, if_pos hp]
  rw [show (1 : F64) = .fin 1 from rfl, u1, q1, double_ceil, if_pos ⟨by linarith, by linarith⟩]
  exact ⟨_, rfl⟩

/-- Weights of the control points at `u`, over the computed knots, near those at `x0`, over the exact knots: derivatives of order `m`. -/
theorem PerRat.crossD (h : PerRat f d o n a b B H dx T) {δ u x0 : ℚ} (hδ : |u - x0| + 24 * B / 2 ^ 53 ≤ δ) (hs3 : 3 * δ ≤ H)
    (hu : knotFn T o ≤ u ∧ u < knotFn T (n - 1 + o)) (hx : perKnot o a H o ≤ x0 ∧ x0 < perKnot o a H (n - 1 + o))
    {t' : ℕ → ℚ} (ht' : ∀ i, i < n + (2 * o + (1 - o % 2)) → t' i = perKnot o a H i)
    {s s' : ℕ} (hs : IsSeg (knotFn T) o (T.length - o - 2) u s) (hs' : IsSeg t' o (n - 1 + o - 1) x0 s') :
    s < n - 1 + o ∧ ∀ (Γ : ℚ) (m : ℕ), 0 < Γ → (m = 0 ∨ 6 * o / Γ ≤ H) → m < o →
      ∑ J ∈ range (n - 1), |cyc (n - 1) (s + 1) (fun i => (Polynomial.derivative^[m] (pieceP (knotFn T) s o i)).eval u) J -
        cyc (n - 1) (s' + 1) (fun i => (Polynomial.derivative^[m] (pieceP t' s' o i)).eval x0) J| ≤ Γ ^ m * (o * (8 * δ / H)) := by
  have hn := h.hn
  have ho1 := h.ho.1
  have hlen := h.len
  have hH := h.uin.pos
  have hsle : s < n - 1 + o := by
    by_contra hc
    obtain ⟨a1, a2, a3, a4⟩ := hs
    rcases a3 with e3 | a3
    · omega
    · have := h.mono (i := n - 1 + o) (j := s) (by omega) (by omega)
      linarith [hu.2]
  have hs'le : s' < n - 1 + o := by have := hs'.2.1; omega
  have hKN : KnotsNear (fun i => knotFn T i + (x0 - u)) (perKnot o a H) o (n - 1 + o) δ H := by
    refine ⟨ho1, by omega, fun i j hij hj => add_le_add_left (h.mono hij (by omega)) _, fun i j hij _ => perKnot_mono hH.le hij, fun i hi => ?_, fun i _ _ => ?_, hH, hs3⟩
    · have h1 := h.near i (by omega)
      have := abs_add_le (knotFn T i - perKnot o a H i) (x0 - u)
      rw [show knotFn T i - perKnot o a H i + (x0 - u) = knotFn T i + (x0 - u) - perKnot o a H i by ring, abs_sub_comm x0 u] at this
      linarith
    · rw [perKnot_step]; push_cast; linarith
  have hsegT : IsSeg (fun i => knotFn T i + (x0 - u)) o (n - 1 + o - 1) x0 s := by
    obtain ⟨a1, a2, a3, a4⟩ := hs
    refine ⟨a1, by omega, ?_, ?_⟩
    · rcases a3 with e | a3
      · exact .inl e
      · right; show knotFn T s + (x0 - u) ≤ x0; linarith
    · rcases a4 with e | a4
      · left; omega
      · right; show x0 < knotFn T (s + 1) + (x0 - u); linarith
  have hsegE : IsSeg (perKnot o a H) o (n - 1 + o - 1) x0 s' := by
    obtain ⟨a1, a2, a3, a4⟩ := hs'
    refine ⟨a1, a2, ?_, ?_⟩
    · rw [← ht' s' (by omega)]; exact a3
    · rw [← ht' (s' + 1) (by omega)]; exact a4
  refine ⟨hsle, fun Γ m hΓ hG hm => ?_⟩
  have hin : knotFn T o + (x0 - u) ≤ x0 ∧ x0 ≤ knotFn T (n - 1 + o) + (x0 - u) := ⟨by linarith [hu.1], by linarith [hu.2]⟩
  have key : ∑ J ∈ range (n - 1 + o), |(Polynomial.derivative^[m] (pieceP (fun i => knotFn T i + (x0 - u)) s o J)).eval x0 -
      (Polynomial.derivative^[m] (pieceP (perKnot o a H) s' o J)).eval x0| ≤ Γ ^ m * (o * (8 * δ / H)) := by
    rcases hG with rfl | hG
    · simp only [Function.iterate_zero, id, pieceP_eval, pow_zero, one_mul]
      exact hKN.cross hin ⟨hx.1, hx.2.le⟩ hsegT hsegE
    · exact hKN.crossD hΓ (fun i _ _ => by
        refine hG.trans (le_of_eq ?_)
        rw [perKnot_step]; push_cast; ring) hin ⟨hx.1, hx.2.le⟩ hsegT hsegE m o hm le_rfl
  have e1 : ∀ J, (Polynomial.derivative^[m] (pieceP (fun i => knotFn T i + (x0 - u)) s o J)).eval x0 = (Polynomial.derivative^[m] (pieceP (knotFn T) s o J)).eval u := fun J => by
    have := pieceP_translate_eval (t := knotFn T) (u := fun i => knotFn T i + (x0 - u)) (P := x0 - u) (a := 0) (s := s) (p := o) (fun i _ _ => rfl) J m u
    rwa [add_sub_cancel] at this
  have e2 : ∀ J, (Polynomial.derivative^[m] (pieceP (perKnot o a H) s' o J)).eval x0 = (Polynomial.derivative^[m] (pieceP t' s' o J)).eval x0 := fun J => by
    have := pieceP_translate_eval (t := perKnot o a H) (u := t') (P := 0) (a := 0) (s := s') (p := o) (fun i _ hi => by rw [add_zero, add_zero]; exact ht' i (by omega)) J m x0
    rw [add_zero] at this
    exact this.symm
  simp only [e1, e2] at key
  have x1 : ∀ (t : ℕ → ℚ) (σ : ℕ) (x : ℚ) J, σ < n - 1 + o → cyc (n - 1) (σ + 1) (fun i => (Polynomial.derivative^[m] (pieceP t σ o i)).eval x) J =
      cyc (n - 1) (n - 1 + o) (fun i => (Polynomial.derivative^[m] (pieceP t σ o i)).eval x) J :=
    fun t σ x J hσ => (cyc_ext (by omega) (fun j hj => by rw [pieceP_zero_of_lt _ _ _ _ (by omega)]; simp) J).symm
  rw [sum_congr rfl fun J _ => by rw [x1 _ s _ J hsle, x1 _ s' _ J hs'le]]
  exact (cyc_near _ _ _ _).trans key

theorem PerRat.cross (h : PerRat f d o n a b B H dx T) {δ u x0 : ℚ} (hδ : |u - x0| + 24 * B / 2 ^ 53 ≤ δ) (hs3 : 3 * δ ≤ H)
    (hu : knotFn T o ≤ u ∧ u < knotFn T (n - 1 + o)) (hx : perKnot o a H o ≤ x0 ∧ x0 < perKnot o a H (n - 1 + o))
    {t' : ℕ → ℚ} (ht' : ∀ i, i < n + (2 * o + (1 - o % 2)) → t' i = perKnot o a H i)
    {s s' : ℕ} (hs : IsSeg (knotFn T) o (T.length - o - 2) u s) (hs' : IsSeg t' o (n - 1 + o - 1) x0 s') :
    s < n - 1 + o ∧ ∑ J ∈ range (n - 1), |cyc (n - 1) (s + 1) (fun i => piece (knotFn T) s o i u) J - cyc (n - 1) (s' + 1) (fun i => piece t' s' o i x0) J| ≤
      o * (8 * δ / H) := by
  obtain ⟨h1, h2⟩ := h.crossD hδ hs3 hu hx ht' hs hs'
  have := h2 1 0 one_pos (.inl rfl) h.ho.1
  simp only [Function.iterate_zero, id, pieceP_eval, pow_zero, one_mul] at this
  exact ⟨h1, this⟩

end

/-- Inputs of one dimension with `m` entries of the data, and coordinates `Q`: an axis of `RatioAxis` with any double between its ends, or the ends of a periodic
uniform dimension with any coordinate of `PerPt`, at most `K` periods away.  `ρ` bounds the quotient of the size of the coordinates and their distance. -/
inductive NearDim (c : Cfg) (o m K : ℕ) : Bool → XRange F64 → (ℚ → Prop) → ℚ → Prop
  | aper {x : XRange F64} {ρ : ℚ} : o + 1 ≤ m → RatioAxis m x ρ →
      NearDim c o m K false x (fun y => IsDouble y ∧ x.rat.node m 0 ≤ y ∧ y ≤ x.rat.node m (m - 1)) ρ
  | per {a b B H ρ : ℚ} : 2 * (o / 2) + 2 ≤ pointNum c true m → UniformIn (pointNum c true m) a b B H → 512 * ((K + 1) * B / 2 ^ 53) ≤ H →
      6 * ((K + 1) * B) ≤ 2 ^ 1000 → B ≤ ρ * H → NearDim c o m K true (.uniform (.fin a) (.fin b)) (PerPt o K a b B H) ρ

theorem per_small {K : ℕ} {B H : ℚ} (hB : 0 ≤ B) (h3 : 512 * ((K + 1) * B / 2 ^ 53) ≤ H) (h4 : 6 * ((K + 1) * B) ≤ 2 ^ 1000) :
    512 * B / 2 ^ 53 ≤ H ∧ 6 * B ≤ 2 ^ 1000 := by
  have h1 : B ≤ (K + 1) * B := le_mul_of_one_le_left hB (by have : (0 : ℚ) ≤ K := Nat.cast_nonneg _; linarith)
  refine ⟨le_trans ?_ h3, le_trans (mul_le_mul_of_nonneg_left h1 (by norm_num)) h4⟩
  rw [mul_div_assoc]
  exact mul_le_mul_of_nonneg_left (div_le_div_of_nonneg_right h1 (by norm_num)) (by norm_num)

theorem NearDim.nonneg {c : Cfg} {o m K : ℕ} {per : Bool} {x : XRange F64} {Q : ℚ → Prop} {ρ : ℚ} (h : NearDim c o m K per x Q ρ) : 0 ≤ ρ := by
  cases h with
  | aper h1 h2 => exact h2.nonneg (by omega)
  | per h1 h2 h3 h4 h5 =>
    have := h2.B0
    have := h2.pos
    clear h4
    by_contra hc
    nlinarith

theorem NearDim.good {c : Cfg} {o m K : ℕ} {per : Bool} {x : XRange F64} {Q : ℚ → Prop} {ρ : ℚ} (h : NearDim c o m K per x Q ρ) :
    ∃ P r, GoodDim c o m per x P r ∧ r ≤ ρ := by
  have h0 := h.nonneg
  cases h with
  | aper h1 h2 =>
    obtain ⟨P, r, h3, h4⟩ := h2.good h0
    exact ⟨P, r, .aper h1 h3, h4⟩
  | per h1 h2 h3 h4 h5 =>
    obtain ⟨h6, h7⟩ := per_small h2.B0 h3 h4
    exact ⟨_, _, .per h1 h2 h6 h7 h5, le_rfl⟩

/-- The exact dimension is one the library handles, and the points are in its domain. -/
theorem NearDim.valid {c : Cfg} {o m K : ℕ} {per : Bool} {x : XRange F64} {Q : ℚ → Prop} {ρ : ℚ} (h : NearDim c o m K per x Q ρ) (ho : 1 ≤ o) :
    x.rat.Valid o (pointNum c per m) per ∧ ∀ y, Q y → IsDouble y ∧ (per = false → x.rat.node (pointNum c per m) 0 ≤ y ∧ y ≤ x.rat.node (pointNum c per m) (pointNum c per m - 1)) := by
  cases h with
  | aper h1 h2 =>
    have hp : pointNum c false m = m := by simp [pointNum]
    rw [hp]
    refine ⟨?_, fun y hy => ⟨hy.1, fun _ => hy.2⟩⟩
    cases h2 with
    | uniform h3 _ => exact (uniform_exact ho h1 h3.pos h3.step).1
    | @coords l X B h ρ hc _ hs _ _ =>
      have hpos := hs.pos
      refine ⟨by simp, fun _ => by omega, (fun a b e => by cases e), fun l' e => ?_⟩
      have hnode : ∀ i, i < m → (l.map F64.toRat).getD i 0 = X i := fun i hi => by
        rw [List.getD_eq_getElem?_getD, List.getElem?_map, hc.get i hi]
        rfl
      cases e
      refine ⟨by rw [List.length_map, hc.len], fun i hi => ?_, fun _ => ho⟩
      have := hs.step i (by omega)
      rw [hnode i (by omega), hnode (i + 1) (by omega)]
      linarith
  | per h1 h2 h3 h4 h5 => exact ⟨(uniform_per h1 h2.pos h2.step).1, fun y hy => ⟨hy.1, fun e => by cases e⟩⟩

/-- One dimension in `double` (knots `T`, solver `sol`), compared with the exact dimension `x` of `N` points. -/
structure DimNear {D : ℕ} (c : Cfg) (f : InterpFn D F64 F64) (d : Fin D) (o N : ℕ) (per : Bool) (sol : Solver F64) (x : XRange ℚ) (Q : ℚ → Prop) (ε θ : ℚ)
    (T : List ℚ) : Prop where
  valid : x.Valid o N per
  uni : per = true → ∃ a b, x = .uniform a b
  solves : AxisSolves c sol (unk per N) (x.mat o N per) ε
  pt : ∀ y, Q y → x.InDom N per y ∧ ∃ (u : ℚ) (s : ℕ),
    (if per then Fl.wrapCoord (f.spline.range d) (.fin y) = .ok (.fin u) else y = u) ∧ IsDouble u ∧
    knotFn T o ≤ u ∧ u ≤ knotFn T (T.length - o - 2 + 1) ∧ (per = true → (f.spline.range d).1.toRat ≤ u ∧ u < (f.spline.range d).2.toRat) ∧
    (∃ h, Fl.hint f d (.fin y) = .ok h) ∧ IsSeg (knotFn T) o (T.length - o - 2) u s ∧
    ∃ U : ℕ → ℚ, (∀ J, U J = if per then cyc (unk per N) (s + 1) (fun j => piece (knotFn T) s o j u) J else piece (knotFn T) s o J u) ∧
      (∀ J, 0 ≤ U J) ∧ ∑ J ∈ range (unk per N), U J = 1 ∧ ∑ J ∈ range (unk per N), |U J - x.wt o N per 0 y J| ≤ θ ∧
      ∀ (Γ : ℚ) (m : ℕ), 1 ≤ Γ → x.MinGap N (6 * o / Γ) → m < o →
        ∑ J ∈ range (unk per N), |(if per then cyc (unk per N) (s + 1) (fun j => (Polynomial.derivative^[m] (pieceP (knotFn T) s o j)).eval u) J
          else (Polynomial.derivative^[m] (pieceP (knotFn T) s o J)).eval u) - x.wt o N per m y J| ≤ Γ ^ m * θ
  steep : ∀ Γ : ℚ, 1 ≤ Γ → x.MinGap N (6 * o / Γ) → ∀ i k, 1 ≤ i → 1 ≤ k → k ≤ o → i + k + 1 < T.length → knotFn T i < knotFn T (i + k) →
    2 * (k : ℚ) ≤ Γ * (knotFn T (i + k) - knotFn T i)

section
variable {D : ℕ} {w : Bool} {c : Cfg} {o K : ℕ} {per : Fin D → Bool} {dims : Fin D → ℕ} {x : Fin D → XRange F64} {Q : Fin D → ℚ → Prop} {ρ : Fin D → ℚ}

theorem PerRat.dimNear {f : InterpFn D F64 F64} {d : Fin D} {n : ℕ} {a b B H dx : ℚ} {T : List ℚ} {sol : Solver F64} (h : PerRat f d o n a b B H dx T)
    (ho : f.spline.order = o) (hp : f.spline.periodicity d = true) (hu : f.uniform d = true) {r : ℚ}
    (hr : B ≤ r * H) {l vals : List F64} (hv : Fl.precalc f d = .ok vals) (hsol : (Fl.assemble w c f l d (n - 1) vals >>= Fl.ofMat c) = .ok sol)
    {G : ℚ} (hG : FactorsExt c sol (n - 1) (o / 2) G) (h3 : 512 * ((K + 1) * B / 2 ^ 53) ≤ H) (h4 : 6 * ((K + 1) * B) ≤ 2 ^ 1000) :
    DimNear c f d o n true sol (.uniform a b) (PerPt o K a b B H) ((((n - 1 : ℕ) : ℚ) * (4 * G + 1) + (7 * o + 128 * (o * r))) / 2 ^ 53)
      (512 * ((K + 1) * (o * r)) / 2 ^ 53) T := by
  have hn := h.hn
  have ho1 := h.ho.1
  have hlen := h.len
  have hH := h.uin.pos
  have hB0 := h.uin.B0
  obtain ⟨v1, v2, v3, v4⟩ := uniform_per (o := o) hn hH h.uin.step
  obtain ⟨A, hA0, hA1, hA2⟩ := h.rows ho hp hu hr hv
  have hrows := rowsExt_of hA0 (hA1 w c l) hsol hA2
  have hrange : f.spline.range d = (.fin (knotFn T o), .fin (knotFn T (n - 1 + o))) := Prod.ext h.lo h.hi
  have hunk : unk true n = n - 1 := rfl
  have hN : 0 < n - 1 := by omega
  refine ⟨v1, fun _ => ⟨a, b, rfl⟩, ?_, fun y hy => ⟨(fun e => by cases e), ?_⟩, fun Γ hΓ1 hΓ2 i k i1 k1 k2 hik _ => ?_⟩
  · have hr2 : RowsExt sol (o / 2) (n - 1) ((XRange.uniform a b).mat o n true) (7 * o + 128 * (o * r)) := by
      refine rowsExt_of hA0 (hA1 w c l) hsol fun i hi => ?_
      have := hA2 i hi
      rw [sum_congr rfl fun J _ => by rw [v4 i J hi]]
      exact this.trans (le_of_eq (by ring))
    exact hr2.solves (by omega) hN (by have := h.uin.big; omega) hG
  · obtain ⟨k, u, hk, hx1, hx2, u1, u2, u3, u4, u5⟩ := h.wrapK h4 hy
    set x0 := y - k * (b - a) with hx0
    have hlo : perKnot o a H o ≤ x0 := by
      rcases hx1 with ⟨e, h1⟩ | h1
      · rw [hx0, e, Int.cast_zero, zero_mul, sub_zero]; exact h1
      · exact h1.le
    obtain ⟨p1, p2⟩ := h.ends
    have e1 : (XRange.uniform a b).kt o n true o = perKnot o a H o := v2 o (by omega)
    have e2 : (XRange.uniform a b).kt o n true (unk true n + o) = perKnot o a H (n - 1 + o) := v2 _ (by rw [hunk]; omega)
    obtain ⟨s', hs', hw', hwD⟩ := v1.wt_per (y := y) (w := x0) (k := -k)
      (by rw [e1, e2, p1, p2, hx0]; push_cast; ring)
      (by
        rw [e1, e2]
        rcases hx1 with ⟨e, h1⟩ | h1
        · right
          exact ⟨by rw [hx0, e, Int.cast_zero, zero_mul, sub_zero], hlo, hx2⟩
        · left; exact ⟨h1, hx2⟩)
    obtain ⟨s, hs⟩ := exists_seg (T := knotFn T) (o := o) (last := T.length - o - 2) (by omega) u
    have h3' : 3 * (64 * ((K + 1) * B / 2 ^ 53)) ≤ H := by
      have : 0 ≤ (K + 1) * B / 2 ^ 53 := div_nonneg (mul_nonneg (by have : (0 : ℚ) ≤ K := Nat.cast_nonneg _; linarith) hB0) (by norm_num)
      clear h4
      linarith
    obtain ⟨hsle, hcr⟩ := h.cross (u := u) (x0 := x0) u5 h3' ⟨u3, u4⟩ ⟨hlo, hx2⟩ v2 hs hs'
    have hcD := (h.crossD (u := u) (x0 := x0) u5 h3' ⟨u3, u4⟩ ⟨hlo, hx2⟩ v2 hs hs').2
    have hθ : (o : ℚ) * (8 * (64 * ((K + 1) * B / 2 ^ 53)) / H) ≤ 512 * ((K + 1) * (o * r)) / 2 ^ 53 := by
      have h5 : 8 * (64 * ((K + 1) * B / 2 ^ 53)) / H ≤ 512 * ((K + 1) * r) / 2 ^ 53 := by
        rw [div_le_iff₀ hH]
        have h6 : (K + 1) * B ≤ (K + 1) * (r * H) := mul_le_mul_of_nonneg_left hr (by have : (0 : ℚ) ≤ K := Nat.cast_nonneg _; linarith)
        have e1 : 8 * (64 * ((K + 1) * B / 2 ^ 53)) = ((K + 1) * B) * (512 / 2 ^ 53) := by ring
        have e2 : 512 * ((K + 1) * r) / 2 ^ 53 * H = ((K + 1) * (r * H)) * (512 / 2 ^ 53) := by ring
        rw [e1, e2]
        exact mul_le_mul_of_nonneg_right h6 (by norm_num)
      calc (o : ℚ) * _ ≤ o * (512 * ((K + 1) * r) / 2 ^ 53) := mul_le_mul_of_nonneg_left h5 (Nat.cast_nonneg _)
        _ = _ := by ring
    have hgap := h.gap (u := s) (by omega)
    have hgap' := hs.1
    have t1 : knotFn T s ≤ u := by
      rcases hs.2.2.1 with e | h5
      · rw [e]; exact u3
      · exact h5
    have t2 : u ≤ knotFn T (s + 1) := by
      rcases hs.2.2.2 with e | h5
      · exact u4.le.trans (h.mono (by omega) (by omega))
      · exact h5.le
    refine ⟨u, s, ?_, u2, u3, ?_, ?_, ?_, hs, fun J => cyc (n - 1) (s + 1) (fun j => piece (knotFn T) s o j u) J, fun J => ?_, fun J => ?_, ?_, ?_, fun Γ m hΓ1 hΓ2 hm => ?_⟩
    · rw [if_pos rfl, hrange]; exact u1
    · exact u4.le.trans (h.mono (by omega) (by omega))
    · intro _
      rw [hrange]
      exact ⟨u3, u4⟩
    · have hkK : |(k : ℚ)| ≤ K := by exact_mod_cast hk
      have hK0 : (0 : ℚ) ≤ K := Nat.cast_nonneg _
      have hA := abs_le.1 h.uin.ha
      have hBb := abs_le.1 h.uin.hb
      have hHB : H ≤ 2 * B := by
        have h4 := h.uin.n1
        have h5 := h.uin.step
        nlinarith
      have hn1 := abs_le.1 (h.near o (by omega))
      have hyk : |y - knotFn T o| ≤ 4 * ((K + 1) * B) := by
        have e : y - knotFn T o = (x0 - knotFn T o) + k * (b - a) := by rw [hx0]; ring
        have hk2 : |(k : ℚ) * (b - a)| ≤ K * (2 * B) := by
          rw [abs_mul]
          exact mul_le_mul hkK (by rw [abs_le]; constructor <;> linarith) (abs_nonneg _) hK0
        have he : 0 ≤ K * B := mul_nonneg hK0 hB0
        have hx3 : |x0 - knotFn T o| ≤ 3 * B := by
          rw [p1] at hn1 hlo
          rw [p2] at hx2
          have h24 : 24 * B / 2 ^ 53 ≤ B := by clear h4; rw [div_le_iff₀ (by norm_num)]; linarith
          clear h4
          rw [abs_le]; constructor <;> linarith
        rw [e]
        refine (abs_add_le _ _).trans ?_
        clear h4
        linarith
      refine h.hintK ho hp hu hy.1 (hyk.trans ?_) (hyk.trans ?_)
      · clear h4
        have e : 512 * ((K + 1) * B / 2 ^ 53) = (K + 1) * B / 2 ^ 44 := by ring
        rw [e, div_le_iff₀ (by norm_num)] at h3
        linarith
      · have h1 : (2 : ℚ) ^ 1000 ≤ 2 ^ 1010 := by decide +kernel
        have h5 : 0 ≤ (K + 1) * B := mul_nonneg (by linarith) hB0
        generalize (2 : ℚ) ^ 1000 = z at *
        generalize (2 : ℚ) ^ 1010 = z' at *
        linarith
    · rw [if_pos rfl, hunk]
    · exact cyc_nonneg (fun m => piece_nonneg (p := o) (fun j _ c => (h.mono c (by omega)).trans t1) (fun j a c => t2.trans (h.mono a (by omega))) o m le_rfl) J
    · rw [hunk, cyc_sum hN]
      exact sum_piece_eq_one u o hs.1 (nondeg_of_mono h.kmono (by linarith) hs.1 (by omega))
    · rw [hunk, sum_congr rfl fun J _ => by rw [hw' J]]
      exact hcr.trans hθ
    · rw [hunk] at *
      rw [sum_congr rfl fun J _ => by rw [if_pos rfl, hwD m J]]
      refine (hcD Γ m (by linarith) (.inr ?_) hm).trans (mul_le_mul_of_nonneg_left hθ (pow_nonneg (by linarith) _))
      have := hΓ2 0 (by omega)
      rw [v3, v3] at this
      push_cast at this
      linarith
  · have hmin : 6 * (o : ℚ) / Γ ≤ H := by
      have := hΓ2 0 (by omega)
      rw [v3, v3] at this
      push_cast at this
      linarith
    have a1 := h.near i (by omega)
    have a2 := h.near (i + k) (by omega)
    rw [abs_le] at a1 a2
    have a3 := h.apart
    have a4 : perKnot o a H (i + k) = perKnot o a H i + k * H := perKnot_step ..
    have a5 : (1 : ℚ) ≤ k := by exact_mod_cast k1
    have a6 : (k : ℚ) ≤ o := by exact_mod_cast k2
    have a7 : H ≤ k * H := le_mul_of_one_le_left hH.le a5
    have a8 : 1 / 3 * H ≤ knotFn T (i + k) - knotFn T i := by
      rw [a4] at a2
      have : 512 * B / 2 ^ 53 = 512 / 24 * (24 * B / 2 ^ 53) := by ring
      rw [this] at a3
      clear h4
      linarith [a1.1, a1.2, a2.1, a2.2]
    rw [div_le_iff₀ (by linarith)] at hmin
    have a9 := mul_le_mul_of_nonneg_left a8 (show 0 ≤ Γ by linarith)
    clear h4
    linarith

theorem dimNear_of (ho : 1 ≤ o ∧ o ≤ 50) (hx : ∀ d, NearDim c o (dims d) K (per d) (x d) (Q d) (ρ d)) {t : Template D F64 F64}
    (ht : Fl.constructT w c o per dims x = .ok t) {G : ℚ} (hG : ∀ d, FactorsOf c o (per d) (t.solvers d) (t.dims d) G) (d : Fin D) :
    ∃ T, t.base.spline.knots d = T.map F64.fin ∧ DimNear c t.base d o (pointNum c (per d) (dims d)) (per d) (t.solvers d) (x d).rat (Q d)
        ((((if per d then t.dims d else o : ℕ) : ℚ) * (4 * G + 1) + (7 * o + 128 * (o * ρ d))) / 2 ^ 53) (512 * ((K + 1) * (o * ρ d)) / 2 ^ 53) T := by
  choose P r hgood hr using fun d => (hx d).good
  have hsh := shape_dims (c := c) ho hgood
  obtain ⟨hbase, htd, -⟩ := Fl.constructT_solvers hsh ht
  obtain ⟨vals, hv, hsol⟩ := Fl.constructT_rows hsh ht d
  have ax := hbase.ax d
  have hxd := hx d
  have hGd := hG d
  have hpd : t.base.spline.periodicity d = per d := by rw [hbase.peri]
  have hρ0 := (hx d).nonneg
  have hU := fun a b => Fl.constructT_uniform (a := a) (b := b) (d := d) ht
  rw [htd] at hsol hGd ⊢
  dsimp only at hsol hGd ⊢
  generalize x d = y at hxd ax hU ⊢
  generalize per d = q at hxd ax hGd hpd hsol hU ⊢
  generalize Q d = p at hxd ⊢
  generalize ρ d = s at hxd hρ0 ⊢
  cases hxd with
  | aper hm hA =>
    have hpn : pointNum c false (dims d) = dims d := by unfold pointNum; simp
    have e : unk false (dims d) = dims d := rfl
    rw [hpn] at hsol hGd ⊢
    rw [e] at hsol hGd
    unfold FactorsOf at hGd
    rw [if_neg (by simp)] at hGd ⊢
    have ho0 : (0 : ℚ) ≤ o := Nat.cast_nonneg _
    have hos : 0 ≤ (o : ℚ) * s := mul_nonneg ho0 hρ0
    have hnear : ∃ T, ∃ (P' : ℕ → ℚ → Prop) (κ : ℚ), AxisNear t.base d o (dims d) (t.solvers d) P' κ T ∧ dims d ≤ 2 ^ 49 ∧
        AxisExact t.base d o (dims d) (t.solvers d) y.rat (7 * o + 64 * (o * s)) (64 * (o * s) / 2 ^ 53) T := by
      cases hA with
      | coords h1 h2 h3 h4 h5 =>
        obtain ⟨e1, e2, e3⟩ := ax.coords _ rfl
        obtain ⟨T, t1, t2, t3, t4⟩ := knots_of_coords h1 h3 ho hm h4 h2 e2
        have hs := fun u hu => knots_sharp (u := u) h1 ho hm h4 h2 e2 t1 hu
        rw [e1] at hsol
        exact ⟨T, _, _, axisNear_coords ho hm hbase.order hpd ax.uni h1 h2 h3 t1 t2 t3 t4 hsol, h4,
          axisExact_coords ho hm hbase.order hpd ax.uni h1 h2 h3 t1 t2 t3 t4 h5 hs hsol⟩
      | uniform h1 h2 =>
        have hU := hU _ _ rfl
        rw [hpn] at hU
        obtain ⟨dx, T, hT⟩ := uniRat_of ho hm h1 hU
        exact ⟨T, _, _, axisNear_uniform hT hbase.order hpd ax.uni h2 hsol, h1.big, axisExact_uniform hT hbase.order hpd ax.uni h2 hsol⟩
    obtain ⟨T, P', κ, hN, h49, hX⟩ := hnear
    have hlen := hN.len
    have elast : T.length - o - 2 = dims d - 1 := by omega
    refine ⟨T, hN.knots, hX.valid, (fun e => by cases e), ?_, fun z hz => ⟨fun _ => hz.2, ?_⟩, fun Γ hΓ1 hΓ2 i k _ _ k2 hik hlt => hX.steep Γ hΓ1 hΓ2 i k k2 (by omega) hlt⟩
    · refine AxisSolves.mono (hX.rows.solves ho (by omega) h49 hGd) (div_le_div_of_nonneg_right ?_ (by positivity))
      linarith
    · obtain ⟨s', hs', hw', hwD⟩ := hX.valid.wt_aper z
      obtain ⟨σ, hσ⟩ := exists_seg (T := knotFn T) (o := o) (last := dims d - 1) (by omega) z
      have hun := seg_unity hN.mono hN.len hm (fun i h1 h2 => by
        have := hN.gap i h1 h2
        have h9 : (0 : ℚ) < 1 / 2 ^ 900 := one_div_pos.2 (pow_pos two_pos _)
        generalize (1 : ℚ) / 2 ^ 900 = z at *
        linarith) (by rw [hX.left]; exact hz.2.1) (by rw [hX.right]; exact hz.2.2) hσ
      refine ⟨z, σ, by simp, hz.1, by rw [hX.left]; exact hz.2.1, ?_, (fun e => by cases e), hX.hint z hz.1 hz.2.1 hz.2.2, by rw [elast]; exact hσ,
        fun J => piece (knotFn T) σ o J z, fun J => by simp, hun.1, hun.2, ?_, fun Γ m hΓ1 hΓ2 hm => ?_⟩
      · rw [elast, show dims d - 1 + 1 = dims d by omega, hX.right]; exact hz.2.2
      · rw [sum_congr rfl fun J _ => by rw [hw' J], e]
        refine (hX.cross z σ s' hz.2.1 hz.2.2 hσ hs').trans (div_le_div_of_nonneg_right ?_ (by positivity))
        have : 1 * ((o : ℚ) * s) ≤ (K + 1) * (o * s) := mul_le_mul_of_nonneg_right (by have : (0 : ℚ) ≤ K := Nat.cast_nonneg _; linarith) hos
        linarith
      · rw [sum_congr rfl fun J _ => by rw [if_neg (by simp), hwD m J], e]
        refine (hX.crossD Γ m z σ s' hΓ1 hΓ2 hm hz.2.1 hz.2.2 hσ hs').trans (mul_le_mul_of_nonneg_left (div_le_div_of_nonneg_right ?_ (by positivity)) (pow_nonneg (by linarith) _))
        have : 1 * ((o : ℚ) * s) ≤ (K + 1) * (o * s) := mul_le_mul_of_nonneg_right (by have : (0 : ℚ) ≤ K := Nat.cast_nonneg _; linarith) hos
        linarith
  | per h1 h2 h3 h4 h5 =>
    obtain ⟨h6, h7⟩ := per_small h2.B0 h3 h4
    have e : unk true (pointNum c true (dims d)) = pointNum c true (dims d) - 1 := by unfold unk; simp
    rw [e] at hsol hGd ⊢
    unfold FactorsOf at hGd
    rw [if_pos rfl] at hGd ⊢
    obtain ⟨dx, T, hT⟩ := perRat_of ho h1 h2 h6 h7 (hU _ _ rfl)
    exact ⟨T, hT.knots, hT.dimNear hbase.order hpd ax.uni h5 hv hsol hGd h3 h4⟩

end

end Intp
