import Verif.Proofs.Rotate
import Verif.Props.Pivot
import Verif.Props.Coords

/-!
# C65: start of the period of a periodic axis
-/

namespace Intp

open Finset BSpline

variable {K V : Type} [Field K] [LinearOrder K] [IsStrictOrderedRing K] [FloorRing K] [AddCommGroup V] [Module K V] {D : ℕ}

/-- **C65.**  A periodic dimension has no distinguished first point: starting the coordinates at data point `m` of the same periodic sequence and
rotating the data accordingly gives the same function, for values and for derivatives (of order below the spline order in that dimension). -/
theorem rotated_period (c : Cfg) {o : ℕ} (ho : 1 ≤ o) {per : Fin (D + 1) → Bool} {fm fm' : Mesh (D + 1) V} {x x' : Fin (D + 1) → XRange K}
    (hm : fm.WF) (hm' : fm'.WF) (hdims : fm'.dims = fm.dims) (hv : ValidAxes c o per fm.dims x) (hv' : ValidAxes c o per fm.dims x')
    {d : Fin (D + 1)} (hp : per d = true) {n m : ℕ} (hn : fm.dims d = n + if c.noDummy then 0 else 1) (hmn : m < n)
    (hx : ∀ e, e ≠ d → x' e = x e)
    (hX : ∀ i, i ≤ n → (x' d).node (n + 1) i = (x d).node (n + 1) ((i + m) % n) +
      ((i + m) / n : ℕ) * ((x d).node (n + 1) n - (x d).node (n + 1) 0))
    (hdata : ∀ a, InRange fm.dims a → a d < n → fm'.get a = fm.get (Function.update a d ((a d + m) % n)))
    {g g' : InterpFn (D + 1) K V} (hg : InterpFn.construct c o per fm x = .ok g) (hg' : InterpFn.construct c o per fm' x' = .ok g') :
    (∀ y, g'.call y = g.call y) ∧ ∀ c' y q, q d < o → g'.derivative c' y q = g.derivative c' y q := by
  obtain ⟨F, hF⟩ := fm.exists_holds hm
  obtain ⟨F', hF'⟩ := fm'.exists_holds hm'
  rw [hdims] at hF'
  obtain ⟨hr, C, hC, hE⟩ := (InterpFn.construct_spec (c := c) hv rfl hF).get hg
  obtain ⟨hr', C', hC', hE'⟩ := (InterpFn.construct_spec (c := c) hv' hdims hF').get hg'
  have hNn : pointNum c (per d) (fm.dims d) = n + 1 := by
    unfold pointNum
    rw [hn, hp]
    cases c.noDummy <;> simp
  have hu : unk (per d) (pointNum c (per d) (fm.dims d)) = n := by rw [hNn, hp]; rfl
  have hnn : nOf c per fm.dims d = n := hu
  set b := g.spline with hb
  set b' := g'.spline with hb'
  have hbn : b.ctrl.dims d = n := by rw [hC.dims_eq]; exact hu
  have hbn' : b'.ctrl.dims d = n := by rw [hC'.dims_eq]; exact hu
  have hvd := hv d
  have hvd' := hv' d
  rw [hNn, hp] at hvd hvd'
  have hun : unk true (n + 1) = n := rfl
  have hkn : ∀ j, 1 ≤ j → j < (b.knots d).length → b.kn d j = midExt o ((x d).node (n + 1)) n (j + n - o) -
      ((x d).node (n + 1) n - (x d).node (n + 1) 0) := fun j h1 h2 => by
    have e := hC.knots d
    rw [hNn, hp] at e
    rw [e] at h2
    unfold kn
    rw [e]
    exact hvd.knot_midExt ho h1 h2
  have hkn' : ∀ j, 1 ≤ j → j < (b'.knots d).length → b'.kn d j = midExt o ((x' d).node (n + 1)) n (j + n - o) -
      ((x' d).node (n + 1) n - (x' d).node (n + 1) 0) := fun j h1 h2 => by
    have e := hC'.knots d
    rw [hNn, hp] at e
    rw [e] at h2
    unfold kn
    rw [e]
    exact hvd'.knot_midExt ho h1 h2
  have hlen : (b'.knots d).length = (b.knots d).length := by
    rw [hC.knots, hC'.knots]
    exact (hv' d).knots_length.trans (hv d).knots_length.symm
  have hrot : ∀ i, nodeExt ((x' d).node (n + 1)) n i = nodeExt ((x d).node (n + 1)) n (i + m) := nodeExt_rotate (by omega) hX
  have hP : (x' d).node (n + 1) n - (x' d).node (n + 1) 0 = (x d).node (n + 1) n - (x d).node (n + 1) 0 := by
    have e1 := hrot n
    have e2 := hrot 0
    rw [nodeExt_le _ (by omega) le_rfl, show n + m = m + n by omega, nodeExt_add _ (by omega)] at e1
    rw [nodeExt_le _ (by omega) (by omega), Nat.zero_add] at e2
    rw [e1, e2]; ring
  have hmid : ∀ i, 1 ≤ i → midExt o ((x' d).node (n + 1)) n i = midExt o ((x d).node (n + 1)) n (i + m) := fun i hi => by
    unfold midExt
    rw [hrot, hrot, show i + m - 1 = i - 1 + m by omega]
  have hper : (b.range d).2 - (b.range d).1 = (x d).node (n + 1) n - (x d).node (n + 1) 0 := by
    have := hC.period hv hp
    rw [hNn, ← hb, hbn] at this
    exact this
  have hper' : (b'.range d).2 - (b'.range d).1 = (x d).node (n + 1) n - (x d).node (n + 1) 0 := by
    have := hC'.period hv' hp
    rw [hNn, ← hb', hbn', hP] at this
    exact this
  have hbig : o ≤ n := by
    have h1 := (hvd.pAxis).big
    rw [hun] at h1
    omega
  have hM : RotateDim b b' d m := by
    refine ⟨by rw [hC.order, hC'.order], by rw [hbn, hbn'], hlen, by rw [hbn]; exact hmn, by rw [hper, hper'], fun j h1 h2 => ?_, fun j h1 h2 => ?_⟩
    · rw [hkn' j h1 (by omega), hkn (j + m) (by omega) h2, hP, hmid _ (by omega), show j + n - o + m = j + m + n - o by omega]
    · rw [hbn] at h2 ⊢
      rw [hkn' _ (by omega) (by omega), hkn j h1 (by omega), hP, hmid _ (by omega), hper,
        show j + (n - m) + n - o + m = j + n - o + n by omega, midExt_add o _ (by omega) (by omega)]
      ring
  have hpk : b.PerKnots d := hC.perKnots hv hp
  have hpk' : b'.PerKnots d := hC'.perKnots hv' hp
  have hmw : ∀ q y J, q < o → J < n → b.wAt d q y ((J + m) % n) = b'.wAt d q y J := fun q y J hq hJ => by
    have := hM.wAt (hC.wf hv) (hC'.wf hv') (hC.simple hv d) (hC'.simple hv' d) hpk hpk' (by rw [hC.order]; exact hq) y (by rw [hbn]; exact hJ)
    rwa [hbn] at this
  have hother : ∀ e, e ≠ d → ∀ q y J, b'.wAt e q y J = b.wAt e q y J := fun e he q y J => by
    rw [hC.wAt_eq, hC'.wAt_eq, hx e he]
  have hW : ∀ (q : Fin (D + 1) → ℕ) (y : Fin (D + 1) → K), q d < o → ∀ T : (Fin (D + 1) → ℕ) → V,
      tensorVal (nOf c per fm.dims) (fun e => b'.wAt e (q e) (y e)) (fun J => T (Function.update J d ((J d + m) % n))) =
        tensorVal (nOf c per fm.dims) (fun e => b.wAt e (q e) (y e)) T := by
    intro q y hq T
    rw [tensorVal_insert d, tensorVal_insert d, hnn]
    refine sum_nbij' (fun j => (j + m) % n) (fun j => (j + (n - m)) % n) (fun j _ => mem_range.2 (Nat.mod_lt _ (by omega)))
      (fun j _ => mem_range.2 (Nat.mod_lt _ (by omega))) (fun j hj => ?_) (fun j hj => ?_) fun j hj => ?_
    · rw [mem_range] at hj
      rw [Nat.mod_add_mod, show j + m + (n - m) = j + n by omega, Nat.add_mod_right, Nat.mod_eq_of_lt hj]
    · rw [mem_range] at hj
      rw [Nat.mod_add_mod, show j + (n - m) + m = j + n by omega, Nat.add_mod_right, Nat.mod_eq_of_lt hj]
    · rw [mem_range] at hj
      rw [← hmw (q d) (y d) j hq hj]
      congr 1
      refine tensorVal_congr (fun J _ => ?_) fun e i _ => ?_
      · simp
      · rw [hother _ (Fin.succAbove_ne d e)]
  have hE'' : CtrlEqs c o per fm.dims x' F' fun J => C (Function.update J d ((J d + m) % n)) := by
    intro a ha
    have had : a d < n := by rw [← hnn]; exact ha d
    set a' := Function.update a d ((a d + m) % n) with ha'
    have ha'r : InRange (nOf c per fm.dims) a' := fun e => by
      by_cases he : e = d
      · subst he; rw [ha', Function.update_self, hnn]; exact Nat.mod_lt _ (by omega)
      · rw [ha', Function.update_of_ne he]; exact ha e
    have hin : ∀ a, InRange (nOf c per fm.dims) a → InRange fm.dims a := fun a ha e => lt_of_lt_of_le (ha e) (by
      have := hv.dims_eq e
      unfold nOf
      omega)
    have h2 := hdata a (hin a ha) had
    rw [← ha', hF.get (hin a' ha'r), hF'.get (hin a ha)] at h2
    injection h2 with h2
    rw [h2, ← hE a' ha'r]
    have h3 := hW (fun _ => 0) (fun e => (x' e).node (pointNum c (per e) (fm.dims e)) (a e)) (by omega) C
    have e3 : ∀ e J, J < nOf c per fm.dims e → b.wAt e 0 ((x' e).node (pointNum c (per e) (fm.dims e)) (a e)) J =
        (x e).mat o (pointNum c (per e) (fm.dims e)) (per e) ((a' e + rowShift o (per e)) % nOf c per fm.dims e) J := fun e J hJ => by
      rw [hC.mat_eq hv e (ha'r e) hJ, ← hC.wAt_eq]
      by_cases he : e = d
      · subst he
        have := (hC.wf hv).wAt_periodic hpk (((a e + m) / n : ℕ) : ℤ) ((x e).node (n + 1) ((a e + m) % n)) (q := 0) J
          (.inl (by rw [hC.order]; omega))
        rw [← hb] at this
        rw [hNn, ha', Function.update_self, ← this, hX _ (by omega), hper, Int.cast_natCast]
      · rw [hx e he, ha', Function.update_of_ne he]
    have e4 : ∀ e J, J < nOf c per fm.dims e → (x' e).mat o (pointNum c (per e) (fm.dims e)) (per e)
        ((a e + rowShift o (per e)) % nOf c per fm.dims e) J = b'.wAt e 0 ((x' e).node (pointNum c (per e) (fm.dims e)) (a e)) J := fun e J hJ => by
      rw [hC'.mat_eq hv' e (ha e) hJ, ← hC'.wAt_eq]
    refine (tensorVal_congr (fun _ _ => rfl) fun e J hJ => e4 e J hJ).trans (h3.trans ?_)
    exact tensorVal_congr (fun _ _ => rfl) fun e J hJ => e3 e J hJ
  have key : ∀ y q, q d < o → b'.val C' q y = b.val C q y := by
    intro y q hq
    have e1 : b.ctrl.dims = nOf c per fm.dims := hC.ctrl.1
    have e2 : b'.ctrl.dims = nOf c per fm.dims := hC'.ctrl.1
    unfold BSpline.val
    rw [e1, e2, ← hW q y hq C]
    exact tensorVal_congr (fun J hJ => hr'.unique hv' hE' hE'' (fun _ _ => rfl) hJ) fun _ _ _ => rfl
  exact ⟨fun y => by rw [hC.call hv, hC'.call hv', ← hb, ← hb', key y _ (by omega)],
    fun c' y q hq => by rw [hC.derivative hv, hC'.derivative hv', ← hb, ← hb', key y q hq]⟩

omit [LinearOrder K] [IsStrictOrderedRing K] [FloorRing K] in
theorem XRange.affine_one_zero (x : XRange K) : x.affine 1 0 = x := by
  cases x <;> simp [XRange.affine]

/-- **C65, cyclic shift of the data.**  Rotating the data along a periodic dimension with evenly spaced points by `m` places moves the function by
`m` spacings, and does not affect whether construction succeeds. -/
theorem cyclic_shift (c : Cfg) {o : ℕ} (ho : 1 ≤ o) {per : Fin (D + 1) → Bool} {fm fm' : Mesh (D + 1) V} {x : Fin (D + 1) → XRange K}
    (hm : fm.WF) (hm' : fm'.WF) (hdims : fm'.dims = fm.dims) (hv : ValidAxes c o per fm.dims x)
    {d : Fin (D + 1)} (hp : per d = true) {a b : K} (hx : x d = .uniform a b) {n m : ℕ} (hn : fm.dims d = n + if c.noDummy then 0 else 1) (hmn : m < n)
    (hdata : ∀ a, InRange fm.dims a → a d < n → fm'.get a = fm.get (Function.update a d ((a d + m) % n)))
    {g : InterpFn (D + 1) K V} (hg : InterpFn.construct c o per fm x = .ok g) :
    ∃ g', InterpFn.construct c o per fm' x = .ok g' ∧ ∀ y, g'.call y = g.call (Function.update y d (y d + m * ((b - a) / n))) := by
  have hok := (construct_ok_iff c hm hv).1 ⟨g, hg⟩
  obtain ⟨g', hg'⟩ := (construct_ok_iff c hm' (by rw [hdims]; exact hv)).2 (by rw [hdims]; exact hok)
  refine ⟨g', hg', ?_⟩
  set β : Fin (D + 1) → K := Function.update 0 d (m * ((b - a) / n)) with hβ
  rcases affine_coordinates c hm' (by rw [hdims]; exact hv) (α := fun _ => 1) (β := β) (fun _ => one_pos) with h | ⟨g₁, g₂, h1, h2, h3, -, -⟩
  · rw [h.1] at hg'; cases hg'
  rw [hg'] at h1
  injection h1 with h1
  subst h1
  have hNn : pointNum c (per d) (fm.dims d) = n + 1 := by
    unfold pointNum
    rw [hn, hp]
    cases c.noDummy <;> simp
  have hn0 : (n : K) ≠ 0 := by exact_mod_cast (by omega : n ≠ 0)
  have hnode : ∀ i, (x d).node (n + 1) i = a + i * ((b - a) / n) := fun i => by
    rw [hx]; simp [XRange.node]
  have hr := rotated_period c ho hm hm' hdims hv (x' := fun e => (x e).affine 1 (β e)) (fun e => (hv e).affine one_pos) hp hn hmn
    (fun e he => by rw [hβ, Function.update_of_ne he]; exact XRange.affine_one_zero _) (fun i hi => ?_) hdata hg h2
  · intro y
    rw [← hr.1, h3]
    congr 1
    funext e
    by_cases he : e = d
    · subst he; simp [hβ]
    · simp [hβ, he]
  · have hvd := hv d
    rw [hNn] at hvd
    rw [XRange.node_affine 1 (β d) (fun l hl => (hvd.coords l hl).1) (by omega), hnode, hnode, hnode, hnode, hβ, Function.update_self]
    have e : ((i : K) + m) = ((i + m) % n : ℕ) + n * ((i + m) / n : ℕ) := by exact_mod_cast (Nat.mod_add_div (i + m) n).symm
    have e2 : (1 : K) * (a + i * ((b - a) / n)) + m * ((b - a) / n) = a + ((i : K) + m) * ((b - a) / n) := by ring
    rw [e2, e]
    field_simp
    push_cast
    ring

namespace RotateExample

/-- A periodic dimension with uneven spacing, and the same points starting with the second one. -/
def fm : Mesh 1 ℚ := ⟨fun _ => 5, [1, 5, 2, 7, 1]⟩

def fm' : Mesh 1 ℚ := ⟨fun _ => 5, [5, 2, 7, 1, 5]⟩

def x : Fin 1 → XRange ℚ := fun _ => .coords [0, 1, 3, 4, 6]

def x' : Fin 1 → XRange ℚ := fun _ => .coords [1, 3, 4, 6, 7]

theorem valid {l : List ℚ} (h : l = [0, 1, 3, 4, 6] ∨ l = [1, 3, 4, 6, 7]) (o : ℕ) (h1 : 1 ≤ o) (ho : o ≤ 3) :
    ValidAxes ⟨true, false⟩ o (fun _ => true) (fun _ : Fin 1 => 5) (fun _ => .coords l) := by
  intro d
  refine ⟨fun _ => ?_, by simp, by simp, ?_⟩
  · simp [pointNum]; omega
  · intro l' hl
    injection hl with hl
    subst hl
    refine ⟨by rcases h with h | h <;> rw [h] <;> rfl, fun i hi => ?_, fun _ => h1⟩
    have : i < 4 := by simp [pointNum] at hi; omega
    rcases h with h | h <;> subst h <;> interval_cases i <;> norm_num

/-- `rotated_period` applies. -/
example {g g' : InterpFn 1 ℚ ℚ} (hg : InterpFn.construct ⟨true, false⟩ 3 (fun _ => true) fm x = .ok g)
    (hg' : InterpFn.construct ⟨true, false⟩ 3 (fun _ => true) fm' x' = .ok g') : ∀ y, g'.call y = g.call y := by
  refine (rotated_period (D := 0) ⟨true, false⟩ (by norm_num) (fm := fm) (fm' := fm') (x := x) (x' := x') rfl rfl rfl (valid (.inl rfl) 3 (by norm_num) le_rfl)
    (valid (.inr rfl) 3 (by norm_num) le_rfl) (d := 0) rfl (n := 4) (m := 1) rfl (by norm_num) (fun e he => absurd (Fin.eq_zero e) he) (fun i hi => ?_)
    (fun a _ ha => ?_) hg hg').1
  · interval_cases i <;> decide +kernel
  · obtain ⟨i, rfl⟩ : ∃ i, a = fun _ => i := ⟨a 0, funext fun e => by rw [Fin.eq_zero e]⟩
    have ha : i < 4 := ha
    interval_cases i <;> decide +kernel

/-- Both constructions succeed, and a value between the data points, for an odd and an even order. -/
example : (do
    let g ← InterpFn.construct ⟨true, false⟩ 3 (fun _ => true) fm x
    let h ← InterpFn.construct ⟨true, false⟩ 3 (fun _ => true) fm' x'
    let u ← g.call fun _ => 1 / 2
    let v ← h.call fun _ => 1 / 2
    let g ← InterpFn.construct ⟨true, false⟩ 2 (fun _ => true) fm x
    let h ← InterpFn.construct ⟨true, false⟩ 2 (fun _ => true) fm' x'
    let w ← g.call fun _ => 13 / 2
    let z ← h.call fun _ => 13 / 2
    pure (decide (u = v), decide (w = z), decide (u = w)) : M (Bool × Bool × Bool)) = .ok (true, true, false) := by decide +kernel

/-- `cyclic_shift` on evenly spaced points: the hypotheses hold, and a value. -/
example {g : InterpFn 1 ℚ ℚ} (hg : InterpFn.construct ⟨true, false⟩ 3 (fun _ => true) fm (fun _ => .uniform 0 8) = .ok g) :
    ∃ g', InterpFn.construct ⟨true, false⟩ 3 (fun _ => true) fm' (fun _ => .uniform 0 8) = .ok g' ∧
      ∀ y, g'.call y = g.call (Function.update y 0 (y 0 + (1 : ℕ) * ((8 - 0) / (4 : ℕ)))) := by
  refine cyclic_shift (D := 0) ⟨true, false⟩ (o := 3) (per := fun _ => true) (x := fun _ => .uniform 0 8) (by norm_num) (fm := fm) (fm' := fm') rfl rfl rfl
    (fun _ => ⟨fun _ => ?_, by simp, ?_, by simp⟩) (d := 0) rfl (a := 0) (b := 8) rfl (n := 4) (m := 1) rfl (by norm_num) (fun a _ ha => ?_) hg
  · simp [pointNum, fm]
  · intro a b h
    injection h with h1 h2
    subst h1 h2
    norm_num
  · obtain ⟨i, rfl⟩ : ∃ i, a = fun _ => i := ⟨a 0, funext fun e => by rw [Fin.eq_zero e]⟩
    have ha : i < 4 := ha
    interval_cases i <;> decide +kernel

end RotateExample

end Intp
