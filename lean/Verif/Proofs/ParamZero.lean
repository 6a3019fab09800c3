import Verif.Props.Param
import Verif.Proofs.ParamLU
import Verif.Proofs.F64Round

/-!
# Where the code cannot divide by a negative zero

The divisors of the code are differences of knots, steps, natural numbers and pivots.  A difference of `double`s is the negative zero only if
the first of them is; the knots and steps of uniform dimensions are never negative zeros.
-/

namespace Intp

open List

namespace S64

variable {r : Bool}

/-- Not the negative zero. -/
def NN (a : S64 r) : Prop := a.isNegZero = false

/-- Not the negative zero, and a multiple of the smallest positive `double` if finite, as all `double`s are. -/
def Plain (a : S64 r) : Prop := a.isNegZero = false ∧ ∀ q t, a = fin q t → F64.Grid q

theorem nn_of_signBit {a : S64 r} (h : a.signBit = false) : NN a := by
  cases a with
  | nan => rfl
  | inf => rfl
  | fin q t =>
    change sign q t = false at h
    unfold sign at h
    show (decide (q = 0) && t) = false
    by_cases hq : q = 0
    · rw [if_pos hq] at h; simp [h]
    · simp [hq]

theorem grid_round (z : ℚ) (t : Bool) {q : ℚ} {u : Bool} (h : (round z t : S64 r) = fin q u) : F64.Grid q := by
  unfold round F64.round at h
  dsimp only at h
  split at h
  · cases h
  · cases h
  · rename_i s hs
    cases h
    split at hs
    · cases hs
    · cases hs
      exact F64.rnd_grid z

theorem grid_mul (a b : S64 r) {q : ℚ} {u : Bool} (h : a * b = fin q u) : F64.Grid q := by
  change mul a b = _ at h
  cases a with
  | nan => cases h
  | inf s =>
    cases b with
    | nan => cases h
    | inf t => cases h
    | fin p t =>
      change (if p = 0 then nan else inf (s ^^ sign p t)) = _ at h
      split at h <;> cases h
  | fin p s =>
    cases b with
    | nan => cases h
    | inf t =>
      change (if p = 0 then nan else inf (sign p s ^^ t)) = _ at h
      split at h <;> cases h
    | fin p' t => exact grid_round _ _ h

theorem grid_add (a b : S64 r) {q : ℚ} {u : Bool} (h : a + b = fin q u) : F64.Grid q := by
  change add a b = _ at h
  cases a with
  | nan => cases h
  | inf s =>
    cases b with
    | nan => cases h
    | inf t =>
      change (if s = t then inf s else nan) = _ at h
      split at h <;> cases h
    | fin p t => cases h
  | fin p s =>
    cases b with
    | nan => cases h
    | inf t => cases h
    | fin p' t => exact grid_round _ _ h

theorem rnd_eq_zero {q : ℚ} (hg : F64.Grid q) (h : F64.rnd q = 0) : q = 0 := by
  have h1 := F64.rnd_error_grid hg
  rw [h, zero_sub, abs_neg] at h1
  have hu : F64.u < 1 := by rw [F64.u_eq]; norm_num
  by_contra h0
  have := abs_pos.2 h0
  nlinarith

/-- A sum is a negative zero only if both numbers are. -/
theorem nn_add {a b : S64 r} (ha : ∀ q t, a = fin q t → F64.Grid q) (hb : ∀ q t, b = fin q t → F64.Grid q) (h : NN a ∨ NN b) : NN (a + b) := by
  show NN (add a b)
  cases a with
  | nan => rfl
  | inf s =>
    cases b with
    | nan => rfl
    | inf t =>
      show (if s = t then inf s else nan : S64 r).isNegZero = false
      split <;> rfl
    | fin p t => rfl
  | fin p s =>
    cases b with
    | nan => rfl
    | inf t => rfl
    | fin q t =>
      have hg := (ha p s rfl).add (hb q t rfl)
      show (round (p + q) (sign p s && sign q t) : S64 r).isNegZero = false
      unfold round F64.round
      dsimp only
      split
      · rfl
      · rfl
      · rename_i z hz
        split at hz
        · cases hz
        · cases hz
          unfold isNegZero
          by_contra hne
          simp only [Bool.not_eq_false, Bool.and_eq_true, decide_eq_true_eq] at hne
          obtain ⟨h0, h1, h2⟩ := hne
          have hs := rnd_eq_zero hg h0
          unfold sign at h1 h2
          by_cases hp : p = 0
          · have hq : q = 0 := by rw [hp, zero_add] at hs; exact hs
            rw [if_pos hp] at h1
            rw [if_pos hq] at h2
            unfold NN isNegZero at h
            simp [hp, hq, h1, h2] at h
          · have hq : q ≠ 0 := fun hq => hp (by rw [hq, add_zero] at hs; exact hs)
            rw [if_neg hp] at h1
            rw [if_neg hq] at h2
            have h1' := of_decide_eq_true h1
            have h2' := of_decide_eq_true h2
            linarith

theorem Plain.sub {a b : S64 r} (ha : Plain a) (hb : Plain b) : NN (a - b) := by
  show NN (a + neg b)
  refine nn_add ha.2 (fun q t h => ?_) (.inl ha.1)
  cases b with
  | nan => cases h
  | inf => cases h
  | fin p s => cases h; exact (hb.2 p s rfl).neg

theorem nn_nat (n : ℕ) : NN (CoordArith.ofNat n : S64 r) := by
  refine nn_of_signBit ?_
  show (round (n : ℚ) false : S64 r).signBit = false
  have hn : ¬ ((n : ℚ) < 0) := not_lt.2 (Nat.cast_nonneg n)
  rw [signBit_round fun _ => by unfold F64.isNeg; simp [hn]]
  split <;> simp [hn]

theorem signBit_nat (n : ℕ) : (CoordArith.ofNat n : S64 r).signBit = false := by
  show (round (n : ℚ) false : S64 r).signBit = false
  have hn : ¬ ((n : ℚ) < 0) := not_lt.2 (Nat.cast_nonneg n)
  rw [signBit_round fun _ => by unfold F64.isNeg; simp [hn]]
  split <;> simp [hn]

theorem signBit_sub {a b : S64 r} (hb : NN b) (h : a.forget < b.forget) : (b - a).signBit = false := by
  show (add b (neg a)).signBit = false
  change F64.lt a.forget b.forget = true at h
  cases a with
  | nan => simp [forget, F64.lt] at h
  | inf s =>
    cases b with
    | nan => simp [forget, F64.lt] at h
    | inf t => cases s <;> cases t <;> simp [forget, F64.lt] at h ⊢ <;> rfl
    | fin p t => cases s <;> simp [forget, F64.lt] at h ⊢ <;> rfl
  | fin p s =>
    cases b with
    | nan => simp [forget, F64.lt] at h
    | inf t => cases t <;> simp [forget, F64.lt] at h ⊢ <;> rfl
    | fin q t =>
      have hlt : p < q := by simpa [forget, F64.lt] using h
      show (round (q + -p) (sign q t && sign (-p) (!s)) : S64 r).signBit = false
      have hs : (sign q t && sign (-p) (!s)) = false := by
        unfold sign
        by_cases hq : q = 0
        · unfold NN isNegZero at hb
          rw [if_pos hq]
          have : t = false := by simpa [hq] using hb
          rw [this]; rfl
        · rw [if_neg hq]
          by_cases hq' : q < 0
          · have hp : ¬ (-p = 0) := fun hp => by linarith
            rw [if_neg hp, decide_eq_false (show ¬ (-p < 0) by linarith)]
            simp
          · rw [decide_eq_false hq']; rfl
      have hpos : 0 < q + -p := by linarith
      rw [hs, signBit_round fun _ => by unfold F64.isNeg; rw [decide_eq_false (by linarith)], if_neg hpos.ne']
      exact decide_eq_false (by linarith)

theorem divM_nn {a b : S64 r} (hb : NN b) : divM a b = .ok (div a b) := by
  unfold divM
  rw [show b.isNegZero = false from hb]
  simp

/-- Up to the sign of zeros, as long as no divisor is the negative zero. -/
theorem kRelP_forget : KRelP (fun _ => False) NN (Graph (forget : S64 r → F64)) where
  zero := rfl
  one := rfl
  add := by rintro a _ b _ rfl rfl; exact forget_add a b
  sub := by rintro a _ b _ rfl rfl; exact (forget_add a (neg b)).trans (by rw [forget_neg]; rfl)
  mul := by rintro a _ b _ rfl rfl; exact forget_mul a b
  lt := by rintro a _ b _ rfl rfl; rfl
  le := by rintro a _ b _ rfl rfl; rfl
  nat n := forget_round _ _
  natP := nn_nat
  half := rfl
  div := by
    rintro a _ b _ rfl rfl hb
    show RelM _ _ (divM a b) (.ok (F64.div a.forget b.forget))
    rw [divM_nn hb]
    exact forget_div a hb
  fmod := by rintro a _ b _ rfl rfl; exact forget_fmod a b
  ceil := by rintro a _ rfl; exact RelM.eqRefl _

theorem vRelP_forget : VRelP (fun _ => False) NN (Graph (forget : S64 r → F64)) (Graph (forget : S64 r → F64)) where
  zero := rfl
  add := kRelP_forget.add
  sub := kRelP_forget.sub
  smul := kRelP_forget.mul
  div := kRelP_forget.div

/-- With and without report, as long as no divisor is the negative zero. -/
theorem kRelP_cast : KRelP (fun _ => False) NN (Graph (cast : S64 true → S64 false)) where
  zero := rfl
  one := rfl
  add := kRel_cast.add
  sub := kRel_cast.sub
  mul := kRel_cast.mul
  lt := kRel_cast.lt
  le := kRel_cast.le
  nat n := kRel_cast.nat n
  natP := nn_nat
  half := rfl
  div := by
    rintro a _ b _ rfl rfl hb
    show RelM _ _ (divM a b) (.ok (div (cast a) (cast b)))
    rw [divM_nn hb]
    exact cast_div a b
  fmod := by rintro a _ b _ rfl rfl; exact cast_fmod a b
  ceil := by
    rintro a _ rfl
    show RelM _ _ (F64.ceilSize _) (F64.ceilSize _)
    rw [forget_cast]
    exact RelM.eqRefl _

theorem Plain.cast {s : Bool} {a : S64 r} (h : Plain a) : Plain (S64.cast a : S64 s) := by
  refine ⟨(isNegZero_cast a).trans h.1, fun q t e => ?_⟩
  cases a with
  | nan => cases e
  | inf => cases e
  | fin p u =>
    injection e with e1 _
    rw [← e1]
    exact h.2 _ _ rfl

/-- The coordinates of a dimension: no end of a uniform range is the negative zero and the range is not reversed; no knot made from explicit
coordinates is the negative zero. -/
def RangeOk (c : Cfg) (o n : ℕ) (per : Bool) : XRange (S64 r) → Prop
  | .uniform a b => Plain a ∧ Plain b ∧ a.forget < b.forget
  | .coords l => ∀ res, Fl.coordKnots c o n per l = .ok res → ∀ t ∈ res.1, Plain t

/-- No knot and no step of a uniform dimension is the negative zero. -/
def KnotsPlain {D : ℕ} {V : Type} (f : InterpFn D (S64 r) V) : Prop := (∀ d, ∀ t ∈ f.spline.knots d, Plain t) ∧ ∀ d, f.uniform d = true → NN (f.dx d)

theorem KnotsPlain.ok {D : ℕ} {V : Type} {f : InterpFn D (S64 r) V} (h : KnotsPlain f) : FnOk NN f := ⟨fun d a ha b hb => (h.1 d a ha).sub (h.1 d b hb), h.2⟩

theorem wr_all {α : Type} {P : α → Prop} {l : List α} (h : ∀ t ∈ l, P t) (i : ℕ) {v : α} (hv : P v) : Spec (wr l i v) (fun l' => ∀ t ∈ l', P t) fun _ => True := by
  unfold wr
  refine Spec.ite (fun _ => Spec.ok ?_) fun _ => trivial
  intro t ht
  rcases List.mem_or_eq_of_mem_set ht with h' | h'
  · exact h t h'
  · rw [h']; exact hv

theorem uniformKnot_plain {a : S64 r} (ha : Plain a) (dx : S64 r) (extra i : ℕ) : Plain (Fl.uniformKnot a dx extra i) :=
  ⟨nn_add ha.2 (fun _ _ h => grid_mul _ _ h) (.inl ha.1), fun _ _ h => grid_add _ _ h⟩

theorem uniformKnots_plain (o n : ℕ) (per : Bool) {a b : S64 r} (ha : Plain a) (hb : Plain b) (dx : S64 r) :
    Spec (Fl.uniformKnots o n per a b dx) (fun l => ∀ t ∈ l, Plain t) fun _ => True := by
  have hr : ∀ n, ∀ t ∈ List.replicate n a, Plain t := fun n t ht => by rw [List.eq_of_mem_replicate ht]; exact ha
  unfold Fl.uniformKnots
  refine Spec.ite (fun _ => ?_) fun _ => ?_
  · exact Spec.loop' (P := fun _ l => ∀ t ∈ l, Plain t) (hr _) fun i s _ _ hs => wr_all hs i (uniformKnot_plain ha dx _ i)
  · unfold Fl.uniformKnotsAperiodic
    refine Spec.skip fun hi => Spec.bind (Q := fun l => ∀ t ∈ l, Plain t) ?_ fun l hl => ?_
    · exact Spec.loop' (P := fun _ l => ∀ t ∈ l, Plain t) (hr _) fun i s _ _ hs => wr_all hs i (uniformKnot_plain ha dx _ i)
    · exact Spec.loop' (P := fun _ l => ∀ t ∈ l, Plain t) hl fun i s _ _ hs => wr_all hs i hb

theorem uniformStep_nn (n : ℕ) {a b : S64 r} (hb : NN b) (h : a.forget < b.forget) : Spec (Fl.uniformStep n a b) NN fun _ => True := by
  unfold Fl.uniformStep
  refine Spec.skip fun m => ?_
  show Spec (divM (b - a) (CoordArith.ofNat m)) NN fun _ => True
  rw [divM_nn (nn_nat m)]
  refine Spec.ok ?_
  by_cases hn : div (b - a) (CoordArith.ofNat m) = nan
  · rw [hn]; rfl
  · refine nn_of_signBit ?_
    rw [(signs (b - a) (CoordArith.ofNat m)).2.1 hn, signBit_sub hb h, signBit_nat]
    rfl

theorem foldlM_any {σ ι : Type} {P : σ → Prop} (l : List ι) {f : σ → ι → M σ} {s : σ} (h0 : P s) (h : ∀ s i, P s → Spec (f s i) P fun _ => True) :
    Spec (l.foldlM f s) P fun _ => True := by
  induction l generalizing s with
  | nil => exact Spec.pure h0
  | cons i l ih =>
    rw [List.foldlM_cons]
    exact Spec.bind (h s i h0) fun s' hs => ih hs

theorem loadKnots_spec {D : ℕ} {K V : Type} (b : BSpline D K V) (d : Fin D) (t : List K) :
    Spec (b.loadKnots d t) (fun b' => b'.knots = Function.update b.knots d t ∧ b'.order = b.order ∧ b'.periodicity = b.periodicity) fun _ => True := by
  unfold BSpline.loadKnots
  exact Spec.skip fun _ => Spec.skip fun _ => Spec.skip fun _ => Spec.skip fun _ => Spec.pure ⟨rfl, rfl, rfl⟩

/-- The knots and steps of a construction. -/
theorem partialConstruct_plain {D : ℕ} {V : Type} (c : Cfg) (o : ℕ) (per : Fin D → Bool) (dims : Fin D → ℕ) {x : Fin D → XRange (S64 r)}
    (hx : ∀ d, RangeOk c o (dims d) (per d) (x d)) : Spec (Fl.partialConstruct (V := V) c o per dims x) (fun s => KnotsPlain s.1) fun _ => True := by
  unfold Fl.partialConstruct
  refine Spec.imp (foldlM_any (P := fun s => KnotsPlain s.1 ∧ s.1.spline.order = o ∧ s.1.spline.periodicity = per) _ ?_ ?_) (fun s h => h.1)
  · exact ⟨⟨fun d t ht => absurd ht (by simp [Fl.blank]), fun d h => absurd h (by simp [Fl.blank])⟩, rfl, rfl⟩
  · rintro ⟨f, co⟩ d ⟨hk, ho, hp⟩
    dsimp only at hk ho hp
    unfold Fl.createKnotVector
    have hxd := hx d
    have hupd : ∀ {l : List (S64 r)}, (∀ t ∈ l, Plain t) → ∀ d', ∀ t ∈ Function.update f.spline.knots d l d', Plain t := by
      intro l hl d' t ht
      by_cases he : d' = d
      · subst he; rw [Function.update_self] at ht; exact hl t ht
      · rw [Function.update_of_ne he] at ht; exact hk.1 d' t ht
    cases hxe : x d with
    | uniform a b =>
      rw [hxe] at hxd
      dsimp only
      refine Spec.bind (uniformStep_nn _ hxd.2.1.1 hxd.2.2) fun dx hdx => Spec.bind (uniformKnots_plain _ _ _ hxd.1 hxd.2.1 dx) fun l hl =>
        Spec.bind (loadKnots_spec _ _ _) fun s hs => Spec.pure ⟨⟨fun d' t ht => ?_, fun d' hd' => ?_⟩, hs.2.1.trans ho, hs.2.2.trans hp⟩
      · rw [show s.knots = _ from hs.1] at ht
        exact hupd hl d' t ht
      · dsimp only at hd' ⊢
        by_cases he : d' = d
        · subst he; rw [Function.update_self]; exact hdx
        · rw [Function.update_of_ne he] at hd' ⊢; exact hk.2 d' hd'
    | coords l =>
      rw [hxe] at hxd
      dsimp only
      rw [ho, show f.periodicity d = per d by rw [← hp]; rfl]
      refine Spec.bind (Q := fun res => ∀ t ∈ res.1, Plain t) ?_ fun res hres => Spec.bind (loadKnots_spec _ _ _) fun s hs =>
        Spec.pure ⟨⟨fun d' t ht => ?_, fun d' hd' => ?_⟩, hs.2.1.trans ho, hs.2.2.trans hp⟩
      · cases hc : Fl.coordKnots c o (dims d) (per d) l with
        | error e => trivial
        | ok res => exact hxd res hc
      · rw [show s.knots = _ from hs.1] at ht
        exact hupd hres d' t ht
      · dsimp only at hd' ⊢
        by_cases he : d' = d
        · subst he; rw [Function.update_self] at hd'; cases hd'
        · rw [Function.update_of_ne he] at hd'; exact hk.2 d' hd'

end S64

/-! ## Two relations from the same object -/

section tri
variable {α β γ K K' K'' V V' V'' : Type} {D : ℕ} {R : α → β → Prop} {S : α → γ → Prop} {T : β → γ → Prop}

theorem forall₂_tri (h : ∀ a b c, R a b → S a c → T b c) {x : List α} {y : List β} {z : List γ} (h1 : Forall₂ R x y) (h2 : Forall₂ S x z) : Forall₂ T y z := by
  induction h1 generalizing z with
  | nil => cases h2; exact .nil
  | cons h1 _ ih =>
    cases h2 with
    | cons h2 h3 => exact .cons (h _ _ _ h1 h2) (ih h3)

theorem rmesh_tri (h : ∀ a b c, R a b → S a c → T b c) {x : Mesh D α} {y : Mesh D β} {z : Mesh D γ} (h1 : RMesh R x y) (h2 : RMesh S x z) : RMesh T y z := by
  cases h1 with
  | mk h1 => cases h2 with
    | mk h2 => exact .mk (forall₂_tri h h1 h2)

theorem rsolver_tri (h : ∀ a b c, R a b → S a c → T b c) {x : Solver α} {y : Solver β} {z : Solver γ} (h1 : RSolver R x y) (h2 : RSolver S x z) : RSolver T y z := by
  cases h1 with
  | band h1 =>
    cases h2 with
    | band h2 =>
      cases h1 with
      | mk h1 => cases h2 with
        | mk h2 => exact .band (.mk (rmesh_tri h h1 h2))
  | ext h1 =>
    cases h2 with
    | ext h2 =>
      cases h1 with
      | mk a1 a2 a3 => cases h2 with
        | mk b1 b2 b3 => exact .ext (.mk (rmesh_tri h a1 b1) (rmesh_tri h a2 b2) (rmesh_tri h a3 b3))

variable {R' : V → V' → Prop} {S' : V → V'' → Prop} {T' : V' → V'' → Prop}

theorem rfn_tri (h : ∀ a b c, R a b → S a c → T b c) (h' : ∀ a b c, R' a b → S' a c → T' b c) {x : InterpFn D α V} {y : InterpFn D β V'} {z : InterpFn D γ V''}
    (h1 : RFn R R' x y) (h2 : RFn S S' x z) : RFn T T' y z := by
  cases h1 with
  | mk a1 a2 => cases h2 with
    | mk b1 b2 => cases a1 with
      | mk a3 a4 a5 => cases b1 with
        | mk b3 b4 b5 =>
          exact .mk (.mk (fun d => forall₂_tri h (a3 d) (b3 d)) (rmesh_tri h' a4 b4) fun d => ⟨h _ _ _ (a5 d).1 (b5 d).1, h _ _ _ (a5 d).2 (b5 d).2⟩)
            fun d => h _ _ _ (a2 d) (b2 d)

theorem rtmpl_tri (h : ∀ a b c, R a b → S a c → T b c) (h' : ∀ a b c, R' a b → S' a c → T' b c) {x : Template D α V} {y : Template D β V'} {z : Template D γ V''}
    (h1 : RTmpl R R' x y) (h2 : RTmpl S S' x z) : RTmpl T T' y z := by
  cases h1 with
  | mk a1 a2 a3 => cases h2 with
    | mk b1 b2 b3 => exact .mk (fun d => forall₂_tri h (a1 d) (b1 d)) (rfn_tri h h' a2 b2) fun d => rsolver_tri h (a3 d) (b3 d)

end tri

end Intp
