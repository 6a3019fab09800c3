import Verif.Proofs.RoundDeriv

/-! # Rounding errors of `derivative_at`: all dimensions and the final sum -/

namespace Intp

open Finset

variable {K F V : Type} [CoordArith K] [Field F] [LinearOrder F] [IsStrictOrderedRing F] [FloorRing F] [ValArith V] [ScaleArith K V] {D : ℕ}
variable {R : RoundK K F} {S : RoundV R V} (T : RoundD S)

namespace BSpline

variable {b : BSpline D K V}

/-- Growth over the dimensions of a list. -/
def growth (Γ : Fin D → F) (m : Fin D → ℕ) (l : List (Fin D)) : F := (l.map fun d => Γ d ^ m d).prod

omit [FloorRing F] in
theorem growth_ge {Γ : Fin D → F} (h : ∀ d, 1 ≤ Γ d) (m : Fin D → ℕ) : ∀ l : List (Fin D), 1 ≤ growth Γ m l
  | [] => by simp [growth]
  | d :: l => by
    have h1 := growth_ge h m l
    have h2 : 1 ≤ Γ d ^ m d := one_le_pow₀ (h d)
    have : growth Γ m (d :: l) = Γ d ^ m d * growth Γ m l := by simp [growth]
    rw [this]
    nlinarith

include T in
/-- All dimensions of a list. -/
theorem Fl.reduce_near (cfg : Cfg) (he : (b.exact R S).WF) {C h W : F} (hb : b.Bounded R S C) (hsp : (b.exact R S).Spaced h W) {Γ : Fin D → F}
    (hΓ : (b.exact R S).Steep Γ) {x w : Fin D → F} {w' : Fin D → K} {s : Fin D → ℕ} (hat : (b.exact R S).At x w s) {mm : Fin D → ℕ} (hmm : ∀ d, mm d ≤ b.order)
    (hord : b.order ≤ 2 ^ 20) (hfW : R.Fits (4 * W)) {Z : F}
    (γ β : Fin D → ℕ → F) (hγ : γ = fun d a => (Polynomial.derivative^[mm d] (pieceP ((b.exact R S).kn d) (s d) b.order (s d - b.order + a))).eval (w d))
    (hβ : β = fun d a => piece ((b.exact R S).kn d) (s d) (b.order - mm d) (s d - b.order + a) (w d)) :
    ∀ (l : List (Fin D)), l.Nodup → ∀ (n : ℕ) (e B : F) (m : Mesh D V) (f : (Fin D → ℕ) → F), 0 ≤ e → 0 ≤ B → MeshClose S (fun _ => b.order + 1) n e B m f →
      R.Fits (2 * (b.order + 1) * (R.g ^ (n + 4 * (l.map mm).sum) * (growth Γ mm l * (B + e + 2 * ((l.map mm).sum : ℕ) * R.η)))) →
      ∑ a ∈ box (fun _ : Fin D => b.order + 1), (∏ d, (if d ∈ l then γ d (a d) else β d (a d))) • f a = Z →
      Ok (l.foldlM (fun m d => Fl.derivReduceDim cfg b (fun d => (w' d, s d)) d (b.order - mm d) m) m) fun cv => ∃ g,
        MeshClose S (fun _ => b.order + 1) (n + 4 * (l.map mm).sum) (growth Γ mm l * (e + 2 * ((l.map mm).sum : ℕ) * R.η)) (growth Γ mm l * B) cv g ∧
        ∑ a ∈ box (fun _ : Fin D => b.order + 1), (∏ d, β d (a d)) • g a = Z
  | [], _, n, e, B, m, f, _, _, hm, _, hsum => by
    refine Spec.ok ⟨f, ?_, by simpa using hsum⟩
    simpa [growth] using hm
  | d :: l, hnd, n, e, B, m, f, he0, hB0, hm, hfit, hsum => by
    rw [List.nodup_cons] at hnd
    rw [List.foldlM_cons]
    have hg := R.one_le_g
    have hη := R.η_nonneg
    have hsub : b.order - (b.order - mm d) = mm d := by have := hmm d; omega
    have hG1 := growth_ge hΓ.one mm l
    have hG : growth Γ mm (d :: l) = Γ d ^ mm d * growth Γ mm l := by simp [growth]
    have hSum : ((d :: l).map mm).sum = mm d + (l.map mm).sum := by simp
    have hP : 1 ≤ Γ d ^ mm d := one_le_pow₀ (hΓ.one d)
    set P := Γ d ^ mm d with hPd
    set G := growth Γ mm l with hGd
    set σ := (l.map mm).sum with hσ
    have hσ0 : (0 : F) ≤ σ := Nat.cast_nonneg _
    have hd0 : (0 : F) ≤ mm d := Nat.cast_nonneg _
    rw [hG, hSum] at hfit
    have hbig : 0 ≤ 2 * ((b.order : F) + 1) := by positivity
    have t0 : 0 ≤ e + 2 * (mm d : F) * R.η := by positivity
    have key : P * (e + 2 * (mm d : F) * R.η) + 2 * (σ : F) * R.η ≤ P * (e + 2 * ((mm d + σ : ℕ) : F) * R.η) := by
      have : 1 * (2 * (σ : F) * R.η) ≤ P * (2 * (σ : F) * R.η) := mul_le_mul_of_nonneg_right hP (by positivity)
      push_cast
      linarith
    have fit1 : R.Fits (2 * (b.order + 1) * (R.g ^ (n + 4 * (b.order - (b.order - mm d))) *
        (Γ d ^ (b.order - (b.order - mm d)) * (B + e + 2 * (b.order - (b.order - mm d) : ℕ) * R.η)))) := by
      rw [hsub, ← hPd]
      have a1 : 0 ≤ B + e + 2 * (mm d : F) * R.η := by positivity
      refine R.fits_of_le (mul_nonneg hbig (mul_nonneg (by positivity) (mul_nonneg (by linarith) a1))) (mul_le_mul_of_nonneg_left ?_ hbig) hfit
      refine mul_le_mul (pow_le_pow_right₀ hg (by omega)) ?_ (mul_nonneg (by linarith) a1) (by positivity)
      have a2 : B + e + 2 * (mm d : F) * R.η ≤ B + e + 2 * ((mm d + σ : ℕ) : F) * R.η := by push_cast; nlinarith
      have a3 : P * 1 ≤ P * G := mul_le_mul_of_nonneg_left hG1 (by linarith)
      rw [mul_one] at a3
      exact mul_le_mul a3 a2 a1 (by nlinarith)
    refine Spec.bind (Fl.derivReduceDim_near T cfg he hb hsp hΓ hat d (Nat.sub_le _ _) hord hfW he0 hm fit1) fun m' ⟨g, hg1, hg2⟩ => ?_
    rw [hsub, ← hPd] at hg1
    rw [hsub] at hg2
    refine (Fl.reduce_near (Z := Z) cfg he hb hsp hΓ hat hmm hord hfW γ β hγ hβ l hnd.2 _ _ _ m' g (mul_nonneg (by linarith) t0) (mul_nonneg (by linarith) hB0) hg1 ?_ ?_).imp ?_
    · refine R.fits_of_le (mul_nonneg hbig (mul_nonneg (by positivity) (mul_nonneg (zero_le_one.trans hG1) ?_))) (mul_le_mul_of_nonneg_left ?_ hbig) hfit
      · exact add_nonneg (add_nonneg (mul_nonneg (zero_le_one.trans hP) hB0) (mul_nonneg (zero_le_one.trans hP) t0)) (by positivity)
      · rw [show n + 4 * mm d + 4 * σ = n + 4 * (mm d + σ) by ring]
        refine mul_le_mul_of_nonneg_left ?_ (by positivity)
        refine (mul_le_mul_of_nonneg_left (c := P * (B + e + 2 * ((mm d + σ : ℕ) : F) * R.η)) ?_ (zero_le_one.trans hG1)).trans_eq (by ring)
        linarith
    · rw [← hsum]
      refine tensor_step hnd.1 fun a ha => ?_
      have := hg2 a ha
      rw [hγ, hβ]
      exact this
    · rintro cv ⟨q, ⟨v, q1, q2⟩, q3⟩
      refine ⟨q, ⟨v, q1, fun a ha => ⟨(q2 a ha).1, (q2 a ha).2.mono hg ?_ ?_ ?_ ?_⟩⟩, q3⟩
      · exact mul_nonneg (zero_le_one.trans hG1) (add_nonneg (mul_nonneg (zero_le_one.trans hP) t0) (by positivity))
      · rw [hSum]; omega
      · rw [hG, hSum]
        exact (mul_le_mul_of_nonneg_left key (zero_le_one.trans hG1)).trans_eq (by ring)
      · rw [hG]; exact le_of_eq (by ring)

include T in
/-- `derivative_at` in rounded arithmetic. -/
theorem Fl.derivativeAtH_near (cfg : Cfg) {x : Fin D → K × ℕ × ℕ} {w : Fin D → K} {C h W : F} {Γ : Fin D → F} (he : (b.exact R S).WF) (hb : b.Bounded R S C)
    (hp : b.Pt R S (fun d => ((x d).1, (x d).2.1)) w) (hs : (b.exact R S).Spaced h W) (hΓ : (b.exact R S).Steep Γ) (hm : ∀ d, (x d).2.2 ≤ b.order)
    (hord : b.order ≤ 2 ^ 20)
    (hB : R.g ^ (D * (5 * b.order + 1)) * (1 + R.coefErr h b.order D) ≤ 2) (hfW : R.Fits (4 * W)) (hf2 : R.Fits 2)
    {k : ℕ} (hk : k = roundings D b.order + 4 * ∑ d, (x d).2.2) {B e : F} (hBd : B = (∏ d, Γ d ^ (x d).2.2) * C)
    (hed : e = (∏ d, Γ d ^ (x d).2.2) * (2 * (∑ d, (x d).2.2 : ℕ) * R.η))
    (hfC : R.Fits (2 * (b.order + 1) * (R.g ^ k * (B + (e + (b.order + 1) ^ D * (R.coefErr h b.order D * (B + e) + R.η)))))) :
    ∃ y, (b.exact R S).derivativeAt cfg (fun d => (R.val (w d), (x d).2)) = .ok y ∧
      Ok (Fl.derivativeAtH cfg b x) fun v => S.Finite v ∧
        |S.val v - y| ≤ (R.g ^ k - 1) * B + R.g ^ k * (e + (b.order + 1) ^ D * (R.coefErr h b.order D * (B + e) + R.η)) := by
  obtain ⟨s, hat, hin⟩ := hp.at R S he
  obtain ⟨Cf, hC⟩ := Mesh.exists_holds (b.exact R S).ctrl he.ctrl
  refine ⟨_, he.derivativeAt_eq cfg (x := fun d => (R.val (w d), (x d).2)) hat hp.hint hm hC, ?_⟩
  have hg := R.one_le_g
  have hη := R.η_nonneg
  have hh := hs.pos
  have hcE := R.coefErr_nonneg hh b.order D
  have hord' : (b.exact R S).order = b.order := rfl
  have hdims' : (b.exact R S).ctrl.dims = b.ctrl.dims := rfl
  have hlen : ∀ d, ((b.exact R S).knots d).length = (b.knots d).length := fun d => List.length_map _
  have hkn : ∀ d, (b.exact R S).kn d = knotFn ((b.knots d).map R.val) := fun d => rfl
  have hmono : ∀ d i j, 1 ≤ i → i ≤ j → j < (b.knots d).length → (b.exact R S).kn d i ≤ (b.exact R S).kn d j := fun d i j h1 h2 h3 =>
    he.mono d i j h1 h2 (by rw [hlen]; exact h3)
  have hseg : ∀ d, b.order ≤ s d ∧ s d + b.order + 1 < (b.knots d).length ∧ s d ≤ (b.exact R S).last d := fun d => by
    have h1 := (hat.seg d).1
    have h2 := (hat.seg d).2.1
    have h3 := he.last_lt d
    rw [hlen, hord'] at h3
    rw [hord'] at h1
    exact ⟨h1, by omega, h2⟩
  have hl : ∀ d i, s d < i + b.order → i ≤ s d → (b.exact R S).kn d i ≤ R.val (w d) := fun d i h1 h2 => by
    have := hseg d
    exact (hmono d i (s d) (by omega) h2 (by omega)).trans (hin d).1
  have hr : ∀ d j, s d < j → j ≤ s d + b.order → R.val (w d) ≤ (b.exact R S).kn d j := fun d j h1 h2 => by
    have := hseg d
    exact (hin d).2.trans (hmono d (s d + 1) j (by omega) h1 (by omega))
  have hnd := fun d => he.seg_nondeg hat d
  set mm : Fin D → ℕ := fun d => (x d).2.2 with hmmd
  set p : Fin D → ℕ := fun d => b.order - mm d with hpd
  have hple : ∀ d, p d ≤ b.order := fun d => Nat.sub_le _ _
  replace hk : k = roundings D b.order + 4 * ∑ d, mm d := hk
  replace hed : e = (∏ d, Γ d ^ mm d) * (2 * (∑ d, mm d : ℕ) * R.η) := hed
  unfold Fl.derivativeAtH
  rw [if_neg (by push Not; exact hm)]
  simp only
  rw [tabM_ok (g := fun d => (w d, s d)) (fun d => getKnotIter'_val R S he hb hp hat d), ok_bind]
  refine Spec.bind (tabM_spec (Q := fun d l => l.length = b.order + 1 ∧ ∀ a, a ≤ b.order →
    R.Entry h ((b.exact R S).kn d) (s d) b.order (R.val (w d)) (p d) a l) fun d => ?_) fun base hbase => ?_
  · have hsd := hseg d
    have hD : 1 ≤ D := d.pos
    refine Fl.baseSplineValue_near R (W := W) hsd.1 (by omega) (hb.knots d) (hp.finite d) (hnd d) (hple d) (hl d) (hr d) hh ?_ ?_ hfW hf2
    · intro i j h1 h2 h3 h4
      have hlt : (b.exact R S).kn d (s d) < (b.exact R S).kn d (s d + 1) :=
        IsSeg.nondeg (he.kmono d) (by have := he.last_lt d; omega) (he.first d) (he.lastSeg d) (hat.seg d)
      have a1 := hs.min d (s d) hsd.1 hsd.2.2 hlt
      have a2 := hmono d i (s d) (by omega) h2 (by omega)
      have a3 := hmono d (s d + 1) j (by omega) h3 (by omega)
      have a4 := hmono d 1 i (by omega) (by omega) (by omega)
      have a5 := hmono d j ((b.knots d).length - 1) (by omega) (by omega) (by omega)
      have a6 := hs.max d
      rw [hlen] at a6
      rw [← hkn]
      constructor <;> linarith
    · refine le_trans ?_ hB
      have e1 := R.absErr_nonneg hh b.order
      refine mul_le_mul (pow_le_pow_right₀ hg ?_) ?_ (by linarith) (by positivity)
      · calc 5 * b.order ≤ 1 * (5 * b.order + 1) := by omega
          _ ≤ _ := Nat.mul_le_mul_right _ hD
      · unfold RoundK.coefErr
        have : (1 : F) ≤ D := by exact_mod_cast hD
        nlinarith
  set dims : Fin D → ℕ := fun _ => b.order + 1 with hdims
  set β : Fin D → ℕ → F := fun d a => piece ((b.exact R S).kn d) (s d) (b.order - mm d) (s d - b.order + a) (R.val (w d)) with hβ
  set γ : Fin D → ℕ → F := fun d a => (Polynomial.derivative^[mm d] (pieceP ((b.exact R S).kn d) (s d) b.order (s d - b.order + a))).eval (R.val (w d)) with hγ
  set Wt : (Fin D → ℕ) → F := fun a => ∏ d, β d (a d) with hWt
  set Q : (Fin D → ℕ) → F := fun a => Cf (fun d => (b.exact R S).ctrlOf d (s d - b.order + a d)) with hQ
  set L := digs (b.order + 1) (freeAxes (fun _ : Fin D => false)) (fun _ => 0) with hL
  set k1 := D * (5 * b.order + 1) with hk1
  set ce := R.coefErr h b.order D with hce
  have hbij := digs_bijOn (D := D) (Nat.succ_pos b.order) (fun _ => false)
  rw [freeAxes_none_length] at hbij
  have hβ1 : ∀ d a, β d a ≤ 1 := fun d a => RoundK.piece_le_one (hl d) (hr d) (hnd d) (hseg d).1 (hple d) _
  have hβ0 : ∀ d a, 0 ≤ β d a := fun d a => piece_nonneg (hl d) (hr d) _ _ (hple d)
  have hWt0 : ∀ a, 0 ≤ Wt a := fun a => prod_nonneg fun d _ => hβ0 d _
  refine Spec.bind (Q := fun st : Mesh D K × Mesh D V => (∃ q : (Fin D → ℕ) → K, st.1.Holds dims q ∧ ∀ a, InRange dims a → R.Finite (q a) ∧ Near R.g k1 ce (R.val (q a)) (Wt a)) ∧
    MeshClose S dims 0 0 C st.2 Q) ?_ fun st ⟨⟨wv, hs1, hs1'⟩, hs2⟩ => ?_
  · -- filling
    refine Spec.imp (Spec.loop (P := fun i (st : Mesh D K × Mesh D V) => ∃ (f : (Fin D → ℕ) → K) (g : (Fin D → ℕ) → V), st.1.Holds dims f ∧ st.2.Holds dims g ∧
      ∀ i' < i, (R.Finite (f (L i')) ∧ Near R.g k1 ce (R.val (f (L i'))) (Wt (L i'))) ∧ S.Finite (g (L i')) ∧ Close R.g 0 0 C (S.val (g (L i'))) (Q (L i'))) (Nat.zero_le _) ?_ ?_) ?_
    · exact ⟨_, _, Mesh.mk'_holds _, Mesh.mk'_holds _, fun i' h => by omega⟩
    · rintro i st _ hi ⟨f, g, h1, h2, h3⟩
      have hLi : InRange dims (L i) := by
        intro d
        have := hbij.1 (show i ∈ Set.Iio _ from hi) d
        simpa [hdims] using this
      unfold Fl.derivFillBody
      rw [localIndices_ok (Nat.succ_pos _), ok_bind]
      rw [show digs (b.order + 1) (freeAxes fun x => false) (fun x => 0) i = L i from rfl]
      have fold := fold_near R hh (order := b.order) (n := D) (Ev := fun d => rd (base d) (L i d))
        (I := fun d => b.ctrlIndex d (s d) (L i d)) (P := fun d => β d (L i d))
        (ind := fun d => (b.exact R S).ctrlOf d (s d - b.order + L i d)) (fun d => ?_) (fun d => hβ1 d _) (fun d => ?_) hB hf2
        (List.finRange D) 0 1 (fun _ => 0) 1 (by simp) R.finite_one le_rfl ?_
      rotate_left
      · obtain ⟨v, e1, e2, e3⟩ := (hbase d).2 _ (Nat.lt_succ_iff.1 (hLi d))
        exact (Ok_rd e1).imp fun w hw => by
          subst hw
          refine ⟨e2, e3.mono hg (R.absErr_nonneg hh _) ?_ (R.absErr_mono hh (hple d))⟩
          have := hple d
          omega
      · rw [ctrlIndex_exact R S]
        exact he.ctrlIndex_eq (hseg d).1 (hseg d).2.2
      · rw [R.val_one, Nat.zero_mul]
        exact (Near.refl zero_le_one).mono hg le_rfl le_rfl (R.coefErr_nonneg hh _ _)
      refine Spec.bind fold fun r ⟨r1, r2, r3⟩ => ?_
      have r3' : r.2 = fun d => (b.exact R S).ctrlOf d (s d - b.order + L i d) := by rw [r3]; funext d; simp
      have hprod : (1 : F) * ((List.finRange D).map fun d => β d (L i d)).prod = Wt (L i) := by
        rw [one_mul, ← List.ofFn_eq_map, List.prod_ofFn]
      rw [hprod, List.length_finRange, Nat.zero_add] at r2
      obtain ⟨m1, e1, g1⟩ := h1.set hLi r.1
      rw [e1, ok_bind, r3']
      refine Spec.bind (rd_ctrl R S hC hb (a := fun d => (b.exact R S).ctrlOf d (s d - b.order + L i d)) fun d => ?_) fun c ⟨c1, c2, c3⟩ => ?_
      · have h1 := hseg d
        have h2 : L i d < b.order + 1 := hLi d
        exact he.ctrlOf_lt (by omega)
      obtain ⟨m2, e2, g2⟩ := h2.set hLi c
      rw [e2, ok_bind]
      refine Spec.pure ⟨_, _, g1, g2, fun i' hi' => ?_⟩
      by_cases hee : L i' = L i
      · rw [hee, Function.update_self, Function.update_self]
        refine ⟨⟨r1, r2⟩, c1, ?_⟩
        have : Q (L i) = S.val c := c3.symm
        rw [this]
        exact Close.refl c2
      · rw [Function.update_of_ne hee, Function.update_of_ne hee]
        refine h3 i' ?_
        by_contra hc
        exact hee (by rw [show i' = i by omega])
    · rintro st ⟨f, g, h1, h2, h3⟩
      have hsurj : ∀ a, InRange dims a → ∃ i, i < (b.order + 1) ^ D ∧ L i = a := by
        intro a ha
        obtain ⟨i, hi, hia⟩ := hbij.2.2 (show a ∈ {a : Fin D → ℕ | ∀ d, if false = true then a d = 0 else a d < b.order + 1} by
          intro d; simpa [hdims] using ha d)
        exact ⟨i, hi, hia⟩
      refine ⟨⟨f, h1, fun a ha => ?_⟩, g, h2, fun a ha => ?_⟩
      · obtain ⟨i, hi, rfl⟩ := hsurj a ha; exact (h3 i hi).1
      · obtain ⟨i, hi, rfl⟩ := hsurj a ha; exact (h3 i hi).2
  -- bounds
  have hC0 : 0 ≤ C := by
    obtain ⟨l, -, h2⟩ := hs2
    exact (h2 (fun _ => 0) (fun _ => Nat.succ_pos _)).2.nonneg
  have hprd1 : 1 ≤ ∏ d, Γ d ^ mm d := by
    have := growth_ge hΓ.one mm (List.finRange D)
    unfold growth at this
    rwa [← List.ofFn_eq_map, List.prod_ofFn] at this
  have hB0 : 0 ≤ B := by rw [hBd]; exact mul_nonneg (by linarith) hC0
  have he0 : 0 ≤ e := by rw [hed]; exact mul_nonneg (by linarith) (by positivity)
  set N := (b.order + 1) ^ D with hN
  have hNF : ((b.order : F) + 1) ^ D = (N : F) := by rw [hN]; push_cast; rfl
  rw [hNF] at hfC ⊢
  have hN1 : (1 : F) ≤ N := by
    have : 1 ≤ N := Nat.one_le_pow _ _ (Nat.succ_pos _)
    exact_mod_cast this
  have hbig : (1 : F) ≤ 2 * ((b.order : F) + 1) := by
    have : (0 : F) ≤ b.order := Nat.cast_nonneg _
    linarith
  have hq : 0 ≤ ce * (B + e) + R.η := add_nonneg (mul_nonneg hcE (by linarith)) hη
  set Y := R.g ^ k * (B + (e + N * (ce * (B + e) + R.η))) with hY
  have hY0 : 0 ≤ Y := mul_nonneg (by positivity) (add_nonneg hB0 (add_nonneg he0 (mul_nonneg (by linarith) hq)))
  have hfY : R.Fits Y := R.fits_of_le hY0 (by nlinarith) hfC
  -- reduction
  have hsumm : ((List.finRange D).map mm).sum = ∑ d, mm d := by rw [← List.ofFn_eq_map, List.sum_ofFn]
  have hgrow : growth Γ mm (List.finRange D) = ∏ d, Γ d ^ mm d := by unfold growth; rw [← List.ofFn_eq_map, List.prod_ofFn]
  have red := Fl.reduce_near T cfg he hb hs hΓ hat (w' := w) hm hord hfW (Z := ∑ a ∈ box dims, (∏ d, γ d (a d)) • Q a) γ β hγ hβ (List.finRange D) (List.nodup_finRange D) 0 0 C st.2 Q le_rfl hC0 hs2
    (by
      rw [hsumm, hgrow, add_zero]
      refine R.fits_of_le (mul_nonneg (by linarith) (mul_nonneg (by positivity) (mul_nonneg (by linarith) (by positivity)))) (mul_le_mul_of_nonneg_left ?_ (by linarith)) hfC
      have e1 : (∏ d, Γ d ^ mm d) * (C + 2 * (∑ d, mm d : ℕ) * R.η) = B + e := by rw [hBd, hed]; ring
      rw [e1, hY]
      refine mul_le_mul (pow_le_pow_right₀ hg (by omega)) ?_ (by linarith) (by positivity)
      have := mul_nonneg (zero_le_one.trans hN1) hq
      linarith)
    (sum_congr rfl fun a _ => by simp)
  refine Spec.bind red fun cv ⟨g, hg1, hg2⟩ => ?_
  rw [hsumm, hgrow, zero_add, zero_add, ← hBd, ← hed] at hg1
  obtain ⟨gv, hgv, hgc⟩ := hg1
  have hsz : st.1.size = N := by
    have := hs1.2.1
    unfold Mesh.WF at this
    rw [hs1.1] at this
    unfold Mesh.size
    rw [this, hN]; simp [hdims]
  rw [hsz]
  set A : ℕ → F := fun i => Wt (decode dims i) with hA
  set G : ℕ → F := fun i => g (decode dims i) with hG
  have hprod : ∏ d, dims d = N := by simp [hdims, hN]
  have hA0 : ∀ i, 0 ≤ A i := fun i => hWt0 _
  have hAs : ∑ i ∈ Finset.range N, A i = 1 := by
    rw [← hprod, hA, sum_decode dims Wt, hWt]
    have := Finset.prod_univ_sum (fun d : Fin D => Finset.range (dims d)) (fun d a => β d a)
    rw [← this]
    refine prod_eq_one fun d _ => ?_
    have h1 := hseg d
    rw [sum_local (f := fun i => piece ((b.exact R S).kn d) (s d) (b.order - mm d) i (R.val (w d))) h1.1 fun i hi => piece_zero_of_gt _ _ _ _ _ (by omega)]
    exact sum_piece_eq_one _ _ (by omega) fun i j h2 h3 h4 h5 => hnd d i j (by rw [hord']; omega) h3 h4 (by rw [hord']; omega)
  have hZ : ∑ i ∈ Finset.range N, A i * G i = tensorVal (b.exact R S).ctrl.dims (fun d => (b.exact R S).weight d (s d) (mm d) (R.val (w d))) Cf := by
    have e1 : ∑ i ∈ Finset.range N, A i * G i = ∑ a ∈ box dims, Wt a • g a := by
      rw [← hprod]; exact sum_decode dims (fun a => Wt a • g a)
    rw [e1, hg2, ← he.local_sum hat mm Cf]
    rfl
  set k0 := k1 + 4 * ∑ d, mm d + 1 with hk0
  have hkk : k = k0 + N := by rw [hk, hk0]; unfold roundings; omega
  have hAle : ∀ n, n ≤ N → ∑ i ∈ Finset.range n, A i ≤ 1 := fun n hn => by
    rw [← hAs]
    exact sum_le_sum_of_subset_of_nonneg (Finset.range_subset_range.2 hn) fun i _ _ => hA0 i
  have hn0 : ∀ n : ℕ, 0 ≤ ∑ i ∈ Finset.range n, A i := fun n => sum_nonneg fun i _ => hA0 i
  -- the sum
  have main := Spec.loop (E := fun _ => False) (lo := 0) (hi := N) (s := (0 : V))
    (P := fun n v => S.Finite v ∧ Close R.g (k0 + n) ((∑ i ∈ Finset.range n, A i) * e + n * (ce * (B + e) + R.η)) ((∑ i ∈ Finset.range n, A i) * B)
      (S.val v) (∑ i ∈ Finset.range n, A i * G i))
    (f := fun i v => (do
      let sv ← rd st.1.storage i
      let q ← rd cv.storage i
      pure (v + sv • q) : M V)) (Nat.zero_le _) ?_ ?_
  · refine main.imp fun v ⟨v1, v2⟩ => ⟨v1, ?_⟩
    rw [← hkk, hAs, one_mul, one_mul, hZ] at v2
    exact v2.abs_sub
  · refine ⟨S.finite_zero, ?_⟩
    rw [S.val_zero]
    simp only [Finset.range_zero, sum_empty, zero_mul, Nat.cast_zero, add_zero]
    exact ⟨by simp, by simp⟩
  intro n v _ hn ⟨hv1, hv2⟩
  have hpos : ∀ d, 0 < dims d := fun _ => Nat.succ_pos _
  have hrn := decode_inRange (dims := dims) (t := n) hpos
  have hnp : n < ∏ d, dims d := by rw [hprod]; exact hn
  have r1 := hs1.get hrn
  have r2 := hgv.get hrn
  unfold Mesh.get at r1 r2
  rw [hs1.1, indexing_decode hnp] at r1
  rw [hgv.1, indexing_decode hnp] at r2
  rw [r1, ok_bind, r2, ok_bind]
  obtain ⟨a1, a2⟩ := hs1' _ hrn
  obtain ⟨c1, c2⟩ := hgc _ hrn
  have m1 := a2.mul_close hg hcE c2
  have hAn : A n ≤ 1 := by
    rw [← hAs]
    exact single_le_sum (f := A) (fun i _ => hA0 i) (Finset.mem_range.2 hn)
  have hAn0 := hA0 n
  have hNn : ((n : ℕ) : F) + 1 ≤ N := by exact_mod_cast (hn : n + 1 ≤ N)
  have fits : ∀ {m : ℕ} {e' B' p q : F}, Close R.g m e' B' p q → 0 ≤ e' → m ≤ k → B' + e' ≤ B + (e + N * (ce * (B + e) + R.η)) → R.Fits p := by
    intro m e' B' p q h h0 hm h'
    have h3 := h.nonneg
    have h4 : R.g ^ m * (B' + e') ≤ Y := mul_le_mul (pow_le_pow_right₀ hg hm) h' (by linarith) (by positivity)
    exact R.fits_mono _ _ ((h.abs_le.trans h4).trans (le_abs_self _)) hfY
  have hce0 : 0 ≤ ce * (B + e) := mul_nonneg hcE (by linarith)
  have hme : 0 ≤ Wt (decode dims n) * e + ce * (B + e) := add_nonneg (mul_nonneg hAn0 he0) hce0
  obtain ⟨f1, s1⟩ := S.smul (wv (decode dims n)) (gv (decode dims n)) a1 c1 (fits m1 hme (by omega) (by
    have e1 : Wt (decode dims n) * B ≤ 1 * B := mul_le_mul_of_nonneg_right hAn hB0
    have e2 : Wt (decode dims n) * e ≤ 1 * e := mul_le_mul_of_nonneg_right hAn he0
    have e3 : 1 * (ce * (B + e) + R.η) ≤ N * (ce * (B + e) + R.η) := mul_le_mul_of_nonneg_right hN1 hq
    linarith))
  have m2 := m1.round R.u_nonneg R.u_lt_one hη hme s1
  have m3 := Close.mono (l := k0 + n) hg (add_nonneg hme hη) m2 (by omega) le_rfl le_rfl
  have hsn := hn0 n
  have m4 := hv2.add m3
  have hnn : (0 : F) ≤ n := Nat.cast_nonneg _
  have herr : 0 ≤ (∑ i ∈ Finset.range n, A i) * e + n * (ce * (B + e) + R.η) + (Wt (decode dims n) * e + ce * (B + e) + R.η) :=
    add_nonneg (add_nonneg (mul_nonneg hsn he0) (mul_nonneg hnn hq)) (add_nonneg hme hη)
  have hs1n := hAle (n + 1) hn
  rw [sum_range_succ] at hs1n
  obtain ⟨f2, s2⟩ := S.add v _ hv1 f1 (fits m4 herr (by omega) (by
    have e1 := mul_le_mul_of_nonneg_right hs1n hB0
    have e2 := mul_le_mul_of_nonneg_right hs1n he0
    have e3 := mul_le_mul_of_nonneg_right hNn hq
    have e4 : A n = Wt (decode dims n) := rfl
    rw [e4] at e1 e2
    linarith))
  have m5 := m4.round R.u_nonneg R.u_lt_one le_rfl herr (z := S.val (v + wv (decode dims n) • gv (decode dims n))) (by rw [add_zero]; exact s2)
  refine Spec.pure ⟨f2, ?_⟩
  rw [add_zero] at m5
  rw [sum_range_succ, sum_range_succ]
  refine Close.mono hg herr m5 (by omega) (le_of_eq ?_) (le_of_eq ?_)
  · have e4 : A n = Wt (decode dims n) := rfl
    rw [e4]; push_cast; ring
  · have e4 : A n = Wt (decode dims n) := rfl
    rw [e4]; ring

end BSpline

end Intp
