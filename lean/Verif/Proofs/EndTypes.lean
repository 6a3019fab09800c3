import Verif.EndTypes
import Verif.Proofs.FloatTie
import Verif.Proofs.F64Nearest

/-!
# Lemmas on ranges whose ends are not of type `coord_type`
-/

namespace Intp

namespace IntTy

theorem wrap_of_has {t : IntTy} {z : ℤ} (hb : 0 < t.bits) (h : t.Has z) : t.wrap z = z := by
  unfold Has at h
  unfold wrap
  have e : (2 : ℤ) ^ t.bits = 2 * 2 ^ (t.bits - 1) := by
    rw [← pow_succ']
    congr 1
    omega
  split at h <;> rename_i hs
  · rw [if_pos hs, e, Int.emod_eq_of_lt (by omega) (by omega)]
    omega
  · rw [if_neg hs, Int.emod_eq_of_lt h.1 h.2]

theorem promote_bits (t : IntTy) : 32 ≤ t.promote.bits := by
  unfold promote
  split
  · exact le_rfl
  · omega

/-- Promotion keeps the values. -/
theorem promote_has {t : IntTy} {z : ℤ} (h : t.Has z) : t.promote.Has z := by
  unfold promote
  split
  · rename_i hb
    unfold Has at h
    simp only [Has, int, if_true]
    have h1 : (2 : ℤ) ^ t.bits ≤ 2 ^ 31 := pow_le_pow_right₀ (by norm_num) (by omega)
    have h2 : (2 : ℤ) ^ (t.bits - 1) ≤ 2 ^ 31 := pow_le_pow_right₀ (by norm_num) (by omega)
    split at h <;> constructor <;> omega
  · exact h

theorem sub_ok {t : IntTy} {a b : ℤ} (ha : t.Has a) (hb : t.Has b) (hab : a ≤ b)
    (h : t.promote.signed = true → b - a < 2 ^ (t.promote.bits - 1)) : t.sub b a = .ok (b - a) := by
  have ha' := promote_has ha
  have hb' := promote_has hb
  unfold sub
  by_cases hs : t.promote.signed = true
  · rw [if_pos hs, if_pos]
    unfold Has
    rw [if_pos hs]
    have : (0 : ℤ) < 2 ^ (t.promote.bits - 1) := by positivity
    exact ⟨by omega, h hs⟩
  · rw [if_neg hs, wrap_of_has (by have := promote_bits t; omega)]
    unfold Has at ha' hb' ⊢
    rw [if_neg hs] at ha' hb' ⊢
    omega

theorem sub_overflow {t : IntTy} {a b : ℤ} (hs : t.promote.signed = true) (h : 2 ^ (t.promote.bits - 1) ≤ b - a) :
    t.sub b a = .error .overflow := by
  unfold sub
  rw [if_pos hs, if_neg]
  unfold Has
  rw [if_pos hs]
  omega

end IntTy

namespace F64

theorem ofInt_eq {z : ℤ} (h : |z| ≤ 2 ^ 53) : ofInt z = .fin z := by
  have hr : rnd (z : ℚ) = z := by
    refine rnd_of_rep ?_
    have := Rep.of_le (m := z) (e := 0) h (by norm_num)
    simpa using this
  have hf : Fits (z : ℚ) := by
    unfold Fits
    have h1 : |(z : ℚ)| ≤ 2 ^ 53 := by exact_mod_cast h
    have h2 : (2 : ℚ) ^ 53 ≤ 2 ^ (1023 : ℤ) := by
      rw [← zpow_natCast]
      exact zpow_le_zpow_right₀ (by norm_num) (by norm_num)
    exact h1.trans h2
  unfold ofInt
  rw [round_fits hf, hr]

/-- The difference computed in integers and rounded is the one computed in `double`. -/
theorem ofInt_sub {a b : ℤ} (ha : |a| ≤ 2 ^ 53) (hb : |b| ≤ 2 ^ 53) : ofInt (b - a) = ofInt b - ofInt a := by
  rw [ofInt_eq ha, ofInt_eq hb, sub_fin]
  unfold ofInt
  push_cast
  rfl

/-- What binary32 represents exactly binary64 does. -/
theorem rnd_of_rnd32 {q : ℚ} (h : rnd32 q = q) : rnd q = q := by
  by_cases hq : q = 0
  · rw [hq, rnd_zero]
  · unfold rnd32 at h
    rw [if_neg hq, pow2_eq] at h
    set e := max (expo q - 23) (-149) with he
    set n := nearest (q / 2 ^ e) with hn
    have hle : last q ≤ e := by unfold last; omega
    obtain ⟨k, hk⟩ : ∃ k : ℕ, e = last q + k := ⟨(e - last q).toNat, by omega⟩
    have h2 : (2 : ℚ) ^ last q ≠ 0 := zpow_ne_zero _ two_ne_zero
    have hz : q / 2 ^ last q = ((n * 2 ^ k : ℤ) : ℚ) := by
      rw [div_eq_iff h2]
      conv_lhs => rw [← h, hk, zpow_add₀ two_ne_zero, zpow_natCast]
      push_cast
      ring
    rw [rnd_eq hq, hz, nearest_int, ← hz, div_mul_cancel₀ _ h2]

/-- If the difference is a `float`, computing it in `float` or in `double` is the same. -/
theorem sub32_eq {a b : ℚ} (h : rnd32 (b - a) = b - a) (hb : |b - a| < 2 ^ 128) : sub32 b a = .fin b - .fin a := by
  have h1 : ¬ pow2 128 ≤ |b - a| := by rw [pow2_eq]; exact not_le.2 (by exact_mod_cast hb)
  have h2 : ¬ pow2 1024 ≤ |b - a| := by
    rw [pow2_eq]
    refine not_le.2 (lt_of_lt_of_le hb ?_)
    have : (2 : ℚ) ^ (128 : ℤ) ≤ 2 ^ (1024 : ℤ) := zpow_le_zpow_right₀ (by norm_num) (by norm_num)
    exact_mod_cast this
  rw [sub_fin]
  unfold sub32 round
  simp only [rnd_of_rnd32 h, h, if_neg h1, if_neg h2]

end F64

namespace Fl

variable {K V : Type} [CoordArith K] {D : ℕ} {c : Cfg} {o : ℕ} {per : Fin D → Bool} {dims : Fin D → ℕ} {x : Fin D → XRangeT K}

theorem createKnotVectorT_eq {st : InterpFn D K V × (Fin D → List K)} {d : Fin D} (h : ∀ a b u, x d = .ends a b u → u = .ok (b - a)) :
    createKnotVectorT c dims x st d = createKnotVector c dims (fun d => (x d).toK) st d := by
  unfold createKnotVectorT createKnotVector
  cases hx : x d with
  | coords l => simp only [hx, XRangeT.toK]
  | ends a b u =>
    rw [h a b u hx]
    simp only [hx, XRangeT.toK, uniformStep, ok_bind, bind_assoc]

theorem partialConstructT_eq (h : ∀ d a b u, x d = .ends a b u → u = .ok (b - a)) :
    partialConstructT (V := V) c o per dims x = partialConstruct c o per dims (fun d => (x d).toK) := by
  unfold partialConstructT partialConstruct
  congr 1
  funext st d
  exact createKnotVectorT_eq (h d)

theorem createKnotVectorT_err {st : InterpFn D K V × (Fin D → List K)} {d : Fin D} {a b : K} {e : Err} (h : x d = .ends a b (.error e))
    (hn : 1 ≤ pointNum c (st.1.periodicity d) (dims d)) : createKnotVectorT c dims x st d = .error e := by
  unfold createKnotVectorT
  rw [h]
  simp only [subM, if_pos hn, ok_bind, error_bind]

theorem createKnotVectorT_ne {st : InterpFn D K V × (Fin D → List K)} {d : Fin D} {a b : K} {e : Err} (h : x d = .ends a b (.error e))
    (r : InterpFn D K V × (Fin D → List K)) : createKnotVectorT c dims x st d ≠ .ok r := by
  unfold createKnotVectorT
  rw [h]
  intro hr
  dsimp only at hr
  cases hm : subM (pointNum c (st.1.periodicity d) (dims d)) 1 with
  | error e' => rw [hm, error_bind] at hr; cases hr
  | ok m => rw [hm, ok_bind, error_bind] at hr; cases hr

theorem foldlM_ne_ok {α β : Type} {f : β → α → M β} {l : List α} {d : α} (hd : d ∈ l) (h : ∀ s r, f s d ≠ .ok r) (s r : β) :
    l.foldlM f s ≠ .ok r := by
  induction l generalizing s with
  | nil => cases hd
  | cons a l ih =>
    rw [List.foldlM_cons]
    cases hf : f s a with
    | error e => rw [error_bind]; exact fun h => by cases h
    | ok s' =>
      rw [ok_bind]
      rcases List.mem_cons.1 hd with rfl | hd
      · exact absurd hf (h s s')
      · exact ih hd s'

end Fl

end Intp
