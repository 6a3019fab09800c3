import Verif.Proofs.EndTypes
import Mathlib.Data.Rat.Floor

/-!
# C107: ranges given by numbers of another arithmetic type
-/

namespace Intp

section

variable {K V : Type} [CoordArith K] [ValArith V] [ScaleArith K V] {D : ℕ}

/-- **C107, any arithmetic.**  If in every dimension given by its ends their difference, computed in their own type, is what `coord_type` gives
for the converted ends, the function constructed (or the failure) is the one for the converted ends. -/
theorem range_type_partial (w : Bool) (c : Cfg) (o : ℕ) (per : Fin (D + 1) → Bool) (fm : Mesh (D + 1) V) (x : Fin (D + 1) → XRangeT K)
    (h : ∀ d a b u, x d = .ends a b u → u = .ok (b - a)) :
    Fl.constructR w c o per fm x = Fl.construct w c o per fm fun d => (x d).toK := by
  unfold Fl.constructR Fl.construct Fl.constructTT Fl.constructT
  rw [Fl.partialConstructT_eq h]

/-- If the difference of the ends fails in some dimension nothing is constructed. -/
theorem range_type_fails (w : Bool) (c : Cfg) (o : ℕ) (per : Fin (D + 1) → Bool) (fm : Mesh (D + 1) V) (x : Fin (D + 1) → XRangeT K)
    {d : Fin (D + 1)} {a b : K} {e : Err} (h : x d = .ends a b (.error e)) (g : InterpFn (D + 1) K V) : Fl.constructR w c o per fm x ≠ .ok g := by
  unfold Fl.constructR Fl.constructTT Fl.partialConstructT
  intro hg
  cases hf : (List.finRange (D + 1)).foldlM (Fl.createKnotVectorT (V := V) c fm.dims x) (Fl.blank o per, fun _ => []) with
  | error e => rw [hf] at hg; simp only [error_bind] at hg; cases hg
  | ok r => exact Fl.foldlM_ne_ok (List.mem_finRange d) (fun s r => Fl.createKnotVectorT_ne h r) _ r hf

/-- **C107 is false:** the difference of the ends is computed in their own type.  If both are of a signed integer type (after promotion) and
differ by `2 ^ (bits - 1)` or more, it overflows, which is undefined behaviour; here in the first dimension, for all data. -/
theorem int_range_overflow (w : Bool) (c : Cfg) (o : ℕ) (per : Fin (D + 1) → Bool) (fm : Mesh (D + 1) V) (x : Fin (D + 1) → XRangeT K)
    (conv : ℤ → K) {t : IntTy} {a b : ℤ} (hx : x 0 = .ints conv t a b) (hs : t.promote.signed = true) (h : 2 ^ (t.promote.bits - 1) ≤ b - a)
    (hn : 1 ≤ fm.dims 0) : Fl.constructR w c o per fm x = .error .overflow := by
  unfold XRangeT.ints at hx
  rw [IntTy.sub_overflow hs h, error_bind] at hx
  unfold Fl.constructR Fl.constructTT Fl.partialConstructT
  rw [List.finRange_succ, List.foldlM_cons, Fl.createKnotVectorT_err hx]
  · rfl
  · show 1 ≤ pointNum c (per 0) (fm.dims 0)
    unfold pointNum
    omega

end

/-- What is known of the range of one dimension: of type `coord_type`, or a pair of ordered integers of one type whose difference is a value of the
promoted type (always so for unsigned types that are not promoted to `int`), with `P` holding of both. -/
def XRangeT.Good {K : Type} [CoordArith K] (conv : ℤ → K) (P : ℤ → Prop) (x : XRangeT K) : Prop :=
  (∃ r, x = .plain r) ∨ ∃ (t : IntTy) (a b : ℤ), x = .ints conv t a b ∧ t.Has a ∧ t.Has b ∧ a ≤ b ∧
    (t.promote.signed = true → b - a < 2 ^ (t.promote.bits - 1)) ∧ P a ∧ P b

theorem XRangeT.Good.diff {K : Type} [CoordArith K] {conv : ℤ → K} {P : ℤ → Prop} (hP : ∀ a b, P a → P b → conv (b - a) = conv b - conv a)
    {x : XRangeT K} (h : x.Good conv P) {a b : K} {u : M K} (hx : x = .ends a b u) : u = .ok (b - a) := by
  rcases h with ⟨r, rfl⟩ | ⟨t, i, j, rfl, hi, hj, hij, hs, h1, h2⟩
  · cases r with
    | uniform a' b' => cases hx; rfl
    | coords l => cases hx
  · unfold XRangeT.ints at hx
    rw [IntTy.sub_ok hi hj hij hs, ok_bind] at hx
    cases hx
    rw [hP i j h1 h2]
    rfl

section

variable {K V : Type} [Field K] [LinearOrder K] [IsStrictOrderedRing K] [FloorRing K] [AddCommGroup V] [Module K V] {D : ℕ}

/-- **C107, exact arithmetic.**  Ordered integers whose difference does not overflow give the function for the same numbers in `coord_type`. -/
theorem int_range_partial (c : Cfg) (o : ℕ) (per : Fin (D + 1) → Bool) (fm : Mesh (D + 1) V) (x : Fin (D + 1) → XRangeT K)
    (h : ∀ d, @XRangeT.Good K (exactCoord K) Int.cast (fun _ => True) (x d)) :
    @Fl.constructR K V (exactCoord K) D (exactVal V) (exactScale K V) false c o per fm x = InterpFn.construct c o per fm fun d => (x d).toK := by
  rw [← Fl.tie_construct]
  refine @range_type_partial K V (exactCoord K) (exactVal V) (exactScale K V) D false c o per fm x fun d a b u hx => ?_
  exact @XRangeT.Good.diff K (exactCoord K) Int.cast (fun _ => True) (fun a b _ _ => Int.cast_sub b a) (x d) (h d) a b u hx

end

/-- **C107, `double`.**  The same bit by bit for integers up to `2 ^ 53`, in particular for all `int` and `unsigned` ranges that do not overflow. -/
theorem int_range_double_partial {D : ℕ} (c : Cfg) (o : ℕ) (per : Fin (D + 1) → Bool) (fm : Mesh (D + 1) F64) (x : Fin (D + 1) → XRangeT F64)
    (h : ∀ d, (x d).Good F64.ofInt fun z => |z| ≤ 2 ^ 53) : Fl.constructR true c o per fm x = Fl.construct true c o per fm fun d => (x d).toK :=
  range_type_partial true c o per fm x fun d _ _ _ hx => (h d).diff (fun _ _ ha hb => F64.ofInt_sub ha hb) hx

/-- **C107, `float` ends with `double` coordinates.**  The same bit by bit if in every dimension given by `float`s their difference is a `float`. -/
theorem float_range_partial {D : ℕ} (c : Cfg) (o : ℕ) (per : Fin (D + 1) → Bool) (fm : Mesh (D + 1) F64) (x : Fin (D + 1) → XRangeT F64)
    (h : ∀ d, (∃ r, x d = .plain r) ∨ ∃ a b, x d = .floats a b ∧ F64.rnd32 (b - a) = b - a ∧ |b - a| < 2 ^ 128) :
    Fl.constructR true c o per fm x = Fl.construct true c o per fm fun d => (x d).toK := by
  refine range_type_partial true c o per fm x fun d a b u hx => ?_
  rcases h d with ⟨r, hr⟩ | ⟨a', b', hr, h1, h2⟩
  · rw [hr] at hx
    cases r with
    | uniform a' b' => cases hx; rfl
    | coords l => cases hx
  · rw [hr] at hx
    cases hx
    rw [F64.sub32_eq h1 h2]

/-- The hypotheses of `float_range_partial` for the ends `-1.5f` and `2.25f`. -/
example : F64.rnd32 (9 / 4 - (-3 / 2)) = 9 / 4 - (-3 / 2) ∧ |(9 / 4 - (-3 / 2) : ℚ)| < 2 ^ 128 := by decide +kernel

/-- Two integer types: the one-dimensional constructor converts both ends to the common type first, which changes nothing if that type has both. -/
theorem mixed_range_partial {K : Type} (conv : ℤ → K) {s t : IntTy} {a b : ℤ} (hb : 0 < (s.common t).bits) (h1 : (s.common t).Has a)
    (h2 : (s.common t).Has b) : XRangeT.ints1 conv s t a b = .ints conv (s.common t) a b := by
  unfold XRangeT.ints1
  rw [IntTy.wrap_of_has hb h1, IntTy.wrap_of_has hb h2]

/-- The values `v` on a range, order 1, assertions enabled; evaluated at `y`. -/
def endExample (v : List ℚ) (x : XRangeT F64) (y : ℚ) : M F64 := do
  let g ← Fl.constructR (V := F64) true ⟨true, false⟩ 1 (fun _ => false) ⟨fun _ : Fin 1 => v.length, v.map .fin⟩ fun _ => x
  Fl.call g fun _ => .fin y

/-- **C107 is false** for `std::make_pair(-1, 10u)`: the common type is `unsigned`, in which `-1` is 4294967295.  The function has the value
about `-1.17e9` instead of 1 at the first data point, also with assertions.  The same numbers as `double`s are right. -/
theorem mixed_range_wrong : IntTy.common .int .uint = .uint ∧
    endExample [1, 2, 3, 5] (.ints1 F64.ofInt .int .uint (-1) 10) (-1) = .ok (.fin (-4913017345171831 / 4194304)) ∧
    endExample [1, 2, 3, 5] (.plain (.uniform (.fin (-1)) (.fin 10))) (-1) = .ok (.fin 1) ∧
    endExample [1, 2, 3, 5] (.ints F64.ofInt .int (-1) 10) (-1) = .ok (.fin 1) := by decide +kernel

/-- **C107 is false** for `float` ends with `double` coordinates: the difference of `-1.f` and `16777216.f` is rounded to 24 bits.  The step is
too small and the function misses the data point in the middle (values 0, 1, 0; order 1). -/
theorem float_range_wrong :
    endExample [0, 1, 0] (.floats (-1) (2 ^ 24)) (2 ^ 23 - 1 / 2) = .ok (.fin (140737479966721 / 140737488355328)) ∧
    endExample [0, 1, 0] (.plain (.uniform (.fin (-1)) (.fin (2 ^ 24)))) (2 ^ 23 - 1 / 2) = .ok (.fin 1) := by decide +kernel

/-- **C107 is false** for `float` ends whose difference is too large for a `float`: it is infinite and the function has the value NaN at the first data
point.  The same numbers as `double`s are right, and so are `float`s half as large. -/
theorem float_range_overflow :
    endExample [1, 2, 3, 5] (.floats (-2 ^ 127) (2 ^ 127)) (-2 ^ 127) = .ok .nan ∧
    endExample [1, 2, 3, 5] (.plain (.uniform (.fin (-2 ^ 127)) (.fin (2 ^ 127)))) (-2 ^ 127) = .ok (.fin 1) ∧
    endExample [1, 2, 3, 5] (.floats (-2 ^ 126) (2 ^ 126)) (-2 ^ 126) = .ok (.fin 1) := by decide +kernel

/-- An overflowing range of type `int`: `std::make_pair(-2000000000, 2000000000)`; and the same in 64 bits, which is right. -/
example : endExample [1, 2, 3, 5] (.ints F64.ofInt .int (-2000000000) 2000000000) 0 = .error .overflow ∧
    endExample [1, 2, 3, 5] (.ints F64.ofInt ⟨true, 64⟩ (-2000000000) 2000000000) 2000000000 = .ok (.fin 5) := by decide +kernel

/-- The hypotheses of `int_range_double_partial` hold for a two-dimensional range given by `std::make_pair(-3, 7)` and by `short`s. -/
example : ∀ d : Fin 2, ((![.ints F64.ofInt .int (-3) 7, .ints F64.ofInt ⟨true, 16⟩ (-32768) 32767] : Fin 2 → XRangeT F64) d).Good F64.ofInt
    fun z => |z| ≤ 2 ^ 53 := by
  intro d
  match d with
  | 0 => exact .inr ⟨.int, -3, 7, rfl, by decide, by decide, by decide, fun _ => by decide, by decide, by decide⟩
  | 1 => exact .inr ⟨⟨true, 16⟩, -32768, 32767, rfl, by decide, by decide, by decide, fun _ => by decide, by decide, by decide⟩

end Intp
