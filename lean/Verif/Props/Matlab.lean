import Verif.Proofs.Matlab

/-!
# The MATLAB interface (C78)
-/

namespace Intp

open Matlab

variable {K : Type} [Field K] [LinearOrder K] [IsStrictOrderedRing K] [FloorRing K] {D : ℕ}

/-- The arguments of a call from MATLAB as functions: an array of sizes `n` (a column vector if there is one dimension) with elements `v`, the
periodicities `p`, the ranges from `lo` to `hi`, the `N` points `y` and the orders `m` of the derivatives; dimensions in MATLAB's order. -/
structure MatlabCall (D N : ℕ) (per : Arr Bool) (range mesh coor : Arr K) (deriv : Arr ℕ) (n : Fin (D + 1) → ℕ) (v : (Fin (D + 1) → ℕ) → K)
    (p : Fin (D + 1) → Bool) (lo hi : Fin (D + 1) → K) (y : ℕ → Fin (D + 1) → K) (m : Fin (D + 1) → ℕ) : Prop where
  sizes : if D = 0 then mesh.dims = [n 0, 1] else mesh.dims = List.ofFn n
  elems : ∀ a, (∀ d, a d < n d) → mesh.get (List.ofFn a) = .ok (v a)
  ranges : range.dims = [D + 1, 2] ∧ ∀ d : Fin (D + 1), range.get [(d : ℕ), 0] = .ok (lo d) ∧ range.get [(d : ℕ), 1] = .ok (hi d)
  periods : per.dims[0]? = some (D + 1) ∧ ∀ d : Fin (D + 1), per.get [(d : ℕ)] = .ok (p d)
  derivs : deriv.dims[0]? = some (D + 1) ∧ ∀ d : Fin (D + 1), deriv.get [(d : ℕ)] = .ok (m d)
  points : coor.dims = [N, D + 1] ∧ ∀ i, i < N → ∀ d : Fin (D + 1), coor.get [i, (d : ℕ)] = .ok (y i d)

section

variable {N o : ℕ} {per : Arr Bool} {range mesh coor : Arr K} {deriv : Arr ℕ} {n : Fin (D + 1) → ℕ} {v : (Fin (D + 1) → ℕ) → K}
  {p : Fin (D + 1) → Bool} {lo hi : Fin (D + 1) → K} {y : ℕ → Fin (D + 1) → K} {m : Fin (D + 1) → ℕ}

theorem MatlabCall.dimCount (h : MatlabCall D N per range mesh coor deriv n v p lo hi y m) (hn : ∀ d, 1 < n d) :
    Matlab.dimCount mesh = D + 1 := by
  have hs := h.sizes
  unfold Matlab.dimCount
  by_cases hD : D = 0
  · subst hD
    rw [if_pos rfl] at hs
    rw [hs]
    simp [List.countP_cons, hn]
  · rw [if_neg hD] at hs
    rw [hs, List.countP_eq_length.2, List.length_ofFn]
    intro a ha
    obtain ⟨d, rfl⟩ := (List.mem_ofFn' n a).1 ha
    simpa using hn d

theorem MatlabCall.dims (h : MatlabCall D N per range mesh coor deriv n v p lo hi y m) (d : Fin (D + 1)) : rd mesh.dims d = .ok (n d) := by
  have hs := h.sizes
  rw [rd_eq_ok_iff]
  by_cases hD : D = 0
  · subst hD
    rw [if_pos rfl] at hs
    rw [hs, show d = 0 from Fin.ext (by have := d.isLt; show (d : ℕ) = 0; omega)]
    rfl
  · rw [if_neg hD] at hs
    rw [hs, List.getElem?_ofFn, dif_pos d.isLt]

theorem MatlabCall.check (h : MatlabCall D N per range mesh coor deriv n v p lo hi y m) (hn : ∀ d, 1 < n d) :
    checkArguments per range mesh coor deriv = .ok () := by
  unfold checkArguments
  rw [h.dimCount hn]
  have h0 : mesh.dims[0]? = some (n 0) := by
    have := h.dims 0
    rwa [rd_eq_ok_iff] at this
  have := hn 0
  rw [if_neg (by simp [h.ranges.1]), if_neg (by rw [h0]; simp; omega), if_neg (by simp [h.periods.1, h.derivs.1]),
    if_neg (by simp [h.points.1])]

/-- **C78.**  Points returned to MATLAB: `result(i)` is the derivative of orders `m` at `y i` of the interpolation function of the array with its dimensions
in MATLAB's order (a periodic dimension without the repeated last point).  Missing, since not true: arrays with a dimension of size 1 before the last one
(`matlab_singleton`), more than three dimensions (`matlab_dims`), too few points for the order (not checked, C28). -/
theorem matlab_partial (c : Cfg) (hc : c.noDummy = false) (hD : D < 3) (hn : ∀ d, 1 < n d)
    (h : MatlabCall D N per range mesh coor deriv n v p lo hi y m) {fm : Mesh (D + 1) K} (hm : fm.WF)
    (hd : ∀ d, fm.dims d = n d + if p d then 1 else 0) (hf : ∀ a, (∀ d, a d < n d) → fm.get a = .ok (v a))
    (hv : ValidAxes c o p fm.dims fun d => .uniform (lo d) (hi d)) :
    ∃ g res, InterpFn.construct c o p fm (fun d => .uniform (lo d) (hi d)) = .ok g ∧
      bspline c o per range mesh coor deriv = .ok res ∧ res.length = N ∧
      ∀ i, i < N → ∃ z, g.derivative c (y i) m = .ok z ∧ res[i]? = some z := by
  classical
  obtain ⟨g, hg⟩ := periodic_construct_ok_partial c hm hv fun d _ => .inl ⟨_, _, rfl⟩
  have hds : fm.dims = fun d => n d + if p d then 1 else 0 := funext hd
  -- the mesh that the interface fills, and the same with the dimensions in order
  set W : Fin (D + 1) → ℕ := fun d => n d.rev + if p d.rev then 1 else 0
  set F : (Fin (D + 1) → ℕ) → K := fun b => if ∀ d : Fin (D + 1), b d.rev < n d then v fun d => b d.rev else 0
  obtain ⟨f', hf1, hf'⟩ := Ok.exists (colMajor_fill c n W (fun d => Nat.le_add_right _ _) v h.elems)
  obtain ⟨f0, hf0⟩ := Mesh.exists_of_fun fm.dims fun a => F fun d => a d.rev
  have hF : ∀ a, (∀ d, a d < n d) → F (fun d => a d.rev) = v a := fun a ha => by
    show (if ∀ d : Fin (D + 1), a d.rev.rev < n d then v fun d => a d.rev.rev else 0) = v a
    simp only [Fin.rev_rev]
    rw [if_pos ha]
  have hv0 : ValidAxes c o p f0.dims fun d => .uniform (lo d) (hi d) := by rw [hf0.1]; exact hv
  have h0 : InterpFn.construct c o p f0 (fun d => .uniform (lo d) (hi d)) = .ok g := by
    rw [← hg]
    refine dummy_ignored c hc hf0.2.1 hm hf0.1 hv0 fun I hI hI' => ?_
    have : ∀ d, I d < n d := fun d => by
      have h1 := hI d
      have h2 := hI' d
      rw [hf0.1, hd d] at h1 h2
      cases hp : p d with
      | false => simpa [hp] using h1
      | true => simpa [hp] using h2 hp
    rw [hf0.get (by rw [← hf0.1]; exact hI), hf I this, hF I this]
  have h1 : ∀ a, InRange f0.dims a → f'.get (fun d => a (Fin.revPerm d)) = f0.get a := fun a ha => by
    rw [hf0.1] at ha
    rw [hf0.get ha]
    refine hf'.get fun d => ?_
    show a d.rev < n d.rev + if p d.rev then 1 else 0
    rw [← hd]
    exact ha d.rev
  obtain ⟨g', hg', -, hder⟩ := permuted_dimensions c hf0.2.1 hf'.2.1 hv0 Fin.revPerm
    (fun d => by rw [hf'.1, hf0.1, hd]; rfl) h1 h0
  have hok : ∀ y m, ∃ z, g.derivative c y m = .ok z := fun y m => by
    obtain ⟨F₀, hF₀⟩ := fm.exists_holds hm
    obtain ⟨-, C, hC, -⟩ := (InterpFn.construct_spec (c := c) hv rfl hF₀).get hg
    exact ⟨_, hC.derivative hv y m⟩
  choose z hz using fun i => hok (y i) m
  -- the loop over the points
  have hloop : Ok (loop 0 N (List.replicate N (0 : K)) fun i res => do
      let y ← tabM fun d : Fin (D + 1) => coor.get [i, (d.rev : ℕ)]
      let m ← tabM fun d : Fin (D + 1) => deriv.get [(d.rev : ℕ)]
      let v ← g'.derivative c y m
      wr res i v) fun res => res.length = N ∧ ∀ i, i < N → res[i]? = some (z i) := by
    refine Spec.loop (P := fun k (res : List K) => res.length = N ∧ ∀ i, i < k → res[i]? = some (z i)) (Nat.zero_le _) ⟨by simp, by simp⟩
      fun i res _ hi hr => ?_
    rw [tabM_ok fun d => h.points.2 i hi d.rev, ok_bind, tabM_ok fun d => h.derivs.2 d.rev, ok_bind]
    have e : g'.derivative c (fun d => y i d.rev) (fun d => m d.rev) = .ok (z i) := by rw [← hz i]; exact hder c (y i) m
    rw [e, ok_bind, wr_ok (by omega)]
    refine ⟨by simpa using hr.1, fun j hj => ?_⟩
    rw [List.getElem?_set]
    by_cases hij : i = j
    · subst hij; rw [if_pos rfl, if_pos (by omega)]
    · rw [if_neg hij]; exact hr.2 j (by omega)
  obtain ⟨res, hres, hres'⟩ := Ok.exists hloop
  refine ⟨g, res, hg, ?_, hres'.1, fun i hi => ⟨z i, hz i, hres'.2 i hi⟩⟩
  have hnd : interpolationNd D c o per range mesh coor deriv = .ok res := by
    unfold interpolationNd
    rw [tabM_ok h.dims, ok_bind, tabM_ok fun d => h.periods.2 d.rev, ok_bind, hf1, ok_bind,
      tabM_ok (g := fun d : Fin (D + 1) => XRange.uniform (lo d.rev) (hi d.rev)) (fun d => by
        rw [(h.ranges.2 d.rev).1, ok_bind, (h.ranges.2 d.rev).2, ok_bind]; rfl), ok_bind]
    have : InterpFn.construct c o (fun d => p d.rev) f' (fun d => .uniform (lo d.rev) (hi d.rev)) = .ok g' := hg'
    rw [this, ok_bind, h.points.1]
    exact hres
  unfold bspline
  rw [h.check hn, h.dimCount hn]
  show (match D + 1 with
    | 1 => lift (interpolationNd 0 c o per range mesh coor deriv)
    | 2 => lift (interpolationNd 1 c o per range mesh coor deriv)
    | 3 => lift (interpolationNd 2 c o per range mesh coor deriv)
    | _ => .error .terminate) = _
  interval_cases D <;> (show lift _ = _; rw [hnd]; rfl)

end

/-- **C78, not true for all arrays**: a dimension of size 1 in the middle is not counted by `checkArguments`, but kept by `interpolation_nd`: a non-periodic
`n × 1 × k` array passes all checks and is interpolated as an `n × 1` mesh, whose spacing is a division by 0. -/
theorem matlab_singleton (c : Cfg) (o : ℕ) {n k N : ℕ} (hn : 1 < n) (hk : 1 < k) {per : Arr Bool} {range mesh coor : Arr K} {deriv : Arr ℕ}
    (hs : mesh.dims = [n, 1, k]) (hl : mesh.data.length = n * k) (hr : range.dims = [2, 2]) (hr' : range.data.length = 4)
    (hp : per = ⟨[2, 1], [false, false]⟩) (hd : deriv.dims = [2, 1]) (hy : coor.dims = [N, 2]) :
    checkArguments per range mesh coor deriv = .ok () ∧ bspline c o per range mesh coor deriv = .error (.lib .divZero) := by
  have hcount : dimCount mesh = 2 := by
    unfold dimCount
    rw [hs]
    simp [hn, hk]
  have hch : checkArguments per range mesh coor deriv = .ok () := by
    unfold checkArguments
    rw [hcount]
    rw [if_neg (by simp [hr]), if_neg (by simp [hs]; omega), if_neg (by simp [hp, hd]), if_neg (by simp [hy])]
  refine ⟨hch, ?_⟩
  have hnd : interpolationNd 1 c o per range mesh coor deriv = .error .divZero := by
    unfold interpolationNd
    have h1 : tabM (fun d : Fin 2 => rd mesh.dims d) = .ok ![n, 1] := tabM_ok fun d => by
      rw [hs]; fin_cases d <;> rfl
    have h2 : tabM (fun d : Fin 2 => per.get [(d.rev : ℕ)]) = .ok fun _ => false := tabM_ok fun d => by
      rw [hp]; fin_cases d <;> rfl
    have h3 : ∀ a : Fin 2 → ℕ, (∀ d, a d < ![n, 1] d) → mesh.get (List.ofFn a) = .ok (mesh.data.getD (a 0) 0) := fun a ha => by
      have h4 : a 0 < n := ha 0
      have h5 : a 1 = 0 := by have : a 1 < 1 := ha 1; omega
      have h6 : a 0 < mesh.data.length := by rw [hl]; nlinarith
      have : offset mesh.dims (List.ofFn a) = .ok (a 0) := by
        rw [hs]
        show offset [n, 1, k] [a 0, a 1] = _
        unfold offset
        rw [if_pos h4, h5]
        rfl
      unfold Arr.get
      rw [this, ok_bind, rd_eq_ok_iff, List.getElem?_eq_getElem h6]
      simp [h6]
    have hrg : ∀ i j : ℕ, i < 2 → j < 2 → ∃ u, range.get [i, j] = .ok u := fun i j hi hj => by
      unfold Arr.get
      rw [hr]
      have : offset [2, 2] [i, j] = .ok (i + 2 * j) := by unfold offset; rw [if_pos hi]; rfl
      rw [this, ok_bind]
      exact ⟨_, rd_ok (by omega)⟩
    choose! u hu using hrg
    obtain ⟨f, hf, hf'⟩ := Ok.exists (colMajor_fill c ![n, 1] (fun d => ![n, 1] d.rev + if false = true then 1 else 0) (fun d => by simp)
      (fun a => mesh.data.getD (a 0) 0) h3)
    rw [h1, ok_bind, h2, ok_bind, hf, ok_bind, tabM_ok (g := fun d : Fin 2 => XRange.uniform (u d.rev 0) (u d.rev 1)) (fun d => by
      rw [hu _ _ d.rev.isLt (by norm_num), ok_bind, hu _ _ d.rev.isLt (by norm_num), ok_bind]; rfl), ok_bind]
    have : InterpFn.construct c o (fun _ => false) f (fun d : Fin 2 => XRange.uniform (u d.rev 0) (u d.rev 1)) = .error .divZero := by
      unfold InterpFn.construct Template.construct InterpFn.partialConstruct
      rw [hf'.1]
      have : InterpFn.createKnotVector c (fun d : Fin 2 => ![n, 1] d.rev + if false = true then 1 else 0)
          (fun d : Fin 2 => XRange.uniform (u d.rev 0) (u d.rev 1)) (InterpFn.blank (V := K) o (fun _ => false), fun _ => []) 0 = .error .divZero := by
        unfold InterpFn.createKnotVector
        simp [pointNum, uniformStep, subM, divM, error_bind, ok_bind, InterpFn.periodicity, InterpFn.blank]
      rw [show List.finRange 2 = [0, 1] from rfl, List.foldlM_cons, this]
      rfl
    rw [this]
    rfl
  unfold bspline
  rw [hch, hcount]
  show lift (interpolationNd 1 c o per range mesh coor deriv) = _
  rw [hnd]
  rfl

/-- **C78**, arguments that are refused: a call ends with a message to MATLAB exactly if the sizes of the arguments do not fit the array, whose dimension is
the number of its sizes above 1; nothing is read before. -/
theorem matlab_check (c : Cfg) (o : ℕ) (per : Arr Bool) (range mesh coor : Arr K) (deriv : Arr ℕ) :
    (∃ msg, bspline c o per range mesh coor deriv = .error (.check msg)) ↔
      ¬ ∃ dim N, dim = (mesh.dims.filter (1 < ·)).length ∧ range.dims = [dim, 2] ∧ mesh.dims.head? ≠ some 1 ∧ per.dims.head? = some dim ∧
        deriv.dims.head? = some dim ∧ coor.dims = [N, dim] := by
  have h2 : ∀ (l : List ℕ) (b : ℕ), ¬ (l.length ≠ 2 ∨ l[1]? ≠ some b) ↔ ∃ a, l = [a, b] := by
    intro l b
    match l with
    | [] => simp
    | [a] => simp
    | [a, a'] => simp
    | _ :: _ :: _ :: _ => simp
  have h3 : ∀ (l : List ℕ) (a b : ℕ), ¬ (l.length ≠ 2 ∨ l[0]? ≠ some a ∨ l[1]? ≠ some b) ↔ l = [a, b] := by
    intro l a b
    match l with
    | [] => simp
    | [a] => simp
    | [a, a'] => simp
    | _ :: _ :: _ :: _ => simp
  have hlift : ∀ {α : Type} (m : M α) msg, lift m ≠ .error (.check msg) := fun m msg => by cases m <;> simp [lift]
  have hrest : ∀ msg, (match dimCount mesh with
      | 1 => lift (interpolationNd 0 c o per range mesh coor deriv)
      | 2 => lift (interpolationNd 1 c o per range mesh coor deriv)
      | 3 => lift (interpolationNd 2 c o per range mesh coor deriv)
      | _ => .error .terminate : Except MexErr (List K)) ≠ .error (.check msg) := by
    intro msg
    split
    · exact hlift _ _
    · exact hlift _ _
    · exact hlift _ _
    · simp
  have hdim : dimCount mesh = (mesh.dims.filter (1 < ·)).length := by unfold dimCount; exact List.countP_eq_length_filter ..
  rw [← hdim]
  unfold bspline checkArguments
  dsimp only
  by_cases c1 : range.dims.length ≠ 2 ∨ range.dims[0]? ≠ some (dimCount mesh) ∨ range.dims[1]? ≠ some 2
  · rw [if_pos c1]
    refine ⟨fun _ => ?_, fun _ => ⟨_, rfl⟩⟩
    rintro ⟨_, N, rfl, h, -⟩
    exact (h3 _ _ _).2 h c1
  rw [if_neg c1]
  by_cases c2 : mesh.dims[0]? = some 1
  · rw [if_pos c2]
    refine ⟨fun _ => ?_, fun _ => ⟨_, rfl⟩⟩
    rintro ⟨_, N, rfl, -, h, -⟩
    exact h (by rw [List.head?_eq_getElem?]; exact c2)
  rw [if_neg c2]
  by_cases c3 : per.dims[0]? ≠ some (dimCount mesh) ∨ deriv.dims[0]? ≠ some (dimCount mesh)
  · rw [if_pos c3]
    refine ⟨fun _ => ?_, fun _ => ⟨_, rfl⟩⟩
    rintro ⟨_, N, rfl, -, -, h, h', -⟩
    rw [List.head?_eq_getElem?] at h h'
    exact c3.elim (fun c => c h) fun c => c h'
  rw [if_neg c3]
  by_cases c4 : coor.dims.length ≠ 2 ∨ coor.dims[1]? ≠ some (dimCount mesh)
  · rw [if_pos c4]
    refine ⟨fun _ => ?_, fun _ => ⟨_, rfl⟩⟩
    rintro ⟨_, N, rfl, -, -, -, -, h⟩
    exact (h2 _ _).2 ⟨N, h⟩ c4
  rw [if_neg c4]
  refine ⟨fun ⟨msg, h⟩ => absurd h (hrest msg), fun h => absurd ?_ h⟩
  obtain ⟨N, hN⟩ := (h2 _ _).1 c4
  rw [not_or, not_not, not_not] at c3
  rw [List.head?_eq_getElem?, List.head?_eq_getElem?, List.head?_eq_getElem?]
  exact ⟨_, N, rfl, (h3 _ _ _).1 c1, c2, c3.1, c3.2, hN⟩

/-- **C78**: with more than three dimensions the interface ends the program. -/
theorem matlab_dims (c : Cfg) (o : ℕ) {per : Arr Bool} {range mesh coor : Arr K} {deriv : Arr ℕ} (h : 3 < dimCount mesh)
    (hc : checkArguments per range mesh coor deriv = .ok ()) : bspline c o per range mesh coor deriv = .error .terminate := by
  unfold bspline
  rw [hc]
  show (match dimCount mesh with
    | 1 => lift (interpolationNd 0 c o per range mesh coor deriv)
    | 2 => lift (interpolationNd 1 c o per range mesh coor deriv)
    | 3 => lift (interpolationNd 2 c o per range mesh coor deriv)
    | _ => .error .terminate) = _
  split
  · omega
  · omega
  · omega
  · rfl

namespace MatlabExample

/-- A 4 × 3 array, periodic along its columns. -/
def mesh : Arr ℚ := ⟨[4, 3], [1, 5, 2, 7, 3, 1, 8, 2, 6, 4, 9, 0]⟩
/-- Ranges, one row per dimension. -/
def ranges : Arr ℚ := ⟨[2, 2], [0, 10, 4, 12]⟩
/-- Periodicities. -/
def per : Arr Bool := ⟨[2, 1], [true, false]⟩
/-- Three points. -/
def coor : Arr ℚ := ⟨[3, 2], [1, -7, 5 / 2, 10, 11, 12]⟩
/-- Orders of the derivatives. -/
def deriv : Arr ℕ := ⟨[2, 1], [1, 0]⟩

/-- The hypotheses of `matlab_partial` hold for a call with this array. -/
example : MatlabCall 1 3 per ranges mesh coor deriv ![4, 3] (fun a => mesh.data.getD (a 0 + 4 * a 1) 0) ![true, false] ![0, 10] ![4, 12]
      (fun i => ![coor.data.getD i 0, coor.data.getD (i + 3) 0]) ![1, 0] ∧
    ValidAxes ⟨true, false⟩ 2 ![true, false] (fun d => ![4, 3] d + if ![true, false] d then 1 else 0) fun d : Fin 2 =>
      XRange.uniform ((![0, 10] : Fin 2 → ℚ) d) ((![4, 12] : Fin 2 → ℚ) d) := by
  refine ⟨⟨rfl, fun a ha => ?_, ⟨rfl, ?_⟩, ⟨rfl, ?_⟩, ⟨rfl, ?_⟩, rfl, ?_⟩, fun d => ?_⟩
  · have h0 : a 0 < 4 := ha 0
    have h1 : a 1 < 3 := ha 1
    show mesh.get [a 0, a 1] = _
    generalize a 0 = i at *
    generalize a 1 = j at *
    interval_cases i <;> interval_cases j <;> rfl
  · decide +kernel
  · decide +kernel
  · decide +kernel
  · decide +kernel
  · constructor
    · intro h; fin_cases d <;> simp_all [pointNum]
    · intro h; fin_cases d <;> simp_all [pointNum]
    · intro a b h; fin_cases d <;> · simp at h; obtain ⟨rfl, rfl⟩ := h; norm_num
    · intro l h; cases h

/-- A call that is accepted, and one whose points have too few columns. -/
example : (¬ ∃ msg, bspline ⟨true, false⟩ 2 per ranges mesh coor deriv = .error (.check msg)) ∧
    ∃ msg, bspline ⟨true, false⟩ 2 per ranges mesh ⟨[6, 1], coor.data⟩ deriv = .error (.check msg) := by
  refine ⟨fun h => (matlab_check _ _ _ _ _ _ _).1 h ⟨2, 3, by decide, by decide, by decide, by decide, by decide, by decide⟩, (matlab_check _ _ _ _ _ _ _).2 ?_⟩
  rintro ⟨dim, N, h, -, -, -, -, h'⟩
  have h : dim = 2 := h.trans (by decide)
  subst h
  cases h'

end MatlabExample

end Intp
