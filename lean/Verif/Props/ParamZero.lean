import Verif.Proofs.ParamZero
import Verif.Proofs.ParamCell
import Verif.Props.RoundPerSmall

/-!
# C98: negative zeros are never divided by

C97 compares `double` with two zeros with the arithmetic of the rest of the model for runs that do not divide by the negative zero.  Here the runs
are shown not to do so.
-/

namespace Intp

open List S64

variable {D : ℕ}

/-- **C98**, evaluations.  With knots and steps that are not negative zeros, `double` with two zeros and with one agree up to the sign of zeros in every
evaluation, at every point, and fail alike. -/
theorem zeros_eval (c : Cfg) {f : InterpFn (D + 1) (S64 false) (S64 false)} (hf : KnotsPlain f) (y : Fin (D + 1) → S64 false) (m : Fin (D + 1) → ℕ) :
    Fl.call (f.mapKV forget forget) (fun d => (y d).forget) = (Fl.call f y).map forget ∧
    Fl.at' (f.mapKV forget forget) (fun d => (y d).forget) = (Fl.at' f y).map forget ∧
    Fl.derivative c (f.mapKV forget forget) (fun d => (y d).forget) m = (Fl.derivative c f y m).map forget ∧
    Fl.derivativeAt c (f.mapKV forget forget) (fun d => (y d).forget) m = (Fl.derivativeAt c f y m).map forget := by
  have hg : RFn (Graph forget) (Graph forget) f (f.mapKV forget forget) := rfn_graph.2 rfl
  have hy : ∀ d, Graph forget (y d) (y d).forget := fun _ => rfl
  exact ⟨relM_graph.1 (Fl.call_param kRelP_forget vRelP_forget hg hf.ok hy), relM_graph.1 (Fl.at'_param kRelP_forget vRelP_forget hg hf.ok hy),
    relM_graph.1 (Fl.derivative_param kRelP_forget vRelP_forget c hg hf.ok hy m), relM_graph.1 (Fl.derivativeAt_param kRelP_forget vRelP_forget c hg hf.ok hy m)⟩

/-- Every function that can be constructed has such knots and steps, if the coordinates are as in `RangeOk`. -/
theorem construct_plain {r : Bool} (w : Bool) (c : Cfg) (o : ℕ) (per : Fin (D + 1) → Bool) (fm : Mesh (D + 1) (S64 r)) {x : Fin (D + 1) → XRange (S64 r)}
    (hx : ∀ d, RangeOk c o (fm.dims d) (per d) (x d)) {f : InterpFn (D + 1) (S64 r) (S64 r)} (h : Fl.construct w c o per fm x = .ok f) : KnotsPlain f := by
  have : Spec (Fl.construct w c o per fm x) KnotsPlain fun _ => True := by
    unfold Fl.construct
    refine Spec.bind (Q := fun t => KnotsPlain t.base) ?_ fun t ht => Spec.skip fun W => Spec.pure ht
    unfold Fl.constructT
    exact Spec.bind (partialConstruct_plain c o per fm.dims hx) fun _ hr => Spec.skip fun _ => Spec.skip fun _ => Spec.skip fun _ => Spec.pure hr
  rw [h] at this
  exact this

theorem relM_ok_right {α β : Type} {R : α → β → Prop} {a : M α} {y : β} (h : RelM (fun _ => False) R a (.ok y)) : ∃ x, a = .ok x ∧ R x y := by
  cases a with
  | error e => exact h.elim
  | ok x => exact ⟨x, rfl, h⟩

theorem rangeOk_cast {c : Cfg} {o n : ℕ} {per : Bool} {x : XRange (S64 false)} (h : RangeOk c o n per x) : RangeOk c o n per (x.mapK S64.cast : XRange (S64 true)) := by
  cases x with
  | uniform a b =>
    refine ⟨h.1.cast, h.2.1.cast, ?_⟩
    rw [forget_cast, forget_cast]
    exact h.2.2
  | coords l =>
    intro res hres t ht
    have hl : Forall₂ (Graph (S64.cast : S64 true → S64 false)) (l.map S64.cast) l := forall₂_graph.2 (by
      rw [List.map_map, show (S64.cast ∘ S64.cast : S64 false → S64 false) = id from funext S64.cast_cast, List.map_id])
    have hk := Fl.coordKnots_param kRelP_cast c o n per hl
    rw [hres] at hk
    cases hc : Fl.coordKnots c o n per l with
    | error e => rw [hc] at hk; exact hk.elim
    | ok res' =>
      rw [hc] at hk
      have h1 := forall₂_graph.1 hk.1
      have h2 := h res' hc (S64.cast t) (by rw [h1]; exact List.mem_map_of_mem ht)
      have h3 := h2.cast (s := true)
      rwa [show (S64.cast (S64.cast t : S64 false) : S64 true) = t by cases t <;> rfl] at h3

/-- The templates. -/
theorem zeros_template (w : Bool) (c : Cfg) (o : ℕ) (per : Fin (D + 1) → Bool) (dims : Fin (D + 1) → ℕ) {x : Fin (D + 1) → XRange (S64 false)}
    (hx : ∀ d, RangeOk c o (dims d) (per d) (x d)) {t' : Template (D + 1) F64 F64}
    (ht : Fl.constructT w c o per dims (fun d => (x d).mapK forget) = .ok t') (hp : ∀ d, Fl.PivNot (· = F64.fin 0) c (t'.solvers d)) :
    ∃ t : Template (D + 1) (S64 false) (S64 false), Fl.constructT w c o per dims x = .ok t ∧ RTmpl (Graph forget) (Graph forget) t t' := by
  set x1 : Fin (D + 1) → XRange (S64 true) := fun d => (x d).mapK S64.cast with hx1
  have hxr : ∀ d, RX (Graph (forget : S64 true → F64)) (x1 d) ((x d).mapK forget) := fun d => rx_graph.2 (by
    rw [hx1, mapK_mapK, show (forget ∘ (S64.cast : S64 false → S64 true)) = forget from funext forget_cast])
  have hxc : ∀ d, RX (Graph (S64.cast : S64 true → S64 false)) (x1 d) (x d) := fun d => rx_graph.2 (by
    rw [hx1, mapK_mapK, show (S64.cast ∘ S64.cast : S64 false → S64 false) = id from funext S64.cast_cast, mapK_id])
  have hA : ∃ T1 : Template (D + 1) (S64 true) (S64 true), Fl.constructT w c o per dims x1 = .ok T1 ∧ RTmpl (Graph forget) (Graph forget) T1 t' := by
    have hpc := Fl.partialConstruct_param kRelP_forget (Graph (forget : S64 true → F64)) c o per dims hxr
    have hpl := partialConstruct_plain (V := S64 true) c o per dims fun d => rangeOk_cast (hx d)
    unfold Fl.constructT at ht ⊢
    cases hr' : Fl.partialConstruct (V := F64) c o per dims fun d => (x d).mapK forget with
    | error e => rw [hr'] at ht; cases ht
    | ok r' =>
      rw [hr'] at ht hpc
      obtain ⟨r1, hr1, hrel⟩ := relM_ok_right hpc
      rw [show Fl.partialConstruct c o per dims (fun d => (x d).mapK S64.cast) = .ok r1 from hr1] at hpl
      have hk : KnotsPlain r1.1 := hpl
      rw [hr1]
      rw [ok_bind] at ht ⊢
      cases hd : adjustDims c per dims with
      | error e => rw [hd] at ht; cases ht
      | ok dims' =>
        rw [hd] at ht
        rw [ok_bind] at ht ⊢
        have hv := RelM.tabM fun d => Fl.precalc_param kRelP_forget hrel.1 hk.ok d
        cases hv' : tabM (fun d => Fl.precalc r'.1 d) with
        | error e => rw [hv'] at ht; cases ht
        | ok vals' =>
          rw [hv'] at ht hv
          obtain ⟨vals, hvals, hvr⟩ := relM_ok_right hv
          rw [hvals]
          rw [ok_bind] at ht ⊢
          cases hs' : tabM (fun d => Fl.assemble w c r'.1 (r'.2 d) d (dims' d) (vals' d) >>= fun m => Fl.ofMat c m) with
          | error e => rw [hs'] at ht; cases ht
          | ok sol' =>
            rw [hs', ok_bind] at ht
            cases ht
            have hsol : ∀ d, ∃ s, (Fl.assemble w c r1.1 (r1.2 d) d (dims' d) (vals d) >>= fun m => Fl.ofMat c m) = .ok s ∧ RSolver (Graph (forget : S64 true → F64)) s (sol' d) := by
              intro d
              have hsd := tabM_ok_inv hs' d
              have ha := Fl.assemble_param kRelP_forget w c hrel.1 hk.ok (hrel.2 d) d (dims' d) (hvr d)
              have hsh := Fl.assemble_sh w c r1.1 (r1.2 d) d (dims' d) (vals d)
              cases hm' : Fl.assemble w c r'.1 (r'.2 d) d (dims' d) (vals' d) with
              | error e => rw [hm'] at hsd; cases hsd
              | ok m' =>
                rw [hm'] at hsd ha
                obtain ⟨m, hm, hmr⟩ := relM_ok_right ha
                rw [hm] at hsh
                rw [hm]
                exact Fl.ofMat_strict (E := (· = .divZero)) kRel_forget (Z := (· = F64.fin 0)) (fun {a a' b b' e} ha hb hdiv => by
                  change S64.divM a b = _ at hdiv
                  unfold S64.divM at hdiv
                  split at hdiv
                  · rename_i hz
                    rw [← (show forget b = b' from hb)]
                    cases b with
                    | nan => cases hz
                    | inf => cases hz
                    | fin q t =>
                      have : q = 0 := by
                        have := (Bool.and_eq_true _ _).mp ((Bool.and_eq_true _ _).mp hz).2
                        exact of_decide_eq_true this.1
                      rw [this]; rfl
                  · cases hdiv) c hmr hsh hsd (hp d)
            choose s hs hsr using hsol
            rw [tabM_ok hs, ok_bind]
            exact ⟨_, rfl, .mk hrel.2 hrel.1 hsr⟩
  obtain ⟨T1, hT1, hR1⟩ := hA
  have hB := Fl.constructT_param kRel_cast (fun _ => trivial) (Graph (S64.cast : S64 true → S64 false)) w c o per dims hxc
  rw [hT1] at hB
  cases hT0 : Fl.constructT (V := S64 false) w c o per dims x with
  | error e => rw [hT0] at hB; exact hB.elim
  | ok T0 =>
    rw [hT0] at hB
    have htri : ∀ a b c', Graph (S64.cast : S64 true → S64 false) a b → Graph forget a c' → Graph (forget : S64 false → F64) b c' := by
      rintro a _ _ rfl rfl
      exact forget_cast a
    exact ⟨T0, rfl, rtmpl_tri htri htri hB hR1⟩

/-- Pivots that are not zero are not the negative zero. -/
theorem pivOk_of {r : Bool} {c : Cfg} {s : Solver (S64 r)} {s' : Solver F64} (h : RSolver (Graph forget) s s') (hp : Fl.PivNot (· = F64.fin 0) c s') : PivOk NN c s := by
  have key : ∀ {a : S64 r}, a.forget ≠ F64.fin 0 → NN a := by
    intro a ha
    cases a with
    | nan => rfl
    | inf => rfl
    | fin q t =>
      have : q ≠ 0 := fun h => ha (by rw [h]; rfl)
      show (decide (q = 0) && t) = false
      rw [decide_eq_false this]; rfl
  cases h with
  | band h =>
    intro j x hj hx
    have := bget_param (E := fun _ => False) h c j j
    rw [show _ = Except.ok x from hx] at this
    cases h' : BandMatrix.get c _ j j with
    | error e => rw [h'] at this; exact this.elim
    | ok z =>
      rw [h'] at this
      refine key ?_
      rw [show forget x = z from this]
      exact hp j z (by rw [show _ = _ from h.n_eq.1.symm]; exact hj) h'
  | ext h =>
    intro j x hj hx
    have := mainGet_param (E := fun _ => False) h c j j
    rw [show _ = Except.ok x from hx] at this
    cases h' : ExtBandMatrix.mainGet c _ j j with
    | error e => rw [h'] at this; exact this.elim
    | ok z =>
      rw [h'] at this
      refine key ?_
      rw [show forget x = z from this]
      exact hp j z (by rw [show _ = _ from h.n_eq.1.symm]; exact hj) h'

/-- **C98**, constructions.  If in the arithmetic with one zero the factorisation succeeds without a zero pivot, then `double` with two zeros and with one
agree up to the sign of zeros in the construction from any data, and the knots and steps are such that they agree in all evaluations (`zeros_eval`). -/
theorem zeros_construct (w : Bool) (c : Cfg) (o : ℕ) (per : Fin (D + 1) → Bool) (fm : Mesh (D + 1) (S64 false)) {x : Fin (D + 1) → XRange (S64 false)}
    (hx : ∀ d, RangeOk c o (fm.dims d) (per d) (x d)) {t' : Template (D + 1) F64 F64}
    (ht : Fl.constructT w c o per fm.dims (fun d => (x d).mapK forget) = .ok t') (hp : ∀ d, Fl.PivNot (· = F64.fin 0) c (t'.solvers d)) :
    Fl.construct w c o per (fm.mapV forget) (fun d => (x d).mapK forget) = (Fl.construct w c o per fm x).map (InterpFn.mapKV forget forget) ∧
    ∀ f, Fl.construct w c o per fm x = .ok f → KnotsPlain f := by
  refine ⟨?_, fun f hf => construct_plain w c o per fm hx hf⟩
  obtain ⟨t, ht0, hr⟩ := zeros_template w c o per fm.dims hx ht hp
  refine relM_graph.1 (RelM.map (R := RFn (Graph forget) (Graph forget)) ?_ fun f f' hf => rfn_graph.1 hf)
  have hs : ∀ d, PivOk NN c (t.solvers d) := fun d => by
    cases hr with
    | mk _ _ h => exact pivOk_of (h d) (hp d)
  have hf : RMesh (Graph forget) fm (fm.mapV forget) := rmesh_graph.2 rfl
  have hW := Fl.solveForControlPoints_param vRelP_forget c hr hs hf
  unfold Fl.construct
  rw [ht0, ok_bind, show Fl.constructT w c o per (fm.mapV forget).dims (fun d => (x d).mapK forget) = .ok t' from ht, ok_bind]
  refine RelM.bind hW fun W W' hWW => RelM.pure ?_
  cases hr with
  | mk _ hb _ =>
    cases hb with
    | mk hsp hdx =>
      cases hsp with
      | mk h1 h2 h3 => exact .mk (.mk h1 hWW h3) hdx

theorem get_mapV {V V' : Type} (φ : V → V') (m : Mesh D V) (I : Fin D → ℕ) : (m.mapV φ).get I = (m.get I).map φ := by
  have := get_param (E := fun _ => False) (rmesh_graph.2 rfl : RMesh (Graph φ) m (m.mapV φ)) I
  exact relM_graph.1 this

theorem map_ok {α β : Type} {φ : α → β} {a : M α} {y : β} (h : .ok y = a.map φ) : ∃ x, a = .ok x ∧ φ x = y := by
  cases a with
  | error e => cases h
  | ok x => cases h; exact ⟨x, rfl, rfl⟩

/-- **C98**, together with C90.  In `double` with two zeros, for orders up to 3 (up to 6 in periodic uniform dimensions), the construction succeeds and the
function takes the data up to the error of C90.  There is no assumption on pivots, on control points or on what is divided by what; the data may contain
negative zeros. -/
theorem zeros_interpolates_low (w : Bool) (c : Cfg) {o : ℕ} (ho : 1 ≤ o) {per : Fin (D + 1) → Bool} {fm : Mesh (D + 1) (S64 false)} (hfm : fm.WF)
    {x : Fin (D + 1) → XRange (S64 false)} (hz : ∀ d, RangeOk c o (fm.dims d) (per d) (x d)) {P : Fin (D + 1) → ℕ → ℚ → Prop} {r : Fin (D + 1) → ℚ}
    (hx : ∀ d, GoodDim c o (fm.dims d) (per d) ((x d).mapK forget) (P d) (r d)) (hlow : ∀ d, LowDim o (per d) ((x d).mapK forget)) {R : ℚ} (hr : ∀ d, r d ≤ R)
    {μ : ℚ} (hμ : μ = if o ≤ 3 then 20 else 100)
    {F : ℚ} (hF : ∀ v ∈ fm.storage, ∃ q s, v = .fin q s ∧ |q| ≤ F) (hF0 : 1 / 2 ^ 800 ≤ F) (hF1 : μ ^ (D + 1) * F ≤ 2 ^ 900)
    {L : ℕ} (hL : ∀ d, (if per d then fm.dims d else o) ≤ L) {E : ℚ} (hE : E = (D + 1) * (L * (12 * μ + 9) + o * (7 + 256 * R))) (hE1 : E ≤ 2 ^ 43)
    {k : ℕ} (hk : k = (D + 1) * (5 * o + 1) + 1 + (o + 1) ^ (D + 1)) (hk1 : k ≤ 2 ^ 50) :
    ∃ g, Fl.construct w c o per fm x = .ok g ∧
      ∀ I, InRange (fun d => unk (per d) (pointNum c (per d) (fm.dims d))) I → ∀ y : Fin (D + 1) → S64 false, (∀ d, ∃ q s, y d = .fin q s ∧ P d (I d) q) →
        ∃ v s q s', Fl.call g y = .ok (.fin v s) ∧ fm.get I = .ok (.fin q s') ∧ |v - q| ≤ (3 * k + 2 * E) / 2 ^ 53 * (μ ^ (D + 1) * F) + 1 / 2 ^ 100 := by
  have hfm' : (fm.mapV forget).WF := by
    unfold Mesh.WF at *
    show (fm.storage.map forget).length = _
    rw [List.length_map]
    exact hfm
  obtain ⟨⟨t, ht, hp⟩, g', hg', -, h⟩ := double_low_pivots (fm := fm.mapV forget) w c ho hfm' hx hlow hr hμ (fun v hv => by
    obtain ⟨u, hu, rfl⟩ := List.mem_map.1 (show v ∈ fm.storage.map forget from hv)
    obtain ⟨q, s, rfl, hq⟩ := hF u hu
    exact ⟨q, rfl, hq⟩) hF0 hF1 hL hE hE1 hk hk1
  obtain ⟨h1, h2⟩ := zeros_construct w c o per fm hz ht hp
  rw [hg'] at h1
  obtain ⟨g, hg, rfl⟩ := map_ok h1
  refine ⟨g, hg, fun I hI y hy => ?_⟩
  choose yq ys hye hyP using hy
  obtain ⟨v, q, e1, e2, e3⟩ := h I hI yq hyP
  have e4 := (zeros_eval c (h2 g hg) y fun _ => 0).1
  rw [show (fun d => (y d).forget) = fun d => F64.fin (yq d) from funext fun d => by rw [hye d]; rfl, e1] at e4
  obtain ⟨v', hv', ev⟩ := map_ok e4
  rw [get_mapV] at e2
  obtain ⟨q', hq', eq⟩ := map_ok e2.symm
  cases v' with
  | nan => cases ev
  | inf => cases ev
  | fin a s =>
    cases q' with
    | nan => cases eq
    | inf => cases eq
    | fin b s' =>
      cases ev
      cases eq
      exact ⟨_, s, _, s', hv', hq', e3⟩

/-! ## Concrete cases -/

namespace ParamZeroExample

open RoundPerSmallExample

/-- The ranges of the example of C90, with two zeros: 65 points of `[0, 1]`, periodic, by 7 points of `[0, 3]`. -/
def range : Fin 2 → XRange (S64 false) := ![.uniform (.fin 0 false) (.fin 1 false), .uniform (.fin 0 false) (.fin 3 false)]

theorem rangeOk (n : Fin 2 → ℕ) (d : Fin 2) : RangeOk cfg 3 (n d) (per d) (range d) := by
  have h : ∀ z : ℕ, Plain (.fin z false : S64 false) := fun z => ⟨by simp [isNegZero], fun q t e => by cases e; exact_mod_cast F64.grid_int z⟩
  have h0 := h 0
  have h1 := h 1
  have h3 := h 3
  simp only [Nat.cast_zero, Nat.cast_one, Nat.cast_ofNat] at h0 h1 h3
  match d with
  | 0 => exact ⟨h0, h1, by decide +kernel⟩
  | 1 => exact ⟨h0, h3, by decide +kernel⟩

theorem range_forget : (fun d => (range d).mapK forget) = RoundPerSmallExample.range := by
  funext d
  match d with
  | 0 => rfl
  | 1 => rfl

/-- Any data of size at most 1 with any signs of zeros. -/
example (w : Bool) (data : Mesh 2 (S64 false)) (hd : data.dims = ![65, 7]) (hw : data.WF) (h1 : ∀ v ∈ data.storage, ∃ q s, v = .fin q s ∧ |q| ≤ 1) :
    ∃ g, Fl.construct w cfg 3 per data range = .ok g ∧ ∀ s s', ∃ v t q t', Fl.call g ![.fin 0 s, .fin 0 s'] = .ok (.fin v t) ∧ data.get ![0, 0] = .ok (.fin q t') ∧
      |v - q| ≤ 1 / 2 ^ 26 := by
  obtain ⟨g, hg, h⟩ := zeros_interpolates_low w cfg (o := 3) (by omega) (per := per) hw (x := range) (rangeOk _) (P := P) (r := ![64, 6])
    (fun d => by
      rw [show (range d).mapK forget = RoundPerSmallExample.range d from congrFun range_forget d, hd]
      exact good d)
    (fun d => by
      match d with
      | 0 => show (3 : ℕ) ≤ 6; omega
      | 1 => exact ⟨le_rfl, .inl rfl⟩) (R := 64) (fun d => by match d with | 0 => exact le_rfl | 1 => show (6 : ℚ) ≤ 64; norm_num) (μ := 20) rfl
    (F := 1) h1 (by decide +kernel) (by decide +kernel) (L := 65) (fun d => by
      rw [hd]
      match d with
      | 0 => exact le_rfl
      | 1 => show (3 : ℕ) ≤ 65; omega) rfl (by norm_num) rfl (by norm_num)
  refine ⟨g, hg, fun s s' => ?_⟩
  obtain ⟨v, t, q, t', e1, e2, e3⟩ := h ![0, 0] (by
      rw [hd]
      intro d
      match d with
      | 0 => show 0 < 64; omega
      | 1 => show 0 < 7; omega) ![.fin 0 s, .fin 0 s'] (fun d => by
      match d with
      | 0 => exact ⟨0, s, rfl, zero_double, le_rfl, by show |(0 : ℚ) - (0 + (0 : ℕ) * (1 / 64))| ≤ _; norm_num⟩
      | 1 => exact ⟨0, s', rfl, zero_double, le_rfl, by norm_num, by show |(0 : ℚ) - (0 + (0 : ℕ) * (1 / 2))| ≤ _; norm_num⟩)
  exact ⟨v, t, q, t', e1, e2, e3.trans (by norm_num)⟩

/-- With explicit coordinates: order 3, 6 points, one of them zero.  No knot is the negative zero. -/
def coords : XRange (S64 false) := .coords [.fin (-3) false, .fin (-1) false, .fin 0 false, .fin 1 false, .fin (5 / 2) false, .fin 4 false]

def plainB (a : S64 false) : Bool := !a.isNegZero && match a with | .fin q _ => decide (F64.round q = .fin q) | _ => true

theorem plain_of {a : S64 false} (h : plainB a = true) : Plain a := by
  unfold plainB at h
  rw [Bool.and_eq_true] at h
  refine ⟨by simpa using h.1, fun q t e => ?_⟩
  subst e
  have h2 : F64.round q = .fin q := of_decide_eq_true h.2
  obtain ⟨m, e, -, he, -, hq⟩ := isDouble_of_round h2
  rw [hq]
  exact F64.grid_of_last m he

theorem coordsOk : RangeOk ⟨true, false⟩ 3 6 false coords := by
  have h : ((Fl.coordKnots ⟨true, false⟩ 3 6 false [S64.fin (-3) false, .fin (-1) false, .fin 0 false, .fin 1 false, .fin (5 / 2) false, .fin 4 false] : M (List (S64 false) × List (S64 false))).map
      fun res => res.1.all plainB) = .ok true := by decide +kernel
  intro res hres t ht
  rw [hres] at h
  have h' : res.1.all plainB = true := by injection h
  exact plain_of (List.all_eq_true.1 h' t ht)

/-- The condition on the ends of a range is needed: from the positive to the negative zero the step is negative zero (`ParamExample.report`). -/
example : ¬ RangeOk ⟨true, false⟩ 1 4 false (.uniform (.fin 0 false) (.fin 0 true) : XRange (S64 false)) := fun h => absurd h.2.1.1 (by decide)

end ParamZeroExample

end Intp
