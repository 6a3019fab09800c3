import Verif.FloatModel

/-!
# Two arithmetics side by side

If the operations of two arithmetics preserve a relation between coordinates and a relation between values, then all functions of
`FloatModel.lean` do.
-/

namespace Intp

open List

section
variable {α β γ δ : Type}

/-- `b` does what `a` does, with related results, unless `a` fails with an error of the class `E`. -/
def RelM (E : Err → Prop) (R : α → β → Prop) (a : M α) (b : M β) : Prop :=
  match a, b with
  | .ok x, .ok y => R x y
  | .ok _, .error _ => False
  | .error e, .ok _ => E e
  | .error e, .error e' => e = e' ∨ E e

variable {E : Err → Prop} {R : α → β → Prop} {S : γ → δ → Prop}

namespace RelM

theorem pure {x : α} {y : β} (h : R x y) : RelM E R (Pure.pure x) (Pure.pure y) := h

theorem err (e : Err) : RelM E R (.error e) (.error e) := .inl rfl

theorem bind {a : M α} {b : M β} {f : α → M γ} {g : β → M δ} (h : RelM E R a b) (hf : ∀ x y, R x y → RelM E S (f x) (g y)) :
    RelM E S (a >>= f) (b >>= g) := by
  cases a with
  | ok x =>
    cases b with
    | ok y => exact hf x y h
    | error e => exact h.elim
  | error e =>
    cases b with
    | ok y =>
      show RelM E S (.error e) (g y)
      cases g y with
      | ok z => exact h
      | error e' => exact .inr h
    | error e' => exact h

theorem bindOk {a : M α} {b : M β} {f : α → M γ} {g : β → M δ} (h : RelM E R a b) (hf : ∀ x y, a = .ok x → R x y → RelM E S (f x) (g y)) :
    RelM E S (a >>= f) (b >>= g) := by
  cases a with
  | ok x =>
    cases b with
    | ok y => exact hf x y rfl h
    | error e => exact h.elim
  | error e =>
    cases b with
    | ok y =>
      show RelM E S (.error e) (g y)
      cases g y with
      | ok z => exact h
      | error e' => exact .inr h
    | error e' => exact h

theorem bindEq {a : M α} {f : α → M γ} {g : α → M δ} (hf : ∀ x, RelM E S (f x) (g x)) : RelM E S (a >>= f) (a >>= g) := by
  cases a with
  | ok x => exact hf x
  | error e => exact .inl rfl

theorem bindEq' {a b : M α} {f : α → M γ} {g : α → M δ} (h : a = b) (hf : ∀ x, RelM E S (f x) (g x)) : RelM E S (a >>= f) (b >>= g) := by
  subst h; exact bindEq hf

theorem mono {R' : α → β → Prop} {a : M α} {b : M β} (h : RelM E R a b) (hr : ∀ x y, R x y → R' x y) : RelM E R' a b := by
  cases a <;> cases b
  · exact h
  · exact h
  · exact h
  · exact hr _ _ h

theorem ite {p q : Prop} [Decidable p] [Decidable q] {a a' : M α} {b b' : M β} (h : p ↔ q) (h1 : RelM E R a b) (h2 : RelM E R a' b') :
    RelM E R (if p then a else a') (if q then b else b') := by
  by_cases hp : p
  · rw [if_pos hp, if_pos (h.1 hp)]; exact h1
  · rw [if_neg hp, if_neg (fun hq => hp (h.2 hq))]; exact h2

theorem eqRefl (a : M α) : RelM E Eq a a := by
  cases a
  · exact .inl rfl
  · exact rfl

theorem loopN {f : ℕ → α → M α} {g : ℕ → β → M β} (h : ∀ i x y, R x y → RelM E R (f i x) (g i y)) (n i : ℕ) {s : α} {t : β} (hs : R s t) :
    RelM E R (Intp.loopN n i s f) (Intp.loopN n i t g) := by
  induction n generalizing i s t with
  | zero => exact hs
  | succ n ih => exact bind (h i s t hs) fun _ _ hx => ih _ hx

theorem loop (lo hi : ℕ) {f : ℕ → α → M α} {g : ℕ → β → M β} {s : α} {t : β} (hs : R s t) (h : ∀ i x y, R x y → RelM E R (f i x) (g i y)) :
    RelM E R (Intp.loop lo hi s f) (Intp.loop lo hi t g) := loopN h _ _ hs

theorem loopDown (n : ℕ) {f : ℕ → α → M α} {g : ℕ → β → M β} {s : α} {t : β} (hs : R s t) (h : ∀ i x y, R x y → RelM E R (f i x) (g i y)) :
    RelM E R (Intp.loopDown n s f) (Intp.loopDown n t g) := by
  induction n generalizing s t with
  | zero => exact hs
  | succ n ih => exact bind (h n s t hs) fun _ _ hx => ih hx

theorem loopDown' (n : ℕ) {f : ℕ → α → M α} {g : ℕ → β → M β} {s : α} {t : β} (hs : R s t) (h : ∀ i x y, i < n → R x y → RelM E R (f i x) (g i y)) :
    RelM E R (Intp.loopDown n s f) (Intp.loopDown n t g) := by
  induction n generalizing s t with
  | zero => exact hs
  | succ n ih => exact bind (h n s t (by omega) hs) fun _ _ hx => ih hx fun i x y hi => h i x y (by omega)

theorem foldlM {ι : Type} (l : List ι) {f : α → ι → M α} {g : β → ι → M β} {s : α} {t : β} (hs : R s t)
    (h : ∀ x y i, R x y → RelM E R (f x i) (g y i)) : RelM E R (l.foldlM f s) (l.foldlM g t) := by
  induction l generalizing s t with
  | nil => exact hs
  | cons i l ih =>
    rw [List.foldlM_cons, List.foldlM_cons]
    exact bind (h s t i hs) fun _ _ hx => ih hx

theorem tabM {D : ℕ} {f : Fin D → M α} {g : Fin D → M β} (h : ∀ d, RelM E R (f d) (g d)) :
    RelM E (fun x y => ∀ d, R (x d) (y d)) (Intp.tabM f) (Intp.tabM g) := by
  induction D with
  | zero => exact fun d => d.elim0
  | succ D ih =>
    refine bind (h 0) fun x y hx => bind (ih fun d => h d.succ) fun r s hr => ?_
    intro d
    refine Fin.cases ?_ (fun d => ?_) d
    · exact hx
    · exact hr d

end RelM

theorem rd_param {l : List α} {l' : List β} (h : Forall₂ R l l') (i : ℕ) : RelM E R (rd l i) (rd l' i) := by
  induction h generalizing i with
  | nil => exact .inl rfl
  | cons h1 _ ih =>
    cases i with
    | zero => exact h1
    | succ i => exact ih i

theorem rd_mem_param {l : List α} {l' : List β} (h : Forall₂ R l l') (i : ℕ) : RelM E (fun a b => R a b ∧ a ∈ l) (rd l i) (rd l' i) := by
  induction h generalizing i with
  | nil => exact .inl rfl
  | cons h1 _ ih =>
    cases i with
    | zero => exact ⟨h1, List.mem_cons_self⟩
    | succ i => exact (ih i).mono fun _ _ h => ⟨h.1, List.mem_cons_of_mem _ h.2⟩

theorem forall₂_set {l : List α} {l' : List β} (h : Forall₂ R l l') (i : ℕ) {v : α} {v' : β} (hv : R v v') : Forall₂ R (l.set i v) (l'.set i v') := by
  induction h generalizing i with
  | nil => exact .nil
  | cons h1 h2 ih =>
    cases i with
    | zero => exact .cons hv h2
    | succ i => exact .cons h1 (ih i)

theorem wr_param {l : List α} {l' : List β} (h : Forall₂ R l l') (i : ℕ) {v : α} {v' : β} (hv : R v v') : RelM E (Forall₂ R) (wr l i v) (wr l' i v') := by
  unfold wr
  exact RelM.ite (by rw [h.length_eq]) (forall₂_set h i hv) (.inl rfl)

theorem forall₂_replicate (n : ℕ) {v : α} {v' : β} (hv : R v v') : Forall₂ R (List.replicate n v) (List.replicate n v') := by
  induction n with
  | zero => exact .nil
  | succ n ih => exact .cons hv ih

theorem forall₂_append {l₁ l₂ : List α} {m₁ m₂ : List β} (h1 : Forall₂ R l₁ m₁) (h2 : Forall₂ R l₂ m₂) : Forall₂ R (l₁ ++ l₂) (m₁ ++ m₂) := by
  induction h1 with
  | nil => exact h2
  | cons h _ ih => exact .cons h ih

theorem forall₂_take' {l : List α} {l' : List β} (h : Forall₂ R l l') (n : ℕ) : Forall₂ R (l.take n) (l'.take n) := by
  induction h generalizing n with
  | nil => simp
  | cons h1 _ ih =>
    cases n with
    | zero => exact .nil
    | succ n => exact .cons h1 (ih n)

theorem backM_param {l : List α} {l' : List β} (h : Forall₂ R l l') : RelM E R (backM l) (backM l') :=
  RelM.bindEq' (by rw [h.length_eq]) fun i => rd_param h i

/-! ## Meshes and matrices -/

variable {D : ℕ}

inductive RMesh (R : α → β → Prop) : Mesh D α → Mesh D β → Prop
  | mk {dims s s'} : Forall₂ R s s' → RMesh R ⟨dims, s⟩ ⟨dims, s'⟩

inductive RBand (R : α → β → Prop) : BandMatrix α → BandMatrix β → Prop
  | mk {n p q b b'} : RMesh R b b' → RBand R ⟨n, p, q, b⟩ ⟨n, p, q, b'⟩

inductive RExt (R : α → β → Prop) : ExtBandMatrix α → ExtBandMatrix β → Prop
  | mk {n p q b b' r r' m m'} : RMesh R b b' → RMesh R r r' → RMesh R m m' → RExt R ⟨n, p, q, b, r, m⟩ ⟨n, p, q, b', r', m'⟩

theorem RMesh.dims_eq {m : Mesh D α} {m' : Mesh D β} (h : RMesh R m m') : m.dims = m'.dims := by cases h; rfl
theorem RMesh.storage {m : Mesh D α} {m' : Mesh D β} (h : RMesh R m m') : Forall₂ R m.storage m'.storage := by cases h; assumption
theorem RMesh.size_eq {m : Mesh D α} {m' : Mesh D β} (h : RMesh R m m') : m.size = m'.size := h.storage.length_eq

theorem mk'_param [Zero α] [Zero β] (h : R 0 0) (dims : Fin D → ℕ) : RMesh R (Mesh.mk' dims) (Mesh.mk' dims) := .mk (forall₂_replicate _ h)

theorem resize_param {m : Mesh D α} {m' : Mesh D β} (h : RMesh R m m') (sizes : Fin D → ℕ) {v : α} {v' : β} (hv : R v v') :
    RMesh R (m.resize sizes v) (m'.resize sizes v') := by
  cases h with
  | mk h =>
    refine .mk (forall₂_take' (forall₂_append h ?_) _)
    show Forall₂ R (List.replicate (_ - List.length _) v) (List.replicate (_ - List.length _) v')
    rw [h.length_eq]
    exact forall₂_replicate _ hv

theorem get_param {m : Mesh D α} {m' : Mesh D β} (h : RMesh R m m') (a : Fin D → ℕ) : RelM E R (m.get a) (m'.get a) := by
  cases h with | mk h => exact rd_param h _

theorem set_param {m : Mesh D α} {m' : Mesh D β} (h : RMesh R m m') (a : Fin D → ℕ) {v : α} {v' : β} (hv : R v v') :
    RelM E (RMesh R) (m.set a v) (m'.set a v') := by
  cases h with | mk h => exact RelM.bind (wr_param h _ hv) fun _ _ h => .mk h

theorem getSafe_param {m : Mesh D α} {m' : Mesh D β} (h : RMesh R m m') (c : Cfg) (a : Fin D → ℕ) : RelM E R (m.getSafe c a) (m'.getSafe c a) := by
  cases h with | mk h => exact RelM.bindEq fun _ => rd_param h _

theorem setSafe_param {m : Mesh D α} {m' : Mesh D β} (h : RMesh R m m') (c : Cfg) (a : Fin D → ℕ) {v : α} {v' : β} (hv : R v v') :
    RelM E (RMesh R) (m.setSafe c a v) (m'.setSafe c a v') := by
  cases h with | mk h => exact RelM.bindEq fun _ => RelM.bind (wr_param h _ hv) fun _ _ h => .mk h

theorem bget_param {m : BandMatrix α} {m' : BandMatrix β} (h : RBand R m m') (c : Cfg) (i j : ℕ) : RelM E R (m.get c i j) (m'.get c i j) := by
  cases h with | mk h => exact RelM.bindEq fun _ => RelM.bindEq fun _ => getSafe_param h c _

theorem bset_param {m : BandMatrix α} {m' : BandMatrix β} (h : RBand R m m') (c : Cfg) (i j : ℕ) {v : α} {v' : β} (hv : R v v') :
    RelM E (RBand R) (m.set c i j v) (m'.set c i j v') := by
  cases h with | mk h => exact RelM.bindEq fun _ => RelM.bindEq fun _ => RelM.bind (setSafe_param h c _ hv) fun _ _ h => .mk h

theorem mainGet_param {m : ExtBandMatrix α} {m' : ExtBandMatrix β} (h : RExt R m m') (c : Cfg) (i j : ℕ) : RelM E R (m.mainGet c i j) (m'.mainGet c i j) := by
  cases h with | mk h _ _ => exact RelM.bindEq fun _ => RelM.bindEq fun _ => getSafe_param h c _

theorem mainSet_param {m : ExtBandMatrix α} {m' : ExtBandMatrix β} (h : RExt R m m') (c : Cfg) (i j : ℕ) {v : α} {v' : β} (hv : R v v') :
    RelM E (RExt R) (m.mainSet c i j v) (m'.mainSet c i j v') := by
  cases h with | mk h h2 h3 => exact RelM.bindEq fun _ => RelM.bindEq fun _ => RelM.bind (setSafe_param h c _ hv) fun _ _ h => .mk h h2 h3

theorem sideGet_param {m : ExtBandMatrix α} {m' : ExtBandMatrix β} (h : RExt R m m') (c : Cfg) (i j : ℕ) : RelM E R (m.sideGet c i j) (m'.sideGet c i j) := by
  cases h with
  | mk h1 h2 h3 =>
    exact RelM.bindEq' rfl fun _ => RelM.ite Iff.rfl (RelM.bindEq fun _ => getSafe_param h2 c _) (RelM.bindEq fun _ => getSafe_param h3 c _)

theorem sideSet_param {m : ExtBandMatrix α} {m' : ExtBandMatrix β} (h : RExt R m m') (c : Cfg) (i j : ℕ) {v : α} {v' : β} (hv : R v v') :
    RelM E (RExt R) (m.sideSet c i j v) (m'.sideSet c i j v') := by
  cases h with
  | mk h1 h2 h3 =>
    exact RelM.bindEq' rfl fun _ => RelM.ite Iff.rfl (RelM.bindEq fun _ => RelM.bind (setSafe_param h2 c _ hv) fun _ _ h => .mk h1 h h3)
      (RelM.bindEq fun _ => RelM.bind (setSafe_param h3 c _ hv) fun _ _ h => .mk h1 h2 h)

theorem eget_param {m : ExtBandMatrix α} {m' : ExtBandMatrix β} (h : RExt R m m') (c : Cfg) (i j : ℕ) : RelM E R (m.get c i j) (m'.get c i j) :=
  RelM.ite (by cases h; exact Iff.rfl) (sideGet_param h c i j) (mainGet_param h c i j)

theorem eset_param {m : ExtBandMatrix α} {m' : ExtBandMatrix β} (h : RExt R m m') (c : Cfg) (i j : ℕ) {v : α} {v' : β} (hv : R v v') :
    RelM E (RExt R) (m.set c i j v) (m'.set c i j v') :=
  RelM.ite (by cases h; exact Iff.rfl) (sideSet_param h c i j hv) (mainSet_param h c i j hv)

theorem RBand.n_eq {m : BandMatrix α} {m' : BandMatrix β} (h : RBand R m m') : m.n = m'.n ∧ m.p = m'.p ∧ m.q = m'.q := by cases h; exact ⟨rfl, rfl, rfl⟩
theorem RExt.n_eq {m : ExtBandMatrix α} {m' : ExtBandMatrix β} (h : RExt R m m') : m.n = m'.n ∧ m.p = m'.p ∧ m.q = m'.q := by cases h; exact ⟨rfl, rfl, rfl⟩

end

/-! ## Arithmetics -/

section
variable {K K' V V' : Type} [CoordArith K] [ValArith V] [ScaleArith K V] [CoordArith K'] [ValArith V'] [ScaleArith K' V']

open CoordArith ScaleArith

/-- The operations on coordinates preserve the relation `rK`; divisors are in `P`. -/
structure KRelP (E : Err → Prop) (P : K → Prop) (rK : K → K' → Prop) : Prop where
  zero : rK 0 0
  one : rK 1 1
  add : ∀ {a a' b b'}, rK a a' → rK b b' → rK (a + b) (a' + b')
  sub : ∀ {a a' b b'}, rK a a' → rK b b' → rK (a - b) (a' - b')
  mul : ∀ {a a' b b'}, rK a a' → rK b b' → rK (a * b) (a' * b')
  lt : ∀ {a a' b b'}, rK a a' → rK b b' → (a < b ↔ a' < b')
  le : ∀ {a a' b b'}, rK a a' → rK b b' → (a ≤ b ↔ a' ≤ b')
  nat : ∀ n, rK (ofNat n) (ofNat n)
  half : rK half half
  div : ∀ {a a' b b'}, rK a a' → rK b b' → P b → RelM E rK (CoordArith.div a b) (CoordArith.div a' b')
  natP : ∀ n, P (ofNat n)
  fmod : ∀ {a a' b b'}, rK a a' → rK b b' → RelM E rK (CoordArith.fmod a b) (CoordArith.fmod a' b')
  ceil : ∀ {a a'}, rK a a' → RelM E Eq (ceilSize a) (ceilSize a')

/-- The operations on values preserve the relation `rV`; divisors are in `P`. -/
structure VRelP (E : Err → Prop) (P : K → Prop) (rK : K → K' → Prop) (rV : V → V' → Prop) : Prop where
  zero : rV 0 0
  add : ∀ {a a' b b'}, rV a a' → rV b b' → rV (a + b) (a' + b')
  sub : ∀ {a a' b b'}, rV a a' → rV b b' → rV (a - b) (a' - b')
  smul : ∀ {a a' b b'}, rK a a' → rV b b' → rV (a • b) (a' • b')
  div : ∀ {a a' b b'}, rV a a' → rK b b' → P b → RelM E rV (ScaleArith.divV a b) (ScaleArith.divV a' b')

/-- The operations on coordinates preserve the relation `rK`. -/
abbrev KRel (E : Err → Prop) (rK : K → K' → Prop) : Prop := KRelP E (fun _ => True) rK

/-- The operations on values preserve the relation `rV`. -/
abbrev VRel (E : Err → Prop) (rK : K → K' → Prop) (rV : V → V' → Prop) : Prop := VRelP E (fun _ => True) rK rV

/-- Divisions by differences of knots are in `P`. -/
def KnotsOk (P : K → Prop) (t : List K) : Prop := ∀ a ∈ t, ∀ b ∈ t, P (a - b)

/-- The divisors of evaluations are in `P`. -/
structure FnOk {D : ℕ} (P : K → Prop) (f : InterpFn D K V) : Prop where
  knots : ∀ d, KnotsOk P (f.spline.knots d)
  dx : ∀ d, f.uniform d = true → P (f.dx d)

/-- The divisors of a substitution are in `P`. -/
def PivOk (P : K → Prop) (c : Cfg) : Solver K → Prop
  | .band s => ∀ j x, j < s.store.n → s.store.get c j j = .ok x → P x
  | .ext s => ∀ j x, j < s.store.n → s.store.mainGet c j j = .ok x → P x

theorem KnotsOk.all {t : List K} : KnotsOk (fun _ => True) t := fun _ _ _ _ => trivial

omit [ValArith V] [ScaleArith K V] in
theorem FnOk.of {D : ℕ} {P : K → Prop} (hP : ∀ a, P a) {f : InterpFn D K V} : FnOk P f := ⟨fun _ _ _ _ _ => hP _, fun _ _ => hP _⟩

omit [ValArith V] [ScaleArith K V] in
theorem FnOk.all {D : ℕ} {f : InterpFn D K V} : FnOk (fun _ => True) f := ⟨fun _ => .all, fun _ _ => trivial⟩

omit [CoordArith K] in
theorem PivOk.of {P : K → Prop} (hP : ∀ a, P a) {c : Cfg} {s : Solver K} : PivOk P c s := by cases s <;> exact fun _ _ _ _ => hP _

omit [CoordArith K] in
theorem PivOk.all {c : Cfg} {s : Solver K} : PivOk (fun _ => True) c s := by cases s <;> exact fun _ _ _ _ => trivial

variable {E : Err → Prop} {P : K → Prop} {rK : K → K' → Prop} {rV : V → V' → Prop} (kr : KRelP E P rK) (vr : VRelP E P rK rV) {D : ℕ}

/-! ## The objects of the library -/

inductive RSpline (rK : K → K' → Prop) (rV : V → V' → Prop) : BSpline D K V → BSpline D K' V' → Prop
  | mk {o per k k' c c' r r'} : (∀ d, Forall₂ rK (k d) (k' d)) → RMesh rV c c' → (∀ d, rK (r d).1 (r' d).1 ∧ rK (r d).2 (r' d).2) →
      RSpline rK rV ⟨o, per, k, c, r⟩ ⟨o, per, k', c', r'⟩

inductive RFn (rK : K → K' → Prop) (rV : V → V' → Prop) : InterpFn D K V → InterpFn D K' V' → Prop
  | mk {s s' dx dx' u} : RSpline rK rV s s' → (∀ d, rK (dx d) (dx' d)) → RFn rK rV ⟨s, dx, u⟩ ⟨s', dx', u⟩

inductive RCoef (rK : K → K' → Prop) : CoefMat K → CoefMat K' → Prop
  | band {m m'} : RBand rK m m' → RCoef rK (.band m) (.band m')
  | ext {m m'} : RExt rK m m' → RCoef rK (.ext m) (.ext m')

inductive RSolver (rK : K → K' → Prop) : Solver K → Solver K' → Prop
  | band {c m m'} : RBand rK m m' → RSolver rK (.band ⟨c, m⟩) (.band ⟨c, m'⟩)
  | ext {c m m'} : RExt rK m m' → RSolver rK (.ext ⟨c, m⟩) (.ext ⟨c, m'⟩)

inductive RTmpl (rK : K → K' → Prop) (rV : V → V' → Prop) : Template D K V → Template D K' V' → Prop
  | mk {co co' dims b b' s s'} : (∀ d, Forall₂ rK (co d) (co' d)) → RFn rK rV b b' → (∀ d, RSolver rK (s d) (s' d)) → RTmpl rK rV ⟨co, dims, b, s⟩ ⟨co', dims, b', s'⟩

inductive RX (rK : K → K' → Prop) : XRange K → XRange K' → Prop
  | uniform {a a' b b'} : rK a a' → rK b b' → RX rK (.uniform a b) (.uniform a' b')
  | coords {l l'} : Forall₂ rK l l' → RX rK (.coords l) (.coords l')

section
omit [CoordArith K] [ValArith V] [ScaleArith K V] [CoordArith K'] [ValArith V'] [ScaleArith K' V']

theorem RSpline.order_eq {b : BSpline D K V} {b' : BSpline D K' V'} (h : RSpline rK rV b b') : b.order = b'.order := by cases h; rfl
theorem RSpline.per_eq {b : BSpline D K V} {b' : BSpline D K' V'} (h : RSpline rK rV b b') : b.periodicity = b'.periodicity := by cases h; rfl
theorem RSpline.knots {b : BSpline D K V} {b' : BSpline D K' V'} (h : RSpline rK rV b b') (d) : Forall₂ rK (b.knots d) (b'.knots d) := by cases h; apply_assumption
theorem RSpline.ctrl {b : BSpline D K V} {b' : BSpline D K' V'} (h : RSpline rK rV b b') : RMesh rV b.ctrl b'.ctrl := by cases h; assumption
theorem RSpline.range {b : BSpline D K V} {b' : BSpline D K' V'} (h : RSpline rK rV b b') (d) : rK (b.range d).1 (b'.range d).1 ∧ rK (b.range d).2 (b'.range d).2 := by
  cases h; apply_assumption
theorem RFn.spline {b : InterpFn D K V} {b' : InterpFn D K' V'} (h : RFn rK rV b b') : RSpline rK rV b.spline b'.spline := by cases h; assumption
theorem RFn.dx {b : InterpFn D K V} {b' : InterpFn D K' V'} (h : RFn rK rV b b') (d) : rK (b.dx d) (b'.dx d) := by cases h; apply_assumption
theorem RFn.uni {b : InterpFn D K V} {b' : InterpFn D K' V'} (h : RFn rK rV b b') : b.uniform = b'.uniform := by cases h; rfl

end

namespace Fl

include vr in
omit [CoordArith K] [CoordArith K'] in
theorem lineSubMul_param {buf : List V} {buf' : List V'} (h : Forall₂ rV buf buf') (off step i j : ℕ) {a : K} {a' : K'} (ha : rK a a') :
    RelM E (Forall₂ rV) (lineSubMul buf off step i j a) (lineSubMul buf' off step i j a') :=
  RelM.bind (rd_param h _) fun _ _ h1 => RelM.bind (rd_param h _) fun _ _ h2 => wr_param h _ (vr.sub h1 (vr.smul ha h2))

include vr in
omit [CoordArith K] [CoordArith K'] in
theorem lineDiv_param {buf : List V} {buf' : List V'} (h : Forall₂ rV buf buf') (off step j : ℕ) {a : K} {a' : K'} (ha : rK a a') (hp : P a) :
    RelM E (Forall₂ rV) (lineDiv buf off step j a) (lineDiv buf' off step j a') :=
  RelM.bind (rd_param h _) fun _ _ h1 => RelM.bind (vr.div h1 ha hp) fun _ _ h2 => wr_param h _ h2

include kr in
theorem bandCompute_param (hP : ∀ a, P a) (c : Cfg) {m : BandMatrix K} {m' : BandMatrix K'} (h : RBand rK m m') : RelM E (RBand rK) (bandCompute c m) (bandCompute c m') := by
  obtain ⟨e1, e2, e3⟩ := h.n_eq
  unfold bandCompute
  dsimp only
  rw [e1, e2, e3]
  refine RelM.bindEq fun n1 => RelM.loop _ _ h fun k a a' ha => RelM.bind (RelM.loop _ _ ha fun i a a' ha => ?_) fun a a' ha =>
    RelM.loop _ _ ha fun j a a' ha => RelM.loop _ _ ha fun i a a' ha => ?_
  · exact RelM.bind (bget_param ha c _ _) fun _ _ hx => RelM.bind (bget_param ha c _ _) fun _ _ hd => RelM.bind (kr.div hx hd (hP _)) fun _ _ hz => bset_param ha c _ _ hz
  · exact RelM.bind (bget_param ha c _ _) fun _ _ hx => RelM.bind (bget_param ha c _ _) fun _ _ hl => RelM.bind (bget_param ha c _ _) fun _ _ hu =>
      bset_param ha c _ _ (kr.sub hx (kr.mul hl hu))

include vr in
omit [CoordArith K] [CoordArith K'] in
theorem bandSolve_param (c : Cfg) {m : BandMatrix K} {m' : BandMatrix K'} (h : RBand rK m m') (hd : ∀ j x, j < m.n → m.get c j j = .ok x → P x) {buf : List V} {buf' : List V'} (hb : Forall₂ rV buf buf')
    (off step : ℕ) : RelM E (Forall₂ rV) (bandSolve c m buf off step) (bandSolve c m' buf' off step) := by
  obtain ⟨e1, e2, e3⟩ := h.n_eq
  unfold bandSolve
  dsimp only
  rw [e1, e2, e3]
  refine RelM.bind (RelM.loop _ _ hb fun j a a' ha => RelM.loop _ _ ha fun i a a' ha => ?_) fun a a' ha => RelM.loopDown' _ ha fun j a a' hj ha => ?_
  · exact RelM.bind (bget_param h c _ _) fun _ _ hx => lineSubMul_param vr ha _ _ _ _ hx
  · exact RelM.bindOk (bget_param h c _ _) fun _ _ e hx => RelM.bind (lineDiv_param vr ha _ _ _ hx (hd _ _ (by omega) e)) fun a a' ha => RelM.loop _ _ ha fun i a a' ha =>
      RelM.bind (bget_param h c _ _) fun _ _ hx => lineSubMul_param vr ha _ _ _ _ hx

include kr in
theorem extCompute_param (hP : ∀ a, P a) (c : Cfg) {m : ExtBandMatrix K} {m' : ExtBandMatrix K'} (h : RExt rK m m') : RelM E (RExt rK) (extCompute c m) (extCompute c m') := by
  obtain ⟨e1, e2, e3⟩ := h.n_eq
  unfold extCompute
  dsimp only
  rw [e1, e2, e3]
  refine RelM.bindEq fun n1 => RelM.loop _ _ h fun k a a' ha => RelM.bindEq fun nq => RelM.bindEq fun np => RelM.bind (RelM.loop _ _ ha fun i a a' ha => ?_) fun a a' ha =>
    RelM.bind (RelM.loop _ _ ha fun i a a' ha => ?_) fun a a' ha => RelM.bind (RelM.loop _ _ ha fun j a a' ha => RelM.loop _ _ ha fun i a a' ha => ?_) fun a a' ha =>
    RelM.bind (RelM.loop _ _ ha fun i a a' ha => RelM.loop _ _ ha fun j a a' ha => ?_) fun a a' ha =>
    RelM.bind (RelM.loop _ _ ha fun j a a' ha => RelM.loop _ _ ha fun i a a' ha => ?_) fun a a' ha => RelM.bindEq fun _ => RelM.bindEq fun _ =>
    RelM.ite Iff.rfl (RelM.loop _ _ ha fun i a a' ha => RelM.loop _ _ ha fun j a a' ha => ?_) (RelM.pure ha)
  · exact RelM.bind (mainGet_param ha c _ _) fun _ _ hx => RelM.bind (mainGet_param ha c _ _) fun _ _ hd => RelM.bind (kr.div hx hd (hP _)) fun _ _ hz => mainSet_param ha c _ _ hz
  · exact RelM.bind (sideGet_param ha c _ _) fun _ _ hx => RelM.bind (mainGet_param ha c _ _) fun _ _ hd => RelM.bind (kr.div hx hd (hP _)) fun _ _ hz => sideSet_param ha c _ _ hz
  · exact RelM.bind (mainGet_param ha c _ _) fun _ _ hx => RelM.bind (mainGet_param ha c _ _) fun _ _ hl => RelM.bind (mainGet_param ha c _ _) fun _ _ hu =>
      mainSet_param ha c _ _ (kr.sub hx (kr.mul hl hu))
  · exact RelM.bind (eget_param ha c _ _) fun _ _ hx => RelM.bind (mainGet_param ha c _ _) fun _ _ hl => RelM.bind (sideGet_param ha c _ _) fun _ _ hu =>
      eset_param ha c _ _ (kr.sub hx (kr.mul hl hu))
  · exact RelM.bind (eget_param ha c _ _) fun _ _ hx => RelM.bind (sideGet_param ha c _ _) fun _ _ hl => RelM.bind (mainGet_param ha c _ _) fun _ _ hu =>
      eset_param ha c _ _ (kr.sub hx (kr.mul hl hu))
  · exact RelM.bind (mainGet_param ha c _ _) fun _ _ hx => RelM.bind (sideGet_param ha c _ _) fun _ _ hl => RelM.bind (sideGet_param ha c _ _) fun _ _ hu =>
      mainSet_param ha c _ _ (kr.sub hx (kr.mul hl hu))

include vr in
omit [CoordArith K] [CoordArith K'] in
theorem extSolve_param (c : Cfg) {m : ExtBandMatrix K} {m' : ExtBandMatrix K'} (h : RExt rK m m') (hd : ∀ j x, j < m.n → m.mainGet c j j = .ok x → P x) {buf : List V} {buf' : List V'} (hb : Forall₂ rV buf buf')
    (off step : ℕ) : RelM E (Forall₂ rV) (extSolve c m buf off step) (extSolve c m' buf' off step) := by
  obtain ⟨e1, e2, e3⟩ := h.n_eq
  unfold extSolve
  dsimp only
  rw [e1, e2, e3]
  refine RelM.bind (RelM.loop _ _ hb fun j a a' ha => RelM.bind (RelM.loop _ _ ha fun i a a' ha => ?_) fun a a' ha => RelM.bindEq fun _ =>
    RelM.ite Iff.rfl (RelM.bindEq fun _ => RelM.loop _ _ ha fun i a a' ha => ?_) (RelM.pure ha)) fun a a' ha => RelM.loopDown' _ ha fun j a a' hj ha => ?_
  · exact RelM.bind (mainGet_param h c _ _) fun _ _ hx => lineSubMul_param vr ha _ _ _ _ hx
  · exact RelM.bind (sideGet_param h c _ _) fun _ _ hx => lineSubMul_param vr ha _ _ _ _ hx
  · exact RelM.bindOk (mainGet_param h c _ _) fun _ _ e hx => RelM.bind (lineDiv_param vr ha _ _ _ hx (hd _ _ (by omega) e)) fun a a' ha => RelM.bind (RelM.loop _ _ ha fun i a a' ha =>
      RelM.bind (mainGet_param h c _ _) fun _ _ hx => lineSubMul_param vr ha _ _ _ _ hx) fun a a' ha => RelM.bindEq fun _ =>
      RelM.ite Iff.rfl (RelM.bindEq fun _ => RelM.loop _ _ ha fun i a a' ha =>
        RelM.bind (sideGet_param h c _ _) fun _ _ hx => lineSubMul_param vr ha _ _ _ _ hx) (RelM.pure ha)

/-! ## BSpline.hpp -/

include kr in
theorem baseSplineBody_param (order : ℕ) {t : List K} {t' : List K'} (ht : Forall₂ rK t t') (hk : KnotsOk P t) (s : ℕ) {x : K} {x' : K'} (hx : rK x x') (i ib j : ℕ)
    {b : List K} {b' : List K'} (hb : Forall₂ rK b b') : RelM E (Forall₂ rK) (baseSplineBody order t s x i ib j b) (baseSplineBody order t' s x' i ib j b') := by
  unfold baseSplineBody
  rw [ht.length_eq]
  refine RelM.bindEq fun l => RelM.bindEq fun r => RelM.bind (R := rK) ?_ fun _ _ hu => RelM.bind (R := rK) ?_ fun _ _ hw => wr_param hb _ (kr.add hu hw)
  · unfold baseLeftTerm
    exact RelM.ite Iff.rfl (RelM.pure kr.zero) (RelM.bind (rd_param hb _) fun _ _ hv => RelM.bind (rd_mem_param ht _) fun _ _ hl => RelM.bind (rd_mem_param ht _) fun _ _ hr =>
      kr.div (kr.mul hv (kr.sub hx hl.1)) (kr.sub hr.1 hl.1) (hk _ hr.2 _ hl.2))
  · unfold baseRightTerm
    exact RelM.ite Iff.rfl (RelM.pure kr.zero) (RelM.bind (rd_param hb _) fun _ _ hv => RelM.bind (rd_mem_param ht _) fun _ _ hr => RelM.bind (rd_mem_param ht _) fun _ _ hl =>
      kr.div (kr.mul hv (kr.sub hr.1 hx)) (kr.sub hr.1 hl.1) (hk _ hr.2 _ hl.2))

include kr in
theorem baseSplineValue_param (order : ℕ) {t : List K} {t' : List K'} (ht : Forall₂ rK t t') (hk : KnotsOk P t) (s : ℕ) {x : K} {x' : K'} (hx : rK x x') (p : ℕ) :
    RelM E (Forall₂ rK) (baseSplineValue order t s x p) (baseSplineValue order t' s x' p) :=
  RelM.bind (wr_param (forall₂_replicate _ kr.zero) _ kr.one) fun _ _ hb => RelM.loop _ _ hb fun i _ _ hb => RelM.bindEq fun _ =>
    RelM.loop _ _ hb fun j _ _ hb => baseSplineBody_param kr order ht hk s hx i _ j hb

include kr in
theorem upperBoundGo_param {t : List K} {t' : List K'} (ht : Forall₂ rK t t') {x : K} {x' : K'} (hx : rK x x') (fuel first len : ℕ) :
    RelM E Eq (upperBoundGo t x fuel first len) (upperBoundGo t' x' fuel first len) := by
  induction fuel generalizing first len with
  | zero => exact RelM.eqRefl _
  | succ n ih =>
    unfold upperBoundGo
    exact RelM.ite Iff.rfl (RelM.eqRefl _) (RelM.bind (rd_param ht _) fun _ _ hv => RelM.ite (kr.lt hx hv) (ih _ _) (ih _ _))

include kr in
theorem upperBound_param {t : List K} {t' : List K'} (ht : Forall₂ rK t t') {x : K} {x' : K'} (hx : rK x x') (lo hi : ℕ) :
    RelM E Eq (upperBound t lo hi x) (upperBound t' lo hi x') :=
  RelM.ite Iff.rfl (RelM.eqRefl _) (upperBoundGo_param kr ht hx _ _ _)

include kr in
theorem wrapCoord_param {r : K × K} {r' : K' × K'} (hr : rK r.1 r'.1 ∧ rK r.2 r'.2) {x : K} {x' : K'} (hx : rK x x') :
    RelM E rK (wrapCoord r x) (wrapCoord r' x') := by
  refine RelM.bind (kr.fmod (kr.sub hx hr.1) (kr.sub hr.2 hr.1)) fun _ _ hf => RelM.pure (kr.add (kr.add hr.1 hf) ?_)
  have := kr.lt hx hr.1
  by_cases h : x < r.1
  · rw [if_pos h, if_pos (this.1 h)]; exact kr.sub hr.2 hr.1
  · rw [if_neg h, if_neg fun h' => h (this.2 h')]; exact kr.zero

include kr in
theorem findSegment_param (order : ℕ) {t : List K} {t' : List K'} (ht : Forall₂ rK t t') {x : K} {x' : K'} (hx : rK x x') (hint last : ℕ) :
    RelM E Eq (findSegment order t x hint last) (findSegment order t' x' hint last) := by
  unfold findSegment
  rw [ht.length_eq]
  refine RelM.bindEq fun it => RelM.bind (rd_param ht _) fun a a' ha => ?_
  have step : ∀ h : Bool, RelM E Eq
      (if h then (pure it : M ℕ) else do
        let lo ← itAdd t'.length 0 (order + 1)
        let hi ← itAdd t'.length 0 (last + 1)
        let u ← upperBound t lo hi x
        itAdd t'.length u (-1))
      (if h then (pure it : M ℕ) else do
        let lo ← itAdd t'.length 0 (order + 1)
        let hi ← itAdd t'.length 0 (last + 1)
        let u ← upperBound t' lo hi x'
        itAdd t'.length u (-1)) := fun h =>
    RelM.ite Iff.rfl (RelM.eqRefl _) (RelM.bindEq fun _ => RelM.bindEq fun _ => RelM.bind (upperBound_param kr ht hx _ _) fun u u' e => by subst e; exact RelM.eqRefl _)
  refine RelM.ite (kr.le ha hx) (RelM.bind (rd_param ht _) fun b b' hb => ?_) (step false)
  have e : decide (x < b) = decide (x' < b') := decide_eq_decide.2 (kr.lt hx hb)
  rw [e]
  exact step _

include kr in
omit [ValArith V] [ScaleArith K V] [ValArith V'] [ScaleArith K' V'] in
theorem getKnotIter_param {b : BSpline D K V} {b' : BSpline D K' V'} (h : RSpline rK rV b b') (d : Fin D) {x : K} {x' : K'} (hx : rK x x') (hint last : ℕ) :
    RelM E (fun r r' => rK r.1 r'.1 ∧ r.2 = r'.2) (getKnotIter b d x hint last) (getKnotIter b' d x' hint last) := by
  unfold getKnotIter
  rw [(h.knots d).length_eq, h.per_eq, h.order_eq]
  have step : ∀ {x : K} {x' : K'}, rK x x' → RelM E (fun r r' => rK r.1 r'.1 ∧ r.2 = r'.2)
      (do let s ← findSegment b'.order (b.knots d) x hint last; pure (x, s)) (do let s ← findSegment b'.order (b'.knots d) x' hint last; pure (x', s)) :=
    fun hx => RelM.bind (findSegment_param kr _ (h.knots d) hx _ _) fun s s' e => RelM.pure ⟨hx, e⟩
  exact RelM.bindEq fun _ => RelM.ite Iff.rfl (RelM.bind (wrapCoord_param kr (h.range d) hx) fun x x' hx => step hx) (step hx)

include kr in
omit [ValArith V] [ScaleArith K V] [ValArith V'] [ScaleArith K' V'] in
theorem getKnotIter'_param {b : BSpline D K V} {b' : BSpline D K' V'} (h : RSpline rK rV b b') (d : Fin D) {x : K} {x' : K'} (hx : rK x x') (hint : ℕ) :
    RelM E (fun r r' => rK r.1 r'.1 ∧ r.2 = r'.2) (getKnotIter' b d x hint) (getKnotIter' b' d x' hint) := by
  unfold getKnotIter'
  rw [(h.knots d).length_eq, h.order_eq]
  exact RelM.bindEq fun _ => RelM.bindEq fun _ => getKnotIter_param kr h d hx _ _

omit [CoordArith K] [ValArith V] [ScaleArith K V] [CoordArith K'] [ValArith V'] [ScaleArith K' V'] in
theorem ctrlIndex_eq {b : BSpline D K V} {b' : BSpline D K' V'} (h : RSpline rK rV b b') (d : Fin D) (s a : ℕ) : b.ctrlIndex d s a = b'.ctrlIndex d s a := by
  cases h with
  | mk hk hc hr =>
    unfold BSpline.ctrlIndex BSpline.ctrlShift
    simp only [hc.dims_eq, (hk d).length_eq]

include kr vr in
theorem evalBody_param {b : BSpline D K V} {b' : BSpline D K' V'} (h : RSpline rK rV b b') {segs : Fin D → K × ℕ} {segs' : Fin D → K' × ℕ}
    (hs : ∀ d, rK (segs d).1 (segs' d).1 ∧ (segs d).2 = (segs' d).2) {base : Fin D → List K} {base' : Fin D → List K'} (hb : ∀ d, Forall₂ rK (base d) (base' d)) (i : ℕ)
    {v : V} {v' : V'} (hv : rV v v') : RelM E rV (evalBody b segs base i v) (evalBody b' segs' base' i v') := by
  unfold evalBody
  rw [h.order_eq]
  refine RelM.bindEq fun a => RelM.bind (R := fun r r' => rK r.1 r'.1 ∧ r.2 = r'.2) (RelM.foldlM _ ⟨kr.one, rfl⟩ fun r r' d hr => ?_) fun r r' hr => ?_
  · refine RelM.bind (rd_param (hb d) _) fun e e' he => RelM.bindEq' (by rw [(hs d).2, ctrlIndex_eq h]) fun k => RelM.pure ⟨kr.mul hr.1 he, ?_⟩
    rw [hr.2]
  · rw [hr.2]
    exact RelM.bind (get_param h.ctrl _) fun c c' hc => RelM.pure (vr.add hv (vr.smul hr.1 hc))

include kr vr in
theorem eval_param {b : BSpline D K V} {b' : BSpline D K' V'} (h : RSpline rK rV b b') (hk : ∀ d, KnotsOk P (b.knots d)) {x : Fin D → K × ℕ} {x' : Fin D → K' × ℕ}
    (hx : ∀ d, rK (x d).1 (x' d).1 ∧ (x d).2 = (x' d).2) : RelM E rV (eval b x) (eval b' x') := by
  unfold eval
  rw [h.order_eq]
  refine RelM.bind (RelM.tabM (R := fun r r' => rK r.1 r'.1 ∧ r.2 = r'.2) fun d => ?_) fun segs segs' hs => RelM.bind (RelM.tabM (R := Forall₂ rK) fun d => ?_) fun base base' hb =>
    RelM.loop _ _ vr.zero fun i v v' hv => evalBody_param kr vr h hs hb i hv
  · rw [(hx d).2]; exact getKnotIter'_param kr h d (hx d).1 _
  · rw [(hs d).2]; exact baseSplineValue_param kr _ (h.knots d) (hk d) _ (hs d).1 _

include kr in
omit [ValArith V] [ScaleArith K V] [ValArith V'] [ScaleArith K' V'] in
theorem derivFillBody_param {b : BSpline D K V} {b' : BSpline D K' V'} (h : RSpline rK rV b b') {segs : Fin D → K × ℕ} {segs' : Fin D → K' × ℕ}
    (hs : ∀ d, rK (segs d).1 (segs' d).1 ∧ (segs d).2 = (segs' d).2) {base : Fin D → List K} {base' : Fin D → List K'} (hb : ∀ d, Forall₂ rK (base d) (base' d)) (i : ℕ)
    {st : Mesh D K × Mesh D V} {st' : Mesh D K' × Mesh D V'} (hst : RMesh rK st.1 st'.1 ∧ RMesh rV st.2 st'.2) :
    RelM E (fun s s' => RMesh rK s.1 s'.1 ∧ RMesh rV s.2 s'.2) (derivFillBody b segs base i st) (derivFillBody b' segs' base' i st') := by
  unfold derivFillBody
  rw [h.order_eq]
  refine RelM.bindEq fun a => RelM.bind (R := fun r r' => rK r.1 r'.1 ∧ r.2 = r'.2) (RelM.foldlM _ ⟨kr.one, rfl⟩ fun r r' d hr => ?_) fun r r' hr => ?_
  · refine RelM.bind (rd_param (hb d) _) fun e e' he => RelM.bindEq' (by rw [(hs d).2, ctrlIndex_eq h]) fun k => RelM.pure ⟨kr.mul hr.1 he, ?_⟩
    rw [hr.2]
  · rw [hr.2]
    exact RelM.bind (set_param hst.1 _ hr.1) fun _ _ h1 => RelM.bind (get_param h.ctrl _) fun c c' hc => RelM.bind (set_param hst.2 _ hc) fun _ _ h2 => RelM.pure ⟨h1, h2⟩

include kr vr in
theorem derivReduceBody_param (order : ℕ) {t : List K} {t' : List K'} (ht : Forall₂ rK t t') (hk : KnotsOk P t) (s off step k j : ℕ) {buf : List V} {buf' : List V'}
    (h : Forall₂ rV buf buf') : RelM E (Forall₂ rV) (derivReduceBody order t s off step k j buf) (derivReduceBody order t' s off step k j buf') :=
  RelM.bindEq fun _ => RelM.bindEq fun _ => RelM.bind (rd_param h _) fun _ _ h1 => RelM.bind (rd_param h _) fun _ _ h2 => RelM.bind (rd_mem_param ht _) fun _ _ h3 =>
    RelM.bindEq fun _ => RelM.bind (rd_mem_param ht _) fun _ _ h4 => RelM.bind (vr.div (vr.smul (kr.nat _) (vr.sub h1 h2)) (kr.sub h3.1 h4.1) (hk _ h3.2 _ h4.2)) fun _ _ h5 => wr_param h _ h5

include kr vr in
theorem derivReduceLine_param (order : ℕ) {t : List K} {t' : List K'} (ht : Forall₂ rK t t') (hk : KnotsOk P t) (s p off step : ℕ) {buf : List V} {buf' : List V'}
    (h : Forall₂ rV buf buf') : RelM E (Forall₂ rV) (derivReduceLine order t s p off step buf) (derivReduceLine order t' s p off step buf') :=
  RelM.loopDown _ h fun _ _ _ h => RelM.loopDown _ h fun _ _ _ h => derivReduceBody_param kr vr order ht hk s off step _ _ h

omit [CoordArith K] [ValArith V] [ScaleArith K V] [CoordArith K'] [ValArith V'] [ScaleArith K' V'] in
theorem lineBegin_eq {m : Mesh D V} {m' : Mesh D V'} (h : RMesh rV m m') (c : Cfg) (d : Fin D) (a : Fin D → ℕ) : m.lineBegin c d a = m'.lineBegin c d a := by
  cases h; rfl

include kr vr in
theorem derivReduceDim_param (c : Cfg) {b : BSpline D K V} {b' : BSpline D K' V'} (h : RSpline rK rV b b') (hk : ∀ d, KnotsOk P (b.knots d)) {segs : Fin D → K × ℕ} {segs' : Fin D → K' × ℕ}
    (hs : ∀ d, rK (segs d).1 (segs' d).1 ∧ (segs d).2 = (segs' d).2) (d : Fin D) (p : ℕ) {m : Mesh D V} {m' : Mesh D V'} (hm : RMesh rV m m') :
    RelM E (RMesh rV) (derivReduceDim c b segs d p m) (derivReduceDim c b' segs' d p m') := by
  unfold derivReduceDim
  rw [h.order_eq]
  refine RelM.ite Iff.rfl (RelM.pure hm) (RelM.bindEq' (by rw [hm.size_eq, hm.dims_eq]) fun hs' => RelM.loop _ _ hm fun i m m' hm => RelM.bindEq fun a =>
    RelM.bindEq' (lineBegin_eq hm c d a) fun r => ?_)
  rw [(hs d).2]
  refine RelM.bind (derivReduceLine_param kr vr _ (h.knots d) (hk d) _ _ _ _ hm.storage) fun _ _ hb => ?_
  rw [hm.dims_eq]
  exact RelM.pure (.mk hb)

include kr vr in
theorem derivativeAtH_param (c : Cfg) {b : BSpline D K V} {b' : BSpline D K' V'} (h : RSpline rK rV b b') (hk : ∀ d, KnotsOk P (b.knots d)) {x : Fin D → K × ℕ × ℕ} {x' : Fin D → K' × ℕ × ℕ}
    (hx : ∀ d, rK (x d).1 (x' d).1 ∧ (x d).2 = (x' d).2) : RelM E rV (derivativeAtH c b x) (derivativeAtH c b' x') := by
  have e : (fun d => (x d).2) = fun d => (x' d).2 := funext fun d => (hx d).2
  have e1 : ∀ d, (x d).2.1 = (x' d).2.1 := fun d => by rw [(hx d).2]
  have e2 : ∀ d, (x d).2.2 = (x' d).2.2 := fun d => by rw [(hx d).2]
  unfold derivativeAtH
  simp only [h.order_eq, e1, e2]
  refine RelM.ite Iff.rfl (RelM.pure vr.zero) (RelM.bind (RelM.tabM fun d => getKnotIter'_param kr h d (hx d).1 _) fun segs segs' hs =>
    RelM.bind (RelM.tabM (R := Forall₂ rK) fun d => ?_) fun base base' hb =>
    RelM.bind (R := fun s s' => RMesh rK s.1 s'.1 ∧ RMesh rV s.2 s'.2) (RelM.loop _ _ ⟨mk'_param kr.zero _, mk'_param vr.zero _⟩ fun i st st' hst => derivFillBody_param kr h hs hb i hst)
      fun st st' hst => RelM.bind (RelM.foldlM _ hst.2 fun m m' d hm => derivReduceDim_param kr vr c h hk hs d _ hm) fun cv cv' hcv => ?_)
  · rw [(hs d).2]; exact baseSplineValue_param kr _ (h.knots d) (hk d) _ (hs d).1 _
  · rw [hst.1.size_eq]
    exact RelM.loop _ _ vr.zero fun i v v' hv => RelM.bind (rd_param hst.1.storage _) fun _ _ h1 => RelM.bind (rd_param hcv.storage _) fun _ _ h2 =>
      RelM.pure (vr.add hv (vr.smul h1 h2))

/-! ## Interpolation.hpp -/

include kr in
theorem uniformKnot_param {a : K} {a' : K'} (ha : rK a a') {dx : K} {dx' : K'} (hd : rK dx dx') (extra i : ℕ) :
    rK (uniformKnot a dx extra i) (uniformKnot a' dx' extra i) :=
  kr.add ha (kr.mul (kr.sub (kr.nat _) (kr.mul kr.half (kr.nat _))) hd)

include kr in
theorem uniformStep_param (n : ℕ) {a : K} {a' : K'} (ha : rK a a') {b : K} {b' : K'} (hb : rK b b') : RelM E rK (uniformStep n a b) (uniformStep n a' b') :=
  RelM.bindEq fun _ => kr.div (kr.sub hb ha) (kr.nat _) (kr.natP _)

include kr in
theorem uniformKnots_param (order n : ℕ) (per : Bool) {a : K} {a' : K'} (ha : rK a a') {b : K} {b' : K'} (hb : rK b b') {dx : K} {dx' : K'} (hd : rK dx dx') :
    RelM E (Forall₂ rK) (uniformKnots order n per a b dx) (uniformKnots order n per a' b' dx') :=
  RelM.ite Iff.rfl (RelM.loop _ _ (forall₂_replicate _ ha) fun _ _ _ h => wr_param h _ (uniformKnot_param kr ha hd _ _))
    (RelM.bindEq fun _ => RelM.bind (RelM.loop _ _ (forall₂_replicate _ ha) fun _ _ _ h => wr_param h _ (uniformKnot_param kr ha hd _ _)) fun _ _ h =>
      RelM.loop _ _ h fun _ _ _ h => wr_param h _ hb)

omit [CoordArith K] [CoordArith K'] in
theorem single_param {a : K} {a' : K'} (ha : rK a a') : Forall₂ rK [a] [a'] := .cons ha .nil

include kr in
theorem coordKnotsPeriodic_param (order : ℕ) {l : List K} {l' : List K'} (hl : Forall₂ rK l l') :
    RelM E (fun r r' => Forall₂ rK r.1 r'.1 ∧ Forall₂ rK r.2 r'.2) (coordKnotsPeriodic order l) (coordKnotsPeriodic order l') := by
  unfold coordKnotsPeriodic
  dsimp only
  rw [hl.length_eq]
  refine RelM.bind (rd_param hl _) fun x x' hx =>
    RelM.bind (R := fun s s' => Forall₂ rK s.1 s'.1 ∧ Forall₂ rK s.2 s'.2) (RelM.loop _ _ ⟨forall₂_replicate _ kr.zero, single_param hx⟩ fun i s s' hs =>
      RelM.bind (rd_param hl _) fun p p' hp => RelM.bind (backM_param hs.2) fun q q' hq => RelM.bind (wr_param hs.1 _ ?_) fun y y' hy =>
        RelM.pure ⟨hy, forall₂_append hs.2 (single_param hp)⟩) fun s s' hs =>
    RelM.bind (backM_param hs.2) fun p p' hp => RelM.bind (rd_param hs.2 _) fun q q' hq =>
      RelM.bind (RelM.loop _ _ hs.1 fun i y y' hy => RelM.bindEq fun k => RelM.bind (rd_param hy _) fun u u' hu => RelM.bind (wr_param hy _ (kr.sub hu (kr.sub hp hq))) fun y y' hy => ?_)
      fun y y' hy => RelM.pure ⟨hy, hs.2⟩
  · split
    · exact kr.mul kr.half (kr.add hq hp)
    · exact hp
  · rw [hy.length_eq]
    exact RelM.bindEq fun _ => RelM.bindEq fun _ => RelM.bind (rd_param hy _) fun v v' hv => wr_param hy _ (kr.add hv (kr.sub hp hq))

structure RCoordSt (rK : K → K' → Prop) (s : CoordSt K) (s' : CoordSt K') : Prop where
  pos : s.pos = s'.pos
  xs : Forall₂ rK s.xs s'.xs
  ic : Forall₂ rK s.ic s'.ic
  sum : rK s.sum s'.sum

include kr in
theorem coordKnotsAperiodic_param (order : ℕ) {l : List K} {l' : List K'} (hl : Forall₂ rK l l') :
    RelM E (fun r r' => Forall₂ rK r.1 r'.1 ∧ Forall₂ rK r.2 r'.2) (coordKnotsAperiodic order l) (coordKnotsAperiodic order l') := by
  unfold coordKnotsAperiodic
  dsimp only
  rw [hl.length_eq]
  refine RelM.bind (rd_param hl _) fun x x' hx => RelM.bind (RelM.loop _ _ (forall₂_replicate _ kr.zero) fun _ _ _ h => wr_param h _ hx) fun y y' hy =>
    RelM.bind (R := RCoordSt rK) (RelM.loop _ _ ⟨rfl, hy, single_param hx, kr.zero⟩ fun i s s' hs => ?_) fun s s' hs =>
    RelM.bind (R := RCoordSt rK) (RelM.loop _ _ hs fun i s s' hs => ?_) fun s s' hs => ?_
  · rw [hs.pos]
    exact RelM.bind (rd_param hl _) fun v v' hv => RelM.bind (rd_param (forall₂_append hs.ic (single_param hv)) _) fun u u' hu =>
      RelM.pure ⟨rfl, hs.xs, forall₂_append hs.ic (single_param hv), kr.add hs.sum hu⟩
  · rw [hs.pos]
    exact RelM.bind (rd_param hl _) fun v v' hv => RelM.bindEq fun _ => RelM.bind (rd_param (forall₂_append hs.ic (single_param hv)) _) fun u u' hu =>
      RelM.bind (kr.div (kr.add hs.sum hu) (kr.nat _) (kr.natP _)) fun w w' hw => RelM.bind (wr_param hs.xs _ hw) fun y y' hy => RelM.bindEq fun _ =>
      RelM.bind (rd_param (forall₂_append hs.ic (single_param hv)) _) fun z z' hz =>
      RelM.pure ⟨rfl, hy, forall₂_append hs.ic (single_param hv), kr.sub (kr.add hs.sum hu) hz⟩
  · rw [hs.pos]
    exact RelM.bind (rd_param hl _) fun v v' hv => RelM.bind (RelM.loop _ _ hs.xs fun _ _ _ h => wr_param h _ hv) fun y y' hy =>
      RelM.pure ⟨hy, forall₂_append hs.ic (single_param hv)⟩

include kr in
theorem checkMonotonic_param (c : Cfg) {l : List K} {l' : List K'} (hl : Forall₂ rK l l') : RelM E Eq (checkMonotonic c l) (checkMonotonic c l') := by
  unfold checkMonotonic
  rw [hl.length_eq]
  refine RelM.bindEq fun _ => RelM.loop _ _ rfl fun i _ _ _ => RelM.bind (rd_param hl _) fun a a' ha => RelM.bind (rd_param hl _) fun b b' hb => ?_
  rw [decide_eq_decide.2 (kr.lt ha hb)]
  exact RelM.eqRefl _

include kr in
theorem coordKnots_param (c : Cfg) (order size : ℕ) (per : Bool) {l : List K} {l' : List K'} (hl : Forall₂ rK l l') :
    RelM E (fun r r' => Forall₂ rK r.1 r'.1 ∧ Forall₂ rK r.2 r'.2) (coordKnots c order size per l) (coordKnots c order size per l') := by
  unfold coordKnots
  rw [hl.length_eq]
  exact RelM.bindEq fun _ => RelM.bind (RelM.ite Iff.rfl (coordKnotsPeriodic_param kr order hl) (coordKnotsAperiodic_param kr order hl)) fun r r' hr =>
    RelM.bind (checkMonotonic_param kr c hr.2) fun _ _ _ => RelM.pure hr

omit [CoordArith K] [ValArith V] [ScaleArith K V] [CoordArith K'] [ValArith V'] [ScaleArith K' V'] in
theorem loadKnots_param {b : BSpline D K V} {b' : BSpline D K' V'} (h : RSpline rK rV b b') (d : Fin D) {t : List K} {t' : List K'} (ht : Forall₂ rK t t') :
    RelM E (RSpline rK rV) (b.loadKnots d t) (b'.loadKnots d t') := by
  unfold BSpline.loadKnots
  rw [h.order_eq, ht.length_eq]
  refine RelM.bind (rd_param ht _) fun lo lo' hlo => RelM.bindEq fun _ => RelM.bindEq fun _ => RelM.bind (rd_param ht _) fun hi hi' hhi => ?_
  cases h with
  | mk hk hc hr =>
    refine .mk (fun d' => ?_) hc fun d' => ?_
    · by_cases e : d' = d
      · subst e; simp only [Function.update_self]; exact ht
      · rw [Function.update_of_ne e, Function.update_of_ne e]; exact hk d'
    · by_cases e : d' = d
      · subst e; simp only [Function.update_self]; exact ⟨hlo, hhi⟩
      · rw [Function.update_of_ne e, Function.update_of_ne e]; exact hr d'

omit [CoordArith K] [CoordArith K'] in
theorem update_param {α β : Type} {R : α → β → Prop} {f : Fin D → α} {g : Fin D → β} (h : ∀ d, R (f d) (g d)) (d : Fin D) {a : α} {b : β} (hab : R a b) (d' : Fin D) :
    R (Function.update f d a d') (Function.update g d b d') := by
  by_cases e : d' = d
  · subst e; simp only [Function.update_self]; exact hab
  · rw [Function.update_of_ne e, Function.update_of_ne e]; exact h d'

include kr in
omit [ValArith V] [ScaleArith K V] [ValArith V'] [ScaleArith K' V'] in
theorem createKnotVector_param (c : Cfg) (dims : Fin D → ℕ) {x : Fin D → XRange K} {x' : Fin D → XRange K'} (hx : ∀ d, RX rK (x d) (x' d))
    {st : InterpFn D K V × (Fin D → List K)} {st' : InterpFn D K' V' × (Fin D → List K')} (h : RFn rK rV st.1 st'.1 ∧ ∀ d, Forall₂ rK (st.2 d) (st'.2 d)) (d : Fin D) :
    RelM E (fun s s' => RFn rK rV s.1 s'.1 ∧ ∀ d, Forall₂ rK (s.2 d) (s'.2 d)) (createKnotVector c dims x st d) (createKnotVector c dims x' st' d) := by
  have hp : st.1.periodicity = st'.1.periodicity := h.1.spline.per_eq
  have hu : st.1.uniform = st'.1.uniform := h.1.uni
  have hxd := hx d
  unfold createKnotVector
  generalize x d = xd, x' d = xd' at hxd ⊢
  cases hxd with
  | uniform ha hb =>
    dsimp only
    rw [hp, h.1.spline.order_eq, hu]
    refine RelM.bind (uniformStep_param kr _ ha hb) fun dx dx' hdx => RelM.bind (uniformKnots_param kr _ _ _ ha hb hdx) fun t t' ht =>
      RelM.bind (loadKnots_param h.1.spline d ht) fun s s' hs => RelM.pure ⟨.mk hs (update_param h.1.dx d hdx), h.2⟩
  | coords hl =>
    dsimp only
    rw [hp, h.1.spline.order_eq, hu]
    refine RelM.bind (coordKnots_param kr c _ _ _ hl) fun r r' hr => RelM.bind (loadKnots_param h.1.spline d hr.1) fun s s' hs =>
      RelM.pure ⟨.mk hs h.1.dx, update_param h.2 d hr.2⟩

include kr in
omit [ValArith V] [ScaleArith K V] [ValArith V'] [ScaleArith K' V'] in
theorem partialConstruct_param (rV : V → V' → Prop) (c : Cfg) (order : ℕ) (per : Fin D → Bool) (dims : Fin D → ℕ) {x : Fin D → XRange K} {x' : Fin D → XRange K'}
    (hx : ∀ d, RX rK (x d) (x' d)) :
    RelM E (fun s s' => RFn rK rV s.1 s'.1 ∧ ∀ d, Forall₂ rK (s.2 d) (s'.2 d)) (partialConstruct c order per dims x) (partialConstruct c order per dims x') :=
  RelM.foldlM _ ⟨.mk (.mk (fun _ => .nil) (.mk .nil) fun _ => ⟨kr.zero, kr.zero⟩) fun _ => kr.zero, fun _ => .nil⟩ fun _ _ d h => createKnotVector_param kr c dims hx h d

include kr in
theorem maxZero_param {a : K} {a' : K'} (ha : rK a a') : rK (maxZero a) (maxZero a') := by
  unfold maxZero
  have := kr.lt kr.zero ha
  by_cases h : 0 < a
  · rw [if_pos h, if_pos (this.1 h)]; exact ha
  · rw [if_neg h, if_neg fun h' => h (this.2 h')]; exact kr.zero

include kr in
omit [ValArith V] [ScaleArith K V] [ValArith V'] [ScaleArith K' V'] in
theorem hint_param {f : InterpFn D K V} {f' : InterpFn D K' V'} (h : RFn rK rV f f') (hk : FnOk P f) (d : Fin D) {x : K} {x' : K'} (hx : rK x x') :
    RelM E Eq (hint f d x) (hint f' d x') := by
  have hp : f.periodicity = f'.periodicity := h.spline.per_eq
  unfold hint
  rw [h.uni, (h.spline.knots d).length_eq, h.spline.order_eq, hp]
  by_cases hu : f'.uniform d
  swap
  · rw [if_neg hu, if_neg hu]; exact RelM.eqRefl _
  rw [if_pos hu, if_pos hu]
  refine RelM.bindEq fun _ => RelM.bind (kr.div (kr.sub hx (h.spline.range d).1) (h.dx d) (hk.dx d (by rw [h.uni]; exact hu))) fun q q' hq =>
    RelM.bind (kr.ceil (maxZero_param kr (kr.sub hq ?_))) fun k k' e => by subst e; exact RelM.eqRefl _
  split
  · exact kr.one
  · exact kr.mul kr.half (kr.nat _)

include kr vr in
theorem call_param {f : InterpFn D K V} {f' : InterpFn D K' V'} (h : RFn rK rV f f') (hk : FnOk P f) {x : Fin D → K} {x' : Fin D → K'} (hx : ∀ d, rK (x d) (x' d)) :
    RelM E rV (call f x) (call f' x') :=
  RelM.bind (RelM.tabM fun d => hint_param kr h hk d (hx d)) fun _ _ e => eval_param kr vr h.spline hk.knots fun d => ⟨hx d, e d⟩

include kr in
omit [ValArith V] [ScaleArith K V] [ValArith V'] [ScaleArith K' V'] in
theorem boundaryCheck_param {f : InterpFn D K V} {f' : InterpFn D K' V'} (h : RFn rK rV f f') {x : Fin D → K} {x' : Fin D → K'} (hx : ∀ d, rK (x d) (x' d)) :
    RelM E Eq (boundaryCheck f x) (boundaryCheck f' x') := by
  have hp : f.periodicity = f'.periodicity := h.spline.per_eq
  refine RelM.foldlM _ rfl fun _ _ d _ => ?_
  rw [hp]
  refine RelM.ite ?_ (RelM.eqRefl _) (RelM.eqRefl _)
  have e1 : decide (x d < (f.range d).1) = decide (x' d < (f'.range d).1) := decide_eq_decide.2 (kr.lt (hx d) (h.spline.range d).1)
  have e2 : decide (x d > (f.range d).2) = decide (x' d > (f'.range d).2) := decide_eq_decide.2 (kr.lt (h.spline.range d).2 (hx d))
  rw [e1, e2]

include kr vr in
theorem at'_param {f : InterpFn D K V} {f' : InterpFn D K' V'} (h : RFn rK rV f f') (hk : FnOk P f) {x : Fin D → K} {x' : Fin D → K'} (hx : ∀ d, rK (x d) (x' d)) :
    RelM E rV (at' f x) (at' f' x') := RelM.bind (boundaryCheck_param kr h hx) fun _ _ _ => call_param kr vr h hk hx

include kr vr in
theorem derivative_param (c : Cfg) {f : InterpFn D K V} {f' : InterpFn D K' V'} (h : RFn rK rV f f') (hk : FnOk P f) {x : Fin D → K} {x' : Fin D → K'} (hx : ∀ d, rK (x d) (x' d))
    (m : Fin D → ℕ) : RelM E rV (derivative c f x m) (derivative c f' x' m) :=
  RelM.bind (RelM.tabM fun d => hint_param kr h hk d (hx d)) fun _ _ e => derivativeAtH_param kr vr c h.spline hk.knots fun d => ⟨hx d, by rw [e d]⟩

include kr vr in
theorem derivativeAt_param (c : Cfg) {f : InterpFn D K V} {f' : InterpFn D K' V'} (h : RFn rK rV f f') (hk : FnOk P f) {x : Fin D → K} {x' : Fin D → K'} (hx : ∀ d, rK (x d) (x' d))
    (m : Fin D → ℕ) : RelM E rV (derivativeAt c f x m) (derivativeAt c f' x' m) :=
  RelM.bind (boundaryCheck_param kr h hx) fun _ _ _ => derivative_param kr vr c h hk hx m

/-! ## InterpolationTemplate.hpp -/

include kr in
theorem bandMk_param (n p q : ℕ) : RBand rK (BandMatrix.mk' n p q) (BandMatrix.mk' n p q) := .mk (mk'_param kr.zero _)

include kr in
theorem coefMat_param (per : Bool) (n bw : ℕ) : RelM E (RCoef rK) (coefMat per n bw) (coefMat per n bw) :=
  RelM.ite Iff.rfl (RelM.bind (R := RExt rK) (RelM.bindEq fun _ => RelM.bindEq fun _ => RelM.pure (.mk (mk'_param kr.zero _) (mk'_param kr.zero _) (mk'_param kr.zero _)))
    fun _ _ h => RelM.pure (.ext h)) (RelM.pure (.band (bandMk_param kr n bw bw)))

include kr in
theorem ofMat_param (hP : ∀ a, P a) (c : Cfg) {m : CoefMat K} {m' : CoefMat K'} (h : RCoef rK m m') : RelM E (RSolver rK) (ofMat c m) (ofMat c m') := by
  cases h with
  | band h =>
    show RelM E _ ((bandCompute c _ >>= fun lu => Pure.pure (⟨true, lu⟩ : LUState _)) >>= fun s => Pure.pure (Solver.band s))
      ((bandCompute c _ >>= fun lu => Pure.pure (⟨true, lu⟩ : LUState _)) >>= fun s => Pure.pure (Solver.band s))
    rw [bind_assoc, bind_assoc]
    exact RelM.bind (bandCompute_param kr hP c h) fun _ _ h => RelM.pure (.band h)
  | ext h =>
    show RelM E _ ((extCompute c _ >>= fun lu => Pure.pure (⟨true, lu⟩ : LUState _)) >>= fun s => Pure.pure (Solver.ext s))
      ((extCompute c _ >>= fun lu => Pure.pure (⟨true, lu⟩ : LUState _)) >>= fun s => Pure.pure (Solver.ext s))
    rw [bind_assoc, bind_assoc]
    exact RelM.bind (extCompute_param kr hP c h) fun _ _ h => RelM.pure (.ext h)

include vr in
omit [CoordArith K] [CoordArith K'] in
theorem solve_param (c : Cfg) {s : Solver K} {s' : Solver K'} (h : RSolver rK s s') (hd : PivOk P c s) {buf : List V} {buf' : List V'} (hb : Forall₂ rV buf buf')
    (off step : ℕ) : RelM E (Forall₂ rV) (solve c s buf off step) (solve c s' buf' off step) := by
  cases h with
  | band h => exact bandSolve_param vr c h hd hb off step
  | ext h => exact extSolve_param vr c h hd hb off step

omit [CoordArith K] [CoordArith K'] in
theorem bandSet_param (w : Bool) (c : Cfg) {m : BandMatrix K} {m' : BandMatrix K'} (h : RBand rK m m') (i j : ℕ) {v : K} {v' : K'} (hv : rK v v') :
    RelM E (RBand rK) (bandSet w c m i j v) (bandSet w c m' i j v') := by
  have hs := bset_param (E := E) h c i j hv
  cases h with
  | mk h =>
    cases h with
    | mk h => exact RelM.ite Iff.rfl (RelM.bindEq fun _ => RelM.bind (wr_param h _ hv) fun _ _ h => RelM.pure (.mk (.mk h))) hs

omit [CoordArith K] [CoordArith K'] in
theorem matSet_param (w : Bool) (c : Cfg) {m : CoefMat K} {m' : CoefMat K'} (h : RCoef rK m m') (i j : ℕ) {v : K} {v' : K'} (hv : rK v v') :
    RelM E (RCoef rK) (matSet w c m i j v) (matSet w c m' i j v') := by
  cases h with
  | band h => exact RelM.bind (bandSet_param w c h i j hv) fun _ _ h => RelM.pure (.band h)
  | ext h => exact RelM.bind (eset_param h c i j hv) fun _ _ h => RelM.pure (.ext h)

omit [CoordArith K] [CoordArith K'] in
theorem rowWrite_param (w : Bool) (c : Cfg) (order n i ki s : ℕ) (per : Bool) {vals : List K} {vals' : List K'} (hv : Forall₂ rK vals vals')
    {m : CoefMat K} {m' : CoefMat K'} (h : RCoef rK m m') :
    RelM E (RCoef rK) (rowWrite w c order n i ki s per vals m) (rowWrite w c order n i ki s per vals' m') :=
  RelM.loop _ _ h fun _ _ _ h => RelM.bindEq fun _ => RelM.bindEq fun _ => RelM.bindEq fun _ => RelM.bind (rd_param hv _) fun _ _ hv => matSet_param w c h _ _ hv

include kr in
omit [ValArith V] [ScaleArith K V] [ValArith V'] [ScaleArith K' V'] in
theorem baseAt_param {b : BSpline D K V} {b' : BSpline D K' V'} (h : RSpline rK rV b b') (hk : ∀ d, KnotsOk P (b.knots d)) (d : Fin D) (ki : ℕ) {x : K} {x' : K'} (hx : rK x x') :
    RelM E (Forall₂ rK) (baseAt b d ki x) (baseAt b' d ki x') := by
  unfold baseAt
  rw [(h.knots d).length_eq, h.order_eq]
  exact RelM.bindEq fun _ => baseSplineValue_param kr _ (h.knots d) (hk d) _ hx _

include kr in
omit [ValArith V] [ScaleArith K V] [ValArith V'] [ScaleArith K' V'] in
theorem rowData_param {f : InterpFn D K V} {f' : InterpFn D K' V'} (h : RFn rK rV f f') (hk : FnOk P f) {co : List K} {co' : List K'} (hc : Forall₂ rK co co') (d : Fin D) (i : ℕ)
    {vals : List K} {vals' : List K'} (hv : Forall₂ rK vals vals') :
    RelM E (fun r r' => r.1 = r'.1 ∧ Forall₂ rK r.2 r'.2) (rowData f co d i vals) (rowData f' co' d i vals') := by
  have hp : f.periodicity = f'.periodicity := h.spline.per_eq
  unfold rowData
  rw [h.uni, (h.spline.knots d).length_eq, h.spline.order_eq, hp]
  have hx : rK ((f.range d).1 + ofNat i * f.dx d) ((f'.range d).1 + ofNat i * f'.dx d) := kr.add (h.spline.range d).1 (kr.mul (kr.nat _) (h.dx d))
  refine RelM.ite Iff.rfl (RelM.bindEq fun ki => RelM.bind (R := Forall₂ rK) ?_ fun _ _ hv => RelM.pure ⟨rfl, hv⟩)
    (RelM.bind (rd_param hc _) fun x x' hx => RelM.bind (R := Eq) ?_ fun k k' e => ?_)
  · unfold uniformBase
    rw [(h.spline.knots d).length_eq, h.spline.order_eq, hp]
    exact RelM.ite Iff.rfl (RelM.pure hv) (RelM.ite Iff.rfl (baseAt_param kr h.spline hk.knots d ki hx) (RelM.bindEq fun _ =>
      RelM.ite Iff.rfl (baseAt_param kr h.spline hk.knots d ki hx) (RelM.pure hv)))
  · unfold knotIndCoord
    rw [(h.spline.knots d).length_eq, h.spline.order_eq, hp, hc.length_eq]
    exact RelM.ite Iff.rfl (RelM.eqRefl _) (RelM.ite Iff.rfl (RelM.eqRefl _) (RelM.bindEq fun _ => RelM.ite Iff.rfl (RelM.eqRefl _) (RelM.bindEq fun _ =>
      RelM.bind (getKnotIter_param kr h.spline d hx _ _) fun r r' hr => RelM.pure hr.2)))
  · subst e
    exact RelM.bind (baseAt_param kr h.spline hk.knots d _ hx) fun _ _ hv => RelM.pure ⟨rfl, hv⟩

include kr in
omit [ValArith V] [ScaleArith K V] [ValArith V'] [ScaleArith K' V'] in
theorem assembleBody_param (w : Bool) (c : Cfg) {f : InterpFn D K V} {f' : InterpFn D K' V'} (h : RFn rK rV f f') (hk : FnOk P f) {co : List K} {co' : List K'} (hc : Forall₂ rK co co')
    (d : Fin D) (n i : ℕ) {st : CoefMat K × List K} {st' : CoefMat K' × List K'} (hs : RCoef rK st.1 st'.1 ∧ Forall₂ rK st.2 st'.2) :
    RelM E (fun s s' => RCoef rK s.1 s'.1 ∧ Forall₂ rK s.2 s'.2) (assembleBody w c f co d n i st) (assembleBody w c f' co' d n i st') := by
  have hp : f.periodicity = f'.periodicity := h.spline.per_eq
  unfold assembleBody
  rw [h.uni, h.spline.order_eq, hp]
  refine RelM.ite Iff.rfl (RelM.bind (matSet_param w c hs.1 _ _ kr.one) fun _ _ hm => RelM.pure ⟨hm, hs.2⟩) (RelM.bindEq fun inner =>
    RelM.bind (rowData_param kr h hk hc d i hs.2) fun r r' hr => ?_)
  rw [hr.1]
  exact RelM.bind (rowWrite_param w c _ _ _ _ _ _ hr.2 hs.1) fun _ _ hm => RelM.pure ⟨hm, hr.2⟩

include kr in
omit [ValArith V] [ScaleArith K V] [ValArith V'] [ScaleArith K' V'] in
theorem assemble_param (w : Bool) (c : Cfg) {f : InterpFn D K V} {f' : InterpFn D K' V'} (h : RFn rK rV f f') (hk : FnOk P f) {co : List K} {co' : List K'} (hc : Forall₂ rK co co')
    (d : Fin D) (n : ℕ) {vals : List K} {vals' : List K'} (hv : Forall₂ rK vals vals') :
    RelM E (RCoef rK) (assemble w c f co d n vals) (assemble w c f' co' d n vals') := by
  have hp : f.periodicity = f'.periodicity := h.spline.per_eq
  unfold assemble
  rw [h.spline.order_eq, hp]
  exact RelM.bind (coefMat_param kr _ _ _) fun m m' hm => RelM.bind (R := fun s s' => RCoef rK s.1 s'.1 ∧ Forall₂ rK s.2 s'.2)
    (RelM.loop _ _ ⟨hm, hv⟩ fun i _ _ hs => assembleBody_param kr w c h hk hc d n i hs) fun _ _ hs => RelM.pure hs.1

include kr in
omit [ValArith V] [ScaleArith K V] [ValArith V'] [ScaleArith K' V'] in
theorem precalc_param {f : InterpFn D K V} {f' : InterpFn D K' V'} (h : RFn rK rV f f') (hk : FnOk P f) (d : Fin D) : RelM E (Forall₂ rK) (precalc f d) (precalc f' d) := by
  have hp : f.periodicity = f'.periodicity := h.spline.per_eq
  unfold precalc
  rw [h.spline.order_eq, hp, h.uni]
  exact RelM.ite Iff.rfl (RelM.bind (rd_param (h.spline.knots d) _) fun _ _ ht =>
    baseAt_param kr h.spline hk.knots d _ (kr.add ht (kr.mul (kr.mul (kr.nat _) (h.dx d)) kr.half))) (RelM.pure .nil)

include kr in
omit [ValArith V] [ScaleArith K V] [ValArith V'] [ScaleArith K' V'] in
theorem constructT_param (hP : ∀ a, P a) (rV : V → V' → Prop) (w : Bool) (c : Cfg) (order : ℕ) (per : Fin D → Bool) (dims : Fin D → ℕ) {x : Fin D → XRange K} {x' : Fin D → XRange K'}
    (hx : ∀ d, RX rK (x d) (x' d)) : RelM E (RTmpl rK rV) (constructT w c order per dims x) (constructT w c order per dims x') :=
  RelM.bind (partialConstruct_param kr rV c order per dims hx) fun r r' hr => RelM.bindEq fun dims' => RelM.bind (RelM.tabM fun d => precalc_param kr hr.1 (FnOk.of hP) d) fun v v' hv =>
    RelM.bind (RelM.tabM fun d => RelM.bind (assemble_param kr w c hr.1 (FnOk.of hP) (hr.2 d) d _ (hv d)) fun _ _ hm => ofMat_param kr hP c hm) fun s s' hs =>
    RelM.pure (.mk hr.2 hr.1 hs)

include vr in
omit [CoordArith K] [CoordArith K'] in
theorem initWeights_param (c : Cfg) (order : ℕ) (per : Fin D → Bool) (dims : Fin D → ℕ) {fm : Mesh D V} {fm' : Mesh D V'} (h : RMesh rV fm fm') :
    RelM E (RMesh rV) (initWeights c order per dims fm) (initWeights c order per dims fm') := by
  unfold initWeights
  rw [h.size_eq]
  refine RelM.loop _ _ (mk'_param vr.zero _) fun pos m m' hm => RelM.bindEq' (by unfold Mesh.iterIndices; rw [h.dims_eq]) fun a => RelM.bindEq fun r => ?_
  exact RelM.ite Iff.rfl (RelM.bind (rd_param h.storage _) fun _ _ hv => set_param hm _ hv) (RelM.pure hm)

omit [CoordArith K] [CoordArith K'] [ValArith V] [ValArith V'] [ScaleArith K V] [ScaleArith K' V'] in
theorem copyLine_param (n off step noff nstep : ℕ) {o w : List V} {o' w' : List V'} (ho : Forall₂ rV o o') (hw : Forall₂ rV w w') :
    RelM E (Forall₂ rV) (Template.copyLine n off step noff nstep o w) (Template.copyLine n off step noff nstep o' w') :=
  RelM.loop _ _ hw fun _ _ _ hw => RelM.bind (rd_param ho _) fun _ _ hv => wr_param hw _ hv

/-- Both buffers of the solver. -/
def RPair {D : ℕ} (rV : V → V' → Prop) (st : Mesh D V × Mesh D V) (st' : Mesh D V' × Mesh D V') : Prop := RMesh rV st.1 st'.1 ∧ RMesh rV st.2 st'.2

include vr in
omit [CoordArith K] [CoordArith K'] in
theorem solveLine_param (c : Cfg) {s : Solver K} {s' : Solver K'} (h : RSolver rK s s') (hd : PivOk P c s) (j : ℕ) {st : Mesh (D + 1) V × Mesh (D + 1) V}
    {st' : Mesh (D + 1) V' × Mesh (D + 1) V'} (hs : RPair rV st st') : RelM E (RPair rV) (solveLine c s j st) (solveLine c s' j st') := by
  unfold solveLine
  dsimp only
  rw [hs.1.dims_eq]
  refine RelM.bindEq fun a => RelM.bindEq' (lineBegin_eq hs.1 c _ _) fun o => RelM.bindEq' (lineBegin_eq hs.2 c _ _) fun w =>
    RelM.bind (solve_param vr c h hd hs.1.storage _ _) fun b b' hb => ?_
  refine RelM.ite Iff.rfl (RelM.pure ⟨.mk hb, hs.2⟩) (RelM.bind (copyLine_param _ _ _ _ _ hb hs.2.storage) fun n n' hn => RelM.pure ⟨.mk hb, ?_⟩)
  rw [hs.2.dims_eq]
  exact .mk hn

include vr in
omit [CoordArith K] [CoordArith K'] in
theorem solveDim_param (c : Cfg) {s : Solver K} {s' : Solver K'} (h : RSolver rK s s') (hd : PivOk P c s) {st : Mesh (D + 1) V × Mesh (D + 1) V}
    {st' : Mesh (D + 1) V' × Mesh (D + 1) V'} (hs : RPair rV st st') : RelM E (RPair rV) (solveDim c s st) (solveDim c s' st') := by
  unfold solveDim
  dsimp only
  rw [hs.1.dims_eq, hs.1.size_eq]
  refine RelM.bindEq fun _ => RelM.loop _ _ ⟨hs.1, ?_⟩ fun j _ _ hs => solveLine_param vr c h hd j hs
  dsimp only
  split
  · exact hs.2
  · exact resize_param hs.2 _ vr.zero

include vr in
omit [CoordArith K] [CoordArith K'] in
theorem solveForControlPoints_param (c : Cfg) {t : Template (D + 1) K V} {t' : Template (D + 1) K' V'} (h : RTmpl rK rV t t') (hd : ∀ d, PivOk P c (t.solvers d))
    {fm : Mesh (D + 1) V} {fm' : Mesh (D + 1) V'}
    (hf : RMesh rV fm fm') : RelM E (RMesh rV) (solveForControlPoints c t fm) (solveForControlPoints c t' fm') := by
  cases h with
  | @mk co co' dims b b' s s' hc hb hs =>
    have hp : b.periodicity = b'.periodicity := hb.spline.per_eq
    unfold solveForControlPoints
    dsimp only
    rw [hb.spline.order_eq, hp]
    refine RelM.bind (initWeights_param vr c _ _ _ hf) fun w w' hw => RelM.bind (R := RPair rV) (RelM.foldlM _ ⟨hw, ?_⟩ fun st st' d hst => ?_) fun st st' hst =>
      RelM.ite Iff.rfl (RelM.pure hst.1) (RelM.pure hst.2)
    · dsimp only
      split
      · exact mk'_param vr.zero _
      · exact resize_param (mk'_param vr.zero _) _ vr.zero
    · exact RelM.ite Iff.rfl (solveDim_param vr c (hs _) (hd _) hst) (RelM.bind (solveDim_param vr c (hs _) (hd _) ⟨hst.2, hst.1⟩) fun _ _ hr => RelM.pure ⟨hr.2, hr.1⟩)

include kr vr in
theorem construct_param (hP : ∀ a, P a) (w : Bool) (c : Cfg) (order : ℕ) (per : Fin (D + 1) → Bool) {fm : Mesh (D + 1) V} {fm' : Mesh (D + 1) V'} (hf : RMesh rV fm fm')
    {x : Fin (D + 1) → XRange K} {x' : Fin (D + 1) → XRange K'} (hx : ∀ d, RX rK (x d) (x' d)) :
    RelM E (RFn rK rV) (construct w c order per fm x) (construct w c order per fm' x') := by
  unfold construct
  rw [hf.dims_eq]
  refine RelM.bind (constructT_param kr hP rV w c order per _ hx) fun t t' ht => RelM.bind (solveForControlPoints_param vr c ht (fun _ => .of hP) hf) fun m m' hm => ?_
  cases ht with
  | mk hc hb hs =>
    cases hb with
    | mk hsp hdx =>
      cases hsp with
      | mk hk _ hr => exact .mk (.mk hk hm hr) hdx

end Fl

end

end Intp
