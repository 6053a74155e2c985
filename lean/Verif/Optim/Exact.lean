import Verif.Optim.Common
import Verif.Box.Props
/-!
# Box constraints on vectors of `n` variables

The operations of a convex set which the optimizers need, given by the model of the box sets
(`Verif/Box/Model.lean`) applied to a memory where the variables, the direction, the bounds and the
destination are stored one after the other.  (In place operation, which the optimizers use for the
projections, gives the same result: C09, C10.)
-/
set_option linter.unusedSectionVars false
namespace Opk.Optim
open Opk.Vec Opk.Box

/-- A bound given to `opk_new_boxset`. -/
inductive Side (F : Type) (n : Nat) where
  | unset
  | scalar (v : F)
  | vector (v : Fin n → F)

variable {F : Type} {n : Nat}

/-- Elements of a vector. -/
def ext [Zero F] (v : Fin n → F) (i : Nat) : F := if h : i < n then v ⟨i, h⟩ else 0

/-- Value of a bound for the variable `i`. -/
def Side.at (b : Side F n) (i : Fin n) : Option F :=
  match b with | .unset => none | .scalar v => some v | .vector v => some (v i)

/-- The values of a bound given by a vector. -/
def Side.values [Zero F] (b : Side F n) (i : Nat) : F :=
  match b with | .vector v => ext v i | _ => 0

/-- The bound in memory. -/
def Side.bound (b : Side F n) (addr : Nat) : Bound F :=
  match b with
  | .unset => .unset
  | .scalar v => .scalar v
  | .vector _ => .vector { addr := addr, space := 0, data := addr }

/-- `x` is at 0, `d` at `n`, the lower bound at `2 n`, the upper bound at `3 n` and the destination at
`4 n`. -/
def layout [Zero F] (lower upper : Side F n) (x d : Fin n → F) : Mem F := fun a =>
  if a < n then ext x a else if a < 2 * n then ext d (a - n)
  else if a < 3 * n then lower.values (a - 2 * n) else if a < 4 * n then upper.values (a - 3 * n) else 0

/-- The vector at position `k`. -/
def at_ (n k : Nat) : Vec := { addr := k, space := 0, data := k * n }

/-- The box set. -/
def boxOf (lower upper : Side F n) : BoxSet F :=
  { space := 0, lower := lower.bound (2 * n), upper := upper.bound (3 * n) }

/-- Contents of the destination (undefined behaviour is reported as an error; the theorems below show
that there is none). -/
def fetch (n : Nat) (r : Option (Mem F)) : Except Box.Status (Fin n → F) :=
  match r with
  | none => .error .illegalAddress
  | some m => .ok fun i => (at_ n 4).el m i

section cs
variable [Add F] [Sub F] [Mul F] [Div F] [Neg F] [Zero F] [One F] [LinearOrder F]

/-- The operations of a box set (`src/algebra.c:682-737`), for `double` variables and the orientation
`OPK_ASCENT` (-1); `inf` is `DBL_MAX`. -/
def boxCs (inf : F) (lower upper : Side F n) : Cs F (Fin n → F) where
  projvar x := fetch n (boxProjVar id (fun _ => n) (boxOf lower upper) (at_ n 4) (at_ n 0) (layout lower upper x 0))
  projdir x d := fetch n (boxProjDir id (fun _ => n) (boxOf lower upper) (at_ n 4) (at_ n 0) (at_ n 1) (-1)
    (layout lower upper x d))
  freevar x d := fetch n (boxFreeVar id (fun _ => n) (boxOf lower upper) (at_ n 4) (at_ n 0) (at_ n 1) (-1)
    (layout lower upper x d))
  steplim x d :=
    match boxStepLim id inf (fun _ => n) (boxOf lower upper) (at_ n 0) (at_ n 1) (-1) (layout lower upper x d) with
    | none => .error .illegalAddress
    | some l => .ok l

theorem layout_x (lower upper : Side F n) (x d : Fin n → F) (i : Fin n) : (at_ n 0).el (layout lower upper x d) i = x i := by
  unfold at_ Vec.el layout ext
  have := i.2
  simp

theorem layout_d (lower upper : Side F n) (x d : Fin n → F) (i : Fin n) : (at_ n 1).el (layout lower upper x d) i = d i := by
  unfold at_ Vec.el layout ext
  have := i.2
  simp only [one_mul]
  rw [if_neg (by omega), if_pos (by omega)]
  simp

theorem layout_lower (lower upper : Side F n) (x d : Fin n → F) (i : Fin n) :
    (boxOf lower upper).lower.at id (layout lower upper x d) i = lower.at i := by
  have := i.2
  unfold boxOf Side.bound Side.at
  rcases lower with _ | v | v <;> simp only [Bound.at, id]
  unfold Vec.el layout Side.values ext
  rw [if_neg (by simp; omega), if_neg (by simp), if_pos (by simp; omega)]
  simp

theorem layout_upper (lower upper : Side F n) (x d : Fin n → F) (i : Fin n) :
    (boxOf lower upper).upper.at id (layout lower upper x d) i = upper.at i := by
  have := i.2
  unfold boxOf Side.bound Side.at
  rcases upper with _ | v | v <;> simp only [Bound.at, id]
  unfold Vec.el layout Side.values ext
  dsimp only
  rw [if_neg (by omega), if_neg (by omega), if_neg (by omega), if_pos (by omega)]
  simp

theorem apart (lower upper : Side F n) : (boxOf lower upper).lower.Apart n (at_ n 4) ∧
    (boxOf lower upper).upper.Apart n (at_ n 4) := by
  unfold boxOf Side.bound Bound.Apart SameOrApart at_
  constructor
  · rcases lower with _ | v | v <;> simp; omega
  · rcases upper with _ | v | v <;> simp; omega

theorem fetch_sets (f : Nat → F) (m : Mem F) (r : Option (Mem F)) (h : Sets n (at_ n 4) f m (lift r)) :
    fetch n r = .ok fun i => f i := by
  obtain ⟨m', h1, h2, -⟩ := h
  rcases r with _ | m''
  · simp [lift] at h1
  · simp [lift] at h1
    subst h1
    unfold fetch
    dsimp only
    congr 1
    funext i
    exact h2 i i.2

/-- Projection of the variables, component by component. -/
theorem projvar_eq (inf : F) (lower upper : Side F n) (x : Fin n → F) :
    (boxCs inf lower upper).projvar x = .ok fun i => clampO (lower.at i) (upper.at i) (x i) := by
  unfold boxCs
  dsimp only
  rw [fetch_sets _ _ _ (boxProjVar_sets id (fun _ => n) (boxOf lower upper) (at_ n 4) (at_ n 0)
    (layout lower upper x 0) (by unfold SameOrApart at_; dsimp only; omega) (apart lower upper).1 (apart lower upper).2)]
  congr 1
  funext i
  rw [layout_x, layout_lower, layout_upper]

/-- Projection of a direction, component by component. -/
theorem projdir_eq (inf : F) (lower upper : Side F n) (x d : Fin n → F) :
    (boxCs inf lower upper).projdir x d = .ok fun i => dirO (-1) (d i) (x i) (lower.at i) (upper.at i) := by
  unfold boxCs
  dsimp only
  rw [fetch_sets _ _ _ (boxProjDir_sets id (fun _ => n) (boxOf lower upper) (at_ n 4) (at_ n 0) (at_ n 1) (-1)
    (layout lower upper x d) (by unfold SameOrApart at_; dsimp only; omega) (by unfold SameOrApart at_; dsimp only; omega)
    (apart lower upper).1 (apart lower upper).2)]
  congr 1
  funext i
  rw [layout_x, layout_d, layout_lower, layout_upper]

/-- Free variables, component by component. -/
theorem freevar_eq (inf : F) (lower upper : Side F n) (x d : Fin n → F) :
    (boxCs inf lower upper).freevar x d = .ok fun i => freeO (-1) (d i) (x i) (lower.at i) (upper.at i) := by
  unfold boxCs
  dsimp only
  rw [fetch_sets _ _ _ (boxFreeVar_sets id (fun _ => n) (boxOf lower upper) (at_ n 4) (at_ n 0) (at_ n 1) (-1)
    (layout lower upper x d) (by unfold SameOrApart at_; dsimp only; omega) (by unfold SameOrApart at_; dsimp only; omega)
    (apart lower upper).1 (apart lower upper).2)]
  congr 1
  funext i
  rw [layout_x, layout_d, layout_lower, layout_upper]

end cs

section exact
variable {K : Type} [Field K] [LinearOrder K] [IsStrictOrderedRing K] {n : Nat}

/-- The variables satisfy the bounds. -/
def Feasible (lower upper : Side K n) (x : Fin n → K) : Prop := ∀ i, Inside (lower.at i) (upper.at i) (x i)

/-- The bounds are consistent. -/
def Bounds (lower upper : Side K n) : Prop := ∀ i, Consistent (lower.at i) (upper.at i)

/-- No variable is blocked when moving along `-d`. -/
def Open (lower upper : Side K n) (x d : Fin n → K) : Prop :=
  ∀ i, ¬ Blocked (-d i) (x i) (lower.at i) (upper.at i)

theorem projvar_feasible (inf : K) (lower upper : Side K n) (hb : Bounds lower upper) (x x' : Fin n → K)
    (h : (boxCs inf lower upper).projvar x = .ok x') : Feasible lower upper x' := by
  rw [projvar_eq] at h
  cases h
  exact fun i => clampO_inside (hb i)

theorem projdir_open (inf : K) (lower upper : Side K n) (x d d' : Fin n → K)
    (h : (boxCs inf lower upper).projdir x d = .ok d') :
    Open lower upper x d' ∧ ∀ i, (Blocked (-d i) (x i) (lower.at i) (upper.at i) → d' i = 0) ∧
      (¬ Blocked (-d i) (x i) (lower.at i) (upper.at i) → d' i = d i) := by
  rw [projdir_eq] at h
  cases h
  have e : ∀ i, sgn K (-1) * d i = - d i := fun i => by simp [sgn]
  have hv := fun i => dirO_eq (-1) (d i) (x i) (lower.at i) (upper.at i)
  simp only [e] at hv
  refine ⟨fun i => ?_, hv⟩
  dsimp only
  by_cases hc : Blocked (-d i) (x i) (lower.at i) (upper.at i)
  · rw [(hv i).1 hc]
    rintro (⟨h, -⟩ | ⟨h, -⟩) <;> simp at h
  · rw [(hv i).2 hc]; exact hc

/-- The mask of the free variables: zeros and ones, and its product by the direction is the projected
direction. -/
theorem freevar_mask (inf : K) (lower upper : Side K n) (x d w : Fin n → K)
    (h : (boxCs inf lower upper).freevar x d = .ok w) :
    w * w = w ∧ (boxCs inf lower upper).projdir x d = .ok (w * d) := by
  rw [freevar_eq] at h
  cases h
  rw [projdir_eq]
  have key : ∀ i, let w := freeO (-1) (d i) (x i) (lower.at i) (upper.at i)
      w * w = w ∧ dirO (-1) (d i) (x i) (lower.at i) (upper.at i) = w * d i := by
    intro i
    by_cases hb : lower.at i = none ∧ upper.at i = none
    · rw [hb.1, hb.2]; simp [freeO, dirO]
    · dsimp only
      rw [freeO_eq _ _ _ _ _ hb]
      obtain ⟨h1, h2⟩ := dirO_eq (-1) (d i) (x i) (lower.at i) (upper.at i)
      split_ifs with hc
      · simp [hc]
      · by_cases hbl : Blocked (sgn K (-1) * d i) (x i) (lower.at i) (upper.at i)
        · exact absurd (h1 hbl) hc
        · simp [h2 hbl]
  constructor
  · funext i; exact (key i).1
  · congr 1; funext i; exact (key i).2

theorem steplim_ok (inf : K) (h0 : 0 < inf) (lower upper : Side K n) (x d : Fin n → K) (hx : Feasible lower upper x) :
    ∃ l, (boxCs inf lower upper).steplim x d = .ok l ∧
      0 ≤ l.s1 ∧ l.s1 ≤ l.s2 ∧ 0 < l.s2 ∧ 0 ≤ l.s3 ∧ (d ≠ 0 → l.s1 ≤ l.s3) ∧
      (Open lower upper x d → ∀ α, 0 ≤ α → α ≤ l.s2 → Feasible lower upper fun i => x i - α * d i) ∧
      (Open lower upper x d → l.s1 = l.s2) := by
  obtain ⟨l, h1, h2⟩ := step_limits id inf h0 (fun _ => n) (boxOf lower upper) (at_ n 0) (at_ n 1) (-1)
    (layout lower upper x d) (by
      intro i hi
      have h1 := layout_x lower upper x d ⟨i, hi⟩
      have h2 := layout_lower lower upper x d ⟨i, hi⟩
      have h3 := layout_upper lower upper x d ⟨i, hi⟩
      dsimp only at h1 h2 h3
      rw [h1, h2, h3]; exact hx ⟨i, hi⟩)
  have hmove : ∀ i : Fin n, ∀ α : K, (at_ n 0).el (layout lower upper x d) i +
      α * (sgn K (-1) * (at_ n 1).el (layout lower upper x d) i) = x i - α * d i := by
    intro i α
    rw [layout_x, layout_d]; simp [sgn]; ring
  refine ⟨l, by unfold boxCs; dsimp only; rw [h1], h2.order.1, h2.order.2.1, h2.order.2.2.1, h2.order.2.2.2.2, ?_, ?_, ?_⟩
  · intro hd
    refine h2.order' ?_
    by_contra hc
    push Not at hc
    apply hd
    funext i
    have := hc i i.2
    rw [layout_d] at this
    simpa [sgn] using this
  · intro ho α a0 a1 i
    obtain ⟨ε, e0, e1⟩ := unblocked_feasible (hx i) (ho i)
    have := h2.second i i.2 ⟨ε, e0, by
      rw [layout_lower, layout_upper, hmove]
      have := e1 ε e0.le le_rfl
      rw [mul_neg, ← sub_eq_add_neg] at this; exact this⟩ α a0 a1
    rw [layout_lower, layout_upper, hmove] at this
    exact this
  · intro ho
    apply h2.same
    intro i hi
    obtain ⟨ε, e0, e1⟩ := unblocked_feasible (hx ⟨i, hi⟩) (ho ⟨i, hi⟩)
    refine ⟨ε, e0, ?_⟩
    have h1 := layout_lower lower upper x d ⟨i, hi⟩
    have h2 := layout_upper lower upper x d ⟨i, hi⟩
    have h3 := hmove ⟨i, hi⟩ ε
    dsimp only at h1 h2 h3
    rw [h1, h2, h3]
    have := e1 ε e0.le le_rfl
    rw [mul_neg, ← sub_eq_add_neg] at this; exact this

end exact

end Opk.Optim
