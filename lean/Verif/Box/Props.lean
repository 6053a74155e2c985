import Verif.Box.Lemmas
/-! # C09, C10, C11, C12, C13: box constraints -/
set_option linter.unusedSectionVars false
namespace Opk.Box
open Opk.Vec

/-! ## Specification -/

/-- `t'` is the projection of `t` on the interval (possibly unbounded): it is in the interval and
no point of the interval is closer to `t`. -/
def IsProj {F : Type} [Field F] [LinearOrder F] (lo hi : Option F) (t t' : F) : Prop :=
  Inside lo hi t' ∧ ∀ y, Inside lo hi y → |t' - t| ≤ |y - t|

/-- The interval is not empty. -/
def Consistent {F : Type} [LE F] (lo hi : Option F) : Prop :=
  ∀ a b, lo = some a → hi = some b → a ≤ b

/-- The variables move along `+d` if `orient > 0` and along `-d` otherwise. -/
def sgn (F : Type) [Field F] (orient : Int) : F := if orient > 0 then 1 else -1

/-! ## C09: projection of the variables -/

section order
variable {F : Type} [Add F] [Sub F] [Mul F] [Div F] [Neg F] [Zero F] [One F] [LinearOrder F]

/-- **C09.** For each of the nine kinds of boxes, for any arithmetic (only comparisons are used)
and in place or not: the projection does not fail, only changes the destination and, for each
component, gives a point which satisfies the bounds (if they are consistent), which is the
original one if this one is feasible, and which is between the original one and any other
feasible value. -/
theorem project_variables (cast : F → F) (size : Sizes) (box : BoxSet F) (dst x : Vec) (m : Mem F)
    (hx : SameOrApart (size box.space) dst x)
    (hl : box.lower.Apart (size box.space) dst) (hu : box.upper.Apart (size box.space) dst) :
    ∃ m', boxProjVar cast size box dst x m = some m' ∧
      (∀ a, a < dst.data ∨ dst.data + size box.space ≤ a → m' a = m a) ∧
      ∀ i, i < size box.space →
        (Consistent (box.lower.at cast m i) (box.upper.at cast m i) →
          Inside (box.lower.at cast m i) (box.upper.at cast m i) (dst.el m' i)) ∧
        (Inside (box.lower.at cast m i) (box.upper.at cast m i) (x.el m i) →
          dst.el m' i = x.el m i) ∧
        (∀ y, Inside (box.lower.at cast m i) (box.upper.at cast m i) y →
          (x.el m i ≤ dst.el m' i ∧ dst.el m' i ≤ y) ∨ (y ≤ dst.el m' i ∧ dst.el m' i ≤ x.el m i)) := by
  obtain ⟨m', h1, h2, h3⟩ := boxProjVar_sets cast size box dst x m hx hl hu
  refine ⟨m', ?_, h3, ?_⟩
  · cases h : boxProjVar cast size box dst x m with
    | none => simp [h, lift] at h1
    | some m'' => simp [h, lift] at h1; rw [h1]
  · intro i hi
    rw [h2 i hi]
    exact ⟨fun hc => clampO_inside hc, fun hin => clampO_id hin, fun y hy => clampO_between hy⟩

/-- **C09 (idempotence).** Projecting again a projected point, with bounds which are not stored
in the destination, does not change anything. -/
theorem project_variables_idempotent (cast : F → F) (size : Sizes) (box : BoxSet F) (dst x : Vec)
    (m m' : Mem F) (hx : SameOrApart (size box.space) dst x)
    (hl : ∀ v, box.lower = .vector v → dst.data + size box.space ≤ v.data ∨ v.data + size box.space ≤ dst.data)
    (hu : ∀ v, box.upper = .vector v → dst.data + size box.space ≤ v.data ∨ v.data + size box.space ≤ dst.data)
    (hc : ∀ i, i < size box.space → Consistent (box.lower.at cast m i) (box.upper.at cast m i))
    (h : boxProjVar cast size box dst x m = some m') :
    boxProjVar cast size box dst dst m' = some m' := by
  have hl' : box.lower.Apart (size box.space) dst := by
    unfold Bound.Apart; split
    · rename_i v e; exact Or.inr (hl v e)
    · trivial
  have hu' : box.upper.Apart (size box.space) dst := by
    unfold Bound.Apart; split
    · rename_i v e; exact Or.inr (hu v e)
    · trivial
  obtain ⟨m1, e1, o1, p1⟩ := project_variables cast size box dst x m hx hl' hu'
  rw [h] at e1; cases e1
  obtain ⟨m2, e2, o2, p2⟩ := project_variables cast size box dst dst m' (Or.inl rfl) hl' hu'
  rw [e2]
  congr 1
  have bl : ∀ i, i < size box.space → box.lower.at cast m' i = box.lower.at cast m i := by
    intro i hi
    unfold Bound.at
    split
    · rfl
    · rfl
    · rename_i v e; have := hl v e; simp only [Vec.el]; rw [o1 _ (by omega)]
  have bu : ∀ i, i < size box.space → box.upper.at cast m' i = box.upper.at cast m i := by
    intro i hi
    unfold Bound.at
    split
    · rfl
    · rfl
    · rename_i v e; have := hu v e; simp only [Vec.el]; rw [o1 _ (by omega)]
  funext a
  by_cases ha : a < dst.data ∨ dst.data + size box.space ≤ a
  · exact o2 a ha
  · have hi : a - dst.data < size box.space := by omega
    have ea : a = dst.data + (a - dst.data) := by omega
    have := (p2 _ hi).2.1 (by rw [bl _ hi, bu _ hi]; exact (p1 _ hi).1 (hc _ hi))
    unfold Vec.el at this
    rw [← ea] at this
    exact this

end order

section field
variable {F : Type} [Field F] [LinearOrder F] [IsStrictOrderedRing F]

theorem isProj_iff {lo hi : Option F} {t t' y : F} (hy : Inside lo hi y) :
    IsProj lo hi t t' ↔ t' = clampO lo hi t := by
  have hc : ∀ a b, lo = some a → hi = some b → a ≤ b := fun a b ha hb => le_trans (hy.1 a ha) (hy.2 b hb)
  have hin := clampO_inside (t := t) hc
  constructor
  · rintro ⟨h1, h2⟩
    have h3 := h2 _ hin
    rcases clampO_between (t := t) h1 with ⟨k1, k2⟩ | ⟨k1, k2⟩
    · rw [abs_of_nonneg (by linarith), abs_of_nonneg (by linarith)] at h3
      linarith
    · rw [abs_of_nonpos (by linarith), abs_of_nonpos (by linarith)] at h3
      linarith
  · rintro rfl
    refine ⟨hin, ?_⟩
    intro y hy
    rcases clampO_between (t := t) hy with ⟨k1, k2⟩ | ⟨k1, k2⟩
    · rw [abs_of_nonneg (by linarith), abs_of_nonneg (by linarith)]; linarith
    · rw [abs_of_nonpos (by linarith), abs_of_nonpos (by linarith)]; linarith

/-- **C09 (nearest point).** In exact arithmetic, the projection is the Euclidean one: component
by component, and for the sum of the squares. -/
theorem project_variables_nearest (cast : F → F) (size : Sizes) (box : BoxSet F) (dst x : Vec)
    (m : Mem F) (hx : SameOrApart (size box.space) dst x)
    (hl : box.lower.Apart (size box.space) dst) (hu : box.upper.Apart (size box.space) dst)
    (hc : ∀ i, i < size box.space → Consistent (box.lower.at cast m i) (box.upper.at cast m i)) :
    ∃ m', boxProjVar cast size box dst x m = some m' ∧
      (∀ i, i < size box.space →
        IsProj (box.lower.at cast m i) (box.upper.at cast m i) (x.el m i) (dst.el m' i)) ∧
      ∀ y : Nat → F, (∀ i, i < size box.space →
          Inside (box.lower.at cast m i) (box.upper.at cast m i) (y i)) →
        ∑ i ∈ Finset.range (size box.space), (dst.el m' i - x.el m i) ^ 2
          ≤ ∑ i ∈ Finset.range (size box.space), (y i - x.el m i) ^ 2 := by
  obtain ⟨m', h1, _, h3⟩ := project_variables cast size box dst x m hx hl hu
  have hp : ∀ i, i < size box.space →
      IsProj (box.lower.at cast m i) (box.upper.at cast m i) (x.el m i) (dst.el m' i) := by
    intro i hi
    refine ⟨(h3 i hi).1 (hc i hi), ?_⟩
    intro y hy
    rcases (h3 i hi).2.2 y hy with ⟨k1, k2⟩ | ⟨k1, k2⟩
    · rw [abs_of_nonneg (by linarith), abs_of_nonneg (by linarith)]; linarith
    · rw [abs_of_nonpos (by linarith), abs_of_nonpos (by linarith)]; linarith
  refine ⟨m', h1, hp, ?_⟩
  intro y hy
  apply Finset.sum_le_sum
  intro i hi
  have := (hp i (Finset.mem_range.1 hi)).2 (y i) (hy i (Finset.mem_range.1 hi))
  exact sq_le_sq.2 this

/-! ## C10: projection of a direction -/

/-- The move `u` is blocked at `x` by an active bound. -/
def Blocked (u x : F) (lo hi : Option F) : Prop :=
  (u < 0 ∧ ∃ a, lo = some a ∧ x ≤ a) ∨ (0 < u ∧ ∃ b, hi = some b ∧ b ≤ x)

theorem dirO_eq (orient : Int) (d x : F) (lo hi : Option F) :
    (Blocked (sgn F orient * d) x lo hi → dirO orient d x lo hi = 0) ∧
    (¬ Blocked (sgn F orient * d) x lo hi → dirO orient d x lo hi = d) := by
  unfold sgn Blocked dirO
  by_cases ho : orient > 0
  · simp only [ho, if_true, one_mul]
    rcases lo with _ | lo <;> rcases hi with _ | hi <;>
      simp only [dirLower, dirUpper, dirBoxed, ho, if_true, Option.some.injEq, reduceCtorEq,
        false_and, exists_false, and_false, or_false, false_or, exists_eq_left', not_false_eq_true,
        true_implies, IsEmpty.forall_iff, true_and, and_true, not_and, not_le, ge_iff_le, gt_iff_lt,
        not_or]
    · rcases lt_trichotomy d 0 with h | h | h
      · simp [h, le_of_lt h, not_lt.2 (le_of_lt h)]
      · simp [h]
      · refine ⟨fun ⟨_, h2⟩ => ?_, fun h2 => ?_⟩
        · rw [if_neg]; push Not; exact ⟨h, h2⟩
        · rw [if_pos (Or.inr (h2 h))]
    · rcases lt_trichotomy d 0 with h | h | h
      · refine ⟨fun ⟨_, h2⟩ => ?_, fun h2 => ?_⟩
        · rw [if_neg]; push Not; exact ⟨h, h2⟩
        · rw [if_pos (Or.inr (h2 h))]
      · simp [h]
      · simp [h, le_of_lt h, not_lt.2 (le_of_lt h)]
    · rcases lt_trichotomy d 0 with h | h | h
      · have h' : ¬ 0 < d := not_lt.2 (le_of_lt h)
        simp only [h, h', if_true, true_and, false_and, or_false, true_implies, false_implies, and_true]
        exact ⟨fun h2 => if_neg (not_lt.2 h2), fun h2 => if_pos h2⟩
      · simp [h]
      · have h' : ¬ d < 0 := not_lt.2 (le_of_lt h)
        simp only [h, h', if_true, if_false, true_and, false_and, false_or, true_implies, false_implies]
        exact ⟨fun h2 => if_neg (not_lt.2 h2), fun h2 => if_pos h2⟩
  · simp only [ho, if_false, neg_mul, one_mul]
    rcases lo with _ | lo <;> rcases hi with _ | hi <;>
      simp only [dirLower, dirUpper, dirBoxed, ho, if_false, Option.some.injEq, reduceCtorEq,
        false_and, exists_false, and_false, or_false, false_or, exists_eq_left', not_false_eq_true,
        true_implies, IsEmpty.forall_iff, true_and, and_true, not_and, not_le, ge_iff_le, gt_iff_lt,
        not_or, Left.neg_neg_iff, Left.neg_pos_iff]
    · rcases lt_trichotomy d 0 with h | h | h
      · refine ⟨fun ⟨_, h2⟩ => ?_, fun h2 => ?_⟩
        · rw [if_neg]; push Not; exact ⟨h, h2⟩
        · rw [if_pos (Or.inr (h2 h))]
      · simp [h]
      · simp [h, le_of_lt h, not_lt.2 (le_of_lt h)]
    · rcases lt_trichotomy d 0 with h | h | h
      · simp [h, le_of_lt h, not_lt.2 (le_of_lt h)]
      · simp [h]
      · refine ⟨fun ⟨_, h2⟩ => ?_, fun h2 => ?_⟩
        · rw [if_neg]; push Not; exact ⟨h, h2⟩
        · rw [if_pos (Or.inr (h2 h))]
    · rcases lt_trichotomy d 0 with h | h | h
      · have h' : ¬ 0 < d := not_lt.2 (le_of_lt h)
        simp only [h, h', if_true, if_false, true_and, false_and, false_or, true_implies, false_implies]
        exact ⟨fun h2 => if_neg (not_lt.2 h2), fun h2 => if_pos h2⟩
      · simp [h]
      · have h' : ¬ d < 0 := not_lt.2 (le_of_lt h)
        simp only [h, h', if_true, true_and, false_and, or_false, true_implies, false_implies, and_true]
        exact ⟨fun h2 => if_neg (not_lt.2 h2), fun h2 => if_pos h2⟩

/-- One component: an unblocked move can be followed for a while. -/
theorem unblocked_feasible {u x : F} {lo hi : Option F} (hin : Inside lo hi x)
    (h : ¬ Blocked u x lo hi) : ∃ ε > 0, ∀ α, 0 ≤ α → α ≤ ε → Inside lo hi (x + α * u) := by
  unfold Blocked at h
  push Not at h
  rcases lt_trichotomy u 0 with hu | hu | hu
  · cases lo with
    | none =>
      refine ⟨1, one_pos, fun α h0 _ => ⟨by simp, fun b hb => ?_⟩⟩
      have := hin.2 b hb; nlinarith
    | some a =>
      have hax := h.1 hu a rfl
      refine ⟨(a - x) / u, div_pos_of_neg_of_neg (by linarith) hu, fun α h0 h1 => ⟨?_, fun b hb => ?_⟩⟩
      · intro a' ha; simp at ha; subst ha
        rw [le_div_iff_of_neg hu] at h1; linarith
      · have := hin.2 b hb; nlinarith
  · exact ⟨1, one_pos, fun α _ _ => by simpa [hu] using hin⟩
  · cases hi with
    | none =>
      refine ⟨1, one_pos, fun α h0 _ => ⟨fun a ha => ?_, by simp⟩⟩
      have := hin.1 a ha; nlinarith
    | some b =>
      have hax := h.2 hu b rfl
      refine ⟨(b - x) / u, div_pos (by linarith) hu, fun α h0 h1 => ⟨fun a ha => ?_, ?_⟩⟩
      · have := hin.1 a ha; nlinarith
      · intro b' hb; simp at hb; subst hb
        rw [le_div_iff₀ hu] at h1; linarith

/-- One component: a blocked move projects on the current point. -/
theorem blocked_proj {u x : F} {lo hi : Option F} (hin : Inside lo hi x) (h : Blocked u x lo hi)
    (α : F) (h0 : 0 ≤ α) : clampO lo hi (x + α * u) = x := by
  rcases h with ⟨hu, a, ha, hxa⟩ | ⟨hu, b, hb, hbx⟩
  · have hax := hin.1 a ha
    have : x = a := le_antisymm hxa hax
    subst this
    rcases clampO_between (t := x + α * u) hin with ⟨k1, k2⟩ | ⟨k1, k2⟩
    · have := (clampO_inside (lo := lo) (hi := hi) (t := x + α * u)
        (fun a b ha hb => le_trans (hin.1 a ha) (hin.2 b hb))).1 x ha
      linarith
    · nlinarith
  · have hax := hin.2 b hb
    have : x = b := le_antisymm hax hbx
    subst this
    rcases clampO_between (t := x + α * u) hin with ⟨k1, k2⟩ | ⟨k1, k2⟩
    · nlinarith
    · have := (clampO_inside (lo := lo) (hi := hi) (t := x + α * u)
        (fun a b ha hb => le_trans (hin.1 a ha) (hin.2 b hb))).2 x hb
      linarith

theorem not_blocked_of_feasible {u x : F} {lo hi : Option F} {ε : F} (hε : 0 < ε)
    (h : Inside lo hi (x + ε * u)) : ¬ Blocked u x lo hi := by
  rintro (⟨hu, a, ha, hxa⟩ | ⟨hu, b, hb, hbx⟩)
  · have := h.1 a ha; nlinarith
  · have := h.2 b hb; nlinarith

theorem uniform {P : Nat → F → Prop} (n : Nat)
    (h : ∀ i, i < n → ∃ ε > 0, ∀ α, 0 ≤ α → α ≤ ε → P i α) :
    ∃ ε > 0, ∀ α, 0 ≤ α → α ≤ ε → ∀ i, i < n → P i α := by
  induction n with
  | zero => exact ⟨1, one_pos, fun _ _ _ i hi => absurd hi (by omega)⟩
  | succ n ih =>
    obtain ⟨e1, p1, q1⟩ := ih (fun i hi => h i (by omega))
    obtain ⟨e2, p2, q2⟩ := h n (by omega)
    refine ⟨min e1 e2, lt_min p1 p2, ?_⟩
    intro α h0 h1 i hi
    by_cases hin : i = n
    · subst hin; exact q2 α h0 (le_trans h1 (min_le_right _ _))
    · exact q1 α h0 (le_trans h1 (min_le_left _ _)) i (by omega)

/-- **C10.** Let `x` be feasible and `p` be the projected direction.  The call only changes the
destination; each `p[i]` is `d[i]` or 0; `p[i] = d[i]` exactly when a small enough step along
`d[i]` is feasible; and there is a positive step length below which the projection of
`x ± alpha*d` is `x ± alpha*p` (so `p` is a feasible direction, and it is the derivative of the
projected path). -/
theorem project_direction (cast : F → F) (size : Sizes) (box : BoxSet F) (dst x d : Vec)
    (orient : Int) (m : Mem F)
    (hx : SameOrApart (size box.space) dst x) (hd : SameOrApart (size box.space) dst d)
    (hl : box.lower.Apart (size box.space) dst) (hu : box.upper.Apart (size box.space) dst)
    (hin : ∀ i, i < size box.space →
      Inside (box.lower.at cast m i) (box.upper.at cast m i) (x.el m i)) :
    ∃ m', boxProjDir cast size box dst x d orient m = some m' ∧
      (∀ a, a < dst.data ∨ dst.data + size box.space ≤ a → m' a = m a) ∧
      (∀ i, i < size box.space →
        (dst.el m' i = d.el m i ∨ dst.el m' i = 0) ∧
        (dst.el m' i = d.el m i ↔ ∃ ε > 0, ∀ α, 0 ≤ α → α ≤ ε →
          Inside (box.lower.at cast m i) (box.upper.at cast m i)
            (x.el m i + sgn F orient * α * d.el m i))) ∧
      ∃ ε > 0, ∀ α, 0 ≤ α → α ≤ ε → ∀ i, i < size box.space →
        IsProj (box.lower.at cast m i) (box.upper.at cast m i)
          (x.el m i + sgn F orient * α * d.el m i)
          (x.el m i + sgn F orient * α * dst.el m' i) := by
  obtain ⟨m', h1, h2, h3⟩ := boxProjDir_sets cast size box dst x d orient m hx hd hl hu
  have e : ∀ s a t : F, s * a * t = a * (s * t) := fun s a t => by ring
  refine ⟨m', ?_, h3, ?_, ?_⟩
  · cases h : boxProjDir cast size box dst x d orient m with
    | none => simp [h, lift] at h1
    | some m'' => simp [h, lift] at h1; rw [h1]
  · intro i hi
    rw [h2 i hi]
    obtain ⟨b1, b2⟩ := dirO_eq orient (d.el m i) (x.el m i) (box.lower.at cast m i)
      (box.upper.at cast m i)
    simp only [e]
    by_cases hb : Blocked (sgn F orient * d.el m i) (x.el m i) (box.lower.at cast m i)
        (box.upper.at cast m i)
    · rw [b1 hb]
      refine ⟨Or.inr rfl, ?_⟩
      constructor
      · intro h0
        exfalso
        rw [← h0, mul_zero] at hb
        rcases hb with ⟨hb, _⟩ | ⟨hb, _⟩ <;> exact lt_irrefl _ hb
      · rintro ⟨ε, hε, h⟩
        exact absurd hb (not_blocked_of_feasible hε (h ε (le_of_lt hε) (le_refl _)))
    · rw [b2 hb]
      exact ⟨Or.inl rfl, fun _ => unblocked_feasible (hin i hi) hb, fun _ => rfl⟩
  · apply uniform
    intro i hi
    rw [h2 i hi]
    obtain ⟨b1, b2⟩ := dirO_eq orient (d.el m i) (x.el m i) (box.lower.at cast m i)
      (box.upper.at cast m i)
    simp only [e, isProj_iff (hin i hi)]
    by_cases hb : Blocked (sgn F orient * d.el m i) (x.el m i) (box.lower.at cast m i)
        (box.upper.at cast m i)
    · rw [b1 hb]
      refine ⟨1, one_pos, fun α h0 _ => ?_⟩
      rw [blocked_proj (hin i hi) hb α h0]; ring
    · rw [b2 hb]
      obtain ⟨ε, hε, h⟩ := unblocked_feasible (hin i hi) hb
      exact ⟨ε, hε, fun α h0 h1 => (clampO_id (h α h0 h1)).symm⟩

/-- **C10 (angle).** The projected direction makes a non-negative inner product with the
direction, and it is zero only if the projected direction is zero. -/
theorem project_direction_angle (cast : F → F) (size : Sizes) (box : BoxSet F) (dst x d : Vec)
    (orient : Int) (m : Mem F)
    (hx : SameOrApart (size box.space) dst x) (hd : SameOrApart (size box.space) dst d)
    (hl : box.lower.Apart (size box.space) dst) (hu : box.upper.Apart (size box.space) dst)
    (hin : ∀ i, i < size box.space →
      Inside (box.lower.at cast m i) (box.upper.at cast m i) (x.el m i)) :
    ∃ m', boxProjDir cast size box dst x d orient m = some m' ∧
      0 ≤ ∑ i ∈ Finset.range (size box.space), dst.el m' i * d.el m i ∧
      (∑ i ∈ Finset.range (size box.space), dst.el m' i * d.el m i = 0 →
        ∀ i, i < size box.space → dst.el m' i = 0) := by
  obtain ⟨m', h1, _, h3, _⟩ := project_direction cast size box dst x d orient m hx hd hl hu hin
  have hp : ∀ i ∈ Finset.range (size box.space), 0 ≤ dst.el m' i * d.el m i := by
    intro i hi
    rcases (h3 i (Finset.mem_range.1 hi)).1 with h | h <;> rw [h]
    · exact mul_self_nonneg _
    · simp
  refine ⟨m', h1, Finset.sum_nonneg hp, ?_⟩
  intro h i hi
  have := (Finset.sum_eq_zero_iff_of_nonneg hp).1 h i (Finset.mem_range.2 hi)
  rcases (h3 i hi).1 with k | k
  · rw [k] at this ⊢; exact mul_self_eq_zero.1 this
  · exact k

/-! ## C11: free variables -/

theorem freeO_eq (orient : Int) (d x : F) (lo hi : Option F) (hb : ¬ (lo = none ∧ hi = none)) :
    freeO orient d x lo hi = if dirO orient d x lo hi = 0 then 0 else 1 := by
  rcases lo with _ | lo <;> rcases hi with _ | hi
  · exact absurd ⟨rfl, rfl⟩ hb
  · simp only [freeO, dirO, freeUpper, dirUpper]
    by_cases ho : orient > 0 <;> simp only [ho, if_true, if_false] <;>
      rcases lt_trichotomy d 0 with h | h | h <;> by_cases hx : x < hi <;>
      simp [h, hx, le_of_lt, not_lt_of_gt, not_le_of_gt, ne_of_lt, ne_of_gt, not_lt.2 (le_of_lt _)]
  · simp only [freeO, dirO, freeLower, dirLower]
    by_cases ho : orient > 0 <;> simp only [ho, if_true, if_false] <;>
      rcases lt_trichotomy d 0 with h | h | h <;> by_cases hx : x > lo <;>
      simp [h, hx, le_of_lt, not_lt_of_gt, not_le_of_gt, ne_of_lt, ne_of_gt]
  · simp only [freeO, dirO, freeBoxed, dirBoxed]
    by_cases ho : orient > 0 <;> simp only [ho, if_true, if_false] <;>
      rcases lt_trichotomy d 0 with h | h | h <;> by_cases hx : x > lo <;> by_cases hx' : x < hi <;>
      simp [h, hx, hx', not_lt_of_gt, ne_of_lt, ne_of_gt]

/-- **C11.** The mask only holds zeros and ones; if there are no bounds at all, it is 1
everywhere; otherwise it is 1 exactly where the projected direction (as computed by the other
routine, for the same arguments) is not zero, so the product of the mask by the direction is the
projected direction. -/
theorem free_variables (cast : F → F) (size : Sizes) (box : BoxSet F) (msk prj x d : Vec)
    (orient : Int) (m : Mem F)
    (hx : SameOrApart (size box.space) msk x) (hd : SameOrApart (size box.space) msk d)
    (hl : box.lower.Apart (size box.space) msk) (hu : box.upper.Apart (size box.space) msk)
    (hx' : SameOrApart (size box.space) prj x) (hd' : SameOrApart (size box.space) prj d)
    (hl' : box.lower.Apart (size box.space) prj) (hu' : box.upper.Apart (size box.space) prj) :
    ∃ m1 m2, boxFreeVar cast size box msk x d orient m = some m1 ∧
      boxProjDir cast size box prj x d orient m = some m2 ∧
      (∀ a, a < msk.data ∨ msk.data + size box.space ≤ a → m1 a = m a) ∧
      ∀ i, i < size box.space →
        (msk.el m1 i = 0 ∨ msk.el m1 i = 1) ∧
        msk.el m1 i * d.el m i = prj.el m2 i ∧
        (box.lower.at cast m i = none ∧ box.upper.at cast m i = none → msk.el m1 i = 1) ∧
        (¬ (box.lower.at cast m i = none ∧ box.upper.at cast m i = none) →
          (msk.el m1 i = 1 ↔ prj.el m2 i ≠ 0)) := by
  obtain ⟨m1, a1, a2, a3⟩ := boxFreeVar_sets cast size box msk x d orient m hx hd hl hu
  obtain ⟨m2, b1, b2, b3⟩ := boxProjDir_sets cast size box prj x d orient m hx' hd' hl' hu'
  refine ⟨m1, m2, ?_, ?_, a3, ?_⟩
  · cases h : boxFreeVar cast size box msk x d orient m with
    | none => simp [h, lift] at a1
    | some m'' => simp [h, lift] at a1; rw [a1]
  · cases h : boxProjDir cast size box prj x d orient m with
    | none => simp [h, lift] at b1
    | some m'' => simp [h, lift] at b1; rw [b1]
  · intro i hi
    rw [a2 i hi, b2 i hi]
    beta_reduce
    by_cases hn : box.lower.at cast m i = none ∧ box.upper.at cast m i = none
    · simp only [hn.1, hn.2, freeO, dirO]
      simp
    · rw [freeO_eq _ _ _ _ _ hn]
      by_cases h0 : dirO orient (d.el m i) (x.el m i) (box.lower.at cast m i)
          (box.upper.at cast m i) = 0
      · simp only [if_pos h0, h0]
        simp [hn]
      · simp only [if_neg h0]
        obtain ⟨c1, c2⟩ := dirO_eq orient (d.el m i) (x.el m i) (box.lower.at cast m i)
          (box.upper.at cast m i)
        have hb : ¬ Blocked (sgn F orient * d.el m i) (x.el m i) (box.lower.at cast m i)
          (box.upper.at cast m i) := fun h => h0 (c1 h)
        rw [c2 hb] at h0 ⊢
        simp [h0]

/-! ## C12: step limits -/

/-- What happens to one variable along the path: nothing, its bound is reached for the step `s`,
or it goes away without limit. -/
inductive Event (F : Type) where
  | still
  | hit (s : F)
  | far

/-- The event for a variable at `x` with move `u` per unit of step. -/
def event (u x : F) (lo hi : Option F) : Event F :=
  if 0 < u then (match hi with | some b => .hit ((b - x) / u) | none => .far)
  else if u < 0 then (match lo with | some a => .hit ((a - x) / u) | none => .far)
  else .still

def Event.apply (inf : F) (l : Lim F) : Event F → Lim F
  | .still => l
  | .hit s => l.reach s
  | .far => { l with s3 := inf }

theorem limO_eq (inf : F) (orient : Int) (p x : F) (lo hi : Option F) (l : Lim F)
    (hb : ¬ (lo = none ∧ hi = none)) :
    limO inf orient p x lo hi l = (event (sgn F orient * p) x lo hi).apply inf l := by
  have e1 : ∀ a : F, (x - a) / p = (a - x) / (-p) := by
    intro a
    rw [div_neg, ← neg_div, neg_sub]
  unfold sgn event
  rcases lo with _ | lo <;> rcases hi with _ | hi
  · exact absurd ⟨rfl, rfl⟩ hb
  all_goals
    by_cases ho : orient > 0
    · simp only [limO, limUpper, limLower, limBoxed, ho, if_true, one_mul]
      rcases lt_trichotomy p 0 with h | h | h
      · simp [h, not_lt_of_gt h, Event.apply]
      · simp [h, Event.apply]
      · simp [h, not_lt_of_gt h, Event.apply]
    · simp only [limO, limUpper, limLower, limBoxed, ho, if_false, neg_mul, one_mul, e1]
      rcases lt_trichotomy p 0 with h | h | h
      · simp [h, not_lt_of_gt h, Event.apply]
      · simp [h, Event.apply]
      · simp [h, not_lt_of_gt h, Event.apply]

/-- Invariant of the loop over the variables. -/
structure LimInv (inf : F) (f : Nat → Event F) (n : Nat) (l : Lim F) : Prop where
  a1 : l.s1 ≤ inf
  a2 : ∀ i s, i < n → f i = .hit s → l.s1 ≤ s
  a3 : l.s1 = inf ∨ ∃ i, i < n ∧ f i = .hit l.s1
  b1 : l.s2 ≤ inf
  b2 : ∀ i s, i < n → f i = .hit s → 0 < s → l.s2 ≤ s
  b3 : l.s2 = inf ∨ (0 < l.s2 ∧ ∃ i, i < n ∧ f i = .hit l.s2)
  c1 : ∀ i s, i < n → f i = .hit s → s ≤ l.s3 ∨ inf ≤ l.s3
  c2 : ∀ i, i < n → f i = .far → inf ≤ l.s3
  c3 : l.s3 = 0 ∨ (l.s3 = inf ∧ ∃ i, i < n ∧ f i = .far) ∨ ∃ i, i < n ∧ f i = .hit l.s3
  c4 : 0 ≤ l.s3

theorem limInv (inf : F) (h0 : 0 < inf) (f : Nat → Event F) (n : Nat) :
    LimInv inf f n (loop (fun i l => (f i).apply inf l) n { s1 := inf, s2 := inf, s3 := 0 }) := by
  induction n with
  | zero =>
    constructor <;> simp [loop]
  | succ n ih =>
    simp only [loop]
    generalize loop (fun i l => (f i).apply inf l) n { s1 := inf, s2 := inf, s3 := 0 } = l at ih
    obtain ⟨a1, a2, a3, b1, b2, b3, c1, c2, c3, c4⟩ := ih
    have lt : ∀ i, i < n + 1 → i = n ∨ i < n := by omega
    cases hf : f n with
    | still =>
      simp only [Event.apply]
      refine ⟨a1, ?_, ?_, b1, ?_, ?_, ?_, ?_, ?_, c4⟩
      · intro i s hi h; rcases lt i hi with rfl | hi
        · rw [hf] at h; cases h
        · exact a2 i s hi h
      · exact a3.imp_right fun ⟨i, hi, h⟩ => ⟨i, by omega, h⟩
      · intro i s hi h; rcases lt i hi with rfl | hi
        · rw [hf] at h; cases h
        · exact b2 i s hi h
      · exact b3.imp_right fun ⟨k, i, hi, h⟩ => ⟨k, i, by omega, h⟩
      · intro i s hi h; rcases lt i hi with rfl | hi
        · rw [hf] at h; cases h
        · exact c1 i s hi h
      · intro i hi h; rcases lt i hi with rfl | hi
        · rw [hf] at h; cases h
        · exact c2 i hi h
      · exact c3.imp_right fun h => h.imp (fun ⟨k, i, hi, h⟩ => ⟨k, i, by omega, h⟩)
          fun ⟨i, hi, h⟩ => ⟨i, by omega, h⟩
    | far =>
      simp only [Event.apply]
      refine ⟨a1, ?_, ?_, b1, ?_, ?_, ?_, ?_, ?_, le_of_lt h0⟩
      · intro i s hi h; rcases lt i hi with rfl | hi
        · rw [hf] at h; cases h
        · exact a2 i s hi h
      · exact a3.imp_right fun ⟨i, hi, h⟩ => ⟨i, by omega, h⟩
      · intro i s hi h; rcases lt i hi with rfl | hi
        · rw [hf] at h; cases h
        · exact b2 i s hi h
      · exact b3.imp_right fun ⟨k, i, hi, h⟩ => ⟨k, i, by omega, h⟩
      · exact fun _ _ _ _ => Or.inr (le_refl _)
      · exact fun _ _ _ => le_refl _
      · exact Or.inr (Or.inl ⟨rfl, n, by omega, hf⟩)
    | hit s =>
      simp only [Event.apply, Lim.reach]
      constructor
      · show (if s < l.s1 then s else l.s1) ≤ inf
        split_ifs with h
        · exact le_trans (le_of_lt h) a1
        · exact a1
      · intro i t hi h
        show (if s < l.s1 then s else l.s1) ≤ t
        rcases lt i hi with rfl | hi
        · rw [hf] at h; cases h; split_ifs with h <;> order
        · have := a2 i t hi h; split_ifs with h <;> order
      · show (if s < l.s1 then s else l.s1) = inf ∨ ∃ i, i < n + 1 ∧ f i = .hit (if s < l.s1 then s else l.s1)
        split_ifs with h
        · exact Or.inr ⟨n, by omega, hf⟩
        · exact a3.imp_right fun ⟨i, hi, h⟩ => ⟨i, by omega, h⟩
      · show (if s < l.s2 ∧ s > 0 then s else l.s2) ≤ inf
        split_ifs with h
        · exact le_trans (le_of_lt h.1) b1
        · exact b1
      · intro i t hi h h'
        show (if s < l.s2 ∧ s > 0 then s else l.s2) ≤ t
        rcases lt i hi with rfl | hi
        · rw [hf] at h; cases h; split_ifs with h
          · exact le_refl _
          · exact not_lt.1 fun h3 => h ⟨h3, h'⟩
        · have := b2 i t hi h h'
          split_ifs with h
          · exact le_trans (le_of_lt h.1) this
          · exact this
      · show (if s < l.s2 ∧ s > 0 then s else l.s2) = inf ∨ (0 < (if s < l.s2 ∧ s > 0 then s else l.s2) ∧
          ∃ i, i < n + 1 ∧ f i = .hit (if s < l.s2 ∧ s > 0 then s else l.s2))
        split_ifs with h
        · exact Or.inr ⟨h.2, n, by omega, hf⟩
        · exact b3.imp_right fun ⟨k, i, hi, h⟩ => ⟨k, i, by omega, h⟩
      · intro i t hi h
        show t ≤ (if s > l.s3 then s else l.s3) ∨ inf ≤ (if s > l.s3 then s else l.s3)
        rcases lt i hi with rfl | hi
        · rw [hf] at h; cases h; left; split_ifs with h <;> order
        · rcases c1 i t hi h with k | k
          · left; split_ifs with h <;> order
          · right; split_ifs with h <;> order
      · intro i hi h
        show inf ≤ (if s > l.s3 then s else l.s3)
        rcases lt i hi with rfl | hi
        · rw [hf] at h; cases h
        · have := c2 i hi h; split_ifs with h <;> order
      · show (if s > l.s3 then s else l.s3) = 0 ∨ ((if s > l.s3 then s else l.s3) = inf ∧ ∃ i, i < n + 1 ∧ f i = .far)
          ∨ ∃ i, i < n + 1 ∧ f i = .hit (if s > l.s3 then s else l.s3)
        split_ifs with h
        · exact Or.inr (Or.inr ⟨n, by omega, hf⟩)
        · exact c3.imp_right fun h => h.imp (fun ⟨k, i, hi, h⟩ => ⟨k, i, by omega, h⟩)
            fun ⟨i, hi, h⟩ => ⟨i, by omega, h⟩
      · show 0 ≤ (if s > l.s3 then s else l.s3)
        split_ifs with h <;> order

/-! Events and feasibility, for one variable. -/

theorem event_nonneg {u x s : F} {lo hi : Option F} (hin : Inside lo hi x)
    (h : event u x lo hi = .hit s) : 0 ≤ s := by
  unfold event at h
  split_ifs at h with h1 h2
  · cases hi with
    | none => cases h
    | some b => have := hin.2 b rfl; cases h; exact div_nonneg (by linarith) (le_of_lt h1)
  · cases lo with
    | none => cases h
    | some a => have := hin.1 a rfl; cases h; exact div_nonneg_of_nonpos (by linarith) (le_of_lt h2)

/-- Before the event the variable is feasible. -/
theorem event_inside {u x α : F} {lo hi : Option F} (hin : Inside lo hi x) (h0 : 0 ≤ α)
    (h : ∀ s, event u x lo hi = .hit s → α ≤ s) : Inside lo hi (x + α * u) := by
  unfold event at h
  constructor
  · intro a ha
    have hx := hin.1 a ha
    by_cases hu : u < 0
    · have h' := h ((a - x) / u) (by rw [if_neg (not_lt_of_gt hu), if_pos hu, ha])
      rw [le_div_iff_of_neg hu] at h'; linarith
    · have : 0 ≤ α * u := mul_nonneg h0 (not_lt.1 hu); linarith
  · intro b hb
    have hx := hin.2 b hb
    by_cases hu : 0 < u
    · have h' := h ((b - x) / u) (by rw [if_pos hu, hb])
      rw [le_div_iff₀ hu] at h'; linarith
    · have : α * u ≤ 0 := mul_nonpos_of_nonneg_of_nonpos h0 (not_lt.1 hu); linarith

/-- After the event it is not. -/
theorem event_outside {u x s α : F} {lo hi : Option F} (h : event u x lo hi = .hit s) (hs : s < α) :
    ¬ Inside lo hi (x + α * u) := by
  unfold event at h
  split_ifs at h with h1 h2
  · cases hi with
    | none => cases h
    | some b => cases h; rw [div_lt_iff₀ h1] at hs; intro h; have := h.2 b rfl; linarith
  · cases lo with
    | none => cases h
    | some a => cases h; rw [div_lt_iff_of_neg h2] at hs; intro h; have := h.1 a rfl; linarith

/-- From the event on, the projection does not change. -/
theorem event_const {u x s α β : F} {lo hi : Option F} (hin : Inside lo hi x)
    (h : event u x lo hi = .hit s) (hα : s ≤ α) (hβ : s ≤ β) :
    clampO lo hi (x + α * u) = clampO lo hi (x + β * u) := by
  have hc : ∀ a b, lo = some a → hi = some b → a ≤ b := fun a b ha hb => le_trans (hin.1 a ha) (hin.2 b hb)
  unfold event at h
  split_ifs at h with h1 h2
  · cases hi with
    | none => cases h
    | some b =>
      cases h
      have hb := hin.2 b rfl
      rw [div_le_iff₀ h1] at hα hβ
      have key : ∀ t, b ≤ t → clampO lo (some b) t = b := by
        intro t ht
        have hib : Inside lo (some b) b := ⟨fun a ha => hc a b ha rfl, fun b' h => by cases h; exact le_refl _⟩
        have h3 := (clampO_inside (t := t) hc).2 b rfl
        rcases clampO_between (t := t) hib with k | k
        · linarith [k.1]
        · exact le_antisymm h3 k.1
      rw [key _ (by linarith), key _ (by linarith)]
  · cases lo with
    | none => cases h
    | some a =>
      cases h
      have hb := hin.1 a rfl
      rw [div_le_iff_of_neg h2] at hα hβ
      have key : ∀ t, t ≤ a → clampO (some a) hi t = a := by
        intro t ht
        have hib : Inside (some a) hi a := ⟨fun b' h => by cases h; exact le_refl _, fun b hb => hc a b rfl hb⟩
        have h3 := (clampO_inside (t := t) hc).1 a rfl
        rcases clampO_between (t := t) hib with k | k
        · exact le_antisymm k.2 h3
        · linarith [k.2]
      rw [key _ (by linarith), key _ (by linarith)]

theorem event_still {u x : F} {lo hi : Option F} (h : event u x lo hi = .still) : u = 0 := by
  unfold event at h
  split_ifs at h with h1 h2
  · cases hi <;> cases h
  · cases lo <;> cases h
  · exact le_antisymm (not_lt.1 h1) (not_lt.1 h2)

theorem event_far {u x : F} {lo hi : Option F} (h : event u x lo hi = .far) : u ≠ 0 := by
  unfold event at h
  split_ifs at h with h1 h2
  · exact ne_of_gt h1
  · exact ne_of_lt h2

theorem sgn_ne (orient : Int) : sgn F orient ≠ 0 := by
  unfold sgn; split <;> simp

/-- The properties of the three limits, for the path of `n` variables `x i + alpha * u i`. -/
structure Limits (inf : F) (n : Nat) (lo hi : Nat → Option F) (x u : Nat → F) (l : Lim F) : Prop where
  /-- `0 <= smin1 <= smin2`, `smin2 > 0` and nothing is larger than "infinite" -/
  order : 0 ≤ l.s1 ∧ l.s1 ≤ l.s2 ∧ 0 < l.s2 ∧ l.s2 ≤ inf ∧ 0 ≤ l.s3
  /-- the largest limit is not smaller than the first one, unless nothing moves -/
  order' : (∃ i, i < n ∧ u i ≠ 0) → l.s1 ≤ l.s3
  /-- no bound is overstepped up to `smin1` -/
  safe : ∀ α, 0 ≤ α → α ≤ l.s1 → ∀ i, i < n → Inside (lo i) (hi i) (x i + α * u i)
  /-- `smin1` is the largest such step -/
  tight : l.s1 < inf → ∀ α, l.s1 < α → ∃ i, i < n ∧ ¬ Inside (lo i) (hi i) (x i + α * u i)
  /-- for a direction along which every variable can move a bit, the two first limits are equal -/
  same : (∀ i, i < n → ∃ ε > 0, Inside (lo i) (hi i) (x i + ε * u i)) → l.s1 = l.s2
  /-- some variable, not blocked at the beginning, reaches its bound at `smin2` -/
  first : l.s2 < inf → ∃ i, i < n ∧ (∀ α, 0 ≤ α → α ≤ l.s2 → Inside (lo i) (hi i) (x i + α * u i)) ∧
    ∀ α, l.s2 < α → ¬ Inside (lo i) (hi i) (x i + α * u i)
  /-- variables which can move a bit are feasible up to `smin2` -/
  second : ∀ i, i < n → (∃ ε > 0, Inside (lo i) (hi i) (x i + ε * u i)) →
    ∀ α, 0 ≤ α → α ≤ l.s2 → Inside (lo i) (hi i) (x i + α * u i)
  /-- beyond `smax`, the projected point is the one for `smax` -/
  final : ∀ α, l.s3 ≤ α → α ≤ inf → ∀ i, i < n → ∀ t,
    (IsProj (lo i) (hi i) (x i + α * u i) t ↔ IsProj (lo i) (hi i) (x i + l.s3 * u i) t)
  /-- before `smax`, it is another one -/
  before : (∃ i, i < n ∧ u i ≠ 0) → ∀ α, 0 ≤ α → α < l.s3 → l.s3 ≤ inf → ∃ i, i < n ∧ ∀ t,
    IsProj (lo i) (hi i) (x i + α * u i) t → ¬ IsProj (lo i) (hi i) (x i + l.s3 * u i) t

/-- **C12.** -/
theorem step_limits (cast : F → F) (inf : F) (h0 : 0 < inf) (size : Sizes) (box : BoxSet F)
    (x d : Vec) (orient : Int) (m : Mem F)
    (hin : ∀ i, i < size box.space →
      Inside (box.lower.at cast m i) (box.upper.at cast m i) (x.el m i)) :
    ∃ l, boxStepLim cast inf size box x d orient m = some l ∧
      Limits inf (size box.space) (box.lower.at cast m) (box.upper.at cast m) (x.el m)
        (fun i => sgn F orient * d.el m i) l := by
  rw [boxStepLim_eq]
  by_cases hub : box.unbounded = true
  · rw [if_pos hub]
    have hlo : ∀ i, box.lower.at cast m i = none ∧ box.upper.at cast m i = none := by
      intro i
      obtain ⟨sp, lo, hi⟩ := box
      cases lo <;> cases hi <;> simp [BoxSet.unbounded] at hub
      exact ⟨rfl, rfl⟩
    have hI : ∀ i t, Inside (box.lower.at cast m i) (box.upper.at cast m i) t := by
      intro i t; rw [(hlo i).1, (hlo i).2]; exact ⟨by simp, by simp⟩
    refine ⟨_, rfl, ?_⟩
    constructor
    · exact ⟨le_of_lt h0, le_refl _, h0, le_refl _, le_of_lt h0⟩
    · exact fun _ => le_refl _
    · exact fun _ _ _ i _ => hI i _
    · exact fun h => absurd h (lt_irrefl _)
    · exact fun _ => rfl
    · exact fun h => absurd h (lt_irrefl _)
    · exact fun i _ _ _ _ _ => hI i _
    · intro α h1 h2 i _ t
      have : α = inf := le_antisymm h2 h1
      simp only [this]
    · rintro ⟨i, hi, hu⟩ α h1 h2 _
      refine ⟨i, hi, fun t ht ht' => ?_⟩
      rw [isProj_iff (hI i 0), clampO_id (hI i _)] at ht ht'
      rw [ht] at ht'
      have := mul_right_cancel₀ hu (add_left_cancel ht')
      exact ne_of_lt h2 this
  · rw [if_neg hub]
    have hb : ∀ i, ¬ (box.lower.at cast m i = none ∧ box.upper.at cast m i = none) := by
      intro i
      obtain ⟨sp, lo, hi⟩ := box
      cases lo <;> cases hi <;> simp [BoxSet.unbounded, Bound.at] at hub ⊢
    refine ⟨_, rfl, ?_⟩
    simp only [limO_eq _ _ _ _ _ _ _ (hb _)]
    obtain ⟨a1, a2, a3, b1, b2, b3, c1, c2, c3, c4⟩ := limInv inf h0 (fun i =>
      event (sgn F orient * d.el m i) (x.el m i) (box.lower.at cast m i) (box.upper.at cast m i))
      (size box.space)
    generalize loop (fun i l => Event.apply inf l (event (sgn F orient * d.el m i) (x.el m i)
      (box.lower.at cast m i) (box.upper.at cast m i))) (size box.space)
      { s1 := inf, s2 := inf, s3 := 0 } = l at a1 a2 a3 b1 b2 b3 c1 c2 c3 c4
    have h2 : 0 < l.s2 := by
      rcases b3 with h | h
      · rw [h]; exact h0
      · exact h.1
    have h12 : l.s1 ≤ l.s2 := by
      rcases b3 with h | ⟨_, i, hi, h⟩
      · rw [h]; exact a1
      · exact a2 i _ hi h
    have second : ∀ i, i < size box.space → (∃ ε > 0, Inside (box.lower.at cast m i)
        (box.upper.at cast m i) (x.el m i + ε * (sgn F orient * d.el m i))) →
        ∀ s, event (sgn F orient * d.el m i) (x.el m i) (box.lower.at cast m i)
          (box.upper.at cast m i) = .hit s → l.s2 ≤ s := by
      rintro i hi ⟨ε, hε, hf⟩ s hs
      apply b2 i s hi hs
      rcases lt_or_eq_of_le (event_nonneg (hin i hi) hs) with h | h
      · exact h
      · subst h; exact absurd hf (event_outside hs hε)
    constructor
    · refine ⟨?_, h12, h2, b1, c4⟩
      rcases a3 with h | ⟨i, hi, h⟩
      · rw [h]; exact le_of_lt h0
      · exact event_nonneg (hin i hi) h
    · rintro ⟨i, hi, hu⟩
      cases he : event (sgn F orient * d.el m i) (x.el m i) (box.lower.at cast m i)
          (box.upper.at cast m i) with
      | still => exact absurd (event_still he) hu
      | far => exact le_trans a1 (c2 i hi he)
      | hit s =>
        rcases c1 i s hi he with k | k
        · exact le_trans (a2 i s hi he) k
        · exact le_trans a1 k
    · exact fun α k1 k2 i hi => event_inside (hin i hi) k1 fun s hs => le_trans k2 (a2 i s hi hs)
    · intro h α hα
      rcases a3 with k | ⟨i, hi, k⟩
      · rw [k] at h; exact absurd h (lt_irrefl _)
      · exact ⟨i, hi, event_outside k hα⟩
    · intro h
      apply le_antisymm h12
      rcases a3 with k | ⟨i, hi, k⟩
      · rw [k]; exact b1
      · exact second i hi (h i hi) _ k
    · intro h
      rcases b3 with k | ⟨_, i, hi, k⟩
      · rw [k] at h; exact absurd h (lt_irrefl _)
      · refine ⟨i, hi, fun α k1 k2 => event_inside (hin i hi) k1 ?_, fun α hα => event_outside k hα⟩
        intro s hs; rw [k] at hs; cases hs; exact k2
    · exact fun i hi hf α k1 k2 => event_inside (hin i hi) k1
        fun s hs => le_trans k2 (second i hi hf s hs)
    · intro α k1 k2 i hi t
      rw [isProj_iff (hin i hi), isProj_iff (hin i hi)]
      have : clampO (box.lower.at cast m i) (box.upper.at cast m i)
            (x.el m i + α * (sgn F orient * d.el m i)) =
          clampO (box.lower.at cast m i) (box.upper.at cast m i)
            (x.el m i + l.s3 * (sgn F orient * d.el m i)) := by
        cases he : event (sgn F orient * d.el m i) (x.el m i) (box.lower.at cast m i)
            (box.upper.at cast m i) with
        | still => rw [event_still he]; simp
        | far => rw [le_antisymm k1 (le_trans k2 (c2 i hi he))]
        | hit s =>
          rcases c1 i s hi he with k | k
          · exact event_const (hin i hi) he (le_trans k k1) k
          · rw [le_antisymm k1 (le_trans k2 k)]
      rw [this]
    · rintro ⟨j, hj, hu⟩ α k1 k2 k3
      rcases c3 with h | ⟨h, i, hi, hf⟩ | ⟨i, hi, hf⟩
      · rw [h] at k2; exact absurd (lt_of_le_of_lt k1 k2) (lt_irrefl _)
      · refine ⟨i, hi, fun t ht ht' => ?_⟩
        rw [isProj_iff (hin i hi)] at ht ht'
        have hu := event_far hf
        rw [clampO_id (event_inside (hin i hi) k1 (fun s hs => by rw [hf] at hs; cases hs))] at ht
        rw [clampO_id (event_inside (hin i hi) c4 (fun s hs => by rw [hf] at hs; cases hs))] at ht'
        rw [ht] at ht'
        exact ne_of_lt k2 (mul_right_cancel₀ hu (add_left_cancel ht'))
      · refine ⟨i, hi, fun t ht ht' => ?_⟩
        rw [isProj_iff (hin i hi)] at ht ht'
        have hu : sgn F orient * d.el m i ≠ 0 := by
          intro h; simp only [h] at hf; simp [event] at hf
        rw [clampO_id (event_inside (hin i hi) k1
          (fun s hs => by rw [hf] at hs; cases hs; exact le_of_lt k2))] at ht
        rw [clampO_id (event_inside (hin i hi) c4
          (fun s hs => by rw [hf] at hs; cases hs; exact le_refl _))] at ht'
        rw [ht] at ht'
        exact ne_of_lt k2 (mul_right_cancel₀ hu (add_left_cancel ht'))

end field

/-! ## C13: argument checks -/

/-- What a checked call has to do: `NULL` arguments first, then the spaces, then the method. -/
def Expected {R : Type} (null badSpace : Prop) (method : Option R) (c : Checked R) : Prop :=
  (null → c = .error .illegalAddress) ∧
  (¬ null → badSpace → c = .error .badSpace) ∧
  (¬ null → ¬ badSpace → method = none → c = .error .notImplemented) ∧
  (¬ null → ¬ badSpace → ∀ r, method = some r → c = .done r)

/-- The vector exists and belongs to another space. -/
def Wrong (v : Option Vec) (space : Option Nat) : Prop :=
  ∃ w s, v = some w ∧ space = some s ∧ w.space ≠ s

/-- **C13 (convex sets).** -/
theorem convexset_checks {R : Type} (dst x d : Option Vec) (set : Option (ConvexSet R))
    (orient : Int) :
    Expected (dst = none ∨ x = none ∨ set = none)
      (Wrong dst (set.map (·.space)) ∨ Wrong x (set.map (·.space)))
      (do let s ← set; let f ← s.projvar; return f (← dst) (← x))
      (projectVariables dst x set) ∧
    Expected (dst = none ∨ x = none ∨ set = none ∨ d = none)
      (Wrong dst (set.map (·.space)) ∨ Wrong x (set.map (·.space)) ∨ Wrong d (set.map (·.space)))
      (do let s ← set; let f ← s.projdir; return f (← dst) (← x) (← d) orient)
      (projectDirection dst x set d orient) ∧
    Expected (dst = none ∨ x = none ∨ set = none ∨ d = none)
      (Wrong dst (set.map (·.space)) ∨ Wrong x (set.map (·.space)) ∨ Wrong d (set.map (·.space)))
      (do let s ← set; let f ← s.freevar; return f (← dst) (← x) (← d) orient)
      (getFreeVariables dst x set d orient) ∧
    Expected (x = none ∨ set = none ∨ d = none)
      (Wrong x (set.map (·.space)) ∨ Wrong d (set.map (·.space)))
      (do let s ← set; let f ← s.steplim; return f (← x) (← d) orient)
      (getStepLimits x set d orient) := by
  refine ⟨?_, ?_, ?_, ?_⟩
  · unfold Expected Wrong projectVariables
    rcases dst with _ | dst <;> rcases x with _ | x <;> rcases set with _ | ⟨sp, f, _, _, _⟩ <;> simp
    rcases f with _ | f <;> simp <;> tauto
  · unfold Expected Wrong projectDirection
    rcases dst with _ | dst <;> rcases x with _ | x <;> rcases set with _ | ⟨sp, _, f, _, _⟩ <;>
      rcases d with _ | d <;> simp
    rcases f with _ | f <;> simp <;> tauto
  · unfold Expected Wrong getFreeVariables
    rcases dst with _ | dst <;> rcases x with _ | x <;> rcases set with _ | ⟨sp, _, _, f, _⟩ <;>
      rcases d with _ | d <;> simp
    rcases f with _ | f <;> simp <;> tauto
  · unfold Expected Wrong getStepLimits
    rcases x with _ | x <;> rcases set with _ | ⟨sp, _, _, _, f⟩ <;> rcases d with _ | d <;> simp
    rcases f with _ | f <;> simp <;> tauto

/-- **C13 (predicates).** `opk_can_...` says whether the method exists: a call with good vectors
is not refused for being not implemented. -/
theorem convexset_can {R : Type} (dst x d : Vec) (set : ConvexSet R) (orient : Int)
    (h1 : dst.space = set.space) (h2 : x.space = set.space) (h3 : d.space = set.space) :
    (canProjectVariables (some set) = true ↔
      ∃ r, projectVariables (some dst) (some x) (some set) = .done r) ∧
    (canProjectDirections (some set) = true ↔
      ∃ r, projectDirection (some dst) (some x) (some set) (some d) orient = .done r) ∧
    (canGetFreeVariables (some set) = true ↔
      ∃ r, getFreeVariables (some dst) (some x) (some set) (some d) orient = .done r) ∧
    (canGetStepLimits (some set) = true ↔
      ∃ r, getStepLimits (some x) (some set) (some d) orient = .done r) ∧
    canProjectVariables (none : Option (ConvexSet R)) = false ∧
    canProjectDirections (none : Option (ConvexSet R)) = false ∧
    canGetFreeVariables (none : Option (ConvexSet R)) = false ∧
    canGetStepLimits (none : Option (ConvexSet R)) = false := by
  obtain ⟨sp, f1, f2, f3, f4⟩ := set
  simp only at h1 h2 h3
  simp only [canProjectVariables, canProjectDirections, canGetFreeVariables, canGetStepLimits,
    projectVariables, projectDirection, getFreeVariables, getStepLimits, h1, h2, h3, ne_eq,
    not_true_eq_false, or_self, if_false]
  rcases f1 with _ | f1 <;> rcases f2 with _ | f2 <;> rcases f3 with _ | f3 <;>
    rcases f4 with _ | f4 <;> simp

/-- **C13 (operators).** -/
theorem operator_checks {R : Type} (op : Option (Operator R)) (dst src : Option Vec) :
    Expected (op = none ∨ dst = none ∨ src = none)
      (Wrong dst (op.map (·.outspace)) ∨ Wrong src (op.map (·.inpspace)))
      (do let o ← op; let f ← o.direct; return f (← dst) (← src)) (applyDirect op dst src) ∧
    Expected (op = none ∨ dst = none ∨ src = none)
      (Wrong dst (op.map (·.inpspace)) ∨ Wrong src (op.map (·.outspace)))
      (do let o ← op; let f ← o.adjoint; return f (← dst) (← src)) (applyAdjoint op dst src) ∧
    Expected (op = none ∨ dst = none ∨ src = none)
      (Wrong dst (op.map (·.inpspace)) ∨ Wrong src (op.map (·.outspace)))
      (do let o ← op; let f ← o.inverse; return f (← dst) (← src)) (applyInverse op dst src) := by
  refine ⟨?_, ?_, ?_⟩
  · unfold Expected Wrong applyDirect
    rcases dst with _ | dst <;> rcases src with _ | src <;> rcases op with _ | ⟨_, _, f, _, _⟩ <;> simp
    rcases f with _ | f <;> simp <;> tauto
  · unfold Expected Wrong applyAdjoint
    rcases dst with _ | dst <;> rcases src with _ | src <;> rcases op with _ | ⟨_, _, _, f, _⟩ <;> simp
    rcases f with _ | f <;> simp <;> tauto
  · unfold Expected Wrong applyInverse
    rcases dst with _ | dst <;> rcases src with _ | src <;> rcases op with _ | ⟨_, _, _, _, f⟩ <;> simp
    rcases f with _ | f <;> simp <;> tauto

/-- The bound built from an acceptable pair of a type code and an address. -/
def Accepts {F : Type} (space : Nat) (type : Int) (value : Given F) (fresh : Option Vec)
    (b : Bound F) : Prop :=
  (type = 0 ∧ value = .null ∧ b = .unset) ∨
  ((type = 1 ∨ type = 2) ∧ ∃ v, value = .scalar v ∧ b = .scalar v) ∨
  ((3 ≤ type ∧ type ≤ 6) ∧ ∃ a v, value = .array a ∧ fresh = some v ∧ b = .vector v) ∨
  (type = 7 ∧ ∃ v, value = .vector v ∧ v.space = space ∧ b = .vector v)

/-- The address is of the announced type (or is `NULL`). -/
def Honest {F : Type} (type : Int) : Given F → Prop
  | .null => True
  | .scalar _ => type ≠ 7 ∧ ¬ (3 ≤ type ∧ type ≤ 6)
  | .vector _ => ¬ (type = 1 ∨ type = 2) ∧ ¬ (3 ≤ type ∧ type ≤ 6)
  | .array _ => ¬ (type = 1 ∨ type = 2) ∧ type ≠ 7

theorem setBound_accepts {F : Type} (space : Nat) (type : Int) (value : Given F)
    (fresh : Option Vec) (h : Honest type value) :
    ∃ s b, setBound space type value fresh = some (s, b) ∧
      ∀ b', (s = .success ∧ b = b') ↔ Accepts space type value fresh b' := by
  by_cases h0 : type = 0
  · subst h0
    cases value <;> simp [setBound, Accepts, eq_comm]
  by_cases h1 : type = 1 ∨ type = 2
  · have h7 : type ≠ 7 := by omega
    have h3 : ¬ (3 ≤ type ∧ type ≤ 6) := by omega
    cases value <;> simp [Honest, h1, h7, h3] at h <;>
      simp [setBound, Accepts, h0, h1, h3, h7, eq_comm]
  by_cases h7 : type = 7
  · subst h7
    cases value with
    | vector v =>
      by_cases hs : v.space = space
      · simp [setBound, Accepts, hs, eq_comm]
      · simp [setBound, Accepts, hs]
    | _ => simp [Honest] at h <;> simp [setBound, Accepts, eq_comm]
  by_cases h3 : 3 ≤ type ∧ type ≤ 6
  · have h5 : type = 5 ∨ type = 6 ∨ type = 3 ∨ type = 4 := by omega
    cases value with
    | array a =>
      rcases fresh with _ | v <;> simp [setBound, Accepts, h0, h1, h7, h5, h3, eq_comm]
    | _ =>
      simp [Honest, h0, h1, h3, h7] at h <;> simp [setBound, Accepts, h0, h1, h7, h5, h3, eq_comm]
  · have h5 : ¬ (type = 5 ∨ type = 6 ∨ type = 3 ∨ type = 4) := by omega
    simp [setBound, Accepts, h0, h1, h7, h5, h3]

/-- **C13 (box sets).** If the addresses are of the announced types, `opk_new_boxset` gives a set
exactly when the space is not `NULL` and the two pairs are acceptable, and the set has the
corresponding bounds. -/
theorem new_boxset {F : Type} (space : Option Nat) (lt : Int) (lv : Given F) (ut : Int)
    (uv : Given F) (fresh1 fresh2 : Option Vec) (hl : Honest lt lv) (hu : Honest ut uv) :
    ∃ r, newBoxSet space lt lv ut uv fresh1 fresh2 = some r ∧
      ∀ box, r = some box ↔ space = some box.space ∧ Accepts box.space lt lv fresh1 box.lower ∧
        Accepts box.space ut uv fresh2 box.upper := by
  rcases space with _ | sp
  · exact ⟨none, rfl, by simp⟩
  · obtain ⟨s1, b1, e1, k1⟩ := setBound_accepts sp lt lv fresh1 hl
    obtain ⟨s2, b2, e2, k2⟩ := setBound_accepts sp ut uv fresh2 hu
    simp only [newBoxSet, e1, e2]
    by_cases hs1 : s1 = .success
    · by_cases hs2 : s2 = .success
      · refine ⟨_, by simp [hs1, hs2]; rfl, ?_⟩
        intro ⟨sp', l', u'⟩
        simp only [Option.some.injEq, BoxSet.mk.injEq]
        constructor
        · rintro ⟨rfl, rfl, rfl⟩
          exact ⟨rfl, (k1 _).1 ⟨hs1, rfl⟩, (k2 _).1 ⟨hs2, rfl⟩⟩
        · rintro ⟨rfl, q1, q2⟩
          exact ⟨rfl, ((k1 _).2 q1).2, ((k2 _).2 q2).2⟩
      · refine ⟨none, by simp [hs1, hs2], ?_⟩
        intro box
        simp only [reduceCtorEq, false_iff, not_and]
        intro h q1 q2
        cases h
        exact hs2 ((k2 _).2 q2).1
    · refine ⟨none, by simp [hs1], ?_⟩
      intro box
      simp only [reduceCtorEq, false_iff, not_and]
      intro h q1
      cases h
      exact absurd ((k1 _).2 q1).1 hs1

/-! ## The hypotheses can be satisfied -/

/-- Three variables in [0,10], [-1,10] and [4,10], with values 0, 3 and 5, and the direction
(-1,2,1) stored after them. -/
def demoBox : BoxSet ℚ :=
  { space := 0, lower := .vector ⟨0, 0, 12⟩, upper := .scalar 10 }

def demoMem : Mem ℚ := fun a =>
  if a = 0 then 0 else if a = 1 then 3 else if a = 2 then 5 else   -- x
  if a = 4 then -1 else if a = 5 then 2 else if a = 6 then 1 else  -- d
  if a = 12 then 0 else if a = 13 then -1 else if a = 14 then 4 else 0

/-- The hypotheses of C09 to C12 hold, in particular feasibility, for a box with a lower vector
bound and an upper scalar bound ... -/
example : ∃ (size : Sizes) (dst x d : Vec), size demoBox.space = 3 ∧
    SameOrApart (size demoBox.space) dst x ∧ SameOrApart (size demoBox.space) dst d ∧
    demoBox.lower.Apart (size demoBox.space) dst ∧ demoBox.upper.Apart (size demoBox.space) dst ∧
    (∀ i, i < size demoBox.space → Inside (demoBox.lower.at id demoMem i)
      (demoBox.upper.at id demoMem i) (x.el demoMem i)) ∧ d.el demoMem 0 ≠ 0 := by
  refine ⟨fun _ => 3, ⟨0, 0, 8⟩, ⟨0, 0, 0⟩, ⟨0, 0, 4⟩, rfl, ?_, ?_, ?_, ?_, ?_, ?_⟩
  · unfold SameOrApart; decide
  · unfold SameOrApart; decide
  · simp [Bound.Apart, demoBox, SameOrApart]
  · simp [Bound.Apart, demoBox]
  · intro i hi
    have : i = 0 ∨ i = 1 ∨ i = 2 := by simp at hi; omega
    rcases this with rfl | rfl | rfl <;>
      (constructor <;> intro a ha <;> simp [demoBox, Bound.at, Vec.el, demoMem] at ha ⊢ <;>
        subst ha <;> norm_num)
  · simp [Vec.el, demoMem]

/-- ... where the first variable is blocked for the orientation `+`: `smin1 = 0 < smin2`. -/
example : (boxStepLim id (1000000 : ℚ) (fun _ => 3) demoBox ⟨0, 0, 0⟩ ⟨0, 0, 4⟩ 1 demoMem).map
    (fun l => (l.s1, l.s2, l.s3)) = some (0, 7 / 2, 5) := by
  decide +kernel

/-- For a null direction the limits are "infinite", "infinite" and 0: this is why
`smin1 <= smax` needs a variable which moves. -/
example : (boxStepLim id (1000000 : ℚ) (fun _ => 3) demoBox ⟨0, 0, 0⟩ ⟨0, 0, 20⟩ 1 demoMem).map
    (fun l => (l.s1, l.s2, l.s3)) = some (1000000, 1000000, 0) := by
  rfl

example : ∃ (lv uv : Given ℚ), Honest 2 lv ∧ Honest 7 uv ∧
    ∃ box, newBoxSet (some 4) 2 lv 7 uv none none = some (some box) := by
  exact ⟨.scalar 1, .vector ⟨0, 4, 8⟩, by simp [Honest], by simp [Honest], _, rfl⟩

end Opk.Box
