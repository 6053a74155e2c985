import Verif.Box.Model
import Verif.Vec.Props
import Mathlib.Tactic.Linarith
import Mathlib.Tactic.FieldSimp
import Mathlib.Tactic.Ring
import Mathlib.Tactic.Order
import Mathlib.Algebra.Order.Field.Basic
/-! Helper lemmas on box sets (no property is stated here, except the small specification of the
effective bounds). -/
set_option linter.unusedSectionVars false
namespace Opk.Box
open Opk.Vec

/-- Effective bound of component `i` (`none`: unbounded). -/
def Bound.at {F : Type} (cast : F → F) (b : Bound F) (m : Mem F) (i : Nat) : Option F :=
  match b with
  | .unset => none
  | .scalar v => some (cast v)
  | .vector v => some (v.el m i)

/-- The destination may share the storage of a vector bound but not overlap it partially. -/
def Bound.Apart {F : Type} (n : Nat) (dst : Vec) : Bound F → Prop
  | .vector v => SameOrApart n dst v
  | _ => True

/-- `t` satisfies the bounds. -/
def Inside {F : Type} [LE F] (lo hi : Option F) (t : F) : Prop :=
  (∀ a, lo = some a → a ≤ t) ∧ (∀ b, hi = some b → t ≤ b)

section
variable {F : Type} [Add F] [Sub F] [Mul F] [Div F] [Neg F] [Zero F] [One F] [LinearOrder F]

def clampO (lo hi : Option F) (t : F) : F :=
  let t := match lo with | some a => if t < a then a else t | none => t
  match hi with | some b => if t > b then b else t | none => t

def dirO (orient : Int) (d x : F) (lo hi : Option F) : F :=
  match lo, hi with
  | none, none => d
  | some lo, none => dirLower orient d x lo
  | none, some hi => dirUpper orient d x hi
  | some lo, some hi => dirBoxed orient d x lo hi

def freeO (orient : Int) (d x : F) (lo hi : Option F) : F :=
  match lo, hi with
  | none, none => 1
  | some lo, none => freeLower orient d x lo
  | none, some hi => freeUpper orient d x hi
  | some lo, some hi => freeBoxed orient d x lo hi

def limO (inf : F) (orient : Int) (p x : F) (lo hi : Option F) (l : Lim F) : Lim F :=
  match lo, hi with
  | none, none => l
  | some lo, none => limLower inf orient p x lo l
  | none, some hi => limUpper inf orient p x hi l
  | some lo, some hi => limBoxed orient p x lo hi l

theorem boxProjVar_sets (cast : F → F) (size : Sizes) (box : BoxSet F) (dst x : Vec) (m : Mem F)
    (hx : SameOrApart (size box.space) dst x)
    (hl : box.lower.Apart (size box.space) dst) (hu : box.upper.Apart (size box.space) dst) :
    Sets (size box.space) dst
      (fun i => clampO (box.lower.at cast m i) (box.upper.at cast m i) (x.el m i)) m
      (lift (boxProjVar cast size box dst x m)) := by
  obtain ⟨sp, lo, hi⟩ := box
  cases lo <;> cases hi <;>
    simp only [boxProjVar, getBounds, boxprojvar, Bound.at, clampO, Ptr.VALUE, Ptr.DATA, Bound.Apart,
      Option.bind_eq_bind, Option.bind_some, Nat.reduceAdd] at hl hu ⊢
  · exact scopy_sets hx
  · exact sets_loop (fun j hj m m' h => by rw [el_congr hx hj h]) (fun _ _ => rfl)
  · exact sets_loop (fun j hj m m' h => by rw [el_congr hx hj h, el_congr hu hj h]) (fun _ _ => rfl)
  · exact sets_loop (fun j hj m m' h => by rw [el_congr hx hj h]) (fun _ _ => rfl)
  · exact sets_loop (fun j hj m m' h => by rw [el_congr hx hj h]) (fun _ _ => rfl)
  · exact sets_loop (fun j hj m m' h => by rw [el_congr hx hj h, el_congr hu hj h]) (fun _ _ => rfl)
  · exact sets_loop (fun j hj m m' h => by rw [el_congr hx hj h, el_congr hl hj h]) (fun _ _ => rfl)
  · exact sets_loop (fun j hj m m' h => by rw [el_congr hx hj h, el_congr hl hj h]) (fun _ _ => rfl)
  · exact sets_loop (fun j hj m m' h => by
      rw [el_congr hx hj h, el_congr hl hj h, el_congr hu hj h]) (fun _ _ => rfl)

theorem boxProjDir_sets (cast : F → F) (size : Sizes) (box : BoxSet F) (dst x d : Vec) (orient : Int)
    (m : Mem F) (hx : SameOrApart (size box.space) dst x) (hd : SameOrApart (size box.space) dst d)
    (hl : box.lower.Apart (size box.space) dst) (hu : box.upper.Apart (size box.space) dst) :
    Sets (size box.space) dst
      (fun i => dirO orient (d.el m i) (x.el m i) (box.lower.at cast m i) (box.upper.at cast m i)) m
      (lift (boxProjDir cast size box dst x d orient m)) := by
  obtain ⟨sp, lo, hi⟩ := box
  cases lo <;> cases hi <;>
    simp only [boxProjDir, getBounds, boxprojdir, Bound.at, dirO, Ptr.VALUE, Ptr.DATA, Bound.Apart,
      Option.bind_eq_bind, Option.bind_some, Nat.reduceAdd] at hl hu ⊢
  · exact scopy_sets hd
  · exact sets_loop (fun j hj m m' h => by rw [el_congr hx hj h, el_congr hd hj h]) (fun _ _ => rfl)
  · exact sets_loop (fun j hj m m' h => by
      rw [el_congr hx hj h, el_congr hd hj h, el_congr hu hj h]) (fun _ _ => rfl)
  · exact sets_loop (fun j hj m m' h => by rw [el_congr hx hj h, el_congr hd hj h]) (fun _ _ => rfl)
  · exact sets_loop (fun j hj m m' h => by rw [el_congr hx hj h, el_congr hd hj h]) (fun _ _ => rfl)
  · exact sets_loop (fun j hj m m' h => by
      rw [el_congr hx hj h, el_congr hd hj h, el_congr hu hj h]) (fun _ _ => rfl)
  · exact sets_loop (fun j hj m m' h => by
      rw [el_congr hx hj h, el_congr hd hj h, el_congr hl hj h]) (fun _ _ => rfl)
  · exact sets_loop (fun j hj m m' h => by
      rw [el_congr hx hj h, el_congr hd hj h, el_congr hl hj h]) (fun _ _ => rfl)
  · exact sets_loop (fun j hj m m' h => by
      rw [el_congr hx hj h, el_congr hd hj h, el_congr hl hj h, el_congr hu hj h]) (fun _ _ => rfl)

theorem boxFreeVar_sets (cast : F → F) (size : Sizes) (box : BoxSet F) (dst x d : Vec) (orient : Int)
    (m : Mem F) (hx : SameOrApart (size box.space) dst x) (hd : SameOrApart (size box.space) dst d)
    (hl : box.lower.Apart (size box.space) dst) (hu : box.upper.Apart (size box.space) dst) :
    Sets (size box.space) dst
      (fun i => freeO orient (d.el m i) (x.el m i) (box.lower.at cast m i) (box.upper.at cast m i)) m
      (lift (boxFreeVar cast size box dst x d orient m)) := by
  obtain ⟨sp, lo, hi⟩ := box
  cases lo <;> cases hi <;>
    simp only [boxFreeVar, getBounds, boxfreevar, Bound.at, freeO, Ptr.VALUE, Ptr.DATA, Bound.Apart,
      Option.bind_eq_bind, Option.bind_some, Nat.reduceAdd] at hl hu ⊢
  · exact sets_loop (e := fun _ _ => 1) (fun j hj m m' h => rfl) (fun _ _ => rfl)
  · exact sets_loop (fun j hj m m' h => by rw [el_congr hx hj h, el_congr hd hj h]) (fun _ _ => rfl)
  · exact sets_loop (fun j hj m m' h => by
      rw [el_congr hx hj h, el_congr hd hj h, el_congr hu hj h]) (fun _ _ => rfl)
  · exact sets_loop (fun j hj m m' h => by rw [el_congr hx hj h, el_congr hd hj h]) (fun _ _ => rfl)
  · exact sets_loop (fun j hj m m' h => by rw [el_congr hx hj h, el_congr hd hj h]) (fun _ _ => rfl)
  · exact sets_loop (fun j hj m m' h => by
      rw [el_congr hx hj h, el_congr hd hj h, el_congr hu hj h]) (fun _ _ => rfl)
  · exact sets_loop (fun j hj m m' h => by
      rw [el_congr hx hj h, el_congr hd hj h, el_congr hl hj h]) (fun _ _ => rfl)
  · exact sets_loop (fun j hj m m' h => by
      rw [el_congr hx hj h, el_congr hd hj h, el_congr hl hj h]) (fun _ _ => rfl)
  · exact sets_loop (fun j hj m m' h => by
      rw [el_congr hx hj h, el_congr hd hj h, el_congr hl hj h, el_congr hu hj h]) (fun _ _ => rfl)

/-- Does the box have any bound? -/
def BoxSet.unbounded (box : BoxSet F) : Bool :=
  match box.lower, box.upper with
  | .unset, .unset => true
  | _, _ => false

theorem boxStepLim_eq (cast : F → F) (inf : F) (size : Sizes) (box : BoxSet F) (x d : Vec)
    (orient : Int) (m : Mem F) :
    boxStepLim cast inf size box x d orient m = some (
      if box.unbounded then { s1 := inf, s2 := inf, s3 := inf }
      else loop (fun i l => limO inf orient (d.el m i) (x.el m i) (box.lower.at cast m i)
        (box.upper.at cast m i) l) (size box.space) { s1 := inf, s2 := inf, s3 := 0 }) := by
  obtain ⟨sp, lo, hi⟩ := box
  cases lo <;> cases hi <;> rfl

/-! One component -/

theorem clampO_inside {lo hi : Option F} {t : F} (hc : ∀ a b, lo = some a → hi = some b → a ≤ b) :
    Inside lo hi (clampO lo hi t) := by
  unfold clampO
  cases lo with
  | none =>
    cases hi with
    | none => exact ⟨by simp, by simp⟩
    | some b =>
      refine ⟨by simp, ?_⟩
      intro b' hb; simp at hb; subst hb
      simp only; split
      · exact le_refl _
      · rename_i h; exact not_lt.1 h
  | some a =>
    cases hi with
    | none =>
      refine ⟨?_, by simp⟩
      intro a' ha; simp at ha; subst ha
      simp only; split
      · exact le_refl _
      · rename_i h; exact not_lt.1 h
    | some b =>
      have hab := hc a b rfl rfl
      constructor
      · intro a' ha; simp at ha; subst ha
        simp only; split_ifs <;> order
      · intro b' hb; simp at hb; subst hb
        simp only; split_ifs <;> order

theorem clampO_id {lo hi : Option F} {t : F} (h : Inside lo hi t) : clampO lo hi t = t := by
  unfold clampO
  have h1 := h.1
  have h2 := h.2
  cases lo with
  | none =>
    cases hi with
    | none => rfl
    | some b => have := h2 b rfl; simp only; rw [if_neg (not_lt.2 this)]
  | some a =>
    have ha := h1 a rfl
    cases hi with
    | none => simp only; rw [if_neg (not_lt.2 ha)]
    | some b => have := h2 b rfl; simp only; rw [if_neg (not_lt.2 ha), if_neg (not_lt.2 this)]

theorem clampO_between {lo hi : Option F} {t y : F} (h : Inside lo hi y) :
    (t ≤ clampO lo hi t ∧ clampO lo hi t ≤ y) ∨ (y ≤ clampO lo hi t ∧ clampO lo hi t ≤ t) := by
  have hc : ∀ a b, lo = some a → hi = some b → a ≤ b := fun a b ha hb => le_trans (h.1 a ha) (h.2 b hb)
  by_cases hin : Inside lo hi t
  · rw [clampO_id hin]
    rcases le_total t y with h' | h'
    · left; exact ⟨le_refl _, h'⟩
    · right; exact ⟨h', le_refl _⟩
  · -- some bound is violated
    unfold Inside at hin
    by_cases hlo : ∃ a, lo = some a ∧ t < a
    · obtain ⟨a, ha, hta⟩ := hlo
      have hv : clampO lo hi t = a := by
        unfold clampO
        subst ha
        simp only [if_pos hta]
        cases hi with
        | none => rfl
        | some b => have := hc a b rfl rfl; simp only; rw [if_neg (not_lt.2 this)]
      rw [hv]
      left; exact ⟨le_of_lt hta, h.1 a ha⟩
    · by_cases hhi : ∃ b, hi = some b ∧ b < t
      · obtain ⟨b, hb, hbt⟩ := hhi
        have hv : clampO lo hi t = b := by
          unfold clampO
          subst hb
          cases lo with
          | none => simp only; rw [if_pos hbt]
          | some a =>
            have : ¬ t < a := fun h' => hlo ⟨a, rfl, h'⟩
            simp only; rw [if_neg this, if_pos hbt]
        rw [hv]
        right; exact ⟨h.2 b hb, le_of_lt hbt⟩
      · exfalso
        apply hin
        constructor
        · intro a ha; exact not_lt.1 (fun h' => hlo ⟨a, ha, h'⟩)
        · intro b hb; exact not_lt.1 (fun h' => hhi ⟨b, hb, h'⟩)

end
end Opk.Box
