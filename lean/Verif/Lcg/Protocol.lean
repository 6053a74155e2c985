import Verif.Lcg.Model
import Verif.Linalg.Level1
/-!
# C41: protocol of the linear conjugate gradients

In any arithmetic without NaN (any linear order), for any contents of the memory and any state.
-/
set_option linter.unusedSectionVars false
set_option linter.unusedSimpArgs false
namespace Opk.Lcg
open Linalg (Mem put forUp slot)

variable {F : Type} [Add F] [Sub F] [Mul F] [Div F] [Neg F] [Zero F] [One F] [LinearOrder F]

/-- The states after a search direction has been asked for, and why. -/
theorem direction_state (A : Arrays) (z : Int) (s : Cg F) :
    ((direction A z s).state = .nonConvex ↔ Linalg.dot A.n A.r 1 z 1 s.mem < 0) ∧
    ((direction A z s).state = .finish ↔ Linalg.dot A.n A.r 1 z 1 s.mem = 0) ∧
    ((direction A z s).state = .ap ↔ 0 < Linalg.dot A.n A.r 1 z 1 s.mem) ∧
    (direction A z s).rho.r1 = Linalg.dot A.n A.r 1 z 1 s.mem ∧
    (¬0 < Linalg.dot A.n A.r 1 z 1 s.mem → (direction A z s).mem = s.mem) := by
  unfold direction
  dsimp only
  generalize Linalg.dot A.n A.r 1 z 1 s.mem = d
  rcases lt_trichotomy d 0 with h | h | h
  · rw [if_pos h.le]
    simp [h, h.ne, not_lt.2 h.le]
  · rw [if_pos h.le]
    simp [h]
  · rw [if_neg (not_le.2 h)]
    by_cases h0 : s.rho.r0 > 0
    · rw [if_pos h0]
      simp [h, h.ne', not_lt.2 h.le]
    · rw [if_neg h0]
      simp [h, h.ne', not_lt.2 h.le]

/-- The states that a call of `opk_dplcg` may return from a given state, as documented
(`withz` tells that `z` is not `NULL`). -/
def Allowed (withz : Bool) : State → State → Prop
  | .start, t => t = .newx
  | .restart, t => t = .ap
  | .newx, t => if withz then t = .precond else t = .ap ∨ t = .finish ∨ t = .nonConvex
  | .precond, t => t = .ap ∨ t = .finish ∨ t = .nonConvex
  | .ap, t => t = .newx ∨ t = .finish ∨ t = .nonConvex
  | .finish, t => t = .finish
  | .nonConvex, t => t = .nonConvex
  | .truncated, t => t = .error
  | .error, t => t = .error
  | .other _, t => t = .error

/-- C41: the states of `opk_dplcg` only move as documented.  The only undefined behaviour is a call in
state `OPK_CG_PRECOND` with no array `z`. -/
theorem plcg_protocol (A : Arrays) (s : Cg F) :
    (plcg A s = none ↔ s.state = .precond ∧ A.z = none) ∧
    ∀ t, plcg A s = some t → Allowed A.z.isSome s.state t.state := by
  have hd : ∀ z, (direction A z s).state = .ap ∨ (direction A z s).state = .finish ∨ (direction A z s).state = .nonConvex := by
    intro z
    obtain ⟨h1, h2, h3, -⟩ := direction_state A z s
    rcases lt_trichotomy (Linalg.dot A.n A.r 1 z 1 s.mem) 0 with h | h | h
    · exact Or.inr (Or.inr (h1.2 h))
    · exact Or.inr (Or.inl (h2.2 h))
    · exact Or.inl (h3.2 h)
  unfold plcg Allowed
  rcases hs : s.state with _ | _ | _ | _ | _ | _ | _ | _ | _ | v <;> dsimp only
  · simp
  · simp
  · simp
  · rcases hz : A.z with _ | z
    · simpa using hd A.r
    · simp
  · rcases hz : A.z with _ | z
    · simp
    · simpa using hd z
  · by_cases h1 : s.rho.r1 > 0
    · rw [if_pos h1]
      by_cases h2 : Linalg.dot A.n A.p 1 A.q 1 s.mem ≤ 0
      · rw [if_pos h2]; simp
      · rw [if_neg h2]
        by_cases h3 : s.rho.r1 / Linalg.dot A.n A.p 1 A.q 1 s.mem = 0
        · rw [if_pos h3]; simp
        · rw [if_neg h3]; simp
    · rw [if_neg h1]; simp
  · simp [hs]
  · simp [hs]
  · simp
  · simp

/-- C41: in the states `OPK_CG_FINISH`, `OPK_CG_NON_CONVEX` and `OPK_CG_ERROR` (and in any unknown state)
calling `opk_dplcg` modifies neither the memory nor `rho`. -/
theorem plcg_terminal (A : Arrays) (s t : Cg F) (h : plcg A s = some t)
    (hs : s.state ∉ [State.start, .restart, .newx, .precond, .ap]) : t.mem = s.mem ∧ t.rho = s.rho := by
  unfold plcg at h
  rcases e : s.state with _ | _ | _ | _ | _ | _ | _ | _ | _ | v <;> rw [e] at h hs <;> dsimp only at h <;>
    first
    | (exfalso; simp at hs; done)
    | (obtain rfl := Option.some.inj h; exact ⟨rfl, rfl⟩)

/-- C41: non-convexity is reported exactly when the product `r'.z` is negative when the search direction
is computed (non positive preconditioner), or when `p'.q` is not positive when the step
is computed. -/
theorem plcg_nonConvex (A : Arrays) (s t : Cg F) (h : plcg A s = some t) :
    t.state = .nonConvex ↔ s.state = .nonConvex ∨
      (s.state = .newx ∧ A.z = none ∧ Linalg.dot A.n A.r 1 A.r 1 s.mem < 0) ∨
      (∃ z, s.state = .precond ∧ A.z = some z ∧ Linalg.dot A.n A.r 1 z 1 s.mem < 0) ∨
      (s.state = .ap ∧ 0 < s.rho.r1 ∧ Linalg.dot A.n A.p 1 A.q 1 s.mem ≤ 0) := by
  unfold plcg at h
  rcases e : s.state with _ | _ | _ | _ | _ | _ | _ | _ | _ | v <;> rw [e] at h <;> dsimp only at h
  · obtain rfl := Option.some.inj h; simp
  · obtain rfl := Option.some.inj h; simp
  · obtain rfl := Option.some.inj h; simp
  · rcases hz : A.z with _ | z <;> rw [hz] at h <;> dsimp only at h <;> obtain rfl := Option.some.inj h
    · simpa using (direction_state A A.r s).1
    · simp
  · rcases hz : A.z with _ | z <;> rw [hz] at h <;> dsimp only at h
    · cases h
    · obtain rfl := Option.some.inj h
      simpa using (direction_state A z s).1
  · by_cases h1 : s.rho.r1 > 0
    · rw [if_pos h1] at h
      by_cases h2 : Linalg.dot A.n A.p 1 A.q 1 s.mem ≤ 0
      · rw [if_pos h2] at h; obtain rfl := Option.some.inj h; simp [h1, h2]
      · rw [if_neg h2] at h
        by_cases h3 : s.rho.r1 / Linalg.dot A.n A.p 1 A.q 1 s.mem = 0
        · rw [if_pos h3] at h; obtain rfl := Option.some.inj h; simp [h2]
        · rw [if_neg h3] at h; obtain rfl := Option.some.inj h; simp [h2]
    · rw [if_neg h1] at h; obtain rfl := Option.some.inj h; simp [h1]
  · obtain rfl := Option.some.inj h; simp [e]
  · obtain rfl := Option.some.inj h; simp [e]
  · obtain rfl := Option.some.inj h; simp
  · obtain rfl := Option.some.inj h; simp

/-- `p` is an address of the array of `n` elements at `a`. -/
def Within (n a p : Int) : Prop := a ≤ p ∧ p < a + n

theorem not_slot {n a p : Int} (h : ¬Within n a p) (k : Nat) (hk : (k : Int) < n) : p ≠ slot a n 1 k := by
  rw [Linalg.slot_one]
  unfold Within at h
  omega

theorem copy_frame {n x y p : Int} (h : ¬Within n y p) (mem : Mem F) : Linalg.copy n x 1 y 1 mem p = mem p := by
  unfold Linalg.copy
  by_cases h0 : n ≤ 0 ∨ ((1 : Int) = 1 ∧ x = y)
  · rw [if_pos h0]
  · rw [if_neg h0]
    simp only [if_true]
    rw [Linalg.unroll8a_eq (by by_contra hc; exact h0 (Or.inl (by omega)))]
    refine Linalg.loop_frame (fun k => y + (k : Int)) (fun k m => m (x + k)) n.toNat mem p fun k hk => ?_
    unfold Within at h
    omega

theorem direction_frame (A : Arrays) (z : Int) (s : Cg F) (p : Int) (h : ¬Within A.n A.p p) :
    (direction A z s).mem p = s.mem p := by
  unfold direction
  dsimp only
  by_cases h1 : Linalg.dot A.n A.r 1 z 1 s.mem ≤ 0
  · rw [if_pos h1]
  · rw [if_neg h1]
    by_cases h2 : s.rho.r0 > 0
    · rw [if_pos h2, Linalg.forUp_one]
      refine Linalg.loop_frame (fun k => A.p + (k : Int)) (fun k m => m (z + k) + _ * m (A.p + k)) A.n.toNat s.mem p fun k hk => ?_
      unfold Within at h
      omega
    · rw [if_neg h2]
      exact copy_frame h s.mem

/-- C41: `opk_dplcg` only modifies the arrays `p`, `r` and `x` (whatever the layout of the arrays); in
particular `q` and `z` belong to the caller. -/
theorem plcg_frame (A : Arrays) (s t : Cg F) (h : plcg A s = some t) (p : Int)
    (hp : ¬Within A.n A.p p) (hr : ¬Within A.n A.r p) (hx : ¬Within A.n A.x p) : t.mem p = s.mem p := by
  unfold plcg at h
  have zf : Linalg.zero A.n A.x 1 s.mem p = s.mem p := (Linalg.zero_spec le_rfl s.mem).2 p fun k hk => not_slot hx k hk
  have af : ∀ (a : F) (u v : Int) (m : Mem F), ¬Within A.n v p → Linalg.axpy A.n a u 1 v 1 m p = m p :=
    fun a u v m hv => Linalg.axpy_frame A.n a u 1 v 1 m p fun k hk => not_slot hv k hk
  rcases e : s.state with _ | _ | _ | _ | _ | _ | _ | _ | _ | v <;> rw [e] at h <;> dsimp only at h
  · obtain rfl := Option.some.inj h; rfl
  · obtain rfl := Option.some.inj h; exact zf
  · obtain rfl := Option.some.inj h; exact copy_frame hp s.mem
  · rcases hz : A.z with _ | z <;> rw [hz] at h <;> dsimp only at h <;> obtain rfl := Option.some.inj h
    · exact direction_frame A A.r s p hp
    · rfl
  · rcases hz : A.z with _ | z <;> rw [hz] at h <;> dsimp only at h
    · cases h
    · obtain rfl := Option.some.inj h
      exact direction_frame A z s p hp
  · by_cases h1 : s.rho.r1 > 0
    · rw [if_pos h1] at h
      by_cases h2 : Linalg.dot A.n A.p 1 A.q 1 s.mem ≤ 0
      · rw [if_pos h2] at h; obtain rfl := Option.some.inj h; rfl
      · rw [if_neg h2] at h
        by_cases h3 : s.rho.r1 / Linalg.dot A.n A.p 1 A.q 1 s.mem = 0
        · rw [if_pos h3] at h; obtain rfl := Option.some.inj h; rfl
        · rw [if_neg h3] at h; obtain rfl := Option.some.inj h
          show Linalg.axpy _ _ _ _ _ _ (Linalg.axpy _ _ _ _ _ _ _) p = _
          rw [af _ _ _ _ hr, af _ _ _ _ hx]
    · rw [if_neg h1] at h; obtain rfl := Option.some.inj h
      show Linalg.axpy _ _ _ _ _ _ _ p = _
      rw [af _ _ _ _ hr]
  · obtain rfl := Option.some.inj h; rfl
  · obtain rfl := Option.some.inj h; rfl
  · obtain rfl := Option.some.inj h; rfl
  · obtain rfl := Option.some.inj h; rfl

/-- C41: without preconditioner, `opk_dlcg` never asks to apply it. -/
theorem lcg_no_precond (A : Arrays) (s t : Cg F) (h : lcg A s = some t) : t.state ≠ .precond := by
  have := (plcg_protocol { A with z := none } s).2 t h
  intro ht
  rw [ht] at this
  unfold Allowed at this
  rcases e : s.state with _ | _ | _ | _ | _ | _ | _ | _ | _ | v <;> rw [e] at this <;> simp at this

/-! ### Trust region version -/
section trust
variable [CMath F]

/-- The states that a call of `opk_dtrcg` may return with a positive radius. -/
def AllowedTr (withz : Bool) : State → State → Prop
  | .start, t => t = .newx
  | .restart, t => t = .ap ∨ t = .truncated
  | .newx, t => if withz then t = .precond else t = .ap ∨ t = .finish ∨ t = .nonConvex
  | .precond, t => t = .ap ∨ t = .finish ∨ t = .nonConvex
  | .ap, t => t = .newx ∨ t = .finish ∨ t = .truncated ∨ t = .error
  | .finish, t => t = .finish
  | .nonConvex, t => t = .nonConvex
  | .truncated, t => t = .truncated
  | .error, t => t = .error
  | .other _, t => t = .error

theorem truncate_state (A : Arrays) (delta : F) (s : Cg F) :
    (truncate A delta s).state = .finish ∨ (truncate A delta s).state = .truncated ∨ (truncate A delta s).state = .error := by
  unfold truncate
  dsimp only
  generalize Linalg.dot A.n A.p 1 A.p 1 s.mem = a
  generalize Linalg.dot A.n A.x 1 A.p 1 s.mem = b
  generalize (s.rho.r4 + delta) * (s.rho.r4 - delta) = c
  by_cases h1 : a ≤ 0
  · rw [if_pos h1]; simp
  rw [if_neg h1]
  by_cases h2 : c ≥ 0
  · rw [if_pos h2]; simp
  rw [if_neg h2]
  generalize (1 / (if fabs c > (if fabs b > fabs a then fabs b else fabs a) then fabs c else if fabs b > fabs a then fabs b else fabs a)) = d
  by_cases h3 : b * d * (b * d) - a * d * (c * d) > 0
  · rw [if_pos h3]; simp
  · rw [if_neg h3]; simp

/-- C41: the states of `opk_dtrcg` only move as documented: with a radius which is not positive an error is
always reported; otherwise the allowed transitions are those of `AllowedTr`. -/
theorem trcg_protocol (A : Arrays) (delta : F) (s : Cg F) :
    (trcg A delta s = none ↔ 0 < delta ∧ s.state = .precond ∧ A.z = none) ∧
    ∀ t, trcg A delta s = some t → if 0 < delta then AllowedTr A.z.isSome s.state t.state else t = { s with state := .error } := by
  have hd : ∀ z, (direction A z s).state = .ap ∨ (direction A z s).state = .finish ∨ (direction A z s).state = .nonConvex := by
    intro z
    obtain ⟨h1, h2, h3, -⟩ := direction_state A z s
    rcases lt_trichotomy (Linalg.dot A.n A.r 1 z 1 s.mem) 0 with h | h | h
    · exact Or.inr (Or.inr (h1.2 h))
    · exact Or.inr (Or.inl (h2.2 h))
    · exact Or.inl (h3.2 h)
  have ht : ∀ u : Cg F, (truncate A delta u).state = .newx ∨ (truncate A delta u).state = .finish ∨ (truncate A delta u).state = .truncated ∨ (truncate A delta u).state = .error :=
    fun u => Or.inr (truncate_state A delta u)
  unfold trcg AllowedTr
  by_cases h0 : delta ≤ 0
  · simp only [if_pos h0, if_neg (not_lt.2 h0)]
    simp [not_lt.2 h0, eq_comm]
  simp only [if_neg h0, if_pos (not_le.1 h0)]
  have hp : 0 < delta := not_le.1 h0
  rcases hs : s.state with _ | _ | _ | _ | _ | _ | _ | _ | _ | v <;> dsimp only
  · simp
  · simp
  · by_cases h1 : Linalg.nrm2 A.n A.x 1 s.mem ≥ delta
    · rw [if_pos h1]; simp
    · rw [if_neg h1]; simp
  · rcases hz : A.z with _ | z
    · simpa using hd A.r
    · simp
  · rcases hz : A.z with _ | z
    · simp [hp]
    · simpa using hd z
  · by_cases h1 : s.rho.r1 > 0
    · rw [if_pos h1]
      by_cases h2 : Linalg.dot A.n A.p 1 A.q 1 s.mem > 0
      · rw [if_pos h2]
        by_cases h3 : s.rho.r1 / Linalg.dot A.n A.p 1 A.q 1 s.mem = 0
        · rw [if_pos h3]; simp
        · rw [if_neg h3]
          generalize CMath.sqrt (forUp 0 A.n 1 _ (0 : F)) = xn
          by_cases h4 : xn ≤ delta
          · rw [if_pos h4]
            by_cases h5 : xn < delta
            · simp [h5]
            · simp [h5]
          · rw [if_neg h4]
            refine ⟨by simp, fun t h => ?_⟩
            obtain rfl := Option.some.inj h
            exact ht _
      · rw [if_neg h2]
        refine ⟨by simp, fun t h => ?_⟩
        obtain rfl := Option.some.inj h
        exact ht _
    · rw [if_neg h1]; simp
  · simp [hs]
  · simp [hs]
  · simp [hs]
  · simp

/-- C41: in the states `OPK_CG_FINISH`, `OPK_CG_NON_CONVEX`, `OPK_CG_TRUNCATED` and `OPK_CG_ERROR` (and in any
unknown state, or with a radius which is not positive) calling `opk_dtrcg` modifies neither the memory nor `rho`. -/
theorem trcg_terminal (A : Arrays) (delta : F) (s t : Cg F) (h : trcg A delta s = some t)
    (hs : delta ≤ 0 ∨ s.state ∉ [State.start, .restart, .newx, .precond, .ap]) : t.mem = s.mem ∧ t.rho = s.rho := by
  unfold trcg at h
  by_cases h0 : delta ≤ 0
  · rw [if_pos h0] at h
    obtain rfl := Option.some.inj h
    exact ⟨rfl, rfl⟩
  rw [if_neg h0] at h
  replace hs := hs.resolve_left h0
  rcases e : s.state with _ | _ | _ | _ | _ | _ | _ | _ | _ | v <;> rw [e] at h hs <;> dsimp only at h <;>
    first
    | (exfalso; simp at hs; done)
    | (obtain rfl := Option.some.inj h; exact ⟨rfl, rfl⟩)

/-- C41: `opk_dtrcg` reports non-convexity exactly when the product `r'.z` is negative (the
preconditioner is not positive); a direction of non-positive curvature is followed up to the border
of the trust region instead. -/
theorem trcg_nonConvex (A : Arrays) (delta : F) (s t : Cg F) (h : trcg A delta s = some t) (hd : 0 < delta) :
    t.state = .nonConvex ↔ s.state = .nonConvex ∨
      (s.state = .newx ∧ A.z = none ∧ Linalg.dot A.n A.r 1 A.r 1 s.mem < 0) ∨
      (∃ z, s.state = .precond ∧ A.z = some z ∧ Linalg.dot A.n A.r 1 z 1 s.mem < 0) := by
  have hal := (trcg_protocol A delta s).2 t h
  rw [if_pos hd] at hal
  unfold trcg at h
  rw [if_neg (not_le.2 hd)] at h
  unfold AllowedTr at hal
  rcases e : s.state with _ | _ | _ | _ | _ | _ | _ | _ | _ | v <;> rw [e] at h hal <;> dsimp only at h hal
  · simp [hal]
  · simp [hal]
  · rcases hal with h' | h' <;> simp [h']
  · rcases hz : A.z with _ | z <;> rw [hz] at h <;> dsimp only at h <;> obtain rfl := Option.some.inj h
    · simpa using (direction_state A A.r s).1
    · simp
  · rcases hz : A.z with _ | z <;> rw [hz] at h <;> dsimp only at h
    · cases h
    · obtain rfl := Option.some.inj h
      simpa using (direction_state A z s).1
  · rcases hal with h' | h' | h' | h' <;> simp [h']
  · simp [hal]
  · simp [hal]
  · simp [hal]
  · simp [hal]

theorem truncate_frame (A : Arrays) (delta : F) (s : Cg F) (p : Int)
    (hr : ¬Within A.n A.r p) (hx : ¬Within A.n A.x p) : (truncate A delta s).mem p = s.mem p := by
  have af : ∀ (a : F) (u v : Int) (m : Mem F), ¬Within A.n v p → Linalg.axpy A.n a u 1 v 1 m p = m p :=
    fun a u v m hv => Linalg.axpy_frame A.n a u 1 v 1 m p fun k hk => not_slot hv k hk
  unfold truncate
  dsimp only
  generalize Linalg.dot A.n A.p 1 A.p 1 s.mem = a
  generalize Linalg.dot A.n A.x 1 A.p 1 s.mem = b
  generalize (s.rho.r4 + delta) * (s.rho.r4 - delta) = c
  by_cases h1 : a ≤ 0
  · rw [if_pos h1]
  rw [if_neg h1]
  by_cases h2 : c ≥ 0
  · rw [if_pos h2]
  rw [if_neg h2]
  generalize (1 / (if fabs c > (if fabs b > fabs a then fabs b else fabs a) then fabs c else if fabs b > fabs a then fabs b else fabs a)) = d
  by_cases h3 : b * d * (b * d) - a * d * (c * d) > 0
  · rw [if_pos h3]
    dsimp only
    generalize (if b * d ≥ 0 then -(c * d) / (CMath.sqrt (b * d * (b * d) - a * d * (c * d)) + b * d)
      else (CMath.sqrt (b * d * (b * d) - a * d * (c * d)) - b * d) / (a * d)) = alpha
    by_cases h4 : alpha > 0
    · rw [if_pos h4, af _ _ _ _ hr, af _ _ _ _ hx]
    · rw [if_neg h4]
  · rw [if_neg h3]

/-- C41: `opk_dtrcg` only modifies the arrays `p`, `r` and `x`. -/
theorem trcg_frame (A : Arrays) (delta : F) (s t : Cg F) (h : trcg A delta s = some t) (p : Int)
    (hp : ¬Within A.n A.p p) (hr : ¬Within A.n A.r p) (hx : ¬Within A.n A.x p) : t.mem p = s.mem p := by
  unfold trcg at h
  have zf : Linalg.zero A.n A.x 1 s.mem p = s.mem p := (Linalg.zero_spec le_rfl s.mem).2 p fun k hk => not_slot hx k hk
  have af : ∀ (a : F) (u v : Int) (m : Mem F), ¬Within A.n v p → Linalg.axpy A.n a u 1 v 1 m p = m p :=
    fun a u v m hv => Linalg.axpy_frame A.n a u 1 v 1 m p fun k hk => not_slot hv k hk
  have sf : ∀ a : F, Linalg.scal A.n a A.x 1 s.mem p = s.mem p := by
    intro a
    unfold Linalg.scal
    by_cases h0 : A.n ≤ 0 ∨ a = 1
    · rw [if_pos h0]
    have hn : 0 ≤ A.n := by by_contra hc; exact h0 (Or.inl (by omega))
    have fr : ∀ g : Nat → Mem F → F, Linalg.loop (fun (k : Nat) m => put m (A.x + k) (g k m)) A.n.toNat s.mem p = s.mem p := by
      intro g
      refine Linalg.loop_frame (fun k => A.x + (k : Int)) g _ _ _ fun k hk => ?_
      unfold Within at hx
      omega
    simp only [if_neg h0, if_true, Linalg.unroll8a_eq hn]
    by_cases h1 : a = 0
    · rw [if_pos h1]; exact fr _
    · rw [if_neg h1]
      by_cases h2 : a = -1
      · rw [if_pos h2]; exact fr fun k m => -m (A.x + k)
      · rw [if_neg h2]; exact fr fun k m => m (A.x + k) * a
  by_cases h0 : delta ≤ 0
  · rw [if_pos h0] at h; obtain rfl := Option.some.inj h; rfl
  rw [if_neg h0] at h
  rcases e : s.state with _ | _ | _ | _ | _ | _ | _ | _ | _ | v <;> rw [e] at h <;> dsimp only at h
  · obtain rfl := Option.some.inj h; rfl
  · obtain rfl := Option.some.inj h; exact zf
  · by_cases h1 : Linalg.nrm2 A.n A.x 1 s.mem ≥ delta
    · rw [if_pos h1] at h; obtain rfl := Option.some.inj h
      dsimp only
      by_cases h2 : Linalg.nrm2 A.n A.x 1 s.mem > delta
      · rw [if_pos h2, sf]
      · rw [if_neg h2]
    · rw [if_neg h1] at h; obtain rfl := Option.some.inj h; exact copy_frame hp s.mem
  · rcases hz : A.z with _ | z <;> rw [hz] at h <;> dsimp only at h <;> obtain rfl := Option.some.inj h
    · exact direction_frame A A.r s p hp
    · rfl
  · rcases hz : A.z with _ | z <;> rw [hz] at h <;> dsimp only at h
    · cases h
    · obtain rfl := Option.some.inj h
      exact direction_frame A z s p hp
  · by_cases h1 : s.rho.r1 > 0
    · rw [if_pos h1] at h
      by_cases h2 : Linalg.dot A.n A.p 1 A.q 1 s.mem > 0
      · rw [if_pos h2] at h
        by_cases h3 : s.rho.r1 / Linalg.dot A.n A.p 1 A.q 1 s.mem = 0
        · rw [if_pos h3] at h; obtain rfl := Option.some.inj h; rfl
        · rw [if_neg h3] at h
          generalize CMath.sqrt (forUp 0 A.n 1 _ (0 : F)) = xn at h
          by_cases h4 : xn ≤ delta
          · rw [if_pos h4] at h; obtain rfl := Option.some.inj h
            show Linalg.axpy _ _ _ _ _ _ (Linalg.axpy _ _ _ _ _ _ _) p = _
            rw [af _ _ _ _ hr, af _ _ _ _ hx]
          · rw [if_neg h4] at h; obtain rfl := Option.some.inj h
            exact truncate_frame A delta _ p hr hx
      · rw [if_neg h2] at h; obtain rfl := Option.some.inj h
        exact truncate_frame A delta _ p hr hx
    · rw [if_neg h1] at h; obtain rfl := Option.some.inj h
      dsimp only
      rw [Linalg.forUp_one]
      refine Linalg.loop_frame (fun k => A.r + (k : Int)) (fun k m => m (A.r + k) - m (A.q + k)) _ _ _ fun k hk => ?_
      unfold Within at hr
      omega
  · obtain rfl := Option.some.inj h; rfl
  · obtain rfl := Option.some.inj h; rfl
  · obtain rfl := Option.some.inj h; rfl
  · obtain rfl := Option.some.inj h; rfl

end trust
end Opk.Lcg
