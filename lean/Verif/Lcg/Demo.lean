import Verif.Lcg.TrustProps
import Mathlib.LinearAlgebra.Matrix.ToLin
import Mathlib.Tactic.FinCases
/-!
# Examples of sessions of the conjugate gradients

Two equations with rational coefficients, all the hypotheses of the theorems are met.
-/
set_option linter.unusedSectionVars false
set_option linter.unusedSimpArgs false
namespace Opk.Lcg.Demo
open Opk.Lcg
open Opk.Linalg (Mem put)

/-- Arrays of two elements; the preconditioned residuals share the array `q`. -/
def arr : Arrays := { n := 2, p := 0, q := 2, r := 4, x := 6, z := some 2 }
/-- The same without preconditioner. -/
def arr0 : Arrays := { arr with z := none }

theorem layout : Layout 2 arr := by
  constructor <;> first | rfl | (unfold Apart arr; norm_num; done) | (intro z hz; cases hz; unfold Apart arr; norm_num)
theorem layout0 : Layout 2 arr0 := by
  constructor <;> first | rfl | (unfold Apart arr0 arr; norm_num; done) | (intro z hz; cases hz)

/-- The operator `(u, v) ↦ (a u + b v, b u + c v)`. -/
def op (a b c : ℚ) : (Fin 2 → ℚ) →ₗ[ℚ] (Fin 2 → ℚ) where
  toFun u := fun i => if i = 0 then a * u 0 + b * u 1 else b * u 0 + c * u 1
  map_add' u v := by funext i; fin_cases i <;> simp <;> ring
  map_smul' k u := by funext i; fin_cases i <;> simp <;> ring

theorem op_symm (a b c : ℚ) : Symmetric (op a b c) := by
  intro u v
  simp only [dotProduct, Fin.sum_univ_two, op, LinearMap.coe_mk, AddHom.coe_mk]
  simp
  ring

theorem op_pos {a b c : ℚ} (ha : 0 < a) (hd : 0 < a * c - b * b) : Positive (op a b c) := by
  intro u hu
  have e : a * (u ⬝ᵥ op a b c u) = (a * u 0 + b * u 1) * (a * u 0 + b * u 1) + (a * c - b * b) * (u 1 * u 1) := by
    simp only [dotProduct, Fin.sum_univ_two, op, LinearMap.coe_mk, AddHom.coe_mk]
    simp
    ring
  refine (mul_pos_iff_of_pos_left ha).1 ?_
  rw [e]
  by_cases h1 : u 1 = 0
  · have h0 : u 0 ≠ 0 := by
      intro h0; apply hu; funext i; fin_cases i <;> simp [h0, h1]
    have : a * u 0 + b * u 1 ≠ 0 := by rw [h1]; simp [ha.ne', h0]
    have := mul_self_pos.2 this
    have := mul_nonneg hd.le (mul_self_nonneg (u 1))
    linarith
  · have := mul_pos hd (mul_self_pos.2 h1)
    have := mul_self_nonneg (a * u 0 + b * u 1)
    linarith

/-- A caller which computes what it is asked for. -/
def answer (a b c a' b' c' : ℚ) (z : Int) (s : Cg ℚ) : Cg ℚ :=
  match s.state with
  | .ap => { s with mem := put (put s.mem 2 (a * s.mem 0 + b * s.mem 1)) 3 (b * s.mem 0 + c * s.mem 1) }
  | .precond => { s with mem := put (put s.mem z (a' * s.mem 4 + b' * s.mem 5)) (z + 1) (b' * s.mem 4 + c' * s.mem 5) }
  | _ => s

theorem answer_serve (a b c a' b' c' : ℚ) (s : Cg ℚ) : Serve 2 arr (op a b c) (op a' b' c') s (answer a b c a' b' c' 2 s) := by
  constructor
  · unfold answer; split <;> rfl
  · unfold answer; split <;> rfl
  · funext i; unfold answer vec put arr; split <;> fin_cases i <;> simp
  · funext i; unfold answer vec put arr; split <;> fin_cases i <;> simp
  · funext i; unfold answer vec put arr; split <;> fin_cases i <;> simp
  · intro h; funext i; unfold answer vec put arr op; rw [h]; fin_cases i <;> simp
  · intro h z hz
    cases hz
    funext i; unfold answer vec put arr op; rw [h]; fin_cases i <;> simp

/-- The successive results of a routine. -/
def run (call : Cg ℚ → Option (Cg ℚ)) (ans : Cg ℚ → Cg ℚ) (s : Cg ℚ) : Nat → Cg ℚ
  | 0 => s
  | k + 1 => (call (ans (run call ans s k))).getD s

theorem run_session {b x0 : Fin 2 → ℚ} {call : Cg ℚ → Option (Cg ℚ)} {ar : Arrays} {A Q : (Fin 2 → ℚ) →ₗ[ℚ] (Fin 2 → ℚ)} {ans : Cg ℚ → Cg ℚ} {s : Cg ℚ}
    (h0 : Session 2 ar A Q b x0 call [] s) (ha : ∀ s, Serve 2 ar A Q s (ans s))
    (k : Nat) (hk : ∀ i < k, (call (ans (run call ans s i))).isSome) :
    Session 2 ar A Q b x0 call ((List.range k).reverse.map (run call ans s)) (run call ans s k) := by
  induction k with
  | zero => exact h0
  | succ k ih =>
    rw [List.range_succ, List.reverse_append, List.reverse_singleton, List.singleton_append, List.map_cons]
    refine .next _ _ _ _ (ih fun i hi => hk i (by omega)) (ha _) ?_
    obtain ⟨t, ht⟩ := Option.isSome_iff_exists.1 (hk k (by omega))
    rw [ht]
    show some t = some ((call (ans (run call ans s k))).getD s)
    rw [ht]; rfl

/-- Initial contents: `r = (1, 2)`, all other numbers are arbitrary. -/
def mem0 : Mem ℚ := fun i => if i = 4 then 1 else if i = 5 then 2 else if i = 6 then 3 else if i = 7 then -1 else 17
/-- Initial state, with arbitrary `rho`. -/
def init (st : State) : Cg ℚ := { mem := mem0, rho := { r0 := 5, r1 := 6, r2 := 7, r3 := 8, r4 := 9 }, state := st }

/-- A preconditioned session from `x = (3, -1)`: positive definite operators, two steps, the exact solution. -/
def solving := run (plcg arr) (answer 4 1 3 1 0 2 2) (init .restart)

example : (List.range 11).map (fun k => (solving k).state) =
    [.restart, .ap, .newx, .precond, .ap, .newx, .precond, .ap, .newx, .precond, .finish] := by decide +kernel
example : (solving 10).mem 6 = 1 / 11 ∧ (solving 10).mem 7 = 7 / 11 := by decide +kernel

theorem solving_session : Session 2 arr (op 4 1 3) (op 1 0 2) ![1, 2] ![3, -1] (plcg arr)
    ((List.range 10).reverse.map solving) (solving 10) := by
  refine run_session ?_ (answer_serve 4 1 3 1 0 2) 10 (by decide +kernel)
  refine .restart _ rfl ?_ ?_
  · funext i; fin_cases i <;> rfl
  · funext i; fin_cases i <;> rfl

/-- The hypotheses of `plcg_solves` are met by this session of 10 calls = `3 n + 4`. -/
example : (op 4 1 3) (vec 2 (solving 10).mem arr.x) = ![1, 2] :=
  (plcg_solves layout (op_symm _ _ _) (op_symm _ _ _) (fun h => by cases h) (op_pos (by norm_num) (by norm_num))
    (op_pos (by norm_num) (by norm_num)) solving_session).2.2.2.2.1
    ((plcg_solves layout (op_symm _ _ _) (op_symm _ _ _) (fun h => by cases h) (op_pos (by norm_num) (by norm_num))
    (op_pos (by norm_num) (by norm_num)) solving_session).2.2.2.1 (by simp))

/-- Two steps have been computed, so `plcg_conjugate` applies to the second one. -/
example : Stepping (solving 4) ∧ Stepping (solving 7) ∧ solving 4 ∈ (List.range 7).reverse.map solving := by
  refine ⟨by decide +kernel, by decide +kernel, List.mem_map.2 ⟨4, by simp, rfl⟩⟩

/-- An indefinite operator is reported by `opk_dplcg`. -/
def indefinite := run (plcg arr) (answer 4 1 (-3) 1 0 2 2) (init .start)
example : (List.range 5).map (fun k => (indefinite k).state) = [.start, .newx, .precond, .ap, .nonConvex] := by decide +kernel
/-- An indefinite preconditioner as well. -/
def indefinite' := run (plcg arr) (answer 4 1 3 1 0 (-2) 2) (init .start)
example : (List.range 4).map (fun k => (indefinite' k).state) = [.start, .newx, .precond, .nonConvex] := by decide +kernel
/-- With the same indefinite operator `opk_dtrcg` goes to the border of the region: the direction of negative curvature is `(1, 4)/17` here. -/
def truncating := run (trcg { arr with z := none } 5) (answer 4 1 (-3) 1 0 1 2) { init .start with mem := fun i => if i = 4 then 3 else if i = 5 then 4 else 17 }
example : (List.range 4).map (fun k => (truncating k).state) = [.start, .newx, .ap, .truncated] := by decide +kernel
example : (truncating 3).mem 6 = 3 ∧ (truncating 3).mem 7 = 4 ∧ (truncating 3).rho.r4 = 5 := by decide +kernel
/-- And a positive definite one whose solution is out of the region. -/
def truncating' := run (trcg { arr with z := none } 5) (answer (1/10) 0 (1/10) 1 0 1 2) { init .start with mem := fun i => if i = 4 then 3 else if i = 5 then 4 else 17 }
example : (List.range 4).map (fun k => (truncating' k).state) = [.start, .newx, .ap, .truncated] := by decide +kernel
example : (truncating' 3).mem 6 = 3 ∧ (truncating' 3).mem 7 = 4 ∧ (truncating' 3).mem 4 = 27 / 10 := by decide +kernel

/-- The hypothesis on the square root holds for the real numbers, for which sessions exist with any operator and any radius. -/
example (A : (Fin 2 → ℝ) →ₗ[ℝ] (Fin 2 → ℝ)) (delta : ℝ) (mem : Mem ℝ) :
    (∀ a : ℝ, 0 ≤ a → 0 ≤ CMath.sqrt a ∧ CMath.sqrt a * CMath.sqrt a = a) ∧
    Session 2 arr0 A LinearMap.id (vec 2 mem 4) 0 (trcg arr0 delta) [] ⟨mem, ⟨0, 0, 0, 0, 0⟩, .start⟩ :=
  ⟨fun a ha => ⟨Real.sqrt_nonneg a, Real.mul_self_sqrt ha⟩, .start _ rfl rfl rfl⟩

/-- The first calls of any session with a non zero right hand side compute a step: with `trcg_step` and `trcg_region` one concludes. -/
theorem first_step (A : (Fin 2 → ℝ) →ₗ[ℝ] (Fin 2 → ℝ)) {delta : ℝ} (hd : 0 < delta) (mem : Mem ℝ) (hb : vec 2 mem 4 ≠ 0) :
    ∃ log s, Session 2 arr0 A LinearMap.id (vec 2 mem 4) 0 (trcg arr0 delta) log s ∧ Stepping s := by
  have h0 : Session 2 arr0 A LinearMap.id (vec 2 mem 4) 0 (trcg arr0 delta) [] ⟨mem, ⟨0, 0, 0, 0, 0⟩, .start⟩ := .start _ rfl rfl rfl
  have self : ∀ s : Cg ℝ, s.state ≠ .ap → s.state ≠ .precond → Serve 2 arr0 A LinearMap.id s s :=
    fun s h1 h2 => ⟨rfl, rfl, rfl, rfl, rfl, fun h => absurd h h1, fun h => absurd h h2⟩
  have h1 := Session.next _ _ _ ⟨Linalg.zero 2 6 1 mem, ⟨0, 0, 0, 0, 0⟩, .newx⟩ h0 (self _ (by simp) (by simp)) (by
    unfold trcg; rw [if_neg (not_le.2 hd)]; rfl)
  have h2 := Session.next _ _ _ (direction arr0 arr0.r ⟨Linalg.zero 2 6 1 mem, ⟨0, 0, 0, 0, 0⟩, .newx⟩) h1 (self _ (by simp) (by simp)) (by
    unfold trcg; rw [if_neg (not_le.2 hd)]; rfl)
  refine ⟨_, _, h2, ?_⟩
  obtain ⟨-, -, e3, -, -, -, -, -, e9, -⟩ := direction_view layout0 layout0.pr.symm ⟨Linalg.zero 2 6 1 mem, ⟨0, 0, 0, 0, 0⟩, .newx⟩
  have hv : vec 2 (Linalg.zero 2 6 1 mem) arr0.r = vec 2 mem 4 :=
    vec_frame (a := 6) (c := 4) (Or.inl (by norm_num)) fun p hp => zero_frame (n := 2) hp mem
  rw [hv] at e3 e9
  have hp := dot_self_pos hb
  exact ⟨e9.2 hp, e3 ▸ hp⟩

end Opk.Lcg.Demo
