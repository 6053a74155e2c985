import Verif.Lcg.Solve
import Verif.Arith.Exact
/-!
# C40: the truncated conjugate gradients

In exact arithmetic, for any symmetric operator (even indefinite), any symmetric preconditioner, and any
positive radius.
-/
set_option linter.unusedSectionVars false
set_option linter.unusedSimpArgs false
namespace Opk.Lcg
open Linalg (Mem put forUp slot)

variable {K : Type} [Field K] [LinearOrder K] [IsStrictOrderedRing K] {n : ℕ}

/-- The positive root computed by the truncated step. -/
theorem root_exact [CMath K] [ExactMath K] (hsqrt : ∀ a : K, 0 ≤ a → 0 ≤ CMath.sqrt a ∧ CMath.sqrt a * CMath.sqrt a = a)
    {a b c d : K} (ha : 0 < a) (hc : c < 0) (hd : 0 < d) :
    0 < b * d * (b * d) - a * d * (c * d) ∧
    ∀ α : K, α = (if b * d ≥ 0 then -(c * d) / (CMath.sqrt (b * d * (b * d) - a * d * (c * d)) + b * d)
      else (CMath.sqrt (b * d * (b * d) - a * d * (c * d)) - b * d) / (a * d)) →
      0 < α ∧ a * α * α + 2 * b * α + c = 0 := by
  have h1 : 0 < a * d := mul_pos ha hd
  have h2 : c * d < 0 := mul_neg_of_neg_of_pos hc hd
  have h3 : 0 < b * d * (b * d) - a * d * (c * d) := by
    have := mul_self_nonneg (b * d)
    have := mul_neg_of_pos_of_neg h1 h2
    linarith
  refine ⟨h3, fun α hα => ?_⟩
  obtain ⟨e0, e1⟩ := hsqrt _ h3.le
  generalize CMath.sqrt (b * d * (b * d) - a * d * (c * d)) = e at *
  have root : 0 < α ∧ a * d * α * α + 2 * (b * d) * α + c * d = 0 := by
    generalize a * d = a' at *
    generalize b * d = b' at *
    generalize c * d = c' at *
    have he : 0 < e := by
      rcases e0.lt_or_eq with h | h
      · exact h
      · rw [← h] at e1; simp at e1; linarith
    by_cases hb : b' ≥ 0
    · rw [if_pos hb] at hα
      have hs : 0 < e + b' := by linarith
      refine ⟨hα ▸ div_pos (by linarith) hs, ?_⟩
      have h4 : α * (e + b') = -c' := by rw [hα, div_mul_cancel₀ _ hs.ne']
      have h5 : (e + b') * (a' * α * α + 2 * b' * α + c') = 0 := by
        have e2 : a' * c' = b' * b' - e * e := by linarith
        calc (e + b') * (a' * α * α + 2 * b' * α + c') = a' * (α * (e + b')) * α + 2 * b' * (α * (e + b')) + c' * (e + b') := by ring
          _ = -(a' * c') * α + c' * (e - b') := by rw [h4]; ring
          _ = (e - b') * (α * (e + b')) + c' * (e - b') := by rw [e2]; ring
          _ = 0 := by rw [h4]; ring
      exact (mul_eq_zero.1 h5).resolve_left hs.ne'
    · rw [if_neg hb] at hα
      refine ⟨hα ▸ div_pos (by linarith) h1, ?_⟩
      have h4 : a' * α = e - b' := by rw [hα, mul_div_cancel₀ _ h1.ne']
      have h5 : a' * (a' * α * α + 2 * b' * α + c') = 0 := by
        calc a' * (a' * α * α + 2 * b' * α + c') = (a' * α) * (a' * α) + 2 * b' * (a' * α) + a' * c' := by ring
          _ = e * e - b' * b' + a' * c' := by rw [h4]; ring
          _ = 0 := by rw [e1]; ring
      exact (mul_eq_zero.1 h5).resolve_left h1.ne'
  refine ⟨root.1, ?_⟩
  have : d * (a * α * α + 2 * b * α + c) = 0 := by linarith [root.2]
  exact (mul_eq_zero.1 this).resolve_left hd.ne'

/-- Squared norm along a line. -/
theorem norm_line (x p : Fin n → K) (α : K) :
    (x + α • p) ⬝ᵥ (x + α • p) = x ⬝ᵥ x + 2 * α * (x ⬝ᵥ p) + α * α * (p ⬝ᵥ p) := by
  rw [add_dotProduct, dotProduct_add, dotProduct_add, smul_dotProduct, smul_dotProduct, dotProduct_smul, dotProduct_smul, dotProduct_comm p x]
  simp only [smul_eq_mul]
  ring

theorem dot_self_pos {p : Fin n → K} (h : p ≠ 0) : 0 < p ⬝ᵥ p := by
  obtain ⟨i, hi⟩ := Function.ne_iff.1 h
  refine Finset.sum_pos' (fun i _ => mul_self_nonneg _) ⟨i, Finset.mem_univ _, mul_self_pos.2 hi⟩

theorem dot_self_nonneg (p : Fin n → K) : 0 ≤ p ⬝ᵥ p := Finset.sum_nonneg fun i _ => mul_self_nonneg _

section
variable [CMath K] [ExactMath K] (hsqrt : ∀ a : K, 0 ≤ a → 0 ≤ CMath.sqrt a ∧ CMath.sqrt a * CMath.sqrt a = a)
variable {arr : Arrays} {delta : K}
include hsqrt

/-- The truncated step reaches the border of the region. -/
theorem truncate_view (L : Layout n arr) (s : Cg K) (hp : vec n s.mem arr.p ≠ 0)
    (h4 : s.rho.r4 * s.rho.r4 = vec n s.mem arr.x ⬝ᵥ vec n s.mem arr.x) (h40 : 0 ≤ s.rho.r4) (hd : s.rho.r4 < delta) :
    let t := truncate arr delta s
    t.state = .truncated ∧ t.rho.r4 = delta ∧ t.rho.r1 = s.rho.r1 ∧ t.rho.r0 = s.rho.r1 ∧ 0 < t.rho.r2 ∧
    vec n t.mem arr.x = vec n s.mem arr.x + t.rho.r2 • vec n s.mem arr.p ∧
    vec n t.mem arr.r = vec n s.mem arr.r - t.rho.r2 • vec n s.mem arr.q ∧
    vec n t.mem arr.p = vec n s.mem arr.p ∧
    vec n t.mem arr.x ⬝ᵥ vec n t.mem arr.x = delta * delta := by
  intro t
  have ht : t = truncate arr delta s := rfl
  clear_value t
  unfold truncate at ht
  have ha : 0 < vec n s.mem arr.p ⬝ᵥ vec n s.mem arr.p := dot_self_pos hp
  rw [L.size, dot_vec, dot_vec] at ht
  dsimp only at ht
  have hc : (s.rho.r4 + delta) * (s.rho.r4 - delta) < 0 := mul_neg_of_pos_of_neg (by linarith) (by linarith)
  rw [if_neg (not_le.2 ha), if_neg (not_le.2 hc)] at ht
  simp only [ExactMath.fabs_eq] at ht
  have hcx : (s.rho.r4 + delta) * (s.rho.r4 - delta) = vec n s.mem arr.x ⬝ᵥ vec n s.mem arr.x - delta * delta := by
    rw [← h4]; ring
  have hdd : 0 < 1 / (if |(s.rho.r4 + delta) * (s.rho.r4 - delta)| > (if |vec n s.mem arr.x ⬝ᵥ vec n s.mem arr.p| > |vec n s.mem arr.p ⬝ᵥ vec n s.mem arr.p| then |vec n s.mem arr.x ⬝ᵥ vec n s.mem arr.p| else |vec n s.mem arr.p ⬝ᵥ vec n s.mem arr.p|)
      then |(s.rho.r4 + delta) * (s.rho.r4 - delta)| else (if |vec n s.mem arr.x ⬝ᵥ vec n s.mem arr.p| > |vec n s.mem arr.p ⬝ᵥ vec n s.mem arr.p| then |vec n s.mem arr.x ⬝ᵥ vec n s.mem arr.p| else |vec n s.mem arr.p ⬝ᵥ vec n s.mem arr.p|)) := by
    have hap := abs_pos.2 ha.ne'
    refine div_pos one_pos ?_
    split_ifs <;> linarith
  generalize (1 / (if |(s.rho.r4 + delta) * (s.rho.r4 - delta)| > (if |vec n s.mem arr.x ⬝ᵥ vec n s.mem arr.p| > |vec n s.mem arr.p ⬝ᵥ vec n s.mem arr.p| then |vec n s.mem arr.x ⬝ᵥ vec n s.mem arr.p| else |vec n s.mem arr.p ⬝ᵥ vec n s.mem arr.p|)
      then |(s.rho.r4 + delta) * (s.rho.r4 - delta)| else (if |vec n s.mem arr.x ⬝ᵥ vec n s.mem arr.p| > |vec n s.mem arr.p ⬝ᵥ vec n s.mem arr.p| then |vec n s.mem arr.x ⬝ᵥ vec n s.mem arr.p| else |vec n s.mem arr.p ⬝ᵥ vec n s.mem arr.p|))) = d at ht hdd
  obtain ⟨r1, r2⟩ := root_exact hsqrt (b := vec n s.mem arr.x ⬝ᵥ vec n s.mem arr.p) ha hc hdd
  rw [if_pos r1] at ht
  obtain ⟨r3, r4⟩ := r2 _ rfl
  generalize (if vec n s.mem arr.x ⬝ᵥ vec n s.mem arr.p * d ≥ 0 then _ else _ : K) = α at ht r3 r4
  rw [if_pos r3] at ht
  subst ht
  dsimp only
  have f1 := fun (a : K) (m : Mem K) p hp => axpy_out (n := n) (a := a) (x := arr.q) (y := arr.r) (p := p) hp m
  have f2 := fun (a : K) (m : Mem K) p hp => axpy_out (n := n) (a := a) (x := arr.p) (y := arr.x) (p := p) hp m
  rw [vec_axpy L.rq.symm, vec_frame L.xr (f1 _ _), vec_frame L.pr (f1 _ _), vec_axpy L.px, vec_frame L.px (f2 _ _), vec_frame L.xr.symm (f2 _ _),
    vec_frame L.xq.symm (f2 _ _), neg_smul, ← sub_eq_add_neg]
  refine ⟨rfl, rfl, rfl, rfl, r3, rfl, rfl, rfl, ?_⟩
  rw [norm_line]
  rw [hcx] at r4
  linarith

omit hsqrt [ExactMath K] in
theorem sum_line (x p : Int) (α : K) (m : Mem K) :
    forUp 0 n 1 (fun i sum => sum + (m (x + i) + α * m (p + i)) * (m (x + i) + α * m (p + i))) (0 : K)
      = (vec n m x + α • vec n m p) ⬝ᵥ (vec n m x + α • vec n m p) := by
  rw [Linalg.forUp_one, Int.toNat_natCast, Linalg.loop_sum (fun k => (m (x + k) + α * m (p + k)) * (m (x + k) + α * m (p + k))), zero_add,
    Finset.sum_range]
  rfl

/-- A step of `opk_dtrcg`. -/
theorem trcg_ap_view (L : Layout n arr) {s t : Cg K} (hc : trcg arr delta s = some t) (hst : Stepping s) (hp : vec n s.mem arr.p ≠ 0)
    (h4 : s.rho.r4 * s.rho.r4 = vec n s.mem arr.x ⬝ᵥ vec n s.mem arr.x) (h40 : 0 ≤ s.rho.r4) (hd : s.rho.r4 < delta) :
    (t.state = .newx ∧ t.rho.r4 < delta ∨ t.state = .truncated ∧ t.rho.r4 = delta) ∧
    t.rho.r1 = s.rho.r1 ∧ t.rho.r0 = s.rho.r1 ∧ 0 < t.rho.r2 ∧
    vec n t.mem arr.x = vec n s.mem arr.x + t.rho.r2 • vec n s.mem arr.p ∧
    vec n t.mem arr.r = vec n s.mem arr.r - t.rho.r2 • vec n s.mem arr.q ∧
    vec n t.mem arr.p = vec n s.mem arr.p ∧ 0 ≤ t.rho.r4 ∧
    t.rho.r4 * t.rho.r4 = vec n t.mem arr.x ⬝ᵥ vec n t.mem arr.x ∧
    (0 < vec n s.mem arr.p ⬝ᵥ vec n s.mem arr.q ∧ t.rho.r2 = s.rho.r1 / vec n s.mem arr.p ⬝ᵥ vec n s.mem arr.q ∨
     t.state = .truncated ∧ (vec n s.mem arr.p ⬝ᵥ vec n s.mem arr.q ≤ 0 ∨ 0 < vec n s.mem arr.p ⬝ᵥ vec n s.mem arr.q ∧
      delta * delta < (vec n s.mem arr.x + (s.rho.r1 / vec n s.mem arr.p ⬝ᵥ vec n s.mem arr.q) • vec n s.mem arr.p) ⬝ᵥ
        (vec n s.mem arr.x + (s.rho.r1 / vec n s.mem arr.p ⬝ᵥ vec n s.mem arr.q) • vec n s.mem arr.p))) := by
  unfold trcg at hc
  rw [if_neg (not_le.2 (h40.trans_lt hd)), hst.1, L.size] at hc
  dsimp only at hc
  rw [if_pos hst.2, dot_vec] at hc
  by_cases hpq : vec n s.mem arr.p ⬝ᵥ vec n s.mem arr.q > 0
  · rw [if_pos hpq] at hc
    have hα := div_pos hst.2 hpq
    rw [if_neg hα.ne', sum_line] at hc
    generalize s.rho.r1 / vec n s.mem arr.p ⬝ᵥ vec n s.mem arr.q = α at *
    obtain ⟨e0, e1⟩ := hsqrt _ (dot_self_nonneg (vec n s.mem arr.x + α • vec n s.mem arr.p))
    generalize CMath.sqrt ((vec n s.mem arr.x + α • vec n s.mem arr.p) ⬝ᵥ (vec n s.mem arr.x + α • vec n s.mem arr.p)) = xn at *
    by_cases hx : xn ≤ delta
    · rw [if_pos hx] at hc
      obtain rfl := Option.some.inj hc
      dsimp only
      have f1 := fun (a : K) (m : Mem K) p hp => axpy_out (n := n) (a := a) (x := arr.q) (y := arr.r) (p := p) hp m
      have f2 := fun (a : K) (m : Mem K) p hp => axpy_out (n := n) (a := a) (x := arr.p) (y := arr.x) (p := p) hp m
      rw [vec_axpy L.rq.symm, vec_frame L.xr (f1 _ _), vec_frame L.pr (f1 _ _), vec_axpy L.px, vec_frame L.px (f2 _ _), vec_frame L.xr.symm (f2 _ _),
        vec_frame L.xq.symm (f2 _ _), neg_smul, ← sub_eq_add_neg]
      refine ⟨?_, rfl, rfl, hα, rfl, rfl, rfl, e0, e1, Or.inl ⟨hpq, rfl⟩⟩
      by_cases hlt : xn < delta
      · left; simp [hlt]
      · right; simp [hlt, le_antisymm hx (not_lt.1 hlt)]
    · rw [if_neg hx] at hc
      obtain rfl := Option.some.inj hc
      obtain ⟨a1, a2, a3, a4, a5, a6, a7, a8, a9⟩ := truncate_view hsqrt L { mem := s.mem, rho := { s.rho with r2 := α }, state := .ap } hp h4 h40 hd
      refine ⟨Or.inr ⟨a1, a2⟩, a3, a4, a5, a6, a7, a8, (h40.trans_lt hd).le.trans_eq a2.symm, (congrArg₂ (· * ·) a2 a2).trans a9.symm, Or.inr ⟨a1, Or.inr ⟨hpq, ?_⟩⟩⟩
      rw [← e1]
      have := not_le.1 hx
      exact mul_self_lt_mul_self (h40.trans_lt hd).le this
  · rw [if_neg hpq] at hc
    obtain rfl := Option.some.inj hc
    obtain ⟨a1, a2, a3, a4, a5, a6, a7, a8, a9⟩ := truncate_view hsqrt L s hp h4 h40 hd
    exact ⟨Or.inr ⟨a1, a2⟩, a3, a4, a5, a6, a7, a8, (h40.trans_lt hd).le.trans_eq a2.symm, (congrArg₂ (· * ·) a2 a2).trans a9.symm, Or.inr ⟨a1, Or.inl (not_lt.1 hpq)⟩⟩

/-- What is known in each state of `opk_dtrcg`. -/
def GoodTr (n : ℕ) (arr : Arrays) (A Q : (Fin n → K) →ₗ[K] (Fin n → K)) (b x0 : Fin n → K) (delta : K) (log : List (Cg K)) (s : Cg K) : Prop :=
  if s.state = .truncated then s.rho.r4 = delta ∧ vec n s.mem arr.x ⬝ᵥ vec n s.mem arr.x = delta * delta
  else Good n arr A Q b x0 log s ∧ (s.state = .nonConvex → s.rho.r1 < 0) ∧
    (s.state ≠ .start → s.state ≠ .restart → 0 ≤ s.rho.r4 ∧ s.rho.r4 < delta ∧ s.rho.r4 * s.rho.r4 = vec n s.mem arr.x ⬝ᵥ vec n s.mem arr.x)

variable {A Q : (Fin n → K) →ₗ[K] (Fin n → K)} {b x0 : Fin n → K} {log : List (Cg K)} {s t : Cg K}

omit hsqrt [CMath K] [ExactMath K] in
theorem goodTr_direction (L : Layout n arr) (hA : Symmetric A) (hQ : Symmetric Q) {z : Int} (hz : Apart n z arr.p)
    {S : Submodule K (Fin n → K)} {rho0 : K} {x r p : Fin n → K}
    (h : AtNew A Q b x0 (steps log) (directions n arr log) (residuals n arr log) S x r p rho0)
    (hlen : log.length ≤ 3 * steps log + 3) (hs : ¬Stepping s) {s' : Cg K} (h0 : s'.rho.r0 = rho0)
    (hx : vec n s'.mem arr.x = x) (hr : vec n s'.mem arr.r = r) (hp : vec n s'.mem arr.p = p) (hzr : vec n s'.mem z = Q r)
    (h4 : 0 ≤ s'.rho.r4 ∧ s'.rho.r4 < delta ∧ s'.rho.r4 * s'.rho.r4 = x ⬝ᵥ x) :
    GoodTr n arr A Q b x0 delta (s :: log) (direction arr z s') := by
  have hg := good_direction L hA hQ hz h hlen hs h0 hx hr hp hzr
  obtain ⟨e1, e2, e3, e4, e5, e6, e7, e8, e9, e10, e11⟩ := direction_view L hz s'
  generalize direction arr z s' = t at *
  have hst : t.state ≠ .truncated := by
    intro e; unfold Good at hg; rw [e] at hg; exact hg
  unfold GoodTr
  rw [if_neg hst, e1, e6, hx]
  exact ⟨hg, fun e => by rw [e3]; exact e7.1 e, fun _ _ => h4⟩

/-- The invariant of a session. -/
theorem goodTr (L : Layout n arr) (hA : Symmetric A) (hQ : Symmetric Q) (hid : arr.z = none → Q = LinearMap.id) (hdelta : 0 < delta)
    (h : Session n arr A Q b x0 (trcg arr delta) log s) : GoodTr n arr A Q b x0 delta log s := by
  induction h with
  | start s h1 h2 h3 => unfold GoodTr Good; rw [h1]; exact ⟨⟨rfl, h2, h3⟩, ⟨(fun h => nomatch h), fun h => absurd rfl h⟩⟩
  | restart s h1 h2 h3 => unfold GoodTr Good; rw [h1]; exact ⟨⟨rfl, h2, h3⟩, ⟨(fun h => nomatch h), fun _ h => absurd rfl h⟩⟩
  | next log s s' t _ sv hc ih =>
    have hst := sv.state
    have hx := sv.x
    have hr := sv.r
    have hp := sv.p
    have hrho := sv.rho
    have hc0 := hc
    unfold trcg at hc
    unfold GoodTr Good at ih
    rw [hst, if_neg (not_le.2 hdelta)] at hc
    rcases e : s.state with _ | _ | _ | _ | _ | _ | _ | _ | _ | v <;> rw [e] at hc ih <;> dsimp only at hc
    · -- error
      simp at ih
    · -- start
      simp only [reduceCtorEq, if_false] at ih
      obtain ⟨⟨rfl, ih2, ih3⟩, -⟩ := ih
      obtain rfl := Option.some.inj hc
      obtain ⟨l1, l2, l3⟩ := log_other (n := n) (arr := arr) (log := []) (s := s) (by unfold Stepping; simp [e])
      have hz : ∀ p, ¬Within n arr.x p → Linalg.zero n arr.x 1 s'.mem p = s'.mem p := fun p hp => zero_frame hp _
      unfold GoodTr Good
      dsimp only
      simp only [reduceCtorEq, if_false]
      rw [l1, l2, l3, L.size, vec_zero, vec_frame L.xr.symm hz, hr, ih2]
      refine ⟨⟨by simp [steps], ⊥, ?_⟩, fun h => h.elim, fun _ _ => ⟨le_rfl, hdelta, by simp⟩⟩
      have := AtNew.start A Q b (0 : Fin n → K) (vec n (Linalg.zero n arr.x 1 s'.mem) arr.p)
      rw [map_zero, sub_zero] at this
      rw [ih3]
      simpa [steps, directions, residuals] using this
    · -- restart
      simp only [reduceCtorEq, if_false] at ih
      obtain ⟨⟨rfl, ih2, ih3⟩, -⟩ := ih
      obtain ⟨n0, n1⟩ := Linalg.nrm2_spec hsqrt (n := n) (x := arr.x) (incx := 1) le_rfl s'.mem
      have n2 : Linalg.nrm2 n arr.x 1 s'.mem * Linalg.nrm2 n arr.x 1 s'.mem = x0 ⬝ᵥ x0 := by
        rw [n1, ← ih3, ← hx]
        simp only [Linalg.slot_one, Int.toNat_natCast]
        rw [Finset.sum_range]
        rfl
      rw [L.size] at hc
      generalize Linalg.nrm2 n arr.x 1 s'.mem = xn at *
      by_cases h1 : xn ≥ delta
      · rw [if_pos h1] at hc
        obtain rfl := Option.some.inj hc
        unfold GoodTr
        rw [if_pos rfl]
        refine ⟨rfl, ?_⟩
        dsimp only
        by_cases h2 : xn > delta
        · rw [if_pos h2, vec_scal, smul_dotProduct, dotProduct_smul, hx, ih3, ← n2]
          have : xn ≠ 0 := (hdelta.trans h2).ne'
          simp only [smul_eq_mul]
          field_simp
        · rw [if_neg h2, hx, ih3, ← n2, le_antisymm (not_lt.1 h2) h1]
      · rw [if_neg h1] at hc
        obtain rfl := Option.some.inj hc
        obtain ⟨l1, l2, l3⟩ := log_other (n := n) (arr := arr) (log := []) (s := s) (by unfold Stepping; simp [e])
        unfold GoodTr Good
        dsimp only
        simp only [reduceCtorEq, if_false]
        rw [l1, l2, l3]
        have hz : ∀ p, ¬Within n arr.p p → Linalg.copy n arr.x 1 arr.p 1 s'.mem p = s'.mem p := fun p hp => copy_frame hp _
        rw [vec_copy L.px.symm, vec_frame L.px.symm hz, vec_frame L.pr.symm hz, hr, hx, ih2, ih3]
        exact ⟨Or.inl ⟨by simp, by simp [steps], by simp [directions], by simp [residuals], trivial, trivial, rfl, rfl, rfl⟩,
          fun h => h.elim, fun _ _ => ⟨n0, not_le.1 h1, n2⟩⟩
    · -- newx
      simp only [reduceCtorEq, if_false] at ih
      obtain ⟨⟨hl, S, h⟩, -, h4⟩ := ih
      replace h4 := h4 (by simp) (by simp)
      rcases hz : arr.z with _ | z <;> rw [hz] at hc <;> dsimp only at hc <;> obtain rfl := Option.some.inj hc
      · refine goodTr_direction L hA hQ L.pr.symm h (by omega) (by unfold Stepping; simp [e]) (by rw [hrho]) hx hr hp ?_ (by rw [hrho]; exact h4)
        rw [hr, hid hz]; rfl
      · obtain ⟨l1, l2, l3⟩ := log_other (n := n) (arr := arr) (log := log) (s := s) (by unfold Stepping; simp [e])
        unfold GoodTr Good
        dsimp only
        simp only [reduceCtorEq, if_false]
        rw [l1, l2, l3, hx, hr, hp, hrho]
        exact ⟨⟨by rw [List.length_cons]; omega, by simp [hz], S, h⟩, fun h => h.elim, fun _ _ => h4⟩
    · -- precond
      simp only [reduceCtorEq, if_false] at ih
      obtain ⟨⟨hl, hz, S, h⟩, -, h4⟩ := ih
      replace h4 := h4 (by simp) (by simp)
      rcases hz' : arr.z with _ | z
      · exact absurd hz' hz
      rw [hz'] at hc
      obtain rfl := Option.some.inj hc
      exact goodTr_direction L hA hQ (L.zp z hz') h hl (by unfold Stepping; simp [e]) (by rw [hrho]) hx hr hp (sv.precond e z hz') (by rw [hrho]; exact h4)
    · -- ap
      simp only [reduceCtorEq, if_false] at ih
      obtain ⟨ih, -, h4⟩ := ih
      replace h4 := h4 (by simp) (by simp)
      have hq := sv.ap e
      rcases ih with ⟨hl, h1, h2, h3, h4', h5, h6, h7, h8⟩ | ⟨hl, S, h⟩
      · rw [hrho, h5, if_neg (lt_irrefl _)] at hc
        obtain rfl := Option.some.inj hc
        obtain ⟨l1, l2, l3⟩ := log_other (n := n) (arr := arr) (log := log) (s := s) (by unfold Stepping; simp [h5])
        obtain ⟨v1, v2⟩ := vec_loop (n := n) (Or.inr L.rq.symm) (fun a b : K => b - a) s'.mem
        unfold GoodTr Good
        dsimp only
        simp only [reduceCtorEq, if_false]
        rw [l1, l2, l3, h1, h2, h3, h4', L.size]
        have v3 : vec n (forUp 0 n 1 (fun i m => put m (arr.r + i) (m (arr.r + i) - m (arr.q + i))) s'.mem) arr.r = b - A x0 := by
          rw [← h8, ← h6, ← hq, ← hr]
          funext i
          exact v1 i
        rw [v3, vec_frame L.xr v2, vec_frame L.pr v2, hx, hp, h6, h7]
        refine ⟨⟨by rw [List.length_cons]; omega, ⊥, AtNew.start A Q b x0 x0⟩, fun h => h.elim, fun _ _ => ?_⟩
        rw [h7] at h4
        exact h4
      · have hstep : Stepping s := ⟨e, h.pos⟩
        have hstep' : Stepping s' := ⟨hst.trans e, hrho ▸ h.pos⟩
        obtain ⟨v1, v2, v3, v4, v5, v6, v7, v8, v9, v10⟩ := trcg_ap_view hsqrt L hc0 hstep' (hp ▸ h.ne_zero)
          (by rw [hrho, hx]; exact h4.2.2) (by rw [hrho]; exact h4.1) (by rw [hrho]; exact h4.2.1)
        rw [hp, hq, hx, hr, hrho] at *
        rcases v1 with ⟨v11, v12⟩ | ⟨v11, v12⟩
        · unfold GoodTr Good
          rw [v11]
          dsimp only
          simp only [reduceCtorEq, if_false]
          obtain ⟨l1, l2, l3⟩ := log_step (n := n) (arr := arr) (log := log) hstep
          refine ⟨⟨by rw [l1, List.length_cons]; omega, S ⊔ Submodule.span K {vec n s.mem arr.p}, ?_⟩, fun h => h.elim, fun _ _ => ⟨v8, v12, v9⟩⟩
          rw [l1, l2, l3, v3, v5, v6, v7]
          rcases v10 with ⟨v13, v14⟩ | ⟨v13, -⟩
          · exact h.step hA v13 v14
          · rw [v11] at v13; cases v13
        · unfold GoodTr
          rw [if_pos v11]
          exact ⟨v12, by rw [← v9, v12]⟩
    · -- finish
      simp only [reduceCtorEq, if_false] at ih
      obtain rfl := Option.some.inj hc
      obtain ⟨l1, l2, l3⟩ := log_other (n := n) (arr := arr) (log := log) (s := s) (by unfold Stepping; simp [e])
      unfold GoodTr Good
      rw [hst, e]
      dsimp only
      simp only [reduceCtorEq, if_false]
      rw [l1, l2, l3, hx, hr, hp, hrho]
      exact ih
    · -- nonConvex
      simp only [reduceCtorEq, if_false] at ih
      obtain rfl := Option.some.inj hc
      unfold GoodTr Good
      rw [hst, e]
      dsimp only
      simp only [reduceCtorEq, if_false]
      rw [hx, hr, hp, hrho]
      exact ih
    · -- truncated
      simp only [if_true] at ih
      obtain rfl := Option.some.inj hc
      unfold GoodTr
      rw [hst, e]
      simp only [if_true]
      rw [hx, hrho]
      exact ih
    · simp at ih

end
end Opk.Lcg
