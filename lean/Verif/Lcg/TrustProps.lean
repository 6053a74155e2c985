import Verif.Lcg.Trust
/-!
# C40: statements about the truncated conjugate gradients
-/
set_option linter.unusedSectionVars false
set_option linter.unusedSimpArgs false
namespace Opk.Lcg
open Linalg (Mem put forUp slot)

variable {K : Type} [Field K] [LinearOrder K] [IsStrictOrderedRing K] {n : ℕ}
variable [CMath K] [ExactMath K] (hsqrt : ∀ a : K, 0 ≤ a → 0 ≤ CMath.sqrt a ∧ CMath.sqrt a * CMath.sqrt a = a)
variable {arr : Arrays} {delta : K}
variable {A Q : (Fin n → K) →ₗ[K] (Fin n → K)} {b x0 : Fin n → K} {log : List (Cg K)} {s t : Cg K}
include hsqrt

/-- C40: after each call, `rho[4]` is the Euclidean norm of `x`, which is at most `delta`, and equal to `delta` exactly when the
state is `OPK_CG_TRUNCATED`; there is never an error nor undefined behaviour.  `A` may be indefinite. -/
theorem trcg_region (L : Layout n arr) (hA : Symmetric A) (hQ : Symmetric Q) (hid : arr.z = none → Q = LinearMap.id) (hdelta : 0 < delta)
    (h : Session n arr A Q b x0 (trcg arr delta) log s) (h1 : s.state ≠ .start) (h2 : s.state ≠ .restart) :
    0 ≤ s.rho.r4 ∧ s.rho.r4 * s.rho.r4 = vec n s.mem arr.x ⬝ᵥ vec n s.mem arr.x ∧ s.rho.r4 ≤ delta ∧
    (s.rho.r4 = delta ↔ s.state = .truncated) ∧ s.state ≠ .error ∧ (∀ v, s.state ≠ .other v) ∧
    ∀ s', Serve n arr A Q s s' → trcg arr delta s' ≠ none := by
  have hg := goodTr hsqrt L hA hQ hid hdelta h
  have hub : ∀ s', Serve n arr A Q s s' → trcg arr delta s' ≠ none := by
    intro s' sv hn
    obtain ⟨-, u1, u2⟩ := (trcg_protocol arr delta s').1.1 hn
    unfold GoodTr Good at hg
    rw [← sv.state, u1] at hg
    simp only [reduceCtorEq, if_false] at hg
    exact hg.1.2.1 u2
  unfold GoodTr at hg
  by_cases ht : s.state = .truncated
  · rw [if_pos ht] at hg
    refine ⟨hg.1 ▸ hdelta.le, by rw [hg.2, hg.1], hg.1.le, ⟨fun _ => ht, fun _ => hg.1⟩, by simp [ht], by simp [ht], hub⟩
  · rw [if_neg ht] at hg
    obtain ⟨h3, h4, h5⟩ := hg.2.2 h1 h2
    refine ⟨h3, h5, h4.le, ⟨fun h => absurd h h4.ne, fun h => absurd h ht⟩, ?_, ?_, hub⟩
    · intro e; have := hg.1; unfold Good at this; rw [e] at this; exact this
    · intro v e; have := hg.1; unfold Good at this; rw [e] at this; exact this

/-- C40: `r = b - A.x` whenever the vectors are meaningful and no step has been truncated; `rho[1] = r'.Q.r`. -/
theorem trcg_residuals (L : Layout n arr) (hA : Symmetric A) (hQ : Symmetric Q) (hid : arr.z = none → Q = LinearMap.id) (hdelta : 0 < delta)
    (h : Session n arr A Q b x0 (trcg arr delta) log s) :
    (Ready s → vec n s.mem arr.r = b - A (vec n s.mem arr.x)) ∧
    (s.state ∈ [State.finish, .nonConvex] ∨ Stepping s → s.rho.r1 = vec n s.mem arr.r ⬝ᵥ Q (vec n s.mem arr.r)) := by
  have hg := goodTr hsqrt L hA hQ hid hdelta h
  unfold GoodTr Good at hg
  unfold Ready Stepping
  rcases e : s.state with _ | _ | _ | _ | _ | _ | _ | _ | _ | v <;> rw [e] at hg <;> simp only [reduceCtorEq, if_false, if_true] at hg
  · exact hg.1.elim
  · simp
  · simp
  · obtain ⟨⟨-, S, hg⟩, -⟩ := hg; simp [hg.res.symm]
  · obtain ⟨⟨-, -, S, hg⟩, -⟩ := hg; simp [hg.res.symm]
  · rcases hg.1 with ⟨-, -, -, -, h1, h2, h3, h4, h5⟩ | ⟨-, S, hg⟩
    · simp [h2, h3, h4, h5]
    · simp [hg.res.symm, hg.rho.symm, hg.pos]
  · obtain ⟨⟨h1, -, S, hg⟩, -⟩ := hg; simp [hg.res.symm, h1.symm]
  · obtain ⟨⟨h1, h2, -⟩, -⟩ := hg; simp [h2.symm, h1.symm]
  · simp
  · exact hg.1.elim

/-- The directions are conjugate and the residuals orthogonal, as for `opk_dplcg`. -/
theorem trcg_conjugate (L : Layout n arr) (hA : Symmetric A) (hQ : Symmetric Q) (hid : arr.z = none → Q = LinearMap.id) (hdelta : 0 < delta)
    (h : Session n arr A Q b x0 (trcg arr delta) log s) (hs : Stepping s) :
    vec n s.mem arr.p ≠ 0 ∧ vec n s.mem arr.r ⬝ᵥ vec n s.mem arr.p = s.rho.r1 ∧
    ∀ e ∈ log, Stepping e →
      vec n s.mem arr.p ⬝ᵥ A (vec n e.mem arr.p) = 0 ∧ vec n s.mem arr.r ⬝ᵥ Q (vec n e.mem arr.r) = 0 := by
  have hg := goodTr hsqrt L hA hQ hid hdelta h
  unfold GoodTr Good at hg
  rw [hs.1] at hg
  simp only [reduceCtorEq, if_false] at hg
  rcases hg.1 with ⟨-, -, -, -, h1, h2, -⟩ | ⟨-, S, hg⟩
  · exact absurd hs.2 (by rw [h2]; exact lt_irrefl _)
  · refine ⟨hg.ne_zero, hg.rp, fun e he hes => ?_⟩
    exact ⟨hg.conj _ (hg.dirs _ ⟨e, he, hes, rfl⟩), hg.orth _ (hg.resid _ ⟨e, he, hes, rfl⟩)⟩

/-- C40: a step moves `x` by `rho[2]*p` with `rho[2] > 0`, updates the residuals accordingly (they remain equal to `b - A.x`, even when the step
is truncated), strictly decreases the quadratic, and reaches the minimum of the quadratic on the part of the half
line which is in the region. -/
theorem trcg_step (L : Layout n arr) (hA : Symmetric A) (hQ : Symmetric Q) (hid : arr.z = none → Q = LinearMap.id) (hdelta : 0 < delta)
    (h : Session n arr A Q b x0 (trcg arr delta) log s) (hs : Stepping s) {s' : Cg K} (sv : Serve n arr A Q s s')
    (hc : trcg arr delta s' = some t) :
    (t.state = .newx ∨ t.state = .truncated) ∧ 0 < t.rho.r2 ∧
    vec n t.mem arr.p = vec n s.mem arr.p ∧ vec n t.mem arr.x = vec n s.mem arr.x + t.rho.r2 • vec n s.mem arr.p ∧
    vec n t.mem arr.r = b - A (vec n t.mem arr.x) ∧
    quad A b (vec n t.mem arr.x) < quad A b (vec n s.mem arr.x) ∧
    ∀ a : K, 0 ≤ a → (vec n s.mem arr.x + a • vec n s.mem arr.p) ⬝ᵥ (vec n s.mem arr.x + a • vec n s.mem arr.p) ≤ delta * delta →
      quad A b (vec n t.mem arr.x) ≤ quad A b (vec n s.mem arr.x + a • vec n s.mem arr.p) := by
  obtain ⟨c1, c2, -⟩ := trcg_conjugate hsqrt L hA hQ hid hdelta h hs
  have hres := (trcg_residuals hsqrt L hA hQ hid hdelta h).1 (Or.inr hs)
  obtain ⟨g1, g2, g3, g4, -⟩ := trcg_region hsqrt L hA hQ hid hdelta h (by simp [hs.1]) (by simp [hs.1])
  have g5 : s.rho.r4 < delta := lt_of_le_of_ne g3 fun he => by
    have := g4.1 he; rw [hs.1] at this; cases this
  have hstep' : Stepping s' := ⟨sv.state.trans hs.1, sv.rho ▸ hs.2⟩
  obtain ⟨v1, v2, v3, v4, v5, v6, v7, v8, v9, v10⟩ := trcg_ap_view hsqrt L hc hstep' (sv.p ▸ c1)
    (by rw [sv.rho, sv.x]; exact g2) (by rw [sv.rho]; exact g1) (by rw [sv.rho]; exact g5)
  rw [sv.p, sv.ap hs.1, sv.x, sv.r, sv.rho] at *
  have along : ∀ a : K, quad A b (vec n s.mem arr.x + a • vec n s.mem arr.p) = quad A b (vec n s.mem arr.x)
      - a * s.rho.r1 + a * a * (vec n s.mem arr.p ⬝ᵥ A (vec n s.mem arr.p)) / 2 := by
    intro a
    rw [quad_add hA, ← hres, dotProduct_smul, c2, map_smul, dotProduct_smul, smul_dotProduct]
    simp only [smul_eq_mul]
    ring
  have hpp := dot_self_pos c1
  have hr1 := hs.2
  have hle : t.rho.r4 ≤ delta := by rcases v1 with h | h <;> [exact h.2.le; exact h.2.le]
  have hrr : vec n t.mem arr.r = b - A (vec n t.mem arr.x) := by
    rw [v6, v5, map_add, map_smul, hres]; abel
  rw [v5] at v9 ⊢
  rw [v5] at hrr
  simp only [norm_line] at v9 v10 ⊢
  simp only [along]
  have hx0 : vec n s.mem arr.x ⬝ᵥ vec n s.mem arr.x < delta * delta := by
    rw [← g2]; exact mul_self_lt_mul_self g1 g5
  generalize t.rho.r2 = α at *
  generalize vec n s.mem arr.p ⬝ᵥ A (vec n s.mem arr.p) = d at *
  generalize vec n s.mem arr.p ⬝ᵥ vec n s.mem arr.p = a2 at *
  generalize vec n s.mem arr.x ⬝ᵥ vec n s.mem arr.p = a1 at *
  generalize vec n s.mem arr.x ⬝ᵥ vec n s.mem arr.x = a0 at *
  generalize s.rho.r1 = ρ at *
  have hd : α * d ≤ ρ := by
    rcases v10 with ⟨hd0, he⟩ | ⟨hst, hd0 | ⟨hd0, ho⟩⟩
    · rw [he, div_mul_cancel₀ _ hd0.ne']
    · have := mul_nonpos_of_nonneg_of_nonpos v4.le hd0
      linarith
    · have h4 : t.rho.r4 = delta := by
        rcases v1 with h | h
        · rw [hst] at h; cases h.1
        · exact h.2
      rw [h4] at v9
      have hopos : 0 < ρ / d := div_pos hr1 hd0
      have hop : ρ / d * d = ρ := div_mul_cancel₀ _ hd0.ne'
      generalize ρ / d = o at *
      by_contra hcon
      have hlt : o < α := by
        by_contra hn
        have := mul_le_mul_of_nonneg_right (not_lt.1 hn) hd0.le
        exact hcon (by linarith)
      have e1 : α * (delta * delta) < α * (a0 + 2 * o * a1 + o * o * a2) := mul_lt_mul_of_pos_left ho v4
      have e2 : α * (a0 + 2 * o * a1 + o * o * a2) = o * (a0 + 2 * α * a1 + α * α * a2) + (α - o) * a0 - α * o * (α - o) * a2 := by ring
      rw [e2, ← v9] at e1
      have e3 : 0 < α * o * (α - o) * a2 := by
        have : 0 < α - o := by linarith
        positivity
      have e4 : (α - o) * a0 < (α - o) * (delta * delta) := mul_lt_mul_of_pos_left hx0 (by linarith)
      linarith
  refine ⟨?_, v4, v7, trivial, hrr, ?_, fun a ha hnorm => ?_⟩
  · rcases v1 with h | h <;> [exact Or.inl h.1; exact Or.inr h.1]
  · have e1 : α * (α * d) ≤ α * ρ := mul_le_mul_of_nonneg_left hd v4.le
    have e2 : 0 < α * ρ := mul_pos v4 hr1
    have e3 : α * α * d = α * (α * d) := by ring
    linarith
  · rcases v10 with ⟨hd0, he⟩ | ⟨hst, -⟩
    · have e1 : α * d = ρ := by rw [he, div_mul_cancel₀ _ hd0.ne']
      have e2 : (-a * ρ + a * a * d / 2) - (-α * ρ + α * α * d / 2) = d / 2 * ((a - α) * (a - α)) := by rw [← e1]; ring
      have e3 : 0 ≤ d / 2 * ((a - α) * (a - α)) := mul_nonneg (by linarith) (mul_self_nonneg _)
      linarith
    · have h4 : t.rho.r4 = delta := by
        rcases v1 with h | h
        · rw [hst] at h; cases h.1
        · exact h.2
      rw [h4] at v9
      -- beyond `α` the norm is too large
      have hle : a ≤ α := by
        by_contra hcon
        have hlt := not_le.1 hcon
        have e1 : α * (a0 + 2 * a * a1 + a * a * a2) ≤ α * (delta * delta) := mul_le_mul_of_nonneg_left hnorm v4.le
        have e2 : α * (a0 + 2 * a * a1 + a * a * a2) = a * (a0 + 2 * α * a1 + α * α * a2) - (a - α) * a0 + α * a * (a - α) * a2 := by ring
        rw [e2, ← v9] at e1
        have e3 : 0 < α * a * (a - α) * a2 := by
          have : 0 < a - α := by linarith
          have : 0 < a := by linarith
          positivity
        have e4 : (a - α) * a0 < (a - α) * (delta * delta) := mul_lt_mul_of_pos_left hx0 (by linarith)
        linarith
      -- and the quadratic decreases up to `α`
      have e5 : (a + α) * d ≤ 2 * ρ := by
        by_cases hd0 : 0 ≤ d
        · have := mul_le_mul_of_nonneg_right (show a + α ≤ 2 * α by linarith) hd0
          linarith
        · have : (a + α) * d ≤ 0 := mul_nonpos_of_nonneg_of_nonpos (by linarith) (not_le.1 hd0).le
          linarith
      have e6 : (-a * ρ + a * a * d / 2) - (-α * ρ + α * α * d / 2) = (α - a) * (2 * ρ - (a + α) * d) / 2 := by ring
      have e7 : 0 ≤ (α - a) * (2 * ρ - (a + α) * d) / 2 := by
        have := mul_nonneg (show 0 ≤ α - a by linarith) (show 0 ≤ 2 * ρ - (a + α) * d by linarith)
        linarith
      linarith

/-- C40: no more than `n` steps and `3*n + 4` calls are needed; when the algorithm finishes, the equations
are solved inside the region (positive definite preconditioner). -/
theorem trcg_terminates (L : Layout n arr) (hA : Symmetric A) (hQ : Symmetric Q) (hid : arr.z = none → Q = LinearMap.id) (hdelta : 0 < delta)
    (h : Session n arr A Q b x0 (trcg arr delta) log s) :
    (3 * n + 4 ≤ log.length → s.state = .finish ∨ s.state = .nonConvex ∨ s.state = .truncated) ∧
    (Positive Q → s.state ≠ .nonConvex ∧ (s.state = .finish →
      A (vec n s.mem arr.x) = b ∧ vec n s.mem arr.x ⬝ᵥ vec n s.mem arr.x < delta * delta)) ∧
    (s.state = .nonConvex → vec n s.mem arr.r ⬝ᵥ Q (vec n s.mem arr.r) < 0) := by
  have hg := goodTr hsqrt L hA hQ hid hdelta h
  have hreg := trcg_region hsqrt L hA hQ hid hdelta h
  have hres := trcg_residuals hsqrt L hA hQ hid hdelta h
  have key : ∀ {k D R S x r p rho0}, AtNew A Q b x0 k D R S x r p rho0 → k ≤ n := by
    intro k D R S x r p rho0 h
    have := Submodule.finrank_le S
    rw [h.rank, Module.finrank_fin_fun] at this
    exact this
  have hnc : s.state = .nonConvex → vec n s.mem arr.r ⬝ᵥ Q (vec n s.mem arr.r) < 0 := by
    intro e
    rw [← hres.2 (Or.inl (by simp [e]))]
    unfold GoodTr at hg
    rw [if_neg (by simp [e])] at hg
    exact hg.2.1 e
  refine ⟨fun hl => ?_, fun pQ => ⟨fun e => ?_, fun e => ?_⟩, hnc⟩
  · unfold GoodTr Good at hg
    rcases e : s.state with _ | _ | _ | _ | _ | _ | _ | _ | _ | v <;> rw [e] at hg <;> simp only [reduceCtorEq, if_false, if_true] at hg
    · exact hg.1.elim
    · obtain ⟨⟨rfl, -⟩, -⟩ := hg; simp at hl
    · obtain ⟨⟨rfl, -⟩, -⟩ := hg; simp at hl
    · obtain ⟨⟨h1, S, hg⟩, -⟩ := hg
      have := key hg
      omega
    · obtain ⟨⟨h1, -, S, hg⟩, -⟩ := hg
      have := key hg
      omega
    · rcases hg.1 with ⟨h1, h2, -⟩ | ⟨h1, S, hg⟩
      · omega
      · have := hg.lt
        omega
    · simp
    · simp
    · simp
    · exact hg.1.elim
  · exact absurd (pQ.nonneg _) (not_le.2 (hnc e))
  · obtain ⟨r1, r2, r3, r4, -⟩ := hreg (by simp [e]) (by simp [e])
    have hr4 : s.rho.r4 < delta := lt_of_le_of_ne r3 fun he => by
      have := r4.1 he; rw [e] at this; cases this
    refine ⟨?_, r2 ▸ mul_self_lt_mul_self r1 hr4⟩
    unfold GoodTr Good at hg
    rw [e] at hg
    simp only [reduceCtorEq, if_false] at hg
    obtain ⟨⟨h1, h2, S, hg⟩, -⟩ := hg
    have : vec n s.mem arr.r = 0 := by
      by_contra hr
      exact (pQ _ hr).ne' (h1 ▸ h2)
    rw [hg.res] at this
    exact (sub_eq_zero.1 this).symm

omit hsqrt in
/-- Directions make an acute angle with the iterate: what is needed for `trcg_monotone`. -/
theorem trcg_acute (hsqrt : ∀ a : K, 0 ≤ a → 0 ≤ CMath.sqrt a ∧ CMath.sqrt a * CMath.sqrt a = a) (L : Layout n arr) (hA : Symmetric A)
    (hz : arr.z = none) (hdelta : 0 < delta) (h : Session n arr A LinearMap.id b 0 (trcg arr delta) log s) :
    s.state ∈ [State.newx, .precond] ∨ Stepping s → 0 ≤ vec n s.mem arr.x ⬝ᵥ vec n s.mem arr.p := by
  have hI : Symmetric (LinearMap.id : (Fin n → K) →ₗ[K] (Fin n → K)) := fun u v => rfl
  induction h with
  | start s h1 => simp [h1, Stepping]
  | restart s h1 => simp [h1, Stepping]
  | next log s s' t hses sv hc ih =>
    have hg := goodTr hsqrt L hA hI (fun _ => rfl) hdelta hses
    have hst := sv.state
    have hx := sv.x
    have hr := sv.r
    have hp := sv.p
    have hrho := sv.rho
    have hc0 := hc
    unfold trcg at hc
    rw [hst, if_neg (not_le.2 hdelta)] at hc
    have hal := (trcg_protocol arr delta s').2 t hc0
    rw [if_pos hdelta, hst] at hal
    intro hready
    rcases e : s.state with _ | _ | _ | _ | _ | _ | _ | _ | _ | v <;> rw [e] at hc hal <;> dsimp only at hc
    · simp [AllowedTr] at hal; simp [hal, Stepping] at hready
    · -- start
      obtain rfl := Option.some.inj hc
      dsimp only
      rw [L.size, vec_zero]
      simp
    · -- restart
      rcases hal with h | h
      · have hx0 : vec n s'.mem arr.x = 0 := by
          unfold GoodTr Good at hg
          rw [e] at hg
          simp only [reduceCtorEq, if_false] at hg
          rw [hx]; exact hg.1.2.2
        by_cases h1 : Linalg.nrm2 arr.n arr.x 1 s'.mem ≥ delta
        · rw [if_pos h1] at hc
          obtain rfl := Option.some.inj hc
          cases h
        · rw [if_neg h1] at hc
          obtain rfl := Option.some.inj hc
          have hz : ∀ p, ¬Within n arr.p p → Linalg.copy n arr.x 1 arr.p 1 s'.mem p = s'.mem p := fun p hp => copy_frame hp _
          dsimp only
          rw [L.size, vec_frame L.px.symm hz, hx0]
          simp
      · simp [h, Stepping] at hready
    · -- newx
      rw [hz] at hc
      obtain rfl := Option.some.inj hc
      have hi := ih (by simp [e])
      unfold GoodTr Good at hg
      rw [e] at hg
      simp only [reduceCtorEq, if_false] at hg
      obtain ⟨⟨-, S, hn⟩, -⟩ := hg
      obtain ⟨e1, e2, e3, e4, e5, e6, e7, e8, e9, e10, e11⟩ := direction_view L L.pr.symm s'
      generalize direction arr arr.r s' = t at *
      have hxr : vec n s.mem arr.x ⬝ᵥ vec n s.mem arr.r = 0 := by
        have := hn.orth _ hn.mem
        rwa [sub_zero, dotProduct_comm] at this
      by_cases hd : 0 < vec n s'.mem arr.r ⬝ᵥ vec n s'.mem arr.r
      · rw [e1, (e10 hd).1, hx, hr, hp]
        split_ifs with h0
        · rw [dotProduct_add, hxr, dotProduct_smul, zero_add]
          rw [hr] at hd
          exact mul_nonneg (div_pos hd h0).le hi
        · rw [hxr]
      · rw [e1, (e11 hd).1, hx, hp]
        exact hi
    · -- precond
      rw [hz] at hc; cases hc
    · -- ap
      by_cases hs : Stepping s
      · have hi := ih (Or.inr hs)
        obtain ⟨-, s2, s3, s4, -⟩ := trcg_step hsqrt L hA hI (fun _ => rfl) hdelta hses hs sv hc0
        rw [s3, s4, add_dotProduct, smul_dotProduct]
        exact add_nonneg hi (mul_nonneg s2.le (dot_self_nonneg _))
      · have hr1 : ¬s'.rho.r1 > 0 := fun h => hs ⟨e, hrho ▸ h⟩
        rw [if_neg hr1] at hc
        obtain rfl := Option.some.inj hc
        have hx0 : vec n s'.mem arr.x = 0 := by
          unfold GoodTr Good at hg
          rw [e] at hg
          simp only [reduceCtorEq, if_false] at hg
          rw [hx]
          rcases hg.1 with ⟨-, -, -, -, -, -, -, h7, -⟩ | ⟨-, S, hg⟩
          · exact h7
          · exact absurd hg.pos (hrho ▸ hr1)
        dsimp only
        rw [L.size]
        obtain ⟨v1, v2⟩ := vec_loop (n := n) (Or.inr L.rq.symm) (fun a b : K => b - a) s'.mem
        rw [vec_frame L.xr v2, hx0]
        simp
    · simp [AllowedTr] at hal; simp [hal, Stepping] at hready
    · simp [AllowedTr] at hal; simp [hal, Stepping] at hready
    · simp [AllowedTr] at hal; simp [hal, Stepping] at hready
    · simp [AllowedTr] at hal; simp [hal, Stepping] at hready

/-- C40 (Steihaug): without preconditioner and started from `x = 0`, the norm of `x` strictly increases at each step;
so once the border of the region is crossed the unconstrained iterates would never come back. -/
theorem trcg_monotone (L : Layout n arr) (hA : Symmetric A) (hz : arr.z = none) (hdelta : 0 < delta)
    (h : Session n arr A LinearMap.id b 0 (trcg arr delta) log s) (hs : Stepping s) {s' : Cg K} (sv : Serve n arr A LinearMap.id s s')
    (hc : trcg arr delta s' = some t) :
    vec n s.mem arr.x ⬝ᵥ vec n s.mem arr.x < vec n t.mem arr.x ⬝ᵥ vec n t.mem arr.x := by
  have hI : Symmetric (LinearMap.id : (Fin n → K) →ₗ[K] (Fin n → K)) := fun u v => rfl
  have hi := trcg_acute hsqrt L hA hz hdelta h (Or.inr hs)
  obtain ⟨c1, -⟩ := trcg_conjugate hsqrt L hA hI (fun _ => rfl) hdelta h hs
  obtain ⟨-, s2, s3, s4, -⟩ := trcg_step hsqrt L hA hI (fun _ => rfl) hdelta h hs sv hc
  rw [s4, norm_line]
  have h1 := mul_pos (mul_pos s2 s2) (dot_self_pos c1)
  have h2 := mul_nonneg s2.le hi
  linarith

/-- C40, restarting with `x` out of the region (or on its border): the state is `OPK_CG_TRUNCATED` and `x` is rescaled to have norm `delta`,
but the residuals are not computed: `r` still stores the right hand side `b`. -/
theorem trcg_restart_outside (L : Layout n arr) (hdelta : 0 < delta) (hst : s.state = .restart)
    (hx : delta * delta ≤ vec n s.mem arr.x ⬝ᵥ vec n s.mem arr.x) :
    ∃ t, ∃ c : K, trcg arr delta s = some t ∧ t.state = .truncated ∧ vec n t.mem arr.x = c • vec n s.mem arr.x ∧ 0 < c ∧ c ≤ 1 ∧
      vec n t.mem arr.x ⬝ᵥ vec n t.mem arr.x = delta * delta ∧ vec n t.mem arr.r = vec n s.mem arr.r := by
  obtain ⟨n0, n1⟩ := Linalg.nrm2_spec hsqrt (n := n) (x := arr.x) (incx := 1) le_rfl s.mem
  have n2 : Linalg.nrm2 n arr.x 1 s.mem * Linalg.nrm2 n arr.x 1 s.mem = vec n s.mem arr.x ⬝ᵥ vec n s.mem arr.x := by
    rw [n1]
    simp only [Linalg.slot_one, Int.toNat_natCast]
    rw [Finset.sum_range]
    rfl
  have h1 : Linalg.nrm2 n arr.x 1 s.mem ≥ delta := by
    rw [← n2] at hx
    by_contra hcon
    exact absurd hx (not_le.2 (mul_self_lt_mul_self n0 (not_le.1 hcon)))
  unfold trcg
  rw [if_neg (not_le.2 hdelta), hst, L.size]
  dsimp only
  rw [if_pos h1]
  clear n1
  generalize Linalg.nrm2 n arr.x 1 s.mem = xn at *
  by_cases h2 : xn > delta
  · refine ⟨_, delta / xn, rfl, rfl, ?_, div_pos hdelta (hdelta.trans h2), (div_le_one (hdelta.trans h2)).2 h2.le, ?_, ?_⟩
    · dsimp only; rw [if_pos h2, vec_scal]
    · dsimp only
      rw [if_pos h2, vec_scal, smul_dotProduct, dotProduct_smul, ← n2]
      have : xn ≠ 0 := (hdelta.trans h2).ne'
      simp only [smul_eq_mul]
      field_simp
    · dsimp only
      rw [if_pos h2]
      exact vec_frame L.xr.symm fun p hp => scal_out hp _
  · refine ⟨_, 1, rfl, rfl, ?_, one_pos, le_rfl, ?_, ?_⟩
    · dsimp only; rw [if_neg h2, one_smul]
    · dsimp only; rw [if_neg h2, ← n2, le_antisymm (not_lt.1 h2) h1]
    · dsimp only; rw [if_neg h2]

end Opk.Lcg
