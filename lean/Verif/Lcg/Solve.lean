import Verif.Lcg.Vectors
/-!
# C38, C39: the linear conjugate gradients solve the equations

In exact arithmetic, for any number of variables `n`, any layout of distinct arrays and any caller which
computes what it is asked for.
-/
set_option linter.unusedSectionVars false
set_option linter.unusedSimpArgs false
namespace Opk.Lcg
open Linalg (Mem put forUp slot)

variable {K : Type} [Field K] [LinearOrder K] [IsStrictOrderedRing K] {n : ℕ}
variable {arr : Arrays} {A Q : (Fin n → K) →ₗ[K] (Fin n → K)} {b x0 : Fin n → K} {log : List (Cg K)} {s t : Cg K}

/-- The search direction. -/
theorem good_direction (L : Layout n arr) (hA : Symmetric A) (hQ : Symmetric Q) {z : Int} (hz : Apart n z arr.p)
    {S : Submodule K (Fin n → K)} {rho0 : K} {x r p : Fin n → K}
    (h : AtNew A Q b x0 (steps log) (directions n arr log) (residuals n arr log) S x r p rho0)
    (hlen : log.length ≤ 3 * steps log + 3) (hs : ¬Stepping s) {s' : Cg K} (h0 : s'.rho.r0 = rho0)
    (hx : vec n s'.mem arr.x = x) (hr : vec n s'.mem arr.r = r) (hp : vec n s'.mem arr.p = p) (hzr : vec n s'.mem z = Q r) :
    Good n arr A Q b x0 (s :: log) (direction arr z s') := by
  obtain ⟨e1, e2, e3, e4, e5, e6, e7, e8, e9, e10, e11⟩ := direction_view L hz s'
  obtain ⟨l1, l2, l3⟩ := log_other (n := n) (arr := arr) (log := log) hs
  rw [hr, hzr] at e3 e7 e8 e9 e10 e11
  generalize direction arr z s' = t at *
  unfold Good
  rcases lt_trichotomy (r ⬝ᵥ Q r) 0 with hd | hd | hd
  · rw [e7.2 hd]
    have hm := (e11 (not_lt.2 hd.le)).1
    dsimp only
    rw [hm, hr, hx, e3]
    exact ⟨rfl, h.res, Or.inl hd⟩
  · rw [e8.2 hd]
    have hm := (e11 (not_lt.2 hd.le)).1
    dsimp only
    rw [hm, hr, hx, hp, e3, e4, h0, l1, l2, l3]
    exact ⟨rfl, hd, S, h⟩
  · rw [e9.2 hd]
    dsimp only
    refine Or.inr ⟨?_, S, ?_⟩
    · rw [l1, List.length_cons]; omega
    · rw [e1, e2, e3, (e10 hd).1, l1, l2, l3, hx, hr, hp, h0]
      exact h.direction hA hQ rfl hd rfl

/-- The invariant of a session. -/
theorem good (L : Layout n arr) (hA : Symmetric A) (hQ : Symmetric Q) (hid : arr.z = none → Q = LinearMap.id)
    (h : Session n arr A Q b x0 (plcg arr) log s) : Good n arr A Q b x0 log s := by
  induction h with
  | start s h1 h2 h3 => unfold Good; rw [h1]; exact ⟨rfl, h2, h3⟩
  | restart s h1 h2 h3 => unfold Good; rw [h1]; exact ⟨rfl, h2, h3⟩
  | next log s s' t _ sv hc ih =>
    have hst := sv.state
    have hx := sv.x
    have hr := sv.r
    have hp := sv.p
    have hrho := sv.rho
    unfold plcg at hc
    unfold Good at ih
    rw [hst] at hc
    rcases e : s.state with _ | _ | _ | _ | _ | _ | _ | _ | _ | v <;> rw [e] at hc ih <;> dsimp only at hc ih
    · -- start
      obtain ⟨rfl, ih2, ih3⟩ := ih
      obtain rfl := Option.some.inj hc
      obtain ⟨l1, l2, l3⟩ := log_other (n := n) (arr := arr) (log := []) (s := s) (by unfold Stepping; simp [e])
      unfold Good
      dsimp only
      rw [l1, l2, l3, L.size]
      refine ⟨by simp [steps], ⊥, ?_⟩
      have hz : ∀ p, ¬Within n arr.x p → Linalg.zero n arr.x 1 s'.mem p = s'.mem p := fun p hp => zero_frame hp _
      rw [vec_zero, vec_frame L.xr.symm hz, hr, ih2]
      have := AtNew.start A Q b (0 : Fin n → K) (vec n (Linalg.zero n arr.x 1 s'.mem) arr.p)
      rw [map_zero, sub_zero] at this
      rw [ih3]
      simpa [steps, directions, residuals] using this
    · -- restart
      obtain ⟨rfl, ih2, ih3⟩ := ih
      obtain rfl := Option.some.inj hc
      obtain ⟨l1, l2, l3⟩ := log_other (n := n) (arr := arr) (log := []) (s := s) (by unfold Stepping; simp [e])
      unfold Good
      dsimp only
      rw [l1, l2, l3, L.size]
      have hz : ∀ p, ¬Within n arr.p p → Linalg.copy n arr.x 1 arr.p 1 s'.mem p = s'.mem p := fun p hp => copy_frame hp _
      rw [vec_copy L.px.symm, vec_frame L.px.symm hz, vec_frame L.pr.symm hz, hr, hx, ih2, ih3]
      exact Or.inl ⟨by simp, by simp [steps], by simp [directions], by simp [residuals], rfl, rfl, rfl, rfl, rfl⟩
    · -- newx
      obtain ⟨hl, S, h⟩ := ih
      rcases hz : arr.z with _ | z <;> rw [hz] at hc <;> dsimp only at hc <;> obtain rfl := Option.some.inj hc
      · refine good_direction L hA hQ L.pr.symm h (by omega) (by unfold Stepping; simp [e]) (by rw [hrho]) hx hr hp ?_
        rw [hr, hid hz]; rfl
      · obtain ⟨l1, l2, l3⟩ := log_other (n := n) (arr := arr) (log := log) (s := s) (by unfold Stepping; simp [e])
        unfold Good
        dsimp only
        rw [l1, l2, l3, hx, hr, hp, hrho]
        exact ⟨by rw [List.length_cons]; omega, by simp [hz], S, h⟩
    · -- precond
      obtain ⟨hl, hz, S, h⟩ := ih
      rcases hz' : arr.z with _ | z
      · exact absurd hz' hz
      rw [hz'] at hc
      obtain rfl := Option.some.inj hc
      exact good_direction L hA hQ (L.zp z hz') h hl (by unfold Stepping; simp [e]) (by rw [hrho]) hx hr hp (sv.precond e z hz')
    · -- ap
      have hq := sv.ap e
      rcases ih with ⟨hl, h1, h2, h3, h4, h5, h6, h7, h8⟩ | ⟨hl, S, h⟩
      · rw [hrho, h5, if_neg (lt_irrefl _)] at hc
        obtain rfl := Option.some.inj hc
        obtain ⟨l1, l2, l3⟩ := log_other (n := n) (arr := arr) (log := log) (s := s) (by unfold Stepping; simp [h5])
        unfold Good
        dsimp only
        rw [l1, l2, l3, h1, h2, h3, h4, L.size]
        refine ⟨by rw [List.length_cons]; omega, ⊥, ?_⟩
        have hz : ∀ p, ¬Within n arr.r p → Linalg.axpy n (-1) arr.q 1 arr.r 1 s'.mem p = s'.mem p := fun p hp => axpy_out hp _
        rw [vec_axpy L.rq.symm, vec_frame L.xr hz, vec_frame L.pr hz, hx, hp, hr, h6, h7, h8, hq, h6, neg_one_smul, ← sub_eq_add_neg]
        exact AtNew.start A Q b x0 x0
      · have hstep : Stepping s := ⟨e, h.pos⟩
        have hd : Linalg.dot arr.n arr.p 1 arr.q 1 s'.mem = vec n s.mem arr.p ⬝ᵥ A (vec n s.mem arr.p) := by
          rw [L.size, dot_vec, hp, hq]
        rw [hrho, if_pos h.pos, hd] at hc
        by_cases hpq : vec n s.mem arr.p ⬝ᵥ A (vec n s.mem arr.p) ≤ 0
        · rw [if_pos hpq] at hc
          obtain rfl := Option.some.inj hc
          unfold Good
          dsimp only
          rw [hx, hr, hp]
          exact ⟨h.rho, h.res, Or.inr ⟨h.pos, h.ne_zero, hpq⟩⟩
        · rw [if_neg hpq] at hc
          have hα : s.rho.r1 / (vec n s.mem arr.p ⬝ᵥ A (vec n s.mem arr.p)) ≠ 0 := (div_pos h.pos (not_le.1 hpq)).ne'
          rw [if_neg hα] at hc
          obtain rfl := Option.some.inj hc
          obtain ⟨l1, l2, l3⟩ := log_step (n := n) (arr := arr) (log := log) hstep
          have hn := h.step hA (not_le.1 hpq) rfl
          unfold Good
          dsimp only
          rw [l1, l2, l3, L.size]
          refine ⟨by rw [List.length_cons]; omega, S ⊔ Submodule.span K {vec n s.mem arr.p}, ?_⟩
          rw [vec_axpy L.rq.symm]
          have f1 := fun (a : K) (m : Mem K) p hp => axpy_out (n := n) (a := a) (x := arr.q) (y := arr.r) (p := p) hp m
          have f2 := fun (a : K) (m : Mem K) p hp => axpy_out (n := n) (a := a) (x := arr.p) (y := arr.x) (p := p) hp m
          rw [vec_frame L.xr (f1 _ _), vec_frame L.pr (f1 _ _), vec_axpy L.px, vec_frame L.px (f2 _ _), vec_frame L.xr.symm (f2 _ _),
            vec_frame L.xq.symm (f2 _ _), hx, hr, hp, hq, neg_smul, ← sub_eq_add_neg]
          exact hn
    · -- finish
      obtain rfl := Option.some.inj hc
      obtain ⟨l1, l2, l3⟩ := log_other (n := n) (arr := arr) (log := log) (s := s) (by unfold Stepping; simp [e])
      unfold Good
      rw [hst, e]
      dsimp only
      rw [l1, l2, l3, hx, hr, hp, hrho]
      exact ih
    · -- nonConvex
      obtain rfl := Option.some.inj hc
      unfold Good
      rw [hst, e]
      dsimp only
      rw [hx, hr, hp, hrho]
      exact ih

/-- The vectors `r` and `x` are meaningful: all states but the initial ones, `OPK_CG_ERROR` and the very first `OPK_CG_AP` after
`OPK_CG_RESTART` (when the residuals are being computed). -/
def Ready (s : Cg K) : Prop := s.state ∈ [State.newx, .precond, .finish, .nonConvex] ∨ Stepping s

/-- C38: `r = b - A.x` whenever the vectors are meaningful, in particular at each `OPK_CG_NEWX`; and
`rho[1] = r'.Q.r` is the squared norm of the (preconditioned) residuals once computed.  Nothing is assumed of
`A` and `Q` but to be symmetric. -/
theorem plcg_residuals (L : Layout n arr) (hA : Symmetric A) (hQ : Symmetric Q) (hid : arr.z = none → Q = LinearMap.id)
    (h : Session n arr A Q b x0 (plcg arr) log s) :
    (Ready s → vec n s.mem arr.r = b - A (vec n s.mem arr.x)) ∧
    (s.state ∈ [State.finish, .nonConvex] ∨ Stepping s → s.rho.r1 = vec n s.mem arr.r ⬝ᵥ Q (vec n s.mem arr.r)) ∧
    (s.state = .ap ∧ ¬Stepping s → vec n s.mem arr.p = x0 ∧ vec n s.mem arr.x = x0 ∧ vec n s.mem arr.r = b) := by
  have hg := good L hA hQ hid h
  unfold Good at hg
  unfold Ready Stepping
  rcases e : s.state with _ | _ | _ | _ | _ | _ | _ | _ | _ | v <;> rw [e] at hg <;> dsimp only at hg
  · simp
  · simp
  · obtain ⟨-, S, hg⟩ := hg; simp [hg.res.symm]
  · obtain ⟨-, -, S, hg⟩ := hg; simp [hg.res.symm]
  · rcases hg with ⟨-, -, -, -, h1, h2, h3, h4, h5⟩ | ⟨-, S, hg⟩
    · simp [h2, h3, h4, h5]
    · simp [hg.res.symm, hg.rho.symm, hg.pos]
  · obtain ⟨h1, -, S, hg⟩ := hg; simp [hg.res.symm, h1.symm]
  · obtain ⟨h1, h2, -⟩ := hg; simp [h2.symm, h1.symm]

/-- C38, C41: no undefined behaviour, no error and no truncation in a session. -/
theorem plcg_no_error (L : Layout n arr) (hA : Symmetric A) (hQ : Symmetric Q) (hid : arr.z = none → Q = LinearMap.id)
    (h : Session n arr A Q b x0 (plcg arr) log s) :
    (s.state ≠ .error ∧ s.state ≠ .truncated ∧ ∀ v, s.state ≠ .other v) ∧ (s.state = .precond → arr.z ≠ none) ∧
    ∀ s', Serve n arr A Q s s' → plcg arr s' ≠ none := by
  have hg := good L hA hQ hid h
  have h1 : s.state = .precond → arr.z ≠ none := by
    intro e
    unfold Good at hg
    rw [e] at hg
    exact hg.2.1
  refine ⟨?_, h1, fun s' sv hn => ?_⟩
  · unfold Good at hg
    rcases e : s.state with _ | _ | _ | _ | _ | _ | _ | _ | _ | v <;> rw [e] at hg <;> simp at hg ⊢
  · obtain ⟨h2, h3⟩ := (plcg_protocol arr s').1.1 hn
    exact h1 (sv.state ▸ h2) h3

/-- C39: when a step along a new direction is about to be computed, this direction is conjugate to
all former directions and the residuals are orthogonal to all former preconditioned residuals and directions. -/
theorem plcg_conjugate (L : Layout n arr) (hA : Symmetric A) (hQ : Symmetric Q) (hid : arr.z = none → Q = LinearMap.id)
    (h : Session n arr A Q b x0 (plcg arr) log s) (hs : Stepping s) (e : Cg K) (he : e ∈ log) (hes : Stepping e) :
    vec n s.mem arr.p ⬝ᵥ A (vec n e.mem arr.p) = 0 ∧ vec n s.mem arr.r ⬝ᵥ Q (vec n e.mem arr.r) = 0 ∧
    vec n s.mem arr.r ⬝ᵥ vec n e.mem arr.p = 0 ∧ vec n s.mem arr.r ⬝ᵥ vec n s.mem arr.p = s.rho.r1 := by
  have hg := good L hA hQ hid h
  unfold Good at hg
  rw [hs.1] at hg
  rcases hg with ⟨-, -, -, -, h1, h2, -⟩ | ⟨-, S, hg⟩
  · exact absurd hs.2 (by rw [h2]; exact lt_irrefl _)
  · have hd := hg.dirs _ ⟨e, he, hes, rfl⟩
    have hr := hg.resid _ ⟨e, he, hes, rfl⟩
    exact ⟨hg.conj _ hd, hg.orth _ hr, hg.orth _ hd, hg.rp⟩

/-- C39: the explored space: at each new iterate, `x` minimizes the quadratic `x'.A.x/2 - b'.x` over `x0` plus the Krylov
space of dimension `k` after `k` steps (`A` positive semi-definite). -/
theorem plcg_optimal (L : Layout n arr) (hA : Symmetric A) (hQ : Symmetric Q) (hid : arr.z = none → Q = LinearMap.id)
    (hP : ∀ u, 0 ≤ u ⬝ᵥ A u) (h : Session n arr A Q b x0 (plcg arr) log s) (hs : s.state = .newx) :
    let V := krylov (Q ∘ₗ A) (Q (b - A x0)) (steps log)
    Module.finrank K V = steps log ∧ vec n s.mem arr.x - x0 ∈ V ∧ (∀ d ∈ directions n arr log, d ∈ V) ∧
    ∀ y, y - x0 ∈ V → quad A b (vec n s.mem arr.x) ≤ quad A b y := by
  have hg := good L hA hQ hid h
  unfold Good at hg
  rw [hs] at hg
  obtain ⟨-, S, hg⟩ := hg
  have := hg.krylov_eq
  intro V
  have hV : V = S := this.symm
  rw [hV]
  exact ⟨hg.rank, hg.mem, hg.dirs, minimizes hA hP hg.res hg.mem hg.orth⟩

/-- C39: no more than `n` steps are taken, and after `3*n + 4` calls the algorithm has terminated; only
symmetry is assumed. -/
theorem plcg_terminates (L : Layout n arr) (hA : Symmetric A) (hQ : Symmetric Q) (hid : arr.z = none → Q = LinearMap.id)
    (h : Session n arr A Q b x0 (plcg arr) log s) :
    (s.state ≠ .nonConvex → steps log ≤ n) ∧ (3 * n + 4 ≤ log.length → s.state = .finish ∨ s.state = .nonConvex) := by
  have hg := good L hA hQ hid h
  unfold Good at hg
  have key : ∀ {k D R S x r p rho0}, AtNew A Q b x0 k D R S x r p rho0 → k ≤ n := by
    intro k D R S x r p rho0 h
    have := Submodule.finrank_le S
    rw [h.rank, Module.finrank_fin_fun] at this
    exact this
  rcases e : s.state with _ | _ | _ | _ | _ | _ | _ | _ | _ | v <;> rw [e] at hg <;> dsimp only at hg
  · obtain ⟨rfl, -⟩ := hg; simp [steps]
  · obtain ⟨rfl, -⟩ := hg; simp [steps]
  · obtain ⟨h1, S, hg⟩ := hg
    have := key hg
    exact ⟨fun _ => this, fun _ => by omega⟩
  · obtain ⟨h1, -, S, hg⟩ := hg
    have := key hg
    exact ⟨fun _ => this, fun _ => by omega⟩
  · rcases hg with ⟨h1, h2, -⟩ | ⟨h1, S, hg⟩
    · exact ⟨fun _ => by omega, fun _ => by omega⟩
    · have := hg.lt
      exact ⟨fun _ => by omega, fun _ => by omega⟩
  · obtain ⟨-, -, S, hg⟩ := hg
    exact ⟨fun _ => key hg, fun _ => Or.inl rfl⟩
  · exact ⟨fun h => absurd rfl h, fun _ => Or.inr rfl⟩

/-- C39: with `A` and `Q` symmetric positive definite, the algorithm takes at most `n` steps, is finished after at most
`3*n + 4` calls, never reports non-convexity nor an error, and the equations are exactly solved when it finishes (and
only then). -/
theorem plcg_solves (L : Layout n arr) (hA : Symmetric A) (hQ : Symmetric Q) (hid : arr.z = none → Q = LinearMap.id)
    (pA : Positive A) (pQ : Positive Q) (h : Session n arr A Q b x0 (plcg arr) log s) :
    s.state ≠ .nonConvex ∧ s.state ≠ .error ∧ steps log ≤ n ∧ (3 * n + 4 ≤ log.length → s.state = .finish) ∧
    (s.state = .finish → A (vec n s.mem arr.x) = b) ∧
    (Stepping s → A (vec n s.mem arr.x) ≠ b) := by
  have hne : s.state ≠ .nonConvex := by
    intro e
    have hg := good L hA hQ hid h
    unfold Good at hg
    rw [e] at hg
    obtain ⟨h1, -, h2 | ⟨-, h2, h3⟩⟩ := hg
    · exact absurd (pQ.nonneg (vec n s.mem arr.r)) (not_le.2 (h1 ▸ h2))
    · exact absurd (pA _ h2) (not_lt.2 h3)
  have ht := plcg_terminates L hA hQ hid h
  refine ⟨hne, (plcg_no_error L hA hQ hid h).1.1, ht.1 hne, fun hl => (ht.2 hl).resolve_right hne, fun e => ?_, fun hs => ?_⟩
  · have hg := good L hA hQ hid h
    unfold Good at hg
    rw [e] at hg
    obtain ⟨h1, h2, S, hg⟩ := hg
    have : vec n s.mem arr.r = 0 := by
      by_contra hr
      exact (pQ _ hr).ne' (h1 ▸ h2)
    rw [hg.res] at this
    exact (sub_eq_zero.1 this).symm
  · have hr := plcg_residuals L hA hQ hid h
    intro he
    have h1 := hr.1 (Or.inr hs)
    have h2 := hr.2.1 (Or.inr hs)
    rw [he, sub_self] at h1
    rw [h1] at h2
    exact hs.2.ne' (by rw [h2]; simp)

/-- C39: when `A` is not positive definite, non-convexity is only reported with a witness: either the
direction `p` is not zero and `p'.A.p ≤ 0`, or `r'.Q.r < 0`. -/
theorem plcg_witness (L : Layout n arr) (hA : Symmetric A) (hQ : Symmetric Q) (hid : arr.z = none → Q = LinearMap.id)
    (h : Session n arr A Q b x0 (plcg arr) log s) (hs : s.state = .nonConvex) :
    vec n s.mem arr.r ⬝ᵥ Q (vec n s.mem arr.r) < 0 ∨
    (vec n s.mem arr.p ≠ 0 ∧ vec n s.mem arr.p ⬝ᵥ A (vec n s.mem arr.p) ≤ 0) := by
  have hg := good L hA hQ hid h
  unfold Good at hg
  rw [hs] at hg
  obtain ⟨h1, -, h2 | ⟨-, h2, h3⟩⟩ := hg
  · exact Or.inl (h1 ▸ h2)
  · exact Or.inr ⟨h2, h3⟩

/-- C38, C39: what a step does: from `OPK_CG_AP`, `x` moves by `rho[2]*p` and the residuals by `-rho[2]*q`, where `rho[2]` is the
step which minimizes the quadratic along the direction; `p` is left unchanged and `rho[0]` becomes the
former `rho[1]`. -/
theorem plcg_step (L : Layout n arr) (hA : Symmetric A) (hQ : Symmetric Q) (hid : arr.z = none → Q = LinearMap.id)
    (h : Session n arr A Q b x0 (plcg arr) log s) (hs : Stepping s) {s' : Cg K} (sv : Serve n arr A Q s s')
    (hc : plcg arr s' = some t) (ht : t.state = .newx) :
    vec n t.mem arr.p = vec n s.mem arr.p ∧ vec n t.mem arr.x = vec n s.mem arr.x + t.rho.r2 • vec n s.mem arr.p ∧
    vec n t.mem arr.r = vec n s.mem arr.r - t.rho.r2 • A (vec n s.mem arr.p) ∧ t.rho.r0 = s.rho.r1 ∧ 0 < t.rho.r2 ∧
    (∀ a : K, quad A b (vec n t.mem arr.x) ≤ quad A b (vec n s.mem arr.x + a • vec n s.mem arr.p)) ∧
    quad A b (vec n t.mem arr.x) < quad A b (vec n s.mem arr.x) := by
  have hres := (plcg_residuals L hA hQ hid h).1 (Or.inr hs)
  have hrp : vec n s.mem arr.r ⬝ᵥ vec n s.mem arr.p = s.rho.r1 := by
    have hg := good L hA hQ hid h
    unfold Good at hg
    rw [hs.1] at hg
    rcases hg with ⟨-, -, -, -, h1, h2, -⟩ | ⟨-, S, hg⟩
    · exact absurd hs.2 (by rw [h2]; exact lt_irrefl _)
    · exact hg.rp
  unfold plcg at hc
  rw [sv.state, hs.1] at hc
  dsimp only at hc
  have hd : Linalg.dot arr.n arr.p 1 arr.q 1 s'.mem = vec n s.mem arr.p ⬝ᵥ A (vec n s.mem arr.p) := by
    rw [L.size, dot_vec, sv.p, sv.ap hs.1]
  rw [sv.rho, if_pos hs.2, hd] at hc
  by_cases hpq : vec n s.mem arr.p ⬝ᵥ A (vec n s.mem arr.p) ≤ 0
  · rw [if_pos hpq] at hc
    obtain rfl := Option.some.inj hc
    cases ht
  rw [if_neg hpq] at hc
  have hpos := div_pos hs.2 (not_le.1 hpq)
  rw [if_neg hpos.ne'] at hc
  obtain rfl := Option.some.inj hc
  dsimp only
  have f1 := fun (a : K) (m : Mem K) p hp => axpy_out (n := n) (a := a) (x := arr.q) (y := arr.r) (p := p) hp m
  have f2 := fun (a : K) (m : Mem K) p hp => axpy_out (n := n) (a := a) (x := arr.p) (y := arr.x) (p := p) hp m
  rw [L.size, vec_axpy L.rq.symm, vec_frame L.xr (f1 _ _), vec_frame L.pr (f1 _ _), vec_axpy L.px, vec_frame L.px (f2 _ _), vec_frame L.xr.symm (f2 _ _),
    vec_frame L.xq.symm (f2 _ _), sv.x, sv.r, sv.p, sv.ap hs.1, neg_smul, ← sub_eq_add_neg]
  have along : ∀ a : K, quad A b (vec n s.mem arr.x + a • vec n s.mem arr.p) = quad A b (vec n s.mem arr.x)
      - a * s.rho.r1 + a * a * (vec n s.mem arr.p ⬝ᵥ A (vec n s.mem arr.p)) / 2 := by
    intro a
    rw [quad_add hA, ← hres, dotProduct_smul, hrp, map_smul, dotProduct_smul, smul_dotProduct]
    simp only [smul_eq_mul]
    ring
  have hr1 := hs.2
  generalize s.rho.r1 = ρ at *
  generalize vec n s.mem arr.p ⬝ᵥ A (vec n s.mem arr.p) = d at *
  have hd0 : 0 < d := not_le.1 hpq
  refine ⟨rfl, rfl, rfl, rfl, hpos, fun a => ?_, ?_⟩
  · rw [along, along]
    have : -a * ρ + a * a * d / 2 - (-(ρ / d) * ρ + ρ / d * (ρ / d) * d / 2) = d / 2 * ((a - ρ / d) * (a - ρ / d)) := by
      field_simp
      ring
    have h2 : 0 ≤ d / 2 * ((a - ρ / d) * (a - ρ / d)) := mul_nonneg (by linarith) (mul_self_nonneg _)
    linarith
  · rw [along]
    have : -(ρ / d) * ρ + ρ / d * (ρ / d) * d / 2 = -(ρ / d * ρ / 2) := by
      field_simp
      ring
    have h2 : 0 < ρ / d * ρ / 2 := by positivity
    linarith

end Opk.Lcg
