import Verif.Cobyla.Ends
import Verif.Gqt.Demo
/-!
# COBYLA: examples
-/
namespace Opk.Cobyla.Demo
open Linalg CMath

/-- A program which calls `cobyla_iterate` at most `k` times with the values of a function; the result
is the list of the evaluated points and of the function values, the status, and the first variable,
the last function value and the radius of the context. -/
def session (g : (Nat → ℚ) → ℚ × (Nat → ℚ)) (n : Nat) : Nat → Ctx ℚ → (Nat → ℚ) → List (List ℚ × ℚ) → Option (List (List ℚ × ℚ) × Status × List ℚ × ℚ × ℚ)
  | 0, ctx, x, acc => some (acc, ctx.status, (List.range n).map (fun i => x (i + 1)), getLastF (some ctx), getRho (some ctx))
  | k + 1, ctx, x, acc =>
    if ctx.status = .iterate then
      match iterate (lpT 50 ctx.par) 50 (some ctx) (g x).1 (some x) (some (g x).2) with
      | some (_, some ctx) => session g n k ctx ctx.st.x (acc ++ [((List.range n).map (fun i => x (i + 1)), (g x).1)])
      | _ => none
    else some (acc, ctx.status, (List.range n).map (fun i => x (i + 1)), getLastF (some ctx), getRho (some ctx))

/-- `cobyla_create` and the session. -/
def run (g : (Nat → ℚ) → ℚ × (Nat → ℚ)) (n m : Nat) (rhobeg rhoend : ℚ) (x : List ℚ) (k : Nat) :
    Option (List (List ℚ × ℚ) × Status × List ℚ × ℚ × ℚ) :=
  match create (n : Int) (m : Int) rhobeg rhoend 100 true with
  | some ctx => session g n k ctx (fun i => x.getD (i - 1) 0) []
  | none => none

set_option maxRecDepth 100000 in
/-- **C67** (the negation of the full property): on success the returned value may be greater than
that of another evaluation, though there is no constraint and the function is `(x - 1)²`: the minimum
at `1` is evaluated, but `5/4` is returned. -/
theorem cobyla_not_best : run (fun x => ((x 1 - 1) * (x 1 - 1), fun _ => 0)) 1 0 1 (1 / 4) [5] 20 =
    some ([([5], 16), ([6], 25), ([4], 9), ([3], 4), ([2], 1), ([1], 0), ([0], 1), ([1 / 2], 1 / 4), ([5 / 4], 1 / 16)],
      .success, [5 / 4], 1 / 16, 1 / 4) := by
  decide +kernel

set_option maxRecDepth 100000 in
/-- The same with three evaluations after the initial simplex. -/
example : run (fun x => (x 1 * x 1, fun _ => 0)) 1 0 1 1 [1] 20 =
    some ([([1], 1), ([2], 4), ([0], 0), ([-1], 1)], .success, [-1], 1, 1) := by
  decide +kernel

set_option maxRecDepth 100000 in
/-- Minimize `x` subject to `x ≥ 1/3`: new vertices, trial points, reductions of the radius. -/
example : run (fun x => (x 1, fun _ => x 1 - 1 / 3)) 1 1 1 (1 / 4) [3] 20 =
    some ([([3], 3), ([4], 4), ([2], 2), ([1], 1), ([1 / 3], 1 / 3), ([5 / 24], 5 / 24)], .success, [1 / 3], 1 / 3, 1 / 4) := by
  decide +kernel

set_option maxRecDepth 100000 in
/-- The step of `trstlp` for `x ≤ 1/2`, `y ≤ 2` and the direction `(1, 0)`: it stops at the constraint;
and for `x ≤ 2`: it is of length `rho`. -/
example : (trstlp (⟨2, 2, fun i c => if i = 1 ∧ c = 3 then 1 else if i = c then -1 else 0, fun c => if c = 1 then -1 / 2 else if c = 2 then -2 else 0, 1⟩ : Lp ℚ) 50 zeroTr).map
      (fun u => (u.dx 1, u.dx 2, u.ifull)) = some (1 / 2, 0, 0) ∧
    (trstlp (⟨2, 2, fun i c => if i = 1 ∧ c = 3 then 1 else if i = c then -1 else 0, fun _ => -2, 1⟩ : Lp ℚ) 50 zeroTr).map
      (fun u => (u.dx 1, u.dx 2, u.ifull)) = some (1, 0, 1) := by
  decide +kernel

set_option maxRecDepth 100000 in
/-- Two violated constraints: the step reduces the greatest violation. -/
example : (trstlp (⟨2, 2, fun i c => if i = c then 1 else 0, fun c => if c = 1 then 3 else 2, 1⟩ : Lp ℚ) 50 zeroTr).map
      (fun u => (u.dx 1, u.dx 2, u.ifull)) = some (1, 0, 1) := by
  decide +kernel

/-- Complete sessions exist for any function, any step and any starting point: the theorems on the
contexts whose status is not `COBYLA_ITERATE` are not void. -/
theorem complete {ok : Par ℝ → (St ℝ → (Nat → ℝ) × Nat) → Prop} {n m : Int} {rhobeg rhoend : ℝ} {maxfun : Int} {ctx0 : Ctx ℝ}
    (h0 : create n m rhobeg rhoend maxfun true = some ctx0) (T : St ℝ → (Nat → ℝ) × Nat) (hT : ok ctx0.par T)
    (g : (Nat → ℝ) → ℝ × (Nat → ℝ)) (x0 : Nat → ℝ) :
    ∃ h ctx, Obey ok ctx0 h ctx ∧ h ≠ [] ∧ ctx.status ≠ .iterate ∧ ∀ e ∈ h, (e.f, e.c) = g e.x := by
  have hmax : ctx0.par.maxfun = maxfun ∧ ctx0.status = .iterate ∧ 1 ≤ maxfun := by
    unfold create at h0
    by_cases hc : n < 1 ∨ m < 0 ∨ rhobeg < rhoend ∨ rhoend ≤ 0 ∨ maxfun < 1
    · rw [if_pos hc] at h0; simp at h0
    · rw [if_neg hc] at h0
      simp only [Bool.not_true, Bool.false_eq_true, if_false, Option.some.injEq] at h0
      subst h0
      refine ⟨rfl, rfl, ?_⟩
      by_contra hh
      exact hc (by right; right; right; right; omega)
  -- one more call
  have next : ∀ h ctx, Obey ok ctx0 h ctx → ctx.status = .iterate → (∀ e ∈ h, (e.f, e.c) = g e.x) →
      ∃ e ctx', Obey ok ctx0 (e :: h) ctx' ∧ (e.f, e.c) = g e.x := by
    intro h ctx H hs hg
    have hx : ctx.st.nfvals ≠ 0 → ∀ i, 1 ≤ i → i ≤ ctx.par.n → (if ctx.st.nfvals = 0 then x0 else ctx.st.x) i = ctx.st.x i := by
      intro hz i _ _
      rw [if_neg hz]
    obtain ⟨⟨e, r⟩, fuel0, hr⟩ := cobyla_iterate_ends Gqt.Demo.real_sqrt h0 H T (g (if ctx.st.nfvals = 0 then x0 else ctx.st.x)).1 (if ctx.st.nfvals = 0 then x0 else ctx.st.x)
      (some (g (if ctx.st.nfvals = 0 then x0 else ctx.st.x)).2) hx
    obtain ⟨ctx', rfl, -⟩ := cobyla_protocol (hr fuel0 le_rfl)
    have := Obey.iterate H T fuel0 _ _ _ e (by rw [obey_par H]; exact hT) hx hs (by simp) (hr fuel0 le_rfl)
    exact ⟨_, ctx', this, rfl⟩
  have many : ∀ k : Nat, ∃ h ctx, Obey ok ctx0 h ctx ∧ (∀ e ∈ h, (e.f, e.c) = g e.x) ∧ (ctx.status = .iterate ∧ h.length = k ∨ ctx.status ≠ .iterate ∧ h ≠ []) := by
    intro k
    induction k with
    | zero => exact ⟨[], ctx0, Obey.start, by simp, Or.inl ⟨hmax.2.1, rfl⟩⟩
    | succ k ih =>
      obtain ⟨h, ctx, H, hg, hh | hh⟩ := ih
      · obtain ⟨e, ctx', H', he⟩ := next h ctx H hh.1 hg
        refine ⟨e :: h, ctx', H', ?_, ?_⟩
        · intro e' he'
          rcases List.mem_cons.mp he' with rfl | he'
          · exact he
          · exact hg e' he'
        · by_cases hs : ctx'.status = .iterate
          · exact Or.inl ⟨hs, by rw [List.length_cons, hh.2]⟩
          · exact Or.inr ⟨hs, by simp⟩
      · exact ⟨h, ctx, H, hg, Or.inr hh⟩
  obtain ⟨h, ctx, H, hg, hh | hh⟩ := many (maxfun.toNat + 1)
  · exfalso
    have hlen : ctx.st.nfvals = h.length := (cobyla_exact Gqt.Demo.real_sqrt h0 H).1
    have hb : ∀ {h ctx}, Obey ok ctx0 h ctx → h ≠ [] → ctx.status = .iterate → (ctx.st.nfvals : Int) < maxfun := by
      intro h ctx H hne hs
      cases H with
      | start => exact absurd rfl hne
      | @iterate c1 _ h H1 T fuel f x c e hT hx hs1 hc1 hr =>
        rcases iterate_cases hr with ⟨-, h2, -⟩ | ⟨-, h2, -⟩ | ⟨x', s', hx', hst', hres, h2⟩
        · obtain rfl := Option.some.inj h2; simp at hs
        · obtain rfl := Option.some.inj h2; simp at hs
        · obtain rfl := Option.some.inj h2
          obtain ⟨-, -, h3⟩ := resume_spec _ _ _ _ _ _ _ _ hres
          obtain rfl : e = .iterate := hs
          rw [obey_par H1, hmax.1] at h3
          rcases h3 with h3 | h3 | h3 | h3
          · exact h3.2
          all_goals simp at h3
      | restart _ e hr => exact absurd rfl hne
    have := hb H (by intro h0; rw [h0] at hh; simp at hh) hh.1
    rw [hlen, hh.2] at this
    omega
  · exact ⟨h, ctx, H, hh.2, hh.1, hg⟩

/-- Two variables, one constraint, in real arithmetic with the step of the code: `cobyla_create` succeeds, the
initial simplex is evaluated, and there is a complete session. -/
example : ∃ ctx0, create 2 1 (1 : ℝ) (1 / 10) 100 true = some ctx0 ∧
    ∃ h ctx, Obey TrustStep ctx0 h ctx ∧ h ≠ [] ∧ ctx.status ≠ .iterate ∧
      ∀ e ∈ h, (e.f, e.c) = (e.x 1 + e.x 2, fun _ => 1 - e.x 1 * e.x 1 - e.x 2 * e.x 2) := by
  have h0 : create 2 1 (1 : ℝ) (1 / 10) 100 true = some ⟨⟨2, 1, 1, 1 / 10, 100⟩, .iterate, zeroSt⟩ := by
    unfold create
    rw [if_neg (by norm_num)]
    rfl
  exact ⟨_, h0, complete h0 (lpT 1000 ⟨2, 1, 1, 1 / 10, 100⟩) (trustStep_lpT Gqt.Demo.real_sqrt 1000 _)
    (fun x => (x 1 + x 2, fun _ => 1 - x 1 * x 1 - x 2 * x 2)) (fun _ => 0)⟩

end Opk.Cobyla.Demo
