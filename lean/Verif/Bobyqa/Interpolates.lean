import Verif.Bobyqa.Quadratic
import Verif.Newuoa.Interpolates

/-!
# BOBYQA: the first quadratic model takes the values of the objective function
-/
set_option linter.unusedSectionVars false
namespace Opk.Bobyqa
open Linalg CMath Cobyla Powell
open Newuoa (omega qval Matches)

section
variable {K : Type} [Field K] [LinearOrder K] [IsStrictOrderedRing K] [CMath K] [ExactMath K]

theorem begun_start (p : Par K) (x sl su : Nat → K) (s : St K) (n1 : 1 ≤ p.n) : Begun p (start x sl su s).2 := by
  refine ⟨⟨fun _ _ _ => rfl, fun _ => rfl, fun _ _ _ _ _ => rfl, fun _ _ _ _ _ => rfl, ?_, ?_, ?_, ?_, fun _ _ _ _ => rfl, ?_, ?_, fun _ _ _ _ _ _ => rfl,
    fun _ _ _ _ _ _ => rfl, ?_, ?_, fun _ _ _ _ => rfl, ?_, ?_, ?_, fun _ _ _ _ => rfl⟩, fun _ => rfl, ?_⟩
  all_goals
    intros
    exfalso
    have hz : (start x sl su s).2.nf = 0 := rfl
    omega

/-- A pass of the loop of `prelim`. -/
theorem first_prelim {p : Par K} (hp : Newuoa.Valid p.nw) (hsqrt : ∀ a : K, 0 ≤ a → 0 ≤ CMath.sqrt a ∧ CMath.sqrt a * CMath.sqrt a = a)
    (calfun : Nat → (Nat → K) → K) {s : St K} (ok : Ok p .pre s) (h : Begun p s) :
    (prelim p calfun s).2.nf = s.nf + 1 ∧
    (((prelim p calfun s).1 = .pre ∧ Begun p (prelim p calfun s).2) ∨ ((prelim p calfun s).1 = .l20 ∧ First p (prelim p calfun s).2) ∨
      ((prelim p calfun s).1 = .done ∧ (prelim p calfun s).2.status = .tooManyEvaluations ∧ p.maxfun < p.npt)) := by
  have pre : Pre p s := ok
  have b := begun_next hp hsqrt calfun pre.init pre.nf h
  have ok' := ok_prelim p hp.r hp.rbeg calfun s ok
  have nf : (prelimModel p (stored p calfun s)).nf = s.nf + 1 := (prelimModel_same p _).2.1.trans (stored_fields p calfun s).1
  have hm := pre.nf
  rw [prelim_eq] at ok' ⊢
  generalize prelimModel p (stored p calfun s) = u at *
  by_cases c : u.nf < p.npt ∧ (u.nf : Int) < p.maxfun
  · rw [if_pos c]
    exact ⟨nf, Or.inl ⟨rfl, b⟩⟩
  · rw [if_neg c] at ok' ⊢
    unfold begin at ok' ⊢
    dsimp only at ok' ⊢
    by_cases q : u.nf < p.npt
    · rw [if_pos q]
      refine ⟨nf, Or.inr (Or.inr ⟨rfl, rfl, ?_⟩)⟩
      have : ¬ (u.nf : Int) < p.maxfun := fun w => c ⟨q, w⟩
      omega
    · rw [if_neg q] at ok' ⊢
      obtain ⟨o1, -⟩ : Full p _ ∧ _ := ok'
      refine ⟨nf, Or.inr (Or.inl ⟨rfl, ⟨⟨b.arr, b.pq, b.beg⟩, by show u.nf = _; omega, rfl, rfl, ?_, o1.kopt1, o1.koptn, rfl, rfl⟩⟩)⟩
      show acc p.n (fun i => u.xpt u.kopt i * u.xpt u.kopt i) 0 = Powell.dot p.n (fun i => u.xpt u.kopt i) (fun i => u.xpt u.kopt i)
      rw [acc_eq, zero_add]
      rfl

/-- The passes of the loop of `prelim`. -/
theorem first_run {p : Par K} (hp : Newuoa.Valid p.nw)
    (hsqrt : ∀ a : K, 0 ≤ a → 0 ≤ CMath.sqrt a ∧ CMath.sqrt a * CMath.sqrt a = a) (calfun : Nat → (Nat → K) → K) (T : St K → Trs K) (hmax : (p.npt : Int) ≤ p.maxfun)
    (j : Nat) : ∀ s : St K, Ok p .pre s → Begun p s → s.nf + j + 1 = p.npt → ∃ s', run p calfun T (j + 1) (.pre, s) = (.l20, s') ∧ Ok p .l20 s' ∧ First p s' := by
  induction j with
  | zero =>
    intro s ok b e
    obtain ⟨nf, w⟩ := first_prelim hp hsqrt calfun ok b
    have ok' := ok_prelim p hp.r hp.rbeg calfun s ok
    show ∃ s', prelim p calfun s = _ ∧ _
    generalize prelim p calfun s = r at *
    obtain ⟨l, r⟩ := r
    rcases w with ⟨w, -⟩ | ⟨w, f⟩ | ⟨-, -, w⟩
    · obtain rfl : l = _ := w
      have q := (show Pre p r from ok').nf
      have nf : r.nf = s.nf + 1 := nf
      omega
    · obtain rfl : l = _ := w
      exact ⟨r, rfl, ok', f⟩
    · omega
  | succ j ih =>
    intro s ok b e
    obtain ⟨nf, w⟩ := first_prelim hp hsqrt calfun ok b
    have ok' := ok_prelim p hp.r hp.rbeg calfun s ok
    show ∃ s', run p calfun T (j + 1) (prelim p calfun s) = _ ∧ _
    generalize prelim p calfun s = r at *
    obtain ⟨l, r⟩ := r
    have nf : r.nf = s.nf + 1 := nf
    rcases w with ⟨w, b'⟩ | ⟨w, f⟩ | ⟨-, -, w⟩
    · obtain rfl : l = _ := w
      exact ih r ok' b' (by omega)
    · have := f.all
      have : r.nf = p.npt := this
      omega
    · omega

end

/-- The quadratic model at the point `x` of the objective function: it is `FVAL(KOPT)` at `XBASE + XOPT`, where its gradient
is `GOPT`. -/
noncomputable def St.model (p : Par ℝ) (s : St ℝ) (x : Nat → ℝ) : ℝ :=
  s.fval s.kopt + s.quad p (fun j => x j - (s.xbase j + s.xopt j))

/-- The points of the inverse matrix differ. -/
theorem Inverse.apart {p : Par ℝ} {s : St ℝ} (h : Inverse p s) {k l : Nat} (k1 : 1 ≤ k) (k2 : k ≤ p.npt) (l1 : 1 ≤ l) (l2 : l ≤ p.npt) (ne : k ≠ l) :
    ∃ j, 1 ≤ j ∧ j ≤ p.n ∧ s.xpt k j ≠ s.xpt l j := by
  by_contra q
  push Not at q
  obtain ⟨c, hg⟩ := h
  have e1 := hg.lagrange k1 k2 k1 k2
  have e2 := hg.lagrange k1 k2 l1 l2
  rw [if_pos rfl] at e1
  rw [if_neg (Ne.symm ne)] at e2
  have : ∀ x, Powell.dot p.n x (s.xpt k) = Powell.dot p.n x (s.xpt l) := fun x => Newuoa.dot_congr (fun _ _ _ => rfl) q
  simp only [this] at e1
  linarith

theorem genuine_value (f : (Nat → ℝ) → ℝ) : ∀ log : List ((Nat → ℝ) × ℝ), Genuine (fun _ => f) log → ∀ e ∈ log, e.2 = f e.1 := by
  intro log
  induction log with
  | nil => intro _ e he; simp at he
  | cons a l ih =>
    rintro ⟨q1, q2⟩ e he
    rcases List.mem_cons.mp he with rfl | he
    · exact q1
    · exact ih q2 e he

theorem Core.matches {p : Par ℝ} {s : St ℝ} (h : Core p s) (hf : Full p s) {f : (Nat → ℝ) → ℝ} (hv : ∀ e ∈ s.log, e.2 = f e.1) :
    Matches p.n p.npt f s.log (s.model p) := by
  have ex : ∀ k, ∃ e : (Nat → ℝ) × ℝ, 1 ≤ k → k ≤ p.npt → e ∈ s.log ∧ e.2 = s.fval k ∧ ∀ i, 1 ≤ i → i ≤ p.n → e.1 i = s.xbase i + s.xpt k i := by
    intro k
    by_cases c : 1 ≤ k ∧ k ≤ p.npt
    · obtain ⟨e, e1, e2, e3⟩ := hf.recs k c.1 c.2
      exact ⟨e, fun _ _ => ⟨e1, e2, e3⟩⟩
    · exact ⟨(fun _ => 0, 0), fun k1 k2 => absurd ⟨k1, k2⟩ c⟩
  choose e he using ex
  refine ⟨fun k => (e k).1, fun k k1 k2 => ?_, fun k l k1 k2 l1 l2 ne => ?_, s.kopt, hf.kopt1, hf.koptn, fun a ha => ?_⟩
  · obtain ⟨e1, e2, e3⟩ := he k k1 k2
    have v := hv _ e1
    refine ⟨by rw [← v]; exact e1, ?_⟩
    rw [← v, e2]
    have i := h.int k k1 k2
    unfold St.model
    have cg : s.quad p (fun j => (e k).1 j - (s.xbase j + s.xopt j)) = s.quad p (fun j => s.xpt k j - s.xopt j) :=
      Newuoa.qval_congr (fun _ _ _ _ _ _ => rfl) fun j j1 j2 => by rw [e3 j j1 j2]; ring
    rw [cg, i]
    ring
  · obtain ⟨j, j1, j2, j3⟩ := h.inv.apart k1 k2 l1 l2 ne
    refine ⟨j, j1, j2, fun w => j3 ?_⟩
    dsimp only at w
    rw [(he k k1 k2).2.2 j j1 j2, (he l l1 l2).2.2 j j1 j2] at w
    exact add_left_cancel w
  · obtain ⟨e1, e2, -⟩ := he s.kopt hf.kopt1 hf.koptn
    rw [← hv _ e1, e2]
    exact hf.best a ha

/-- The first iteration. -/
theorem bobyqa_begins {p : Par ℝ} (hp : Newuoa.Valid p.nw) (hmax : (p.npt : Int) ≤ p.maxfun) (calfun : Nat → (Nat → ℝ) → ℝ) (T : St ℝ → Trs ℝ)
    {x sl su : Nat → ℝ} (h : Ready p x sl su) (s0 : St ℝ) :
    ∃ s, run p calfun T (p.npt + 1) (start x sl su s0) = (.l60, s) ∧ s.nf = p.npt ∧ Ok p .l60 s ∧ Core p s ∧ s.rho = p.rhobeg ∧ s.delta = p.rhobeg := by
  have n1 : 1 ≤ p.n := hp.n1
  have npt : p.n + 2 ≤ p.npt := hp.lo
  obtain ⟨s', e1, e2, e3⟩ := first_run hp Newuoa.real_root calfun T hmax (p.npt - 1) (start x sl su s0).2
    (ok_start p hp.r (by omega) x sl su s0 h) (begun_start p x sl su s0 n1) (by show 0 + (p.npt - 1) + 1 = _; omega)
  have e4 : ∀ (k : Nat) (ls : Lab × St ℝ), run p calfun T (k + 1) ls = step p calfun T (run p calfun T k ls) := by
    intro k
    induction k with
    | zero => intro ls; rfl
    | succ k ih => intro ls; exact ih _
  obtain ⟨a1, a2⟩ := first_l20 hp Newuoa.real_root e3
  have ok := ok_l20 p s' e2
  have run1 : run p calfun T (p.npt + 1) (start x sl su s0) = l20 p s' := by
    rw [e4, show p.npt = p.npt - 1 + 1 by omega]
    rw [show start x sl su s0 = (.pre, (start x sl su s0).2) from rfl, e1]
    rfl
  have nf : (l20 p s').2.nf = s'.nf ∧ (l20 p s').2.rho = s'.rho ∧ (l20 p s').2.delta = s'.delta := by unfold l20; split_ifs <;> exact ⟨rfl, rfl, rfl⟩
  rw [run1]
  generalize l20 p s' = r at *
  obtain ⟨l, r⟩ := r
  obtain rfl : l = _ := a1
  exact ⟨r, rfl, nf.1.trans e3.all, ok, a2, nf.2.1.trans e3.rho, nf.2.2.trans e3.delta⟩

/-- **C91.**  With real numbers, for any objective function and any step of `trsbox`: after `NPT` calls of the function the
first iteration begins, and the quadratic model takes the values of the function at the `NPT` points of these calls. -/
theorem bobyqa_first {p : Par ℝ} (hp : Newuoa.Valid p.nw) (hmax : (p.npt : Int) ≤ p.maxfun) (f : (Nat → ℝ) → ℝ) (T : St ℝ → Trs ℝ)
    {x sl su : Nat → ℝ} (h : Ready p x sl su) (s0 : St ℝ) :
    ∃ s, run p (fun _ => f) T (p.npt + 1) (start x sl su s0) = (.l60, s) ∧ s.nf = p.npt ∧ Matches p.n p.npt f s.log (s.model p) ∧ Inverse p s := by
  obtain ⟨r, e1, e2, e3, e4, -⟩ := bobyqa_begins hp hmax (fun _ => f) T h s0
  have gen := bobyqb_genuine p (fun _ => f) T x sl su s0 (p.npt + 1)
  rw [e1] at gen
  exact ⟨r, e1, e2, e4.matches e3.1 (genuine_value f _ gen), e4.inv⟩

/-- What `bobyqa_optimize` checks before `bobyqb`. -/
theorem prepare_valid {a : Args ℝ} {s0 : St ℝ} {p : Par ℝ} {scl : Option (Nat → ℝ)} {ls : Lab × St ℝ} (ha : prepare a s0 = .inr (p, scl, ls)) :
    Newuoa.Valid p.nw ∧ p.n = a.n.toNat ∧ p.npt = a.npt.toNat ∧ p.maxfun = a.maxfun := by
  unfold prepare at ha
  dsimp only at ha
  split_ifs at ha with c1 c2 c3
  cases e : scaling a.n.toNat a.scl with
  | none => rw [e] at ha; simp at ha
  | some scl' =>
    rw [e] at ha
    dsimp only at ha
    split_ifs at ha with c4
    simp only [Sum.inr.injEq, Prod.mk.injEq] at ha
    obtain ⟨rfl, -, -⟩ := ha
    push Not at c1 c2 c3
    refine ⟨⟨?_, ?_, ?_, c3.1, c3.2⟩, rfl, rfl, rfl⟩
    · show 1 ≤ a.n.toNat; omega
    · show a.n.toNat + 2 ≤ a.npt.toNat; omega
    · show 2 * a.npt.toNat ≤ (a.n.toNat + 1) * (a.n.toNat + 2)
      have h := c2.2
      have : 2 * a.npt ≤ (a.n + 2) * (a.n + 1) := by
        have := Int.mul_ediv_self_le (x := (a.n + 2) * (a.n + 1)) (k := 2) (by norm_num)
        linarith
      have n0 : 0 ≤ a.n := by omega
      have m0 : 0 ≤ a.npt := by omega
      zify
      rw [Int.toNat_of_nonneg n0, Int.toNat_of_nonneg m0]
      linarith

/-- **C91**, in the variables of the user, with the scaling and the sign of a maximization. -/
theorem optimize_first {a : Args ℝ} {s0 : St ℝ} {p : Par ℝ} {scl : Option (Nat → ℝ)} {ls : Lab × St ℝ} (ha : prepare a s0 = .inr (p, scl, ls))
    (hmax : (a.npt.toNat : Int) ≤ a.maxfun) (f : (Nat → ℝ) → ℝ) (T : St ℝ → Trs ℝ) :
    ∃ s, run p (objfun (fun _ => f) a.maximize scl) T (a.npt.toNat + 1) ls = (.l60, s) ∧ s.nf = a.npt.toNat ∧
      Matches a.n.toNat a.npt.toNat (fun x => if a.maximize then -f (unscale scl x) else f (unscale scl x)) s.log (s.model p) ∧ Inverse p s := by
  obtain ⟨v, en, em, ef⟩ := prepare_valid ha
  obtain ⟨-, -, -, -, x, sl, su, rfl, hr⟩ := prepare_ready a s0 p scl ls ha
  have ob : objfun (fun _ => f) a.maximize scl = fun _ x => if a.maximize then -f (unscale scl x) else f (unscale scl x) := by
    funext _ x
    unfold objfun
    cases a.maximize <;> simp
  rw [ob, ← en, ← em]
  exact bobyqa_first v (by rw [em, ef]; exact hmax) _ T hr s0

/-! ### The hypotheses can be met -/

/-- Two variables, the first one at its upper bound, and five points. -/
noncomputable def firstArgs : Args ℝ where
  n := 2
  npt := 5
  maximize := true
  x := fun _ => 0
  xl := fun _ => -10
  xu := fun j => if j = 1 then 0 else 10
  scl := none
  rhobeg := 1
  rhoend := 1 / 2
  maxfun := 100

theorem firstArgs_prepare (s0 : St ℝ) : ∃ q, prepare firstArgs s0 = .inr q := by
  have c : firstClose 2 (1 : ℝ) firstArgs.xl firstArgs.xu = 0 := by
    unfold firstClose
    refine up_inv (fun _ t => t = 0) 2 rfl fun k _ t ht => ?_
    rw [if_neg]
    · exact ht
    · rintro ⟨-, q⟩
      unfold firstArgs at q
      dsimp only at q
      split_ifs at q <;> norm_num at q
  unfold prepare
  have e1 : ¬ firstArgs.n < 2 := by unfold firstArgs; norm_num
  have e2 : ¬ (firstArgs.npt < firstArgs.n + 2 ∨ firstArgs.npt > (firstArgs.n + 2) * (firstArgs.n + 1) / 2) := by unfold firstArgs; norm_num
  have e3 : ¬ (firstArgs.rhoend ≤ 0 ∨ firstArgs.rhoend > firstArgs.rhobeg) := by unfold firstArgs; norm_num
  rw [if_neg e1, if_neg e2, if_neg e3]
  show ∃ q, (if firstClose 2 (1 : ℝ) firstArgs.xl firstArgs.xu ≠ 0 then _ else _) = _
  rw [if_neg (by rw [c]; simp)]
  exact ⟨_, rfl⟩

/-- The maximization of `x(1)² x(2)`: the model takes the values of its opposite at five points. -/
example (s0 : St ℝ) (T : St ℝ → Trs ℝ) : ∃ p scl ls s, prepare firstArgs s0 = .inr (p, scl, ls) ∧
    run p (objfun (fun _ x => x 1 ^ 2 * x 2) true scl) T 6 ls = (.l60, s) ∧
    Matches 2 5 (fun x => -(unscale scl x 1 ^ 2 * unscale scl x 2)) s.log (s.model p) := by
  obtain ⟨⟨p, scl, ls⟩, h⟩ := firstArgs_prepare s0
  obtain ⟨s, h1, -, h2, -⟩ := optimize_first h (by unfold firstArgs; norm_num) (fun x => x 1 ^ 2 * x 2) T
  exact ⟨p, scl, ls, s, h, h1, h2⟩

end Opk.Bobyqa
