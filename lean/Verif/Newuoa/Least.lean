import Verif.Newuoa.Quadratic
import Verif.Powell.Hessian

/-!
# NEWUOA: the change of the model has the least Frobenius norm
-/
namespace Opk.Newuoa
open Linalg CMath Cobyla Powell

set_option linter.unusedSectionVars false

variable {K : Type} [Field K] [LinearOrder K] [IsStrictOrderedRing K] [CMath K] [ExactMath K]

/-- The columns of the leading part of the inverse matrix are orthogonal to the affine functions. -/
theorem Good.omega_sum {n npt : Nat} {pts om bm : Nat → Nat → K} {c : Nat → K} (h : Good n npt pts om bm c) {t : Nat} (t1 : 1 ≤ t) (t2 : t ≤ npt) :
    ∑ k ∈ Finset.Icc 1 npt, om k t = 0 ∧ ∀ j, 1 ≤ j → j ≤ n → ∑ k ∈ Finset.Icc 1 npt, om k t * pts k j = 0 := by
  have key : ∀ i ∈ Idx n npt, (∀ k, 1 ≤ k → k ≤ npt → i ≠ k) → ∑ k ∈ Finset.Icc 1 npt, om k t * col n npt pts (pts k) i = 0 := by
    intro i hi hne
    have hout : ¬ (1 ≤ i ∧ i ≤ npt) := fun w => hne i w.1 w.2 rfl
    have e := h.inv i hi t (mem_pt t2)
    rw [if_neg (hne t t1 t2), sum_idx, Wm_out hout (by omega), zero_mul, zero_add] at e
    rw [← e, eq_comm, add_eq_left.mpr]
    · refine Finset.sum_congr rfl fun k hk => ?_
      rw [Finset.mem_Icc] at hk
      rw [Wm_pt hk.1 hk.2, Hm_pp hk.1 hk.2 t1 t2, mul_comm]
    · refine Finset.sum_eq_zero fun j hj => ?_
      rw [Finset.mem_Icc] at hj
      rw [Wm_out hout (by omega), zero_mul]
  constructor
  · have := key 0 (mem_pt (Nat.zero_le _)) (by omega)
    simpa only [col_zero, mul_one] using this
  · intro j j1 j2
    have := key (npt + j) (mem_grad j2) (by omega)
    simpa only [col_grad j1] using this

/-- The second derivatives of a Lagrange function. -/
theorem hasHess_lfun (p : Par ℝ) (s : St ℝ) (t : Nat) :
    HasHess p.n (lfun p s t) (fun i j => ∑ k ∈ Finset.Icc 1 p.npt, omega p.nptm s.zmat k t * (s.xpt k i * s.xpt k j)) := by
  have := (hasHess_sum (Finset.Icc 1 p.npt) fun k _ => (hasHess_sq p.n (s.xpt k)).mul (omega p.nptm s.zmat k t)).add (hasHess_dot p.n (s.bmat t))
  simp only [add_zero] at this
  refine (congrArg (fun z => HasHess p.n z _) (funext fun y => ?_)).mp this
  unfold lfun
  refine congrArg (· + _) (Finset.sum_congr rfl fun k _ => ?_)
  ring

/-- The model at a displacement from `XBASE`. -/
theorem model_shift (p : Par ℝ) (s : St ℝ) (y : Nat → ℝ) : s.model p (fun j => y j + s.xbase j) = (s.fopt - s.quad p s.xopt) + s.quad p y := by
  unfold St.model
  rw [show (fun j => y j + s.xbase j - s.xbase j) = y from funext fun j => by ring]
  ring

/-- The function `e` is quadratic with the second derivatives `E`, and takes the values at the points of the state. -/
def Fits (p : Par ℝ) (s : St ℝ) (e : (Nat → ℝ) → ℝ) (E : Nat → Nat → ℝ) : Prop :=
  HasHess p.n e E ∧ ∀ k, 1 ≤ k → k ≤ p.npt → e (fun j => s.xbase j + s.xpt k j) = s.fval k

/-- A combination of Lagrange functions is added to a model. -/
theorem least_of {p : Par ℝ} (hp : Valid p) {s : St ℝ} (hc : Core p s) {q : (Nat → ℝ) → ℝ} {Q G E : Nat → Nat → ℝ} {e : (Nat → ℝ) → ℝ} (hq : HasHess p.n q Q)
    (v : Nat → ℝ) {a : ℝ} (hv : ∀ y, s.quad p y = q y + ∑ t ∈ Finset.Icc 1 p.npt, v t * lfun p s t y + a) (hG : HasHess p.n (s.model p) G) (hE : Fits p s e E) :
    frob p.n (fun i j => G i j - Q i j) ≤ frob p.n (fun i j => E i j - Q i j) := by
  obtain ⟨c, hg⟩ := hc.inv
  obtain ⟨hE, fit⟩ := hE
  have n1 : 1 ≤ p.npt := by have := hp.lo; omega
  have d1 := (hG.shift s.xbase).add (hq.mul (-1))
  have e1 := (hE.shift s.xbase).add (hq.mul (-1))
  have l1 := (hasHess_sum (Finset.Icc 1 p.npt) fun t _ => (hasHess_lfun p s t).mul (v t)).add (hasHess_const p.n (s.fopt - s.quad p s.xopt + a))
  have same : (fun x => s.model p (fun j => x j + s.xbase j) + -1 * q x) = fun x => (∑ t ∈ Finset.Icc 1 p.npt, v t * lfun p s t x) + (s.fopt - s.quad p s.xopt + a) := by
    funext y
    rw [model_shift, hv y]
    ring
  have main := least_frobenius (n := p.n) (m := p.npt) (pts := s.xpt) (lam := fun k => ∑ t ∈ Finset.Icc 1 p.npt, v t * omega p.nptm s.zmat k t) ?_ ?_ e1 d1 ?_
    (a := s.fval 1 - s.model p (fun j => s.xpt 1 j + s.xbase j)) ?_
  · have : ∀ z : Nat → Nat → ℝ, (fun i j => z i j + -1 * Q i j) = fun i j => z i j - Q i j := fun z => funext fun i => funext fun j => by ring
    rwa [this, this] at main
  · rw [Finset.sum_comm]
    refine Finset.sum_eq_zero fun t ht => ?_
    rw [Finset.mem_Icc] at ht
    rw [← Finset.mul_sum, (Good.omega_sum hg ht.1 ht.2).1, mul_zero]
  · intro j j1 j2
    simp only [Finset.sum_mul]
    rw [Finset.sum_comm]
    refine Finset.sum_eq_zero fun t ht => ?_
    rw [Finset.mem_Icc] at ht
    rw [show ∑ k ∈ Finset.Icc 1 p.npt, v t * omega p.nptm s.zmat k t * s.xpt k j = v t * ∑ k ∈ Finset.Icc 1 p.npt, omega p.nptm s.zmat k t * s.xpt k j by
      rw [Finset.mul_sum]; exact Finset.sum_congr rfl fun k _ => by ring, (Good.omega_sum hg ht.1 ht.2).2 j j1 j2, mul_zero]
  · intro i j i1 i2 j1 j2
    rw [same] at d1
    rw [d1.eq i1 i2 j1 j2, ← l1.eq i1 i2 j1 j2, add_zero]
    simp only [Finset.mul_sum, Finset.sum_mul]
    rw [Finset.sum_comm]
    exact Finset.sum_congr rfl fun k _ => Finset.sum_congr rfl fun t _ => by ring
  · intro k k1 k2
    rw [show (fun j => s.xpt k j + s.xbase j) = fun j => s.xbase j + s.xpt k j from funext fun j => add_comm _ _, fit k k1 k2,
      show (fun j => s.xbase j + s.xpt k j) = fun j => s.xpt k j + s.xbase j from funext fun j => add_comm _ _, model_shift, model_shift]
    have := hc.int k 1 k1 k2 (le_refl _) n1
    linarith

/-- The change of a point: the change of the model has the least Frobenius norm. -/
theorem move_least {p : Par ℝ} (hp : Valid p) {o : Subs ℝ} (hu : o.update = update p) {s : St ℝ} (h : Swap p s) {G0 G1 E : Nat → Nat → ℝ} {e : (Nat → ℝ) → ℝ}
    (h0 : HasHess p.n (s.model p) G0) (h1 : HasHess p.n ((move p o s).model p) G1) (hE : Fits p (move p o s) e E) :
    frob p.n (fun i j => G1 i j - G0 i j) ≤ frob p.n (fun i j => E i j - G0 i j) := by
  have hm := move_keep hp real_root hu h
  have t1 : 1 ≤ s.knew.toNat := by have := h.t1; omega
  have t2 : s.knew.toNat ≤ p.npt := by have := h.t2; omega
  have h0' := h0.shift s.xbase
  rw [show (fun x => s.model p fun j => x j + s.xbase j) = fun y => (s.fopt - s.quad p s.xopt) + s.quad p y from funext fun y => model_shift p s y] at h0'
  refine least_of hp hm h0' (fun t => if t = s.knew.toNat then s.diff else 0) (a := s.quad p s.xopt - s.fopt) (fun y => ?_) h1 hE
  rw [move_quad p o s hm.idz rfl t1 t2 y, Finset.sum_eq_single s.knew.toNat]
  · rw [if_pos rfl]; ring
  · intro t _ ht; rw [if_neg ht, zero_mul]
  · intro w; exact absurd (Finset.mem_Icc.mpr ⟨t1, t2⟩) w

/-- The model of `tryFrobenius`. -/
theorem try_cases {p : Par ℝ} {s : St ℝ} (hid : s.idz = 1) :
    (∀ y, (tryFrobenius p s).quad p y = s.quad p y) ∨
    ∃ v : Nat → ℝ, ∀ y, (tryFrobenius p s).quad p y = ∑ l ∈ Finset.Icc 1 p.npt, v l * lfun p (tryFrobenius p s) l y := by
  unfold tryFrobenius
  dsimp only
  split_ifs
  · exact Or.inl fun y => rfl
  · exact Or.inr ⟨_, frobenius_quad p s hid _⟩
  · exact Or.inl fun y => rfl
  · exact Or.inr ⟨_, frobenius_quad p s hid _⟩
  · exact Or.inl fun y => rfl
  · exact Or.inl fun y => rfl

/-- **Least Frobenius norm.**  When a point is replaced (label `l410`), the second derivatives `G1` of the new model are
those of the old one, `G0`, plus the least possible change for the Frobenius norm, among all the quadratic functions which
take the values of the objective function at the new points; or they have themselves the least possible Frobenius norm. -/
theorem newuoa_least_frobenius {p : Par ℝ} (hp : Valid p) {o : Subs ℝ} (hu : o.update = update p) (hb : o.biglag = biglag realTrig p)
    (f : (Nat → ℝ) → ℝ) {s0 : St ℝ} (hl : s0.log = []) {fuel : Nat} {s : St ℝ} (hr : run p o (fun _ => f) fuel (.l50, init s0) = (.l410, s))
    {G0 G1 : Nat → Nat → ℝ} (h0 : HasHess p.n (s.model p) G0) (h1 : HasHess p.n ((l410 p o s).2.model p) G1) :
    (∀ k, 1 ≤ k → k ≤ p.npt → (l410 p o s).2.fval k = f (fun j => (l410 p o s).2.xbase j + (l410 p o s).2.xpt k j)) ∧
    ((∀ e E, Fits p (l410 p o s).2 e E → frob p.n (fun i j => G1 i j - G0 i j) ≤ frob p.n (fun i j => E i j - G0 i j)) ∨
     (∀ e E, Fits p (l410 p o s).2 e E → frob p.n G1 ≤ frob p.n E)) := by
  have npt0 : 0 < p.npt := by have := hp.lo; omega
  obtain ⟨-, keep⟩ := run_keep hp hu hb (calfun := fun _ => f) fuel (.l50, init s0) (ok_init npt0 s0 hl) trivial ⟨0, Begun.zero p s0, npt0⟩
  have val := run_values p o f fuel (.l50, init s0) (by intro e he; rw [show (init s0).log = [] from hl] at he; simp at he)
  rw [hr] at keep val
  have sw : Swap p s := keep
  have hm := move_keep hp real_root hu sw
  obtain ⟨f1, f2, f3⟩ := tryFrobenius_interp hm.idz hm.inv hm.int
  obtain ⟨e1, e2, e3, e4, e5, e6, -⟩ := tryFrobenius_fields p (move p o s)
  have hc : Core p (tryFrobenius p (move p o s)) := ⟨f3, f2, f1, fun k k1 k2 => by rw [e1, e2, e3, e4]; exact hm.log k k1 k2⟩
  obtain ⟨u, hu1, hu2, hu3, hu4, hu5⟩ : ∃ u, u = (l410 p o s).2 ∧ (∀ y, u.model p y = (tryFrobenius p (move p o s)).model p y) ∧ u.xpt = (move p o s).xpt ∧ u.fval = (move p o s).fval ∧
      u.xbase = s.xbase := by
    refine ⟨_, rfl, ?_⟩
    rw [show s.xbase = (move p o s).xbase from rfl, ← e3, ← e1, ← e2]
    unfold l410
    dsimp only
    split_ifs <;> exact ⟨fun y => rfl, rfl, rfl, rfl⟩
  rw [← hu1] at h1 ⊢
  have fits : ∀ e E, Fits p u e E → Fits p (tryFrobenius p (move p o s)) e E ∧ Fits p (move p o s) e E := by
    intro e E ⟨w1, w2⟩
    rw [hu3, hu4, hu5] at w2
    exact ⟨⟨w1, by rw [e1, e2, e3]; exact w2⟩, w1, w2⟩
  have h1' : HasHess p.n ((tryFrobenius p (move p o s)).model p) G1 := by rw [← funext hu2]; exact h1
  constructor
  · intro k k1 k2
    have := hm.log k k1 k2
    rw [hu3, hu4, hu5]
    exact val _ this
  · rcases try_cases (p := p) hm.idz with q | ⟨v, q⟩
    · left
      intro e E hE
      refine move_least hp hu sw h0 ?_ (fits e E hE).2
      refine (congrArg (fun z => HasHess p.n z G1) (funext fun x => ?_)).mp h1'
      unfold St.model
      rw [q, q, e3, e5, e6]
    · right
      intro e E hE
      have := least_of hp hc (hasHess_const p.n 0) v (a := 0) (fun y => by rw [q, zero_add, add_zero]) h1' (fits e E hE).1
      simpa only [sub_zero] using this

/-- The first model: the second derivatives have the least Frobenius norm. -/
theorem first_least {p : Par ℝ} (hp : Valid p) {s : St ℝ} (h : Begun p p.npt s) {G E : Nat → Nat → ℝ} {e : (Nat → ℝ) → ℝ}
    (hG : HasHess p.n (s.quad p) G) (hE : HasHess p.n e E) {a : ℝ} (hv : ∀ k, 1 ≤ k → k ≤ p.npt → e (s.xpt k) = s.quad p (s.xpt k) + a) :
    frob p.n G ≤ frob p.n E := by
  have nm := hp.nptm
  have n1 := hp.n1
  have lo := hp.lo
  have hr := hp.r.ne'
  have z1 : s.xpt 1 = fun _ => 0 := funext fun j => h.pts.p1 j
  -- an entry of the matrix is zero, or it is given by the values
  have diag : ∀ i, 1 ≤ i → i ≤ p.n → G i i = 0 ∨ G i i = E i i := by
    intro i i1 i2
    by_cases c : 1 + p.n + i ≤ p.npt
    · right
      have x1 : s.xpt (1 + i) = fun l => p.rhobeg * if l = i then 1 else 0 := funext fun j => h.pts.p2 i j i1 i2 (by omega)
      have x2 : s.xpt (1 + p.n + i) = fun l => -p.rhobeg * if l = i then 1 else 0 := funext fun j => h.pts.p3 i j i1 i2 c
      have g := hG.cross i1 i2 i1 i2 p.rhobeg (-p.rhobeg)
      have w := hE.cross i1 i2 i1 i2 p.rhobeg (-p.rhobeg)
      have x0 : s.xpt 1 = fun l => (p.rhobeg * if l = i then (1 : ℝ) else 0) + -p.rhobeg * if l = i then 1 else 0 := by rw [z1]; funext l; ring
      rw [← x0, ← x1, ← x2, ← z1] at g w
      rw [hv 1 (le_refl _) (by omega), hv _ (by omega) (by omega), hv _ (by omega) c] at w
      have : (G i i - E i i) * (p.rhobeg * -p.rhobeg) = 0 := by linear_combination g - w
      rcases mul_eq_zero.mp this with q | q
      · exact sub_eq_zero.mp q
      · exact absurd q (mul_ne_zero hr (neg_ne_zero.mpr hr))
    · left
      have g := hG.cross i1 i2 i1 i2 1 1
      have e1 : (fun l => (1 : ℝ) * (if l = i then 1 else 0) + 1 * if l = i then 1 else 0) = fun l => 2 * del l i := by funext l; unfold del; ring
      have e2 : (fun l => (1 : ℝ) * if l = i then 1 else 0) = fun l => 1 * del l i := rfl
      have e3 : (fun _ : Nat => (0 : ℝ)) = fun l => 0 * del l i := by funext l; ring
      rw [e1, e2, e3, h.quad_eq hp, h.quad_eq hp, h.quad_eq hp, hform_one i1 i2, hform_one i1 i2, hform_one i1 i2, dot_del i1 i2, dot_del i1 i2, dot_del i1 i2,
        h.q.h0 i i1 i2 (by omega)] at g
      linear_combination g
  have off : ∀ i j, 1 ≤ j → j < i → i ≤ p.n → G i j = 0 ∨ G i j = E i j := by
    intro i j j1 ji i2
    by_cases c : ∃ l, p.n < l ∧ 1 + p.n + l ≤ p.npt ∧ pair p (1 + p.n + l) = (i, j)
    · right
      obtain ⟨l, l1, l2, e⟩ := c
      have arm0 : ∀ i, arm p s i ≠ 0 := fun i => by unfold arm; split_ifs <;> [exact neg_ne_zero.mpr hr; exact hr]
      have x1 : s.xpt (side p s.fval i) = fun t => arm p s i * if t = i then 1 else 0 := funext fun t => by
        have := (h.axis hp l1 (by omega) t).1
        rwa [e] at this
      have x2 : s.xpt (side p s.fval j) = fun t => arm p s j * if t = j then 1 else 0 := funext fun t => by
        have := (h.axis hp l1 (by omega) t).2
        rwa [e] at this
      have x3 : s.xpt (1 + p.n + l) = fun t => arm p s i * (if t = i then 1 else 0) + arm p s j * if t = j then 1 else 0 := funext fun t => by
        rw [h.pts.p4 l t l1 l2, e, x1, x2]
      have g := hG.cross (by omega) i2 j1 (by omega) (arm p s i) (arm p s j)
      have w := hE.cross (by omega) i2 j1 (by omega) (arm p s i) (arm p s j)
      have k1 := side_ge p s.fval (show 1 ≤ i by omega)
      have k2 := side_le p s.fval i2
      have k3 := side_ge p s.fval j1
      have k4 := side_le p s.fval (show j ≤ p.n by omega)
      rw [← x1, ← x2, ← x3, ← z1] at g w
      rw [hv 1 (le_refl _) (by omega), hv _ (by omega) l2, hv _ (by omega) (by omega), hv (side p s.fval j) (by omega) (by omega)] at w
      have : (G i j - E i j) * (arm p s i * arm p s j) = 0 := by linear_combination g - w
      exact sub_eq_zero.mp ((mul_eq_zero.mp this).resolve_right (mul_ne_zero (arm0 _) (arm0 _)))
    · left
      have g := hG.cross (by omega) i2 j1 (by omega) 1 1
      have e1 : (fun l => (1 : ℝ) * (if l = i then 1 else 0) + 1 * if l = j then 1 else 0) = fun l => 1 * del l i + 1 * del l j := rfl
      have e2 : ∀ i, (fun l => (1 : ℝ) * if l = i then 1 else 0) = fun l => 1 * del l i := fun _ => rfl
      have e3 : (fun _ : Nat => (0 : ℝ)) = fun l => 0 * del l j := by funext l; ring
      rw [e1, e2, e2, e3, h.quad_eq hp, h.quad_eq hp, h.quad_eq hp, h.quad_eq hp, hform_two j1 ji i2, hform_one (by omega) i2, hform_one j1 (by omega), hform_one j1 (by omega), dot_addr,
        dot_del (by omega) i2, dot_del j1 (by omega), dot_del j1 (by omega), h.q.h3 i j ji fun l l1 l2 w => c ⟨l, l1, l2, w⟩] at g
      linear_combination g
  refine Finset.sum_le_sum fun i hi => Finset.sum_le_sum fun j hj => ?_
  rw [Finset.mem_Icc] at hi hj
  have : G i j = 0 ∨ G i j = E i j := by
    rcases lt_trichotomy i j with c | c | c
    · rw [hG.1 i j hi.1 hi.2 hj.1 hj.2, hE.1 i j hi.1 hi.2 hj.1 hj.2]
      exact off j i hi.1 c hj.2
    · rw [← c]; exact diag i hi.1 hi.2
    · exact off i j hj.1 c hi.2
  rcases this with w | w
  · rw [w, zero_pow two_ne_zero]; exact sq_nonneg _
  · rw [w]

/-- **The first model.**  Its second derivatives `G` have the least Frobenius norm among all the quadratic functions which take the first values. -/
theorem newuoa_first_least {p : Par ℝ} (hp : Valid p) (hm : (p.npt : Int) ≤ p.maxfun) (o : Subs ℝ) (calfun : Nat → (Nat → ℝ) → ℝ) (s0 : St ℝ) :
    ∃ fuel s, run p o calfun fuel (.l50, init s0) = (.l100, s) ∧ s.nf = p.npt ∧
      ∀ G, HasHess p.n (s.model p) G → ∀ e E, Fits p s e E → frob p.n G ≤ frob p.n E := by
  obtain ⟨fuel, s, e, -, -, en, t, b, rfl⟩ := run_begins hp hm o calfun s0
  refine ⟨fuel, _, e, en, fun G hG q E hE => ?_⟩
  obtain ⟨hE, fit⟩ := hE
  change ∀ k, 1 ≤ k → k ≤ p.npt → q (fun j => t.xbase j + t.xpt k j) = t.fval k at fit
  have hG' := (hG.shift t.xbase).add (hasHess_const p.n (t.quad p (t.xpt t.kopt) - t.fopt))
  have same : (fun x => St.model p { (begin p t).2 with nfsav := t.nf } (fun j => x j + t.xbase j) + (t.quad p (t.xpt t.kopt) - t.fopt)) = t.quad p := by
    funext y
    rw [show (fun j => y j + t.xbase j) = fun j => y j + (St.xbase { (begin p t).2 with nfsav := t.nf }) j from rfl, model_shift]
    show t.fopt - t.quad p (t.xpt t.kopt) + t.quad p y + _ = _
    ring
  rw [same] at hG'
  simp only [add_zero] at hG'
  refine first_least hp b hG' (hE.shift t.xbase) (a := t.fval 1) fun k k1 k2 => ?_
  rw [show (fun j => t.xpt k j + t.xbase j) = fun j => t.xbase j + t.xpt k j from funext fun j => add_comm _ _, fit k k1 k2, b.value hp k1 k2]
  ring

/-- A trial point which is better than `XOPT` replaces a point, or the predicted value is not less than that of `XOPT`. -/
theorem better_moves {p : Par ℝ} (hp : Valid p) {o : Subs ℝ} (hu : o.update = update p) (hb : o.biglag = biglag realTrig p)
    (f : (Nat → ℝ) → ℝ) {s0 : St ℝ} (hl : s0.log = []) {fuel : Nat} {s : St ℝ} (hr : run p o (fun _ => f) fuel (.l50, init s0) = (.ask, s))
    (hn : p.npt < s.nf) (hk : s.knew ≠ -1) (hf : f s.x < s.fopt) (hq : predicted p s < 0) :
    (run p o (fun _ => f) (fuel + 1) (.l50, init s0)).1 = .l410 := by
  have npt0 : 0 < p.npt := by have := hp.lo; omega
  obtain ⟨ok, keep⟩ := run_keep hp hu hb (calfun := fun _ => f) fuel (.l50, init s0) (ok_init npt0 s0 hl) trivial ⟨0, Begun.zero p s0, npt0⟩
  have rad : RadOk p (run p o (fun _ => f) fuel (.l50, init s0)).1 (run p o (fun _ => f) fuel (.l50, init s0)).2 :=
    rad_run real_root hp.rend hp.rbeg fuel (.l50, init s0) (ok_init npt0 s0 hl) trivial
  rw [run_add p o (fun _ => f) fuel 1, hr]
  rw [hr] at ok keep rad
  rcases keep with ⟨w, -⟩ | ⟨-, h1, h2, h3⟩
  · exact absurd hn (by have w : s.nf ≤ p.npt := w; omega)
  obtain ⟨⟨t1, t2, t3⟩, hx⟩ := h3.resolve_left hk
  have hx' : s.x = fun j => s.xbase j + s.xnew j := by
    rcases ok.1.2.2 with w | w
    · exact absurd w.1 (not_le.mpr hn)
    · exact w.2.2.1
  have hh : Half p (errors p (put (f s.x) s)) := by
    refine errors_half (h1.same ⟨rfl, rfl, rfl, rfl⟩ ⟨rfl, rfl, rfl, rfl, rfl⟩ fun _ q => List.mem_cons_of_mem _ q) (h2.same ⟨rfl, rfl, rfl, rfl, rfl, rfl⟩) t1 hx ?_ ?_
    · show Lag p s s.xnew
      rw [hx]; exact t3
    · show ((fun j => s.xbase j + s.xnew j), f s.x) ∈ (s.x, f s.x) :: s.log
      rw [← hx']; exact List.mem_cons_self
  obtain ⟨-, -, -, -, -, -, -, -, -, -, -, -, -, -, -, e16, e17, e18, -, -, -⟩ := errors_fields p (put (f s.x) s)
  have e2 : (errors p (put (f s.x) s)).vquad = predicted p s := by unfold errors; dsimp only; split_ifs <;> rfl
  have less : (errors p (put (f s.x) s)).f < (errors p (put (f s.x) s)).fsave := by rw [e16, e17]; exact hf
  have rho : 0 < (errors p (put (f s.x) s)).rho := by rw [e18]; exact lt_of_lt_of_le hp.rend (rad hn).1
  show (after p (put (f s.x) s)).1 = .l410
  unfold after
  rw [if_neg (show ¬ (put (f s.x) s).nf ≤ p.npt from not_le.mpr hn), if_neg (show ¬ (put (f s.x) s).knew = -1 from hk)]
  show (rest p (errors p (put (f s.x) s))).1 = .l410
  generalize errors p (put (f s.x) s) = u at hh e2 less rho ⊢
  have beta := hh.lag.beta_nonneg hh.core.inv
  unfold rest
  dsimp only
  split_ifs with c1 c2 c3
  · rfl
  · rw [e2] at c2; exact absurd c2 (not_le.mpr hq)
  · obtain ⟨-, k2⟩ := pickKnew_spec (p := p) (s := { u with ratio := (u.f - u.fsave) / u.vquad, delta := newDelta { u with ratio := (u.f - u.fsave) / u.vquad } }) hh.core.idz beta rho
    exact absurd (by exact_mod_cast c3) (k2 less (hh.lag.some_nonzero hh.core.inv))
  · rfl

/-- The run at `L100` asks a value at the step of `trsapp`, when it is long enough. -/
theorem asks {p : Par ℝ} {o : Subs ℝ} {f : (Nat → ℝ) → ℝ} {s0 s : St ℝ} {fuel : Nat} (e : run p o (fun _ => f) fuel (.l50, init s0) = (.l100, s))
    (hs : lit 1 2 * s.rho ≤ (cmin (CMath.sqrt (acc p.n (fun i => ((o.trsapp { s with knew := 0 }).1 i) * ((o.trsapp { s with knew := 0 }).1 i)) 0)) s.delta : ℝ))
    (hm : (s.nf : Int) < p.maxfun) :
    ∃ v, run p o (fun _ => f) (fuel + 4) (.l50, init s0) = (.ask, v) ∧ v.nf = s.nf + 1 ∧ v.knew = 0 ∧ v.d = (o.trsapp { s with knew := 0 }).1 := by
  obtain ⟨u, e1, un, uk, ud⟩ : ∃ u, l100 p o s = (.l120, u) ∧ u.nf = s.nf ∧ u.knew = 0 ∧ u.d = (o.trsapp { s with knew := 0 }).1 := by
    unfold l100
    dsimp only
    rw [if_neg (not_lt.mpr hs)]
    exact ⟨_, rfl, rfl, rfl, rfl⟩
  have e2 : run p o (fun _ => f) (fuel + 1) (.l50, init s0) = (.l120, u) := by
    rw [run_add, e]; exact e1
  have e3 : ∃ v, l120 p o u = (.l290, v) ∧ v.nf = u.nf ∧ v.knew = 0 ∧ v.d = u.d := by
    unfold l120
    refine ⟨_, rfl, ?_⟩
    have c : ∀ t : St ℝ, t.knew = 0 → (if t.knew > 0 then { t with alpha := (o.biglag t).1, d := (o.biglag t).2.1, vlag := (o.biglag t).2.2.1, w := (o.biglag t).2.2.2 } else t) = t := by
      intro t h; rw [if_neg (by rw [h]; decide)]
    obtain ⟨t, ht, t1, t2, t3⟩ : ∃ t, t = (if u.dsq ≤ u.xoptsq * lit 1 1000 then shift p u else u) ∧ t.nf = u.nf ∧ t.knew = 0 ∧ t.d = u.d := by
      refine ⟨_, rfl, ?_⟩
      split_ifs <;> exact ⟨rfl, uk, rfl⟩
    dsimp only
    rw [← ht, c t t2, if_neg (show ¬ ((lagrange p t).knew > 0 ∧ _) from fun w => by have w1 : t.knew > 0 := w.1; omega)]
    exact ⟨t1, t2, t3⟩
  obtain ⟨v, e3, vn, vk, vd⟩ := e3
  refine ⟨(l290 v).2, ?_, ?_, vk, vd.trans ud⟩
  · rw [show fuel + 4 = fuel + 1 + 3 from rfl, run_add, e2]
    show stepF p o (fun _ => f) (stepF p o (fun _ => f) (stepF p o (fun _ => f) (.l120, u))) = _
    rw [show stepF p o (fun _ => f) (.l120, u) = (.l290, v) from e3]
    show l310 p (l290 v).2 = _
    unfold l310
    rw [if_neg]
    show ¬ ((v.nf + 1 : Nat) : Int) > max p.maxfun 1
    have := le_max_left p.maxfun 1
    omega
  · show v.nf + 1 = s.nf + 1
    rw [vn, un]

/-- For instance, the first trust region step for a linear function of one variable replaces a point. -/
theorem reaches (s0 : St ℝ) :
    let p : Par ℝ := ⟨1, 3, 1, 1 / 1000, 200⟩
    let o : Subs ℝ := ⟨fun s => (fun _ => -1, 0, s.w), biglag realTrig p, fun s => (s.d, s.w, s.vlag, s.beta, s.xnew), update p⟩
    let f : (Nat → ℝ) → ℝ := fun x => x 1
    ∃ fuel s, run p o (fun _ => f) fuel (.l50, init { s0 with log := [] }) = (.l410, s) := by
  intro p o f
  have hp : Valid p := ⟨by decide, by decide, by decide, by norm_num [p], by norm_num [p]⟩
  have hf : IsQuadratic p.n f := by
    refine ⟨0, fun i => if i = 1 then 1 else 0, fun i j => 0, fun x => ?_⟩
    show f x = 0 + ∑ i ∈ Finset.Icc 1 1, _ + ∑ i ∈ Finset.Icc 1 1, ∑ j ∈ Finset.Icc 1 1, _
    simp [f]
  obtain ⟨fuel, s, e, er, ed, en, -⟩ := run_begins hp (by decide) o (fun _ => f) { s0 with log := [] }
  have hd : acc p.n (fun i => ((o.trsapp { s with knew := 0 }).1 i) * ((o.trsapp { s with knew := 0 }).1 i)) 0 = 1 := by
    rw [acc_zero]; simp [p, o]
  obtain ⟨v, e4, vn, vk, vd⟩ := asks e (by
    rw [hd, er, ed, ExactMath.lit_eq, show CMath.sqrt (1 : ℝ) = 1 from Real.sqrt_one]
    unfold cmin
    norm_num [p]) (by rw [en]; decide)
  have hn : p.npt < v.nf := by rw [vn, en]; decide
  have npt0 : 0 < p.npt := by decide
  have ex := newuoa_quadratic hp (by decide) rfl rfl hf rfl e4 (Or.inr (Or.inr ⟨rfl, hn⟩))
  obtain ⟨ok, keep⟩ := run_keep hp (show o.update = update p from rfl) rfl (calfun := fun _ => f) (fuel + 4) (.l50, init { s0 with log := [] }) (ok_init npt0 _ rfl) trivial
    ⟨0, Begun.zero p _, npt0⟩
  rw [e4] at ok keep
  rcases keep with ⟨w, -⟩ | ⟨-, k1, k2, k3⟩
  · exact absurd hn (by have w : v.nf ≤ p.npt := w; omega)
  rcases ok.1.2.2 with ⟨w, -⟩ | ⟨-, m, hx, -⟩
  · exact absurd hn (by have w : v.nf ≤ p.npt := w; omega)
  obtain ⟨tr, hxn⟩ := k3.resolve_left (by rw [vk]; decide)
  have val : f v.x = v.fopt - 1 := by
    have a := ex fun j => v.xbase j + v.xopt j
    unfold St.model at a
    rw [show (fun j => v.xbase j + v.xopt j - v.xbase j) = v.xopt from funext fun j => by ring, sub_self, add_zero] at a
    rw [a, hx, hxn, vd]
    show v.xbase 1 + (v.xopt 1 + -1) = v.xbase 1 + v.xopt 1 - 1
    ring
  have pr : predicted p v = f v.x - v.fopt := by
    rw [predicted_eq p v tr.1 fun i _ _ => by rw [hxn]]
    have := ex v.x
    unfold St.model at this
    rw [hx, show (fun j => v.xbase j + v.xnew j - v.xbase j) = v.xnew from funext fun j => by ring] at this
    rw [hx]
    linarith
  exact ⟨fuel + 4 + 1, _, Prod.ext (better_moves hp rfl rfl f rfl e4 hn (by rw [vk]; decide) (by rw [val]; linarith) (by rw [pr, val]; linarith)) rfl⟩

/-- Then, the theorem above applies. -/
example (s0 : St ℝ) :
    let p : Par ℝ := ⟨1, 3, 1, 1 / 1000, 200⟩
    let o : Subs ℝ := ⟨fun s => (fun _ => -1, 0, s.w), biglag realTrig p, fun s => (s.d, s.w, s.vlag, s.beta, s.xnew), update p⟩
    let f : (Nat → ℝ) → ℝ := fun x => x 1
    ∃ fuel s, run p o (fun _ => f) fuel (.l50, init { s0 with log := [] }) = (.l410, s) ∧
      ∃ G0 G1, HasHess p.n (s.model p) G0 ∧ HasHess p.n ((l410 p o s).2.model p) G1 ∧
        Fits p (l410 p o s).2 f (fun _ _ => 0) ∧ (frob p.n (fun i j => G1 i j - G0 i j) ≤ frob p.n (fun i j => 0 - G0 i j) ∨ frob p.n G1 ≤ frob p.n (fun _ _ => 0)) := by
  intro p o f
  have hp : Valid p := ⟨by decide, by decide, by decide, by norm_num [p], by norm_num [p]⟩
  obtain ⟨fuel, s, e⟩ := reaches s0
  have hq : ∀ u : St ℝ, ∃ G, HasHess p.n (u.model p) G := fun u => by
    have := (((isQuadratic_const p.n u.fopt).add ((isQuadratic_quad p u).shift fun j => -u.xbase j)).add (isQuadratic_const p.n (-u.quad p u.xopt))).hess
    refine (congrArg (fun z => ∃ G, HasHess p.n z G) (funext fun y => ?_)).mp this
    unfold St.model
    simp only [← sub_eq_add_neg]
    ring
  obtain ⟨G0, h0⟩ := hq s
  obtain ⟨G1, h1⟩ := hq (l410 p o s).2
  obtain ⟨a, b⟩ := newuoa_least_frobenius hp rfl rfl f rfl e h0 h1
  have fit : Fits p (l410 p o s).2 f (fun _ _ => 0) := by
    refine ⟨?_, fun k k1 k2 => (a k k1 k2).symm⟩
    have := hasHess_dot p.n (fun i => if i = 1 then (1 : ℝ) else 0)
    refine (congrArg (fun z => HasHess p.n z _) (funext fun y => ?_)).mp this
    simp [Powell.dot, p, f]
  exact ⟨fuel, s, e, G0, G1, h0, h1, fit, b.imp (fun w => w _ _ fit) fun w => w _ _ fit⟩

end Opk.Newuoa
