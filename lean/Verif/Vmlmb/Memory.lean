import Verif.Vmlmb.TwoLoop
import Verif.Vmlmb.Converge
/-! # C23: the memory of the variable metric optimizer -/
set_option linter.unusedSectionVars false
set_option linter.unusedSimpArgs false
namespace Opk.Vmlmb
open Opk.Optim

variable {F M V : Type} [Add F] [Sub F] [Mul F] [Div F] [Neg F] [Zero F] [One F]
  [LinearOrder F] [BEq F] [CMath F]

/-! ## Specification -/

/-- Projected gradient at the point of an answer to `OPK_TASK_COMPUTE_FG`. -/
def projGrad (par : Par F V) (x g : V) : V :=
  match par.box with
  | none => g
  | some box => match box.freevar x g with | .ok w => par.vs.product w g | .error _ => g

/-- The points and gradients given by the client when it answers `OPK_TASK_NEW_X` or `OPK_TASK_FINAL_X`
since the last start, the most recent first.  For the method BLMVM, the gradients are the projected ones:
`pg` is the projected gradient of the last answer to `OPK_TASK_COMPUTE_FG`. -/
def visited (par : Par F V) (ops : LineSearch.Ops F M) (o : Opt F M V) (vis : List (V × V)) (pg : V) :
    List (Call F V) → List (V × V)
  | [] => vis
  | .start x :: l => visited par ops (step par ops o (.start x)) [] pg l
  | .iterate x f g :: l =>
    visited par ops (step par ops o (.iterate x f g))
      (if o.task = .newX ∨ o.task = .finalX then (x, if par.method = .blmvm then pg else g) :: vis else vis)
      (if o.task = .computeFG then projGrad par x g else pg) l

/-- The projected gradient of the last answer to `OPK_TASK_COMPUTE_FG`. -/
def lastProj (par : Par F V) (ops : LineSearch.Ops F M) (o : Opt F M V) (pg : V) : List (Call F V) → V
  | [] => pg
  | .start x :: l => lastProj par ops (step par ops o (.start x)) pg l
  | .iterate x f g :: l =>
    lastProj par ops (step par ops o (.iterate x f g))
      (if o.task = .computeFG then projGrad par x g else pg) l

/-- The difference of successive points. -/
def diff (vs : Vs F V) (a b : V) : V := vs.axpby 1 a (-1) b

/-- The factor of a pair: the inverse of the curvature or zero if it is not positive. -/
def factor (vs : Vs F V) (s y : V) : F := if vs.dot s y ≤ 0 then 0 else 1 / vs.dot s y

/-! ## Invariant -/

/-- The saved pair `j` is the `j`-th most recent difference. -/
def PairOk (par : Par F V) (o : Opt F M V) (vis : List (V × V)) (j : Nat) : Prop :=
  ∃ a b, vis[j - 1]? = some a ∧ vis[j]? = some b ∧
    o.s (slot par o j) = diff par.vs a.1 b.1 ∧ o.y (slot par o j) = diff par.vs a.2 b.2 ∧
    (par.method ≠ .vmlmb →
      o.rho (slot par o j) = factor par.vs (diff par.vs a.1 b.1) (diff par.vs a.2 b.2))

/-- The point saved at the start of the current line search. -/
def BaseOk (par : Par F V) (o : Opt F M V) (vis : List (V × V)) : Prop :=
  ∃ b, vis[0]? = some b ∧ o.x0 = b.1 ∧ o.g0 = b.2 ∧
    (par.saveMemory → o.x0ref = some (slot par o 0) ∧ o.g0ref = some (slot par o 0) ∧ o.mp < par.m)

/-- The scaling factor is that of the most recent pair of positive curvature, if there is one in memory. -/
def GamOk (vs : Vs F V) (mp : Int) (γ : F) (vis : List (V × V)) : Prop :=
  ∀ (j : Nat) (a b : V × V), 1 ≤ j → (j : Int) ≤ mp → vis[j - 1]? = some a → vis[j]? = some b →
    ¬ vs.dot (diff vs a.1 b.1) (diff vs a.2 b.2) ≤ 0 → vs.dot (diff vs a.2 b.2) (diff vs a.2 b.2) > 0 →
    (∀ (i : Nat) (c e : V × V), 1 ≤ i → i < j → vis[i - 1]? = some c → vis[i]? = some e →
      vs.dot (diff vs c.1 e.1) (diff vs c.2 e.2) ≤ 0) →
    γ = vs.dot (diff vs a.1 b.1) (diff vs a.2 b.2) / vs.dot (diff vs a.2 b.2) (diff vs a.2 b.2)

theorem GamOk.mono {vs : Vs F V} {mp mp' : Int} {γ : F} {vis : List (V × V)} (h : GamOk vs mp γ vis)
    (hle : mp' ≤ mp) : GamOk vs mp' γ vis :=
  fun j a b j1 j2 => h j a b j1 (le_trans j2 hle)

structure MemInv (par : Par F V) (o : Opt F M V) (vis : List (V × V)) (pg : V) : Prop where
  pairs : ∀ j : Nat, 1 ≤ j → (j : Int) ≤ o.mp → PairOk par o vis j
  base : (o.task = .computeFG ∧ 0 < o.evaluations ∨ (o.task = .newX ∨ o.task = .finalX) ∧ 1 ≤ o.iterations) →
    BaseOk par o vis
  refs : ¬ par.saveMemory → o.x0ref = none ∧ o.g0ref = none
  none : (o.task = .newX ∨ o.task = .finalX) ∧ o.iterations = 0 ∨ o.task = .computeFG ∧ o.evaluations = 0 →
    vis = []
  proj : par.method = .blmvm → (o.task = .newX ∨ o.task = .finalX) → o.gp = pg
  gam : par.method ≠ .vmlmb → GamOk par.vs o.mp o.gamma vis

/-! ## Stages -/

theorem PairOk.congr {par : Par F V} {o r : Opt F M V} {vis : List (V × V)} {j : Nat} (h : PairOk par o vis j)
    (hu : r.updates = o.updates) (hs : r.s = o.s) (hy : r.y = o.y)
    (hr : par.method ≠ .vmlmb → r.rho = o.rho) : PairOk par r vis j := by
  obtain ⟨a, b, h1, h2, h3, h4, h5⟩ := h
  refine ⟨a, b, h1, h2, ?_, ?_, fun hm => ?_⟩
  · rw [slot_congr par o r hu, hs]; exact h3
  · rw [slot_congr par o r hu, hy]; exact h4
  · rw [slot_congr par o r hu, hr hm]; exact h5 hm

theorem BaseOk.congr {par : Par F V} {o r : Opt F M V} {vis : List (V × V)} (h : BaseOk par o vis)
    (hu : r.updates = o.updates) (hs : r.s = o.s) (hy : r.y = o.y) (h1 : r.x0ref = o.x0ref)
    (h2 : r.g0ref = o.g0ref) (h3 : r.x0own = o.x0own) (h4 : r.g0own = o.g0own) (h5 : r.mp = o.mp) :
    BaseOk par r vis := by
  obtain ⟨b, b1, b2, b3, b4⟩ := h
  refine ⟨b, b1, ?_, ?_, ?_⟩
  · unfold Opt.x0 at *; rw [h1, h3, hs]; exact b2
  · unfold Opt.g0 at *; rw [h2, h4, hy]; exact b3
  · rw [h1, h2, h5, slot_congr par o r hu]; exact b4

/-- What `update` stores. -/
theorem update_stores (par : Par F V) (o : Opt F M V) (x g : V) :
    let k := slot par o 0
    let r := update par o x g
    r.s = upd o.s k (diff par.vs x o.x0) ∧ r.y = upd o.y k (diff par.vs g o.g0) ∧
    r.x0ref = o.x0ref ∧ r.g0ref = o.g0ref ∧ r.x0own = o.x0own ∧ r.g0own = o.g0own ∧
    (par.method ≠ .vmlmb →
      r.rho = upd o.rho k (factor par.vs (diff par.vs x o.x0) (diff par.vs g o.g0)) ∧
      r.gamma = (let sty := par.vs.dot (diff par.vs x o.x0) (diff par.vs g o.g0)
                 let yty := par.vs.dot (diff par.vs g o.g0) (diff par.vs g o.g0)
                 if sty ≤ 0 then o.gamma else if yty > 0 then sty / yty else o.gamma)) ∧
    (par.method = .vmlmb → r.rho = o.rho ∧ r.gamma = o.gamma) ∧ r.alpha = o.alpha ∧
    r.d = o.d ∧ r.stp = o.stp ∧ r.bsmin = o.bsmin ∧ r.f0 = o.f0 ∧ r.status = o.status := by
  intro k r
  have hr : r = update par o x g := rfl
  clear_value r
  have hk : slot par o 0 = k := rfl
  clear_value k
  have hg : ∀ (a : Int → V), ({ o with s := a } : Opt F M V).g0 = o.g0 := fun a => rfl
  unfold update at hr
  dsimp only at hr
  rw [hk, hg] at hr
  unfold factor diff
  generalize par.vs.axpby 1 x (-1) o.x0 = s' at *
  generalize par.vs.axpby 1 g (-1) o.g0 = y' at *
  have hc : ∃ a b, curvature par { o with s := upd o.s k s', y := upd o.y k y' } k =
        { o with s := upd o.s k s', y := upd o.y k y', rho := a, gamma := b } ∧
      (par.method ≠ .vmlmb →
        a = upd o.rho k (if par.vs.dot s' y' ≤ 0 then 0 else 1 / par.vs.dot s' y') ∧
        b = (if par.vs.dot s' y' ≤ 0 then o.gamma
          else if par.vs.dot y' y' > 0 then par.vs.dot s' y' / par.vs.dot y' y' else o.gamma)) ∧
      (par.method = .vmlmb → a = o.rho ∧ b = o.gamma) := by
    unfold curvature
    by_cases hm : par.method = .vmlmb
    · rw [if_neg (not_not.2 hm)]
      exact ⟨_, _, rfl, fun h => absurd hm h, fun _ => ⟨rfl, rfl⟩⟩
    · rw [if_pos hm]
      dsimp only
      simp only [upd_same]
      by_cases h1 : par.vs.dot s' y' ≤ 0
      · simp only [if_pos h1]
        exact ⟨_, _, rfl, fun _ => ⟨rfl, rfl⟩, fun h => absurd h hm⟩
      · simp only [if_neg h1]
        by_cases h2 : par.vs.dot y' y' > 0
        · simp only [if_pos h2]
          exact ⟨_, _, rfl, fun _ => ⟨rfl, rfl⟩, fun h => absurd h hm⟩
        · simp only [if_neg h2]
          exact ⟨_, _, rfl, fun _ => ⟨rfl, rfl⟩, fun h => absurd h hm⟩
  obtain ⟨a, b, e1, e2, e3⟩ := hc
  rw [e1] at hr
  dsimp only at hr
  split_ifs at hr <;> subst hr <;>
    exact ⟨rfl, rfl, rfl, rfl, rfl, rfl, e2, e3, rfl, rfl, rfl, rfl, rfl, rfl⟩

/-- The pairs after an update. -/
theorem update_pairs (par : Par F V) (hm : 1 ≤ par.m) (o : Opt F M V) (x g : V) (vis : List (V × V))
    (hp : ∀ j : Nat, 1 ≤ j → (j : Int) ≤ o.mp → PairOk par o vis j) (hb : BaseOk par o vis)
    (h1 : 0 ≤ o.mp) (h2 : o.mp ≤ par.m) (h3 : o.mp ≤ o.updates) :
    ∀ j : Nat, 1 ≤ j → (j : Int) ≤ (update par o x g).mp → PairOk par (update par o x g) ((x, g) :: vis) j := by
  intro j j1 j2
  obtain ⟨-, -, -, k4, k5, -⟩ := update_keeps par o x g
  obtain ⟨s1, s2, -, -, -, -, s7, -⟩ := update_stores par o x g
  generalize update par o x g = r at *
  obtain ⟨b, b1, b2, b3, b4⟩ := hb
  have hslot : ∀ i : Int, slot par r i = slot par o (i - 1) := by
    intro i; unfold slot; rw [k5]; congr 1; omega
  rcases Nat.lt_or_ge 1 j with hj | hj
  · have hj' : (j : Int) - 1 ≤ o.mp := by split_ifs at k4 <;> omega
    have hjm : (j : Int) ≤ par.m := by split_ifs at k4 <;> omega
    obtain ⟨a, c, p1, p2, p3, p4, p5⟩ := hp (j - 1) (by omega) (by omega)
    have hc : ((j - 1 : Nat) : Int) = (j : Int) - 1 := by omega
    rw [hc] at p3 p4 p5
    have hne : slot par o ((j : Int) - 1) ≠ slot par o 0 :=
      (slot_ne par o 0 (j - 1) (by omega) (by omega) (by omega) (by omega)).symm
    refine ⟨a, c, ?_, ?_, ?_, ?_, fun hmm => ?_⟩
    · rw [show j - 1 = (j - 1 - 1) + 1 by omega]; exact p1
    · rw [show j = (j - 1) + 1 by omega]; exact p2
    · rw [hslot, s1, upd_other _ _ _ _ hne]; exact p3
    · rw [hslot, s2, upd_other _ _ _ _ hne]; exact p4
    · rw [hslot, (s7 hmm).1, upd_other _ _ _ _ hne]; exact p5 hmm
  · have hj1 : j = 1 := by omega
    subst hj1
    refine ⟨(x, g), b, rfl, b1, ?_, ?_, fun hmm => ?_⟩
    · rw [hslot, show ((1 : Nat) : Int) - 1 = 0 from rfl, s1, upd_same, b2]
    · rw [hslot, show ((1 : Nat) : Int) - 1 = 0 from rfl, s2, upd_same, b3]
    · rw [hslot, show ((1 : Nat) : Int) - 1 = 0 from rfl, (s7 hmm).1, upd_same, b2, b3]

/-- The scaling factor after an update. -/
theorem update_gamma (par : Par F V) (o : Opt F M V) (x g : V) (vis : List (V × V))
    (hm : par.method ≠ .vmlmb) (hg : GamOk par.vs o.mp o.gamma vis) (hb : BaseOk par o vis) :
    GamOk par.vs (update par o x g).mp (update par o x g).gamma ((x, g) :: vis) := by
  obtain ⟨-, -, -, k4, -⟩ := update_keeps par o x g
  obtain ⟨-, -, -, -, -, -, s7, -⟩ := update_stores par o x g
  obtain ⟨b, b1, b2, b3, -⟩ := hb
  have s8 := (s7 hm).2
  dsimp only at s8
  rw [b2, b3] at s8
  intro j a c j1 j2 p1 p2 hpos hyy hall
  rcases Nat.lt_or_ge 1 j with hj | hj
  · have h0 := hall 1 (x, g) b (le_refl _) hj rfl b1
    rw [s8, if_pos h0]
    refine hg (j - 1) a c (by omega) (by split_ifs at k4 <;> omega) ?_ ?_ hpos hyy ?_
    · rw [show j - 1 = (j - 1 - 1) + 1 by omega] at p1; exact p1
    · rw [show j = (j - 1) + 1 by omega] at p2; exact p2
    · intro i c e i1 i2 q1 q2
      refine hall (i + 1) c e (by omega) (by omega) ?_ q2
      rw [show i + 1 - 1 = (i - 1) + 1 by omega]; exact q1
  · have hj1 : j = 1 := by omega
    subst hj1
    cases p1
    have : c = b := by rw [show (1 : Nat) = 0 + 1 from rfl, List.getElem?_cons_succ, b1] at p2; exact (Option.some.inj p2).symm
    subst this
    rw [s8, if_neg hpos, if_pos hyy]

/-- Saving the current point does not overwrite the pairs in use. -/
theorem savePoint_pairs (par : Par F V) (o : Opt F M V) (x : V) (f : F) (g : V) (vis : List (V × V))
    (hp : ∀ j : Nat, 1 ≤ j → (j : Int) ≤ o.mp → PairOk par o ((x, if par.method = .blmvm then o.gp else g) :: vis) j)
    (h1 : 0 ≤ o.mp) (h2 : o.mp ≤ par.m) (h3 : o.mp ≤ o.updates) (hm : 1 ≤ par.m)
    (hrefs : ¬ par.saveMemory → o.x0ref = none ∧ o.g0ref = none) :
    let r := savePoint par o x f g
    (∀ j : Nat, 1 ≤ j → (j : Int) ≤ r.mp → PairOk par r ((x, if par.method = .blmvm then o.gp else g) :: vis) j) ∧
    BaseOk par r ((x, if par.method = .blmvm then o.gp else g) :: vis) ∧
    (¬ par.saveMemory → r.x0ref = none ∧ r.g0ref = none) := by
  intro r
  have hr : r = savePoint par o x f g := rfl
  obtain ⟨-, -, -, k4, k5, -, -, -, -, -, -, -, -, -, -, -, k17⟩ := savePoint_keeps par o x f g
  clear_value r
  rw [← hr] at k4 k5 k17
  by_cases hsm : par.saveMemory = true
  · have e : r.s = upd o.s (slot par o 0) x ∧
        r.y = upd o.y (slot par o 0) (if par.method = .blmvm then o.gp else g) ∧
        r.x0ref = some (slot par o 0) ∧ r.g0ref = some (slot par o 0) := by
      rw [hr]; unfold savePoint saveRefs
      simp only [hsm, if_true]
      by_cases hmp : o.mp = par.m
      · simp only [if_pos hmp]; unfold Opt.setX0 Opt.setG0; simp
      · simp only [if_neg hmp]; unfold Opt.setX0 Opt.setG0; simp
    obtain ⟨e1, e2, e3, e4⟩ := e
    have hs : slot par r 0 = slot par o 0 := slot_congr par o r k4 0
    have hmp : r.mp < par.m ∧ r.mp ≤ o.mp := by
      rw [k17]; simp only [hsm, true_and]; split_ifs <;> omega
    refine ⟨?_, ?_, fun h => absurd hsm h⟩
    · intro j j1 j2
      obtain ⟨a, c, p1, p2, p3, p4, p5⟩ := hp j j1 (by omega)
      have hne : slot par o j ≠ slot par o 0 :=
        (slot_ne par o 0 j (by omega) (by omega) (by omega) (by omega)).symm
      refine ⟨a, c, p1, p2, ?_, ?_, fun hmm => ?_⟩
      · rw [slot_congr par o r k4, e1, upd_other _ _ _ _ hne]; exact p3
      · rw [slot_congr par o r k4, e2, upd_other _ _ _ _ hne]; exact p4
      · rw [slot_congr par o r k4, k5]; exact p5 hmm
    · refine ⟨_, rfl, ?_, ?_, fun _ => ⟨?_, ?_, hmp.1⟩⟩
      · unfold Opt.x0; rw [e3]; dsimp only; rw [e1, upd_same]
      · unfold Opt.g0; rw [e4]; dsimp only; rw [e2, upd_same]
      · rw [e3, hs]
      · rw [e4, hs]
  · obtain ⟨f1, f2⟩ := hrefs hsm
    have e : r.s = o.s ∧ r.y = o.y ∧ r.x0ref = none ∧ r.g0ref = none ∧ r.x0own = x ∧
        r.g0own = (if par.method = .blmvm then o.gp else g) := by
      rw [hr]; unfold savePoint saveRefs
      simp only [hsm, if_false]
      unfold Opt.setX0 Opt.setG0; simp [f1, f2]
    obtain ⟨e1, e2, e3, e4, e5, e6⟩ := e
    have hmp : r.mp = o.mp := by rw [k17]; simp [hsm]
    refine ⟨?_, ?_, fun _ => ⟨e3, e4⟩⟩
    · intro j j1 j2
      exact (hp j j1 (by omega)).congr k4 e1 e2 fun _ => k5
    · refine ⟨_, rfl, ?_, ?_, fun h => absurd h hsm⟩
      · unfold Opt.x0; rw [e3]; exact e5
      · unfold Opt.g0; rw [e4]; exact e6

/-- `apply` does not change the factors, but for the method VMLMB. -/
theorem apply_rho (par : Par F V) (o : Opt F M V) (g : V) (hm : par.method ≠ .vmlmb) :
    (apply par o g).1.rho = o.rho ∧ (apply par o g).1.gamma = o.gamma := by
  have hscale : ∀ q : Opt F M V, (rescale par q).rho = q.rho ∧ (rescale par q).gamma = q.gamma := by
    intro q; unfold rescale; split <;> exact ⟨rfl, rfl⟩
  have h1 : (loopUp (fwd par) o.mp.toNat ({ o with d := g }, false)).1.rho = o.rho ∧
      (loopUp (fwd par) o.mp.toNat ({ o with d := g }, false)).1.gamma = o.gamma :=
    loopUp_inv (fun a : Opt F M V × Bool => a.1.rho = o.rho ∧ a.1.gamma = o.gamma) _ _ _ ⟨rfl, rfl⟩ fun j s h => by
      unfold fwd; dsimp only; split <;> exact h
  unfold apply
  dsimp only
  rw [if_pos hm]
  split
  · exact loopDown_inv (fun a : Opt F M V => a.rho = o.rho ∧ a.gamma = o.gamma) _ _ _
      ⟨(hscale _).1.trans h1.1, (hscale _).2.trans h1.2⟩ fun j s h => by
      unfold bwd; dsimp only; split <;> exact h
  · exact h1

/-- Outcome of `direction`, `rho` included. -/
theorem direction_stages (par : Par F V) (o : Opt F M V) (x g : V) :
    (∃ r st, direction par o x g = .error (failure r st) ∧ SameBut (updated par o x g) r ∧
      (par.method ≠ .vmlmb → r.rho = (updated par o x g).rho ∧ r.gamma = (updated par o x g).gamma)) ∨
    ∃ r, direction par o x g = .ok r ∧ SameBut (updated par o x g) r.1 ∧
      (par.method ≠ .vmlmb → r.1.rho = (updated par o x g).rho ∧ r.1.gamma = (updated par o x g).gamma) := by
  unfold direction
  dsimp only
  have hu : (if o.iterations ≥ 1 then update par o x (if par.method = .blmvm then o.gp else g) else o)
      = updated par o x g := rfl
  rw [hu]
  generalize updated par o x g = u
  have hs := apply_same par u g
  have hrho := apply_rho par u g
  generalize apply par u g = r at hs hrho
  obtain ⟨a, b⟩ := r
  dsimp only at hs hrho ⊢
  rcases b with _ | _
  · right; simp only [Bool.false_eq_true, if_false]; exact ⟨_, rfl, hs, hrho⟩
  · simp only [if_true]
    rcases par.box with _ | box
    · right; dsimp only; split_ifs <;> exact ⟨_, rfl, hs, hrho⟩
    · dsimp only
      rcases box.projdir x a.d with st | d
      · left; exact ⟨a, _, rfl, hs, hrho⟩
      · right; dsimp only
        split_ifs <;> exact ⟨_, rfl, hs.trans (by simp [SameBut]), hrho⟩

/-- What is kept from the update to the point where the current point is saved. -/
structure Kept (par : Par F V) (u l : Opt F M V) : Prop where
  s : l.s = u.s
  y : l.y = u.y
  updates : l.updates = u.updates
  rho : par.method ≠ .vmlmb → l.rho = u.rho
  x0ref : l.x0ref = u.x0ref
  g0ref : l.g0ref = u.g0ref
  mp : l.mp = u.mp ∨ l.mp = 0
  gp : l.gp = u.gp
  gamma : par.method ≠ .vmlmb → l.gamma = u.gamma

/-- Outcome of `onNewX`, stage by stage. -/
theorem onNewX_stages (par : Par F V) (ops : LineSearch.Ops F M) (o : Opt F M V) (x : V) (f : F) (g : V) :
    (∃ l st, onNewX par ops o x f g = .ret (failure l st) ∧ Kept par (updated par o x g) l) ∨
    ∃ l ls, Kept par (updated par o x g) l ∧
      (onNewX par ops o x f g = .brk { savePoint par l x f g with ls := ls } ∧ ls.task = .search ∨
       onNewX par ops o x f g = .ret (failure { savePoint par l x f g with ls := ls } (.ls ls.status)) ∧
        ls.task ≠ .search) := by
  unfold onNewX
  rcases direction_stages par o x g with ⟨r, st, hr, hk, hrho⟩ | ⟨r, hr, hk, hrho⟩
  · left
    rw [hr]
    unfold SameBut at hk
    obtain ⟨a1, a2, a3, a4, a5, a6, a7, a8, a9, a10, a11, a12, a13, a14, a15, -⟩ := hk
    exact ⟨r, _, rfl, ⟨a12, a13, a5, fun h => (hrho h).1, a14, a15, Or.inl a4, a9, fun h => (hrho h).2⟩⟩
  · obtain ⟨a, dtg⟩ := r
    rw [hr]; dsimp only at hk hrho ⊢
    unfold SameBut at hk
    obtain ⟨a1, a2, a3, a4, a5, a6, a7, a8, a9, a10, a11, a12, a13, a14, a15, a16, a17, -⟩ := hk
    obtain ⟨b1, b2, b3, b4, b5, b6, b7, b8, b9, b10, b11, b12, b13, b14, b15, b16, b17, b18, b19, b20⟩ :=
      initialStep_keeps par a x f g dtg
    generalize initialStep par a x f g dtg = is at *
    obtain ⟨b, dtg'⟩ := is
    dsimp only at *
    have hb : Kept par (updated par o x g) b :=
      ⟨b5.trans a12, b6.trans a13, b4.trans a5, fun h => b7.trans (hrho h).1, b9.trans a14, b10.trans a15,
        b20.elim (fun h => Or.inl (h.1.trans a4)) (fun h => Or.inr h.2.1), b14.trans a9,
        fun h => b8.trans (hrho h).2⟩
    rcases limitStep_cases par b x with ⟨st, hl⟩ | ⟨l, hl, stp', bs', hl'⟩
    · left; rw [hl]; exact ⟨b, _, rfl, hb⟩
    · right
      obtain ⟨l1, smin, smax⟩ := l
      rw [hl]; dsimp only at hl' ⊢
      have hl1 : Kept par (updated par o x g) l1 := by
        subst hl'; exact ⟨hb.1, hb.2, hb.3, hb.4, hb.5, hb.6, hb.7, hb.8, hb.9⟩
      generalize LineSearch.start ops (savePoint par l1 x f g).ls f dtg' (savePoint par l1 x f g).stp smin smax = ls'
      refine ⟨l1, ls', hl1, ?_⟩
      split_ifs with ht
      · right; exact ⟨rfl, ht⟩
      · left; exact ⟨rfl, by simpa using ht⟩

/-- The memory after the update. -/
theorem updated_mem (par : Par F V) (hm : 1 ≤ par.m) (o : Opt F M V)
    (x g : V) (ev ac : Int) (hc : Counters par o ev ac) (vis : List (V × V)) (pg : V)
    (h : MemInv par o vis pg) (hn : o.task = .newX ∨ o.task = .finalX) :
    (∀ j : Nat, 1 ≤ j → (j : Int) ≤ (updated par o x g).mp →
        PairOk par (updated par o x g) ((x, if par.method = .blmvm then pg else g) :: vis) j) ∧
      (updated par o x g).x0ref = o.x0ref ∧ (updated par o x g).g0ref = o.g0ref ∧
      (updated par o x g).gp = o.gp ∧
      0 ≤ (updated par o x g).mp ∧ (updated par o x g).mp ≤ par.m ∧
      (updated par o x g).mp ≤ (updated par o x g).updates ∧
      (par.method ≠ .vmlmb → GamOk par.vs (updated par o x g).mp (updated par o x g).gamma
        ((x, if par.method = .blmvm then pg else g) :: vis)) := by
  obtain ⟨mp1, mp2, mp3, mp4⟩ := hc.mp
  have hupd' := hc.updates' hn
  have hit := hc.iterations.1
  have hgp : (if par.method = .blmvm then o.gp else g) = (if par.method = .blmvm then pg else g) := by
    by_cases hbl : par.method = .blmvm
    · rw [if_pos hbl, if_pos hbl]; exact h.proj hbl hn
    · rw [if_neg hbl, if_neg hbl]
  unfold updated
  by_cases h1 : o.iterations ≥ 1
  · rw [if_pos h1, hgp]
    obtain ⟨-, -, -, k4, k5, -, -, -, k9, -⟩ := update_keeps par o x (if par.method = .blmvm then pg else g)
    obtain ⟨-, -, s3, s4, -⟩ := update_stores par o x (if par.method = .blmvm then pg else g)
    refine ⟨update_pairs par hm o x _ vis h.pairs (h.base (Or.inr ⟨hn, h1⟩)) mp1 mp2 mp3, s3, s4, k9, ?_, ?_, ?_,
      fun hv => update_gamma par o x _ vis hv (h.gam hv) (h.base (Or.inr ⟨hn, h1⟩))⟩
    · rw [k4]; split_ifs <;> omega
    · rw [k4]; split_ifs <;> omega
    · rw [k4, k5]; split_ifs <;> omega
  · rw [if_neg h1]
    exact ⟨fun j j1 j2 => by omega, rfl, rfl, rfl, mp1, mp2, mp3, fun _ j _ _ j1 j2 => by omega⟩

/-- One call of `iterate` keeps the invariant. -/
theorem iterate_mem (par : Par F V) (hmo : MethodOk par) (hm : 1 ≤ par.m) (ops : LineSearch.Ops F M) (o : Opt F M V)
    (x : V) (f : F) (g : V) (ev ac : Int) (hc : Counters par o ev ac) (vis : List (V × V)) (pg : V)
    (h : MemInv par o vis pg) :
    MemInv par (iterate par ops o x f g).1
      (if o.task = .newX ∨ o.task = .finalX then (x, if par.method = .blmvm then pg else g) :: vis else vis)
      (if o.task = .computeFG then projGrad par x g else pg) := by
  obtain ⟨mp1, mp2, mp3, mp4⟩ := hc.mp
  by_cases ht : o.task = .computeFG
  · -- answer to COMPUTE_FG
    have hne : ¬ (o.task = .newX ∨ o.task = .finalX) := by rw [ht]; simp
    rw [if_neg hne, if_pos ht]
    have hev := hc.evaluations_nonneg
    have hfirst := hc.first
    unfold iterate onFG
    rw [ht]
    dsimp only
    have key : ∀ q : Opt F M V, q.s = o.s → q.y = o.y → q.updates = o.updates → q.mp = o.mp → q.rho = o.rho →
        q.x0ref = o.x0ref → q.g0ref = o.g0ref → q.x0own = o.x0own → q.g0own = o.g0own → q.gamma = o.gamma →
        q.evaluations = o.evaluations + 1 →
        (o.evaluations = 0 → q.iterations = 0) → (0 < o.evaluations → q.iterations = o.iterations + 1) →
        MemInv par (accept par q x g) vis (projGrad par x g) := by
      intro q q1 q2 q3 q4 q5 q6 q7 q8 q9 qg q10 q11 q12
      obtain ⟨k1, k2, k3, k4, k5, k6, k7, k8, k9, k10, k11, k12, k13, k14, k15, k16, k17, k18, k19, k20, k21⟩ :=
        accept_keeps par q x g
      have hproj : par.method = .blmvm → (accept par q x g).task ≠ .error →
          (accept par q x g).gp = projGrad par x g := by
        intro hbl htk
        clear k1 k2 k3 k4 k5 k6 k7 k8 k9 k10 k11 k12 k13 k14 k15 k16 k17 k18 k19 k20 k21
        unfold accept at htk ⊢
        unfold projGrad
        unfold MethodOk at hmo
        generalize par.box = bx at *
        rcases bx with _ | box
        · rw [hmo.2 rfl] at hbl; cases hbl
        · dsimp only at htk ⊢
          generalize box.freevar x g = fv at htk ⊢
          rcases fv with st | w
          · exact absurd rfl htk
          · simp only [hbl, success]
            split_ifs <;> rfl
      generalize accept par q x g = r at *
      have hpairs : ∀ j : Nat, 1 ≤ j → (j : Int) ≤ r.mp → PairOk par r vis j := fun j j1 j2 =>
        (h.pairs j j1 (by omega)).congr (by omega) (k9.trans q1) (k10.trans q2) fun _ => k11.trans q5
      refine ⟨hpairs, ?_, ?_, ?_, ?_, fun hv => by rw [k4, k19, q4, qg]; exact h.gam hv⟩
      · intro hcase
        have hpos : 0 < o.evaluations := by
          rcases hcase with ⟨c1, -⟩ | ⟨c1, c2⟩
          · rw [c1] at k20; simp at k20
          · by_contra hc0
            have := q11 (by omega); omega
        exact (h.base (Or.inl ⟨ht, hpos⟩)).congr (by omega) (k9.trans q1) (k10.trans q2) (k13.trans q6)
          (k14.trans q7) (k15.trans q8) (k16.trans q9) (by omega)
      · intro hs; rw [k13, k14, q6, q7]; exact h.refs hs
      · rintro (⟨hcase, hit⟩ | ⟨hcase, -⟩)
        · have h0 : o.evaluations = 0 := by
            by_contra hc0
            have := q12 (by omega)
            have := hc.iterations.1
            omega
          exact h.none (Or.inr ⟨ht, h0⟩)
        · rw [hcase] at k20; simp at k20
      · intro hbl hcase
        exact hproj hbl (by rcases hcase with c | c <;> rw [c] <;> simp)
    have key2 : ∀ q : Opt F M V, q.s = o.s → q.y = o.y → q.updates = o.updates → q.mp = o.mp → q.rho = o.rho →
        q.x0ref = o.x0ref → q.g0ref = o.g0ref → q.x0own = o.x0own → q.g0own = o.g0own → q.gamma = o.gamma →
        0 < o.evaluations → q.evaluations = o.evaluations + 1 → (q.task = .computeFG ∨ q.task = .error) →
        MemInv par q vis (projGrad par x g) := by
      intro q q1 q2 q3 q4 q5 q6 q7 q8 q9 qg q10 q11 q12
      have q13 : ¬ (q.task = .newX ∨ q.task = .finalX) := by rcases q12 with c | c <;> rw [c] <;> simp
      refine ⟨fun j j1 j2 => (h.pairs j j1 (by omega)).congr q3 q1 q2 fun _ => q5, ?_, ?_, ?_,
        fun _ hh => absurd hh q13, fun hv => by rw [q4, qg]; exact h.gam hv⟩
      · intro _
        exact (h.base (Or.inl ⟨ht, q10⟩)).congr q3 q1 q2 q6 q7 q8 q9 q4
      · intro hs; rw [q6, q7]; exact h.refs hs
      · rintro (⟨hcase, -⟩ | ⟨-, hcase⟩)
        · exact absurd hcase q13
        · omega
    by_cases h1 : o.evaluations + 1 > 1
    · rw [if_pos h1]
      generalize LineSearch.iterate ops o.ls o.stp f _ = q
      by_cases h2 : q.1.task = .search
      · rw [if_pos h2]
        dsimp only
        rcases trial_keeps par { o with evaluations := o.evaluations + 1, ls := q.1, stp := q.2 } with ⟨st, hq, -⟩ | hq
        · rw [ht] at hq; rw [hq]
          exact key2 _ rfl rfl rfl rfl rfl rfl rfl rfl rfl rfl (by omega) rfl (Or.inr rfl)
        · rw [ht] at hq; rw [hq]
          exact key2 _ rfl rfl rfl rfl rfl rfl rfl rfl rfl rfl (by omega) rfl (Or.inl rfl)
      · rw [if_neg h2]
        by_cases h3 : q.1.task ≠ .convergence ∧ (q.1.task ≠ .warning ∨ q.1.status ≠ .roundingErrorsPreventProgress)
        · rw [if_pos h3]; dsimp only
          exact key2 _ rfl rfl rfl rfl rfl rfl rfl rfl rfl rfl (by omega) rfl (Or.inr rfl)
        · rw [if_neg h3]; dsimp only
          exact key { o with evaluations := o.evaluations + 1, ls := q.1, stp := q.2, iterations := o.iterations + 1, task := .computeFG } rfl rfl rfl rfl rfl rfl rfl rfl rfl rfl rfl (by omega) (fun _ => rfl)
    · rw [if_neg h1]; dsimp only
      exact key { o with evaluations := o.evaluations + 1, task := .computeFG } rfl rfl rfl rfl rfl rfl rfl rfl rfl rfl rfl (fun h0 => (hfirst h0).2.1) (by omega)
  · rw [if_neg ht]
    by_cases hn : o.task = .newX ∨ o.task = .finalX
    · rw [if_pos hn]
      have hr' : (iterate par ops o x f g).1 =
          (match onNewX par ops o x f g with | .ret opt => (opt, x) | .brk opt => trial par opt).1 := by
        unfold iterate; rcases hn with ht | ht <;> rw [ht] <;> rfl
      obtain ⟨-, hcr⟩ := iterate_counters par hm ops o x f g ev ac hc
      have hit := hc.iterations.1
      have hupd' := hc.updates' hn
      have hev := (hc.accepted (hn.elim Or.inl fun h => Or.inr (Or.inl h))).2
      rw [hr'] at hcr ⊢
      clear hr'
      -- after the update
      obtain ⟨u1, u2, u3, u4, u5, u6, u7, u8⟩ :=
        updated_mem par hm o x g ev ac hc vis pg h hn
      have hK : ∀ l, Kept par (updated par o x g) l →
          (∀ j : Nat, 1 ≤ j → (j : Int) ≤ l.mp →
            PairOk par l ((x, if par.method = .blmvm then pg else g) :: vis) j) ∧
          (¬ par.saveMemory → l.x0ref = none ∧ l.g0ref = none) ∧
          (par.method ≠ .vmlmb → GamOk par.vs l.mp l.gamma ((x, if par.method = .blmvm then pg else g) :: vis)) ∧
          0 ≤ l.mp ∧ l.mp ≤ par.m ∧ l.mp ≤ l.updates := by
        intro l hl
        refine ⟨fun j j1 j2 => ?_, fun hs => ?_, fun hv => ?_, ?_⟩
        · have : (j : Int) ≤ (updated par o x g).mp := by rcases hl.mp with c | c <;> omega
          exact (u1 j j1 this).congr hl.updates hl.s hl.y hl.rho
        · rw [hl.x0ref, hl.g0ref, u2, u3]; exact h.refs hs
        · rw [hl.gamma hv]; exact (u8 hv).mono (by rcases hl.mp with c | c <;> omega)
        · rw [hl.updates]; rcases hl.mp with c | c <;> rw [c] <;> omega
      rcases onNewX_stages par ops o x f g with ⟨l, st, e, hl⟩ | ⟨l, ls, hl, e⟩
      · rw [e]
        obtain ⟨p1, p2, pg1, -⟩ := hK l hl
        refine ⟨fun j j1 j2 => (p1 j j1 j2).congr rfl rfl rfl fun _ => rfl, ?_, p2, ?_, ?_, pg1⟩
        · simp [failure]
        · simp [failure]
        · simp [failure]
      · obtain ⟨p1, p2, pg1, p3, p4, p5⟩ := hK l hl
        have hgp : (if par.method = .blmvm then l.gp else g) = (if par.method = .blmvm then pg else g) := by
          by_cases hbl : par.method = .blmvm
          · rw [if_pos hbl, if_pos hbl, hl.gp, u4]; exact h.proj hbl hn
          · rw [if_neg hbl, if_neg hbl]
        have hsp := savePoint_pairs par l x f g vis (by rw [hgp]; exact p1) p3 p4 p5 hm p2
        rw [hgp] at hsp
        obtain ⟨s1, s2, s3⟩ := hsp
        obtain ⟨v1, v2, -, -, -, v6, -, -, -, -, -, -, -, -, -, -, v17⟩ := savePoint_keeps par l x f g
        have hgs : par.method ≠ .vmlmb → GamOk par.vs (savePoint par l x f g).mp (savePoint par l x f g).gamma
            ((x, if par.method = .blmvm then pg else g) :: vis) := by
          intro hv; rw [v6]; exact (pg1 hv).mono (by rw [v17]; split_ifs <;> omega)
        generalize savePoint par l x f g = sp at *
        have key3 : ∀ q : Opt F M V, q.s = sp.s → q.y = sp.y → q.updates = sp.updates → q.mp = sp.mp →
            q.rho = sp.rho → q.x0ref = sp.x0ref → q.g0ref = sp.g0ref → q.x0own = sp.x0own → q.g0own = sp.g0own → q.gamma = sp.gamma →
            (q.task = .computeFG ∧ q.evaluations ≠ 0 ∨ q.task = .error) →
            MemInv par q ((x, if par.method = .blmvm then pg else g) :: vis) pg := by
          intro q q1 q2 q3 q4 q5 q6 q7 q8 q9 qg q12
          have q13 : ¬ (q.task = .newX ∨ q.task = .finalX) := by
            rcases q12 with ⟨c, -⟩ | c <;> rw [c] <;> simp
          refine ⟨fun j j1 j2 => (s1 j j1 (by omega)).congr q3 q1 q2 fun _ => q5, ?_, ?_, ?_,
            fun _ hh => absurd hh q13, fun hv => by rw [q4, qg]; exact hgs hv⟩
          · intro _
            exact s2.congr q3 q1 q2 q6 q7 q8 q9 q4
          · intro hs; rw [q6, q7]; exact s3 hs
          · rintro (⟨hcase, -⟩ | ⟨hcase, hc0⟩)
            · exact absurd hcase q13
            · rcases q12 with ⟨-, c⟩ | c
              · exact absurd hc0 c
              · rw [hcase] at c; cases c
        rcases e with ⟨e, -⟩ | ⟨e, -⟩
        · rw [e] at hcr ⊢
          dsimp only at hcr ⊢
          have hee := hcr.evaluations
          rw [if_neg ht] at hee
          rcases trial_keeps par { sp with ls := ls } with ⟨st, hq, -⟩ | hq
          · rw [hq]; exact key3 _ rfl rfl rfl rfl rfl rfl rfl rfl rfl rfl (Or.inr rfl)
          · rw [hq] at hee ⊢
            exact key3 _ rfl rfl rfl rfl rfl rfl rfl rfl rfl rfl (Or.inl ⟨rfl, by rw [hee, ← hc.evaluations]; omega⟩)
        · rw [e]; exact key3 _ rfl rfl rfl rfl rfl rfl rfl rfl rfl rfl (Or.inr rfl)
    · rw [if_neg hn]
      have hr : (iterate par ops o x f g).1 = o := by
        unfold iterate
        rcases ht' : o.task with _ | _ | _ | _ | _ | _ <;> simp [ht'] at ht hn ⊢
      rw [hr]; exact h

theorem start_mem (par : Par F V) (o : Opt F M V) (x : V) (vis : List (V × V)) (pg pg' : V)
    (h : MemInv par o vis pg) : MemInv par (start par o x).1 [] pg' := by
  have key : ∀ r : Opt F M V, r.x0ref = o.x0ref → r.g0ref = o.g0ref → r.evaluations = 0 → r.mp = 0 →
      (r.task = .computeFG ∨ r.task = .error) → MemInv par r [] pg' := by
    intro r r1 r2 r3 r4 r5
    have r6 : ¬ (r.task = .newX ∨ r.task = .finalX) := by rcases r5 with c | c <;> rw [c] <;> simp
    refine ⟨fun j j1 j2 => by omega, ?_, fun hs => by rw [r1, r2]; exact h.refs hs, fun _ => rfl,
      fun _ hh => absurd hh r6, fun _ j _ _ j1 j2 => by omega⟩
    rintro (⟨-, c⟩ | ⟨c, -⟩)
    · omega
    · exact absurd c r6
  unfold start
  dsimp only
  rcases par.box with _ | box
  · exact key _ rfl rfl rfl rfl (Or.inl rfl)
  · dsimp only
    rcases box.projvar x with st | v
    · exact key _ rfl rfl rfl rfl (Or.inr rfl)
    · exact key _ rfl rfl rfl rfl (Or.inl rfl)

theorem calls_mem (par : Par F V) (hmo : MethodOk par) (hm : 1 ≤ par.m) (ops : LineSearch.Ops F M)
    (hist : List (Call F V)) :
    ∀ (o : Opt F M V) (ev ac : Int) (vis : List (V × V)) (pg : V), Counters par o ev ac → MemInv par o vis pg →
      MemInv par (calls par ops o hist) (visited par ops o vis pg hist) (lastProj par ops o pg hist) := by
  induction hist with
  | nil => intro o ev ac vis pg _ h; exact h
  | cons c l ih =>
    intro o ev ac vis pg hc h
    rcases c with x | ⟨x, f, g⟩
    · exact ih _ _ _ _ _ (start_counters par hm o x).2 (start_mem par o x vis pg pg h)
    · exact ih _ _ _ _ _ (iterate_counters par hm ops o x f g ev ac hc).2
        (iterate_mem par hmo hm ops o x f g ev ac hc vis pg h)

theorem new_mem (finite : F → Bool) (vs : Vs F V) (opts : Options F) (size : Int) (box : Option (Cs F V))
    (same : Bool) (ls : LineSearch.Ls F M) (raw : Opt F M V) (par : Par F V) (opt : Opt F M V)
    (h : new finite vs opts size box same ls raw = some (par, opt)) (pg : V) : MemInv par opt [] pg := by
  obtain ⟨-, -, -, t, -, hc⟩ := new_counters finite vs opts size box same ls raw par opt h
  have hmp : opt.mp = 0 := (hc.first hc.evaluations).2.2.1
  have hrefs : opt.x0ref = none ∧ opt.g0ref = none := by
    unfold new at h
    by_cases h1 : (!checkOptions finite opts) = true
    · rw [if_pos h1] at h; cases h
    rw [if_neg h1] at h
    by_cases h2 : size < 1 ∨ opts.mem < 1
    · rw [if_pos h2] at h; cases h
    rw [if_neg h2] at h
    by_cases h3 : box.isSome = true ∧ (!same) = true
    · rw [if_pos h3] at h; cases h
    rw [if_neg h3] at h
    simp only [Option.some.injEq, Prod.mk.injEq] at h
    obtain ⟨rfl, rfl⟩ := h
    exact ⟨rfl, rfl⟩
  refine ⟨fun j j1 j2 => by omega, ?_, fun _ => hrefs, fun _ => rfl, ?_, fun _ j _ _ j1 j2 => by omega⟩
  · rw [t]; simp
  · rw [t]; simp

/-! ## C23 -/

/-- **C23.** For any history of calls of a new optimizer (any memory size, with or without the memory
saving option, any arithmetic without NaN): `0 ≤ mp ≤ m` and, for `1 ≤ j ≤ mp`, the saved vectors given by
`opk_get_vmlmb_s` and `opk_get_vmlmb_y` are the differences of the variables and of the (projected, for
BLMVM) gradients between the `j`-th most recent point and the previous one; all the indices used are within
the arrays, and during a line search the starting point is intact. -/
theorem memory_pairs (finite : F → Bool) (vs : Vs F V) (opts : Options F) (size : Int)
    (box : Option (Cs F V)) (same : Bool) (ls : LineSearch.Ls F M) (raw : Opt F M V) (par : Par F V)
    (opt : Opt F M V) (hnew : new finite vs opts size box same ls raw = some (par, opt))
    (ops : LineSearch.Ops F M) (hist : List (Call F V)) (pg : V) :
    let r := calls par ops opt hist
    let vis := visited par ops opt [] pg hist
    0 ≤ r.mp ∧ r.mp ≤ par.m ∧
    (∀ j : Int, 0 ≤ j → j ≤ r.mp → 0 ≤ slot par r j ∧ slot par r j < par.m) ∧
    (∀ j : Nat, 1 ≤ j → (j : Int) ≤ r.mp → ∃ a b, vis[j - 1]? = some a ∧ vis[j]? = some b ∧
      getS par (some r) j = some (vs.axpby 1 a.1 (-1) b.1) ∧
      getY par (some r) j = some (vs.axpby 1 a.2 (-1) b.2)) ∧
    (r.task = .computeFG ∧ 0 < r.evaluations → ∃ b, vis[0]? = some b ∧ r.x0 = b.1 ∧ r.g0 = b.2 ∧
      (opts.saveMemory → r.x0ref = some (slot par r 0) ∧ r.g0ref = some (slot par r 0))) := by
  intro r vis
  obtain ⟨hm, -, -, -, -, hc⟩ := new_counters finite vs opts size box same ls raw par opt hnew
  obtain ⟨hmo, -, -, -, esm, evs, -⟩ := new_method finite vs opts size box same ls raw par opt hnew
  have hI := calls_mem par hmo hm ops hist opt 0 0 [] pg hc
    (new_mem finite vs opts size box same ls raw par opt hnew pg)
  obtain ⟨-, hC⟩ := calls_counters par hm ops hist opt 0 0 hc
  obtain ⟨m1, m2, m3, m4⟩ := hC.mp
  refine ⟨m1, m2, fun j j1 j2 => slot_range par r hm j (by exact le_trans j2 m3), fun j j1 j2 => ?_, fun ht => ?_⟩
  · obtain ⟨a, b, p1, p2, p3, p4, -⟩ := hI.pairs j j1 j2
    refine ⟨a, b, p1, p2, ?_, ?_⟩
    · unfold getS; dsimp only; rw [if_pos ⟨by omega, j2⟩]; rw [show r.s _ = _ from p3, evs]; rfl
    · unfold getY; dsimp only; rw [if_pos ⟨by omega, j2⟩]; rw [show r.y _ = _ from p4, evs]; rfl
  · obtain ⟨b, b1, b2, b3, b4⟩ := hI.base (Or.inl ht)
    exact ⟨b, b1, b2, b3, fun hs => ⟨(b4 (esm ▸ hs)).1, (b4 (esm ▸ hs)).2.1⟩⟩

end Opk.Vmlmb
