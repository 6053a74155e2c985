import Verif.Newuoa.Points

/-!
# What `newuoa_optimize` returns

For any objective function, any functions in place of `trsapp`, `biglag`, `bigden` and `update`, and any arithmetic
satisfying `Laws` (floating-point numbers do, if there is no NaN).
-/
namespace Opk.Newuoa
open Linalg CMath Cobyla

set_option linter.unusedSectionVars false

/-- The laws of the arithmetic which are needed. -/
structure Laws (F : Type) [Add F] [Neg F] [Zero F] [LE F] : Prop where
  add_zero : ∀ a : F, a + 0 = a
  add_comm : ∀ a b : F, a + b = b + a
  neg_neg : ∀ a : F, -(-a) = a
  neg_le : ∀ a b : F, a ≤ b → -b ≤ -a

variable {F : Type} [Add F] [_root_.Sub F] [Mul F] [Div F] [Neg F] [Zero F] [One F] [LinearOrder F] [CMath F]

/-- The list of the calls: the values are those of the objective function, the latest call first. -/
def Genuine (calfun : Nat → (Nat → F) → F) : List ((Nat → F) × F) → Prop
  | [] => True
  | e :: l => e.2 = calfun l.length e.1 ∧ Genuine calfun l

/-- The value `a` is at least as good as the value `b`. -/
def AsGood (maximize : Bool) (a b : F) : Prop := if maximize then b ≤ a else a ≤ b

/-! ### The calls -/

theorem l120_log (p : Par F) (o : Subs F) (s : St F) : (l120 p o s).2.log = s.log := by
  unfold l120
  dsimp only
  have h1 : (if s.dsq ≤ s.xoptsq * lit 1 1000 then shift p s else s).log = s.log := by split_ifs <;> rfl
  generalize (if s.dsq ≤ s.xoptsq * lit 1 1000 then shift p s else s) = t at h1 ⊢
  have h2 : (if t.knew > 0 then { t with alpha := (o.biglag t).1, d := (o.biglag t).2.1, vlag := (o.biglag t).2.2.1, w := (o.biglag t).2.2.2 } else t).log = s.log := by
    split_ifs <;> exact h1
  generalize (if t.knew > 0 then { t with alpha := (o.biglag t).1, d := (o.biglag t).2.1, vlag := (o.biglag t).2.2.1, w := (o.biglag t).2.2.2 } else t) = u at h2 ⊢
  have h3 : (lagrange p u).log = s.log := h2
  generalize lagrange p u = v at h3 ⊢
  split_ifs <;> exact h3

theorem l410_log (p : Par F) (o : Subs F) (s : St F) : (l410 p o s).2.log = s.log := by
  have h : (tryFrobenius p (move p o s)).log = s.log := (tryFrobenius_same p _).2.1
  unfold l410
  dsimp only
  generalize tryFrobenius p (move p o s) = t at h ⊢
  split_ifs <;> exact h

theorem l100_log (p : Par F) (o : Subs F) (s : St F) : (l100 p o s).2.log = s.log := by
  unfold l100 short
  dsimp only
  split_ifs <;> rfl

/-- The steps do not call the objective function. -/
theorem step_log (p : Par F) (o : Subs F) (ls : Lab × St F) : (step p o ls).2.log = ls.2.log := by
  obtain ⟨l, s⟩ := ls
  cases l
  · exact (point_same p s (s.nf + 1)).1
  · show (l310 p s).2.log = s.log
    unfold l310
    split_ifs <;> rfl
  · rfl
  · rfl
  · exact l100_log p o s
  · exact l120_log p o s
  · rfl
  · exact l410_log p o s
  · show (l460 p s).2.log = s.log
    unfold l460
    dsimp only
    split_ifs <;> rfl
  · show (l490 p s).2.log = s.log
    unfold l490
    dsimp only
    split_ifs <;> rfl
  · show (finish s).2.log = s.log
    unfold finish
    dsimp only
    split_ifs <;> rfl
  · rfl

/-- One call of the objective function. -/
theorem answer_log (p : Par F) (f : F) (s : St F) : (answer p f s).2.log = (s.x, f) :: s.log := by
  have h : (put f s).log = (s.x, f) :: s.log := rfl
  unfold answer
  generalize put f s = t at h ⊢
  rw [← h]
  clear h
  unfold after
  split_ifs with c k
  · unfold l70 begin
    dsimp only
    have h1 := (store_same t).1
    have h2 := (model_same p (store t)).1
    generalize model p (store t) = u at h2 ⊢
    split_ifs <;> exact h2.trans h1
  · rfl
  · have h1 := (errors_same p t).1
    dsimp only
    generalize errors p t = u at h1 ⊢
    split_ifs <;> exact h1

/-- The calls are those of the objective function. -/
theorem genuine_run {p : Par F} {o : Subs F} {calfun : Nat → (Nat → F) → F} (fuel : Nat) :
    ∀ ls : Lab × St F, Genuine calfun ls.2.log → Genuine calfun (run p o calfun fuel ls).2.log := by
  induction fuel with
  | zero => exact fun _ h => h
  | succ k ih =>
    intro ls h
    apply ih
    unfold stepF
    split
    · rw [answer_log]
      exact ⟨rfl, h⟩
    · rw [step_log]
      exact h

/-! ### The arguments -/

/-- The arguments are accepted. -/
structure Accepted (a : Args F) (p : Par F) : Prop where
  two : 2 ≤ a.n
  npt1 : a.n + 2 ≤ a.npt
  npt2 : a.npt ≤ (a.n + 2) * (a.n + 1) / 2
  rho1 : 0 < a.rhoend
  rho2 : a.rhoend ≤ a.rhobeg
  n_eq : (p.n : Int) = a.n
  npt_eq : (p.npt : Int) = a.npt
  rhobeg_eq : p.rhobeg = a.rhobeg
  rhoend_eq : p.rhoend = a.rhoend
  maxfun_eq : p.maxfun = a.maxfun

theorem prepare_accepted (a : Args F) (s : St F) (p : Par F) (scl : Option (Nat → F)) (ls : Lab × St F)
    (h : prepare a s = .inr (p, scl, ls)) : Accepted a p ∧ scaling a.n.toNat a.scl = some scl ∧
      ls = (.l50, init { fresh s with x := match scl with | none => a.x | some c => fun j => a.x j / c j }) := by
  unfold prepare at h
  by_cases c1 : a.n < 2
  · rw [if_pos c1] at h; exact absurd h (by simp)
  rw [if_neg c1] at h
  by_cases c2 : a.npt < a.n + 2 ∨ a.npt > (a.n + 2) * (a.n + 1) / 2
  · rw [if_pos c2] at h; exact absurd h (by simp)
  rw [if_neg c2] at h
  by_cases c3 : a.rhoend ≤ 0 ∨ a.rhoend > a.rhobeg
  · rw [if_pos c3] at h; exact absurd h (by simp)
  rw [if_neg c3] at h
  cases hs : scaling a.n.toNat a.scl with
  | none => rw [hs] at h; exact absurd h (by simp)
  | some sc =>
    rw [hs] at h
    simp only [Sum.inr.injEq, Prod.mk.injEq] at h
    obtain ⟨rfl, rfl, rfl⟩ := h
    rw [not_or] at c2 c3
    exact ⟨⟨by omega, by omega, by omega, not_le.mp c3.1, not_lt.mp c3.2, Int.toNat_of_nonneg (by omega), Int.toNat_of_nonneg (by omega), rfl, rfl, rfl⟩, rfl, rfl⟩

/-- One of the scaling factors is invalid: not finite, null or negative. -/
def BadScale (a : Args F) : Prop :=
  ∃ c, a.scl = some c ∧ ∃ j : Nat, 1 ≤ j ∧ (j : Int) ≤ a.n ∧ c j ≠ 1 ∧ (c j - c j ≠ 0 ∨ c j ≤ 0)

theorem scaling_none_iff (a : Args F) (h : 0 ≤ a.n) : scaling a.n.toNat a.scl = none ↔ BadScale a := by
  unfold scaling BadScale
  cases hc : a.scl with
  | none => simp
  | some s =>
    have key := up_inv (fun k (t : Option (Option (Nat → F))) => t = none ↔ ∃ j, 1 ≤ j ∧ j ≤ k ∧ s j ≠ 1 ∧ (s j - s j ≠ 0 ∨ s j ≤ 0)) a.n.toNat
      (body := fun j (t : Option (Option (Nat → F))) =>
        match t with
        | none => none
        | some o => if s j ≠ 1 then (if s j - s j ≠ 0 ∨ s j ≤ 0 then none else some (some s)) else some o)
      (s := some none)
      (by
        constructor
        · intro q; cases q
        · rintro ⟨j, j1, j2, -⟩; omega)
      (by
        intro k hk t ih
        cases t with
        | none =>
          refine ⟨fun _ => ?_, fun _ => rfl⟩
          obtain ⟨j, j1, j2, j3⟩ := ih.mp rfl
          exact ⟨j, j1, by omega, j3⟩
        | some o' =>
          have no : ¬ ∃ j, 1 ≤ j ∧ j ≤ k ∧ s j ≠ 1 ∧ (s j - s j ≠ 0 ∨ s j ≤ 0) := fun q => by cases ih.mpr q
          have last : (∃ j, 1 ≤ j ∧ j ≤ k + 1 ∧ s j ≠ 1 ∧ (s j - s j ≠ 0 ∨ s j ≤ 0)) ↔ (s (k + 1) ≠ 1 ∧ (s (k + 1) - s (k + 1) ≠ 0 ∨ s (k + 1) ≤ 0)) := by
            constructor
            · rintro ⟨j, j1, j2, j3⟩
              by_cases q : j = k + 1
              · rw [← q]; exact j3
              · exact absurd ⟨j, j1, by omega, j3⟩ no
            · intro q; exact ⟨k + 1, by omega, le_refl _, q⟩
          rw [last]
          dsimp only
          by_cases c1 : s (k + 1) ≠ 1
          · rw [if_pos c1]
            by_cases c2 : s (k + 1) - s (k + 1) ≠ 0 ∨ s (k + 1) ≤ 0
            · rw [if_pos c2]; exact ⟨fun _ => ⟨c1, c2⟩, fun _ => rfl⟩
            · rw [if_neg c2]; exact ⟨(fun q => by cases q), fun q => absurd q.2 c2⟩
          · rw [if_neg c1]; exact ⟨(fun q => by cases q), fun q => absurd q.1 c1⟩)
    refine key.trans ?_
    constructor
    · rintro ⟨j, j1, j2, j3⟩; exact ⟨s, rfl, j, j1, by omega, j3⟩
    · rintro ⟨c, e, j, j1, j2, j3⟩
      cases e
      exact ⟨j, j1, by omega, j3⟩

/-- The statuses of the invalid arguments. -/
def Refused (a : Args F) (st : Status) : Prop :=
  st = .badNvars ∧ a.n < 2 ∨ st = .badNpt ∧ (a.npt < a.n + 2 ∨ a.npt > (a.n + 2) * (a.n + 1) / 2) ∨
    st = .badRhoRange ∧ (a.rhoend ≤ 0 ∨ a.rhoend > a.rhobeg) ∨ st = .badScaling ∧ BadScale a

theorem prepare_refused (a : Args F) (s : St F) (e : Status) (h : prepare a s = .inl e) : Refused a e := by
  unfold prepare at h
  unfold Refused
  by_cases c1 : a.n < 2
  · rw [if_pos c1] at h; exact Or.inl ⟨(Sum.inl.inj h).symm, c1⟩
  rw [if_neg c1] at h
  by_cases c2 : a.npt < a.n + 2 ∨ a.npt > (a.n + 2) * (a.n + 1) / 2
  · rw [if_pos c2] at h; exact Or.inr (Or.inl ⟨(Sum.inl.inj h).symm, c2⟩)
  rw [if_neg c2] at h
  by_cases c3 : a.rhoend ≤ 0 ∨ a.rhoend > a.rhobeg
  · rw [if_pos c3] at h; exact Or.inr (Or.inr (Or.inl ⟨(Sum.inl.inj h).symm, c3⟩))
  rw [if_neg c3] at h
  cases hs : scaling a.n.toNat a.scl with
  | none => rw [hs] at h; exact Or.inr (Or.inr (Or.inr ⟨(Sum.inl.inj h).symm, (scaling_none_iff a (by omega)).mp hs⟩))
  | some sc => rw [hs] at h; exact absurd h (by simp)

/-! ### The result -/

/-- What the user gets when the arguments are accepted: the variables `x`, the value `v`, the calls and the status. -/
structure Result (a : Args F) (obj : Nat → (Nat → F) → F) (st : Status) (x : Nat → F) (v : F) (log : List ((Nat → F) × F)) : Prop where
  /-- The arguments are valid. -/
  valid : ∀ e, ¬ Refused a e
  /-- The calls are those of the objective function. -/
  genuine : Genuine obj log
  /-- There is at least one call. -/
  some_call : log ≠ []
  /-- The budget. -/
  budget : (log.length : Int) ≤ max a.maxfun 1
  /-- The value is one of those of the calls. -/
  value : ∃ e ∈ log, e.2 = v
  /-- The value is the best one. -/
  best : ∀ e ∈ log, AsGood a.maximize v e.2
  /-- The variables are those of a call which gave the value. -/
  vars : a.npt ≤ a.maxfun → (x, v) ∈ log
  /-- The status. -/
  status : st = .tooManyEvaluations ∧ (log.length : Int) = max a.maxfun 1 ∨ a.npt ≤ log.length ∧ (st = .stepFailed ∨ st = .success)

theorem genuine_map (L : Laws F) (obj : Nat → (Nat → F) → F) (m : Bool) (scl : Option (Nat → F)) :
    ∀ log : List ((Nat → F) × F), Genuine (objfun obj m scl) log →
      Genuine obj (log.map fun e => (unscale scl e.1, if m then -e.2 else e.2)) := by
  intro log
  induction log with
  | nil => exact fun _ => trivial
  | cons e l ih =>
    intro h
    refine ⟨?_, ih h.2⟩
    show (if m then -e.2 else e.2) = obj (l.map _).length (unscale scl e.1)
    rw [h.1, List.length_map]
    unfold objfun
    cases m
    · rfl
    · simp only [if_true]; exact L.neg_neg _

theorem optimize_result (L : Laws F) (a : Args F) (o : Par F → Subs F) (obj : Nat → (Nat → F) → F) (s : St F) (fuel : Nat)
    (st : Status) (x : Nat → F) (w : Option F) (log : List ((Nat → F) × F)) (h : optimize a o obj s fuel = some (st, x, w, log)) :
    (Refused a st ∧ x = a.x ∧ w = none ∧ log = []) ∨ ∃ v, w = some v ∧ Result a obj st x v log := by
  unfold optimize at h
  cases hp : prepare a s with
  | inl e =>
    rw [hp] at h
    simp only [Option.some.injEq, Prod.mk.injEq] at h
    obtain ⟨rfl, rfl, rfl, rfl⟩ := h
    exact Or.inl ⟨prepare_refused a s e hp, rfl, rfl, rfl⟩
  | inr t =>
    obtain ⟨p, scl, ls⟩ := t
    rw [hp] at h
    obtain ⟨acc, hsc, hls⟩ := prepare_accepted a s p scl ls hp
    have ok := ok_run (o := o p) (calfun := objfun obj a.maximize scl) L.add_zero L.add_comm fuel ls (by
      rw [hls]
      exact ok_init (p := p) (by have := acc.npt_eq; have := acc.npt1; have := acc.two; omega) _ rfl)
    have gen := genuine_run (p := p) (o := o p) (calfun := objfun obj a.maximize scl) fuel ls (by rw [hls]; trivial)
    right
    dsimp only at h
    obtain ⟨r, hr⟩ : ∃ r, r = run p (o p) (objfun obj a.maximize scl) fuel ls := ⟨_, rfl⟩
    rw [← hr] at h ok gen
    obtain ⟨l, t⟩ := r
    cases l with
    | ret =>
      simp only [Option.some.injEq, Prod.mk.injEq] at h
      obtain ⟨rfl, rfl, rfl, rfl⟩ := h
      have ok : Ret p t := ok
      obtain ⟨o1, o2, ⟨y, o3⟩, o4, o5, o6⟩ := ok
      have hm : p.most = max a.maxfun 1 := by unfold Par.most; rw [acc.maxfun_eq]
      have hn := acc.npt_eq
      refine ⟨_, rfl, ?_⟩
      refine ⟨?_, genuine_map L obj a.maximize scl _ gen, by simpa using o1, by rw [List.length_map, ← hm]; exact o2, ?_, ?_, ?_, ?_⟩
      · have h1 := acc.two
        have h2 := acc.npt1
        have h3 := acc.npt2
        rintro e (⟨-, q⟩ | ⟨-, q⟩ | ⟨-, q⟩ | ⟨-, q⟩)
        · omega
        · omega
        · rcases q with q | q
          · exact absurd acc.rho1 (not_lt.mpr q)
          · exact absurd acc.rho2 (not_le.mpr q)
        · rw [← scaling_none_iff a (by omega), hsc] at q
          cases q
      · exact ⟨_, List.mem_map_of_mem o3, rfl⟩
      · intro e he
        obtain ⟨e', he', rfl⟩ := List.mem_map.mp he
        have := o4 e' he'
        unfold AsGood
        cases a.maximize
        · exact this
        · exact L.neg_le _ _ this
      · intro hmax
        have hlen : p.npt ≤ t.log.length := by
          rcases o6 with ⟨-, q⟩ | ⟨q, -⟩
          · have := le_max_left a.maxfun 1
            omega
          · exact q
        exact List.mem_map.mpr ⟨_, o5 hlen, rfl⟩
      · rw [List.length_map, ← hm]
        rcases o6 with ⟨q1, q2⟩ | ⟨q1, q2⟩
        · exact Or.inl ⟨q1, q2⟩
        · exact Or.inr ⟨by omega, q2.imp id And.left⟩
    | _ => exact absurd h (by simp)

/-! ### Too few calls -/

/-- The first points are not all evaluated: `XOPT` is what it was at the beginning, in the workspace. -/
def Unset (s0 : St F) : Lab → St F → Prop
  | .l50, s => s.xbase = s0.xbase ∧ s.xopt = s0.xopt
  | .l310, s => s.xbase = s0.xbase ∧ s.xopt = s0.xopt
  | .ask, s => s.xbase = s0.xbase ∧ s.xopt = s0.xopt
  | .done, s => s.xbase = s0.xbase ∧ s.xopt = s0.xopt ∧ s.fopt ≤ s.f
  | .ret, s => s.x = fun j => s0.xbase j + s0.xopt j
  | _, _ => False

theorem unset_step {p : Par F} {o : Subs F} {calfun : Nat → (Nat → F) → F} (s0 : St F) (hm : p.most < p.npt) (ls : Lab × St F)
    (ok : Ok p ls.1 ls.2) (h : Unset s0 ls.1 ls.2) : Unset s0 (stepF p o calfun ls).1 (stepF p o calfun ls).2 := by
  obtain ⟨l, s⟩ := ls
  cases l
  · have hp := point_same p s (s.nf + 1)
    refine ⟨hp.2.2.2.1.trans h.1, ?_⟩
    rw [← h.2]
    show (point p s (s.nf + 1)).xopt = s.xopt
    unfold point pointC
    dsimp only
    split_ifs <;> rfl
  · have ok' := ok_l310 (p := p) (s := s) ok
    show Unset s0 (l310 p s).1 (l310 p s).2
    revert ok'
    unfold l310
    split_ifs with c
    · intro ok'
      obtain ⟨q1, q2, q3, q4⟩ := (ok' : Fin p _)
      refine ⟨h.1, h.2, ?_⟩
      rcases ok with ⟨k1, k2, ⟨k3, k4, _⟩ | ⟨k3, _⟩⟩
      · exact (k4 q1).2.1
      · have : (s.log.length : Int) ≤ p.most := k2
        omega
    · exact fun _ => h
  · show Unset s0 (answer p _ s).1 (answer p _ s).2
    have k4 : (s.nf : Int) ≤ p.most := ok.2
    have c : s.nf < p.npt := by omega
    generalize calfun s.log.length s.x = f
    unfold answer after
    rw [if_pos (show (put f s).nf ≤ p.npt from le_of_lt c)]
    unfold l70
    have e1 : (model p (store (put f s))).nf = s.nf ∧ (model p (store (put f s))).xbase = s.xbase ∧ (model p (store (put f s))).xopt = s.xopt := by
      unfold model modelA modelB modelC store put
      dsimp only
      split_ifs
      all_goals exact ⟨rfl, rfl, rfl⟩
    dsimp only
    generalize model p (store (put f s)) = t at e1 ⊢
    rw [if_pos (by omega)]
    exact ⟨e1.2.1.trans h.1, e1.2.2.trans h.2⟩
  all_goals try exact (h : False).elim
  · obtain ⟨h1, h2, h3⟩ := h
    show Unset s0 (finish s).1 (finish s).2
    unfold finish
    rw [if_pos h3]
    show (fun j => s.xbase j + s.xopt j) = fun j => s0.xbase j + s0.xopt j
    rw [h1, h2]
  · exact h

theorem unset_run (hz : ∀ a : F, a + 0 = a) (hc : ∀ a b : F, a + b = b + a) {p : Par F} {o : Subs F} {calfun : Nat → (Nat → F) → F} (s0 : St F)
    (hm : p.most < p.npt) (fuel : Nat) : ∀ ls : Lab × St F, Ok p ls.1 ls.2 → Unset s0 ls.1 ls.2 →
      Unset s0 (run p o calfun fuel ls).1 (run p o calfun fuel ls).2 := by
  induction fuel with
  | zero => exact fun _ _ h => h
  | succ k ih => exact fun ls ok h => ih _ (ok_stepF hz hc ls ok) (unset_step s0 hm ls ok h)

/-- If fewer calls than `npt` are allowed, then the variables at the end do not depend on the objective function: the
content of the workspace at the beginning is added to the initial variables. -/
theorem optimize_unset (L : Laws F) (a : Args F) (o : Par F → Subs F) (obj : Nat → (Nat → F) → F) (s : St F) (fuel : Nat)
    (st : Status) (x : Nat → F) (v : F) (log : List ((Nat → F) × F)) (h : optimize a o obj s fuel = some (st, x, some v, log))
    (hs : a.scl = none) (hm : a.maxfun < a.npt) (hn : 1 < a.npt) : x = fun j => a.x j + s.xopt j := by
  unfold optimize at h
  cases hp : prepare a s with
  | inl e =>
    rw [hp] at h
    simp at h
  | inr t =>
    obtain ⟨p, scl, ls⟩ := t
    rw [hp] at h
    obtain ⟨acc, hsc, hls⟩ := prepare_accepted a s p scl ls hp
    rw [hs] at hsc
    have hsc : scl = none := (Option.some.inj hsc).symm
    subst hsc
    have hm : p.most < p.npt := by
      have := acc.npt_eq
      unfold Par.most
      rw [acc.maxfun_eq]
      exact max_lt (by omega) (by omega)
    have un := unset_run (o := o p) (calfun := objfun obj a.maximize none) L.add_zero L.add_comm (init { fresh s with x := a.x }) hm fuel ls (by
      rw [hls]
      exact ok_init (p := p) (by have := acc.npt_eq; have := acc.npt1; have := acc.two; omega) _ rfl) (by rw [hls]; exact ⟨rfl, rfl⟩)
    dsimp only at h
    obtain ⟨r, hr⟩ : ∃ r, r = run p (o p) (objfun obj a.maximize none) fuel ls := ⟨_, rfl⟩
    rw [← hr] at h un
    obtain ⟨l, t⟩ := r
    cases l with
    | ret =>
      simp only [Option.some.injEq, Prod.mk.injEq] at h
      obtain ⟨-, rfl, -, -⟩ := h
      exact un
    | _ => exact absurd h (by simp)

end Opk.Newuoa
