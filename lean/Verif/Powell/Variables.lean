import Verif.Bobyqa.Demo
import Verif.Newuoa.Demo
import Verif.Cobyla.Demo

/-!
# COBYLA, BOBYQA and NEWUOA: scaling, maximization and wrong arguments (C95, C96)

To maximize a function is to minimize its opposite, and to give scaling factors is to change the variables: the calls of the
objective function, the status and the results are the same in both cases, for any arithmetic.

Wrong arguments are refused before the first call of the objective function, and the variables are left unchanged, except by
`bobyqa_optimize` with the status `BOBYQA_TOO_CLOSE`.
-/

namespace Opk.Variables
open Linalg CMath Cobyla

section
variable {F : Type} [Add F] [Sub F] [Mul F] [Div F] [Neg F] [Zero F] [One F] [DecidableEq F]
variable [LT F] [LE F] [DecidableLT F] [DecidableLE F] [CMath F]

/-! ### The scaling factors -/

/-- A scaling factor which is not valid: not finite (then its difference with itself is not zero), or not positive. -/
def Wrong (c : F) : Prop := c ≠ 1 ∧ (c - c ≠ 0 ∨ c ≤ 0)

/-- The factors are valid, and some factor is not one: there is a change of variables. -/
def Proper (n : Nat) (c : Nat → F) : Prop := (∀ j, 1 ≤ j → j ≤ n → ¬ Wrong (c j)) ∧ ∃ j, 1 ≤ j ∧ j ≤ n ∧ c j ≠ 1

theorem scaling_cases (c : Nat → F) : ∀ n : Nat,
    (Bobyqa.scaling n (some c) = none ∧ ∃ j, 1 ≤ j ∧ j ≤ n ∧ Wrong (c j)) ∨
    (Bobyqa.scaling n (some c) = some none ∧ ∀ j, 1 ≤ j → j ≤ n → c j = 1) ∨
    (Bobyqa.scaling n (some c) = some (some c) ∧ Proper n c) := by
  intro n
  induction n with
  | zero => exact Or.inr (Or.inl ⟨rfl, fun j h1 h2 => by omega⟩)
  | succ n ih =>
    have e : Bobyqa.scaling (n + 1) (some c) = (match Bobyqa.scaling n (some c) with
      | none => none
      | some o => if c (n + 1) ≠ 1 then (if c (n + 1) - c (n + 1) ≠ 0 ∨ c (n + 1) ≤ 0 then none else some (some c)) else some o) := rfl
    rcases ih with ⟨h, j, j1, j2, j3⟩ | ⟨h, q⟩ | ⟨h, q, j, j1, j2, j3⟩
    · rw [h] at e
      exact Or.inl ⟨e, j, j1, by omega, j3⟩
    · rw [h] at e
      by_cases c1 : c (n + 1) ≠ 1
      · by_cases c2 : c (n + 1) - c (n + 1) ≠ 0 ∨ c (n + 1) ≤ 0
        · exact Or.inl ⟨e.trans ((if_pos c1).trans (if_pos c2)), n + 1, by omega, le_refl _, c1, c2⟩
        · refine Or.inr (Or.inr ⟨e.trans ((if_pos c1).trans (if_neg c2)), fun j j1 j2 w => ?_, n + 1, by omega, le_refl _, c1⟩)
          rcases Nat.lt_or_ge n j with g | g
          · obtain rfl : j = n + 1 := by omega
            exact c2 w.2
          · exact w.1 (q j j1 g)
      · refine Or.inr (Or.inl ⟨e.trans (if_neg c1), fun j j1 j2 => ?_⟩)
        rcases Nat.lt_or_ge n j with g | g
        · obtain rfl : j = n + 1 := by omega
          exact not_not.mp c1
        · exact q j j1 g
    · rw [h] at e
      by_cases c1 : c (n + 1) ≠ 1
      · by_cases c2 : c (n + 1) - c (n + 1) ≠ 0 ∨ c (n + 1) ≤ 0
        · exact Or.inl ⟨e.trans ((if_pos c1).trans (if_pos c2)), n + 1, by omega, le_refl _, c1, c2⟩
        · refine Or.inr (Or.inr ⟨e.trans ((if_pos c1).trans (if_neg c2)), fun k k1 k2 w => ?_, j, j1, by omega, j3⟩)
          rcases Nat.lt_or_ge n k with g | g
          · obtain rfl : k = n + 1 := by omega
            exact c2 w.2
          · exact q k k1 g w
      · refine Or.inr (Or.inr ⟨e.trans (if_neg c1), fun k k1 k2 w => ?_, j, j1, by omega, j3⟩)
        rcases Nat.lt_or_ge n k with g | g
        · obtain rfl : k = n + 1 := by omega
          exact c1 w.1
        · exact q k k1 g w

/-- The three programs check the factors in the same way. -/
theorem newuoa_scaling (n : Nat) (scl : Option (Nat → F)) : Newuoa.scaling n scl = Bobyqa.scaling n scl := rfl

theorem cobyla_scaling (n : Nat) (scl : Option (Nat → F)) : Cobyla.scaling n scl = Bobyqa.scaling n scl := by
  cases scl with
  | none => rfl
  | some c =>
    have h : ∀ m, Bobyqa.scaling m (some c) = Cobyla.scaling m (some c) := by
      intro m
      induction m with
      | zero => rfl
      | succ m ih =>
        unfold Bobyqa.scaling Cobyla.scaling at ih ⊢
        dsimp only at ih ⊢
        rw [up_succ, up_succ, ih]
        generalize up m _ (some false) = t
        match t with
        | none => rfl
        | some b =>
          dsimp only [Option.map]
          by_cases c1 : c (m + 1) ≠ 1
          · rw [if_pos c1, if_pos c1]
            by_cases c2 : c (m + 1) - c (m + 1) ≠ 0 ∨ c (m + 1) ≤ 0
            · rw [if_pos c2, if_pos c2]
            · rw [if_neg c2, if_neg c2]; rfl
          · rw [if_neg c1, if_neg c1]
    exact (h n).symm

theorem scaling_proper {n : Nat} {c : Nat → F} (h : Proper n c) : Bobyqa.scaling n (some c) = some (some c) := by
  obtain ⟨h1, j, j1, j2, j3⟩ := h
  rcases scaling_cases c n with ⟨-, k, k1, k2, k3⟩ | ⟨-, q⟩ | ⟨h, -⟩
  · exact absurd k3 (h1 k k1 k2)
  · exact absurd (q j j1 j2) j3
  · exact h

theorem scaling_wrong {n : Nat} {c : Nat → F} (h : ∃ j, 1 ≤ j ∧ j ≤ n ∧ Wrong (c j)) : Bobyqa.scaling n (some c) = none := by
  obtain ⟨j, j1, j2, j3⟩ := h
  rcases scaling_cases c n with ⟨h, -⟩ | ⟨-, q⟩ | ⟨-, q, -⟩
  · exact h
  · exact absurd (q j j1 j2) j3.1
  · exact absurd j3 (q j j1 j2)

theorem scaling_ones {n : Nat} {c : Nat → F} (h : ∀ j, 1 ≤ j → j ≤ n → c j = 1) : Bobyqa.scaling n (some c) = some none := by
  rcases scaling_cases c n with ⟨-, k, k1, k2, k3⟩ | ⟨h, -⟩ | ⟨-, -, k, k1, k2, k3⟩
  · exact absurd (h k k1 k2) k3.1
  · exact h
  · exact absurd (h k k1 k2) k3

/-! ### BOBYQA -/

/-- The arguments of `bobyqa_optimize` which are refused, and why: the first reason in this order (the bounds are compared in the
scaled variables). -/
def BobyqaRefused (a : Bobyqa.Args F) (st : Bobyqa.Status) : Prop :=
  if a.n < 2 then st = .badNvars
  else if a.npt < a.n + 2 ∨ a.npt > (a.n + 2) * (a.n + 1) / 2 then st = .badNpt
  else if a.rhoend ≤ 0 ∨ a.rhoend > a.rhobeg then st = .badRhoRange
  else match a.scl with
    | none => st = .tooClose ∧ ∃ j, 1 ≤ j ∧ j ≤ a.n.toNat ∧ a.xu j - a.xl j < a.rhobeg + a.rhobeg
    | some c =>
      st = .badScaling ∧ (∃ j, 1 ≤ j ∧ j ≤ a.n.toNat ∧ Wrong (c j)) ∨
      st = .tooClose ∧ (∀ j, 1 ≤ j → j ≤ a.n.toNat → ¬ Wrong (c j)) ∧
        ((∃ j, 1 ≤ j ∧ j ≤ a.n.toNat ∧ c j ≠ 1) ∧ (∃ j, 1 ≤ j ∧ j ≤ a.n.toNat ∧ 1 / c j * a.xu j - 1 / c j * a.xl j < a.rhobeg + a.rhobeg) ∨
          (∀ j, 1 ≤ j → j ≤ a.n.toNat → c j = 1) ∧ ∃ j, 1 ≤ j ∧ j ≤ a.n.toNat ∧ a.xu j - a.xl j < a.rhobeg + a.rhobeg)

theorem firstClose_spec (n : Nat) (r : F) (xl xu : Nat → F) : Bobyqa.firstClose n r xl xu ≠ 0 ↔ ∃ j, 1 ≤ j ∧ j ≤ n ∧ xu j - xl j < r + r := by
  induction n with
  | zero => exact ⟨fun h => absurd rfl h, fun ⟨j, h1, h2, _⟩ => by omega⟩
  | succ n ih =>
    have e : Bobyqa.firstClose (n + 1) r xl xu =
      if Bobyqa.firstClose n r xl xu = 0 ∧ xu (n + 1) - xl (n + 1) < r + r then n + 1 else Bobyqa.firstClose n r xl xu := rfl
    rw [e]
    by_cases q : Bobyqa.firstClose n r xl xu = 0 ∧ xu (n + 1) - xl (n + 1) < r + r
    · rw [if_pos q]; exact ⟨fun _ => ⟨n + 1, by omega, le_refl _, q.2⟩, fun _ => by omega⟩
    · rw [if_neg q, ih]
      constructor
      · rintro ⟨j, j1, j2, j3⟩; exact ⟨j, j1, by omega, j3⟩
      · rintro ⟨j, j1, j2, j3⟩
        rcases Nat.lt_or_ge n j with g | g
        · obtain rfl : j = n + 1 := by omega
          refine ih.mp fun h => q ⟨h, j3⟩
        · exact ⟨j, j1, g, j3⟩

/-- The end of `prepare` with the variables, the bounds and the factors `scl`. -/
theorem prepare_refused_at (a : Bobyqa.Args F) (s : Bobyqa.St F) (xl xu x : Nat → F) (scl : Option (Nat → F)) (e : Bobyqa.Status × (Nat → F)) (n : Nat)
    (h : (if Bobyqa.firstClose n a.rhobeg xl xu ≠ 0 then
        (Sum.inl (.tooClose, fun j => if j < Bobyqa.firstClose n a.rhobeg xl xu then (Bobyqa.adjust a.rhobeg (xl j) (xu j) (x j)).1 else x j) : (Bobyqa.Status × (Nat → F)) ⊕ (Bobyqa.Par F × Option (Nat → F) × (Bobyqa.Lab × Bobyqa.St F)))
      else .inr (⟨n, a.npt.toNat, a.rhobeg, a.rhoend, a.maxfun, xl, xu⟩, scl, Bobyqa.start (fun j => (Bobyqa.adjust a.rhobeg (xl j) (xu j) (x j)).1) (fun j => (Bobyqa.adjust a.rhobeg (xl j) (xu j) (x j)).2.1) (fun j => (Bobyqa.adjust a.rhobeg (xl j) (xu j) (x j)).2.2) s)) = .inl e) :
    e.1 = .tooClose ∧ ∃ j, 1 ≤ j ∧ j ≤ n ∧ xu j - xl j < a.rhobeg + a.rhobeg := by
  by_cases q : Bobyqa.firstClose n a.rhobeg xl xu ≠ 0
  · rw [if_pos q] at h
    obtain rfl := (Sum.inl.inj h).symm
    exact ⟨rfl, (firstClose_spec _ _ _ _).mp q⟩
  · rw [if_neg q] at h; cases h

theorem prepare_accepted_at (a : Bobyqa.Args F) (s : Bobyqa.St F) (xl xu x : Nat → F) (scl : Option (Nat → F)) (q : Bobyqa.Par F × Option (Nat → F) × (Bobyqa.Lab × Bobyqa.St F)) (n : Nat)
    (h : (if Bobyqa.firstClose n a.rhobeg xl xu ≠ 0 then
        (Sum.inl (.tooClose, fun j => if j < Bobyqa.firstClose n a.rhobeg xl xu then (Bobyqa.adjust a.rhobeg (xl j) (xu j) (x j)).1 else x j) : (Bobyqa.Status × (Nat → F)) ⊕ (Bobyqa.Par F × Option (Nat → F) × (Bobyqa.Lab × Bobyqa.St F)))
      else .inr (⟨n, a.npt.toNat, a.rhobeg, a.rhoend, a.maxfun, xl, xu⟩, scl, Bobyqa.start (fun j => (Bobyqa.adjust a.rhobeg (xl j) (xu j) (x j)).1) (fun j => (Bobyqa.adjust a.rhobeg (xl j) (xu j) (x j)).2.1) (fun j => (Bobyqa.adjust a.rhobeg (xl j) (xu j) (x j)).2.2) s)) = .inr q) :
    q.2.2.1 = .pre ∧ ¬ ∃ j, 1 ≤ j ∧ j ≤ n ∧ xu j - xl j < a.rhobeg + a.rhobeg := by
  by_cases c : Bobyqa.firstClose n a.rhobeg xl xu ≠ 0
  · rw [if_pos c] at h; cases h
  · rw [if_neg c] at h
    obtain rfl := (Sum.inr.inj h).symm
    exact ⟨rfl, fun w => c ((firstClose_spec _ _ _ _).mpr w)⟩

/-- Refused arguments: the status tells the first reason, and the variables are unchanged but for `BOBYQA_TOO_CLOSE`. -/
theorem bobyqa_prepare_refused (a : Bobyqa.Args F) (s : Bobyqa.St F) (e : Bobyqa.Status × (Nat → F)) (h : Bobyqa.prepare a s = .inl e) :
    BobyqaRefused a e.1 ∧ (e.1 ≠ .tooClose → e.2 = a.x) := by
  unfold Bobyqa.prepare at h
  unfold BobyqaRefused
  by_cases c1 : a.n < 2
  · rw [if_pos c1] at h ⊢; obtain rfl := (Sum.inl.inj h).symm; exact ⟨rfl, fun _ => rfl⟩
  rw [if_neg c1] at h ⊢
  by_cases c2 : a.npt < a.n + 2 ∨ a.npt > (a.n + 2) * (a.n + 1) / 2
  · rw [if_pos c2] at h ⊢; obtain rfl := (Sum.inl.inj h).symm; exact ⟨rfl, fun _ => rfl⟩
  rw [if_neg c2] at h ⊢
  by_cases c3 : a.rhoend ≤ 0 ∨ a.rhoend > a.rhobeg
  · rw [if_pos c3] at h ⊢; obtain rfl := (Sum.inl.inj h).symm; exact ⟨rfl, fun _ => rfl⟩
  rw [if_neg c3] at h ⊢
  dsimp only at h
  cases hs : a.scl with
  | none =>
    rw [hs] at h
    obtain ⟨h1, h2⟩ := prepare_refused_at a s _ _ _ _ e _ h
    exact ⟨⟨h1, h2⟩, fun w => absurd h1 w⟩
  | some c =>
    rw [hs] at h
    dsimp only
    rcases scaling_cases c a.n.toNat with ⟨q, w⟩ | ⟨q, w⟩ | ⟨q, w⟩ <;> rw [q] at h
    · obtain rfl := (Sum.inl.inj h).symm
      exact ⟨Or.inl ⟨rfl, w⟩, fun _ => rfl⟩
    · obtain ⟨h1, h2⟩ := prepare_refused_at a s _ _ _ _ e _ h
      exact ⟨Or.inr ⟨h1, fun j j1 j2 v => v.1 (w j j1 j2), Or.inr ⟨w, h2⟩⟩, fun v => absurd h1 v⟩
    · obtain ⟨h1, h2⟩ := prepare_refused_at a s _ _ _ _ e _ h
      exact ⟨Or.inr ⟨h1, w.1, Or.inl ⟨w.2, h2⟩⟩, fun v => absurd h1 v⟩

theorem bobyqa_prepare_accepted (a : Bobyqa.Args F) (s : Bobyqa.St F) (q : Bobyqa.Par F × Option (Nat → F) × (Bobyqa.Lab × Bobyqa.St F))
    (h : Bobyqa.prepare a s = .inr q) : q.2.2.1 = .pre ∧ ∀ st, ¬ BobyqaRefused a st := by
  unfold Bobyqa.prepare at h
  unfold BobyqaRefused
  by_cases c1 : a.n < 2
  · rw [if_pos c1] at h; cases h
  rw [if_neg c1] at h
  by_cases c2 : a.npt < a.n + 2 ∨ a.npt > (a.n + 2) * (a.n + 1) / 2
  · rw [if_pos c2] at h; cases h
  rw [if_neg c2] at h
  by_cases c3 : a.rhoend ≤ 0 ∨ a.rhoend > a.rhobeg
  · rw [if_pos c3] at h; cases h
  rw [if_neg c3] at h
  dsimp only at h
  cases hs : a.scl with
  | none =>
    rw [hs] at h
    obtain ⟨h1, h2⟩ := prepare_accepted_at a s _ _ _ _ q _ h
    refine ⟨h1, fun st => ?_⟩
    rw [if_neg c1, if_neg c2, if_neg c3]
    exact fun w => h2 w.2
  | some c =>
    rw [hs] at h
    rcases scaling_cases c a.n.toNat with ⟨e, w⟩ | ⟨e, w⟩ | ⟨e, w⟩ <;> rw [e] at h
    · cases h
    · obtain ⟨h1, h2⟩ := prepare_accepted_at a s _ _ _ _ q _ h
      refine ⟨h1, fun st => ?_⟩
      rw [if_neg c1, if_neg c2, if_neg c3]
      rintro (⟨-, j, j1, j2, j3⟩ | ⟨-, -, ⟨⟨j, j1, j2, j3⟩, -⟩ | ⟨-, v⟩⟩)
      · exact j3.1 (w j j1 j2)
      · exact j3 (w j j1 j2)
      · exact h2 v
    · obtain ⟨h1, h2⟩ := prepare_accepted_at a s _ _ _ _ q _ h
      refine ⟨h1, fun st => ?_⟩
      rw [if_neg c1, if_neg c2, if_neg c3]
      rintro (⟨-, j, j1, j2, j3⟩ | ⟨-, -, ⟨-, v⟩ | ⟨v, -⟩⟩)
      · exact w.1 j j1 j2 j3
      · exact h2 v
      · obtain ⟨j, j1, j2, j3⟩ := w.2
        exact j3 (v j j1 j2)

end

section
variable {F : Type} [Add F] [Sub F] [Mul F] [Div F] [Neg F] [Zero F] [One F] [LinearOrder F] [CMath F]

/-- After `prelim` has begun, there is at least one call. -/
theorem bobyqa_called_step (p : Bobyqa.Par F) (calfun : Nat → (Nat → F) → F) (T : Bobyqa.St F → Bobyqa.Trs F) (ls : Bobyqa.Lab × Bobyqa.St F)
    (h : ls.1 = .pre ∨ ls.2.log ≠ []) : (Bobyqa.step p calfun T ls).1 = .pre ∨ (Bobyqa.step p calfun T ls).2.log ≠ [] := by
  obtain ⟨l, s⟩ := ls
  by_cases hp : l = .pre
  · subst hp
    right
    show (Bobyqa.prelim p calfun s).2.log ≠ []
    rw [(Bobyqa.prelim_called p calfun s).1]
    exact List.cons_ne_nil _ _
  · have h' : s.log ≠ [] := h.resolve_left hp
    have same : ∀ s' : Bobyqa.St F, s'.log = s.log → s'.log ≠ [] := fun s' e => by rw [e]; exact h'
    have more : ∀ (e : (Nat → F) × F) (s' : Bobyqa.St F), s'.log = e :: s.log → s'.log ≠ [] := fun e s' q => by rw [q]; exact List.cons_ne_nil _ _
    right
    cases l with
    | pre => exact absurd rfl hp
    | l20 => exact same _ (Bobyqa.quiet_l20 p s).2.1
    | l60 => exact same _ (Bobyqa.quiet_l60 p T s).2.1
    | l90 => exact same _ (Bobyqa.quiet_l90 p s).2.1
    | l190 => exact same _ (Bobyqa.quiet_l190 p s).2.1
    | r80 => exact same _ (Bobyqa.quiet_r80 p s).2.1
    | r120 => exact same _ (Bobyqa.quiet_r120 p s).2.1
    | l190b => exact same _ (Bobyqa.quiet_l190b p s).2.1
    | l210 => exact same _ (Bobyqa.quiet_l210 p s).2.1
    | l230 => exact same _ (Bobyqa.quiet_l230 p s).2.1
    | l650 => exact same _ (Bobyqa.quiet_l650 p s).2.1
    | l680 => exact same _ (Bobyqa.quiet_l680 p s).2.1
    | rpts =>
      obtain ⟨-, ⟨t, v, a2, -, -⟩ | ⟨a2, -⟩⟩ := Bobyqa.rpts_called p calfun s
      · exact more _ _ a2
      · exact same _ a2
    | l360 =>
      obtain ⟨-, ⟨a2, -, -⟩ | ⟨a2, -⟩⟩ := Bobyqa.l360_called p calfun s
      · exact more _ _ a2
      · exact same _ a2
    | done => exact same _ (Bobyqa.finish_log p s).1
    | ret => exact h'
    | wrong => exact h'

/-- **C96**, for BOBYQA.  `bobyqa_optimize` makes no call of the objective function exactly if its arguments are refused; then the status
tells the first reason, and the variables are unchanged, *unless the status is `BOBYQA_TOO_CLOSE`*. -/
theorem bobyqa_refused_partial (a : Bobyqa.Args F) (obj : Nat → (Nat → F) → F) (T : Bobyqa.Par F → Bobyqa.St F → Bobyqa.Trs F) (s : Bobyqa.St F)
    (fuel : Nat) (st : Bobyqa.Status) (x : Nat → F) (w : F) (log : List ((Nat → F) × F)) (h : Bobyqa.optimize a obj T s fuel = some (st, x, w, log)) :
    (log = [] ∧ BobyqaRefused a st ∧ (st ≠ .tooClose → x = a.x)) ∨ (log ≠ [] ∧ ∀ st', ¬ BobyqaRefused a st') := by
  unfold Bobyqa.optimize at h
  cases hp : Bobyqa.prepare a s with
  | inl e =>
    rw [hp] at h
    simp only [Option.some.injEq, Prod.mk.injEq] at h
    obtain ⟨rfl, rfl, -, rfl⟩ := h
    exact Or.inl ⟨rfl, bobyqa_prepare_refused a s e hp⟩
  | inr q =>
    obtain ⟨p, scl, ls⟩ := q
    rw [hp] at h
    obtain ⟨h1, h2⟩ := bobyqa_prepare_accepted a s _ hp
    have h3 := Bobyqa.run_inv p (Bobyqa.objfun obj a.maximize scl) (T p) (fun ls => ls.1 = .pre ∨ ls.2.log ≠ [])
      (bobyqa_called_step p _ (T p)) fuel ls (Or.inl h1)
    dsimp only at h
    generalize Bobyqa.run p (Bobyqa.objfun obj a.maximize scl) (T p) fuel ls = r at h h3
    obtain ⟨l, t⟩ := r
    cases l with
    | ret =>
      simp only [Option.some.injEq, Prod.mk.injEq] at h
      obtain ⟨-, -, -, rfl⟩ := h
      refine Or.inr ⟨fun e => ?_, h2⟩
      rw [List.map_eq_nil_iff] at e
      exact h3.elim (fun w => by cases w) (fun w => w e)
    | _ => cases h

end

section
variable {F : Type} [Add F] [Sub F] [Mul F] [Div F] [Neg F] [Zero F] [One F] [DecidableEq F]
variable [LT F] [LE F] [DecidableLT F] [DecidableLE F] [CMath F]

/-- Conversely, refused arguments are refused whatever the rest. -/
theorem bobyqa_refused_returns (a : Bobyqa.Args F) (obj : Nat → (Nat → F) → F) (T : Bobyqa.Par F → Bobyqa.St F → Bobyqa.Trs F) (s : Bobyqa.St F)
    (fuel : Nat) (st : Bobyqa.Status) (hr : BobyqaRefused a st) : ∃ st x, Bobyqa.optimize a obj T s fuel = some (st, x, s.xbase 1, []) := by
  unfold Bobyqa.optimize
  cases hp : Bobyqa.prepare a s with
  | inl e => exact ⟨e.1, e.2, rfl⟩
  | inr q => exact absurd hr ((bobyqa_prepare_accepted a s q hp).2 st)

/-! ### Maximization -/

/-- The result with the opposite values. -/
def flipped {W : Type} (neg : F → F) (g : W → W) {S : Type} (r : S × (Nat → F) × W × List ((Nat → F) × F)) : S × (Nat → F) × W × List ((Nat → F) × F) :=
  (r.1, r.2.1, g r.2.2.1, r.2.2.2.map fun e => (e.1, neg e.2))

/-- The result in other variables. -/
def moved {W S : Type} (m : (Nat → F) → Nat → F) (r : S × (Nat → F) × W × List ((Nat → F) × F)) : S × (Nat → F) × W × List ((Nat → F) × F) :=
  (r.1, m r.2.1, r.2.2.1, r.2.2.2.map fun e => (m e.1, e.2))

/-- **C95**, for BOBYQA.  To maximize a function is to minimize its opposite. -/
theorem bobyqa_maximize (one : ∀ v : F, v * 1 = v) (a : Bobyqa.Args F) (obj : Nat → (Nat → F) → F) (T : Bobyqa.Par F → Bobyqa.St F → Bobyqa.Trs F)
    (s : Bobyqa.St F) (fuel : Nat) (hm : a.maximize = true) (ok : ∀ st, ¬ BobyqaRefused a st) :
    Bobyqa.optimize a obj T s fuel =
      (Bobyqa.optimize { a with maximize := false } (fun i x => obj i x * -1) T s fuel).map (flipped (· * -1) (· * -1)) := by
  unfold Bobyqa.optimize
  rw [show Bobyqa.prepare { a with maximize := false } s = Bobyqa.prepare a s from rfl]
  cases hp : Bobyqa.prepare a s with
  | inl e => exact absurd (bobyqa_prepare_refused a s e hp).1 (ok _)
  | inr q =>
    obtain ⟨p, scl, ls⟩ := q
    dsimp only
    have e : Bobyqa.objfun (fun i x => obj i x * -1) false scl = Bobyqa.objfun obj a.maximize scl := by
      unfold Bobyqa.objfun
      funext i x
      rw [hm, if_pos rfl, if_neg (by decide), one]
    rw [e]
    generalize Bobyqa.run p (Bobyqa.objfun obj a.maximize scl) (T p) fuel ls = r
    obtain ⟨l, t⟩ := r
    cases l with
    | ret =>
      simp only [hm, if_true, Option.map, flipped, List.map_map, Bool.false_eq_true, if_false, one]
      rfl
    | _ => rfl

/-- **C95**, for BOBYQA.  To give scaling factors is to change the variables: the same calls are made with the objective function of the
scaled variables, with the point and the bounds divided by the factors. -/
theorem bobyqa_scaled (a : Bobyqa.Args F) (obj : Nat → (Nat → F) → F) (T : Bobyqa.Par F → Bobyqa.St F → Bobyqa.Trs F)
    (s : Bobyqa.St F) (fuel : Nat) (c : Nat → F) (hc : a.scl = some c) (hp : Proper a.n.toNat c) (ok : ∀ st, ¬ BobyqaRefused a st) :
    Bobyqa.optimize a obj T s fuel =
      (Bobyqa.optimize { a with scl := none, x := fun j => a.x j * (1 / c j), xl := fun j => 1 / c j * a.xl j, xu := fun j => 1 / c j * a.xu j } (fun i x => obj i fun j => c j * x j) T s fuel).map
        (moved fun x j => c j * x j) := by
  have key : ∀ q, Bobyqa.prepare a s = .inr q → q.2.1 = some c ∧
      Bobyqa.prepare { a with scl := none, x := fun j => a.x j * (1 / c j), xl := fun j => 1 / c j * a.xl j, xu := fun j => 1 / c j * a.xu j } s = .inr (q.1, none, q.2.2) := by
    intro q hq
    unfold Bobyqa.prepare at hq ⊢
    dsimp only at hq ⊢
    by_cases c1 : a.n < 2
    · rw [if_pos c1] at hq; cases hq
    rw [if_neg c1] at hq ⊢
    by_cases c2 : a.npt < a.n + 2 ∨ a.npt > (a.n + 2) * (a.n + 1) / 2
    · rw [if_pos c2] at hq; cases hq
    rw [if_neg c2] at hq ⊢
    by_cases c3 : a.rhoend ≤ 0 ∨ a.rhoend > a.rhobeg
    · rw [if_pos c3] at hq; cases hq
    rw [if_neg c3] at hq ⊢
    rw [hc, scaling_proper hp] at hq
    dsimp only at hq
    rw [show Bobyqa.scaling a.n.toNat (none : Option (Nat → F)) = some none from rfl]
    dsimp only
    by_cases c4 : Bobyqa.firstClose a.n.toNat a.rhobeg (fun j => 1 / c j * a.xl j) (fun j => 1 / c j * a.xu j) ≠ 0
    · rw [if_pos c4] at hq; cases hq
    · rw [if_neg c4] at hq ⊢
      obtain rfl := (Sum.inr.inj hq).symm
      exact ⟨rfl, rfl⟩
  cases hq : Bobyqa.prepare a s with
  | inl e => exact absurd (bobyqa_prepare_refused a s e hq).1 (ok _)
  | inr q =>
    obtain ⟨k1, k2⟩ := key q hq
    obtain ⟨p, scl, ls⟩ := q
    obtain rfl : scl = some c := k1
    unfold Bobyqa.optimize
    rw [hq, k2]
    dsimp only
    rw [show Bobyqa.objfun (fun i x => obj i fun j => c j * x j) a.maximize none = Bobyqa.objfun obj a.maximize (some c) from rfl]
    generalize Bobyqa.run p (Bobyqa.objfun obj a.maximize (some c)) (T p) fuel ls = r
    obtain ⟨l, t⟩ := r
    cases l with
    | ret =>
      simp only [Option.map, moved, List.map_map]
      rfl
    | _ => rfl

/-- **C95**, for BOBYQA.  Factors which are all equal to one are not used. -/
theorem bobyqa_scaled_ones (a : Bobyqa.Args F) (obj : Nat → (Nat → F) → F) (T : Bobyqa.Par F → Bobyqa.St F → Bobyqa.Trs F)
    (s : Bobyqa.St F) (fuel : Nat) (c : Nat → F) (hc : a.scl = some c) (h : ∀ j, 1 ≤ j → j ≤ a.n.toNat → c j = 1) :
    Bobyqa.optimize a obj T s fuel = Bobyqa.optimize { a with scl := none } obj T s fuel := by
  have e : Bobyqa.prepare a s = Bobyqa.prepare { a with scl := none } s := by
    unfold Bobyqa.prepare
    dsimp only
    rw [hc, scaling_ones h]
    rfl
  unfold Bobyqa.optimize
  rw [e]

/-! ### NEWUOA -/

/-- The arguments of `newuoa_optimize` which are refused, and why: the first reason in this order. -/
def NewuoaRefused (a : Newuoa.Args F) (st : Newuoa.Status) : Prop :=
  if a.n < 2 then st = .badNvars
  else if a.npt < a.n + 2 ∨ a.npt > (a.n + 2) * (a.n + 1) / 2 then st = .badNpt
  else if a.rhoend ≤ 0 ∨ a.rhoend > a.rhobeg then st = .badRhoRange
  else st = .badScaling ∧ ∃ c, a.scl = some c ∧ ∃ j, 1 ≤ j ∧ j ≤ a.n.toNat ∧ Wrong (c j)

theorem newuoa_prepare_refused (a : Newuoa.Args F) (s : Newuoa.St F) (st : Newuoa.Status) : Newuoa.prepare a s = .inl st ↔ NewuoaRefused a st := by
  unfold Newuoa.prepare NewuoaRefused
  by_cases c1 : a.n < 2
  · rw [if_pos c1, if_pos c1]; exact ⟨fun h => (Sum.inl.inj h).symm, fun h => by rw [h]⟩
  rw [if_neg c1, if_neg c1]
  by_cases c2 : a.npt < a.n + 2 ∨ a.npt > (a.n + 2) * (a.n + 1) / 2
  · rw [if_pos c2, if_pos c2]; exact ⟨fun h => (Sum.inl.inj h).symm, fun h => by rw [h]⟩
  rw [if_neg c2, if_neg c2]
  by_cases c3 : a.rhoend ≤ 0 ∨ a.rhoend > a.rhobeg
  · rw [if_pos c3, if_pos c3]; exact ⟨fun h => (Sum.inl.inj h).symm, fun h => by rw [h]⟩
  rw [if_neg c3, if_neg c3, newuoa_scaling]
  cases hs : a.scl with
  | none => exact ⟨(fun h => by cases h), fun ⟨_, c, h, _⟩ => by cases h⟩
  | some c =>
    rcases scaling_cases c a.n.toNat with ⟨q, v⟩ | ⟨q, v⟩ | ⟨q, v⟩ <;> rw [q]
    · exact ⟨fun h => ⟨(Sum.inl.inj h).symm, c, rfl, v⟩, fun h => by rw [h.1]⟩
    · refine ⟨(fun h => by cases h), ?_⟩
      rintro ⟨-, c', h, j, j1, j2, j3⟩
      obtain rfl := Option.some.inj h
      exact absurd (v j j1 j2) j3.1
    · refine ⟨(fun h => by cases h), ?_⟩
      rintro ⟨-, c', h, j, j1, j2, j3⟩
      obtain rfl := Option.some.inj h
      exact absurd j3 (v.1 j j1 j2)

/-- **C96**, for NEWUOA: refused arguments give the status of the first reason, the variables are unchanged and there is no call. -/
theorem newuoa_refused (a : Newuoa.Args F) (o : Newuoa.Par F → Newuoa.Subs F) (obj : Nat → (Nat → F) → F) (s : Newuoa.St F)
    (fuel : Nat) (st : Newuoa.Status) (h : NewuoaRefused a st) : Newuoa.optimize a o obj s fuel = some (st, a.x, none, []) := by
  unfold Newuoa.optimize
  rw [(newuoa_prepare_refused a s st).mpr h]

/-- **C95**, for NEWUOA.  To maximize a function is to minimize its opposite. -/
theorem newuoa_maximize (a : Newuoa.Args F) (obj : Nat → (Nat → F) → F) (o : Newuoa.Par F → Newuoa.Subs F) (s : Newuoa.St F) (fuel : Nat)
    (hm : a.maximize = true) :
    Newuoa.optimize a o obj s fuel =
      (Newuoa.optimize { a with maximize := false } o (fun i x => -obj i x) s fuel).map (flipped (- ·) (Option.map (- ·))) := by
  unfold Newuoa.optimize
  rw [show Newuoa.prepare { a with maximize := false } s = Newuoa.prepare a s from rfl]
  cases hp : Newuoa.prepare a s with
  | inl e => rfl
  | inr q =>
    obtain ⟨p, scl, ls⟩ := q
    dsimp only
    have e : Newuoa.objfun (fun i x => -obj i x) false scl = Newuoa.objfun obj a.maximize scl := by
      unfold Newuoa.objfun
      funext i x
      rw [hm, if_pos rfl, if_neg (by decide)]
    rw [e]
    generalize Newuoa.run p (o p) (Newuoa.objfun obj a.maximize scl) fuel ls = r
    obtain ⟨l, t⟩ := r
    cases l with
    | ret =>
      simp only [hm, if_true, Option.map, flipped, List.map_map, Bool.false_eq_true, if_false]
      rfl
    | _ => rfl

/-- **C95**, for NEWUOA.  To give scaling factors is to change the variables. -/
theorem newuoa_scaled (a : Newuoa.Args F) (obj : Nat → (Nat → F) → F) (o : Newuoa.Par F → Newuoa.Subs F) (s : Newuoa.St F) (fuel : Nat)
    (c : Nat → F) (hc : a.scl = some c) (hp : Proper a.n.toNat c) (ok : ∀ st, ¬ NewuoaRefused a st) :
    Newuoa.optimize a o obj s fuel =
      (Newuoa.optimize { a with scl := none, x := fun j => a.x j / c j } o (fun i x => obj i fun j => c j * x j) s fuel).map (moved fun x j => c j * x j) := by
  have key : ∀ q, Newuoa.prepare a s = .inr q → q.2.1 = some c ∧
      Newuoa.prepare { a with scl := none, x := fun j => a.x j / c j } s = .inr (q.1, none, q.2.2) := by
    intro q hq
    unfold Newuoa.prepare at hq ⊢
    dsimp only at hq ⊢
    by_cases c1 : a.n < 2
    · rw [if_pos c1] at hq; cases hq
    rw [if_neg c1] at hq ⊢
    by_cases c2 : a.npt < a.n + 2 ∨ a.npt > (a.n + 2) * (a.n + 1) / 2
    · rw [if_pos c2] at hq; cases hq
    rw [if_neg c2] at hq ⊢
    by_cases c3 : a.rhoend ≤ 0 ∨ a.rhoend > a.rhobeg
    · rw [if_pos c3] at hq; cases hq
    rw [if_neg c3] at hq ⊢
    rw [hc, newuoa_scaling, scaling_proper hp] at hq
    obtain rfl := (Sum.inr.inj hq).symm
    exact ⟨rfl, rfl⟩
  cases hq : Newuoa.prepare a s with
  | inl e => exact absurd ((newuoa_prepare_refused a s e).mp hq) (ok _)
  | inr q =>
    obtain ⟨k1, k2⟩ := key q hq
    obtain ⟨p, scl, ls⟩ := q
    obtain rfl : scl = some c := k1
    unfold Newuoa.optimize
    rw [hq, k2]
    dsimp only
    rw [show Newuoa.objfun (fun i x => obj i fun j => c j * x j) a.maximize none = Newuoa.objfun obj a.maximize (some c) from rfl]
    generalize Newuoa.run p (o p) (Newuoa.objfun obj a.maximize (some c)) fuel ls = r
    obtain ⟨l, t⟩ := r
    cases l with
    | ret =>
      simp only [Option.map, moved, List.map_map]
      rfl
    | _ => rfl

/-- **C95**, for NEWUOA.  Factors which are all equal to one are not used. -/
theorem newuoa_scaled_ones (a : Newuoa.Args F) (obj : Nat → (Nat → F) → F) (o : Newuoa.Par F → Newuoa.Subs F) (s : Newuoa.St F) (fuel : Nat)
    (c : Nat → F) (hc : a.scl = some c) (h : ∀ j, 1 ≤ j → j ≤ a.n.toNat → c j = 1) :
    Newuoa.optimize a o obj s fuel = Newuoa.optimize { a with scl := none } o obj s fuel := by
  have e : Newuoa.prepare a s = Newuoa.prepare { a with scl := none } s := by
    unfold Newuoa.prepare
    dsimp only
    rw [hc, newuoa_scaling, scaling_ones h]
    rfl
  unfold Newuoa.optimize
  rw [e]

end

section
variable {F : Type} [Add F] [Sub F] [Mul F] [Div F] [Neg F] [Zero F] [One F] [LinearOrder F] [CMath F]

/-- **C96**, for NEWUOA: there is no call exactly if the arguments are refused. -/
theorem newuoa_accepted (L : Newuoa.Laws F) (a : Newuoa.Args F) (o : Newuoa.Par F → Newuoa.Subs F) (obj : Nat → (Nat → F) → F) (s : Newuoa.St F)
    (fuel : Nat) (st : Newuoa.Status) (x : Nat → F) (w : Option F) (log : List ((Nat → F) × F)) (h : Newuoa.optimize a o obj s fuel = some (st, x, w, log))
    (ok : ∀ st, ¬ NewuoaRefused a st) : log ≠ [] := by
  rcases Newuoa.optimize_result L a o obj s fuel st x w log h with ⟨-, -, h3, -⟩ | ⟨v, -, r⟩
  · unfold Newuoa.optimize at h
    cases hp : Newuoa.prepare a s with
    | inl e => exact absurd ((newuoa_prepare_refused a s e).mp hp) (ok e)
    | inr q =>
      obtain ⟨p, scl, ls⟩ := q
      rw [hp, h3] at h
      dsimp only at h
      generalize Newuoa.run p (o p) (Newuoa.objfun obj a.maximize scl) fuel ls = r at h
      obtain ⟨l, t⟩ := r
      cases l with
      | ret => simp only [Option.some.injEq, Prod.mk.injEq, reduceCtorEq, false_and, and_false] at h
      | _ => cases h
  · exact r.some_call

end

section
variable {F : Type} [Add F] [Sub F] [Mul F] [Div F] [Neg F] [Zero F] [One F] [DecidableEq F]
variable [LT F] [LE F] [DecidableLT F] [DecidableLE F] [CMath F]

/-! ### COBYLA -/

/-- The arguments of `cobyla_optimize` which are refused, and why. -/
def CobylaRefused (n m : Int) (scl : Option (Nat → F)) (rhobeg rhoend : F) (st : Status) : Prop :=
  if n < 1 then st = .badNvars
  else if m < 0 then st = .badNcons
  else if rhoend ≤ 0 ∨ rhoend > rhobeg then st = .badRhoRange
  else st = .badScaling ∧ ∃ c, scl = some c ∧ ∃ j, 1 ≤ j ∧ j ≤ n.toNat ∧ Wrong (c j)

/-- **C96**, for COBYLA: refused arguments give the status of the first reason and nothing else (neither a call, nor a change of the
variables); other arguments never do. -/
theorem cobyla_refused (T : St F → (Nat → F) × Nat) (fuel count : Nat) (n m : Int) (maximize : Bool) (calcfc : Nat → (Nat → F) → F × (Nat → F))
    (x : Nat → F) (scl : Option (Nat → F)) (rhobeg rhoend : F) (maxfun : Int) (w : St F) (st : Status) :
    optimize T fuel count n m maximize calcfc x scl rhobeg rhoend maxfun w = some (.inl st) ↔ CobylaRefused n m scl rhobeg rhoend st := by
  unfold optimize CobylaRefused
  by_cases c1 : n < 1
  · rw [if_pos c1, if_pos c1]; simp [eq_comm]
  rw [if_neg c1, if_neg c1]
  by_cases c2 : m < 0
  · rw [if_pos c2, if_pos c2]; simp [eq_comm]
  rw [if_neg c2, if_neg c2]
  by_cases c3 : rhoend ≤ 0 ∨ rhoend > rhobeg
  · rw [if_pos c3, if_pos c3]; simp [eq_comm]
  rw [if_neg c3, if_neg c3, cobyla_scaling]
  have run : ∀ o : Option (Nat → F), (match evals (⟨n.toNat, m.toNat, rhobeg, rhoend, maxfun⟩ : Par F) T (reply n.toNat o maximize calcfc) fuel count (init ⟨n.toNat, m.toNat, rhobeg, rhoend, maxfun⟩ (rescale n.toNat o x) w) with
      | none => none
      | some (status, s) => some (Sum.inr (⟨status, unscale n.toNat o s.x, if maximize then -s.f else s.f, s.resmax, s.nfvals⟩ : Result F))) ≠ some (Sum.inl st) := by
    intro o
    generalize evals (⟨n.toNat, m.toNat, rhobeg, rhoend, maxfun⟩ : Par F) T (reply n.toNat o maximize calcfc) fuel count (init (⟨n.toNat, m.toNat, rhobeg, rhoend, maxfun⟩ : Par F) (rescale n.toNat o x) w) = r
    cases r with
    | none => intro h; cases h
    | some r => intro h; cases h
  cases scl with
  | none => exact ⟨fun h => absurd h (run none), fun ⟨_, c, h, _⟩ => by cases h⟩
  | some c =>
    rcases scaling_cases c n.toNat with ⟨q, v⟩ | ⟨q, v⟩ | ⟨q, v⟩ <;> rw [q]
    · constructor
      · intro h
        exact ⟨(Sum.inl.inj (Option.some.inj h)).symm, c, rfl, v⟩
      · rintro ⟨rfl, -⟩; rfl
    · refine ⟨fun h => absurd h (run none), ?_⟩
      rintro ⟨-, c', h, j, j1, j2, j3⟩
      obtain rfl := Option.some.inj h
      exact absurd (v j j1 j2) j3.1
    · refine ⟨fun h => absurd h (run (some c)), ?_⟩
      rintro ⟨-, c', h, j, j1, j2, j3⟩
      obtain rfl := Option.some.inj h
      exact absurd j3 (v.1 j j1 j2)

/-- **C95**, for COBYLA.  To maximize a function is to minimize its opposite. -/
theorem cobyla_maximize (T : St F → (Nat → F) × Nat) (fuel count : Nat) (n m : Int) (calcfc : Nat → (Nat → F) → F × (Nat → F))
    (x : Nat → F) (scl : Option (Nat → F)) (rhobeg rhoend : F) (maxfun : Int) (w : St F) :
    optimize T fuel count n m true calcfc x scl rhobeg rhoend maxfun w =
      (optimize T fuel count n m false (fun k y => (-(calcfc k y).1, (calcfc k y).2)) x scl rhobeg rhoend maxfun w).map
        (Sum.map id fun r => { r with f := -r.f }) := by
  unfold optimize
  by_cases c1 : n < 1
  · rw [if_pos c1, if_pos c1]; rfl
  rw [if_neg c1, if_neg c1]
  by_cases c2 : m < 0
  · rw [if_pos c2, if_pos c2]; rfl
  rw [if_neg c2, if_neg c2]
  by_cases c3 : rhoend ≤ 0 ∨ rhoend > rhobeg
  · rw [if_pos c3, if_pos c3]; rfl
  rw [if_neg c3, if_neg c3]
  cases scaling n.toNat scl with
  | none => rfl
  | some o =>
    dsimp only
    rw [show reply n.toNat o false (fun k y => (-(calcfc k y).1, (calcfc k y).2)) = reply n.toNat o true calcfc from rfl]
    cases evals (⟨n.toNat, m.toNat, rhobeg, rhoend, maxfun⟩ : Par F) T (reply n.toNat o true calcfc) fuel count (init (⟨n.toNat, m.toNat, rhobeg, rhoend, maxfun⟩ : Par F) (rescale n.toNat o x) w) with
    | none => rfl
    | some r => rfl

/-- **C95**, for COBYLA.  To give scaling factors is to change the variables. -/
theorem cobyla_scaled (T : St F → (Nat → F) × Nat) (fuel count : Nat) (n m : Int) (maximize : Bool) (calcfc : Nat → (Nat → F) → F × (Nat → F))
    (x : Nat → F) (c : Nat → F) (rhobeg rhoend : F) (maxfun : Int) (w : St F) (hp : Proper n.toNat c) :
    optimize T fuel count n m maximize calcfc x (some c) rhobeg rhoend maxfun w =
      (optimize T fuel count n m maximize (fun k y => calcfc k fun j => if 1 ≤ j ∧ j ≤ n.toNat then c j * y j else y j)
          (fun j => if 1 ≤ j ∧ j ≤ n.toNat then x j / c j else x j) none rhobeg rhoend maxfun w).map
        (Sum.map id fun r => { r with x := fun j => if 1 ≤ j ∧ j ≤ n.toNat then c j * r.x j else r.x j }) := by
  have e1 : ∀ (k : Nat) (y z : Nat → F), scale k c y z = fun j => if 1 ≤ j ∧ j ≤ k then c j * y j else z j := by
    intro k y z
    induction k with
    | zero => funext j; exact (if_neg (by omega)).symm
    | succ k ih =>
      unfold scale at ih ⊢
      rw [up_succ, ih]
      funext j
      unfold set1
      by_cases q : j = k + 1
      · rw [if_pos q, if_pos (by omega), q]
      · rw [if_neg q]
        dsimp only
        by_cases g : 1 ≤ j ∧ j ≤ k
        · rw [if_pos g, if_pos (by omega)]
        · rw [if_neg g, if_neg (by omega)]
  have e2 : ∀ (k : Nat), up k (fun i x => set1 x i (x i / c i)) x = fun j => if 1 ≤ j ∧ j ≤ k then x j / c j else x j := by
    intro k
    induction k with
    | zero => funext j; exact (if_neg (by omega)).symm
    | succ k ih =>
      rw [up_succ, ih]
      funext j
      unfold set1
      by_cases q : j = k + 1
      · rw [if_pos q, if_pos (by omega), q]
        dsimp only
        rw [if_neg (by omega)]
      · rw [if_neg q]
        dsimp only
        by_cases g : 1 ≤ j ∧ j ≤ k
        · rw [if_pos g, if_pos (by omega)]
        · rw [if_neg g, if_neg (by omega)]
  have e3 : unscale n.toNat (some c) = fun y j => if 1 ≤ j ∧ j ≤ n.toNat then c j * y j else y j := funext fun y => e1 _ y y
  have e4 : rescale n.toNat (some c) x = fun j => if 1 ≤ j ∧ j ≤ n.toNat then x j / c j else x j := e2 _
  unfold optimize
  by_cases c1 : n < 1
  · rw [if_pos c1, if_pos c1]; rfl
  rw [if_neg c1, if_neg c1]
  by_cases c2 : m < 0
  · rw [if_pos c2, if_pos c2]; rfl
  rw [if_neg c2, if_neg c2]
  by_cases c3 : rhoend ≤ 0 ∨ rhoend > rhobeg
  · rw [if_pos c3, if_pos c3]; rfl
  rw [if_neg c3, if_neg c3, cobyla_scaling, scaling_proper hp, show scaling n.toNat (none : Option (Nat → F)) = some none from rfl]
  dsimp only
  have e5 : reply n.toNat (some c) maximize calcfc =
      reply n.toNat none maximize (fun k y => calcfc k fun j => if 1 ≤ j ∧ j ≤ n.toNat then c j * y j else y j) := by
    unfold reply
    rw [e3]
    rfl
  rw [e5, e4, e3, show rescale n.toNat (none : Option (Nat → F)) (fun j => if 1 ≤ j ∧ j ≤ n.toNat then x j / c j else x j) =
    (fun j => if 1 ≤ j ∧ j ≤ n.toNat then x j / c j else x j) from rfl]
  generalize evals (⟨n.toNat, m.toNat, rhobeg, rhoend, maxfun⟩ : Par F) T _ fuel count _ = r
  cases r with
  | none => rfl
  | some r => rfl

/-- **C95**, for COBYLA.  Factors which are all equal to one are not used. -/
theorem cobyla_scaled_ones (T : St F → (Nat → F) × Nat) (fuel count : Nat) (n m : Int) (maximize : Bool) (calcfc : Nat → (Nat → F) → F × (Nat → F))
    (x : Nat → F) (c : Nat → F) (rhobeg rhoend : F) (maxfun : Int) (w : St F) (h : ∀ j, 1 ≤ j → j ≤ n.toNat → c j = 1) :
    optimize T fuel count n m maximize calcfc x (some c) rhobeg rhoend maxfun w =
      optimize T fuel count n m maximize calcfc x none rhobeg rhoend maxfun w := by
  unfold optimize
  rw [cobyla_scaling, scaling_ones h, show scaling n.toNat (none : Option (Nat → F)) = some none from rfl]

end

/-! ### The exception, and examples -/

section
open Bobyqa Bobyqa.Demo

/-- Two variables; the bounds of the second one are too close. -/
def narrow (scl : Option (Nat → ℚ)) : Bobyqa.Args ℚ :=
  ⟨2, 5, false, fun _ => -1 / 2, fun _ => -1, fun i => if i = 1 then 3 else 0, scl, 1, 1, 10⟩

/-- The negation of the property without its exception (**C96**): with the status `BOBYQA_TOO_CLOSE`, without scaling the first variable
has been moved away from its bound, and with scaling all the variables have been divided by their factors. -/
theorem bobyqa_too_close_changes :
    view (Bobyqa.optimize (narrow none) sq still blank 9) = some (.tooClose, [0, -1 / 2], 0, []) ∧
    view (Bobyqa.optimize (narrow (some fun _ => 2)) sq still blank 9) = some (.tooClose, [1 / 2, -1 / 4], 0, []) := by
  constructor <;> decide +kernel

theorem bobyqa_refused_false : ¬ ∀ (a : Bobyqa.Args ℚ) (obj : Nat → (Nat → ℚ) → ℚ) (T : Bobyqa.Par ℚ → Bobyqa.St ℚ → Bobyqa.Trs ℚ) (s : Bobyqa.St ℚ)
    (fuel : Nat) (st : Bobyqa.Status) (x : Nat → ℚ) (w : ℚ), Bobyqa.optimize a obj T s fuel = some (st, x, w, []) → x 1 = a.x 1 := by
  intro h
  have e := bobyqa_too_close_changes.1
  unfold view at e
  obtain ⟨⟨st, x, w, log⟩, h1, h2⟩ := Option.map_eq_some_iff.mp e
  simp only [Prod.mk.injEq, List.cons.injEq, List.map_eq_nil_iff, List.reverse_eq_nil_iff] at h2
  obtain ⟨-, ⟨h3, -⟩, -, rfl⟩ := h2
  have := h _ _ _ _ _ _ _ _ h1
  rw [h3] at this
  exact absurd this (by decide +kernel)

/-- The factors 1 and 2 are a change of variables, 1 and 1 are not, 1 and 0 are refused. -/
theorem proper_example : Proper (F := ℚ) 2 (fun i => i) :=
  ⟨fun j h1 h2 w => by
    have : j = 1 ∨ j = 2 := by omega
    rcases this with rfl | rfl
    · exact w.1 rfl
    · exact w.2.elim (fun q => q (sub_self _)) (fun q => absurd q (by decide +kernel)), 2, by norm_num, le_refl _, by decide +kernel⟩

theorem args_accepted (npt : Int) (h : npt = 5) (m : Bool) (k : Int) : ∀ st, ¬ BobyqaRefused (args npt m (some fun i => i) 1 k) st := by
  subst h
  intro st
  unfold BobyqaRefused args
  dsimp only
  rw [if_neg (show ¬ (2 : Int) < 2 by decide), if_neg (show ¬ ((5 : Int) < 2 + 2 ∨ 5 > ((2 : Int) + 2) * (2 + 1) / 2) by decide),
    if_neg (show ¬ ((1 : ℚ) ≤ 0 ∨ (1 : ℚ) > 1) by decide +kernel)]
  rintro (⟨-, j, j1, j2, j3⟩ | ⟨-, -, ⟨-, j, j1, j2, j3⟩ | ⟨h, -⟩⟩)
  · exact proper_example.1 j j1 j2 j3
  · have : j = 1 ∨ j = 2 := by
      have : j ≤ 2 := j2
      omega
    rcases this with rfl | rfl <;> exact absurd j3 (by decide +kernel)
  · exact absurd (h 2 (by norm_num) (le_refl _)) (by decide +kernel)

set_option maxRecDepth 100000 in
/-- A maximization in scaled variables (see the examples of BOBYQA for the calls) is the minimization of the opposite. -/
example : view (Bobyqa.optimize (args 5 true (some fun i => i) 1 100) sq still blank 100) =
      view ((Bobyqa.optimize (args 5 false (some fun i => i) 1 100) (fun i x => sq i x * -1) still blank 100).map (flipped (· * -1) (· * -1))) ∧
    (view (Bobyqa.optimize (args 5 false (some fun i => i) 1 100) (fun i x => sq i x * -1) still blank 100)).map (·.2.2.1) = some (-10) :=
  ⟨congrArg view (bobyqa_maximize mul_one _ _ _ _ _ rfl (args_accepted 5 rfl true 100)), by decide +kernel⟩

/-- The same run in other variables. -/
example : Bobyqa.optimize (args 5 true (some fun i => i) 1 100) sq still blank 100 =
    (Bobyqa.optimize ⟨2, 5, true, fun j => (if j = 1 then 0 else 1) * (1 / (j : ℚ)), fun j => 1 / (j : ℚ) * -1, fun j => 1 / (j : ℚ) * 3, none, 1, 1, 100⟩
      (fun i x => sq i fun j => (j : ℚ) * x j) still blank 100).map (moved fun x j => (j : ℚ) * x j) :=
  bobyqa_scaled _ _ _ _ _ _ rfl proper_example (args_accepted 5 rfl true 100)

/-- Refused: `npt` is too small. -/
example : BobyqaRefused (args 3 false none 1 9) .badNpt := by
  unfold BobyqaRefused args
  dsimp only
  rw [if_neg (show ¬ (2 : Int) < 2 by decide), if_pos (show (3 : Int) < 2 + 2 ∨ (3 : Int) > ((2 : Int) + 2) * (2 + 1) / 2 by decide)]

/-- NEWUOA: `npt` is too small; accepted arguments with factors. -/
example : NewuoaRefused (Newuoa.Demo.args 3 false none 1 9) .badNpt ∧ ∀ st, ¬ NewuoaRefused (Newuoa.Demo.args 5 true (some fun i => i) 1 9) st := by
  unfold NewuoaRefused Newuoa.Demo.args
  dsimp only
  rw [if_neg (show ¬ (2 : Int) < 2 by decide), if_pos (show (3 : Int) < 2 + 2 ∨ (3 : Int) > ((2 : Int) + 2) * (2 + 1) / 2 by decide)]
  refine ⟨rfl, fun st => ?_⟩
  rw [if_neg (show ¬ (2 : Int) < 2 by decide), if_neg (show ¬ ((5 : Int) < 2 + 2 ∨ 5 > ((2 : Int) + 2) * (2 + 1) / 2) by decide),
    if_neg (show ¬ ((1 : ℚ) ≤ 0 ∨ (1 : ℚ) > 1) by decide +kernel)]
  rintro ⟨-, c, h, j, j1, j2, j3⟩
  obtain rfl := Option.some.inj h
  exact proper_example.1 j j1 j2 j3

/-- COBYLA: a factor which is zero. -/
example : CobylaRefused 2 0 (some fun i : Nat => (i : ℚ) - 1) 1 1 .badScaling := by
  unfold CobylaRefused
  rw [if_neg (show ¬ (2 : Int) < 1 by decide), if_neg (show ¬ (0 : Int) < 0 by decide), if_neg (show ¬ ((1 : ℚ) ≤ 0 ∨ (1 : ℚ) > 1) by decide +kernel)]
  exact ⟨rfl, _, rfl, 1, le_refl _, by decide, by decide +kernel, Or.inr (by decide +kernel)⟩

end
end Opk.Variables
