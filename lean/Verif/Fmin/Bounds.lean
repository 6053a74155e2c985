import Verif.Fmin.Model
import Verif.Arith.Exact
import Mathlib.Tactic.Linarith
import Mathlib.Tactic.NormNum
import Mathlib.Tactic.FieldSimp
import Mathlib.Tactic.Ring
import Mathlib.Order.BoundedOrder.Basic
/-!
# Univariate minimization: exclusive bounds and budget (C33, C35)
-/
set_option linter.unusedSectionVars false
namespace Opk.Fmin

/-- No value is larger than the infinite one. -/
class LawfulValue (Y : Type) [Value Y] : Prop where
  gt_inf : ∀ y : Y, Value.gt y Value.inf = false

/-- Values which are totally ordered (no NaN), the infinite one being the largest. -/
class OrderedValue (Y : Type) [LinearOrder Y] [OrderTop Y] [Value Y] : Prop where
  gt_iff : ∀ a b : Y, Value.gt a b = true ↔ b < a
  ge_iff : ∀ a b : Y, Value.ge a b = true ↔ b ≤ a
  eq_iff : ∀ a b : Y, Value.eq a b = true ↔ a = b
  inf_eq : (Value.inf : Y) = ⊤

instance (Y : Type) [LinearOrder Y] [OrderTop Y] [Value Y] [OrderedValue Y] : LawfulValue Y where
  gt_inf y := by
    rw [Bool.eq_false_iff, ne_eq, OrderedValue.gt_iff, OrderedValue.inf_eq]
    exact not_top_lt

variable {F Y : Type}

section arith
variable [Add F] [Sub F] [Mul F] [Zero F] [LinearOrder F] [CMath F] [Value Y]

/-! ## The beginning -/

/-- The evaluations at the ends. -/
def logA (f : Nat → F → Y) (a : F) (flags : Nat) : List (F × Y) := if flags &&& BOUNDED_BY_A = 0 then [(a, f 0 a)] else []
def valA (f : Nat → F → Y) (a : F) (flags : Nat) : Y := if flags &&& BOUNDED_BY_A = 0 then f 0 a else Value.inf
def logB (f : Nat → F → Y) (a b : F) (flags : Nat) : List (F × Y) :=
  if flags &&& BOUNDED_BY_B = 0 then logA f a flags ++ [(b, f (logA f a flags).length b)] else logA f a flags
def valB (f : Nat → F → Y) (a b : F) (flags : Nat) : Y :=
  if flags &&& BOUNDED_BY_B = 0 then f (logA f a flags).length b else Value.inf

theorem enter_cases (f : Nat → F → Y) (a b : F) (flags : Nat) (s : Run F Y) (hs : enter f a b flags = s) :
    s.phase = .bracket ∧ s.v = interp s.u s.w ∧ s.log = logB f a b flags ++ [(s.v, s.fv)] ∧ s.nevals = s.log.length ∧
    s.fv = f (logB f a b flags).length s.v ∧
    ((Value.gt (valB f a b flags) (valA f a flags) = true ∧ s.u = b ∧ s.fu = valB f a b flags ∧ s.w = a ∧ s.fw = valA f a flags) ∨
     (Value.gt (valB f a b flags) (valA f a flags) = false ∧ s.u = a ∧ s.fu = valA f a flags ∧ s.w = b ∧ s.fw = valB f a b flags)) := by
  subst hs
  unfold enter call logB valB valA
  by_cases hA : flags &&& BOUNDED_BY_A = 0 <;> by_cases hB : flags &&& BOUNDED_BY_B = 0 <;> simp only [hA, hB, if_true, if_false, logA]
  · by_cases hg : Value.gt (f 1 b) (f 0 a) = true
    · simp [hg]
    · rw [Bool.not_eq_true] at hg; simp [hg]
  · by_cases hg : Value.gt Value.inf (f 0 a) = true
    · simp [hg]
    · rw [Bool.not_eq_true] at hg; simp [hg]
  · by_cases hg : Value.gt (f 0 b) Value.inf = true
    · simp [hg]
    · rw [Bool.not_eq_true] at hg; simp [hg]
  · by_cases hg : Value.gt (Value.inf : Y) Value.inf = true
    · simp [hg]
    · rw [Bool.not_eq_true] at hg; simp [hg]

/-- Induction on the number of iterations. -/
theorem after_inv (P : Run F Y → Prop) (f : Nat → F → Y) (a b : F) (flags : Nat) (maxeval : Int) (prec sqrtEps : F)
    (h0 : P (enter f a b flags)) (h1 : ∀ s p, P s → P (step f maxeval p s)) (k : Nat) : P (after f a b flags maxeval prec sqrtEps k) := by
  unfold after
  generalize (if prec < 0 then sqrtEps else prec) = p
  induction k with
  | zero => exact h0
  | succ k ih => rw [Function.iterate_succ_apply']; exact h1 _ _ ih

theorem narrow_cases (u : F) (fu : Y) (v : F) (fv : Y) (w : F) (fw : Y) (x : F) (fx : Y) :
    ((Value.gt fx fv = true ∨ (Value.eq fx fv = true ∧ Value.ge fu fw = true)) ∧ narrow u fu v fv w fw x fx = (x, fx, v, fv, u, fu)) ∨
    (¬ (Value.gt fx fv = true ∨ (Value.eq fx fv = true ∧ Value.ge fu fw = true)) ∧ narrow u fu v fv w fw x fx = (v, fv, x, fx, w, fw)) := by
  unfold narrow
  by_cases h : Value.gt fx fv = true ∨ (Value.eq fx fv = true ∧ Value.ge fu fw = true)
  · left; exact ⟨h, if_pos h⟩
  · right; exact ⟨h, if_neg h⟩

/-- The possible iterations. -/
theorem step_cases (f : Nat → F → Y) (maxeval : Int) (prec : F) (s r : Run F Y) (hr : step f maxeval prec s = r) :
    (∃ p, r = { s with phase := p } ∧
      ((s.phase = .bracket ∧ Value.gt s.fv s.fw = true ∧ maxeval > 0 ∧ s.nevals ≥ maxeval ∧ p = .done 2) ∨
       (s.phase = .bracket ∧ Value.gt s.fv s.fw = false ∧ p = .reduce) ∨
       (s.phase = .reduce ∧ converged prec s.u s.v s.w = true ∧ p = .done 0) ∨
       (s.phase = .reduce ∧ converged prec s.u s.v s.w = false ∧ maxeval > 0 ∧ s.nevals ≥ maxeval ∧ p = .done 1) ∨
       (∃ st, s.phase = .done st ∧ p = .done st))) ∨
    (¬ (maxeval > 0 ∧ s.nevals ≥ maxeval) ∧ ∃ x y, y = f s.log.length x ∧ r.log = s.log ++ [(x, y)] ∧ r.nevals = s.nevals + 1 ∧ r.phase = s.phase ∧
      ((s.phase = .bracket ∧ Value.gt s.fv s.fw = true ∧ x = extrap s.v s.w ∧ r.u = s.v ∧ r.fu = s.fv ∧ r.v = s.w ∧ r.fv = s.fw ∧ r.w = x ∧ r.fw = y) ∨
       (s.phase = .reduce ∧ converged prec s.u s.v s.w = false ∧ x = interp s.v s.w ∧
        ((Value.gt y s.fv = true ∨ (Value.eq y s.fv = true ∧ Value.ge s.fu s.fw = true)) ∧
          r.u = x ∧ r.fu = y ∧ r.v = s.v ∧ r.fv = s.fv ∧ r.w = s.u ∧ r.fw = s.fu ∨
         ¬ (Value.gt y s.fv = true ∨ (Value.eq y s.fv = true ∧ Value.ge s.fu s.fw = true)) ∧
          r.u = s.v ∧ r.fu = s.fv ∧ r.v = x ∧ r.fv = y ∧ r.w = s.w ∧ r.fw = s.fw)))) := by
  subst hr
  unfold step
  rcases hp : s.phase with _ | _ | st
  · simp only
    by_cases hg : Value.gt s.fv s.fw = true
    · rw [if_pos hg]
      by_cases hm : maxeval > 0 ∧ s.nevals ≥ maxeval
      · rw [if_pos hm]
        left
        exact ⟨.done 2, rfl, Or.inl ⟨trivial, hg, hm.1, hm.2, rfl⟩⟩
      · rw [if_neg hm]
        right
        refine ⟨hm, extrap s.v s.w, _, rfl, rfl, rfl, rfl, Or.inl ⟨trivial, hg, rfl, rfl, rfl, rfl, rfl, rfl, rfl⟩⟩
    · rw [if_neg hg]
      rw [Bool.not_eq_true] at hg
      left
      exact ⟨.reduce, rfl, Or.inr (Or.inl ⟨trivial, hg, rfl⟩)⟩
  · simp only
    by_cases hc : converged prec s.u s.v s.w = true
    · rw [if_pos hc]
      left
      exact ⟨.done 0, rfl, Or.inr (Or.inr (Or.inl ⟨trivial, hc, rfl⟩))⟩
    · rw [if_neg hc]
      rw [Bool.not_eq_true] at hc
      by_cases hm : maxeval > 0 ∧ s.nevals ≥ maxeval
      · rw [if_pos hm]
        left
        exact ⟨.done 1, rfl, Or.inr (Or.inr (Or.inr (Or.inl ⟨trivial, hc, hm.1, hm.2, rfl⟩)))⟩
      · rw [if_neg hm]
        right
        refine ⟨hm, interp s.v s.w, _, rfl, rfl, rfl, rfl, Or.inr ⟨trivial, hc, rfl, ?_⟩⟩
        rcases narrow_cases s.u s.fu s.v s.fv s.w s.fw (interp s.v s.w) (f s.log.length (interp s.v s.w)) with ⟨hn, e⟩ | ⟨hn, e⟩
        · left
          refine ⟨hn, ?_⟩
          simp only [call]
          rw [e]
          exact ⟨rfl, rfl, rfl, rfl, rfl, rfl⟩
        · right
          refine ⟨hn, ?_⟩
          simp only [call]
          rw [e]
          exact ⟨rfl, rfl, rfl, rfl, rfl, rfl⟩
  · left
    exact ⟨.done st, by simp only [hp]; rw [← hp], Or.inr (Or.inr (Or.inr (Or.inr ⟨st, by first | rfl | trivial, rfl⟩)))⟩

/-! ## C35: the budget -/

/-- Number of evaluations made in any case. -/
def initialEvals (flags : Nat) : Int :=
  1 + (if flags &&& BOUNDED_BY_A = 0 then 1 else 0) + (if flags &&& BOUNDED_BY_B = 0 then 1 else 0)

theorem enter_count (f : Nat → F → Y) (a b : F) (flags : Nat) :
    (enter f a b flags).nevals = initialEvals flags ∧ ((enter f a b flags).log.length : Int) = initialEvals flags := by
  obtain ⟨-, -, h1, h2, -, -⟩ := enter_cases f a b flags _ rfl
  rw [h2]
  refine ⟨?_, ?_⟩ <;>
  · rw [h1]
    unfold logB logA initialEvals
    by_cases hA : flags &&& BOUNDED_BY_A = 0 <;> by_cases hB : flags &&& BOUNDED_BY_B = 0 <;> simp [hA, hB]

/-- **C35.** At any time, the count is the number of evaluations and the budget is not exceeded. -/
theorem budget (f : Nat → F → Y) (a b : F) (flags : Nat) (maxeval : Int) (prec sqrtEps : F) (k : Nat) :
    (after f a b flags maxeval prec sqrtEps k).nevals = (after f a b flags maxeval prec sqrtEps k).log.length ∧
    (maxeval > 0 → ((after f a b flags maxeval prec sqrtEps k).log.length : Int) ≤ max maxeval (initialEvals flags)) := by
  refine after_inv (fun s => s.nevals = s.log.length ∧ (maxeval > 0 → (s.log.length : Int) ≤ max maxeval (initialEvals flags)))
    f a b flags maxeval prec sqrtEps ?_ ?_ k
  · obtain ⟨h1, h2⟩ := enter_count f a b flags
    exact ⟨by rw [h1, h2], fun _ => by rw [h2]; exact le_max_right _ _⟩
  · rintro s p ⟨h1, h2⟩
    rcases step_cases f maxeval p s _ rfl with ⟨q, e, -⟩ | ⟨hm, x, y, -, e1, e2, -, -⟩
    · rw [e]; exact ⟨h1, h2⟩
    · rw [e1, e2, h1]
      refine ⟨by simp, fun hp => ?_⟩
      have : ¬ s.nevals ≥ maxeval := fun h => hm ⟨hp, h⟩
      rw [h1] at this
      have h3 : ((s.log ++ [(x, y)]).length : Int) ≤ maxeval := by
        rw [List.length_append]; push_cast; simp only [List.length_singleton]; omega
      exact le_trans h3 (le_max_left _ _)

theorem after_succ (f : Nat → F → Y) (a b : F) (flags : Nat) (maxeval : Int) (prec sqrtEps : F) (k : Nat) :
    after f a b flags maxeval prec sqrtEps (k + 1) =
      step f maxeval (if prec < 0 then sqrtEps else prec) (after f a b flags maxeval prec sqrtEps k) := by
  unfold after
  rw [Function.iterate_succ_apply']

theorem after_done (f : Nat → F → Y) (a b : F) (flags : Nat) (maxeval : Int) (prec sqrtEps : F) (k d : Nat) (st : Int)
    (h : (after f a b flags maxeval prec sqrtEps k).phase = .done st) :
    after f a b flags maxeval prec sqrtEps (k + d) = after f a b flags maxeval prec sqrtEps k := by
  induction d with
  | zero => rfl
  | succ d ih =>
    rw [← Nat.add_assoc, after_succ, ih]
    unfold step
    rw [h]

/-- The result is unique. -/
theorem returns_unique (f : Nat → F → Y) (a b : F) (flags : Nat) (maxeval : Int) (prec sqrtEps : F) (st st' : Int) (o o' : Option (Out F Y))
    (l l' : List (F × Y)) (h : Returns f a b flags maxeval prec sqrtEps st o l) (h' : Returns f a b flags maxeval prec sqrtEps st' o' l') :
    st = st' ∧ o = o' ∧ l = l' := by
  unfold Returns at h h'
  by_cases hab : a = b
  · rw [if_pos hab] at h h'
    exact ⟨h.1.trans h'.1.symm, h.2.1.trans h'.2.1.symm, h.2.2.trans h'.2.2.symm⟩
  · rw [if_neg hab] at h h'
    obtain ⟨k, s, rfl, h1, h2, h3⟩ := h
    obtain ⟨k', s', rfl, h1', h2', h3'⟩ := h'
    have key : after f a b flags maxeval prec sqrtEps k = after f a b flags maxeval prec sqrtEps k' := by
      rcases le_total k k' with hk | hk
      · obtain ⟨d, rfl⟩ := Nat.exists_eq_add_of_le hk
        exact (after_done f a b flags maxeval prec sqrtEps k d st h1).symm
      · obtain ⟨d, rfl⟩ := Nat.exists_eq_add_of_le hk
        exact after_done f a b flags maxeval prec sqrtEps k' d st' h1'
    rw [key] at h1 h2 h3
    rw [h1] at h1'
    cases h1'
    exact ⟨rfl, h2.trans h2'.symm, h3.trans h3'.symm⟩

/-- **C35.** With a positive budget the function returns, whatever the values: the reported number of evaluations is exact and does not exceed the
budget or the number of initial evaluations. -/
theorem terminates (f : Nat → F → Y) (a b : F) (hab : a ≠ b) (flags : Nat) (maxeval : Int) (hm : 0 < maxeval) (prec sqrtEps : F) :
    ∃ status out log, Returns f a b flags maxeval prec sqrtEps status (some out) log ∧ (status = 0 ∨ status = 1 ∨ status = 2) ∧
      out.nevals = log.length ∧ (log.length : Int) ≤ max maxeval (initialEvals flags) := by
  have key : ∀ n k, (maxeval - (after f a b flags maxeval prec sqrtEps k).nevals).toNat ≤ n →
      ∃ k' st, (after f a b flags maxeval prec sqrtEps k').phase = .done st := by
    intro n
    induction n using Nat.strong_induction_on with
    | _ n ih =>
      intro k hk
      -- one iteration ends or counts; the change of loop does not count
      have one : ∀ k, (after f a b flags maxeval prec sqrtEps k).phase = .reduce →
          (maxeval - (after f a b flags maxeval prec sqrtEps k).nevals).toNat ≤ n → ∃ k' st, (after f a b flags maxeval prec sqrtEps k').phase = .done st := by
        intro k hp hn
        rcases step_cases f maxeval (if prec < 0 then sqrtEps else prec) _ _ (after_succ f a b flags maxeval prec sqrtEps k).symm with
          ⟨p, e, h⟩ | ⟨h1, x, y, -, -, h2, -, -⟩
        · rw [hp] at h
          rcases h with ⟨h, -⟩ | ⟨h, -⟩ | ⟨-, -, h⟩ | ⟨-, -, -, -, h⟩ | ⟨st, h, -⟩
          · cases h
          · cases h
          · exact ⟨k + 1, 0, by rw [e, h]⟩
          · exact ⟨k + 1, 1, by rw [e, h]⟩
          · cases h
        · exact ih ((maxeval - (after f a b flags maxeval prec sqrtEps (k + 1)).nevals).toNat) (by omega) (k + 1) le_rfl
      rcases step_cases f maxeval (if prec < 0 then sqrtEps else prec) _ _ (after_succ f a b flags maxeval prec sqrtEps k).symm with
        ⟨p, e, h⟩ | ⟨h1, x, y, -, -, h2, -, -⟩
      · rcases h with ⟨-, -, -, -, h⟩ | ⟨-, -, h⟩ | ⟨-, -, h⟩ | ⟨-, -, -, -, h⟩ | ⟨st, h, -⟩
        · exact ⟨k + 1, 2, by rw [e, h]⟩
        · exact one (k + 1) (by rw [e, h]) (by rw [e]; exact hk)
        · exact ⟨k + 1, 0, by rw [e, h]⟩
        · exact ⟨k + 1, 1, by rw [e, h]⟩
        · exact ⟨k, st, h⟩
      · exact ih ((maxeval - (after f a b flags maxeval prec sqrtEps (k + 1)).nevals).toNat) (by omega) (k + 1) le_rfl
  obtain ⟨k, st, hst⟩ := key _ 0 le_rfl
  have hst' : st = 0 ∨ st = 1 ∨ st = 2 := by
    have : ∀ k, ∀ st, (after f a b flags maxeval prec sqrtEps k).phase = .done st → st = 0 ∨ st = 1 ∨ st = 2 := by
      intro k
      refine after_inv (fun s => ∀ st, s.phase = .done st → st = 0 ∨ st = 1 ∨ st = 2) f a b flags maxeval prec sqrtEps ?_ ?_ k
      · intro st h; rw [(enter_cases f a b flags _ rfl).1] at h; cases h
      · intro s p hs st h
        rcases step_cases f maxeval p s _ rfl with ⟨q, e, h'⟩ | ⟨-, x, y, -, -, -, e, -⟩
        · rw [e] at h
          simp only at h
          rcases h' with ⟨-, -, -, -, h'⟩ | ⟨-, -, h'⟩ | ⟨-, -, h'⟩ | ⟨-, -, -, -, h'⟩ | ⟨st', h', h''⟩
          · rw [h] at h'; cases h'; simp
          · rw [h] at h'; cases h'
          · rw [h] at h'; cases h'; simp
          · rw [h] at h'; cases h'; simp
          · rw [h] at h''; cases h''; exact hs _ h'
        · rw [e] at h; exact hs st h
    exact this k st hst
  obtain ⟨h1, h2⟩ := budget f a b flags maxeval prec sqrtEps k
  refine ⟨st, output (after f a b flags maxeval prec sqrtEps k), (after f a b flags maxeval prec sqrtEps k).log, ?_, hst', ?_, h2 hm⟩
  · unfold Returns
    rw [if_neg hab]
    exact ⟨k, _, rfl, hst, rfl, rfl⟩
  · rw [← h1]
    unfold output
    split_ifs <;> rfl

/-! ## C33: exclusive bounds -/

/-- Specification: `x` is on the same side of `a` as `b`, or is `a`. -/
def NotBeyond (a b x : F) : Prop := (a < b → a ≤ x) ∧ (b < a → x ≤ a)
/-- Specification: `x` is strictly on the same side of `a` as `b`. -/
def Inside (a b x : F) : Prop := (a < b → a < x) ∧ (b < a → x < a)

/-- What rounded interpolation and extrapolation steps satisfy: the interpolated point is between the two others, the extrapolated point is not
before the last one. -/
class RoundedGolden (F : Type) [Add F] [Sub F] [Mul F] [LinearOrder F] [CMath F] : Prop where
  interp_le : ∀ p q : F, p ≤ q → p ≤ interp p q ∧ interp p q ≤ q
  interp_ge : ∀ p q : F, q ≤ p → q ≤ interp p q ∧ interp p q ≤ p
  extrap_le : ∀ p q : F, p ≤ q → q ≤ extrap p q
  extrap_ge : ∀ p q : F, q ≤ p → extrap p q ≤ q

/-- Points are not beyond the exclusive bounds and, if extrapolation is possible, it goes away from an exclusive bound. -/
structure Weak (a b : F) (flags : Nat) (s : Run F Y) : Prop where
  u : (flags &&& BOUNDED_BY_A ≠ 0 → NotBeyond a b s.u) ∧ (flags &&& BOUNDED_BY_B ≠ 0 → NotBeyond b a s.u)
  v : (flags &&& BOUNDED_BY_A ≠ 0 → NotBeyond a b s.v) ∧ (flags &&& BOUNDED_BY_B ≠ 0 → NotBeyond b a s.v)
  w : (flags &&& BOUNDED_BY_A ≠ 0 → NotBeyond a b s.w) ∧ (flags &&& BOUNDED_BY_B ≠ 0 → NotBeyond b a s.w)
  log : ∀ p ∈ s.log, (flags &&& BOUNDED_BY_A ≠ 0 → NotBeyond a b p.1) ∧ (flags &&& BOUNDED_BY_B ≠ 0 → NotBeyond b a p.1)
  dir : s.phase = .bracket → (∀ y : Y, Value.gt y s.fw = false) ∨
    ((flags &&& BOUNDED_BY_A ≠ 0 → (a < b → s.v ≤ s.w) ∧ (b < a → s.w ≤ s.v)) ∧
     (flags &&& BOUNDED_BY_B ≠ 0 → (a < b → s.w ≤ s.v) ∧ (b < a → s.v ≤ s.w)))

theorem interp_notBeyond [RoundedGolden F] (a b p q : F) (hp : NotBeyond a b p) (hq : NotBeyond a b q) : NotBeyond a b (interp p q) := by
  rcases le_total p q with h | h
  · have := RoundedGolden.interp_le p q h
    exact ⟨fun k => le_trans (hp.1 k) this.1, fun k => le_trans this.2 (hq.2 k)⟩
  · have := RoundedGolden.interp_ge p q h
    exact ⟨fun k => le_trans (hq.1 k) this.1, fun k => le_trans this.2 (hp.2 k)⟩

theorem weak_enter [RoundedGolden F] [LawfulValue Y] (f : Nat → F → Y) (a b : F) (flags : Nat) : Weak a b flags (enter f a b flags) := by
  obtain ⟨hp, hv, hl, -, -, hc⟩ := enter_cases f a b flags _ rfl
  set s := enter f a b flags with hs
  clear_value s
  have nA : NotBeyond a b a := ⟨fun _ => le_rfl, fun _ => le_rfl⟩
  have nB : NotBeyond b a b := ⟨fun _ => le_rfl, fun _ => le_rfl⟩
  have nAB : NotBeyond a b b := ⟨fun h => h.le, fun h => h.le⟩
  have nBA : NotBeyond b a a := ⟨fun h => h.le, fun h => h.le⟩
  have hu : NotBeyond a b s.u ∧ NotBeyond b a s.u := by rcases hc with ⟨-, h, -⟩ | ⟨-, h, -⟩ <;> rw [h] <;> constructor <;> assumption
  have hw : NotBeyond a b s.w ∧ NotBeyond b a s.w := by rcases hc with ⟨-, -, -, h, -⟩ | ⟨-, -, -, h, -⟩ <;> rw [h] <;> constructor <;> assumption
  have hvv : NotBeyond a b s.v ∧ NotBeyond b a s.v := by
    rw [hv]; exact ⟨interp_notBeyond _ _ _ _ hu.1 hw.1, interp_notBeyond _ _ _ _ hu.2 hw.2⟩
  refine ⟨⟨fun _ => hu.1, fun _ => hu.2⟩, ⟨fun _ => hvv.1, fun _ => hvv.2⟩, ⟨fun _ => hw.1, fun _ => hw.2⟩, ?_, fun _ => ?_⟩
  · intro p hp'
    rw [hl] at hp'
    have : p.1 = a ∨ p.1 = b ∨ p.1 = s.v := by
      unfold logB logA at hp'
      by_cases hA : flags &&& BOUNDED_BY_A = 0 <;> by_cases hB : flags &&& BOUNDED_BY_B = 0 <;>
        simp only [hA, hB, if_true, if_false, List.mem_append, List.mem_singleton, List.not_mem_nil, or_false, false_or] at hp'
      · rcases hp' with (h | h) | h <;> simp [h]
      · rcases hp' with h | h <;> simp [h]
      · rcases hp' with h | h <;> simp [h]
      · simp [hp']
    rcases this with h | h | h <;> rw [h]
    · exact ⟨fun _ => nA, fun _ => nBA⟩
    · exact ⟨fun _ => nAB, fun _ => nB⟩
    · exact ⟨fun _ => hvv.1, fun _ => hvv.2⟩
  · have hval : ∀ p q : F, p ≤ q → p ≤ interp p q ∧ interp p q ≤ q := RoundedGolden.interp_le
    have hvag : ∀ p q : F, q ≤ p → q ≤ interp p q ∧ interp p q ≤ p := RoundedGolden.interp_ge
    rcases hc with ⟨hg, h1, -, h2, h3⟩ | ⟨hg, h1, -, h2, h3⟩
    · -- swapped
      right
      have hA : flags &&& BOUNDED_BY_A = 0 := by
        by_contra hA
        unfold valA at hg
        rw [if_neg hA, LawfulValue.gt_inf] at hg
        cases hg
      refine ⟨fun h => absurd hA h, fun _ => ⟨fun hab => ?_, fun hab => ?_⟩⟩
      · rw [hv, h1, h2]; exact (hvag b a hab.le).1
      · rw [hv, h1, h2]; exact (hval b a hab.le).2
    · by_cases hB : flags &&& BOUNDED_BY_B = 0
      · right
        refine ⟨fun _ => ⟨fun hab => ?_, fun hab => ?_⟩, fun h => absurd hB h⟩
        · rw [hv, h1, h2]; exact (hval a b hab.le).2
        · rw [hv, h1, h2]; exact (hvag a b hab.le).1
      · left
        intro y
        rw [h3]
        unfold valB
        rw [if_neg hB]
        exact LawfulValue.gt_inf y

theorem weak_step [RoundedGolden F] (f : Nat → F → Y) (a b : F) (flags : Nat) (maxeval : Int) (prec : F) (s : Run F Y)
    (h : Weak a b flags s) : Weak a b flags (step f maxeval prec s) := by
  rcases step_cases f maxeval prec s _ rfl with ⟨p, e, hc⟩ | ⟨-, x, y, -, hl, -, hph, hc⟩
  · rw [e]
    refine ⟨h.u, h.v, h.w, h.log, fun hp => ?_⟩
    simp only at hp
    subst hp
    rcases hc with ⟨-, -, -, -, k⟩ | ⟨-, -, k⟩ | ⟨-, -, k⟩ | ⟨-, -, -, -, k⟩ | ⟨st, -, k⟩ <;> cases k
  · rcases hc with ⟨hp, hg, hx, h1, h2, h3, h4, h5, h6⟩ | ⟨hp, -, hx, hc⟩
    · -- extrapolation
      have hd : (flags &&& BOUNDED_BY_A ≠ 0 → (a < b → s.v ≤ s.w) ∧ (b < a → s.w ≤ s.v)) ∧
          (flags &&& BOUNDED_BY_B ≠ 0 → (a < b → s.w ≤ s.v) ∧ (b < a → s.v ≤ s.w)) := by
        rcases h.dir hp with k | k
        · rw [k s.fv] at hg; cases hg
        · exact k
      have hxb : (flags &&& BOUNDED_BY_A ≠ 0 → NotBeyond a b x) ∧ (flags &&& BOUNDED_BY_B ≠ 0 → NotBeyond b a x) := by
        rw [hx]
        refine ⟨fun hA => ⟨fun hab => ?_, fun hab => ?_⟩, fun hB => ⟨fun hab => ?_, fun hab => ?_⟩⟩
        · exact le_trans ((h.w.1 hA).1 hab) (RoundedGolden.extrap_le _ _ ((hd.1 hA).1 hab))
        · exact le_trans (RoundedGolden.extrap_ge _ _ ((hd.1 hA).2 hab)) ((h.w.1 hA).2 hab)
        · exact le_trans ((h.w.2 hB).1 hab) (RoundedGolden.extrap_le _ _ ((hd.2 hB).2 hab))
        · exact le_trans (RoundedGolden.extrap_ge _ _ ((hd.2 hB).1 hab)) ((h.w.2 hB).2 hab)
      refine ⟨by rw [h1]; exact h.v, by rw [h3]; exact h.w, by rw [h5]; exact hxb, ?_, fun _ => Or.inr ?_⟩
      · intro p hpl
        rw [hl, List.mem_append, List.mem_singleton] at hpl
        rcases hpl with k | k
        · exact h.log p k
        · rw [k]; exact hxb
      · rw [h3, h5, hx]
        refine ⟨fun hA => ⟨fun hab => ?_, fun hab => ?_⟩, fun hB => ⟨fun hab => ?_, fun hab => ?_⟩⟩
        · exact RoundedGolden.extrap_le _ _ ((hd.1 hA).1 hab)
        · exact RoundedGolden.extrap_ge _ _ ((hd.1 hA).2 hab)
        · exact RoundedGolden.extrap_ge _ _ ((hd.2 hB).1 hab)
        · exact RoundedGolden.extrap_le _ _ ((hd.2 hB).2 hab)
    · have hxb : (flags &&& BOUNDED_BY_A ≠ 0 → NotBeyond a b x) ∧ (flags &&& BOUNDED_BY_B ≠ 0 → NotBeyond b a x) := by
        rw [hx]
        exact ⟨fun hA => interp_notBeyond _ _ _ _ (h.v.1 hA) (h.w.1 hA), fun hB => interp_notBeyond _ _ _ _ (h.v.2 hB) (h.w.2 hB)⟩
      have hlog : ∀ p ∈ (step f maxeval prec s).log, (flags &&& BOUNDED_BY_A ≠ 0 → NotBeyond a b p.1) ∧ (flags &&& BOUNDED_BY_B ≠ 0 → NotBeyond b a p.1) := by
        intro p hpl
        rw [hl, List.mem_append, List.mem_singleton] at hpl
        rcases hpl with k | k
        · exact h.log p k
        · rw [k]; exact hxb
      have hnb : (step f maxeval prec s).phase ≠ .bracket := by rw [hph, hp]; intro k; cases k
      rcases hc with ⟨-, h1, -, h2, -, h3, -⟩ | ⟨-, h1, -, h2, -, h3, -⟩
      · exact ⟨by rw [h1]; exact hxb, by rw [h2]; exact h.v, by rw [h3]; exact h.u, hlog, fun k => absurd k hnb⟩
      · exact ⟨by rw [h1]; exact h.v, by rw [h2]; exact hxb, by rw [h3]; exact h.w, hlog, fun k => absurd k hnb⟩

/-- **C33, with rounding.** If the rounding keeps the interpolated point between the two points, and the extrapolated point after the last one, the
function, whatever its values (infinite or NaN included), is never evaluated beyond an exclusive bound. -/
theorem never_beyond_partial [RoundedGolden F] [LawfulValue Y] (f : Nat → F → Y) (a b : F) (flags : Nat) (maxeval : Int) (prec sqrtEps : F)
    (p : F × Y) (h : Evaluates f a b flags maxeval prec sqrtEps p) :
    (flags &&& BOUNDED_BY_A ≠ 0 → NotBeyond a b p.1) ∧ (flags &&& BOUNDED_BY_B ≠ 0 → NotBeyond b a p.1) := by
  obtain ⟨-, k, hk⟩ := h
  exact (after_inv (Weak a b flags) f a b flags maxeval prec sqrtEps (weak_enter f a b flags) (fun s q hs => weak_step f a b flags maxeval q s hs) k).log p hk

end arith

/-! ## Exact arithmetic -/

section exact
variable {K : Type} [Field K] [LinearOrder K] [IsStrictOrderedRing K] [CMath K] [ExactMath K] [Value Y]

theorem alpha_bounds : (0 : K) < ALPHA ∧ (ALPHA : K) < 1 / 2 := by
  unfold ALPHA
  rw [ExactMath.lit_eq]
  constructor <;> norm_num

theorem gamma_bounds : (0 : K) < GAMMA := by
  unfold GAMMA
  rw [ExactMath.lit_eq]
  norm_num

theorem interp_lt (p q : K) (h : p < q) : p < interp p q ∧ interp p q < q := by
  obtain ⟨h1, h2⟩ := alpha_bounds (K := K)
  unfold interp
  have h3 := mul_pos h1 (sub_pos.2 h)
  have h4 : ALPHA * (q - p) < 1 / 2 * (q - p) := mul_lt_mul_of_pos_right h2 (sub_pos.2 h)
  constructor <;> linarith

theorem interp_gt (p q : K) (h : q < p) : q < interp p q ∧ interp p q < p := by
  obtain ⟨h1, h2⟩ := alpha_bounds (K := K)
  unfold interp
  have h3 := mul_pos h1 (sub_pos.2 h)
  have h4 : ALPHA * (p - q) < 1 / 2 * (p - q) := mul_lt_mul_of_pos_right h2 (sub_pos.2 h)
  have h5 : ALPHA * (q - p) = -(ALPHA * (p - q)) := by ring
  rw [h5]
  constructor <;> linarith

theorem extrap_lt (p q : K) (h : p < q) : q < extrap p q := by
  have h3 := mul_pos (gamma_bounds (K := K)) (sub_pos.2 h)
  unfold extrap
  linarith

theorem extrap_gt (p q : K) (h : q < p) : extrap p q < q := by
  have h3 := mul_pos (gamma_bounds (K := K)) (sub_pos.2 h)
  unfold extrap
  have h5 : GAMMA * (q - p) = -(GAMMA * (p - q)) := by ring
  rw [h5]
  linarith

instance : RoundedGolden K where
  interp_le p q h := by
    rcases h.lt_or_eq with h | rfl
    · exact ⟨(interp_lt p q h).1.le, (interp_lt p q h).2.le⟩
    · simp [interp]
  interp_ge p q h := by
    rcases h.lt_or_eq with h | rfl
    · exact ⟨(interp_gt p q h).1.le, (interp_gt p q h).2.le⟩
    · simp [interp]
  extrap_le p q h := by
    rcases h.lt_or_eq with h | rfl
    · exact (extrap_lt p q h).le
    · simp [extrap]
  extrap_ge p q h := by
    rcases h.lt_or_eq with h | rfl
    · exact (extrap_gt p q h).le
    · simp [extrap]

/-- The three points are in order. -/
def Ordered (s : Run K Y) : Prop := (s.u < s.v ∧ s.v < s.w) ∨ (s.w < s.v ∧ s.v < s.u)

theorem ordered_enter (f : Nat → K → Y) (a b : K) (hab : a ≠ b) (flags : Nat) : Ordered (enter f a b flags) := by
  obtain ⟨-, hv, -, -, -, hc⟩ := enter_cases f a b flags _ rfl
  unfold Ordered
  rw [hv]
  have hne : (enter f a b flags).u ≠ (enter f a b flags).w := by
    rcases hc with ⟨-, h1, -, h2, -⟩ | ⟨-, h1, -, h2, -⟩ <;> rw [h1, h2]
    · exact hab.symm
    · exact hab
  rcases lt_or_gt_of_ne hne with h | h
  · exact Or.inl (interp_lt _ _ h)
  · exact Or.inr (interp_gt _ _ h)

theorem ordered_step (f : Nat → K → Y) (maxeval : Int) (prec : K) (s : Run K Y) (h : Ordered s) : Ordered (step f maxeval prec s) := by
  rcases step_cases f maxeval prec s _ rfl with ⟨p, e, hc⟩ | ⟨-, x, y, -, hl, -, hph, hc⟩
  · rw [e]; exact h
  · unfold Ordered at h ⊢
    rcases hc with ⟨hp, hg, hx, h1, h2, h3, h4, h5, h6⟩ | ⟨hp, -, hx, hc⟩
    · rw [h1, h3, h5, hx]
      rcases h with h | h
      · exact Or.inl ⟨h.2, extrap_lt _ _ h.2⟩
      · exact Or.inr ⟨extrap_gt _ _ h.1, h.1⟩
    · rcases hc with ⟨-, h1, -, h2, -, h3, -⟩ | ⟨-, h1, -, h2, -, h3, -⟩
      · rw [h1, h2, h3, hx]
        rcases h with h | h
        · exact Or.inr ⟨h.1, (interp_lt _ _ h.2).1⟩
        · exact Or.inl ⟨(interp_gt _ _ h.1).2, h.2⟩
      · rw [h1, h2, h3, hx]
        rcases h with h | h
        · exact Or.inl (interp_lt _ _ h.2)
        · exact Or.inr (interp_gt _ _ h.1)

/-- The point in the middle and the evaluated points are strictly inside. -/
structure Strict (a b : K) (flags : Nat) (s : Run K Y) : Prop where
  weak : Weak a b flags s
  ordered : Ordered s
  log : ∀ p ∈ s.log, (flags &&& BOUNDED_BY_A ≠ 0 → Inside a b p.1) ∧ (flags &&& BOUNDED_BY_B ≠ 0 → Inside b a p.1)

/-- What is strictly between two points which are not beyond the bound is strictly inside. -/
theorem inside_between (a b p q x : K) (hp : NotBeyond a b p) (hq : NotBeyond a b q) (h : (p < x ∧ x < q) ∨ (q < x ∧ x < p)) : Inside a b x := by
  rcases h with h | h
  · exact ⟨fun k => lt_of_le_of_lt (hp.1 k) h.1, fun k => lt_of_lt_of_le h.2 (hq.2 k)⟩
  · exact ⟨fun k => lt_of_le_of_lt (hq.1 k) h.1, fun k => lt_of_lt_of_le h.2 (hp.2 k)⟩

theorem strict_step [LawfulValue Y] (f : Nat → K → Y) (a b : K) (flags : Nat) (maxeval : Int) (prec : K) (s : Run K Y)
    (h : Strict a b flags s) : Strict a b flags (step f maxeval prec s) := by
  have hw := weak_step f a b flags maxeval prec s h.weak
  have ho := ordered_step f maxeval prec s h.ordered
  refine ⟨hw, ho, ?_⟩
  rcases step_cases f maxeval prec s _ rfl with ⟨p, e, hc⟩ | ⟨-, x, y, -, hl, -, hph, hc⟩
  · rw [e]; exact h.log
  · intro p hpl
    rw [hl, List.mem_append, List.mem_singleton] at hpl
    rcases hpl with hpl | rfl
    · exact h.log p hpl
    · show (_ → Inside a b x) ∧ (_ → Inside b a x)
      rcases hc with ⟨hp, hg, hx, h1, h2, h3, h4, h5, h6⟩ | ⟨hp, -, hx, hc⟩
      · have hd : (flags &&& BOUNDED_BY_A ≠ 0 → (a < b → s.v ≤ s.w) ∧ (b < a → s.w ≤ s.v)) ∧
            (flags &&& BOUNDED_BY_B ≠ 0 → (a < b → s.w ≤ s.v) ∧ (b < a → s.v ≤ s.w)) := by
          rcases h.weak.dir hp with k | k
          · rw [k s.fv] at hg; cases hg
          · exact k
        rcases h.ordered with ⟨o1, o2⟩ | ⟨o1, o2⟩
        · have hx' := extrap_lt _ _ o2
          rw [← hx] at hx'
          exact ⟨fun hA => ⟨fun hab => lt_of_le_of_lt ((h.weak.w.1 hA).1 hab) hx', fun hab => absurd ((hd.1 hA).2 hab) (not_le.2 o2)⟩,
            fun hB => ⟨fun hab => lt_of_le_of_lt ((h.weak.w.2 hB).1 hab) hx', fun hab => absurd ((hd.2 hB).1 hab) (not_le.2 o2)⟩⟩
        · have hx' := extrap_gt _ _ o1
          rw [← hx] at hx'
          exact ⟨fun hA => ⟨fun hab => absurd ((hd.1 hA).1 hab) (not_le.2 o1), fun hab => lt_of_lt_of_le hx' ((h.weak.w.1 hA).2 hab)⟩,
            fun hB => ⟨fun hab => absurd ((hd.2 hB).2 hab) (not_le.2 o1), fun hab => lt_of_lt_of_le hx' ((h.weak.w.2 hB).2 hab)⟩⟩
      · have hbt : (s.v < x ∧ x < s.w) ∨ (s.w < x ∧ x < s.v) := by
          rw [hx]
          rcases h.ordered with ⟨o1, o2⟩ | ⟨o1, o2⟩
          · exact Or.inl (interp_lt _ _ o2)
          · exact Or.inr (interp_gt _ _ o1)
        exact ⟨fun hA => inside_between _ _ _ _ _ (h.weak.v.1 hA) (h.weak.w.1 hA) hbt,
          fun hB => inside_between _ _ _ _ _ (h.weak.v.2 hB) (h.weak.w.2 hB) hbt⟩

theorem strict_enter [LawfulValue Y] (f : Nat → K → Y) (a b : K) (hab : a ≠ b) (flags : Nat) : Strict a b flags (enter f a b flags) := by
  have hw := weak_enter f a b flags
  have ho := ordered_enter f a b hab flags
  refine ⟨hw, ho, ?_⟩
  obtain ⟨hp, hv, hl, -, -, hc⟩ := enter_cases f a b flags _ rfl
  set s := enter f a b flags with hs
  clear_value s
  intro p hp'
  rw [hl] at hp'
  have : (p.1 = a ∧ flags &&& BOUNDED_BY_A = 0) ∨ (p.1 = b ∧ flags &&& BOUNDED_BY_B = 0) ∨ p.1 = s.v := by
    unfold logB logA at hp'
    by_cases hA : flags &&& BOUNDED_BY_A = 0 <;> by_cases hB : flags &&& BOUNDED_BY_B = 0 <;>
      simp only [hA, hB, if_true, if_false, List.mem_append, List.mem_singleton, List.not_mem_nil, or_false, false_or] at hp'
    · rcases hp' with (h | h) | h <;> simp [h, hA, hB]
    · rcases hp' with h | h <;> simp [h, hA]
    · rcases hp' with h | h <;> simp [h, hB]
    · simp [hp']
  rcases this with ⟨h, k⟩ | ⟨h, k⟩ | h
  · exact ⟨fun h' => absurd k h', fun _ => by rw [h]; exact ⟨fun h => h, fun h => h⟩⟩
  · exact ⟨fun _ => by rw [h]; exact ⟨fun h => h, fun h => h⟩, fun h' => absurd k h'⟩
  · rw [h]
    exact ⟨fun hA => inside_between _ _ _ _ _ (hw.u.1 hA) (hw.w.1 hA) (by rcases ho with o | o; exacts [Or.inl o, Or.inr o]),
      fun hB => inside_between _ _ _ _ _ (hw.u.2 hB) (hw.w.2 hB) (by rcases ho with o | o; exacts [Or.inl o, Or.inr o])⟩

/-- **C33, in exact arithmetic.** Whatever the function (its values may be infinite or NaN), the interval, the flags, the precision and the
budget, every point at which it is evaluated is strictly inside the exclusive bounds. -/
theorem exclusive_bounds [LawfulValue Y] (f : Nat → K → Y) (a b : K) (flags : Nat) (maxeval : Int) (prec sqrtEps : K)
    (p : K × Y) (h : Evaluates f a b flags maxeval prec sqrtEps p) :
    (flags &&& BOUNDED_BY_A ≠ 0 → Inside a b p.1) ∧ (flags &&& BOUNDED_BY_B ≠ 0 → Inside b a p.1) := by
  obtain ⟨hab, k, hk⟩ := h
  exact (after_inv (Strict a b flags) f a b flags maxeval prec sqrtEps (strict_enter f a b hab flags) (fun s q hs => strict_step f a b flags maxeval q s hs) k).log p hk

/-- **C33.** In particular with two exclusive bounds. -/
theorem exclusive_interval [LawfulValue Y] (f : Nat → K → Y) (a b : K) (flags : Nat) (hA : flags &&& BOUNDED_BY_A ≠ 0) (hB : flags &&& BOUNDED_BY_B ≠ 0)
    (maxeval : Int) (prec sqrtEps : K) (p : K × Y) (h : Evaluates f a b flags maxeval prec sqrtEps p) : min a b < p.1 ∧ p.1 < max a b := by
  obtain ⟨h1, h2⟩ := exclusive_bounds f a b flags maxeval prec sqrtEps p h
  rcases lt_or_gt_of_ne h.1 with hab | hab
  · rw [min_eq_left hab.le, max_eq_right hab.le]
    exact ⟨(h1 hA).1 hab, (h2 hB).2 hab⟩
  · rw [min_eq_right hab.le, max_eq_left hab.le]
    exact ⟨(h2 hB).1 hab, (h1 hA).2 hab⟩

end exact
end Opk.Fmin
