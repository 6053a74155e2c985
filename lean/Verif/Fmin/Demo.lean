import Verif.Fmin.Reverse
import Mathlib.Order.WithBot
import Mathlib.Data.Rat.Floor
/-!
# Univariate minimization: values with infinity and NaN, rounding, examples
-/
set_option linter.unusedSectionVars false
namespace Opk.Fmin

/-! ## Values -/

/-- Numbers and infinity, compared as in C. -/
instance withTopValue {K : Type} [LinearOrder K] : Value (WithTop K) where
  gt a b := decide (b < a)
  ge a b := decide (b ≤ a)
  eq a b := decide (a = b)
  inf := ⊤

instance {K : Type} [LinearOrder K] : OrderedValue (WithTop K) where
  gt_iff a b := by simp [Value.gt]
  ge_iff a b := by simp [Value.ge]
  eq_iff a b := by simp [Value.eq]
  inf_eq := rfl

/-- The same with NaN, here `none`: all comparisons with it are false. -/
instance nanValue {Y : Type} [Value Y] : Value (Option Y) where
  gt | some a, some b => Value.gt a b | _, _ => false
  ge | some a, some b => Value.ge a b | _, _ => false
  eq | some a, some b => Value.eq a b | _, _ => false
  inf := some Value.inf

instance {Y : Type} [Value Y] [LawfulValue Y] : LawfulValue (Option Y) where
  gt_inf | some y => LawfulValue.gt_inf y | none => rfl

/-! ## Examples -/

/-- `(x - 1)^2` -/
def parabola (x : ℚ) : WithTop ℚ := ((x - 1) * (x - 1) : ℚ)

theorem parabola_unimodal (a b : ℚ) : Unimodal a b 0 parabola 1 where
  admissible := ⟨fun h => absurd rfl h, fun h => absurd rfl h⟩
  decreasing x y _ h1 h2 := by
    unfold parabola
    rw [WithTop.coe_lt_coe]
    nlinarith
  increasing x y _ h1 h2 := by
    unfold parabola
    rw [WithTop.coe_lt_coe]
    nlinarith

/-- The hypotheses of `unimodal_terminates` are met: there is a result with any relative precision. -/
example : ∃ o log, Returns (fun _ => parabola) (-3) 7 0 0 (1 / 1000000) 0 0 (some o) log ∧ o.xlo < 1 ∧ 1 < o.xhi ∧
    |o.xmin - 1| < (if (1 / 1000000 : ℚ) < 0 then 0 else 1 / 1000000) * max (max |o.xlo| |o.xhi|) |o.xmin| :=
  unimodal_terminates parabola (-3) 7 1 (by norm_num) 0 (parabola_unimodal (-3) 7) (by norm_num) 0 le_rfl (1 / 1000000) 0 (by norm_num)

/-- A run with a budget of 6 evaluations: the minimum is bracketed. -/
example : (after (fun _ => parabola) 2 3 0 6 (1 / 10) 0 5).phase = .done 1 ∧ (after (fun _ => parabola) 2 3 0 6 (1 / 10) 0 5).log.length = 6 := by
  decide +kernel

/-- A run with the same function and exclusive bounds, which converges after 2 evaluations. -/
example : (after (fun _ => parabola) (1 / 2) 3 3 0 (1 / 2) 0 3).phase = .done 0 ∧ (after (fun _ => parabola) (1 / 2) 3 3 0 (1 / 2) 0 3).log.length = 2 := by
  decide +kernel

/-- The hypotheses of `no_convergence_at_zero` are met by `|x|`. -/
example : Unimodal (-1 : ℚ) 2 3 (fun x => ((|x| : ℚ) : WithTop ℚ)) 0 where
  admissible := by
    refine ⟨fun _ => ⟨fun _ => ?_, fun _ => ?_⟩, fun _ => ⟨fun _ => ?_, fun _ => ?_⟩⟩ <;> norm_num at *
  decreasing x y _ h1 h2 := by
    rw [WithTop.coe_lt_coe, abs_of_nonpos h2, abs_of_neg (lt_of_lt_of_le h1 h2)]
    linarith
  increasing x y _ h1 h2 := by
    rw [WithTop.coe_lt_coe, abs_of_nonneg h1, abs_of_pos (lt_of_le_of_lt h1 h2)]
    exact h2

/-- The hypothesis of `zero_budget_unlimited` is met by `-x`. -/
example : ∀ x y : ℚ, x < y → ((-y : ℚ) : WithTop ℚ) < ((-x : ℚ) : WithTop ℚ) := by
  intro x y h
  rw [WithTop.coe_lt_coe]
  exact neg_lt_neg h

/-! ## NaN (C34) -/

/-- 1, 1, 0, NaN. -/
def spoiled (n : Nat) (_ : ℚ) : Option (WithTop ℚ) := if n < 2 then some 1 else if n = 2 then some 0 else none

/-- **C34, negation.** If an evaluation yields NaN, the point is kept as the best one: the value which is returned is NaN though the value 0 has
been obtained. -/
theorem nan_is_kept : ∃ (o : Out ℚ (Option (WithTop ℚ))) (log : List (ℚ × Option (WithTop ℚ))),
    Returns spoiled 0 1 0 4 (1 / 100) 0 1 (some o) log ∧ o.fmin = none ∧ ∃ x, (x, some 0) ∈ log := by
  refine ⟨output (after spoiled 0 1 0 4 (1 / 100) 0 3), (after spoiled 0 1 0 4 (1 / 100) 0 3).log, ?_, by decide +kernel, interp 0 1, by decide +kernel⟩
  unfold Returns
  rw [if_neg (by norm_num)]
  exact ⟨3, _, rfl, by decide +kernel, rfl, rfl⟩

/-! ## Reverse communication -/

/-- A new context, started. -/
def started (a b : ℚ) (flags : Nat) (prec : ℚ) : Ctx ℚ (WithTop ℚ) := (start (new prec 0) a b flags).2

/-- The hypothesis on `start` is met. -/
example : start (new (1 / 10) 0 : Ctx ℚ (WithTop ℚ)) 0 3 0 = (.success, started 0 3 0 (1 / 10)) := by
  unfold started start
  rw [if_neg (by norm_num)]

/-- **C37, negation.** For `(x - 1)^2` and the interval (0,3), `opk_fmin_get_final` reports an interval which does not contain the minimizer. -/
theorem final_interval_misses : ∃ j o, (reverse (fun _ => parabola) (started 0 3 0 (1 / 4)) 0 0 j).1.status = .convergence ∧
    getFinal (reverse (fun _ => parabola) (started 0 3 0 (1 / 4)) 0 0 j).1 = (.success, some o) ∧ ¬ (o.xlo ≤ 1 ∧ 1 ≤ o.xhi) := by
  refine ⟨7, (getFinal (reverse (fun _ => parabola) (started 0 3 0 (1 / 4)) 0 0 7).1).2.get (by decide +kernel), by decide +kernel, ?_, by decide +kernel⟩
  exact Prod.ext (by decide +kernel) (by simp)

/-- The hypotheses of `continuation_breaks` are met after the 7 evaluations of the same run. -/
example : 7 = initialCalls 0 + 4 ∧ (reverse (fun _ => parabola) (started 0 3 0 (1 / 4)) 0 0 7).1.status = .convergence ∧
    (reverse (fun _ => parabola) (started 0 3 0 (1 / 4)) 0 0 7).1.stage = 5 := by decide +kernel

/-- The search is continued with another precision, the caller giving the value of the function at the same point. -/
def continued (prec : ℚ) (k : Nat) : Ctx ℚ (WithTop ℚ) × List (ℚ × WithTop ℚ) :=
  let r := reverse (fun _ => parabola) (started 0 3 0 (1 / 4)) 0 0 7
  let c := (setPrecision r.1 prec).2
  drive (fun _ => parabola) (next c c.x (parabola c.x)) r.2 k

/-- **C61, negation.** After the continuation, with precision 1/100, convergence is reported; the error on the minimizer 1 exceeds this
precision, and the number of evaluations is wrong. -/
theorem continuation_inaccurate : (continued (1 / 100) 1).1.status = .convergence ∧
    1 / 100 * max (max |(continued (1 / 100) 1).1.u| |(continued (1 / 100) 1).1.w|) |(continued (1 / 100) 1).1.v| < |(continued (1 / 100) 1).1.v - 1| ∧
    (continued (1 / 100) 1).1.nevals ≠ (continued (1 / 100) 1).2.length := by
  refine ⟨by decide +kernel, by decide +kernel, by decide +kernel⟩

/-! ## Rounding (C33) -/

/-- Rational numbers, the result of each operation being rounded by `r`. -/
@[ext] structure Fl (r : ℚ → ℚ) where
  val : ℚ

theorem Fl.val_injective (r : ℚ → ℚ) : Function.Injective (Fl.val (r := r)) := fun _ _ h => Fl.ext h

instance (r : ℚ → ℚ) : LinearOrder (Fl r) := LinearOrder.lift' Fl.val (Fl.val_injective r)
instance (r : ℚ → ℚ) : Zero (Fl r) := ⟨⟨0⟩⟩
instance (r : ℚ → ℚ) : Add (Fl r) := ⟨fun x y => ⟨r (x.val + y.val)⟩⟩
instance (r : ℚ → ℚ) : Sub (Fl r) := ⟨fun x y => ⟨r (x.val - y.val)⟩⟩
instance (r : ℚ → ℚ) : Mul (Fl r) := ⟨fun x y => ⟨r (x.val * y.val)⟩⟩
instance (r : ℚ → ℚ) : CMath (Fl r) where
  sqrt x := x
  fabs x := ⟨|x.val|⟩
  lit n d := ⟨r ((n : ℚ) / (d : ℚ))⟩

theorem interp_rounded (r : ℚ → ℚ) (p q : Fl r) :
    interp p q = ⟨r (r (r (381966011250105151795413165634362 / 1000000000000000000000000000000000) * r (q.val - p.val)) + p.val)⟩ := rfl

/-- **C33, negation with rounding.** If the numbers `a < b` are adjacent (a number of `[a, b]` is rounded to the nearest of them), then the function is
evaluated at the exclusive bound `a`: rounding suppresses the interpolation step. -/
theorem exclusive_bound_hit {Y : Type} [Value Y] [LawfulValue Y] (r : ℚ → ℚ) (a b : ℚ) (hab : a < b) (hr : ∀ x, a ≤ x → x < (a + b) / 2 → r x = a)
    (h0 : 0 ≤ r (r (381966011250105151795413165634362 / 1000000000000000000000000000000000) * r (b - a)))
    (h1 : r (r (381966011250105151795413165634362 / 1000000000000000000000000000000000) * r (b - a)) < (b - a) / 2)
    (f : Nat → Fl r → Y) (maxeval : Int) (prec sqrtEps : Fl r) :
    Evaluates f ⟨a⟩ ⟨b⟩ (BOUNDED_BY_A ||| BOUNDED_BY_B) maxeval prec sqrtEps (⟨a⟩, f 0 ⟨a⟩) := by
  refine ⟨fun h => (ne_of_lt hab) (congrArg Fl.val h), 0, ?_⟩
  show _ ∈ (enter f (⟨a⟩ : Fl r) ⟨b⟩ (BOUNDED_BY_A ||| BOUNDED_BY_B)).log
  obtain ⟨-, hv, hl, -, h2, hc⟩ := enter_cases f (⟨a⟩ : Fl r) ⟨b⟩ (BOUNDED_BY_A ||| BOUNDED_BY_B) _ rfl
  have hinf : valB f (⟨a⟩ : Fl r) ⟨b⟩ (BOUNDED_BY_A ||| BOUNDED_BY_B) = Value.inf ∧ valA f (⟨a⟩ : Fl r) (BOUNDED_BY_A ||| BOUNDED_BY_B) = Value.inf := ⟨rfl, rfl⟩
  have hlog : logB f (⟨a⟩ : Fl r) ⟨b⟩ (BOUNDED_BY_A ||| BOUNDED_BY_B) = [] := rfl
  rw [hinf.1, hinf.2] at hc
  rcases hc with ⟨hg, -⟩ | ⟨-, hu, -, hw, -⟩
  · rw [LawfulValue.gt_inf] at hg; cases hg
  · have hva : (enter f (⟨a⟩ : Fl r) ⟨b⟩ (BOUNDED_BY_A ||| BOUNDED_BY_B)).v = ⟨a⟩ := by
      rw [hv, hu, hw, interp_rounded]
      ext
      exact hr _ (by simp only; linarith) (by simp only; linarith)
    rw [hl, h2, hlog, hva]
    simp

/-- Rounding near 1 with 53 bits of precision. -/
def near1 (x : ℚ) : ℚ := if |x| < 1 then x else ⌊x * 4503599627370496 + 1 / 2⌋ / 4503599627370496

/-- The hypotheses of `exclusive_bound_hit` are met for this rounding, `a = 1` and the next number. -/
example {Y : Type} [Value Y] [LawfulValue Y] (f : Nat → Fl near1 → Y) (prec sqrtEps : Fl near1) :
    Evaluates f ⟨1⟩ ⟨1 + 1 / 4503599627370496⟩ 3 0 prec sqrtEps (⟨1⟩, f 0 ⟨1⟩) := by
  refine exclusive_bound_hit near1 1 (1 + 1 / 4503599627370496) (by norm_num) ?_ (by decide +kernel) (by decide +kernel) f 0 prec sqrtEps
  intro x h1 h2
  unfold near1
  rw [if_neg (by rw [abs_of_pos (by linarith)]; exact not_lt.2 h1)]
  have : ⌊x * 4503599627370496 + 1 / 2⌋ = 4503599627370496 := by
    rw [Int.floor_eq_iff]
    constructor
    · push_cast; linarith
    · push_cast; linarith
  rw [this]
  norm_num

end Opk.Fmin
