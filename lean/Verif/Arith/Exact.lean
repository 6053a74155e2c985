import Verif.Arith.Model
import Mathlib.Algebra.Order.Field.Basic
import Mathlib.Analysis.Real.Sqrt
/-! # Exact arithmetic -/
namespace Opk

/-- Literal constants and the absolute value are exact. -/
class ExactMath (K : Type) [Field K] [LinearOrder K] [CMath K] : Prop where
  lit_eq : ∀ n d : Nat, (lit n d : K) = (n : K) / (d : K)
  fabs_eq : ∀ x : K, fabs x = |x|

noncomputable instance : CMath ℝ where
  sqrt := Real.sqrt
  fabs := fun x => |x|
  lit n d := (n : ℝ) / (d : ℝ)

instance : ExactMath ℝ where
  lit_eq _ _ := rfl
  fabs_eq _ := rfl

/-- Integer part of the square root of `n < 4 ^ k` (for examples). -/
def natRoot : Nat → Nat → Nat
  | 0, _ => 0
  | k + 1, n =>
    let r := 2 * natRoot k (n / 4)
    if (r + 1) * (r + 1) ≤ n then r + 1 else r

/-- Rational numbers, for examples; the square root is only exact for the squares of rational numbers (less
than `2 ^ 64`). -/
instance ratMath : CMath ℚ where
  sqrt x := (natRoot 64 x.num.toNat : ℚ) / (natRoot 64 x.den : ℚ)
  fabs := fun x => |x|
  lit n d := (n : ℚ) / (d : ℚ)

instance : ExactMath ℚ where
  lit_eq _ _ := rfl
  fabs_eq _ := rfl

/-- Numbers or undefined: the square root of a negative number is undefined.  `root x` is the
square root in `K`, if any. -/
@[instance_reducible] def numMath {K : Type} [Field K] [LinearOrder K] (root : K → Option K) : CMath (Num K) where
  sqrt := fun | .val x => (match root x with | some y => .val y | none => .nan) | .nan => .nan
  fabs := fun | .val x => .val |x| | .nan => .nan
  lit n d := .val ((n : K) / (d : K))

noncomputable instance realNumMath : CMath (Num ℝ) := numMath fun x => if 0 ≤ x then some (Real.sqrt x) else none
/-- Rational numbers, for examples: only perfect squares of small integers have a root. -/
instance : CMath (Num ℚ) := numMath fun _ => none

end Opk
