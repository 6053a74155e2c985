/-!
# Arithmetic of the models

The models of the numerical code are written for any type `F` with the C operators; nothing is
assumed about them in the models.  Theorems then hold either

* for any such type with a linear order (floating point numbers without NaN, with any rounding);
* in exact arithmetic (ordered fields, real numbers);
* for `Num K`, the numbers of `K` plus an undefined value `nan`, where undefined operations
  (division by zero, square root of a negative number) yield `nan`, and comparisons with `nan`
  are false.  (In IEEE arithmetic dividing by zero may also give an infinite value; here this
  counts as undefined.)
-/
namespace Opk

/-- C functions and floating point literals. -/
class CMath (F : Type) where
  /-- `sqrt` -/
  sqrt : F → F
  /-- `fabs` -/
  fabs : F → F
  /-- the literal constant of value `n/d`: `lit 1 2` is `0.5` -/
  lit : Nat → Nat → F

export CMath (sqrt fabs lit)

/-- `OPK_MIN`, `src/optimpack.h:206`. -/
def cmin {F : Type} [LE F] [DecidableLE F] (a b : F) : F := if a ≤ b then a else b

/-- `OPK_MAX`, `src/optimpack.h:211`. -/
def cmax {F : Type} [LE F] [DecidableLE F] (a b : F) : F := if a ≥ b then a else b

/-- Numbers and an undefined value. -/
inductive Num (K : Type) where
  | nan
  | val (x : K)

namespace Num
variable {K : Type}

def map2 (f : K → K → K) : Num K → Num K → Num K
  | val x, val y => val (f x y)
  | _, _ => nan

instance [Add K] : Add (Num K) := ⟨map2 (· + ·)⟩
instance [Sub K] : Sub (Num K) := ⟨map2 (· - ·)⟩
instance [Mul K] : Mul (Num K) := ⟨map2 (· * ·)⟩
instance [Neg K] : Neg (Num K) := ⟨fun | nan => nan | val x => val (-x)⟩
instance [Zero K] : Zero (Num K) := ⟨val 0⟩
instance [One K] : One (Num K) := ⟨val 1⟩
instance [Div K] [Zero K] [DecidableEq K] : Div (Num K) :=
  ⟨fun | val x, val y => if y = 0 then nan else val (x / y) | _, _ => nan⟩
instance [LT K] : LT (Num K) := ⟨fun | val x, val y => x < y | _, _ => False⟩
instance [LE K] : LE (Num K) := ⟨fun | val x, val y => x ≤ y | _, _ => False⟩
instance [LT K] [DecidableLT K] : DecidableLT (Num K)
  | val x, val y => inferInstanceAs (Decidable (x < y))
  | nan, _ => isFalse (fun h => h)
  | val _, nan => isFalse (fun h => h)
instance [LE K] [DecidableLE K] : DecidableLE (Num K)
  | val x, val y => inferInstanceAs (Decidable (x ≤ y))
  | nan, _ => isFalse (fun h => h)
  | val _, nan => isFalse (fun h => h)
/-- `==` of C: false if one of the operands is not a number. -/
instance [DecidableEq K] : BEq (Num K) :=
  ⟨fun | val x, val y => decide (x = y) | _, _ => false⟩

@[simp] theorem val_add [Add K] (x y : K) : (val x + val y : Num K) = val (x + y) := rfl
@[simp] theorem val_sub [Sub K] (x y : K) : (val x - val y : Num K) = val (x - y) := rfl
@[simp] theorem val_mul [Mul K] (x y : K) : (val x * val y : Num K) = val (x * y) := rfl
@[simp] theorem val_neg [Neg K] (x : K) : (-val x : Num K) = val (-x) := rfl
@[simp] theorem val_zero [Zero K] : (0 : Num K) = val 0 := rfl
@[simp] theorem val_one [One K] : (1 : Num K) = val 1 := rfl
@[simp] theorem val_lt [LT K] (x y : K) : ((val x : Num K) < val y) ↔ x < y := Iff.rfl
@[simp] theorem val_le [LE K] (x y : K) : ((val x : Num K) ≤ val y) ↔ x ≤ y := Iff.rfl
@[simp] theorem val_beq [DecidableEq K] (x y : K) : ((val x : Num K) == val y) = decide (x = y) := rfl
theorem val_div [Div K] [Zero K] [DecidableEq K] {x y : K} (h : y ≠ 0) :
    (val x / val y : Num K) = val (x / y) := by
  show (if y = 0 then nan else val (x / y)) = _
  rw [if_neg h]

end Num
end Opk
