import Verif.Driver.Leak
import Verif.Driver.Model
import Verif.Vmlmb.Demo
/-!
# Examples for the theorems about the simple driver
-/
namespace Opk.Driver.Demo
open Opk.Heap Opk.Optim

/-- A problem of 3 variables with a scalar and an array of the client as bounds. -/
def args : Args ℚ := ⟨.vmlmb (Vmlmb.Demo.opts false false), some false, 3, ⟨2, some 0⟩, ⟨4, some 0⟩, none⟩

def world (l : List Bool) : World := ⟨empty, l⟩

/-- Number of objects of a heap. -/
def alive (h : Heap) : Nat := (h.cells.filter Option.isSome).length

/-- `new_optimizer_leak_free_partial`: the hypotheses hold for a client which has nothing. -/
example (l : List Bool) (hl : l.head? ≠ some false) : Inv Client.start (world l).heap ∧ args.lower.Ok Client.start ∧ args.upper.Ok Client.start ∧
    (∀ k, args.lnsrch = some k → Old Client.start k 3) ∧ FirstOk (world l) :=
  ⟨inv_start, fun h => by simp [args] at h, fun h => by simp [args] at h, fun k h => (by cases h), hl⟩

/-- The arguments are valid. -/
example : args.Valid (fun _ => true) := by
  refine ⟨by decide, by decide, by decide, by decide, by decide, by decide, ?_, ?_⟩
  · rintro ⟨o, h⟩; cases h
  · show Vmlmb.checkOptions _ _ = true
    simp only [Vmlmb.checkOptions, Vmlmb.Demo.opts]; norm_num

/-- With enough memory the optimizer is created, with 16 objects which are all released by its destruction. -/
example : (newOptimizer (fun _ => true) args (world [])).map (fun r => (r.1, alive r.2.heap)) = some (some 0, 16) ∧
    (newOptimizer (fun _ => true) args (world [])).bind (fun r => (destroyOptimizer r.1 r.2).map fun r => alive r.2.heap) = some 0 := by
  decide +kernel

/-- If the 12th allocation fails, what has been created is released. -/
example : (newOptimizer (fun _ => true) args (world (List.replicate 11 true ++ [false]))).map (fun r => (r.1, r.2.heap.cells.length, alive r.2.heap)) =
    some (none, 11, 0) := by
  decide +kernel

/-- `first_allocation_undefined`. -/
example : accepted args = true ∧ newOptimizer (fun _ => true) args (world [false]) = none := by
  refine ⟨by decide, first_allocation_undefined _ _ (by decide) _ [] rfl⟩

/-! ## A run -/

def p := Vmlmb.Demo.par1 false false (some (Vmlmb.Demo.above 1))
def driver : Driver ℚ (LineSearch.Backtrack ℚ) ℚ := make false (.vmlmb p LineSearch.backtrackOps (Vmlmb.Demo.opt1 Vmlmb.Demo.bt))

/-- The variable is at the address 1, its derivative at the address 2. -/
def mem (x g : ℚ) : Nat → ℚ := fun a => if a = 1 then x else if a = 2 then g else 0

/-- `transparent`, `null_array`: an infeasible initial variable, a `NULL` gradient then a new start. -/
def uses : List (Use ℚ ℚ) :=
  [.start (mem 0 0) (some 1), .iterate (mem 1 1) (some 1) (1/4) none, .iterate (mem 1 1) (some 1) (1/4) (some 2), .start (mem 2 0) (some 1), .iterate (mem 2 8) (some 1) 4 (some 2),
   .iterate (mem 2 8) (some 1) 4 (some 2)]

example : ∀ c ∈ uses, c.Distinct := by
  unfold uses
  simp [Use.Distinct]

example : (drive driver uses).map (fun r => r.2.map fun q => (q.1 1, q.2)) =
    some [(1, .computeFG), (1, .error), (1, .error), (2, .computeFG), (2, .newX), (1, .computeFG)] := by
  decide +kernel

end Opk.Driver.Demo
