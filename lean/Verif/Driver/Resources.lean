import Verif.Heap.Model
import Verif.Nlcg.Model
import Verif.Vmlmb.Model
/-!
# Objects created by the constructors: `src/driver.c:297-429`, `src/nlcg.c:422-556`, `src/vmlmb.c:237-368`, `src/algebra.c:805-857`

The constructors as programs on the heap of reference counted objects of `Verif/Heap/Model.lean`.
Every allocation may fail, as told by a list of booleans (allocations succeed when the list is exhausted).
Undefined behaviour is the outcome `none`.  Only the addresses and the references are modelled here: not the numerical
contents, the sizes and `errno`.  The ranks of the objects are: vector space and line search 0, vector 1, box 2,
optimizer 3, driver 4.
-/
namespace Opk.Driver
open Opk.Heap

/-- The heap and the results of the next allocations. -/
structure World where
  heap : Heap
  oracle : List Bool

/-- A program: `none` is undefined behaviour. -/
def M (α : Type) := World → Option (α × World)

def M.pure {α : Type} (a : α) : M α := fun w => some (a, w)
def M.bind {α β : Type} (m : M α) (k : α → M β) : M β := fun w =>
  match m w with
  | none => none
  | some (a, w) => k a w

instance : Monad M where
  pure := M.pure
  bind := M.bind

/-- Run `b` if `a` succeeds (`if (! a) goto error; b`). -/
def andThen (a b : M Bool) : M Bool := do
  let ok ← a
  if ok then b else pure false

infixr:55 " ;; " => andThen

/-- Lift an operation on the heap. -/
def lift (f : Heap → Option Heap) : M Unit := fun w => (f w.heap).map fun h => ((), { w with heap := h })

/-- `opk_allocate_object`, `src/algebra.c:44-59`: `none` is `NULL`. -/
def allocate (rank : Nat) : M (Option Nat) := fun w =>
  match w.oracle with
  | false :: l => some (none, { w with oracle := l })
  | true :: l => some (some (alloc w.heap rank).2, { heap := (alloc w.heap rank).1, oracle := l })
  | [] => some (some (alloc w.heap rank).2, { heap := (alloc w.heap rank).1, oracle := [] })

/-- `OPK_DROP(obj)`. -/
def release (obj : Option Nat) : M Unit := lift fun h => dropObject h obj

/-- `p->member = OPK_HOLD(k)`. -/
def keep (p k : Nat) : M Unit := lift fun h => linkHold h p k

/-- `p->member = k`. -/
def move (p k : Nat) : M Unit := lift fun h => linkMove h p k

/-- `p->member = creator(); if (p->member == NULL) goto error;`. -/
def create (p : Nat) (creator : M (Option Nat)) : M Bool := do
  match ← creator with
  | none => pure false
  | some v => do
    move p v
    pure true

/-- `opk_new_simple_*_vector_space`, `src/simple_vector.c:924-928`, `src/algebra.c:97-116`. -/
def newSpace (n : Int) : M (Option Nat) := if n < 1 then pure none else allocate 0

/-- `opk_allocate_vector`, `src/algebra.c:132-145`, called by `opk_vcreate` (`src/simple_vector.c:83-96`) and, for non `NULL` data, by
`opk_wrap_simple_*_vector` (`src/simple_vector.c:930-952`). -/
def newVector (space : Nat) : M (Option Nat) := do
  match ← allocate 1 with
  | none => pure none
  | some v => do
    keep v space
    pure (some v)

/-- `vector->owner`. -/
def owner (v : Nat) : M Nat := fun w =>
  match w.heap.get v with
  | some { kids := s :: _, .. } => some (s, w)
  | _ => none

/-- A bound: the type (`opk_bound_type`) and the address of the value. -/
structure Bound where
  type : Int
  addr : Option Nat

/-- `set_bound`, `src/algebra.c:739-803`: whether the result is `OPK_SUCCESS`. -/
def setBound (space box : Nat) (b : Bound) : M Bool :=
  if b.type = 0 then pure b.addr.isNone
  else if b.type = 1 then pure b.addr.isSome
  else if b.type = 2 then pure b.addr.isSome
  else if b.type = 7 then
    match b.addr with
    | none => pure false
    | some v => do
      let s ← owner v
      if s ≠ space then pure false
      else do
        keep box v
        pure true
  else if b.type = 5 ∨ b.type = 6 ∨ b.type = 3 ∨ b.type = 4 then
    if b.addr.isNone then pure false
    else create box (newVector space)
  else pure false

/-- `opk_new_boxset`, `src/algebra.c:805-857`. -/
def newBox (space : Nat) (lower upper : Bound) : M (Option Nat) := do
  match ← allocate 2 with
  | none => pure none
  | some box => do
    keep box space
    let ok ← (setBound space box lower ;; setBound space box upper)
    if ok then pure (some box)
    else do
      release (some box)
      pure none

section opts
variable {F : Type} [LT F] [LE F] [DecidableLT F] [DecidableLE F] [Zero F] [One F]

/-- `opt->lnsrch = OPK_HOLD_LNSRCH(lnsrch)` or a new line search, `src/nlcg.c:508-515`, `src/vmlmb.c:327-338` (the parameters
of the new line search are valid). -/
def setSearch (o : Nat) (lnsrch : Option Nat) : M Bool :=
  match lnsrch with
  | some ls => do
    keep o ls
    pure true
  | none => create o (allocate 0)

/-- `opk_new_nlcg_optimizer`, `src/nlcg.c:422-556`, for given options and a non `NULL` space. -/
def newNlcg (finite : F → Bool) (opts : Nlcg.Options F) (space : Nat) (lnsrch : Option Nat) : M (Option Nat) :=
  if !Nlcg.checkOptions finite opts then pure none
  else
    match Nlcg.select (if opts.flags = 0 then Nlcg.DEFAULT else opts.flags) with
    | none => pure none
    | some (_, needed) => do
      match ← allocate 3 with
      | none => pure none
      | some o => do
        keep o space
        let ok ← (setSearch o lnsrch ;; create o (newVector space) ;;
          (if needed then create o (newVector space) else pure true) ;; create o (newVector space) ;;
          (if needed then create o (newVector space) else pure true))
        if ok then pure (some o)
        else do
          release (some o)
          pure none

/-- The loop of `src/vmlmb.c:316-325`. -/
def createPairs (o space : Nat) : Nat → M Bool
  | 0 => pure true
  | m + 1 => create o (newVector space) ;; create o (newVector space) ;; createPairs o space m

/-- `opt->vspace = OPK_HOLD_VSPACE(space)`. -/
def keepSpace (o space : Nat) : M Bool := do
  keep o space
  pure true

/-- `opk_new_vmlmb_optimizer`, `src/vmlmb.c:237-368`, for given options and a non `NULL` space of `n` variables; the box,
if any, belongs to the space. -/
def newVmlmb (finite : F → Bool) (opts : Vmlmb.Options F) (n : Int) (space : Nat) (lnsrch box : Option Nat) : M (Option Nat) :=
  if !Vmlmb.checkOptions finite opts then pure none
  else if n < 1 ∨ opts.mem < 1 then pure none
  else do
    let m := if opts.mem > n then n else opts.mem
    match ← allocate 3 with
    | none => pure none
    | some o => do
      let ok ← ((if box.isSome ∧ opts.blmvm then create o (newVector space) else pure true) ;;
        createPairs o space m.toNat ;; keepSpace o space ;; setSearch o lnsrch ;;
        (if opts.saveMemory then pure true else create o (newVector space) ;; create o (newVector space)) ;;
        create o (newVector space) ;;
        (match box with
         | none => pure true
         | some b => (do keep o b; pure true) ;; create o (newVector space)))
      if ok then pure (some o)
      else do
        release (some o)
        pure none

/-- The algorithms and their options. -/
inductive Algorithm (F : Type) where
  | nlcg (opts : Nlcg.Options F)
  | vmlmb (opts : Vmlmb.Options F)
  | illegal

/-- Arguments of `opk_new_optimizer`; `type` is `OPK_FLOAT` if `some true`, `OPK_DOUBLE` if `some false`, another value
otherwise. -/
structure Args (F : Type) where
  algorithm : Algorithm F
  type : Option Bool
  n : Int
  lower : Bound
  upper : Bound
  lnsrch : Option Nat

/-- Bounds given by a static array of the type of the variables are wrapped in a vector, `src/driver.c:369-381`: the vector,
if any, and the bound for the box; `none` if the vector cannot be created. -/
def wrapBound (space : Nat) (single : Bool) (b : Bound) : M (Option (Option Nat × Bound)) :=
  if b.type = (if single then 3 else 4) then
    match b.addr with
    | none => pure none                            -- `data == NULL`
    | some _ => do
      match ← newVector space with
      | none => pure none
      | some v => pure (some (some v, ⟨7, some v⟩))
  else pure (some (none, b))

/-- Creation of the box, `src/driver.c:363-406`: `none` if the creation fails. -/
def driverBox (space : Nat) (single : Bool) (lower upper : Bound) : M (Option Nat) := do
  match ← wrapBound space single lower with
  | none => pure none
  | some (lv, lower) => do
    match ← wrapBound space single upper with
    | none => do
      release lv
      pure none
    | some (uv, upper) => do
      let box ← newBox space lower upper
      release lv
      release uv
      pure box

/-- Creation of the box, if any, and of the optimizer, `src/driver.c:363-422`. -/
def driverOptimizer (finite : F → Bool) (a : Args F) (single : Bool) (o space : Nat) : M Bool :=
  if a.lower.type ≠ 0 ∨ a.upper.type ≠ 0 then do
    match ← driverBox space single a.lower a.upper with
    | none => pure false
    | some box => do
      move o box
      match a.algorithm with
      | .vmlmb opts => create o (newVmlmb finite opts a.n space a.lnsrch (some box))
      | _ => pure false                            -- excluded by the checks
  else
    match a.algorithm with
    | .nlcg opts => create o (newNlcg finite opts space a.lnsrch)
    | .vmlmb opts => create o (newVmlmb finite opts a.n space a.lnsrch none)
    | .illegal => pure false

/-- The checks of the arguments, `src/driver.c:311-340`. -/
def accepted (a : Args F) : Bool :=
  if a.n < 1 then false
  else if a.type.isNone then false
  else if ¬ (0 ≤ a.lower.type ∧ a.lower.type ≤ 7) ∨ ¬ (0 ≤ a.upper.type ∧ a.upper.type ≤ 7) then false
  else if (a.lower.type == 0) != a.lower.addr.isNone ∨ (a.upper.type == 0) != a.upper.addr.isNone then false
  else
    let bounded := a.lower.type ≠ 0 ∨ a.upper.type ≠ 0
    match a.algorithm with
    | .nlcg _ => !bounded
    | .vmlmb _ => true
    | .illegal => false

/-- `opk_new_optimizer`, `src/driver.c:297-429`; the vectors wrapping a dummy variable are not used before
`opk_start`. -/
def newOptimizer (finite : F → Bool) (a : Args F) : M (Option Nat) :=
  if !accepted a then pure none
  else do
    match ← allocate 4 with
    | none => fun _ => none                        -- `opt->single = single` with `opt` being `NULL`
    | some o => do
      let ok ← (do
        match ← newSpace a.n with
        | none => pure false
        | some space => do
          move o space
          let x ← create o (newVector space)
          let g ← create o (newVector space)
          if x ∧ g then driverOptimizer finite a (a.type == some true) o space
          else pure false)
      if ok then pure (some o)
      else do
        release (some o)
        pure none

/-- `opk_destroy_optimizer`, `src/driver.c:431-435`. -/
def destroyOptimizer (opt : Option Nat) : M Unit := release opt

end opts
end Opk.Driver
