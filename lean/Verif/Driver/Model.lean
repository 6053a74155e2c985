import Verif.Nlcg.Protocol
import Verif.Vmlmb.Protocol
import Verif.Optim.Describe
/-!
# The simple driver: `src/driver.c:56-259`, `src/driver.c:431-539`

The memory of the client is a function giving the contents of the array stored at a given address; `none` is the
`NULL` address for the arguments of the functions and a dangling pointer (the address of the local variable `dummy` of
`opk_new_optimizer`) for the data of the wrapped vectors.  Using a dangling pointer is undefined behaviour, that is the outcome `none`.
Arrays which partially overlap are not modelled.
-/
set_option linter.unusedSectionVars false
namespace Opk.Driver
open Opk.Optim

variable {F M V : Type}

/-- The optimizer which does the work: `opt->optimizer` and `opt->ops`, `src/driver.c:78-259`. -/
inductive Under (F M V : Type) where
  | nlcg (par : Nlcg.Par F V) (ops : LineSearch.Ops F M) (opt : Nlcg.Opt F M V)
  | vmlmb (par : Vmlmb.Par F V) (ops : LineSearch.Ops F M) (opt : Vmlmb.Opt F M V)

/-- `struct opk_optimizer_`, `src/driver.c:43-56`.  The members `kind`, `xdata` and `gdata` belong to the vector space (simple precision or
not) and to the wrapped vectors `opt->x` and `opt->g`. -/
structure Driver (F M V : Type) where
  single : Bool
  kind : Bool
  xdata : Option Nat
  gdata : Option Nat
  under : Under F M V

/-- The driver made by `opk_new_optimizer`, `src/driver.c:341-428`, around an optimizer, `single` being the type of the variables. -/
def make (single : Bool) (under : Under F M V) : Driver F M V :=
  { single := single, kind := single, xdata := none, gdata := none, under := under }

/-- `opk_rewrap_simple_{float,double}_vector(vec, data, NULL, NULL)`, `src/simple_vector.c:995-1033`, for a vector whose space has the
given kind; `wanted` is the kind of the function: status and new data. -/
def rewrap (kind wanted : Bool) (old data : Option Nat) : Status × Option Nat :=
  if kind ≠ wanted then (.set .badSpace, old)
  else
    match data with
    | none => (.illegalAddress, old)
    | some p => (.success, some p)

/-- The pending task. -/
def Under.task : Under F M V → Task
  | .nlcg _ _ o => o.task
  | .vmlmb _ _ o => o.task

/-- The status. -/
def Under.status : Under F M V → Status
  | .nlcg _ _ o => o.status
  | .vmlmb _ _ o => o.status

/-- `opt->ops->set_status`, `src/driver.c:104-108`, `src/driver.c:193-197`. -/
def Under.setStatus (u : Under F M V) (s : Status) : Under F M V :=
  match u with
  | .nlcg par ops o => .nlcg par ops (Nlcg.setStatus o s)
  | .vmlmb par ops o => .vmlmb par ops (Vmlmb.setStatus o s)

/-- The array at the address `p` becomes `v`. -/
def store (mem : Nat → V) (p : Nat) (v : V) : Nat → V := fun q => if q = p then v else mem q

/-- `opt->ops->start(opt)`, `src/driver.c:80-84`, `src/driver.c:169-173`, then `opk_start_nlcg` or `opk_start_vmlmb`. -/
def opsStart (d : Driver F M V) (mem : Nat → V) : Option (Driver F M V × (Nat → V) × Task) :=
  match d.under with
  | .nlcg par ops o => let o' := Nlcg.start o; some ({ d with under := .nlcg par ops o' }, mem, o'.task)
  | .vmlmb par ops o =>
    match d.xdata with
    | none => none
    | some p => let r := Vmlmb.start par o (mem p); some ({ d with under := .vmlmb par ops r.1 }, store mem p r.2, r.1.task)

/-- `opk_start`, `src/driver.c:437-456`. -/
def start (opt : Option (Driver F M V)) (mem : Nat → V) (x : Option Nat) : Option (Option (Driver F M V) × (Nat → V) × Task) :=
  match opt with
  | none => some (none, mem, .error)
  | some d =>
    if x = none then some (some { d with under := d.under.setStatus .illegalAddress }, mem, .error)
    else
      let r := if d.single then rewrap d.kind true d.xdata x else rewrap d.kind false d.xdata x
      let d := { d with xdata := r.2 }
      if r.1 ≠ .success then some (some { d with under := d.under.setStatus r.1 }, mem, .error)
      else (opsStart d mem).map fun r => (some r.1, r.2)

section arith
variable [Add F] [Sub F] [Mul F] [Div F] [Neg F] [Zero F] [One F]
  [LT F] [LE F] [DecidableLT F] [DecidableLE F] [BEq F] [CMath F]

/-- `opt->ops->iterate(opt, f)`, `src/driver.c:86-90`, `src/driver.c:175-179`.  That the variables and the gradient be stored
at the same place is not modelled: this is as bad as undefined behaviour. -/
def opsIterate (d : Driver F M V) (mem : Nat → V) (f : F) : Option (Driver F M V × (Nat → V) × Task) :=
  match d.xdata, d.gdata with
  | some p, some q =>
    if p = q then none
    else
      match d.under with
      | .nlcg par ops o =>
        (Nlcg.iterate par ops o (mem p) f (mem q)).map fun r => ({ d with under := .nlcg par ops r.1 }, store mem p r.2, r.1.task)
      | .vmlmb par ops o =>
        let r := Vmlmb.iterate par ops o (mem p) f (mem q)
        some ({ d with under := .vmlmb par ops r.1 }, store mem p r.2, r.1.task)
  | _, _ => none

/-- `opk_iterate`, `src/driver.c:458-484`. -/
def iterate (opt : Option (Driver F M V)) (mem : Nat → V) (x : Option Nat) (f : F) (g : Option Nat) :
    Option (Option (Driver F M V) × (Nat → V) × Task) :=
  match opt with
  | none => some (none, mem, .error)
  | some d =>
    if x = none ∨ g = none then some (some { d with under := d.under.setStatus .illegalAddress }, mem, .error)
    else
      let wanted := if d.single then true else false
      let rx := rewrap d.kind wanted d.xdata x
      let d := { d with xdata := rx.2 }
      let rg := if rx.1 = .success then rewrap d.kind wanted d.gdata g else (rx.1, d.gdata)
      let d := { d with gdata := rg.2 }
      if rg.1 ≠ .success then some (some { d with under := d.under.setStatus rg.1 }, mem, .error)
      else (opsIterate d mem f).map fun r => (some r.1, r.2)

end arith

/-- `opk_get_task`, `src/driver.c:486-490`. -/
def getTask : Option (Driver F M V) → Task
  | none => .error
  | some d => d.under.task
/-- `opk_get_status`, `src/driver.c:492-496`. -/
def getStatus : Option (Driver F M V) → Status
  | none => .illegalAddress
  | some d => d.under.status
/-- `opk_get_evaluations`, `src/driver.c:498-502`. -/
def getEvaluations : Option (Driver F M V) → Int
  | none => 0
  | some d => match d.under with | .nlcg _ _ o => o.evaluations | .vmlmb _ _ o => o.evaluations
/-- `opk_get_iterations`, `src/driver.c:504-508`. -/
def getIterations : Option (Driver F M V) → Int
  | none => 0
  | some d => match d.under with | .nlcg _ _ o => o.iterations | .vmlmb _ _ o => o.iterations
/-- `opk_get_restarts`, `src/driver.c:510-514`. -/
def getRestarts : Option (Driver F M V) → Int
  | none => 0
  | some d => match d.under with | .nlcg _ _ o => o.restarts | .vmlmb _ _ o => o.restarts
/-- `opk_get_step`, `src/driver.c:529-533`. -/
def getStep [Neg F] [One F] : Option (Driver F M V) → F
  | none => -1
  | some d => match d.under with | .nlcg _ _ o => o.alpha | .vmlmb _ _ o => o.stp
/-- `opk_get_gnorm`, `src/driver.c:535-539`. -/
def getGnorm [Zero F] : Option (Driver F M V) → F
  | none => 0
  | some d => match d.under with | .nlcg _ _ o => o.gnorm | .vmlmb _ _ o => o.gnorm

/-- `opk_get_vmlmb_method_name`, `src/vmlmb.c:750-759`. -/
def methodName : Vmlmb.Method → String
  | .lbfgs => "VMLM/L-BFGS"
  | .vmlmb => "VMLMB"
  | .blmvm => "BLMVM"

/-- `opk_get_name`, `src/driver.c:516-524`. -/
def getName (opt : Option (Driver F M V)) (buf : Option (List Utils.Byte)) (size : Nat) : Option (Option (List Utils.Byte) × Nat) :=
  match opt with
  | none => Utils.copyString buf size (some [0])
  | some d =>
    match d.under with
    | .nlcg .. => Utils.copyString buf size (some (Optim.bytes "NLCG" ++ [0]))
    | .vmlmb par _ _ => Utils.copyString buf size (some (Optim.bytes (methodName par.method) ++ [0]))

/-- `opk_get_description`, `src/driver.c:526-530`, with the local variable `str` of the functions which are called. -/
def getDescription (corrupted : Nat) (str : List Utils.Byte) (opt : Option (Driver F M V)) (buf : Option (List Utils.Byte)) (size : Nat) :
    Option (Option (List Utils.Byte) × Nat) :=
  match opt with
  | none => none                                   -- `opt->ops` with `opt` being `NULL`
  | some d =>
    match d.under with
    | .nlcg par _ _ => Nlcg.description corrupted str par.flags buf size
    | .vmlmb par _ _ => Vmlmb.description str par.method par.m.toNat buf size

/-- **C32, negation.** Unlike for the other functions, the optimizer must not be `NULL` for `opk_get_description`. -/
theorem description_null_undefined (corrupted : Nat) (str : List Utils.Byte) (buf : Option (List Utils.Byte)) (size : Nat) :
    getDescription corrupted str (none : Option (Driver F M V)) buf size = none := rfl

/-! ## The optimizers used directly -/

section arith
variable [Add F] [Sub F] [Mul F] [Div F] [Neg F] [Zero F] [One F]
  [LT F] [LE F] [DecidableLT F] [DecidableLE F] [BEq F] [CMath F]

/-- A call of the client with its arguments, the client having stored what it wants in the memory. -/
inductive Use (F V : Type) where
  | start (mem : Nat → V) (x : Option Nat)
  | iterate (mem : Nat → V) (x : Option Nat) (f : F) (g : Option Nat)

/-- Specification: the same call made on the optimizer used directly with the arrays of the client: memory and optimizer after the call. -/
def Use.direct (u : Under F M V) : Use F V → Option (Under F M V × (Nat → V))
  | .start mem (some p) =>
    match u with
    | .nlcg par ops o => some (.nlcg par ops (Nlcg.start o), mem)
    | .vmlmb par ops o => some (.vmlmb par ops (Vmlmb.start par o (mem p)).1, store mem p (Vmlmb.start par o (mem p)).2)
  | .iterate mem (some p) f (some q) =>
    match u with
    | .nlcg par ops o =>
      (Nlcg.iterate par ops o (mem p) f (mem q)).map fun r => (.nlcg par ops r.1, store mem p r.2)
    | .vmlmb par ops o =>
      some (.vmlmb par ops (Vmlmb.iterate par ops o (mem p) f (mem q)).1, store mem p (Vmlmb.iterate par ops o (mem p) f (mem q)).2)
  | .start mem none => some (u.setStatus .illegalAddress, mem)
  | .iterate mem _ _ _ => some (u.setStatus .illegalAddress, mem)

/-- Specification: the returned task for a call. -/
def Use.returns (u : Under F M V) : Use F V → Task
  | .start _ (some _) => u.task
  | .iterate _ (some _) _ (some _) => u.task
  | _ => .error

/-- The memory when the call is made. -/
def Use.mem : Use F V → Nat → V
  | .start m _ => m
  | .iterate m _ _ _ => m

/-- The two arrays are different. -/
def Use.Distinct : Use F V → Prop
  | .iterate _ (some p) _ (some q) => p ≠ q
  | _ => True

/-- The call made via the driver. -/
def Use.driven (d : Option (Driver F M V)) : Use F V → Option (Option (Driver F M V) × (Nat → V) × Task)
  | .start mem x => Opk.Driver.start d mem x
  | .iterate mem x f g => Opk.Driver.iterate d mem x f g

/-- A history of calls via the driver: the final state and what the client gets from each call (contents of the memory and task). -/
def drive (d : Driver F M V) : List (Use F V) → Option (Driver F M V × List ((Nat → V) × Task))
  | [] => some (d, [])
  | c :: l =>
    match c.driven (some d) with
    | some (some d', mem, t) => (drive d' l).map fun r => (r.1, (mem, t) :: r.2)
    | _ => none

/-- Specification: the same history with the optimizer used directly. -/
def directly (u : Under F M V) : List (Use F V) → Option (Under F M V × List ((Nat → V) × Task))
  | [] => some (u, [])
  | c :: l =>
    match c.direct u with
    | some (u', mem) => (directly u' l).map fun r => (r.1, (mem, c.returns u') :: r.2)
    | none => none

/-- One call. -/
theorem driven_eq (d : Driver F M V) (hk : d.kind = d.single) (c : Use F V) (hc : c.Distinct) :
    ∃ xd gd, c.driven (some d) = (c.direct d.under).map fun r =>
      (some { d with xdata := xd, gdata := gd, under := r.1 }, r.2, c.returns r.1) := by
  have hwx : ∀ p q : Option Nat, (if d.single then rewrap d.kind true p q else rewrap d.kind false p q) = rewrap d.kind d.kind p q := by
    intro p q
    rw [hk]
    cases d.single <;> rfl
  have hw : (if d.single then true else false) = d.kind := by rw [hk]; cases d.single <;> rfl
  rcases c with ⟨mem, x⟩ | ⟨mem, x, f, g⟩
  · rcases x with _ | p
    · exact ⟨d.xdata, d.gdata, rfl⟩
    · refine ⟨some p, d.gdata, ?_⟩
      unfold Use.driven Opk.Driver.start
      simp only [hwx]
      have : rewrap d.kind d.kind d.xdata (some p) = (.success, some p) := by unfold rewrap; simp
      rw [this]
      simp only [reduceCtorEq, if_false, ne_eq, not_true_eq_false]
      unfold opsStart Use.direct
      rcases hu : d.under with ⟨par, ops, o⟩ | ⟨par, ops, o⟩ <;> simp [Use.returns, Under.task]
  · rcases x with _ | p
    · exact ⟨d.xdata, d.gdata, by simp [Use.driven, Opk.Driver.iterate, Use.direct, Use.returns]⟩
    · rcases g with _ | q
      · exact ⟨d.xdata, d.gdata, by simp [Use.driven, Opk.Driver.iterate, Use.direct, Use.returns]⟩
      · refine ⟨some p, some q, ?_⟩
        unfold Use.driven Opk.Driver.iterate
        simp only [hw]
        have h1 : rewrap d.kind d.kind d.xdata (some p) = (.success, some p) := by unfold rewrap; simp
        have h2 : rewrap d.kind d.kind d.gdata (some q) = (.success, some q) := by unfold rewrap; simp
        rw [h1, h2]
        have hpq : p ≠ q := hc
        simp only [reduceCtorEq, if_false, ne_eq, not_true_eq_false, or_self, if_true]
        unfold opsIterate Use.direct
        simp only [if_neg hpq]
        rcases hu : d.under with ⟨par, ops, o⟩ | ⟨par, ops, o⟩
        · simp only
          rcases Nlcg.iterate par ops o (mem p) f (mem q) with _ | r <;> simp [Use.returns, Under.task]
        · simp [Use.returns, Under.task]

theorem drive_directly (l : List (Use F V)) : ∀ (d : Driver F M V), d.kind = d.single → (∀ c ∈ l, c.Distinct) →
    (drive d l).map (fun r => (r.1.under, r.2)) = directly d.under l := by
  induction l with
  | nil => intro d _ _; rfl
  | cons c l ih =>
    intro d hk hl
    obtain ⟨xd, gd, e⟩ := driven_eq d hk c (hl c (by simp))
    unfold drive directly
    rw [e]
    rcases c.direct d.under with _ | ⟨u', mem⟩
    · rfl
    · simp only [Option.map_some]
      have := ih { d with xdata := xd, gdata := gd, under := u' } hk (fun c hc => hl c (by simp [hc]))
      simp only at this
      rw [← this, Option.map_map, Option.map_map]
      rfl

/-- **C32 (transparency).** For any history of calls, with any arrays, `NULL` or not, the driver
gives to the client what the optimizer used directly on the arrays of the client gives: same tasks and same memory after each call, and its state is the same
at the end; in particular the driver adds no undefined behaviour.  `NULL` addresses yield an error. -/
theorem transparent (single : Bool) (under : Under F M V) (l : List (Use F V)) (hl : ∀ c ∈ l, c.Distinct) :
    (drive (make single under) l).map (fun r => (r.1.under, r.2)) = directly under l :=
  drive_directly l (make single under) rfl hl

/-- **C32 (transparency).** What the driver tells about its state. -/
theorem getters (d : Driver F M V) :
    getTask (some d) = d.under.task ∧ getStatus (some d) = d.under.status ∧
    (∀ par ops o, d.under = .nlcg par ops o → getEvaluations (some d) = o.evaluations ∧ getIterations (some d) = o.iterations ∧
      getRestarts (some d) = o.restarts ∧ getStep (some d) = o.alpha ∧ getGnorm (some d) = o.gnorm) ∧
    (∀ par ops o, d.under = .vmlmb par ops o → getEvaluations (some d) = o.evaluations ∧ getIterations (some d) = o.iterations ∧
      getRestarts (some d) = o.restarts ∧ getStep (some d) = o.stp ∧ getGnorm (some d) = o.gnorm) := by
  refine ⟨rfl, rfl, ?_, ?_⟩ <;>
  · intro par ops o h
    simp [getEvaluations, getIterations, getRestarts, getStep, getGnorm, h]

/-- **C32 (NULL arguments).** Without an optimizer nothing is done: tasks and status tell the error, the counters are zero. -/
theorem null_optimizer (mem : Nat → V) (x : Option Nat) (f : F) (g : Option Nat) :
    start (none : Option (Driver F M V)) mem x = some (none, mem, .error) ∧
    iterate (none : Option (Driver F M V)) mem x f g = some (none, mem, .error) ∧
    getTask (none : Option (Driver F M V)) = .error ∧ getStatus (none : Option (Driver F M V)) = .illegalAddress ∧
    getEvaluations (none : Option (Driver F M V)) = 0 ∧ getIterations (none : Option (Driver F M V)) = 0 ∧
    getRestarts (none : Option (Driver F M V)) = 0 := ⟨rfl, rfl, rfl, rfl, rfl, rfl, rfl⟩

/-- **C32 (NULL arguments).** A `NULL` array is an error which stays until the optimizer is started again: the calls to `opk_iterate` in between
return an error and leave the memory alone. -/
theorem null_array (single : Bool) (under : Under F M V) (l1 l2 : List (Use F V)) (mem : Nat → V) (x g : Option Nat) (f : F)
    (hxg : x = none ∨ g = none) (h1 : ∀ c ∈ l1, c.Distinct) (h2 : ∀ c ∈ l2, c.Distinct ∧ ∃ mem x f g, c = .iterate mem x f g)
    (d : Driver F M V) (out : List ((Nat → V) × Task)) (hd : drive (make single under) l1 = some (d, out)) :
    ∃ d' out', drive (make single under) (l1 ++ .iterate mem x f g :: l2) = some (d', out ++ (mem, .error) :: out') ∧
      getTask (some d') = .error ∧ getStatus (some d') = .illegalAddress ∧
      out'.length = l2.length ∧ (∀ p ∈ out', p.2 = .error) ∧
      (∀ (i : Nat) (c : Use F V), l2[i]? = some c → ∃ p : (Nat → V) × Task, out'[i]? = some p ∧ p.1 = c.mem) := by
  -- calls to iterate after an error
  have hstay : ∀ (l : List (Use F V)), (∀ c ∈ l, c.Distinct ∧ ∃ mem x f g, c = .iterate mem x f g) → ∀ d : Driver F M V, d.kind = d.single →
      d.under.task = .error → d.under.status = .illegalAddress → ∃ d' out', drive d l = some (d', out') ∧ d'.under.task = .error ∧
      d'.under.status = .illegalAddress ∧ out'.length = l.length ∧ (∀ p ∈ out', p.2 = .error) ∧
      (∀ (i : Nat) (c : Use F V), l[i]? = some c → ∃ p : (Nat → V) × Task, out'[i]? = some p ∧ p.1 = c.mem) := by
    intro l
    induction l with
    | nil => intro _ d _ h h'; exact ⟨d, [], rfl, h, h', rfl, by simp, by simp⟩
    | cons c l ih =>
      intro hl d hk ht hs
      obtain ⟨hc, m, x, f, g, rfl⟩ := hl c (by simp)
      obtain ⟨xd, gd, e⟩ := driven_eq d hk (.iterate m x f g) hc
      have hu : ∃ u' m', Use.direct d.under (.iterate m x f g) = some (u', m') ∧ u'.task = .error ∧ u'.status = .illegalAddress ∧ m' = m := by
        have hset : (d.under.setStatus .illegalAddress).task = .error ∧ (d.under.setStatus .illegalAddress).status = .illegalAddress := by
          rcases d.under with ⟨par, ops, o⟩ | ⟨par, ops, o⟩ <;>
            simp [Under.setStatus, Under.task, Under.status, Nlcg.setStatus, Vmlmb.setStatus]
        have hst : ∀ p, store m p (m p) = m := by
          intro p; funext q; unfold store; split_ifs with h <;> simp [h]
        rcases x with _ | p
        · exact ⟨_, m, rfl, hset.1, hset.2, rfl⟩
        · rcases g with _ | q
          · exact ⟨_, m, rfl, hset.1, hset.2, rfl⟩
          · unfold Use.direct
            rcases hun : d.under with ⟨par, ops, o⟩ | ⟨par, ops, o⟩
            · rw [hun] at ht hs
              have : Nlcg.iterate par ops o (m p) f (m q) = some (o, m p) := by
                unfold Nlcg.iterate
                have : o.task = .error := ht
                rw [this]
              simp only [this]
              exact ⟨_, _, rfl, ht, hs, hst p⟩
            · rw [hun] at ht hs
              have : Vmlmb.iterate par ops o (m p) f (m q) = (o, m p) := by
                unfold Vmlmb.iterate
                have : o.task = .error := ht
                rw [this]
              simp only [this]
              exact ⟨_, _, rfl, ht, hs, hst p⟩
      obtain ⟨u', m', eu, hu1, hu2, rfl⟩ := hu
      rw [eu] at e
      obtain ⟨d', out', ed, k1, k2, k3, k4, k5⟩ := ih (fun c hc => hl c (by simp [hc])) { d with xdata := xd, gdata := gd, under := u' } hk hu1 hu2
      refine ⟨d', (m', .error) :: out', ?_, k1, k2, by simp [k3], ?_, ?_⟩
      · unfold drive
        rw [e]
        simp only [Option.map_some]
        rw [ed]
        have : Use.returns u' (.iterate m' x f g) = .error := by
          rcases x with _ | p <;> [rfl; (rcases g with _ | q <;> [rfl; exact hu1])]
        rw [this]
        rfl
      · intro p hp
        rcases List.mem_cons.1 hp with rfl | hp
        · rfl
        · exact k4 p hp
      · intro i c hc
        rcases i with _ | i
        · simp only [List.getElem?_cons_zero, Option.some.injEq] at hc
          subst hc
          exact ⟨(m', .error), rfl, rfl⟩
        · exact k5 i c hc
  have hkind : ∀ (l : List (Use F V)) (d d' : Driver F M V) (out : List ((Nat → V) × Task)), (∀ c ∈ l, c.Distinct) → d.kind = d.single →
      drive d l = some (d', out) → d'.kind = d'.single := by
    intro l
    induction l with
    | nil => intro d d' out _ hk h; cases h; exact hk
    | cons c l ih =>
      intro d d' out hl hk h
      obtain ⟨xd, gd, e⟩ := driven_eq d hk c (hl c (by simp))
      unfold drive at h
      rw [e] at h
      rcases hcd : c.direct d.under with _ | ⟨u', m'⟩
      · rw [hcd] at h; cases h
      · rw [hcd] at h
        simp only [Option.map_some] at h
        rcases hh : drive { d with xdata := xd, gdata := gd, under := u' } l with _ | ⟨d'', o''⟩
        · rw [hh] at h; cases h
        · rw [hh] at h; cases h
          exact ih { d with xdata := xd, gdata := gd, under := u' } _ _ (fun c hc => hl c (by simp [hc])) hk hh
  have happ : ∀ (l : List (Use F V)) (l' : List (Use F V)) (d d' d'' : Driver F M V) (out out' : List ((Nat → V) × Task)),
      drive d l = some (d', out) → drive d' l' = some (d'', out') → drive d (l ++ l') = some (d'', out ++ out') := by
    intro l l'
    induction l with
    | nil => intro d d' d'' out out' h h'; cases h; exact h'
    | cons c l ih =>
      intro d d' d'' out out' h h'
      rw [List.cons_append]
      unfold drive at h ⊢
      rcases hc : c.driven (some d) with _ | ⟨_ | d1, m1, t1⟩
      · rw [hc] at h; cases h
      · rw [hc] at h; cases h
      · rw [hc] at h
        simp only at h ⊢
        rcases hh : drive d1 l with _ | ⟨d2, o2⟩
        · rw [hh] at h; cases h
        · rw [hh] at h; cases h
          rw [ih d1 d2 d'' o2 out' hh h']
          rfl
  have hk := hkind l1 _ d out h1 rfl hd
  have hfirst : (Use.iterate mem x f g).driven (some d) = some (some { d with under := d.under.setStatus .illegalAddress }, mem, .error) := by
    unfold Use.driven Opk.Driver.iterate
    simp only [if_pos hxg]
  have hset : (d.under.setStatus .illegalAddress).task = .error ∧ (d.under.setStatus .illegalAddress).status = .illegalAddress := by
    rcases d.under with ⟨par, ops, o⟩ | ⟨par, ops, o⟩ <;>
      simp [Under.setStatus, Under.task, Under.status, Nlcg.setStatus, Vmlmb.setStatus]
  obtain ⟨d', out', ed, k1, k2, k3, k4, k5⟩ := hstay l2 h2 { d with under := d.under.setStatus .illegalAddress } hk hset.1 hset.2
  refine ⟨d', out', ?_, k1, k2, k3, k4, k5⟩
  apply happ _ _ _ _ _ _ _ hd
  unfold drive
  rw [hfirst]
  simp only
  rw [ed]
  rfl

end arith

end Opk.Driver
