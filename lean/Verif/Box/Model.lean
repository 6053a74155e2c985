import Verif.Vec.Model
import Mathlib.Order.Defs.LinearOrder
/-!
# Box sets: `src/simple_vector.c:398-882`, `src/algebra.c:456-855` and operators 857-942

Same conventions as for vectors (`Verif/Vec/Model.lean`): numbers in `F`, `cast` is the
conversion of a `double` to the type of the elements, `none` is undefined behaviour.
Comparisons are those of a linear order: NaN values are excluded.
-/
namespace Opk.Box
open Opk.Vec

/-- What the untyped pointers `lower` and `upper` of the box methods may point to. -/
inductive Ptr (F : Type) where
  | null
  | scalar (v : F)
  | vec (v : Vec)

/-- `VALUE(addr)`: `*(double*)addr`. -/
def Ptr.VALUE {F : Type} : Ptr F → Option F
  | .scalar v => some v
  | _ => none

/-- `DATA(addr)`: the storage of a vector. -/
def Ptr.DATA {F : Type} : Ptr F → Option Vec
  | .vec v => some v
  | _ => none

/-- `opk_bound`, `src/algebra.c:627-636`: `type` is 0, 's' or 'v'. -/
inductive Bound (F : Type) where
  | unset
  | scalar (v : F)
  | vector (v : Vec)

/-- `opk_boxset`, `src/algebra.c:638-642`. -/
structure BoxSet (F : Type) where
  space : Nat
  lower : Bound F
  upper : Bound F

/-- `get_bounds`, `src/algebra.c:655-680`: type code and the two pointers. -/
def getBounds {F : Type} (box : BoxSet F) : Nat × Ptr F × Ptr F :=
  let (type, lower) : Nat × Ptr F := match box.lower with
    | .scalar v => (1, .scalar v)
    | .vector v => (2, .vec v)
    | .unset => (0, .null)
  match box.upper with
    | .scalar v => (type + 3, lower, .scalar v)
    | .vector v => (type + 6, lower, .vec v)
    | .unset => (type, lower, .null)

section ops
variable {F : Type} [Add F] [Sub F] [Mul F] [Div F] [Neg F] [Zero F] [One F] [LinearOrder F]
variable (cast : F → F)

/-- `boxprojvar`, `src/simple_vector.c:401-504`. -/
def boxprojvar (n : Nat) (dst x : Vec) (lower upper : Ptr F) (bound : Nat) (m : Mem F) :
    Option (Mem F) :=
  match bound with
  | 0 => if dst.data ≠ x.data then memcpy n dst.data x.data m else some m
  | 1 => do
    let a := cast (← lower.VALUE)
    some (loop (fun i m =>
      let t := x.el m i
      let t := if t < a then a else t
      put m (dst.data + i) t) n m)
  | 2 => do
    let xl ← lower.DATA
    some (loop (fun i m =>
      let t := x.el m i
      let t := if t < xl.el m i then xl.el m i else t
      put m (dst.data + i) t) n m)
  | 3 => do
    let b := cast (← upper.VALUE)
    some (loop (fun i m =>
      let t := x.el m i
      let t := if t > b then b else t
      put m (dst.data + i) t) n m)
  | 4 => do
    let a := cast (← lower.VALUE)
    let b := cast (← upper.VALUE)
    some (loop (fun i m =>
      let t := x.el m i
      let t := if t < a then a else t
      let t := if t > b then b else t
      put m (dst.data + i) t) n m)
  | 5 => do
    let xl ← lower.DATA
    let b := cast (← upper.VALUE)
    some (loop (fun i m =>
      let t := x.el m i
      let t := if t < xl.el m i then xl.el m i else t
      let t := if t > b then b else t
      put m (dst.data + i) t) n m)
  | 6 => do
    let xu ← upper.DATA
    some (loop (fun i m =>
      let t := x.el m i
      let t := if t > xu.el m i then xu.el m i else t
      put m (dst.data + i) t) n m)
  | 7 => do
    let a := cast (← lower.VALUE)
    let xu ← upper.DATA
    some (loop (fun i m =>
      let t := x.el m i
      let t := if t < a then a else t
      let t := if t > xu.el m i then xu.el m i else t
      put m (dst.data + i) t) n m)
  | 8 => do
    let xl ← lower.DATA
    let xu ← upper.DATA
    some (loop (fun i m =>
      let t := x.el m i
      let t := if t < xl.el m i then xl.el m i else t
      let t := if t > xu.el m i then xu.el m i else t
      put m (dst.data + i) t) n m)
  | _ => some m

/-- Macro `BOXED` of `boxprojdir`, `src/simple_vector.c:523-534`, for one component. -/
def dirBoxed (orient : Int) (d x lo hi : F) : F :=
  if orient > 0 then
    (if d < 0 then (if x > lo then d else 0) else (if d > 0 then (if x < hi then d else 0) else 0))
  else
    (if d > 0 then (if x > lo then d else 0) else (if d < 0 then (if x < hi then d else 0) else 0))

/-- Macro `LOWER` of `boxprojdir`, `src/simple_vector.c:536-545`. -/
def dirLower (orient : Int) (d x lo : F) : F :=
  if orient > 0 then (if d ≥ 0 ∨ x > lo then d else 0)
  else (if d ≤ 0 ∨ x > lo then d else 0)

/-- Macro `UPPER` of `boxprojdir`, `src/simple_vector.c:547-556`. -/
def dirUpper (orient : Int) (d x hi : F) : F :=
  if orient > 0 then (if d ≤ 0 ∨ x < hi then d else 0)
  else (if d ≥ 0 ∨ x < hi then d else 0)

/-- `boxprojdir`, `src/simple_vector.c:506-607`. -/
def boxprojdir (n : Nat) (dst x : Vec) (lower upper : Ptr F) (bound : Nat) (dir : Vec)
    (orient : Int) (m : Mem F) : Option (Mem F) :=
  match bound with
  | 0 => if dst.data ≠ dir.data then memcpy n dst.data dir.data m else some m
  | 1 => do
    let a := cast (← lower.VALUE)
    some (loop (fun i m => put m (dst.data + i) (dirLower orient (dir.el m i) (x.el m i) a)) n m)
  | 2 => do
    let xl ← lower.DATA
    some (loop (fun i m => put m (dst.data + i) (dirLower orient (dir.el m i) (x.el m i) (xl.el m i))) n m)
  | 3 => do
    let b := cast (← upper.VALUE)
    some (loop (fun i m => put m (dst.data + i) (dirUpper orient (dir.el m i) (x.el m i) b)) n m)
  | 4 => do
    let a := cast (← lower.VALUE)
    let b := cast (← upper.VALUE)
    some (loop (fun i m => put m (dst.data + i) (dirBoxed orient (dir.el m i) (x.el m i) a b)) n m)
  | 5 => do
    let xl ← lower.DATA
    let b := cast (← upper.VALUE)
    some (loop (fun i m => put m (dst.data + i) (dirBoxed orient (dir.el m i) (x.el m i) (xl.el m i) b)) n m)
  | 6 => do
    let xu ← upper.DATA
    some (loop (fun i m => put m (dst.data + i) (dirUpper orient (dir.el m i) (x.el m i) (xu.el m i))) n m)
  | 7 => do
    let a := cast (← lower.VALUE)
    let xu ← upper.DATA
    some (loop (fun i m => put m (dst.data + i) (dirBoxed orient (dir.el m i) (x.el m i) a (xu.el m i))) n m)
  | 8 => do
    let xl ← lower.DATA
    let xu ← upper.DATA
    some (loop (fun i m => put m (dst.data + i) (dirBoxed orient (dir.el m i) (x.el m i) (xl.el m i) (xu.el m i))) n m)
  | _ => some m

/-- Macro `BOXED` of `boxfreevar`, `src/simple_vector.c:626-637`. -/
def freeBoxed (orient : Int) (d x lo hi : F) : F :=
  if orient > 0 then
    (if d < 0 then (if x > lo then 1 else 0) else (if d > 0 then (if x < hi then 1 else 0) else 0))
  else
    (if d > 0 then (if x > lo then 1 else 0) else (if d < 0 then (if x < hi then 1 else 0) else 0))

/-- Macro `LOWER` of `boxfreevar`, `src/simple_vector.c:639-650`. -/
def freeLower (orient : Int) (d x lo : F) : F :=
  if orient > 0 then (if d < 0 then (if x > lo then 1 else 0) else (if d > 0 then 1 else 0))
  else (if d > 0 then (if x > lo then 1 else 0) else (if d < 0 then 1 else 0))

/-- Macro `UPPER` of `boxfreevar`, `src/simple_vector.c:652-663`. -/
def freeUpper (orient : Int) (d x hi : F) : F :=
  if orient > 0 then (if d < 0 then 1 else (if d > 0 then (if x < hi then 1 else 0) else 0))
  else (if d > 0 then 1 else (if d < 0 then (if x < hi then 1 else 0) else 0))

/-- `boxfreevar`, `src/simple_vector.c:609-714`. -/
def boxfreevar (n : Nat) (dst x : Vec) (lower upper : Ptr F) (bound : Nat) (dir : Vec)
    (orient : Int) (m : Mem F) : Option (Mem F) :=
  match bound with
  | 0 => some (loop (fun i m => put m (dst.data + i) 1) n m)
  | 1 => do
    let a := cast (← lower.VALUE)
    some (loop (fun i m => put m (dst.data + i) (freeLower orient (dir.el m i) (x.el m i) a)) n m)
  | 2 => do
    let xl ← lower.DATA
    some (loop (fun i m => put m (dst.data + i) (freeLower orient (dir.el m i) (x.el m i) (xl.el m i))) n m)
  | 3 => do
    let b := cast (← upper.VALUE)
    some (loop (fun i m => put m (dst.data + i) (freeUpper orient (dir.el m i) (x.el m i) b)) n m)
  | 4 => do
    let a := cast (← lower.VALUE)
    let b := cast (← upper.VALUE)
    some (loop (fun i m => put m (dst.data + i) (freeBoxed orient (dir.el m i) (x.el m i) a b)) n m)
  | 5 => do
    let xl ← lower.DATA
    let b := cast (← upper.VALUE)
    some (loop (fun i m => put m (dst.data + i) (freeBoxed orient (dir.el m i) (x.el m i) (xl.el m i) b)) n m)
  | 6 => do
    let xu ← upper.DATA
    some (loop (fun i m => put m (dst.data + i) (freeUpper orient (dir.el m i) (x.el m i) (xu.el m i))) n m)
  | 7 => do
    let a := cast (← lower.VALUE)
    let xu ← upper.DATA
    some (loop (fun i m => put m (dst.data + i) (freeBoxed orient (dir.el m i) (x.el m i) a (xu.el m i))) n m)
  | 8 => do
    let xl ← lower.DATA
    let xu ← upper.DATA
    some (loop (fun i m => put m (dst.data + i) (freeBoxed orient (dir.el m i) (x.el m i) (xl.el m i) (xu.el m i))) n m)
  | _ => some m

/-- The three variables `s1`, `s2`, `s3` of `boxsteplim`. -/
structure Lim (F : Type) where
  s1 : F
  s2 : F
  s3 : F

/-- `if (s < s1) s1 = s; if (s < s2 && s > 0) s2 = s; if (s > s3) s3 = s;` -/
def Lim.reach (l : Lim F) (s : F) : Lim F :=
  { s1 := if s < l.s1 then s else l.s1
    s2 := if s < l.s2 ∧ s > 0 then s else l.s2
    s3 := if s > l.s3 then s else l.s3 }

/-- Macro `BOXED` of `boxsteplim`, `src/simple_vector.c:735-765`, body of the loops. -/
def limBoxed (orient : Int) (p x lo hi : F) (l : Lim F) : Lim F :=
  if orient > 0 then
    if p > 0 then l.reach ((hi - x) / p)
    else if p < 0 then l.reach ((lo - x) / p)
    else l
  else
    if p < 0 then l.reach ((x - hi) / p)
    else if p > 0 then l.reach ((x - lo) / p)
    else l

/-- Macro `LOWER` of `boxsteplim`, `src/simple_vector.c:767-792`. -/
def limLower (inf : F) (orient : Int) (p x lo : F) (l : Lim F) : Lim F :=
  if orient > 0 then
    if p < 0 then l.reach ((lo - x) / p)
    else if p > 0 then { l with s3 := inf }
    else l
  else
    if p > 0 then l.reach ((x - lo) / p)
    else if p < 0 then { l with s3 := inf }
    else l

/-- Macro `UPPER` of `boxsteplim`, `src/simple_vector.c:794-819`. -/
def limUpper (inf : F) (orient : Int) (p x hi : F) (l : Lim F) : Lim F :=
  if orient > 0 then
    if p > 0 then l.reach ((hi - x) / p)
    else if p < 0 then { l with s3 := inf }
    else l
  else
    if p < 0 then l.reach ((x - hi) / p)
    else if p > 0 then { l with s3 := inf }
    else l

/-- `boxsteplim`, `src/simple_vector.c:716-882`; `inf` is `FLT_MAX` or `DBL_MAX`.  The three
results are always returned (the code only stores those whose address is not `NULL`). -/
def boxsteplim (inf : F) (n : Nat) (x : Vec) (lower upper : Ptr F) (bound : Nat) (dir : Vec)
    (orient : Int) (m : Mem F) : Option (Lim F) :=
  match bound with
  | 0 => some { s1 := inf, s2 := inf, s3 := inf }
  | 1 => do
    let a := cast (← lower.VALUE)
    some (loop (fun i l => limLower inf orient (dir.el m i) (x.el m i) a l) n
      { s1 := inf, s2 := inf, s3 := 0 })
  | 2 => do
    let xl ← lower.DATA
    some (loop (fun i l => limLower inf orient (dir.el m i) (x.el m i) (xl.el m i) l) n
      { s1 := inf, s2 := inf, s3 := 0 })
  | 3 => do
    let b := cast (← upper.VALUE)
    some (loop (fun i l => limUpper inf orient (dir.el m i) (x.el m i) b l) n
      { s1 := inf, s2 := inf, s3 := 0 })
  | 4 => do
    let a := cast (← lower.VALUE)
    let b := cast (← upper.VALUE)
    some (loop (fun i l => limBoxed orient (dir.el m i) (x.el m i) a b l) n
      { s1 := inf, s2 := inf, s3 := 0 })
  | 5 => do
    let xl ← lower.DATA
    let b := cast (← upper.VALUE)
    some (loop (fun i l => limBoxed orient (dir.el m i) (x.el m i) (xl.el m i) b l) n
      { s1 := inf, s2 := inf, s3 := 0 })
  | 6 => do
    let xu ← upper.DATA
    some (loop (fun i l => limUpper inf orient (dir.el m i) (x.el m i) (xu.el m i) l) n
      { s1 := inf, s2 := inf, s3 := 0 })
  | 7 => do
    let a := cast (← lower.VALUE)
    let xu ← upper.DATA
    some (loop (fun i l => limBoxed orient (dir.el m i) (x.el m i) a (xu.el m i) l) n
      { s1 := inf, s2 := inf, s3 := 0 })
  | 8 => do
    let xl ← lower.DATA
    let xu ← upper.DATA
    some (loop (fun i l => limBoxed orient (dir.el m i) (x.el m i) (xl.el m i) (xu.el m i) l) n
      { s1 := inf, s2 := inf, s3 := 0 })
  | _ => none  -- `s3` not initialized

/-- `box_projvar`, `src/algebra.c:682-692`. -/
def boxProjVar (size : Sizes) (box : BoxSet F) (dst x : Vec) (m : Mem F) : Option (Mem F) :=
  let b := getBounds box
  boxprojvar cast (size box.space) dst x b.2.1 b.2.2 b.1 m

/-- `box_projdir`, `src/algebra.c:694-707`. -/
def boxProjDir (size : Sizes) (box : BoxSet F) (dst x d : Vec) (orient : Int) (m : Mem F) :
    Option (Mem F) :=
  let b := getBounds box
  boxprojdir cast (size box.space) dst x b.2.1 b.2.2 b.1 d orient m

/-- `box_freevar`, `src/algebra.c:709-722`. -/
def boxFreeVar (size : Sizes) (box : BoxSet F) (dst x d : Vec) (orient : Int) (m : Mem F) :
    Option (Mem F) :=
  let b := getBounds box
  boxfreevar cast (size box.space) dst x b.2.1 b.2.2 b.1 d orient m

/-- `box_steplim`, `src/algebra.c:724-737`. -/
def boxStepLim (inf : F) (size : Sizes) (box : BoxSet F) (x d : Vec) (orient : Int) (m : Mem F) :
    Option (Lim F) :=
  let b := getBounds box
  boxsteplim cast inf (size box.space) x b.2.1 b.2.2 b.1 d orient m

end ops

/-! ## Argument checks -/

/-- Status codes (`src/optimpack.h:286-326`). -/
inductive Status where
  | success | invalidArgument | insufficientMemory | illegalAddress | notImplemented | badSpace
  deriving DecidableEq, Repr

/-- A convex set with its (possibly missing) methods; `R` is the type of the results. -/
structure ConvexSet (R : Type) where
  space : Nat
  projvar : Option (Vec → Vec → R)
  projdir : Option (Vec → Vec → Vec → Int → R)
  freevar : Option (Vec → Vec → Vec → Int → R)
  steplim : Option (Vec → Vec → Int → R)

/-- Result of a checked call: an error status or the result of the method. -/
inductive Checked (R : Type) where
  | error (s : Status)
  | done (r : R)

section checks
variable {R : Type}

/-- `opk_can_project_variables`, ..., `src/algebra.c:512-534`. -/
def canProjectVariables (set : Option (ConvexSet R)) : Bool :=
  match set with | none => false | some s => s.projvar.isSome
/-- See `canProjectVariables`. -/
def canProjectDirections (set : Option (ConvexSet R)) : Bool :=
  match set with | none => false | some s => s.projdir.isSome
/-- See `canProjectVariables`. -/
def canGetFreeVariables (set : Option (ConvexSet R)) : Bool :=
  match set with | none => false | some s => s.freevar.isSome
/-- See `canProjectVariables`. -/
def canGetStepLimits (set : Option (ConvexSet R)) : Bool :=
  match set with | none => false | some s => s.steplim.isSome

/-- `opk_project_variables`, `src/algebra.c:536-553`. -/
def projectVariables (dst x : Option Vec) (set : Option (ConvexSet R)) : Checked R :=
  match dst, x, set with
  | some dst, some x, some set =>
    if dst.space ≠ set.space ∨ x.space ≠ set.space then .error .badSpace
    else match set.projvar with
      | none => .error .notImplemented
      | some f => .done (f dst x)
  | _, _, _ => .error .illegalAddress

/-- `opk_project_direction`, `src/algebra.c:555-574`. -/
def projectDirection (dst x : Option Vec) (set : Option (ConvexSet R)) (d : Option Vec)
    (orient : Int) : Checked R :=
  match dst, x, set, d with
  | some dst, some x, some set, some d =>
    if dst.space ≠ set.space ∨ x.space ≠ set.space ∨ d.space ≠ set.space then .error .badSpace
    else match set.projdir with
      | none => .error .notImplemented
      | some f => .done (f dst x d orient)
  | _, _, _, _ => .error .illegalAddress

/-- `opk_get_free_variables`, `src/algebra.c:576-595`. -/
def getFreeVariables (dst x : Option Vec) (set : Option (ConvexSet R)) (d : Option Vec)
    (orient : Int) : Checked R :=
  match dst, x, set, d with
  | some dst, some x, some set, some d =>
    if dst.space ≠ set.space ∨ x.space ≠ set.space ∨ d.space ≠ set.space then .error .badSpace
    else match set.freevar with
      | none => .error .notImplemented
      | some f => .done (f dst x d orient)
  | _, _, _, _ => .error .illegalAddress

/-- `opk_get_step_limits`, `src/algebra.c:597-617`. -/
def getStepLimits (x : Option Vec) (set : Option (ConvexSet R)) (d : Option Vec)
    (orient : Int) : Checked R :=
  match x, set, d with
  | some x, some set, some d =>
    if x.space ≠ set.space ∨ d.space ≠ set.space then .error .badSpace
    else match set.steplim with
      | none => .error .notImplemented
      | some f => .done (f x d orient)
  | _, _, _ => .error .illegalAddress

/-- `opk_operator`, `src/optimpack-private.h`. -/
structure Operator (R : Type) where
  inpspace : Nat
  outspace : Nat
  direct : Option (Vec → Vec → R)
  adjoint : Option (Vec → Vec → R)
  inverse : Option (Vec → Vec → R)

/-- `opk_apply_direct`, `src/algebra.c:896-909`. -/
def applyDirect (op : Option (Operator R)) (dst src : Option Vec) : Checked R :=
  match op, dst, src with
  | some op, some dst, some src =>
    if dst.space ≠ op.outspace ∨ src.space ≠ op.inpspace then .error .badSpace
    else match op.direct with
      | none => .error .notImplemented
      | some f => .done (f dst src)
  | _, _, _ => .error .illegalAddress

/-- `opk_apply_adjoint`, `src/algebra.c:911-925`. -/
def applyAdjoint (op : Option (Operator R)) (dst src : Option Vec) : Checked R :=
  match op, dst, src with
  | some op, some dst, some src =>
    if dst.space ≠ op.inpspace ∨ src.space ≠ op.outspace then .error .badSpace
    else match op.adjoint with
      | none => .error .notImplemented
      | some f => .done (f dst src)
  | _, _, _ => .error .illegalAddress

/-- `opk_apply_inverse`, `src/algebra.c:927-942`. -/
def applyInverse (op : Option (Operator R)) (dst src : Option Vec) : Checked R :=
  match op, dst, src with
  | some op, some dst, some src =>
    if dst.space ≠ op.inpspace ∨ src.space ≠ op.outspace then .error .badSpace
    else match op.inverse with
      | none => .error .notImplemented
      | some f => .done (f dst src)
  | _, _, _ => .error .illegalAddress

end checks

/-! ## Construction of a box set -/

/-- The address given for a bound: what it points to depends on the type code, the caller is
assumed to give an address of the announced type (C has no way to check). -/
inductive Given (F : Type) where
  | null
  | scalar (v : F)
  | vector (v : Vec)
  | array (v : Nat → F)

/-- `set_bound`, `src/algebra.c:739-804`.  Type codes are those of `opk_bound_type`
(`src/optimpack.h`): 0 none, 1 scalar float, 2 scalar double, 3 static float, 4 static double,
5 volatile float, 6 volatile double, 7 vector.  `fresh` is the vector created to hold a copy of
an array (`none`: allocation failure); `none` as a result is undefined behaviour (the address
is not of the announced type).  The contents of the new vector are given by `opk_vimport`. -/
def setBound {F : Type} (space : Nat) (type : Int) (value : Given F) (fresh : Option Vec) :
    Option (Status × Bound F) :=
  if type = 0 then
    match value with
    | .null => some (.success, .unset)
    | _ => some (.invalidArgument, .unset)
  else if type = 1 ∨ type = 2 then
    match value with
    | .null => some (.illegalAddress, .unset)
    | .scalar v => some (.success, .scalar v)
    | _ => none
  else if type = 7 then
    match value with
    | .null => some (.illegalAddress, .unset)
    | .vector v => if v.space ≠ space then some (.badSpace, .unset) else some (.success, .vector v)
    | _ => none
  else if type = 5 ∨ type = 6 ∨ type = 3 ∨ type = 4 then
    match value with
    | .null => some (.illegalAddress, .unset)
    | .array _ =>
      match fresh with
      | none => some (.insufficientMemory, .unset)
      | some v => some (.success, .vector v)
    | _ => none
  else some (.invalidArgument, .unset)

/-- `opk_new_boxset`, `src/algebra.c:806-855`, when the set itself can be allocated: `some none`
is the `NULL` result. -/
def newBoxSet {F : Type} (space : Option Nat) (ltype : Int) (lower : Given F) (utype : Int)
    (upper : Given F) (fresh1 fresh2 : Option Vec) : Option (Option (BoxSet F)) :=
  match space with
  | none => some none
  | some space =>
    match setBound space ltype lower fresh1 with
    | none => none
    | some (s1, b1) =>
      if s1 ≠ .success then some none
      else match setBound space utype upper fresh2 with
        | none => none
        | some (s2, b2) =>
          if s2 ≠ .success then some none
          else some (some { space := space, lower := b1, upper := b2 })

end Opk.Box
