/-!
# Reference counted objects (`src/algebra.c:44-83`)

The heap is a list of cells; the address of an object is its position, addresses are
never reused (simplification: `malloc` may reuse the address of a freed block, which no
correct client can observe).  A freed cell is `none`.  Undefined behaviour (access to a
freed or never allocated object, `NULL` dereference) is the outcome `none` of an operation.
-/
namespace Opk.Heap

/-- `struct _opk_object` (`src/optimpack-private.h`): the reference count, together with
the references owned by the object (the members which are dropped by its `finalize`
method: e.g. `owner` of a vector, `src/algebra.c:122-129`; bounds of a box set; `vspace`,
`lnsrch`, `box`, `s[k]`, `y[k]`, ... of an optimizer, `src/vmlmb.c:180-208`,
`src/nlcg.c:407-417`, `src/driver.c:279-288`) and the class of the object, here a rank. -/
structure Obj where
  refs : Nat
  kids : List Nat
  rank : Nat
  deriving DecidableEq, Repr

/-- The heap (`none` = released) and the log of released addresses, in order. -/
structure Heap where
  cells : List (Option Obj)
  log : List Nat
  deriving DecidableEq, Repr

/-- `opk_allocate_object`, `src/algebra.c:44-59`, when `malloc` succeeds: a new object with
one reference (that of the creator) and zero-filled members. -/
def alloc (h : Heap) (rank : Nat) : Heap × Nat :=
  ({ h with cells := h.cells ++ [some { refs := 1, kids := [], rank := rank }] }, h.cells.length)

/-- The live object at address `a`. -/
def Heap.get (h : Heap) (a : Nat) : Option Obj := (h.cells[a]?).join

/-- Overwrite the cell `a`. -/
def Heap.put (h : Heap) (a : Nat) (c : Option Obj) : Heap := { h with cells := h.cells.set a c }

/-- `opk_hold_object`, `src/algebra.c:61-66`: `++obj->references; return obj;` with no
check for `NULL`. -/
def hold (h : Heap) (obj : Option Nat) : Option Heap :=
  match obj with
  | none => none                                   -- `NULL` is dereferenced
  | some a =>
    match h.get a with
    | none => none                                 -- use after free
    | some o => some (h.put a (some { o with refs := o.refs + 1 }))

/-- The finalizer: `OPK_DROP` (here `f`) on each member. -/
def dropAll (f : Heap → Nat → Option Heap) (h : Heap) : List Nat → Option Heap
  | [] => some h
  | a :: l =>
    match f h a with
    | none => none
    | some h' => dropAll f h' l

/-- `opk_drop_object`, `src/algebra.c:68-77`: decrement the count; if it becomes less than 1
call the finalizer, which drops the references owned by the object, then free it.  The
recursion is bounded by `fuel`; running out of fuel is reported as `none` (the theorems show
that this never happens with `fuel` the sum of all the counts plus one).  A count which is
already 0 would become negative, i.e. the object would be finalized twice: undefined
behaviour. -/
def drop : Nat → Heap → Nat → Option Heap
  | 0, _, _ => none
  | fuel + 1, h, a =>
    match h.get a with
    | none => none                                 -- use after free
    | some o =>
      match o.refs with
      | 0 => none                                  -- released twice
      | r + 1 =>
        let h1 := h.put a (some { o with refs := r })
        if r < 1 then
          match dropAll (drop fuel) h1 o.kids with
          | none => none
          | some h2 => some { cells := (h2.put a none).cells, log := h2.log ++ [a] }
        else some h1

/-- Sum of all the reference counts of the heap. -/
def total (h : Heap) : Nat :=
  (h.cells.map (fun c => match c with | some o => o.refs | none => 0)).sum

/-- `opk_drop_object(obj)` with its `NULL` test. -/
def dropObject (h : Heap) (obj : Option Nat) : Option Heap :=
  match obj with
  | none => some h
  | some a => drop (total h + 1) h a

/-- `opk_get_object_references`, `src/algebra.c:79-83`; `none` = use after free. -/
def getReferences (h : Heap) (obj : Option Nat) : Option Nat :=
  match obj with
  | none => some 0
  | some a => (h.get a).map (·.refs)

/-- `parent->member = (type*)OPK_HOLD(child)` (e.g. `src/vmlmb.c:326-354`,
`src/algebra.c:142`): the parent gets its own reference on the child. -/
def linkHold (h : Heap) (p c : Nat) : Option Heap :=
  match h.get p with
  | none => none
  | some o =>
    match hold (h.put p (some { o with kids := o.kids ++ [c] })) (some c) with
    | none => none
    | some h' => some h'

/-- `parent->member = child` where the reference owned by the caller on the child becomes
that of the parent (e.g. `opt->d = opk_vcreate(space)` in `src/vmlmb.c:349`). -/
def linkMove (h : Heap) (p c : Nat) : Option Heap :=
  match h.get p with
  | none => none
  | some o => some (h.put p (some { o with kids := o.kids ++ [c] }))

/-- A call of the API (or of the library code on behalf of the client). -/
inductive Op where
  | new (rank : Nat)
  | hold (a : Nat)
  | drop (a : Nat)
  | linkHold (p c : Nat)
  | linkMove (p c : Nat)
  deriving DecidableEq, Repr

/-- One call; `none` is undefined behaviour. -/
def step (h : Heap) : Op → Option Heap
  | .new rank => some (alloc h rank).1
  | .hold a => hold h (some a)
  | .drop a => dropObject h (some a)
  | .linkHold p c => linkHold h p c
  | .linkMove p c => linkMove h p c

/-- The empty heap. -/
def empty : Heap := { cells := [], log := [] }

/-- A history of calls. -/
def run (h : Heap) : List Op → Option Heap
  | [] => some h
  | op :: ops => match step h op with
    | none => none
    | some h' => run h' ops

end Opk.Heap
