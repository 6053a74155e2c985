import Mathlib.Tactic.Linarith
import Mathlib.Tactic.Ring
import Mathlib.Data.List.Chain
import Mathlib.Data.Nat.ModEq
/-!
# C48: the workspaces of COBYLA, NEWUOA and BOBYQA

Each workspace is described by the list of the arrays stored in it, with the offsets computed as
in the C code and the dimensions which are indexed by the macros.  Sizes are natural numbers (they
are checked to be nonnegative) and do not overflow.
-/
namespace Opk.Powell

/-- An array in a workspace: the offset of its first element and its dimensions. -/
structure Arr where
  start : Nat
  rows : Nat
  cols : Nat

/-- The address of `A(i,j)`: macros such as `XPT(a1,a2) xpt[(a2)*npt + a1]` after
`xpt -= 1 + npt` (`src/bobyqa.c:597-618`); the arrays with one index have one column. -/
def Arr.addr (a : Arr) (i j : Nat) : Int := (a.start : Int) - (1 + a.rows) + (j * a.rows + i)

/-- The number of elements. -/
def Arr.size (a : Arr) : Nat := a.rows * a.cols

/-- `A(i,j)` is an element of the array. -/
def Arr.Valid (a : Arr) (i j : Nat) : Prop := 1 ≤ i ∧ i ≤ a.rows ∧ 1 ≤ j ∧ j ≤ a.cols

/-- Specification of C48: every element of every array is in the workspace of the given size and
different elements, in the same array or not, have different addresses. -/
def Separate (size : Nat) (l : List Arr) : Prop :=
  ∀ p (hp : p < l.length) i j, l[p].Valid i j →
    0 ≤ l[p].addr i j ∧ l[p].addr i j < size ∧
    ∀ q (hq : q < l.length) i' j', l[q].Valid i' j' → l[p].addr i j = l[q].addr i' j' → p = q ∧ i = i' ∧ j = j'

/-- The arrays follow each other, and the last one ends before `size`. -/
def packed (size : Nat) : Nat → List Arr → Prop
  | e, [] => e ≤ size
  | e, a :: l => e ≤ a.start ∧ packed size (a.start + a.size) l

theorem packed_mono {size e e' : Nat} {l : List Arr} (h : packed size e l) (he : e' ≤ e) : packed size e' l := by
  cases l with
  | nil => exact he.trans h
  | cons a l => exact ⟨he.trans h.1, h.2⟩

theorem packed_get {size : Nat} {l : List Arr} : ∀ {e : Nat}, packed size e l →
    ∀ p (hp : p < l.length), e ≤ l[p].start ∧ l[p].start + l[p].size ≤ size ∧
      ∀ q (hq : q < l.length), p < q → l[p].start + l[p].size ≤ l[q].start := by
  induction l with
  | nil => intro e _ p hp; simp at hp
  | cons a l ih =>
    intro e h p hp
    have h2 : ∀ k (hk : k < l.length), a.start + a.size ≤ l[k].start := fun k hk => (ih h.2 k hk).1
    have hend : ∀ {e : Nat} {l : List Arr}, packed size e l → e ≤ size := by
      intro e l
      induction l generalizing e with
      | nil => exact id
      | cons b l ihl => exact fun hb => (hb.1.trans (Nat.le_add_right _ _)).trans (ihl hb.2)
    cases p with
    | zero =>
      refine ⟨h.1, hend h.2, fun q hq hpq => ?_⟩
      cases q with
      | zero => omega
      | succ q => exact h2 q (by simpa using hq)
    | succ p =>
      obtain ⟨h3, h4, h5⟩ := ih h.2 p (by simpa using hp)
      refine ⟨(h.1.trans (Nat.le_add_right _ _)).trans h3, h4, fun q hq hpq => ?_⟩
      cases q with
      | zero => omega
      | succ q => exact h5 q (by simpa using hq) (by omega)

/-- Elements of an array are in the array. -/
theorem addr_range {a : Arr} {i j : Nat} (h : a.Valid i j) :
    (a.start : Int) ≤ a.addr i j ∧ a.addr i j < a.start + a.size := by
  obtain ⟨h1, h2, h3, h4⟩ := h
  obtain ⟨i, rfl⟩ := Nat.exists_eq_add_of_le h1
  obtain ⟨j, rfl⟩ := Nat.exists_eq_add_of_le h3
  have h5 : (1 + j) * a.rows ≤ a.rows * a.cols := by rw [Nat.mul_comm]; exact Nat.mul_le_mul_left _ h4
  have e : a.addr (1 + i) (1 + j) = (a.start + (j * a.rows + i) : Nat) := by
    unfold Arr.addr; push_cast; ring
  rw [e]
  unfold Arr.size
  rw [Nat.add_mul, Nat.one_mul] at h5
  constructor
  · push_cast; have : 0 ≤ j * a.rows := Nat.zero_le _; omega
  · have : j * a.rows + i < a.rows * a.cols := by omega
    push_cast at this ⊢
    omega

/-- Different elements of an array have different addresses. -/
theorem addr_inj {a : Arr} {i j i' j' : Nat} (h : a.Valid i j) (h' : a.Valid i' j') (e : a.addr i j = a.addr i' j') :
    i = i' ∧ j = j' := by
  obtain ⟨h1, h2, -, -⟩ := h
  obtain ⟨h1', h2', -, -⟩ := h'
  unfold Arr.addr at e
  have e2 : j * a.rows + i = j' * a.rows + i' := by
    have : ((j * a.rows + i : Nat) : Int) = (j' * a.rows + i' : Nat) := by push_cast; linarith
    exact_mod_cast this
  rcases lt_trichotomy j j' with hj | hj | hj
  · exfalso
    have : (j + 1) * a.rows ≤ j' * a.rows := Nat.mul_le_mul_right _ hj
    rw [Nat.add_mul, Nat.one_mul] at this
    omega
  · subst hj
    exact ⟨by omega, rfl⟩
  · exfalso
    have : (j' + 1) * a.rows ≤ j * a.rows := Nat.mul_le_mul_right _ hj
    rw [Nat.add_mul, Nat.one_mul] at this
    omega

theorem separate_of_packed {size : Nat} {l : List Arr} (h : packed size 0 l) : Separate size l := by
  intro p hp i j hv
  obtain ⟨-, h2, h3⟩ := packed_get h p hp
  obtain ⟨h4, h5⟩ := addr_range hv
  refine ⟨by omega, by omega, fun q hq i' j' hv' e => ?_⟩
  obtain ⟨h6, h7⟩ := addr_range hv'
  rcases lt_trichotomy p q with hpq | hpq | hpq
  · have := h3 q hq hpq
    omega
  · subst hpq
    exact ⟨rfl, addr_inj hv hv' e⟩
  · have := (packed_get h q hq).2.2 p hp hpq
    omega

/-- Half of the product of a number and its successor. -/
theorem tri (n : Nat) : 2 * (n * (n + 1) / 2) = n * (n + 1) := by
  have : n * (n + 1) % 2 = 0 := by
    rcases Nat.even_or_odd' n with ⟨k, rfl | rfl⟩
    · rw [Nat.mul_assoc, Nat.mul_mod_right]
    · rw [show 2 * k + 1 + 1 = 2 * (k + 1) from rfl, ← Nat.mul_assoc, Nat.mul_comm (2 * k + 1) 2, Nat.mul_assoc, Nat.mul_mod_right]
  omega

/-- The packed indices `ih` of the triangular matrices (`HQ`, e.g. `src/bobyqa.c:680-690`) are those of
an array with `n*(n+1)/2` elements. -/
theorem triangle_index {n i j : Nat} (h1 : 1 ≤ i) (h2 : i ≤ j) (h3 : j ≤ n) :
    1 ≤ j * (j - 1) / 2 + i ∧ j * (j - 1) / 2 + i ≤ n * (n + 1) / 2 := by
  refine ⟨by omega, ?_⟩
  obtain ⟨j, rfl⟩ : ∃ k, j = k + 1 := ⟨j - 1, by omega⟩
  have e1 : (j + 1) * (j + 1 - 1) / 2 = j * (j + 1) / 2 := by rw [Nat.add_sub_cancel, Nat.mul_comm]
  rw [e1]
  have t1 := tri j
  have t2 := tri n
  have : (j + 1) * (j + 2) ≤ n * (n + 1) := Nat.mul_le_mul h3 (by omega)
  have e2 : (j + 1) * (j + 2) = j * (j + 1) + 2 * (j + 1) := by ring
  omega

/-! ### COBYLA -/

/-- The documented size, `src/cobyla.h` and `src/cobyla.c:221`. -/
def cobylaSize (n m : Nat) : Nat := n * (3 * n + 2 * m + 11) + 4 * m + 6

/-- The partition of the workspace, `src/cobyla.c:239-248` and `src/cobyla.c:450-459`, and that of
its last part for `trstlp`, `src/cobyla.c:785-790`: `con`, `sim`, `simi`, `datmat`, `a`, `vsig`, `veta`,
`sigbar`, `dx`, then `z`, `zdota`, `vmc`, `sdirn`, `dxnew`, `vmd`. -/
def cobylaArrays (n m : Nat) : List Arr :=
  let con := 0
  let sim := con + (m + 2)
  let simi := sim + n * (n + 1)
  let datmat := simi + n * n
  let a := datmat + (m + 2) * (n + 1)
  let vsig := a + (m + 1) * n
  let veta := vsig + n
  let sigbar := veta + n
  let dx := sigbar + n
  let w := dx + n
  let z := w
  let zdota := z + n * n
  let vmc := zdota + n
  let sdirn := vmc + (m + 1)
  let dxnew := sdirn + n
  let vmd := dxnew + n
  [⟨con, m + 2, 1⟩, ⟨sim, n, n + 1⟩, ⟨simi, n, n⟩, ⟨datmat, m + 2, n + 1⟩, ⟨a, n, m + 1⟩, ⟨vsig, n, 1⟩, ⟨veta, n, 1⟩,
    ⟨sigbar, n, 1⟩, ⟨dx, n, 1⟩, ⟨z, n, n⟩, ⟨zdota, n, 1⟩, ⟨vmc, m + 1, 1⟩, ⟨sdirn, n, 1⟩, ⟨dxnew, n, 1⟩, ⟨vmd, m + 1, 1⟩]

/-- **C48** for COBYLA: the arrays of COBYLA are in the workspace and do not overlap. -/
theorem cobyla_workspace (n m : Nat) : Separate (cobylaSize n m) (cobylaArrays n m) := by
  apply separate_of_packed
  simp only [cobylaArrays, packed, Arr.size, cobylaSize]
  refine ⟨?_, ?_, ?_, ?_, ?_, ?_, ?_, ?_, ?_, ?_, ?_, ?_, ?_, ?_, ?_, ?_⟩ <;> nlinarith

/-- The size is exactly the one which is used. -/
theorem cobyla_size_tight (n m : Nat) :
    ((cobylaArrays n m).map Arr.size).sum = cobylaSize n m := by
  simp only [cobylaArrays, Arr.size, List.map_cons, List.map_nil, List.sum_cons, List.sum_nil, cobylaSize]
  ring

/-! ### NEWUOA -/

/-- The documented size without scaling, `src/newuoa.h:168-171` and `src/newuoa.c:566`. -/
def newuoaSize (n npt : Nat) : Nat := (npt + 13) * (npt + n) + 3 * n * (n + 3) / 2

/-- The partition of the workspace, `src/newuoa.c:585-597` and `src/newuoa.c:918-930`: `xbase`, `xopt`,
`xnew`, `xpt`, `fval`, `gq`, `hq`, `pq`, `bmat`, `zmat`, `d`, `vlag`, followed by the arrays of `rest w`
and possibly by `xtmp`, `src/newuoa.c:888`. -/
def newuoaArrays (n npt : Nat) (rest : Nat → List Arr) (scaling : Bool) : List Arr :=
  let ndim := npt + n
  let np := n + 1
  let nptm := npt - np
  let xbase := 0
  let xopt := xbase + n
  let xnew := xopt + n
  let xpt := xnew + n
  let fval := xpt + n * npt
  let gq := fval + npt
  let hq := gq + n
  let pq := hq + n * np / 2
  let bmat := pq + npt
  let zmat := bmat + ndim * n
  let d := zmat + npt * nptm
  let vlag := d + n
  let w := vlag + ndim
  let xtmp := newuoaSize n npt
  [⟨xbase, n, 1⟩, ⟨xopt, n, 1⟩, ⟨xnew, n, 1⟩, ⟨xpt, npt, n⟩, ⟨fval, npt, 1⟩, ⟨gq, n, 1⟩, ⟨hq, n * np / 2, 1⟩, ⟨pq, npt, 1⟩,
    ⟨bmat, ndim, n⟩, ⟨zmat, npt, nptm⟩, ⟨d, n, 1⟩, ⟨vlag, ndim, 1⟩] ++ rest w ++ (if scaling then [⟨xtmp, n, 1⟩] else [])

/-- The uses of the last part of the workspace of NEWUOA: by the main routine (`W(1)` to `W(2*npt)`,
`src/newuoa.c:1150-1540`), by `trsapp` (`src/newuoa.c:1121-1122`: `d`, `g`, `hd`, `hs`), by `biglag`
(`src/newuoa.c:1236-1238`: `gd`, `s`, `w`), by `bigden` (`src/newuoa.c:1297-1299`: `w`, `wvec`, `prod`) and by
`update`. -/
inductive NewuoaRest (n npt : Nat) : (Nat → List Arr) → Prop
  | main : NewuoaRest n npt fun w => [⟨w, 2 * npt, 1⟩]
  | trsapp : NewuoaRest n npt fun w => [⟨w, n, 1⟩, ⟨w + (n + 1) - 1, n, 1⟩, ⟨w + (n + 1 + n) - 1, n, 1⟩, ⟨w + (n + 1 + 2 * n) - 1, n, 1⟩]
  | biglag : NewuoaRest n npt fun w => [⟨w, n, 1⟩, ⟨w + (n + 1) - 1, n, 1⟩, ⟨w + (n + 1 + n) - 1, n, 1⟩]
  | bigden : NewuoaRest n npt fun w => [⟨w, npt + n, 1⟩, ⟨w + (npt + n + 1) - 1, npt + n, 5⟩, ⟨w + ((npt + n) * 6 + 1) - 1, npt + n, 5⟩]
  | update : NewuoaRest n npt fun w => [⟨w, npt + n, 1⟩]

theorem half3 (n : Nat) : 2 * (3 * n * (n + 3) / 2) = 3 * n * (n + 3) := by
  have h := tri n
  have : 3 * n * (n + 3) = 2 * (3 * (n * (n + 1) / 2) + 3 * n) := by
    rw [Nat.mul_add 2, ← Nat.mul_assoc 2 3, Nat.mul_comm 2 3, Nat.mul_assoc 3 2, h]; ring
  omega

/-- **C48** for NEWUOA: the arrays are in the workspace and do not overlap. -/
theorem newuoa_workspace {n npt : Nat} (h1 : n + 2 ≤ npt) {rest : Nat → List Arr} (hr : NewuoaRest n npt rest)
    (scaling : Bool) :
    Separate (newuoaSize n npt + if scaling then n else 0) (newuoaArrays n npt rest scaling) := by
  apply separate_of_packed
  obtain ⟨k, rfl⟩ : ∃ k, npt = n + 1 + k := ⟨npt - (n + 1), by omega⟩
  have hk : n + 1 + k - (n + 1) = k := by omega
  have ht := tri n
  have h3 := half3 n
  unfold newuoaArrays newuoaSize
  generalize n * (n + 1) / 2 = t at *
  generalize 3 * n * (n + 3) / 2 = t3 at *
  have e1 : (n + 1 + k + n) * n = n * n * 2 + n * k + n := by ring
  have e2 : (n + 1 + k) * k = n * k + k * k + k := by ring
  have e3 : n * (n + 1 + k) = n * n + n * k + n := by ring
  have e4 : (n + 1 + k) * n = n * n + n * k + n := by ring
  have e5 : (n + 1 + k + 13) * (n + 1 + k + n) = n * n * 2 + n * k * 3 + k * k + n * 29 + k * 15 + 14 := by ring
  have e6 : 3 * n * (n + 3) = n * n * 3 + n * 9 := by ring
  have e7 : n * (n + 1) = n * n + n := by ring
  cases hr <;> cases scaling <;>
    simp only [packed, Arr.size, hk, List.cons_append, List.nil_append, if_true, if_false, Bool.false_eq_true,
      List.append_nil, e1, e2, e3, e4, e5] <;>
    clear e1 e2 e3 e4 e5 <;> (repeat' apply And.intro) <;> first | exact Nat.le_refl _ | omega

/-- The last part of the workspace has exactly `11*ndim` elements (`src/newuoa.c:733` requires `10*ndim`). -/
theorem newuoa_size_tight {n npt : Nat} (h1 : n + 2 ≤ npt) :
    ((newuoaArrays n npt (fun w => [⟨w, 11 * (npt + n), 1⟩]) false).map Arr.size).sum = newuoaSize n npt := by
  obtain ⟨k, rfl⟩ : ∃ k, npt = n + 1 + k := ⟨npt - (n + 1), by omega⟩
  have hk : n + 1 + k - (n + 1) = k := by omega
  have ht := tri n
  have h3 := half3 n
  unfold newuoaArrays newuoaSize
  simp only [Arr.size, hk, List.cons_append, List.nil_append, if_false, Bool.false_eq_true, List.append_nil, List.map_cons,
    List.map_nil, List.sum_cons, List.sum_nil]
  generalize n * (n + 1) / 2 = t at *
  generalize 3 * n * (n + 3) / 2 = t3 at *
  have e1 : (n + 1 + k + n) * n = n * n * 2 + n * k + n := by ring
  have e2 : (n + 1 + k) * k = n * k + k * k + k := by ring
  have e4 : (n + 1 + k) * n = n * n + n * k + n := by ring
  have e5 : (n + 1 + k + 13) * (n + 1 + k + n) = n * n * 2 + n * k * 3 + k * k + n * 29 + k * 15 + 14 := by ring
  have e6 : 3 * n * (n + 3) = n * n * 3 + n * 9 := by ring
  have e7 : n * (n + 1) = n * n + n := by ring
  linarith

/-! ### BOBYQA -/

/-- The documented size without scaling, `src/bobyqa.h:105` and `WORK_SIZE`, `src/bobyqa.c:117`. -/
def bobyqaSize (n npt : Nat) : Nat := (npt + 5) * (npt + n) + 3 * n * (n + 5) / 2

/-- The partition of the workspace, `src/bobyqa.c:413-430`: `xbase`, `xpt`, `fval`, `xopt`, `gopt`, `hq`,
`pq`, `bmat`, `zmat`, `sl`, `su`, `xnew`, `xalt`, `d`, `vlag`, followed by the arrays of `rest w` and possibly
by the storage for the scaled variables and bounds, `src/bobyqa.c:392-394`. -/
def bobyqaArrays (n npt : Nat) (rest : Nat → List Arr) (scaling : Bool) : List Arr :=
  let np := n + 1
  let ndim := npt + n
  let ixb := 0
  let ixp := ixb + n
  let ifv := ixp + n * npt
  let ixo := ifv + npt
  let igo := ixo + n
  let ihq := igo + n
  let ipq := ihq + n * np / 2
  let ibmat := ipq + npt
  let izmat := ibmat + ndim * n
  let isl := izmat + npt * (npt - np)
  let isu := isl + n
  let ixn := isu + n
  let ixa := ixn + n
  let id := ixa + n
  let ivl := id + n
  let iw := ivl + ndim
  let tmpx := bobyqaSize n npt
  let tmpxl := tmpx + n
  let tmpxu := tmpxl + n
  [⟨ixb, n, 1⟩, ⟨ixp, npt, n⟩, ⟨ifv, npt, 1⟩, ⟨ixo, n, 1⟩, ⟨igo, n, 1⟩, ⟨ihq, n * np / 2, 1⟩, ⟨ipq, npt, 1⟩, ⟨ibmat, ndim, n⟩,
    ⟨izmat, npt, npt - np⟩, ⟨isl, n, 1⟩, ⟨isu, n, 1⟩, ⟨ixn, n, 1⟩, ⟨ixa, n, 1⟩, ⟨id, n, 1⟩, ⟨ivl, ndim, 1⟩] ++ rest iw ++
    (if scaling then [⟨tmpx, n, 1⟩, ⟨tmpxl, n, 1⟩, ⟨tmpxu, n, 1⟩] else [])

/-- The uses of the last part of the workspace of BOBYQA: by `bobyqb` itself (up to `w[npt + npt]`), by
`trsbox` (`src/bobyqa.c:699-701`: `gnew`, `xbdi`, `s`, `hs`, `hred`), by `rescue` (`src/bobyqa.c:835-838`:
`ptsaux`, `ptsid` and `w` up to `w[ndim + npt]`), by `altmov` (`src/bobyqa.c:875-877`: `glag`, `hcol` and `w` up
to `w[n + n]`) and by `update`. -/
inductive BobyqaRest (n npt : Nat) : (Nat → List Arr) → Prop
  | main : BobyqaRest n npt fun w => [⟨w, 2 * npt, 1⟩]
  | trsbox : BobyqaRest n npt fun w => [⟨w, n, 1⟩, ⟨w + (n + 1) - 1, n, 1⟩, ⟨w + (n + 1 + n) - 1, n, 1⟩,
      ⟨w + (n + 1 + 2 * n) - 1, n, 1⟩, ⟨w + (n + 1 + n * 3) - 1, n, 1⟩]
  | rescue : BobyqaRest n npt fun w => [⟨w, 2, n⟩, ⟨w + (n + (n + 1)) - 1, npt, 1⟩, ⟨w + (npt + n + (n + 1)) - 1, npt + n + npt, 1⟩]
  | altmov : BobyqaRest n npt fun w => [⟨w, n, 1⟩, ⟨w + (n + 1) - 1, npt, 1⟩, ⟨w + (npt + n + 1) - 1, 2 * n, 1⟩]
  | update : BobyqaRest n npt fun w => [⟨w, npt + n, 1⟩]

theorem half5 (n : Nat) : 2 * (3 * n * (n + 5) / 2) = 3 * n * (n + 5) := by
  have h := tri n
  have : 3 * n * (n + 5) = 2 * (3 * (n * (n + 1) / 2) + 6 * n) := by
    rw [Nat.mul_add 2, ← Nat.mul_assoc 2 3, Nat.mul_comm 2 3, Nat.mul_assoc 3 2, h]; ring
  omega

/-- **C48** for BOBYQA: the arrays are in the workspace and do not overlap. -/
theorem bobyqa_workspace {n npt : Nat} (h1 : n + 2 ≤ npt) {rest : Nat → List Arr} (hr : BobyqaRest n npt rest)
    (scaling : Bool) :
    Separate (bobyqaSize n npt + if scaling then 3 * n else 0) (bobyqaArrays n npt rest scaling) := by
  apply separate_of_packed
  obtain ⟨k, rfl⟩ : ∃ k, npt = n + 1 + k := ⟨npt - (n + 1), by omega⟩
  have hk : n + 1 + k - (n + 1) = k := by omega
  have ht := tri n
  have h3 := half5 n
  unfold bobyqaArrays bobyqaSize
  generalize n * (n + 1) / 2 = t at *
  generalize 3 * n * (n + 5) / 2 = t3 at *
  have e1 : (n + 1 + k + n) * n = n * n * 2 + n * k + n := by ring
  have e2 : (n + 1 + k) * k = n * k + k * k + k := by ring
  have e3 : n * (n + 1 + k) = n * n + n * k + n := by ring
  have e4 : (n + 1 + k) * n = n * n + n * k + n := by ring
  have e5 : (n + 1 + k + 5) * (n + 1 + k + n) = n * n * 2 + n * k * 3 + k * k + n * 13 + k * 7 + 6 := by ring
  have e6 : 3 * n * (n + 5) = n * n * 3 + n * 15 := by ring
  have e7 : n * (n + 1) = n * n + n := by ring
  cases hr <;> cases scaling <;>
    simp only [packed, Arr.size, hk, List.cons_append, List.nil_append, if_true, if_false, Bool.false_eq_true,
      List.append_nil, e1, e2, e3, e4, e5] <;>
    clear e1 e2 e3 e4 e5 <;> (repeat' apply And.intro) <;> first | exact Nat.le_refl _ | omega

/-- The last part of the workspace has exactly `3*ndim` elements. -/
theorem bobyqa_size_tight {n npt : Nat} (h1 : n + 2 ≤ npt) :
    ((bobyqaArrays n npt (fun w => [⟨w, 3 * (npt + n), 1⟩]) false).map Arr.size).sum = bobyqaSize n npt := by
  obtain ⟨k, rfl⟩ : ∃ k, npt = n + 1 + k := ⟨npt - (n + 1), by omega⟩
  have hk : n + 1 + k - (n + 1) = k := by omega
  have ht := tri n
  have h3 := half5 n
  unfold bobyqaArrays bobyqaSize
  simp only [Arr.size, hk, List.cons_append, List.nil_append, if_false, Bool.false_eq_true, List.append_nil, List.map_cons,
    List.map_nil, List.sum_cons, List.sum_nil]
  generalize n * (n + 1) / 2 = t at *
  generalize 3 * n * (n + 5) / 2 = t3 at *
  have e1 : (n + 1 + k + n) * n = n * n * 2 + n * k + n := by ring
  have e2 : (n + 1 + k) * k = n * k + k * k + k := by ring
  have e4 : (n + 1 + k) * n = n * n + n * k + n := by ring
  have e5 : (n + 1 + k + 5) * (n + 1 + k + n) = n * n * 2 + n * k * 3 + k * k + n * 13 + k * 7 + 6 := by ring
  have e6 : 3 * n * (n + 5) = n * n * 3 + n * 15 := by ring
  have e7 : n * (n + 1) = n * n + n := by ring
  linarith

/-! ### Examples -/

/-- The hypotheses can be met: two variables, five interpolation conditions, with scaling. -/
example : Separate 143 (newuoaArrays 2 5 (fun w => [⟨w, 7, 1⟩, ⟨w + 8 - 1, 7, 5⟩, ⟨w + 43 - 1, 7, 5⟩]) true) :=
  newuoa_workspace (n := 2) (npt := 5) (by norm_num) NewuoaRest.bigden true

example : Separate 97 (bobyqaArrays 2 5 (fun w => [⟨w, 2, 2⟩, ⟨w + 5 - 1, 5, 1⟩, ⟨w + 10 - 1, 12, 1⟩]) true) :=
  bobyqa_workspace (n := 2) (npt := 5) (by norm_num) BobyqaRest.rescue true

example : Separate 48 (cobylaArrays 2 1) := cobyla_workspace 2 1

/-- With one element less in the workspace, the last element of `prod` is outside. -/
example : ¬ Separate 140 (newuoaArrays 2 5 (fun w => [⟨w, 7, 1⟩, ⟨w + 8 - 1, 7, 5⟩, ⟨w + 43 - 1, 7, 5⟩]) false) := by
  intro h
  have h1 := (h 14 (by decide) 7 5 (by unfold Arr.Valid; decide)).2.1
  revert h1
  decide

/-- Arrays which overlap are not separate: `sim` with `n*n` elements only, followed by `simi`. -/
example : ¬ Separate 100 [⟨0, 2, 3⟩, ⟨4, 2, 2⟩] := by
  intro h
  have h1 := (h 0 (by decide) 1 3 (by unfold Arr.Valid; decide)).2.2 1 (by decide) 1 1 (by unfold Arr.Valid; decide) (by decide)
  exact absurd h1.1 (by decide)

end Opk.Powell
