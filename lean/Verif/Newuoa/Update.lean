import Verif.Newuoa.Ends
import Verif.Powell.Change

/-!
# Model of `update` of NEWUOA

In exact arithmetic, when the leading part of the inverse matrix is `ZMAT ZMAT^T` (`IDZ` is 1), `update` computes the inverse of the
matrix of the new points.
-/
namespace Opk.Newuoa
open Linalg CMath Cobyla

section
variable {F : Type} [Add F] [_root_.Sub F] [Mul F] [Div F] [Neg F] [Zero F] [One F] [DecidableEq F]
variable [LT F] [LE F] [DecidableLT F] [DecidableLE F] [CMath F]

/-- One rotation of the columns `jl` and `j`, `src/newuoa.c:2673-2683`. -/
def rotate (knew jl j : Nat) (z : Nat → Nat → F) : Nat → Nat → F :=
  let temp := sqrt (z knew jl * z knew jl + z knew j * z knew j)
  let tempa := z knew jl / temp
  let tempb := z knew j / temp
  fun i c =>
    if c = j then (if i = knew then 0 else tempa * z i j - tempb * z i jl)
    else if c = jl then tempa * z i jl + tempb * z i j else z i c

/-- The rotations that put zeros in the row `KNEW`, `src/newuoa.c:2667-2685`; the loop begins with `j = 2`. -/
def rotations (nptm knew idz : Nat) (z : Nat → Nat → F) : Nat × (Nat → Nat → F) :=
  up nptm (fun j (t : Nat × (Nat → Nat → F)) =>
    if j < 2 then t
    else if j = idz then (idz, t.2)
    else if t.2 knew j ≠ 0 then (t.1, rotate knew t.1 j t.2) else t) (1, z)

/-- The first `NPT` elements of the column `KNEW` of `HLAG`, `src/newuoa.c:2687-2701`. -/
def hcol (knew idz jl : Nat) (z : Nat → Nat → F) : Nat → F :=
  let tempa := if idz ≥ 2 then -z knew 1 else z knew 1
  fun i => if jl > 1 then tempa * z i 1 + z knew jl * z i jl else tempa * z i 1

/-- The new `ZMAT` and `IDZ` when the row `KNEW` has one nonzero element, and whether the first column is to be exchanged,
`src/newuoa.c:2711-2725`. -/
def single (knew idz : Nat) (tau denom : F) (vlag : Nat → F) (z : Nat → Nat → F) : (Nat → Nat → F) × Nat × Bool :=
  let tempa := if idz ≥ 2 then -z knew 1 else z knew 1
  let temp := sqrt (fabs denom)
  let tempb := tempa / temp
  let tempa := tau / temp
  let z := fun i c => if c = 1 then tempa * z i 1 - tempb * vlag i else z i c
  let idz := if idz = 1 ∧ temp < 0 then 2 else idz
  (z, idz, decide (idz ≥ 2 ∧ temp ≥ 0))

/-- The alternative case, `src/newuoa.c:2726-2748`. -/
def double (knew idz jl : Nat) (beta tau denom : F) (vlag w : Nat → F) (z : Nat → Nat → F) : (Nat → Nat → F) × Nat × Bool :=
  let ja := if beta ≥ 0 then jl else 1
  let jb := jl + 1 - ja
  let temp := z knew jb / denom
  let tempa := temp * beta
  let tempb := temp * tau
  let temp := z knew ja
  let scala := 1 / sqrt (fabs beta * temp * temp + tau * tau)
  let scalb := scala * sqrt (fabs denom)
  let z' := fun i c =>
    if c = ja then scala * (tau * z i ja - temp * vlag i)
    else if c = jb then scalb * (z i jb - tempa * w i - tempb * vlag i) else z i c
  if denom ≤ 0 then (z', if beta < 0 then idz + 1 else idz, decide (beta ≥ 0)) else (z', idz, false)

/-- The columns 1 and `IDZ` are exchanged, `src/newuoa.c:2750-2759`. -/
def exchange (t : (Nat → Nat → F) × Nat × Bool) : (Nat → Nat → F) × Nat :=
  if t.2.2 then
    let idz := t.2.1 - 1
    (fun i c => if c = 1 then t.1 i idz else if c = idz then t.1 i 1 else t.1 i c, idz)
  else (t.1, t.2.1)

/-- The new `BMAT` and `W`, `src/newuoa.c:2761-2773`. -/
def updateB (n npt knew : Nat) (alpha beta tau denom : F) (vlag w : Nat → F) (bmat : Nat → Nat → F) : (Nat → Nat → F) × (Nat → F) :=
  up n (fun j (t : (Nat → Nat → F) × (Nat → F)) =>
    let jp := npt + j
    let w := set1 t.2 jp (t.1 knew j)
    let tempa := (alpha * vlag jp - tau * w jp) / denom
    let tempb := (-beta * w jp - tau * vlag jp) / denom
    let b := fun i c => if c = j ∧ i ≤ jp then t.1 i c + tempa * vlag i + tempb * w i else t.1 i c
    (fun i c => if i = jp ∧ 1 ≤ c ∧ c ≤ j then b (npt + c) j else b i c, w)) (bmat, w)

/-- `update`, `src/newuoa.c:2643-2775`. -/
def update (p : Par F) (s : St F) : (Nat → Nat → F) × (Nat → Nat → F) × Nat × (Nat → F) × (Nat → F) :=
  let knew := s.knew.toNat
  let r := rotations p.nptm knew s.idz s.zmat
  let w := fun i => if i ≤ p.npt then hcol knew s.idz r.1 r.2 i else s.w i
  let alpha := w knew
  let tau := s.vlag knew
  let denom := alpha * s.beta + tau * tau
  let vlag := set1 s.vlag knew (s.vlag knew - 1)
  let t := exchange (if r.1 = 1 then single knew s.idz tau denom vlag r.2 else double knew s.idz r.1 s.beta tau denom vlag w r.2)
  let b := updateB p.n p.npt knew alpha s.beta tau denom vlag w s.bmat
  (b.1, t.1, t.2, vlag, b.2)

end

set_option linter.unusedSectionVars false

section
variable {K : Type} [Field K] [LinearOrder K] [IsStrictOrderedRing K] [CMath K] [ExactMath K]

/-- The leading part of the inverse matrix when `IDZ` is 1. -/
def omega (m : Nat) (z : Nat → Nat → K) (i j : Nat) : K := ∑ k ∈ Finset.Icc 1 m, z i k * z j k

theorem omega_sym (m : Nat) (z : Nat → Nat → K) (i j : Nat) : omega m z i j = omega m z j i :=
  Finset.sum_congr rfl fun _ _ => mul_comm _ _

theorem rotate_omega (hsqrt : ∀ a : K, 0 ≤ a → 0 ≤ CMath.sqrt a ∧ CMath.sqrt a * CMath.sqrt a = a) {m knew j : Nat} (h1 : 2 ≤ j) (h2 : j ≤ m)
    (z : Nat → Nat → K) (hz : z knew j ≠ 0) (a b : Nat) : omega m (rotate knew 1 j z) a b = omega m z a b := by
  have pos : 0 < z knew 1 * z knew 1 + z knew j * z knew j := by
    have := mul_self_nonneg (z knew 1)
    have := mul_self_pos.mpr hz
    linarith
  obtain ⟨q1, q2⟩ := hsqrt _ pos.le
  have q0 : CMath.sqrt (z knew 1 * z knew 1 + z knew j * z knew j) ≠ 0 := by
    intro e; rw [e, zero_mul] at q2; linarith
  have ent : ∀ i, rotate knew 1 j z i j = z knew 1 / CMath.sqrt (z knew 1 * z knew 1 + z knew j * z knew j) * z i j
      - z knew j / CMath.sqrt (z knew 1 * z knew 1 + z knew j * z knew j) * z i 1 := by
    intro i
    unfold rotate
    rw [if_pos rfl]
    by_cases c : i = knew
    · rw [if_pos c, c]; ring
    · rw [if_neg c]
  have en1 : ∀ i, rotate knew 1 j z i 1 = z knew 1 / CMath.sqrt (z knew 1 * z knew 1 + z knew j * z knew j) * z i 1
      + z knew j / CMath.sqrt (z knew 1 * z knew 1 + z knew j * z knew j) * z i j := by
    intro i
    unfold rotate
    rw [if_neg (by omega), if_pos rfl]
  have en : ∀ i c, c ≠ 1 → c ≠ j → rotate knew 1 j z i c = z i c := by
    intro i c h h'
    unfold rotate
    rw [if_neg h', if_neg h]
  generalize CMath.sqrt (z knew 1 * z knew 1 + z knew j * z knew j) = q at *
  unfold omega
  have m1 : 1 ∈ Finset.Icc 1 m := Finset.mem_Icc.mpr ⟨le_refl _, by omega⟩
  have mj : j ∈ (Finset.Icc 1 m).erase 1 := Finset.mem_erase.mpr ⟨by omega, Finset.mem_Icc.mpr ⟨by omega, h2⟩⟩
  rw [← Finset.add_sum_erase _ _ m1, ← Finset.add_sum_erase _ _ mj, ← Finset.add_sum_erase (Finset.Icc 1 m) (fun k => z a k * z b k) m1, ← Finset.add_sum_erase _ (fun k => z a k * z b k) mj]
  rw [ent, ent, en1, en1, Finset.sum_congr rfl (fun k hk => by
    have k1 := Finset.ne_of_mem_erase hk
    have k2 := Finset.ne_of_mem_erase (Finset.mem_of_mem_erase hk)
    rw [en a k k2 k1, en b k k2 k1])]
  generalize ∑ k ∈ ((Finset.Icc 1 m).erase 1).erase j, z a k * z b k = rest
  have one : z knew 1 / q * (z knew 1 / q) + z knew j / q * (z knew j / q) = 1 := by
    field_simp
    linear_combination -q2
  generalize z knew 1 / q = u at *
  generalize z knew j / q = v at *
  linear_combination (z a 1 * z b 1 + z a j * z b j) * one

/-- The rotations keep the matrix and put zeros in the row. -/
theorem rotations_spec (hsqrt : ∀ a : K, 0 ≤ a → 0 ≤ CMath.sqrt a ∧ CMath.sqrt a * CMath.sqrt a = a) (m knew : Nat) (z : Nat → Nat → K) :
    (rotations m knew 1 z).1 = 1 ∧ (∀ a b, omega m (rotations m knew 1 z).2 a b = omega m z a b) ∧
    (∀ j, 2 ≤ j → j ≤ m → (rotations m knew 1 z).2 knew j = 0) := by
  unfold rotations
  have := up_inv (fun k (t : Nat × (Nat → Nat → K)) => t.1 = 1 ∧ (∀ a b, omega m t.2 a b = omega m z a b) ∧
      (∀ j, 2 ≤ j → j ≤ k → t.2 knew j = 0)) m
    (body := fun j (t : Nat × (Nat → Nat → K)) =>
      if j < 2 then t else if j = 1 then (1, t.2) else if t.2 knew j ≠ 0 then (t.1, rotate knew t.1 j t.2) else t) (s := (1, z))
    ⟨rfl, fun _ _ => rfl, fun j j1 j2 => by omega⟩ (by
      rintro k hk ⟨l, y⟩ ⟨q1, q2, q3⟩
      obtain rfl : l = 1 := q1
      dsimp only at q2 q3 ⊢
      by_cases c1 : k + 1 < 2
      · rw [if_pos c1]
        exact ⟨rfl, q2, fun j j1 j2 => by omega⟩
      rw [if_neg c1, if_neg (by omega)]
      by_cases c2 : y knew (k + 1) ≠ 0
      · rw [if_pos c2]
        refine ⟨rfl, fun a b => ?_, fun j j1 j2 => ?_⟩
        · dsimp only
          rw [rotate_omega hsqrt (by omega) (by omega) y c2, q2]
        · unfold rotate
          dsimp only
          by_cases e : j = k + 1
          · rw [if_pos e, if_pos rfl]
          · rw [if_neg e, if_neg (by omega), q3 j j1 (by omega)]
      · rw [if_neg c2]
        refine ⟨rfl, q2, fun j j1 j2 => ?_⟩
        by_cases e : j = k + 1
        · rw [e]; exact not_not.mp c2
        · exact q3 j j1 (by omega))
  exact this

/-- The elements of `BMAT` after the update. -/
theorem updateB_spec (n npt knew : Nat) (hk : knew ≤ npt) (alpha beta tau denom : K) (vlag w : Nat → K) (bmat : Nat → Nat → K) :
    let b := (updateB n npt knew alpha beta tau denom vlag w bmat).1
    let v := fun i => if i ≤ npt then w i else bmat knew (i - npt)
    let e := fun i j => (alpha * vlag (npt + j) - tau * v (npt + j)) / denom * vlag i + (-beta * v (npt + j) - tau * vlag (npt + j)) / denom * v i
    (∀ i j, i ≤ npt → 1 ≤ j → j ≤ n → b i j = bmat i j + e i j) ∧
    (∀ i j, 1 ≤ i → i ≤ j → j ≤ n → b (npt + i) j = bmat (npt + i) j + e (npt + i) j ∧ b (npt + j) i = bmat (npt + i) j + e (npt + i) j) := by
  intro b v e
  have := up_inv (fun k (t : (Nat → Nat → K) × (Nat → K)) =>
      (∀ i j, i ≤ npt → 1 ≤ j → t.1 i j = if j ≤ k then bmat i j + e i j else bmat i j) ∧
      (∀ i j, 1 ≤ i → i ≤ j → t.1 (npt + i) j = if j ≤ k then bmat (npt + i) j + e (npt + i) j else bmat (npt + i) j) ∧
      (∀ i j, 1 ≤ i → i ≤ j → j ≤ k → t.1 (npt + j) i = bmat (npt + i) j + e (npt + i) j) ∧
      (∀ i, i ≤ npt + k → t.2 i = v i)) n
    (body := fun j (t : (Nat → Nat → K) × (Nat → K)) =>
      let jp := npt + j
      let w := set1 t.2 jp (t.1 knew j)
      let tempa := (alpha * vlag jp - tau * w jp) / denom
      let tempb := (-beta * w jp - tau * vlag jp) / denom
      let b := fun i c => if c = j ∧ i ≤ jp then t.1 i c + tempa * vlag i + tempb * w i else t.1 i c
      (fun i c => if i = jp ∧ 1 ≤ c ∧ c ≤ j then b (npt + c) j else b i c, w)) (s := (bmat, w))
    ⟨fun i j _ j1 => by rw [if_neg (by omega)], fun i j i1 ij => by rw [if_neg (by omega)], fun i j i1 ij j2 => by omega,
      fun i hi => by dsimp only [v]; rw [if_pos (by omega)]⟩ (by
      rintro k hkn ⟨y, u⟩ ⟨q1, q2, q3, q4⟩
      dsimp only at q1 q2 q3 q4 ⊢
      have uu : ∀ i, i ≤ npt + (k + 1) → set1 u (npt + (k + 1)) (y knew (k + 1)) i = v i := by
        intro i hi
        unfold set1
        by_cases c : i = npt + (k + 1)
        · rw [if_pos c, q1 knew (k + 1) hk (by omega), if_neg (by omega)]
          dsimp only [v]
          rw [if_neg (by omega), c, Nat.add_sub_cancel_left]
        · rw [if_neg c]; exact q4 i (by omega)
      have ee : ∀ i, i ≤ npt + (k + 1) → ∀ x : K, x + (alpha * vlag (npt + (k + 1)) - tau * set1 u (npt + (k + 1)) (y knew (k + 1)) (npt + (k + 1))) / denom * vlag i
          + (-beta * set1 u (npt + (k + 1)) (y knew (k + 1)) (npt + (k + 1)) - tau * vlag (npt + (k + 1))) / denom * set1 u (npt + (k + 1)) (y knew (k + 1)) i = x + e i (k + 1) := by
        intro i hi x
        rw [uu i hi, uu _ (le_refl _)]
        dsimp only [e]
        ring
      refine ⟨fun i j hi j1 => ?_, fun i j i1 ij => ?_, fun i j i1 ij jk => ?_, uu⟩
      · rw [if_neg (by omega)]
        by_cases c : j = k + 1
        · rw [if_pos ⟨c, by omega⟩, c, ee i (by omega), q1 i (k + 1) hi (by omega), if_neg (by omega), if_pos (le_refl _)]
        · rw [if_neg (by omega), q1 i j hi j1]
          by_cases d : j ≤ k
          · rw [if_pos d, if_pos (by omega)]
          · rw [if_neg d, if_neg (by omega)]
      · by_cases c : j = k + 1
        · subst c
          rw [if_pos (le_refl _)]
          by_cases d : i = k + 1
          · subst d
            rw [if_pos ⟨rfl, by omega, le_refl _⟩, if_pos ⟨rfl, le_refl _⟩, ee _ (le_refl _), q2 (k + 1) (k + 1) i1 ij, if_neg (by omega)]
          · rw [if_neg (by omega), if_pos ⟨rfl, by omega⟩, ee _ (by omega), q2 i (k + 1) i1 ij, if_neg (by omega)]
        · rw [if_neg (by omega), if_neg (by omega), q2 i j i1 ij]
          by_cases d : j ≤ k
          · rw [if_pos d, if_pos (by omega)]
          · rw [if_neg d, if_neg (by omega)]
      · by_cases c : j = k + 1
        · subst c
          rw [if_pos ⟨rfl, i1, ij⟩, if_pos ⟨rfl, by omega⟩, ee _ (by omega), q2 i (k + 1) i1 ij, if_neg (by omega)]
        · rw [if_neg (by omega), if_neg (by omega)]
          exact q3 i j i1 ij (by omega))
  obtain ⟨p1, p2, p3, -⟩ := this
  refine ⟨fun i j hi j1 j2 => ?_, fun i j i1 ij j2 => ⟨?_, p3 i j i1 ij j2⟩⟩
  · exact (p1 i j hi j1).trans (if_pos j2)
  · exact (p2 i j i1 ij).trans (if_pos j2)

open Powell in
/-- `update` computes the inverse matrix of the new points. -/
theorem update_good (hsqrt : ∀ a : K, 0 ≤ a → 0 ≤ CMath.sqrt a ∧ CMath.sqrt a * CMath.sqrt a = a) {p : Par K} (hm : 1 ≤ p.nptm) {s : St K} (hid : s.idz = 1)
    {c : Nat → K} (h : Good p.n p.npt s.xpt (omega p.nptm s.zmat) s.bmat c) {t : Nat} (ht : s.knew.toNat = t) (t1 : 1 ≤ t) (t2 : t ≤ p.npt) {x : Nat → K}
    (hv : ∀ i, 1 ≤ i → i ≤ p.npt + p.n → s.vlag i = ∑ k ∈ Idx p.n p.npt, Hm p.npt c (omega p.nptm s.zmat) s.bmat i k * col p.n p.npt s.xpt x k)
    (hb : s.beta = dot p.n x x * dot p.n x x / 2 - ∑ i ∈ Idx p.n p.npt, col p.n p.npt s.xpt x i *
      ∑ k ∈ Idx p.n p.npt, Hm p.npt c (omega p.nptm s.zmat) s.bmat i k * col p.n p.npt s.xpt x k)
    (hs : 0 < omega p.nptm s.zmat t t * s.beta + s.vlag t * s.vlag t) :
    (update p s).2.2.1 = 1 ∧
    ∃ c', Good p.n p.npt (fun a i => if a = t then x i else s.xpt a i) (omega p.nptm (update p s).2.1) (update p s).1 c' := by
  obtain ⟨r1, r2, r3⟩ := rotations_spec hsqrt p.nptm t s.zmat
  have hz : (update p s).2.1 = (exchange (single t 1 (s.vlag t) ((rotations p.nptm t 1 s.zmat).2 t 1 * (rotations p.nptm t 1 s.zmat).2 t 1 * s.beta + s.vlag t * s.vlag t)
      (set1 s.vlag t (s.vlag t - 1)) (rotations p.nptm t 1 s.zmat).2)).1 ∧
      (update p s).2.2.1 = (exchange (single t 1 (s.vlag t) ((rotations p.nptm t 1 s.zmat).2 t 1 * (rotations p.nptm t 1 s.zmat).2 t 1 * s.beta + s.vlag t * s.vlag t)
      (set1 s.vlag t (s.vlag t - 1)) (rotations p.nptm t 1 s.zmat).2)).2 ∧
      (update p s).1 = (updateB p.n p.npt t ((rotations p.nptm t 1 s.zmat).2 t 1 * (rotations p.nptm t 1 s.zmat).2 t 1) s.beta (s.vlag t)
        ((rotations p.nptm t 1 s.zmat).2 t 1 * (rotations p.nptm t 1 s.zmat).2 t 1 * s.beta + s.vlag t * s.vlag t) (set1 s.vlag t (s.vlag t - 1))
        (fun i => if i ≤ p.npt then (rotations p.nptm t 1 s.zmat).2 t 1 * (rotations p.nptm t 1 s.zmat).2 i 1 else s.w i) s.bmat).1 := by
    unfold update hcol
    dsimp only
    rw [ht, hid, r1]
    simp only [if_pos t2, if_true, lt_irrefl, if_false, show ¬(1 ≥ 2) by omega]
    exact ⟨trivial, trivial, trivial⟩
  obtain ⟨z1, z2, z3⟩ := hz
  generalize (rotations p.nptm t 1 s.zmat).2 = y at *
  have om1 : ∀ i, omega p.nptm s.zmat i t = y i 1 * y t 1 := by
    intro i
    rw [← r2]
    unfold omega
    rw [Finset.sum_eq_single 1]
    · intro b hb hb1
      rw [Finset.mem_Icc] at hb
      rw [r3 b (by omega) hb.2, mul_zero]
    · intro q; exact absurd (Finset.mem_Icc.mpr ⟨le_refl _, hm⟩) q
  have al : y t 1 * y t 1 = omega p.nptm s.zmat t t := (om1 t).symm
  rw [al] at z1 z2 z3
  generalize hsi : omega p.nptm s.zmat t t * s.beta + s.vlag t * s.vlag t = si at *
  obtain ⟨q1, q2⟩ := hsqrt si hs.le
  have q0 : 0 < CMath.sqrt si := lt_of_le_of_ne q1 fun e => by rw [← e, zero_mul] at q2; linarith
  have sg : single t 1 (s.vlag t) si (set1 s.vlag t (s.vlag t - 1)) y
      = (fun i c => if c = 1 then s.vlag t / CMath.sqrt si * y i 1 - y t 1 / CMath.sqrt si * set1 s.vlag t (s.vlag t - 1) i else y i c, 1, false) := by
    unfold single
    simp only [ExactMath.fabs_eq, abs_of_pos hs, show ¬(1 ≥ 2) by omega, if_false, not_lt.mpr q1, and_false, false_and, decide_false]
  rw [sg] at z1 z2
  unfold exchange at z1 z2
  simp only [Bool.false_eq_true, if_false] at z1 z2
  refine ⟨z2, ?_⟩
  rw [z1, z3]
  -- the vector `e_t - H w`
  have ha : ∀ i, 1 ≤ i → i ≤ p.npt + p.n → -set1 s.vlag t (s.vlag t - 1) i = (if t = i then 1 else 0) - s.vlag i := by
    intro i _ _
    unfold set1
    by_cases q : i = t
    · rw [if_pos q, if_pos q.symm, q]; ring
    · rw [if_neg q, if_neg (Ne.symm q)]; ring
  obtain ⟨b1, b2⟩ := updateB_spec p.n p.npt t t2 (omega p.nptm s.zmat t t) s.beta (s.vlag t) si (set1 s.vlag t (s.vlag t - 1))
    (fun i => if i ≤ p.npt then y t 1 * y i 1 else s.w i) s.bmat
  generalize (updateB p.n p.npt t (omega p.nptm s.zmat t t) s.beta (s.vlag t) si (set1 s.vlag t (s.vlag t - 1))
    (fun i => if i ≤ p.npt then y t 1 * y i 1 else s.w i) s.bmat).1 = bm at *
  generalize hvl : set1 s.vlag t (s.vlag t - 1) = vl at *
  have low : ∀ i j, 1 ≤ i → i ≤ j → j ≤ p.n →
      bm (p.npt + i) j = s.bmat (p.npt + i) j + (omega p.nptm s.zmat t t * (-vl (p.npt + i) * -vl (p.npt + j)) - s.beta * (s.bmat t i * s.bmat t j)
        + s.vlag t * (s.bmat t i * -vl (p.npt + j) + -vl (p.npt + i) * s.bmat t j)) / si ∧ bm (p.npt + j) i = bm (p.npt + i) j := by
    intro i j i1 ij j2
    obtain ⟨e1, e2⟩ := b2 i j i1 ij j2
    refine ⟨?_, e2.trans e1.symm⟩
    rw [e1]
    simp only [show ¬(p.npt + i ≤ p.npt) by omega, show ¬(p.npt + j ≤ p.npt) by omega, if_false, Nat.add_sub_cancel_left]
    ring
  refine Good.update h t1 t2 (x := x) (v := fun i => if i = 0 then ∑ k ∈ Idx p.n p.npt, Hm p.npt c (omega p.nptm s.zmat) s.bmat 0 k * col p.n p.npt s.xpt x k else s.vlag i)
    ?_ (al := omega p.nptm s.zmat t t) (be := s.beta) (ta := s.vlag t) (si := si) ?_ ?_ rfl hsi.symm hs.ne' (a := fun i => -vl i) ?_ ?_ ?_ ?_ ?_ ?_
  · intro i hi
    rw [Idx, Finset.mem_range] at hi
    by_cases q : i = 0
    · rw [if_pos q, q]
    · rw [if_neg q]; exact hv i (by omega) (by omega)
  · rw [hb]
    congr 1
    refine Finset.sum_congr rfl fun i hi => ?_
    rw [Idx, Finset.mem_range] at hi
    by_cases q : i = 0
    · rw [if_pos q, q]
    · rw [if_neg q, hv i (by omega) (by omega)]
  · rw [if_neg (by omega)]
  · intro k
    by_cases q : k = t
    · rw [if_pos q]; funext i; rw [if_pos q]
    · rw [if_neg q]; funext i; rw [if_neg q]
  · intro i i1 i2
    rw [if_neg (show ¬(i = 0) by omega)]
    exact ha i i1 i2
  · exact omega_sym _ _
  · intro i j i1 i2 j1 j2
    rw [om1 i, om1 j, ← r2 i j]
    unfold omega
    have m1 : 1 ∈ Finset.Icc 1 p.nptm := Finset.mem_Icc.mpr ⟨le_refl _, hm⟩
    rw [← Finset.add_sum_erase _ _ m1, ← Finset.add_sum_erase _ (fun k => y i k * y j k) m1]
    dsimp only
    rw [if_pos rfl, if_pos rfl, Finset.sum_congr rfl (fun k hk => by rw [if_neg (Finset.ne_of_mem_erase hk), if_neg (Finset.ne_of_mem_erase hk)])]
    generalize ∑ k ∈ (Finset.Icc 1 p.nptm).erase 1, y i k * y j k = rest
    have e : ∑ k ∈ Finset.Icc 1 p.nptm, s.zmat t k * s.zmat t k = y t 1 * y t 1 := al.symm
    rw [e]
    have hsi' : y t 1 * y t 1 * s.beta + s.vlag t * s.vlag t = si := by rw [← hsi, al]
    have d1 : ∀ a b : K, a / CMath.sqrt si * (b / CMath.sqrt si) = a * b / si := by
      intro a b; rw [div_mul_div_comm, q2]
    have one : (y t 1 * y t 1 * s.beta + s.vlag t * s.vlag t) / si = 1 := by rw [hsi', div_self hs.ne']
    have ex : (s.vlag t / CMath.sqrt si * y i 1 - y t 1 / CMath.sqrt si * vl i) * (s.vlag t / CMath.sqrt si * y j 1 - y t 1 / CMath.sqrt si * vl j)
        = (s.vlag t / CMath.sqrt si * (s.vlag t / CMath.sqrt si)) * (y i 1 * y j 1) - (s.vlag t / CMath.sqrt si * (y t 1 / CMath.sqrt si)) * (y i 1 * vl j + vl i * y j 1)
          + (y t 1 / CMath.sqrt si * (y t 1 / CMath.sqrt si)) * (vl i * vl j) := by ring
    rw [ex, d1, d1, d1]
    linear_combination (y i 1 * y j 1) * one
  · intro i j i1 i2 j1 j2
    rw [b1 i j i2 j1 j2]
    simp only [show ¬(p.npt + j ≤ p.npt) by omega, if_false, Nat.add_sub_cancel_left, if_pos i2]
    rw [om1 i]
    ring
  · intro i j i1 i2 j1 j2
    by_cases q : i ≤ j
    · exact (low i j i1 q j2).1
    · obtain ⟨e1, e2⟩ := low j i j1 (by omega) i2
      rw [e2, e1, h.bsym j i j1 j2 i1 i2]
      ring

end
end Opk.Newuoa
