import Verif.Bobyqa.Returned
import Verif.Newuoa.Begin
import Verif.Powell.Axes

/-!
# The first points and the first model of BOBYQA, in exact arithmetic
-/
set_option linter.unusedSectionVars false
namespace Opk.Bobyqa
open Linalg CMath Cobyla Powell
open Newuoa (omega hform qval hform_one hform_two dot_del dot_addr hform_congr)

section
variable {K : Type} [Field K] [LinearOrder K] [IsStrictOrderedRing K] [CMath K] [ExactMath K]

/-- The sizes and the radii as parameters of NEWUOA. -/
def Par.nw (p : Par K) : Newuoa.Par K := ⟨p.n, p.npt, p.rhobeg, p.rhoend, p.maxfun⟩

theorem prelimPair_eq (p : Par K) (nf : Nat) : prelimPair p nf = Newuoa.pair p.nw nf := rfl

theorem nptm_eq {p : Par K} (h : Newuoa.Valid p.nw) : p.npt = p.nptm + p.n + 1 := h.nptm

/-- The arrays after the first `m` points: `x` for `XPT`, `v` for `FVAL`, `z` for `ZMAT`, `b` for `BMAT`, `g` for `GOPT` and `h` for `HQ`.
The positions of the points on the axis `l` are `x (1 + l) l` and `x (1 + n + l) l`. -/
structure Arr (p : Par K) (su : Nat → K) (m : Nat) (x : Nat → Nat → K) (v g : Nat → K) (z b h : Nat → Nat → K) : Prop where
  x0 : ∀ k j, m < k → x k j = 0
  x1 : ∀ j, x 1 j = 0
  xa : ∀ l j, 1 ≤ l → l ≤ p.n → j ≠ l → x (1 + l) j = 0
  xb : ∀ l j, 1 ≤ l → l ≤ p.n → j ≠ l → x (1 + p.n + l) j = 0
  a0 : ∀ l, 1 ≤ l → l ≤ p.n → 1 + l ≤ m → m < 1 + p.n + l → x (1 + l) l = if su l = 0 then -p.rhobeg else p.rhobeg
  aa : ∀ l, 1 ≤ l → l ≤ p.n → 1 + l ≤ m → x (1 + l) l * x (1 + l) l = p.rhobeg * p.rhobeg
  bb : ∀ l, 1 ≤ l → l ≤ p.n → 1 + p.n + l ≤ m → x (1 + p.n + l) l = -x (1 + l) l ∨ x (1 + p.n + l) l = 2 * x (1 + l) l
  xc : ∀ l j, p.n < l → 1 + p.n + l ≤ m → x (1 + p.n + l) j = x (1 + (prelimPair p (1 + p.n + l)).1) j + x (1 + (prelimPair p (1 + p.n + l)).2) j
  z0 : ∀ k l, 1 ≤ l → m < 1 + p.n + l → z k l = 0
  z1 : ∀ k l, 1 ≤ l → l ≤ p.n → 1 + p.n + l ≤ m → z k l = sqrt (lit 2 1) * (del k 1 / (x (1 + l) l * x (1 + p.n + l) l)
    + del k (1 + l) / (x (1 + l) l * (x (1 + l) l - x (1 + p.n + l) l)) - del k (1 + p.n + l) / (x (1 + p.n + l) l * (x (1 + l) l - x (1 + p.n + l) l)))
  z2 : ∀ k l, p.n < l → 1 + p.n + l ≤ m → z k l = 1 / (p.rhobeg * p.rhobeg) *
    (del k 1 + del k (1 + p.n + l) - del k (1 + (prelimPair p (1 + p.n + l)).1) - del k (1 + (prelimPair p (1 + p.n + l)).2))
  b0 : ∀ k l, 1 ≤ l → l ≤ p.n → l ≤ p.nptm → m < 1 + p.n + l → b k l = 0
  b0' : ∀ k l, 1 ≤ l → l ≤ p.n → p.nptm < l → m < 1 + l → b k l = 0
  b1 : ∀ k l, 1 ≤ l → l ≤ p.n → l ≤ p.nptm → 1 + p.n + l ≤ m → b k l = -((x (1 + l) l + x (1 + p.n + l) l) / (x (1 + l) l * x (1 + p.n + l) l)) * del k 1
    - x (1 + p.n + l) l / (x (1 + l) l * (x (1 + l) l - x (1 + p.n + l) l)) * del k (1 + l) + x (1 + l) l / (x (1 + p.n + l) l * (x (1 + l) l - x (1 + p.n + l) l)) * del k (1 + p.n + l)
  b2 : ∀ k l, 1 ≤ l → l ≤ p.n → p.nptm < l → 1 + l ≤ m →
    b k l = 1 / x (1 + l) l * (del k (1 + l) - del k 1) - x (1 + l) l * x (1 + l) l / 2 * del k (p.npt + l)
  q0 : ∀ l, 1 ≤ l → l ≤ p.n → m < 1 + p.n + l → h l l = 0
  q1 : ∀ l, 1 ≤ l → l ≤ p.n → 1 + l ≤ m → x (1 + l) l * g l + 1 / 2 * h l l * (x (1 + l) l * x (1 + l) l) = v (1 + l) - v 1
  q2 : ∀ l, 1 ≤ l → l ≤ p.n → 1 + p.n + l ≤ m → x (1 + p.n + l) l * g l + 1 / 2 * h l l * (x (1 + p.n + l) l * x (1 + p.n + l) l) = v (1 + p.n + l) - v 1
  q3 : ∀ l, p.n < l → 1 + p.n + l ≤ m → h (prelimPair p (1 + p.n + l)).2 (prelimPair p (1 + p.n + l)).1 *
      (x (1 + (prelimPair p (1 + p.n + l)).1) (prelimPair p (1 + p.n + l)).1 * x (1 + (prelimPair p (1 + p.n + l)).2) (prelimPair p (1 + p.n + l)).2) =
    v 1 - v (1 + (prelimPair p (1 + p.n + l)).1) - v (1 + (prelimPair p (1 + p.n + l)).2) + v (1 + p.n + l)
  q4 : ∀ i j, j < i → (∀ l, p.n < l → 1 + p.n + l ≤ m → prelimPair p (1 + p.n + l) ≠ (i, j)) → h j i = 0

/-! ### When all the points are set -/

section
variable {p : Par K} (hp : Newuoa.Valid p.nw) {su : Nat → K} {x : Nat → Nat → K} {v g : Nat → K} {z b h : Nat → Nat → K}

include hp in
theorem Arr.al0 {m : Nat} (w : Arr p su m x v g z b h) {l : Nat} (l1 : 1 ≤ l) (l2 : l ≤ p.n) (l3 : 1 + l ≤ m) : x (1 + l) l ≠ 0 := by
  intro e
  have := w.aa l l1 l2 l3
  have hr : 0 < p.rhobeg := hp.r
  rw [e] at this
  nlinarith [mul_pos hr hr]

include hp in
theorem Arr.be0 {m : Nat} (w : Arr p su m x v g z b h) {l : Nat} (l1 : 1 ≤ l) (l2 : l ≤ p.n) (l3 : 1 + p.n + l ≤ m) :
    x (1 + p.n + l) l ≠ 0 ∧ x (1 + l) l - x (1 + p.n + l) l ≠ 0 := by
  have a := w.al0 hp l1 l2 (by omega)
  rcases w.bb l l1 l2 l3 with e | e
  · rw [e]
    refine ⟨neg_ne_zero.mpr a, ?_⟩
    rw [sub_neg_eq_add]
    intro q
    exact a (by linarith)
  · rw [e]
    refine ⟨mul_ne_zero two_ne_zero a, ?_⟩
    intro q
    exact a (by linarith)

/-- A point on an axis. -/
theorem Arr.axis {m : Nat} (w : Arr p su m x v g z b h) {l : Nat} (l1 : 1 ≤ l) (l2 : l ≤ p.n) (j : Nat) : x (1 + l) j = x (1 + l) l * del j l := by
  by_cases q : j = l
  · rw [q, del_self, mul_one]
  · rw [w.xa l j l1 l2 q, del_ne q, mul_zero]

theorem Arr.axis' {m : Nat} (w : Arr p su m x v g z b h) {l : Nat} (l1 : 1 ≤ l) (l2 : l ≤ p.n) (j : Nat) : x (1 + p.n + l) j = x (1 + p.n + l) l * del j l := by
  by_cases q : j = l
  · rw [q, del_self, mul_one]
  · rw [w.xb l j l1 l2 q, del_ne q, mul_zero]

include hp in
theorem Arr.axes (hsqrt : ∀ a : K, 0 ≤ a → 0 ≤ CMath.sqrt a ∧ CMath.sqrt a * CMath.sqrt a = a) (w : Arr p su p.npt x v g z b h) :
    Axes p.n p.nptm p.npt (sqrt (lit 2 1)) (fun l => x (1 + l) l) (fun l => x (1 + p.n + l) l) (fun _ => 1 / (p.rhobeg * p.rhobeg)) x z b
      (fun l => (prelimPair p (1 + p.n + l)).1) (fun l => (prelimPair p (1 + p.n + l)).2) := by
  have n1 : 1 ≤ p.n := hp.n1
  have nm := nptm_eq hp
  have two : (lit 2 1 : K) = 2 := by rw [lit_rat]; norm_num
  have spec : ∀ l, p.n < l → l ≤ p.nptm → 1 ≤ (prelimPair p (1 + p.n + l)).2 ∧ (prelimPair p (1 + p.n + l)).2 < (prelimPair p (1 + p.n + l)).1 ∧ (prelimPair p (1 + p.n + l)).1 ≤ p.n := by
    intro l l1 l2
    exact Newuoa.pair_spec hp (nf := 1 + p.n + l) (by show 2 * p.n + 1 < _; omega) (by show _ ≤ p.npt; omega)
  have hrr : p.rhobeg * p.rhobeg ≠ 0 := (mul_pos hp.r hp.r).ne'
  refine ⟨nm, ?_, fun l l1 l2 => w.al0 hp l1 l2 (by omega), fun l l1 l2 l3 => (w.be0 hp l1 l2 (by omega)).1, fun l l1 l2 l3 => (w.be0 hp l1 l2 (by omega)).2,
    fun j _ _ => w.x1 j, fun l j l1 l2 _ _ => w.axis l1 l2 j, fun l j l1 l2 _ _ _ => w.axis' l1 l2 j, fun l j l1 l2 _ _ => w.xc l j l1 (by omega),
    fun l l1 l2 => ?_, fun l l1 l2 => ?_, fun l l1 l2 => ?_, fun l i l1 l2 i1 i2 => ?_, fun l l1 l2 => ?_, fun k l _ _ l1 l2 l3 => w.z1 k l l1 l2 (by omega),
    fun k l _ _ l1 l2 => w.z2 k l l1 (by omega), fun k l _ _ l1 l2 l3 => w.b1 k l l1 l2 l3 (by omega), fun k l k1 k2 l1 l2 => ?_, fun i l i1 i2 l1 l2 => ?_⟩
  · rw [two]; exact (hsqrt 2 (by norm_num)).2
  · obtain ⟨q1, q2, q3⟩ := spec l l1 l2; exact ⟨by omega, q3⟩
  · obtain ⟨q1, q2, q3⟩ := spec l l1 l2; exact ⟨q1, by omega⟩
  · obtain ⟨q1, q2, q3⟩ := spec l l1 l2; omega
  · obtain ⟨q1, q2, q3⟩ := spec l l1 l2
    show x i (prelimPair p (1 + p.n + l)).1 * x i (prelimPair p (1 + p.n + l)).2 = x (1 + (prelimPair p (1 + p.n + l)).1) (prelimPair p (1 + p.n + l)).1 *
      x (1 + (prelimPair p (1 + p.n + l)).2) (prelimPair p (1 + p.n + l)).2 * del i (1 + p.n + l)
    by_cases c0 : i = 1
    · rw [c0, w.x1, del_ne (by omega)]; ring
    by_cases c1 : i ≤ p.n + 1
    · obtain ⟨t, rfl⟩ : ∃ t, i = 1 + t := ⟨i - 1, by omega⟩
      rw [w.axis (by omega) (by omega), w.axis (l := t) (by omega) (by omega) (prelimPair p (1 + p.n + l)).2, del_ne (show 1 + t ≠ 1 + p.n + l by omega)]
      by_cases e : (prelimPair p (1 + p.n + l)).1 = t
      · rw [del_ne (show (prelimPair p (1 + p.n + l)).2 ≠ t by omega)]; ring
      · rw [del_ne e]; ring
    by_cases c2 : i ≤ 2 * p.n + 1
    · obtain ⟨t, rfl⟩ : ∃ t, i = 1 + p.n + t := ⟨i - 1 - p.n, by omega⟩
      rw [w.axis' (by omega) (by omega), w.axis' (l := t) (by omega) (by omega) (prelimPair p (1 + p.n + l)).2, del_ne (show 1 + p.n + t ≠ 1 + p.n + l by omega)]
      by_cases e : (prelimPair p (1 + p.n + l)).1 = t
      · rw [del_ne (show (prelimPair p (1 + p.n + l)).2 ≠ t by omega)]; ring
      · rw [del_ne e]; ring
    · obtain ⟨l', rfl⟩ : ∃ t, i = 1 + p.n + t := ⟨i - 1 - p.n, by omega⟩
      obtain ⟨r1, r2, r3⟩ := spec l' (by omega) (by omega)
      rw [w.xc l' _ (by omega) (by omega), w.xc l' (prelimPair p (1 + p.n + l)).2 (by omega) (by omega),
        w.axis (l := (prelimPair p (1 + p.n + l')).1) (by omega) r3, w.axis (l := (prelimPair p (1 + p.n + l')).2) r1 (by omega),
        w.axis (l := (prelimPair p (1 + p.n + l')).1) (by omega) r3 (prelimPair p (1 + p.n + l)).2, w.axis (l := (prelimPair p (1 + p.n + l')).2) r1 (by omega) (prelimPair p (1 + p.n + l)).2]
      by_cases el : l' = l
      · subst el
        rw [del_self, del_self, del_self, del_ne (show (prelimPair p (1 + p.n + l')).1 ≠ (prelimPair p (1 + p.n + l')).2 by omega),
          del_ne (show (prelimPair p (1 + p.n + l')).2 ≠ (prelimPair p (1 + p.n + l')).1 by omega)]; ring
      · rw [del_ne (show 1 + p.n + l' ≠ 1 + p.n + l by omega)]
        have ne : ¬((prelimPair p (1 + p.n + l)).1 = (prelimPair p (1 + p.n + l')).1 ∧ (prelimPair p (1 + p.n + l)).2 = (prelimPair p (1 + p.n + l')).2) := by
          intro w
          have := Newuoa.pair_inj hp (a := 1 + p.n + l) (b := 1 + p.n + l') (by show 2 * p.n + 1 < _; omega) (by show _ ≤ p.npt; omega) (by show 2 * p.n + 1 < _; omega)
            (by show _ ≤ p.npt; omega) (Prod.ext w.1 w.2)
          omega
        generalize (prelimPair p (1 + p.n + l)).1 = x1 at *
        generalize (prelimPair p (1 + p.n + l)).2 = x2 at *
        generalize (prelimPair p (1 + p.n + l')).1 = y1 at *
        generalize (prelimPair p (1 + p.n + l')).2 = y2 at *
        by_cases w1 : x1 = y1
        · rw [del_ne (show x2 ≠ y1 by omega), del_ne (show x2 ≠ y2 by omega)]; ring
        · by_cases w2 : x1 = y2
          · rw [del_ne (show x2 ≠ y1 by omega), del_ne (show x2 ≠ y2 by omega)]; ring
          · rw [del_ne w1, del_ne w2]; ring
  · obtain ⟨q1, q2, q3⟩ := spec l l1 l2
    have e1 := w.aa (prelimPair p (1 + p.n + l)).1 (by omega) q3 (by omega)
    have e2 := w.aa (prelimPair p (1 + p.n + l)).2 q1 (by omega) (by omega)
    show 1 / (p.rhobeg * p.rhobeg) * (1 / (p.rhobeg * p.rhobeg)) * (x (1 + (prelimPair p (1 + p.n + l)).1) (prelimPair p (1 + p.n + l)).1 *
      x (1 + (prelimPair p (1 + p.n + l)).2) (prelimPair p (1 + p.n + l)).2 * (x (1 + (prelimPair p (1 + p.n + l)).1) (prelimPair p (1 + p.n + l)).1 *
      x (1 + (prelimPair p (1 + p.n + l)).2) (prelimPair p (1 + p.n + l)).2)) = 1
    generalize x (1 + (prelimPair p (1 + p.n + l)).1) (prelimPair p (1 + p.n + l)).1 = s at *
    generalize x (1 + (prelimPair p (1 + p.n + l)).2) (prelimPair p (1 + p.n + l)).2 = t at *
    rw [show s * t * (s * t) = (s * s) * (t * t) by ring, e1, e2]
    generalize p.rhobeg * p.rhobeg = r at *
    field_simp
  · by_cases q : 1 ≤ l
    · rw [w.b2 k l q l1 l2 (by omega), del_ne (show k ≠ p.npt + l by omega)]; ring
    · omega
  · show b (p.npt + i) l = if p.nptm < l then -(x (1 + l) l * x (1 + l) l) / 2 * del i l else 0
    split_ifs with c
    · rw [w.b2 _ l l1 l2 c (by omega), del_ne (show p.npt + i ≠ 1 + l by omega), del_ne (show p.npt + i ≠ 1 by omega)]
      by_cases w : i = l
      · rw [w, del_self, del_self]; ring
      · rw [del_ne w, del_ne (show p.npt + i ≠ p.npt + l by omega)]; ring
    · rw [w.b1 _ l l1 l2 (by omega) (by omega), del_ne (show p.npt + i ≠ 1 + l by omega), del_ne (show p.npt + i ≠ 1 + p.n + l by omega),
        del_ne (show p.npt + i ≠ 1 by omega)]; ring

/-- The values of the model at the points, from the first one. -/
theorem axis_value {n l : Nat} (l1 : 1 ≤ l) (l2 : l ≤ n) {y : Nat → K} {e : K} (hy : ∀ j, y j = e * del j l) (g : Nat → K) (h : Nat → Nat → K) :
    dot n g y + hform n h y = e * g l + 1 / 2 * h l l * (e * e) := by
  have : y = fun t => e * del t l := funext hy
  rw [this, dot_del l1 l2, hform_one l1 l2]

include hp in
theorem Arr.value (w : Arr p su p.npt x v g z b h) {i : Nat} (i1 : 1 ≤ i) (i2 : i ≤ p.npt) :
    dot p.n g (x i) + hform p.n h (x i) = v i - v 1 := by
  have n1 : 1 ≤ p.n := hp.n1
  have nm := nptm_eq hp
  by_cases c0 : i = 1
  · rw [c0, axis_value (le_refl 1) n1 (e := 0) (fun j => by rw [w.x1 j, zero_mul])]; ring
  by_cases c1 : i ≤ p.n + 1
  · obtain ⟨l, rfl⟩ : ∃ l, i = 1 + l := ⟨i - 1, by omega⟩
    rw [axis_value (l := l) (by omega) (by omega) (fun j => w.axis (by omega) (by omega) j)]
    exact w.q1 l (by omega) (by omega) i2
  by_cases c2 : i ≤ 2 * p.n + 1
  · obtain ⟨l, rfl⟩ : ∃ l, i = 1 + p.n + l := ⟨i - 1 - p.n, by omega⟩
    rw [axis_value (l := l) (by omega) (by omega) (fun j => w.axis' (by omega) (by omega) j)]
    exact w.q2 l (by omega) (by omega) i2
  · obtain ⟨l, rfl⟩ : ∃ l, i = 1 + p.n + l := ⟨i - 1 - p.n, by omega⟩
    obtain ⟨q1, q2, q3⟩ := Newuoa.pair_spec hp (nf := 1 + p.n + l) (by show 2 * p.n + 1 < _; omega) i2
    rw [← prelimPair_eq] at q1 q2 q3
    change _ ≤ p.n at q3
    have s1 := w.q1 _ (show 1 ≤ (prelimPair p (1 + p.n + l)).1 by omega) q3 (by omega)
    have s2 := w.q1 _ q1 (show (prelimPair p (1 + p.n + l)).2 ≤ p.n by omega) (by omega)
    have s3 := w.q3 l (by omega) i2
    have e : x (1 + p.n + l) = fun j => x (1 + (prelimPair p (1 + p.n + l)).1) (prelimPair p (1 + p.n + l)).1 * del j (prelimPair p (1 + p.n + l)).1
        + x (1 + (prelimPair p (1 + p.n + l)).2) (prelimPair p (1 + p.n + l)).2 * del j (prelimPair p (1 + p.n + l)).2 := by
      funext j
      rw [w.xc l j (by omega) i2, w.axis (by omega) q3, w.axis q1 (by omega)]
    rw [e, hform_two q1 q2 q3, dot_addr, dot_del (by omega) q3, dot_del q1 (by omega)]
    linear_combination s1 + s2 + s3

end

/-! ### One point more -/

section
variable {p : Par K} (hp : Newuoa.Valid p.nw) {su : Nat → K} {m : Nat} (hm : m < p.npt) {x x' : Nat → Nat → K} {v v' g g' : Nat → K} {z b h z' b' h' : Nat → Nat → K}

theorem Arr.step0 (w : Arr p su 0 x v g z b h) (n1 : 1 ≤ p.n) (v' : Nat → K) : Arr p su 1 x v' g z b h :=
  ⟨fun k j q => w.x0 k j (by omega), w.x1, w.xa, w.xb, fun l _ _ _ _ => by omega, fun l _ _ _ => by omega, fun l _ _ _ => by omega, fun l j _ _ => by omega,
    fun k l q1 q2 => w.z0 k l q1 (by omega), fun k l _ _ _ => by omega, fun k l _ _ => by omega, fun k l q1 q2 q3 _ => w.b0 k l q1 q2 q3 (by omega),
    fun k l q1 q2 q3 _ => w.b0' k l q1 q2 q3 (by omega), fun k l _ _ _ _ => by omega, fun k l _ _ _ _ => by omega, fun l q1 q2 _ => w.q0 l q1 q2 (by omega),
    fun l _ _ _ => by omega, fun l _ _ _ => by omega, fun l _ _ => by omega, fun i j ij q => w.q4 i j ij fun l _ _ => by omega⟩

include hp hm in
/-- The points 2 to `n + 1`. -/
theorem Arr.stepA (w : Arr p su m x v g z b h) (m1 : 1 ≤ m) (m2 : m ≤ p.n) {a : K} (ha : a = if su m = 0 then -p.rhobeg else p.rhobeg)
    (hx : ∀ k j, x' k j = if k = 1 + m ∧ j = m then a else x k j) (hv : ∀ k, k ≠ 1 + m → v' k = v k)
    (hg : ∀ k, k ≠ m → g' k = g k) (hg' : g' m = (v' (1 + m) - v 1) / a)
    (hb : ∀ k l, l ≠ m ∨ m ≤ p.nptm → b' k l = b k l)
    (hb' : p.nptm < m → ∀ k, b' k m = 1 / a * (del k (1 + m) - del k 1) - p.rhobeg * p.rhobeg / 2 * del k (p.npt + m)) :
    Arr p su (m + 1) x' v' g' z b' h := by
  have n1 : 1 ≤ p.n := hp.n1
  have nm := nptm_eq hp
  have aa : a * a = p.rhobeg * p.rhobeg := by rw [ha]; split_ifs <;> ring
  have a0 : a ≠ 0 := by
    intro e
    have hr : 0 < p.rhobeg := hp.r
    rw [e] at aa
    nlinarith [mul_pos hr hr]
  have old : ∀ k j, k ≠ 1 + m → x' k j = x k j := fun k j q => by rw [hx, if_neg (fun c => q c.1)]
  have new : x' (1 + m) m = a := by rw [hx, if_pos ⟨rfl, rfl⟩]
  have col : ∀ k j, j ≠ m → x' k j = x k j := fun k j q => by rw [hx, if_neg (fun c => q c.2)]
  have v1 : v' 1 = v 1 := hv 1 (by omega)
  refine ⟨fun k j q => (old k j (by omega)).trans (w.x0 k j (by omega)), fun j => (old 1 j (by omega)).trans (w.x1 j), fun l j l1 l2 q => ?_,
    fun l j l1 l2 q => (old _ j (by omega)).trans (w.xb l j l1 l2 q), fun l l1 l2 l3 l4 => ?_, fun l l1 l2 l3 => ?_, fun l _ _ _ => by omega, fun l j _ _ => by omega,
    fun k l q1 q2 => w.z0 k l q1 (by omega), fun k l _ _ _ => by omega, fun k l _ _ => by omega, fun k l q1 q2 q3 q4 => ?_,
    fun k l q1 q2 q3 q4 => ?_, fun k l _ _ _ _ => by omega, fun k l q1 q2 q3 q4 => ?_, fun l q1 q2 _ => w.q0 l q1 q2 (by omega), fun l q1 q2 q3 => ?_,
    fun l _ _ _ => by omega, fun l _ _ => by omega, fun i j ij q => w.q4 i j ij fun l q1 q2 => by omega⟩
  · by_cases e : l = m
    · subst e
      rw [col _ _ q]
      exact w.xa l j l1 l2 q
    · rw [old _ _ (by omega)]
      exact w.xa l j l1 l2 q
  · by_cases e : l = m
    · subst e
      rw [new, ha]
    · rw [old _ _ (by omega)]
      exact w.a0 l l1 l2 (by omega) (by omega)
  · by_cases e : l = m
    · subst e
      rw [new, aa]
    · rw [old _ _ (by omega)]
      exact w.aa l l1 l2 (by omega)
  · rw [hb k l (by omega)]
    exact w.b0 k l q1 q2 q3 (by omega)
  · rw [hb k l (by omega)]
    exact w.b0' k l q1 q2 q3 (by omega)
  · by_cases e : l = m
    · subst e
      rw [hb' q3, new, aa]
    · rw [hb k l (by omega), old _ _ (by omega)]
      exact w.b2 k l q1 q2 q3 (by omega)
  · rw [v1]
    by_cases e : l = m
    · subst e
      rw [new, hg', w.q0 l q1 q2 (by omega)]
      field_simp
      ring
    · rw [old _ _ (by omega), hg l e, hv _ (by omega)]
      exact w.q1 l q1 q2 (by omega)

include hp hm in
/-- The points `n + 2` to `2 * n + 1`. -/
theorem Arr.stepB (hsqrt : ∀ a : K, 0 ≤ a → 0 ≤ CMath.sqrt a ∧ CMath.sqrt a * CMath.sqrt a = a) (w : Arr p su m x v g z b h) {c : Nat} (hc : m = p.n + c) (c1 : 1 ≤ c) (c2 : c ≤ p.n)
    {a e : K} (aa : a * a = p.rhobeg * p.rhobeg) (ae : e = -a ∨ e = 2 * a)
    (hx : ∀ k j, x' k j = if k = 1 + p.n + c ∧ j = c then e else if k = 1 + c ∧ j = c then a else x k j) (hv : ∀ k, k ≠ 1 + c → k ≠ 1 + p.n + c → v' k = v k)
    (hg : ∀ k, k ≠ c → g' k = g k) (hh : ∀ i j, ¬(i = c ∧ j = c) → h' i j = h i j)
    (ha : a * g' c + 1 / 2 * h' c c * (a * a) = v' (1 + c) - v 1) (he : e * g' c + 1 / 2 * h' c c * (e * e) = v' (1 + p.n + c) - v 1)
    (hb : ∀ k l, l ≠ c → b' k l = b k l) (hz : ∀ k l, l ≠ c → z' k l = z k l)
    (hb' : ∀ k, b' k c = if k = 1 + c then (a + e) / (a * e) + lit 1 2 / a else if k = 1 + p.n + c then -lit 1 2 / a else if k = 1 then -(a + e) / (a * e) else b k c)
    (hz' : ∀ k, z' k c = if k = 1 + c then -(sqrt (lit 2 1) / (a * e)) - sqrt (lit 1 2) / (p.rhobeg * p.rhobeg) else if k = 1 + p.n + c then sqrt (lit 1 2) / (p.rhobeg * p.rhobeg)
      else if k = 1 then sqrt (lit 2 1) / (a * e) else z k c) :
    Arr p su (m + 1) x' v' g' z' b' h' := by
  have n1 : 1 ≤ p.n := hp.n1
  have nm := nptm_eq hp
  have a0 : a ≠ 0 := by
    intro e
    have hr : 0 < p.rhobeg := hp.r
    rw [e] at aa
    nlinarith [mul_pos hr hr]
  have half : (lit 1 2 : K) = 1 / 2 := by rw [lit_rat]; norm_num
  have two : (lit 2 1 : K) = 2 := by rw [lit_rat]; norm_num
  have root : sqrt (1 / 2 : K) = sqrt (2 : K) / 2 := by
    obtain ⟨r1, r2⟩ := hsqrt 2 (by norm_num)
    obtain ⟨r3, r4⟩ := hsqrt (1 / 2) (by norm_num)
    rcases mul_self_eq_mul_self_iff.mp (show sqrt (1 / 2 : K) * sqrt (1 / 2 : K) = sqrt (2 : K) / 2 * (sqrt (2 : K) / 2) by linear_combination r4 - r2 / 4) with q | q
    · exact q
    · have : sqrt (2 : K) = 0 := by linarith
      rw [this] at r2
      norm_num at r2
  have old : ∀ k j, k ≠ 1 + c → k ≠ 1 + p.n + c → x' k j = x k j := fun k j q q' => by rw [hx, if_neg (fun c => q' c.1), if_neg (fun c => q c.1)]
  have newa : x' (1 + c) c = a := by rw [hx, if_neg (by omega), if_pos ⟨rfl, rfl⟩]
  have newe : x' (1 + p.n + c) c = e := by rw [hx, if_pos ⟨rfl, rfl⟩]
  have col : ∀ k j, j ≠ c → x' k j = x k j := fun k j q => by rw [hx, if_neg (fun c => q c.2), if_neg (fun c => q c.2)]
  have v1 : v' 1 = v 1 := hv 1 (by omega) (by omega)
  refine ⟨fun k j q => (old k j (by omega) (by omega)).trans (w.x0 k j (by omega)), fun j => (old 1 j (by omega) (by omega)).trans (w.x1 j), fun l j l1 l2 q => ?_,
    fun l j l1 l2 q => ?_, fun l l1 l2 l3 l4 => ?_, fun l l1 l2 l3 => ?_, fun l l1 l2 l3 => ?_, fun l j _ _ => by omega,
    fun k l q1 q2 => (hz k l (by omega)).trans (w.z0 k l q1 (by omega)), fun k l l1 l2 l3 => ?_, fun k l _ _ => by omega, fun k l q1 q2 q3 q4 => ?_,
    fun k l q1 q2 q3 q4 => by omega, fun k l q1 q2 q3 q4 => ?_, fun k l q1 q2 q3 q4 => ?_, fun l q1 q2 _ => (hh l l (by omega)).trans (w.q0 l q1 q2 (by omega)), fun l q1 q2 q3 => ?_,
    fun l q1 q2 q3 => ?_, fun l _ _ => by omega, fun i j ij q => (hh j i (by omega)).trans (w.q4 i j ij fun l q1 q2 => by omega)⟩
  · by_cases q' : l = c
    · subst q'
      rw [col _ _ q]
      exact w.xa l j l1 l2 q
    · rw [old _ _ (by omega) (by omega)]
      exact w.xa l j l1 l2 q
  · by_cases q' : l = c
    · subst q'
      rw [col _ _ q]
      exact w.xb l j l1 l2 q
    · rw [old _ _ (by omega) (by omega)]
      exact w.xb l j l1 l2 q
  · rw [old _ _ (by omega) (by omega)]
    exact w.a0 l l1 l2 (by omega) (by omega)
  · by_cases q' : l = c
    · rw [q', newa, aa]
    · rw [old _ _ (by omega) (by omega)]
      exact w.aa l l1 l2 (by omega)
  · by_cases q' : l = c
    · rw [q', newa, newe]; exact ae
    · rw [old _ _ (by omega) (by omega), old _ _ (by omega) (by omega)]
      exact w.bb l l1 l2 (by omega)
  · by_cases q' : l = c
    · subst q'
      rw [hz', newa, newe, half, two, root, ← aa]
      by_cases k1 : k = 1 + l
      · rw [if_pos k1, k1, del_self, del_ne (by omega), del_ne (by omega)]
        rcases ae with ae | ae
        · rw [ae, show a - -a = 2 * a by ring]; field_simp; ring
        · rw [ae, show a - 2 * a = -a by ring]; field_simp; ring
      · rw [if_neg k1, del_ne k1]
        by_cases k2 : k = 1 + p.n + l
        · rw [if_pos k2, k2, del_self, del_ne (by omega)]
          rcases ae with ae | ae
          · rw [ae, show a - -a = 2 * a by ring]; field_simp; ring
          · rw [ae, show a - 2 * a = -a by ring]; field_simp; ring
        · rw [if_neg k2, del_ne k2]
          by_cases k3 : k = 1
          · rw [if_pos k3, k3, del_self]; ring
          · rw [if_neg k3, del_ne k3, w.z0 k l l1 (by omega)]; ring
    · rw [hz k l q', old _ _ (by omega) (by omega), old _ _ (by omega) (by omega)]
      exact w.z1 k l l1 l2 (by omega)
  · rw [hb k l (by omega)]
    exact w.b0 k l q1 q2 q3 (by omega)
  · by_cases q' : l = c
    · subst q'
      rw [hb', newa, newe, half]
      by_cases k1 : k = 1 + l
      · rw [if_pos k1, k1, del_self, del_ne (by omega), del_ne (by omega)]
        rcases ae with ae | ae
        · rw [ae, show a - -a = 2 * a by ring]; field_simp; ring
        · rw [ae, show a - 2 * a = -a by ring]; field_simp; ring
      · rw [if_neg k1, del_ne k1]
        by_cases k2 : k = 1 + p.n + l
        · rw [if_pos k2, k2, del_self, del_ne (by omega)]
          rcases ae with ae | ae
          · rw [ae, show a - -a = 2 * a by ring]; field_simp; ring
          · rw [ae, show a - 2 * a = -a by ring]; field_simp; ring
        · rw [if_neg k2, del_ne k2]
          by_cases k3 : k = 1
          · rw [if_pos k3, k3, del_self]; ring
          · rw [if_neg k3, del_ne k3, w.b0 k l q1 q2 q3 (by omega)]; ring
    · rw [hb k l q', old _ _ (by omega) (by omega), old _ _ (by omega) (by omega)]
      exact w.b1 k l q1 q2 q3 (by omega)
  · rw [hb k l (by omega), old _ _ (by omega) (by omega)]
    exact w.b2 k l q1 q2 q3 (by omega)
  · rw [v1]
    by_cases q' : l = c
    · rw [q', newa]; exact ha
    · rw [old _ _ (by omega) (by omega), hg l q', hh l l (by omega), hv _ (by omega) (by omega)]
      exact w.q1 l q1 q2 (by omega)
  · rw [v1]
    by_cases q' : l = c
    · rw [q', newe]; exact he
    · rw [old _ _ (by omega) (by omega), hg l q', hh l l (by omega), hv _ (by omega) (by omega)]
      exact w.q2 l q1 q2 (by omega)

include hp hm in
/-- The other points. -/
theorem Arr.stepC (w : Arr p su m x v g z b h) (m2 : 2 * p.n < m) {a c : Nat} (hac : prelimPair p (m + 1) = (a, c))
    (hx : ∀ k j, x' k j = if k = m + 1 ∧ j = c then x (1 + c) c else if k = m + 1 ∧ j = a then x (1 + a) a else x k j) (hv : ∀ k, k ≠ m + 1 → v' k = v k)
    (hz : ∀ k l, l ≠ m - p.n → z' k l = z k l)
    (hz' : ∀ k, z' k (m - p.n) = if k = 1 + c then -(1 / (p.rhobeg * p.rhobeg)) else if k = 1 + a then -(1 / (p.rhobeg * p.rhobeg))
      else if k = m + 1 then 1 / (p.rhobeg * p.rhobeg) else if k = 1 then 1 / (p.rhobeg * p.rhobeg) else z k (m - p.n))
    (hh : ∀ i j, h' i j = if i = c ∧ j = a then (v 1 - v (1 + a) - v (1 + c) + v' (m + 1)) / (x (1 + a) a * x (1 + c) c) else h i j) :
    Arr p su (m + 1) x' v' g z' b h' := by
  have n1 : 1 ≤ p.n := hp.n1
  have nm := nptm_eq hp
  obtain ⟨s1, s2, s3⟩ := Newuoa.pair_spec hp (nf := m + 1) (by show 2 * p.n + 1 < _; omega) hm
  rw [← prelimPair_eq, hac] at s1 s2 s3
  change a ≤ p.n at s3
  change c < a at s2
  change 1 ≤ c at s1
  have old : ∀ k j, k ≠ m + 1 → x' k j = x k j := fun k j q => by rw [hx, if_neg (fun c => q c.1), if_neg (fun c => q c.1)]
  have spec : ∀ l, p.n < l → 1 + p.n + l ≤ m → 1 ≤ (prelimPair p (1 + p.n + l)).2 ∧ (prelimPair p (1 + p.n + l)).2 < (prelimPair p (1 + p.n + l)).1 ∧ (prelimPair p (1 + p.n + l)).1 ≤ p.n ∧
      ¬((prelimPair p (1 + p.n + l)).2 = c ∧ (prelimPair p (1 + p.n + l)).1 = a) := by
    intro l l1 l2
    obtain ⟨q1, q2, q3⟩ := Newuoa.pair_spec hp (nf := 1 + p.n + l) (by show 2 * p.n + 1 < _; omega) (by show _ ≤ p.npt; omega)
    refine ⟨q1, q2, q3, fun q => ?_⟩
    have := Newuoa.pair_inj hp (a := 1 + p.n + l) (b := m + 1) (by show 2 * p.n + 1 < _; omega) (by show _ ≤ p.npt; omega) (by show 2 * p.n + 1 < _; omega)
      (by show _ ≤ p.npt; omega) (by rw [← prelimPair_eq, ← prelimPair_eq, hac]; exact Prod.ext q.2 q.1)
    omega
  have oh : ∀ i j, ¬(i = c ∧ j = a) → h' i j = h i j := fun i j q => by rw [hh, if_neg q]
  refine ⟨fun k j q => (old k j (by omega)).trans (w.x0 k j (by omega)), fun j => (old 1 j (by omega)).trans (w.x1 j),
    fun l j l1 l2 q => (old _ j (by omega)).trans (w.xa l j l1 l2 q), fun l j l1 l2 q => (old _ j (by omega)).trans (w.xb l j l1 l2 q),
    fun l l1 l2 l3 l4 => by omega, fun l l1 l2 l3 => ?_, fun l l1 l2 l3 => ?_, fun l j l1 l2 => ?_,
    fun k l q1 q2 => (hz k l (by omega)).trans (w.z0 k l q1 (by omega)), fun k l l1 l2 l3 => ?_, fun k l l1 l2 => ?_, fun k l q1 q2 q3 q4 => by omega,
    fun k l q1 q2 q3 q4 => by omega, fun k l q1 q2 q3 q4 => ?_, fun k l q1 q2 q3 q4 => ?_, fun l q1 q2 _ => by omega, fun l q1 q2 q3 => ?_,
    fun l q1 q2 q3 => ?_, fun l l1 l2 => ?_, fun i j ij q => ?_⟩
  · rw [old _ _ (by omega)]
    exact w.aa l l1 l2 (by omega)
  · rw [old _ _ (by omega), old _ _ (by omega)]
    exact w.bb l l1 l2 (by omega)
  · by_cases q : 1 + p.n + l ≤ m
    · obtain ⟨q1, q2, q3, -⟩ := spec l l1 q
      rw [old _ _ (by omega), old _ _ (by omega), old _ _ (by omega)]
      exact w.xc l j l1 q
    · have el : 1 + p.n + l = m + 1 := by omega
      rw [el, hac]
      show x' (m + 1) j = x' (1 + a) j + x' (1 + c) j
      rw [old (1 + a) j (by omega), old (1 + c) j (by omega), w.axis (by omega) s3 j, w.axis s1 (by omega) j, hx]
      by_cases r1 : j = c
      · rw [if_pos ⟨rfl, r1⟩, r1, del_self, del_ne (by omega)]; ring
      · rw [if_neg (fun w => r1 w.2), del_ne r1]
        by_cases r2 : j = a
        · rw [if_pos ⟨rfl, r2⟩, r2, del_self]; ring
        · rw [if_neg (fun w => r2 w.2), del_ne r2, w.x0 _ _ (by omega)]; ring
  · rw [hz k l (by omega), old _ _ (by omega), old _ _ (by omega)]
    exact w.z1 k l l1 l2 (by omega)
  · by_cases q : l = m - p.n
    · subst q
      rw [show 1 + p.n + (m - p.n) = m + 1 by omega, hac, hz']
      show _ = 1 / (p.rhobeg * p.rhobeg) * (del k 1 + del k (m + 1) - del k (1 + a) - del k (1 + c))
      by_cases k1 : k = 1 + c
      · rw [if_pos k1, k1, del_self, del_ne (by omega), del_ne (by omega), del_ne (by omega)]; ring
      · rw [if_neg k1, del_ne k1]
        by_cases k2 : k = 1 + a
        · rw [if_pos k2, k2, del_self, del_ne (by omega), del_ne (by omega)]; ring
        · rw [if_neg k2, del_ne k2]
          by_cases k3 : k = m + 1
          · rw [if_pos k3, k3, del_self, del_ne (by omega)]; ring
          · rw [if_neg k3, del_ne k3]
            by_cases k4 : k = 1
            · rw [if_pos k4, k4, del_self]; ring
            · rw [if_neg k4, del_ne k4, w.z0 k _ (by omega) (by omega)]; ring
    · rw [hz k l q]; exact w.z2 k l l1 (by omega)
  · rw [old _ _ (by omega), old _ _ (by omega)]
    exact w.b1 k l q1 q2 q3 (by omega)
  · rw [old _ _ (by omega)]
    exact w.b2 k l q1 q2 q3 (by omega)
  · rw [old _ _ (by omega), oh l l (by omega), hv _ (by omega), hv _ (by omega)]
    exact w.q1 l q1 q2 (by omega)
  · rw [old _ _ (by omega), oh l l (by omega), hv _ (by omega), hv _ (by omega)]
    exact w.q2 l q1 q2 (by omega)
  · by_cases q : 1 + p.n + l ≤ m
    · obtain ⟨q1, q2, q3, q4⟩ := spec l l1 q
      rw [oh _ _ q4, old _ _ (by omega), old _ _ (by omega), hv _ (by omega), hv _ (by omega), hv _ (by omega), hv _ (by omega)]
      exact w.q3 l l1 q
    · rw [show 1 + p.n + l = m + 1 by omega, hac]
      show h' c a * (x' (1 + a) a * x' (1 + c) c) = v' 1 - v' (1 + a) - v' (1 + c) + v' (m + 1)
      rw [old (1 + a) a (by omega), old (1 + c) c (by omega), hv 1 (by omega), hv (1 + a) (by omega), hv (1 + c) (by omega), hh, if_pos ⟨rfl, rfl⟩]
      exact div_mul_cancel₀ _ (mul_ne_zero (w.al0 hp (by omega) s3 (by omega)) (w.al0 hp s1 (by omega) (by omega)))
  · rw [oh j i (fun q' => q (m - p.n) (by omega) (by omega) (by
      rw [show 1 + p.n + (m - p.n) = m + 1 by omega, hac]; exact Prod.ext q'.2.symm q'.1.symm))]
    exact w.q4 i j ij fun l l1 l2 => q l l1 (by omega)

end

end

end Opk.Bobyqa
