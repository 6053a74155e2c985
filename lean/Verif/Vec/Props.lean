import Verif.Vec.Model
import Mathlib.Algebra.BigOperators.Group.Finset.Basic
import Mathlib.Algebra.BigOperators.Intervals
import Mathlib.Algebra.Order.Field.Basic
import Mathlib.Analysis.Real.Sqrt
import Mathlib.Tactic.Linarith
import Mathlib.Tactic.NormNum
/-! # C05, C06, C07, C08: vectors -/
set_option linter.unusedSectionVars false
namespace Opk.Vec

/-! ## Specification -/

/-- The algebraic facts used about the arithmetic.  They hold in every ring, and also for
finite IEEE floating point numbers (up to the sign of zero): no associativity nor
distributivity is required. -/
class FloatLaws (F : Type) [Add F] [Sub F] [Mul F] [Neg F] [Zero F] [One F] : Prop where
  add_comm : ∀ x y : F, x + y = y + x
  sub_eq : ∀ x y : F, x - y = x + -y
  one_mul : ∀ x : F, 1 * x = x
  neg_one_mul : ∀ x : F, -1 * x = -x
  zero_mul : ∀ x : F, 0 * x = 0
  zero_add : ∀ x : F, 0 + x = x

/-- The conversion of coefficients to the type of the elements preserves 0, 1 and -1. -/
structure CastLaws {F : Type} [Neg F] [Zero F] [One F] (cast : F → F) : Prop where
  zero : cast 0 = 0
  one : cast 1 = 1
  neg_one : cast (-1) = -1

/-- The `n` elements of two vectors are stored at the same place or do not overlap. -/
def SameOrApart (n : Nat) (x y : Vec) : Prop :=
  x.data = y.data ∨ x.data + n ≤ y.data ∨ y.data + n ≤ x.data

/-- The call succeeds, element `j` of `dst` becomes `f j` and nothing else changes. -/
def Sets {F : Type} (n : Nat) (dst : Vec) (f : Nat → F) (m : Mem F) (r : Option (Eff F)) : Prop :=
  ∃ m', r = some { mem := m', error := false } ∧ (∀ j, j < n → dst.el m' j = f j) ∧
    (∀ a, a < dst.data ∨ dst.data + n ≤ a → m' a = m a)

/-- The call invokes the error handler and changes nothing. -/
def Refused {F : Type} (m : Mem F) (r : Option (Eff F)) : Prop :=
  r = some { mem := m, error := true }

/-! ## Lemmas -/

theorem ring_laws (F : Type) [Ring F] : FloatLaws F where
  add_comm := _root_.add_comm
  sub_eq := sub_eq_add_neg
  one_mul := _root_.one_mul
  neg_one_mul := fun x => by rw [neg_mul, _root_.one_mul]
  zero_mul := MulZeroClass.zero_mul
  zero_add := _root_.zero_add

theorem id_laws {F : Type} [Neg F] [Zero F] [One F] : CastLaws (fun x : F => x) := ⟨rfl, rfl, rfl⟩

theorem loop_put {F : Type} (d n : Nat) (e : Nat → Mem F → F)
    (he : ∀ j, j < n → ∀ m m' : Mem F, (∀ a, (a < d ∨ d + n ≤ a ∨ a = d + j) → m a = m' a) →
      e j m = e j m') (m : Mem F) :
    (∀ j, j < n → loop (fun j m => put m (d + j) (e j m)) n m (d + j) = e j m) ∧
    (∀ a, a < d ∨ d + n ≤ a → loop (fun j m => put m (d + j) (e j m)) n m a = m a) := by
  have key : ∀ k, k ≤ n →
      (∀ j, j < k → loop (fun j m => put m (d + j) (e j m)) k m (d + j) = e j m) ∧
      (∀ a, a < d ∨ d + k ≤ a → loop (fun j m => put m (d + j) (e j m)) k m a = m a) := by
    intro k
    induction k with
    | zero => intro _; exact ⟨by intro j hj; omega, by intro a _; rfl⟩
    | succ k ih =>
      intro hk
      obtain ⟨h1, h2⟩ := ih (by omega)
      constructor
      · intro j hj
        simp only [loop, put]
        by_cases hjk : j = k
        · subst hjk
          simp only [if_true]
          apply he j (by omega)
          intro a ha
          apply h2; omega
        · rw [if_neg (by omega)]
          exact h1 j (by omega)
      · intro a ha
        simp only [loop, put]
        rw [if_neg (by omega)]
        exact h2 a (by omega)
  exact key n (Nat.le_refl n)

theorem sets_loop {F : Type} {n : Nat} {dst : Vec} {e : Nat → Mem F → F} {f : Nat → F} {m : Mem F}
    (he : ∀ j, j < n → ∀ m m' : Mem F,
      (∀ a, (a < dst.data ∨ dst.data + n ≤ a ∨ a = dst.data + j) → m a = m' a) → e j m = e j m')
    (hf : ∀ j, j < n → e j m = f j) :
    Sets n dst f m (fine (loop (fun j m => put m (dst.data + j) (e j m)) n m)) := by
  obtain ⟨h1, h2⟩ := loop_put dst.data n e he m
  exact ⟨_, rfl, fun j hj => (h1 j hj).trans (hf j hj), h2⟩

theorem el_congr {F : Type} {n : Nat} {dst x : Vec} (h : SameOrApart n dst x) {j : Nat} (hj : j < n)
    {m m' : Mem F}
    (ha : ∀ a, (a < dst.data ∨ dst.data + n ≤ a ∨ a = dst.data + j) → m a = m' a) :
    x.el m j = x.el m' j := by
  unfold Vec.el
  apply ha
  unfold SameOrApart at h
  omega

section
variable {F : Type} [Add F] [Sub F] [Mul F] [Neg F] [Zero F] [One F] [DecidableEq F]

theorem sfill_zero_sets (cast : F → F) (n : Nat) (dst : Vec) (m : Mem F) :
    Sets n dst (fun _ => 0) m (fine (sfill cast n dst 0 m)) := by
  simp only [sfill, if_true]
  exact sets_loop (e := fun _ _ => 0) (fun _ _ _ _ _ => rfl) (fun _ _ => rfl)

theorem sscale_sets (cast : F → F) {n : Nat} {dst x : Vec} (alpha : F) (m : Mem F)
    (hx : SameOrApart n dst x) :
    Sets n dst (fun j => cast alpha * x.el m j) m (fine (sscale cast n dst alpha x m)) :=
  sets_loop (fun j hj m m' h => by rw [el_congr hx hj h]) (fun _ _ => rfl)

theorem saxpby_sets [FloatLaws F] {cast : F → F} (hc : CastLaws cast) {n : Nat} {dst x y : Vec}
    (alpha beta : F) (m : Mem F) (hx : SameOrApart n dst x) (hy : SameOrApart n dst y) :
    Sets n dst (fun j => cast alpha * x.el m j + cast beta * y.el m j) m
      (fine (saxpby cast n dst alpha x beta y m)) := by
  unfold saxpby
  by_cases ha : alpha = 1
  · subst ha
    by_cases hb : beta = 1
    · subst hb
      simp only [if_true, hc.one, FloatLaws.one_mul]
      exact sets_loop (fun j hj m m' h => by rw [el_congr hx hj h, el_congr hy hj h]) (fun _ _ => rfl)
    · by_cases hb' : beta = -1
      · subst hb'
        simp only [if_true, if_neg hb, hc.one, hc.neg_one, FloatLaws.one_mul, FloatLaws.neg_one_mul]
        exact sets_loop (fun j hj m m' h => by rw [el_congr hx hj h, el_congr hy hj h])
          (fun _ _ => FloatLaws.sub_eq _ _)
      · simp only [if_true, if_neg hb, if_neg hb', hc.one, FloatLaws.one_mul]
        exact sets_loop (fun j hj m m' h => by rw [el_congr hx hj h, el_congr hy hj h]) (fun _ _ => rfl)
  · by_cases ha' : alpha = -1
    · subst ha'
      by_cases hb : beta = 1
      · subst hb
        simp only [if_true, if_neg ha, hc.one, hc.neg_one, FloatLaws.one_mul, FloatLaws.neg_one_mul]
        exact sets_loop (fun j hj m m' h => by rw [el_congr hx hj h, el_congr hy hj h])
          (fun _ _ => by rw [FloatLaws.sub_eq, FloatLaws.add_comm])
      · by_cases hb' : beta = -1
        · subst hb'
          simp only [if_true, if_neg hb, hc.neg_one, FloatLaws.neg_one_mul]
          exact sets_loop (fun j hj m m' h => by rw [el_congr hx hj h, el_congr hy hj h])
            (fun _ _ => by rw [FloatLaws.sub_eq, FloatLaws.add_comm])
        · simp only [if_true, if_neg ha, if_neg hb, if_neg hb', hc.neg_one, FloatLaws.neg_one_mul]
          exact sets_loop (fun j hj m m' h => by rw [el_congr hx hj h, el_congr hy hj h])
            (fun _ _ => by rw [FloatLaws.sub_eq, FloatLaws.add_comm])
    · by_cases hb : beta = 1
      · subst hb
        simp only [if_true, if_neg ha, if_neg ha', hc.one, FloatLaws.one_mul]
        exact sets_loop (fun j hj m m' h => by rw [el_congr hx hj h, el_congr hy hj h]) (fun _ _ => rfl)
      · by_cases hb' : beta = -1
        · subst hb'
          simp only [if_true, if_neg ha, if_neg ha', if_neg hb, hc.neg_one, FloatLaws.neg_one_mul]
          exact sets_loop (fun j hj m m' h => by rw [el_congr hx hj h, el_congr hy hj h])
            (fun _ _ => FloatLaws.sub_eq _ _)
        · simp only [if_neg ha, if_neg ha', if_neg hb, if_neg hb']
          exact sets_loop (fun j hj m m' h => by rw [el_congr hx hj h, el_congr hy hj h]) (fun _ _ => rfl)

theorem sets_congr {n : Nat} {dst : Vec} {f g : Nat → F} {m : Mem F} {r : Option (Eff F)}
    (h : Sets n dst f m r) (hfg : ∀ j, j < n → f j = g j) : Sets n dst g m r := by
  obtain ⟨m', h1, h2, h3⟩ := h
  exact ⟨m', h1, fun j hj => (h2 j hj).trans (hfg j hj), h3⟩

theorem scopy_sets {n : Nat} {dst src : Vec} {m : Mem F} (h : SameOrApart n dst src) :
    Sets n dst (fun j => src.el m j) m (lift (scopy n dst src m)) := by
  unfold scopy
  by_cases hd : dst.data = src.data
  · rw [if_neg (by simpa using hd)]
    exact ⟨m, rfl, fun j _ => by simp [Vec.el, hd], fun _ _ => rfl⟩
  · rw [if_pos hd, memcpy, if_pos (by unfold SameOrApart at h; omega)]
    exact sets_loop (e := fun j _ => m (src.data + j)) (fun _ _ _ _ _ => rfl) (fun _ _ => rfl)

/-! ## C06: linear combinations -/

/-- **C06 (scale).** `opk_vscale` stores `alpha*x` in `dst` for every `alpha`, in place or not,
and modifies nothing else. -/
theorem vscale_spec [FloatLaws F] {cast : F → F} (hc : CastLaws cast) (size : Sizes) (dst x : Vec)
    (alpha : F) (m : Mem F) (hs : x.space = dst.space) (hid : x.addr = dst.addr → x = dst)
    (hx : SameOrApart (size dst.space) dst x) :
    Sets (size dst.space) dst (fun j => cast alpha * x.el m j) m (vscale cast size dst alpha x m) := by
  unfold vscale
  rw [if_neg (by simpa using hs)]
  by_cases ha : alpha = 1
  · subst ha
    simp only [if_true, hc.one, FloatLaws.one_mul]
    by_cases hp : x.addr = dst.addr
    · rw [if_neg (by simpa using hp)]
      have := hid hp
      subst this
      exact ⟨m, rfl, fun _ _ => rfl, fun _ _ => rfl⟩
    · rw [if_pos hp]; exact scopy_sets hx
  · rw [if_neg ha]
    by_cases ha0 : alpha = 0
    · subst ha0
      simp only [if_true, hc.zero, FloatLaws.zero_mul]
      exact sfill_zero_sets cast _ dst m
    · rw [if_neg ha0]; exact sscale_sets cast alpha m hx

/-- **C06 (axpby).** `opk_vaxpby` stores `alpha*x + beta*y` in `dst` for all coefficients and
all aliasing patterns, and modifies nothing else. -/
theorem vaxpby_spec [FloatLaws F] {cast : F → F} (hc : CastLaws cast) (size : Sizes) (dst x y : Vec)
    (alpha beta : F) (m : Mem F) (hsx : x.space = dst.space) (hsy : y.space = dst.space)
    (hx : SameOrApart (size dst.space) dst x) (hy : SameOrApart (size dst.space) dst y) :
    Sets (size dst.space) dst (fun j => cast alpha * x.el m j + cast beta * y.el m j) m
      (vaxpby cast size dst alpha x beta y m) := by
  unfold vaxpby
  rw [if_neg (by simp [hsx, hsy])]
  by_cases ha : alpha = 0
  · subst ha
    simp only [if_true, hc.zero, FloatLaws.zero_mul, FloatLaws.zero_add]
    by_cases hb : beta = 0
    · subst hb
      simp only [if_true, hc.zero, FloatLaws.zero_mul]
      exact sfill_zero_sets cast _ dst m
    · rw [if_neg hb]; exact sscale_sets cast beta m hy
  · rw [if_neg ha]
    by_cases hb : beta = 0
    · subst hb
      simp only [if_true, hc.zero, FloatLaws.zero_mul]
      exact sets_congr (sscale_sets cast alpha m hx)
        (fun j _ => by rw [FloatLaws.add_comm, FloatLaws.zero_add])
    · rw [if_neg hb]; exact saxpby_sets hc alpha beta m hx hy

/-- **C06 (axpbypcz).** `opk_vaxpbypcz` stores `alpha*x + beta*y + gamma*z` in `dst` for all
coefficients and all aliasing patterns, and modifies nothing else. -/
theorem vaxpbypcz_spec [FloatLaws F] {cast : F → F} (hc : CastLaws cast) (size : Sizes)
    (dst x y z : Vec) (alpha beta gamma : F) (m : Mem F) (hsx : x.space = dst.space)
    (hsy : y.space = dst.space) (hsz : z.space = dst.space)
    (hx : SameOrApart (size dst.space) dst x) (hy : SameOrApart (size dst.space) dst y)
    (hz : SameOrApart (size dst.space) dst z) :
    Sets (size dst.space) dst
      (fun j => cast alpha * x.el m j + cast beta * y.el m j + cast gamma * z.el m j) m
      (vaxpbypcz cast size dst alpha x beta y gamma z m) := by
  unfold vaxpbypcz
  rw [if_neg (by simp [hsx, hsy, hsz])]
  have add_zero : ∀ x : F, x + 0 = x := fun x => by rw [FloatLaws.add_comm, FloatLaws.zero_add]
  by_cases ha : alpha = 0
  · subst ha
    simp only [if_true, hc.zero, FloatLaws.zero_mul, FloatLaws.zero_add]
    by_cases hb : beta = 0
    · subst hb
      simp only [if_true, hc.zero, FloatLaws.zero_mul, FloatLaws.zero_add]
      by_cases hg : gamma = 0
      · subst hg
        simp only [if_true, hc.zero, FloatLaws.zero_mul]
        exact sfill_zero_sets cast _ dst m
      · rw [if_neg hg]; exact sscale_sets cast gamma m hz
    · rw [if_neg hb]
      by_cases hg : gamma = 0
      · subst hg
        simp only [if_true, hc.zero, FloatLaws.zero_mul, add_zero]
        exact sscale_sets cast beta m hy
      · rw [if_neg hg]; exact saxpby_sets hc beta gamma m hy hz
  · simp only [if_neg ha]
    by_cases hb : beta = 0
    · subst hb
      simp only [if_true, hc.zero, FloatLaws.zero_mul, add_zero]
      by_cases hg : gamma = 0
      · subst hg
        simp only [if_true, hc.zero, FloatLaws.zero_mul, add_zero]
        exact sscale_sets cast alpha m hx
      · rw [if_neg hg]; exact saxpby_sets hc alpha gamma m hx hz
    · simp only [if_neg hb]
      by_cases hg : gamma = 0
      · subst hg
        simp only [if_true, hc.zero, FloatLaws.zero_mul, add_zero]
        exact saxpby_sets hc alpha beta m hx hy
      · rw [if_neg hg]
        exact sets_loop
          (fun j hj m m' h => by rw [el_congr hx hj h, el_congr hy hj h, el_congr hz hj h])
          (fun _ _ => rfl)

/-- **C06 (bad spaces).** If some vector does not belong to the space of the destination, the
error handler is called and nothing is changed, whatever the coefficients. -/
theorem combine_refused (cast : F → F) (size : Sizes) (dst x y z : Vec) (alpha beta gamma : F)
    (m : Mem F) :
    (x.space ≠ dst.space → Refused m (vscale cast size dst alpha x m)) ∧
    (x.space ≠ dst.space ∨ y.space ≠ dst.space →
      Refused m (vaxpby cast size dst alpha x beta y m)) ∧
    (x.space ≠ dst.space ∨ y.space ≠ dst.space ∨ z.space ≠ dst.space →
      Refused m (vaxpbypcz cast size dst alpha x beta y gamma z m)) := by
  refine ⟨fun h => ?_, fun h => ?_, fun h => ?_⟩
  · rw [vscale, if_pos h]; rfl
  · rw [vaxpby, if_pos h]; rfl
  · rw [vaxpbypcz, if_pos h]; rfl

/-! ## C07: other operations -/

/-- **C07 (fill, zero).** -/
theorem vfill_spec {cast : F → F} (hc : CastLaws cast) (size : Sizes) (dst : Vec) (alpha : F)
    (m : Mem F) :
    Sets (size dst.space) dst (fun _ => cast alpha) m (vfill cast size dst alpha m) ∧
    Sets (size dst.space) dst (fun _ => 0) m (vzero cast size dst m) := by
  refine ⟨?_, sfill_zero_sets cast _ dst m⟩
  unfold vfill
  by_cases ha : alpha = 0
  · subst ha; rw [hc.zero]; exact sfill_zero_sets cast _ dst m
  · rw [sfill, if_neg ha]
    exact sets_loop (e := fun _ _ => cast alpha) (fun _ _ _ _ _ => rfl) (fun _ _ => rfl)

/-- **C07 (copy).** -/
theorem vcopy_spec (size : Sizes) (dst src : Vec) (m : Mem F) (hid : src.addr = dst.addr → src = dst) :
    (src.space = dst.space → SameOrApart (size dst.space) dst src →
      Sets (size dst.space) dst (fun j => src.el m j) m (vcopy size dst src m)) ∧
    (src.space ≠ dst.space → Refused m (vcopy size dst src m)) := by
  constructor
  · intro hs hx
    unfold vcopy
    by_cases hp : src.addr = dst.addr
    · rw [if_neg (by simpa using hp)]
      have := hid hp
      subst this
      exact ⟨m, rfl, fun _ _ => rfl, fun _ _ => rfl⟩
    · rw [if_pos hp, if_neg (by simpa using hs)]
      exact scopy_sets hx
  · intro hs
    have hp : src.addr ≠ dst.addr := by
      intro h; exact hs (by rw [hid h])
    rw [vcopy, if_pos hp, if_pos hs]; rfl

/-- **C07 (product).** -/
theorem vproduct_spec (size : Sizes) (dst x y : Vec) (m : Mem F) :
    (x.space = dst.space → y.space = dst.space → SameOrApart (size dst.space) dst x →
      SameOrApart (size dst.space) dst y →
      Sets (size dst.space) dst (fun j => x.el m j * y.el m j) m (vproduct size dst x y m)) ∧
    (x.space ≠ dst.space ∨ y.space ≠ dst.space → Refused m (vproduct size dst x y m)) := by
  constructor
  · intro hsx hsy hx hy
    rw [vproduct, if_neg (by simp [hsx, hsy])]
    exact sets_loop (fun j hj m m' h => by rw [el_congr hx hj h, el_congr hy hj h]) (fun _ _ => rfl)
  · intro h; rw [vproduct, if_pos h]; rfl

theorem swap_loop (x y : Nat) (n : Nat) (hn : x + n ≤ y ∨ y + n ≤ x) (m : Mem F) :
    ∀ k, k ≤ n →
      let m' := loop (fun j m => put (put m (x + j) (m (y + j))) (y + j) (m (x + j))) k m
      (∀ j, j < k → m' (x + j) = m (y + j) ∧ m' (y + j) = m (x + j)) ∧
      (∀ a, (a < x ∨ x + k ≤ a) → (a < y ∨ y + k ≤ a) → m' a = m a) := by
  intro k
  induction k with
  | zero => intro _; exact ⟨by intro j hj; omega, by intro a _ _; rfl⟩
  | succ k ih =>
    intro hk
    obtain ⟨h1, h2⟩ := ih (by omega)
    simp only [loop]
    constructor
    · intro j hj
      simp only [put]
      by_cases hjk : j = k
      · subst hjk
        have e1 := h2 (y + j) (by omega) (by omega)
        have e2 := h2 (x + j) (by omega) (by omega)
        constructor
        · rw [if_neg (by omega), if_pos rfl, e1]
        · rw [if_pos rfl, e2]
      · have := h1 j (by omega)
        constructor
        · rw [if_neg (by omega), if_neg (by omega), this.1]
        · rw [if_neg (by omega), if_neg (by omega), this.2]
    · intro a ha hb
      simp only [put]
      rw [if_neg (by omega), if_neg (by omega)]
      exact h2 a (by omega) (by omega)

/-- **C07 (swap).** The contents are exchanged, everything else is unchanged; vectors of
different spaces are refused. -/
theorem vswap_spec (size : Sizes) (x y : Vec) (m : Mem F) (hid : x.addr = y.addr → x = y) :
    (y.space = x.space → SameOrApart (size x.space) x y →
      ∃ m', vswap size x y m = some { mem := m', error := false } ∧
        (∀ j, j < size x.space → x.el m' j = y.el m j ∧ y.el m' j = x.el m j) ∧
        (∀ a, (a < x.data ∨ x.data + size x.space ≤ a) → (a < y.data ∨ y.data + size x.space ≤ a) →
          m' a = m a)) ∧
    (y.space ≠ x.space → Refused m (vswap size x y m)) := by
  constructor
  · intro hs hx
    unfold vswap
    by_cases hp : x.addr = y.addr
    · rw [if_neg (by simpa using hp)]
      have := hid hp
      subst this
      exact ⟨m, rfl, fun _ _ => ⟨rfl, rfl⟩, fun _ _ _ => rfl⟩
    · rw [if_pos hp, if_neg (by simpa using hs), sswap]
      by_cases hd : x.data = y.data
      · rw [if_neg (by simpa using hd)]
        exact ⟨m, rfl, fun j _ => by simp [Vec.el, hd], fun _ _ _ => rfl⟩
      · rw [if_pos hd]
        obtain ⟨h1, h2⟩ := swap_loop x.data y.data (size x.space)
          (by unfold SameOrApart at hx; omega) m _ (Nat.le_refl _)
        exact ⟨_, rfl, h1, h2⟩
  · intro hs
    have hp : x.addr ≠ y.addr := by
      intro h; exact hs (by rw [hid h])
    rw [vswap, if_pos hp, if_pos hs]; rfl

/-! ## C05: access to components -/

/-- **C05 (poke then peek).** A valid poke changes component `k` only, and peek returns the
poked value (converted to the type of the elements). -/
theorem poke_peek (cast : F → F) (size : Sizes) (v : Vec) (k : Int) (value p : F) (m : Mem F)
    (hk : 0 ≤ k) (hk' : k < size v.space) :
    (vpoke cast size (some v) k value m).1 = .success ∧
    vpeek size (some v) k (some p) (vpoke cast size (some v) k value m).2
      = (.success, some (cast value)) ∧
    ∀ a, a ≠ v.data + k.toNat → (vpoke cast size (some v) k value m).2 a = m a := by
  have h : ¬ (k < 0 ∨ k ≥ size v.space) := by omega
  simp only [vpoke, vpeek, if_neg h, Vec.el, put]
  refine ⟨trivial, by simp, ?_⟩
  intro a ha
  rw [if_neg ha]

/-- **C05 (peek).** A valid peek returns the component and a status of success; peek never
changes the vectors (the model does not even return a memory). -/
theorem peek_spec (size : Sizes) (v : Vec) (k : Int) (p : F) (m : Mem F) (hk : 0 ≤ k)
    (hk' : k < size v.space) :
    vpeek size (some v) k (some p) m = (.success, some (v.el m k.toNat)) := by
  have h : ¬ (k < 0 ∨ k ≥ size v.space) := by omega
  simp only [vpeek, if_neg h]

/-- **C05 (errors).** `NULL` arguments and out of range indices are reported, without effect. -/
theorem access_errors (cast : F → F) (size : Sizes) (v : Vec) (k : Int) (value p : F) (m : Mem F) :
    vpoke cast size none k value m = (.illegalAddress, m) ∧
    vpeek size none k (some p) m = (.illegalAddress, some p) ∧
    vpeek size (some v) k none m = (.illegalAddress, none) ∧
    (k < 0 ∨ (size v.space : Int) ≤ k →
      vpoke cast size (some v) k value m = (.outOfBoundsIndex, m) ∧
      vpeek size (some v) k (some p) m = (.outOfBoundsIndex, some p)) := by
  refine ⟨rfl, rfl, rfl, ?_⟩
  intro h
  have h' : k < 0 ∨ k ≥ size v.space := h
  simp only [vpoke, vpeek, if_pos h']
  exact ⟨trivial, trivial⟩

theorem loop_arr (n : Nat) (f : Nat → F) (d : Nat → F) :
    (∀ i, i < n → loop (fun i d => put d i (f i)) n d i = f i) ∧
    (∀ i, n ≤ i → loop (fun i d => put d i (f i)) n d i = d i) := by
  have h := loop_put 0 n (fun i _ => f i) (fun _ _ _ _ _ => rfl) d
  simp only [Nat.zero_add] at h
  exact ⟨h.1, fun i hi => h.2 i (Or.inr hi)⟩

/-- **C05 (import, export).** Importing an array of the right size sets all the components
(converted to the type of the elements), changes nothing else, and exporting to an array of
the same type gives back the array, component by component. -/
theorem import_export (cast toFloat : F → F) (size : Sizes) (v : Vec) (src dst : Nat → F)
    (type : ElType) (ht : type ≠ .other) (m : Mem F) :
    let m' := (vimport cast size (some v) (some src) type (size v.space) m).2
    (vimport cast size (some v) (some src) type (size v.space) m).1 = .success ∧
    (∀ i, i < size v.space → v.el m' i = cast (src i)) ∧
    (∀ a, a < v.data ∨ v.data + size v.space ≤ a → m' a = m a) ∧
    ∃ out, vexport toFloat size (some dst) type (size v.space) (some v) m' = (.success, some out) ∧
      (∀ i, i < size v.space →
        out i = if type = .float then toFloat (cast (src i)) else cast (src i)) ∧
      (∀ i, size v.space ≤ i → out i = dst i) := by
  have hi : vimport cast size (some v) (some src) type (size v.space) m
      = (.success, loop (fun i m => put m (v.data + i) (cast (src i))) (size v.space) m) := by
    simp [vimport, ht]
  obtain ⟨h1, h2⟩ := loop_put v.data (size v.space) (fun i _ => cast (src i))
    (fun _ _ _ _ _ => rfl) m
  simp only [hi]
  refine ⟨trivial, h1, h2, ?_⟩
  cases type with
  | other => exact absurd rfl ht
  | float =>
    refine ⟨_, by simp [vexport]; rfl, ?_, ?_⟩
    · intro i hi
      rw [(loop_arr _ _ dst).1 i hi]
      simp only [Vec.el, if_true]
      rw [h1 i hi]
    · intro i hi; exact (loop_arr _ _ dst).2 i hi
  | double =>
    refine ⟨_, by simp [vexport]; rfl, ?_, ?_⟩
    · intro i hi
      rw [(loop_arr _ _ dst).1 i hi]
      simp only [Vec.el]
      rw [h1 i hi]; simp
    · intro i hi; exact (loop_arr _ _ dst).2 i hi

/-- **C05 (import, export: errors).** Wrong sizes, types or `NULL` arguments are rejected
without effect. -/
theorem transfer_errors (cast toFloat : F → F) (size : Sizes) (v : Vec) (src : Nat → F)
    (type : ElType) (n : Int) (m : Mem F) :
    (vimport cast size none (some src) type n m = (.illegalAddress, m) ∧
     vimport cast size (some v) none type n m = (.illegalAddress, m) ∧
     vexport toFloat size (some src) type n none m = (.illegalAddress, some src) ∧
     vexport toFloat size none type n (some v) m = (.illegalAddress, none)) ∧
    (type = .other ∨ n ≠ size v.space →
      vimport cast size (some v) (some src) type n m = (.invalidArgument, m) ∧
      vexport toFloat size (some src) type n (some v) m = (.invalidArgument, some src)) := by
  refine ⟨⟨rfl, rfl, rfl, rfl⟩, ?_⟩
  intro h
  rcases h with h | h
  · simp [vimport, vexport, h]
  · simp [vimport, vexport, h]

end

/-! ## C07: reductions -/

theorem loop_sum {F : Type} [AddCommMonoid F] (f : Nat → F) (n : Nat) :
    loop (fun j r => r + f j) n 0 = ∑ j ∈ Finset.range n, f j := by
  induction n with
  | zero => simp [loop]
  | succ n ih => rw [loop, ih, Finset.sum_range_succ]

/-- **C07 (inner products).** In exact arithmetic, `opk_vdot` and `opk_vdot3` are the sums of
the products; for vectors of different spaces the error handler is called and 0 returned. -/
theorem vdot_spec {F : Type} [Ring F] (size : Sizes) (w x y : Vec) (m : Mem F) :
    (y.space = x.space → vdot size x y m =
      { val := ∑ j ∈ Finset.range (size x.space), x.el m j * y.el m j, error := false }) ∧
    (y.space ≠ x.space → vdot size x y m = { val := 0, error := true }) ∧
    (x.space = w.space → y.space = w.space → vdot3 size w x y m =
      { val := ∑ j ∈ Finset.range (size w.space), w.el m j * x.el m j * y.el m j, error := false }) ∧
    (x.space ≠ w.space ∨ y.space ≠ w.space → vdot3 size w x y m = { val := 0, error := true }) := by
  refine ⟨fun h => ?_, fun h => ?_, fun h1 h2 => ?_, fun h => ?_⟩
  · rw [vdot, if_neg (by simpa using h), sdot, loop_sum]
  · rw [vdot, if_pos h]
  · rw [vdot3, if_neg (by simp [h1, h2]), sdot3, loop_sum]
  · rw [vdot3, if_pos (Or.inr h)]

/-- **C07 (L1 and Euclidean norms).** In exact arithmetic. -/
theorem vnorm12_spec (size : Sizes) (x : Vec) (m : Mem ℝ) :
    vnorm1 (fun t => |t|) size x m = ∑ j ∈ Finset.range (size x.space), |x.el m j| ∧
    vnorm2 Real.sqrt size x m = Real.sqrt (∑ j ∈ Finset.range (size x.space), (x.el m j) ^ 2) := by
  constructor
  · rw [vnorm1, snorm1, loop_sum]
  · rw [vnorm2, snorm2, loop_sum]; simp only [pow_two]

/-- **C07 (infinite norm).** For every totally ordered number type (in particular for NaN free
floating point numbers, no rounding is involved): the result bounds all the absolute values
and is one of them. -/
theorem vnorminf_spec {F : Type} [Zero F] [LinearOrder F] (abs : F → F)
    (habs : ∀ t, 0 ≤ abs t) (size : Sizes) (x : Vec) (m : Mem F) (hn : 1 ≤ size x.space) :
    (∀ j, j < size x.space → abs (x.el m j) ≤ vnorminf abs size x m) ∧
    ∃ j, j < size x.space ∧ vnorminf abs size x m = abs (x.el m j) := by
  unfold vnorminf snorminf
  generalize size x.space = n at hn
  have key : ∀ n, 1 ≤ n →
    (∀ j, j < n → abs (x.el m j) ≤
      loop (fun j r => if r < abs (x.el m j) then abs (x.el m j) else r) n 0) ∧
    ∃ j, j < n ∧
      loop (fun j r => if r < abs (x.el m j) then abs (x.el m j) else r) n 0 = abs (x.el m j) := by
    intro n hn
    induction n with
    | zero => omega
    | succ n ih =>
      simp only [loop]
      by_cases hn0 : n = 0
      · subst hn0
        have h0 := habs (x.el m 0)
        split
        · exact ⟨fun j hj => by rw [show j = 0 by omega], 0, by omega, rfl⟩
        · rename_i h
          simp only [loop] at h
          have e := le_antisymm (not_lt.1 h) h0
          exact ⟨fun j hj => by rw [show j = 0 by omega]; exact le_of_eq e, 0, by omega, e.symm⟩
      · obtain ⟨h1, j0, hj0, e⟩ := ih (by omega)
        split
        · rename_i hlt
          refine ⟨?_, n, by omega, rfl⟩
          intro j hj
          by_cases hjn : j = n
          · subst hjn; exact le_refl _
          · exact le_trans (h1 j (by omega)) (le_of_lt hlt)
        · rename_i hle
          refine ⟨?_, j0, by omega, e⟩
          intro j hj
          by_cases hjn : j = n
          · subst hjn; exact not_lt.1 hle
          · exact h1 j (by omega)
  exact key n hn

/-! ## C08: client data of wrapped vectors -/

/-- Merge runs of identical consecutive elements. -/
def merge : List FreeCall → List FreeCall
  | [] => []
  | [p] => [p]
  | p :: q :: l => if p = q then merge (q :: l) else p :: merge (q :: l)

theorem rewraps_calls (l : List (Nat × Nat × Nat)) : ∀ s : Wrapped,
    (rewraps s l).2 ++ finalizeVector (rewraps s l).1
      = (merge ((s.free, s.client) :: (l.filter (fun r => r.1 ≠ 0)).map (fun r => r.2))).filter
          (fun p => p.1 ≠ 0) := by
  induction l with
  | nil =>
    intro s
    simp only [rewraps, finalizeVector, merge, List.filter, List.map]
    by_cases h : s.free = 0 <;> simp [h]
  | cons r l ih =>
    intro s
    obtain ⟨d, f, c⟩ := r
    simp only [rewraps, List.append_assoc, ih]
    by_cases hd : d = 0
    · subst hd
      simp [rewrap]
    · simp only [rewrap, if_neg hd]
      rw [List.filter_cons_of_pos (by simpa using hd), List.map_cons, merge]
      by_cases he : (s.free, s.client) = (f, c)
      · rw [if_pos he]
        simp at he
        simp [he]
      · rw [if_neg he]
        have : s.free ≠ f ∨ s.client ≠ c := by
          by_cases h1 : s.free = f
          · right; intro h2; exact he (by rw [h1, h2])
          · left; exact h1
        by_cases hz : s.free = 0
        · rw [if_neg (by simp [hz]), List.filter_cons_of_neg (by simp [hz])]; rfl
        · rw [if_pos ⟨hz, this⟩, List.filter_cons_of_pos (by simp [hz])]; rfl

/-- **C08.** Over the whole life of a wrapped vector, the calls made to the client callbacks
are, in order, one for each (callback, data) pair successively registered: pairs with a `NULL`
callback are never called, consecutive registrations of the same pair count for one, and
re-wraps with `NULL` data (which fail) are ignored. -/
theorem wrapped_life (data free client : Nat) (hd : data ≠ 0) (l : List (Nat × Nat × Nat)) :
    life data free client l = some
      ((merge ((free, client) :: (l.filter (fun r => r.1 ≠ 0)).map (fun r => r.2))).filter
        (fun p => p.1 ≠ 0)) := by
  simp only [life, wrap, if_neg hd]
  rw [rewraps_calls]

/-- **C08 (failed wrap).** Wrapping `NULL` data fails and never calls the callback; a failing
re-wrap changes nothing. -/
theorem wrap_null (free client : Nat) (s : Wrapped) :
    wrap 0 free client = none ∧ rewrap s 0 free client = (.illegalAddress, s, []) :=
  ⟨rfl, rfl⟩

/-! ## Non-vacuity -/

/-- Three vectors of two elements: `x` and `y` at distinct places, `z` an alias of `x`. -/
def exX : Vec := { addr := 0, space := 0, data := 0 }
/-- See `exX`. -/
def exY : Vec := { addr := 1, space := 0, data := 2 }
/-- See `exX`. -/
def exZ : Vec := { addr := 2, space := 0, data := 0 }

instance : FloatLaws ℚ := ring_laws ℚ

/-- In place combination `z <- -x + 3 y` with `z` sharing the storage of `x`. -/
example : (fun _ => 2 : Sizes) exX.space = 2 ∧ SameOrApart 2 exZ exX ∧ SameOrApart 2 exZ exY ∧
    (vaxpby (fun t => t) (fun _ => 2) exZ (-1) exX 3 exY
      (fun a => (a : ℚ))).map (fun e => (e.mem 0, e.mem 1, e.mem 2, e.error)) = some (6, 8, 2, false) := by
  refine ⟨rfl, by simp [SameOrApart, exX, exZ], by simp [SameOrApart, exY, exZ], ?_⟩
  simp only [vaxpby, saxpby, exX, exY, exZ, fine, loop, put, Vec.el]
  norm_num [put]

example : life 1 7 3 [(2, 7, 3), (0, 9, 9), (3, 8, 1), (4, 0, 5), (5, 8, 1)]
    = some [(7, 3), (8, 1), (8, 1)] := by decide

end Opk.Vec
