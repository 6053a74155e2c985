import Verif.Bobyqa.Interpolates
import Verif.Bobyqa.Demo
import Verif.Newuoa.Constant

/-!
# A constant added to the objective function, in exact arithmetic (C100)

The runs of BOBYQA with the objective functions `f` and `f + c` are compared: the variables of the two runs are the same
except those which hold values of the objective function, and these differ by `c`.
-/
namespace Opk.Bobyqa.Constant
open Linalg CMath Cobyla Powell

set_option linter.unusedSectionVars false

/-- The variables which hold values of the objective function. -/
structure Vals (F : Type) where
  f : F
  fl : F
  fbeg : F
  fsave : F
  fbase : F
  fval : Nat → F
  log : List ((Nat → F) × F)

/-- These variables in a state. -/
def vals {F : Type} (s : St F) : Vals F := ⟨s.f, s.fl, s.fbeg, s.fsave, s.res.fbase, s.fval, s.log⟩

/-- The state with other values of these variables. -/
abbrev alt {F : Type} (s : St F) (v : Vals F) : St F :=
  { s with f := v.f, fl := v.fl, fbeg := v.fbeg, fsave := v.fsave, fval := v.fval, log := v.log, res := { s.res with fbase := v.fbase } }

/-- `trsbox` does not use the variables which hold values of the objective function. -/
def Blind {F : Type} (T : St F → Trs F) : Prop := ∀ s v, T (alt s v) = T s

variable {K : Type} [Field K] [LinearOrder K] [IsStrictOrderedRing K] [CMath K] [ExactMath K]

/-- The values of the second run are those of the first one plus `c`: the values at the first `m` points, `FBEG` if `B` holds, `FSAVE` if
`Q` holds, `F` if `G` holds, `FBASE` if `E` holds, and the calls. -/
structure Rise (c : K) (m : Nat) (B Q G E : Prop) (v v' : Vals K) : Prop where
  pts : ∀ j, 1 ≤ j → j ≤ m → v'.fval j = v.fval j + c
  b : B → v'.fbeg = v.fbeg + c
  q : Q → v'.fsave = v.fsave + c
  g : G → v'.f = v.f + c
  e : E → v'.fbase = v.fbase + c
  log : v'.log = v.log.map fun e => (e.1, e.2 + c)

theorem Rise.mono {c : K} {m m' : Nat} {B B' Q Q' G G' E E' : Prop} {v v' : Vals K} (h : Rise c m B Q G E v v') (hm : m' ≤ m) (hb : B' → B) (hq : Q' → Q)
    (hg : G' → G) (he : E' → E) : Rise c m' B' Q' G' E' v v' :=
  ⟨fun j j1 j2 => h.pts j j1 (le_trans j2 hm), fun q => h.b (hb q), fun q => h.q (hq q), fun q => h.g (hg q), fun q => h.e (he q), h.log⟩

/-- The number of values in `FVAL`; at the end, only the best one is needed. -/
def lev (p : Par K) : Lab → St K → Nat
  | .pre, s => s.nf
  | .done, s => s.kopt
  | .wrong, _ => 0
  | _, _ => p.npt

/-- There is a first value. -/
def isB : Lab → St K → Prop
  | .pre, s => 1 ≤ s.nf
  | _, _ => False

/-- `FSAVE` is set. -/
def isQ : Lab → Prop
  | .pre => False
  | .wrong => False
  | _ => True

/-- `F` is needed. -/
def isG : Lab → St K → Prop
  | .l650, s => s.ntrits ≠ -1
  | .l680, s => s.ntrits ≠ -1
  | .done, s => s.status = .success
  | _, _ => False

/-- `FBASE` is set. -/
def isE : Lab → Prop
  | .r80 => True
  | .r120 => True
  | .rpts => True
  | _ => False

/-- The best point and the point to be replaced are in range. -/
def Main1 (p : Par K) (s : St K) : Prop := (1 ≤ s.kopt ∧ s.kopt ≤ p.npt) ∧ s.knew ≤ p.npt

/-- The ranges of the indices at the labels. -/
def Iv (p : Par K) : Lab → St K → Prop
  | .pre, s => s.nf < p.npt ∧ (1 ≤ s.nf → 1 ≤ s.kopt ∧ s.kopt ≤ s.nf) ∧ s.knew ≤ p.npt
  | .rpts, s => Main1 p s ∧ 1 ≤ s.res.kpt
  | .done, s => 1 ≤ s.kopt
  | .ret, _ => False
  | .wrong, _ => True
  | _, s => Main1 p s

/-- The two runs are at the same label and their variables differ only by the values of the objective function. -/
def Sim (p : Par K) (c : K) (ls ls' : Lab × St K) : Prop :=
  Iv p ls.1 ls.2 ∧ ∃ v, ls' = (ls.1, alt ls.2 v) ∧ Rise c (lev p ls.1 ls.2) (isB ls.1 ls.2) (isQ ls.1) (isG ls.1 ls.2) (isE ls.1) (vals ls.2) v

/-- The two runs at the end. -/
def Final (c : K) (ls ls' : Lab × St K) : Prop :=
  ls.1 = .ret ∧ ls'.1 = .ret ∧ ls'.2.status = ls.2.status ∧ ls'.2.x = ls.2.x ∧ ls'.2.log = ls.2.log.map (fun e => (e.1, e.2 + c)) ∧
    ls'.2.xbase 1 = if ls.2.status = .success then ls.2.xbase 1 + c else ls.2.xbase 1

/-! ### `prelim` -/

theorem prelimPoint_alt (p : Par K) (s : St K) (v : Vals K) (nf : Nat) : prelimPoint p (alt s v) nf = alt (prelimPoint p s nf) v := by
  unfold prelimPoint
  dsimp only
  split_ifs <;> rfl

theorem prelimPoint_same (p : Par K) (s : St K) (nf : Nat) : vals (prelimPoint p s nf) = vals s ∧ (prelimPoint p s nf).nf = s.nf ∧ (prelimPoint p s nf).kopt = s.kopt ∧
    (prelimPoint p s nf).knew = s.knew ∧ (2 * p.n + 1 < nf → (prelimPoint p s nf).ipt = (prelimPair p nf).1 ∧ (prelimPoint p s nf).jpt = (prelimPair p nf).2) := by
  unfold prelimPoint
  dsimp only
  by_cases q : nf - 1 ≤ 2 * p.n
  · rw [if_pos q]
    split_ifs
    all_goals exact ⟨rfl, rfl, rfl, rfl, fun a => absurd a (by omega)⟩
  · rw [if_neg q]
    exact ⟨rfl, rfl, rfl, rfl, fun _ => ⟨rfl, rfl⟩⟩

/-- What is known in `prelim` after a call: `fl` is the value at the point `nf`. -/
structure Half (p : Par K) (c : K) (s : St K) (v : Vals K) : Prop where
  n1 : 1 ≤ s.nf
  n2 : s.nf ≤ p.npt
  k : 1 ≤ s.kopt ∧ s.kopt ≤ s.nf
  kn : s.knew ≤ p.npt
  ij : 2 * p.n + 1 < s.nf → (1 ≤ s.ipt ∧ s.ipt ≤ p.n) ∧ 1 ≤ s.jpt ∧ s.jpt ≤ p.n
  fl : v.fl = s.fl + c
  r : Rise c s.nf True False False False (vals s) v

theorem store_half {p : Par K} {c : K} {s : St K} {v : Vals K} (n1 : 1 ≤ s.nf) (n2 : s.nf ≤ p.npt) (hk : 2 ≤ s.nf → 1 ≤ s.kopt ∧ s.kopt ≤ s.nf - 1) (kn : s.knew ≤ p.npt)
    (ij : 2 * p.n + 1 < s.nf → (1 ≤ s.ipt ∧ s.ipt ≤ p.n) ∧ 1 ≤ s.jpt ∧ s.jpt ≤ p.n) (fl : v.fl = s.fl + c)
    (r : Rise c (s.nf - 1) (2 ≤ s.nf) False False False (vals s) v) :
    ∃ v', prelimStore (alt s v) = alt (prelimStore s) v' ∧ Half p c (prelimStore s) v' ∧ (prelimStore s).nf = s.nf := by
  have hf : ∀ j, 1 ≤ j → j ≤ s.nf → set1 v.fval s.nf v.fl j = set1 s.fval s.nf s.fl j + c := by
    intro j j1 j2
    unfold set1
    by_cases q : j = s.nf
    · rw [if_pos q, if_pos q]; exact fl
    · rw [if_neg q, if_neg q]
      exact r.pts j j1 (by omega)
  unfold prelimStore
  dsimp only
  by_cases q : s.nf = 1
  · rw [if_pos q, if_pos q]
    exact ⟨⟨v.f, v.fl, v.fl, v.fsave, v.fbase, set1 v.fval s.nf v.fl, v.log⟩, rfl,
      ⟨n1, n2, ⟨le_refl _, n1⟩, kn, ij, fl, ⟨hf, fun _ => fl, fun a => a.elim, fun a => a.elim, fun a => a.elim, r.log⟩⟩, rfl⟩
  · rw [if_neg q, if_neg q]
    obtain ⟨k1, k2⟩ := hk (by omega)
    have hc : (v.fl < set1 v.fval s.nf v.fl s.kopt) ↔ (s.fl < set1 s.fval s.nf s.fl s.kopt) := by
      rw [hf _ k1 (by omega), fl]; exact add_lt_add_iff_right c
    simp only [hc]
    refine ⟨⟨v.f, v.fl, v.fbeg, v.fsave, v.fbase, set1 v.fval s.nf v.fl, v.log⟩, rfl,
      ⟨n1, n2, ?_, kn, ij, fl, ⟨hf, fun _ => r.b (by omega), fun a => a.elim, fun a => a.elim, fun a => a.elim, r.log⟩⟩, trivial⟩
    dsimp only
    split_ifs <;> omega

theorem swap_half {p : Par K} {c : K} {s : St K} {v : Vals K} (hn : p.n + 2 ≤ s.nf) (h : Half p c s v) :
    ∃ v', prelimSwap p (alt s v) = alt (prelimSwap p s) v' ∧ Half p c (prelimSwap p s) v' ∧ (prelimSwap p s).nf = s.nf := by
  have e : v.fval (s.nf - p.n) = s.fval (s.nf - p.n) + c := h.r.pts _ (by omega) (by omega)
  have hc : (v.fl < v.fval (s.nf - p.n)) ↔ (s.fl < s.fval (s.nf - p.n)) := by
    rw [e, h.fl]; exact add_lt_add_iff_right c
  unfold prelimSwap
  dsimp only
  by_cases q : s.stepa * s.stepb < 0
  · rw [if_pos q, if_pos q]
    by_cases q2 : s.fl < s.fval (s.nf - p.n)
    · rw [if_pos q2, if_pos (hc.mpr q2)]
      refine ⟨⟨v.f, v.fl, v.fbeg, v.fsave, v.fbase, set1 (set1 v.fval s.nf (v.fval (s.nf - p.n))) (s.nf - p.n) v.fl, v.log⟩, rfl,
        ⟨h.n1, h.n2, ?_, h.kn, h.ij, h.fl, ⟨fun j j1 j2 => ?_, h.r.b, fun a => a.elim, fun a => a.elim, fun a => a.elim, h.r.log⟩⟩, rfl⟩
      · have := h.k
        dsimp only
        split_ifs <;> omega
      · show set1 (set1 v.fval s.nf (v.fval (s.nf - p.n))) (s.nf - p.n) v.fl j = set1 (set1 s.fval s.nf (s.fval (s.nf - p.n))) (s.nf - p.n) s.fl j + c
        unfold set1
        by_cases a : j = s.nf - p.n
        · rw [if_pos a, if_pos a]; exact h.fl
        · rw [if_neg a, if_neg a]
          by_cases b : j = s.nf
          · rw [if_pos b, if_pos b]; exact e
          · rw [if_neg b, if_neg b]; exact h.r.pts j j1 j2
    · rw [if_neg q2, if_neg (fun a => q2 (hc.mp a))]
      exact ⟨v, rfl, h, rfl⟩
  · rw [if_neg q, if_neg q]
    exact ⟨v, rfl, h, rfl⟩

theorem model_half {p : Par K} {c : K} {s : St K} {v : Vals K} (h : Half p c s v) :
    ∃ v', prelimModel p (alt s v) = alt (prelimModel p s) v' ∧ Half p c (prelimModel p s) v' ∧ (prelimModel p s).nf = s.nf := by
  have b2 : v.fbeg = s.fbeg + c := h.r.b trivial
  have e1 : v.fl - v.fbeg = s.fl - s.fbeg := by rw [h.fl, b2]; ring
  unfold prelimModel
  by_cases q : s.nf ≤ 2 * p.n + 1
  · rw [if_pos q, if_pos q]
    by_cases q1 : 2 ≤ s.nf ∧ s.nf ≤ p.n + 1
    · rw [if_pos q1, if_pos q1]
      unfold prelimModelA
      dsimp only
      rw [e1]
      by_cases q3 : p.npt < s.nf + p.n
      · rw [if_pos q3, if_pos q3]; exact ⟨v, rfl, ⟨h.n1, h.n2, h.k, h.kn, h.ij, h.fl, h.r⟩, rfl⟩
      · rw [if_neg q3, if_neg q3]; exact ⟨v, rfl, ⟨h.n1, h.n2, h.k, h.kn, h.ij, h.fl, h.r⟩, rfl⟩
    · rw [if_neg q1, if_neg q1]
      by_cases q2 : p.n + 2 ≤ s.nf
      · rw [if_pos q2, if_pos q2]
        have e2 : prelimQuad p (alt s v) = alt (prelimQuad p s) v := by
          unfold prelimQuad
          dsimp only
          rw [e1]
        rw [e2]
        have h2 : Half p c (prelimQuad p s) v := ⟨h.n1, h.n2, h.k, h.kn, h.ij, h.fl, h.r⟩
        obtain ⟨v', e3, h3, n3⟩ := swap_half (s := prelimQuad p s) q2 h2
        rw [e3]
        exact ⟨v', rfl, ⟨h3.n1, h3.n2, h3.k, h3.kn, h3.ij, h3.fl, h3.r⟩, n3⟩
      · rw [if_neg q2, if_neg q2]; exact ⟨v, rfl, h, rfl⟩
  · rw [if_neg q, if_neg q]
    obtain ⟨⟨i1, i2⟩, j1, j2⟩ := h.ij (by omega)
    have f1 : v.fval (s.ipt + 1) = s.fval (s.ipt + 1) + c := h.r.pts _ (by omega) (by omega)
    have f2 : v.fval (s.jpt + 1) = s.fval (s.jpt + 1) + c := h.r.pts _ (by omega) (by omega)
    have e3 : v.fbeg - v.fval (s.ipt + 1) - v.fval (s.jpt + 1) + v.fl = s.fbeg - s.fval (s.ipt + 1) - s.fval (s.jpt + 1) + s.fl := by
      rw [f1, f2, b2, h.fl]; ring
    unfold prelimModelC
    dsimp only
    rw [e3]
    exact ⟨v, rfl, ⟨h.n1, h.n2, h.k, h.kn, h.ij, h.fl, h.r⟩, rfl⟩

/-- The objective function is called. -/
theorem call_alt {c : K} {g g' : Nat → (Nat → K) → K} (hg : ∀ k x, g' k x = g k x + c) (x : Nat → K) (s : St K) (v : Vals K) :
    call g' x (alt s v) = alt (call g x s) ⟨v.f, g s.nf x + c, v.fbeg, v.fsave, v.fbase, v.fval, (x, g s.nf x + c) :: v.log⟩ := by
  unfold call
  dsimp only
  rw [hg]

theorem sim_prelim {p : Par K} (hp : Newuoa.Valid p.nw) {c : K} {g g' : Nat → (Nat → K) → K} (hg : ∀ k x, g' k x = g k x + c) {s : St K} {v : Vals K}
    (h : Iv p .pre s) (r : Rise c s.nf (1 ≤ s.nf) False False False (vals s) v) : Sim p c (prelim p g s) (prelim p g' (alt s v)) := by
  obtain ⟨h1, h2, h3⟩ := h
  unfold prelim
  dsimp only
  rw [prelimPoint_alt]
  obtain ⟨a1, a2, a3, a4, a5⟩ := prelimPoint_same p s (s.nf + 1)
  have a5 : 2 * p.n + 1 < s.nf + 1 → _ := a5
  generalize prelimPoint p s (s.nf + 1) = t at *
  have hx : prelimX p (alt t v) ((alt t v).nf + 1) = prelimX p t (t.nf + 1) := rfl
  rw [hx]
  generalize prelimX p t (t.nf + 1) = x
  rw [show ({ alt t v with x := x } : St K) = alt { t with x := x } v from rfl, call_alt hg]
  rw [← a1, ← a2] at r
  have hl : (x, g t.nf x + c) :: v.log = ((x, g t.nf x) :: t.log).map fun e => (e.1, e.2 + c) := by
    rw [List.map_cons, r.log]; rfl
  have r2 : Rise c t.nf (2 ≤ t.nf + 1) False False False (vals (call g x { t with x := x })) ⟨v.f, g t.nf x + c, v.fbeg, v.fsave, v.fbase, v.fval, (x, g t.nf x + c) :: v.log⟩ :=
    ⟨r.pts, fun a => r.b (by omega), fun a => a.elim, fun a => a.elim, fun a => a.elim, hl⟩
  have hpair : 2 * p.n + 1 < t.nf + 1 → (1 ≤ t.ipt ∧ t.ipt ≤ p.n) ∧ 1 ≤ t.jpt ∧ t.jpt ≤ p.n := by
    intro a
    rw [a2] at a
    obtain ⟨b1, b2⟩ := a5 a
    obtain ⟨c1, c2, c3⟩ := Newuoa.pair_spec hp (nf := s.nf + 1) a (by show s.nf + 1 ≤ p.npt; omega)
    rw [← prelimPair_eq] at c1 c2 c3
    have c3 : (prelimPair p (s.nf + 1)).1 ≤ p.n := c3
    rw [b1, b2]
    omega
  obtain ⟨v2, e2, h5, n5⟩ := store_half (p := p) (s := call g x { t with x := x }) (v := ⟨v.f, g t.nf x + c, v.fbeg, v.fsave, v.fbase, v.fval, (x, g t.nf x + c) :: v.log⟩)
    (by show 1 ≤ t.nf + 1; omega) (by show t.nf + 1 ≤ p.npt; omega)
    (by
      intro a
      have a : 2 ≤ t.nf + 1 := a
      have := h2 (by omega)
      show 1 ≤ t.kopt ∧ t.kopt ≤ t.nf + 1 - 1
      omega)
    (by show t.knew ≤ p.npt; omega) hpair rfl r2
  rw [e2]
  obtain ⟨v3, e3, h6, n6⟩ := model_half h5
  rw [e3]
  generalize prelimModel p (prelimStore (call g x { t with x := x })) = u at *
  rw [show (alt u v3).nf = u.nf from rfl]
  by_cases q : u.nf < p.npt ∧ (u.nf : Int) < p.maxfun
  · rw [if_pos q, if_pos q]
    exact ⟨⟨q.1, fun _ => h6.k, h6.kn⟩, v3, rfl, h6.r.mono (le_refl _) (fun _ => trivial) id (fun a => a.elim) id⟩
  · rw [if_neg q, if_neg q]
    have e4 : v3.fval 1 = u.fval 1 + c := h6.r.pts 1 (le_refl _) h6.n1
    unfold begin fail
    dsimp only
    by_cases q2 : u.nf < p.npt
    · rw [if_pos q2, if_pos q2]
      exact ⟨h6.k.1, ⟨v3.f, v3.fl, v3.fbeg, v3.fval 1, v3.fbase, v3.fval, v3.log⟩, rfl,
        ⟨fun j j1 j2 => h6.r.pts j j1 (le_trans j2 h6.k.2), fun a => a.elim, fun _ => e4, fun a => Status.noConfusion a, fun a => a.elim, h6.r.log⟩⟩
    · rw [if_neg q2, if_neg q2]
      have := h6.n2
      exact ⟨⟨⟨h6.k.1, le_trans h6.k.2 h6.n2⟩, h6.kn⟩, ⟨v3.f, v3.fl, v3.fbeg, v3.fval 1, v3.fbase, v3.fval, v3.log⟩, rfl,
        ⟨fun j j1 j2 => h6.r.pts j j1 (by have : j ≤ p.npt := j2; omega), fun a => a.elim, fun _ => e4, fun a => a.elim, fun a => a.elim, h6.r.log⟩⟩

/-! ### The steps without calls -/

theorem sim_fail {p : Par K} {c : K} {s : St K} {v : Vals K} {st : Status} (h : Main1 p s) (hs : st ≠ .success) {G E : Prop} (r : Rise c p.npt False True G E (vals s) v) :
    Sim p c (fail st s) (fail st (alt s v)) :=
  ⟨h.1.1, v, rfl, ⟨fun j j1 j2 => r.pts j j1 (le_trans j2 h.1.2), fun a => a.elim, fun _ => r.q trivial, fun a => absurd a hs, fun a => a.elim, r.log⟩⟩

theorem sim_l20 {p : Par K} {c : K} {s : St K} {v : Vals K} (h : Main1 p s) (r : Rise c p.npt False True False False (vals s) v) :
    Sim p c (l20 p s) (l20 p (alt s v)) := by
  unfold l20
  dsimp only
  by_cases q : s.kopt ≠ s.kbase
  · rw [if_pos q, if_pos q]; exact ⟨h, v, rfl, r⟩
  · rw [if_neg q, if_neg q]; exact ⟨h, v, rfl, r⟩

theorem sim_short {p : Par K} {c : K} {g : Nat → K} {s : St K} {v : Vals K} (h : Main1 p s) (r : Rise c p.npt False True False False (vals s) v) :
    Sim p c (short p g s) (short p g (alt s v)) := by
  have r' : ∀ n : Int, n = -1 → Rise c p.npt False True (n ≠ -1) False (vals s) v := fun n hn => r.mono (le_refl _) id id (fun a => absurd hn a) id
  unfold short
  dsimp only
  by_cases q : s.nf ≤ s.nfsav + 2
  · rw [if_pos q, if_pos q]; exact ⟨h, v, rfl, r' _ rfl⟩
  · rw [if_neg q, if_neg q]
    by_cases q2 : s.crvmin > 0 ∧ cmax (cmax s.diffa s.diffb) s.diffc > s.rho * lit 1 8 * s.rho * s.crvmin
    · rw [if_pos q2, if_pos q2]; exact ⟨h, v, rfl, r' _ rfl⟩
    · rw [if_neg q2, if_neg q2]
      have e : boundTest p { alt s v with distsq := lit 100 1 * s.rho * s.rho, ntrits := -1 } g (cmax (cmax s.diffa s.diffb) s.diffc / s.rho) =
        boundTest p { s with distsq := lit 100 1 * s.rho * s.rho, ntrits := -1 } g (cmax (cmax s.diffa s.diffb) s.diffc / s.rho) := rfl
      cases q3 : boundTest p { s with distsq := lit 100 1 * s.rho * s.rho, ntrits := -1 } g (cmax (cmax s.diffa s.diffb) s.diffc / s.rho)
      · rw [q3] at e
        rw [if_neg (by simp), if_neg (by rw [e]; simp)]; exact ⟨h, v, rfl, r' _ rfl⟩
      · rw [q3] at e
        rw [if_pos rfl, if_pos e]; exact ⟨h, v, rfl, r' _ rfl⟩

theorem sim_l60 {p : Par K} {T : St K → Trs K} (hT : Blind T) {c : K} {s : St K} {v : Vals K} (h : Main1 p s) (r : Rise c p.npt False True False False (vals s) v) :
    Sim p c (l60 p T s) (l60 p T (alt s v)) := by
  unfold l60
  dsimp only
  rw [hT s v]
  rw [show boxStep (alt s v) (T s) = boxStep s (T s) from rfl]
  generalize boxStep s (T s) = b
  by_cases q : cmin (sqrt (acc p.n (fun i => (b i - s.xopt i) * (b i - s.xopt i)) 0)) s.delta < lit 1 2 * s.rho
  · rw [if_pos q, if_pos q]
    exact sim_short (s := { s with xnew := b, d := fun i => b i - s.xopt i, dsq := acc p.n (fun i => (b i - s.xopt i) * (b i - s.xopt i)) 0, crvmin := (T s).crvmin, dnorm := cmin (sqrt (acc p.n (fun i => (b i - s.xopt i) * (b i - s.xopt i)) 0)) s.delta }) h r
  · rw [if_neg q, if_neg q]; exact ⟨h, v, rfl, r⟩

theorem sim_l90 {p : Par K} {c : K} {s : St K} {v : Vals K} (h : Main1 p s) (r : Rise c p.npt False True False False (vals s) v) :
    Sim p c (l90 p s) (l90 p (alt s v)) := by
  unfold l90
  dsimp only
  by_cases q : s.dsq ≤ s.xoptsq * lit 1 1000
  · rw [if_pos q, if_pos q]
    rw [show shift p (alt s v) = alt (shift p s) v from rfl]
    have h : Main1 p (shift p s) := h
    have r : Rise c p.npt False True False False (vals (shift p s)) v := r
    generalize shift p s = t at *
    by_cases q2 : t.ntrits = 0
    · rw [if_pos q2]; exact ⟨h, v, rfl, r⟩
    · rw [if_neg q2]; exact ⟨h, v, rfl, r⟩
  · rw [if_neg q, if_neg q]
    by_cases q2 : s.ntrits = 0
    · rw [if_pos q2]; exact ⟨h, v, rfl, r⟩
    · rw [if_neg q2]; exact ⟨h, v, rfl, r⟩

theorem sim_l190 {p : Par K} {c : K} {s : St K} {v : Vals K} (h : Main1 p s) (r : Rise c p.npt False True False False (vals s) v) :
    Sim p c (l190 p s) (l190 p (alt s v)) :=
  ⟨h, ⟨v.f, v.fl, v.fbeg, v.fsave, v.fval s.kopt, v.fval, v.log⟩, rfl, ⟨r.pts, r.b, r.q, r.g, fun _ => r.pts _ h.1.1 h.1.2, r.log⟩⟩

theorem sim_r80 {p : Par K} {c : K} {s : St K} {v : Vals K} (h : Main1 p s) (r : Rise c p.npt False True False True (vals s) v) :
    Sim p c (r80 p s) (r80 p (alt s v)) := by
  unfold r80
  dsimp only
  by_cases q : s.res.knew ≠ s.kopt
  · rw [if_pos q, if_pos q]
    by_cases q2 : s.res.nrem - 1 = 0
    · rw [if_pos q2, if_pos q2]; exact ⟨h, v, rfl, r.mono (le_refl _) id id id (fun _ => trivial)⟩
    · rw [if_neg q2, if_neg q2]; exact ⟨h, v, rfl, r⟩
  · rw [if_neg q, if_neg q]; exact ⟨h, v, rfl, r⟩

theorem sim_r120 {p : Par K} {c : K} {s : St K} {v : Vals K} (h : Main1 p s) (r : Rise c p.npt False True False True (vals s) v) :
    Sim p c (r120 p s) (r120 p (alt s v)) := by
  unfold r120
  dsimp only
  rw [show rescuePick p (alt s v) = rescuePick p s from rfl]
  generalize rescuePick p s = k
  by_cases q : k.2 = 0
  · rw [if_pos q, if_pos q]; exact ⟨⟨h, le_refl _⟩, v, rfl, r⟩
  · rw [if_neg q, if_neg q]
    rw [show rescueVlag p (alt s v) (fun j => s.xpt k.1 j) = rescueVlag p s (fun j => s.xpt k.1 j) from rfl]
    generalize rescueVlag p s (fun j => s.xpt k.1 j) = vb
    rw [show rescueOld p (alt s v) vb.1 vb.2 = rescueOld p s vb.1 vb.2 from rfl]
    generalize rescueOld p s vb.1 vb.2 = old
    by_cases q2 : old.2.1 ≤ old.2.2 * lit 1 100
    · rw [if_pos q2, if_pos q2]; exact ⟨h, v, rfl, r⟩
    · rw [if_neg q2, if_neg q2]; exact ⟨h, v, rfl, r⟩

theorem sim_l190b {p : Par K} {c : K} {s : St K} {v : Vals K} (h : Main1 p s) (r : Rise c p.npt False True False False (vals s) v) :
    Sim p c (l190b p s) (l190b p (alt s v)) := by
  have key : ∀ {t : St K}, Main1 p t → Rise c p.npt False True False False (vals t) v →
      Sim p c (if t.res.kpt = 0 then fail .tooManyEvaluations t else if t.nfsav < t.nf then (.l20, { t with nresc := t.nf, nfsav := t.nf })
        else if t.ntrits > 0 then (.l60, { t with nresc := t.nf }) else (.l210, { t with nresc := t.nf }))
      (if (alt t v).res.kpt = 0 then fail .tooManyEvaluations (alt t v) else if (alt t v).nfsav < (alt t v).nf then (.l20, { alt t v with nresc := (alt t v).nf, nfsav := (alt t v).nf })
        else if (alt t v).ntrits > 0 then (.l60, { alt t v with nresc := (alt t v).nf }) else (.l210, { alt t v with nresc := (alt t v).nf })) := by
    intro t h r
    by_cases q : t.res.kpt = 0
    · rw [if_pos q, if_pos q]; exact sim_fail h (by decide) r
    · rw [if_neg q, if_neg q]
      by_cases q2 : t.nfsav < t.nf
      · rw [if_pos q2, if_pos q2]; exact ⟨h, v, rfl, r⟩
      · rw [if_neg q2, if_neg q2]
        by_cases q3 : t.ntrits > 0
        · rw [if_pos q3, if_pos q3]; exact ⟨h, v, rfl, r⟩
        · rw [if_neg q3, if_neg q3]; exact ⟨h, v, rfl, r⟩
  unfold l190b
  by_cases q : s.kopt ≠ s.kbase
  · rw [if_pos q, if_pos q]
    exact key (t := { s with xopt := fun i => s.xpt s.kopt i, xoptsq := acc p.n (fun i => s.xpt s.kopt i * s.xpt s.kopt i) 0 }) h r
  · rw [if_neg q, if_neg q]
    exact key (t := { s with xoptsq := 0 }) h r

theorem fixLoop_alt (p : Par K) (s : St K) (v : Vals K) (g : Nat → K) (fuel : Nat) : ∀ x : Fix K, fixLoop p (alt s v) g fuel x = fixLoop p s g fuel x := by
  induction fuel with
  | zero => intro x; rfl
  | succ n ih =>
    intro x
    unfold fixLoop
    dsimp only
    rw [show fixPass p (alt s v) g x = fixPass p s g x from rfl, ih]

theorem cauchyStep_alt (p : Par K) (s : St K) (v : Vals K) (b : Bool) (g : Nat → K) : cauchyStep p (alt s v) b g = cauchyStep p s b g := by
  unfold cauchyStep
  dsimp only
  rw [show cauchyFree p (alt s v) g = cauchyFree p s g from rfl, fixLoop_alt]
  generalize fixLoop p s g (p.n + 1) ⟨(cauchyFree p s g).1, 0, (cauchyFree p s g).2, 0⟩ = x
  rw [show cauchyPoint (alt s v) g x = cauchyPoint s g x from rfl, show hcol p (alt s v) = hcol p s from rfl]

theorem altCauchy_alt (p : Par K) (s : St K) (v : Vals K) : altCauchy p (alt s v) = altCauchy p s := by
  unfold altCauchy
  rw [cauchyStep_alt, cauchyStep_alt, show glag p (alt s v) = glag p s from rfl]

theorem sim_l210 {p : Par K} {c : K} {s : St K} {v : Vals K} (h : Main1 p s) (r : Rise c p.npt False True False False (vals s) v) :
    Sim p c (l210 p s) (l210 p (alt s v)) := by
  unfold l210
  dsimp only
  rw [show altNew p (Constant.alt s v) = altNew p s from rfl, altCauchy_alt]
  exact ⟨h, v, rfl, r⟩

theorem pickKnew_le (p : Par K) (s : St K) (skip : Nat) (y : Nat → K) : (pickKnew p s skip y).2.2.1 ≤ p.npt := by
  unfold pickKnew
  dsimp only
  refine up_inv (fun n (t : K × K × Nat × K) => t.2.2.1 ≤ n) p.npt (Nat.zero_le _) ?_
  intro k _ t ht
  split_ifs
  all_goals first | exact le_refl _ | omega | (dsimp only; omega)

theorem sim_damaged {p : Par K} {c : K} {s : St K} {v : Vals K} (h : Main1 p s) (r : Rise c p.npt False True False False (vals s) v) :
    Sim p c (damaged s) (damaged (alt s v)) := by
  unfold damaged
  dsimp only
  by_cases q : s.nf > s.nresc
  · rw [if_pos q, if_pos q]; exact ⟨h, v, rfl, r⟩
  · rw [if_neg q, if_neg q]; exact sim_fail h (by decide) r

/-- The label 230 once `VLAG` and `BETA` are computed. -/
def rest230 (p : Par K) (s : St K) : Lab × St K :=
  if s.ntrits = 0 then
    let s := { s with denom := s.vlag s.knew * s.vlag s.knew + s.alpha * s.beta }
    if s.denom < s.cauchy ∧ s.cauchy > 0 then
      (.l230, { s with xnew := s.xalt, d := fun i => s.xalt i - s.xopt i, cauchy := 0 })
    else if s.denom ≤ lit 1 2 * (s.vlag s.knew * s.vlag s.knew) then damaged s
    else (.l360, s)
  else
    let t := pickKnew p s s.kopt s.xopt
    let s := { s with knew := t.2.2.1, denom := t.2.2.2 }
    if t.1 ≤ lit 1 2 * t.2.1 then damaged s else (.l360, s)

theorem sim_rest230 {p : Par K} {c : K} {s : St K} {v : Vals K} (h : Main1 p s) (r : Rise c p.npt False True False False (vals s) v) :
    Sim p c (rest230 p s) (rest230 p (alt s v)) := by
  unfold rest230
  dsimp only
  by_cases q : s.ntrits = 0
  · rw [if_pos q, if_pos q]
    generalize s.vlag s.knew * s.vlag s.knew + s.alpha * s.beta = den
    by_cases q2 : den < s.cauchy ∧ s.cauchy > 0
    · rw [if_pos q2, if_pos q2]; exact ⟨h, v, rfl, r⟩
    · rw [if_neg q2, if_neg q2]
      by_cases q3 : den ≤ lit 1 2 * (s.vlag s.knew * s.vlag s.knew)
      · rw [if_pos q3, if_pos q3]; exact sim_damaged (s := { s with denom := den }) h r
      · rw [if_neg q3, if_neg q3]; exact ⟨h, v, rfl, r⟩
  · rw [if_neg q, if_neg q]
    rw [show pickKnew p (alt s v) s.kopt s.xopt = pickKnew p s s.kopt s.xopt from rfl]
    have hk := pickKnew_le p s s.kopt s.xopt
    generalize pickKnew p s s.kopt s.xopt = t at *
    by_cases q2 : t.1 ≤ lit 1 2 * t.2.1
    · rw [if_pos q2, if_pos q2]; exact sim_damaged (s := { s with knew := t.2.2.1, denom := t.2.2.2 }) ⟨h.1, hk⟩ r
    · rw [if_neg q2, if_neg q2]; exact ⟨⟨h.1, hk⟩, v, rfl, r⟩

theorem sim_l230 {p : Par K} {c : K} {s : St K} {v : Vals K} (h : Main1 p s) (r : Rise c p.npt False True False False (vals s) v) :
    Sim p c (l230 p s) (l230 p (alt s v)) := by
  have e : ∀ t : St K, l230 p t = rest230 p { t with vlag := (vlagBeta p t).1, beta := (vlagBeta p t).2, wd := ptsD p t, dsq := acc p.n (fun j => t.d j * t.d j) 0 } := fun _ => rfl
  rw [e, e]
  exact sim_rest230 (s := { s with vlag := (vlagBeta p s).1, beta := (vlagBeta p s).2, wd := ptsD p s, dsq := acc p.n (fun j => s.d j * s.d j) 0 }) h r

/-! ### The points of `rescue` -/

theorem up_plus (a : Nat → K) (c : K) (n : Nat) (x : K) : up n (fun k t => t + a k) (x + c) = up n (fun k t => t + a k) x + c := by
  induction n with
  | zero => rfl
  | succ n ih => rw [up_succ, up_succ, ih]; ring

theorem rescueQuad_rise {p : Par K} {c : K} {s : St K} {v : Vals K} (h : v.fbase = s.res.fbase + c) (id : Nat × Nat) :
    rescueQuad p (alt s v) id = rescueQuad p s id + c := by
  unfold rescueQuad
  dsimp only
  rw [← up_plus, h]
  congr 1
  split_ifs <;> ring

theorem sim_rpts {p : Par K} {c : K} {g g' : Nat → (Nat → K) → K} (hg : ∀ k x, g' k x = g k x + c) {s : St K} {v : Vals K} (h : Main1 p s) (hk : 1 ≤ s.res.kpt)
    (r : Rise c p.npt False True False True (vals s) v) : Sim p c (rpts p g s) (rpts p g' (alt s v)) := by
  unfold rpts
  dsimp only
  by_cases q : s.res.kpt ≤ p.npt
  · rw [if_pos q, if_pos q]
    cases hid : s.res.ptsid s.res.kpt with
    | none => exact ⟨⟨h, by show 1 ≤ s.res.kpt + 1; omega⟩, v, rfl, r⟩
    | some id =>
      dsimp only
      by_cases q2 : p.maxfun ≤ s.nf
      · rw [if_pos q2, if_pos q2]; exact ⟨h, v, rfl, r.mono (le_refl _) (fun a => a) (fun a => a) (fun a => a) (fun _ => trivial)⟩
      · rw [if_neg q2, if_neg q2]
        rw [show rescueMove (alt s v) id = alt (rescueMove s id) v from rfl]
        have h : Main1 p (rescueMove s id) := h
        have hk : 1 ≤ (rescueMove s id).res.kpt := hk
        have q : (rescueMove s id).res.kpt ≤ p.npt := q
        have r : Rise c p.npt False True False True (vals (rescueMove s id)) v := r
        generalize rescueMove s id = t at *
        rw [rescueQuad_rise (r.e trivial)]
        unfold rescueCall
        rw [show place p (alt t v) (fun i => (alt t v).xpt (alt t v).res.kpt i) = place p t (fun i => t.xpt t.res.kpt i) from rfl]
        generalize place p t (fun i => t.xpt t.res.kpt i) = x
        rw [call_alt hg]
        generalize rescueQuad p t id = vq
        have hf : ∀ j, 1 ≤ j → j ≤ p.npt → set1 v.fval t.res.kpt (g t.nf x + c) j = set1 t.fval t.res.kpt (g t.nf x) j + c := by
          intro j j1 j2
          unfold set1
          by_cases q : j = t.res.kpt
          · rw [if_pos q, if_pos q]
          · rw [if_neg q, if_neg q]; exact r.pts j j1 j2
        have hl : (x, g t.nf x + c) :: v.log = ((x, g t.nf x) :: t.log).map fun e => (e.1, e.2 + c) := by
          rw [List.map_cons, r.log]; rfl
        have hc : (g t.nf x + c < set1 v.fval t.res.kpt (g t.nf x + c) t.kopt) ↔ (g t.nf x < set1 t.fval t.res.kpt (g t.nf x) t.kopt) := by
          rw [hf _ h.1.1 h.1.2]; exact add_lt_add_iff_right c
        have hd : g t.nf x + c - (vq + c) = g t.nf x - vq := by ring
        have e : rescueTake p (vq + c) (alt (call g x t) ⟨v.f, g t.nf x + c, v.fbeg, v.fsave, v.fbase, v.fval, (x, g t.nf x + c) :: v.log⟩) =
            alt (rescueTake p vq (call g x t)) ⟨v.f, g t.nf x + c, v.fbeg, v.fsave, v.fbase, set1 v.fval t.res.kpt (g t.nf x + c), (x, g t.nf x + c) :: v.log⟩ := by
          unfold rescueTake call
          dsimp only
          simp only [hc, hd]
          rfl
        rw [e]
        refine ⟨⟨⟨?_, h.2⟩, ?_⟩, _, rfl, ⟨hf, fun a => a.elim, fun _ => r.q trivial, fun a => a.elim, fun _ => r.e trivial, hl⟩⟩
        · show 1 ≤ (if _ then t.res.kpt else t.kopt) ∧ (if _ then t.res.kpt else t.kopt) ≤ p.npt
          split_ifs
          · exact ⟨hk, q⟩
          · exact h.1
        · show 1 ≤ t.res.kpt + 1
          omega
  · rw [if_neg q, if_neg q]; exact ⟨h, v, rfl, r.mono (le_refl _) (fun a => a) (fun a => a) (fun a => a) (fun _ => trivial)⟩

/-! ### The new value -/

theorem errors_alt {p : Par K} {c : K} {s : St K} {v : Vals K} (h : Main1 p s) (r : Rise c p.npt False True True False (vals s) v) :
    errors p (alt s v) = alt (errors p s) v := by
  have e1 : v.fval s.kopt = s.fval s.kopt + c := r.pts _ h.1.1 h.1.2
  have e2 : v.f = s.f + c := r.g trivial
  have e : v.f - v.fval s.kopt - predicted p s = s.f - s.fval s.kopt - predicted p s := by rw [e1, e2]; ring
  unfold errors
  dsimp only
  rw [show predicted p (alt s v) = predicted p s from rfl, e]

theorem newDelta_alt {p : Par K} {c : K} {s : St K} {v : Vals K} (h : Main1 p s) (r : Rise c p.npt False True True False (vals s) v) :
    v.f - v.fval s.kopt = s.f - s.fval s.kopt ∧ newDelta (alt s v) = newDelta s := by
  have e1 : v.fval s.kopt = s.fval s.kopt + c := r.pts _ h.1.1 h.1.2
  have e2 : v.f = s.f + c := r.g trivial
  have e : v.f - v.fval s.kopt = s.f - s.fval s.kopt := by rw [e1, e2]; ring
  refine ⟨e, ?_⟩
  unfold newDelta
  dsimp only
  rw [e]

theorem repick_alt {p : Par K} {c : K} {s : St K} {v : Vals K} (h : Main1 p s) (r : Rise c p.npt False True True False (vals s) v) :
    repick p (alt s v) = alt (repick p s) v ∧ Main1 p (repick p s) ∧ vals (repick p s) = vals s := by
  have hc : v.f < v.fval s.kopt ↔ s.f < s.fval s.kopt := by
    rw [show v.f = s.f + c from r.g trivial, show v.fval s.kopt = s.fval s.kopt + c from r.pts _ h.1.1 h.1.2]; exact add_lt_add_iff_right c
  unfold repick
  dsimp only
  by_cases q : s.f < s.fval s.kopt
  · rw [if_pos q, if_pos (hc.mpr q)]
    rw [show pickKnew p (alt s v) 0 s.xnew = pickKnew p s 0 s.xnew from rfl]
    have hk := pickKnew_le p s 0 s.xnew
    generalize pickKnew p s 0 s.xnew = t at *
    by_cases q2 : t.1 ≤ lit 1 2 * t.2.1
    · rw [if_pos q2, if_pos q2]; exact ⟨rfl, h, rfl⟩
    · rw [if_neg q2, if_neg q2]; exact ⟨rfl, ⟨h.1, hk⟩, rfl⟩
  · rw [if_neg q, if_neg (fun a => q (hc.mp a))]; exact ⟨rfl, h, rfl⟩

theorem move_rise {p : Par K} {c : K} {s : St K} {v : Vals K} (r : Rise c p.npt False True True False (vals s) v) :
    ∃ v', move p (alt s v) = alt (move p s) v' ∧ v'.f = v.f ∧ (move p s).f = s.f ∧ Rise c p.npt False True True False (vals (move p s)) v' := by
  refine ⟨⟨v.f, v.fl, v.fbeg, v.fsave, v.fbase, set1 v.fval s.knew v.f, v.log⟩, rfl, rfl, rfl, ⟨fun j j1 j2 => ?_, r.b, r.q, r.g, r.e, r.log⟩⟩
  show set1 v.fval s.knew v.f j = set1 s.fval s.knew s.f j + c
  unfold set1
  by_cases q : j = s.knew
  · rw [if_pos q, if_pos q]; exact r.g trivial
  · rw [if_neg q, if_neg q]; exact r.pts j j1 j2

theorem recenter_alt {p : Par K} {c fopt : K} {s : St K} {v : Vals K} (h : Main1 p s) (hk : s.knew ≠ 0) (r : Rise c p.npt False True True False (vals s) v) :
    recenter p (fopt + c) (alt s v) = alt (recenter p fopt s) v ∧ Main1 p (recenter p fopt s) ∧ vals (recenter p fopt s) = vals s := by
  have hc : v.f < fopt + c ↔ s.f < fopt := by
    rw [show v.f = s.f + c from r.g trivial]; exact add_lt_add_iff_right c
  unfold recenter
  dsimp only
  by_cases q : s.f < fopt
  · rw [if_pos q, if_pos (hc.mpr q)]; exact ⟨rfl, ⟨⟨by show 1 ≤ s.knew; omega, h.2⟩, h.2⟩, rfl⟩
  · rw [if_neg q, if_neg (fun a => q (hc.mp a))]; exact ⟨rfl, h, rfl⟩

theorem frobenius_alt {p : Par K} {c : K} {s : St K} {v : Vals K} (h : Main1 p s) (r : Rise c p.npt False True True False (vals s) v) :
    (∀ k, 1 ≤ k → k ≤ p.npt → v.fval k - v.fval s.kopt = s.fval k - s.fval s.kopt) ∧ frobenius p (alt s v) = frobenius p s := by
  have e : ∀ k, 1 ≤ k → k ≤ p.npt → v.fval k - v.fval s.kopt = s.fval k - s.fval s.kopt := by
    intro k k1 k2
    rw [show v.fval s.kopt = s.fval s.kopt + c from r.pts _ h.1.1 h.1.2, show v.fval k = s.fval k + c from r.pts k k1 k2]; ring
  refine ⟨e, ?_⟩
  have e1 : ∀ j, acc p.npt (fun k => s.zmat k j * (v.fval k - v.fval s.kopt)) 0 = acc p.npt (fun k => s.zmat k j * (s.fval k - s.fval s.kopt)) 0 := by
    intro j
    unfold acc
    exact up_congr fun k k1 k2 t => by dsimp only; rw [e k k1 k2]
  have e2 : ∀ (w : Nat → K) (i : Nat), up p.npt (fun k t => t + s.bmat k i * (v.fval k - v.fval s.kopt) + s.xpt k i * (w k * acc p.n (fun j => s.xpt k j * s.xopt j) 0)) 0 =
      up p.npt (fun k t => t + s.bmat k i * (s.fval k - s.fval s.kopt) + s.xpt k i * (w k * acc p.n (fun j => s.xpt k j * s.xopt j) 0)) 0 := by
    intro w i
    exact up_congr fun k k1 k2 t => by rw [e k k1 k2]
  unfold frobenius
  dsimp only
  simp only [e1, e2]

theorem tryFrobenius_alt {p : Par K} {c : K} {s : St K} {v : Vals K} (h : Main1 p s) (r : Rise c p.npt False True True False (vals s) v) :
    tryFrobenius p (alt s v) = alt (tryFrobenius p s) v ∧ Main1 p (tryFrobenius p s) ∧ vals (tryFrobenius p s) = vals s := by
  obtain ⟨e, ef⟩ := frobenius_alt h r
  unfold tryFrobenius
  rw [ef]
  generalize frobenius p s = fr
  have ev : (fun k => if k = 0 then s.vlag 0 else if k ≤ p.npt then v.fval k - v.fval s.kopt else fr.2 (k - p.npt)) =
      fun k => if k = 0 then s.vlag 0 else if k ≤ p.npt then s.fval k - s.fval s.kopt else fr.2 (k - p.npt) := by
    funext k
    by_cases q : k = 0
    · rw [if_pos q, if_pos q]
    · rw [if_neg q, if_neg q]
      by_cases q2 : k ≤ p.npt
      · rw [if_pos q2, if_pos q2]; exact e k (by omega) q2
      · rw [if_neg q2, if_neg q2]
  dsimp only
  rw [ev, show gradNorms p (alt s v) fr.2 = gradNorms p s fr.2 from rfl]
  generalize (fun k => if k = 0 then s.vlag 0 else if k ≤ p.npt then s.fval k - s.fval s.kopt else fr.2 (k - p.npt)) = vl
  generalize gradNorms p s fr.2 = gn
  by_cases q : s.ntrits > 0
  · rw [if_pos q, if_pos q]
    generalize (if gn.1 < lit 10 1 * gn.2 then 0 else s.itest + 1) = it
    by_cases q2 : it ≥ 3
    · rw [if_pos q2, if_pos q2]; exact ⟨rfl, h, rfl⟩
    · rw [if_neg q2, if_neg q2]; exact ⟨rfl, h, rfl⟩
  · rw [if_neg q, if_neg q]; exact ⟨rfl, h, rfl⟩

theorem sim_afterMove {p : Par K} {c fopt : K} {s : St K} {v : Vals K} (h : Main1 p s) (r : Rise c p.npt False True True False (vals s) v) :
    Sim p c (afterMove fopt s) (afterMove (fopt + c) (alt s v)) := by
  have hc : v.f ≤ fopt + c + lit 1 10 * s.vquad ↔ s.f ≤ fopt + lit 1 10 * s.vquad := by
    rw [show v.f = s.f + c from r.g trivial, add_right_comm]; exact add_le_add_iff_right c
  unfold afterMove
  dsimp only
  by_cases q : s.ntrits = 0 ∨ s.f ≤ fopt + lit 1 10 * s.vquad
  · rw [if_pos q, if_pos (q.imp_right hc.mpr)]
    exact ⟨h, v, rfl, r.mono (le_refl _) id id (fun _ => trivial) id⟩
  · rw [if_neg q, if_neg (fun a => q (a.imp_right hc.mp))]
    exact ⟨h, v, rfl, r.mono (le_refl _) id id (fun _ => trivial) id⟩

theorem sim_absorb {p : Par K} {c : K} {s : St K} {v : Vals K} (h : Main1 p s) (r : Rise c p.npt False True True False (vals s) v) :
    Sim p c (absorb p s) (absorb p (alt s v)) := by
  unfold absorb
  by_cases q : s.knew = 0
  · rw [if_pos q, if_pos q]
    exact ⟨trivial, v, rfl, r.mono (Nat.zero_le _) id (fun a => a.elim) (fun a => a.elim) id⟩
  · rw [if_neg q, if_neg q]
    obtain ⟨v1, e1, -, -, r1⟩ := move_rise (p := p) r
    rw [e1, show (alt s v).fval (alt s v).kopt = s.fval s.kopt + c from r.pts _ h.1.1 h.1.2]
    have h1 : Main1 p (move p s) := h
    have k1 : (move p s).knew ≠ 0 := q
    generalize move p s = t at *
    generalize s.fval s.kopt = fopt
    obtain ⟨e2, h2, w2⟩ := recenter_alt (fopt := fopt) h1 k1 r1
    rw [e2]
    rw [← w2] at r1
    obtain ⟨e3, h3, w3⟩ := tryFrobenius_alt h2 r1
    rw [e3]
    rw [← w3] at r1
    exact sim_afterMove h3 r1

theorem sim_assess {p : Par K} {c : K} {s : St K} {v : Vals K} (h : Main1 p s) (r : Rise c p.npt False True True False (vals s) v) :
    Sim p c (assess p s) (assess p (alt s v)) := by
  unfold assess
  rw [errors_alt h r]
  have h : Main1 p (errors p s) := h
  have r : Rise c p.npt False True True False (vals (errors p s)) v := r
  generalize errors p s = t at *
  dsimp only
  by_cases q : t.ntrits > 0
  · rw [if_pos q, if_pos q]
    by_cases q2 : t.vquad ≥ 0
    · rw [if_pos q2, if_pos q2]; exact sim_fail h (by decide) r
    · rw [if_neg q2, if_neg q2]
      obtain ⟨e1, e2⟩ := newDelta_alt h r
      rw [e1, e2]
      generalize (t.f - t.fval t.kopt) / t.vquad = ra
      generalize newDelta t = de
      obtain ⟨e3, h3, w3⟩ := repick_alt (s := { t with ratio := ra, delta := de }) h r
      have e3 : repick p { alt t v with ratio := ra, delta := de } = _ := e3
      rw [e3]
      exact sim_absorb h3 (by rw [w3]; exact r)
  · rw [if_neg q, if_neg q]; exact sim_absorb h r

/-- After the call. -/
theorem sim_value {p : Par K} {c : K} {s : St K} {v : Vals K} (h : Main1 p s) (r : Rise c p.npt False True False False (vals s) v) (hf : v.fl = s.fl + c) :
    Sim p c (if s.ntrits = -1 then (.done, { s with f := s.fl, fsave := s.fl }) else assess p { s with f := s.fl })
      (if (alt s v).ntrits = -1 then (.done, { alt s v with f := (alt s v).fl, fsave := (alt s v).fl }) else assess p { alt s v with f := (alt s v).fl }) := by
  by_cases q : s.ntrits = -1
  · rw [if_pos q, if_pos q]
    exact ⟨h.1.1, ⟨v.fl, v.fl, v.fbeg, v.fl, v.fbase, v.fval, v.log⟩, rfl,
      ⟨fun j j1 j2 => r.pts j j1 (le_trans j2 h.1.2), fun a => a.elim, fun _ => hf, fun _ => hf, fun a => a.elim, r.log⟩⟩
  · rw [if_neg q, if_neg q]
    have e : ({ alt s v with f := (alt s v).fl } : St K) = alt { s with f := s.fl } ⟨v.fl, v.fl, v.fbeg, v.fsave, v.fbase, v.fval, v.log⟩ := rfl
    rw [e]
    exact sim_assess (s := { s with f := s.fl }) h ⟨r.pts, fun a => a.elim, fun _ => r.q trivial, fun _ => hf, fun a => a.elim, r.log⟩

theorem sim_l360 {p : Par K} {c : K} {g g' : Nat → (Nat → K) → K} (hg : ∀ k x, g' k x = g k x + c) {s : St K} {v : Vals K} (h : Main1 p s)
    (r : Rise c p.npt False True False False (vals s) v) : Sim p c (l360 p g s) (l360 p g' (alt s v)) := by
  unfold l360
  dsimp only
  rw [show place p (alt s v) s.xnew = place p s s.xnew from rfl]
  generalize place p s s.xnew = x
  by_cases q : p.maxfun ≤ s.nf
  · rw [if_pos q, if_pos q]; exact sim_fail (s := { s with x := x }) h (by decide) r
  · rw [if_neg q, if_neg q]
    rw [show ({ alt s v with x := x } : St K) = alt { s with x := x } v from rfl, call_alt hg]
    have hl : (x, g s.nf x + c) :: v.log = ((x, g s.nf x) :: s.log).map fun e => (e.1, e.2 + c) := by
      rw [List.map_cons, r.log]; rfl
    have h2 : Main1 p (call g x { s with x := x }) := h
    have r2 : Rise c p.npt False True False False (vals (call g x { s with x := x }))
        ⟨v.f, g s.nf x + c, v.fbeg, v.fsave, v.fbase, v.fval, (x, g s.nf x + c) :: v.log⟩ :=
      ⟨r.pts, fun a => a.elim, fun _ => r.q trivial, fun a => a.elim, fun a => a.elim, hl⟩
    have hf : g s.nf x + c = (call g x { s with x := x }).fl + c := rfl
    generalize call g x { s with x := x } = t at *
    exact sim_value h2 r2 hf

/-! ### The end of an iteration -/

theorem farthest_le (p : Par K) (s : St K) : (farthest p s).1 ≤ p.npt := by
  unfold farthest
  dsimp only
  refine up_inv (fun n (t : Nat × K) => t.1 ≤ n) p.npt (Nat.zero_le _) ?_
  intro k _ t ht
  split_ifs
  all_goals first | exact le_refl _ | omega

theorem sim_l650 {p : Par K} {c : K} {s : St K} {v : Vals K} (h : Main1 p s) (r : Rise c p.npt False True (s.ntrits ≠ -1) False (vals s) v) :
    Sim p c (l650 p s) (l650 p (alt s v)) := by
  unfold l650
  dsimp only
  rw [show farthest p (alt s v) = farthest p s from rfl]
  have hk := farthest_le p s
  generalize farthest p s = t at *
  by_cases q : t.1 > 0
  · rw [if_pos q, if_pos q]; exact ⟨⟨h.1, hk⟩, v, rfl, r.mono (le_refl _) id id (fun a => a.elim) id⟩
  · rw [if_neg q, if_neg q]
    by_cases q2 : s.ntrits = -1
    · rw [if_pos q2, if_pos q2]; exact ⟨⟨h.1, hk⟩, v, rfl, r⟩
    · rw [if_neg q2, if_neg q2]
      by_cases q3 : s.ratio > 0 ∨ cmax s.delta s.dnorm > s.rho
      · rw [if_pos q3, if_pos q3]; exact ⟨⟨h.1, hk⟩, v, rfl, r.mono (le_refl _) id id (fun a => a.elim) id⟩
      · rw [if_neg q3, if_neg q3]; exact ⟨⟨h.1, hk⟩, v, rfl, r⟩

theorem sim_l680 {p : Par K} {c : K} {s : St K} {v : Vals K} (h : Main1 p s) (r : Rise c p.npt False True (s.ntrits ≠ -1) False (vals s) v) :
    Sim p c (l680 p s) (l680 p (alt s v)) := by
  unfold l680
  dsimp only
  by_cases q : s.rho > p.rhoend
  · rw [if_pos q, if_pos q]; exact ⟨h, v, rfl, r.mono (le_refl _) id id (fun a => a.elim) id⟩
  · rw [if_neg q, if_neg q]
    by_cases q2 : s.ntrits = -1
    · rw [if_pos q2, if_pos q2]; exact ⟨h, v, rfl, r.mono (le_refl _) id id (fun a => a.elim) id⟩
    · rw [if_neg q2, if_neg q2]
      exact ⟨h.1.1, v, rfl, r.mono h.1.2 id id (fun _ => q2) id⟩

theorem sim_finish {p : Par K} {c : K} {s : St K} {v : Vals K} (h : 1 ≤ s.kopt) (r : Rise c s.kopt False True (s.status = .success) False (vals s) v) :
    Final c (finish p s) (finish p (alt s v)) := by
  have e1 : v.fval s.kopt = s.fval s.kopt + c := r.pts _ h (le_refl _)
  have hc : v.fval s.kopt ≤ v.fsave ↔ s.fval s.kopt ≤ s.fsave := by
    rw [e1, show v.fsave = s.fsave + c from r.q trivial]; exact add_le_add_iff_right c
  unfold finish
  dsimp only
  by_cases q : s.fval s.kopt ≤ s.fsave
  · rw [if_pos q, if_pos (hc.mpr q)]
    by_cases q2 : s.status = .success
    · rw [if_pos q2, if_pos q2]
      exact ⟨rfl, rfl, rfl, rfl, r.log, by rw [if_pos (show _ = _ from q2)]; exact e1⟩
    · rw [if_neg q2, if_neg q2]
      exact ⟨rfl, rfl, rfl, rfl, r.log, by rw [if_neg (show ¬ _ = _ from q2)]⟩
  · rw [if_neg q, if_neg (fun a => q (hc.mp a))]
    by_cases q2 : s.status = .success
    · rw [if_pos q2, if_pos q2]
      exact ⟨rfl, rfl, rfl, rfl, r.log, by rw [if_pos (show _ = _ from q2)]; exact r.g q2⟩
    · rw [if_neg q2, if_neg q2]
      exact ⟨rfl, rfl, rfl, rfl, r.log, by rw [if_neg (show ¬ _ = _ from q2)]⟩

/-! ### The runs -/

theorem sim_step {p : Par K} (hp : Newuoa.Valid p.nw) {T : St K → Trs K} (hT : Blind T) {c : K} {g g' : Nat → (Nat → K) → K} (hg : ∀ k x, g' k x = g k x + c)
    {ls ls' : Lab × St K} (h : Sim p c ls ls' ∨ Final c ls ls') :
    Sim p c (step p g T ls) (step p g' T ls') ∨ Final c (step p g T ls) (step p g' T ls') := by
  rcases h with h | h
  · obtain ⟨lab, s⟩ := ls
    obtain ⟨h, v, rfl, r⟩ := h
    cases lab
    case pre => exact Or.inl (sim_prelim hp hg h r)
    case l20 => exact Or.inl (sim_l20 h r)
    case l60 => exact Or.inl (sim_l60 hT h r)
    case l90 => exact Or.inl (sim_l90 h r)
    case l190 => exact Or.inl (sim_l190 h r)
    case r80 => exact Or.inl (sim_r80 h r)
    case r120 => exact Or.inl (sim_r120 h r)
    case rpts => exact Or.inl (sim_rpts hg h.1 h.2 r)
    case l190b => exact Or.inl (sim_l190b h r)
    case l210 => exact Or.inl (sim_l210 h r)
    case l230 => exact Or.inl (sim_l230 h r)
    case l360 => exact Or.inl (sim_l360 hg h r)
    case l650 => exact Or.inl (sim_l650 h r)
    case l680 => exact Or.inl (sim_l680 h r)
    case done => exact Or.inr (sim_finish h r)
    case ret => exact (h : False).elim
    case wrong => exact Or.inl ⟨trivial, v, rfl, r⟩
  · obtain ⟨lab, s⟩ := ls
    obtain ⟨lab', s'⟩ := ls'
    have h0 := h
    obtain ⟨h1, h2, -⟩ := h
    have h1 : lab = .ret := h1
    have h2 : lab' = .ret := h2
    subst h1 h2
    exact Or.inr h0

theorem sim_run {p : Par K} (hp : Newuoa.Valid p.nw) {T : St K → Trs K} (hT : Blind T) {c : K} {g g' : Nat → (Nat → K) → K} (hg : ∀ k x, g' k x = g k x + c)
    (fuel : Nat) : ∀ {ls ls' : Lab × St K}, (Sim p c ls ls' ∨ Final c ls ls') → (Sim p c (run p g T fuel ls) (run p g' T fuel ls') ∨ Final c (run p g T fuel ls) (run p g' T fuel ls')) := by
  induction fuel with
  | zero => intro ls ls' h; exact h
  | succ k ih => intro ls ls' h; exact ih (sim_step hp hT hg h)

/-- The sizes which are accepted. -/
theorem prepare_sizes {a : Args K} {s : St K} {p : Par K} {scl : Option (Nat → K)} {ls : Lab × St K} (h : prepare a s = .inr (p, scl, ls)) :
    Newuoa.Valid p.nw ∧ ∃ x sl su, ls = start x sl su s := by
  refine ⟨?_, (prepare_start a s p scl ls h).2⟩
  unfold prepare at h
  dsimp only at h
  split_ifs at h with c1 c2 c3
  cases hs : scaling a.n.toNat a.scl with
  | none => rw [hs] at h; exact absurd h (by simp)
  | some sc =>
    rw [hs] at h
    dsimp only at h
    split_ifs at h with c4
    push Not at c2 c3
    simp only [Sum.inr.injEq, Prod.mk.injEq] at h
    obtain ⟨rfl, -, -⟩ := h
    exact Newuoa.sizes_valid (n := a.n) (npt := a.npt) c2.1 c2.2 (by omega) (Int.toNat_of_nonneg (by omega)) (Int.toNat_of_nonneg (by omega)) c3.1 c3.2

theorem prepare_error {a : Args K} {s : St K} {e : Status × (Nat → K)} (h : prepare a s = .inl e) : e.1 ≠ .success := by
  unfold prepare at h
  dsimp only at h
  split_ifs at h
  · rw [← Sum.inl.inj h]; exact Status.noConfusion
  · rw [← Sum.inl.inj h]; exact Status.noConfusion
  · rw [← Sum.inl.inj h]; exact Status.noConfusion
  · cases hs : scaling a.n.toNat a.scl with
    | none => rw [hs] at h; rw [← Sum.inl.inj h]; exact Status.noConfusion
    | some sc =>
      rw [hs] at h
      dsimp only at h
      split_ifs at h
      rw [← Sum.inl.inj h]; exact Status.noConfusion

/-- **C100.**  In exact arithmetic, a constant `c` added to the objective function does not change what `bobyqa_optimize` does: the
objective function is called at the same points in the same order, the status and the variables are the same, and `c` is
added to the value in `W(1)` in case of success (otherwise `W(1)` is not such a value, and it is the same). -/
theorem bobyqa_constant (a : Args K) {T : Par K → St K → Trs K} (hT : ∀ p, Blind (T p)) (obj : Nat → (Nat → K) → K) (c : K) (s : St K) (fuel : Nat) :
    optimize a (fun k x => obj k x + c) T s fuel =
      (optimize a obj T s fuel).map fun t =>
        (t.1, t.2.1, if t.1 = .success then t.2.2.1 + c else t.2.2.1, t.2.2.2.map fun e => (e.1, e.2 + c)) := by
  unfold optimize
  cases hp : prepare a s with
  | inl e =>
    dsimp only [Option.map_some]
    rw [if_neg (prepare_error hp), List.map_nil]
  | inr t =>
    obtain ⟨p, scl, ls⟩ := t
    obtain ⟨hv, x, sl, su, hls⟩ := prepare_sizes hp
    dsimp only
    obtain ⟨c', hc', hg⟩ : ∃ c' : K, (c' = if a.maximize then -c else c) ∧
        ∀ k x, objfun (fun k x => obj k x + c) a.maximize scl k x = objfun obj a.maximize scl k x + c' := by
      refine ⟨_, rfl, fun k x => ?_⟩
      unfold objfun
      cases a.maximize
      · simp
      · simp only [if_true]; ring
    have h0 : Sim p c' ls ls := by
      rw [hls]
      refine ⟨⟨?_, fun a => ?_, Nat.zero_le _⟩, vals (start x sl su s).2, rfl, ⟨fun j j1 j2 => ?_, fun a => ?_, fun a => a.elim, fun a => a.elim, fun a => a.elim, rfl⟩⟩
      · show 0 < p.npt
        have : p.n + 2 ≤ p.npt := hv.lo
        omega
      · exact absurd a (by show ¬ 1 ≤ 0; omega)
      · exact absurd (show j ≤ 0 from j2) (by omega)
      · exact absurd (show 1 ≤ 0 from a) (by omega)
    have h := sim_run hv (hT p) hg fuel (Or.inl h0)
    generalize run p (objfun obj a.maximize scl) (T p) fuel ls = r at h
    generalize run p (objfun (fun k x => obj k x + c) a.maximize scl) (T p) fuel ls = r' at h
    obtain ⟨lab, t⟩ := r
    rcases h with ⟨h, v, rfl, -⟩ | h
    · cases lab
      case ret => exact (h : False).elim
      all_goals rfl
    · obtain ⟨lab', t'⟩ := r'
      obtain ⟨e1, e2, e3, e4, e5, e6⟩ := h
      have e1 : lab = .ret := e1
      have e2 : lab' = .ret := e2
      subst e1 e2
      dsimp only at e3 e4 e5 e6
      dsimp only
      rw [e3, e4, e5, e6, hc', List.map_map]
      simp only [Option.map_some, List.map_map, Option.some.injEq, Prod.mk.injEq, true_and]
      refine ⟨?_, ?_⟩
      · by_cases q : t.status = .success
        · rw [if_pos q, if_pos q]
          cases a.maximize
          · simp
          · simp only [if_true]; ring
        · rw [if_neg q, if_neg q]
      · refine List.map_congr_left fun e _ => ?_
        cases a.maximize
        · simp
        · simp only [Function.comp, if_true]
          exact Prod.ext rfl (by dsimp only; ring)

/-- `trsbox` of the code does not use the values of the objective function. -/
theorem blind_code (p : Par K) (t : Tb K) (d : Trs K) (fuel : Nat) : Blind fun s : St K => (trsbox (s.box p) t fuel).getD d := fun _ _ => rfl

theorem blind_still (p : Par ℚ) : Blind (Demo.still p) := fun _ _ => rfl

theorem blind_first (p : Par ℚ) : Blind (Demo.first p) := fun _ _ => rfl

set_option maxRecDepth 100000 in
/-- The first example of `Demo` (a success) and the third one (a failure), with the constant 10. -/
example : Demo.view (optimize (Demo.args 5 false none 1 100) (fun k x => Demo.sq k x + 10) Demo.still Demo.blank 100) =
      some (.success, [1, 1], 11, [([0, 1], 12), ([1, 1], 11), ([0, 2], 15), ([-1, 1], 15), ([0, 0], 11), ([1, 1], 11)]) ∧
    Demo.view (optimize (Demo.args 6 false none (1 / 2) 3) (fun k x => Demo.sq k x + 10) Demo.still Demo.blank 100) =
      some (.tooManyEvaluations, [1, 1], 0, [([0, 1], 12), ([1, 1], 11), ([0, 2], 15)]) := by
  rw [bobyqa_constant _ blind_still, bobyqa_constant _ blind_still]
  constructor <;> decide +kernel

end Opk.Bobyqa.Constant
