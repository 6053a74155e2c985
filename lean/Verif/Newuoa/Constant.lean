import Verif.Newuoa.Interpolates
import Verif.Newuoa.Trsapp
import Verif.Newuoa.Demo

/-!
# A constant added to the objective function, in exact arithmetic (C99)

The runs of NEWUOA with the objective functions `f` and `f + c` are compared: the variables of the two runs are the same
except those which hold values of the objective function, and these differ by `c`.
-/
namespace Opk.Newuoa
open Linalg CMath Cobyla Powell

set_option linter.unusedSectionVars false

/-- The variables which hold values of the objective function. -/
structure Vals (F : Type) where
  f : F
  fbeg : F
  fopt : F
  fsave : F
  fval : Nat → F
  log : List ((Nat → F) × F)

/-- These variables in a state. -/
def vals {F : Type} (s : St F) : Vals F := ⟨s.f, s.fbeg, s.fopt, s.fsave, s.fval, s.log⟩

/-- The state with other values of these variables. -/
abbrev alt {F : Type} (s : St F) (v : Vals F) : St F :=
  { s with f := v.f, fbeg := v.fbeg, fopt := v.fopt, fsave := v.fsave, fval := v.fval, log := v.log }

/-- The subroutines do not use the variables which hold values of the objective function. -/
def Blind {F : Type} (o : Subs F) : Prop :=
  ∀ s v, o.trsapp (alt s v) = o.trsapp s ∧ o.biglag (alt s v) = o.biglag s ∧ o.bigden (alt s v) = o.bigden s ∧ o.update (alt s v) = o.update s

variable {K : Type} [Field K] [LinearOrder K] [IsStrictOrderedRing K] [CMath K] [ExactMath K]

/-- The values of the second run are those of the first one plus `c`: the values at the first `m` points, the latest, the first
and the least values if `B` holds, the previous least value if `Q` holds, and the calls. -/
structure Rise (c : K) (m : Nat) (B Q : Prop) (v v' : Vals K) : Prop where
  pts : ∀ j, 1 ≤ j → j ≤ m → v'.fval j = v.fval j + c
  b : B → v'.f = v.f + c ∧ v'.fbeg = v.fbeg + c ∧ v'.fopt = v.fopt + c
  q : Q → v'.fsave = v.fsave + c
  log : v'.log = v.log.map fun e => (e.1, e.2 + c)

theorem Rise.mono {c : K} {m m' : Nat} {B B' Q Q' : Prop} {v v' : Vals K} (h : Rise c m B Q v v') (hm : m' ≤ m) (hb : B' → B) (hq : Q' → Q) :
    Rise c m' B' Q' v v' := ⟨fun j j1 j2 => h.pts j j1 (le_trans j2 hm), fun q => h.b (hb q), fun q => h.q (hq q), h.log⟩

/-- The number of values in `FVAL`. -/
def lev (p : Par K) : Lab → St K → Nat
  | .l50, s => s.nf
  | .l310, s => min (s.nf - 1) p.npt
  | .ask, s => min (s.nf - 1) p.npt
  | .done, _ => 0
  | .ret, _ => 0
  | _, _ => p.npt

/-- There is at least one value. -/
def some1 : Lab → St K → Prop
  | .l50, s => 1 ≤ s.nf
  | .l310, s => 2 ≤ s.nf
  | .ask, s => 2 ≤ s.nf
  | _, _ => True

/-- The first points are known and the best one is one of them. -/
def Main1 (p : Par K) (s : St K) : Prop := p.npt ≤ s.nf ∧ 1 ≤ s.kopt ∧ s.kopt ≤ p.npt

/-- The invariants before a value is asked. -/
def Before (p : Par K) (s : St K) : Prop :=
  1 ≤ s.nf ∧ (2 ≤ s.nf → 1 ≤ s.kopt ∧ s.kopt ≤ min (s.nf - 1) p.npt) ∧
  (s.nf ≤ p.npt → 2 * p.n + 1 < s.nf → (1 ≤ s.ipt ∧ s.ipt ≤ p.n) ∧ 1 ≤ s.jpt ∧ s.jpt ≤ p.n) ∧ (p.npt < s.nf → s.knew ≤ p.npt)

/-- The ranges of the indices at the labels, and the status at the end. -/
def Iv (p : Par K) : Lab → St K → Prop
  | .l50, s => s.nf < p.npt ∧ (1 ≤ s.nf → 1 ≤ s.kopt ∧ s.kopt ≤ s.nf)
  | .l310, s => Before p s
  | .ask, s => Before p s
  | .l120, s => Main1 p s ∧ s.knew ≤ p.npt
  | .l290, s => Main1 p s ∧ s.knew ≤ p.npt
  | .l460, s => Main1 p s ∧ s.knew ≤ p.npt
  | .l410, s => Main1 p s ∧ 1 ≤ s.knew ∧ s.knew ≤ p.npt
  | .done, s => s.status ≠ .iterate
  | .ret, s => s.status ≠ .iterate
  | _, s => Main1 p s

/-- The two runs are at the same label and their variables differ only by the values of the objective function. -/
def Sim (p : Par K) (c : K) (ls ls' : Lab × St K) : Prop :=
  Iv p ls.1 ls.2 ∧ ∃ v, ls' = (ls.1, alt ls.2 v) ∧ Rise c (lev p ls.1 ls.2) (some1 ls.1 ls.2) (ls.1 = .l410) (vals ls.2) v

/-! ### The first points -/

theorem sim_l50 {p : Par K} (hp : Valid p) {c : K} {s : St K} {ls' : Lab × St K} (h : Sim p c (.l50, s) ls') : Sim p c (l50 p s) (l50 p ls'.2) := by
  obtain ⟨⟨h1, h2⟩, v, rfl, r⟩ := h
  have h1 : s.nf < p.npt := h1
  have h2 : 1 ≤ s.nf → 1 ≤ s.kopt ∧ s.kopt ≤ s.nf := h2
  by_cases q : s.nf + 1 - 1 ≤ 2 * p.n
  · have e : point p (alt s v) (s.nf + 1) = alt (point p s (s.nf + 1)) v := by
      unfold point
      dsimp only
      rw [if_pos q, if_pos q]
      by_cases q1 : 1 ≤ s.nf + 1 - 1 ∧ s.nf + 1 - 1 ≤ p.n
      · rw [if_pos q1, if_pos q1]
      · rw [if_neg q1, if_neg q1]
        by_cases q2 : s.nf + 1 - 1 > p.n
        · rw [if_pos q2, if_pos q2]
        · rw [if_neg q2, if_neg q2]
    have e : l50 p (alt s v) = ((l50 p s).1, alt (l50 p s).2 v) := by
      unfold l50
      dsimp only
      rw [show point p (alt s v) ((alt s v).nf + 1) = _ from e]
    have ev : vals (l50 p s).2 = vals s ∧ (l50 p s).2.nf = s.nf + 1 ∧ (l50 p s).2.kopt = s.kopt := by
      unfold l50 point
      dsimp only
      rw [if_pos q]
      split_ifs <;> exact ⟨rfl, rfl, rfl⟩
    refine ⟨?_, v, e, ?_⟩
    · refine ⟨by rw [ev.2.1]; omega, fun a => ?_, fun _ a => absurd a (by rw [ev.2.1]; omega), fun a => absurd a (by rw [ev.2.1]; omega)⟩
      rw [ev.2.1] at a ⊢
      rw [ev.2.2]
      have := h2 (by omega)
      omega
    · rw [ev.1]
      refine r.mono ?_ ?_ (fun a => absurd a (by simp [l50]))
      · show min ((l50 p s).2.nf - 1) p.npt ≤ s.nf
        rw [ev.2.1]; omega
      · show 2 ≤ (l50 p s).2.nf → 1 ≤ s.nf
        rw [ev.2.1]; omega
  · obtain ⟨a1, a2, a3⟩ := pair_spec hp (nf := s.nf + 1) (by omega) (by omega)
    have hv : ∀ i, 1 ≤ i → i ≤ p.n → ((v.fval (i + p.np) < v.fval (i + 1)) ↔ (s.fval (i + p.np) < s.fval (i + 1))) := by
      intro i i1 i2
      have hnp : p.np = p.n + 1 := rfl
      rw [r.pts (i + p.np) (by omega) (by show _ ≤ s.nf; omega), r.pts (i + 1) (by omega) (by show _ ≤ s.nf; omega)]
      exact add_lt_add_iff_right c
    have e : point p (alt s v) (s.nf + 1) = alt (point p s (s.nf + 1)) v := by
      unfold point
      dsimp only
      rw [if_neg q, if_neg q]
      unfold pointC
      dsimp only [alt]
      simp only [hv _ (by omega : 1 ≤ (pair p (s.nf + 1)).1) a3, hv _ a1 (by omega : (pair p (s.nf + 1)).2 ≤ p.n)]
    have e : l50 p (alt s v) = ((l50 p s).1, alt (l50 p s).2 v) := by
      unfold l50
      dsimp only
      rw [show point p (alt s v) ((alt s v).nf + 1) = _ from e]
    have ev : vals (l50 p s).2 = vals s ∧ (l50 p s).2.nf = s.nf + 1 ∧ (l50 p s).2.kopt = s.kopt ∧
        (l50 p s).2.ipt = (pair p (s.nf + 1)).1 ∧ (l50 p s).2.jpt = (pair p (s.nf + 1)).2 := by
      unfold l50 point
      dsimp only
      rw [if_neg q]
      exact ⟨rfl, rfl, rfl, rfl, rfl⟩
    refine ⟨?_, v, e, ?_⟩
    · refine ⟨by rw [ev.2.1]; omega, fun a => ?_, fun _ _ => ?_, fun a => absurd a (by rw [ev.2.1]; omega)⟩
      · rw [ev.2.1] at a ⊢
        rw [ev.2.2.1]
        have := h2 (by omega)
        omega
      · rw [ev.2.2.2.1, ev.2.2.2.2]
        omega
    · rw [ev.1]
      refine r.mono ?_ ?_ (fun a => absurd a (by simp [l50]))
      · show min ((l50 p s).2.nf - 1) p.npt ≤ s.nf
        rw [ev.2.1]; omega
      · show 2 ≤ (l50 p s).2.nf → 1 ≤ s.nf
        rw [ev.2.1]; omega

/-- `FVAL`, `FBEG`, `FOPT` and `KOPT` after a value `f` at one of the first points. -/
theorem store_rise {p : Par K} {c f : K} {s : St K} (h : Before p s) (hn : s.nf ≤ p.npt) {v : Vals K}
    (r : Rise c (min (s.nf - 1) p.npt) (2 ≤ s.nf) False (vals s) v) :
    ∃ v', store (put (f + c) (alt s v)) = alt (store (put f s)) v' ∧ Rise c s.nf True False (vals (store (put f s))) v' ∧
      (store (put f s)).nf = s.nf ∧ (store (put f s)).ipt = s.ipt ∧ (store (put f s)).jpt = s.jpt ∧
      1 ≤ (store (put f s)).kopt ∧ (store (put f s)).kopt ≤ s.nf := by
  obtain ⟨h1, h2, h3, h4⟩ := h
  have hf : ∀ j, 1 ≤ j → j ≤ s.nf → set1 v.fval s.nf (f + c) j = set1 s.fval s.nf f j + c := by
    intro j j1 j2
    unfold set1
    by_cases q : j = s.nf
    · rw [if_pos q, if_pos q]
    · rw [if_neg q, if_neg q]
      exact r.pts j j1 (by omega)
  have hl : (s.x, f + c) :: v.log = ((s.x, f) :: s.log).map fun e => (e.1, e.2 + c) := by
    rw [List.map_cons, r.log]; rfl
  have d1 : store (put f s) = if s.nf = 1 then { s with f := f, log := (s.x, f) :: s.log, fval := set1 s.fval s.nf f, fbeg := f, fopt := f, kopt := 1 }
      else if f < s.fopt then { s with f := f, log := (s.x, f) :: s.log, fval := set1 s.fval s.nf f, fopt := f, kopt := s.nf }
      else { s with f := f, log := (s.x, f) :: s.log, fval := set1 s.fval s.nf f } := rfl
  have d2 : store (put (f + c) (alt s v)) = if s.nf = 1 then alt { s with kopt := 1 } ⟨f + c, f + c, f + c, v.fsave, set1 v.fval s.nf (f + c), (s.x, f + c) :: v.log⟩
      else if f + c < v.fopt then alt { s with kopt := s.nf } ⟨f + c, v.fbeg, f + c, v.fsave, set1 v.fval s.nf (f + c), (s.x, f + c) :: v.log⟩
      else alt s ⟨f + c, v.fbeg, v.fopt, v.fsave, set1 v.fval s.nf (f + c), (s.x, f + c) :: v.log⟩ := rfl
  rw [d1, d2]
  by_cases q : s.nf = 1
  · rw [if_pos q, if_pos q]
    exact ⟨⟨f + c, f + c, f + c, v.fsave, set1 v.fval s.nf (f + c), (s.x, f + c) :: v.log⟩, rfl,
      ⟨hf, fun _ => ⟨rfl, rfl, rfl⟩, fun a => a.elim, hl⟩, rfl, rfl, rfl, le_refl _, h1⟩
  · rw [if_neg q, if_neg q]
    obtain ⟨b1, b2, b3⟩ := r.b (by omega)
    have hk := h2 (by omega)
    have hc : (f + c < v.fopt) ↔ (f < s.fopt) := by
      rw [b3]; exact add_lt_add_iff_right c
    by_cases q2 : f < s.fopt
    · rw [if_pos q2, if_pos (hc.mpr q2)]
      exact ⟨⟨f + c, v.fbeg, f + c, v.fsave, set1 v.fval s.nf (f + c), (s.x, f + c) :: v.log⟩, rfl,
        ⟨hf, fun _ => ⟨rfl, b2, rfl⟩, fun a => a.elim, hl⟩, rfl, rfl, rfl, h1, le_refl _⟩
    · rw [if_neg q2, if_neg (fun a => q2 (hc.mp a))]
      exact ⟨⟨f + c, v.fbeg, v.fopt, v.fsave, set1 v.fval s.nf (f + c), (s.x, f + c) :: v.log⟩, rfl,
        ⟨hf, fun _ => ⟨rfl, b2, b3⟩, fun a => a.elim, hl⟩, rfl, rfl, rfl, hk.1, by show s.kopt ≤ s.nf; omega⟩

/-- The first model does not depend on the constant. -/
theorem model_rise {p : Par K} {c : K} {s : St K} {v : Vals K} (hn : s.nf ≤ p.npt)
    (hi : s.nf ≤ p.npt → 2 * p.n + 1 < s.nf → (1 ≤ s.ipt ∧ s.ipt ≤ p.n) ∧ 1 ≤ s.jpt ∧ s.jpt ≤ p.n)
    (r : Rise c s.nf True False (vals s) v) :
    model p (alt s v) = alt (model p s) v ∧ vals (model p s) = vals s ∧ (model p s).nf = s.nf ∧ (model p s).kopt = s.kopt := by
  obtain ⟨b1, b2, -⟩ := r.b trivial
  have b1 : v.f = s.f + c := b1
  have b2 : v.fbeg = s.fbeg + c := b2
  have e1 : v.f - v.fbeg = s.f - s.fbeg := by rw [b1, b2]; ring
  have e2 : v.fbeg - v.f = s.fbeg - s.f := by rw [b1, b2]; ring
  unfold model
  dsimp only
  by_cases q : s.nf - 1 ≤ 2 * p.n
  · rw [if_pos q, show (alt s v).nf = s.nf from rfl, if_pos q]
    by_cases q1 : 1 ≤ s.nf - 1 ∧ s.nf - 1 ≤ p.n
    · rw [if_pos q1, if_pos q1]
      unfold modelA
      dsimp only [alt]
      rw [e1]
      by_cases q3 : p.npt < s.nf + p.n
      · rw [if_pos q3, if_pos q3]; exact ⟨rfl, rfl, rfl, rfl⟩
      · rw [if_neg q3, if_neg q3]; exact ⟨rfl, rfl, rfl, rfl⟩
    · rw [if_neg q1, if_neg q1]
      by_cases q2 : s.nf - 1 > p.n
      · rw [if_pos q2, if_pos q2]
        unfold modelB
        dsimp only [alt]
        rw [e2]
        exact ⟨rfl, rfl, rfl, rfl⟩
      · rw [if_neg q2, if_neg q2]; exact ⟨rfl, rfl, rfl, rfl⟩
  · rw [if_neg q, show (alt s v).nf = s.nf from rfl, if_neg q]
    obtain ⟨⟨i1, i2⟩, j1, j2⟩ := hi hn (by omega)
    have hside : ∀ (t : K) (i : Nat), 1 ≤ i → i ≤ p.n →
        v.fval ((if t < 0 then i + p.n else i) + 1) = s.fval ((if t < 0 then i + p.n else i) + 1) + c := by
      intro t i a1 a2
      refine r.pts _ (by omega) ?_
      split_ifs <;> omega
    unfold modelC
    dsimp only [alt]
    rw [hside _ _ i1 i2, hside _ _ j1 j2, b1, b2]
    have e3 : ∀ a b d e : K, a + c - (b + c) - (d + c) + (e + c) = a - b - d + e := by intros; ring
    rw [e3]
    exact ⟨rfl, rfl, rfl, rfl⟩

theorem sim_l70 {p : Par K} (hp : Valid p) {c f : K} {s : St K} {v : Vals K} (h : Before p s) (hn : s.nf ≤ p.npt)
    (r : Rise c (min (s.nf - 1) p.npt) (2 ≤ s.nf) False (vals s) v) :
    Sim p c (l70 p (put f s)) (l70 p (put (f + c) (alt s v))) := by
  obtain ⟨v', e, r', n1, n2, n3, k1, k2⟩ := store_rise (f := f) h hn r
  unfold l70
  rw [e]
  generalize store (put f s) = t at *
  rw [← n1] at r' k2
  obtain ⟨m1, m2, m3, m4⟩ := model_rise (p := p) (by omega) (by rw [n1, n2, n3]; exact h.2.2.1) r'
  rw [m1]
  dsimp only
  rw [← m2, ← m3] at r'
  rw [← m4] at k1 k2
  rw [← m3] at k2
  have m3 := m3.trans n1
  generalize model p t = u at *
  rw [show (alt u v').nf = u.nf from rfl]
  by_cases q : u.nf < p.npt
  · rw [if_pos q, if_pos q]
    exact ⟨⟨q, fun _ => ⟨k1, k2⟩⟩, v', rfl, r'.mono (le_refl _) (fun _ => trivial) (fun a => absurd a (by simp))⟩
  · rw [if_neg q, if_neg q]
    refine ⟨⟨by show p.npt ≤ u.nf; omega, k1, by show u.kopt ≤ p.npt; omega⟩, v', rfl, r'.mono ?_ (fun _ => trivial) (fun a => absurd a (by simp [begin]))⟩
    show p.npt ≤ u.nf
    omega

/-! ### The iterations -/

theorem sim_l310 {p : Par K} {c : K} {s : St K} {ls' : Lab × St K} (h : Sim p c (.l310, s) ls') : Sim p c (l310 p s) (l310 p ls'.2) := by
  obtain ⟨h1, v, rfl, r⟩ := h
  have r : Rise c (min (s.nf - 1) p.npt) (2 ≤ s.nf) _ (vals s) v := r
  unfold l310
  rw [show (alt s v).nf = s.nf from rfl]
  by_cases q : (s.nf : Int) > max p.maxfun 1
  · rw [if_pos q, if_pos q]
    exact ⟨Status.noConfusion, v, rfl, r.mono (Nat.zero_le _) (fun _ => by omega) (fun a => absurd a (by simp))⟩
  · rw [if_neg q, if_neg q]
    exact ⟨h1, v, rfl, r.mono (le_refl _) id (fun a => absurd a (by simp))⟩

theorem sim_l90 {p : Par K} {c : K} {s : St K} {ls' : Lab × St K} (h : Sim p c (.l90, s) ls') :
    Sim p c (.l100, { s with nfsav := s.nf }) (.l100, { ls'.2 with nfsav := ls'.2.nf }) := by
  obtain ⟨h1, v, rfl, r⟩ := h
  exact ⟨h1, v, rfl, r.mono (le_refl _) id (fun a => absurd a (by simp))⟩

theorem sim_short {p : Par K} {c : K} {s : St K} {v : Vals K} (h : Main1 p s) (r : Rise c p.npt True False (vals s) v) :
    Sim p c (short s) (short (alt s v)) := by
  have hk : (-1 : Int) ≤ p.npt := by omega
  unfold short
  dsimp only [alt]
  by_cases q : s.nf ≤ s.nfsav + 2
  · rw [if_pos q, if_pos q]
    exact ⟨⟨h, hk⟩, v, rfl, r.mono (le_refl _) id (fun a => absurd a (by simp))⟩
  · rw [if_neg q, if_neg q]
    by_cases q2 : s.crvmin * lit 1 8 * s.rho * s.rho ≤ cmax (cmax s.diffa s.diffb) s.diffc
    · rw [if_pos q2, if_pos q2]
      exact ⟨⟨h, hk⟩, v, rfl, r.mono (le_refl _) id (fun a => absurd a (by simp))⟩
    · rw [if_neg q2, if_neg q2]
      exact ⟨h, v, rfl, r.mono (le_refl _) id (fun a => absurd a (by simp))⟩

theorem sim_l100 {p : Par K} {o : Subs K} (ho : Blind o) {c : K} {s : St K} {ls' : Lab × St K} (h : Sim p c (.l100, s) ls') :
    Sim p c (l100 p o s) (l100 p o ls'.2) := by
  obtain ⟨h1, v, rfl, r⟩ := h
  have e : o.trsapp { alt s v with knew := 0 } = o.trsapp { s with knew := 0 } := (ho { s with knew := 0 } v).1
  unfold l100
  dsimp only
  rw [e]
  by_cases q : cmin (sqrt (acc p.n (fun i => (o.trsapp { s with knew := 0 }).1 i * (o.trsapp { s with knew := 0 }).1 i) 0)) s.delta < lit 1 2 * s.rho
  · rw [if_pos q, if_pos q]
    exact sim_short (v := v) h1 (r.mono (le_refl _) id (fun a => absurd a (by simp)))
  · rw [if_neg q, if_neg q]
    exact ⟨⟨h1, by show (0 : Int) ≤ p.npt; omega⟩, v, rfl, r.mono (le_refl _) id (fun a => absurd a (by simp))⟩

theorem sim_l120 {p : Par K} {o : Subs K} (ho : Blind o) {c : K} {s : St K} {ls' : Lab × St K} (h : Sim p c (.l120, s) ls') :
    Sim p c (l120 p o s) (l120 p o ls'.2) := by
  obtain ⟨⟨h1, h2⟩, v, rfl, r⟩ := h
  have r : Rise c p.npt True _ (vals s) v := r
  have r : Rise c p.npt True False (vals s) v := r.mono (le_refl _) id (fun a => a.elim)
  unfold l120
  dsimp only
  have e1 : (if (alt s v).dsq ≤ (alt s v).xoptsq * lit 1 1000 then shift p (alt s v) else alt s v) =
      alt (if s.dsq ≤ s.xoptsq * lit 1 1000 then shift p s else s) v := by
    show (if s.dsq ≤ s.xoptsq * lit 1 1000 then _ else _) = _
    split_ifs <;> rfl
  rw [e1]
  have a1 : Main1 p (if s.dsq ≤ s.xoptsq * lit 1 1000 then shift p s else s) ∧
      (if s.dsq ≤ s.xoptsq * lit 1 1000 then shift p s else s).knew ≤ p.npt ∧
      Rise c p.npt True False (vals (if s.dsq ≤ s.xoptsq * lit 1 1000 then shift p s else s)) v := by
    split_ifs <;> exact ⟨h1, h2, r⟩
  generalize (if s.dsq ≤ s.xoptsq * lit 1 1000 then shift p s else s) = t at a1
  clear e1 h1 h2 r
  rw [(ho t v).2.1]
  have e2 : (if (alt t v).knew > 0 then { alt t v with alpha := (o.biglag t).1, d := (o.biglag t).2.1, vlag := (o.biglag t).2.2.1, w := (o.biglag t).2.2.2 } else alt t v) =
      alt (if t.knew > 0 then { t with alpha := (o.biglag t).1, d := (o.biglag t).2.1, vlag := (o.biglag t).2.2.1, w := (o.biglag t).2.2.2 } else t) v := by
    show (if t.knew > 0 then _ else _) = _
    split_ifs <;> rfl
  rw [e2]
  have a2 : ∀ u, u = (if t.knew > 0 then { t with alpha := (o.biglag t).1, d := (o.biglag t).2.1, vlag := (o.biglag t).2.2.1, w := (o.biglag t).2.2.2 } else t) →
      Main1 p (lagrange p u) ∧ (lagrange p u).knew ≤ p.npt ∧ Rise c p.npt True False (vals (lagrange p u)) v := by
    rintro u rfl
    split_ifs <;> exact a1
  generalize hu : (if t.knew > 0 then { t with alpha := (o.biglag t).1, d := (o.biglag t).2.1, vlag := (o.biglag t).2.2.1, w := (o.biglag t).2.2.2 } else t) = u at a2 ⊢
  have a2 := a2 u rfl
  rw [show lagrange p (alt u v) = alt (lagrange p u) v from rfl]
  clear e2 hu
  generalize lagrange p u = z at *
  rw [(ho z v).2.2.1]
  show Sim p c (.l290, if z.knew > 0 ∧ fabs (1 + z.alpha * z.beta / (z.vlag z.knew.toNat * z.vlag z.knew.toNat)) ≤ lit 4 5 then _ else z)
    (.l290, if z.knew > 0 ∧ fabs (1 + z.alpha * z.beta / (z.vlag z.knew.toNat * z.vlag z.knew.toNat)) ≤ lit 4 5 then _ else alt z v)
  obtain ⟨b1, b2, b3⟩ := a2
  by_cases q : z.knew > 0 ∧ fabs (1 + z.alpha * z.beta / (z.vlag z.knew.toNat * z.vlag z.knew.toNat)) ≤ lit 4 5
  · rw [if_pos q, if_pos q]
    exact ⟨⟨b1, b2⟩, v, rfl, b3.mono (le_refl _) id (fun a => absurd a (by simp))⟩
  · rw [if_neg q, if_neg q]
    exact ⟨⟨b1, b2⟩, v, rfl, b3.mono (le_refl _) id (fun a => absurd a (by simp))⟩

theorem sim_l290 {p : Par K} {c : K} {s : St K} {ls' : Lab × St K} (h : Sim p c (.l290, s) ls') : Sim p c (l290 s) (l290 ls'.2) := by
  obtain ⟨⟨⟨h1, h2, h3⟩, h4⟩, v, rfl, r⟩ := h
  have h1 : p.npt ≤ s.nf := h1
  have h3 : s.kopt ≤ p.npt := h3
  have r : Rise c p.npt True _ (vals s) v := r
  refine ⟨⟨by show 1 ≤ s.nf + 1; omega, fun _ => ⟨h2, ?_⟩, fun a => ?_, fun _ => h4⟩, v, rfl, r.mono (min_le_right _ _) (fun _ => trivial) (fun a => absurd a (by simp [l290]))⟩
  · show s.kopt ≤ min (s.nf + 1 - 1) p.npt
    omega
  · have a : s.nf + 1 ≤ p.npt := a
    omega

theorem pickKnew_le (p : Par K) (s : St K) : pickKnew p s ≤ p.npt := by
  unfold pickKnew
  dsimp only
  refine up_inv (fun n (t : Nat × K) => t.1 ≤ n) p.npt (Nat.zero_le _) ?_
  intro k _ t ht
  split_ifs
  all_goals first | exact le_refl _ | omega

theorem farthest_le (p : Par K) (s : St K) : (farthest p s).1 ≤ p.npt := by
  unfold farthest
  dsimp only
  refine up_inv (fun n (t : Nat × K) => t.1 ≤ n) p.npt (Nat.zero_le _) ?_
  intro k _ t ht
  split_ifs
  all_goals first | exact le_refl _ | omega

/-- The errors of the predictions. -/
theorem errors_rise {p : Par K} {c : K} {s : St K} {v : Vals K} (r : Rise c p.npt True False (vals s) v) :
    ∃ v', errors p (alt s v) = alt (errors p s) v' ∧ Rise c p.npt True True (vals (errors p s)) v' ∧
      (errors p s).kopt = s.kopt ∧ (errors p s).knew = s.knew ∧ (errors p s).nf = s.nf := by
  obtain ⟨b1, b2, b3⟩ := r.b trivial
  have b1 : v.f = s.f + c := b1
  have b3 : v.fopt = s.fopt + c := b3
  have e : v.f - v.fopt - predicted p (alt s v) = s.f - s.fopt - predicted p s := by
    rw [b1, b3, show predicted p (alt s v) = predicted p s from rfl]; ring
  have hc : v.f < v.fopt ↔ s.f < s.fopt := by
    rw [b1, b3]; exact add_lt_add_iff_right c
  unfold errors
  dsimp only
  rw [e]
  by_cases q : s.f < s.fopt
  · rw [if_pos q, if_pos (hc.mpr q)]
    exact ⟨⟨v.f, v.fbeg, v.f, v.fopt, v.fval, v.log⟩, rfl, ⟨r.pts, fun _ => ⟨b1, b2, b1⟩, fun _ => b3, r.log⟩, rfl, rfl, rfl⟩
  · rw [if_neg q, if_neg (fun a => q (hc.mp a))]
    exact ⟨⟨v.f, v.fbeg, v.fopt, v.fopt, v.fval, v.log⟩, rfl, ⟨r.pts, fun _ => ⟨b1, b2, b3⟩, fun _ => b3, r.log⟩, rfl, rfl, rfl⟩

theorem pickKnew_rise {p : Par K} {c : K} {s : St K} {v : Vals K} (r : Rise c p.npt True True (vals s) v) : pickKnew p (alt s v) = pickKnew p s := by
  have b1 : v.f = s.f + c := (r.b trivial).1
  have b2 : v.fsave = s.fsave + c := r.q trivial
  have hc : v.f ≥ v.fsave ↔ s.f ≥ s.fsave := by
    rw [b1, b2]; exact add_le_add_iff_right c
  unfold pickKnew
  dsimp only [alt]
  simp only [hc]

/-- The point to be deleted. -/
theorem sim_pick {p : Par K} {c : K} {s : St K} {v : Vals K} (h : Main1 p s) (r : Rise c p.npt True True (vals s) v) :
    Sim p c (if ((pickKnew p s : Nat) : Int) = 0 then (.l460, { s with knew := pickKnew p s }) else (.l410, { s with knew := pickKnew p s }))
      (if ((pickKnew p (alt s v) : Nat) : Int) = 0 then (.l460, { alt s v with knew := pickKnew p (alt s v) })
        else (.l410, { alt s v with knew := pickKnew p (alt s v) })) := by
  rw [pickKnew_rise r]
  have hle := pickKnew_le p s
  by_cases q : ((pickKnew p s : Nat) : Int) = 0
  · rw [if_pos q, if_pos q]
    exact ⟨⟨h, by show ((pickKnew p s : Nat) : Int) ≤ p.npt; omega⟩, v, rfl, r.mono (le_refl _) id (fun _ => trivial)⟩
  · rw [if_neg q, if_neg q]
    exact ⟨⟨h, by show 1 ≤ ((pickKnew p s : Nat) : Int); omega, by show ((pickKnew p s : Nat) : Int) ≤ p.npt; omega⟩, v, rfl, r.mono (le_refl _) id (fun _ => trivial)⟩

/-- What `after` does when the errors are known. -/
def judge (p : Par K) (s : St K) : Lab × St K :=
  if s.knew > 0 then (.l410, s)
  else if s.vquad ≥ 0 then (.done, { s with status := .stepFailed })
  else
    let s := { s with ratio := (s.f - s.fsave) / s.vquad }
    let s := { s with delta := newDelta s }
    let s := { s with knew := pickKnew p s }
    if s.knew = 0 then (.l460, s) else (.l410, s)

theorem sim_judge {p : Par K} {c : K} {s : St K} {v : Vals K} (h : Main1 p s) (hk : s.knew ≤ p.npt) (r : Rise c p.npt True True (vals s) v) :
    Sim p c (judge p s) (judge p (alt s v)) := by
  unfold judge
  by_cases q2 : s.knew > 0
  · rw [if_pos q2, if_pos q2]
    exact ⟨⟨h, by show 1 ≤ s.knew; omega, hk⟩, v, rfl, r.mono (le_refl _) id (fun _ => trivial)⟩
  rw [if_neg q2, if_neg q2]
  by_cases q3 : s.vquad ≥ 0
  · rw [if_pos q3, if_pos q3]
    exact ⟨Status.noConfusion, v, rfl, r.mono (Nat.zero_le _) (fun _ => trivial) (fun a => absurd a (by simp))⟩
  rw [if_neg q3, if_neg q3]
  have er : ((alt s v).f - (alt s v).fsave) / s.vquad = (s.f - s.fsave) / s.vquad := by
    have b1 : v.f = s.f + c := (r.b trivial).1
    have b2 : v.fsave = s.fsave + c := r.q trivial
    show (v.f - v.fsave) / s.vquad = _
    rw [b1, b2]
    ring
  dsimp only
  rw [er]
  obtain ⟨y, hy⟩ : ∃ y : St K, y = { s with ratio := (s.f - s.fsave) / s.vquad } := ⟨_, rfl⟩
  have h5 : Main1 p { y with delta := newDelta y } := by rw [hy]; exact h
  have r5 : Rise c p.npt True True (vals { y with delta := newDelta y }) v := by rw [hy]; exact r
  have := sim_pick h5 r5
  rw [hy] at this
  exact this

/-- After a value at another point. -/
theorem sim_after {p : Par K} {c : K} {s : St K} {v : Vals K} (q : ¬ s.nf ≤ p.npt) (h : Main1 p s) (hk : s.knew ≤ p.npt)
    (r : Rise c p.npt True False (vals s) v) : Sim p c (after p s) (after p (alt s v)) := by
  have d1 : after p s = if s.nf ≤ p.npt then l70 p s else if s.knew = -1 then (.done, { s with status := .success }) else judge p (errors p s) := rfl
  have d2 : after p (alt s v) = if s.nf ≤ p.npt then l70 p (alt s v) else if s.knew = -1 then (.done, alt { s with status := .success } v)
    else judge p (errors p (alt s v)) := rfl
  rw [d1, d2, if_neg q, if_neg q]
  by_cases q1 : s.knew = -1
  · rw [if_pos q1, if_pos q1]
    exact ⟨Status.noConfusion, v, rfl, r.mono (Nat.zero_le _) (fun _ => trivial) (fun a => absurd a (by simp))⟩
  rw [if_neg q1, if_neg q1]
  obtain ⟨w, e2, r2, c1, c2, c3⟩ := errors_rise r
  rw [e2]
  exact sim_judge (by unfold Main1; rw [c1, c3]; exact h) (by rw [c2]; exact hk) r2

theorem after_first {p : Par K} {s : St K} (q : s.nf ≤ p.npt) : after p s = l70 p s := if_pos q

/-- After a value. -/
theorem sim_answer {p : Par K} (hp : Valid p) {c f : K} {s : St K} {ls' : Lab × St K} (h : Sim p c (.ask, s) ls') :
    Sim p c (answer p f s) (answer p (f + c) ls'.2) := by
  obtain ⟨h1, v, rfl, r⟩ := h
  have r : Rise c (min (s.nf - 1) p.npt) (2 ≤ s.nf) False (vals s) v := r.mono (le_refl _) id (fun a => a.elim)
  have h1 : Before p s := h1
  have hnpt : 1 ≤ p.npt := by have := hp.lo; omega
  by_cases q : s.nf ≤ p.npt
  · rw [show answer p f s = after p (put f s) from rfl, after_first (s := put f s) q]
    show Sim p c _ (after p (put (f + c) (alt s v)))
    rw [after_first (s := put (f + c) (alt s v)) q]
    exact sim_l70 hp h1 q r
  obtain ⟨h1, h2, h3, h4⟩ := h1
  obtain ⟨k1, k2⟩ := h2 (by omega)
  have h4 := h4 (by omega)
  obtain ⟨b1, b2, b3⟩ := r.b (by omega)
  have r : Rise c p.npt True False (vals (put f s)) ⟨f + c, v.fbeg, v.fopt, v.fsave, v.fval, (s.x, f + c) :: v.log⟩ :=
    ⟨fun j j1 j2 => r.pts j j1 (by omega), fun _ => ⟨rfl, b2, b3⟩, fun a => a.elim, by
      show (s.x, f + c) :: v.log = ((s.x, f) :: s.log).map _
      rw [List.map_cons, r.log]; rfl⟩
  show Sim p c (after p (put f s)) (after p (put (f + c) (alt s v)))
  rw [show put (f + c) (alt s v) = alt (put f s) ⟨f + c, v.fbeg, v.fopt, v.fsave, v.fval, (s.x, f + c) :: v.log⟩ from rfl]
  exact sim_after (s := put f s) q ⟨by show p.npt ≤ s.nf; omega, k1, by show s.kopt ≤ p.npt; omega⟩ h4 r

/-- The point is moved. -/
theorem move_rise {p : Par K} {o : Subs K} (ho : Blind o) {c : K} {s : St K} {v : Vals K} (r : Rise c p.npt True True (vals s) v) :
    ∃ v', move p o (alt s v) = alt (move p o s) v' ∧ Rise c p.npt True True (vals (move p o s)) v' := by
  refine ⟨⟨v.f, v.fbeg, v.fopt, v.fsave, set1 v.fval s.knew.toNat v.f, v.log⟩, ?_, ?_⟩
  · unfold move
    dsimp only
    rw [(ho s v).2.2.2]
  · refine ⟨fun j j1 j2 => ?_, r.b, r.q, r.log⟩
    show set1 v.fval s.knew.toNat v.f j = set1 s.fval s.knew.toNat s.f j + c
    unfold set1
    by_cases q : j = s.knew.toNat
    · rw [if_pos q, if_pos q]; exact (r.b trivial).1
    · rw [if_neg q, if_neg q]; exact r.pts j j1 j2

/-- The test of the model. -/
theorem tryFrobenius_rise {p : Par K} {c : K} {s : St K} {v : Vals K} (hk : 1 ≤ s.kopt ∧ s.kopt ≤ p.npt) (r : Rise c p.npt True True (vals s) v) :
    tryFrobenius p (alt s v) = alt (tryFrobenius p s) v ∧ vals (tryFrobenius p s) = vals s ∧ (tryFrobenius p s).kopt = s.kopt ∧
      (tryFrobenius p s).knew = s.knew ∧ (tryFrobenius p s).nf = s.nf := by
  have e : (fun k => if 1 ≤ k ∧ k ≤ p.npt then (alt s v).fval k - (alt s v).fval (alt s v).kopt else (alt s v).vlag k) =
      fun k => if 1 ≤ k ∧ k ≤ p.npt then s.fval k - s.fval s.kopt else s.vlag k := by
    funext k
    by_cases q : 1 ≤ k ∧ k ≤ p.npt
    · rw [if_pos q, if_pos q]
      have e1 : v.fval k = s.fval k + c := r.pts k q.1 q.2
      have e2 : v.fval s.kopt = s.fval s.kopt + c := r.pts _ hk.1 hk.2
      show v.fval k - v.fval s.kopt = _
      rw [e1, e2]; ring
    · rw [if_neg q, if_neg q]
  unfold tryFrobenius
  rw [e]
  dsimp only [alt]
  by_cases q1 : s.ksave = 0 ∧ s.delta = s.rho
  · rw [if_pos q1, if_pos q1]
    by_cases q2 : fabs s.ratio > lit 1 100
    · rw [if_pos q2, if_pos q2]; exact ⟨rfl, rfl, rfl, rfl, rfl⟩
    · rw [if_neg q2, if_neg q2]
      split_ifs <;> exact ⟨rfl, rfl, rfl, rfl, rfl⟩
  · rw [if_neg q1, if_neg q1]; exact ⟨rfl, rfl, rfl, rfl, rfl⟩

theorem sim_l410 {p : Par K} {o : Subs K} (ho : Blind o) {c : K} {s : St K} {ls' : Lab × St K} (h : Sim p c (.l410, s) ls') :
    Sim p c (l410 p o s) (l410 p o ls'.2) := by
  obtain ⟨⟨⟨h1, h2, h3⟩, h4, h5⟩, v, rfl, r⟩ := h
  have h1 : p.npt ≤ s.nf := h1
  have h2 : 1 ≤ s.kopt := h2
  have h3 : s.kopt ≤ p.npt := h3
  have h4 : 1 ≤ s.knew := h4
  have h5 : s.knew ≤ p.npt := h5
  have r : Rise c p.npt True _ (vals s) v := r
  have r : Rise c p.npt True True (vals s) v := r.mono (le_refl _) id (fun _ => rfl)
  obtain ⟨v', e1, r1⟩ := move_rise ho r
  have m1 : (move p o s).kopt = s.kopt ∧ (move p o s).knew = s.knew ∧ (move p o s).nf = s.nf := ⟨rfl, rfl, rfl⟩
  unfold l410
  rw [e1]
  generalize move p o s = t at *
  obtain ⟨e2, t1, t2, t3, t4⟩ := tryFrobenius_rise (by rw [m1.1]; exact ⟨h2, h3⟩) r1
  rw [e2]
  rw [← t1] at r1
  have t2 := t2.trans m1.1
  have t3 := t3.trans m1.2.1
  have t4 := t4.trans m1.2.2
  generalize tryFrobenius p t = u at *
  have b1 : v'.f = u.f + c := (r1.b trivial).1
  have b2 : v'.fsave = u.fsave + c := r1.q trivial
  have hc1 : v'.f < v'.fsave ↔ u.f < u.fsave := by
    rw [b1, b2]; exact add_lt_add_iff_right c
  have hc2 : v'.f ≤ v'.fsave + lit 1 10 * u.vquad ↔ u.f ≤ u.fsave + lit 1 10 * u.vquad := by
    rw [b1, b2, add_right_comm]; exact add_le_add_iff_right c
  have hm : p.npt ≤ u.nf ∧ 1 ≤ (if u.f < u.fsave then u.knew.toNat else u.kopt) ∧ (if u.f < u.fsave then u.knew.toNat else u.kopt) ≤ p.npt := by
    refine ⟨by omega, ?_⟩
    split_ifs <;> omega
  dsimp only [alt]
  simp only [hc1, hc2]
  by_cases q : u.f ≤ u.fsave + lit 1 10 * u.vquad ∨ u.ksave > 0
  · rw [if_pos q, if_pos q]
    exact ⟨hm, v', rfl, r1.mono (le_refl _) id (fun a => absurd a (by simp))⟩
  · rw [if_neg q, if_neg q]
    exact ⟨⟨hm, by show (0 : Int) ≤ p.npt; omega⟩, v', rfl, r1.mono (le_refl _) id (fun a => absurd a (by simp))⟩

theorem sim_l460 {p : Par K} {c : K} {s : St K} {ls' : Lab × St K} (h : Sim p c (.l460, s) ls') : Sim p c (l460 p s) (l460 p ls'.2) := by
  obtain ⟨⟨h1, h2⟩, v, rfl, r⟩ := h
  have r : Rise c p.npt True _ (vals s) v := r
  have hle := farthest_le p s
  have hk : (if (farthest p s).1 = 0 then s.knew else ((farthest p s).1 : Int)) ≤ p.npt := by
    split_ifs <;> omega
  unfold l460
  rw [show farthest p (alt s v) = farthest p s from rfl]
  dsimp only [alt]
  by_cases q : (if (farthest p s).1 = 0 then s.knew else ((farthest p s).1 : Int)) > 0
  · rw [if_pos q, if_pos q]
    exact ⟨⟨h1, hk⟩, v, rfl, r.mono (le_refl _) id (fun a => absurd a (by simp))⟩
  · rw [if_neg q, if_neg q]
    by_cases q2 : s.ratio > 0 ∨ cmax s.delta s.dnorm > s.rho
    · rw [if_pos q2, if_pos q2]
      exact ⟨h1, v, rfl, r.mono (le_refl _) id (fun a => absurd a (by simp))⟩
    · rw [if_neg q2, if_neg q2]
      exact ⟨h1, v, rfl, r.mono (le_refl _) id (fun a => absurd a (by simp))⟩

theorem sim_l490 {p : Par K} {c : K} {s : St K} {ls' : Lab × St K} (h : Sim p c (.l490, s) ls') : Sim p c (l490 p s) (l490 p ls'.2) := by
  obtain ⟨h1, v, rfl, r⟩ := h
  have r : Rise c p.npt True _ (vals s) v := r
  unfold l490
  dsimp only [alt]
  by_cases q : s.rho > p.rhoend
  · rw [if_pos q, if_pos q]
    exact ⟨h1, v, rfl, r.mono (le_refl _) id (fun a => absurd a (by simp))⟩
  · rw [if_neg q, if_neg q]
    by_cases q2 : s.knew = -1
    · rw [if_pos q2, if_pos q2]
      exact ⟨⟨h1, by rw [q2]; omega⟩, v, rfl, r.mono (le_refl _) id (fun a => absurd a (by simp))⟩
    · rw [if_neg q2, if_neg q2]
      exact ⟨Status.noConfusion, v, rfl, r.mono (Nat.zero_le _) (fun _ => trivial) (fun a => absurd a (by simp))⟩

theorem sim_done {p : Par K} {c : K} {s : St K} {ls' : Lab × St K} (h : Sim p c (.done, s) ls') : Sim p c (finish s) (finish ls'.2) := by
  obtain ⟨h1, v, rfl, r⟩ := h
  have r : Rise c 0 True _ (vals s) v := r
  obtain ⟨b1, b2, b3⟩ := r.b trivial
  have hc : v.fopt ≤ v.f ↔ s.fopt ≤ s.f := by
    rw [b1, b3]; exact add_le_add_iff_right c
  unfold finish
  dsimp only [alt]
  by_cases q : s.fopt ≤ s.f
  · rw [if_pos q, if_pos (hc.mpr q)]
    exact ⟨h1, { v with f := v.fopt }, rfl, ⟨r.pts, fun _ => ⟨b3, b2, b3⟩, fun a => absurd a (by simp), r.log⟩⟩
  · rw [if_neg q, if_neg (fun a => q (hc.mp a))]
    exact ⟨h1, v, rfl, r.mono (Nat.zero_le _) (fun _ => trivial) (fun a => absurd a (by simp))⟩

/-- One step. -/
theorem sim_step {p : Par K} (hp : Valid p) {o : Subs K} (ho : Blind o) {c : K} {ls ls' : Lab × St K} (h : Sim p c ls ls') :
    Sim p c (step p o ls) (step p o ls') := by
  obtain ⟨lab, s⟩ := ls
  have e : ls' = (lab, ls'.2) := by obtain ⟨_, v, e, _⟩ := h; rw [e]
  rw [e]
  cases lab
  · exact sim_l50 hp h
  · exact sim_l310 h
  · show Sim p c (.ask, s) (.ask, ls'.2); rw [← e]; exact h
  · exact sim_l90 h
  · exact sim_l100 ho h
  · exact sim_l120 ho h
  · exact sim_l290 h
  · exact sim_l410 ho h
  · exact sim_l460 h
  · exact sim_l490 h
  · exact sim_done h
  · show Sim p c (.ret, s) (.ret, ls'.2); rw [← e]; exact h

/-- One step with the objective functions. -/
theorem sim_stepF {p : Par K} (hp : Valid p) {o : Subs K} (ho : Blind o) {c : K} {g g' : Nat → (Nat → K) → K} (hg : ∀ k x, g' k x = g k x + c)
    {ls ls' : Lab × St K} (h : Sim p c ls ls') : Sim p c (stepF p o g ls) (stepF p o g' ls') := by
  obtain ⟨lab, s⟩ := ls
  obtain ⟨lab', s'⟩ := ls'
  have e : lab' = lab := by obtain ⟨_, v, e, _⟩ := h; exact (Prod.ext_iff.mp e).1
  subst e
  cases lab'
  case ask =>
    have hx : s'.x = s.x ∧ s'.log.length = s.log.length := by
      obtain ⟨_, v, e, r⟩ := h
      have e := (Prod.ext_iff.mp e).2
      have e : s' = alt s v := e
      rw [e]
      refine ⟨rfl, ?_⟩
      show v.log.length = _
      rw [r.log, List.length_map]
      rfl
    show Sim p c (answer p (g s.log.length s.x) s) (answer p (g' s'.log.length s'.x) s')
    rw [hx.1, hx.2, hg]
    exact sim_answer hp h
  all_goals exact sim_step hp ho h

theorem sim_run {p : Par K} (hp : Valid p) {o : Subs K} (ho : Blind o) {c : K} {g g' : Nat → (Nat → K) → K} (hg : ∀ k x, g' k x = g k x + c)
    (fuel : Nat) : ∀ {ls ls' : Lab × St K}, Sim p c ls ls' → Sim p c (run p o g fuel ls) (run p o g' fuel ls') := by
  induction fuel with
  | zero => intro ls ls' h; exact h
  | succ k ih => intro ls ls' h; exact ih (sim_stepF hp ho hg h)

/-! ### `newuoa_optimize` -/

/-- At the beginning. -/
theorem sim_init {p : Par K} (hp : Valid p) (c : K) {s s' : St K} {v : Vals K} (e : s' = alt s v) (h : s.log = []) (h' : v.log = []) :
    Sim p c (.l50, init s) (.l50, init s') := by
  subst e
  refine ⟨⟨?_, fun a => ?_⟩, v, rfl, ⟨fun j j1 j2 => ?_, fun a => ?_, fun a => absurd a (by simp), ?_⟩⟩
  · show 0 < p.npt
    have := hp.lo; omega
  · exact absurd a (by show ¬ 1 ≤ 0; omega)
  · exact absurd (show j ≤ 0 from j2) (by omega)
  · exact absurd (show 1 ≤ 0 from a) (by omega)
  · show v.log = s.log.map _
    rw [h, h']; rfl

/-- The sizes accepted by the code are valid. -/
theorem sizes_valid {n npt : Int} {p : Par K} (h1 : n + 2 ≤ npt) (h2 : npt ≤ (n + 2) * (n + 1) / 2) (h0 : 0 ≤ n) (e1 : (p.n : Int) = n) (e2 : (p.npt : Int) = npt)
    (r1 : 0 < p.rhoend) (r2 : p.rhoend ≤ p.rhobeg) : Valid p := by
  have hm : 2 * npt ≤ (n + 2) * (n + 1) := by
    have := Int.mul_ediv_self_le (x := (n + 2) * (n + 1)) (k := 2) (by norm_num)
    linarith
  have hn : 1 ≤ n := by
    by_contra q
    have : n = 0 := by omega
    subst this
    norm_num at hm
    omega
  refine ⟨by omega, by omega, ?_, r1, r2⟩
  zify
  rw [e1, e2]
  linarith

/-- **C99.**  In exact arithmetic, a constant `c` added to the objective function does not change what `newuoa_optimize` does: the
objective function is called at the same points in the same order, the status and the variables are the same, and `c` is
added to the value that is returned. -/
theorem newuoa_constant (a : Args K) {o : Par K → Subs K} (ho : ∀ p, Blind (o p)) (obj : Nat → (Nat → K) → K) (c : K) (s : St K) (fuel : Nat) :
    optimize a o (fun k x => obj k x + c) s fuel =
      (optimize a o obj s fuel).map fun t => (t.1, t.2.1, t.2.2.1.map (· + c), t.2.2.2.map fun e => (e.1, e.2 + c)) := by
  unfold optimize
  cases hp : prepare a s with
  | inl e => rfl
  | inr t =>
    obtain ⟨p, scl, ls⟩ := t
    obtain ⟨acc, -, hls⟩ := prepare_accepted a s p scl ls hp
    have hv : Valid p := sizes_valid acc.npt1 acc.npt2 (by have := acc.two; omega) acc.n_eq acc.npt_eq (by rw [acc.rhoend_eq]; exact acc.rho1)
      (by rw [acc.rhoend_eq, acc.rhobeg_eq]; exact acc.rho2)
    have key : ∀ c' : K, (∀ k x, objfun (fun k x => obj k x + c) a.maximize scl k x = objfun obj a.maximize scl k x + c') →
        Sim p c' (run p (o p) (objfun obj a.maximize scl) fuel ls) (run p (o p) (objfun (fun k x => obj k x + c) a.maximize scl) fuel ls) := by
      intro c' hg
      refine sim_run hv (ho p) hg fuel ?_
      rw [hls]
      exact sim_init hv c' (v := vals { fresh s with x := match scl with | none => a.x | some c => fun j => a.x j / c j }) rfl rfl rfl
    dsimp only
    obtain ⟨c', hc', hg⟩ : ∃ c' : K, (c' = if a.maximize then -c else c) ∧
        ∀ k x, objfun (fun k x => obj k x + c) a.maximize scl k x = objfun obj a.maximize scl k x + c' := by
      refine ⟨_, rfl, fun k x => ?_⟩
      unfold objfun
      cases a.maximize
      · rfl
      · simp only [if_true]; ring
    have h := key c' hg
    generalize run p (o p) (objfun obj a.maximize scl) fuel ls = r at h
    generalize run p (o p) (objfun (fun k x => obj k x + c) a.maximize scl) fuel ls = r' at h
    obtain ⟨lab, t⟩ := r
    obtain ⟨-, v, rfl, rr⟩ := h
    cases lab
    case ret =>
      obtain ⟨b1, -, -⟩ := rr.b trivial
      have b1 : v.f = t.f + c' := b1
      have b4 : v.log = t.log.map fun e => (e.1, e.2 + c') := rr.log
      dsimp only
      rw [b1, b4, hc', List.map_map]
      simp only [Option.map_some, List.map_map, Option.some.injEq, Prod.mk.injEq, true_and]
      refine ⟨?_, ?_⟩
      · cases a.maximize
        · rfl
        · simp only [if_true]; ring
      · refine List.map_congr_left fun e _ => ?_
        cases a.maximize
        · rfl
        · simp only [Function.comp, if_true]
          exact Prod.ext rfl (by dsimp only; ring)
    all_goals rfl

/-! ### `newuoa_iterate` -/

theorem sim_first {p : Par K} (hp : Valid p) {c f : K} {s s' : St K} (h : Sim p c (.l50, s) (.l50, s')) : Sim p c (first p f s) (first p (f + c) s') := by
  have h1 : Sim p c (l50 p s) (l50 p s') := sim_l50 hp h
  have h2 : Sim p c (l310 p (l50 p s).2) (l310 p (l50 p s').2) := sim_l310 (s := (l50 p s).2) (ls' := l50 p s') h1
  unfold first
  generalize l310 p (l50 p s).2 = r at h2
  generalize l310 p (l50 p s').2 = r' at h2
  obtain ⟨lab, t⟩ := r
  have e : r' = (lab, r'.2) := by obtain ⟨_, v, e, _⟩ := h2; rw [e]
  rw [e] at h2 ⊢
  cases lab
  case ask => exact sim_answer hp (ls' := (.ask, r'.2)) h2
  all_goals exact h2

theorem sim_go {p : Par K} (hp : Valid p) {o : Subs K} (ho : Blind o) {c : K} (fuel : Nat) :
    ∀ {ls ls' r : Lab × St K}, Sim p c ls ls' → go p o fuel ls = some r → ∃ r', go p o fuel ls' = some r' ∧ Sim p c r r' := by
  have key : ∀ {ls ls' : Lab × St K}, Sim p c ls ls' → ls' = (ls.1, ls'.2) := by
    intro ls ls' h
    obtain ⟨_, v, e, _⟩ := h; rw [e]
  induction fuel with
  | zero =>
    intro ls ls' r h hr
    obtain ⟨lab, s⟩ := ls
    have e := key h
    rw [e] at h ⊢
    cases lab <;> first | (obtain rfl := Option.some.inj hr; exact ⟨_, rfl, h⟩) | exact absurd hr (by simp [go])
  | succ k ih =>
    intro ls ls' r h hr
    have h2 := sim_step hp ho h
    obtain ⟨lab, s⟩ := ls
    have e := key h
    rw [e] at h h2 ⊢
    cases lab <;> first | exact ih h2 hr | (obtain rfl := Option.some.inj hr; exact ⟨_, rfl, h⟩)

/-- Two workspaces of which the second one has got function values with `c` added. -/
def Twin (c : K) (w w' : Ctx K) : Prop :=
  ∃ v, w' = { w with st := alt w.st v } ∧ (w.status = .iterate → w.nevals ≠ 0 → Before w.par w.st ∧ Rise c (min (w.st.nf - 1) w.par.npt) (2 ≤ w.st.nf) False (vals w.st) v)

/-- **C99.**  The same with reverse communication: for each sequence of calls, the same calls with `c` added to the function
values ask for the same points and lead to the same status, radius and number of evaluations. -/
theorem newuoa_iterate_constant {o : Par K → Subs K} (ho : ∀ p, Blind (o p)) {ctx : Ctx K} {x : Nat → K} {l : List ((Nat → K) × K)}
    (H : Talk o ctx x l) (c : K) :
    ∃ ctx', Talk o ctx' x (l.map fun e => (e.1, e.2 + c)) ∧ getStatus (some ctx') = getStatus (some ctx) ∧
      getNevals (some ctx') = getNevals (some ctx) ∧ getRho (some ctx') = getRho (some ctx) := by
  have key : Valid ctx.par ∧ ∃ ctx', Talk o ctx' x (l.map fun e => (e.1, e.2 + c)) ∧ Twin c ctx ctx' := by
    induction H with
    | @new n npt rhobeg rhoend maxfun ok zero w x h =>
      refine ⟨?_, w, .new x h, vals w.st, rfl, ?_⟩
      all_goals
        unfold create at h
        split_ifs at h with c1 c2 c3 c4
        have h := (Option.some.inj h).symm
        subst h
      · rw [not_or] at c2 c3
        exact sizes_valid (n := n) (npt := npt) (by omega) (by omega) (by omega) (by show ((n.toNat : Nat) : Int) = n; omega)
          (by show ((npt.toNat : Nat) : Int) = npt; omega) (not_le.mp c3.1) (not_lt.mp c3.2)
      · exact fun _ a => absurd rfl a
    | @next w x l fuel f st x' w2 t hs h ih =>
      obtain ⟨hv, w', t', v, rfl, hw⟩ := ih
      have hs : w.status = .iterate := hs
      rw [iterate_ready o fuel w f x hs] at h
      obtain ⟨r, hg, e⟩ := Option.map_eq_some_iff.mp h
      have he : Sim w.par c (enter w f x) (enter { w with st := alt w.st v } (f + c) x) := by
        unfold enter
        dsimp only
        by_cases q : w.nevals = 0
        · rw [if_pos q, if_pos q]
          exact sim_first hv (sim_init hv c (s := { w.st with x := x, log := [] }) (v := { v with log := [] }) rfl rfl rfl)
        · rw [if_neg q, if_neg q]
          obtain ⟨i1, i2⟩ := hw hs q
          exact sim_answer hv (s := { w.st with x := x }) (ls' := (.ask, { alt w.st v with x := x }))
            ⟨i1, v, rfl, i2.mono (le_refl _) id (fun a => absurd a (by simp))⟩
      obtain ⟨r', hg', hr⟩ := sim_go hv (ho w.par) fuel he hg
      have h' : iterate o fuel (some { w with st := alt w.st v }) (f + c) (some x) = _ := iterate_ready o fuel { w with st := alt w.st v } (f + c) x hs
      rw [hg'] at h'
      obtain ⟨lab, s⟩ := r
      have hl : lab = .ask ∨ lab = .ret := (go_run w.par (o w.par) (fun _ _ => 0) fuel _ _ hg).2
      obtain ⟨i1, v', rfl, i2⟩ := hr
      simp only [Prod.mk.injEq, Option.some.injEq] at e
      obtain ⟨-, rfl, rfl⟩ := e
      rcases hl with rfl | rfl
      · exact ⟨hv, _, .next t' hs h', v', rfl, fun _ _ => ⟨i1, i2.mono (le_refl _) id (fun a => a.elim)⟩⟩
      · exact ⟨hv, _, .next t' hs h', v', rfl, fun q1 _ => absurd q1 i1⟩
    | @misuse w x l fuel f st x' w2 t hs h ih =>
      obtain ⟨hv, w', t', v, rfl, hw⟩ := ih
      have hs' : getStatus (some { w with st := alt w.st v }) ≠ .iterate := hs
      have h' := iterate_misused o fuel { w with st := alt w.st v } f x hs'
      rw [iterate_misused o fuel w f x hs] at h
      simp only [Prod.mk.injEq, Option.some.injEq] at h
      obtain ⟨-, rfl, rfl⟩ := h
      exact ⟨hv, _, .misuse t' hs' h', v, rfl, fun q => Status.noConfusion q⟩
    | @again w x l st w2 y t h ih =>
      obtain ⟨hv, w', t', v, rfl, hw⟩ := ih
      unfold restart at h
      simp only [Prod.mk.injEq, Option.some.injEq] at h
      obtain ⟨-, rfl⟩ := h
      exact ⟨hv, _, .again y t' rfl, v, rfl, fun _ q => absurd rfl q⟩
  obtain ⟨-, w', t', v, rfl, -⟩ := key
  exact ⟨_, t', rfl, rfl, rfl⟩

/-! ### The hypotheses can be met -/

/-- The functions of the code do not use the function values (for any result of `trsapp` when it does not end). -/
theorem blind_code (p : Par ℝ) (den : St ℝ → (Nat → ℝ) × (Nat → ℝ) × (Nat → ℝ) × ℝ × (Nat → ℝ)) (hd : ∀ s v, den (alt s v) = den s) :
    Blind ⟨fun s => (trsapp realTrig p s).getD (s.d, 0, s.w), biglag realTrig p, den, update p⟩ :=
  fun s v => ⟨rfl, rfl, hd s v, rfl⟩

theorem Demo.blind_still (p : Par ℚ) : Blind (Demo.still p) := fun _ _ => ⟨rfl, rfl, rfl, rfl⟩

set_option maxRecDepth 100000 in
/-- The first example of `Demo`, with the constant 10. -/
example : Demo.view (optimize (Demo.args 5 false none 1 100) Demo.still (fun k x => Demo.sq k x + 10) Demo.blank 100) =
    some (.success, [1, 1], some 11, [([0, 1], 12), ([1, 1], 11), ([0, 2], 15), ([-1, 1], 15), ([0, 0], 11), ([1, 1], 11)]) := by
  rw [newuoa_constant _ Demo.blind_still]
  decide +kernel

/-- With reverse communication, after a call with the value 3, the call with the value 13 asks for the same point. -/
example {x x' : Nat → ℚ} {c1 c2 : Ctx ℚ} {fuel : Nat} {st : Status} (h : create 2 5 1 1 100 true Demo.blank = some c1)
    (h2 : iterate Demo.still fuel (some c1) 3 (some x) = some (st, some x', some c2)) :
    ∃ c3, Talk Demo.still c3 x' [(x, 13)] ∧ getStatus (some c3) = getStatus (some c2) := by
  have hs : getStatus (some c1) = .iterate := by
    unfold create at h
    split_ifs at h
    obtain rfl := Option.some.inj h
    rfl
  obtain ⟨c3, t, e, -⟩ := newuoa_iterate_constant Demo.blind_still (.next (.new x h) hs h2) 10
  refine ⟨c3, ?_, e⟩
  norm_num at t
  exact t

end Opk.Newuoa
