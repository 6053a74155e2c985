import Verif.Bobyqa.Points
/-!
# BOBYQA: the interpolation points, the best point

In exact arithmetic, for any objective function and any step of `trsbox`.
-/
set_option linter.unusedSectionVars false
namespace Opk.Bobyqa
open Linalg CMath Cobyla

section
variable {K : Type} [Field K] [LinearOrder K] [IsStrictOrderedRing K] [CMath K] [ExactMath K]

theorem cmin_eq (a b : K) : cmin a b = min a b := by
  unfold cmin
  by_cases h : a ≤ b
  · rw [if_pos h, min_eq_left h]
  · rw [if_neg h, min_eq_right (not_le.mp h).le]

theorem cmax_eq (a b : K) : cmax a b = max a b := by
  unfold cmax
  by_cases h : a ≥ b
  · rw [if_pos h, max_eq_left h]
  · rw [if_neg h, max_eq_right (not_le.mp h).le]

theorem lit_rat (a b : Nat) : (lit a b : K) = (a : K) / (b : K) := ExactMath.lit_eq a b

theorem acc_eq (n : Nat) (f : Nat → K) (a : K) : acc n f a = a + ∑ j ∈ Finset.Icc 1 n, f j := up_sum n f a

theorem acc_zero {n : Nat} {f : Nat → K} (h : ∀ j, 1 ≤ j → j ≤ n → f j = 0) (a : K) : acc n f a = a := by
  rw [acc_eq, Finset.sum_eq_zero, add_zero]
  intro j hj
  obtain ⟨h1, h2⟩ := Finset.mem_Icc.mp hj
  exact h j h1 h2

/-! ### The properties of the states -/

/-- `SL` and `SU` are the bounds relative to `XBASE`. -/
def Geo (p : Par K) (s : St K) : Prop :=
  ∀ i, 1 ≤ i → i ≤ p.n → s.sl i = p.xl i - s.xbase i ∧ s.su i = p.xu i - s.xbase i

/-- A point relative to `XBASE` is within the bounds. -/
def Within (p : Par K) (s : St K) (v : Nat → K) : Prop := ∀ i, 1 ≤ i → i ≤ p.n → s.sl i ≤ v i ∧ v i ≤ s.su i

/-- `FVAL(k)` is the value of the objective function at a call with the variables `XBASE + XPT(k,.)`. -/
def Rec (p : Par K) (s : St K) (k : Nat) : Prop :=
  ∃ e ∈ s.log, e.2 = s.fval k ∧ ∀ i, 1 ≤ i → i ≤ p.n → e.1 i = s.xbase i + s.xpt k i

/-- The properties of the interpolation points. -/
structure Full (p : Par K) (s : St K) : Prop where
  geo : Geo p s
  kopt1 : 1 ≤ s.kopt
  koptn : s.kopt ≤ p.npt
  recs : ∀ k, 1 ≤ k → k ≤ p.npt → Rec p s k
  within : ∀ k, 1 ≤ k → k ≤ p.npt → Within p s (s.xpt k)
  best : ∀ e ∈ s.log, s.fval s.kopt ≤ e.2
  fsave : s.fval s.kopt ≤ s.fsave
  status : s.status = .success

/-- `XOPT` is the best point. -/
def Xo (p : Par K) (s : St K) : Prop := ∀ i, 1 ≤ i → i ≤ p.n → s.xopt i = s.xpt s.kopt i

/-- The radii. -/
def Rad (p : Par K) (s : St K) : Prop := p.rhoend ≤ s.rho ∧ s.rho ≤ s.delta

/-- `KNEW` is the index of an interpolation point, not the best one. -/
def Kn (p : Par K) (s : St K) : Prop := 1 ≤ s.knew ∧ s.knew ≤ p.npt ∧ s.knew ≠ s.kopt

/-- In `rescue`. -/
structure Resc (p : Par K) (s : St K) : Prop where
  full : Full p s
  rad : Rad p s
  ntrits : 0 ≤ s.ntrits
  knew : s.ntrits = 0 → 1 ≤ s.knew ∧ s.knew ≤ p.npt ∧ s.knew ≠ s.kbase
  xopt : ∀ i, 1 ≤ i → i ≤ p.n → s.xopt i = 0
  base : ∀ i, 1 ≤ i → i ≤ p.n → s.xpt s.kbase i = 0
  kbase1 : 1 ≤ s.kbase
  kbasen : s.kbase ≤ p.npt
  nfsav : s.nfsav ≤ s.nf
  same : s.nf = s.nfsav → s.kopt = s.kbase
  aux1 : Within p s s.res.aux1
  aux2 : Within p s s.res.aux2

/-- At the end. -/
structure Last (p : Par K) (s : St K) : Prop where
  geo : Geo p s
  record : Rec p s s.kopt
  xo : Xo p s
  within : Within p s s.xopt
  cases : ((∀ e ∈ s.log, s.fval s.kopt ≤ e.2) ∧ s.fval s.kopt ≤ s.fsave ∧ s.status ≠ .stepFailed)
    ∨ (∃ old, s.log = (s.x, s.f) :: old ∧ (∀ e ∈ old, s.fval s.kopt ≤ e.2) ∧ s.fsave = s.f ∧ s.status ≠ .stepFailed)
    ∨ (∃ old, s.log = (s.x, s.f) :: old ∧ (∀ e ∈ old, s.fval s.kopt ≤ e.2) ∧ s.fval s.kopt ≤ s.fsave ∧
        (∃ e ∈ old, e.2 = s.fval s.kopt ∧ ∀ i, 1 ≤ i → i ≤ p.n → e.1 i = s.xbase i + s.xpt s.kopt i) ∧ s.status = .stepFailed)

/-- The best point, as the user sees it: the variables and the value are those of a call, and no call in the list
`log` has given a smaller value. -/
def BestOf (p : Par K) (x : Nat → K) (f : K) (log : List ((Nat → K) × K)) : Prop :=
  (∃ e ∈ log, e.2 = f ∧ ∀ i, 1 ≤ i → i ≤ p.n → e.1 i = x i) ∧ ∀ e ∈ log, f ≤ e.2

/-- At the return. -/
structure Ret (p : Par K) (s : St K) : Prop where
  best : s.status ≠ .stepFailed → BestOf p s.x s.f s.log
  failed : s.status = .stepFailed → ∃ e old, s.log = e :: old ∧ BestOf p s.x s.f old
  value : s.status = .success → s.xbase 1 = s.f

theorem Full.same {p : Par K} {s s' : St K} (h : Full p s)
    (e : s'.sl = s.sl ∧ s'.su = s.su ∧ s'.xbase = s.xbase ∧ s'.log = s.log ∧ s'.fval = s.fval ∧ s'.xpt = s.xpt ∧
      s'.kopt = s.kopt ∧ s'.fsave = s.fsave ∧ s'.status = s.status) : Full p s' := by
  obtain ⟨e1, e2, e3, e4, e5, e6, e7, e8, e9⟩ := e
  refine ⟨?_, ?_, ?_, ?_, ?_, ?_, ?_, ?_⟩
  · unfold Geo; rw [e1, e2, e3]; exact h.geo
  · rw [e7]; exact h.kopt1
  · rw [e7]; exact h.koptn
  · unfold Rec; rw [e3, e4, e5, e6]; exact h.recs
  · unfold Within; rw [e1, e2, e6]; exact h.within
  · rw [e4, e5, e7]; exact h.best
  · rw [e5, e7, e8]; exact h.fsave
  · rw [e9]; exact h.status

theorem Full.xopt_within {p : Par K} {s : St K} (h : Full p s) (hx : Xo p s) : Within p s s.xopt := by
  intro i h1 h2
  rw [hx i h1 h2]
  exact h.within s.kopt h.kopt1 h.koptn i h1 h2

theorem Full.last {p : Par K} {s : St K} (h : Full p s) (hx : Xo p s) (st : Status) (hst : st ≠ .stepFailed) :
    Last p { s with status := st } :=
  ⟨h.geo, h.recs s.kopt h.kopt1 h.koptn, hx, h.xopt_within hx, Or.inl ⟨h.best, h.fsave, hst⟩⟩

/-- In exact arithmetic `place` does not change the point. -/
theorem place_eq {p : Par K} {s : St K} (hg : Geo p s) {v : Nat → K} (hv : Within p s v) (i : Nat) (h1 : 1 ≤ i) (h2 : i ≤ p.n) :
    place p s v i = s.xbase i + v i := by
  obtain ⟨g1, g2⟩ := hg i h1 h2
  obtain ⟨v1, v2⟩ := hv i h1 h2
  unfold place clamp
  by_cases ha : v i = s.su i
  · rw [if_pos ha, ha, g2]; ring
  · rw [if_neg ha]
    by_cases hc : v i = s.sl i
    · rw [if_pos hc, hc, g1]; ring
    · rw [if_neg hc]
      have k1 : s.sl i < v i := lt_of_le_of_ne v1 (Ne.symm hc)
      have k2 : v i < s.su i := lt_of_le_of_ne v2 ha
      rw [if_neg (by rw [g2] at k2; intro h; linarith), if_neg (by rw [g1] at k1; intro h; linarith)]

/-- The points of `prelim` when the first `m` of them are known. -/
structure Init (p : Par K) (s : St K) (m : Nat) : Prop where
  geo : Geo p s
  lower : ∀ i, 1 ≤ i → i ≤ p.n → s.sl i = 0 ∨ s.sl i ≤ -p.rhobeg
  upper : ∀ i, 1 ≤ i → i ≤ p.n → s.su i = 0 ∨ p.rhobeg ≤ s.su i
  width : ∀ i, 1 ≤ i → i ≤ p.n → s.sl i + 2 * p.rhobeg ≤ s.su i
  within : ∀ k, Within p s (s.xpt k)
  zero : ∀ k, m < k → ∀ i, s.xpt k i = 0
  first : ∀ i, s.xpt 1 i = 0
  rowa : ∀ k, 2 ≤ k → k ≤ p.n + 1 → ∀ i, i ≠ k - 1 → s.xpt k i = 0
  rowb : ∀ k, p.n + 2 ≤ k → k ≤ 2 * p.n + 1 → ∀ i, i ≠ k - 1 - p.n → s.xpt k i = 0

/-- The values of `prelim` at the first `m` points. -/
structure Vals (p : Par K) (s : St K) (m : Nat) : Prop where
  kopt1 : 1 ≤ s.kopt
  koptm : s.kopt ≤ m
  recs : ∀ k, 1 ≤ k → k ≤ m → Rec p s k
  best : ∀ e ∈ s.log, s.fval s.kopt ≤ e.2

/-- At the beginning of a pass of the loop of `prelim`. -/
structure Pre (p : Par K) (s : St K) : Prop where
  init : Init p s s.nf
  status : s.status = .success
  nf : s.nf < p.npt
  none : s.nf = 0 → s.log = []
  vals : 1 ≤ s.nf → Vals p s s.nf

/-- What is true at each label. -/
def Ok (p : Par K) : Lab → St K → Prop
  | .pre, s => Pre p s
  | .l20, s => Full p s ∧ Xo p s ∧ Rad p s ∧ 0 ≤ s.ntrits
  | .l60, s => Full p s ∧ Xo p s ∧ Rad p s ∧ 0 ≤ s.ntrits
  | .l90, s => Full p s ∧ Xo p s ∧ Rad p s ∧ 0 ≤ s.ntrits ∧ (s.ntrits = 0 → Kn p s) ∧ Within p s s.xnew
  | .l190, s => Full p s ∧ Xo p s ∧ Rad p s ∧ 0 ≤ s.ntrits ∧ (s.ntrits = 0 → Kn p s)
  | .r80, s => Resc p s ∧ s.kopt = s.kbase ∧ (s.res.knew = s.kopt ∨ (s.res.ptsid s.kopt = none ∧ s.res.kold ≠ s.kopt))
  | .r120, s => Resc p s ∧ s.kopt = s.kbase ∧ s.res.ptsid s.kopt = none
  | .rpts, s => Resc p s ∧ s.res.ptsid s.kbase = none ∧ s.res.ptsid s.kopt = none ∧ 1 ≤ s.res.kpt
  | .l190b, s => Resc p s
  | .l210, s => Full p s ∧ Xo p s ∧ Rad p s ∧ s.ntrits = 0 ∧ Kn p s
  | .l230, s => Full p s ∧ Xo p s ∧ Rad p s ∧ 0 ≤ s.ntrits ∧ (s.ntrits = 0 → Kn p s) ∧ Within p s s.xnew ∧
      (s.ntrits = 0 → 0 < s.cauchy → Within p s s.xalt)
  | .l360, s => Full p s ∧ Xo p s ∧ Rad p s ∧ (s.ntrits = -1 ∨ 0 ≤ s.ntrits ∧ Kn p s) ∧ Within p s s.xnew
  | .l650, s => Full p s ∧ Xo p s ∧ Rad p s ∧ Within p s s.xnew ∧ 0 ≤ s.distsq ∧ -1 ≤ s.ntrits
  | .l680, s => Full p s ∧ Xo p s ∧ Rad p s ∧ Within p s s.xnew
  | .done, s => Last p s
  | .ret, s => Ret p s
  | .wrong, _ => False

/-! ### The steps which do not call the objective function -/

theorem ok_l20 (p : Par K) (s : St K) (h : Ok p .l20 s) : Ok p (l20 p s).1 (l20 p s).2 := by
  obtain ⟨h1, h2, h3, h4⟩ := h
  unfold l20
  dsimp only
  split_ifs
  · exact ⟨h1.same ⟨rfl, rfl, rfl, rfl, rfl, rfl, rfl, rfl, rfl⟩, h2, h3, h4⟩
  · exact ⟨h1.same ⟨rfl, rfl, rfl, rfl, rfl, rfl, rfl, rfl, rfl⟩, h2, h3, h4⟩
  · exact ⟨h1, h2, h3, h4⟩

theorem boxStep_within {p : Par K} {s : St K} (h : Full p s) (t : Trs K) : Within p s (boxStep s t) := by
  intro i h1 h2
  have hle : s.sl i ≤ s.su i := by
    obtain ⟨a, b⟩ := h.within s.kopt h.kopt1 h.koptn i h1 h2
    exact a.trans b
  unfold boxStep
  split_ifs
  · exact ⟨hle, le_refl _⟩
  · exact ⟨le_refl _, hle⟩
  · exact clamp_mem hle

theorem ok_short (p : Par K) (hre : 0 < p.rhoend) (g : Nat → K) (s : St K) (h1 : Full p s) (h2 : Xo p s) (h3 : Rad p s) (h4 : Within p s s.xnew) :
    Ok p (short p g s).1 (short p g s).2 := by
  have hr : 0 < s.rho := hre.trans_le h3.1
  have hd : (0 : K) ≤ lit 100 1 * s.rho * s.rho := by
    rw [lit_rat]; push_cast; positivity
  have f1 : Full p { s with distsq := lit 100 1 * s.rho * s.rho, ntrits := -1 } := h1.same ⟨rfl, rfl, rfl, rfl, rfl, rfl, rfl, rfl, rfl⟩
  unfold short
  dsimp only
  split_ifs
  · exact ⟨f1, h2, h3, h4, hd, le_refl (-1 : Int)⟩
  · exact ⟨f1, h2, h3, h4, hd, le_refl (-1 : Int)⟩
  · exact ⟨f1, h2, h3, h4, hd, le_refl (-1 : Int)⟩
  · exact ⟨f1, h2, h3, h4⟩

theorem ok_l60 (p : Par K) (hre : 0 < p.rhoend) (T : St K → Trs K) (s : St K) (h : Ok p .l60 s) : Ok p (l60 p T s).1 (l60 p T s).2 := by
  obtain ⟨h1, h2, h3, h4⟩ := h
  have hw := boxStep_within h1 (T s)
  unfold l60
  dsimp only
  by_cases hd : cmin (sqrt (acc p.n (fun i => (boxStep s (T s) i - s.xopt i) * (boxStep s (T s) i - s.xopt i)) 0)) s.delta < lit 1 2 * s.rho
  · rw [if_pos hd]
    exact ok_short p hre _ _ (h1.same ⟨rfl, rfl, rfl, rfl, rfl, rfl, rfl, rfl, rfl⟩) h2 h3 hw
  · rw [if_neg hd]
    refine ⟨h1.same ⟨rfl, rfl, rfl, rfl, rfl, rfl, rfl, rfl, rfl⟩, h2, h3, ?_, ?_, hw⟩
    · show 0 ≤ s.ntrits + 1
      omega
    · intro e
      exact absurd (show s.ntrits + 1 = 0 from e) (by omega)

/-- The shift of the origin does not change the points. -/
theorem full_shift (p : Par K) (s : St K) (h : Full p s) (_hx : Xo p s) : Full p (shift p s) := by
  refine ⟨?_, h.kopt1, h.koptn, ?_, ?_, h.best, h.fsave, h.status⟩
  · intro i h1 h2
    obtain ⟨a, b⟩ := h.geo i h1 h2
    constructor
    · show s.sl i - s.xopt i = p.xl i - (s.xbase i + s.xopt i)
      rw [a]; ring
    · show s.su i - s.xopt i = p.xu i - (s.xbase i + s.xopt i)
      rw [b]; ring
  · intro k k1 k2
    obtain ⟨e, he, e1, e2⟩ := h.recs k k1 k2
    refine ⟨e, he, e1, fun i h1 h2 => ?_⟩
    show e.1 i = s.xbase i + s.xopt i + (s.xpt k i - s.xopt i)
    rw [e2 i h1 h2]; ring
  · intro k k1 k2 i h1 h2
    obtain ⟨a, b⟩ := h.within k k1 k2 i h1 h2
    constructor
    · show s.sl i - s.xopt i ≤ s.xpt k i - s.xopt i
      linarith
    · show s.xpt k i - s.xopt i ≤ s.su i - s.xopt i
      linarith

theorem xo_shift (p : Par K) (s : St K) (hx : Xo p s) : Xo p (shift p s) := by
  intro i h1 h2
  show 0 = s.xpt s.kopt i - s.xopt i
  rw [hx i h1 h2]; ring

theorem ok_l90 (p : Par K) (s : St K) (h : Ok p .l90 s) : Ok p (l90 p s).1 (l90 p s).2 := by
  have key : ∀ s' : St K, Full p s' → Xo p s' → Rad p s' → 0 ≤ s'.ntrits → (s'.ntrits = 0 → Kn p s') → Within p s' s'.xnew →
      Ok p (if s'.ntrits = 0 then .l210 else .l230) s' := by
    intro s' h1 h2 h3 h4 h5 h6
    by_cases e : s'.ntrits = 0
    · rw [if_pos e]; exact ⟨h1, h2, h3, e, h5 e⟩
    · rw [if_neg e]; exact ⟨h1, h2, h3, h4, h5, h6, fun e' => absurd e' e⟩
  obtain ⟨h1, h2, h3, h4, h5, h6⟩ := h
  unfold l90
  dsimp only
  by_cases hd : s.dsq ≤ s.xoptsq * lit 1 1000
  · rw [if_pos hd]
    refine key _ (full_shift p s h1 h2) (xo_shift p s h2) h3 h4 h5 ?_
    intro i i1 i2
    obtain ⟨a, b⟩ := h6 i i1 i2
    constructor
    · show s.sl i - s.xopt i ≤ s.xnew i - s.xopt i
      linarith
    · show s.xnew i - s.xopt i ≤ s.su i - s.xopt i
      linarith
  · rw [if_neg hd]
    exact key s h1 h2 h3 h4 h5 h6

/-! ### `rescue` -/

theorem auxPair_mem (delta sl su : K) (hd : 0 ≤ delta) (h1 : sl ≤ 0) (h2 : 0 ≤ su) :
    (sl ≤ (auxPair delta sl su).1 ∧ (auxPair delta sl su).1 ≤ su) ∧ (sl ≤ (auxPair delta sl su).2 ∧ (auxPair delta sl su).2 ≤ su) := by
  have a1 : 0 ≤ cmin delta su := by rw [cmin_eq]; exact le_min hd h2
  have a2 : cmin delta su ≤ su := by rw [cmin_eq]; exact min_le_right _ _
  have b1 : cmax (-delta) sl ≤ 0 := by rw [cmax_eq]; exact max_le (by linarith) h1
  have b2 : sl ≤ cmax (-delta) sl := by rw [cmax_eq]; exact le_max_right _ _
  have half : (lit 1 2 : K) = 1 / 2 := by rw [lit_rat]; norm_num
  unfold auxPair
  dsimp only
  by_cases h : cmin delta su + cmax (-delta) sl < 0
  · rw [if_pos h]
    dsimp only
    refine ⟨⟨b2, by linarith⟩, ?_⟩
    split_ifs
    · rw [half]; exact ⟨by linarith, by linarith⟩
    · exact ⟨by linarith, a2⟩
  · rw [if_neg h]
    dsimp only
    refine ⟨⟨by linarith, a2⟩, ?_⟩
    split_ifs
    · rw [half]; exact ⟨by linarith, by linarith⟩
    · exact ⟨b2, by linarith⟩

theorem ok_l190 (p : Par K) (hre : 0 < p.rhoend) (s : St K) (h : Ok p .l190 s) : Ok p (l190 p s).1 (l190 p s).2 := by
  obtain ⟨h1, h2, h3, h4, h5⟩ := h
  have hf : Full p (shift p s) := full_shift p s h1 h2
  have hx : Xo p (shift p s) := xo_shift p s h2
  have hd : 0 ≤ s.delta := by
    have := h3.1; have := h3.2; linarith
  have aux : ∀ i, 1 ≤ i → i ≤ p.n → s.sl i - s.xopt i ≤ 0 ∧ 0 ≤ s.su i - s.xopt i := by
    intro i i1 i2
    obtain ⟨a, b⟩ := h1.xopt_within h2 i i1 i2
    constructor <;> linarith
  show Ok p .r80 (rescueInit p { s with nfsav := s.nf, kbase := s.kopt })
  refine ⟨⟨hf.same ⟨rfl, rfl, rfl, rfl, rfl, rfl, rfl, rfl, rfl⟩, h3, h4, h5, fun i _ _ => rfl, ?_, h1.kopt1, h1.koptn, le_refl _, fun _ => rfl, ?_, ?_⟩, rfl, Or.inl rfl⟩
  · intro i i1 i2
    show s.xpt s.kopt i - s.xopt i = 0
    rw [h2 i i1 i2]; ring
  · intro i i1 i2
    obtain ⟨a, b⟩ := aux i i1 i2
    exact (auxPair_mem s.delta _ _ hd a b).1
  · intro i i1 i2
    obtain ⟨a, b⟩ := aux i i1 i2
    exact (auxPair_mem s.delta _ _ hd a b).2

theorem Resc.keep {p : Par K} {s s' : St K} (h : Resc p s)
    (e : s'.sl = s.sl ∧ s'.su = s.su ∧ s'.xbase = s.xbase ∧ s'.log = s.log ∧ s'.fval = s.fval ∧ s'.xpt = s.xpt ∧
      s'.kopt = s.kopt ∧ s'.fsave = s.fsave ∧ s'.status = s.status)
    (e' : s'.rho = s.rho ∧ s'.delta = s.delta ∧ s'.ntrits = s.ntrits ∧ s'.knew = s.knew ∧ s'.kbase = s.kbase ∧ s'.xopt = s.xopt ∧
      s'.nfsav = s.nfsav ∧ s'.nf = s.nf ∧ s'.res.aux1 = s.res.aux1 ∧ s'.res.aux2 = s.res.aux2) : Resc p s' := by
  obtain ⟨a1, a2, a3, a4, a5, a6, a7, a8, a9, a10⟩ := e'
  refine ⟨h.full.same e, ?_, ?_, ?_, ?_, ?_, ?_, ?_, ?_, ?_, ?_, ?_⟩
  · unfold Rad; rw [a1, a2]; exact h.rad
  · rw [a3]; exact h.ntrits
  · rw [a3, a4, a5]; exact h.knew
  · rw [a6]; exact h.xopt
  · rw [a5, e.2.2.2.2.2.1]; exact h.base
  · rw [a5]; exact h.kbase1
  · rw [a5]; exact h.kbasen
  · rw [a7, a8]; exact h.nfsav
  · rw [a7, a8, a5, e.2.2.2.2.2.2.1]; exact h.same
  · unfold Within; rw [e.1, e.2.1, a9]; exact h.aux1
  · unfold Within; rw [e.1, e.2.1, a10]; exact h.aux2

theorem ok_r80 (p : Par K) (s : St K) (h : Ok p .r80 s) : Ok p (r80 p s).1 (r80 p s).2 := by
  obtain ⟨h1, h2, h3⟩ := h
  have hid : set1 (set1 s.res.ptsid s.res.kold (s.res.ptsid s.res.knew)) s.res.knew none s.kopt = none := by
    unfold set1
    by_cases e : s.kopt = s.res.knew
    · rw [if_pos e]
    · rw [if_neg e]
      rcases h3 with h3 | ⟨h3, h4⟩
      · exact absurd h3.symm e
      · rw [if_neg (Ne.symm h4)]; exact h3
  unfold r80
  dsimp only
  split_ifs
  · exact h1.keep ⟨rfl, rfl, rfl, rfl, rfl, rfl, rfl, rfl, rfl⟩ ⟨rfl, rfl, rfl, rfl, rfl, rfl, rfl, rfl, rfl, rfl⟩
  · exact ⟨h1.keep ⟨rfl, rfl, rfl, rfl, rfl, rfl, rfl, rfl, rfl⟩ ⟨rfl, rfl, rfl, rfl, rfl, rfl, rfl, rfl, rfl, rfl⟩, h2, hid⟩
  · exact ⟨h1.keep ⟨rfl, rfl, rfl, rfl, rfl, rfl, rfl, rfl, rfl⟩ ⟨rfl, rfl, rfl, rfl, rfl, rfl, rfl, rfl, rfl, rfl⟩, h2, hid⟩

theorem rescueOld_spec (p : Par K) (s : St K) (vlag : Nat → K) (beta : K) :
    0 ≤ (rescueOld p s vlag beta).2.2 ∧
    ((rescueOld p s vlag beta).2.1 = 0 ∨
      (0 < (rescueOld p s vlag beta).2.1 ∧ s.res.ptsid (rescueOld p s vlag beta).1 ≠ none ∧
        1 ≤ (rescueOld p s vlag beta).1 ∧ (rescueOld p s vlag beta).1 ≤ p.npt)) := by
  unfold rescueOld
  refine up_inv (fun q (t : Nat × K × K) => 0 ≤ t.2.2 ∧ (t.2.1 = 0 ∨ (0 < t.2.1 ∧ s.res.ptsid t.1 ≠ none ∧ 1 ≤ t.1 ∧ t.1 ≤ q))) p.npt
    ⟨le_refl _, Or.inl rfl⟩ ?_
  rintro k hk ⟨a, b, c⟩ ⟨i1, i2⟩
  dsimp only at i1 i2 ⊢
  have hc : ∀ v : K, 0 ≤ cmax c v := fun v => by rw [cmax_eq]; exact le_max_of_le_left i1
  have i2' : b = 0 ∨ (0 < b ∧ s.res.ptsid a ≠ none ∧ 1 ≤ a ∧ a ≤ k + 1) := by
    rcases i2 with i2 | ⟨i3, i4, i5, i6⟩
    · exact Or.inl i2
    · exact Or.inr ⟨i3, i4, i5, by omega⟩
  have hb : 0 ≤ b := by
    rcases i2 with i2 | i2
    · rw [i2]
    · exact i2.1.le
  by_cases e : s.res.ptsid (k + 1) ≠ none
  · rw [if_pos e]
    split_ifs with h
    · exact ⟨hc _, Or.inr ⟨hb.trans_lt h, e, by omega, le_refl _⟩⟩
    · exact ⟨hc _, i2'⟩
  · rw [if_neg e]
    exact ⟨hc _, i2'⟩

theorem ok_r120 (p : Par K) (s : St K) (h : Ok p .r120 s) : Ok p (r120 p s).1 (r120 p s).2 := by
  obtain ⟨h1, h2, h3⟩ := h
  unfold r120
  dsimp only
  split_ifs with e1 e2
  · exact ⟨h1.keep ⟨rfl, rfl, rfl, rfl, rfl, rfl, rfl, rfl, rfl⟩ ⟨rfl, rfl, rfl, rfl, rfl, rfl, rfl, rfl, rfl, rfl⟩, h2 ▸ h3, h3, le_refl _⟩
  · exact ⟨h1.keep ⟨rfl, rfl, rfl, rfl, rfl, rfl, rfl, rfl, rfl⟩ ⟨rfl, rfl, rfl, rfl, rfl, rfl, rfl, rfl, rfl, rfl⟩, h2, h3⟩
  · refine ⟨h1.keep ⟨rfl, rfl, rfl, rfl, rfl, rfl, rfl, rfl, rfl⟩ ⟨rfl, rfl, rfl, rfl, rfl, rfl, rfl, rfl, rfl, rfl⟩, h2, Or.inr ⟨h3, ?_⟩⟩
    obtain ⟨o1, o2⟩ := rescueOld_spec p s (rescueVlag p s (fun j => s.xpt (rescuePick p s).1 j)).1 (rescueVlag p s (fun j => s.xpt (rescuePick p s).1 j)).2
    rcases o2 with o2 | ⟨-, o2, -, -⟩
    · exfalso
      apply e2
      rw [o2, lit_rat]; push_cast; positivity
    · intro e
      apply o2
      rw [← h3, ← e]

theorem rescuePoint_within {p : Par K} {s : St K} (h : Resc p s) (id : Nat × Nat) : Within p s (rescuePoint s id) := by
  intro i i1 i2
  have h0 : s.sl i ≤ 0 ∧ 0 ≤ s.su i := by
    have := h.full.within s.kbase h.kbase1 h.kbasen i i1 i2
    rw [h.base i i1 i2] at this
    exact this
  have a1 := h.aux1 i i1 i2
  have a2 := h.aux2 i i1 i2
  have hset : ∀ (v : Nat → K) (k : Nat) (a : K), (s.sl i ≤ v i ∧ v i ≤ s.su i) → (k = i → s.sl i ≤ a ∧ a ≤ s.su i) →
      s.sl i ≤ set1 v k a i ∧ set1 v k a i ≤ s.su i := by
    intro v k a hv ha
    unfold set1
    by_cases e : i = k
    · rw [if_pos e]; exact ha e.symm
    · rw [if_neg e]; exact hv
  unfold rescuePoint
  split_ifs
  all_goals first
    | exact h0
    | exact hset _ _ _ h0 (fun e => e ▸ a1)
    | exact hset _ _ _ h0 (fun e => e ▸ a2)
    | exact hset _ _ _ (hset _ _ _ h0 (fun e => e ▸ a1)) (fun e => e ▸ a1)
    | exact hset _ _ _ (hset _ _ _ h0 (fun e => e ▸ a1)) (fun e => e ▸ a2)

/-- The fields of the state after a new point in `rescue`. -/
theorem rpts_take (p : Par K) (calfun : Nat → (Nat → K) → K) (s : St K) (h : Resc p s) (hb : s.res.ptsid s.kbase = none)
    (ho : s.res.ptsid s.kopt = none) (id : Nat × Nat) (hid : s.res.ptsid s.res.kpt = some id) (vq : K)
    (hk : s.res.kpt ≤ p.npt) (hk1 : 1 ≤ s.res.kpt) :
    Ok p .rpts (rescueTake p vq (rescueCall p calfun (rescueMove s id))) := by
  obtain ⟨m, hm⟩ : ∃ m, m = rescueMove s id := ⟨_, rfl⟩
  have hw : Within p s (rescuePoint s id) := rescuePoint_within h id
  have kb : s.kbase ≠ s.res.kpt := fun e => by rw [e, hid] at hb; cases hb
  have ko : s.kopt ≠ s.res.kpt := fun e => by rw [e, hid] at ho; cases ho
  have mrow : ∀ j, m.xpt s.res.kpt j = rescuePoint s id j := by
    intro j; rw [hm]; exact if_pos rfl
  have moth : ∀ k, k ≠ s.res.kpt → m.xpt k = s.xpt k := by
    intro k e; rw [hm]; funext j; exact if_neg e
  have hgm : Geo p m := by rw [hm]; exact h.full.geo
  have hwm : Within p m (fun i => m.xpt m.res.kpt i) := by
    intro i i1 i2
    have : m.xpt m.res.kpt i = rescuePoint s id i := by
      have e : m.res.kpt = s.res.kpt := by rw [hm]; rfl
      rw [e]; exact mrow i
    show m.sl i ≤ m.xpt m.res.kpt i ∧ m.xpt m.res.kpt i ≤ m.su i
    rw [this]
    have e1 : m.sl = s.sl := by rw [hm]; rfl
    have e2 : m.su = s.su := by rw [hm]; rfl
    rw [e1, e2]
    exact hw i i1 i2
  have hx : ∀ i, 1 ≤ i → i ≤ p.n → place p m (fun i => m.xpt m.res.kpt i) i = s.xbase i + rescuePoint s id i := by
    intro i i1 i2
    rw [place_eq hgm hwm i i1 i2]
    have e : m.res.kpt = s.res.kpt := by rw [hm]; rfl
    have e' : m.xbase = s.xbase := by rw [hm]; rfl
    rw [e, e', mrow]
  obtain ⟨x, hxd⟩ : ∃ x, x = place p m (fun i => m.xpt m.res.kpt i) := ⟨_, rfl⟩
  obtain ⟨y, hyd⟩ : ∃ y, y = calfun s.nf x := ⟨_, rfl⟩
  have hfv : ∀ k, k ≠ s.res.kpt → set1 s.fval s.res.kpt y k = s.fval k := fun k e => if_neg e
  have hfk : set1 s.fval s.res.kpt y s.res.kpt = y := if_pos rfl
  obtain ⟨r, hr⟩ : ∃ r, r = rescueTake p vq (rescueCall p calfun (rescueMove s id)) := ⟨_, rfl⟩
  have r1 : r.log = (x, y) :: s.log := by rw [hr, hyd, hxd, hm]; rfl
  have r2 : r.fval = set1 s.fval s.res.kpt y := by rw [hr, hyd, hxd, hm]; rfl
  have r3 : r.xpt = m.xpt := by rw [hr, hm]; rfl
  have r4 : r.kopt = if y < s.fval s.kopt then s.res.kpt else s.kopt := by
    have : r.kopt = if y < set1 s.fval s.res.kpt y s.kopt then s.res.kpt else s.kopt := by rw [hr, hyd, hxd, hm]; rfl
    rw [this, hfv _ ko]
  have r5 : r.sl = s.sl := by rw [hr]; rfl
  have r6 : r.su = s.su := by rw [hr]; rfl
  have r7 : r.xbase = s.xbase := by rw [hr]; rfl
  have r8 : r.fsave = s.fsave := by rw [hr]; rfl
  have r9 : r.status = s.status := by rw [hr]; rfl
  have r10 : r.res.ptsid = set1 s.res.ptsid s.res.kpt none := by rw [hr]; rfl
  have r11 : r.kbase = s.kbase := by rw [hr]; rfl
  have r12 : r.nf = s.nf + 1 := by rw [hr]; rfl
  have r13 : r.nfsav = s.nfsav := by rw [hr]; rfl
  have r14 : r.rho = s.rho ∧ r.delta = s.delta ∧ r.ntrits = s.ntrits ∧ r.knew = s.knew ∧ r.xopt = s.xopt ∧ r.res.aux1 = s.res.aux1 ∧ r.res.aux2 = s.res.aux2 := by
    rw [hr]; exact ⟨rfl, rfl, rfl, rfl, rfl, rfl, rfl⟩
  obtain ⟨q1, q2, q3, q4, q5, q6, q7⟩ := r14
  rw [← hr]
  have kopt_rng : 1 ≤ r.kopt ∧ r.kopt ≤ p.npt ∧ r.res.ptsid r.kopt = none := by
    rw [r4, r10]
    by_cases e : y < s.fval s.kopt
    · rw [if_pos e]
      exact ⟨hk1, hk, if_pos rfl⟩
    · rw [if_neg e]
      exact ⟨h.full.kopt1, h.full.koptn, by unfold set1; rw [if_neg ko]; exact ho⟩
  have hbest : ∀ e ∈ r.log, r.fval r.kopt ≤ e.2 := by
    intro e he
    rw [r1] at he
    rw [r2, r4]
    by_cases c : y < s.fval s.kopt
    · rw [if_pos c, hfk]
      rcases List.mem_cons.mp he with rfl | he
      · exact le_refl _
      · exact c.le.trans (h.full.best e he)
    · rw [if_neg c, hfv _ ko]
      rcases List.mem_cons.mp he with rfl | he
      · exact not_lt.mp c
      · exact h.full.best e he
  have hsave : r.fval r.kopt ≤ r.fsave := by
    rw [r2, r4, r8]
    by_cases c : y < s.fval s.kopt
    · rw [if_pos c, hfk]
      exact c.le.trans h.full.fsave
    · rw [if_neg c, hfv _ ko]
      exact h.full.fsave
  have hfull : Full p r := by
    refine ⟨?_, kopt_rng.1, kopt_rng.2.1, ?_, ?_, hbest, hsave, by rw [r9]; exact h.full.status⟩
    · unfold Geo; rw [r5, r6, r7]; exact h.full.geo
    · intro k k1 k2
      unfold Rec
      rw [r1, r2, r3, r7]
      by_cases e : k = s.res.kpt
      · subst e
        refine ⟨(x, y), List.mem_cons_self .., hfk.symm, fun i i1 i2 => ?_⟩
        rw [mrow, ← hx i i1 i2, hxd]
      · obtain ⟨a, ha, a1, a2⟩ := h.full.recs k k1 k2
        refine ⟨a, List.mem_cons_of_mem _ ha, by rw [hfv _ e]; exact a1, fun i i1 i2 => ?_⟩
        rw [moth k e]; exact a2 i i1 i2
    · intro k k1 k2
      unfold Within
      rw [r3, r5, r6]
      intro i i1 i2
      by_cases e : k = s.res.kpt
      · subst e
        rw [mrow]; exact hw i i1 i2
      · rw [moth k e]; exact h.full.within k k1 k2 i i1 i2
  have r15 : r.res.kpt = s.res.kpt + 1 := by rw [hr]; rfl
  refine ⟨⟨hfull, ?_, ?_, ?_, ?_, ?_, ?_, ?_, ?_, ?_, ?_, ?_⟩, ?_, kopt_rng.2.2, by omega⟩
  · unfold Rad; rw [q1, q2]; exact h.rad
  · rw [q3]; exact h.ntrits
  · rw [q3, q4, r11]; exact h.knew
  · rw [q5]; exact h.xopt
  · rw [r3, r11, moth _ kb]; exact h.base
  · rw [r11]; exact h.kbase1
  · rw [r11]; exact h.kbasen
  · rw [r12, r13]; have := h.nfsav; omega
  · rw [r12, r13]; have := h.nfsav; intro e; omega
  · unfold Within; rw [r5, r6, q6]; exact h.aux1
  · unfold Within; rw [r5, r6, q7]; exact h.aux2
  · rw [r10, r11]; unfold set1; rw [if_neg kb]; exact hb

theorem ok_rpts (p : Par K) (calfun : Nat → (Nat → K) → K) (s : St K) (h : Ok p .rpts s) :
    Ok p (rpts p calfun s).1 (rpts p calfun s).2 := by
  obtain ⟨h1, h2, h3, h4⟩ := h
  unfold rpts
  by_cases e1 : s.res.kpt ≤ p.npt
  · rw [if_pos e1]
    cases e2 : s.res.ptsid s.res.kpt with
    | none =>
      exact ⟨h1.keep ⟨rfl, rfl, rfl, rfl, rfl, rfl, rfl, rfl, rfl⟩ ⟨rfl, rfl, rfl, rfl, rfl, rfl, rfl, rfl, rfl, rfl⟩, h2, h3, Nat.le_add_left _ _⟩
    | some id =>
      dsimp only
      by_cases e3 : p.maxfun ≤ (s.nf : Int)
      · rw [if_pos e3]
        exact h1.keep ⟨rfl, rfl, rfl, rfl, rfl, rfl, rfl, rfl, rfl⟩ ⟨rfl, rfl, rfl, rfl, rfl, rfl, rfl, rfl, rfl, rfl⟩
      · rw [if_neg e3]
        exact rpts_take p calfun s h1 h2 h3 id e2 _ e1 h4
  · rw [if_neg e1]
    exact h1

theorem ok_l190b (p : Par K) (s : St K) (h : Ok p .l190b s) : Ok p (l190b p s).1 (l190b p s).2 := by
  have h : Resc p s := h
  obtain ⟨t, ht⟩ : ∃ t : St K, t = if s.kopt ≠ s.kbase then { s with xopt := fun i => s.xpt s.kopt i, xoptsq := acc p.n (fun i => s.xpt s.kopt i * s.xpt s.kopt i) 0 } else { s with xoptsq := 0 } := ⟨_, rfl⟩
  have e : l190b p s = if t.res.kpt = 0 then fail .tooManyEvaluations t
      else if t.nfsav < t.nf then (.l20, { t with nresc := t.nf, nfsav := t.nf })
      else if t.ntrits > 0 then (.l60, { t with nresc := t.nf }) else (.l210, { t with nresc := t.nf }) := by
    rw [ht]; rfl
  have hf : Full p t := by
    rw [ht]; split_ifs <;> exact h.full.same ⟨rfl, rfl, rfl, rfl, rfl, rfl, rfl, rfl, rfl⟩
  have hx : Xo p t := by
    rw [ht]
    by_cases c : s.kopt ≠ s.kbase
    · rw [if_pos c]; intro i _ _; rfl
    · rw [if_neg c]
      intro i i1 i2
      show s.xopt i = s.xpt s.kopt i
      rw [not_not.mp c, h.xopt i i1 i2, h.base i i1 i2]
  have hr : Rad p t := by rw [ht]; split_ifs <;> exact h.rad
  have hn : 0 ≤ t.ntrits := by rw [ht]; split_ifs <;> exact h.ntrits
  have hs : t.nfsav ≤ t.nf := by rw [ht]; split_ifs <;> exact h.nfsav
  have hk : t.nf = t.nfsav → t.ntrits = 0 → Kn p t := by
    rw [ht]
    split_ifs
    · intro e1 e2
      obtain ⟨a, b, c⟩ := h.knew e2
      exact ⟨a, b, by rw [← h.same e1] at c; exact c⟩
    · intro e1 e2
      obtain ⟨a, b, c⟩ := h.knew e2
      exact ⟨a, b, by rw [← h.same e1] at c; exact c⟩
  rw [e]
  split_ifs with c1 c2 c3
  · exact hf.last hx _ (by decide)
  · exact ⟨hf.same ⟨rfl, rfl, rfl, rfl, rfl, rfl, rfl, rfl, rfl⟩, hx, hr, hn⟩
  · exact ⟨hf.same ⟨rfl, rfl, rfl, rfl, rfl, rfl, rfl, rfl, rfl⟩, hx, hr, hn⟩
  · have c4 : t.ntrits = 0 := by omega
    exact ⟨hf.same ⟨rfl, rfl, rfl, rfl, rfl, rfl, rfl, rfl, rfl⟩, hx, hr, c4, hk (by omega) c4⟩

/-! ### `altmov` -/

theorem altNew_within {p : Par K} {s : St K} (h : Full p s) : Within p s (altNew p s) := by
  intro i i1 i2
  have hle : s.sl i ≤ s.su i := by
    obtain ⟨a, b⟩ := h.within s.kopt h.kopt1 h.koptn i i1 i2
    exact a.trans b
  have hset : ∀ (v : Nat → K) (k : Nat) (a : K), (s.sl i ≤ v i ∧ v i ≤ s.su i) → (k = i → s.sl i ≤ a ∧ a ≤ s.su i) →
      s.sl i ≤ set1 v k a i ∧ set1 v k a i ≤ s.su i := by
    intro v k a hv ha
    unfold set1
    by_cases e : i = k
    · rw [if_pos e]; exact ha e.symm
    · rw [if_neg e]; exact hv
  have hc : ∀ z : K, s.sl i ≤ clamp z (s.sl i) (s.su i) ∧ clamp z (s.sl i) (s.su i) ≤ s.su i := fun z => clamp_mem hle
  unfold altNew
  split_ifs
  · exact hset _ _ _ (hset _ _ _ (hc _) (fun e => by rw [e]; exact ⟨le_refl _, hle⟩)) (fun e => by rw [e]; exact ⟨hle, le_refl _⟩)
  · exact hset _ _ _ (hc _) (fun e => by rw [e]; exact ⟨hle, le_refl _⟩)
  · exact hset _ _ _ (hc _) (fun e => by rw [e]; exact ⟨le_refl _, hle⟩)
  · exact hc _

theorem cauchyStep_within {p : Par K} {s : St K} (h : Full p s) (hx : Xo p s) (b : Bool) (g : Nat → K) (v : Nat → K) (c : K)
    (e : cauchyStep p s b g = some (v, c)) : Within p s v := by
  intro i i1 i2
  have hle : s.sl i ≤ s.su i := by
    obtain ⟨a, b⟩ := h.within s.kopt h.kopt1 h.koptn i i1 i2
    exact a.trans b
  unfold cauchyStep at e
  dsimp only at e
  split_ifs at e
  · simp only [Option.some.injEq, Prod.mk.injEq] at e
    rw [← e.1]; exact clamp_mem hle
  · simp only [Option.some.injEq, Prod.mk.injEq] at e
    rw [← e.1]
    unfold cauchyPoint
    dsimp only
    split_ifs
    · exact clamp_mem hle
    · exact h.xopt_within hx i i1 i2
    · exact ⟨le_refl _, hle⟩
    · exact ⟨hle, le_refl _⟩
  · simp only [Option.some.injEq, Prod.mk.injEq] at e
    rw [← e.1]; exact clamp_mem hle
  · simp only [Option.some.injEq, Prod.mk.injEq] at e
    rw [← e.1]
    unfold cauchyPoint
    dsimp only
    split_ifs
    · exact clamp_mem hle
    · exact h.xopt_within hx i i1 i2
    · exact ⟨le_refl _, hle⟩
    · exact ⟨hle, le_refl _⟩

theorem altCauchy_within {p : Par K} {s : St K} (h : Full p s) (hx : Xo p s) (hc : 0 < (altCauchy p s).2) :
    Within p s (altCauchy p s).1 := by
  unfold altCauchy at *
  cases e1 : cauchyStep p s false (glag p s) with
  | none =>
    rw [e1] at hc
    exact absurd hc (lt_irrefl _)
  | some t1 =>
    obtain ⟨x1, c1⟩ := t1
    rw [e1] at hc
    dsimp only at hc ⊢
    cases e2 : cauchyStep p s true (fun i => -glag p s i) with
    | none =>
      rw [e2] at hc
      exact absurd hc (lt_irrefl _)
    | some t2 =>
      obtain ⟨x2, c2⟩ := t2
      dsimp only
      split_ifs
      · exact cauchyStep_within h hx _ _ _ _ e1
      · exact cauchyStep_within h hx _ _ _ _ e2

theorem ok_l210 (p : Par K) (s : St K) (h : Ok p .l210 s) : Ok p (l210 p s).1 (l210 p s).2 := by
  obtain ⟨h1, h2, h3, h4, h5⟩ := h
  have h4' : 0 ≤ s.ntrits := by omega
  have w1 : Within p s (altNew p s) := altNew_within h1
  have w2 : 0 < (altCauchy p s).2 → Within p s (altCauchy p s).1 := altCauchy_within h1 h2
  exact ⟨h1.same ⟨rfl, rfl, rfl, rfl, rfl, rfl, rfl, rfl, rfl⟩, h2, h3, h4', fun _ => h5, w1, fun _ => w2⟩

/-! ### The choice of the point to replace -/

theorem pickKnew_spec (p : Par K) (s : St K) (skip : Nat) (y : Nat → K) :
    0 ≤ (pickKnew p s skip y).2.1 ∧
    ((pickKnew p s skip y).1 = 0 ∨
      1 ≤ (pickKnew p s skip y).2.2.1 ∧ (pickKnew p s skip y).2.2.1 ≤ p.npt ∧ (pickKnew p s skip y).2.2.1 ≠ skip) := by
  unfold pickKnew
  dsimp only
  refine up_inv (fun q (t : K × K × Nat × K) => 0 ≤ t.2.1 ∧ (t.1 = 0 ∨ 1 ≤ t.2.2.1 ∧ t.2.2.1 ≤ q ∧ t.2.2.1 ≠ skip)) p.npt ⟨le_refl _, Or.inl rfl⟩ ?_
  rintro k hk ⟨a, b, c, d⟩ ⟨i1, i2⟩
  dsimp only at i1 i2 ⊢
  have hc : ∀ v : K, 0 ≤ cmax b v := fun v => by rw [cmax_eq]; exact le_max_of_le_left i1
  have i2' : a = 0 ∨ 1 ≤ c ∧ c ≤ k + 1 ∧ c ≠ skip := by
    rcases i2 with i2 | ⟨i3, i4, i5⟩
    · exact Or.inl i2
    · exact Or.inr ⟨i3, by omega, i5⟩
  by_cases e : k + 1 ≠ skip
  · rw [if_pos e]
    split_ifs
    · exact ⟨hc _, Or.inr ⟨Nat.le_add_left _ _, le_refl _, e⟩⟩
    · exact ⟨hc _, i2'⟩
  · rw [if_neg e]
    exact ⟨i1, i2'⟩

theorem pickKnew_ok (p : Par K) (s : St K) (skip : Nat) (y : Nat → K)
    (h : ¬ (pickKnew p s skip y).1 ≤ lit 1 2 * (pickKnew p s skip y).2.1) :
    1 ≤ (pickKnew p s skip y).2.2.1 ∧ (pickKnew p s skip y).2.2.1 ≤ p.npt ∧ (pickKnew p s skip y).2.2.1 ≠ skip := by
  obtain ⟨h1, h2⟩ := pickKnew_spec p s skip y
  refine h2.resolve_left fun e => h ?_
  rw [e, lit_rat]; push_cast; positivity

theorem ok_damaged (p : Par K) (s : St K) (h1 : Full p s) (h2 : Xo p s) (h3 : Rad p s) (h4 : 0 ≤ s.ntrits) (h5 : s.ntrits = 0 → Kn p s) :
    Ok p (damaged s).1 (damaged s).2 := by
  unfold damaged
  split_ifs
  · exact ⟨h1, h2, h3, h4, h5⟩
  · exact h1.last h2 _ (by decide)

theorem ok_l230 (p : Par K) (s : St K) (h : Ok p .l230 s) : Ok p (l230 p s).1 (l230 p s).2 := by
  obtain ⟨h1, h2, h3, h4, h5, h6, h7⟩ := h
  unfold l230
  dsimp only
  by_cases e : s.ntrits = 0
  · rw [if_pos e]
    split_ifs with c1 c2
    · exact ⟨h1.same ⟨rfl, rfl, rfl, rfl, rfl, rfl, rfl, rfl, rfl⟩, h2, h3, h4, h5, h7 e c1.2, fun _ hc => absurd hc (lt_irrefl _)⟩
    · exact ok_damaged p _ (h1.same ⟨rfl, rfl, rfl, rfl, rfl, rfl, rfl, rfl, rfl⟩) h2 h3 h4 h5
    · exact ⟨h1.same ⟨rfl, rfl, rfl, rfl, rfl, rfl, rfl, rfl, rfl⟩, h2, h3, Or.inr ⟨h4, h5 e⟩, h6⟩
  · rw [if_neg e]
    split_ifs with c
    · exact ok_damaged p _ (h1.same ⟨rfl, rfl, rfl, rfl, rfl, rfl, rfl, rfl, rfl⟩) h2 h3 h4 (fun e' => absurd e' e)
    · exact ⟨h1.same ⟨rfl, rfl, rfl, rfl, rfl, rfl, rfl, rfl, rfl⟩, h2, h3, Or.inr ⟨h4, pickKnew_ok p _ _ _ c⟩, h6⟩

/-! ### The evaluation -/

/-- After a call of the objective function: the properties before the call, with the list `old`. -/
structure Post (p : Par K) (s : St K) (old : List ((Nat → K) × K)) : Prop where
  full : Full p { s with log := old }
  xo : Xo p s
  rad : Rad p s
  log : s.log = (s.x, s.f) :: old
  x : ∀ i, 1 ≤ i → i ≤ p.n → s.x i = s.xbase i + s.xnew i
  xnew : Within p s s.xnew
  knew1 : 1 ≤ s.knew
  knewn : s.knew ≤ p.npt
  knew : s.knew ≠ s.kopt ∨ s.f < s.fval s.kopt

/-- The fields which `absorb` changes. -/
theorem absorb_fields (p : Par K) (s : St K) (hk : s.knew ≠ 0) (r : St K) (hr : r = (absorb p s).2) :
    r.log = s.log ∧ r.fval = set1 s.fval s.knew s.f ∧ r.xpt = (fun k i => if k = s.knew then s.xnew i else s.xpt k i) ∧
    r.kopt = (if s.f < s.fval s.kopt then s.knew else s.kopt) ∧ r.xopt = (if s.f < s.fval s.kopt then s.xnew else s.xopt) ∧
    r.sl = s.sl ∧ r.su = s.su ∧ r.xbase = s.xbase ∧ r.fsave = s.fsave ∧ r.status = s.status ∧ r.rho = s.rho ∧ r.delta = s.delta ∧
    r.xnew = s.xnew ∧ r.ntrits = s.ntrits := by
  subst hr
  unfold absorb
  rw [if_neg hk]
  obtain ⟨m, hm⟩ : ∃ m, m = move p s := ⟨_, rfl⟩
  obtain ⟨c, hc⟩ : ∃ c, c = recenter p (s.fval s.kopt) m := ⟨_, rfl⟩
  obtain ⟨t, ht⟩ : ∃ t, t = tryFrobenius p c := ⟨_, rfl⟩
  rw [← hm, ← hc, ← ht]
  have e1 : (afterMove (s.fval s.kopt) t).2.log = t.log ∧ (afterMove (s.fval s.kopt) t).2.fval = t.fval ∧ (afterMove (s.fval s.kopt) t).2.xpt = t.xpt ∧ (afterMove (s.fval s.kopt) t).2.kopt = t.kopt ∧ (afterMove (s.fval s.kopt) t).2.xopt = t.xopt ∧ (afterMove (s.fval s.kopt) t).2.sl = t.sl ∧ (afterMove (s.fval s.kopt) t).2.su = t.su ∧ (afterMove (s.fval s.kopt) t).2.xbase = t.xbase ∧ (afterMove (s.fval s.kopt) t).2.fsave = t.fsave ∧ (afterMove (s.fval s.kopt) t).2.status = t.status ∧ (afterMove (s.fval s.kopt) t).2.rho = t.rho ∧ (afterMove (s.fval s.kopt) t).2.delta = t.delta ∧ (afterMove (s.fval s.kopt) t).2.xnew = t.xnew ∧ (afterMove (s.fval s.kopt) t).2.ntrits = t.ntrits := by
    unfold afterMove; dsimp only; split_ifs <;> exact ⟨rfl, rfl, rfl, rfl, rfl, rfl, rfl, rfl, rfl, rfl, rfl, rfl, rfl, rfl⟩
  have e2 : t.log = c.log ∧ t.fval = c.fval ∧ t.xpt = c.xpt ∧ t.kopt = c.kopt ∧ t.xopt = c.xopt ∧ t.sl = c.sl ∧ t.su = c.su ∧ t.xbase = c.xbase ∧ t.fsave = c.fsave ∧ t.status = c.status ∧ t.rho = c.rho ∧ t.delta = c.delta ∧ t.xnew = c.xnew ∧ t.ntrits = c.ntrits := by
    rw [ht]; unfold tryFrobenius; dsimp only; split_ifs <;> exact ⟨rfl, rfl, rfl, rfl, rfl, rfl, rfl, rfl, rfl, rfl, rfl, rfl, rfl, rfl⟩
  have e3 : c.log = m.log ∧ c.fval = m.fval ∧ c.xpt = m.xpt ∧ c.kopt = (if m.f < s.fval s.kopt then m.knew else m.kopt) ∧ c.xopt = (if m.f < s.fval s.kopt then m.xnew else m.xopt) ∧ c.sl = m.sl ∧ c.su = m.su ∧ c.xbase = m.xbase ∧ c.fsave = m.fsave ∧ c.status = m.status ∧ c.rho = m.rho ∧ c.delta = m.delta ∧ c.xnew = m.xnew ∧ c.ntrits = m.ntrits := by
    rw [hc]; unfold recenter; dsimp only; split_ifs <;> exact ⟨rfl, rfl, rfl, rfl, rfl, rfl, rfl, rfl, rfl, rfl, rfl, rfl, rfl, rfl⟩
  obtain ⟨a1, a2, a3, a4, a5, a6, a7, a8, a9, a10, a11, a12, a13, a14⟩ := e1
  obtain ⟨b1, b2, b3, b4, b5, b6, b7, b8, b9, b10, b11, b12, b13, b14⟩ := e2
  obtain ⟨c1, c2, c3, c4, c5, c6, c7, c8, c9, c10, c11, c12, c13, c14⟩ := e3
  rw [a1, a2, a3, a4, a5, a6, a7, a8, a9, a10, a11, a12, a13, a14, b1, b2, b3, b4, b5, b6, b7, b8, b9, b10, b11, b12, b13, b14, c1, c2, c3, c4, c5, c6, c7, c8, c9, c10, c11, c12, c13, c14, hm]
  exact ⟨rfl, rfl, rfl, rfl, rfl, rfl, rfl, rfl, rfl, rfl, rfl, rfl, rfl, rfl⟩

theorem ok_absorb (p : Par K) (s : St K) (old : List ((Nat → K) × K)) (h : Post p s old) (hn : 0 ≤ s.ntrits) :
    Ok p (absorb p s).1 (absorb p s).2 := by
  have hk : s.knew ≠ 0 := by have := h.knew1; omega
  obtain ⟨r, hr⟩ : ∃ r, r = (absorb p s).2 := ⟨_, rfl⟩
  obtain ⟨e1, e2, e3, e4, e5, e6, e7, e8, e9, e10, e11, e12, e13, e14⟩ := absorb_fields p s hk r hr
  have row : r.xpt s.knew = s.xnew := by rw [e3]; funext i; exact if_pos rfl
  have oth : ∀ k, k ≠ s.knew → r.xpt k = s.xpt k := by intro k e; rw [e3]; funext i; exact if_neg e
  have fk : r.fval s.knew = s.f := by rw [e2]; exact if_pos rfl
  have fo : ∀ k, k ≠ s.knew → r.fval k = s.fval k := by intro k e; rw [e2]; exact if_neg e
  have hbest : ∀ e ∈ old, s.fval s.kopt ≤ e.2 := h.full.best
  have kopt_cases : (s.f < s.fval s.kopt ∧ r.kopt = s.knew ∧ r.xopt = s.xnew) ∨ (s.fval s.kopt ≤ s.f ∧ r.kopt = s.kopt ∧ r.xopt = s.xopt ∧ s.kopt ≠ s.knew) := by
    by_cases c : s.f < s.fval s.kopt
    · rw [if_pos c] at e4 e5; exact Or.inl ⟨c, e4, e5⟩
    · rw [if_neg c] at e4 e5
      exact Or.inr ⟨not_lt.mp c, e4, e5, fun e => (h.knew.resolve_right c) e.symm⟩
  have hfull : Full p r := by
    refine ⟨?_, ?_, ?_, ?_, ?_, ?_, ?_, ?_⟩
    · unfold Geo; rw [e6, e7, e8]; exact h.full.geo
    · rcases kopt_cases with ⟨-, c, -⟩ | ⟨-, c, -⟩
      · rw [c]; exact h.knew1
      · rw [c]; exact h.full.kopt1
    · rcases kopt_cases with ⟨-, c, -⟩ | ⟨-, c, -⟩
      · rw [c]; exact h.knewn
      · rw [c]; exact h.full.koptn
    · intro k k1 k2
      unfold Rec
      rw [e1, e8, h.log]
      by_cases c : k = s.knew
      · subst c
        refine ⟨(s.x, s.f), List.mem_cons_self .., fk.symm, fun i i1 i2 => ?_⟩
        rw [row]; exact h.x i i1 i2
      · obtain ⟨a, ha, a1, a2⟩ := h.full.recs k k1 k2
        refine ⟨a, List.mem_cons_of_mem _ ha, by rw [fo k c]; exact a1, fun i i1 i2 => ?_⟩
        rw [oth k c]; exact a2 i i1 i2
    · intro k k1 k2
      unfold Within
      rw [e6, e7]
      by_cases c : k = s.knew
      · subst c; rw [row]; exact h.xnew
      · rw [oth k c]; exact h.full.within k k1 k2
    · intro e he
      rw [e1, h.log] at he
      rcases kopt_cases with ⟨c, d, -⟩ | ⟨c, d, -, n⟩
      · rw [d, fk]
        rcases List.mem_cons.mp he with rfl | he
        · exact le_refl _
        · exact c.le.trans (hbest e he)
      · rw [d, fo _ n]
        rcases List.mem_cons.mp he with rfl | he
        · exact c
        · exact hbest e he
    · rw [e9]
      have := h.full.fsave
      rcases kopt_cases with ⟨c, d, -⟩ | ⟨c, d, -, n⟩
      · rw [d, fk]; exact c.le.trans this
      · rw [d, fo _ n]; exact this
    · rw [e10]; exact h.full.status
  have hxo : Xo p r := by
    intro i i1 i2
    rcases kopt_cases with ⟨c, d, g⟩ | ⟨c, d, g, n⟩
    · rw [d, g, row]
    · rw [d, g, oth _ n]; exact h.xo i i1 i2
  have hrad : Rad p r := by unfold Rad; rw [e11, e12]; exact h.rad
  have hwn : Within p r r.xnew := by unfold Within; rw [e6, e7, e13]; exact h.xnew
  have hnt : 0 ≤ r.ntrits := by rw [e14]; exact hn
  have hl : (absorb p s).1 = .l60 ∨ ((absorb p s).1 = .l650 ∧ 0 ≤ (absorb p s).2.distsq) := by
    unfold absorb
    rw [if_neg hk]
    unfold afterMove
    dsimp only
    split_ifs
    · exact Or.inl rfl
    · refine Or.inr ⟨rfl, ?_⟩
      dsimp only
      rw [cmax_eq]
      exact le_max_of_le_left (mul_self_nonneg _)
  rcases hl with e | ⟨e, hd⟩
  · rw [e, ← hr]; exact ⟨hfull, hxo, hrad, hnt⟩
  · rw [e, ← hr]; exact ⟨hfull, hxo, hrad, hwn, by rw [hr]; exact hd, le_trans (by decide : (-1 : Int) ≤ 0) hnt⟩

theorem newDelta_rho (s : St K) (hr : 0 < s.rho) : s.rho ≤ newDelta s := by
  have key : ∀ d : K, s.rho ≤ if d ≤ s.rho * lit 3 2 then s.rho else d := by
    intro d
    split_ifs with h
    · exact le_refl _
    · rw [lit_rat] at h
      push_cast at h
      linarith
  exact key _

theorem ok_assess (p : Par K) (hre : 0 < p.rhoend) (s : St K) (old : List ((Nat → K) × K)) (h : Post p s old) (hn : 0 ≤ s.ntrits)
    (hk : s.knew ≠ s.kopt) : Ok p (assess p s).1 (assess p s).2 := by
  obtain ⟨t, ht⟩ : ∃ t, t = errors p s := ⟨_, rfl⟩
  have hf : Full p { t with log := old } := by rw [ht]; exact h.full.same ⟨rfl, rfl, rfl, rfl, rfl, rfl, rfl, rfl, rfl⟩
  have h1 : Post p t old := by
    refine ⟨hf, ?_, ?_, ?_, ?_, ?_, ?_, ?_, ?_⟩
    · rw [ht]; exact h.xo
    · rw [ht]; exact h.rad
    · rw [ht]; exact h.log
    · rw [ht]; exact h.x
    · rw [ht]; exact h.xnew
    · rw [ht]; exact h.knew1
    · rw [ht]; exact h.knewn
    · rw [ht]; exact Or.inl hk
  have hn' : 0 ≤ t.ntrits := by rw [ht]; exact hn
  have e : assess p s = if t.ntrits > 0 then
      if t.vquad ≥ 0 then fail .stepFailed t
      else absorb p (repick p { t with ratio := (t.f - t.fval t.kopt) / t.vquad, delta := newDelta t })
    else absorb p t := by rw [ht]; rfl
  rw [e]
  by_cases c1 : t.ntrits > 0
  · rw [if_pos c1]
    by_cases c2 : t.vquad ≥ 0
    · rw [if_pos c2]
      have hw : Within p t t.xopt := by
        intro i i1 i2
        rw [h1.xo i i1 i2]
        exact hf.within t.kopt hf.kopt1 hf.koptn i i1 i2
      obtain ⟨a, ha, a1, a2⟩ := hf.recs t.kopt hf.kopt1 hf.koptn
      refine ⟨hf.geo, ⟨a, ?_, a1, a2⟩, h1.xo, hw, Or.inr (Or.inr ⟨old, h1.log, hf.best, hf.fsave, ⟨a, ha, a1, a2⟩, rfl⟩)⟩
      show a ∈ t.log
      rw [h1.log]; exact List.mem_cons_of_mem _ ha
    · rw [if_neg c2]
      obtain ⟨u, hu⟩ : ∃ u : St K, u = { t with ratio := (t.f - t.fval t.kopt) / t.vquad, delta := newDelta t } := ⟨_, rfl⟩
      have hrad : Rad p u := by
        rw [hu]
        exact ⟨h1.rad.1, newDelta_rho t (hre.trans_le h1.rad.1)⟩
      have h2 : Post p u old := by
        refine ⟨?_, ?_, hrad, ?_, ?_, ?_, ?_, ?_, ?_⟩
        · rw [hu]; exact hf.same ⟨rfl, rfl, rfl, rfl, rfl, rfl, rfl, rfl, rfl⟩
        · rw [hu]; exact h1.xo
        · rw [hu]; exact h1.log
        · rw [hu]; exact h1.x
        · rw [hu]; exact h1.xnew
        · rw [hu]; exact h1.knew1
        · rw [hu]; exact h1.knewn
        · rw [hu]; exact h1.knew
      have hn2 : 0 ≤ u.ntrits := by rw [hu]; exact hn'
      rw [← hu]
      unfold repick
      dsimp only
      split_ifs with c3 c4
      · exact ok_absorb p u old h2 hn2
      · obtain ⟨q1, q2, -⟩ := pickKnew_ok p u 0 u.xnew c4
        refine ok_absorb p _ old ⟨h2.full.same ⟨rfl, rfl, rfl, rfl, rfl, rfl, rfl, rfl, rfl⟩, h2.xo, h2.rad, h2.log, h2.x, h2.xnew, q1, q2, Or.inr c3⟩ hn2
      · exact ok_absorb p u old h2 hn2
  · rw [if_neg c1]
    exact ok_absorb p t old h1 hn'

theorem ok_l360 (p : Par K) (hre : 0 < p.rhoend) (calfun : Nat → (Nat → K) → K) (s : St K) (h : Ok p .l360 s) :
    Ok p (l360 p calfun s).1 (l360 p calfun s).2 := by
  obtain ⟨h1, h2, h3, h4, h5⟩ := h
  unfold l360
  dsimp only
  by_cases c1 : p.maxfun ≤ (s.nf : Int)
  · rw [if_pos c1]
    exact Full.last (s := { s with x := place p s s.xnew }) (h1.same ⟨rfl, rfl, rfl, rfl, rfl, rfl, rfl, rfl, rfl⟩) h2 _ (by decide)
  · rw [if_neg c1]
    obtain ⟨t, ht⟩ : ∃ t : St K, t = { call calfun (place p s s.xnew) { s with x := place p s s.xnew } with f := calfun s.nf (place p s s.xnew) } := ⟨_, rfl⟩
    have hf : Full p { t with log := s.log } := by rw [ht]; exact h1.same ⟨rfl, rfl, rfl, rfl, rfl, rfl, rfl, rfl, rfl⟩
    have hlog : t.log = (t.x, t.f) :: s.log := by rw [ht]; rfl
    have hxo : Xo p t := by rw [ht]; exact h2
    have hrad : Rad p t := by rw [ht]; exact h3
    have hxn : Within p t t.xnew := by rw [ht]; exact h5
    have hx : ∀ i, 1 ≤ i → i ≤ p.n → t.x i = t.xbase i + t.xnew i := by
      rw [ht]; exact fun i i1 i2 => place_eq h1.geo h5 i i1 i2
    by_cases c2 : s.ntrits = -1
    · have e : (call calfun (place p s s.xnew) { s with x := place p s s.xnew }).ntrits = -1 := c2
      rw [if_pos e]
      have : Last p { t with fsave := t.f } := by
        have hw : Within p t t.xopt := by
          intro i i1 i2
          rw [hxo i i1 i2]
          exact hf.within t.kopt hf.kopt1 hf.koptn i i1 i2
        obtain ⟨a, ha, a1, a2⟩ := hf.recs t.kopt hf.kopt1 hf.koptn
        refine ⟨hf.geo, ⟨a, ?_, a1, a2⟩, hxo, hw, Or.inr (Or.inl ⟨s.log, hlog, hf.best, rfl, ?_⟩)⟩
        · show a ∈ t.log
          rw [hlog]; exact List.mem_cons_of_mem _ ha
        · have : t.status = .success := hf.status
          show t.status ≠ .stepFailed
          rw [this]; decide
      rw [ht] at this
      exact this
    · have e : ¬ (call calfun (place p s s.xnew) { s with x := place p s s.xnew }).ntrits = -1 := c2
      rw [if_neg e]
      obtain ⟨g1, g2, g3, g4⟩ := h4.resolve_left c2
      have hP : Post p t s.log := by
        refine ⟨hf, hxo, hrad, hlog, hx, hxn, ?_, ?_, ?_⟩
        · rw [ht]; exact g2
        · rw [ht]; exact g3
        · rw [ht]; exact Or.inl g4
      have := ok_assess p hre t s.log hP (by rw [ht]; exact g1) (by rw [ht]; exact g4)
      rw [ht] at this
      exact this

/-! ### The end of an iteration -/

theorem farthest_spec (p : Par K) (s : St K) (hd : 0 ≤ s.distsq) (hx : Xo p s) :
    0 ≤ (farthest p s).2 ∧ ((farthest p s).1 = 0 ∨ 1 ≤ (farthest p s).1 ∧ (farthest p s).1 ≤ p.npt ∧ (farthest p s).1 ≠ s.kopt) := by
  unfold farthest
  refine up_inv (fun q (t : Nat × K) => 0 ≤ t.2 ∧ (t.1 = 0 ∨ 1 ≤ t.1 ∧ t.1 ≤ q ∧ t.1 ≠ s.kopt)) p.npt ⟨hd, Or.inl rfl⟩ ?_
  rintro k hk ⟨a, b⟩ ⟨i1, i2⟩
  dsimp only at i1 i2 ⊢
  split_ifs with c
  · refine ⟨i1.trans c.le, Or.inr ⟨Nat.le_add_left _ _, le_refl _, fun e => ?_⟩⟩
    have e' : k + 1 = s.kopt := e
    rw [acc_zero] at c
    · exact absurd (i1.trans_lt c) (lt_irrefl _)
    · intro j j1 j2
      rw [hx j j1 j2, e']; ring
  · refine ⟨i1, ?_⟩
    rcases i2 with i2 | ⟨i3, i4, i5⟩
    · exact Or.inl i2
    · exact Or.inr ⟨i3, Nat.le_succ_of_le i4, i5⟩

theorem ok_l650 (p : Par K) (hre : 0 < p.rhoend) (s : St K) (h : Ok p .l650 s) : Ok p (l650 p s).1 (l650 p s).2 := by
  obtain ⟨h1, h2, h3, h4, h5, h6⟩ := h
  obtain ⟨f1, f2⟩ := farthest_spec p s h5 h2
  have hr : 0 < s.rho := hre.trans_le h3.1
  have hf : Full p { s with knew := (farthest p s).1, distsq := (farthest p s).2 } := h1.same ⟨rfl, rfl, rfl, rfl, rfl, rfl, rfl, rfl, rfl⟩
  have key : ∀ d : K, s.rho ≤ if d ≤ s.rho * lit 3 2 then s.rho else d := by
    intro d
    split_ifs with h
    · exact le_refl _
    · rw [lit_rat] at h
      push_cast at h
      linarith
  unfold l650
  dsimp only
  by_cases c : (farthest p s).1 > 0
  · rw [if_pos c]
    have hk : 1 ≤ (farthest p s).1 ∧ (farthest p s).1 ≤ p.npt ∧ (farthest p s).1 ≠ s.kopt := f2.resolve_left (by omega)
    refine ⟨hf.same ⟨rfl, rfl, rfl, rfl, rfl, rfl, rfl, rfl, rfl⟩, h2, ⟨h3.1, ?_⟩, le_refl (0 : Int), fun _ => hk, h4⟩
    unfold far
    dsimp only
    by_cases c2 : s.ntrits = -1
    · rw [if_pos c2]; exact key _
    · rw [if_neg c2]; exact h3.2
  · rw [if_neg c]
    by_cases c2 : s.ntrits = -1
    · rw [if_pos c2]
      exact ⟨hf, h2, h3, h4⟩
    · rw [if_neg c2]
      split_ifs
      · refine ⟨hf, h2, h3, ?_⟩
        show (0 : Int) ≤ s.ntrits
        omega
      · exact ⟨hf, h2, h3, h4⟩

theorem newRho_ge (hsqrt : ∀ a : K, 1 ≤ a → 1 ≤ CMath.sqrt a) (p : Par K) (hre : 0 < p.rhoend) (rho : K) :
    p.rhoend ≤ newRho p rho := by
  unfold newRho
  dsimp only
  split_ifs with c1 c2
  · exact le_refl _
  · rw [lit_rat] at c1
    push_cast at c1
    have : 1 ≤ CMath.sqrt (rho / p.rhoend) := hsqrt _ (by linarith)
    nlinarith
  · rw [lit_rat] at c2 ⊢
    push_cast at c2 ⊢
    have : 250 * p.rhoend < rho := by
      have := not_le.mp c2
      rw [lt_div_iff₀ hre] at this
      linarith
    linarith

theorem ok_l680 (hsqrt : ∀ a : K, 1 ≤ a → 1 ≤ CMath.sqrt a) (p : Par K) (hre : 0 < p.rhoend)
    (s : St K) (h : Ok p .l680 s) : Ok p (l680 p s).1 (l680 p s).2 := by
  obtain ⟨h1, h2, h3, h4⟩ := h
  unfold l680
  dsimp only
  split_ifs with c1 c2
  · refine ⟨h1.same ⟨rfl, rfl, rfl, rfl, rfl, rfl, rfl, rfl, rfl⟩, h2, ⟨newRho_ge hsqrt p hre _, ?_⟩, le_refl (0 : Int)⟩
    show newRho p s.rho ≤ cmax _ _
    rw [cmax_eq]
    exact le_max_right _ _
  · exact ⟨h1, h2, h3, Or.inl c2, h4⟩
  · exact Full.last (s := s) h1 h2 _ (by rw [h1.status]; decide)

theorem ok_finish (p : Par K) (s : St K) (h : Ok p .done s) : Ok p (finish p s).1 (finish p s).2 := by
  have h : Last p s := h
  obtain ⟨t, ht⟩ : ∃ t : St K, t = if s.fval s.kopt ≤ s.fsave then { s with x := place p s s.xopt, f := s.fval s.kopt } else s := ⟨_, rfl⟩
  have hb : (t.status ≠ .stepFailed → BestOf p t.x t.f t.log) ∧ (t.status = .stepFailed → ∃ e old, t.log = e :: old ∧ BestOf p t.x t.f old) := by
    have hp : ∀ i, 1 ≤ i → i ≤ p.n → place p s s.xopt i = s.xbase i + s.xpt s.kopt i := by
      intro i i1 i2
      rw [place_eq h.geo h.within i i1 i2, h.xo i i1 i2]
    obtain ⟨a, ha, a1, a2⟩ := h.record
    by_cases c : s.fval s.kopt ≤ s.fsave
    · rw [if_pos c] at ht
      subst ht
      have hrec : ∃ e ∈ s.log, e.2 = s.fval s.kopt ∧ ∀ i, 1 ≤ i → i ≤ p.n → e.1 i = place p s s.xopt i :=
        ⟨a, ha, a1, fun i i1 i2 => (a2 i i1 i2).trans (hp i i1 i2).symm⟩
      rcases h.cases with ⟨b1, b2, b3⟩ | ⟨old, b1, b2, b3, b4⟩ | ⟨old, b1, b2, b3, ⟨e, e1, e2, e3⟩, b5⟩
      · exact ⟨fun _ => ⟨hrec, b1⟩, fun e => absurd e b3⟩
      · refine ⟨fun _ => ⟨hrec, ?_⟩, fun e => absurd e b4⟩
        intro e he
        have he' : e ∈ s.log := he
        rw [b1] at he'
        rcases List.mem_cons.mp he' with he | he
        · rw [he]; rw [← b3]; exact c
        · exact b2 e he
      · exact ⟨fun e => absurd b5 e, fun _ => ⟨_, old, b1, ⟨e, e1, e2, fun i i1 i2 => (e3 i i1 i2).trans (hp i i1 i2).symm⟩, b2⟩⟩
    · rw [if_neg c] at ht
      subst ht
      rcases h.cases with ⟨b1, b2, b3⟩ | ⟨old, b1, b2, b3, b4⟩ | ⟨old, b1, b2, b3, -, b5⟩
      · exact absurd b2 c
      · refine ⟨fun _ => ⟨⟨(t.x, t.f), ?_, rfl, fun _ _ _ => rfl⟩, ?_⟩, fun e => absurd e b4⟩
        · rw [b1]; exact List.mem_cons_self
        · intro e he
          rw [b1] at he
          rcases List.mem_cons.mp he with he | he
          · rw [he]
          · rw [b3] at c
            exact (not_le.mp c).le.trans (b2 e he)
      · exact absurd b3 c
  have e : finish p s = (.ret, if t.status = .success then { t with xbase := set1 t.xbase 1 t.f } else t) := by rw [ht]; rfl
  rw [e]
  by_cases c : t.status = .success
  · rw [if_pos c]
    refine ⟨hb.1, hb.2, fun _ => ?_⟩
    show set1 t.xbase 1 t.f 1 = t.f
    simp [set1]
  · rw [if_neg c]
    exact ⟨hb.1, hb.2, fun e => absurd e c⟩

end
end Opk.Bobyqa
