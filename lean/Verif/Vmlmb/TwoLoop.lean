import Verif.Vmlmb.Protocol
import Mathlib.Algebra.Order.Group.Int
import Mathlib.Data.List.Range
/-! # The two-loop recursion as a recursive function on the list of the saved pairs -/
set_option linter.unusedSectionVars false
set_option linter.unusedSimpArgs false
namespace Opk.Vmlmb
open Opk.Optim

variable {F M V : Type} [Add F] [Sub F] [Mul F] [Div F] [Neg F] [Zero F] [One F]
  [LinearOrder F] [BEq F] [CMath F]

/-! ## Slots -/

theorem slot_range (par : Par F V) (o : Opt F M V) (hm : 1 ≤ par.m) (j : Int) (hj : j ≤ o.updates) :
    0 ≤ slot par o j ∧ slot par o j < par.m := by
  unfold slot
  rw [Int.tmod_eq_emod_of_nonneg (by omega)]
  exact ⟨Int.emod_nonneg _ (by omega), Int.emod_lt_of_pos _ (by omega)⟩

theorem slot_ne (par : Par F V) (o : Opt F M V) (i j : Int) (hi : i ≤ o.updates)
    (hj : j ≤ o.updates) (h1 : i < j) (h2 : j - i < par.m) : slot par o i ≠ slot par o j := by
  unfold slot
  rw [Int.tmod_eq_emod_of_nonneg (by omega), Int.tmod_eq_emod_of_nonneg (by omega)]
  intro h
  have h3 : par.m ∣ j - i := by
    have := Int.dvd_of_emod_eq_zero (Int.emod_eq_emod_iff_emod_sub_eq_zero.1 h)
    rwa [show o.updates - i - (o.updates - j) = j - i by omega] at this
  have := Int.le_of_dvd (by omega) h3
  omega

theorem slot_congr (par : Par F V) (o r : Opt F M V) (h : r.updates = o.updates) (j : Int) :
    slot par r j = slot par o j := by
  unfold slot; rw [h]

/-! ## Specification: recursion on the list of pairs, the most recent first -/

/-- `rec φ l q`: apply the saved pairs `l` around the initial operator `φ`. -/
def recur (vs : Vs F V) (φ : V → V) : List (V × V × F) → V → V
  | [], q => φ q
  | (s, y, ρ) :: l, q =>
    if ρ > 0 then
      let α := ρ * vs.dot q s
      let r := recur vs φ l (vs.axpby 1 q (-α) y)
      vs.axpby 1 r (α - ρ * vs.dot r y) s
    else recur vs φ l q

/-- The same in the subspace of the free variables, given by the weights `w`; the second argument is
the current scaling factor (zero if not yet known). -/
def wrecur (vs : Vs F V) (w : V) (φ : F → V → V) : List (V × V) → F → V → V
  | [], γ, q => φ γ q
  | (s, y) :: l, γ, q =>
    let sty := vs.dot3 w y s
    if sty ≤ 0 then wrecur vs w φ l γ q
    else
      let ρ := 1 / sty
      let α := ρ * vs.dot3 w q s
      let γ' := if γ == 0 then sty / vs.dot3 w y y else γ
      let r := wrecur vs w φ l γ' (vs.axpby 1 q (-α) y)
      if ρ > 0 then vs.axpby 1 r (α - ρ * vs.dot3 w r y) s else r

theorem recur_append (vs : Vs F V) (φ : V → V) (l : List (V × V × F)) (p : V × V × F) (q : V) :
    recur vs φ (l ++ [p]) q = recur vs (recur vs φ [p]) l q := by
  induction l generalizing q with
  | nil => rfl
  | cons a l ih =>
    obtain ⟨s, y, ρ⟩ := a
    show recur vs φ ((s, y, ρ) :: (l ++ [p])) q = _
    unfold recur
    simp only [ih]

theorem wrecur_append (vs : Vs F V) (w : V) (φ : F → V → V) (l : List (V × V)) (p : V × V) (γ : F) (q : V) :
    wrecur vs w φ (l ++ [p]) γ q = wrecur vs w (wrecur vs w φ [p]) l γ q := by
  induction l generalizing γ q with
  | nil => rfl
  | cons a l ih =>
    obtain ⟨s, y⟩ := a
    show wrecur vs w φ ((s, y) :: (l ++ [p])) γ q = _
    unfold wrecur
    simp only [ih]

/-- The initial operator: scaling by `gamma`, skipped when it is 1. -/
def scaling (vs : Vs F V) (γ : F) (q : V) : V := if !(γ == 1) then vs.scale γ q else q

/-- The pair `j` with its factor. -/
def pairAt (par : Par F V) (o : Opt F M V) (j : Nat) : V × V × F :=
  (o.s (slot par o j), o.y (slot par o j), o.rho (slot par o j))

/-- The first `n` pairs, the most recent first. -/
def pairsOf (par : Par F V) (o : Opt F M V) (n : Nat) : List (V × V × F) :=
  (List.range n).map fun i => pairAt par o (i + 1)

/-- The first `n` pairs, without the factors. -/
def rawPairs (par : Par F V) (o : Opt F M V) (n : Nat) : List (V × V) :=
  (List.range n).map fun i => (o.s (slot par o (i + 1 : Nat)), o.y (slot par o (i + 1 : Nat)))

theorem pairsOf_succ (par : Par F V) (o : Opt F M V) (n : Nat) :
    pairsOf par o (n + 1) = pairsOf par o n ++ [pairAt par o (n + 1)] := by
  simp [pairsOf, List.range_succ]

theorem rawPairs_succ (par : Par F V) (o : Opt F M V) (n : Nat) :
    rawPairs par o (n + 1) = rawPairs par o n ++
      [(o.s (slot par o (n + 1 : Nat)), o.y (slot par o (n + 1 : Nat)))] := by
  simp [rawPairs, List.range_succ]

/-! ## The loops -/

/-- `fwd` without the flag. -/
def fwd1 (par : Par F V) (j : Nat) (o : Opt F M V) : Opt F M V :=
  let k := slot par o j
  if o.rho k > 0 then
    let o := { o with alpha := upd o.alpha k (o.rho k * par.vs.dot o.d (o.s k)) }
    { o with d := par.vs.axpby 1 o.d (-o.alpha k) (o.y k) }
  else o

theorem fwd_fst (par : Par F V) (j : Nat) (a : Opt F M V × Bool) : (fwd par j a).1 = fwd1 par j a.1 := by
  unfold fwd fwd1; dsimp only; split <;> rfl

theorem loopUp_fwd (par : Par F V) (n : Nat) (a : Opt F M V × Bool) :
    (loopUp (fwd par) n a).1 = loopUp (fwd1 par) n a.1 := by
  induction n with
  | zero => rfl
  | succ n ih => rw [loopUp, loopUp, fwd_fst, ih]

/-- The arrays read by the recursion are those of `o0`. -/
def Reads (o0 o : Opt F M V) : Prop :=
  o.s = o0.s ∧ o.y = o0.y ∧ o.rho = o0.rho ∧ o.updates = o0.updates ∧ o.gamma = o0.gamma

theorem upd_same {α : Type} (a : Int → α) (k : Int) (v : α) : upd a k v k = v := by simp [upd]
theorem upd_other {α : Type} (a : Int → α) (k i : Int) (v : α) (h : i ≠ k) : upd a k v i = a i := by
  simp [upd, h]

theorem loops_eq (par : Par F V) (o0 : Opt F M V) (n : Nat) :
    ∀ (mid : Opt F M V → Opt F M V) (φ : V → V), ((n : Int) ≤ par.m) → (n : Int) ≤ o0.updates →
      (∀ o, Reads o0 o → (mid o).d = φ o.d ∧ Reads o0 (mid o) ∧
        ∀ j : Nat, 1 ≤ j → j ≤ n → (mid o).alpha (slot par o0 j) = o.alpha (slot par o0 j)) →
      ∀ o, Reads o0 o →
        (loopDown (bwd par) n (mid (loopUp (fwd1 par) n o))).d = recur par.vs φ (pairsOf par o0 n) o.d := by
  induction n with
  | zero => intro mid φ _ _ hmid o ho; exact (hmid o ho).1
  | succ n ih =>
    intro mid φ h1 h2 hmid o ho
    rw [loopUp, loopDown, pairsOf_succ, recur_append]
    refine ih (fun o => bwd par (n + 1) (mid (fwd1 par (n + 1) o))) _ (by omega) (by omega) ?_ o ho
    intro o ho
    obtain ⟨r1, r2, r3, r4, r5⟩ := ho
    have hk : slot par o (n + 1 : Nat) = slot par o0 (n + 1 : Nat) := slot_congr par o0 o r4 _
    have hne : ∀ j : Nat, 1 ≤ j → j ≤ n → slot par o0 j ≠ slot par o0 (n + 1 : Nat) := fun j a b =>
      slot_ne par o0 j (n + 1 : Nat) (by omega) (by omega) (by omega) (by omega)
    have hf : Reads o0 (fwd1 par (n + 1) o) := by
      unfold fwd1 Reads; dsimp only; split <;> exact ⟨r1, r2, r3, r4, r5⟩
    obtain ⟨m1, m2, m3⟩ := hmid _ hf
    have hb : ∀ q : Opt F M V, Reads o0 q → Reads o0 (bwd par (n + 1) q) ∧ (bwd par (n + 1) q).alpha = q.alpha := by
      intro q hq; unfold bwd Reads; dsimp only; split <;> exact ⟨hq, rfl⟩
    have hkm : slot par (mid (fwd1 par (n + 1) o)) (n + 1 : Nat) = slot par o0 (n + 1 : Nat) :=
      slot_congr par o0 _ m2.2.2.2.1 _
    refine ⟨?_, (hb _ m2).1, ?_⟩
    · have hal := m3 (n + 1) (by omega) (by omega)
      unfold bwd
      dsimp only
      rw [hkm, m2.1, m2.2.1, m2.2.2.1, m1, hal]
      unfold recur pairAt
      dsimp only
      by_cases hr : o0.rho (slot par o0 (n + 1 : Nat)) > 0
      · rw [if_pos hr, if_pos hr]
        unfold fwd1
        dsimp only
        rw [hk, r3, if_pos hr]
        dsimp only [recur]
        rw [upd_same, r1, r2]
      · rw [if_neg hr, if_neg hr]
        show (mid (fwd1 par (n + 1) o)).d = φ o.d
        rw [m1]
        unfold fwd1
        dsimp only
        rw [hk, r3, if_neg hr]
    · intro j a b
      rw [(hb _ m2).2, m3 j a (by omega)]
      unfold fwd1
      dsimp only
      rw [hk]
      split
      · dsimp only; rw [upd_other _ _ _ _ (hne j a b)]
      · rfl

/-- The flag computed by the first loop: there is a pair of positive curvature. -/
theorem loopUp_flag (par : Par F V) (o0 : Opt F M V) (n : Nat) (b : Bool) (o : Opt F M V) (h : Reads o0 o) :
    Reads o0 (loopUp (fwd par) n (o, b)).1 ∧
    (loopUp (fwd par) n (o, b)).2 = (b || (pairsOf par o0 n).any fun p => decide (p.2.2 > 0)) := by
  induction n with
  | zero => exact ⟨h, by simp [loopUp, pairsOf]⟩
  | succ n ih =>
    obtain ⟨h1, h2⟩ := ih
    rw [loopUp, pairsOf_succ]
    generalize loopUp (fwd par) n (o, b) = a at *
    obtain ⟨r1, r2, r3, r4, r5⟩ := h1
    have hk : slot par a.1 (n + 1 : Nat) = slot par o0 (n + 1 : Nat) := slot_congr par o0 a.1 r4 _
    simp only [List.any_append, List.any_cons, List.any_nil, Bool.or_false]
    unfold fwd pairAt
    dsimp only
    by_cases hr : o0.rho (slot par o0 (n + 1 : Nat)) > 0
    · rw [if_pos (by rw [hk, r3]; exact hr)]
      refine ⟨⟨r1, r2, r3, r4, r5⟩, ?_⟩
      rw [decide_eq_true hr, Bool.or_true, Bool.or_true]
    · rw [if_neg (by rw [hk, r3]; exact hr)]
      refine ⟨⟨r1, r2, r3, r4, r5⟩, ?_⟩
      rw [h2, decide_eq_false hr, Bool.or_false]

theorem loopUp_mp (par : Par F V) (n : Nat) (a : Opt F M V × Bool) : (loopUp (fwd par) n a).1.mp = a.1.mp :=
  loopUp_inv (fun b : Opt F M V × Bool => b.1.mp = a.1.mp) _ _ _ rfl fun j s h => by
    rw [(fwd_same par j s).2.2.2.1, h]

theorem loopUp_wmp (par : Par F V) (n : Nat) (a : Opt F M V × Bool) : (loopUp (wfwd par) n a).1.mp = a.1.mp :=
  loopUp_inv (fun b : Opt F M V × Bool => b.1.mp = a.1.mp) _ _ _ rfl fun j s h => by
    rw [(wfwd_same par j s).2.2.2.1, h]

/-- Original two-loop recursion: `apply` computes the recursive specification. -/
theorem apply_eq (par : Par F V) (o : Opt F M V) (g : V) (hm : par.method ≠ .vmlmb)
    (h0 : 0 ≤ o.mp) (h1 : o.mp ≤ par.m) (h2 : o.mp ≤ o.updates) :
    let l := pairsOf par o o.mp.toNat
    (apply par o g).2 = l.any (fun p => decide (p.2.2 > 0)) ∧
    (apply par o g).1.d =
      (if l.any (fun p => decide (p.2.2 > 0)) then recur par.vs (scaling par.vs o.gamma) l g else g) ∧
    (apply par o g).1.rho = o.rho ∧ (apply par o g).1.gamma = o.gamma := by
  intro l
  have hn : ((o.mp.toNat : Nat) : Int) = o.mp := Int.toNat_of_nonneg h0
  have hpl : pairsOf par { o with d := g } o.mp.toNat = l := rfl
  obtain ⟨f1, f2⟩ := loopUp_flag par { o with d := g } o.mp.toNat false { o with d := g } (by simp [Reads])
  rw [hpl] at f2
  simp only [Bool.false_or] at f2
  have hmp := loopUp_mp par o.mp.toNat ({ o with d := g }, false)
  have hscale : ∀ q : Opt F M V, Reads { o with d := g } q → Reads { o with d := g } (rescale par q) := by
    intro q hq; unfold rescale Reads; split <;> exact hq
  unfold apply
  dsimp only
  rw [if_pos hm]
  rw [f2, hmp]
  dsimp only
  by_cases ha : l.any (fun p => decide (p.2.2 > 0)) = true
  · rw [ha, if_pos rfl, if_pos rfl]
    dsimp only
    refine ⟨rfl, ?_, ?_⟩
    · rw [loopUp_fwd]
      have := loops_eq par { o with d := g } o.mp.toNat (rescale par) (scaling par.vs o.gamma)
        (by omega) (by rw [hn]; exact h2) (by
          intro q hq
          refine ⟨?_, hscale q hq, ?_⟩
          · unfold rescale scaling
            rw [hq.2.2.2.2]
            dsimp only
            split <;> rfl
          · intro j _ _; unfold rescale; split <;> rfl) { o with d := g } (by simp [Reads])
      rw [this, hpl]
    · have h3 : Reads { o with d := g } (loopDown (bwd par) o.mp.toNat
          (rescale par (loopUp (fwd par) o.mp.toNat ({ o with d := g }, false)).1)) :=
        loopDown_inv (fun q => Reads { o with d := g } q) _ _ _ (hscale _ f1) (by
          intro j q hq; unfold bwd Reads; dsimp only; split <;> exact hq)
      exact ⟨h3.2.2.1, h3.2.2.2.2⟩
  · simp only [Bool.not_eq_true] at ha
    rw [ha]
    simp only [Bool.false_eq_true, if_false]
    refine ⟨f2.trans ha, ?_, f1.2.2.1, f1.2.2.2.2⟩
    -- no pair is used: `d` is unchanged
    rw [loopUp_fwd]
    have : ∀ n : Nat, (n ≤ o.mp.toNat) → (loopUp (fwd1 par) n { o with d := g }).d = g ∧
        Reads { o with d := g } (loopUp (fwd1 par) n { o with d := g }) := by
      intro n
      induction n with
      | zero => intro _; exact ⟨rfl, by simp [loopUp, Reads]⟩
      | succ n ih =>
        intro hle
        obtain ⟨i1, i2⟩ := ih (by omega)
        rw [loopUp]
        generalize loopUp (fwd1 par) n { o with d := g } = q at *
        have hk : slot par q (n + 1 : Nat) = slot par o (n + 1 : Nat) := slot_congr par o q i2.2.2.2.1 _
        have hrho : ¬ o.rho (slot par o (n + 1 : Nat)) > 0 := by
          intro hpos
          have : l.any (fun p => decide (p.2.2 > 0)) = true := by
            rw [List.any_eq_true]
            exact ⟨pairAt par o (n + 1), by
              simp only [l, pairsOf, List.mem_map, List.mem_range]; exact ⟨n, by omega, rfl⟩,
              by simpa [pairAt] using hpos⟩
          rw [ha] at this; cases this
        unfold fwd1
        dsimp only
        rw [hk, i2.2.2.1, if_neg hrho]
        exact ⟨i1, i2⟩
    exact (this o.mp.toNat (le_refl _)).1

/-! ## In the subspace of the free variables -/

/-- `wfwd` without the flag. -/
def wfwd1 (par : Par F V) (j : Nat) (o : Opt F M V) : Opt F M V :=
  let k := slot par o j
  let sty := par.vs.dot3 o.w (o.y k) (o.s k)
  if sty ≤ 0 then { o with rho := upd o.rho k 0 }
  else
    let o := { o with rho := upd o.rho k (1 / sty) }
    let o := { o with alpha := upd o.alpha k (o.rho k * par.vs.dot3 o.w o.d (o.s k)) }
    let o := { o with d := par.vs.axpby 1 o.d (-o.alpha k) (o.y k) }
    if o.gamma == 0 then { o with gamma := sty / par.vs.dot3 o.w (o.y k) (o.y k) }
    else o

theorem wfwd_fst (par : Par F V) (j : Nat) (a : Opt F M V × Bool) : (wfwd par j a).1 = wfwd1 par j a.1 := by
  unfold wfwd wfwd1; dsimp only; split_ifs <;> rfl

theorem loopUp_wfwd (par : Par F V) (n : Nat) (a : Opt F M V × Bool) :
    (loopUp (wfwd par) n a).1 = loopUp (wfwd1 par) n a.1 := by
  induction n with
  | zero => rfl
  | succ n ih => rw [loopUp, loopUp, wfwd_fst, ih]

/-- The arrays read by the recursion are those of `o0`. -/
def WReads (o0 o : Opt F M V) : Prop :=
  o.s = o0.s ∧ o.y = o0.y ∧ o.w = o0.w ∧ o.updates = o0.updates

theorem wfwd1_eq (par : Par F V) (o0 : Opt F M V) (j : Nat) (o : Opt F M V) (h : WReads o0 o) :
    WReads o0 (wfwd1 par j o) ∧
    (∀ k, k ≠ slot par o0 j → (wfwd1 par j o).alpha k = o.alpha k ∧ (wfwd1 par j o).rho k = o.rho k) ∧
    (∀ k, k = slot par o0 j →
      if par.vs.dot3 o0.w (o0.y k) (o0.s k) ≤ 0 then
        (wfwd1 par j o).rho k = 0 ∧ (wfwd1 par j o).d = o.d ∧ (wfwd1 par j o).gamma = o.gamma
      else
        (wfwd1 par j o).rho k = 1 / par.vs.dot3 o0.w (o0.y k) (o0.s k) ∧
        (wfwd1 par j o).alpha k =
          1 / par.vs.dot3 o0.w (o0.y k) (o0.s k) * par.vs.dot3 o0.w o.d (o0.s k) ∧
        (wfwd1 par j o).d = par.vs.axpby 1 o.d (-(wfwd1 par j o).alpha k) (o0.y k) ∧
        (wfwd1 par j o).gamma = (if o.gamma == 0 then
          par.vs.dot3 o0.w (o0.y k) (o0.s k) / par.vs.dot3 o0.w (o0.y k) (o0.y k) else o.gamma)) := by
  obtain ⟨r1, r2, r3, r4⟩ := h
  have hk : slot par o j = slot par o0 j := slot_congr par o0 o r4 _
  unfold wfwd1
  dsimp only
  rw [hk, r1, r2, r3]
  by_cases hs : par.vs.dot3 o0.w (o0.y (slot par o0 j)) (o0.s (slot par o0 j)) ≤ 0
  · simp only [if_pos hs]
    refine ⟨by simp [WReads, r1, r2, r3, r4], ?_, ?_⟩
    · intro k hne; simp [upd_other _ _ _ _ hne]
    · rintro k rfl; rw [if_pos hs]; simp [upd_same]
  · simp only [if_neg hs]
    by_cases hg : (o.gamma == 0) = true
    · simp only [if_pos hg]
      refine ⟨by simp [WReads, r1, r2, r3, r4], ?_, ?_⟩
      · intro k hne; exact ⟨upd_other _ _ _ _ hne, upd_other _ _ _ _ hne⟩
      · rintro k rfl; rw [if_neg hs]; simp only [upd_same]; exact ⟨trivial, trivial, trivial, trivial⟩
    · simp only [if_neg hg]
      refine ⟨by simp [WReads, r1, r2, r3, r4], ?_, ?_⟩
      · intro k hne; exact ⟨upd_other _ _ _ _ hne, upd_other _ _ _ _ hne⟩
      · rintro k rfl; rw [if_neg hs]; simp only [upd_same]; exact ⟨trivial, trivial, trivial, trivial⟩

theorem wbwd_eq (par : Par F V) (o0 : Opt F M V) (j : Nat) (o : Opt F M V) (h : WReads o0 o) :
    WReads o0 (wbwd par j o) ∧ (wbwd par j o).alpha = o.alpha ∧ (wbwd par j o).rho = o.rho ∧
    (wbwd par j o).gamma = o.gamma ∧
    (∀ k, k = slot par o0 j → (wbwd par j o).d = (if o.rho k > 0 then
      par.vs.axpby 1 o.d (o.alpha k - o.rho k * par.vs.dot3 o0.w o.d (o0.y k)) (o0.s k) else o.d)) := by
  obtain ⟨r1, r2, r3, r4⟩ := h
  have hk : slot par o j = slot par o0 j := slot_congr par o0 o r4 _
  unfold wbwd
  dsimp only
  rw [hk, r1, r2, r3]
  by_cases hr : o.rho (slot par o0 j) > 0
  · simp only [if_pos hr]
    refine ⟨by simp [WReads, r1, r2, r3, r4], by simp, by simp, by simp, by rintro k rfl; rw [if_pos hr]⟩
  · simp only [if_neg hr]
    refine ⟨by simp [WReads, r1, r2, r3, r4], by simp, by simp, by simp, by rintro k rfl; rw [if_neg hr]⟩

theorem wloops_eq (par : Par F V) (o0 : Opt F M V) (n : Nat) :
    ∀ (mid : Opt F M V → Opt F M V) (φ : F → V → V), ((n : Int) ≤ par.m) → (n : Int) ≤ o0.updates →
      (∀ o, WReads o0 o → (mid o).d = φ o.gamma o.d ∧ WReads o0 (mid o) ∧
        ∀ j : Nat, 1 ≤ j → j ≤ n → (mid o).alpha (slot par o0 j) = o.alpha (slot par o0 j) ∧
          (mid o).rho (slot par o0 j) = o.rho (slot par o0 j)) →
      ∀ o, WReads o0 o →
        (loopDown (wbwd par) n (mid (loopUp (wfwd1 par) n o))).d =
          wrecur par.vs o0.w φ (rawPairs par o0 n) o.gamma o.d := by
  induction n with
  | zero => intro mid φ _ _ hmid o ho; exact (hmid o ho).1
  | succ n ih =>
    intro mid φ h1 h2 hmid o ho
    rw [loopUp, loopDown, rawPairs_succ, wrecur_append]
    refine ih (fun o => wbwd par (n + 1) (mid (wfwd1 par (n + 1) o))) _ (by omega) (by omega) ?_ o ho
    clear ho o
    intro o ho
    have hne : ∀ j : Nat, 1 ≤ j → j ≤ n → slot par o0 j ≠ slot par o0 (n + 1 : Nat) := fun j a b =>
      slot_ne par o0 j (n + 1 : Nat) (by omega) (by omega) (by omega) (by omega)
    obtain ⟨f1, f2, f3⟩ := wfwd1_eq par o0 (n + 1) o ho
    obtain ⟨m1, m2, m3⟩ := hmid _ f1
    obtain ⟨b1, b2, b3, b4, b5⟩ := wbwd_eq par o0 (n + 1) _ m2
    have f3 := f3 _ rfl
    have b5 := b5 _ rfl
    obtain ⟨m4, m5⟩ := m3 (n + 1) (by omega) (le_refl _)
    refine ⟨?_, b1, ?_⟩
    · rw [b5, m1, m4, m5]
      unfold wrecur
      dsimp only
      generalize slot par o0 ((n + 1 : Nat) : Int) = k at *
      by_cases hs : par.vs.dot3 o0.w (o0.y k) (o0.s k) ≤ 0
      · rw [if_pos hs] at f3
        obtain ⟨g1, g2, g3⟩ := f3
        rw [if_pos hs, g1, if_neg (lt_irrefl _), g2, g3]
        rfl
      · rw [if_neg hs] at f3
        obtain ⟨g1, g2, g3, g4⟩ := f3
        rw [if_neg hs, g1, g4, g3, g2]
        rfl
    · intro j a b
      rw [b2, b3, (m3 j a (by omega)).1, (m3 j a (by omega)).2]
      exact f2 _ (hne j a b)

/-- The flag and `d` when it is not set. -/
theorem loopUp_wflag (par : Par F V) (o0 : Opt F M V) (n : Nat) (o : Opt F M V) (h : WReads o0 o) :
    WReads o0 (loopUp (wfwd par) n (o, false)).1 ∧
    (loopUp (wfwd par) n (o, false)).2 =
      ((rawPairs par o0 n).any fun p => decide (¬ par.vs.dot3 o0.w p.2 p.1 ≤ 0)) ∧
    ((rawPairs par o0 n).any (fun p => decide (¬ par.vs.dot3 o0.w p.2 p.1 ≤ 0)) = false →
      (loopUp (wfwd par) n (o, false)).1.d = o.d) := by
  induction n with
  | zero => exact ⟨h, by simp [loopUp, rawPairs], fun _ => rfl⟩
  | succ n ih =>
    obtain ⟨h1, h2, h3⟩ := ih
    rw [loopUp, rawPairs_succ]
    generalize loopUp (wfwd par) n (o, false) = a at *
    obtain ⟨f1, f2, f3⟩ := wfwd1_eq par o0 (n + 1) a.1 h1
    have f3 := f3 _ rfl
    rw [wfwd_fst]
    simp only [List.any_append, List.any_cons, List.any_nil, Bool.or_false]
    have hk : slot par a.1 (n + 1 : Nat) = slot par o0 (n + 1 : Nat) := slot_congr par o0 a.1 h1.2.2.2 _
    have hfl : (wfwd par (n + 1) a).2 = (a.2 || decide (¬ par.vs.dot3 o0.w
        (o0.y (slot par o0 (n + 1 : Nat))) (o0.s (slot par o0 (n + 1 : Nat))) ≤ 0)) := by
      obtain ⟨r1, r2, r3, r4⟩ := h1
      unfold wfwd
      dsimp only
      rw [hk, r1, r2, r3]
      split_ifs with c1 c2
      · rw [decide_eq_false (not_not.2 c1), Bool.or_false]
      · rw [decide_eq_true c1, Bool.or_true]
      · rw [decide_eq_true c1, Bool.or_true]
    refine ⟨f1, by rw [hfl, h2], fun hno => ?_⟩
    rw [Bool.or_eq_false_iff] at hno
    obtain ⟨n1, n2⟩ := hno
    have n3 : par.vs.dot3 o0.w (o0.y (slot par o0 (n + 1 : Nat))) (o0.s (slot par o0 (n + 1 : Nat))) ≤ 0 :=
      not_not.1 (of_decide_eq_false n2)
    rw [if_pos n3] at f3
    rw [f3.2.1]
    exact h3 n1

/-- Two-loop recursion in the subspace of the free variables: `apply` computes the recursive
specification. -/
theorem apply_weq (par : Par F V) (o : Opt F M V) (g : V) (hm : par.method = .vmlmb)
    (h0 : 0 ≤ o.mp) (h1 : o.mp ≤ par.m) (h2 : o.mp ≤ o.updates) :
    let l := rawPairs par o o.mp.toNat
    (apply par o g).2 = l.any (fun p => decide (¬ par.vs.dot3 o.w p.2 p.1 ≤ 0)) ∧
    (apply par o g).1.d =
      (if l.any (fun p => decide (¬ par.vs.dot3 o.w p.2 p.1 ≤ 0)) then
        par.vs.product o.w (wrecur par.vs o.w (scaling par.vs) l 0 g) else g) := by
  intro l
  have hn : ((o.mp.toNat : Nat) : Int) = o.mp := Int.toNat_of_nonneg h0
  obtain ⟨f1, f2, f3⟩ := loopUp_wflag par o o.mp.toNat { o with d := g, gamma := 0 } (by simp [WReads])
  have hmp := loopUp_wmp par o.mp.toNat ({ o with d := g, gamma := 0 }, false)
  have hscale : ∀ q : Opt F M V, WReads o q → WReads o (rescale par q) := by
    intro q hq; unfold rescale WReads; split <;> exact hq
  unfold apply
  dsimp only
  rw [if_neg (by simp [hm])]
  rw [f2, hmp]
  dsimp only
  by_cases ha : l.any (fun p => decide (¬ par.vs.dot3 o.w p.2 p.1 ≤ 0)) = true
  · rw [if_pos ha, if_pos ha]
    dsimp only
    refine ⟨ha.symm, ?_⟩
    rw [loopUp_wfwd]
    have := wloops_eq par o o.mp.toNat (rescale par) (scaling par.vs)
      (by omega) (by rw [hn]; exact h2) (by
        intro q hq
        refine ⟨?_, hscale q hq, ?_⟩
        · unfold rescale scaling; split <;> rfl
        · intro j _ _; unfold rescale; split <;> exact ⟨rfl, rfl⟩)
      { o with d := g, gamma := 0 } (by simp [WReads])
    rw [this]
    have hw : (loopDown (wbwd par) o.mp.toNat
        (rescale par (loopUp (wfwd1 par) o.mp.toNat { o with d := g, gamma := 0 }))).w = o.w := by
      have h3 : WReads o (loopDown (wbwd par) o.mp.toNat
          (rescale par (loopUp (wfwd1 par) o.mp.toNat { o with d := g, gamma := 0 }))) := by
        refine loopDown_inv (fun q => WReads o q) _ _ _ (hscale _ ?_) fun j q hq => (wbwd_eq par o j q hq).1
        rw [loopUp_wfwd] at f1; exact f1
      exact h3.2.2.1
    rw [hw]
  · simp only [Bool.not_eq_true] at ha
    have ha' : l.any (fun p => decide (¬ par.vs.dot3 o.w p.2 p.1 ≤ 0)) = false := ha
    rw [ha']
    simp only [Bool.false_eq_true, if_false]
    exact ⟨f2.trans ha, f3 ha⟩

end Opk.Vmlmb
