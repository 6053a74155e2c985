import Verif.Cobyla.Loops
/-!
# COBYLA: the simplex

In exact arithmetic, `SIMI` is the inverse of `SIM`, the vertices of the simplex are points where
the functions have been evaluated and `DATMAT` holds the values of the functions at the vertices.
-/
set_option linter.unusedSectionVars false
set_option linter.unusedSimpArgs false
namespace Opk.Cobyla
open Linalg CMath

/-- An evaluation: the variables, the function and the constraints. -/
structure Eval (K : Type) where
  x : Nat → K
  f : K
  c : Nat → K

section
variable {K : Type} [Field K] [LinearOrder K] [IsStrictOrderedRing K] [CMath K] [ExactMath K]

/-- Among the evaluations `h`, there is one at the point `y`, with the constraints, the function
and the greatest violation in `d`. -/
def Known (p : Par K) (h : List (Eval K)) (y d : Nat → K) : Prop :=
  ∃ e ∈ h, (∀ i, 1 ≤ i → i ≤ p.n → e.x i = y i) ∧ (∀ k, 1 ≤ k → k ≤ p.m → e.c k = d k) ∧
    e.f = d p.mp ∧ worst p.m e.c = d p.mpp

theorem Known.mono {p : Par K} {h h' : List (Eval K)} {y d : Nat → K} (H : Known p h y d) (hs : ∀ e ∈ h, e ∈ h') :
    Known p h' y d := by
  obtain ⟨e, he, r⟩ := H
  exact ⟨e, hs e he, r⟩

theorem Known.congr {p : Par K} {h : List (Eval K)} {y d y' d' : Nat → K} (H : Known p h y d)
    (hy : ∀ i, 1 ≤ i → i ≤ p.n → y i = y' i) (hd : ∀ k, 1 ≤ k → k ≤ p.mpp → d k = d' k) : Known p h y' d' := by
  obtain ⟨e, he, h1, h2, h3, h4⟩ := H
  refine ⟨e, he, fun i hi hi' => (h1 i hi hi').trans (hy i hi hi'), fun k hk hk' => (h2 k hk hk').trans (hd k hk ?_), h3.trans (hd _ ?_ ?_), h4.trans (hd _ ?_ ?_)⟩
  all_goals simp only [Par.mp, Par.mpp]; omega

theorem record_con (p : Par K) (f : K) (c : Nat → K) (s : St K) :
    (∀ k, 1 ≤ k → k ≤ p.m → (record p f c s).con k = c k) ∧ (record p f c s).con p.mp = f ∧
      (record p f c s).con p.mpp = worst p.m c := by
  unfold record
  dsimp only
  rw [up_set1 p.m (fun k _ => c k)]
  refine ⟨fun k hk hk' => ?_, ?_, ?_⟩
  · simp only [set1, Par.mp, Par.mpp]
    rw [if_neg (by omega), if_neg (by omega), if_pos ⟨hk, hk'⟩]
  · simp only [set1, Par.mp, Par.mpp]
    rw [if_neg (by omega), if_pos trivial]
  · simp only [set1, Par.mp, Par.mpp]
    rw [if_pos trivial]

/-- The new evaluation is known. -/
theorem known_record (p : Par K) (f : K) (c : Nat → K) (s : St K) (h : List (Eval K)) (y : Nat → K)
    (hy : ∀ i, 1 ≤ i → i ≤ p.n → s.x i = y i) :
    Known p (⟨s.x, f, c⟩ :: h) y (record p f c s).con := by
  obtain ⟨h1, h2, h3⟩ := record_con p f c s
  exact ⟨_, List.mem_cons_self, hy, fun k hk hk' => (h1 k hk hk').symm, h2.symm, h3.symm⟩

/-- The simplex is complete: its vertices are evaluated points and `SIMI` is the inverse of `SIM`. -/
structure Full (p : Par K) (h : List (Eval K)) (s : St K) : Prop where
  inv : Inv p.n s.sim s.simi
  pole : Known p h (fun i => s.sim i p.np) (fun k => s.datmat k p.np)
  vert : ∀ j, 1 ≤ j → j ≤ p.n → Known p h (fun i => s.sim i p.np + s.sim i j) (fun k => s.datmat k j)

/-- Only the simplex matters. -/
theorem Full.congr {p : Par K} {h : List (Eval K)} {s s' : St K} (H : Full p h s) (h1 : s'.sim = s.sim)
    (h2 : s'.simi = s.simi) (h3 : s'.datmat = s.datmat) : Full p h s' := by
  obtain ⟨a, b, c⟩ := H
  exact ⟨by rwa [h1, h2], by rwa [h1, h3], by rwa [h1, h3]⟩

theorem findBest_index (p : Par K) (s : St K) : 1 ≤ (findBest p s).2 ∧ (findBest p s).2 ≤ p.np := by
  unfold findBest
  refine up_inv (fun _ (st : K × Nat) => 1 ≤ st.2 ∧ st.2 ≤ p.np) p.n ⟨by simp only [Par.np]; omega, le_rfl⟩ ?_
  intro k hk st hst
  have hk1 : 1 ≤ k + 1 ∧ k + 1 ≤ p.np := by simp only [Par.np]; omega
  dsimp only
  split_ifs
  · exact hk1
  · exact hk1
  · exact hst
  · exact hst

/-- The columns of `DATMAT` are exchanged. -/
theorem swap_datmat (mpp a b : Nat) (hab : a ≠ b) (d : Nat → Nat → K) :
    up mpp (fun i d =>
      let temp := d i a
      let d := set2 d i a (d i b)
      set2 d i b temp) d =
      fun k l => if 1 ≤ k ∧ k ≤ mpp then (if l = b then d k a else if l = a then d k b else d k l) else d k l := by
  refine up_inv (fun q (w : Nat → Nat → K) => w = fun k l => if 1 ≤ k ∧ k ≤ q then (if l = b then d k a else if l = a then d k b else d k l) else d k l) mpp ?_ ?_
  · funext k l; rw [if_neg (by omega)]
  · rintro q _ w rfl
    funext k l
    have hq : ∀ l, (if 1 ≤ q + 1 ∧ q + 1 ≤ q then (if l = b then d (q + 1) a else if l = a then d (q + 1) b else d (q + 1) l) else d (q + 1) l) = d (q + 1) l := fun l => if_neg (by omega)
    dsimp only
    rw [hq, hq]
    by_cases hk : k = q + 1
    · subst hk
      rw [if_pos (show 1 ≤ q + 1 ∧ q + 1 ≤ q + 1 by omega)]
      by_cases hl : l = b
      · rw [set2, if_pos ⟨rfl, hl⟩, if_pos hl]
      · rw [set2, if_neg (by tauto), if_neg hl]
        by_cases hl2 : l = a
        · rw [set2, if_pos ⟨rfl, hl2⟩, if_pos hl2]
        · rw [set2, if_neg (by tauto), if_neg hl2, if_neg (by omega)]
    · rw [set2, if_neg (by tauto), set2, if_neg (by tauto)]
      by_cases h1 : 1 ≤ k ∧ k ≤ q
      · rw [if_pos h1, if_pos (show 1 ≤ k ∧ k ≤ q + 1 by omega)]
      · rw [if_neg h1, if_neg (by omega)]

theorem Full.switch {p : Par K} {h : List (Eval K)} {s : St K} (H : Full p h s) : Full p h (Cobyla.pole p s) := by
  unfold Cobyla.pole
  obtain ⟨hb1, hb2⟩ := findBest_index p s
  generalize (findBest p s).2 = b at hb1 hb2
  dsimp only
  by_cases hb : b ≤ p.n
  · rw [if_pos hb]
    have hne : p.np ≠ b := by simp only [Par.np]; omega
    obtain ⟨e1, e2, -⟩ := switchSim_eq p.n b hb1 hb s.sim s.simi
    refine ⟨H.inv.switchSim hb1 hb, ?_, ?_⟩
    · dsimp only
      rw [swap_datmat p.mpp p.np b hne]
      refine (H.vert b hb1 hb).congr (fun i hi hi' => ?_) (fun k hk hk' => ?_)
      · exact (e2 i hi hi').symm
      · dsimp only
        rw [if_pos ⟨hk, hk'⟩, if_neg hne, if_pos rfl]
    · intro j hj hj'
      dsimp only
      rw [swap_datmat p.mpp p.np b hne]
      by_cases hjb : j = b
      · refine H.pole.congr (fun i hi hi' => ?_) (fun k hk hk' => ?_)
        · rw [e1 i j hi hi' hj hj', if_pos hjb]
          have := e2 i hi hi'
          simp only [Par.np]
          rw [this]
          ring
        · dsimp only
          rw [if_pos ⟨hk, hk'⟩, if_pos hjb]
      · refine (H.vert j hj hj').congr (fun i hi hi' => ?_) (fun k hk hk' => ?_)
        · rw [e1 i j hi hi' hj hj', if_neg hjb]
          have := e2 i hi hi'
          simp only [Par.np]
          rw [this]
          ring
        · dsimp only
          rw [if_pos ⟨hk, hk'⟩, if_neg hjb, if_neg (by simp only [Par.np]; omega)]
  · rw [if_neg hb]
    exact H

/-- A vertex is replaced by a known point. -/
theorem Full.replace {p : Par K} {h h' : List (Eval K)} {s s' : St K} (H : Full p h s) (hs : ∀ e ∈ h, e ∈ h') {jd : Nat}
    (h1 : 1 ≤ jd) (h2 : jd ≤ p.n) (ht : inner p.n s.simi s.dx jd ≠ 0)
    (hk : Known p h' (fun i => s.sim i p.np + s.dx i) s.con)
    (e1 : s'.sim = (Cobyla.replace p.n jd s.dx (s.sim, s.simi)).1)
    (e2 : s'.simi = (Cobyla.replace p.n jd s.dx (s.sim, s.simi)).2)
    (e3 : s'.datmat = store p.mpp s.con jd s.datmat) : Full p h' s' := by
  have hsim := replace_sim p.n jd s.dx s.sim s.simi
  have hnp : p.np ≠ jd := by simp only [Par.np]; omega
  refine ⟨?_, ?_, fun j hj hj' => ?_⟩
  · rw [e1, e2]
    exact H.inv.replace h1 h2 ht
  · rw [e1, e3, hsim, store_eq]
    refine (H.pole.mono hs).congr (fun i hi hi' => ?_) (fun k hk hk' => ?_)
    · dsimp only
      rw [if_neg (by tauto)]
    · dsimp only
      rw [if_neg (by tauto)]
  · rw [e1, e3, hsim, store_eq]
    by_cases hjd : j = jd
    · refine hk.congr (fun i hi hi' => ?_) (fun k hk hk' => ?_)
      · dsimp only
        rw [if_neg (by tauto), if_pos ⟨⟨hi, hi'⟩, hjd⟩]
      · dsimp only
        rw [if_pos ⟨⟨hk, hk'⟩, hjd⟩]
    · refine ((H.vert j hj hj').mono hs).congr (fun i hi hi' => ?_) (fun k hk hk' => ?_)
      · dsimp only
        rw [if_neg (by tauto), if_neg (by tauto)]
      · dsimp only
        rw [if_neg (by tauto)]

/-- The pristine part of the initial simplex: the rows and the columns from `jd` on; `SIMI` is lower triangular. -/
structure Tri (p : Par K) (jd : Nat) (s : St K) : Prop where
  sim : ∀ k l, 1 ≤ k → k ≤ p.n → 1 ≤ l → l ≤ p.n → (jd ≤ k ∨ jd ≤ l) → s.sim k l = if k = l then s.rho else 0
  simi : ∀ k l, 1 ≤ k → k < l → l ≤ p.n → s.simi k l = 0

/-- The state when an evaluation is expected. -/
inductive Wait (p : Par K) (h : List (Eval K)) (s : St K) : Prop where
  /-- the first evaluation -/
  | first (h0 : s.nfvals = 0) (hb : s.ibrnch = 0) (hj : s.jdrop = p.np) (inv : Inv p.n s.sim s.simi)
      (tri : Tri p 1 s) (hx : ∀ i, 1 ≤ i → i ≤ p.n → s.x i = s.sim i p.np)
  /-- the other vertices of the initial simplex -/
  | simplex (h0 : 1 ≤ s.nfvals) (h1 : s.nfvals ≤ p.n) (hb : s.ibrnch = 0) (hj : s.jdrop = s.nfvals)
      (inv : Inv p.n s.sim s.simi) (tri : Tri p s.nfvals s)
      (hx : ∀ i, 1 ≤ i → i ≤ p.n → s.x i = s.sim i p.np + s.sim i s.jdrop)
      (pole : Known p h (fun i => s.sim i p.np) (fun k => s.datmat k p.np))
      (vert : ∀ j, 1 ≤ j → j < s.jdrop → Known p h (fun i => s.sim i p.np + s.sim i j) (fun k => s.datmat k j))
  /-- a new vertex for a better simplex -/
  | vertex (h1 : p.n < s.nfvals) (hb : s.ibrnch = 0) (hj : 1 ≤ s.jdrop) (hj' : s.jdrop ≤ p.n)
      (inv : Inv p.n s.sim s.simi)
      (hx : ∀ i, 1 ≤ i → i ≤ p.n → s.x i = s.sim i p.np + s.sim i s.jdrop)
      (pole : Known p h (fun i => s.sim i p.np) (fun k => s.datmat k p.np))
      (vert : ∀ j, 1 ≤ j → j ≤ p.n → j ≠ s.jdrop → Known p h (fun i => s.sim i p.np + s.sim i j) (fun k => s.datmat k j))
  /-- a trial point -/
  | trial (h1 : p.n < s.nfvals) (hb : s.ibrnch = 1) (full : Full p h s) (hsig : 0 < s.parsig)
      (hv : ∀ j, 1 ≤ j → j ≤ p.n → 0 < s.vsig j)
      (hx : ∀ i, 1 ≤ i → i ≤ p.n → s.x i = s.sim i p.np + s.dx i)

theorem Wait.inv {p : Par K} {h : List (Eval K)} {s : St K} (H : Wait p h s) : Inv p.n s.sim s.simi := by
  cases H with
  | first _ _ _ inv => exact inv
  | simplex _ _ _ _ inv => exact inv
  | vertex _ _ _ _ inv => exact inv
  | trial _ _ full => exact full.inv

/-- The initial state. -/
theorem wait_init (p : Par K) (hrho : 0 < p.rhobeg) (x : Nat → K) (s : St K) (h : List (Eval K)) : Wait p h (init p x s) := by
  obtain ⟨e1, e2, e3⟩ := initSimplex_eq p.n p.rhobeg x s.sim s.simi
  refine Wait.first rfl rfl rfl ?_ ⟨?_, ?_⟩ ?_
  · intro i j hi hi' hj hj'
    show ∑ k ∈ Finset.Icc 1 p.n, (initSimplex p.n p.rhobeg x (s.sim, s.simi)).2 i k * (initSimplex p.n p.rhobeg x (s.sim, s.simi)).1 k j = _
    have : ∀ k ∈ Finset.Icc 1 p.n, (initSimplex p.n p.rhobeg x (s.sim, s.simi)).2 i k * (initSimplex p.n p.rhobeg x (s.sim, s.simi)).1 k j =
        if k = i then (if i = j then 1 else 0) else 0 := by
      intro k hk
      rw [Finset.mem_Icc] at hk
      rw [e3 i k hi hi' hk.1 hk.2, e1 k j hk.1 hk.2 hj hj']
      by_cases h1 : k = i
      · subst h1
        rw [if_pos rfl, if_pos rfl]
        by_cases h2 : k = j
        · rw [if_pos h2, if_pos h2, one_div, inv_mul_cancel₀ hrho.ne']
        · rw [if_neg h2, if_neg h2, mul_zero]
      · rw [if_neg (Ne.symm h1), if_neg h1, zero_mul]
    rw [Finset.sum_congr rfl this, Finset.sum_ite_eq', if_pos (Finset.mem_Icc.mpr ⟨hi, hi'⟩)]
  · intro k l hk hk' hl hl' _
    exact e1 k l hk hk' hl hl'
  · intro k l hk hkl hl
    show (initSimplex p.n p.rhobeg x (s.sim, s.simi)).2 k l = 0
    rw [e3 k l hk (by omega) (by omega) hl, if_neg (by omega)]
  · intro i hi hi'
    exact (e2 i hi hi').symm

/-- What is expected after an evaluation: `x`, `f` and `resmax` are known. -/
def Last (p : Par K) (h : List (Eval K)) (s : St K) : Prop :=
  ∃ e ∈ h, (∀ i, 1 ≤ i → i ≤ p.n → e.x i = s.x i) ∧ e.f = s.f ∧ worst p.m e.c = s.resmax

/-- What the state must be when the execution jumps. -/
def After (p : Par K) (h : List (Eval K)) : Jump × St K → Prop
  | (.call, s) => Wait p h s ∧ 0 < s.nfvals
  | (.again, s) => Full p h s ∧ p.n < s.nfvals ∧ (s.ibrnch = 0 ∨ s.ibrnch = 1)
  | (.done, s) => Full p h s ∧ (s.ifull = 1 → Last p h s)
  | (.best _, s) => False ∧ s.nfvals = 0
  | (.wrong, s) => False ∧ s.nfvals = 0

theorem after_reduce {p : Par K} {h : List (Eval K)} {s : St K} (hf : Full p h s) (hn : p.n < s.nfvals)
    (hb : s.ibrnch = 0 ∨ s.ibrnch = 1) (hl : s.ifull = 1 → Last p h s) : After p h (reduce p s) := by
  unfold reduce
  by_cases h1 : s.iflag = 0
  · rw [if_pos h1]
    exact ⟨hf.congr rfl rfl rfl, hn, Or.inl rfl⟩
  · rw [if_neg h1]
    by_cases h2 : s.rho > p.rhoend
    · rw [if_pos h2]
      exact ⟨hf.congr rfl rfl rfl, hn, hb⟩
    · rw [if_neg h2]
      exact ⟨hf, hl⟩

/-- The first choice of the vertex to drop: its divisor is not zero. -/
theorem chooseDrop_spec (p : Par K) (trured : K) (s : St K) :
    ((chooseDrop p trured s).2.1 ≠ 0 →
      1 ≤ (chooseDrop p trured s).2.1 ∧ (chooseDrop p trured s).2.1 ≤ p.n ∧
      inner p.n s.simi s.dx (chooseDrop p trured s).2.1 ≠ 0) ∧
    (∀ j, 1 ≤ j → j ≤ p.n → (chooseDrop p trured s).2.2 j = |inner p.n s.simi s.dx j| * s.vsig j) := by
  have key := up_inv (s := (if trured ≤ 0 then (1 : K) else 0, 0, s.sigbar)) (body := fun j (st : K × Nat × (Nat → K)) =>
        let temp := fabs (inner p.n s.simi s.dx j)
        let sigbar := set1 st.2.2 j (temp * s.vsig j)
        if temp > st.1 then (temp, j, sigbar) else (st.1, st.2.1, sigbar))
      (fun q (st : K × Nat × (Nat → K)) => 0 ≤ st.1 ∧ (st.2.1 ≠ 0 → 1 ≤ st.2.1 ∧ st.2.1 ≤ p.n ∧ inner p.n s.simi s.dx st.2.1 ≠ 0) ∧
      (∀ j, 1 ≤ j → j ≤ q → st.2.2 j = |inner p.n s.simi s.dx j| * s.vsig j)) p.n ⟨?_, by simp, by intros; omega⟩ ?_
  · exact key.2
  · dsimp only
    split_ifs
    · exact zero_le_one
    · exact le_rfl
  · · rintro k hk ⟨r, j, sb⟩ ⟨h0, h1, h2⟩
      dsimp only at h0 h1 h2 ⊢
      rw [ExactMath.fabs_eq]
      have hsb : ∀ i, 1 ≤ i → i ≤ k + 1 → set1 sb (k + 1) (|inner p.n s.simi s.dx (k + 1)| * s.vsig (k + 1)) i = |inner p.n s.simi s.dx i| * s.vsig i := by
        intro i hi hi'
        simp only [set1]
        by_cases h : i = k + 1
        · rw [if_pos h, h]
        · rw [if_neg h, h2 i hi (by omega)]
      by_cases hgt : |inner p.n s.simi s.dx (k + 1)| > r
      · rw [if_pos hgt]
        exact ⟨abs_nonneg _, fun _ => ⟨Nat.succ_le_succ (Nat.zero_le k), hk, abs_pos.mp (lt_of_le_of_lt h0 hgt)⟩, hsb⟩
      · rw [if_neg hgt]
        exact ⟨h0, h1, hsb⟩

/-- The second choice of the vertex to drop. -/
theorem chooseFar_spec (p : Par K) (trured : K) (sigbar : Nat → K) (s : St K) :
    (chooseFar p trured sigbar s).2 > 0 →
      (chooseFar p trured sigbar s).2 ≤ p.n ∧
      (sigbar (chooseFar p trured sigbar s).2 ≥ s.parsig ∨
        sigbar (chooseFar p trured sigbar s).2 ≥ s.vsig (chooseFar p trured sigbar s).2) := by
  unfold chooseFar
  refine up_inv (fun _ (st : K × Nat) => st.2 > 0 → st.2 ≤ p.n ∧ (sigbar st.2 ≥ s.parsig ∨ sigbar st.2 ≥ s.vsig st.2)) p.n
    (fun h => absurd h (by simp)) ?_
  intro k hk st hst
  by_cases h1 : sigbar (k + 1) ≥ s.parsig ∨ sigbar (k + 1) ≥ s.vsig (k + 1)
  · rw [if_pos h1]
    dsimp only
    split_ifs
    · exact fun _ => ⟨by omega, h1⟩
    · exact hst
    · exact fun _ => ⟨by omega, h1⟩
    · exact hst
  · rw [if_neg h1]
    exact hst

theorem after_judge {p : Par K} {h h' : List (Eval K)} {s : St K} (hf : Full p h s) (hs : ∀ e ∈ h, e ∈ h')
    (hn : p.n < s.nfvals) (hb : s.ibrnch = 0 ∨ s.ibrnch = 1) (hsig : 0 < s.parsig) (hv : ∀ j, 1 ≤ j → j ≤ p.n → 0 < s.vsig j)
    (hk : Known p h' (fun i => s.sim i p.np + s.dx i) s.con) (hl : Last p h' s) : After p h' (judge p s) := by
  have hf' : Full p h' s := ⟨hf.inv, hf.pole.mono hs, fun j hj hj' => (hf.vert j hj hj').mono hs⟩
  unfold judge
  generalize (reduction p s).2 = prerem
  generalize (reduction p s).1 = trured
  generalize hs1 : ({ s with prerem := prerem } : St K) = s1
  have a1 : s1.sim = s.sim := by rw [← hs1]
  have a2 : s1.simi = s.simi := by rw [← hs1]
  have a3 : s1.dx = s.dx := by rw [← hs1]
  have a4 : s1.vsig = s.vsig := by rw [← hs1]
  have a5 : s1.parsig = s.parsig := by rw [← hs1]
  have a6 : s1.datmat = s.datmat := by rw [← hs1]
  have a7 : s1.con = s.con := by rw [← hs1]
  have a8 : s1.nfvals = s.nfvals := by rw [← hs1]
  have a10 : s1.ibrnch = s.ibrnch := by rw [← hs1]
  have a9 : Last p h' s1 := by rw [← hs1]; exact hl
  clear hs1
  unfold judgeStep
  dsimp only
  obtain ⟨d1, d2⟩ := chooseDrop_spec p trured s1
  have f1 := chooseFar_spec p trured (chooseDrop p trured s1).2.2 s1
  generalize chooseDrop p trured s1 = drop at d1 d2 f1
  generalize chooseFar p trured drop.2.2 s1 = far at f1
  rw [a2, a3, a4] at d2
  rw [a2, a3] at d1
  rw [a4, a5] at f1
  -- the divisor is not zero
  have hjd : (if far.2 > 0 then far.2 else drop.2.1) ≠ 0 → 1 ≤ (if far.2 > 0 then far.2 else drop.2.1) ∧
      (if far.2 > 0 then far.2 else drop.2.1) ≤ p.n ∧ inner p.n s.simi s.dx (if far.2 > 0 then far.2 else drop.2.1) ≠ 0 := by
    by_cases hfar : far.2 > 0
    · simp only [if_pos hfar]
      intro _
      obtain ⟨g1, g2⟩ := f1 hfar
      refine ⟨hfar, g1, fun h0 => ?_⟩
      rw [d2 far.2 hfar g1, h0, abs_zero, zero_mul] at g2
      rcases g2 with g2 | g2
      · exact absurd hsig (not_lt.mpr g2)
      · exact absurd (hv far.2 hfar g1) (not_lt.mpr g2)
    · simp only [if_neg hfar]
      exact d1
  generalize (if far.2 > 0 then far.2 else drop.2.1) = jd at hjd
  by_cases h0 : jd = 0
  · rw [if_pos h0]
    exact after_reduce (hf'.congr a1 a2 a6) (by rw [← a8] at hn; exact hn) (by rw [← a10] at hb; exact hb) fun _ => a9
  · rw [if_neg h0]
    obtain ⟨j1, j2, j3⟩ := hjd h0
    have hfull : ∀ s' : St K, s'.sim = (Cobyla.replace p.n jd s.dx (s.sim, s.simi)).1 →
        s'.simi = (Cobyla.replace p.n jd s.dx (s.sim, s.simi)).2 → s'.datmat = store p.mpp s.con jd s.datmat → Full p h' s' :=
      fun s' e1 e2 e3 => Full.replace hf hs j1 j2 j3 hk e1 e2 e3
    rw [a1, a2, a3, a6, a7]
    split_ifs
    · exact ⟨hfull _ rfl rfl rfl, by rw [← a8] at hn; exact hn, by rw [← a10] at hb; exact hb⟩
    · exact after_reduce (hfull _ rfl rfl rfl) (by rw [← a8] at hn; exact hn) (by rw [← a10] at hb; exact hb) fun _ => a9

/-- The exchange in the initial simplex. -/
theorem exchange_spec {p : Par K} {h : List (Eval K)} {s : St K} (h1 : 1 ≤ s.jdrop) (h2 : s.jdrop ≤ p.n)
    (inv : Inv p.n s.sim s.simi) (tri : Tri p s.jdrop s)
    (hx : ∀ i, 1 ≤ i → i ≤ p.n → s.x i = s.sim i p.np + s.sim i s.jdrop)
    (hf : s.f = s.con p.mp)
    (hk : Known p h (fun i => s.sim i p.np + s.sim i s.jdrop) s.con)
    (pole : Known p h (fun i => s.sim i p.np) (fun k => s.datmat k p.np))
    (vert : ∀ j, 1 ≤ j → j < s.jdrop → Known p h (fun i => s.sim i p.np + s.sim i j) (fun k => s.datmat k j))
    (hd : ∀ k, 1 ≤ k → k ≤ p.mpp → s.datmat k s.jdrop = s.con k) :
    Inv p.n (exchange p s).sim (exchange p s).simi ∧ Tri p (s.jdrop + 1) (exchange p s) ∧
      (∀ i, 1 ≤ i → i ≤ p.n → (exchange p s).x i = (exchange p s).sim i p.np) ∧
      Known p h (fun i => (exchange p s).sim i p.np) (fun k => (exchange p s).datmat k p.np) ∧
      (∀ j, 1 ≤ j → j ≤ s.jdrop → Known p h (fun i => (exchange p s).sim i p.np + (exchange p s).sim i j) (fun k => (exchange p s).datmat k j)) := by
  have hcol : ∀ i, 1 ≤ i → i ≤ p.n → s.sim i s.jdrop = if i = s.jdrop then s.rho else 0 := fun i hi hi' => tri.sim i s.jdrop hi hi' h1 h2 (Or.inr le_rfl)
  have hrow : ∀ l, 1 ≤ l → l ≤ p.n → s.sim s.jdrop l = if s.jdrop = l then s.rho else 0 := fun l hl hl' => tri.sim s.jdrop l h1 h2 hl hl' (Or.inl le_rfl)
  unfold exchange
  rw [if_pos h2]
  have hnp : p.np ≠ s.jdrop := by simp only [Par.np]; omega
  by_cases hle : s.datmat p.mp p.np ≤ s.f
  · rw [if_pos hle]
    refine ⟨inv, ⟨fun k l hk hk' hl hl' h => tri.sim k l hk hk' hl hl' (by omega), tri.simi⟩, ?_, pole, ?_⟩
    · intro i hi hi'
      dsimp only
      simp only [set1]
      by_cases hi2 : i = s.jdrop
      · rw [if_pos hi2, hi2]
      · rw [if_neg hi2, hx i hi hi', hcol i hi hi', if_neg hi2, add_zero]
    · intro j hj hj'
      rcases Nat.lt_or_eq_of_le hj' with hlt | heq
      · exact vert j hj hlt
      · rw [heq]
        refine hk.congr (fun i hi hi' => rfl) (fun k hk hk' => ?_)
        exact (hd k hk hk').symm
  · rw [if_neg hle]
    dsimp only
    rw [exchangeRow_eq]
    have hdat : up p.mpp (fun k d =>
        let d := set2 d k s.jdrop (d k p.np)
        set2 d k p.np (s.con k)) s.datmat =
        fun k l => if 1 ≤ k ∧ k ≤ p.mpp then (if l = p.np then s.con k else if l = s.jdrop then s.datmat k p.np else s.datmat k l) else s.datmat k l := by
      refine up_inv (fun q (w : Nat → Nat → K) => w = fun k l => if 1 ≤ k ∧ k ≤ q then (if l = p.np then s.con k else if l = s.jdrop then s.datmat k p.np else s.datmat k l) else s.datmat k l) p.mpp ?_ ?_
      · funext k l; rw [if_neg (by omega)]
      · rintro q _ w rfl
        funext k l
        have hq : ∀ l, (if 1 ≤ q + 1 ∧ q + 1 ≤ q then (if l = p.np then s.con (q + 1) else if l = s.jdrop then s.datmat (q + 1) p.np else s.datmat (q + 1) l) else s.datmat (q + 1) l) = s.datmat (q + 1) l := fun l => if_neg (by omega)
        dsimp only
        rw [hq]
        by_cases hk : k = q + 1
        · subst hk
          rw [if_pos (show 1 ≤ q + 1 ∧ q + 1 ≤ q + 1 by omega)]
          by_cases hl : l = p.np
          · rw [set2, if_pos ⟨rfl, hl⟩, if_pos hl]
          · rw [set2, if_neg (by tauto), if_neg hl]
            by_cases hl2 : l = s.jdrop
            · rw [set2, if_pos ⟨rfl, hl2⟩, if_pos hl2]
            · rw [set2, if_neg (by tauto), if_neg hl2, if_neg (by omega)]
        · rw [set2, if_neg (by tauto), set2, if_neg (by tauto)]
          by_cases h1 : 1 ≤ k ∧ k ≤ q
          · rw [if_pos h1, if_pos (show 1 ≤ k ∧ k ≤ q + 1 by omega)]
          · rw [if_neg h1, if_neg (by omega)]
    rw [hdat]
    dsimp only
    -- the new matrices
    have hsim : ∀ k l, 1 ≤ k → k ≤ p.n → 1 ≤ l → l ≤ p.n →
        (if k = s.jdrop ∧ 1 ≤ l ∧ l ≤ s.jdrop then -s.rho else set2 s.sim s.jdrop p.np (s.x s.jdrop) k l) =
        if l = s.jdrop then -s.sim k s.jdrop else if l ≤ s.jdrop then s.sim k l - s.sim k s.jdrop else s.sim k l := by
      intro k l hk hk' hl hl'
      have hset : set2 s.sim s.jdrop p.np (s.x s.jdrop) k l = s.sim k l := by
        simp only [set2]
        rw [if_neg (by simp only [Par.np]; omega)]
      rw [hset]
      by_cases h3 : k = s.jdrop
      · subst h3
        by_cases h4 : l ≤ s.jdrop
        · rw [if_pos ⟨rfl, hl, h4⟩, if_pos h4, hcol _ hk hk', if_pos rfl]
          by_cases h5 : l = s.jdrop
          · rw [if_pos h5]
          · rw [if_neg h5, hrow l hl hl', if_neg (Ne.symm h5), zero_sub]
        · rw [if_neg (by tauto), if_neg (by omega), if_neg h4]
      · rw [if_neg (by tauto), hcol k hk hk', if_neg h3]
        by_cases h4 : l = s.jdrop
        · rw [if_pos h4, h4, hcol k hk hk', if_neg h3, neg_zero]
        · rw [if_neg h4, sub_zero, ite_self]
    have hnpcol : ∀ i, 1 ≤ i → i ≤ p.n → (if i = s.jdrop ∧ 1 ≤ p.np ∧ p.np ≤ s.jdrop then -s.rho else set2 s.sim s.jdrop p.np (s.x s.jdrop) i p.np) = s.sim i p.np + s.sim i s.jdrop := by
      intro i hi hi'
      rw [if_neg (by simp only [Par.np]; omega)]
      simp only [set2]
      by_cases h3 : i = s.jdrop
      · rw [if_pos ⟨h3, trivial⟩, ← h3, hx i hi hi', ← h3]
      · rw [if_neg (by tauto), hcol i hi hi', if_neg h3, add_zero]
    have hsimi : ∀ k l, 1 ≤ k → k ≤ p.n → 1 ≤ l → l ≤ p.n →
        (if k = s.jdrop ∧ 1 ≤ l ∧ l ≤ s.jdrop then -∑ i ∈ Finset.Icc l s.jdrop, s.simi i l else s.simi k l) =
        if k = s.jdrop then -∑ i ∈ Finset.Icc 1 s.jdrop, s.simi i l else s.simi k l := by
      intro k l hk hk' hl hl'
      by_cases h3 : k = s.jdrop
      · rw [if_pos h3]
        by_cases h4 : l ≤ s.jdrop
        · rw [if_pos ⟨h3, hl, h4⟩]
          congr 1
          apply Finset.sum_subset
          · intro i hi
            rw [Finset.mem_Icc] at hi ⊢
            omega
          · intro i hi hni
            rw [Finset.mem_Icc] at hi hni
            exact tri.simi i l hi.1 (by omega) hl'
        · rw [if_neg (by tauto), h3, tri.simi s.jdrop l h1 (by omega) hl', Finset.sum_eq_zero, neg_zero]
          intro i hi
          rw [Finset.mem_Icc] at hi
          exact tri.simi i l hi.1 (by omega) hl'
      · rw [if_neg (by tauto), if_neg h3]
    refine ⟨inv.pole s.jdrop h1 le_rfl h2 hsim hsimi, ⟨?_, ?_⟩, ?_, ?_, ?_⟩
    · intro k l hk hk' hl hl' h
      dsimp only
      rw [hsim k l hk hk' hl hl']
      by_cases h4 : l ≤ s.jdrop
      · have hks : s.jdrop + 1 ≤ k := by omega
        rw [if_pos h4, hcol k hk hk', if_neg (show ¬ k = s.jdrop by omega), neg_zero, sub_zero]
        by_cases h5 : l = s.jdrop
        · rw [if_pos h5, if_neg (by omega)]
        · rw [if_neg h5]
          exact tri.sim k l hk hk' hl hl' (Or.inl (by omega))
      · rw [if_neg (by omega), if_neg h4]
        exact tri.sim k l hk hk' hl hl' (by omega)
    · intro k l hk hkl hl
      dsimp only
      rw [if_neg (by omega)]
      exact tri.simi k l hk hkl hl
    · intro i hi hi'
      rw [hnpcol i hi hi', hx i hi hi']
    · refine hk.congr (fun i hi hi' => (hnpcol i hi hi').symm) (fun k hk hk' => ?_)
      rw [if_pos ⟨hk, hk'⟩, if_pos rfl]
    · intro j hj hj'
      rcases Nat.lt_or_eq_of_le hj' with hlt | heq
      · refine (vert j hj hlt).congr (fun i hi hi' => ?_) (fun k hk hk' => ?_)
        · rw [hnpcol i hi hi', hsim i j hi hi' hj (by omega), if_neg (by omega), if_pos hj']
          ring
        · rw [if_pos ⟨hk, hk'⟩, if_neg (by simp only [Par.np]; omega), if_neg (by omega)]
      · refine pole.congr (fun i hi hi' => ?_) (fun k hk hk' => ?_)
        · rw [hnpcol i hi hi', hsim i j hi hi' hj (by omega), if_pos heq]
          ring
        · rw [if_pos ⟨hk, hk'⟩, if_neg (by simp only [Par.np]; omega), if_pos heq]

end
end Opk.Cobyla
