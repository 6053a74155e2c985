import Verif.Cobyla.Region
import Verif.Cobyla.Last
/-!
# COBYLA: a constant added to the objective function

Two executions of the code, the second one with a constant `c` added to all the values of the
objective function.  They are the same but for the values of the objective function, as long as the
steps of `trstlp` are the same; they are with at most one constraint (`trstlp_const`).
-/
set_option linter.unusedSectionVars false
set_option linter.unusedSimpArgs false
namespace Opk.Cobyla
open Linalg CMath

theorem up_rel {α β : Type} {f : Nat → α → α} {g : Nat → β → β} (R : α → β → Prop) (n : Nat) {s : α} {t : β} (h0 : R s t)
    (hs : ∀ k, 1 ≤ k → k ≤ n → ∀ s t, R s t → R (f k s) (g k t)) : R (up n f s) (up n g t) :=
  loop_rel R n h0 fun k hk s t h => hs (k + 1) (by omega) (by omega) s t h

section
variable {K : Type} [Field K] [LinearOrder K] [IsStrictOrderedRing K] [CMath K] [ExactMath K]
variable {p : Par K} {c : K} {P : Nat → Prop}

/-- The arrays `DATMAT`: the rows but that of the objective function are the same, and that of the
objective function differs by the constant in the columns of `P`. -/
def Dm (p : Par K) (c : K) (P : Nat → Prop) (d d' : Nat → Nat → K) : Prop :=
  (∀ k j, k ≠ p.mp → d' k j = d k j) ∧ ∀ j, P j → d' p.mp j = d p.mp j + c

/-- The states of the two executions. -/
def Sh (p : Par K) (c : K) (P : Nat → Prop) (s s' : St K) : Prop :=
  ∃ con' d', s' = { s with f := s.f + c, con := con', datmat := d' } ∧ (∀ k, k ≠ p.mp → con' k = s.con k) ∧ Dm p c P s.datmat d'

/-- The columns of the simplex. -/
def All (p : Par K) (j : Nat) : Prop := 1 ≤ j ∧ j ≤ p.np

/-- The same jump in the two executions. -/
def Js (p : Par K) (c : K) (P : Nat → Prop) (js js' : Jump × St K) : Prop := js'.1 = js.1 ∧ Sh p c P js.2 js'.2

theorem cmin_add (a b c : K) : cmin (a + c) (b + c) = cmin a b + c := by
  unfold cmin
  by_cases h : a ≤ b
  · rw [if_pos h, if_pos (by linarith)]
  · rw [if_neg h, if_neg (by intro h'; exact h (by linarith))]

theorem cmax_add (a b c : K) : cmax (a + c) (b + c) = cmax a b + c := by
  unfold cmax
  by_cases h : a ≥ b
  · rw [if_pos h, if_pos (by linarith)]
  · rw [if_neg h, if_neg (by intro h'; exact h (by linarith))]

theorem range_other {s : St K} {con' : Nat → K} {d' : Nat → Nat → K} {f' : K} (hd : Dm p c (All p) s.datmat d') (k : Nat) (hk : k ≠ p.mp) :
    range p { s with f := f', con := con', datmat := d' } k = range p s k := by
  unfold range
  dsimp only
  simp only [hd.1 k _ hk]

theorem range_mp {s : St K} {con' : Nat → K} {d' : Nat → Nat → K} {f' : K} (hd : Dm p c (All p) s.datmat d') :
    range p { s with f := f', con := con', datmat := d' } p.mp = ((range p s p.mp).1 + c, (range p s p.mp).2 + c) := by
  unfold range
  refine up_rel (fun a b : K × K => b = (a.1 + c, a.2 + c)) p.n ?_ ?_
  · dsimp only
    rw [hd.2 p.np ⟨by simp only [Par.np]; omega, le_rfl⟩]
  · rintro k h1 h2 a _ rfl
    dsimp only
    rw [hd.2 k ⟨h1, by simp only [Par.np]; omega⟩, cmin_add, cmax_add]

theorem resetMu_sh {s : St K} {con' : Nat → K} {d' : Nat → Nat → K} {f' : K} (hd : Dm p c (All p) s.datmat d') :
    resetMu p { s with f := f', con := con', datmat := d' } = resetMu p s := by
  unfold resetMu
  dsimp only
  by_cases h : s.parmu > 0
  · rw [if_pos h, if_pos h, range_mp hd]
    have e : (range p s p.mp).2 + c - ((range p s p.mp).1 + c) = (range p s p.mp).2 - (range p s p.mp).1 := by ring
    dsimp only
    rw [e]
    have e2 : up p.mp (fun k denom =>
        if k ≤ p.m ∧ (range p { s with f := f', con := con', datmat := d' } k).1 < lit 1 2 * (range p { s with f := f', con := con', datmat := d' } k).2 then
          if denom ≤ 0 then cmax (range p { s with f := f', con := con', datmat := d' } k).2 0 - (range p { s with f := f', con := con', datmat := d' } k).1
          else cmin denom (cmax (range p { s with f := f', con := con', datmat := d' } k).2 0 - (range p { s with f := f', con := con', datmat := d' } k).1)
        else denom) (0 : K) = up p.mp (fun k denom =>
        if k ≤ p.m ∧ (range p s k).1 < lit 1 2 * (range p s k).2 then
          if denom ≤ 0 then cmax (range p s k).2 0 - (range p s k).1
          else cmin denom (cmax (range p s k).2 0 - (range p s k).1)
        else denom) (0 : K) := by
      refine up_congr fun k h1 h2 den => ?_
      by_cases hk : k = p.mp
      · rw [if_neg (by rintro ⟨h3, -⟩; simp only [Par.mp] at hk; omega), if_neg (by rintro ⟨h3, -⟩; simp only [Par.mp] at hk; omega)]
      · rw [range_other hd k hk]
    rw [e2]
  · rw [if_neg h, if_neg h]

theorem reduce_sh {s s' : St K} (h : Sh p c (All p) s s') : Js p c (All p) (reduce p s) (reduce p s') := by
  obtain ⟨con', d', rfl, h1, h2⟩ := h
  unfold reduce
  rw [resetMu_sh h2]
  dsimp only
  by_cases q1 : s.iflag = 0
  · rw [if_pos q1, if_pos q1]
    exact ⟨rfl, con', d', rfl, h1, h2⟩
  · rw [if_neg q1, if_neg q1]
    by_cases q2 : s.rho > p.rhoend
    · rw [if_pos q2, if_pos q2]
      exact ⟨rfl, con', d', rfl, h1, h2⟩
    · rw [if_neg q2, if_neg q2]
      exact ⟨rfl, con', d', rfl, h1, h2⟩

theorem findBest_sh {s : St K} {con' : Nat → K} {d' : Nat → Nat → K} {f' : K} (hd : Dm p c (All p) s.datmat d') :
    findBest p { s with f := f', con := con', datmat := d' } = ((findBest p s).1 + c, (findBest p s).2) := by
  unfold findBest
  have hmpp : p.mpp ≠ p.mp := by simp only [Par.mp, Par.mpp]; omega
  refine up_rel (fun a b : K × Nat => b = (a.1 + c, a.2)) p.n ?_ ?_
  · dsimp only
    rw [hd.2 p.np ⟨by simp only [Par.np]; omega, le_rfl⟩, hd.1 _ _ hmpp]
    exact Prod.ext (by dsimp only; ring) rfl
  · rintro k h1 h2 a _ rfl
    dsimp only
    have hq : ∀ j, d' p.mpp j = s.datmat p.mpp j := fun j => hd.1 _ j hmpp
    simp only [hd.2 k ⟨h1, by simp only [Par.np]; omega⟩, hq]
    have e : s.datmat p.mp k + c + s.parmu * s.datmat p.mpp k = s.datmat p.mp k + s.parmu * s.datmat p.mpp k + c := by ring
    rw [e]
    generalize s.datmat p.mp k + s.parmu * s.datmat p.mpp k = v
    by_cases q1 : v < a.1
    · rw [if_pos q1, if_pos (by linarith)]
    · rw [if_neg q1, if_neg (by intro h; exact q1 (by linarith))]
      by_cases q2 : v = a.1 ∧ s.parmu = 0
      · rw [if_pos q2, if_pos ⟨by rw [q2.1], q2.2⟩]
        by_cases q3 : s.datmat p.mpp k < s.datmat p.mpp a.2
        · rw [if_pos q3, if_pos q3]
        · rw [if_neg q3, if_neg q3]
      · rw [if_neg q2, if_neg (by rintro ⟨h, h'⟩; exact q2 ⟨by linarith, h'⟩)]

theorem pole_sh {s s' : St K} (h : Sh p c (All p) s s') : Sh p c (All p) (pole p s) (pole p s') := by
  obtain ⟨con', d', rfl, h1, h2⟩ := h
  unfold pole
  rw [findBest_sh h2]
  dsimp only
  have hi := findBest_index p s
  generalize (findBest p s).2 = b at hi
  by_cases q : b ≤ p.n
  · rw [if_pos q, if_pos q]
    refine ⟨con', _, rfl, h1, ?_⟩
    dsimp only
    refine up_rel (Dm p c (All p)) p.mpp h2 ?_
    rintro k - - d d' ⟨g1, g2⟩
    have hb : All p b := hi
    have hn : All p p.np := ⟨by simp only [Par.np]; omega, le_rfl⟩
    refine ⟨fun k' j hk' => ?_, fun j hj => ?_⟩
    · simp only [set2]
      by_cases e : k' = k
      · subst e
        simp only [g1 k' _ hk', true_and, and_true]
      · simp only [e, false_and, if_false, g1 k' _ hk']
    · simp only [set2]
      by_cases e : p.mp = k
      · subst e
        simp only [true_and, and_true, if_true, g2 _ hb, g2 _ hn]
        by_cases e1 : j = b
        · rw [if_pos e1, if_pos e1]
        · rw [if_neg e1, if_neg e1]
          by_cases e2 : j = p.np
          · rw [if_pos e2, if_pos e2]
          · rw [if_neg e2, if_neg e2]
            exact g2 j hj
      · simp only [e, false_and, if_false]
        exact g2 j hj
  · rw [if_neg q, if_neg q]
    exact ⟨con', d', rfl, h1, h2⟩

theorem linear_sh {s : St K} {con' : Nat → K} {d' : Nat → Nat → K} {f' : K} (h1 : ∀ k, k ≠ p.mp → con' k = s.con k)
    (hd : Dm p c (All p) s.datmat d') :
    (∀ k, k ≠ p.mp → (linear p { s with f := f', con := con', datmat := d' }).1 k = (linear p s).1 k) ∧
    (linear p { s with f := f', con := con', datmat := d' }).2 = (linear p s).2 := by
  unfold linear
  refine up_rel (fun a b : (Nat → K) × (Nat → Nat → K) => (∀ k, k ≠ p.mp → b.1 k = a.1 k) ∧ b.2 = a.2) p.mp ⟨h1, rfl⟩ ?_
  rintro k - - a b ⟨g1, g2⟩
  have hn : All p p.np := ⟨by simp only [Par.np]; omega, le_rfl⟩
  have hw : ∀ j, 1 ≤ j → j ≤ p.n → d' k j + -d' k p.np = s.datmat k j + -s.datmat k p.np := by
    intro j hj hj'
    by_cases e : k = p.mp
    · subst e
      rw [hd.2 j ⟨hj, by simp only [Par.np]; omega⟩, hd.2 _ hn]
      ring
    · rw [hd.1 k _ e, hd.1 k _ e]
  refine ⟨fun k' hk' => ?_, ?_⟩
  · simp only [set1]
    by_cases e : k' = k
    · subst e
      rw [if_pos rfl, if_pos rfl, hd.1 k' _ hk']
    · rw [if_neg e, if_neg e]
      exact g1 k' hk'
  · dsimp only
    rw [g2]
    refine up_congr fun i _ _ v => ?_
    have : up p.n (fun j t => t + (d' k j + set1 b.1 k (-d' k p.np) k) * s.simi j i) 0 =
        up p.n (fun j t => t + (s.datmat k j + set1 a.1 k (-s.datmat k p.np) k) * s.simi j i) 0 := by
      refine up_congr fun j hj hj' t => ?_
      simp only [set1, if_true]
      rw [hw j hj hj']
    rw [this]

theorem stepSign_sh {s : St K} {con' : Nat → K} {d' : Nat → Nat → K} {f' : K} (hd : Dm p c (All p) s.datmat d') (dx : Nat → K) :
    stepSign p dx { s with f := f', con := con', datmat := d' } = stepSign p dx s := by
  unfold stepSign
  dsimp only
  have : up p.mp (fun k (st : K × K × K) =>
      if k < p.mp then (cmax st.1 (-up p.n (fun i t => t + s.a i k * dx i) 0 - d' k p.np), cmax st.2.1 (up p.n (fun i t => t + s.a i k * dx i) 0 - d' k p.np), up p.n (fun i t => t + s.a i k * dx i) 0)
      else (st.1, st.2.1, up p.n (fun i t => t + s.a i k * dx i) 0)) (0, 0, 0) = up p.mp (fun k (st : K × K × K) =>
      if k < p.mp then (cmax st.1 (-up p.n (fun i t => t + s.a i k * dx i) 0 - s.datmat k p.np), cmax st.2.1 (up p.n (fun i t => t + s.a i k * dx i) 0 - s.datmat k p.np), up p.n (fun i t => t + s.a i k * dx i) 0)
      else (st.1, st.2.1, up p.n (fun i t => t + s.a i k * dx i) 0)) (0, 0, 0) := by
    refine up_congr fun k _ _ st => ?_
    by_cases e : k < p.mp
    · rw [if_pos e, if_pos e, hd.1 k _ e.ne]
    · rw [if_neg e, if_neg e]
  rw [this]

theorem newVertex_sh {s s' : St K} (h : Sh p c (All p) s s') : Js p c (All p) (newVertex p s) (newVertex p s') := by
  obtain ⟨con', d', rfl, h1, h2⟩ := h
  unfold newVertex
  have e : dropVertex p { s with f := s.f + c, con := con', datmat := d' } = dropVertex p s := rfl
  rw [e]
  simp only [stepSign_sh h2]
  by_cases q : dropVertex p s = 0
  · rw [if_pos q, if_pos q]
    exact ⟨rfl, con', d', rfl, h1, h2⟩
  · rw [if_neg q, if_neg q]
    exact ⟨rfl, con', d', rfl, h1, h2⟩

theorem poleBeaten_sh {s : St K} {con' : Nat → K} {d' : Nat → Nat → K} {f' : K} (hd : Dm p c (All p) s.datmat d') :
    poleBeaten p { s with f := f', con := con', datmat := d' } = poleBeaten p s := by
  unfold poleBeaten
  have hmpp : p.mpp ≠ p.mp := by simp only [Par.mp, Par.mpp]; omega
  refine up_congr fun k h1 h2 b => ?_
  dsimp only
  have hq : ∀ j, d' p.mpp j = s.datmat p.mpp j := fun j => hd.1 _ j hmpp
  have hn : d' p.mp (p.n + 1) = s.datmat p.mp (p.n + 1) + c := hd.2 p.np ⟨by simp only [Par.np]; omega, le_rfl⟩
  simp only [hn, hd.2 k ⟨h1, by simp only [Par.np]; omega⟩, hq]
  have e : ∀ j, s.datmat p.mp j + c + s.parmu * s.datmat p.mpp j = s.datmat p.mp j + s.parmu * s.datmat p.mpp j + c := fun j => by ring
  simp only [e, add_lt_add_iff_right, add_left_inj]

theorem trial_sh {s s' : St K} (h : Sh p c (All p) s s') (raised : Bool) (sum : K) :
    Js p c (All p) (trial p raised sum s) (trial p raised sum s') := by
  obtain ⟨con', d', rfl, h1, h2⟩ := h
  unfold trial
  rw [poleBeaten_sh h2]
  cases q : raised && poleBeaten p s
  · exact ⟨rfl, con', d', rfl, h1, h2⟩
  · exact ⟨rfl, con', d', rfl, h1, h2⟩

theorem trust_sh {s s' : St K} (h : Sh p c (All p) s s') : Js p c (All p) (trust p s) (trust p s') := by
  obtain ⟨con', d', rfl, h1, h2⟩ := h
  unfold trust
  dsimp only
  by_cases q : s.ifull = 0 ∧ up p.n (fun i t => t + s.dx i * s.dx i) 0 < lit 1 4 * s.rho * s.rho
  · rw [if_pos q, if_pos q]
    exact reduce_sh ⟨con', d', rfl, h1, h2⟩
  · rw [if_neg q, if_neg q]
    have e : set1 con' p.mp 0 = set1 s.con p.mp 0 := by
      funext k
      simp only [set1]
      by_cases e : k = p.mp
      · rw [if_pos e, if_pos e]
      · rw [if_neg e, if_neg e, h1 k e]
    rw [e]
    unfold increaseMu
    have hmpp : p.mpp ≠ p.mp := by simp only [Par.mp, Par.mpp]; omega
    have e1 : predict p { s with f := s.f + c, con := set1 s.con p.mp 0, datmat := d' } = predict p { s with con := set1 s.con p.mp 0 } := rfl
    have e2 : barmu p { s with f := s.f + c, con := set1 s.con p.mp 0, datmat := d' } = barmu p { s with con := set1 s.con p.mp 0 } := by
      unfold barmu
      rw [e1]
      simp only [h2.1 _ _ hmpp]
    rw [e1, e2]
    dsimp only
    rw [h2.1 _ _ hmpp]
    refine trial_sh ?_ _ _
    exact ⟨_, d', rfl, fun _ _ => rfl, h2⟩

/-- The step of the code does not depend on the values of the objective function. -/
def Blind (p : Par K) (c : K) (T : St K → (Nat → K) × Nat) : Prop := ∀ s s', 0 < s.rho → Sh p c (All p) s s' → T s' = T s

theorem pass_sh {s s' : St K} {T : St K → (Nat → K) × Nat} (hT : Blind p c T) (hr : 0 < s.rho) (h : Sh p c (All p) s s') :
    Js p c (All p) (pass p T s) (pass p T s') := by
  unfold pass
  have hp := pole_sh h
  rw [← pole_rho p s] at hr
  generalize pole p s = t at hp hr
  generalize pole p s' = t' at hp
  obtain ⟨con', d', rfl, h1, h2⟩ := hp
  unfold passPole
  dsimp only
  by_cases q : inverseError p.n t.sim t.simi > lit 1 10
  · rw [if_pos q, if_pos q]
    exact ⟨rfl, con', d', rfl, h1, h2⟩
  · rw [if_neg q, if_neg q]
    obtain ⟨l1, l2⟩ := linear_sh (f' := t.f + c) h1 h2
    have hs : Sh p c (All p) (assess p { t with con := (linear p t).1, a := (linear p t).2 })
        (assess p { t with f := t.f + c, con := (linear p { t with f := t.f + c, con := con', datmat := d' }).1, datmat := d', a := (linear p { t with f := t.f + c, con := con', datmat := d' }).2 }) := by
      rw [l2]
      exact ⟨_, d', rfl, l1, h2⟩
    have hr2 : 0 < (assess p { t with con := (linear p t).1, a := (linear p t).2 }).rho := hr
    generalize assess p { t with con := (linear p t).1, a := (linear p t).2 } = u at hs hr2
    generalize assess p _ = u' at hs
    unfold branch
    rw [hT u u' hr2 hs]
    obtain ⟨con2, d2, rfl, g1, g2⟩ := hs
    dsimp only
    by_cases q2 : u.ibrnch = 1 ∨ u.iflag = 1
    · rw [if_pos q2, if_pos q2]
      exact trust_sh ⟨con2, d2, rfl, g1, g2⟩
    · rw [if_neg q2, if_neg q2]
      exact newVertex_sh ⟨con2, d2, rfl, g1, g2⟩

/-- The step of the code, with at most one constraint. -/
theorem blind_lpT (hsqrt : ∀ a : K, 0 ≤ a → 0 ≤ CMath.sqrt a ∧ CMath.sqrt a * CMath.sqrt a = a) (hm : p.m ≤ 1) (fuel : Nat) :
    Blind p c (lpT fuel p) := by
  rintro s _ hr ⟨con', d', rfl, h1, -⟩
  unfold lpT
  have : trstlp (Lp.of p { s with f := s.f + c, con := con', datmat := d' }) fuel zeroTr = trstlp (Lp.of p s) fuel zeroTr :=
    trstlp_const (q := Lp.of p s) hsqrt hr hm (b := con')
      (fun k _ hk => h1 k (by have : k ≤ p.m := hk; simp only [Par.mp]; omega)) fuel zeroTr
  rw [this]

/-- The states of the two executions before an evaluation: also at the start. -/
def Pre (p : Par K) (c : K) (P : Nat → Prop) (s s' : St K) : Prop :=
  ∃ f' con' d', s' = { s with f := f', con := con', datmat := d' } ∧ (∀ k, k ≠ p.mp → con' k = s.con k) ∧ Dm p c P s.datmat d'

theorem Dm.mono {P Q : Nat → Prop} {d d' : Nat → Nat → K} (h : Dm p c P d d') (hq : ∀ j, Q j → P j) : Dm p c Q d d' :=
  ⟨h.1, fun j hj => h.2 j (hq j hj)⟩

theorem Sh.mono {P Q : Nat → Prop} {s s' : St K} (h : Sh p c P s s') (hq : ∀ j, Q j → P j) : Sh p c Q s s' := by
  obtain ⟨con', d', e, h1, h2⟩ := h
  exact ⟨con', d', e, h1, h2.mono hq⟩

theorem Sh.pre {P : Nat → Prop} {s s' : St K} (h : Sh p c P s s') : Pre p c P s s' := by
  obtain ⟨con', d', e, h1, h2⟩ := h
  exact ⟨_, con', d', e, h1, h2⟩

/-- The columns of `DATMAT` which are known after `nf` evaluations. -/
def Cols (p : Par K) (nf j : Nat) : Prop := 1 ≤ j ∧ j ≤ p.np ∧ (p.n < nf ∨ (1 ≤ nf ∧ (j = p.np ∨ j < nf)))

theorem store_sh {con con' : Nat → K} {d d' : Nat → Nat → K} (h1 : ∀ k, k ≠ p.mp → con' k = con k) (h2 : con' p.mp = con p.mp + c)
    (hd : Dm p c P d d') (j0 : Nat) : Dm p c (fun j => P j ∨ j = j0) (store p.mpp con j0 d) (store p.mpp con' j0 d') := by
  rw [store_eq, store_eq]
  refine ⟨fun k j hk => ?_, fun j hj => ?_⟩
  · dsimp only
    rw [h1 k hk, hd.1 k j hk]
  · dsimp only
    by_cases q : j = j0
    · rw [if_pos ⟨⟨by simp only [Par.mp]; omega, by simp only [Par.mp, Par.mpp]; omega⟩, q⟩,
        if_pos ⟨⟨by simp only [Par.mp]; omega, by simp only [Par.mp, Par.mpp]; omega⟩, q⟩, h2]
    · rw [if_neg (by tauto), if_neg (by tauto)]
      exact hd.2 j (by tauto)

theorem record_sh {s s' : St K} (h : Pre p c P s s') (f : K) (cc : Nat → K) :
    Sh p c P (record p f cc s) (record p (f + c) cc s') ∧ (record p (f + c) cc s').con p.mp = (record p f cc s).con p.mp + c := by
  obtain ⟨f', con', d', rfl, h1, h2⟩ := h
  refine ⟨⟨(record p (f + c) cc { s with f := f', con := con', datmat := d' }).con, d', rfl, ?_, h2⟩, ?_⟩
  · intro k hk
    have hu : ∀ k, k ≠ p.mp → up p.m (fun k con => set1 con k (cc k)) con' k = up p.m (fun k con => set1 con k (cc k)) s.con k := by
      refine up_rel (fun a b : Nat → K => ∀ k, k ≠ p.mp → b k = a k) p.m h1 ?_
      intro j _ _ a b hab k hk
      simp only [set1]
      by_cases e : k = j
      · rw [if_pos e, if_pos e]
      · rw [if_neg e, if_neg e, hab k hk]
    unfold record
    simp only [set1]
    rw [if_neg hk, if_neg hk, hu k hk]
  · have e1 : ∀ (f : K) (s : St K), (record p f cc s).con p.mp = f := by
      intro f s
      unfold record
      simp only [set1]
      rw [if_neg (by simp only [Par.mp, Par.mpp]; omega), if_pos trivial]
    rw [e1, e1]

theorem reduction_sh {s : St K} {con' : Nat → K} {d' : Nat → Nat → K} (hd : Dm p c (All p) s.datmat d') :
    reduction p { s with f := s.f + c, con := con', datmat := d' } = reduction p s := by
  unfold reduction
  have hmpp : p.mpp ≠ p.mp := by simp only [Par.mp, Par.mpp]; omega
  have hn : d' p.mp (p.n + 1) = s.datmat p.mp (p.n + 1) + c := hd.2 p.np ⟨by simp only [Par.np]; omega, le_rfl⟩
  have hq : ∀ j, d' p.mpp j = s.datmat p.mpp j := fun j => hd.1 _ j hmpp
  simp only [hn, hq, add_left_inj, Par.np]
  by_cases q : s.parmu = 0 ∧ s.f = s.datmat p.mp (p.n + 1)
  · rw [if_pos q, if_pos q]
  · rw [if_neg q, if_neg q]
    exact Prod.ext (by dsimp only; ring) rfl

theorem judge_sh {s s' : St K} (h : Sh p c (All p) s s') (hc : s'.con p.mp = s.con p.mp + c) :
    Js p c (All p) (judge p s) (judge p s') := by
  obtain ⟨con', d', rfl, h1, h2⟩ := h
  unfold judge
  rw [reduction_sh h2]
  generalize reduction p s = r
  unfold judgeStep
  have e1 : chooseDrop p r.1 { s with f := s.f + c, con := con', datmat := d', prerem := r.2 } = chooseDrop p r.1 { s with prerem := r.2 } := rfl
  have e2 : ∀ v, chooseFar p r.1 v { s with f := s.f + c, con := con', datmat := d', prerem := r.2 } = chooseFar p r.1 v { s with prerem := r.2 } := fun _ => rfl
  dsimp only
  rw [e1, e2]
  generalize chooseDrop p r.1 { s with prerem := r.2 } = dr
  generalize chooseFar p r.1 dr.2.2 { s with prerem := r.2 } = fa
  generalize (if fa.2 > 0 then fa.2 else dr.2.1) = jd
  by_cases q : jd = 0
  · rw [if_pos q, if_pos q]
    refine reduce_sh ?_
    exact ⟨con', d', rfl, h1, h2⟩
  · rw [if_neg q, if_neg q]
    have hs : Dm p c (All p) (store p.mpp s.con jd s.datmat) (store p.mpp con' jd d') :=
      (store_sh h1 hc h2 jd).mono fun j hj => Or.inl hj
    by_cases q2 : r.1 > 0 ∧ r.1 ≥ lit 1 10 * r.2
    · rw [if_pos q2, if_pos q2]
      exact ⟨rfl, con', _, rfl, h1, hs⟩
    · rw [if_neg q2, if_neg q2]
      refine reduce_sh ?_
      exact ⟨con', _, rfl, h1, hs⟩

theorem exchange_sh {s s' : St K} (h : Sh p c P s s') (hc : s'.con p.mp = s.con p.mp + c) (hn : s.jdrop ≤ p.n → P p.np) :
    Sh p c P (exchange p s) (exchange p s') := by
  obtain ⟨con', d', rfl, h1, h2⟩ := h
  unfold exchange
  dsimp only
  by_cases q1 : s.jdrop ≤ p.n
  · rw [if_pos q1, if_pos q1]
    have e : d' p.mp p.np = s.datmat p.mp p.np + c := h2.2 _ (hn q1)
    by_cases q2 : s.datmat p.mp p.np ≤ s.f
    · rw [if_pos q2, if_pos (by rw [e]; linarith)]
      exact ⟨con', d', rfl, h1, h2⟩
    · rw [if_neg q2, if_neg (by rw [e]; intro h; exact q2 (by linarith))]
      refine ⟨con', _, rfl, h1, ?_⟩
      dsimp only
      refine up_rel (Dm p c P) p.mpp h2 ?_
      rintro k - - d d' ⟨g1, g2⟩
      refine ⟨fun k' j hk' => ?_, fun j hj => ?_⟩
      · simp only [set2]
        by_cases e : k' = k
        · subst e
          simp only [g1 k' _ hk', h1 k' hk', true_and, and_true]
        · simp only [e, false_and, if_false, g1 k' _ hk']
      · simp only [set2]
        by_cases e : p.mp = k
        · subst e
          dsimp only at hc
          simp only [true_and, and_true, if_true, g2 _ (hn q1), hc]
          by_cases e1 : j = p.np
          · rw [if_pos e1, if_pos e1]
          · rw [if_neg e1, if_neg e1]
            by_cases e2 : j = s.jdrop
            · rw [if_pos e2, if_pos e2]
            · rw [if_neg e2, if_neg e2]
              exact g2 j hj
        · simp only [e, false_and, if_false]
          exact g2 j hj
  · rw [if_neg q1, if_neg q1]
    exact ⟨con', d', rfl, h1, h2⟩

theorem nextVertex_sh {s s' : St K} (h : Sh p c P s s') : Js p c P (nextVertex p s) (nextVertex p s') := by
  obtain ⟨con', d', rfl, h1, h2⟩ := h
  unfold nextVertex
  dsimp only
  by_cases q : s.nfvals ≤ p.n
  · rw [if_pos q, if_pos q]; exact ⟨rfl, con', d', rfl, h1, h2⟩
  · rw [if_neg q, if_neg q]; exact ⟨rfl, con', d', rfl, h1, h2⟩

theorem newEval_sh {h : List (Eval K)} {s s' : St K} (hp : 1 ≤ p.n) (H : Wait p h s) (hs : Pre p c (Cols p s.nfvals) s s') (f : K) (cc : Nat → K) :
    Js p c (Cols p (s.nfvals + 1)) (newEval p f cc s) (newEval p (f + c) cc s') := by
  obtain ⟨r1, r2⟩ := record_sh hs f cc
  have hb : (record p f cc s).ibrnch = s.ibrnch := rfl
  have hj : (record p f cc s).jdrop = s.jdrop := rfl
  have hf : (record p f cc s).nfvals = s.nfvals + 1 := rfl
  unfold newEval
  generalize record p f cc s = t at r1 r2 hb hj hf
  generalize record p (f + c) cc s' = t' at r1 r2
  obtain ⟨con', d', rfl, h1, h2⟩ := r1
  unfold place
  dsimp only at r2 ⊢
  by_cases q : t.ibrnch = 1
  · rw [if_pos q, if_pos q]
    have hn : p.n < s.nfvals := by
      cases H with
      | first _ b => rw [hb, b] at q; exact absurd q zero_ne_one
      | simplex _ _ b => rw [hb, b] at q; exact absurd q zero_ne_one
      | vertex h1 => exact h1
      | trial h1 => exact h1
    have hall : Js p c (All p) (judge p t) (judge p { t with f := t.f + c, con := con', datmat := d' }) :=
      judge_sh ⟨con', d', rfl, h1, h2.mono fun j hj => ⟨hj.1, hj.2, Or.inl hn⟩⟩ r2
    exact ⟨hall.1, hall.2.mono fun j hj => ⟨hj.1, hj.2.1⟩⟩
  · rw [if_neg q, if_neg q]
    have hst := store_sh h1 r2 h2 t.jdrop
    have hm : ∀ j, Cols p (s.nfvals + 1) j → Cols p s.nfvals j ∨ j = t.jdrop := by
      rintro j ⟨j1, j2, j3⟩
      rw [hj]
      simp only [Cols, Par.np] at *
      cases H with
      | first h0 _ hj => right; simp only [Par.np] at hj; omega
      | simplex h0 h0' _ hj => omega
      | vertex h0 => left; omega
      | trial h0 => left; omega
    have hst' := hst.mono hm
    have hsh : Sh p c (Cols p (s.nfvals + 1)) { t with datmat := store p.mpp t.con t.jdrop t.datmat }
        { t with f := t.f + c, con := con', datmat := store p.mpp con' t.jdrop d' } := ⟨con', _, rfl, h1, hst'⟩
    unfold complete
    dsimp only
    by_cases q2 : t.nfvals > p.np
    · rw [if_pos q2, if_pos q2]
      exact ⟨rfl, con', _, rfl, h1, hst'⟩
    · rw [if_neg q2, if_neg q2]
      refine nextVertex_sh (exchange_sh hsh r2 fun _ => ?_)
      exact ⟨by simp only [Par.np]; omega, le_rfl, Or.inr ⟨by omega, Or.inl rfl⟩⟩

/-- The iterations: the same jumps. -/
theorem passes_sh {h : List (Eval K)} {T : St K → (Nat → K) × Nat}
    (hsqrt : ∀ a : K, 0 ≤ a → 0 ≤ CMath.sqrt a ∧ CMath.sqrt a * CMath.sqrt a = a) (hT : Blind p c T) (hend : 0 < p.rhoend) (fuel nf : Nat)
    (js js' : Jump × St K) (H : After p h js) (hnf : js.2.nfvals = nf) (hs : Js p c (Cols p nf) js js') (hrho : 0 < js.2.rho) :
    Js p c (Cols p nf) (passes p T fuel js) (passes p T fuel js') := by
  induction fuel generalizing js js' with
  | zero => exact hs
  | succ fuel ih =>
    obtain ⟨j, s⟩ := js
    obtain ⟨j', s'⟩ := js'
    obtain ⟨h1, h2⟩ := hs
    dsimp only at h1 h2 hnf hrho
    subst h1
    cases j' with
    | again =>
      obtain ⟨a1, a2, a3⟩ := H
      have b1 := after_pass T hsqrt a3 a1 a2 hrho
      obtain ⟨hk, ⟨k, b2⟩, -, -⟩ := kept_pass p T s
      have hall := pass_sh hT hrho (h2.mono (Q := All p) fun j hj => ⟨hj.1, hj.2, Or.inl (by omega)⟩)
      exact ih _ _ b1 (hk.trans hnf) ⟨hall.1, hall.2.mono fun j hj => ⟨hj.1, hj.2.1⟩⟩ (reduced_pos hend hrho b2)
    | call => exact ⟨rfl, h2⟩
    | best e => exact ⟨rfl, h2⟩
    | done => exact ⟨rfl, h2⟩
    | wrong => exact ⟨rfl, h2⟩

theorem takePole_sh {s s' : St K} (h : Sh p c P s s') (hn : P p.np) : Sh p c P (takePole p s) (takePole p s') := by
  obtain ⟨con', d', rfl, h1, h2⟩ := h
  unfold takePole
  dsimp only
  rw [h2.2 _ hn, h2.1 p.mpp _ (by simp only [Par.mp, Par.mpp]; omega)]
  exact ⟨con', d', rfl, h1, h2⟩

/-- From an evaluation to the next one, or to the end: the same status and the same state, but for
the values of the objective function. -/
theorem resume_sh {h : List (Eval K)} {s s' : St K} {T : St K → (Nat → K) × Nat}
    (hsqrt : ∀ a : K, 0 ≤ a → 0 ≤ CMath.sqrt a ∧ CMath.sqrt a * CMath.sqrt a = a) (hT : Blind p c T) (hp : 1 ≤ p.n) (hend : 0 < p.rhoend)
    (hrho : 0 < s.rho) (fuel : Nat) (H : Wait p h s) (hs : Pre p c (Cols p s.nfvals) s s') (f : K) (cc : Nat → K) :
    (resume p T fuel f cc s = none ∧ resume p T fuel (f + c) cc s' = none) ∨
    ∃ e t t', resume p T fuel f cc s = some (e, t) ∧ resume p T fuel (f + c) cc s' = some (e, t') ∧
      t.nfvals = s.nfvals + 1 ∧ Sh p c (Cols p t.nfvals) t t' := by
  obtain ⟨k0, ⟨k, h2⟩, -, -⟩ := kept_newEval p f cc s
  have k3 := passes_sh hsqrt hT hend fuel (s.nfvals + 1) _ _ (after_newEval hp f cc H) k0 (newEval_sh hp H hs f cc) (reduced_pos hend hrho h2)
  have hr := fun e t he => (resume_spec p T fuel f cc s e t he).1
  have hn : Cols p (s.nfvals + 1) p.np := ⟨by simp only [Par.np]; omega, le_rfl, Or.inr ⟨by omega, Or.inl rfl⟩⟩
  unfold resume at hr ⊢
  generalize passes p T fuel (newEval p f cc s) = js at k3 hr
  generalize passes p T fuel (newEval p (f + c) cc s') = js' at k3
  obtain ⟨j, t⟩ := js
  obtain ⟨j', t'⟩ := js'
  obtain ⟨g1, g2⟩ := k3
  dsimp only at g1 g2
  subst g1
  have fin : ∀ e u u', settle p (j', t) = some (e, u) → settle p (j', t') = some (e, u') → Sh p c (Cols p (s.nfvals + 1)) u u' →
      (settle p (j', t) = none ∧ settle p (j', t') = none) ∨
      ∃ e t0 t1, settle p (j', t) = some (e, t0) ∧ settle p (j', t') = some (e, t1) ∧ t0.nfvals = s.nfvals + 1 ∧ Sh p c (Cols p t0.nfvals) t0 t1 := by
    intro e u u' e1 e2 e3
    refine Or.inr ⟨e, u, u', e1, e2, hr e u e1, ?_⟩
    rw [hr e u e1]
    exact e3
  have hnf : t'.nfvals = t.nfvals := by obtain ⟨_, _, rfl, -⟩ := g2; rfl
  have hif : t'.ifull = t.ifull := by obtain ⟨_, _, rfl, -⟩ := g2; rfl
  cases j' with
  | call =>
    by_cases q : p.maxfun ≤ t.nfvals ∧ t.nfvals > 0
    · exact fin .tooManyEvaluations _ _ (by simp only [settle]; rw [if_pos q]) (by simp only [settle]; rw [hnf, if_pos q]) (takePole_sh g2 hn)
    · exact fin .iterate _ _ (by simp only [settle]; rw [if_neg q]) (by simp only [settle]; rw [hnf, if_neg q]) g2
  | best e => exact fin e _ _ rfl rfl (takePole_sh g2 hn)
  | done =>
    by_cases q : t.ifull ≠ 1
    · exact fin .success _ _ (by simp only [settle]; rw [if_pos q]) (by simp only [settle]; rw [hif, if_pos q]) (takePole_sh g2 hn)
    · exact fin .success _ _ (by simp only [settle]; rw [if_neg q]) (by simp only [settle]; rw [hif, if_neg q]) g2
  | again => exact Or.inl ⟨rfl, rfl⟩
  | wrong => exact Or.inl ⟨rfl, rfl⟩

theorem evals_sh {h : List (Eval K)} {s s' : St K} {T : St K → (Nat → K) × Nat}
    (hsqrt : ∀ a : K, 0 ≤ a → 0 ≤ CMath.sqrt a ∧ CMath.sqrt a * CMath.sqrt a = a) (hT : Blind p c T) (hp : 1 ≤ p.n) (hend : 0 < p.rhoend)
    {g g' : Nat → (Nat → K) → K × (Nat → K)} (hg : ∀ k x, g' k x = ((g k x).1 + c, (g k x).2)) (fuel count : Nat)
    (hrho : 0 < s.rho) (H : Wait p h s) (hs : Pre p c (Cols p s.nfvals) s s') :
    (evals p T g fuel count s = none ∧ evals p T g' fuel count s' = none) ∨
    ∃ e t t', evals p T g fuel count s = some (e, t) ∧ evals p T g' fuel count s' = some (e, t') ∧ Sh p c (Cols p t.nfvals) t t' := by
  induction count generalizing h s s' with
  | zero => exact Or.inl ⟨rfl, rfl⟩
  | succ count ih =>
    unfold evals
    have e1 : s'.nfvals = s.nfvals := by obtain ⟨_, _, _, rfl, -⟩ := hs; rfl
    have e2 : s'.x = s.x := by obtain ⟨_, _, _, rfl, -⟩ := hs; rfl
    dsimp only
    rw [e1, e2, hg]
    generalize g s.nfvals s.x = r
    obtain ⟨-, hre⟩ := resume_exact T hsqrt hp hend hrho fuel r.1 r.2 H
    rcases resume_sh hsqrt hT hp hend hrho fuel H hs r.1 r.2 with ⟨h1, h2⟩ | ⟨e, t, t', h1, h2, h3, h4⟩
    · rw [h1, h2]
      exact Or.inl ⟨rfl, rfl⟩
    · obtain ⟨k1, -, k3⟩ := hre e t h1
      rw [h1, h2]
      rcases k3 with ⟨rfl, w⟩ | ⟨k3, -⟩
      · exact ih k1 w h4.pre
      · rcases k3 with rfl | rfl
        · exact Or.inr ⟨_, t, t', rfl, rfl, h4⟩
        · exact Or.inr ⟨_, t, t', rfl, rfl, h4⟩

/-- **C97** (specification): what `cobyla_optimize` returns if the constant `c` is added to the
function values. -/
def addConst (c : K) : Status ⊕ Result K → Status ⊕ Result K
  | .inl e => .inl e
  | .inr r => .inr { r with f := r.f + c }

/-- **C97** (partial): in exact arithmetic, with at most one constraint, adding a constant to the
objective function changes nothing in what `cobyla_optimize` does (whatever the user function, which
may even reply differently to the same question): the status, the variables, the number of
evaluations are the same, and the returned function value is increased by the constant.  Missing: two
constraints or more, where it does not hold (`cobyla_constant`). -/
theorem cobyla_constant_partial (hsqrt : ∀ a : K, 0 ≤ a → 0 ≤ CMath.sqrt a ∧ CMath.sqrt a * CMath.sqrt a = a) (lpFuel fuel count : Nat)
    (n m : Int) (hm : m ≤ 1) (maximize : Bool) (fc : Nat → (Nat → K) → K × (Nat → K)) (c : K) (x : Nat → K) (scl : Option (Nat → K))
    (rhobeg rhoend : K) (maxfun : Int) (w : St K) :
    optimize (lpT lpFuel ⟨n.toNat, m.toNat, rhobeg, rhoend, maxfun⟩) fuel count n m maximize (fun k x => ((fc k x).1 + c, (fc k x).2)) x scl rhobeg rhoend maxfun w =
      (optimize (lpT lpFuel ⟨n.toNat, m.toNat, rhobeg, rhoend, maxfun⟩) fuel count n m maximize fc x scl rhobeg rhoend maxfun w).map (addConst c) := by
  unfold optimize
  by_cases q1 : n < 1
  · rw [if_pos q1, if_pos q1]; rfl
  rw [if_neg q1, if_neg q1]
  by_cases q2 : m < 0
  · rw [if_pos q2, if_pos q2]; rfl
  rw [if_neg q2, if_neg q2]
  by_cases q3 : rhoend ≤ 0 ∨ rhoend > rhobeg
  · rw [if_pos q3, if_pos q3]; rfl
  rw [if_neg q3, if_neg q3]
  cases scaling n.toNat scl with
  | none => rfl
  | some scl =>
    dsimp only
    have hend : 0 < rhoend := not_le.mp fun h => q3 (Or.inl h)
    have hbeg : 0 < rhobeg := hend.trans_le (not_lt.mp fun h => q3 (Or.inr h))
    generalize hpar : (⟨n.toNat, m.toNat, rhobeg, rhoend, maxfun⟩ : Par K) = p
    have p1 : p.n = n.toNat := by rw [← hpar]
    have p2 : p.m = m.toNat := by rw [← hpar]
    have p3 : 0 < p.rhobeg := by rw [← hpar]; exact hbeg
    have p4 : 0 < p.rhoend := by rw [← hpar]; exact hend
    have hpre : ∀ c : K, Pre p c (Cols p (init p (rescale n.toNat scl x) w).nfvals) (init p (rescale n.toNat scl x) w) (init p (rescale n.toNat scl x) w) := by
      intro c
      refine ⟨_, _, _, rfl, fun _ _ => rfl, fun _ _ _ => rfl, ?_⟩
      rintro j ⟨-, -, h | ⟨h, -⟩⟩
      · exact absurd h (Nat.not_lt_zero _)
      · exact absurd h (by show ¬ 1 ≤ 0; omega)
    have key : ∀ c' : K, (∀ k x, reply p.n scl maximize (fun k x => ((fc k x).1 + c, (fc k x).2)) k x =
        ((reply p.n scl maximize fc k x).1 + c', (reply p.n scl maximize fc k x).2)) → (∀ f : K, (if maximize then -(f + c') else f + c') = (if maximize then -f else f) + c) →
        (match evals p (lpT lpFuel p) (reply p.n scl maximize (fun k x => ((fc k x).1 + c, (fc k x).2))) fuel count (init p (rescale p.n scl x) w) with
          | none => none
          | some (status, s) => some (Sum.inr (⟨status, unscale p.n scl s.x, if maximize then -s.f else s.f, s.resmax, s.nfvals⟩ : Result K)) : Option (Status ⊕ Result K)) =
        Option.map (addConst c) (match evals p (lpT lpFuel p) (reply p.n scl maximize fc) fuel count (init p (rescale p.n scl x) w) with
          | none => none
          | some (status, s) => some (Sum.inr (⟨status, unscale p.n scl s.x, if maximize then -s.f else s.f, s.resmax, s.nfvals⟩ : Result K))) := by
      intro c' h1 h2
      rw [p1] at h1 ⊢
      rcases evals_sh hsqrt (blind_lpT (c := c') hsqrt (by omega) lpFuel) (by omega) p4 h1 fuel count p3 (wait_init p p3 (rescale n.toNat scl x) w []) (hpre c') with
        ⟨h3, h4⟩ | ⟨e, t, t', h3, h4, con', d', rfl, -⟩
      · rw [h3, h4]; rfl
      · rw [h3, h4]
        show some (Sum.inr _) = some (Sum.inr _)
        dsimp only
        rw [h2]
    rw [p1] at key
    cases maximize with
    | false => exact key c (fun _ _ => rfl) (fun _ => rfl)
    | true =>
      refine key (-c) (fun k x => ?_) (fun f => ?_)
      · simp only [reply, if_true]
        exact Prod.ext (by dsimp only; ring) rfl
      · simp only [if_true]; ring

/-- The same with reverse communication. -/
def raise (c : K) (e : Eval K) : Eval K := { e with f := e.f + c }

/-- **C97** (partial): in exact arithmetic, with at most one constraint, for any sequence of calls
which leave `x` unchanged: the same calls with a constant added to the function values lead to the
same status, variables, radius and number of evaluations. -/
theorem cobyla_iterate_constant_partial (hsqrt : ∀ a : K, 0 ≤ a → 0 ≤ CMath.sqrt a ∧ CMath.sqrt a * CMath.sqrt a = a)
    {n m : Int} {rhobeg rhoend : K} {maxfun : Int} {room : Bool} {ctx0 ctx : Ctx K} {h : List (Eval K)} (lpFuel : Nat) (hm : m ≤ 1)
    (h0 : create n m rhobeg rhoend maxfun room = some ctx0) (H : Obey (fun p T => T = lpT lpFuel p) ctx0 h ctx) (c : K) :
    ∃ ctx', Obey (fun p T => T = lpT lpFuel p) ctx0 (h.map (raise c)) ctx' ∧ ctx'.status = ctx.status ∧ ctx'.st.x = ctx.st.x ∧
      getRho (some ctx') = getRho (some ctx) ∧ getNevals (some ctx') = getNevals (some ctx) ∧
      (h ≠ [] → getLastF (some ctx') = getLastF (some ctx) + c) := by
  have hcx := fun {ctx : Ctx K} {h : List (Eval K)} (H : Obey (fun p T => T = lpT lpFuel p) ctx0 h ctx) => cobyla_exact hsqrt h0 H
  obtain ⟨q1, q2, q3, q4, q5, q6⟩ := create_facts h0
  have hm0 : ctx0.par.m ≤ 1 := by
    unfold create at h0
    split_ifs at h0
    simp only [Option.some.injEq] at h0
    subst h0
    show m.toNat ≤ 1
    omega
  have key : ∃ ctx', Obey (fun p T => T = lpT lpFuel p) ctx0 (h.map (raise c)) ctx' ∧ ctx'.status = ctx.status ∧ ctx'.par = ctx.par ∧
      Pre ctx.par c (Cols ctx.par ctx.st.nfvals) ctx.st ctx'.st ∧ (h ≠ [] → ctx'.st.f = ctx.st.f + c) := by
    induction H with
    | start =>
      refine ⟨ctx0, .start, rfl, rfl, ⟨_, _, _, rfl, fun _ _ => rfl, fun _ _ _ => rfl, ?_⟩, fun h => absurd rfl h⟩
      rintro j ⟨-, -, h | ⟨h, -⟩⟩
      · rw [q6] at h; exact absurd h (Nat.not_lt_zero _)
      · rw [q6] at h; exact absurd h (by omega)
    | @iterate c1 c2 h H1 T fuel f x cc e hT hx hs hc1 hr ih =>
      obtain ⟨b1, i1, i2, i3, i4, i5⟩ := ih
      have hpar := obey_par H1
      obtain ⟨e1, -, e3, -⟩ := hcx H1
      rcases iterate_cases hr with ⟨hbad, -, -⟩ | ⟨-, h2, hbad⟩ | ⟨x', s', hx', hst', hres, h2⟩
      · exfalso
        obtain ⟨_, -, -, -, h4, -⟩ := cobyla_protocol hr
        obtain ⟨-, h5⟩ := h4 ⟨hs, by simp, hc1⟩
        rw [hbad] at h5
        simp at h5
      · exact absurd hs hbad
      · obtain rfl := Option.some.inj h2
        obtain rfl := Option.some.inj hx'
        have hnf : b1.st.nfvals = c1.st.nfvals := by obtain ⟨_, _, _, e, -⟩ := i4; rw [e]
        have hbx : b1.st.x = c1.st.x := by obtain ⟨_, _, _, e, -⟩ := i4; rw [e]
        generalize hs0 : (if c1.st.nfvals = 0 then init c1.par x c1.st else { c1.st with x := x }) = s0 at hres
        generalize ht0 : (if b1.st.nfvals = 0 then init b1.par x b1.st else { b1.st with x := x }) = t0
        have hw : Wait c1.par h s0 ∧ 0 < s0.rho ∧ Pre c1.par c (Cols c1.par s0.nfvals) s0 t0 := by
          rw [← hs0, ← ht0, hnf, i3]
          obtain ⟨f', con', d', e, g1, g2⟩ := i4
          rw [e]
          by_cases hz : c1.st.nfvals = 0
          · rw [if_pos hz, if_pos hz]
            have hb : 0 < c1.par.rhobeg := by rw [hpar, q2]; exact q4
            refine ⟨wait_init c1.par hb x c1.st h, hb, f', con', d', rfl, g1, ?_⟩
            have : (init c1.par x c1.st).nfvals = c1.st.nfvals := by rw [hz]; rfl
            rw [this]
            exact g2
          · rw [if_neg hz, if_neg hz]
            have hne : h ≠ [] := fun hh => hz (by rw [e1, hh]; rfl)
            exact ⟨(e3 hs hne).caller x (hx hz), obey_rho H1 (by rw [q1]; exact q3) (by rw [q2]; exact q4) q6 hz, f', con', d', rfl, g1, g2⟩
        obtain ⟨w1, w2, w3⟩ := hw
        have hbl : Blind c1.par c T := by
          rw [hT]
          exact blind_lpT hsqrt (by rw [hpar]; exact hm0) lpFuel
        rcases resume_sh hsqrt hbl (by rw [hpar]; exact q5) (by rw [hpar, q1]; exact q3) w2 fuel w1 w3 f (cc.getD fun _ => 0) with
          ⟨h3, -⟩ | ⟨e', t, t', h3, h4, -, h5⟩
        · rw [h3] at hres; exact absurd hres (by simp)
        · rw [h3] at hres
          simp only [Option.some.injEq, Prod.mk.injEq] at hres
          obtain ⟨rfl, rfl⟩ := hres
          have hit : iterate T fuel (some b1) (f + c) (some x) cc = some (e', some { b1 with status := e', st := t' }) := by
            unfold iterate
            dsimp only
            rw [if_neg, if_neg (by rw [i2]; exact fun h => h hst'), ht0, i3, h4]
            rintro ⟨g1, g2⟩
            rw [i3] at g2
            exact hc1 g2 (Option.isNone_iff_eq_none.mp g1)
          refine ⟨_, Obey.iterate i1 T fuel (f + c) x cc e' (by rw [i3]; exact hT) ?_ (i2.trans hst') (by rw [i3]; exact hc1) hit, rfl, i3, h5.pre, fun _ => ?_⟩
          · rw [hnf, i3, hbx]; exact hx
          · obtain ⟨_, _, rfl, -⟩ := h5; rfl
    | restart H1 e hr ih =>
      obtain ⟨b1, i1, i2, i3, i4, i5⟩ := ih
      simp only [Cobyla.restart, Prod.mk.injEq, Option.some.injEq] at hr
      obtain ⟨-, rfl⟩ := hr
      refine ⟨_, Obey.restart i1 .iterate rfl, rfl, i3, ?_, fun h => absurd rfl h⟩
      obtain ⟨f', con', d', e, g1, g2⟩ := i4
      dsimp only
      rw [e]
      refine ⟨f', con', d', rfl, g1, g2.1, ?_⟩
      rintro j ⟨-, -, h | ⟨h, -⟩⟩
      · exact absurd h (Nat.not_lt_zero _)
      · exact absurd h (by omega)
  obtain ⟨ctx', k1, k2, -, ⟨f', con', d', e, -⟩, k5⟩ := key
  exact ⟨ctx', k1, k2, by rw [e], by simp only [getRho]; rw [e], by simp only [getNevals]; rw [e], k5⟩

end
end Opk.Cobyla
