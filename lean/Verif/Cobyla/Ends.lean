import Verif.Cobyla.Region
import Mathlib.Algebra.Order.Archimedean.Basic
/-!
# COBYLA: the iterations between two evaluations end

In exact arithmetic, for any step `T`.
-/
set_option linter.unusedSectionVars false
set_option linter.unusedSimpArgs false
namespace Opk.Cobyla
open Linalg CMath

section
variable {K : Type} [Field K] [LinearOrder K] [IsStrictOrderedRing K] [CMath K] [ExactMath K]

/-- The merit function of a vertex. -/
def merit (p : Par K) (s : St K) (j : Nat) : K := s.datmat p.mp j + s.parmu * s.datmat p.mpp j

/-- The pole is the best vertex. -/
def Lead (p : Par K) (s : St K) : Prop :=
  ∀ j, 1 ≤ j → j ≤ p.np → merit p s p.np ≤ merit p s j ∧
    (s.parmu = 0 → merit p s j = merit p s p.np → s.datmat p.mpp p.np ≤ s.datmat p.mpp j)

theorem findBest_spec (p : Par K) (s : St K) :
    (findBest p s).1 = merit p s (findBest p s).2 ∧
    ∀ j, 1 ≤ j → j ≤ p.np → merit p s (findBest p s).2 ≤ merit p s j ∧
      (s.parmu = 0 → merit p s j = merit p s (findBest p s).2 → s.datmat p.mpp (findBest p s).2 ≤ s.datmat p.mpp j) := by
  have key : (findBest p s).1 = merit p s (findBest p s).2 ∧
    ∀ j, (1 ≤ j ∧ j ≤ p.n ∨ j = p.np) → merit p s (findBest p s).2 ≤ merit p s j ∧
      (s.parmu = 0 → merit p s j = merit p s (findBest p s).2 → s.datmat p.mpp (findBest p s).2 ≤ s.datmat p.mpp j) := by
    unfold findBest
    refine up_inv (fun q (st : K × Nat) => st.1 = merit p s st.2 ∧
      ∀ j, (1 ≤ j ∧ j ≤ q ∨ j = p.np) → merit p s st.2 ≤ merit p s j ∧
        (s.parmu = 0 → merit p s j = merit p s st.2 → s.datmat p.mpp st.2 ≤ s.datmat p.mpp j)) p.n ⟨rfl, ?_⟩ ?_
    · rintro j (⟨h1, h2⟩ | rfl)
      · omega
      · exact ⟨le_rfl, fun _ _ => le_rfl⟩
    · rintro k hk ⟨v, b⟩ ⟨i1, i2⟩
      dsimp only at i1 i2 ⊢
      subst i1
      rw [show s.datmat p.mp (k + 1) + s.parmu * s.datmat p.mpp (k + 1) = merit p s (k + 1) from rfl]
      have hsplit : ∀ j, (1 ≤ j ∧ j ≤ k + 1 ∨ j = p.np) → j = k + 1 ∨ (1 ≤ j ∧ j ≤ k ∨ j = p.np) := by intro j hj; omega
      by_cases h1 : merit p s (k + 1) < merit p s b
      · rw [if_pos h1]
        refine ⟨rfl, fun j hj => ?_⟩
        rcases hsplit j hj with rfl | hj
        · exact ⟨le_rfl, fun _ _ => le_rfl⟩
        · have := (i2 j hj).1
          exact ⟨h1.le.trans this, fun _ e => absurd (e ▸ h1.trans_le this) (lt_irrefl _)⟩
      · rw [if_neg h1]
        by_cases h2 : merit p s (k + 1) = merit p s b ∧ s.parmu = 0
        · rw [if_pos h2]
          by_cases h3 : s.datmat p.mpp (k + 1) < s.datmat p.mpp b
          · rw [if_pos h3]
            refine ⟨h2.1.symm, fun j hj => ?_⟩
            rcases hsplit j hj with rfl | hj
            · exact ⟨le_rfl, fun _ _ => le_rfl⟩
            · obtain ⟨a1, a2⟩ := i2 j hj
              dsimp only
              rw [h2.1]
              exact ⟨a1, fun e1 e2 => h3.le.trans (a2 e1 e2)⟩
          · rw [if_neg h3]
            refine ⟨rfl, fun j hj => ?_⟩
            rcases hsplit j hj with rfl | hj
            · exact ⟨h2.1.ge, fun _ _ => not_lt.mp h3⟩
            · exact i2 j hj
        · rw [if_neg h2]
          refine ⟨rfl, fun j hj => ?_⟩
          rcases hsplit j hj with rfl | hj
          · exact ⟨not_lt.mp h1, fun e1 e2 => absurd ⟨e2, e1⟩ h2⟩
          · exact i2 j hj
  refine ⟨key.1, fun j h1 h2 => key.2 j ?_⟩
  simp only [Par.np] at *
  omega

/-- The vertices after the choice of the pole. -/
theorem pole_spec (p : Par K) (s : St K) :
    (Cobyla.pole p s).parmu = s.parmu ∧
    ∃ b, 1 ≤ b ∧ b ≤ p.np ∧ (∀ j, 1 ≤ j → j ≤ p.np → merit p s b ≤ merit p s j ∧
      (s.parmu = 0 → merit p s j = merit p s b → s.datmat p.mpp b ≤ s.datmat p.mpp j)) ∧
      ∀ k, 1 ≤ k → k ≤ p.mpp → ∀ j, (Cobyla.pole p s).datmat k j = s.datmat k (if j = b then p.np else if j = p.np then b else j) := by
  obtain ⟨-, hmin⟩ := findBest_spec p s
  obtain ⟨hb1, hb2⟩ := findBest_index p s
  unfold Cobyla.pole
  generalize (findBest p s).2 = b at hmin hb1 hb2
  dsimp only
  by_cases hb : b ≤ p.n
  · rw [if_pos hb]
    refine ⟨rfl, b, hb1, hb2, hmin, fun k h1 h2 j => ?_⟩
    have hne : p.np ≠ b := by simp only [Par.np]; omega
    dsimp only
    rw [swap_datmat p.mpp p.np b hne]
    dsimp only
    rw [if_pos ⟨h1, h2⟩]
    split_ifs <;> rfl
  · rw [if_neg hb]
    have : b = p.np := by simp only [Par.np] at *; omega
    subst this
    refine ⟨rfl, p.np, hb1, hb2, hmin, fun k h1 h2 j => ?_⟩
    split_ifs with h3
    · rw [h3]
    · rfl

theorem pole_lead (p : Par K) (s : St K) : Lead p (Cobyla.pole p s) := by
  obtain ⟨h1, b, hb1, hb2, h2, h3⟩ := pole_spec p s
  have hmp : 1 ≤ p.mp ∧ p.mp ≤ p.mpp := by simp only [Par.mp, Par.mpp]; omega
  have hmpp : 1 ≤ p.mpp ∧ p.mpp ≤ p.mpp := by simp only [Par.mpp]; omega
  have hm : ∀ j, merit p (Cobyla.pole p s) j = merit p s (if j = b then p.np else if j = p.np then b else j) := by
    intro j
    unfold merit
    rw [h1, h3 _ hmp.1 hmp.2, h3 _ hmpp.1 hmpp.2]
  have hnp : (if p.np = b then p.np else if p.np = p.np then b else p.np) = b := by
    by_cases h : p.np = b
    · rw [if_pos h, h]
    · rw [if_neg h, if_pos rfl]
  intro j hj hj'
  rw [hm, hm, hnp, h1, h3 _ hmpp.1 hmpp.2, h3 _ hmpp.1 hmpp.2, hnp]
  apply h2
  · split_ifs <;> omega
  · split_ifs <;> omega

/-- The violations at the vertices. -/
noncomputable def values (p : Par K) (s : St K) : Finset K := (Finset.Icc 1 p.np).image (s.datmat p.mpp)

/-- The number of different violations less than that of the pole. -/
noncomputable def level (p : Par K) (s : St K) : Nat := ((values p s).filter (· < s.datmat p.mpp p.np)).card

theorem pole_values (p : Par K) (s : St K) : values p (Cobyla.pole p s) = values p s := by
  obtain ⟨h1, b, hb1, hb2, h2, h3⟩ := pole_spec p s
  have hmpp : 1 ≤ p.mpp ∧ p.mpp ≤ p.mpp := by simp only [Par.mpp]; omega
  have h4 := h3 _ hmpp.1 hmpp.2
  ext v
  simp only [values, Finset.mem_image, Finset.mem_Icc]
  constructor
  · rintro ⟨j, hj, rfl⟩
    refine ⟨_, ?_, (h4 j).symm⟩
    split_ifs <;> omega
  · rintro ⟨j, hj, rfl⟩
    refine ⟨if j = b then p.np else if j = p.np then b else j, ?_, ?_⟩
    · split_ifs <;> omega
    · rw [h4]
      congr 1
      split_ifs <;> omega

/-- A best pole stays. -/
theorem pole_stays {p : Par K} {s : St K} (h : Lead p s) : Cobyla.pole p s = s := by
  have hb : (findBest p s).2 = p.np := by
    unfold findBest
    have := up_inv (body := fun j (st : K × Nat) =>
        let temp := s.datmat p.mp j + s.parmu * s.datmat p.mpp j
        if temp < st.1 then (temp, j)
        else if temp = st.1 ∧ s.parmu = 0 then
          if s.datmat p.mpp j < s.datmat p.mpp st.2 then (st.1, j) else st
        else st) (s := (s.datmat p.mp p.np + s.parmu * s.datmat p.mpp p.np, p.np))
      (fun _ (st : K × Nat) => st = (merit p s p.np, p.np)) p.n rfl (by
        rintro k hk st rfl
        obtain ⟨h1, h2⟩ := h (k + 1) (by omega) (by simp only [Par.np]; omega)
        dsimp only
        rw [show s.datmat p.mp (k + 1) + s.parmu * s.datmat p.mpp (k + 1) = merit p s (k + 1) from rfl, if_neg (not_lt.mpr h1)]
        by_cases h3 : merit p s (k + 1) = merit p s p.np ∧ s.parmu = 0
        · rw [if_pos h3, if_neg (not_lt.mpr (h2 h3.2 h3.1))]
        · rw [if_neg h3])
    rw [this]
  unfold Cobyla.pole
  rw [hb]
  dsimp only
  rw [if_neg (by simp only [Par.np]; omega)]

/-- When `PARMU` has been increased and a vertex is better than the pole, the violation of the new
pole is less. -/
theorem level_lt {p : Par K} {s s' : St K} (h : Lead p s) (hd : s'.datmat = s.datmat) (hmu : s.parmu < s'.parmu)
    (hb : ∃ j, 1 ≤ j ∧ j ≤ p.np ∧ merit p s' j < merit p s' p.np) : level p (Cobyla.pole p s') < level p s := by
  obtain ⟨h1, b, hb1, hb2, h2, h3⟩ := pole_spec p s'
  have hmpp : 1 ≤ p.mpp ∧ p.mpp ≤ p.mpp := by simp only [Par.mpp]; omega
  obtain ⟨j, hj1, hj2, hj⟩ := hb
  have hlt : merit p s' b < merit p s' p.np := (h2 j hj1 hj2).1.trans_lt hj
  have hge := (h b hb1 hb2).1
  have hr : s.datmat p.mpp b < s.datmat p.mpp p.np := by
    unfold merit at hlt hge
    rw [hd] at hlt
    by_contra hh
    have := mul_le_mul_of_nonneg_left (not_lt.mp hh) (sub_nonneg.mpr hmu.le)
    rw [sub_mul, sub_mul] at this
    linarith
  have hnp : (Cobyla.pole p s').datmat p.mpp p.np = s.datmat p.mpp b := by
    rw [h3 _ hmpp.1 hmpp.2, hd]
    by_cases h : p.np = b
    · rw [if_pos h, h]
    · rw [if_neg h, if_pos rfl]
  unfold level
  rw [pole_values, hnp]
  have hv : values p s' = values p s := by unfold values; rw [hd]
  rw [hv]
  apply Finset.card_lt_card
  rw [Finset.ssubset_iff_of_subset]
  · refine ⟨s.datmat p.mpp b, ?_, ?_⟩
    · simp only [Finset.mem_filter, values, Finset.mem_image, Finset.mem_Icc]
      exact ⟨⟨b, ⟨hb1, hb2⟩, rfl⟩, hr⟩
    · simp only [Finset.mem_filter, not_and, not_lt]
      exact fun _ => le_rfl
  · intro v
    simp only [Finset.mem_filter]
    exact fun hv => ⟨hv.1, hv.2.trans hr⟩

theorem range_le (p : Par K) (s : St K) (k : Nat) : (range p s k).1 ≤ (range p s k).2 := by
  unfold range
  refine up_inv (fun _ (c : K × K) => c.1 ≤ c.2) p.n le_rfl ?_
  intro q _ c hc
  dsimp only
  unfold cmin cmax
  split_ifs <;> order

theorem resetMu_nonneg (p : Par K) (s : St K) (h : 0 ≤ s.parmu) : 0 ≤ resetMu p s := by
  unfold resetMu
  by_cases h1 : s.parmu > 0
  · rw [if_pos h1]
    dsimp only
    generalize hden : up p.mp _ (0 : K) = denom
    have hd : 0 ≤ denom := by
      rw [← hden]
      refine up_inv (fun _ (c : K) => 0 ≤ c) p.mp le_rfl ?_
      intro q _ c hc
      have hle := range_le p s (q + 1)
      generalize range p s (q + 1) = lh at hle
      obtain ⟨lo, hi⟩ := lh
      dsimp only at hle ⊢
      by_cases h2 : q + 1 ≤ p.m ∧ lo < lit 1 2 * hi
      · rw [if_pos h2]
        have ht : 0 ≤ cmax hi 0 - lo := by
          have h3 : hi ≤ cmax hi 0 := by unfold cmax; split_ifs <;> order
          linarith
        split_ifs
        · exact ht
        · unfold cmin; split_ifs
          · exact hc
          · exact ht
      · rw [if_neg h2]; exact hc
    have hle := range_le p s p.mp
    generalize range p s p.mp = lh at hle
    obtain ⟨lo, hi⟩ := lh
    dsimp only at hle ⊢
    split_ifs
    · exact le_rfl
    · exact div_nonneg (by linarith) hd
    · exact h
  · rw [if_neg h1]; exact h

/-- What makes the iterations end. -/
def Less (p : Par K) (s : St K) : Jump × St K → Prop
  | (.again, s') => 0 ≤ s'.parmu ∧
      (s'.rho = s.rho ∧ s'.datmat = s.datmat ∧ s'.parmu = s.parmu ∧ s'.ibrnch = 0 ∧ s.ibrnch = 1 ∨
       s'.rho = s.rho ∧ s'.datmat = s.datmat ∧ s.parmu < s'.parmu ∧ s'.ibrnch = s.ibrnch ∧ (∃ j, 1 ≤ j ∧ j ≤ p.np ∧ merit p s' j < merit p s' p.np) ∨
       s'.rho = nextRho p.rhoend s.rho ∧ p.rhoend < s.rho ∧ s'.ibrnch ≤ 1)
  | (_, s') => 0 ≤ s'.parmu

theorem less_pass {p : Par K} {s : St K} (T : St K → (Nat → K) × Nat)
    (hmu : 0 ≤ s.parmu) : Less p s (passPole p T s) := by
  unfold passPole
  split_ifs
  · exact hmu
  unfold branch
  generalize hs2 : assess p { s with con := (linear p s).1, a := (linear p s).2 } = s2
  have e1 : s2.rho = s.rho := by rw [← hs2]; rfl
  have e2 : s2.datmat = s.datmat := by rw [← hs2]; rfl
  have e3 : s2.parmu = s.parmu := by rw [← hs2]; rfl
  have e4 : s2.ibrnch = s.ibrnch := by rw [← hs2]; rfl
  clear hs2
  by_cases hc : s2.ibrnch = 1 ∨ s2.iflag = 1
  · rw [if_pos hc]
    generalize T s2 = d
    unfold trust
    dsimp only
    split_ifs
    · unfold reduce
      dsimp only
      by_cases h1 : s2.iflag = 0
      · rw [if_pos h1]
        exact ⟨by show 0 ≤ s2.parmu; rw [e3]; exact hmu, Or.inl ⟨e1, e2, e3, rfl, by omega⟩⟩
      · rw [if_neg h1]
        by_cases h2 : s2.rho > p.rhoend
        · rw [if_pos h2]
          refine ⟨resetMu_nonneg _ _ (by show 0 ≤ s2.parmu; rw [e3]; exact hmu), Or.inr (Or.inr ⟨?_, by rw [← e1]; exact h2, le_rfl⟩)⟩
          rw [← e1]
          rfl
        · rw [if_neg h2]
          show 0 ≤ s2.parmu
          rw [e3]; exact hmu
    · unfold increaseMu
      generalize hs3 : ({ s2 with dx := d.1, ifull := d.2, con := set1 s2.con p.mp 0 } : St K) = s3
      have f1 : s3.rho = s.rho := by rw [← hs3]; exact e1
      have f2 : s3.datmat = s.datmat := by rw [← hs3]; exact e2
      have f3 : s3.parmu = s.parmu := by rw [← hs3]; exact e3
      have f4 : s3.ibrnch = s.ibrnch := by rw [← hs3]; exact e4
      clear hs3
      by_cases h1 : s3.parmu < lit 3 2 * barmu p s3
      · have hlt : s3.parmu < lit 2 1 * barmu p s3 := by
          rw [ExactMath.lit_eq] at h1 ⊢
          push_cast at h1 ⊢
          rw [← f3] at hmu
          linarith
        rw [if_pos h1, decide_eq_true h1]
        unfold trial
        dsimp only
        rw [Bool.true_and]
        have hnn : 0 ≤ lit 2 1 * barmu p s3 := by rw [← f3] at hmu; exact hmu.trans hlt.le
        split_ifs with h2
        · refine ⟨hnn, Or.inr (Or.inl ⟨f1, f2, by rw [← f3]; exact hlt, f4, ?_⟩)⟩
          by_contra hno
          push Not at hno
          have : poleBeaten p { s3 with prerec := s3.datmat p.mpp p.np - (predict p s3).1, parmu := lit 2 1 * barmu p s3 } = false := by
            unfold poleBeaten
            dsimp only
            refine up_inv (fun _ (b : Bool) => b = false) p.n rfl ?_
            rintro k hk b rfl
            have h3 := hno (k + 1) (by omega) (by simp only [Par.np]; omega)
            unfold merit at h3
            dsimp only at h3
            have h4 : lit 2 1 * barmu p s3 ≠ 0 := by
              rw [← f3] at hmu
              exact (hmu.trans_lt hlt).ne'
            simp [not_lt.mpr h3, h4]
          rw [this] at h2
          exact absurd h2 (by simp)
        · exact hnn
      · rw [if_neg h1, decide_eq_false h1]
        unfold trial
        dsimp only
        rw [Bool.false_and, if_neg (by simp)]
        show 0 ≤ s3.parmu
        rw [f3]; exact hmu
  · rw [if_neg hc]
    unfold newVertex
    dsimp only
    split_ifs
    · show 0 ≤ s2.parmu
      rw [e3]; exact hmu
    · show 0 ≤ s2.parmu
      rw [e3]; exact hmu

theorem passes_again (p : Par K) (T : St K → (Nat → K) × Nat) (fuel : Nat) (js : Jump × St K) (h : js.1 ≠ .again) :
    passes p T fuel js = js := by
  obtain ⟨j, s⟩ := js
  cases fuel with
  | zero => rfl
  | succ fuel => cases j <;> first | rfl | exact absurd rfl h

/-- More fuel changes nothing. -/
theorem passes_mono (p : Par K) (T : St K → (Nat → K) × Nat) (fuel fuel' : Nat) (js : Jump × St K) (hle : fuel ≤ fuel')
    (h : (passes p T fuel js).1 ≠ .again) : passes p T fuel' js = passes p T fuel js := by
  induction fuel generalizing fuel' js with
  | zero => rw [show passes p T 0 js = js from rfl] at h ⊢; exact passes_again p T fuel' js h
  | succ fuel ih =>
    obtain ⟨j, s⟩ := js
    obtain ⟨fuel', rfl⟩ : ∃ k, fuel' = k + 1 := ⟨fuel' - 1, by omega⟩
    cases j with
    | again => exact ih fuel' _ (by omega) h
    | _ => rfl

/-- The iterations end. -/
def Stops (p : Par K) (T : St K → (Nat → K) × Nat) (s : St K) : Prop :=
  ∃ fuel, (passes p T fuel (.again, s)).1 ≠ .again ∧ 0 ≤ (passes p T fuel (.again, s)).2.parmu

/-- The iterations with the same radius. -/
theorem stops_same {p : Par K} (T : St K → (Nat → K) × Nat) (r : K)
    (hC : p.rhoend < r → ∀ s : St K, s.rho = nextRho p.rhoend r → 0 ≤ s.parmu → s.ibrnch ≤ 1 → Stops p T s) (c : Nat) :
    ∀ b (s : St K), s.rho = r → 0 ≤ s.parmu → level p (Cobyla.pole p s) ≤ c → s.ibrnch ≤ b → b ≤ 1 → Stops p T s := by
  induction c using Nat.strong_induction_on with
  | _ c ihc =>
    have step : ∀ b, (∀ s : St K, s.rho = r → 0 ≤ s.parmu → level p (Cobyla.pole p s) ≤ c → s.ibrnch < b → Stops p T s) →
        ∀ s : St K, s.rho = r → 0 ≤ s.parmu → level p (Cobyla.pole p s) ≤ c → s.ibrnch ≤ b → b ≤ 1 → Stops p T s := by
      intro b ihb s h1 h2 h3 h4 h5
      have hl := pole_lead p s
      have hpm := (pole_spec p s).1
      have hless : Less p (Cobyla.pole p s) (pass p T s) := less_pass T (by rw [hpm]; exact h2)
      cases hjs : pass p T s with
      | mk j s' =>
      rw [hjs] at hless
      have hone : ∀ fuel, passes p T (fuel + 1) (.again, s) = passes p T fuel (j, s') := by
        intro fuel
        show passes p T fuel (pass p T s) = _
        rw [hjs]
      have hnext : Stops p T s' → j = .again → Stops p T s := by
        rintro ⟨fuel, f1, f2⟩ rfl
        exact ⟨fuel + 1, by rw [hone]; exact f1, by rw [hone]; exact f2⟩
      by_cases hj : j = .again
      · refine hnext ?_ hj
        subst hj
        obtain ⟨g0, ⟨g1, g2, g3, g4, g5⟩ | ⟨g1, g2, g3, g4, g5⟩ | ⟨g1, g2, g3⟩⟩ := hless
        · rw [pole_rho, h1] at g1
          rw [pole_ibrnch] at g5
          refine ihb s' g1 g0 ?_ (by omega)
          have : Lead p s' := by
            intro j
            have := hl j
            unfold merit at this ⊢
            rw [g2, g3]
            exact this
          rw [pole_stays this]
          refine le_of_eq_of_le ?_ h3
          unfold level values
          rw [g2]
        · rw [pole_rho, h1] at g1
          rw [pole_ibrnch] at g4
          exact ihc _ ((level_lt hl g2 g3 g5).trans_le h3) b s' g1 g0 le_rfl (by omega) h5
        · rw [pole_rho, h1] at g1 g2
          exact hC g2 s' g1 g0 g3
      · refine ⟨1, ?_, ?_⟩
        · rw [hone]; exact hj
        · rw [hone]
          show 0 ≤ s'.parmu
          cases j with
          | again => exact absurd rfl hj
          | _ => exact hless
    have h0 := step 0 (fun s _ _ _ h => absurd h (Nat.not_lt_zero _))
    intro b s h1 h2 h3 h4 h5
    exact step 1 (fun s h1 h2 h3 h4 => h0 s h1 h2 h3 (by omega) (by omega)) s h1 h2 h3 (by omega) le_rfl

theorem stops {p : Par K} (T : St K → (Nat → K) × Nat) (hend : 0 < p.rhoend) (N : Nat) :
    ∀ s : St K, s.rho ≤ 2 ^ N * p.rhoend → 0 ≤ s.parmu → s.ibrnch ≤ 1 → Stops p T s := by
  induction N with
  | zero =>
    intro s h1 h2 h3
    refine stops_same T s.rho (fun hh => ?_) _ 1 s rfl h2 le_rfl h3 le_rfl
    rw [pow_zero, one_mul] at h1
    exact absurd hh (not_lt.mpr h1)
  | succ N ih =>
    intro s h1 h2 h3
    refine stops_same T s.rho (fun hh s' e1 e2 e3 => ih s' ?_ e2 e3) _ 1 s rfl h2 le_rfl h3 le_rfl
    rw [e1]
    unfold nextRho
    split_ifs
    · have : (1 : K) ≤ 2 ^ N := one_le_pow₀ one_le_two
      exact le_mul_of_one_le_left hend.le this
    · rw [ExactMath.lit_eq]
      push_cast
      rw [pow_succ] at h1
      linarith

theorem reduce_mu (p : Par K) (s : St K) (h : 0 ≤ s.parmu) : 0 ≤ (reduce p s).2.parmu := by
  unfold reduce
  split_ifs
  · exact h
  · exact resetMu_nonneg p s h
  · exact h

theorem newEval_mu (p : Par K) (f : K) (c : Nat → K) (s : St K) (h : 0 ≤ s.parmu) : 0 ≤ (newEval p f c s).2.parmu := by
  unfold newEval place
  have hr : 0 ≤ (record p f c s).parmu := h
  generalize record p f c s = s1 at hr
  split_ifs
  · unfold judge judgeStep
    dsimp only
    split_ifs
    all_goals first | exact reduce_mu _ _ hr | exact hr
  · unfold complete nextVertex exchange
    split_ifs
    all_goals exact hr

/-- The iterations between two evaluations end, and the result does not depend on the bound. -/
theorem resume_end [Archimedean K] (hsqrt : ∀ a : K, 0 ≤ a → 0 ≤ CMath.sqrt a ∧ CMath.sqrt a * CMath.sqrt a = a)
    {p : Par K} {h : List (Eval K)} {s : St K} (T : St K → (Nat → K) × Nat) (hp : 1 ≤ p.n) (hend : 0 < p.rhoend)
    (hrho : 0 < s.rho) (H : Wait p h s) (hmu : 0 ≤ s.parmu) (f : K) (c : Nat → K) :
    ∃ e s' fuel0, 0 ≤ s'.parmu ∧ ∀ fuel, fuel0 ≤ fuel → resume p T fuel f c s = some (e, s') := by
  have hA := after_newEval hp f c H
  have hM := newEval_mu p f c s hmu
  have key : ∃ fuel, (passes p T fuel (newEval p f c s)).1 ≠ .again ∧ 0 ≤ (passes p T fuel (newEval p f c s)).2.parmu := by
    generalize newEval p f c s = js at hA hM
    obtain ⟨j, s1⟩ := js
    by_cases hj : j = .again
    · subst hj
      obtain ⟨-, -, a3⟩ := hA
      obtain ⟨N, hN⟩ := pow_unbounded_of_one_lt (s1.rho / p.rhoend) (one_lt_two (α := K))
      rw [div_lt_iff₀ hend] at hN
      exact stops T hend N s1 hN.le hM (by omega)
    · exact ⟨0, hj, hM⟩
  obtain ⟨fuel0, k1, k2⟩ := key
  obtain ⟨n1, n2⟩ := cobyla_no_wrong hsqrt T hp hend hrho H fuel0 f c
  have hall : ∀ fuel, fuel0 ≤ fuel → passes p T fuel (newEval p f c s) = passes p T fuel0 (newEval p f c s) :=
    fun fuel hle => passes_mono p T fuel0 fuel _ hle k1
  generalize passes p T fuel0 (newEval p f c s) = js at k1 k2 n1 n2 hall
  have hsome : ∃ e s', settle p js = some (e, s') ∧ 0 ≤ s'.parmu := by
    obtain ⟨j, s1⟩ := js
    cases j with
    | call =>
      simp only [settle]
      split_ifs
      · exact ⟨_, _, rfl, k2⟩
      · exact ⟨_, _, rfl, k2⟩
    | best e => exact absurd rfl (n2 e)
    | done =>
      refine ⟨_, _, rfl, ?_⟩
      split_ifs
      · exact k2
      · exact k2
    | again => exact absurd rfl k1
    | wrong => exact absurd rfl n1
  obtain ⟨e, s', h1, h2⟩ := hsome
  refine ⟨e, s', fuel0, h2, fun fuel hle => ?_⟩
  unfold resume
  rw [hall fuel hle, h1]

/-- The direct routine ends. -/
theorem evals_end [Archimedean K] (hsqrt : ∀ a : K, 0 ≤ a → 0 ≤ CMath.sqrt a ∧ CMath.sqrt a * CMath.sqrt a = a)
    {p : Par K} (T : St K → (Nat → K) × Nat) (hp : 1 ≤ p.n) (hend : 0 < p.rhoend) (calcfc : Nat → (Nat → K) → K × (Nat → K))
    (k : Nat) : ∀ (h : List (Eval K)) (s : St K), 0 < s.rho → Wait p h s → 0 ≤ s.parmu → p.maxfun ≤ s.nfvals + (k : Int) →
      ∃ r fuel0, ∀ fuel count, fuel0 ≤ fuel → k < count → evals p T calcfc fuel count s = some r := by
  induction k with
  | zero =>
    intro h s h1 h2 h3 h4
    obtain ⟨e, s', fuel0, -, hr⟩ := resume_end hsqrt T hp hend h1 h2 h3 (calcfc s.nfvals s.x).1 (calcfc s.nfvals s.x).2
    refine ⟨(e, s'), fuel0, fun fuel count hf hc => ?_⟩
    obtain ⟨count, rfl⟩ : ∃ q, count = q + 1 := ⟨count - 1, by omega⟩
    unfold evals
    dsimp only
    rw [hr fuel hf]
    obtain ⟨r1, -, r3⟩ := resume_spec p T fuel _ _ s e s' (hr fuel hf)
    cases e with
    | iterate =>
      exfalso
      rcases r3 with r3 | r3 | r3 | r3
      · omega
      all_goals simp at r3
    | _ => rfl
  | succ k ih =>
    intro h s h1 h2 h3 h4
    obtain ⟨e, s', fuel0, hm, hr⟩ := resume_end hsqrt T hp hend h1 h2 h3 (calcfc s.nfvals s.x).1 (calcfc s.nfvals s.x).2
    obtain ⟨-, hre⟩ := resume_exact T hsqrt hp hend h1 fuel0 (calcfc s.nfvals s.x).1 (calcfc s.nfvals s.x).2 h2
    obtain ⟨q1, q2, q3⟩ := hre e s' (hr fuel0 le_rfl)
    by_cases he : e = .iterate
    · subst he
      have hw : Wait p (⟨s.x, (calcfc s.nfvals s.x).1, (calcfc s.nfvals s.x).2⟩ :: h) s' := by
        rcases q3 with q3 | q3
        · exact q3.2
        · simp at q3
      obtain ⟨r, fuel1, hr1⟩ := ih _ s' q1 hw hm (by rw [q2]; push_cast; push_cast at h4; linarith)
      refine ⟨r, max fuel0 fuel1, fun fuel count hf hc => ?_⟩
      obtain ⟨count, rfl⟩ : ∃ q, count = q + 1 := ⟨count - 1, by omega⟩
      unfold evals
      dsimp only
      rw [hr fuel ((le_max_left _ _).trans hf)]
      exact hr1 fuel count ((le_max_right _ _).trans hf) (by omega)
    · refine ⟨(e, s'), fuel0, fun fuel count hf hc => ?_⟩
      obtain ⟨count, rfl⟩ : ∃ q, count = q + 1 := ⟨count - 1, by omega⟩
      unfold evals
      dsimp only
      rw [hr fuel hf]
      cases e with
      | iterate => exact absurd rfl he
      | _ => rfl

/-- **C68** (direct routine): in exact arithmetic (in an Archimedean field), for any step `T`, any
arguments and any user function, `cobyla_optimize` ends: there are bounds on the numbers of
iterations and of evaluations above which the result is the same. -/
theorem cobyla_optimize_ends [Archimedean K] (hsqrt : ∀ a : K, 0 ≤ a → 0 ≤ CMath.sqrt a ∧ CMath.sqrt a * CMath.sqrt a = a)
    (T : St K → (Nat → K) × Nat) (n m : Int) (maximize : Bool) (calcfc : Nat → (Nat → K) → K × (Nat → K)) (x : Nat → K)
    (scl : Option (Nat → K)) (rhobeg rhoend : K) (maxfun : Int) (w : St K) :
    ∃ r fuel0, ∀ fuel count, fuel0 ≤ fuel → maxfun.toNat < count →
      optimize T fuel count n m maximize calcfc x scl rhobeg rhoend maxfun w = some r := by
  unfold optimize
  by_cases h1 : n < 1
  · exact ⟨_, 0, fun _ _ _ _ => by rw [if_pos h1]⟩
  by_cases h2 : m < 0
  · exact ⟨_, 0, fun _ _ _ _ => by rw [if_neg h1, if_pos h2]⟩
  by_cases h3 : rhoend ≤ 0 ∨ rhoend > rhobeg
  · exact ⟨_, 0, fun _ _ _ _ => by rw [if_neg h1, if_neg h2, if_pos h3]⟩
  cases hs : scaling n.toNat scl with
  | none => exact ⟨_, 0, fun _ _ _ _ => by rw [if_neg h1, if_neg h2, if_neg h3]⟩
  | some scl' =>
    rw [not_or, not_le, not_lt] at h3
    obtain ⟨r, fuel0, hr⟩ := evals_end (p := ⟨n.toNat, m.toNat, rhobeg, rhoend, maxfun⟩) hsqrt T (by show 1 ≤ n.toNat; omega) h3.1
      (reply n.toNat scl' maximize calcfc) maxfun.toNat [] (init ⟨n.toNat, m.toNat, rhobeg, rhoend, maxfun⟩ (rescale n.toNat scl' x) w)
      (h3.1.trans_le h3.2) (wait_init _ (h3.1.trans_le h3.2) _ _ _) le_rfl (by show maxfun ≤ ((0 : Nat) : Int) + _; omega)
    refine ⟨.inr ⟨r.1, unscale n.toNat scl' r.2.x, if maximize then -r.2.f else r.2.f, r.2.resmax, r.2.nfvals⟩, fuel0, fun fuel count hf hc => ?_⟩
    rw [if_neg h1, if_neg h2, if_neg (by rw [not_or, not_le, not_lt]; exact h3)]
    dsimp only
    rw [hr fuel count hf hc]

/-- `PARMU` is never negative. -/
theorem passes_mu (p : Par K) (T : St K → (Nat → K) × Nat) (fuel : Nat) (js : Jump × St K) (h : 0 ≤ js.2.parmu) :
    0 ≤ (passes p T fuel js).2.parmu := by
  induction fuel generalizing js with
  | zero => exact h
  | succ fuel ih =>
    obtain ⟨j, s⟩ := js
    cases j with
    | again =>
      refine ih _ ?_
      have hless : Less p (Cobyla.pole p s) (pass p T s) := less_pass T (by rw [(pole_spec p s).1]; exact h)
      generalize pass p T s = js at hless
      obtain ⟨j, s'⟩ := js
      cases j with
      | again => exact hless.1
      | _ => exact hless
    | _ => exact h

theorem resume_mu {p : Par K} {T : St K → (Nat → K) × Nat} {fuel : Nat} {f : K} {c : Nat → K} {s s' : St K} {e : Status}
    (h : 0 ≤ s.parmu) (hr : resume p T fuel f c s = some (e, s')) : 0 ≤ s'.parmu := by
  have h1 := passes_mu p T fuel _ (newEval_mu p f c s h)
  unfold resume at hr
  generalize passes p T fuel (newEval p f c s) = js at h1 hr
  obtain ⟨j, s1⟩ := js
  cases j with
  | call =>
    simp only [settle] at hr
    split_ifs at hr
    all_goals
      simp only [Option.some.injEq, Prod.mk.injEq] at hr
      rw [← hr.2]
      exact h1
  | best e =>
    simp only [settle, Option.some.injEq, Prod.mk.injEq] at hr
    rw [← hr.2]
    exact h1
  | done =>
    simp only [settle, Option.some.injEq, Prod.mk.injEq] at hr
    rw [← hr.2]
    split_ifs <;> exact h1
  | again => simp [settle] at hr
  | wrong => simp [settle] at hr

theorem obey_mu {ok : Par K → (St K → (Nat → K) × Nat) → Prop} {ctx0 ctx : Ctx K} {h : List (Eval K)} (H : Obey ok ctx0 h ctx)
    (h0 : ctx0.st.nfvals = 0) : ctx.st.nfvals ≠ 0 → 0 ≤ ctx.st.parmu := by
  induction H with
  | start => exact fun h => absurd h0 h
  | @iterate c1 c2 h H1 T fuel f x c e hT hx hs hc1 hr ih =>
    rcases iterate_cases hr with ⟨hbad, -, -⟩ | ⟨-, h2, hbad⟩ | ⟨x', s', hx', hst, hres, h2⟩
    · exfalso
      obtain ⟨_, -, -, -, h4, -⟩ := cobyla_protocol hr
      obtain ⟨-, h5⟩ := h4 ⟨hs, by simp, hc1⟩
      rw [hbad] at h5
      simp at h5
    · exact absurd hs hbad
    · obtain rfl := Option.some.inj h2
      intro _
      refine resume_mu ?_ hres
      by_cases hz : c1.st.nfvals = 0
      · rw [if_pos hz]
        exact le_rfl
      · rw [if_neg hz]
        exact ih hz
  | restart _ e hr ih =>
    simp only [Cobyla.restart, Prod.mk.injEq, Option.some.injEq] at hr
    obtain ⟨-, rfl⟩ := hr
    exact fun h => absurd rfl h

/-- **C68**: in exact arithmetic (in an Archimedean field), for any step `T`, in a program which
leaves `x` unchanged between the calls, every call of `cobyla_iterate` ends, whatever the replies. -/
theorem cobyla_iterate_ends [Archimedean K] (hsqrt : ∀ a : K, 0 ≤ a → 0 ≤ CMath.sqrt a ∧ CMath.sqrt a * CMath.sqrt a = a)
    {n m : Int} {rhobeg rhoend : K} {maxfun : Int} {room : Bool} {ok : Par K → (St K → (Nat → K) × Nat) → Prop} {ctx0 ctx : Ctx K} {h : List (Eval K)}
    (h0 : create n m rhobeg rhoend maxfun room = some ctx0) (H : Obey ok ctx0 h ctx) (T : St K → (Nat → K) × Nat) (f : K) (x : Nat → K)
    (c : Option (Nat → K)) (hx : ctx.st.nfvals ≠ 0 → ∀ i, 1 ≤ i → i ≤ ctx.par.n → x i = ctx.st.x i) :
    ∃ r fuel0, ∀ fuel, fuel0 ≤ fuel → iterate T fuel (some ctx) f (some x) c = some r := by
  obtain ⟨e1, -, e3, -⟩ := cobyla_exact hsqrt h0 H
  have hpar := obey_par H
  obtain ⟨q1, q2, q3, q4, q5, q6⟩ : ctx0.par.rhoend = rhoend ∧ ctx0.par.rhobeg = rhobeg ∧ 0 < rhoend ∧ 0 < rhobeg ∧ 1 ≤ ctx0.par.n ∧ ctx0.st.nfvals = 0 := create_facts h0
  unfold iterate
  dsimp only
  by_cases h1 : c.isNone ∧ ctx.par.m > 0
  · exact ⟨_, 0, fun _ _ => by rw [if_pos h1]⟩
  by_cases h2 : ctx.status ≠ .iterate
  · exact ⟨_, 0, fun _ _ => by rw [if_neg h1, if_pos h2]⟩
  have hw : Wait ctx.par h (if ctx.st.nfvals = 0 then init ctx.par x ctx.st else { ctx.st with x := x }) ∧
      0 < (if ctx.st.nfvals = 0 then init ctx.par x ctx.st else { ctx.st with x := x }).rho ∧
      0 ≤ (if ctx.st.nfvals = 0 then init ctx.par x ctx.st else { ctx.st with x := x }).parmu := by
    by_cases hz : ctx.st.nfvals = 0
    · rw [if_pos hz]
      have hb : 0 < ctx.par.rhobeg := by rw [hpar, q2]; exact q4
      exact ⟨wait_init ctx.par hb x ctx.st h, hb, le_rfl⟩
    · rw [if_neg hz]
      have hne : h ≠ [] := fun hh => hz (by rw [e1, hh]; rfl)
      exact ⟨(e3 (not_not.mp h2) hne).caller x (hx hz), obey_rho H (by rw [q1]; exact q3) (by rw [q2]; exact q4) q6 hz, obey_mu H q6 hz⟩
  obtain ⟨w1, w2, w3⟩ := hw
  obtain ⟨e, s', fuel0, -, hr⟩ := resume_end hsqrt T (by rw [hpar]; exact q5) (by rw [hpar, q1]; exact q3) w2 w1 w3 f (c.getD fun _ => 0)
  refine ⟨(e, some { ctx with status := e, st := s' }), fuel0, fun fuel hf => ?_⟩
  rw [if_neg h1, if_neg h2, hr fuel hf]

end
end Opk.Cobyla
