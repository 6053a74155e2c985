import Verif.Cobyla.Simplex
/-! # COBYLA: the simplex through the iterations -/
set_option linter.unusedSectionVars false
set_option linter.unusedSimpArgs false
namespace Opk.Cobyla
open Linalg CMath

section
variable {K : Type} [Field K] [LinearOrder K] [IsStrictOrderedRing K] [CMath K] [ExactMath K]

/-- The rows of the inverse are not zero. -/
theorem Inv.row_pos {n : Nat} {sim simi : Nat → Nat → K} (h : Inv n sim simi) {j : Nat} (h1 : 1 ≤ j) (h2 : j ≤ n) :
    0 < ∑ i ∈ Finset.Icc 1 n, simi j i * simi j i := by
  have hnn : ∀ i ∈ Finset.Icc 1 n, 0 ≤ simi j i * simi j i := fun i _ => mul_self_nonneg _
  rcases (Finset.sum_nonneg hnn).lt_or_eq with hlt | heq
  · exact hlt
  · exfalso
    have hz := (Finset.sum_eq_zero_iff_of_nonneg hnn).mp heq.symm
    have := h j j h1 h2 h1 h2
    rw [if_pos rfl, Finset.sum_eq_zero] at this
    · exact zero_ne_one this
    · intro k hk
      have := hz k hk
      rw [mul_self_eq_zero] at this
      rw [this, zero_mul]

/-- `VSIG`, `VETA` and `IFLAG`. -/
theorem quality_spec (p : Par K) (s : St K) :
    (∀ j, 1 ≤ j → j ≤ p.n → (quality p s).1 j = 1 / sqrt (∑ i ∈ Finset.Icc 1 p.n, s.simi j i * s.simi j i) ∧
      (quality p s).2.1 j = sqrt (∑ i ∈ Finset.Icc 1 p.n, s.sim i j * s.sim i j)) ∧
    ((quality p s).2.2 = 0 ∨ (quality p s).2.2 = 1) ∧
    ((quality p s).2.2 = 0 ↔ ∃ j, 1 ≤ j ∧ j ≤ p.n ∧ ((quality p s).1 j < lit 1 4 * s.rho ∨ (quality p s).2.1 j > lit 21 10 * s.rho)) := by
  unfold quality
  refine up_inv (fun q (st : (Nat → K) × (Nat → K) × Nat) =>
    (∀ j, 1 ≤ j → j ≤ q → st.1 j = 1 / sqrt (∑ i ∈ Finset.Icc 1 p.n, s.simi j i * s.simi j i) ∧
      st.2.1 j = sqrt (∑ i ∈ Finset.Icc 1 p.n, s.sim i j * s.sim i j)) ∧
    (st.2.2 = 0 ∨ st.2.2 = 1) ∧
    (st.2.2 = 0 ↔ ∃ j, 1 ≤ j ∧ j ≤ q ∧ (st.1 j < lit 1 4 * s.rho ∨ st.2.1 j > lit 21 10 * s.rho))) p.n ?_ ?_
  · refine ⟨by intros; omega, Or.inr rfl, ?_⟩
    constructor
    · intro h; exact absurd h (by simp)
    · rintro ⟨j, h1, h2, _⟩; omega
  · rintro q hq ⟨vs, ve, fl⟩ ⟨h1, h2, h3⟩
    dsimp only at h1 h2 h3 ⊢
    rw [up_sum, up_sum, zero_add, zero_add]
    have hs : ∀ (v : Nat → K) (a : K), set1 v (q + 1) a (q + 1) = a := fun v a => by simp [set1]
    have hs' : ∀ (v : Nat → K) (a : K) j, j ≤ q → set1 v (q + 1) a j = v j := fun v a j hj => by
      simp only [set1]; rw [if_neg (by omega)]
    refine ⟨fun j hj hj' => ?_, ?_, ?_⟩
    · by_cases hjq : j = q + 1
      · subst hjq
        rw [hs, hs]
        exact ⟨rfl, rfl⟩
      · rw [hs' _ _ j (by omega), hs' _ _ j (by omega)]
        exact h1 j hj (by omega)
    · split_ifs
      · exact Or.inl rfl
      · exact h2
    · split_ifs with hc
      · refine iff_of_true rfl ⟨q + 1, by omega, le_rfl, hc⟩
      · rw [h3]
        constructor
        · rintro ⟨j, hj, hj', hh⟩
          refine ⟨j, hj, by omega, ?_⟩
          rw [hs' _ _ j hj', hs' _ _ j hj']
          exact hh
        · rintro ⟨j, hj, hj', hh⟩
          by_cases hjq : j = q + 1
          · subst hjq
            exact absurd hh hc
          · refine ⟨j, hj, by omega, ?_⟩
            rw [hs' _ _ j (by omega), hs' _ _ j (by omega)] at hh
            exact hh

/-- A vertex to drop is found. -/
theorem dropVertex_spec (p : Par K) (s : St K) (hrho : 0 < s.rho)
    (h : ∃ j, 1 ≤ j ∧ j ≤ p.n ∧ (s.vsig j < lit 1 4 * s.rho ∨ s.veta j > lit 21 10 * s.rho)) :
    1 ≤ dropVertex p s ∧ dropVertex p s ≤ p.n := by
  unfold dropVertex
  dsimp only
  have f1 := up_inv (s := ((lit 21 10 * s.rho, 0) : K × Nat)) (body := fun j (st : K × Nat) => if s.veta j > st.1 then (s.veta j, j) else st)
    (fun q (st : K × Nat) => st.2 ≤ p.n ∧ (st.2 = 0 → st.1 = lit 21 10 * s.rho ∧ ∀ j, 1 ≤ j → j ≤ q → ¬ s.veta j > lit 21 10 * s.rho)) p.n
    ⟨Nat.zero_le _, fun _ => ⟨rfl, by intros; omega⟩⟩ ?_
  · generalize up p.n (fun j (st : K × Nat) => if s.veta j > st.1 then (s.veta j, j) else st) (lit 21 10 * s.rho, 0) = st at f1
    obtain ⟨g1, g2⟩ := f1
    by_cases h0 : st.2 = 0
    · rw [if_pos h0]
      obtain ⟨g3, g4⟩ := g2 h0
      have f2 := up_inv (s := st) (body := fun j (st : K × Nat) => if s.vsig j < st.1 then (s.vsig j, j) else st)
        (fun q (st : K × Nat) => st.2 ≤ p.n ∧ (st.2 = 0 → st.1 = lit 21 10 * s.rho ∧ ∀ j, 1 ≤ j → j ≤ q → ¬ s.vsig j < lit 21 10 * s.rho)) p.n
        ⟨g1, fun _ => ⟨g3, by intros; omega⟩⟩ ?_
      · refine ⟨?_, f2.1⟩
        by_contra hz
        obtain ⟨-, f3⟩ := f2.2 (by omega)
        obtain ⟨j, hj, hj', hh⟩ := h
        rcases hh with hh | hh
        · refine f3 j hj hj' (lt_trans hh ?_)
          rw [ExactMath.lit_eq, ExactMath.lit_eq]
          apply mul_lt_mul_of_pos_right _ hrho
          norm_num
        · exact g4 j hj hj' hh
      · rintro q hq ⟨t, l⟩ ⟨e1, e2⟩
        dsimp only at e1 e2 ⊢
        by_cases hc : s.vsig (q + 1) < t
        · rw [if_pos hc]
          exact ⟨hq, fun hh => absurd hh (Nat.succ_ne_zero q)⟩
        · rw [if_neg hc]
          refine ⟨e1, fun hh => ?_⟩
          obtain ⟨e3, e4⟩ := e2 hh
          refine ⟨e3, fun j hj hj' => ?_⟩
          by_cases hjq : j = q + 1
          · rw [hjq, ← e3]; exact hc
          · exact e4 j hj (by omega)
    · rw [if_neg h0]
      exact ⟨by omega, g1⟩
  · rintro q hq ⟨t, l⟩ ⟨e1, e2⟩
    dsimp only at e1 e2 ⊢
    by_cases hc : s.veta (q + 1) > t
    · rw [if_pos hc]
      exact ⟨hq, fun hh => absurd hh (Nat.succ_ne_zero q)⟩
    · rw [if_neg hc]
      refine ⟨e1, fun hh => ?_⟩
      obtain ⟨e3, e4⟩ := e2 hh
      refine ⟨e3, fun j hj hj' => ?_⟩
      by_cases hjq : j = q + 1
      · rw [hjq, ← e3]; exact hc
      · exact e4 j hj (by omega)

theorem stepSign_ne (p : Par K) (dx : Nat → K) (s : St K) : stepSign p dx s = -1 ∨ stepSign p dx s = 1 := by
  unfold stepSign
  dsimp only
  split_ifs
  · exact Or.inl rfl
  · exact Or.inr rfl

/-- A new vertex: the state when its evaluation is expected. -/
theorem after_newVertex {p : Par K} {h : List (Eval K)} {s : St K} (hf : Full p h s) (hn : p.n < s.nfvals)
    (hb : s.ibrnch = 0) (hrho : 0 < s.rho) (hv : ∀ j, 1 ≤ j → j ≤ p.n → 0 < s.vsig j)
    (hq : ∃ j, 1 ≤ j ∧ j ≤ p.n ∧ (s.vsig j < lit 1 4 * s.rho ∨ s.veta j > lit 21 10 * s.rho)) :
    After p h (newVertex p s) := by
  obtain ⟨j1, j2⟩ := dropVertex_spec p s hrho hq
  unfold newVertex
  dsimp only
  generalize dropVertex p s = jd at j1 j2
  rw [if_neg (by omega)]
  rw [up_set1 p.n (fun i _ => lit 1 2 * s.rho * s.vsig jd * s.simi jd i)]
  generalize hsg : stepSign p _ s = sg
  have hsg' : sg ≠ 0 := by
    rcases stepSign_ne p _ s with h1 | h1
    · rw [← hsg, h1]; exact neg_ne_zero.mpr one_ne_zero
    · rw [← hsg, h1]; exact one_ne_zero
  rw [up_set1 p.n (fun i v => v * sg)]
  generalize hdx : (fun k => if 1 ≤ k ∧ k ≤ p.n then (if 1 ≤ k ∧ k ≤ p.n then lit 1 2 * s.rho * s.vsig jd * s.simi jd k else s.dx k) * sg
      else (if 1 ≤ k ∧ k ≤ p.n then lit 1 2 * s.rho * s.vsig jd * s.simi jd k else s.dx k)) = dx
  have hdx' : ∀ k, 1 ≤ k → k ≤ p.n → dx k = lit 1 2 * s.rho * s.vsig jd * s.simi jd k * sg := by
    intro k hk hk'
    rw [← hdx]
    dsimp only
    rw [if_pos ⟨hk, hk'⟩, if_pos ⟨hk, hk'⟩]
  clear hdx hsg
  have ht : inner p.n s.simi dx jd ≠ 0 := by
    rw [inner_eq]
    have : ∑ i ∈ Finset.Icc 1 p.n, s.simi jd i * dx i = lit 1 2 * s.rho * s.vsig jd * sg * ∑ i ∈ Finset.Icc 1 p.n, s.simi jd i * s.simi jd i := by
      rw [Finset.mul_sum]
      apply Finset.sum_congr rfl
      intro k hk
      rw [Finset.mem_Icc] at hk
      rw [hdx' k hk.1 hk.2]
      ring
    rw [this]
    have h2 : (lit 1 2 : K) ≠ 0 := by rw [ExactMath.lit_eq]; norm_num
    exact mul_ne_zero (mul_ne_zero (mul_ne_zero (mul_ne_zero h2 hrho.ne') (hv jd j1 j2).ne') hsg') (hf.inv.row_pos j1 j2).ne'
  have hnp : p.np ≠ jd := by simp only [Par.np]; omega
  have hsim := replace_sim p.n jd dx s.sim s.simi
  have hnpcol : ∀ i, (replace p.n jd dx (s.sim, s.simi)).1 i p.np = s.sim i p.np := by
    intro i
    rw [hsim]
    dsimp only
    rw [if_neg (by tauto)]
  refine ⟨Wait.vertex hn hb j1 j2 (hf.inv.replace j1 j2 ht) ?_ ?_ ?_, Nat.lt_of_le_of_lt (Nat.zero_le _) hn⟩
  · intro i hi hi'
    dsimp only
    rw [up_set1 p.n (fun j _ => (replace p.n jd dx (s.sim, s.simi)).1 j p.np + dx j)]
    dsimp only
    rw [if_pos ⟨hi, hi'⟩]
    congr 1
    rw [hsim]
    dsimp only
    rw [if_pos ⟨⟨hi, hi'⟩, rfl⟩]
  · refine hf.pole.congr (fun i _ _ => (hnpcol i).symm) (fun k _ _ => rfl)
  · intro j hj hj' hne
    dsimp only at hne ⊢
    refine (hf.vert j hj hj').congr (fun i _ _ => ?_) (fun k _ _ => rfl)
    rw [hnpcol i, hsim]
    dsimp only
    rw [if_neg (by tauto)]

theorem after_trial {p : Par K} {h : List (Eval K)} {s : St K} (raised : Bool) (sum : K) (hf : Full p h s) (hn : p.n < s.nfvals)
    (hb : s.ibrnch = 0 ∨ s.ibrnch = 1)
    (hsig : 0 < s.parsig) (hv : ∀ j, 1 ≤ j → j ≤ p.n → 0 < s.vsig j) : After p h (trial p raised sum s) := by
  unfold trial
  split_ifs
  · exact ⟨hf, hn, hb⟩
  · refine ⟨Wait.trial hn rfl (hf.congr rfl rfl rfl) hsig hv ?_, Nat.lt_of_le_of_lt (Nat.zero_le _) hn⟩
    intro i hi hi'
    dsimp only
    rw [up_set1 p.n (fun i _ => s.sim i p.np + s.dx i)]
    dsimp only
    rw [if_pos ⟨hi, hi'⟩]

/-- The trial point. -/
theorem after_trust {p : Par K} {h : List (Eval K)} {s : St K} (hf : Full p h s) (hn : p.n < s.nfvals)
    (hb : s.ibrnch = 0 ∨ s.ibrnch = 1)
    (hsig : 0 < s.parsig) (hv : ∀ j, 1 ≤ j → j ≤ p.n → 0 < s.vsig j) : After p h (trust p s) := by
  unfold trust
  by_cases h1 : s.ifull = 0 ∧ up p.n (fun i t => t + s.dx i * s.dx i) 0 < lit 1 4 * s.rho * s.rho
  · rw [if_pos h1]
    exact after_reduce (hf.congr rfl rfl rfl) hn (Or.inr rfl) fun hh => absurd (hh.symm.trans h1.1) one_ne_zero
  · rw [if_neg h1]
    exact after_trial _ _ (hf.congr rfl rfl rfl) hn hb hsig hv

/-- The choice of the kind of iteration. -/
theorem after_branch {p : Par K} {h : List (Eval K)} {s : St K} (T : St K → (Nat → K) × Nat) (hf : Full p h s) (hn : p.n < s.nfvals)
    (hsig : 0 < s.parsig) (hv : ∀ j, 1 ≤ j → j ≤ p.n → 0 < s.vsig j) (hrho : 0 < s.rho)
    (hb : s.ibrnch = 0 ∨ s.ibrnch = 1) (hi : s.iflag = 0 ∨ s.iflag = 1)
    (hq : s.iflag = 0 ↔ ∃ j, 1 ≤ j ∧ j ≤ p.n ∧ (s.vsig j < lit 1 4 * s.rho ∨ s.veta j > lit 21 10 * s.rho)) :
    After p h (branch p T s) := by
  unfold branch
  by_cases hc : s.ibrnch = 1 ∨ s.iflag = 1
  · rw [if_pos hc]
    exact after_trust (hf.congr rfl rfl rfl) hn hb hsig hv
  · rw [if_neg hc]
    have hb0 : s.ibrnch = 0 := by tauto
    have hi0 : s.iflag = 0 := by tauto
    exact after_newVertex hf hn hb0 hrho hv (hq.mp hi0)

/-- `VSIG` is positive. -/
theorem assess_vsig {p : Par K} {s : St K} (hsqrt : ∀ a : K, 0 ≤ a → 0 ≤ CMath.sqrt a ∧ CMath.sqrt a * CMath.sqrt a = a)
    (inv : Inv p.n s.sim s.simi) (j : Nat) (hj : 1 ≤ j) (hj' : j ≤ p.n) : 0 < (assess p s).vsig j := by
  show 0 < (quality p s).1 j
  rw [((quality_spec p s).1 j hj hj').1]
  have hpos := inv.row_pos hj hj'
  obtain ⟨r1, r2⟩ := hsqrt _ hpos.le
  apply one_div_pos.mpr
  refine lt_of_le_of_ne r1 fun h0 => ?_
  rw [← h0, mul_zero] at r2
  exact hpos.ne r2

theorem pole_nfvals (p : Par K) (s : St K) : (Cobyla.pole p s).nfvals = s.nfvals := by unfold Cobyla.pole; dsimp only; split_ifs <;> rfl
theorem pole_rho (p : Par K) (s : St K) : (Cobyla.pole p s).rho = s.rho := by unfold Cobyla.pole; dsimp only; split_ifs <;> rfl
theorem pole_ibrnch (p : Par K) (s : St K) : (Cobyla.pole p s).ibrnch = s.ibrnch := by unfold Cobyla.pole; dsimp only; split_ifs <;> rfl

/-- An iteration. -/
theorem after_pass {p : Par K} {h : List (Eval K)} {s : St K} (T : St K → (Nat → K) × Nat)
    (hsqrt : ∀ a : K, 0 ≤ a → 0 ≤ CMath.sqrt a ∧ CMath.sqrt a * CMath.sqrt a = a)
    (hb01 : s.ibrnch = 0 ∨ s.ibrnch = 1) (hf : Full p h s) (hn : p.n < s.nfvals) (hrho : 0 < s.rho) : After p h (pass p T s) := by
  have hf1 := hf.switch
  unfold pass
  rw [← pole_nfvals p s] at hn
  rw [← pole_rho p s] at hrho
  rw [← pole_ibrnch p s] at hb01
  generalize Cobyla.pole p s = s1 at hf1 hn hrho hb01
  unfold passPole
  rw [inverseError_eq hf1.inv, if_neg (by rw [ExactMath.lit_eq]; norm_num)]
  refine after_branch T (hf1.congr rfl rfl rfl) hn ?_ ?_ hrho hb01 ?_ ?_
  · apply mul_pos _ hrho
    rw [ExactMath.lit_eq]; norm_num
  · exact assess_vsig hsqrt hf1.inv
  · exact (quality_spec p _).2.1
  · exact (quality_spec p _).2.2

/-- After an evaluation. -/
theorem after_newEval {p : Par K} {h : List (Eval K)} {s : St K} (hp : 1 ≤ p.n) (f : K) (c : Nat → K) (H : Wait p h s) :
    After p (⟨s.x, f, c⟩ :: h) (newEval p f c s) := by
  have hsub : ∀ e ∈ h, e ∈ (⟨s.x, f, c⟩ : Eval K) :: h := fun e he => List.mem_cons_of_mem _ he
  have hlast : Last p (⟨s.x, f, c⟩ :: h) (record p f c s) := ⟨_, List.mem_cons_self, fun _ _ _ => rfl, rfl, rfl⟩
  have hknown : ∀ y, (∀ i, 1 ≤ i → i ≤ p.n → s.x i = y i) → Known p (⟨s.x, f, c⟩ :: h) y (record p f c s).con :=
    fun y hy => known_record p f c s h y hy
  have hcf : (record p f c s).con p.mp = f := (record_con p f c s).2.1
  have r1 : (record p f c s).sim = s.sim := rfl
  have r2 : (record p f c s).simi = s.simi := rfl
  have r3 : (record p f c s).datmat = s.datmat := rfl
  have r4 : (record p f c s).ibrnch = s.ibrnch := rfl
  have r5 : (record p f c s).jdrop = s.jdrop := rfl
  have r6 : (record p f c s).nfvals = s.nfvals + 1 := rfl
  have r7 : (record p f c s).x = s.x := rfl
  have r8 : (record p f c s).rho = s.rho := rfl
  have r9 : (record p f c s).f = f := rfl
  have r10 : (record p f c s).dx = s.dx := rfl
  have r11 : (record p f c s).parsig = s.parsig := rfl
  have r12 : (record p f c s).vsig = s.vsig := rfl
  unfold newEval
  generalize record p f c s = s1 at *
  unfold place
  cases H with
  | first h0 hb hj inv tri hx =>
    rw [if_neg (by omega)]
    unfold complete
    rw [if_neg (by simp only [Par.np]; omega)]
    have hex : exchange p { s1 with datmat := store p.mpp s1.con s1.jdrop s1.datmat } = { s1 with datmat := store p.mpp s1.con s1.jdrop s1.datmat } := by
      unfold exchange
      dsimp only
      rw [if_neg (by rw [r5, hj]; simp only [Par.np]; omega)]
    rw [hex]
    unfold nextVertex
    dsimp only
    have hn1 : s1.nfvals = 1 := by omega
    rw [hn1, if_pos hp]
    refine ⟨Wait.simplex le_rfl hp ?_ rfl ?_ ⟨?_, ?_⟩ ?_ ?_ ?_, Nat.one_pos⟩
    · exact r4.trans hb
    · dsimp only; rw [r1, r2]; exact inv
    · dsimp only; rw [r1, r8]; exact tri.sim
    · dsimp only; rw [r2]; exact tri.simi
    · intro i hi hi'
      dsimp only
      rw [r1, r7, r8]
      simp only [set1]
      have htri := tri.sim i 1 hi hi' le_rfl hp (Or.inr le_rfl)
      by_cases h1 : i = 1
      · rw [if_pos h1, htri, if_pos h1, h1, hx 1 le_rfl hp]
      · rw [if_neg h1, htri, if_neg h1, add_zero, hx i hi hi']
    · dsimp only
      rw [r1, r5, hj, store_eq]
      refine (hknown (fun i => s.sim i p.np) hx).congr (fun i _ _ => rfl) (fun k hk hk' => ?_)
      dsimp only
      rw [if_pos ⟨⟨hk, hk'⟩, rfl⟩]
    · intro j hj hj'
      dsimp only at hj'
      omega
  | simplex h0 h1 hb hj inv tri hx pole vert =>
    rw [if_neg (by omega)]
    generalize hs2 : ({ s1 with datmat := store p.mpp s1.con s1.jdrop s1.datmat } : St K) = s2
    have c1 : s2.sim = s.sim := by rw [← hs2]; exact r1
    have c2 : s2.simi = s.simi := by rw [← hs2]; exact r2
    have c3 : s2.datmat = store p.mpp s2.con s2.jdrop s.datmat := by rw [← hs2]; dsimp only; rw [r3]
    have c4 : s2.ibrnch = s.ibrnch := by rw [← hs2]; exact r4
    have c5 : s2.jdrop = s.jdrop := by rw [← hs2]; exact r5
    have c6 : s2.nfvals = s.nfvals + 1 := by rw [← hs2]; exact r6
    have c7 : s2.x = s.x := by rw [← hs2]; exact r7
    have c8 : s2.rho = s.rho := by rw [← hs2]; exact r8
    have c9 : s2.f = f := by rw [← hs2]; exact r9
    have c13 : s2.con = s1.con := by rw [← hs2]
    have hnp : p.np ≠ s.jdrop := by simp only [Par.np]; omega
    obtain ⟨x1, x2, x3, x4, x5⟩ := exchange_spec (p := p) (h := ⟨s.x, f, c⟩ :: h) (s := s2) (by omega) (by omega)
      (by rw [c1, c2]; exact inv) ⟨by rw [c1, c8, c5, hj]; exact tri.sim, by rw [c2]; exact tri.simi⟩
      (by rw [c7, c1, c5]; exact hx) (by rw [c9, c13]; exact hcf.symm)
      (by rw [c1, c5, c13]; exact hknown _ hx)
      (by
        rw [c1, c3, store_eq, c5]
        refine (pole.mono hsub).congr (fun i _ _ => rfl) (fun k hk hk' => ?_)
        dsimp only
        rw [if_neg (by tauto)])
      (by
        rw [c5]
        intro j hj1 hj2
        rw [c1, c3, store_eq, c5]
        refine ((vert j hj1 hj2).mono hsub).congr (fun i _ _ => rfl) (fun k hk hk' => ?_)
        dsimp only
        rw [if_neg (by omega)])
      (by
        intro k hk hk'
        rw [c3, store_eq]
        dsimp only
        rw [if_pos ⟨⟨hk, hk'⟩, rfl⟩])
    clear hs2
    unfold complete
    rw [if_neg (by simp only [Par.np]; omega)]
    have y1 : (exchange p s2).nfvals = s2.nfvals := by unfold exchange; split_ifs <;> rfl
    have y2 : (exchange p s2).ibrnch = s2.ibrnch := by unfold exchange; split_ifs <;> rfl
    generalize exchange p s2 = s3 at x1 x2 x3 x4 x5 y1 y2
    have y3 : s3.nfvals = s.nfvals + 1 := y1.trans c6
    rw [c5, hj] at x2 x5
    unfold nextVertex
    split_ifs with hle
    · rw [y3] at hle
      refine ⟨Wait.simplex (by dsimp only; omega) (by dsimp only; omega) (by dsimp only; omega) ?_ x1 ?_ ?_ x4 ?_, by dsimp only; omega⟩
      · rfl
      · dsimp only
        rw [y3]
        exact ⟨x2.sim, x2.simi⟩
      · intro i hi hi'
        dsimp only
        rw [y3]
        simp only [set1]
        have htri := x2.sim i (s.nfvals + 1) hi hi' (by omega) hle (Or.inr le_rfl)
        by_cases hi1 : i = s.nfvals + 1
        · rw [if_pos hi1, htri, if_pos hi1, ← hi1, x3 i hi hi']
        · rw [if_neg hi1, htri, if_neg hi1, add_zero, x3 i hi hi']
      · intro j hj1 hj2
        dsimp only at hj2
        exact x5 j hj1 (by omega)
    · refine ⟨⟨x1, x4, fun j hj1 hj2 => x5 j hj1 (by omega)⟩, ?_, Or.inr rfl⟩
      dsimp only
      omega
  | vertex h1 hb hj hj' inv hx pole vert =>
    rw [if_neg (by omega)]
    unfold complete
    rw [if_pos (by simp only [Par.np]; omega)]
    have hnp : p.np ≠ s.jdrop := by simp only [Par.np]; omega
    refine ⟨⟨?_, ?_, fun j hj1 hj2 => ?_⟩, ?_, Or.inr rfl⟩
    · dsimp only; rw [r1, r2]; exact inv
    · dsimp only
      rw [r1, r3, r5, store_eq]
      refine (pole.mono hsub).congr (fun i _ _ => rfl) (fun k hk hk' => ?_)
      dsimp only
      rw [if_neg (by tauto)]
    · dsimp only
      rw [r1, r3, r5, store_eq]
      by_cases hjd : j = s.jdrop
      · rw [hjd]
        refine (hknown _ hx).congr (fun i _ _ => rfl) (fun k hk hk' => ?_)
        dsimp only
        rw [if_pos ⟨⟨hk, hk'⟩, rfl⟩]
      · refine ((vert j hj1 hj2 hjd).mono hsub).congr (fun i _ _ => rfl) (fun k hk hk' => ?_)
        dsimp only
        rw [if_neg (by tauto)]
    · dsimp only; omega
  | trial h1 hb full hsig hv hx =>
    rw [if_pos (by omega)]
    refine after_judge (h := h) (full.congr r1 r2 r3) hsub (by omega) (Or.inr (by omega)) (by rw [r11]; exact hsig) (by rw [r12]; exact hv) ?_ hlast
    rw [r1, r10]
    exact hknown _ hx

end
end Opk.Cobyla
