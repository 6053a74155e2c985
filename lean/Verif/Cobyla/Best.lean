import Verif.Cobyla.Calls
import Mathlib.LinearAlgebra.Matrix.NonsingularInverse
/-!
# COBYLA without constraints: is the best point kept?
-/
set_option linter.unusedSectionVars false
set_option linter.unusedSimpArgs false
namespace Opk.Cobyla
open Linalg CMath

section
variable {K : Type} [Field K] [LinearOrder K] [IsStrictOrderedRing K] [CMath K] [ExactMath K]

/-- The inverse is also an inverse on the right. -/
theorem Inv.right {n : Nat} {sim simi : Nat → Nat → K} (h : Inv n sim simi) : Inv n simi sim := by
  let A : Matrix (Finset.Icc 1 n) (Finset.Icc 1 n) K := fun i j => simi i j
  let B : Matrix (Finset.Icc 1 n) (Finset.Icc 1 n) K := fun i j => sim i j
  have h1 : A * B = 1 := by
    ext ⟨i, hi⟩ ⟨j, hj⟩
    rw [Finset.mem_Icc] at hi hj
    rw [Matrix.mul_apply, Matrix.one_apply]
    have := h i j hi.1 hi.2 hj.1 hj.2
    rw [← Finset.sum_coe_sort] at this
    rw [show (∑ k : Finset.Icc 1 n, A ⟨i, _⟩ k * B k ⟨j, _⟩) = _ from this]
    simp only [Subtype.mk.injEq]
  have h2 : B * A = 1 := mul_eq_one_comm.mp h1
  intro i j hi hi' hj hj'
  have h3 := congrFun (congrFun h2 ⟨i, Finset.mem_Icc.mpr ⟨hi, hi'⟩⟩) ⟨j, Finset.mem_Icc.mpr ⟨hj, hj'⟩⟩
  rw [Matrix.mul_apply, Matrix.one_apply] at h3
  rw [← Finset.sum_coe_sort]
  simp only [Subtype.mk.injEq] at h3
  exact h3

theorem Inv.solve {n : Nat} {sim simi : Nat → Nat → K} (h : Inv n sim simi) (v : Nat → K)
    (hz : ∀ j, 1 ≤ j → j ≤ n → inner n simi v j = 0) (i : Nat) (hi : 1 ≤ i) (hi' : i ≤ n) : v i = 0 := by
  have hr := h.right
  have h1 : ∑ j ∈ Finset.Icc 1 n, sim i j * inner n simi v j = v i := by
    calc ∑ j ∈ Finset.Icc 1 n, sim i j * inner n simi v j
        = ∑ j ∈ Finset.Icc 1 n, ∑ k ∈ Finset.Icc 1 n, sim i j * simi j k * v k := by
          refine Finset.sum_congr rfl fun j _ => ?_
          rw [inner_eq, Finset.mul_sum]
          exact Finset.sum_congr rfl fun k _ => by ring
      _ = ∑ k ∈ Finset.Icc 1 n, (∑ j ∈ Finset.Icc 1 n, sim i j * simi j k) * v k := by
          rw [Finset.sum_comm]
          exact Finset.sum_congr rfl fun k _ => by rw [Finset.sum_mul]
      _ = ∑ k ∈ Finset.Icc 1 n, (if i = k then v k else 0) := by
          refine Finset.sum_congr rfl fun k hk => ?_
          rw [Finset.mem_Icc] at hk
          rw [hr i k hi hi' hk.1 hk.2]
          split_ifs
          · exact one_mul _
          · exact zero_mul _
      _ = v i := by
          rw [Finset.sum_ite_eq, if_pos (Finset.mem_Icc.mpr ⟨hi, hi'⟩)]
  rw [← h1]
  refine Finset.sum_eq_zero fun j hj => ?_
  rw [Finset.mem_Icc] at hj
  rw [hz j hj.1 hj.2, mul_zero]

/-- The pole is a best point among the evaluations `h`. -/
def Best (p : Par K) (h : List (Eval K)) (s : St K) : Prop := ∀ e ∈ h, s.datmat p.mp p.np ≤ e.f

/-- A vertex is at least as good as any of the evaluations `h`. -/
def Weak (p : Par K) (h : List (Eval K)) (s : St K) : Prop :=
  ∀ e ∈ h, ∃ j, 1 ≤ j ∧ j ≤ p.np ∧ s.datmat p.mp j ≤ e.f

theorem Best.weak {p : Par K} {h : List (Eval K)} {s : St K} (H : Best p h s) : Weak p h s :=
  fun e he => ⟨p.np, by simp only [Par.np]; omega, le_rfl, H e he⟩

/-- The variables and the function value are those of the evaluation `e`. -/
def IsAt (p : Par K) (e : Eval K) (s : St K) : Prop := (∀ i, 1 ≤ i → i ≤ p.n → s.x i = e.x i) ∧ s.f = e.f

/-- What is known when the execution jumps; `e0` is the last evaluation and `h` is the list of
the other ones. -/
def Opt (p : Par K) (h : List (Eval K)) (e0 : Eval K) : Jump × St K → Prop
  | (.call, s) => Best p (e0 :: h) s ∧ s.parmu = 0
  | (.again, s) => Weak p (e0 :: h) s ∧ s.parmu = 0
  | (.done, s) => Best p h s ∧ (s.ifull = 1 → IsAt p e0 s)
  | _ => True

theorem findBest_min (p : Par K) (s : St K) (hmu : s.parmu = 0) :
    ∀ j, 1 ≤ j → j ≤ p.np → s.datmat p.mp (findBest p s).2 ≤ s.datmat p.mp j := by
  have key : (findBest p s).1 = s.datmat p.mp (findBest p s).2 ∧
      (findBest p s).1 ≤ s.datmat p.mp p.np ∧ ∀ j, 1 ≤ j → j ≤ p.n → (findBest p s).1 ≤ s.datmat p.mp j := by
    unfold findBest
    refine up_inv (fun q (st : K × Nat) => st.1 = s.datmat p.mp st.2 ∧ st.1 ≤ s.datmat p.mp p.np ∧
      ∀ j, 1 ≤ j → j ≤ q → st.1 ≤ s.datmat p.mp j) p.n ⟨?_, ?_, by intros; omega⟩ ?_
    · dsimp only; rw [hmu, zero_mul, add_zero]
    · dsimp only; rw [hmu, zero_mul, add_zero]
    · intro k hk st ⟨i1, i2, i3⟩
      dsimp only
      rw [hmu, zero_mul, add_zero]
      by_cases h1 : s.datmat p.mp (k + 1) < st.1
      · rw [if_pos h1]
        refine ⟨rfl, h1.le.trans i2, fun j hj hj' => ?_⟩
        rcases Nat.lt_or_eq_of_le hj' with hlt | heq
        · exact h1.le.trans (i3 j hj (by omega))
        · rw [heq]
      · rw [if_neg h1]
        have i3' : ∀ j, 1 ≤ j → j ≤ k + 1 → st.1 ≤ s.datmat p.mp j := by
          intro j hj hj'
          rcases Nat.lt_or_eq_of_le hj' with hlt | heq
          · exact i3 j hj (by omega)
          · rw [heq]; exact not_lt.mp h1
        by_cases h2 : s.datmat p.mp (k + 1) = st.1 ∧ (0 : K) = 0
        · rw [if_pos h2]
          split_ifs
          · exact ⟨h2.1.symm, i2, i3'⟩
          · exact ⟨i1, i2, i3'⟩
        · rw [if_neg h2]
          exact ⟨i1, i2, i3'⟩
  obtain ⟨k1, k2, k3⟩ := key
  intro j hj hj'
  rw [← k1]
  by_cases h : j ≤ p.n
  · exact k3 j hj h
  · have : j = p.np := by simp only [Par.np] at *; omega
    rw [this]
    exact k2

theorem best_pole {p : Par K} {h : List (Eval K)} {s : St K} (H : Weak p h s) (hmu : s.parmu = 0) :
    Best p h (Cobyla.pole p s) ∧ (Cobyla.pole p s).parmu = 0 := by
  have hmin := findBest_min p s hmu
  obtain ⟨hb1, hb2⟩ := findBest_index p s
  unfold Cobyla.pole
  generalize (findBest p s).2 = b at hmin hb1 hb2
  dsimp only
  by_cases hb : b ≤ p.n
  · rw [if_pos hb]
    refine ⟨fun e he => ?_, hmu⟩
    obtain ⟨j, hj, hj', hle⟩ := H e he
    have hne : p.np ≠ b := by simp only [Par.np]; omega
    dsimp only
    rw [swap_datmat p.mpp p.np b hne]
    dsimp only
    rw [if_pos (by simp only [Par.mp, Par.mpp]; omega), if_neg hne, if_pos rfl]
    exact (hmin j hj hj').trans hle
  · rw [if_neg hb]
    have : b = p.np := by simp only [Par.np] at *; omega
    subst this
    refine ⟨fun e he => ?_, hmu⟩
    obtain ⟨j, hj, hj', hle⟩ := H e he
    exact (hmin j hj hj').trans hle

theorem opt_reduce {p : Par K} {h : List (Eval K)} {e0 : Eval K} {s : St K} (hw : Weak p (e0 :: h) s) (hb : Best p h s) (hmu : s.parmu = 0)
    (hat : s.ifull = 1 → IsAt p e0 s) : Opt p h e0 (reduce p s) := by
  unfold reduce
  by_cases h1 : s.iflag = 0
  · rw [if_pos h1]
    exact ⟨hw, hmu⟩
  · rw [if_neg h1]
    by_cases h2 : s.rho > p.rhoend
    · rw [if_pos h2]
      refine ⟨hw, ?_⟩
      show resetMu p s = 0
      unfold resetMu
      rw [if_neg (by rw [hmu]; exact lt_irrefl _)]
      exact hmu
    · rw [if_neg h2]
      exact ⟨hb, hat⟩

theorem opt_pass {p : Par K} {h : List (Eval K)} {e0 : Eval K} {s : St K} (T : St K → (Nat → K) × Nat) (hm : p.m = 0)
    (hw : Weak p (e0 :: h) s) (hmu : s.parmu = 0) (hf : Full p (e0 :: h) s) : Opt p h e0 (pass p T s) := by
  obtain ⟨b1, b2⟩ := best_pole hw hmu
  have hf1 := hf.switch
  unfold pass
  generalize Cobyla.pole p s = s1 at b1 b2 hf1
  unfold passPole
  by_cases herr : inverseError p.n s1.sim s1.simi > lit 1 10
  · rw [if_pos herr]; trivial
  rw [if_neg herr]
  have b0 : Best p h s1 := fun e he => b1 e (List.mem_cons_of_mem _ he)
  unfold branch
  by_cases hbr : (assess p { s1 with con := (linear p s1).1, a := (linear p s1).2 }).ibrnch = 1 ∨ (assess p { s1 with con := (linear p s1).1, a := (linear p s1).2 }).iflag = 1
  · rw [if_pos hbr]
    generalize hs2 : ({ assess p { s1 with con := (linear p s1).1, a := (linear p s1).2 } with dx := (T (assess p { s1 with con := (linear p s1).1, a := (linear p s1).2 })).1, ifull := (T (assess p { s1 with con := (linear p s1).1, a := (linear p s1).2 })).2 } : St K) = s2
    have c1 : s2.datmat = s1.datmat := by rw [← hs2]; rfl
    have c2 : s2.parmu = 0 := by rw [← hs2]; exact b2
    have c3 : Best p (e0 :: h) s2 := fun e he => by rw [c1]; exact b1 e he
    have c4 : Best p h s2 := fun e he => by rw [c1]; exact b0 e he
    have c5 : s2.datmat p.mpp p.np = 0 := by
      obtain ⟨e, -, -, -, -, h4⟩ := hf1.pole
      rw [c1, show s1.datmat p.mpp p.np = _ from h4.symm, hm]
      rfl
    clear hs2
    unfold trust
    by_cases hful : s2.ifull = 0 ∧ up p.n (fun i t => t + s2.dx i * s2.dx i) 0 < lit 1 4 * s2.rho * s2.rho
    · rw [if_pos hful]
      exact opt_reduce (s := { s2 with ibrnch := 1 }) c3.weak c4 c2 fun hh => absurd (hh.symm.trans hful.1) one_ne_zero
    · rw [if_neg hful]
      unfold increaseMu
      have hbar : barmu p { s2 with con := set1 s2.con p.mp 0 } = 0 := by
        have hpred : (predict p { s2 with con := set1 s2.con p.mp 0 }).1 = 0 := by
          unfold predict
          refine up_inv (fun _ (st : K × K) => st.1 = 0) p.mp rfl ?_
          intro k hk st hst
          dsimp only
          rw [if_neg (by simp only [Par.mp]; omega)]
          exact hst
        unfold barmu
        dsimp only
        rw [hpred, c5, sub_zero, if_neg (lt_irrefl _)]
      have hlt : ¬ (({ s2 with con := set1 s2.con p.mp 0 } : St K).parmu < lit 3 2 * barmu p { s2 with con := set1 s2.con p.mp 0 }) := by
        rw [hbar, mul_zero]
        show ¬ s2.parmu < 0
        rw [c2]
        exact lt_irrefl _
      rw [if_neg hlt]
      unfold trial
      split_ifs
      · exact ⟨c3.weak, c2⟩
      · exact ⟨c3, c2⟩
  · rw [if_neg hbr]
    unfold newVertex
    dsimp only
    split_ifs
    · trivial
    · exact ⟨b1, b2⟩

/-- The replies at the same point are the same. -/
def Fun (p : Par K) (h : List (Eval K)) : Prop :=
  ∀ e ∈ h, ∀ e' ∈ h, (∀ i, 1 ≤ i → i ≤ p.n → e.x i = e'.x i) → e.f = e'.f

theorem chooseDrop_zero (p : Par K) (trured : K) (s : St K) (h : (chooseDrop p trured s).2.1 = 0) (ht : 0 < trured) :
    ∀ j, 1 ≤ j → j ≤ p.n → inner p.n s.simi s.dx j = 0 := by
  have key : (chooseDrop p trured s).2.1 = 0 → (chooseDrop p trured s).1 = 0 ∧ ∀ j, 1 ≤ j → j ≤ p.n → inner p.n s.simi s.dx j = 0 := by
    unfold chooseDrop
    refine up_inv (fun q (st : K × Nat × (Nat → K)) => st.2.1 = 0 → st.1 = 0 ∧ ∀ j, 1 ≤ j → j ≤ q → inner p.n s.simi s.dx j = 0) p.n ?_ ?_
    · intro _
      refine ⟨?_, by intros; omega⟩
      dsimp only
      rw [if_neg (not_le.mpr ht)]
    · intro k hk st ih
      dsimp only
      by_cases h1 : fabs (inner p.n s.simi s.dx (k + 1)) > st.1
      · rw [if_pos h1]
        intro h2
        exact absurd h2 (Nat.succ_ne_zero k)
      · rw [if_neg h1]
        intro h2
        obtain ⟨i1, i2⟩ := ih h2
        refine ⟨i1, fun j hj hj' => ?_⟩
        rcases Nat.lt_or_eq_of_le hj' with hlt | heq
        · exact i2 j hj (by omega)
        · rw [heq]
          rw [i1, ExactMath.fabs_eq] at h1
          exact abs_nonpos_iff.mp (not_lt.mp h1)
  exact (key h).2

theorem opt_judge {p : Par K} {h : List (Eval K)} {s : St K} {e0 : Eval K} (hm : p.m = 0) (hf : Full p h s)
    (hfun : Fun p (e0 :: h)) (hx : ∀ i, 1 ≤ i → i ≤ p.n → e0.x i = s.sim i p.np + s.dx i)
    (hcon : s.con p.mp = e0.f) (hsf : IsAt p e0 s) (hres : s.resmax = 0) (hb : Best p h s) (hmu : s.parmu = 0) :
    Opt p h e0 (judge p s) := by
  have hpole0 : s.datmat p.mpp p.np = 0 := by
    obtain ⟨e, -, -, -, -, h4⟩ := hf.pole
    rw [show s.datmat p.mpp p.np = _ from h4.symm, hm]
    rfl
  have htr : (reduction p s).1 = s.datmat p.mp p.np - e0.f := by
    unfold reduction
    dsimp only
    rw [hmu, hpole0, hres, hsf.2]
    by_cases h1 : e0.f = s.datmat p.mp p.np
    · rw [if_pos ⟨rfl, h1⟩, h1]
      dsimp only
      ring
    · rw [if_neg (by tauto)]
      dsimp only
      ring
  unfold judge
  generalize (reduction p s).2 = prerem
  generalize (reduction p s).1 = trured at htr
  have hdrop := chooseDrop_zero p trured { s with prerem := prerem }
  have hd1 := (chooseDrop_spec p trured { s with prerem := prerem }).1
  have hf1 := chooseFar_spec p trured (chooseDrop p trured { s with prerem := prerem }).2.2 { s with prerem := prerem }
  unfold judgeStep
  dsimp only
  generalize chooseDrop p trured { s with prerem := prerem } = drop at hdrop hd1 hf1
  generalize chooseFar p trured drop.2.2 { s with prerem := prerem } = far at hf1
  by_cases h0 : (if far.2 > 0 then far.2 else drop.2.1) = 0
  · rw [if_pos h0]
    have hall : Best p (e0 :: h) s := by
      intro e he
      rcases List.mem_cons.mp he with rfl | he
      · by_contra hlt
        rw [not_le] at hlt
        have ht : 0 < trured := by rw [htr]; linarith
        have hd0 : drop.2.1 = 0 := by
          by_cases hfar : far.2 > 0
          · rw [if_pos hfar] at h0; omega
          · rwa [if_neg hfar] at h0
        have hz := hf.inv.solve s.dx (hdrop hd0 ht)
        obtain ⟨e', he', k1, -, k3, -⟩ := hf.pole
        have := hfun e List.mem_cons_self e' (List.mem_cons_of_mem _ he') fun i hi hi' => by
          rw [hx i hi hi', hz i hi hi', add_zero, k1 i hi hi']
        rw [this, k3] at hlt
        exact absurd hlt (lt_irrefl _)
      · exact hb e he
    exact opt_reduce (s := { s with prerem := prerem, sigbar := drop.2.2, jdrop := _ }) hall.weak (fun e he => hb e he) hmu fun _ => hsf
  · rw [if_neg h0]
    have hle : (if far.2 > 0 then far.2 else drop.2.1) ≤ p.n := by
      by_cases hfar : far.2 > 0
      · rw [if_pos hfar]; exact (hf1 hfar).1
      · rw [if_neg hfar] at h0 ⊢; exact (hd1 h0).2.1
    generalize (if far.2 > 0 then far.2 else drop.2.1) = jd at h0 hle
    have hbest : ∀ s' : St K, s'.datmat = store p.mpp s.con jd s.datmat → Best p h s' := by
      intro s' hs' e he
      rw [hs', store_eq]
      dsimp only
      rw [if_neg (by simp only [Par.np]; omega)]
      exact hb e he
    have hweak : ∀ s' : St K, s'.datmat = store p.mpp s.con jd s.datmat → Weak p (e0 :: h) s' := by
      intro s' hs' e he
      rcases List.mem_cons.mp he with rfl | he
      · refine ⟨jd, Nat.pos_of_ne_zero h0, by simp only [Par.np]; omega, ?_⟩
        rw [hs', store_eq]
        dsimp only
        rw [if_pos ⟨⟨by simp only [Par.mp]; omega, by simp only [Par.mp, Par.mpp]; omega⟩, rfl⟩, hcon]
      · exact (hbest s' hs').weak e he
    split_ifs
    · exact ⟨hweak _ rfl, hmu⟩
    · exact opt_reduce (hweak _ rfl) (hbest _ rfl) hmu fun _ => hsf

theorem exchange_pole (p : Par K) (s : St K) (hj : s.jdrop ≤ p.n) :
    (exchange p s).datmat p.mp p.np = if s.datmat p.mp p.np ≤ s.f then s.datmat p.mp p.np else s.con p.mp := by
  unfold exchange
  rw [if_pos hj]
  by_cases hle : s.datmat p.mp p.np ≤ s.f
  · rw [if_pos hle, if_pos hle]
  · rw [if_neg hle, if_neg hle]
    dsimp only
    refine up_inv (fun q (w : Nat → Nat → K) => p.mp ≤ q → w p.mp p.np = s.con p.mp) p.mpp (fun h => absurd h (by simp [Par.mp])) ?_ (by simp only [Par.mp, Par.mpp]; omega)
    intro k hk w ih hk'
    by_cases h1 : p.mp = k + 1
    · rw [set2, if_pos ⟨h1, rfl⟩, h1]
    · rw [set2, if_neg (by tauto), set2, if_neg (by tauto)]
      exact ih (by omega)

theorem opt_newEval {p : Par K} {h : List (Eval K)} {s : St K} (hp : 1 ≤ p.n) (hm : p.m = 0) (f : K) (c : Nat → K) (H : Wait p h s)
    (hlen : s.nfvals = h.length) (hfun : Fun p (⟨s.x, f, c⟩ :: h)) (hb : Best p h s) (hmu : s.parmu = 0) :
    Opt p h ⟨s.x, f, c⟩ (newEval p f c s) := by
  have hcf : (record p f c s).con p.mp = f := (record_con p f c s).2.1
  have r0 : (record p f c s).resmax = 0 := by
    show worst p.m c = 0
    rw [hm]; rfl
  have r1 : (record p f c s).sim = s.sim := rfl
  have r2 : (record p f c s).simi = s.simi := rfl
  have r3 : (record p f c s).datmat = s.datmat := rfl
  have r4 : (record p f c s).ibrnch = s.ibrnch := rfl
  have r5 : (record p f c s).jdrop = s.jdrop := rfl
  have r6 : (record p f c s).nfvals = s.nfvals + 1 := rfl
  have r7 : (record p f c s).x = s.x := rfl
  have r9 : (record p f c s).f = f := rfl
  have r10 : (record p f c s).dx = s.dx := rfl
  have r11 : (record p f c s).parmu = s.parmu := rfl
  unfold newEval
  generalize record p f c s = s1 at *
  have hmp : 1 ≤ p.mp ∧ p.mp ≤ p.mpp := by simp only [Par.mp, Par.mpp]; omega
  unfold place
  -- a vertex has been evaluated
  have hvertex : (h = [] ∧ s.jdrop = p.np ∧ s.nfvals = 0) ∨ s.jdrop ≤ p.n → 1 ≤ s.jdrop → s.ibrnch = 0 →
      Opt p h ⟨s.x, f, c⟩ (if s1.ibrnch = 1 then judge p s1 else complete p { s1 with datmat := store p.mpp s1.con s1.jdrop s1.datmat }) := by
    intro hcase hj1 hb0
    rw [if_neg (by omega)]
    generalize hs2 : ({ s1 with datmat := store p.mpp s1.con s1.jdrop s1.datmat } : St K) = s2
    have c3 : s2.datmat = store p.mpp s1.con s.jdrop s.datmat := by rw [← hs2]; dsimp only; rw [r3, r5]
    have c4 : s2.con p.mp = f := by rw [← hs2]; exact hcf
    have c5 : s2.jdrop = s.jdrop := by rw [← hs2]; exact r5
    have c6 : s2.nfvals = s.nfvals + 1 := by rw [← hs2]; exact r6
    have c9 : s2.f = f := by rw [← hs2]; exact r9
    have c11 : s2.parmu = 0 := by rw [← hs2]; exact r11.trans hmu
    clear hs2
    have hw : Weak p (⟨s.x, f, c⟩ :: h) s2 := by
      intro e he
      rcases List.mem_cons.mp he with rfl | he
      · refine ⟨s.jdrop, hj1, ?_, ?_⟩
        · rcases hcase with hc | hc
          · exact hc.2.1.le
          · simp only [Par.np]; omega
        · rw [c3, store_eq]
          dsimp only
          rw [if_pos ⟨hmp, rfl⟩, hcf]
      · rcases hcase with hc | hc
        · rw [hc.1] at he; exact absurd he List.not_mem_nil
        · refine ⟨p.np, by simp only [Par.np]; omega, le_rfl, ?_⟩
          rw [c3, store_eq]
          dsimp only
          rw [if_neg (by simp only [Par.np]; omega)]
          exact hb e he
    unfold complete
    by_cases hn : s2.nfvals > p.np
    · rw [if_pos hn]
      exact ⟨hw, c11⟩
    · rw [if_neg hn]
      have hbest : Best p (⟨s.x, f, c⟩ :: h) (exchange p s2) ∧ (exchange p s2).parmu = 0 := by
        refine ⟨?_, by unfold exchange; split_ifs <;> exact c11⟩
        rcases hcase with hc | hc
        · have hex : exchange p s2 = s2 := by
            unfold exchange
            rw [if_neg (by rw [c5, hc.2.1]; simp only [Par.np]; omega)]
          rw [hex, hc.1]
          intro e he
          obtain rfl := List.mem_singleton.mp he
          rw [c3, store_eq, hc.2.1]
          dsimp only
          rw [if_pos ⟨hmp, rfl⟩, hcf]
        · have hold : s2.datmat p.mp p.np = s.datmat p.mp p.np := by
            rw [c3, store_eq]
            dsimp only
            rw [if_neg (by simp only [Par.np]; omega)]
          intro e he
          rw [exchange_pole p s2 (by omega), hold, c9, c4]
          rcases List.mem_cons.mp he with rfl | he
          · split_ifs with hle
            · exact hle
            · exact le_rfl
          · split_ifs with hle
            · exact hb e he
            · exact (not_le.mp hle).le.trans (hb e he)
      generalize exchange p s2 = s3 at hbest
      unfold nextVertex
      split_ifs
      · exact hbest
      · exact ⟨hbest.1.weak, hbest.2⟩
  cases H with
  | first h0 hb0 hj => exact hvertex (Or.inl ⟨List.length_eq_zero_iff.mp (hlen ▸ h0), hj, h0⟩) (by simp only [hj, Par.np]; omega) hb0
  | simplex h0 h1 hb0 hj => exact hvertex (Or.inr (by omega)) (by omega) hb0
  | vertex h1 hb0 hj hj' => exact hvertex (Or.inr hj') hj hb0
  | trial h1 hb0 full hsig hv hx =>
    rw [if_pos (r4.trans hb0)]
    refine opt_judge hm (full.congr r1 r2 r3) hfun ?_ hcf ⟨fun i _ _ => by rw [r7], r9⟩ r0 ?_ (r11.trans hmu)
    · intro i hi hi'
      rw [r1, r10]
      exact hx i hi hi'
    · intro e he
      rw [r3]
      exact hb e he

theorem opt_passes {p : Par K} {h : List (Eval K)} {e0 : Eval K} (T : St K → (Nat → K) × Nat)
    (hsqrt : ∀ a : K, 0 ≤ a → 0 ≤ CMath.sqrt a ∧ CMath.sqrt a * CMath.sqrt a = a) (hend : 0 < p.rhoend) (hm : p.m = 0) (fuel : Nat)
    (js : Jump × St K) (H : After p (e0 :: h) js) (hrho : 0 < js.2.rho) (ho : Opt p h e0 js) :
    Opt p h e0 (passes p T fuel js) := by
  induction fuel generalizing js with
  | zero => exact ho
  | succ fuel ih =>
    obtain ⟨j, s⟩ := js
    cases j with
    | again =>
      obtain ⟨a1, a2, a3⟩ := H
      have h1 := after_pass T hsqrt a3 a1 a2 hrho
      obtain ⟨-, ⟨k, h2⟩, -, -⟩ := kept_pass p T s
      exact ih _ h1 (reduced_pos hend hrho h2) (opt_pass T hm ho.1 ho.2 a1)
    | call => exact ho
    | best e => exact ho
    | done => exact ho
    | wrong => exact ho

/-- What happens between two evaluations when there are no constraints. -/
theorem resume_best {p : Par K} {h : List (Eval K)} {s : St K} (T : St K → (Nat → K) × Nat)
    (hsqrt : ∀ a : K, 0 ≤ a → 0 ≤ CMath.sqrt a ∧ CMath.sqrt a * CMath.sqrt a = a) (hp : 1 ≤ p.n) (hend : 0 < p.rhoend)
    (hrho : 0 < s.rho) (hm : p.m = 0) (fuel : Nat) (f : K) (c : Nat → K) (H : Wait p h s)
    (hlen : s.nfvals = h.length) (hfun : Fun p (⟨s.x, f, c⟩ :: h)) (hb : Best p h s) (hmu : s.parmu = 0)
    (e : Status) (s' : St K) (hr : resume p T fuel f c s = some (e, s')) :
    (e = .iterate ∧ Best p (⟨s.x, f, c⟩ :: h) s' ∧ s'.parmu = 0) ∨
    (e = .tooManyEvaluations ∧ ∀ e ∈ (⟨s.x, f, c⟩ : Eval K) :: h, s'.f ≤ e.f) ∨
    (e = .success ∧ (IsAt p ⟨s.x, f, c⟩ s' ∨ ∀ e ∈ h, s'.f ≤ e.f)) := by
  have h1 := after_newEval hp f c H
  have h2 := opt_newEval hp hm f c H hlen hfun hb hmu
  obtain ⟨-, ⟨k, h3⟩, -, -⟩ := kept_newEval p f c s
  have h4 := after_passes T hsqrt hend fuel _ h1 (reduced_pos hend hrho h3)
  have h5 := opt_passes T hsqrt hend hm fuel _ h1 (reduced_pos hend hrho h3) h2
  unfold resume at hr
  generalize passes p T fuel (newEval p f c s) = js at h4 h5 hr
  obtain ⟨j, s1⟩ := js
  cases j with
  | call =>
    simp only [settle] at hr
    split_ifs at hr with hc
    · simp only [Option.some.injEq, Prod.mk.injEq] at hr
      obtain ⟨rfl, rfl⟩ := hr
      exact Or.inr (Or.inl ⟨rfl, fun e he => h5.1 e he⟩)
    · simp only [Option.some.injEq, Prod.mk.injEq] at hr
      obtain ⟨rfl, rfl⟩ := hr
      exact Or.inl ⟨rfl, h5⟩
  | best e' => exact h4.1.elim
  | done =>
    simp only [settle, Option.some.injEq, Prod.mk.injEq] at hr
    obtain ⟨rfl, rfl⟩ := hr
    refine Or.inr (Or.inr ⟨rfl, ?_⟩)
    split_ifs with hf
    · exact Or.inr fun e he => h5.1 e he
    · exact Or.inl (h5.2 (not_not.mp hf))
  | again => simp [settle] at hr
  | wrong => exact h4.1.elim

/-- **C67**: without constraints, in exact arithmetic, for any step `T` and for any sequence of
calls which leave `x` unchanged and whose replies are those of a function of `x`:
* when the budget is exhausted, the returned function value is the least of all the values;
* on success, either the last evaluated point is returned, or the returned value is the least of
  all the values but the last one. -/
theorem cobyla_best (hsqrt : ∀ a : K, 0 ≤ a → 0 ≤ CMath.sqrt a ∧ CMath.sqrt a * CMath.sqrt a = a)
    {n : Int} {rhobeg rhoend : K} {maxfun : Int} {room : Bool} {ok : Par K → (St K → (Nat → K) × Nat) → Prop} {ctx0 ctx : Ctx K} {h : List (Eval K)}
    (h0 : create n 0 rhobeg rhoend maxfun room = some ctx0) (H : Obey ok ctx0 h ctx) (hfun : Fun ctx.par h) :
    (ctx.status = .tooManyEvaluations → ∀ e ∈ h, ctx.st.f ≤ e.f) ∧
    (ctx.status = .success → ∃ e0 h', h = e0 :: h' ∧ (IsAt ctx.par e0 ctx.st ∨ ∀ e ∈ h', ctx.st.f ≤ e.f)) := by
  have hcx := fun {ctx : Ctx K} {h : List (Eval K)} (H : Obey ok ctx0 h ctx) => cobyla_exact hsqrt h0 H
  have h0' := h0
  unfold create at h0
  by_cases hc : n < 1 ∨ (0 : Int) < 0 ∨ rhobeg < rhoend ∨ rhoend ≤ 0 ∨ maxfun < 1
  · rw [if_pos hc] at h0; simp at h0
  rw [if_neg hc] at h0
  cases room with
  | false => simp at h0
  | true =>
  simp only [Bool.not_true, Bool.false_eq_true, if_false, Option.some.injEq] at h0
  have hn : 1 ≤ n.toNat := by
    have : ¬ n < 1 := fun h => hc (Or.inl h)
    omega
  have hp : 0 < rhoend := by by_contra hh; exact hc (by right; right; right; left; exact not_lt.mp hh)
  have hle : rhoend ≤ rhobeg := by by_contra hh; exact hc (by right; right; left; exact not_le.mp hh)
  have key : ctx.par = ⟨n.toNat, 0, rhobeg, rhoend, maxfun⟩ ∧ (h ≠ [] → 0 < ctx.st.rho) ∧
      (ctx.status = .iterate → h ≠ [] → Best ctx.par h ctx.st ∧ ctx.st.parmu = 0) ∧
      (ctx.status = .tooManyEvaluations → ∀ e ∈ h, ctx.st.f ≤ e.f) ∧
      (ctx.status = .success → ∃ e0 h', h = e0 :: h' ∧ (IsAt ctx.par e0 ctx.st ∨ ∀ e ∈ h', ctx.st.f ≤ e.f)) := by
    induction H with
    | start =>
      subst h0
      exact ⟨rfl, fun h => absurd rfl h, fun _ h => absurd rfl h, fun h => by simp at h, fun h => by simp at h⟩
    | @iterate c1 c2 h H1 T fuel f x c e hT hx hs hc1 hr ih =>
      obtain ⟨e1, -, e3, -⟩ := hcx H1
      have hpar : c2.par = c1.par := by
        obtain ⟨c', h1, -, h3, -⟩ := cobyla_protocol hr
        rw [Option.some.inj h1]; exact h3
      have hfun1 : Fun c1.par (⟨x, f, c.getD fun _ => 0⟩ :: h) := by rw [← hpar]; exact hfun
      obtain ⟨i0, i1, i2, -⟩ := ih fun a ha b hb => hfun1 a (List.mem_cons_of_mem _ ha) b (List.mem_cons_of_mem _ hb)
      rcases iterate_cases hr with ⟨hbad, -, -⟩ | ⟨-, h2, hbad⟩ | ⟨x', s', hx', hst, hres, h2⟩
      · exfalso
        obtain ⟨_, -, -, -, h4, -⟩ := cobyla_protocol hr
        obtain ⟨-, h5⟩ := h4 ⟨hs, by simp, hc1⟩
        rw [hbad] at h5
        simp at h5
      · exact absurd hs hbad
      · obtain rfl := Option.some.inj h2
        obtain rfl := Option.some.inj hx'
        generalize hs0 : (if c1.st.nfvals = 0 then init c1.par x c1.st else { c1.st with x := x }) = s0 at hres
        have hw : Wait c1.par h s0 ∧ 0 < s0.rho ∧ s0.nfvals = h.length ∧ s0.x = x ∧ Best c1.par h s0 ∧ s0.parmu = 0 := by
          rw [← hs0]
          by_cases hz : c1.st.nfvals = 0
          · rw [if_pos hz]
            have hnil : h = [] := List.length_eq_zero_iff.mp (by rw [← e1]; exact hz)
            refine ⟨wait_init c1.par ?_ x c1.st h, ?_, ?_, rfl, ?_, rfl⟩
            · rw [i0]; exact lt_of_lt_of_le hp hle
            · show 0 < c1.par.rhobeg
              rw [i0]; exact lt_of_lt_of_le hp hle
            · rw [hnil]; rfl
            · rw [hnil]
              intro e he
              exact absurd he List.not_mem_nil
          · rw [if_neg hz]
            have hne : h ≠ [] := fun hh => hz (by rw [e1, hh]; rfl)
            obtain ⟨b1, b2⟩ := i2 hs hne
            exact ⟨(e3 hs hne).caller x (hx hz), i1 hne, e1, rfl, b1, b2⟩
        obtain ⟨w1, w2, w3, w4, w5, w6⟩ := hw
        have hbest := resume_best T hsqrt (by rw [i0]; exact hn) (by rw [i0]; exact hp) w2 (by rw [i0]) fuel f (c.getD fun _ => 0) w1 w3
          (by rw [w4]; exact hfun1) w5 w6 e s' hres
        rw [w4] at hbest
        have hrho : 0 < s'.rho := by
          obtain ⟨-, ⟨l, r2⟩, -⟩ := resume_spec _ T fuel f _ _ e s' hres
          exact reduced_pos (by rw [i0]; exact hp) w2 r2
        refine ⟨i0, fun _ => hrho, fun hst' _ => ?_, fun hst' => ?_, fun hst' => ?_⟩
        all_goals
          rcases hbest with hh | hh | hh
        · exact hh.2
        · exact absurd (hh.1.symm.trans hst') (by simp)
        · exact absurd (hh.1.symm.trans hst') (by simp)
        · exact absurd (hh.1.symm.trans hst') (by simp)
        · exact hh.2
        · exact absurd (hh.1.symm.trans hst') (by simp)
        · exact absurd (hh.1.symm.trans hst') (by simp)
        · exact absurd (hh.1.symm.trans hst') (by simp)
        · exact ⟨_, h, rfl, hh.2⟩
    | @restart c1 c2 h H1 e hr ih =>
      have hpar : c1.par = ⟨n.toNat, 0, rhobeg, rhoend, maxfun⟩ := by
        have : ∀ {h c}, Obey ok ctx0 h c → c.par = ctx0.par := by
          intro h c hc
          induction hc with
          | start => rfl
          | iterate _ T fuel f x c e hT hx hs hc1 hr ih =>
            obtain ⟨c', h1, -, h3, -⟩ := cobyla_protocol hr
            rw [Option.some.inj h1, h3, ih]
          | restart _ e hr ih =>
            simp only [Cobyla.restart, Prod.mk.injEq, Option.some.injEq] at hr
            rw [← hr.2]
            exact ih
        rw [this H1, ← h0]
        rfl
      simp only [Cobyla.restart, Prod.mk.injEq, Option.some.injEq] at hr
      obtain ⟨-, rfl⟩ := hr
      exact ⟨hpar, fun h => absurd rfl h, fun _ h => absurd rfl h, fun h => by simp at h, fun h => by simp at h⟩
  exact key.2.2.2

end
end Opk.Cobyla
