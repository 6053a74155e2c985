import Verif.Cobyla.Calls
import Verif.Cobyla.Best
import Verif.Cobyla.Step
/-!
# COBYLA: where the points to evaluate are

With the step of `trstlp` (`Verif.Cobyla.Trstlp`), in exact arithmetic.
-/
set_option linter.unusedSectionVars false
set_option linter.unusedSimpArgs false
namespace Opk.Cobyla
open Linalg CMath

section
variable {K : Type} [Field K] [LinearOrder K] [IsStrictOrderedRing K] [CMath K] [ExactMath K]

/-- What the step of `trstlp` satisfies (`trstlp_spec`) in every state. -/
def TrustStep (p : Par K) (T : St K → (Nat → K) × Nat) : Prop :=
  ∀ s : St K, 0 < s.rho →
    ∑ i ∈ Finset.Icc 1 p.n, (T s).1 i * (T s).1 i ≤ (1 + (p.n + 2) / 1000000000000) * (s.rho * s.rho) ∧
    ((T s).2 = 0 ∨ ((T s).2 = 1 ∧ s.rho * s.rho ≤ ∑ i ∈ Finset.Icc 1 p.n, (T s).1 i * (T s).1 i)) ∧
    ∀ v, 0 ≤ v → (∀ c, 1 ≤ c → c ≤ p.m → s.con c ≤ v) →
      ∀ c, 1 ≤ c → c ≤ p.m → s.con c - ∑ i ∈ Finset.Icc 1 p.n, s.a i c * (T s).1 i ≤ v

/-- The step of the code, `src/cobyla.c:791-792`: at most `fuel` jumps in `trstlp`; no move if it
does not end or in the case of `trstlp_defined`. -/
def lpT (fuel : Nat) (p : Par K) (s : St K) : (Nat → K) × Nat :=
  match trstlp (Lp.of p s) fuel zeroTr with
  | some u => (u.dx, u.ifull)
  | none => (fun _ => 0, 0)

/-- The step of the code does. -/
theorem trustStep_lpT (hsqrt : ∀ a : K, 0 ≤ a → 0 ≤ CMath.sqrt a ∧ CMath.sqrt a * CMath.sqrt a = a) (fuel : Nat) (p : Par K) :
    TrustStep p (lpT fuel p) := by
  intro s hs
  unfold lpT
  cases h : trstlp (Lp.of p s) fuel zeroTr with
  | some u => exact trstlp_spec hsqrt (q := Lp.of p s) hs h
  | none =>
    refine ⟨?_, Or.inl rfl, fun v _ hb c h1 h2 => ?_⟩
    · simp only [mul_zero, Finset.sum_const_zero]
      have h1 : (0 : K) ≤ (p.n : K) := Nat.cast_nonneg _
      positivity
    · simp only [mul_zero, Finset.sum_const_zero, sub_zero]
      exact hb c h1 h2

/-- **C69** (specification): the point to evaluate is at a distance of one of the evaluations
between `RHO/2` and `RHO` (up to `10⁻¹²` per variable). -/
def Near (p : Par K) (h : List (Eval K)) (s : St K) : Prop :=
  ∃ e ∈ h, s.rho * s.rho / 4 ≤ ∑ i ∈ Finset.Icc 1 p.n, (s.x i - e.x i) * (s.x i - e.x i) ∧
    ∑ i ∈ Finset.Icc 1 p.n, (s.x i - e.x i) * (s.x i - e.x i) ≤ (1 + (p.n + 2) / 1000000000000) * (s.rho * s.rho)

/-- **C70** (specification): there are `n + 1` evaluations not in the same hyperplane, such that for
the affine functions which interpolate the constraints there, the greatest violation at the point to
evaluate is at most that of one of them. -/
def Promising (p : Par K) (h : List (Eval K)) (s : St K) : Prop :=
  ∃ e : Nat → Eval K, (∀ j, 1 ≤ j → j ≤ p.np → e j ∈ h) ∧
    (∃ simi, Inv p.n (fun i j => (e j).x i - (e p.np).x i) simi) ∧
    ∀ k, 1 ≤ k → k ≤ p.m → ∀ (g : Nat → K) (g0 : K),
      (∀ j, 1 ≤ j → j ≤ p.np → g0 + ∑ i ∈ Finset.Icc 1 p.n, g i * (e j).x i = (e j).c k) →
      -(g0 + ∑ i ∈ Finset.Icc 1 p.n, g i * s.x i) ≤ worst p.m (e p.np).c

/-- The linear models interpolate the constraints. -/
theorem linear_spec (p : Par K) (s : St K) (k : Nat) (h1 : 1 ≤ k) (h2 : k ≤ p.m) :
    (linear p s).1 k = -s.datmat k p.np ∧
    ∀ i, 1 ≤ i → i ≤ p.n → (linear p s).2 i k = ∑ j ∈ Finset.Icc 1 p.n, (s.datmat k j - s.datmat k p.np) * s.simi j i := by
  unfold linear
  have key : ∀ q, q ≤ p.mp → ∀ st : (Nat → K) × (Nat → Nat → K), st = up q (fun k (st : (Nat → K) × (Nat → Nat → K)) =>
      let con := set1 st.1 k (-s.datmat k p.np)
      let w := fun j => s.datmat k j + con k
      let a := up p.n (fun i a =>
        let temp := up p.n (fun j t => t + w j * s.simi j i) 0
        set2 a i k (if k = p.mp then -temp else temp)) st.2
      (con, a)) (s.con, s.a) → ∀ k, 1 ≤ k → k ≤ p.m → k ≤ q → st.1 k = -s.datmat k p.np ∧
        ∀ i, 1 ≤ i → i ≤ p.n → st.2 i k = ∑ j ∈ Finset.Icc 1 p.n, (s.datmat k j - s.datmat k p.np) * s.simi j i := by
    intro q hq st hst
    subst hst
    refine up_inv (fun q (st : (Nat → K) × (Nat → Nat → K)) => ∀ k, 1 ≤ k → k ≤ p.m → k ≤ q → st.1 k = -s.datmat k p.np ∧
        ∀ i, 1 ≤ i → i ≤ p.n → st.2 i k = ∑ j ∈ Finset.Icc 1 p.n, (s.datmat k j - s.datmat k p.np) * s.simi j i) q (by intros; omega) ?_
    intro q' hq' st ih k h1 h2 h3
    dsimp only
    rw [up_col p.n (q' + 1) (fun i _ => if q' + 1 = p.mp then -up p.n (fun j t => t + (s.datmat (q' + 1) j + set1 st.1 (q' + 1) (-s.datmat (q' + 1) p.np) (q' + 1)) * s.simi j i) 0
      else up p.n (fun j t => t + (s.datmat (q' + 1) j + set1 st.1 (q' + 1) (-s.datmat (q' + 1) p.np) (q' + 1)) * s.simi j i) 0)]
    by_cases hk : k = q' + 1
    · subst hk
      refine ⟨by simp [set1], fun i hi hi' => ?_⟩
      dsimp only
      rw [if_pos ⟨⟨hi, hi'⟩, rfl⟩, if_neg (by simp only [Par.mp]; omega), up_sum, zero_add]
      refine Finset.sum_congr rfl fun j _ => ?_
      simp only [set1, if_true]
      ring
    · obtain ⟨i1, i2⟩ := ih k h1 h2 (by omega)
      refine ⟨by simp only [set1]; rw [if_neg hk]; exact i1, fun i hi hi' => ?_⟩
      dsimp only
      rw [if_neg (by tauto)]
      exact i2 i hi hi'
  exact key p.mp le_rfl _ rfl k h1 h2 (by simp only [Par.mp]; omega)

theorem worst_ge (m : Nat) (c : Nat → K) : 0 ≤ worst m c ∧ ∀ k, 1 ≤ k → k ≤ m → -c k ≤ worst m c := by
  unfold worst
  refine up_inv (fun q (v : K) => 0 ≤ v ∧ ∀ k, 1 ≤ k → k ≤ q → -c k ≤ v) m ⟨le_rfl, by intros; omega⟩ ?_
  rintro q _ v ⟨h1, h2⟩
  by_cases h : v < -c (q + 1)
  · rw [if_pos h]
    refine ⟨h1.trans h.le, fun k hk hk' => ?_⟩
    by_cases e : k = q + 1
    · rw [e]
    · exact (h2 k hk (by omega)).trans h.le
  · rw [if_neg h]
    refine ⟨h1, fun k hk hk' => ?_⟩
    by_cases e : k = q + 1
    · rw [e]; exact not_lt.mp h
    · exact h2 k hk (by omega)

/-- The moment of a jump. -/
def Where (p : Par K) (h : List (Eval K)) : Jump × St K → Prop
  | (.call, s) => Near p h s ∧ (s.ibrnch = 1 → Promising p h s)
  | (.again, _) => True
  | (.done, _) => True
  | (.best _, _) => True
  | (.wrong, _) => True

theorem where_reduce (p : Par K) (h : List (Eval K)) (s : St K) : Where p h (reduce p s) := by
  unfold reduce
  split_ifs <;> trivial

theorem where_newVertex {p : Par K} {h : List (Eval K)} {s : St K} (hf : Full p h s)
    (hb : s.ibrnch = 0) (hv : ∀ j, 1 ≤ j → j ≤ p.n → s.vsig j * s.vsig j * ∑ i ∈ Finset.Icc 1 p.n, s.simi j i * s.simi j i = 1)
    (hjd : 1 ≤ dropVertex p s ∧ dropVertex p s ≤ p.n) : Where p h (newVertex p s) := by
  obtain ⟨j1, j2⟩ := hjd
  unfold newVertex
  dsimp only
  generalize dropVertex p s = jd at j1 j2
  rw [if_neg (by omega)]
  rw [up_set1 p.n (fun i _ => lit 1 2 * s.rho * s.vsig jd * s.simi jd i)]
  generalize hsg : stepSign p _ s = sg
  have hsg' : sg * sg = 1 := by
    rcases stepSign_ne p _ s with h1 | h1
    · rw [← hsg, h1]; ring
    · rw [← hsg, h1]; ring
  rw [up_set1 p.n (fun i v => v * sg)]
  generalize hdx : (fun k => if 1 ≤ k ∧ k ≤ p.n then (if 1 ≤ k ∧ k ≤ p.n then lit 1 2 * s.rho * s.vsig jd * s.simi jd k else s.dx k) * sg
      else (if 1 ≤ k ∧ k ≤ p.n then lit 1 2 * s.rho * s.vsig jd * s.simi jd k else s.dx k)) = dx
  have hdx' : ∀ k, 1 ≤ k → k ≤ p.n → dx k = lit 1 2 * s.rho * s.vsig jd * s.simi jd k * sg := by
    intro k hk hk'
    rw [← hdx]
    dsimp only
    rw [if_pos ⟨hk, hk'⟩, if_pos ⟨hk, hk'⟩]
  clear hdx hsg
  have hnp : p.np ≠ jd := by simp only [Par.np]; omega
  have hnpcol : ∀ i, (replace p.n jd dx (s.sim, s.simi)).1 i p.np = s.sim i p.np := by
    intro i
    rw [replace_sim p.n jd dx s.sim s.simi]
    dsimp only
    rw [if_neg (by tauto)]
  refine ⟨?_, fun hh => absurd (hh.symm.trans hb) one_ne_zero⟩
  obtain ⟨e, he, he1, -⟩ := hf.pole
  have hsum : ∑ i ∈ Finset.Icc 1 p.n, (up p.n (fun j x => set1 x j ((replace p.n jd dx (s.sim, s.simi)).1 j p.np + dx j)) s.x i - e.x i) *
      (up p.n (fun j x => set1 x j ((replace p.n jd dx (s.sim, s.simi)).1 j p.np + dx j)) s.x i - e.x i) = s.rho * s.rho / 4 := by
    rw [up_set1 p.n (fun j _ => (replace p.n jd dx (s.sim, s.simi)).1 j p.np + dx j)]
    have : ∀ i ∈ Finset.Icc 1 p.n, ((if 1 ≤ i ∧ i ≤ p.n then (replace p.n jd dx (s.sim, s.simi)).1 i p.np + dx i else s.x i) - e.x i) *
        ((if 1 ≤ i ∧ i ≤ p.n then (replace p.n jd dx (s.sim, s.simi)).1 i p.np + dx i else s.x i) - e.x i) =
        s.rho * s.rho / 4 * (s.vsig jd * s.vsig jd * (s.simi jd i * s.simi jd i)) := by
      intro i hi
      rw [Finset.mem_Icc] at hi
      rw [if_pos hi, hnpcol, he1 i hi.1 hi.2, hdx' i hi.1 hi.2, ExactMath.lit_eq]
      push_cast
      linear_combination (s.rho * s.rho / 4 * (s.vsig jd * s.vsig jd * (s.simi jd i * s.simi jd i))) * hsg'
    rw [Finset.sum_congr rfl this, ← Finset.mul_sum, ← Finset.mul_sum, hv jd j1 j2, mul_one]
  refine ⟨e, he, hsum.ge, hsum.le.trans ?_⟩
  have h1 : (0 : K) ≤ (p.n : K) := Nat.cast_nonneg _
  have h2 : 0 ≤ s.rho * s.rho := mul_self_nonneg _
  have h3 : 0 ≤ ((p.n : K) + 2) / 1000000000000 := by positivity
  have h4 := mul_nonneg h3 h2
  linarith

/-- Where the models of the constraints are. -/
structure Models (p : Par K) (s : St K) : Prop where
  con : ∀ k, 1 ≤ k → k ≤ p.m → s.con k = -s.datmat k p.np
  grad : ∀ k, 1 ≤ k → k ≤ p.m → ∀ i, 1 ≤ i → i ≤ p.n →
    s.a i k = ∑ j ∈ Finset.Icc 1 p.n, (s.datmat k j - s.datmat k p.np) * s.simi j i

theorem promising_trial {p : Par K} {h : List (Eval K)} {s : St K} (hf : Full p h s) (hm : Models p s)
    (hd : ∀ v, 0 ≤ v → (∀ c, 1 ≤ c → c ≤ p.m → s.con c ≤ v) →
      ∀ c, 1 ≤ c → c ≤ p.m → s.con c - ∑ i ∈ Finset.Icc 1 p.n, s.a i c * s.dx i ≤ v)
    (hx : ∀ i, 1 ≤ i → i ≤ p.n → s.x i = s.sim i p.np + s.dx i) : Promising p h s := by
  classical
  have hex : ∀ j, ∃ e : Eval K, 1 ≤ j → j ≤ p.np → e ∈ h ∧
      (∀ i, 1 ≤ i → i ≤ p.n → e.x i = s.sim i p.np + (if j = p.np then 0 else s.sim i j)) ∧
      (∀ k, 1 ≤ k → k ≤ p.m → e.c k = s.datmat k j) ∧ worst p.m e.c = s.datmat p.mpp j := by
    intro j
    by_cases hj : 1 ≤ j ∧ j ≤ p.np
    · by_cases hj' : j = p.np
      · obtain ⟨e, e0, e1, e2, -, e4⟩ := hf.pole
        subst hj'
        exact ⟨e, fun _ _ => ⟨e0, fun i hi hi' => by rw [if_pos rfl, add_zero]; exact e1 i hi hi', e2, e4⟩⟩
      · obtain ⟨e, e0, e1, e2, -, e4⟩ := hf.vert j hj.1 (by have := hj.2; simp only [Par.np] at this hj'; omega)
        exact ⟨e, fun _ _ => ⟨e0, fun i hi hi' => by rw [if_neg hj']; exact e1 i hi hi', e2, e4⟩⟩
    · exact ⟨⟨fun _ => 0, 0, fun _ => 0⟩, fun h1 h2 => absurd ⟨h1, h2⟩ hj⟩
  choose e he using hex
  have hnp : 1 ≤ p.np := by simp only [Par.np]; omega
  obtain ⟨p0, p1, p2, p3⟩ := he p.np hnp le_rfl
  have hed : ∀ j, 1 ≤ j → j ≤ p.n → ∀ i, 1 ≤ i → i ≤ p.n → (e j).x i - (e p.np).x i = s.sim i j := by
    intro j hj hj' i hi hi'
    obtain ⟨-, v1, -⟩ := he j hj (by simp only [Par.np]; omega)
    rw [v1 i hi hi', p1 i hi hi', if_pos rfl, if_neg (by simp only [Par.np]; omega)]
    ring
  refine ⟨e, fun j h1 h2 => (he j h1 h2).1, ⟨s.simi, ?_⟩, ?_⟩
  · intro i j hi hi' hj hj'
    rw [← hf.inv i j hi hi' hj hj']
    refine Finset.sum_congr rfl fun k hk => ?_
    rw [Finset.mem_Icc] at hk
    dsimp only
    rw [hed j hj hj' k hk.1 hk.2]
  · intro k hk hk' g g0 hg
    have hpole := hg p.np hnp le_rfl
    rw [p2 k hk hk'] at hpole
    have hgi : ∀ i, 1 ≤ i → i ≤ p.n → s.a i k = g i := by
      intro i hi hi'
      rw [hm.grad k hk hk' i hi hi']
      have h1 : ∀ j ∈ Finset.Icc 1 p.n, (s.datmat k j - s.datmat k p.np) * s.simi j i =
          ∑ l ∈ Finset.Icc 1 p.n, g l * (s.sim l j * s.simi j i) := by
        intro j hj
        rw [Finset.mem_Icc] at hj
        have hj1 := hg j hj.1 (by simp only [Par.np]; omega)
        obtain ⟨-, -, v2, -⟩ := he j hj.1 (by simp only [Par.np]; omega)
        rw [v2 k hk hk'] at hj1
        rw [← hj1, ← hpole]
        have : g0 + ∑ i ∈ Finset.Icc 1 p.n, g i * (e j).x i - (g0 + ∑ i ∈ Finset.Icc 1 p.n, g i * (e p.np).x i) =
            ∑ l ∈ Finset.Icc 1 p.n, g l * s.sim l j := by
          rw [add_sub_add_left_eq_sub, ← Finset.sum_sub_distrib]
          refine Finset.sum_congr rfl fun l hl => ?_
          rw [Finset.mem_Icc] at hl
          rw [← hed j hj.1 hj.2 l hl.1 hl.2]
          ring
        rw [this, Finset.sum_mul]
        exact Finset.sum_congr rfl fun l _ => by ring
      rw [Finset.sum_congr rfl h1, Finset.sum_comm]
      have h2 : ∀ l ∈ Finset.Icc 1 p.n, ∑ j ∈ Finset.Icc 1 p.n, g l * (s.sim l j * s.simi j i) = if l = i then g l else 0 := by
        intro l hl
        rw [Finset.mem_Icc] at hl
        rw [← Finset.mul_sum, hf.inv.right l i hl.1 hl.2 hi hi']
        split_ifs <;> simp
      rw [Finset.sum_congr rfl h2, Finset.sum_ite_eq', if_pos (Finset.mem_Icc.mpr ⟨hi, hi'⟩)]
    obtain ⟨w1, w2⟩ := worst_ge p.m (e p.np).c
    have := hd (worst p.m (e p.np).c) w1 (fun c h1 h2 => by rw [hm.con c h1 h2, ← p2 c h1 h2]; exact w2 c h1 h2) k hk hk'
    refine le_of_eq_of_le ?_ this
    rw [hm.con k hk hk', ← hpole]
    have h3 : ∑ i ∈ Finset.Icc 1 p.n, g i * s.x i = ∑ i ∈ Finset.Icc 1 p.n, g i * (e p.np).x i + ∑ i ∈ Finset.Icc 1 p.n, s.a i k * s.dx i := by
      rw [← Finset.sum_add_distrib]
      refine Finset.sum_congr rfl fun i hi => ?_
      rw [Finset.mem_Icc] at hi
      rw [hx i hi.1 hi.2, p1 i hi.1 hi.2, if_pos rfl, hgi i hi.1 hi.2]
      ring
    rw [h3]
    ring

theorem where_trial {p : Par K} {h : List (Eval K)} {s : St K} (raised : Bool) (sum : K) (hf : Full p h s) (hm : Models p s)
    (hge : s.rho * s.rho / 4 ≤ ∑ i ∈ Finset.Icc 1 p.n, s.dx i * s.dx i)
    (hle : ∑ i ∈ Finset.Icc 1 p.n, s.dx i * s.dx i ≤ (1 + (p.n + 2) / 1000000000000) * (s.rho * s.rho))
    (hd : ∀ v, 0 ≤ v → (∀ c, 1 ≤ c → c ≤ p.m → s.con c ≤ v) →
      ∀ c, 1 ≤ c → c ≤ p.m → s.con c - ∑ i ∈ Finset.Icc 1 p.n, s.a i c * s.dx i ≤ v) : Where p h (trial p raised sum s) := by
  unfold trial
  split_ifs with h2
  · trivial
  · have hx : ∀ i, 1 ≤ i → i ≤ p.n → (up p.n (fun i x => set1 x i (s.sim i p.np + s.dx i)) s.x) i = s.sim i p.np + s.dx i := by
      intro i h3 h4
      rw [up_set1 p.n (fun i _ => s.sim i p.np + s.dx i)]
      dsimp only
      rw [if_pos ⟨h3, h4⟩]
    refine ⟨?_, fun _ => ?_⟩
    · obtain ⟨e, he, he1, -⟩ := hf.pole
      have hsum : ∑ i ∈ Finset.Icc 1 p.n, ((up p.n (fun i x => set1 x i (s.sim i p.np + s.dx i)) s.x) i - e.x i) * ((up p.n (fun i x => set1 x i (s.sim i p.np + s.dx i)) s.x) i - e.x i) =
          ∑ i ∈ Finset.Icc 1 p.n, s.dx i * s.dx i := by
        refine Finset.sum_congr rfl fun i hi => ?_
        rw [Finset.mem_Icc] at hi
        rw [hx i hi.1 hi.2, he1 i hi.1 hi.2]
        ring
      exact ⟨e, he, by rw [← hsum] at hge; exact hge, by rw [← hsum] at hle; exact hle⟩
    · exact promising_trial (hf.congr rfl rfl rfl) ⟨hm.con, hm.grad⟩ hd hx

theorem where_trust {p : Par K} {h : List (Eval K)} {s : St K} (hf : Full p h s) (hm : Models p s)
    (hle : ∑ i ∈ Finset.Icc 1 p.n, s.dx i * s.dx i ≤ (1 + (p.n + 2) / 1000000000000) * (s.rho * s.rho))
    (hi : s.ifull = 0 ∨ (s.ifull = 1 ∧ s.rho * s.rho ≤ ∑ i ∈ Finset.Icc 1 p.n, s.dx i * s.dx i))
    (hd : ∀ v, 0 ≤ v → (∀ c, 1 ≤ c → c ≤ p.m → s.con c ≤ v) →
      ∀ c, 1 ≤ c → c ≤ p.m → s.con c - ∑ i ∈ Finset.Icc 1 p.n, s.a i c * s.dx i ≤ v) : Where p h (trust p s) := by
  unfold trust
  rw [up_sum, zero_add]
  by_cases h1 : s.ifull = 0 ∧ ∑ i ∈ Finset.Icc 1 p.n, s.dx i * s.dx i < lit 1 4 * s.rho * s.rho
  · rw [if_pos h1]; exact where_reduce _ _ _
  · rw [if_neg h1]
    have hge : s.rho * s.rho / 4 ≤ ∑ i ∈ Finset.Icc 1 p.n, s.dx i * s.dx i := by
      rcases hi with hi | ⟨-, hi⟩
      · have h3 := not_lt.mp fun hh => h1 ⟨hi, hh⟩
        rw [ExactMath.lit_eq] at h3
        push_cast at h3
        linarith
      · have := mul_self_nonneg s.rho
        linarith
    have hset : ∀ c, 1 ≤ c → c ≤ p.m → set1 s.con p.mp 0 c = s.con c := by
      intro c _ h4
      simp only [set1]
      rw [if_neg (by simp only [Par.mp]; omega)]
    unfold increaseMu
    refine where_trial _ _ (hf.congr rfl rfl rfl) ⟨fun k h3 h4 => (hset k h3 h4).trans (hm.con k h3 h4), hm.grad⟩ hge hle ?_
    intro v hv hb c h3 h4
    dsimp only at hb ⊢
    rw [hset c h3 h4]
    exact hd v hv (fun c h5 h6 => by rw [← hset c h5 h6]; exact hb c h5 h6) c h3 h4

theorem where_pass {p : Par K} {h : List (Eval K)} {s : St K} {T : St K → (Nat → K) × Nat}
    (hsqrt : ∀ a : K, 0 ≤ a → 0 ≤ CMath.sqrt a ∧ CMath.sqrt a * CMath.sqrt a = a) (hT : TrustStep p T)
    (hb01 : s.ibrnch = 0 ∨ s.ibrnch = 1) (hf : Full p h s) (hrho : 0 < s.rho) : Where p h (pass p T s) := by
  have hf1 := hf.switch
  unfold pass
  rw [← pole_rho p s] at hrho
  rw [← pole_ibrnch p s] at hb01
  generalize Cobyla.pole p s = s1 at hf1 hrho hb01
  unfold passPole
  rw [inverseError_eq hf1.inv, if_neg (by rw [ExactMath.lit_eq]; norm_num)]
  have hmod : Models p (assess p { s1 with con := (linear p s1).1, a := (linear p s1).2 }) :=
    ⟨fun k h1 h2 => (linear_spec p s1 k h1 h2).1, fun k h1 h2 => (linear_spec p s1 k h1 h2).2⟩
  have hfull : Full p h (assess p { s1 with con := (linear p s1).1, a := (linear p s1).2 }) := hf1.congr rfl rfl rfl
  have hvs : ∀ j, 1 ≤ j → j ≤ p.n → (assess p { s1 with con := (linear p s1).1, a := (linear p s1).2 }).vsig j *
      (assess p { s1 with con := (linear p s1).1, a := (linear p s1).2 }).vsig j * ∑ i ∈ Finset.Icc 1 p.n, s1.simi j i * s1.simi j i = 1 := by
    intro j h1 h2
    have hpos := hf1.inv.row_pos h1 h2
    obtain ⟨r1, r2⟩ := hsqrt _ hpos.le
    have hv := ((quality_spec p { s1 with con := (linear p s1).1, a := (linear p s1).2 }).1 j h1 h2).1
    rw [show (assess p { s1 with con := (linear p s1).1, a := (linear p s1).2 }).vsig j = _ from hv]
    dsimp only
    have hne : CMath.sqrt (∑ i ∈ Finset.Icc 1 p.n, s1.simi j i * s1.simi j i) ≠ 0 := by
      intro h0
      rw [h0, mul_zero] at r2
      exact hpos.ne r2
    generalize CMath.sqrt (∑ i ∈ Finset.Icc 1 p.n, s1.simi j i * s1.simi j i) = r at r2 hne
    rw [← r2]
    field_simp
  have hq := (quality_spec p { s1 with con := (linear p s1).1, a := (linear p s1).2 }).2
  have hr2 : 0 < (assess p { s1 with con := (linear p s1).1, a := (linear p s1).2 }).rho := hrho
  have hb2 : (assess p { s1 with con := (linear p s1).1, a := (linear p s1).2 }).ibrnch = 0 ∨ (assess p { s1 with con := (linear p s1).1, a := (linear p s1).2 }).ibrnch = 1 := hb01
  have hq2 : (assess p { s1 with con := (linear p s1).1, a := (linear p s1).2 }).iflag = 0 →
      ∃ j, 1 ≤ j ∧ j ≤ p.n ∧ ((assess p { s1 with con := (linear p s1).1, a := (linear p s1).2 }).vsig j < lit 1 4 * (assess p { s1 with con := (linear p s1).1, a := (linear p s1).2 }).rho ∨
        (assess p { s1 with con := (linear p s1).1, a := (linear p s1).2 }).veta j > lit 21 10 * (assess p { s1 with con := (linear p s1).1, a := (linear p s1).2 }).rho) := hq.2.mp
  have hq3 : (assess p { s1 with con := (linear p s1).1, a := (linear p s1).2 }).iflag = 0 ∨ (assess p { s1 with con := (linear p s1).1, a := (linear p s1).2 }).iflag = 1 := hq.1
  have hvs' : ∀ j, 1 ≤ j → j ≤ p.n → (assess p { s1 with con := (linear p s1).1, a := (linear p s1).2 }).vsig j *
      (assess p { s1 with con := (linear p s1).1, a := (linear p s1).2 }).vsig j *
      ∑ i ∈ Finset.Icc 1 p.n, (assess p { s1 with con := (linear p s1).1, a := (linear p s1).2 }).simi j i * (assess p { s1 with con := (linear p s1).1, a := (linear p s1).2 }).simi j i = 1 := hvs
  clear hvs hq
  generalize assess p { s1 with con := (linear p s1).1, a := (linear p s1).2 } = s2 at *
  unfold branch
  by_cases hc : s2.ibrnch = 1 ∨ s2.iflag = 1
  · rw [if_pos hc]
    obtain ⟨t1, t2, t3⟩ := hT s2 hr2
    exact where_trust (hfull.congr rfl rfl rfl) ⟨hmod.con, hmod.grad⟩ t1 t2 t3
  · rw [if_neg hc]
    have hb0 : s2.ibrnch = 0 := by tauto
    have hi0 : s2.iflag = 0 := by tauto
    exact where_newVertex hfull hb0 hvs' (dropVertex_spec p s2 hr2 (hq2 hi0))

theorem where_newEval {p : Par K} {h : List (Eval K)} {s : St K} (hp : 1 ≤ p.n) (f : K) (c : Nat → K) (H : Wait p h s) :
    Where p (⟨s.x, f, c⟩ :: h) (newEval p f c s) := by
  have ha := after_newEval hp f c H
  have hcall : ∀ s', newEval p f c s = (.call, s') → s'.ibrnch = 0 ∧ s'.nfvals ≤ p.n := by
    intro s' hs'
    unfold newEval place at hs'
    by_cases h1 : (record p f c s).ibrnch = 1
    · rw [if_pos h1] at hs'
      exfalso
      unfold judge judgeStep reduce at hs'
      dsimp only at hs'
      split_ifs at hs' <;> simp at hs'
    · rw [if_neg h1] at hs'
      unfold complete at hs'
      split_ifs at hs' with h2
      · simp at hs'
      · have hb : (exchange p { record p f c s with datmat := store p.mpp (record p f c s).con (record p f c s).jdrop (record p f c s).datmat }).ibrnch = s.ibrnch := by
          unfold exchange; split_ifs <;> rfl
        unfold nextVertex at hs'
        split_ifs at hs' with h3
        · simp only [Prod.mk.injEq, true_and] at hs'
          subst hs'
          refine ⟨?_, h3⟩
          dsimp only
          rw [hb]
          cases H with
          | first _ hb => exact hb
          | simplex _ _ hb => exact hb
          | vertex _ hb => exact hb
          | trial _ hb => exact absurd hb h1
        · simp at hs'
  generalize newEval p f c s = js at ha hcall
  obtain ⟨j, s'⟩ := js
  cases j with
  | call =>
    obtain ⟨h1, h2⟩ := hcall s' rfl
    obtain ⟨w, hpos⟩ := ha
    refine ⟨?_, fun hh => absurd (hh.symm.trans h1) one_ne_zero⟩
    cases w with
    | first h0 => omega
    | vertex h3 => omega
    | trial h3 => omega
    | simplex k0 k1 hb hj inv tri hx pole vert =>
      obtain ⟨e, he, he1, -⟩ := pole
      have hsum : ∑ i ∈ Finset.Icc 1 p.n, (s'.x i - e.x i) * (s'.x i - e.x i) = s'.rho * s'.rho := by
        have : ∀ i ∈ Finset.Icc 1 p.n, (s'.x i - e.x i) * (s'.x i - e.x i) = if i = s'.nfvals then s'.rho * s'.rho else 0 := by
          intro i hi
          rw [Finset.mem_Icc] at hi
          rw [hx i hi.1 hi.2, he1 i hi.1 hi.2, hj, tri.sim i s'.nfvals hi.1 hi.2 k0 k1 (Or.inr le_rfl)]
          split_ifs <;> ring
        rw [Finset.sum_congr rfl this, Finset.sum_ite_eq', if_pos (Finset.mem_Icc.mpr ⟨k0, k1⟩)]
      have h3 : (0 : K) ≤ ((p.n : K) + 2) / 1000000000000 := by
        have h1 : (0 : K) ≤ (p.n : K) := Nat.cast_nonneg _
        positivity
      have h4 : 0 ≤ s'.rho * s'.rho := mul_self_nonneg _
      have h5 := mul_nonneg h3 h4
      exact ⟨e, he, by rw [hsum]; linarith, by rw [hsum]; linarith⟩
  | again => trivial
  | done => trivial
  | best e => trivial
  | wrong => trivial

theorem where_passes {p : Par K} {h : List (Eval K)} {T : St K → (Nat → K) × Nat}
    (hsqrt : ∀ a : K, 0 ≤ a → 0 ≤ CMath.sqrt a ∧ CMath.sqrt a * CMath.sqrt a = a) (hT : TrustStep p T) (hend : 0 < p.rhoend) (fuel : Nat)
    (js : Jump × St K) (H : After p h js) (hw : Where p h js) (hrho : 0 < js.2.rho) : Where p h (passes p T fuel js) := by
  induction fuel generalizing js with
  | zero => exact hw
  | succ fuel ih =>
    obtain ⟨j, s⟩ := js
    cases j with
    | again =>
      obtain ⟨a1, a2, a3⟩ := H
      have h1 := after_pass T hsqrt a3 a1 a2 hrho
      obtain ⟨-, ⟨k, h2⟩, -, -⟩ := kept_pass p T s
      exact ih _ h1 (where_pass hsqrt hT a3 a1 hrho) (reduced_pos hend hrho h2)
    | call => exact hw
    | best e => exact hw
    | done => exact hw
    | wrong => exact hw

/-- From an evaluation to the next one. -/
theorem where_resume {p : Par K} {h : List (Eval K)} {s s' : St K} {T : St K → (Nat → K) × Nat}
    (hsqrt : ∀ a : K, 0 ≤ a → 0 ≤ CMath.sqrt a ∧ CMath.sqrt a * CMath.sqrt a = a) (hT : TrustStep p T) (hp : 1 ≤ p.n) (hend : 0 < p.rhoend)
    (hrho : 0 < s.rho) (fuel : Nat) (f : K) (c : Nat → K) (H : Wait p h s)
    (hr : resume p T fuel f c s = some (.iterate, s')) :
    Near p (⟨s.x, f, c⟩ :: h) s' ∧ (s'.ibrnch = 1 → Promising p (⟨s.x, f, c⟩ :: h) s') := by
  obtain ⟨-, ⟨k, h2⟩, -, -⟩ := kept_newEval p f c s
  have h4 := (resume_exact T hsqrt hp hend hrho fuel f c H).1
  have h3 := where_passes hsqrt hT hend fuel _ (after_newEval hp f c H) (where_newEval hp f c H) (reduced_pos hend hrho h2)
  unfold resume at hr
  generalize passes p T fuel (newEval p f c s) = js at h3 h4 hr
  obtain ⟨j, s1⟩ := js
  cases j with
  | call =>
    simp only [settle] at hr
    split_ifs at hr with hc
    · simp at hr
    · simp only [Option.some.injEq, Prod.mk.injEq, true_and] at hr
      subst hr
      exact h3
  | best e' => exact h4.1.elim
  | done => simp [settle] at hr
  | again => simp [settle] at hr
  | wrong => simp [settle] at hr

theorem obey_par {ok : Par K → (St K → (Nat → K) × Nat) → Prop} {ctx0 ctx : Ctx K} {h : List (Eval K)} (H : Obey ok ctx0 h ctx) :
    ctx.par = ctx0.par := by
  induction H with
  | start => rfl
  | iterate _ T fuel f x c e hT hx hs hc1 hr ih =>
    obtain ⟨c', h1, -, h3, -⟩ := cobyla_protocol hr
    rw [Option.some.inj h1, h3, ih]
  | restart _ e hr ih =>
    simp only [Cobyla.restart, Prod.mk.injEq, Option.some.injEq] at hr
    rw [← hr.2]
    exact ih

/-- The radius is positive once started. -/
theorem obey_rho {ok : Par K → (St K → (Nat → K) × Nat) → Prop} {ctx0 ctx : Ctx K} {h : List (Eval K)} (H : Obey ok ctx0 h ctx)
    (h1 : 0 < ctx0.par.rhoend) (h2 : 0 < ctx0.par.rhobeg) (h0 : ctx0.st.nfvals = 0) : ctx.st.nfvals ≠ 0 → 0 < ctx.st.rho := by
  induction H with
  | start => exact fun h => absurd h0 h
  | @iterate c1 c2 h H1 T fuel f x c e hT hx hs hc1 hr ih =>
    have hpar := obey_par H1
    rcases iterate_cases hr with ⟨hbad, -, -⟩ | ⟨-, h2, hbad⟩ | ⟨x', s', hx', hst, hres, h2⟩
    · exfalso
      obtain ⟨_, -, -, -, h4, -⟩ := cobyla_protocol hr
      obtain ⟨-, h5⟩ := h4 ⟨hs, by simp, hc1⟩
      rw [hbad] at h5
      simp at h5
    · exact absurd hs hbad
    · obtain rfl := Option.some.inj h2
      intro _
      obtain ⟨-, ⟨l, r2⟩, -⟩ := resume_spec _ T fuel f _ _ e s' hres
      refine reduced_pos (by rw [hpar]; exact h1) ?_ r2
      by_cases hz : c1.st.nfvals = 0
      · rw [if_pos hz]
        show 0 < c1.par.rhobeg
        rw [hpar]; assumption
      · rw [if_neg hz]
        exact ih hz
  | restart _ e hr ih =>
    simp only [Cobyla.restart, Prod.mk.injEq, Option.some.injEq] at hr
    obtain ⟨-, rfl⟩ := hr
    exact fun h => absurd rfl h

/-- What `cobyla_create` checks. -/
theorem create_facts {n m : Int} {rhobeg rhoend : K} {maxfun : Int} {room : Bool} {ctx0 : Ctx K}
    (h0 : create n m rhobeg rhoend maxfun room = some ctx0) :
    ctx0.par.rhoend = rhoend ∧ ctx0.par.rhobeg = rhobeg ∧ 0 < rhoend ∧ 0 < rhobeg ∧ 1 ≤ ctx0.par.n ∧ ctx0.st.nfvals = 0 := by
  unfold create at h0
  by_cases hc : n < 1 ∨ m < 0 ∨ rhobeg < rhoend ∨ rhoend ≤ 0 ∨ maxfun < 1
  · rw [if_pos hc] at h0; simp at h0
  rw [if_neg hc] at h0
  cases room with
  | false => simp at h0
  | true =>
    simp only [Bool.not_true, Bool.false_eq_true, if_false, Option.some.injEq] at h0
    subst h0
    have hn : 1 ≤ n.toNat := by
      have : ¬ n < 1 := fun h => hc (Or.inl h)
      omega
    have hp : 0 < rhoend := by by_contra hh; exact hc (by right; right; right; left; exact not_lt.mp hh)
    have hle : rhoend ≤ rhobeg := by by_contra hh; exact hc (by right; right; left; exact not_le.mp hh)
    exact ⟨rfl, rfl, hp, hp.trans_le hle, hn, rfl⟩

/-- **C69, C70**: in exact arithmetic, for any sequence of calls which leave `x` unchanged, whatever
the replies, with the step of the code: when an evaluation other than the first one is requested, the
distance of the point from one of the previous evaluations is between half the radius reported by
`cobyla_get_rho` and this radius (up to `10⁻¹²` per variable); and if it is a trial point, the
affine interpolants of the constraints predict no greater violation than at the best vertex. -/
theorem cobyla_region (hsqrt : ∀ a : K, 0 ≤ a → 0 ≤ CMath.sqrt a ∧ CMath.sqrt a * CMath.sqrt a = a)
    {n m : Int} {rhobeg rhoend : K} {maxfun : Int} {room : Bool} {ctx0 ctx : Ctx K} {h : List (Eval K)}
    (h0 : create n m rhobeg rhoend maxfun room = some ctx0) (H : Obey TrustStep ctx0 h ctx)
    (hst : ctx.status = .iterate) (hne : h ≠ []) :
    Near ctx.par h ctx.st ∧ (ctx.st.ibrnch = 1 → Promising ctx.par h ctx.st) := by
  have hcx := fun {ctx : Ctx K} {h : List (Eval K)} (H : Obey TrustStep ctx0 h ctx) => cobyla_exact hsqrt h0 H
  obtain ⟨q1, q2, q3, q4, q5, q6⟩ := create_facts h0
  cases H with
  | start => exact absurd rfl hne
  | @iterate c1 _ h H1 T fuel f x c e hT hx hs hc1 hr =>
    obtain ⟨e1, -, e3, -⟩ := hcx H1
    have hpar := obey_par H1
    rcases iterate_cases hr with ⟨hbad, -, -⟩ | ⟨-, h2, hbad⟩ | ⟨x', s', hx', hst', hres, h2⟩
    · exfalso
      obtain ⟨_, -, -, -, h4, -⟩ := cobyla_protocol hr
      obtain ⟨-, h5⟩ := h4 ⟨hs, by simp, hc1⟩
      rw [hbad] at h5
      simp at h5
    · exact absurd hs hbad
    · obtain rfl := Option.some.inj h2
      obtain rfl := Option.some.inj hx'
      generalize hs0 : (if c1.st.nfvals = 0 then init c1.par x c1.st else { c1.st with x := x }) = s0 at hres
      have hw : Wait c1.par h s0 ∧ 0 < s0.rho ∧ s0.x = x := by
        rw [← hs0]
        by_cases hz : c1.st.nfvals = 0
        · rw [if_pos hz]
          have hb : 0 < c1.par.rhobeg := by rw [hpar, q2]; exact q4
          exact ⟨wait_init c1.par hb x c1.st h, hb, rfl⟩
        · rw [if_neg hz]
          have hne : h ≠ [] := fun hh => hz (by rw [e1, hh]; rfl)
          exact ⟨(e3 hs hne).caller x (hx hz), obey_rho H1 (by rw [q1]; exact q3) (by rw [q2]; exact q4) q6 hz, rfl⟩
      obtain ⟨w1, w2, w3⟩ := hw
      obtain rfl : e = .iterate := hst
      have := where_resume hsqrt hT (by rw [hpar]; exact q5) (by rw [hpar, q1]; exact q3) w2 fuel f _ w1 hres
      rw [w3] at this
      exact this
  | restart _ e hr => exact absurd rfl hne

end
end Opk.Cobyla
