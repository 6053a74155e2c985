import Verif.Cobyla.Step
/-!
# COBYLA: `trstlp` with at most one constraint

With at most one constraint, in stage two the objective function stays the last active constraint
(the aim of `src/cobyla.c:1313-1334`), in exact arithmetic.  Therefore the value `B(M+1)` is not
used and the step does not increase the objective function.  Neither is true with two constraints,
see `Verif.Cobyla.Constant`.
-/
set_option linter.unusedSectionVars false
set_option linter.unusedSimpArgs false
namespace Opk.Cobyla
open Linalg CMath Finset

variable {K : Type} [Field K] [LinearOrder K] [IsStrictOrderedRing K] [CMath K] [ExactMath K]
variable {q : Lp K} {cap top : K}

/-- In stage two, the objective function is the last active constraint or it is being added. -/
def Tail (q : Lp K) : Lab → Tr K → Prop
  | .l70, t => t.mcon = q.m + 1 → (t.nact < t.icon ∧ t.iact t.icon = q.m + 1) ∨ t.iact t.nact = q.m + 1
  | .l260, t => t.mcon = q.m + 1 → t.iact t.nact = q.m + 1
  | .l320, t => t.mcon = q.m + 1 → t.iact t.nact = q.m + 1
  | .l340, t => t.mcon = q.m + 1 → t.iact t.nact = q.m + 1
  | _, _ => True

theorem last_lp210 {t u : Tr K} {kk : Nat} {l : Lab} (e : lp210 q kk t = some (l, u))
    (h : t.mcon = q.m + 1 → kk = q.m + 1 ∨ (2 ≤ t.nact ∧ t.nact - 1 < t.icon ∧ t.iact (t.nact - 1) = q.m + 1)) :
    Tail q l u ∧ (l = .l320 ∨ l = .l340) ∧ u.mcon = t.mcon ∧ u.dx = t.dx ∧ (l = .l340 → t.mcon ≤ q.m) := by
  unfold lp210 lpLast at e
  dsimp only at e
  by_cases c1 : t.mcon > q.m ∧ kk ≠ t.mcon
  · rw [if_pos c1] at e
    by_cases c2 : t.nact - 1 = 0
    · rw [if_pos c2] at e; simp at e
    · rw [if_neg c2] at e
      dsimp only at e
      rw [if_pos c1.1] at e
      simp only [Option.some.injEq, Prod.mk.injEq] at e
      obtain ⟨rfl, rfl⟩ := e
      refine ⟨fun hm => ?_, .inl rfl, rfl, rfl, fun h => by cases h⟩
      dsimp only at hm ⊢
      rcases h hm with rfl | ⟨h2, h3, h4⟩
      · exact absurd hm.symm c1.2
      · rw [set1, if_neg (by omega), set1, if_pos rfl, set1, if_neg (by omega), set1, if_neg (by omega)]
        exact h4
  · rw [if_neg c1] at e
    dsimp only at e
    by_cases c2 : t.mcon > q.m
    · rw [if_pos c2] at e
      simp only [Option.some.injEq, Prod.mk.injEq] at e
      obtain ⟨rfl, rfl⟩ := e
      refine ⟨fun hm => ?_, .inl rfl, rfl, rfl, fun h => by cases h⟩
      dsimp only at hm ⊢
      rw [set1, if_pos rfl]
      by_contra h5
      exact c1 ⟨c2, fun h6 => h5 (h6.trans hm)⟩
    · rw [if_neg c2] at e
      simp only [Option.some.injEq, Prod.mk.injEq] at e
      obtain ⟨rfl, rfl⟩ := e
      refine ⟨fun hm => absurd (show t.mcon = q.m + 1 from hm) (by omega), .inr rfl, rfl, rfl, fun _ => by omega⟩

/-- What the other labels change. -/
def Still (t : Tr K) (l : Lab) (u : Tr K) : Prop := u.dx = t.dx ∧ u.mcon = t.mcon ∧ l ≠ .l500 ∧ l ≠ .l480

theorem lpAdd_last (hsqrt : ∀ a : K, 0 ≤ a → 0 ≤ sqrt a ∧ sqrt a * sqrt a = a) (hm1 : q.m ≤ 1) {t u : Tr K} {l : Lab}
    (h : Core q cap top t) (hi : t.icon ≤ t.mcon) (hi' : t.nact < t.icon) (hs : Stop q t) (hl : Tail q .l70 t)
    (e : lpAdd q t = some (l, u)) : Tail q l u ∧ Still t l u := by
  have A := h.act
  unfold lpAdd at e
  dsimp only at e
  rw [up_set1 q.n (fun i _ => q.a i (t.iact t.icon))] at e
  set g : Nat → K := fun k => if 1 ≤ k ∧ k ≤ q.n then q.a k (t.iact t.icon) else t.dxnew k with hg
  have hgz : ∀ (z : Nat → Nat → K) k, ∑ i ∈ Icc 1 q.n, z i k * g i = zd q z k (t.iact t.icon) := by
    intro z k
    refine sum_congr rfl fun i hi => ?_
    rw [hg]; dsimp only; rw [if_pos (mem_Icc.1 hi)]
  have R := rotated hsqrt A.hn g A.orth
  set tot := (lpRotate q.n t.nact g t.z).1
  set z' := (lpRotate q.n t.nact g t.z).2
  have lab : ∀ {l : Lab}, l = .l320 ∨ l = .l340 → l ≠ .l500 ∧ l ≠ .l480 := by
    rintro l (rfl | rfl) <;> exact ⟨(fun h => by cases h), (fun h => by cases h)⟩
  by_cases ht : tot = 0
  · rw [if_neg (not_not.2 ht)] at e
    obtain ⟨ez, hz0⟩ := R.zero ht
    obtain ⟨r, dn, vd, e1, hr⟩ := combine_spec (q := q) (t := { t with dxnew := g, z := z' }) (by
      intro h0 i hi hin
      have hn0 : t.nact = 0 := h0
      exact A.orth.zero g (fun k hk hkn => hz0 k (by omega) hkn) i hi hin)
    rw [e1] at e
    dsimp only at e
    rw [ez] at e
    dsimp only at hr
    rw [ez, hgz] at hr
    unfold lpReplace at e
    by_cases hr0 : r < 0
    · rw [if_pos hr0] at e
      simp only [Option.some.injEq, Prod.mk.injEq] at e
      obtain ⟨rfl, rfl⟩ := e
      exact ⟨trivial, rfl, rfl, (fun h => by cases h), (fun h => by cases h)⟩
    · rw [if_neg hr0] at e
      dsimp only at e
      rw [if_neg (show ¬ t.icon < t.nact from by omega)] at e
      obtain ⟨hn1, hn2⟩ := hr (not_lt.1 hr0)
      dsimp only at e
      split_ifs at e with htemp
      · simp only [Option.some.injEq, Prod.mk.injEq] at e
        obtain ⟨rfl, rfl⟩ := e
        exact ⟨trivial, rfl, rfl, (fun h => by cases h), (fun h => by cases h)⟩
      · obtain ⟨h1, h2, h3, h4, -⟩ := last_lp210 e (by
          intro hm
          left
          dsimp only at hm
          rcases hs hm with ⟨_, e⟩ | ⟨h1, h2, h3⟩
          · rw [e, hm]
          · by_contra hkm
            have hkm' : t.iact t.icon ≤ q.m := by
              have := (A.range t.icon (by omega) hi).2
              omega
            have hn : t.nact = 1 := by omega
            have h4 := h3 hi' hkm'
            have h5 := hn2 hn
            rw [hn] at h4
            exact lt_asymm h4 h5)
        exact ⟨h1, h4, h3, lab h2⟩
  · rw [if_pos ht] at e
    obtain ⟨h1, h2, h3, h4, -⟩ := last_lp210 e (by
      intro hm
      dsimp only at hm ⊢
      by_cases hkm : t.iact t.icon = q.m + 1
      · exact .inl hkm
      · right
        rcases hl hm with ⟨-, e⟩ | e
        · exact absurd e hkm
        · rcases hs hm with ⟨_, e'⟩ | ⟨h1, -, -⟩
          · exact absurd (e'.trans hm) hkm
          · exact ⟨by omega, by omega, e⟩)
    exact ⟨h1, h4, h3, lab h2⟩

theorem lp70_last (hsqrt : ∀ a : K, 0 ≤ a → 0 ≤ sqrt a ∧ sqrt a * sqrt a = a) (hm1 : q.m ≤ 1) {t u : Tr K} {l : Lab}
    (h : At q cap top .l70 t) (hl : Tail q .l70 t) (e : lp70 q t = some (l, u)) : Tail q l u ∧ Still t l u := by
  obtain ⟨hc, hd, hi, him, hv, hs⟩ := h
  have go : ∀ (o : K) (x c : Nat), (if t.icon ≤ t.nact then some (Lab.l260, { t with optold := o, nactx := x, icount := c })
      else lpAdd q { t with optold := o, nactx := x, icount := c }) = some (l, u) → Tail q l u ∧ Still t l u := by
    intro o x c e
    by_cases hin : t.icon ≤ t.nact
    · rw [if_pos hin] at e
      simp only [Option.some.injEq, Prod.mk.injEq] at e
      obtain ⟨rfl, rfl⟩ := e
      refine ⟨fun hm => ?_, rfl, rfl, (fun h => by cases h), (fun h => by cases h)⟩
      rcases hl hm with ⟨h1, -⟩ | h1
      · omega
      · exact h1
    · rw [if_neg hin] at e
      exact lpAdd_last (t := { t with optold := o, nactx := x, icount := c }) hsqrt hm1
        ⟨hc.mcon, hc.act, hc.mult, hc.fea, hc.slack, hc.full, hc.bound, hc.rmin, hc.rmax⟩ him (not_le.1 hin) hs hl e
  unfold lp70 at e
  dsimp only at e
  by_cases c1 : t.icount = 0 ∨ optnew q t < t.optold
  · rw [if_pos c1] at e
    exact go _ _ _ e
  · rw [if_neg c1] at e
    by_cases c2 : t.nact > t.nactx
    · rw [if_pos c2] at e
      exact go _ _ _ e
    · rw [if_neg c2] at e
      by_cases c3 : t.icount - 1 = 0
      · rw [if_pos c3] at e
        simp only [Option.some.injEq, Prod.mk.injEq] at e
        obtain ⟨rfl, rfl⟩ := e
        exact ⟨trivial, rfl, rfl, (fun h => by cases h), (fun h => by cases h)⟩
      · rw [if_neg c3] at e
        exact go _ _ _ e

/-- The active constraint which was the last one becomes the last but one. -/
theorem shift_last (t : Tr K) (h : t.icon < t.nact) : (lpShift q t).iact (t.nact - 1) = t.iact t.nact ∧
    (lpShift q t).nact = t.nact ∧ (lpShift q t).mcon = t.mcon ∧ (lpShift q t).dx = t.dx := by
  unfold lpShift
  dsimp only
  obtain ⟨v, hv⟩ : ∃ v, v = loop (fun j (t : Tr K) =>
    let k := t.icon + j
    let kw := t.iact (k + 1)
    let sp := up q.n (fun i s => s + t.z i k * q.a i kw) 0
    let temp := sqrt (sp * sp + t.zdota (k + 1) * t.zdota (k + 1))
    let alpha := t.zdota (k + 1) / temp
    let beta := sp / temp
    let zdota := set1 t.zdota (k + 1) (alpha * t.zdota k)
    let zdota := set1 zdota k temp
    let z := up q.n (fun i z =>
      let temp := alpha * z i (k + 1) + beta * z i k
      let z := set2 z i (k + 1) (alpha * z i k - beta * z i (k + 1))
      set2 z i k temp) t.z
    { t with zdota := zdota, z := z, iact := set1 t.iact k kw, vmultc := set1 t.vmultc k (t.vmultc (k + 1)) }) (t.nact - t.icon) t := ⟨_, rfl⟩
  have key : v.icon = t.icon ∧ v.nact = t.nact ∧ v.mcon = t.mcon ∧ v.dx = t.dx ∧ v.iact (t.nact - 1) = t.iact t.nact := by
    rw [hv]
    have := loop_inv (f := fun j (t : Tr K) =>
      let k := t.icon + j
      let kw := t.iact (k + 1)
      let sp := up q.n (fun i s => s + t.z i k * q.a i kw) 0
      let temp := sqrt (sp * sp + t.zdota (k + 1) * t.zdota (k + 1))
      let alpha := t.zdota (k + 1) / temp
      let beta := sp / temp
      let zdota := set1 t.zdota (k + 1) (alpha * t.zdota k)
      let zdota := set1 zdota k temp
      let z := up q.n (fun i z =>
        let temp := alpha * z i (k + 1) + beta * z i k
        let z := set2 z i (k + 1) (alpha * z i k - beta * z i (k + 1))
        set2 z i k temp) t.z
      ({ t with zdota := zdota, z := z, iact := set1 t.iact k kw, vmultc := set1 t.vmultc k (t.vmultc (k + 1)) } : Tr K)) (s := t)
      (fun j (v : Tr K) => v.icon = t.icon ∧ v.nact = t.nact ∧ v.mcon = t.mcon ∧ v.dx = t.dx ∧
        (∀ k, t.icon + j ≤ k → v.iact k = t.iact k) ∧ (0 < j → v.iact (t.icon + j - 1) = t.iact (t.icon + j))) (t.nact - t.icon)
      ⟨rfl, rfl, rfl, rfl, fun _ _ => rfl, fun h => absurd h (by omega)⟩ (by
        rintro j hj v ⟨i1, i2, i3, i4, i5, -⟩
        refine ⟨i1, i2, i3, i4, fun k hk => ?_, fun _ => ?_⟩
        · dsimp only
          rw [i1, set1, if_neg (by omega)]
          exact i5 k (by omega)
        · dsimp only
          rw [i1, show t.icon + (j + 1) - 1 = t.icon + j from by omega, set1, if_pos rfl]
          exact i5 _ (by omega))
    obtain ⟨i1, i2, i3, i4, -, i6⟩ := this
    refine ⟨i1, i2, i3, i4, ?_⟩
    have := i6 (by omega)
    rwa [show t.icon + (t.nact - t.icon) = t.nact from by omega] at this
  rw [← hv]
  obtain ⟨-, i2, i3, i4, i5⟩ := key
  refine ⟨?_, i2, i3, i4⟩
  rw [i2, set1, if_neg (by omega)]
  exact i5

theorem lp260_last {t u : Tr K} {l : Lab} (h : At q cap top .l260 t) (hl : Tail q .l260 t) (e : lp260 q t = some (l, u)) :
    Tail q l u ∧ Still t l u := by
  obtain ⟨hc, hd, hi, hin, hv, hs⟩ := h
  unfold lp260 at e
  rw [if_neg (by omega)] at e
  dsimp only at e
  obtain ⟨v, hv⟩ : ∃ v, v = if t.icon < t.nact then lpShift q t else t := ⟨_, rfl⟩
  rw [← hv] at e
  have key : v.nact = t.nact ∧ v.mcon = t.mcon ∧ v.dx = t.dx ∧ (t.mcon = q.m + 1 → v.iact (t.nact - 1) = t.iact t.nact) := by
    rw [hv]
    by_cases c : t.icon < t.nact
    · rw [if_pos c]
      obtain ⟨h1, h2, h3, h4⟩ := shift_last (q := q) t c
      exact ⟨h2, h3, h4, fun _ => h1⟩
    · rw [if_neg c]
      exact ⟨rfl, rfl, rfl, fun hm => absurd (hs hm) c⟩
  obtain ⟨k1, k2, k3, k4⟩ := key
  split_ifs at e with c
  · simp only [Option.some.injEq, Prod.mk.injEq] at e
    obtain ⟨rfl, rfl⟩ := e
    refine ⟨fun hm => ?_, k3, k2, (fun h => by cases h), (fun h => by cases h)⟩
    dsimp only at hm ⊢
    rw [k1, k4 (by rw [← k2]; exact hm)]
    exact hl (by rw [← k2]; exact hm)
  · simp only [Option.some.injEq, Prod.mk.injEq] at e
    obtain ⟨rfl, rfl⟩ := e
    refine ⟨fun hm => ?_, k3, k2, (fun h => by cases h), (fun h => by cases h)⟩
    exact absurd (show v.mcon = q.m + 1 from hm) (by omega)

/-- The decrease of the objective function (the linear model) due to the step. -/
def gain (q : Lp K) (t : Tr K) : K := ∑ i ∈ Icc 1 q.n, q.a i (q.m + 1) * t.dx i

theorem take_last {t : Tr K} (h : At q cap top .l340 t) (hl : Tail q .l340 t) {step : K} {full : Bool} (hs0 : 0 ≤ step)
    (hf' : full = false → t.mcon = q.m) :
    Tail q (lpTake q step full t).1 (lpTake q step full t).2 ∧ (lpTake q step full t).2.mcon = t.mcon ∧
    (t.mcon = q.m + 1 → gain q t ≤ gain q (lpTake q step full t).2) ∧ (lpTake q step full t).1 ≠ .l340 := by
  obtain ⟨hc, hd, h2⟩ := h
  have A := hc.act
  obtain ⟨dn, vd, e, hdn, hvn, hvd⟩ := take_parts (q := q) step t
  unfold lpTake
  dsimp only
  rw [e]
  obtain ⟨R, hR⟩ : ∃ R, R = if t.mcon = q.m then lpResidual q (lpMove q step t) else t.resmax := ⟨_, rfl⟩
  rw [← hR]
  obtain ⟨r0, -⟩ := ratio_spec (t := { t with dxnew := dn, vmultd := vd, resmax := R }) hc.mult
  rw [update_eq]
  generalize lpRatio { t with dxnew := dn, vmultd := vd, resmax := R } = r at r0
  obtain ⟨r, ic⟩ := r
  dsimp only at r0 ⊢
  have gains : t.mcon = q.m + 1 → gain q t ≤ ∑ i ∈ Icc 1 q.n, q.a i (q.m + 1) *
      (if 1 ≤ i ∧ i ≤ q.n then (1 - r) * t.dx i + r * dn i else t.dx i) := by
    intro hm
    obtain ⟨hn1, h3⟩ := h2 hm
    have hd1 := A.diag t.nact hn1 le_rfl
    rw [hl hm] at hd1
    have e1 : ∑ i ∈ Icc 1 q.n, q.a i (q.m + 1) * (if 1 ≤ i ∧ i ≤ q.n then (1 - r) * t.dx i + r * dn i else t.dx i) =
        gain q t + r * step / t.zdota t.nact * zd q t.z t.nact (q.m + 1) := by
      unfold gain zd
      rw [mul_sum, ← sum_add_distrib]
      refine sum_congr rfl fun i hi => ?_
      rw [if_pos (mem_Icc.1 hi), hdn i (mem_Icc.1 hi).1 (mem_Icc.1 hi).2, h3 i (mem_Icc.1 hi).1 (mem_Icc.1 hi).2]
      ring
    rw [e1, ← hd1, div_mul_cancel₀ _ (A.ne _ hn1 le_rfl)]
    have := mul_nonneg r0 hs0
    linarith
  by_cases hm : t.mcon = q.m
  · rw [if_pos hm]
    by_cases c : ic > 0
    · rw [if_pos c]
      exact ⟨fun hm' => absurd (show t.mcon = q.m + 1 from hm') (by omega), rfl, fun hm' => absurd hm' (by omega), fun h => by cases h⟩
    · rw [if_neg c]
      cases full
      · exact ⟨trivial, rfl, fun hm' => absurd hm' (by omega), fun h => by cases h⟩
      · exact ⟨trivial, rfl, fun hm' => absurd hm' (by omega), fun h => by cases h⟩
  · rw [if_neg hm]
    by_cases c : ic > 0
    · rw [if_pos c]
      exact ⟨fun hm' => .inr (hl hm'), rfl, gains, fun h => by cases h⟩
    · rw [if_neg c]
      cases full
      · exact absurd (hf' rfl) hm
      · exact ⟨trivial, rfl, gains, fun h => by cases h⟩

theorem lp340_last (hsqrt : ∀ a : K, 0 ≤ a → 0 ≤ sqrt a ∧ sqrt a * sqrt a = a) (hr : 0 < q.rho) {t u : Tr K} {l : Lab}
    (h : At q (lpCap q) top .l340 t) (hl : Tail q .l340 t) (e : lp340 q t = some (l, u)) :
    Tail q l u ∧ u.mcon = t.mcon ∧ (t.mcon = q.m + 1 → gain q t ≤ gain q u) := by
  obtain ⟨b1, b2, b3⟩ := norms_bounds q t hr
  have hN := norms_eq q t
  unfold lp340 at e
  dsimp only at e
  set s := lpNorms q t with hs
  have hss : s.2.2 = ∑ i ∈ Icc 1 q.n, t.sdirn i * t.sdirn i := by rw [hN]
  have hsd : s.2.1 = ∑ i ∈ Icc 1 q.n, t.sdirn i * t.dx i := by rw [hN]
  have hss0 : 0 ≤ s.2.2 := by rw [hss]; exact sum_nonneg fun i _ => mul_self_nonneg _
  by_cases hdd : s.1 ≤ 0
  · rw [if_pos hdd] at e
    simp only [Option.some.injEq, Prod.mk.injEq] at e
    obtain ⟨rfl, rfl⟩ := e
    exact ⟨trivial, rfl, fun _ => le_rfl⟩
  rw [if_neg hdd] at e
  have hdd' := not_le.1 hdd
  by_cases hdiv : lpDivisor s = 0
  · rw [if_pos hdiv] at e; simp at e
  rw [if_neg hdiv] at e
  have hss1 : 0 < s.2.2 := by
    refine lt_of_le_of_ne hss0 fun hz => hdiv ?_
    have hz' : s.2.2 = 0 := hz.symm
    have hz0 : ∀ i, 1 ≤ i → i ≤ q.n → t.sdirn i = 0 := by
      rw [hss] at hz'
      intro i hi hin
      have := (sum_eq_zero_iff_of_nonneg fun i _ => mul_self_nonneg (t.sdirn i)).1 hz' i (mem_Icc.2 ⟨hi, hin⟩)
      exact mul_self_eq_zero.1 this
    have hsd0 : s.2.1 = 0 := by
      rw [hsd]; exact sum_eq_zero fun i hi => by rw [hz0 i (mem_Icc.1 hi).1 (mem_Icc.1 hi).2, zero_mul]
    have hq0 : sqrt (0 : K) = 0 := mul_self_eq_zero.1 (hsqrt 0 le_rfl).2
    unfold lpDivisor
    rw [hz', hsd0]
    simp [hq0]
  have hb := h.1.bound
  have hcap : lpCap q = q.rho * q.rho + q.n / 1000000000000 * (q.rho * q.rho) + 2 / 1000000000000 * (q.rho * q.rho) := by
    unfold lpCap; ring
  obtain ⟨k1, -, -⟩ := step_geometry hsqrt (sd := s.2.1) hss1 hdd' b1 b2 b3 (by rw [hcap] at hb; exact hb)
  have hst : 0 < s.1 / lpDivisor s := div_pos hdd' k1
  by_cases hm : t.mcon = q.m
  · rw [if_pos hm] at e
    split_ifs at e with hneg
    · simp only [Option.some.injEq, Prod.mk.injEq] at e
      obtain ⟨rfl, rfl⟩ := e
      exact ⟨trivial, rfl, fun _ => le_rfl⟩
    · have h0 : 0 ≤ cmin (s.1 / lpDivisor s) t.resmax := by
        unfold cmin; split_ifs
        · exact hst.le
        · exact h.1.rmin
      have key := take_last h hl (full := decide (cmin (s.1 / lpDivisor s) t.resmax = s.1 / lpDivisor s)) h0 (fun _ => hm)
      simp only [Option.some.injEq] at e
      rw [e] at key
      exact ⟨key.1, key.2.1, key.2.2.1⟩
  · rw [if_neg hm] at e
    have key := take_last h hl (full := decide (s.1 / lpDivisor s = s.1 / lpDivisor s)) hst.le (fun hf => absurd rfl (of_decide_eq_false hf))
    rw [Option.some.injEq] at e
    rw [e] at key
    exact ⟨key.1, key.2.1, key.2.2.1⟩

/-- From a label to the next one. -/
theorem lpStep_last (hsqrt : ∀ a : K, 0 ≤ a → 0 ≤ sqrt a ∧ sqrt a * sqrt a = a) (hr : 0 < q.rho) (hm1 : q.m ≤ 1)
    {l l' : Lab} {t u : Tr K} (h : At q (lpCap q) top l t) (hl : Tail q l t) (e : lpStep q (l, t) = some (l', u)) :
    Tail q l' u ∧ (0 ≤ gain q t ∧ (t.mcon = q.m + 1 ∨ l = .l480 ∨ l = .l500) → 0 ≤ gain q u ∧ (u.mcon = q.m + 1 ∨ l' = .l480 ∨ l' = .l500)) := by
  have keep : ∀ {t u : Tr K} {l l' : Lab}, Still t l' u → l ≠ .l480 → l ≠ .l500 →
      0 ≤ gain q t ∧ (t.mcon = q.m + 1 ∨ l = .l480 ∨ l = .l500) → 0 ≤ gain q u ∧ (u.mcon = q.m + 1 ∨ l' = .l480 ∨ l' = .l500) := by
    rintro t u l l' ⟨k1, k2, -, -⟩ h1 h2 ⟨g, hg⟩
    refine ⟨by unfold gain; rw [k1]; exact g, .inl ?_⟩
    rw [k2]
    tauto
  cases l
  · simp only [lpStep, Option.some.injEq, Prod.mk.injEq] at e
    obtain ⟨rfl, rfl⟩ := e
    obtain ⟨hc, hd, h1, h2, h3, h4⟩ := h
    exact ⟨fun hm => .inl ⟨h3, (h4 hm).trans hm⟩, keep (l := .l60) ⟨rfl, rfl, (fun h => by cases h), (fun h => by cases h)⟩ (fun h => by cases h) (fun h => by cases h)⟩
  · obtain ⟨k1, k2⟩ := lp70_last hsqrt hm1 h hl e
    exact ⟨k1, keep k2 (fun h => by cases h) (fun h => by cases h)⟩
  · obtain ⟨k1, k2⟩ := lp260_last h hl e
    exact ⟨k1, keep k2 (fun h => by cases h) (fun h => by cases h)⟩
  · simp only [lpStep, Option.some.injEq, Prod.mk.injEq] at e
    obtain ⟨rfl, rfl⟩ := e
    exact ⟨hl, keep (l := .l320) ⟨rfl, rfl, (fun h => by cases h), (fun h => by cases h)⟩ (fun h => by cases h) (fun h => by cases h)⟩
  · obtain ⟨k1, k2, k3⟩ := lp340_last hsqrt hr h hl e
    refine ⟨k1, fun ⟨g, hg⟩ => ?_⟩
    have hm : t.mcon = q.m + 1 := by
      rcases hg with h | h | h
      · exact h
      · cases h
      · cases h
    exact ⟨g.trans (k3 hm), .inl (k2.trans hm)⟩
  · simp only [lpStep, Option.some.injEq, Prod.mk.injEq] at e
    obtain ⟨rfl, rfl⟩ := e
    exact ⟨trivial, fun ⟨g, _⟩ => ⟨g, .inl rfl⟩⟩
  · have e' : (if t.mcon = q.m then some (Lab.l480, t) else some (Lab.l500, { t with ifull := 0 })) = some (l', u) := e
    by_cases hm : t.mcon = q.m
    · rw [if_pos hm] at e'
      simp only [Option.some.injEq, Prod.mk.injEq] at e'
      obtain ⟨rfl, rfl⟩ := e'
      exact ⟨trivial, fun ⟨g, _⟩ => ⟨g, .inr (.inl rfl)⟩⟩
    · rw [if_neg hm] at e'
      simp only [Option.some.injEq, Prod.mk.injEq] at e'
      obtain ⟨rfl, rfl⟩ := e'
      exact ⟨trivial, fun ⟨g, _⟩ => ⟨g, .inr (.inr rfl)⟩⟩
  · simp only [lpStep, Option.some.injEq, Prod.mk.injEq] at e
    obtain ⟨rfl, rfl⟩ := e
    exact ⟨trivial, fun h => h⟩

theorem lpInit_last (q : Lp K) (t : Tr K) : Tail q (lpInit q t).1 (lpInit q t).2 := by
  unfold lpInit
  dsimp only
  split_ifs <;> trivial

theorem lpRun_gain (hsqrt : ∀ a : K, 0 ≤ a → 0 ≤ sqrt a ∧ sqrt a * sqrt a = a) (hr : 0 < q.rho) (hm1 : q.m ≤ 1) (fuel : Nat) :
    ∀ (l : Lab) (t u : Tr K), At q (lpCap q) top l t → Tail q l t → 0 ≤ gain q t ∧ (t.mcon = q.m + 1 ∨ l = .l480 ∨ l = .l500) →
      lpRun q fuel (l, t) = some u → 0 ≤ gain q u := by
  induction fuel with
  | zero =>
    intro l t u h hl hg e
    cases l
    case l500 =>
      simp only [lpRun, Option.some.injEq] at e
      subst e
      exact hg.1
    all_goals simp [lpRun] at e
  | succ fuel ih =>
    intro l t u h hl hg e
    by_cases hl5 : l = .l500
    · subst hl5
      simp only [lpRun, Option.some.injEq] at e
      subst e
      exact hg.1
    · have e' : (lpStep q (l, t)).bind (lpRun q fuel) = some u := by
        cases l
        case l500 => exact absurd rfl hl5
        all_goals exact e
      rcases lpStep_spec hsqrt hr h with ⟨l', v, e1, h1⟩ | ⟨e1, _⟩
      · obtain ⟨k1, k2⟩ := lpStep_last hsqrt hr hm1 h hl e1
        rw [e1, Option.bind_some] at e'
        exact ih l' v u h1 k1 (k2 hg) e'
      · rw [e1] at e'
        exact absurd e' (by simp)

/-- With at most one constraint, from a feasible point the step of `trstlp` does not increase the
objective function. -/
theorem trstlp_gain (hsqrt : ∀ a : K, 0 ≤ a → 0 ≤ sqrt a ∧ sqrt a * sqrt a = a) (hr : 0 < q.rho) (hm1 : q.m ≤ 1) {fuel : Nat}
    {t u : Tr K} (hb : ∀ c, 1 ≤ c → c ≤ q.m → q.b c ≤ 0) (h : trstlp q fuel t = some u) : 0 ≤ ∑ i ∈ Icc 1 q.n, q.a i (q.m + 1) * u.dx i := by
  refine lpRun_gain hsqrt hr hm1 fuel _ _ u (lpInit_spec q t) (lpInit_last q t) ?_ h
  have hw : (lpWorst q).1 = 0 := by
    obtain ⟨w0, -, -, -, w4⟩ := worst_spec q
    rcases w4 with e | ⟨c, h1, h2, e⟩
    · exact e
    · exact le_antisymm (e ▸ hb c h1 h2) w0
  obtain ⟨z, dx, e, -, hdx⟩ := unit_spec q.n { t with ifull := 1, mcon := q.m, nact := 0 }
  unfold lpInit
  dsimp only
  rw [e, if_pos hw]
  refine ⟨?_, .inr (.inl rfl)⟩
  unfold gain
  dsimp only
  rw [sum_eq_zero fun i hi => by rw [hdx i (mem_Icc.1 hi).1 (mem_Icc.1 hi).2, mul_zero]]

/-! ## The constant of the objective function -/

theorem loop_same {α : Type} {f g : Nat → α → α} (n : Nat) (s : α) (h : ∀ k < n, ∀ s, f k s = g k s) : loop f n s = loop g n s :=
  loop_rel Eq n rfl fun k hk s t e => by rw [e, h k hk t]

theorem others_const {b : Nat → K} {t : Tr K} (h : ∀ k, t.nact < k → k ≤ t.mcon → b (t.iact k) = q.b (t.iact k)) :
    lpOthers { q with b := b } t = lpOthers q t := by
  unfold lpOthers
  dsimp only
  rw [loop_same (t.mcon - t.nact) t.vmultd fun j hj v => by rw [h (t.nact + 1 + j) (by omega) (by omega)]]

theorem residual_const {b : Nat → K} {t : Tr K} (h : ∀ k, 1 ≤ k → k ≤ t.nact → b (t.iact k) = q.b (t.iact k)) :
    lpResidual { q with b := b } t = lpResidual q t := by
  unfold lpResidual
  dsimp only
  exact loop_same t.nact 0 fun j hj v => by dsimp only; rw [h (j + 1) (by omega) (by omega)]

theorem lp70_const (b : Nat → K) (t : Tr K) : lp70 { q with b := b } t = lp70 q t := by
  rfl

theorem lp260_const (b : Nat → K) (t : Tr K) : lp260 { q with b := b } t = lp260 q t := by
  rfl

theorem multipliers_const (b : Nat → K) (t : Tr K) : lpMultipliers { q with b := b } t = lpMultipliers q t := by
  rfl

theorem move_const (b : Nat → K) (step : K) (t : Tr K) : lpMove { q with b := b } step t = lpMove q step t := by
  rfl

theorem update_const (b : Nat → K) (r : K) (t : Tr K) : lpUpdate { q with b := b } r t = lpUpdate q r t := by
  rfl

theorem take_const {b : Nat → K} (step : K) (full : Bool) {t : Tr K}
    (h1 : t.mcon = q.m → lpResidual { q with b := b } (lpMove q step t) = lpResidual q (lpMove q step t))
    (h3 : ∀ k, t.nact < k → k ≤ t.mcon → b (t.iact k) = q.b (t.iact k)) :
    lpTake { q with b := b } step full t = lpTake q step full t := by
  obtain ⟨r, hr⟩ : ∃ r : Tr K, r = if (lpMove q step t).mcon = q.m then { lpMove q step t with resmax := lpResidual q (lpMove q step t) } else lpMove q step t := ⟨_, rfl⟩
  have e1 : (if (lpMove q step t).mcon = q.m then { lpMove q step t with resmax := lpResidual { q with b := b } (lpMove q step t) } else lpMove q step t) = r := by
    rw [hr]
    by_cases hm : (lpMove q step t).mcon = q.m
    · rw [if_pos hm, if_pos hm, h1 hm]
    · rw [if_neg hm, if_neg hm]
  have hfr : r.nact = t.nact ∧ r.mcon = t.mcon ∧ r.iact = t.iact := by
    rw [hr]
    split_ifs <;> exact ⟨rfl, rfl, rfl⟩
  obtain ⟨dn, vd, em, -⟩ := multipliers_spec (q := q) r
  have e2 : lpOthers { q with b := b } (lpMove q step (lpMultipliers q r)) = lpOthers q (lpMove q step (lpMultipliers q r)) := by
    rw [em]
    refine others_const fun k hk hkm => ?_
    show b (r.iact k) = q.b (r.iact k)
    rw [hfr.2.2]
    exact h3 k (by rw [← hfr.1]; exact hk) (by rw [← hfr.2.1]; exact hkm)
  unfold lpTake
  simp only [move_const, multipliers_const, update_const]
  rw [e1, e2, ← hr]

/-- The value `B(M+1)` is not used. -/
theorem lp340_const {b : Nat → K} (hb : ∀ c, 1 ≤ c → c ≤ q.m → b c = q.b c) (hm1 : q.m ≤ 1) {t : Tr K}
    (h : At q cap top .l340 t) (hl : Tail q .l340 t) : lp340 { q with b := b } t = lp340 q t := by
  obtain ⟨hc, -, h2⟩ := h
  have A := hc.act
  have take : ∀ step full, lpTake { q with b := b } step full t = lpTake q step full t := by
    intro step full
    refine take_const step full ?_ ?_
    · intro hm
      refine residual_const fun k hk hkn => ?_
      have hkn' : k ≤ t.nact := hkn
      have := A.range k hk (hkn'.trans A.hm)
      exact hb _ this.1 (by rw [← hm]; exact this.2)
    · intro k hk hkm
      have hr := A.range k (by omega) hkm
      rcases hc.mcon with hm | hm
      · exact hb _ hr.1 (by rw [← hm]; exact hr.2)
      · have hn := (h2 hm).1
        have hla := hl hm
        have ek : k = 2 := by omega
        have en : t.nact = 1 := by omega
        subst ek
        obtain ⟨k', c1, c2, c3⟩ := A.sur 1 le_rfl (by omega)
        have : k' = 2 := by
          by_contra hne
          have : k' = 1 := by omega
          rw [this] at c3
          rw [en] at hla
          omega
        rw [this] at c3
        rw [c3]
        exact hb 1 le_rfl (by omega)
  have norms : lpNorms { q with b := b } t = lpNorms q t := rfl
  unfold lp340
  rw [norms]
  simp only [take]

theorem lpStep_const {b : Nat → K} (hb : ∀ c, 1 ≤ c → c ≤ q.m → b c = q.b c) (hm1 : q.m ≤ 1) {l : Lab} {t : Tr K}
    (h : At q cap top l t) (hl : Tail q l t) : lpStep { q with b := b } (l, t) = lpStep q (l, t) := by
  cases l
  case l340 => exact lp340_const hb hm1 h hl
  case l70 => exact lp70_const b t
  case l260 => exact lp260_const b t
  all_goals rfl

theorem lpInit_const {b : Nat → K} (hb : ∀ c, 1 ≤ c → c ≤ q.m → b c = q.b c) (t : Tr K) :
    lpInit { q with b := b } t = lpInit q t := by
  have h1 : lpWorst { q with b := b } = lpWorst q := by
    unfold lpWorst
    exact loop_same q.m _ fun j hj v => by simp only [hb (j + 1) (by omega) (by omega)]
  unfold lpInit
  rw [h1]
  dsimp only
  have h2 : ∀ (w : K) (v : Nat → K), up q.m (fun k v => set1 v k (w - b k)) v = up q.m (fun k v => set1 v k (w - q.b k)) v :=
    fun w v => loop_same q.m _ fun j hj v => by dsimp only; rw [hb (j + 1) (by omega) (by omega)]
  rw [h2]

theorem lpRun_const (hsqrt : ∀ a : K, 0 ≤ a → 0 ≤ sqrt a ∧ sqrt a * sqrt a = a) (hr : 0 < q.rho) (hm1 : q.m ≤ 1) {b : Nat → K}
    (hb : ∀ c, 1 ≤ c → c ≤ q.m → b c = q.b c) (fuel : Nat) :
    ∀ (l : Lab) (t : Tr K), At q (lpCap q) top l t → Tail q l t → lpRun { q with b := b } fuel (l, t) = lpRun q fuel (l, t) := by
  induction fuel with
  | zero => intro l t _ _; cases l <;> rfl
  | succ fuel ih =>
    intro l t h hl
    by_cases hl5 : l = .l500
    · subst hl5; rfl
    · have e' : ∀ q : Lp K, lpRun q (fuel + 1) (l, t) = (lpStep q (l, t)).bind (lpRun q fuel) := by
        intro q
        cases l
        case l500 => exact absurd rfl hl5
        all_goals rfl
      rw [e', e', lpStep_const hb hm1 h hl]
      rcases lpStep_spec hsqrt hr h with ⟨l', v, e1, h1⟩ | ⟨e1, _⟩
      · rw [e1, Option.bind_some, Option.bind_some]
        exact ih l' v h1 (lpStep_last hsqrt hr hm1 h hl e1).1
      · rw [e1]; rfl

/-- With at most one constraint, the step of `trstlp` does not depend on `B(M+1)`. -/
theorem trstlp_const (hsqrt : ∀ a : K, 0 ≤ a → 0 ≤ sqrt a ∧ sqrt a * sqrt a = a) (hr : 0 < q.rho) (hm1 : q.m ≤ 1) {b : Nat → K}
    (hb : ∀ c, 1 ≤ c → c ≤ q.m → b c = q.b c) (fuel : Nat) (t : Tr K) : trstlp { q with b := b } fuel t = trstlp q fuel t := by
  unfold trstlp
  rw [lpInit_const hb]
  exact lpRun_const hsqrt hr hm1 hb fuel _ _ (lpInit_spec q t) (lpInit_last q t)

end Opk.Cobyla
