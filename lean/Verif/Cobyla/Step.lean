import Verif.Cobyla.Active
import Mathlib.Logic.Relation
/-! # COBYLA: what the step of `trstlp` satisfies in exact arithmetic -/
set_option linter.unusedSectionVars false
set_option linter.unusedSimpArgs false
namespace Opk.Cobyla
open Linalg CMath Finset

variable {K : Type} [Field K] [LinearOrder K] [IsStrictOrderedRing K] [CMath K] [ExactMath K]

/-- `RESMAX` minus the violation of the linear model of the constraint `c` at `DX`. -/
def res (q : Lp K) (t : Tr K) (c : Nat) : K := t.resmax - q.b c + ∑ i ∈ Icc 1 q.n, q.a i c * t.dx i

/-- What is true at every label. -/
structure Core (q : Lp K) (cap top : K) (t : Tr K) : Prop where
  mcon : t.mcon = q.m ∨ t.mcon = q.m + 1
  act : Act q t.nact t.mcon t.iact t.z t.zdota
  mult : ∀ k, 1 ≤ k → k ≤ t.mcon → 0 ≤ t.vmultc k
  fea : ∀ c, 1 ≤ c → c ≤ q.m → 0 ≤ res q t c
  slack : ∀ k, t.nact < k → k ≤ t.mcon → t.iact k ≤ q.m → t.vmultc k ≤ res q t (t.iact k)
  full : t.ifull = 1
  bound : ∑ i ∈ Icc 1 q.n, t.dx i * t.dx i ≤ cap
  rmin : 0 ≤ t.resmax
  rmax : t.resmax ≤ top

/-- In stage one the direction reduces the violations of the active constraints with slope one. -/
def Dir (q : Lp K) (nact : Nat) (t : Tr K) : Prop :=
  t.mcon = q.m → ∀ k, 1 ≤ k → k ≤ nact → ∑ i ∈ Icc 1 q.n, t.sdirn i * q.a i (t.iact k) = 1

/-- In stage two the constraint which stops the step becomes more violated along the step. -/
def Stop (q : Lp K) (t : Tr K) : Prop :=
  t.mcon = q.m + 1 → (t.nact < t.icon ∧ t.iact t.icon = t.mcon) ∨
    (1 ≤ t.nact ∧ t.icon ≠ t.nact ∧ (t.nact < t.icon → t.iact t.icon ≤ q.m → zd q t.z t.nact (t.iact t.icon) / t.zdota t.nact < 0))

/-- The end. -/
structure Final (q : Lp K) (cap top : K) (t : Tr K) : Prop where
  bound : ∑ i ∈ Icc 1 q.n, t.dx i * t.dx i ≤ cap
  fea : ∀ c, 1 ≤ c → c ≤ q.m → q.b c - ∑ i ∈ Icc 1 q.n, q.a i c * t.dx i ≤ top
  full : t.ifull = 0 ∨ (t.ifull = 1 ∧ q.rho * q.rho ≤ ∑ i ∈ Icc 1 q.n, t.dx i * t.dx i)

/-- What is true at each label. -/
def At (q : Lp K) (cap top : K) : Lab → Tr K → Prop
  | .l60, t => Core q cap top t ∧ Dir q t.nact t ∧ 1 ≤ t.icon ∧ t.icon ≤ t.mcon ∧ t.nact < t.icon ∧ (t.mcon = q.m + 1 → t.iact t.icon = t.mcon)
  | .l70, t => Core q cap top t ∧ Dir q t.nact t ∧ 1 ≤ t.icon ∧ t.icon ≤ t.mcon ∧ (t.icon ≤ t.nact → t.vmultc t.icon = 0) ∧ Stop q t
  | .l260, t => Core q cap top t ∧ Dir q t.nact t ∧ 1 ≤ t.icon ∧ t.icon ≤ t.nact ∧ t.vmultc t.icon = 0 ∧ (t.mcon = q.m + 1 → t.icon < t.nact)
  | .l320, t => Core q cap top t ∧ t.mcon = q.m + 1 ∧ 1 ≤ t.nact
  | .l340, t => Core q cap top t ∧ Dir q t.nact t ∧ (t.mcon = q.m + 1 → 1 ≤ t.nact ∧ ∀ i, 1 ≤ i → i ≤ q.n → t.sdirn i = t.z i t.nact / t.zdota t.nact)
  | .l480, t => Core q cap top t ∧ t.mcon = q.m
  | .l490, t => Core q cap top t
  | .l500, t => Final q cap top t

/-! ## Exchanges -/

/-- Two consecutive active constraints are exchanged. -/
def swapTr (q : Lp K) (k : Nat) (t : Tr K) : Tr K :=
  let sp := zd q t.z k (t.iact (k + 1))
  let temp := sqrt (sp * sp + t.zdota (k + 1) * t.zdota (k + 1))
  { t with zdota := set1 (set1 t.zdota (k + 1) (t.zdota (k + 1) / temp * t.zdota k)) k temp, z := rot q.n k (k + 1) (sp / temp) (t.zdota (k + 1) / temp) (t.zdota (k + 1) / temp) (-(sp / temp)) t.z, iact := set1 (set1 t.iact (k + 1) (t.iact k)) k (t.iact (k + 1)), vmultc := set1 (set1 t.vmultc (k + 1) (t.vmultc k)) k (t.vmultc (k + 1)) }

section
variable {q : Lp K} {cap top : K}

theorem core_swap (hsqrt : ∀ a : K, 0 ≤ a → 0 ≤ sqrt a ∧ sqrt a * sqrt a = a) {t : Tr K} (h : Core q cap top t) {k : Nat}
    (hk : 1 ≤ k) (hk' : k + 1 ≤ t.nact) : Core q cap top (swapTr q k t) := by
  obtain ⟨h1, h2⟩ := swap_ne hsqrt (x := zd q t.z k (t.iact (k + 1))) (h.act.ne (k + 1) (by omega) hk')
  have hm := h.act.hm
  have fea : ∀ c, res q (swapTr q k t) c = res q t c := fun _ => rfl
  refine ⟨h.mcon, h.act.swap hk hk' h1 h2, ?_, h.fea, ?_, h.full, h.bound, h.rmin, h.rmax⟩
  · intro j hj hjm
    show 0 ≤ set1 (set1 t.vmultc (k + 1) (t.vmultc k)) k (t.vmultc (k + 1)) j
    unfold set1
    split_ifs
    · exact h.mult _ (by omega) (by omega)
    · exact h.mult _ (by omega) (by omega)
    · exact h.mult _ hj hjm
  · intro j hj hjm
    have hj' : t.nact < j := hj
    show set1 (set1 t.iact (k + 1) (t.iact k)) k (t.iact (k + 1)) j ≤ q.m → set1 (set1 t.vmultc (k + 1) (t.vmultc k)) k (t.vmultc (k + 1)) j ≤ res q t (set1 (set1 t.iact (k + 1) (t.iact k)) k (t.iact (k + 1)) j)
    unfold set1
    rw [if_neg (by omega), if_neg (by omega), if_neg (by omega), if_neg (by omega)]
    exact h.slack j hj hjm

theorem dir_swap {t : Tr K} {k nact : Nat} (h : Dir q nact t) (hk : 1 ≤ k) (hk' : k + 1 ≤ nact) :
    Dir q nact (swapTr q k t) := by
  intro hm j hj hjn
  show ∑ i ∈ Icc 1 q.n, t.sdirn i * q.a i (set1 (set1 t.iact (k + 1) (t.iact k)) k (t.iact (k + 1)) j) = 1
  unfold set1
  split_ifs
  · exact h hm _ (by omega) (by omega)
  · exact h hm _ (by omega) (by omega)
  · exact h hm _ hj hjn

/-- The rotation of the exchanges. -/
theorem up_swap (n k : Nat) (al be : K) (z : Nat → Nat → K) :
    up n (fun i z =>
      let temp := al * z i (k + 1) + be * z i k
      let z := set2 z i (k + 1) (al * z i k - be * z i (k + 1))
      set2 z i k temp) z = rot n k (k + 1) be al al (-be) z := by
  have := up_rot n k (k + 1) (by omega) (fun a b => al * b + be * a) (fun a b => al * a - be * b) z
  dsimp only at this ⊢
  rw [this]
  funext i l
  unfold rot
  split_ifs <;> ring

theorem zd_up (z : Nat → Nat → K) (k c : Nat) : up q.n (fun i s => s + z i k * q.a i c) 0 = zd q z k c := by
  rw [up_sum, zero_add]; rfl

theorem set1_comm {α : Type} (v : Nat → α) {j k : Nat} (h : j ≠ k) (a b : α) : set1 (set1 v j a) k b = set1 (set1 v k b) j a := by
  funext i
  unfold set1
  by_cases h1 : i = j
  · subst h1; simp [h]
  · simp [h1]

theorem set1_same {α : Type} (v : Nat → α) (j : Nat) : set1 v j (v j) = v := by
  funext i
  unfold set1
  split_ifs with h
  · rw [h]
  · rfl

theorem set1_twice {α : Type} (v : Nat → α) (j : Nat) (a b : α) : set1 (set1 v j a) j b = set1 v j b := by
  funext i
  unfold set1
  split_ifs <;> rfl

/-- What `lpShift` does. -/
theorem shift_spec (hsqrt : ∀ a : K, 0 ≤ a → 0 ≤ sqrt a ∧ sqrt a * sqrt a = a) {t : Tr K} (h : Core q cap top t)
    (hd : Dir q t.nact t) (hi : 1 ≤ t.icon) (hi' : t.icon ≤ t.nact) :
    Core q cap top (lpShift q t) ∧ Dir q t.nact (lpShift q t) ∧
      (∃ iact z zdota vmultc, lpShift q t = { t with iact := iact, z := z, zdota := zdota, vmultc := vmultc }) ∧
      (lpShift q t).vmultc t.nact = t.vmultc t.icon := by
  have key : (fun (j : Nat) (u : Tr K) =>
      (∃ iact z zdota vmultc, u = { t with iact := iact, z := z, zdota := zdota, vmultc := vmultc }) ∧
      Core q cap top { u with iact := set1 u.iact (t.icon + j) (t.iact t.icon), vmultc := set1 u.vmultc (t.icon + j) (t.vmultc t.icon) } ∧
      Dir q t.nact { u with iact := set1 u.iact (t.icon + j) (t.iact t.icon), vmultc := set1 u.vmultc (t.icon + j) (t.vmultc t.icon) })
      (t.nact - t.icon) (loop (fun j (t : Tr K) =>
        let k := t.icon + j
        let kw := t.iact (k + 1)
        let sp := up q.n (fun i s => s + t.z i k * q.a i kw) 0
        let temp := sqrt (sp * sp + t.zdota (k + 1) * t.zdota (k + 1))
        let alpha := t.zdota (k + 1) / temp
        let beta := sp / temp
        let zdota := set1 t.zdota (k + 1) (alpha * t.zdota k)
        let zdota := set1 zdota k temp
        let z := up q.n (fun i z =>
          let temp := alpha * z i (k + 1) + beta * z i k
          let z := set2 z i (k + 1) (alpha * z i k - beta * z i (k + 1))
          set2 z i k temp) t.z
        { t with zdota := zdota, z := z, iact := set1 t.iact k kw, vmultc := set1 t.vmultc k (t.vmultc (k + 1)) }) (t.nact - t.icon) t) := by
    refine loop_inv (fun (j : Nat) (u : Tr K) =>
      (∃ iact z zdota vmultc, u = { t with iact := iact, z := z, zdota := zdota, vmultc := vmultc }) ∧
      Core q cap top { u with iact := set1 u.iact (t.icon + j) (t.iact t.icon), vmultc := set1 u.vmultc (t.icon + j) (t.vmultc t.icon) } ∧
      Dir q t.nact { u with iact := set1 u.iact (t.icon + j) (t.iact t.icon), vmultc := set1 u.vmultc (t.icon + j) (t.vmultc t.icon) }) _ ?_ ?_
    · refine ⟨⟨t.iact, t.z, t.zdota, t.vmultc, rfl⟩, ?_, ?_⟩
      · rw [Nat.add_zero, set1_same, set1_same]; exact h
      · rw [Nat.add_zero, set1_same, set1_same]; exact hd
    · rintro j hj u ⟨⟨iact, z, zdota, vmultc, rfl⟩, i1, i2⟩
      refine ⟨⟨_, _, _, _, rfl⟩, ?_⟩
      dsimp only at i1 i2 ⊢
      rw [zd_up, up_swap]
      have hk : t.icon + j ≠ t.icon + j + 1 := by omega
      have e : ∀ (α : Type) (v : Nat → α) (a : α), set1 (set1 v (t.icon + j) (v (t.icon + j + 1))) (t.icon + (j + 1)) a =
          set1 (set1 (set1 v (t.icon + j) a) (t.icon + j + 1) a) (t.icon + j) (v (t.icon + j + 1)) := by
        intro α v a
        rw [set1_comm _ (Ne.symm hk), set1_twice]
        rfl
      have e0 : ∀ (α : Type) (v : Nat → α) (a : α), set1 v (t.icon + j) a (t.icon + j) = a := by
        intro α v a; rw [set1, if_pos rfl]
      have e1 : ∀ (α : Type) (v : Nat → α) (a : α), set1 v (t.icon + j) a (t.icon + j + 1) = v (t.icon + j + 1) := by
        intro α v a; rw [set1, if_neg (Ne.symm hk)]
      have c := core_swap hsqrt i1 (k := t.icon + j) (by omega) (by dsimp only; omega)
      have d := dir_swap i2 (k := t.icon + j) (by omega) (by omega)
      unfold swapTr at c d
      dsimp only at c d
      rw [e0, e0, e1, e1] at c d
      rw [e, e]
      exact ⟨c, d⟩
  obtain ⟨⟨iact, z, zdota, vmultc, e⟩, i1, i2⟩ := key
  unfold lpShift
  dsimp only
  dsimp only at e i1 i2
  rw [e] at i1 i2 ⊢
  dsimp only at i1 i2 ⊢
  rw [show t.icon + (t.nact - t.icon) = t.nact from by omega] at i1 i2
  exact ⟨i1, i2, ⟨_, _, _, _, rfl⟩, by rw [set1, if_pos rfl]⟩


/-! ## Adding a constraint -/

/-- The list of constraints when the new one becomes the last active one. -/
theorem core_enter {t : Tr K} (h : Core q cap top t) {nact : Nat} {z : Nat → Nat → K} {zdota vmultc : Nat → K}
    (hc : t.icon ≤ t.mcon) (h1 : 1 ≤ nact) (hn : nact ≤ q.n) (hnc : nact ≤ t.icon) (ht : t.nact = nact ∧ nact < t.icon ∨ t.nact + 1 = nact) (hz : Orth q.n z)
    (hd : ∀ k, 1 ≤ k → k < nact → zdota k = zd q z k (t.iact k) ∧ zdota k ≠ 0 ∧ ∀ j, k < j → j ≤ q.n → zd q z j (t.iact k) = 0)
    (hl : zdota nact = zd q z nact (t.iact t.icon) ∧ zdota nact ≠ 0 ∧ ∀ j, nact < j → j ≤ q.n → zd q z j (t.iact t.icon) = 0)
    (hv : ∀ k, 1 ≤ k → k ≤ t.mcon → 0 ≤ vmultc k)
    (hs : ∀ k, nact < k → k ≤ t.mcon → k ≠ t.icon → vmultc k = t.vmultc k)
    (hs' : nact < t.icon → vmultc t.icon = 0 ∨ (t.nact < nact ∧ vmultc t.icon = t.vmultc nact)) (dxnew : Nat → K) (vmultd : Nat → K) :
    Core q cap top { t with nact := nact, z := z, zdota := zdota, vmultc := vmultc, dxnew := dxnew, vmultd := vmultd, iact := set1 (set1 t.iact t.icon (t.iact nact)) nact (t.iact t.icon) } := by
  have hnm : nact ≤ t.mcon := by omega
  have A := h.act
  have iO : ∀ k, k ≠ nact → k ≠ t.icon → set1 (set1 t.iact t.icon (t.iact nact)) nact (t.iact t.icon) k = t.iact k := by
    intro k h1 h2; rw [set1, if_neg h1, set1, if_neg h2]
  have iN : set1 (set1 t.iact t.icon (t.iact nact)) nact (t.iact t.icon) nact = t.iact t.icon := by rw [set1, if_pos rfl]
  have iI : set1 (set1 t.iact t.icon (t.iact nact)) nact (t.iact t.icon) t.icon = t.iact nact := by
    by_cases e : t.icon = nact
    · rw [set1, if_pos e, e]
    · rw [set1, if_neg e, set1, if_pos rfl]
  refine ⟨h.mcon, ⟨hn, hnm, ?_, ?_, hz, ?_, ?_, ?_⟩, hv, h.fea, ?_, h.full, h.bound, h.rmin, h.rmax⟩
  · intro k hk hkm
    by_cases e1 : k = nact
    · subst e1; dsimp only; rw [iN]; exact A.range _ (by omega) hc
    · by_cases e2 : k = t.icon
      · subst e2; dsimp only; rw [iI]; exact A.range _ h1 hnm
      · dsimp only; rw [iO k e1 e2]; exact A.range _ hk hkm
  · intro c hc1 hcm
    obtain ⟨k, hk, hkm, e⟩ := A.sur c hc1 hcm
    by_cases e1 : k = nact
    · subst e1; exact ⟨t.icon, by omega, hc, by dsimp only; rw [iI, e]⟩
    · by_cases e2 : k = t.icon
      · subst e2; exact ⟨nact, h1, hnm, by dsimp only; rw [iN, e]⟩
      · exact ⟨k, hk, hkm, by dsimp only; rw [iO k e1 e2, e]⟩
  · intro k hk hkn
    by_cases e1 : k = nact
    · subst e1; dsimp only; rw [iN]; exact hl.1
    · dsimp only at hkn ⊢; rw [iO k e1 (by omega)]; exact (hd k hk (by omega)).1
  · intro k hk hkn
    by_cases e1 : k = nact
    · subst e1; exact hl.2.1
    · dsimp only at hkn ⊢; exact (hd k hk (by omega)).2.1
  · intro k hk hkn
    by_cases e1 : k = nact
    · subst e1; dsimp only; rw [iN]; exact hl.2.2
    · dsimp only at hkn ⊢; rw [iO k e1 (by omega)]; exact (hd k hk (by omega)).2.2
  · intro k hk hkm
    dsimp only at hk hkm ⊢
    show _ → vmultc k ≤ res q t _
    by_cases e2 : k = t.icon
    · subst e2
      rw [iI]
      intro hc
      rcases hs' hk with e | ⟨e0, e⟩
      · rw [e]; exact h.fea _ (A.range _ h1 hnm).1 hc
      · rw [e]; exact h.slack nact (by omega) hnm hc
    · rw [iO k (by omega) e2, hs k hk hkm e2]
      exact h.slack k (by omega) hkm

/-- `L_210`: what comes next. -/
theorem lp210_spec (hsqrt : ∀ a : K, 0 ≤ a → 0 ≤ sqrt a ∧ sqrt a * sqrt a = a) {t : Tr K} {kk : Nat}
    (h : Core q cap top { t with iact := set1 (set1 t.iact t.icon (t.iact t.nact)) t.nact kk }) (h1 : 1 ≤ t.nact)
    (hd : Dir q (t.nact - 1) { t with iact := set1 (set1 t.iact t.icon (t.iact t.nact)) t.nact kk })
    (h2 : t.mcon = q.m + 1 → kk ≠ t.mcon → 2 ≤ t.nact) :
    ∃ l u, lp210 q kk t = some (l, u) ∧ At q cap top l u := by
  set t0 : Tr K := { t with iact := set1 (set1 t.iact t.icon (t.iact t.nact)) t.nact kk } with ht0
  have hkk : t0.iact t0.nact = kk := by rw [ht0]; dsimp only; rw [set1, if_pos rfl]
  have hl : ∃ u, lpLast q kk t0 = some u ∧ Core q cap top u ∧ u.mcon = t.mcon ∧ u.nact = t.nact ∧ (t.mcon = q.m → u = t0) := by
    unfold lpLast
    by_cases hc : t0.mcon > q.m ∧ kk ≠ t0.mcon
    · rw [if_pos hc]
      have hm : t.mcon = q.m + 1 := by
        have := h.mcon
        rcases this with e | e
        · exact absurd hc.1 (by omega)
        · exact e
      have hn2 : 2 ≤ t.nact := h2 hm hc.2
      obtain ⟨k, hk⟩ : ∃ k, t.nact = k + 1 := ⟨t.nact - 1, by omega⟩
      have hk0 : t0.nact = k + 1 := hk
      have ek : t0.nact - 1 = k := by omega
      dsimp only
      rw [ek, if_neg (by omega)]
      refine ⟨_, rfl, ?_, rfl, rfl, fun e => absurd hm (by omega)⟩
      have c := core_swap hsqrt h (k := k) (by omega) (by omega)
      unfold swapTr at c
      rw [← hk0, hkk] at c
      rw [zd_up, hk0, up_swap, ← hk0, set1_comm t0.vmultc (by omega)]
      exact c
    · rw [if_neg hc]
      exact ⟨t0, rfl, h, rfl, rfl, fun _ => rfl⟩
  obtain ⟨u, e, hu, um, un, ut⟩ := hl
  unfold lp210
  dsimp only
  rw [← ht0, e]
  dsimp only
  by_cases hm : u.mcon > q.m
  · rw [if_pos hm]
    exact ⟨_, _, rfl, hu, by rcases hu.mcon with e | e <;> omega, by omega⟩
  · rw [if_neg hm]
    have hum : u.mcon = q.m := by rcases hu.mcon with e | e <;> omega
    have e0 : u = t0 := ut (by omega)
    subst e0
    refine ⟨_, _, rfl, ⟨hu.mcon, hu.act, hu.mult, hu.fea, hu.slack, hu.full, hu.bound, hu.rmin, hu.rmax⟩, ?_, ?_⟩
    · intro _ k hk hkn
      have hkn' : k ≤ t.nact := hkn
      unfold lpDirection
      dsimp only
      rw [up_set1 q.n (fun i v => v - _ * _), up_sum, zero_add]
      set sa := ∑ i ∈ Icc 1 q.n, t0.sdirn i * q.a i (t0.iact t0.nact) with hsa
      have e1 : ∑ i ∈ Icc 1 q.n, (if 1 ≤ i ∧ i ≤ q.n then t0.sdirn i - (sa - 1) / t0.zdota t0.nact * t0.z i t0.nact else t0.sdirn i) * q.a i (t0.iact k) =
          ∑ i ∈ Icc 1 q.n, t0.sdirn i * q.a i (t0.iact k) - (sa - 1) / t0.zdota t0.nact * zd q t0.z t0.nact (t0.iact k) := by
        unfold zd
        rw [mul_sum, ← sum_sub_distrib]
        refine sum_congr rfl fun i hi => ?_
        rw [if_pos (mem_Icc.1 hi)]
        ring
      rw [e1]
      by_cases hkl : k = t0.nact
      · subst hkl
        rw [← hsa, ← h.act.diag _ hk le_rfl, div_mul_cancel₀ _ (h.act.ne _ hk le_rfl)]
        ring
      · have hlt : k < t0.nact := lt_of_le_of_ne hkn hkl
        rw [h.act.tail k hk hkn t0.nact hlt h.act.hn, mul_zero, sub_zero]
        have hlt' : k < t.nact := hlt
        exact hd hum k hk (by omega)
    · intro e
      exact absurd (show t0.mcon = q.m + 1 from e) (by omega)


theorem combine_one {k : Nat} (hk : 1 ≤ k) (r : K) (t : Tr K) :
    ∃ r' dn vd, lpCombine q k (r, t) = some (r', { t with dxnew := dn, vmultd := vd }) ∧
      (0 ≤ r' → 0 ≤ r ∨ 0 < (∑ i ∈ Icc 1 q.n, t.z i k * t.dxnew i) / t.zdota k) := by
  have h0 : ∀ i, t.zAt i k = t.z i k := fun i => by rw [Tr.zAt, if_neg (by omega)]
  have h1 : t.zdotaAt q.n k = t.zdota k := by rw [Tr.zdotaAt, if_neg (by omega)]
  have h2 : ∀ (u : Tr K) (v : K), u.setVmultd q.n k v = { u with vmultd := set1 u.vmultd k v } := fun u v => by
    rw [Tr.setVmultd, if_neg (by omega)]
  unfold lpCombine
  simp only [h0, h1, h2]
  rw [up_two, zero_add]
  set s := ∑ i ∈ Icc 1 q.n, t.z i k * t.dxnew i
  split_ifs with c1 c2 c3 c4 c5 c5 c5
  · omega
  · exact ⟨_, _, _, rfl, fun _ => .inr c3.1⟩
  · exact ⟨_, _, _, rfl, fun _ => .inr c3.1⟩
  · exact ⟨_, _, _, rfl, fun _ => .inr c3.1⟩
  · exact ⟨_, _, _, rfl, fun _ => .inr c3.1⟩
  · exact ⟨_, _, _, rfl, fun h => .inl h⟩
  · exact ⟨_, _, _, rfl, fun h => .inl h⟩
  · exact ⟨_, _, _, rfl, fun h => .inl h⟩

theorem combine_spec {t : Tr K} (hz : t.nact = 0 → ∀ i, 1 ≤ i → i ≤ q.n → t.dxnew i = 0) :
    ∃ r dn vd, lpCombineAll q t = some (r, { t with dxnew := dn, vmultd := vd }) ∧
      (0 ≤ r → 1 ≤ t.nact ∧ (t.nact = 1 → 0 < (∑ i ∈ Icc 1 q.n, t.z i 1 * t.dxnew i) / t.zdota 1)) := by
  unfold lpCombineAll
  by_cases h0 : t.nact = 0
  · rw [show max 1 t.nact = 0 + 1 from by omega]
    show ∃ r dn vd, (some ((-1 : K), t)).bind (lpCombine q (t.nact - 0)) = _ ∧ _
    rw [Option.bind_some, show t.nact - 0 = 0 from h0]
    unfold lpCombine
    dsimp only
    rw [up_two, zero_add, zero_add]
    have e : ∀ i ∈ Icc 1 q.n, t.zAt i 0 * t.dxnew i = 0 := fun i hi => by
      rw [hz h0 i (mem_Icc.1 hi).1 (mem_Icc.1 hi).2, mul_zero]
    have e1 : ∑ i ∈ Icc 1 q.n, t.zAt i 0 * t.dxnew i = 0 := sum_eq_zero e
    have e2 : ∑ i ∈ Icc 1 q.n, |t.zAt i 0 * t.dxnew i| = 0 := sum_eq_zero fun i hi => by rw [e i hi, abs_zero]
    simp only [e1, e2]
    rw [if_neg, show t.setVmultd q.n 0 0 = { t with dxnew := set1 t.dxnew q.n 0 } from if_pos rfl]
    · refine ⟨_, _, _, rfl, fun h => ?_⟩
      exact absurd h (by norm_num)
    · rw [ExactMath.fabs_eq, abs_zero, mul_zero, add_zero]
      simp
  · have hm : max 1 t.nact = t.nact := by omega
    rw [hm]
    have key := loop_inv (f := fun j (st : Option (K × Tr K)) => st.bind (lpCombine q (t.nact - j))) (s := some (-1, t))
      (fun j st => ∃ r dn vd, st = some (r, { t with dxnew := dn, vmultd := vd }) ∧ (j = 0 → dn = t.dxnew ∧ r < 0) ∧
        (j = 1 → 0 ≤ r → 0 < (∑ i ∈ Icc 1 q.n, t.z i t.nact * t.dxnew i) / t.zdota t.nact)) t.nact
      ⟨_, _, _, rfl, fun _ => ⟨rfl, by norm_num⟩, fun h => absurd h (by omega)⟩ (by
        rintro j hj st ⟨r, dn, vd, rfl, i0, i1⟩
        rw [Option.bind_some]
        obtain ⟨r', dn', vd', e, hr⟩ := combine_one (q := q) (k := t.nact - j) (by omega) r { t with dxnew := dn, vmultd := vd }
        rw [e]
        refine ⟨r', dn', vd', rfl, fun h => absurd h (by omega), fun h1 h2 => ?_⟩
        have hj0 : j = 0 := by omega
        subst hj0
        obtain ⟨rfl, hr0⟩ := i0 rfl
        rcases hr h2 with h3 | h3
        · exact absurd h3 (not_le.2 hr0)
        · exact h3)
    obtain ⟨r, dn, vd, e, _, i1⟩ := key
    refine ⟨r, dn, vd, e, fun hr => ⟨by omega, fun h1 => ?_⟩⟩
    have := i1 h1 hr
    rwa [h1] at this

/-- Adding a constraint. -/
theorem lpAdd_spec (hsqrt : ∀ a : K, 0 ≤ a → 0 ≤ sqrt a ∧ sqrt a * sqrt a = a) {t : Tr K} (h : Core q cap top t)
    (hd : Dir q t.nact t) (hi : t.icon ≤ t.mcon) (hi' : t.nact < t.icon) (hs : Stop q t) :
    ∃ l u, lpAdd q t = some (l, u) ∧ At q cap top l u := by
  have A := h.act
  unfold lpAdd
  dsimp only
  rw [up_set1 q.n (fun i _ => q.a i (t.iact t.icon))]
  set g : Nat → K := fun k => if 1 ≤ k ∧ k ≤ q.n then q.a k (t.iact t.icon) else t.dxnew k with hg
  have hgz : ∀ (z : Nat → Nat → K) k, ∑ i ∈ Icc 1 q.n, z i k * g i = zd q z k (t.iact t.icon) := by
    intro z k
    refine sum_congr rfl fun i hi => ?_
    rw [hg]; dsimp only; rw [if_pos (mem_Icc.1 hi)]
  have R := rotated hsqrt A.hn g A.orth
  set tot := (lpRotate q.n t.nact g t.z).1
  set z' := (lpRotate q.n t.nact g t.z).2
  by_cases ht : tot = 0
  · rw [if_neg (not_not.2 ht)]
    obtain ⟨ez, hz0⟩ := R.zero ht
    obtain ⟨r, dn, vd, e, hr⟩ := combine_spec (q := q) (t := { t with dxnew := g, z := z' }) (by
      intro h0 i hi hin
      have hn0 : t.nact = 0 := h0
      exact A.orth.zero g (fun k hk hkn => hz0 k (by omega) hkn) i hi hin)
    rw [e]
    dsimp only
    rw [ez]
    dsimp only at hr
    rw [ez, hgz] at hr
    unfold lpReplace
    by_cases hr0 : r < 0
    · rw [if_pos hr0]
      exact ⟨_, _, rfl, h.mcon, h.act, h.mult, h.fea, h.slack, h.full, h.bound, h.rmin, h.rmax⟩
    · rw [if_neg hr0]
      dsimp only
      rw [up_set1 t.nact (fun k v => cmax 0 (v - r * vd k))]
      rw [if_neg (show ¬ t.icon < t.nact from by omega), zd_up]
      obtain ⟨hn1, hn2⟩ := hr (not_lt.1 hr0)
      have hr1 := not_lt.1 hr0
      have hmax : ∀ a : K, 0 ≤ cmax 0 a := by
        intro a; unfold cmax; split_ifs with h
        · exact le_rfl
        · exact (not_le.1 h).le
      have hv : ∀ k, 1 ≤ k → k ≤ t.mcon → 0 ≤ (if 1 ≤ k ∧ k ≤ t.nact then cmax 0 (t.vmultc k - r * vd k) else t.vmultc k) := by
        intro k hk hkm
        split_ifs
        · exact hmax _
        · exact h.mult k hk hkm
      by_cases htemp : zd q t.z t.nact (t.iact t.icon) = 0
      · rw [if_pos htemp]
        refine ⟨_, _, rfl, h.mcon, h.act, hv, h.fea, ?_, h.full, h.bound, h.rmin, h.rmax⟩
        intro k hk hkm
        dsimp only at hk hkm ⊢
        rw [if_neg (by omega)]
        exact h.slack k hk hkm
      · rw [if_neg htemp]
        refine lp210_spec hsqrt ?_ hn1 ?_ ?_
        · refine core_enter (zdota := set1 t.zdota t.nact (zd q t.z t.nact (t.iact t.icon))) (vmultc := set1 (set1 (fun k => if 1 ≤ k ∧ k ≤ t.nact then cmax 0 (t.vmultc k - r * vd k) else t.vmultc k) t.icon 0) t.nact r) h hi hn1 A.hn hi'.le (.inl ⟨rfl, hi'⟩) A.orth ?_ ?_ ?_ ?_ ?_ dn vd
          · intro k hk hkn
            rw [set1, if_neg (by omega)]
            exact ⟨A.diag k hk hkn.le, A.ne k hk hkn.le, A.tail k hk hkn.le⟩
          · rw [set1, if_pos rfl]
            exact ⟨rfl, htemp, fun j hj hjn => by rw [← hgz]; exact hz0 j hj hjn⟩
          · intro k hk hkm
            unfold set1
            split_ifs
            · exact hr1
            · exact le_rfl
            · exact hv k hk hkm
          · intro k hk hkm hki
            rw [set1, if_neg (by omega), set1, if_neg hki, if_neg (by omega)]
          · intro _
            left
            rw [set1, if_neg (by omega), set1, if_pos rfl]
        · intro hm k hk hkn
          dsimp only at hm hkn ⊢
          rw [set1, if_neg (by omega), set1, if_neg (by omega)]
          exact hd hm k hk (by omega)
        · intro hm hkm
          dsimp only at hm hkm ⊢
          rcases hs hm with ⟨_, e⟩ | ⟨h1, h2, h3⟩
          · exact absurd e hkm
          · by_contra hlt
            have hn : t.nact = 1 := by omega
            have hkm' : t.iact t.icon ≤ q.m := by
              have := (A.range t.icon (by omega) hi).2
              omega
            have h4 := h3 hi' hkm'
            have h5 := hn2 hn
            rw [hn] at h4
            exact lt_asymm h4 h5
  · rw [if_pos ht]
    obtain ⟨hnn, htot⟩ := R.one ht
    have htail := R.tail ht
    refine lp210_spec hsqrt ?_ (by dsimp only; omega) ?_ ?_
    · refine core_enter (nact := t.nact + 1) (z := z') (zdota := set1 t.zdota (t.nact + 1) tot) (vmultc := set1 (set1 t.vmultc t.icon (t.vmultc (t.nact + 1))) (t.nact + 1) 0) h hi (by omega) hnn hi' (.inr rfl) R.orth ?_ ?_ ?_ ?_ ?_ g t.vmultd
      · intro k hk hkn
        rw [set1, if_neg (by omega)]
        refine ⟨?_, A.ne k hk (by omega), ?_⟩
        · rw [A.diag k hk (by omega)]
          exact (zd_congr q (fun i => R.same k (by omega) i) _).symm
        · intro j hj hjn
          by_cases hja : j ≤ t.nact
          · rw [zd_congr q (fun i => R.same j hja i)]
            exact A.tail k hk (by omega) j hj hjn
          · exact R.keep (fun i => q.a i (t.iact k)) (fun l hl hln => A.tail k hk (by omega) l (by omega) hln) j (by omega) hjn
      · rw [set1, if_pos rfl]
        exact ⟨by rw [← hgz, htot], ht, fun j hj hjn => by rw [← hgz]; exact htail j hj hjn⟩
      · intro k hk hkm
        unfold set1
        split_ifs
        · exact le_rfl
        · exact h.mult _ (by omega) (by omega)
        · exact h.mult k hk hkm
      · intro k hk hkm hki
        rw [set1, if_neg (by omega), set1, if_neg hki]
      · intro hlt
        right
        refine ⟨by omega, ?_⟩
        rw [set1, if_neg (by omega), set1, if_pos rfl]
    · intro hm k hk hkn
      dsimp only at hm hkn ⊢
      rw [set1, if_neg (by omega), set1, if_neg (by omega)]
      exact hd hm k hk (by omega)
    · intro hm hkm
      dsimp only at hm hkm ⊢
      rcases hs hm with ⟨_, e⟩ | ⟨h1, _⟩
      · exact absurd e hkm
      · omega

theorem lp70_spec (hsqrt : ∀ a : K, 0 ≤ a → 0 ≤ sqrt a ∧ sqrt a * sqrt a = a) {t : Tr K} (h : At q cap top .l70 t) :
    ∃ l u, lp70 q t = some (l, u) ∧ At q cap top l u := by
  obtain ⟨hc, hd, hi, him, hv, hs⟩ := h
  have go : ∀ (o : K) (x c : Nat), ∃ l u, (if t.icon ≤ t.nact then some (Lab.l260, { t with optold := o, nactx := x, icount := c })
      else lpAdd q { t with optold := o, nactx := x, icount := c }) = some (l, u) ∧ At q cap top l u := by
    intro o x c
    have hc' : Core q cap top { t with optold := o, nactx := x, icount := c } :=
      ⟨hc.mcon, hc.act, hc.mult, hc.fea, hc.slack, hc.full, hc.bound, hc.rmin, hc.rmax⟩
    by_cases hin : t.icon ≤ t.nact
    · rw [if_pos hin]
      refine ⟨_, _, rfl, hc', hd, hi, hin, hv hin, fun hm => ?_⟩
      rcases hs hm with ⟨h1, _⟩ | ⟨_, h2, _⟩
      · exact absurd h1 (by omega)
      · exact lt_of_le_of_ne hin h2
    · rw [if_neg hin]
      exact lpAdd_spec hsqrt hc' hd him (not_le.1 hin) hs
  unfold lp70
  dsimp only
  split_ifs with c1 c2 c3 c4 c5 c6
  all_goals first
    | exact ⟨_, _, rfl, hc.mcon, hc.act, hc.mult, hc.fea, hc.slack, hc.full, hc.bound, hc.rmin, hc.rmax⟩
    | skip
  · have := go (optnew q t) t.nact 3; rwa [if_pos (by assumption)] at this
  · have := go (optnew q t) t.nact 3; rwa [if_neg (by assumption)] at this
  · have := go t.optold t.nact 3; rwa [if_pos (by assumption)] at this
  · have := go t.optold t.nact 3; rwa [if_neg (by assumption)] at this
  · have := go t.optold t.nactx (t.icount - 1); rwa [if_pos (by assumption)] at this
  · have := go t.optold t.nactx (t.icount - 1); rwa [if_neg (by assumption)] at this

theorem lp260_spec (hsqrt : ∀ a : K, 0 ≤ a → 0 ≤ sqrt a ∧ sqrt a * sqrt a = a) {t : Tr K} (h : At q cap top .l260 t) :
    ∃ l u, lp260 q t = some (l, u) ∧ At q cap top l u := by
  obtain ⟨hc, hd, hi, hin, hv, hs⟩ := h
  unfold lp260
  rw [if_neg (by omega)]
  have key : ∃ u, (if t.icon < t.nact then lpShift q t else t) = u ∧ Core q cap top u ∧ Dir q t.nact u ∧ u.nact = t.nact ∧ u.mcon = t.mcon ∧ u.vmultc t.nact = 0 := by
    by_cases hlt : t.icon < t.nact
    · rw [if_pos hlt]
      obtain ⟨h1, h2, ⟨i, z, zd, v, e⟩, h4⟩ := shift_spec hsqrt hc hd hi hin
      refine ⟨_, rfl, h1, h2, ?_, ?_, by rw [h4, hv]⟩
      · rw [e]
      · rw [e]
    · rw [if_neg hlt]
      exact ⟨t, rfl, hc, hd, rfl, rfl, by rw [← hv]; congr 1; omega⟩
  obtain ⟨u, e, uc, ud, un, um, uv⟩ := key
  dsimp only
  rw [e]
  have A := uc.act
  have hA : Act q (u.nact - 1) u.mcon u.iact u.z u.zdota :=
    ⟨by have := A.hn; omega, by have := A.hm; omega, A.range, A.sur, A.orth, fun k hk hkn => A.diag k hk (by omega), fun k hk hkn => A.ne k hk (by omega), fun k hk hkn => A.tail k hk (by omega)⟩
  have hsl : ∀ k, u.nact - 1 < k → k ≤ u.mcon → u.iact k ≤ q.m → u.vmultc k ≤ res q u (u.iact k) := by
    intro k hk hkm hkc
    by_cases ek : k = u.nact
    · subst ek
      rw [un, uv]
      rw [un] at hkc
      exact uc.fea _ (A.range _ (by omega) (by have := A.hm; omega)).1 hkc
    · exact uc.slack k (by omega) hkm hkc
  by_cases hm : u.mcon > q.m
  · rw [if_pos hm]
    have hm' : u.mcon = q.m + 1 := by rcases uc.mcon with e | e <;> omega
    have := hs (by omega)
    exact ⟨_, _, rfl, ⟨uc.mcon, hA, uc.mult, uc.fea, hsl, uc.full, uc.bound, uc.rmin, uc.rmax⟩, hm', by dsimp only; omega⟩
  · rw [if_neg hm]
    refine ⟨_, _, rfl, ⟨uc.mcon, hA, uc.mult, uc.fea, hsl, uc.full, uc.bound, uc.rmin, uc.rmax⟩, ?_, ?_⟩
    · intro hm' k hk hkn
      dsimp only at hkn ⊢
      rw [up_set1 q.n (fun i v => v - _ * u.z i (u.nact - 1 + 1))]
      rw [show u.nact - 1 + 1 = u.nact from by omega]
      set w := up q.n (fun i s => s + u.sdirn i * u.z i u.nact) 0
      have e1 : ∑ i ∈ Icc 1 q.n, (if 1 ≤ i ∧ i ≤ q.n then u.sdirn i - w * u.z i u.nact else u.sdirn i) * q.a i (u.iact k) =
          ∑ i ∈ Icc 1 q.n, u.sdirn i * q.a i (u.iact k) - w * zd q u.z u.nact (u.iact k) := by
        unfold zd
        rw [mul_sum, ← sum_sub_distrib]
        refine sum_congr rfl fun i hi => ?_
        rw [if_pos (mem_Icc.1 hi)]
        ring
      rw [e1, A.tail k hk (by omega) u.nact (by omega) A.hn, mul_zero, sub_zero]
      exact ud hm' k hk (by omega)
    · intro hm'
      exact absurd (show u.mcon = q.m + 1 from hm') (by omega)

theorem lp320_spec {t : Tr K} (h : At q cap top .l320 t) : At q cap top .l340 (lp320 q t) := by
  obtain ⟨hc, hm, hn⟩ := h
  refine ⟨⟨hc.mcon, hc.act, hc.mult, hc.fea, hc.slack, hc.full, hc.bound, hc.rmin, hc.rmax⟩, ?_, ?_⟩
  · intro hm'
    exact absurd (show t.mcon = q.m from hm') (by omega)
  · intro _
    refine ⟨hn, fun i hi hin => ?_⟩
    have e1 : t.zdotaAt q.n t.nact = t.zdota t.nact := by rw [Tr.zdotaAt, if_neg (by omega)]
    have e2 : t.zAt i t.nact = t.z i t.nact := by rw [Tr.zAt, if_neg (by omega)]
    show up q.n (fun i v => set1 v i (1 / t.zdotaAt q.n t.nact * t.zAt i t.nact)) t.sdirn i = t.z i t.nact / t.zdota t.nact
    rw [up_set1 q.n (fun i _ => 1 / t.zdotaAt q.n t.nact * t.zAt i t.nact)]
    dsimp only
    rw [if_pos ⟨hi, hin⟩, e1, e2]
    ring

theorem lp480_spec {t : Tr K} (h : At q cap top .l480 t) : At q cap top .l60 (lp480 q t) := by
  obtain ⟨hc, hm⟩ := h
  have A := hc.act
  rw [hm] at A
  have e0 : ∀ k, k ≤ q.m → set1 t.iact (q.m + 1) (q.m + 1) k = t.iact k := fun k hk => by rw [set1, if_neg (by omega)]
  have e1 : set1 t.iact (q.m + 1) (q.m + 1) (q.m + 1) = q.m + 1 := by rw [set1, if_pos rfl]
  have hnm := A.hm
  refine ⟨⟨.inr rfl, ⟨A.hn, by dsimp only [lp480]; omega, ?_, ?_, A.orth, ?_, A.ne, ?_⟩, ?_, hc.fea, ?_, hc.full, hc.bound, hc.rmin, hc.rmax⟩, ?_, ?_, ?_, ?_, ?_⟩
  · intro k hk hkm
    dsimp only [lp480] at hkm ⊢
    by_cases ek : k = q.m + 1
    · subst ek; rw [e1]; omega
    · rw [e0 k (by omega)]
      have := A.range k hk (by omega)
      omega
  · intro c hc1 hcm
    dsimp only [lp480] at hcm ⊢
    by_cases ec : c = q.m + 1
    · subst ec; exact ⟨q.m + 1, by omega, le_rfl, e1⟩
    · obtain ⟨k, hk, hkm, e⟩ := A.sur c hc1 (by omega)
      exact ⟨k, hk, by omega, by rw [e0 k hkm, e]⟩
  · intro k hk hkn
    dsimp only [lp480] at hkn ⊢
    rw [e0 k (by omega)]; exact A.diag k hk hkn
  · intro k hk hkn
    dsimp only [lp480] at hkn ⊢
    rw [e0 k (by omega)]; exact A.tail k hk hkn
  · intro k hk hkm
    dsimp only [lp480] at hkm ⊢
    unfold set1
    split_ifs with ek
    · exact le_rfl
    · exact hc.mult k hk (by omega)
  · intro k hk hkm
    dsimp only [lp480] at hk hkm ⊢
    by_cases ek : k = q.m + 1
    · subst ek; rw [e1]; intro h; omega
    · rw [e0 k (by omega), set1, if_neg ek]
      exact hc.slack k hk (by omega)
  · intro hm'
    exact absurd (show q.m + 1 = q.m from hm') (by omega)
  · dsimp only [lp480]; omega
  · dsimp only [lp480]; omega
  · dsimp only [lp480]; omega
  · intro _
    exact e1


/-! ## The length of the step -/

/-- The bound of the square of the length of the step. -/
def lpCap (q : Lp K) : K := (1 + (q.n + 2) / 1000000000000) * (q.rho * q.rho)

theorem norms_eq (q : Lp K) (t : Tr K) : lpNorms q t =
    (q.rho * q.rho - ∑ i ∈ Icc 1 q.n, (if |t.dx i| ≥ 1 / 1000000 * q.rho then t.dx i * t.dx i else 0),
      ∑ i ∈ Icc 1 q.n, t.sdirn i * t.dx i, ∑ i ∈ Icc 1 q.n, t.sdirn i * t.sdirn i) := by
  unfold lpNorms
  refine up_inv (fun k (s : K × K × K) => s =
    (q.rho * q.rho - ∑ i ∈ Icc 1 k, (if |t.dx i| ≥ 1 / 1000000 * q.rho then t.dx i * t.dx i else 0),
      ∑ i ∈ Icc 1 k, t.sdirn i * t.dx i, ∑ i ∈ Icc 1 k, t.sdirn i * t.sdirn i)) q.n (by simp) ?_
  rintro k _ s rfl
  rw [sum_Icc_succ_top (by omega), sum_Icc_succ_top (by omega), sum_Icc_succ_top (by omega), ExactMath.fabs_eq, ExactMath.lit_eq]
  dsimp only
  norm_num
  split_ifs
  · ring
  · ring

theorem norms_bounds (q : Lp K) (t : Tr K) (hr : 0 < q.rho) :
    q.rho * q.rho - ∑ i ∈ Icc 1 q.n, t.dx i * t.dx i ≤ (lpNorms q t).1 ∧
      (lpNorms q t).1 ≤ q.rho * q.rho - ∑ i ∈ Icc 1 q.n, t.dx i * t.dx i + q.n / 1000000000000 * (q.rho * q.rho) ∧
      (lpNorms q t).1 ≤ q.rho * q.rho := by
  rw [norms_eq]
  dsimp only
  have h1 : ∑ i ∈ Icc 1 q.n, (if |t.dx i| ≥ 1 / 1000000 * q.rho then t.dx i * t.dx i else 0) ≤ ∑ i ∈ Icc 1 q.n, t.dx i * t.dx i :=
    sum_le_sum fun i _ => by
      split_ifs
      · exact le_rfl
      · exact mul_self_nonneg _
  have h2 : ∑ i ∈ Icc 1 q.n, t.dx i * t.dx i ≤ ∑ i ∈ Icc 1 q.n, ((if |t.dx i| ≥ 1 / 1000000 * q.rho then t.dx i * t.dx i else 0) + 1 / 1000000000000 * (q.rho * q.rho)) :=
    sum_le_sum fun i _ => by
      have hp := mul_pos hr hr
      split_ifs with h
      · linarith
      · have h' : |t.dx i| ≤ 1 / 1000000 * q.rho := (not_le.1 h).le
        have := mul_self_le_mul_self (abs_nonneg _) h'
        rw [abs_mul_abs_self] at this
        linarith
  have h3 : 0 ≤ ∑ i ∈ Icc 1 q.n, (if |t.dx i| ≥ 1 / 1000000 * q.rho then t.dx i * t.dx i else 0) :=
    sum_nonneg fun i _ => by
      split_ifs
      · exact mul_self_nonneg _
      · exact le_rfl
  rw [sum_add_distrib, sum_const, Nat.card_Icc, nsmul_eq_mul] at h2
  simp only [Nat.add_sub_cancel] at h2
  refine ⟨by linarith, ?_, by linarith⟩
  have e : (q.n : K) / 1000000000000 * (q.rho * q.rho) = (q.n : K) * (1 / 1000000000000 * (q.rho * q.rho)) := by ring
  rw [e]
  linarith

/-- The step to the boundary. -/
theorem step_geometry (hsqrt : ∀ a : K, 0 ≤ a → 0 ≤ sqrt a ∧ sqrt a * sqrt a = a) {D dd sd ss r2 e : K}
    (hss : 0 < ss) (hdd : 0 < dd) (h1 : r2 - D ≤ dd) (h2 : dd ≤ r2 - D + e) (h3 : dd ≤ r2)
    (hD : D ≤ r2 + e + 2 / 1000000000000 * r2) :
    0 < lpDivisor (dd, sd, ss) ∧ r2 ≤ D + 2 * (dd / lpDivisor (dd, sd, ss)) * sd + (dd / lpDivisor (dd, sd, ss)) * (dd / lpDivisor (dd, sd, ss)) * ss ∧
      ∀ τ, 0 ≤ τ → τ ≤ dd / lpDivisor (dd, sd, ss) → D + 2 * τ * sd + τ * τ * ss ≤ r2 + e + 2 / 1000000000000 * r2 := by
  have hp := mul_pos hss hdd
  have key : 0 < lpDivisor (dd, sd, ss) ∧ r2 ≤ D + 2 * (dd / lpDivisor (dd, sd, ss)) * sd + (dd / lpDivisor (dd, sd, ss)) * (dd / lpDivisor (dd, sd, ss)) * ss ∧
      D + 2 * (dd / lpDivisor (dd, sd, ss)) * sd + (dd / lpDivisor (dd, sd, ss)) * (dd / lpDivisor (dd, sd, ss)) * ss ≤ r2 + e + 2 / 1000000000000 * r2 := by
    unfold lpDivisor
    dsimp only
    rw [ExactMath.fabs_eq, ExactMath.lit_eq]
    obtain ⟨ha, hb⟩ := hsqrt _ hp.le
    split_ifs with hc
    · have hq : 0 ≤ ss * dd + sd * sd := by have := mul_self_nonneg sd; linarith
      obtain ⟨hc1, hc2⟩ := hsqrt _ hq
      set w := sqrt (ss * dd + sd * sd)
      have hw : |sd| < w := by
        refine lt_of_mul_self_lt_mul_self₀ hc1 ?_
        rw [abs_mul_abs_self, hc2]; linarith
      have hpos : 0 < w + sd := by have := neg_abs_le sd; linarith
      have e1 : D + 2 * (dd / (w + sd)) * sd + (dd / (w + sd)) * (dd / (w + sd)) * ss = D + dd := by
        have hne := hpos.ne'
        field_simp
        linear_combination (-dd) * hc2
      rw [e1]
      exact ⟨hpos, by linarith, by linarith⟩
    · have hc' : |sd| < 1 / 1000000 * sqrt (ss * dd) := by
        have := not_le.1 hc
        norm_num at this ⊢
        exact this
      set w := sqrt (ss * dd)
      have hw : 0 < w := by
        have := abs_nonneg sd
        linarith
      have hab := abs_lt.1 hc'
      have hpos : 0 < w + sd := by linarith
      have e1 : D + 2 * (dd / (w + sd)) * sd + (dd / (w + sd)) * (dd / (w + sd)) * ss = D + dd + dd * (sd * sd / ((w + sd) * (w + sd))) := by
        have hne := hpos.ne'
        field_simp
        linear_combination (-dd) * hb
      have h4 : 0 ≤ sd * sd / ((w + sd) * (w + sd)) := div_nonneg (mul_self_nonneg _) (mul_self_nonneg _)
      have h5 : sd * sd / ((w + sd) * (w + sd)) ≤ 2 / 1000000000000 := by
        rw [div_le_iff₀ (mul_pos hpos hpos)]
        have h6 : sd * sd ≤ (1 / 1000000 * w) * (1 / 1000000 * w) := by
          rw [← abs_mul_abs_self]
          exact mul_self_le_mul_self (abs_nonneg _) hc'.le
        have h7 : (999999 / 1000000 * w) * (999999 / 1000000 * w) ≤ (w + sd) * (w + sd) :=
          mul_self_le_mul_self (by linarith) (by linarith)
        nlinarith [mul_pos hw hw]
      have h6 : dd * (sd * sd / ((w + sd) * (w + sd))) ≤ r2 * (2 / 1000000000000) :=
        mul_le_mul h3 h5 h4 (by linarith)
      have h7 := mul_nonneg hdd.le h4
      rw [e1]
      exact ⟨hpos, by linarith, by linarith⟩
  obtain ⟨k1, k2, k3⟩ := key
  refine ⟨k1, k2, fun τ h0 hτ => ?_⟩
  set σ := dd / lpDivisor (dd, sd, ss)
  have hσ : 0 < σ := div_pos hdd k1
  have e1 : σ * (D + 2 * τ * sd + τ * τ * ss) = (σ - τ) * D + τ * (D + 2 * σ * sd + σ * σ * ss) - σ * τ * (σ - τ) * ss := by ring
  have h4 : 0 ≤ σ * τ * (σ - τ) * ss := mul_nonneg (mul_nonneg (mul_nonneg hσ.le h0) (by linarith)) hss.le
  have h5 : (σ - τ) * D ≤ (σ - τ) * (r2 + e + 2 / 1000000000000 * r2) := mul_le_mul_of_nonneg_left hD (by linarith)
  have h6 := mul_le_mul_of_nonneg_left k3 h0
  have h7 : σ * (D + 2 * τ * sd + τ * τ * ss) ≤ σ * (r2 + e + 2 / 1000000000000 * r2) := by rw [e1]; linarith
  exact le_of_mul_le_mul_left h7 hσ


/-! ## The step is taken -/

theorem multiplier_frame (k : Nat) (t : Tr K) : ∃ dn vd, lpMultiplier q k t = { t with dxnew := dn, vmultd := vd } := by
  unfold lpMultiplier
  dsimp only
  unfold Tr.setVmultd
  split_ifs <;> exact ⟨_, _, rfl⟩

theorem multipliers_spec (t : Tr K) : ∃ dn vd, lpMultipliers q t = { t with dxnew := dn, vmultd := vd } ∧
    (q.m < t.mcon → 1 ≤ t.nact → 0 ≤ vd t.nact) := by
  have key : ∃ dn vd, loop (fun j (u : Tr K) => lpMultiplier q (t.nact - j) u) (max 1 t.nact) t = { t with dxnew := dn, vmultd := vd } := by
    refine loop_inv (fun _ (u : Tr K) => ∃ dn vd, u = { t with dxnew := dn, vmultd := vd }) _ ⟨_, _, rfl⟩ ?_
    rintro j _ u ⟨dn, vd, rfl⟩
    obtain ⟨dn', vd', e⟩ := multiplier_frame (q := q) (t.nact - j) { t with dxnew := dn, vmultd := vd }
    exact ⟨dn', vd', e⟩
  obtain ⟨dn, vd, e⟩ := key
  unfold lpMultipliers
  dsimp only
  rw [e]
  dsimp only
  by_cases hn : t.nact = 0
  · unfold Tr.setVmultd
    split_ifs
    · exact ⟨_, _, rfl, fun _ h => absurd h (by omega)⟩
    · exact ⟨_, _, rfl, fun _ h => absurd h (by omega)⟩
  · unfold Tr.setVmultd Tr.vmultdAt
    rw [if_neg hn, if_neg hn]
    dsimp only
    split_ifs with h
    · exact ⟨_, _, rfl, fun _ _ => by rw [set1, if_pos rfl]⟩
    · exact ⟨_, _, rfl, fun h1 _ => not_lt.1 fun h2 => h ⟨h1, h2⟩⟩

theorem move_eq (step : K) (t : Tr K) : lpMove q step t =
    { t with dxnew := fun i => if 1 ≤ i ∧ i ≤ q.n then t.dx i + step * t.sdirn i else t.dxnew i } := by
  unfold lpMove
  rw [up_set1 q.n (fun i _ => t.dx i + step * t.sdirn i)]

theorem others_spec (t : Tr K) : ∃ vd, lpOthers q t = { t with vmultd := vd } ∧ (∀ k, k ≤ t.nact → vd k = t.vmultd k) ∧
    ∀ k, t.nact < k → k ≤ t.mcon → vd k = t.resmax - q.b (t.iact k) + ∑ i ∈ Icc 1 q.n, q.a i (t.iact k) * t.dxnew i := by
  refine ⟨_, rfl, ?_⟩
  by_cases hm : t.nact ≤ t.mcon
  · have key := loop_inv (f := fun j v =>
        let k := t.nact + 1 + j
        let kk := t.iact k
        let s := up q.n (fun i (s : K × K) => (s.1 + q.a i kk * t.dxnew i, s.2 + fabs (q.a i kk * t.dxnew i)))
          (t.resmax - q.b kk, t.resmax + fabs (q.b kk))
        set1 v k (if negligible s.2 (fabs s.1) then 0 else s.1)) (s := t.vmultd)
      (fun j (vd : Nat → K) => (∀ k, k ≤ t.nact → vd k = t.vmultd k) ∧
        ∀ k, t.nact < k → k ≤ t.nact + j → vd k = t.resmax - q.b (t.iact k) + ∑ i ∈ Icc 1 q.n, q.a i (t.iact k) * t.dxnew i)
      (t.mcon - t.nact) ⟨fun _ _ => rfl, fun k h1 h2 => by omega⟩ (by
        rintro j _ v ⟨i1, i2⟩
        dsimp only
        rw [up_two, not_negligible]
        refine ⟨fun k hk => ?_, fun k hk hk' => ?_⟩
        · rw [set1, if_neg (by omega)]; exact i1 k hk
        · by_cases ek : k = t.nact + 1 + j
          · subst ek; rw [set1, if_pos rfl]
          · rw [set1, if_neg ek]; exact i2 k hk (by omega))
    exact ⟨key.1, fun k h1 h2 => key.2 k h1 (by omega)⟩
  · rw [show t.mcon - t.nact = 0 from by omega]
    exact ⟨fun _ _ => rfl, fun k h1 h2 => by omega⟩

theorem ratio_spec {t : Tr K} (hv : ∀ k, 1 ≤ k → k ≤ t.mcon → 0 ≤ t.vmultc k) :
    0 ≤ (lpRatio t).1 ∧ (lpRatio t).1 ≤ 1 ∧ ((lpRatio t).2 = 0 → (lpRatio t).1 = 1) ∧
      (0 < (lpRatio t).2 → (lpRatio t).2 ≤ t.mcon ∧ t.vmultd (lpRatio t).2 < 0 ∧
        (lpRatio t).1 = t.vmultc (lpRatio t).2 / (t.vmultc (lpRatio t).2 - t.vmultd (lpRatio t).2)) ∧
      ∀ k, 1 ≤ k → k ≤ t.mcon → t.vmultd k < 0 → (lpRatio t).1 * (t.vmultc k - t.vmultd k) ≤ t.vmultc k := by
  unfold lpRatio
  refine up_inv (fun j (st : K × Nat) => 0 ≤ st.1 ∧ st.1 ≤ 1 ∧ (st.2 = 0 → st.1 = 1) ∧
      (0 < st.2 → st.2 ≤ t.mcon ∧ t.vmultd st.2 < 0 ∧ st.1 = t.vmultc st.2 / (t.vmultc st.2 - t.vmultd st.2)) ∧
      ∀ k, 1 ≤ k → k ≤ j → t.vmultd k < 0 → st.1 * (t.vmultc k - t.vmultd k) ≤ t.vmultc k) t.mcon
    ⟨zero_le_one, le_rfl, fun _ => rfl, fun h => absurd h (by simp), fun k h1 h2 => by omega⟩ ?_
  rintro j hj ⟨r, c⟩ ⟨i1, i2, i3, i4, i5⟩
  have hvj := hv (j + 1) (by omega) (by omega)
  dsimp only at i1 i2 i3 i4 i5
  by_cases hneg : t.vmultd (j + 1) < 0
  · rw [if_pos hneg]
    have hden : 0 < t.vmultc (j + 1) - t.vmultd (j + 1) := by linarith
    dsimp only
    split_ifs with hlt
    · refine ⟨div_nonneg hvj hden.le, hlt.le.trans i2, fun h => absurd h (by simp), fun _ => ⟨by dsimp only; omega, hneg, rfl⟩, ?_⟩
      intro k hk hkj hkn
      by_cases ek : k = j + 1
      · subst ek
        dsimp only
        rw [div_mul_cancel₀ _ hden.ne']
      · have := i5 k hk (by omega) hkn
        have h0 := hv k hk (by omega)
        have := mul_le_mul_of_nonneg_right hlt.le (show 0 ≤ t.vmultc k - t.vmultd k by linarith)
        dsimp only
        linarith
    · refine ⟨i1, i2, i3, i4, ?_⟩
      intro k hk hkj hkn
      by_cases ek : k = j + 1
      · subst ek
        have := not_lt.1 hlt
        rwa [le_div_iff₀ hden] at this
      · exact i5 k hk (by omega) hkn
  · rw [if_neg hneg]
    refine ⟨i1, i2, i3, i4, ?_⟩
    intro k hk hkj hkn
    by_cases ek : k = j + 1
    · subst ek; exact absurd hkn hneg
    · exact i5 k hk (by omega) hkn

theorem update_eq (r : K) (t : Tr K) : lpUpdate q r t =
    { t with dx := fun i => if 1 ≤ i ∧ i ≤ q.n then (1 - r) * t.dx i + r * t.dxnew i else t.dx i, vmultc := fun k => if 1 ≤ k ∧ k ≤ t.mcon then cmax 0 ((1 - r) * t.vmultc k + r * t.vmultd k) else t.vmultc k } := by
  unfold lpUpdate
  dsimp only
  rw [up_set1 q.n (fun i v => (1 - r) * v + r * t.dxnew i), up_set1 t.mcon (fun k v => cmax 0 ((1 - r) * v + r * t.vmultd k))]

theorem residual_spec (t : Tr K) : 0 ≤ lpResidual q t ∧
    (∀ k, 1 ≤ k → k ≤ t.nact → q.b (t.iact k) - ∑ i ∈ Icc 1 q.n, q.a i (t.iact k) * t.dxnew i ≤ lpResidual q t) ∧
    ∀ w, 0 ≤ w → (∀ k, 1 ≤ k → k ≤ t.nact → q.b (t.iact k) - ∑ i ∈ Icc 1 q.n, q.a i (t.iact k) * t.dxnew i ≤ w) → lpResidual q t ≤ w := by
  have hmax : ∀ a b : K, a ≤ cmax a b ∧ b ≤ cmax a b ∧ ∀ w, a ≤ w → b ≤ w → cmax a b ≤ w := by
    intro a b; unfold cmax; split_ifs with h
    · exact ⟨le_rfl, h, fun w h1 _ => h1⟩
    · exact ⟨(not_le.1 h).le, le_rfl, fun w _ h2 => h2⟩
  unfold lpResidual
  dsimp only
  have key := up_inv (body := fun k r => cmax r (up q.n (fun i s => s - q.a i (t.iact k) * t.dxnew i) (q.b (t.iact k)))) (s := (0 : K))
    (fun j (r : K) => 0 ≤ r ∧
    (∀ k, 1 ≤ k → k ≤ j → q.b (t.iact k) - ∑ i ∈ Icc 1 q.n, q.a i (t.iact k) * t.dxnew i ≤ r) ∧
    ∀ w, 0 ≤ w → (∀ k, 1 ≤ k → k ≤ j → q.b (t.iact k) - ∑ i ∈ Icc 1 q.n, q.a i (t.iact k) * t.dxnew i ≤ w) → r ≤ w) t.nact
    ⟨le_rfl, fun k h1 h2 => by omega, fun w h _ => h⟩ (by
      rintro j _ r ⟨i1, i2, i3⟩
      rw [up_sub]
      obtain ⟨m1, m2, m3⟩ := hmax r (q.b (t.iact (j + 1)) - ∑ i ∈ Icc 1 q.n, q.a i (t.iact (j + 1)) * t.dxnew i)
      refine ⟨i1.trans m1, fun k hk hkj => ?_, fun w hw hk => m3 w (i3 w hw fun k h1 h2 => hk k h1 (by omega)) (hk _ (by omega) le_rfl)⟩
      by_cases ek : k = j + 1
      · subst ek; exact m2
      · exact (i2 k hk (by omega)).trans m1)
  exact key

/-- The state when the ratio of the step is computed. -/
theorem take_parts (step : K) (t : Tr K) : ∃ dn vd,
    lpOthers q (lpMove q step (lpMultipliers q (if (lpMove q step t).mcon = q.m then { lpMove q step t with resmax := lpResidual q (lpMove q step t) } else lpMove q step t))) =
      { t with dxnew := dn, vmultd := vd, resmax := if t.mcon = q.m then lpResidual q (lpMove q step t) else t.resmax } ∧
    (∀ i, 1 ≤ i → i ≤ q.n → dn i = t.dx i + step * t.sdirn i) ∧ (q.m < t.mcon → 1 ≤ t.nact → 0 ≤ vd t.nact) ∧
    ∀ k, t.nact < k → k ≤ t.mcon → vd k = (if t.mcon = q.m then lpResidual q (lpMove q step t) else t.resmax) - q.b (t.iact k) + ∑ i ∈ Icc 1 q.n, q.a i (t.iact k) * (t.dx i + step * t.sdirn i) := by
  have e0 : (if (lpMove q step t).mcon = q.m then { lpMove q step t with resmax := lpResidual q (lpMove q step t) } else lpMove q step t) =
      { t with dxnew := (lpMove q step t).dxnew, resmax := if t.mcon = q.m then lpResidual q (lpMove q step t) else t.resmax } := by
    by_cases h : t.mcon = q.m
    · rw [if_pos (show (lpMove q step t).mcon = q.m from h), if_pos h]; rfl
    · rw [if_neg (show ¬ (lpMove q step t).mcon = q.m from h), if_neg h]; rfl
  rw [e0]
  obtain ⟨dn, vd, e1, hvd⟩ := multipliers_spec (q := q) { t with dxnew := (lpMove q step t).dxnew, resmax := if t.mcon = q.m then lpResidual q (lpMove q step t) else t.resmax }
  rw [e1, move_eq]
  dsimp only
  obtain ⟨vd', e2, h1, h2⟩ := others_spec (q := q) { t with dxnew := fun i => if 1 ≤ i ∧ i ≤ q.n then t.dx i + step * t.sdirn i else dn i, vmultd := vd, resmax := if t.mcon = q.m then lpResidual q (lpMove q step t) else t.resmax }
  refine ⟨_, vd', e2, fun i hi hin => if_pos ⟨hi, hin⟩, fun hm hn => ?_, fun k hk hkm => ?_⟩
  · rw [h1 t.nact le_rfl]; exact hvd hm hn
  · rw [h2 k hk hkm]
    congr 1
    refine sum_congr rfl fun i hi => ?_
    dsimp only
    rw [if_pos (mem_Icc.1 hi)]


theorem take_spec {t : Tr K} (h : At q cap top .l340 t) {step : K} {full : Bool} (hs0 : 0 ≤ step)
    (hs1 : t.mcon = q.m → step ≤ t.resmax)
    (hb : ∀ τ, 0 ≤ τ → τ ≤ step → ∑ i ∈ Icc 1 q.n, (t.dx i + τ * t.sdirn i) * (t.dx i + τ * t.sdirn i) ≤ cap)
    (hf : full = true → q.rho * q.rho ≤ ∑ i ∈ Icc 1 q.n, (t.dx i + step * t.sdirn i) * (t.dx i + step * t.sdirn i))
    (hf' : full = false → t.mcon = q.m) :
    At q cap top (lpTake q step full t).1 (lpTake q step full t).2 := by
  obtain ⟨hc, hd, h2⟩ := h
  have A := hc.act
  have hmax : ∀ a : K, 0 ≤ cmax 0 a ∧ a ≤ cmax 0 a ∧ ∀ w, 0 ≤ w → a ≤ w → cmax 0 a ≤ w := by
    intro a; unfold cmax; split_ifs with h
    · exact ⟨le_rfl, h, fun w h1 _ => h1⟩
    · exact ⟨(not_le.1 h).le, le_rfl, fun w _ h2 => h2⟩
  obtain ⟨dn, vd, e, hdn, hvn, hvd⟩ := take_parts (q := q) step t
  obtain ⟨r0, r1, r2⟩ := residual_spec (q := q) (lpMove q step t)
  have hmove : ∀ c, ∑ i ∈ Icc 1 q.n, q.a i c * (lpMove q step t).dxnew i = ∑ i ∈ Icc 1 q.n, q.a i c * (t.dx i + step * t.sdirn i) := by
    intro c
    refine sum_congr rfl fun i hi => ?_
    rw [move_eq]; dsimp only; rw [if_pos (mem_Icc.1 hi)]
  simp only [hmove] at r1 r2
  -- the residuals along the step
  have hlin : ∀ c, ∑ i ∈ Icc 1 q.n, q.a i c * (t.dx i + step * t.sdirn i) = ∑ i ∈ Icc 1 q.n, q.a i c * t.dx i + step * ∑ i ∈ Icc 1 q.n, q.a i c * t.sdirn i := by
    intro c
    rw [mul_sum, ← sum_add_distrib]
    exact sum_congr rfl fun i _ => by ring
  set R := if t.mcon = q.m then lpResidual q (lpMove q step t) else t.resmax with hR
  have hR0 : 0 ≤ R := by
    rw [hR]; split_ifs
    · exact r0
    · exact hc.rmin
  have hcomm : ∀ c, ∑ i ∈ Icc 1 q.n, q.a i c * t.sdirn i = ∑ i ∈ Icc 1 q.n, t.sdirn i * q.a i c := fun c => sum_congr rfl fun i _ => mul_comm _ _
  have hR1 : R ≤ t.resmax := by
    rw [hR]; split_ifs with hm
    · have hst := hs1 hm
      refine (r2 (t.resmax - step) (by linarith) fun k hk hkn => ?_).trans (by linarith)
      have hkn' : k ≤ t.nact := hkn
      have hd1 := hd hm k hk hkn'
      have hkr := A.range k hk (by have := A.hm; omega)
      have hfea := hc.fea (t.iact k) hkr.1 (by omega)
      unfold res at hfea
      show q.b (t.iact k) - _ ≤ _
      have := hlin (t.iact k)
      rw [hcomm, hd1] at this
      rw [show (lpMove q step t).iact k = t.iact k from rfl, this]
      linarith
    · exact le_rfl
  have hdir2 : t.mcon = q.m + 1 → ∀ c, ∑ i ∈ Icc 1 q.n, q.a i c * t.sdirn i = zd q t.z t.nact c / t.zdota t.nact := by
    intro hm c
    obtain ⟨_, h4⟩ := h2 hm
    unfold zd
    rw [sum_div]
    refine sum_congr rfl fun i hi => ?_
    rw [h4 i (mem_Icc.1 hi).1 (mem_Icc.1 hi).2]
    ring
  have hact : ∀ k, 1 ≤ k → k ≤ t.nact → t.iact k ≤ q.m → 0 ≤ R - q.b (t.iact k) + ∑ i ∈ Icc 1 q.n, q.a i (t.iact k) * (t.dx i + step * t.sdirn i) := by
    intro k hk hkn hkm
    rcases hc.mcon with hm | hm
    · have := r1 k hk hkn
      rw [show (lpMove q step t).iact k = t.iact k from rfl] at this
      rw [hR, if_pos hm]
      linarith
    · rw [hR, if_neg (by omega), hlin, hdir2 hm]
      have hkr := A.range k hk (by have := A.hm; omega)
      have hfea := hc.fea (t.iact k) hkr.1 hkm
      unfold res at hfea
      have hnn : 0 ≤ zd q t.z t.nact (t.iact k) / t.zdota t.nact := by
        by_cases ek : k = t.nact
        · subst ek
          rw [← A.diag _ hk le_rfl, div_self (A.ne _ hk le_rfl)]
          exact zero_le_one
        · rw [A.tail k hk hkn t.nact (by omega) A.hn, zero_div]
      have := mul_nonneg hs0 hnn
      linarith
  -- the new state
  have H := ratio_spec (t := { t with dxnew := dn, vmultd := vd, resmax := R }) hc.mult
  have htake : lpTake q step full t = (let r := lpRatio { t with dxnew := dn, vmultd := vd, resmax := R }
      let u : Tr K := { t with dxnew := dn, vmultd := vd, icon := r.2, resmax := if t.mcon = q.m then t.resmax + r.1 * (R - t.resmax) else R, dx := fun i => if 1 ≤ i ∧ i ≤ q.n then (1 - r.1) * t.dx i + r.1 * dn i else t.dx i, vmultc := fun k => if 1 ≤ k ∧ k ≤ t.mcon then cmax 0 ((1 - r.1) * t.vmultc k + r.1 * vd k) else t.vmultc k }
      if r.2 > 0 then (.l70, u) else if full then (.l500, u) else (.l480, u)) := by
    unfold lpTake
    dsimp only
    rw [e, update_eq]
    dsimp only
    by_cases hm : t.mcon = q.m
    · simp only [if_pos hm]
    · simp only [if_neg hm]
  rw [htake]
  dsimp only
  generalize lpRatio { t with dxnew := dn, vmultd := vd, resmax := R } = r at H ⊢
  obtain ⟨ra, ic⟩ := r
  dsimp only at H ⊢
  obtain ⟨g0, g1, g2, g3, g4⟩ := H
  have hdx : ∀ i ∈ Icc 1 q.n, (if 1 ≤ i ∧ i ≤ q.n then (1 - ra) * t.dx i + ra * dn i else t.dx i) = t.dx i + ra * step * t.sdirn i := by
    intro i hi
    rw [mem_Icc] at hi
    rw [if_pos hi, hdn i hi.1 hi.2]
    ring
  set u : Tr K := { t with dxnew := dn, vmultd := vd, icon := ic, resmax := if t.mcon = q.m then t.resmax + ra * (R - t.resmax) else R, dx := fun i => if 1 ≤ i ∧ i ≤ q.n then (1 - ra) * t.dx i + ra * dn i else t.dx i, vmultc := fun k => if 1 ≤ k ∧ k ≤ t.mcon then cmax 0 ((1 - ra) * t.vmultc k + ra * vd k) else t.vmultc k } with hu
  have hres : u.resmax = (1 - ra) * t.resmax + ra * R := by
    rw [hu]; dsimp only
    split_ifs with hm
    · ring
    · rw [hR, if_neg hm]; ring
  have hresc : ∀ c, res q u c = (1 - ra) * res q t c + ra * (R - q.b c + ∑ i ∈ Icc 1 q.n, q.a i c * (t.dx i + step * t.sdirn i)) := by
    intro c
    unfold res
    rw [hres, hlin]
    have : ∑ i ∈ Icc 1 q.n, q.a i c * u.dx i = ∑ i ∈ Icc 1 q.n, q.a i c * t.dx i + ra * step * ∑ i ∈ Icc 1 q.n, q.a i c * t.sdirn i := by
      rw [mul_sum, ← sum_add_distrib]
      refine sum_congr rfl fun i hi => ?_
      rw [hu]; dsimp only; rw [hdx i hi]; ring
    rw [this]
    ring
  have hsl : ∀ k, t.nact < k → k ≤ t.mcon → t.iact k ≤ q.m → 0 ≤ res q u (t.iact k) ∧ cmax 0 ((1 - ra) * t.vmultc k + ra * vd k) ≤ res q u (t.iact k) := by
    intro k hk hkm hkc
    have hkr := A.range k (by omega) hkm
    have f0 := hc.fea _ hkr.1 hkc
    have f1 := hc.slack k hk hkm hkc
    have f2 := hvd k hk hkm
    rw [hresc, ← f2]
    have f3 : (1 - ra) * t.vmultc k ≤ (1 - ra) * res q t (t.iact k) := mul_le_mul_of_nonneg_left f1 (by linarith)
    have f4 : 0 ≤ (1 - ra) * res q t (t.iact k) + ra * vd k := by
      by_cases hneg : vd k < 0
      · have := g4 k (by omega) hkm hneg
        linarith
      · have := mul_nonneg g0 (not_lt.1 hneg)
        have := mul_nonneg (sub_nonneg.2 g1) f0
        linarith
    exact ⟨f4, (hmax _).2.2 _ f4 (by linarith)⟩
  have hfea : ∀ c, 1 ≤ c → c ≤ q.m → 0 ≤ res q u c := by
    intro c hc1 hcm
    obtain ⟨k, hk, hkm, rfl⟩ := A.sur c hc1 (by rcases hc.mcon with e | e <;> omega)
    by_cases hkn : k ≤ t.nact
    · rw [hresc]
      have := mul_nonneg g0 (hact k hk hkn hcm)
      have := mul_nonneg (sub_nonneg.2 g1) (hc.fea _ hc1 hcm)
      linarith
    · exact (hsl k (not_le.1 hkn) hkm hcm).1
  have hbound : ∑ i ∈ Icc 1 q.n, u.dx i * u.dx i = ∑ i ∈ Icc 1 q.n, (t.dx i + ra * step * t.sdirn i) * (t.dx i + ra * step * t.sdirn i) :=
    sum_congr rfl fun i hi => by rw [hu]; dsimp only; rw [hdx i hi]
  have hrs : ra * step ≤ step := by
    have := mul_le_mul_of_nonneg_right g1 hs0
    linarith
  have hcore : Core q cap top u := by
    refine ⟨hc.mcon, A, ?_, hfea, ?_, hc.full, ?_, ?_, ?_⟩
    · intro k hk hkm
      show 0 ≤ (if 1 ≤ k ∧ k ≤ t.mcon then cmax 0 ((1 - ra) * t.vmultc k + ra * vd k) else t.vmultc k)
      rw [if_pos ⟨hk, hkm⟩]
      exact (hmax _).1
    · intro k hk hkm hkc
      show (if 1 ≤ k ∧ k ≤ t.mcon then cmax 0 ((1 - ra) * t.vmultc k + ra * vd k) else t.vmultc k) ≤ res q u (t.iact k)
      have hk' : t.nact < k := hk
      rw [if_pos ⟨by omega, hkm⟩]
      exact (hsl k hk hkm hkc).2
    · rw [hbound]; exact hb _ (mul_nonneg g0 hs0) hrs
    · rw [hres]
      have := mul_nonneg g0 hR0
      have := mul_nonneg (sub_nonneg.2 g1) hc.rmin
      linarith
    · rw [hres]
      have := mul_le_mul_of_nonneg_left hR1 g0
      have := hc.rmax
      linarith
  by_cases hic : ic > 0
  · rw [if_pos hic]
    obtain ⟨j1, j2, j3⟩ := g3 hic
    refine ⟨hcore, hd, hic, j1, fun _ => ?_, fun hm => .inr ?_⟩
    · show (if 1 ≤ ic ∧ ic ≤ t.mcon then cmax 0 ((1 - ra) * t.vmultc ic + ra * vd ic) else t.vmultc ic) = 0
      rw [if_pos ⟨hic, j1⟩]
      have hv := hc.mult ic hic j1
      have hden : t.vmultc ic - vd ic ≠ 0 := by
        have : 0 < t.vmultc ic - vd ic := by linarith
        exact this.ne'
      have : (1 - ra) * t.vmultc ic + ra * vd ic = 0 := by
        rw [j3]; field_simp; ring
      rw [this]
      unfold cmax
      rw [if_pos le_rfl]
    · have hm' : t.mcon = q.m + 1 := hm
      obtain ⟨hn1, _⟩ := h2 hm'
      refine ⟨hn1, ?_, fun hlt hcm => ?_⟩
      · intro heq
        have heq' : ic = t.nact := heq
        have := hvn (by omega) hn1
        rw [← heq'] at this
        exact absurd j2 (not_lt.2 this)
      · have hlt' : t.nact < ic := hlt
        have hcm' : t.iact ic ≤ q.m := hcm
        show zd q t.z t.nact (t.iact ic) / t.zdota t.nact < 0
        rw [← hdir2 hm']
        have f2 := hvd ic hlt' j1
        have hfe := hc.fea _ (A.range ic hic j1).1 hcm'
        unfold res at hfe
        rw [hlin, hR, if_neg (by omega)] at f2
        by_contra hge
        have := mul_nonneg hs0 (not_lt.1 hge)
        linarith
  · rw [if_neg hic]
    have hra : ra = 1 := g2 (by omega)
    cases hfc : full
    · exact ⟨hcore, hf' hfc⟩
    · refine ⟨hcore.bound, fun c hc1 hcm => ?_, .inr ⟨hc.full, ?_⟩⟩
      · have f1 := hfea c hc1 hcm
        have f2 := hcore.rmax
        unfold res at f1
        show q.b c - ∑ i ∈ Icc 1 q.n, q.a i c * u.dx i ≤ top
        linarith
      · show _ ≤ ∑ i ∈ Icc 1 q.n, u.dx i * u.dx i
        rw [hbound, hra, one_mul]
        exact hf hfc

/-- `L_340`. -/
theorem lp340_spec (hsqrt : ∀ a : K, 0 ≤ a → 0 ≤ sqrt a ∧ sqrt a * sqrt a = a) (hr : 0 < q.rho) {t : Tr K}
    (h : At q (lpCap q) top .l340 t) :
    (∃ l u, lp340 q t = some (l, u) ∧ At q (lpCap q) top l u) ∨
      (lp340 q t = none ∧ t.mcon = q.m ∧ t.nact = 0 ∧ ∀ i, 1 ≤ i → i ≤ q.n → t.sdirn i = 0) := by
  obtain ⟨b1, b2, b3⟩ := norms_bounds q t hr
  have hN := norms_eq q t
  unfold lp340
  dsimp only
  set s := lpNorms q t with hs
  have hss : s.2.2 = ∑ i ∈ Icc 1 q.n, t.sdirn i * t.sdirn i := by rw [hN]
  have hsd : s.2.1 = ∑ i ∈ Icc 1 q.n, t.sdirn i * t.dx i := by rw [hN]
  have hss0 : 0 ≤ s.2.2 := by rw [hss]; exact sum_nonneg fun i _ => mul_self_nonneg _
  by_cases hdd : s.1 ≤ 0
  · rw [if_pos hdd]
    exact .inl ⟨_, _, rfl, h.1⟩
  rw [if_neg hdd]
  have hdd' := not_le.1 hdd
  by_cases hz : s.2.2 = 0
  · -- the direction is zero
    have hz0 : ∀ i, 1 ≤ i → i ≤ q.n → t.sdirn i = 0 := by
      rw [hss] at hz
      intro i hi hin
      have := (sum_eq_zero_iff_of_nonneg fun i _ => mul_self_nonneg (t.sdirn i)).1 hz i (mem_Icc.2 ⟨hi, hin⟩)
      exact mul_self_eq_zero.1 this
    have hsd0 : s.2.1 = 0 := by
      rw [hsd]; exact sum_eq_zero fun i hi => by rw [hz0 i (mem_Icc.1 hi).1 (mem_Icc.1 hi).2, zero_mul]
    have hq0 : sqrt (0 : K) = 0 := mul_self_eq_zero.1 (hsqrt 0 le_rfl).2
    have hdiv : lpDivisor s = 0 := by
      unfold lpDivisor
      rw [hz, hsd0]
      simp [hq0]
    rw [if_pos hdiv]
    right
    obtain ⟨hc, hd, h2⟩ := h
    have hm : t.mcon = q.m := by
      rcases hc.mcon with e | e
      · exact e
      · exfalso
        obtain ⟨hn1, h3⟩ := h2 e
        have hn := hc.act.hn
        have horth := hc.act.orth t.nact t.nact hn1 hn hn1 hn
        rw [if_pos rfl] at horth
        have : ∑ i ∈ Icc 1 q.n, t.z i t.nact * t.z i t.nact = 0 := by
          refine sum_eq_zero fun i hi => ?_
          have h4 := h3 i (mem_Icc.1 hi).1 (mem_Icc.1 hi).2
          rw [hz0 i (mem_Icc.1 hi).1 (mem_Icc.1 hi).2] at h4
          have := (div_eq_zero_iff.1 h4.symm).resolve_right (hc.act.ne _ hn1 le_rfl)
          rw [this, zero_mul]
        rw [this] at horth
        exact zero_ne_one horth
    refine ⟨rfl, hm, ?_, hz0⟩
    by_contra hn
    have := hd hm 1 le_rfl (by omega)
    rw [sum_eq_zero fun i hi => by rw [hz0 i (mem_Icc.1 hi).1 (mem_Icc.1 hi).2, zero_mul]] at this
    exact zero_ne_one this
  · left
    have hss1 : 0 < s.2.2 := lt_of_le_of_ne hss0 (Ne.symm hz)
    have hb := h.1.bound
    have hcap : lpCap q = q.rho * q.rho + q.n / 1000000000000 * (q.rho * q.rho) + 2 / 1000000000000 * (q.rho * q.rho) := by
      unfold lpCap; ring
    obtain ⟨k1, k2, k3⟩ := step_geometry hsqrt (sd := s.2.1) hss1 hdd' b1 b2 b3 (by rw [hcap] at hb; exact hb)
    rw [← hcap] at k3
    have hquad : ∀ τ, ∑ i ∈ Icc 1 q.n, (t.dx i + τ * t.sdirn i) * (t.dx i + τ * t.sdirn i) =
        ∑ i ∈ Icc 1 q.n, t.dx i * t.dx i + 2 * τ * s.2.1 + τ * τ * s.2.2 := by
      intro τ
      rw [hss, hsd, mul_sum, mul_sum, ← sum_add_distrib, ← sum_add_distrib]
      exact sum_congr rfl fun i _ => by ring
    rw [if_neg k1.ne']
    have hst : 0 < s.1 / lpDivisor s := div_pos hdd' k1
    have hmin : ∀ a b : K, cmin a b ≤ a ∧ cmin a b ≤ b ∧ (0 ≤ a → 0 ≤ b → 0 ≤ cmin a b) := by
      intro a b; unfold cmin; split_ifs with h
      · exact ⟨le_rfl, h, fun h _ => h⟩
      · exact ⟨(not_le.1 h).le, le_rfl, fun _ h => h⟩
    by_cases hm : t.mcon = q.m
    · rw [if_pos hm]
      split_ifs with hneg
      · exact ⟨_, _, rfl, h.1, hm⟩
      · obtain ⟨m1, m2, m3⟩ := hmin (s.1 / lpDivisor s) t.resmax
        refine ⟨_, _, rfl, take_spec h (m3 hst.le h.1.rmin) (fun _ => m2) (fun τ h0 hτ => ?_) (fun hf => ?_) fun _ => hm⟩
        · rw [hquad]; exact k3 τ h0 (hτ.trans m1)
        · rw [hquad, of_decide_eq_true hf]; exact k2
    · rw [if_neg hm]
      refine ⟨_, _, rfl, take_spec h hst.le (fun h => absurd h hm) (fun τ h0 hτ => ?_) (fun hf => ?_) fun hf => ?_⟩
      · rw [hquad]; exact k3 τ h0 hτ
      · rw [hquad]; exact k2
      · exact absurd rfl (of_decide_eq_false hf)

/-- From a label to the next one. -/
theorem lpStep_spec (hsqrt : ∀ a : K, 0 ≤ a → 0 ≤ sqrt a ∧ sqrt a * sqrt a = a) (hr : 0 < q.rho) {l : Lab} {t : Tr K}
    (h : At q (lpCap q) top l t) :
    (∃ l' u, lpStep q (l, t) = some (l', u) ∧ At q (lpCap q) top l' u) ∨
      (lpStep q (l, t) = none ∧ l = .l340 ∧ t.mcon = q.m ∧ t.nact = 0 ∧ ∀ i, 1 ≤ i → i ≤ q.n → t.sdirn i = 0) := by
  cases l
  · refine .inl ⟨_, _, rfl, ?_⟩
    obtain ⟨hc, hd, h1, h2, h3, h4⟩ := h
    exact ⟨⟨hc.mcon, hc.act, hc.mult, hc.fea, hc.slack, hc.full, hc.bound, hc.rmin, hc.rmax⟩, hd, h1, h2, fun h => absurd (show t.icon ≤ t.nact from h) (by omega), fun hm => .inl ⟨h3, h4 hm⟩⟩
  · exact .inl (lp70_spec hsqrt h)
  · exact .inl (lp260_spec hsqrt h)
  · exact .inl ⟨_, _, rfl, lp320_spec h⟩
  · rcases lp340_spec hsqrt hr h with h | ⟨h1, h2⟩
    · exact .inl h
    · exact .inr ⟨h1, rfl, h2⟩
  · exact .inl ⟨_, _, rfl, lp480_spec h⟩
  · left
    show ∃ l' u, (if t.mcon = q.m then some (Lab.l480, t) else some (Lab.l500, { t with ifull := 0 })) = some (l', u) ∧ _
    have hc : Core q (lpCap q) top t := h
    split_ifs with hm
    · exact ⟨_, _, rfl, h, hm⟩
    · refine ⟨_, _, rfl, hc.bound, fun c h1 h2 => ?_, .inl rfl⟩
      have := hc.fea c h1 h2
      have := hc.rmax
      unfold res at *
      linarith
  · exact .inl ⟨_, _, rfl, h⟩

/-! ## The beginning -/

theorem worst_spec (q : Lp K) : 0 ≤ (lpWorst q).1 ∧ (lpWorst q).2 ≤ q.m ∧ (∀ c, 1 ≤ c → c ≤ q.m → q.b c ≤ (lpWorst q).1) ∧
    ((lpWorst q).1 ≠ 0 → 1 ≤ (lpWorst q).2) ∧ ((lpWorst q).1 = 0 ∨ ∃ c, 1 ≤ c ∧ c ≤ q.m ∧ (lpWorst q).1 = q.b c) := by
  unfold lpWorst
  refine up_inv (fun j (st : K × Nat) => 0 ≤ st.1 ∧ st.2 ≤ q.m ∧ (∀ c, 1 ≤ c → c ≤ j → q.b c ≤ st.1) ∧
    (st.1 ≠ 0 → 1 ≤ st.2) ∧ (st.1 = 0 ∨ ∃ c, 1 ≤ c ∧ c ≤ q.m ∧ st.1 = q.b c)) q.m
    ⟨le_rfl, by simp, fun c h1 h2 => by omega, fun h => absurd rfl h, .inl rfl⟩ ?_
  rintro j hj ⟨r, i⟩ ⟨i1, i2, i3, i4, i5⟩
  dsimp only at i1 i2 i3 i4 i5 ⊢
  split_ifs with h
  · refine ⟨i1.trans h.le, by dsimp only; omega, fun c h1 h2 => ?_, fun _ => by dsimp only; omega, .inr ⟨j + 1, by omega, by omega, rfl⟩⟩
    by_cases e : c = j + 1
    · subst e; exact le_rfl
    · exact (i3 c h1 (by omega)).trans h.le
  · refine ⟨i1, i2, fun c h1 h2 => ?_, i4, i5⟩
    by_cases e : c = j + 1
    · subst e; exact not_lt.1 h
    · exact i3 c h1 (by omega)

theorem unit_spec (n : Nat) (t : Tr K) : ∃ z dx, lpUnit n t = { t with z := z, dx := dx } ∧
    (∀ i j, 1 ≤ i → i ≤ n → 1 ≤ j → j ≤ n → z i j = if i = j then 1 else 0) ∧ ∀ i, 1 ≤ i → i ≤ n → dx i = 0 := by
  unfold lpUnit
  refine up_inv (fun k (u : Tr K) => ∃ z dx, u = { t with z := z, dx := dx } ∧
    (∀ i j, 1 ≤ i → i ≤ k → 1 ≤ j → j ≤ n → z i j = if i = j then 1 else 0) ∧ ∀ i, 1 ≤ i → i ≤ k → dx i = 0) n
    ⟨t.z, t.dx, rfl, fun i j h1 h2 => by omega, fun i h1 h2 => by omega⟩ ?_
  rintro k _ u ⟨z, dx, rfl, i1, i2⟩
  dsimp only
  rw [up_row n (k + 1) (fun _ _ => 0)]
  refine ⟨_, _, rfl, fun i j h1 h2 h3 h4 => ?_, fun i h1 h2 => ?_⟩
  · simp only [set2]
    by_cases e : i = k + 1
    · subst e
      by_cases ej : j = k + 1
      · subst ej; simp
      · rw [if_neg (show ¬ (k + 1 = k + 1 ∧ j = k + 1) by omega), if_pos ⟨rfl, h3, h4⟩, if_neg (Ne.symm ej)]
    · rw [if_neg (show ¬ (i = k + 1 ∧ j = k + 1) by omega), if_neg (show ¬ (i = k + 1 ∧ 1 ≤ j ∧ j ≤ n) by omega)]
      exact i1 i j h1 (by omega) h3 h4
  · unfold set1
    split_ifs with e
    · rfl
    · exact i2 i h1 (by omega)

theorem lpInit_spec (q : Lp K) (t : Tr K) : At q (lpCap q) (lpWorst q).1 (lpInit q t).1 (lpInit q t).2 := by
  obtain ⟨w0, w1, w2, w3, _⟩ := worst_spec q
  unfold lpInit
  dsimp only
  obtain ⟨z, dx, e, hz, hdx⟩ := unit_spec q.n { t with ifull := 1, mcon := q.m, nact := 0 }
  rw [e]
  dsimp only
  rw [up_set1 q.m (fun k _ => k), up_set1 q.m (fun k _ => (lpWorst q).1 - q.b k)]
  have hcap : 0 ≤ lpCap q := mul_nonneg (by positivity) (mul_self_nonneg _)
  have hA : Act q 0 q.m (fun k => if 1 ≤ k ∧ k ≤ q.m then k else t.iact k) z t.zdota := by
    refine ⟨by omega, by omega, fun k h1 h2 => by rw [if_pos ⟨h1, h2⟩]; exact ⟨h1, h2⟩, fun c h1 h2 => ⟨c, h1, h2, if_pos ⟨h1, h2⟩⟩, orth_unit z hz, fun k h1 h2 => by omega, fun k h1 h2 => by omega, fun k h1 h2 => by omega⟩
  have hs : ∀ c, ∑ i ∈ Icc 1 q.n, q.a i c * dx i = 0 := fun c =>
    sum_eq_zero fun i hi => by rw [hdx i (mem_Icc.1 hi).1 (mem_Icc.1 hi).2, mul_zero]
  have hb : ∑ i ∈ Icc 1 q.n, dx i * dx i ≤ lpCap q := by
    rw [sum_eq_zero fun i hi => by rw [hdx i (mem_Icc.1 hi).1 (mem_Icc.1 hi).2, mul_zero]]
    exact hcap
  have hcore : ∀ sd, Core q (lpCap q) (lpWorst q).1 { t with ifull := 1, mcon := q.m, nact := 0, z := z, dx := dx, resmax := (lpWorst q).1, icon := (lpWorst q).2, iact := fun k => if 1 ≤ k ∧ k ≤ q.m then k else t.iact k, vmultc := fun k => if 1 ≤ k ∧ k ≤ q.m then (lpWorst q).1 - q.b k else t.vmultc k, sdirn := sd } := by
    intro sd
    refine ⟨.inl rfl, hA, fun k h1 h2 => ?_, fun c h1 h2 => ?_, fun k h1 h2 => ?_, rfl, hb, w0, le_rfl⟩
    · dsimp only at h2 ⊢
      rw [if_pos ⟨h1, h2⟩]
      have := w2 k h1 h2
      linarith
    · unfold res
      dsimp only
      rw [hs]
      have := w2 c h1 h2
      linarith
    · dsimp only at h1 h2 ⊢
      rw [if_pos ⟨h1, h2⟩, if_pos ⟨h1, h2⟩]
      intro _
      unfold res
      dsimp only
      rw [hs, add_zero]
  split_ifs with h0
  · exact ⟨hcore t.sdirn, rfl⟩
  · refine ⟨hcore _, fun _ k h1 h2 => ?_, w3 h0, w1, w3 h0, fun hm => ?_⟩
    · exact absurd (show k ≤ 0 from h2) (by omega)
    · exact absurd (show q.m = q.m + 1 from hm) (by omega)

theorem lpRun_spec (hsqrt : ∀ a : K, 0 ≤ a → 0 ≤ sqrt a ∧ sqrt a * sqrt a = a) (hr : 0 < q.rho) (fuel : Nat) :
    ∀ (l : Lab) (t u : Tr K), At q (lpCap q) top l t → lpRun q fuel (l, t) = some u → Final q (lpCap q) top u := by
  induction fuel with
  | zero =>
    intro l t u h e
    cases l
    case l500 =>
      simp only [lpRun, Option.some.injEq] at e
      subst e
      exact h
    all_goals simp [lpRun] at e
  | succ fuel ih =>
    intro l t u h e
    by_cases hl : l = .l500
    · subst hl
      simp only [lpRun, Option.some.injEq] at e
      subst e
      exact h
    · have e' : (lpStep q (l, t)).bind (lpRun q fuel) = some u := by
        cases l
        case l500 => exact absurd rfl hl
        all_goals exact e
      rcases lpStep_spec hsqrt hr h with ⟨l', v, e1, h1⟩ | ⟨e1, _⟩
      · rw [e1, Option.bind_some] at e'
        exact ih l' v u h1 e'
      · rw [e1] at e'
        exact absurd e' (by simp)

/-- The step of `trstlp` in exact arithmetic.  Its length is at most `RHO` up to `10⁻¹²` per variable;
it is at least `RHO` if `IFULL = 1`; and no linear constraint is more violated after the step than
the most violated one before. -/
theorem trstlp_spec (hsqrt : ∀ a : K, 0 ≤ a → 0 ≤ sqrt a ∧ sqrt a * sqrt a = a) (hr : 0 < q.rho) {fuel : Nat} {t u : Tr K}
    (h : trstlp q fuel t = some u) :
    ∑ i ∈ Icc 1 q.n, u.dx i * u.dx i ≤ (1 + (q.n + 2) / 1000000000000) * (q.rho * q.rho) ∧
    (u.ifull = 0 ∨ (u.ifull = 1 ∧ q.rho * q.rho ≤ ∑ i ∈ Icc 1 q.n, u.dx i * u.dx i)) ∧
    ∀ v, 0 ≤ v → (∀ c, 1 ≤ c → c ≤ q.m → q.b c ≤ v) →
      ∀ c, 1 ≤ c → c ≤ q.m → q.b c - ∑ i ∈ Icc 1 q.n, q.a i c * u.dx i ≤ v := by
  have H := lpRun_spec hsqrt hr fuel _ _ u (lpInit_spec q t) h
  refine ⟨H.bound, H.full, fun v hv hb c h1 h2 => (H.fea c h1 h2).trans ?_⟩
  rcases (worst_spec q).2.2.2.2 with e | ⟨c', h3, h4, e⟩
  · rw [e]; exact hv
  · rw [e]; exact hb c' h3 h4

/-- Where `trstlp` can fail in exact arithmetic: the only case is a zero direction in stage one
when there is no active constraint any more. -/
theorem trstlp_defined (hsqrt : ∀ a : K, 0 ≤ a → 0 ≤ sqrt a ∧ sqrt a * sqrt a = a) (hr : 0 < q.rho) {t : Tr K}
    {js : Lab × Tr K} (h : Relation.ReflTransGen (fun a b => lpStep q a = some b) (lpInit q t) js) (hn : lpStep q js = none) :
    js.1 = .l340 ∧ js.2.mcon = q.m ∧ js.2.nact = 0 ∧ ∀ i, 1 ≤ i → i ≤ q.n → js.2.sdirn i = 0 := by
  have H : At q (lpCap q) (lpWorst q).1 js.1 js.2 := by
    clear hn
    induction h with
    | refl => exact lpInit_spec q t
    | tail _ hs ih =>
      rcases lpStep_spec hsqrt hr ih with ⟨l', v, e1, h1⟩ | ⟨e1, _⟩
      · rw [hs, Option.some.injEq] at e1
        rw [e1]; exact h1
      · rw [hs] at e1
        exact absurd e1 (by simp)
  rcases lpStep_spec hsqrt hr H with ⟨l', v, e1, h1⟩ | ⟨_, e1⟩
  · rw [hn] at e1
    exact absurd e1 (by simp)
  · exact e1

end
end Opk.Cobyla
