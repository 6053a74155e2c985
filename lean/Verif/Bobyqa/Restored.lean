import Verif.Bobyqa.Rescue
import Verif.Bobyqa.Always

/-!
# `rescue` ends with a model which interpolates, in exact arithmetic
-/
set_option linter.unusedSectionVars false
namespace Opk.Bobyqa
open Linalg CMath Cobyla Powell
open Newuoa (omega qval Matches)

section
variable {K : Type} [Field K] [LinearOrder K] [IsStrictOrderedRing K] [CMath K] [ExactMath K]

/-- The labels of `rescue`. -/
def Saving (l : Lab) : Prop := l = .l190 ∨ l = .r80 ∨ l = .r120 ∨ l = .rpts ∨ l = .l190b

/-- The rotations of `update` in a call of `rescue` are accurate. -/
def Neat (p : Par K) (calfun : Nat → (Nat → K) → K) (T : St K → Trs K) (ls : Lab × St K) : Prop :=
  ∀ m s, (∀ j, j < m → Saving (run p calfun T j ls).1) → run p calfun T m ls = (.r80, s) → Exact80 p s

theorem Neat.step {p : Par K} {calfun : Nat → (Nat → K) → K} {T : St K → Trs K} {ls : Lab × St K} (h : Neat p calfun T ls) (hi : Saving ls.1) :
    Neat p calfun T (step p calfun T ls) := by
  intro m s hm hr
  refine h (m + 1) s (fun j hj => ?_) hr
  cases j with
  | zero => exact hi
  | succ j => exact hm j (by omega)

/-- With `n + 2` points there are no rotations. -/
theorem Neat.single {p : Par K} (hp : p.npt = p.n + 2) (calfun : Nat → (Nat → K) → K) (T : St K → Trs K) (ls : Lab × St K) : Neat p calfun T ls := by
  intro m s _ _ _ j j1 j2
  have : p.nptm = 1 := by show p.npt - (p.n + 1) = 1; omega
  omega

/-- `rescue` ends: either the iterations go on with arrays which are exact and a model which interpolates, or the limit on
the number of evaluations is reached. -/
def Restored (p : Par K) (calfun : Nat → (Nat → K) → K) (T : St K → Trs K) (ls : Lab × St K) : Prop :=
  ∃ m l t, run p calfun T m ls = (l, t) ∧ Ok p l t ∧ ((l = .l60 ∨ l = .l210) ∧ Core p t ∨ l = .done ∧ t.status = .tooManyEvaluations ∧ p.maxfun ≤ t.nf)

theorem Restored.step {p : Par K} {calfun : Nat → (Nat → K) → K} {T : St K → Trs K} {ls : Lab × St K} (h : Restored p calfun T (step p calfun T ls)) : Restored p calfun T ls := by
  obtain ⟨m, l, t, h1, h2⟩ := h
  exact ⟨m + 1, l, t, h1, h2⟩

section
variable {p : Par K} {calfun : Nat → (Nat → K) → K} {T : St K → Trs K}

theorem restored_l190b {s : St K} (ok : Ok p .l190b s) (h : s.res.kpt = 0 ∧ p.maxfun ≤ s.nf ∨ Filled p s) : Restored p calfun T (.l190b, s) := by
  have ok' := ok_l190b p s ok
  have re : Resc p s := ok
  apply Restored.step
  show Restored p calfun T (l190b p s)
  rcases h with ⟨h1, h2⟩ | h
  · refine ⟨0, _, _, rfl, ok', Or.inr ?_⟩
    show (l190b p s).1 = .done ∧ (l190b p s).2.status = .tooManyEvaluations ∧ p.maxfun ≤ (l190b p s).2.nf
    unfold l190b
    by_cases c : s.kopt ≠ s.kbase
    · rw [if_pos c, if_pos (show s.res.kpt = 0 from h1)]
      exact ⟨rfl, rfl, h2⟩
    · rw [if_neg c, if_pos (show s.res.kpt = 0 from h1)]
      exact ⟨rfl, rfl, h2⟩
  · rcases filled_l190b h re.nfsav re.same with ⟨e1, e2⟩ | ⟨e1, e2⟩
    · generalize l190b p s = q at *
      obtain ⟨l, t⟩ := q
      obtain rfl : l = .l20 := e1
      have ok'' := ok_l20 p t ok'
      obtain ⟨f1, f2⟩ := back_l20 e2 ok'.1.kopt1 ok'.1.koptn
      exact Restored.step ⟨0, _, _, rfl, ok'', Or.inl ⟨Or.inl f1, f2⟩⟩
    · exact ⟨0, _, _, rfl, ok', Or.inl ⟨e1, e2⟩⟩

theorem rpts_nf (s : St K) : (rpts p calfun s).1 = .rpts → (rpts p calfun s).2.res.kpt = s.res.kpt + 1 := by
  unfold rpts
  by_cases c : s.res.kpt ≤ p.npt
  · rw [if_pos c]
    cases s.res.ptsid s.res.kpt with
    | none => exact fun _ => rfl
    | some id =>
      dsimp only
      by_cases d : p.maxfun ≤ s.nf
      · rw [if_pos d]; exact fun w => by cases w
      · rw [if_neg d]; exact fun _ => rfl
  · rw [if_neg c]; exact fun w => by cases w

theorem rpts_same (s : St K) (c : p.npt < s.res.kpt) : (rpts p calfun s) = (.l190b, s) := by
  unfold rpts
  rw [if_neg (by omega)]

theorem rpts_full (s : St K) (h : (rpts p calfun s).1 = .l190b) : (rpts p calfun s).2.nf = s.nf := by
  unfold rpts at *
  by_cases c : s.res.kpt ≤ p.npt
  · rw [if_pos c] at h ⊢
    cases e : s.res.ptsid s.res.kpt with
    | none => rfl
    | some id =>
      rw [e] at h
      dsimp only at h ⊢
      by_cases d : p.maxfun ≤ s.nf
      · rw [if_pos d]
      · rw [if_neg d] at h; cases h
  · rw [if_neg c]

theorem restored_rpts : ∀ (k : Nat) (s : St K), Ok p .rpts s → Fill p s → p.npt < s.res.kpt + k → Restored p calfun T (.rpts, s) := by
  intro k
  have one : ∀ s : St K, Ok p .rpts s → Fill p s → (∀ t : St K, Ok p .rpts t → Fill p t → t.res.kpt = s.res.kpt + 1 → s.res.kpt ≤ p.npt → Restored p calfun T (.rpts, t)) →
      Restored p calfun T (.rpts, s) := by
    intro s ok h next
    have ok' := ok_rpts p calfun s ok
    apply Restored.step
    show Restored p calfun T (rpts p calfun s)
    have kk := rpts_nf (p := p) (calfun := calfun) s
    have nn := rpts_full (p := p) (calfun := calfun) s
    by_cases c : p.npt < s.res.kpt
    · rcases fill_rpts calfun h ok.1.kbase1 ok.1.kbasen with ⟨e1, -⟩ | ⟨e1, e2⟩
      · rw [rpts_same s c] at e1; cases e1
      · rw [rpts_same s c] at e2 ok' ⊢
        exact restored_l190b ok' (e2.imp (fun w => w) (fun w => w))
    · rcases fill_rpts calfun h ok.1.kbase1 ok.1.kbasen with ⟨e1, e2⟩ | ⟨e1, e2⟩
      · have k3 := kk e1
        generalize rpts p calfun s = q at *
        obtain ⟨l, t⟩ := q
        obtain rfl : l = .rpts := e1
        exact next t ok' e2 k3 (by omega)
      · have n3 := nn e1
        generalize rpts p calfun s = q at *
        obtain ⟨l, t⟩ := q
        obtain rfl : l = .l190b := e1
        have n3 : t.nf = s.nf := n3
        exact restored_l190b ok' (e2.imp (fun w => ⟨w.1, by rw [n3]; exact w.2⟩) (fun w => w))
  induction k with
  | zero => exact fun s ok h hk => one s ok h fun _ _ _ _ w => absurd w (by omega)
  | succ k ih => exact fun s ok h hk => one s ok h fun t ok' h' e _ => ih t ok' h' (by omega)

/-- The exchanges of `rescue` end. -/
theorem r120_falls (s : St K) (hw : 0 ≤ s.res.winc) :
    ((r120 p s).1 = .r120 → (r120 p s).2.res.winc = s.res.winc ∧ countIf (fun k => (r120 p s).2.res.wdist k ≠ 0) p.npt ≤ countIf (fun k => s.res.wdist k ≠ 0) p.npt ∧
      countIf (fun k => 0 < (r120 p s).2.res.wdist k) p.npt < countIf (fun k => 0 < s.res.wdist k) p.npt) ∧
    ((r120 p s).1 = .r80 → (r80 p (r120 p s).2).2.res.winc = s.res.winc ∧ countIf (fun k => (r80 p (r120 p s).2).2.res.wdist k ≠ 0) p.npt < countIf (fun k => s.res.wdist k ≠ 0) p.npt) := by
  have h3 := rescuePick_pos (p := p) s
  unfold r120
  dsimp only
  by_cases c : (rescuePick p s).2 = 0
  · rw [if_pos c]
    exact ⟨fun w => (by cases w), fun w => (by cases w)⟩
  rw [if_neg c]
  obtain ⟨k1, k2, k3⟩ := h3 c
  generalize rescuePick p s = pick at k1 k2 k3 ⊢
  generalize rescueVlag p s _ = vb
  generalize rescueOld p s vb.1 vb.2 = old
  by_cases c2 : old.2.1 ≤ old.2.2 * lit 1 100
  · rw [if_pos c2]
    have e : ∀ k, set1 s.res.wdist pick.1 (-s.res.wdist pick.1 - s.res.winc) k = if k = pick.1 then -s.res.wdist pick.1 - s.res.winc else s.res.wdist k :=
      fun k => rfl
    have neg : -s.res.wdist pick.1 - s.res.winc < 0 := by linarith
    refine ⟨fun _ => ⟨rfl, ?_, ?_⟩, fun w => by cases w⟩
    · refine countIf_le ?_
      intro k _ _
      show set1 s.res.wdist pick.1 (-s.res.wdist pick.1 - s.res.winc) k ≠ 0 → _
      rw [e]
      split_ifs with q
      · rw [q]; exact fun _ => k3.ne'
      · exact id
    · refine countIf_lt (m := pick.1) ?_ k1 k2 ?_ k3
      · intro k _ _
        show 0 < set1 s.res.wdist pick.1 (-s.res.wdist pick.1 - s.res.winc) k → _
        rw [e]
        split_ifs with q
        · intro hh; exact absurd hh (not_lt.mpr neg.le)
        · exact id
      · show ¬ 0 < set1 s.res.wdist pick.1 (-s.res.wdist pick.1 - s.res.winc) pick.1
        rw [e, if_pos rfl]; exact not_lt.mpr neg.le
  · rw [if_neg c2]
    refine ⟨fun w => (by cases w), fun _ => ?_⟩
    have lt : ∀ f : K → K, f 0 = 0 → (∀ x, f x ≠ 0 → x ≠ 0) → countIf (fun k => f (set1 s.res.wdist pick.1 0 k) ≠ 0) p.npt < countIf (fun k => s.res.wdist k ≠ 0) p.npt := by
      intro f f0 f1
      refine countIf_lt (m := pick.1) ?_ k1 k2 ?_ k3.ne'
      · intro k _ _ hk
        have hk := f1 _ hk
        unfold set1 at hk
        split_ifs at hk with q
        · exact absurd rfl hk
        · exact hk
      · unfold set1
        rw [if_pos rfl]
        exact not_not.mpr f0
    unfold r80
    dsimp only
    split_ifs with q1 q2
    · exact ⟨rfl, lt id rfl (fun _ => id)⟩
    · exact ⟨rfl, lt CMath.fabs (by rw [ExactMath.fabs_eq, abs_zero]) (by intro x hx; rw [ExactMath.fabs_eq] at hx; exact abs_ne_zero.mp hx)⟩
    · exact ⟨rfl, lt id rfl (fun _ => id)⟩

theorem restored_r120 (hsqrt : ∀ a : K, 0 ≤ a → 0 ≤ CMath.sqrt a ∧ CMath.sqrt a * CMath.sqrt a = a) (hp : Newuoa.Valid p.nw) :
    ∀ (a b : Nat) (s : St K), Ok p .r120 s → Prov p s → 0 ≤ s.res.winc → countIf (fun k => s.res.wdist k ≠ 0) p.npt ≤ a →
      countIf (fun k => 0 < s.res.wdist k) p.npt ≤ b → Neat p calfun T (.r120, s) → Restored p calfun T (.r120, s) := by
  intro a
  induction a using Nat.strong_induction_on with
  | _ a iha =>
  intro b
  induction b using Nat.strong_induction_on with
  | _ b ihb =>
  intro s ok h hw ha hb ne
  have ok1 := ok_step (weak_sqrt hsqrt) p hp.rend hp.rbeg calfun T (.r120, s) ok
  have ne1 := ne.step (Or.inr (Or.inr (Or.inl rfl)))
  have f := r120_falls (p := p) s hw
  apply Restored.step
  change Ok p (r120 p s).1 (r120 p s).2 at ok1
  change Neat p calfun T (r120 p s) at ne1
  change Restored p calfun T (r120 p s)
  rcases prov_r120 h ok.2.1 ok.1.full.kopt1 ok.1.full.koptn with ⟨e1, e2⟩ | ⟨e1, e2⟩ | ⟨e1, e2⟩
  · generalize r120 p s = q at *
    obtain ⟨l, t⟩ := q
    obtain rfl : l = .rpts := e1
    exact restored_rpts (p.npt + 1) t ok1 e2 (by omega)
  · have g := f.1 e1
    generalize r120 p s = q at *
    obtain ⟨l, t⟩ := q
    obtain rfl : l = .r120 := e1
    exact ihb _ (lt_of_lt_of_le g.2.2 hb) t ok1 e2 (by rw [g.1]; exact hw) (g.2.1.trans ha) le_rfl ne1
  · have g := f.2 e1
    generalize r120 p s = q at *
    obtain ⟨l, t⟩ := q
    obtain rfl : l = .r80 := e1
    have ex : Exact80 p t := ne1 0 t (fun j hj => absurd hj (by omega)) rfl
    have ok2 := ok_step (weak_sqrt hsqrt) p hp.rend hp.rbeg calfun T (.r80, t) ok1
    have ne2 := ne1.step (Or.inr (Or.inl rfl))
    apply Restored.step
    change Ok p (r80 p t).1 (r80 p t).2 at ok2
    change Neat p calfun T (r80 p t) at ne2
    change Restored p calfun T (r80 p t)
    rcases prov_r80 hsqrt hp e2 ok1.2.1 ex with ⟨e1, e2⟩ | ⟨e1, e2⟩
    · generalize r80 p t = q at *
      obtain ⟨l, t⟩ := q
      obtain rfl : l = .l190b := e1
      exact restored_l190b ok2 (Or.inr e2)
    · change (r80 p t).2.res.winc = s.res.winc ∧ countIf (fun k => (r80 p t).2.res.wdist k ≠ 0) p.npt < countIf (fun k => s.res.wdist k ≠ 0) p.npt at g
      generalize r80 p t = q at *
      obtain ⟨l, t⟩ := q
      obtain rfl : l = .r120 := e1
      exact iha _ (lt_of_lt_of_le g.2 ha) _ t ok2 e2 (by rw [g.1]; exact hw) le_rfl le_rfl ne2

/-- **C93.**  `rescue` ends, and makes the arrays and the model exact, whatever the contents of `BMAT`, `ZMAT` and `VLAG`
before it. -/
theorem rescue_restores (hsqrt : ∀ a : K, 0 ≤ a → 0 ≤ CMath.sqrt a ∧ CMath.sqrt a * CMath.sqrt a = a) (hp : Newuoa.Valid p.nw)
    (hw : ∀ i, 1 ≤ i → i ≤ p.n → p.xl i < p.xu i) {s : St K} (ok : Ok p .l190 s) (h : Hurt p s) (ne : Neat p calfun T (.l190, s)) : Restored p calfun T (.l190, s) := by
  have ok1 := ok_step (weak_sqrt hsqrt) p hp.rend hp.rbeg calfun T (.l190, s) ok
  have ne1 := ne.step (Or.inl rfl)
  have hurt := hurt_r80 hsqrt hp hw h ok
  apply Restored.step
  change Restored p calfun T (.r80, (l190 p s).2)
  have ok2 := ok_step (weak_sqrt hsqrt) p hp.rend hp.rbeg calfun T (.r80, (l190 p s).2) ok1
  have ne2 := Neat.step (ls := (.r80, (l190 p s).2)) ne1 (Or.inr (Or.inl rfl))
  apply Restored.step
  change Ok p (r80 p (l190 p s).2).1 (r80 p (l190 p s).2).2 at ok2
  change Neat p calfun T (r80 p (l190 p s).2) at ne2
  change Restored p calfun T (r80 p (l190 p s).2)
  have wi : 0 ≤ (r80 p (l190 p s).2).2.res.winc := by
    have w0 : 0 ≤ (l190 p s).2.res.winc := by
      show 0 ≤ (rescueInit p { s with nfsav := s.nf, kbase := s.kopt }).res.winc
      unfold rescueInit
      dsimp only
      refine up_inv (fun _ (t : K) => 0 ≤ t) p.npt le_rfl ?_
      intro m _ t h
      rw [cmax_eq]
      exact h.trans (le_max_left _ _)
    unfold r80
    dsimp only
    split_ifs <;> exact w0
  obtain ⟨e1, e2⟩ := hurt
  generalize r80 p (l190 p s).2 = q at *
  obtain ⟨l, t⟩ := q
  obtain rfl : l = .r120 := e1
  exact restored_r120 hsqrt hp _ _ t ok2 e2 wi le_rfl le_rfl ne2

end

/-- The calls are kept. -/
theorem value_step (p : Par K) (f : (Nat → K) → K) (T : St K → Trs K) (ls : Lab × St K) (h : ∀ e ∈ ls.2.log, e.2 = f e.1) :
    ∀ e ∈ (step p (fun _ => f) T ls).2.log, e.2 = f e.1 := by
  obtain ⟨l, s⟩ := ls
  have push : ∀ x (s' : St K), s'.log = (x, f x) :: s.log → ∀ e ∈ s'.log, e.2 = f e.1 := by
    intro x s' w e he
    rw [w] at he
    rcases List.mem_cons.mp he with rfl | he
    · rfl
    · exact h e he
  have same : ∀ s' : St K, s'.log = s.log → ∀ e ∈ s'.log, e.2 = f e.1 := by
    intro s' w
    rw [w]; exact h
  cases l with
  | pre => exact push _ _ (prelim_called p (fun _ => f) s).1
  | l20 => exact same _ (quiet_l20 p s).2.1
  | l60 => exact same _ (quiet_l60 p T s).2.1
  | l90 => exact same _ (quiet_l90 p s).2.1
  | l190 => exact same _ (quiet_l190 p s).2.1
  | r80 => exact same _ (quiet_r80 p s).2.1
  | r120 => exact same _ (quiet_r120 p s).2.1
  | l190b => exact same _ (quiet_l190b p s).2.1
  | l210 => exact same _ (quiet_l210 p s).2.1
  | l230 => exact same _ (quiet_l230 p s).2.1
  | l650 => exact same _ (quiet_l650 p s).2.1
  | l680 => exact same _ (quiet_l680 p s).2.1
  | rpts =>
    obtain ⟨-, ⟨t, v, a2, -, -⟩ | ⟨a2, -⟩⟩ := rpts_called p (fun _ => f) s
    · exact push _ _ a2
    · exact same _ a2
  | l360 =>
    obtain ⟨-, ⟨a2, -, -⟩ | ⟨a2, -⟩⟩ := l360_called p (fun _ => f) s
    · exact push _ _ a2
    · exact same _ a2
  | done => exact same _ (finish_log p s).1
  | ret => exact h
  | wrong => exact h

theorem value_run (p : Par K) (f : (Nat → K) → K) (T : St K → Trs K) : ∀ (m : Nat) (ls : Lab × St K), (∀ e ∈ ls.2.log, e.2 = f e.1) →
    ∀ e ∈ (run p (fun _ => f) T m ls).2.log, e.2 = f e.1 := by
  intro m
  induction m with
  | zero => exact fun _ h => h
  | succ m ih => exact fun ls h => ih _ (value_step p f T ls h)

end

/-- **C93**, for the user: with real numbers, if `rescue` is called when the model takes the values of the objective function
at the interpolation points, and whatever errors there are in the arrays `BMAT`, `ZMAT` and `VLAG`, then it ends: the
iterations go on with arrays which hold the inverse matrix, and with a model which takes the values of the function at `NPT`
points of the calls, the best one is one of them, unless the limit on the number of calls is reached. -/
theorem rescue_matches {p : Par ℝ} (hp : Newuoa.Valid p.nw) (hw : ∀ i, 1 ≤ i → i ≤ p.n → p.xl i < p.xu i) (f : (Nat → ℝ) → ℝ) (T : St ℝ → Trs ℝ)
    {s : St ℝ} (ok : Ok p .l190 s) (h : Hurt p s) (hv : ∀ e ∈ s.log, e.2 = f e.1) (ne : Neat p (fun _ => f) T (.l190, s)) :
    ∃ m l t, run p (fun _ => f) T m (.l190, s) = (l, t) ∧
      ((l = .l60 ∨ l = .l210) ∧ Matches p.n p.npt f t.log (t.model p) ∧ Inverse p t ∨ l = .done ∧ t.status = .tooManyEvaluations ∧ p.maxfun ≤ t.nf) := by
  obtain ⟨m, l, t, e1, e2, e3⟩ := rescue_restores (calfun := fun _ => f) (T := T) Newuoa.real_root hp hw ok h ne
  have v := value_run p f T m (.l190, s) hv
  rw [e1] at v
  refine ⟨m, l, t, e1, e3.imp (fun w => ⟨w.1, ?_, w.2.inv⟩) (fun w => w)⟩
  have fu : Full p t := by
    rcases w.1 with q | q
    · rw [q] at e2; exact e2.1
    · rw [q] at e2; exact e2.1
  exact w.2.matches fu v

/-- With `n + 2` points, `rescue` mends the arrays of the first iteration, whatever is put in them. -/
theorem rescue_mends {p : Par ℝ} (hp : Newuoa.Valid p.nw) (h1 : p.npt = p.n + 2) (hmax : (p.npt : Int) ≤ p.maxfun) (f : (Nat → ℝ) → ℝ) (T : St ℝ → Trs ℝ) {x sl su : Nat → ℝ}
    (h : Ready p x sl su) (s0 : St ℝ) (b z : Nat → Nat → ℝ) (v : Nat → ℝ) :
    ∃ s, run p (fun _ => f) T (p.npt + 1) (start x sl su s0) = (.l60, s) ∧ ∃ m l t, run p (fun _ => f) T m (.l190, { s with bmat := b, zmat := z, vlag := v, ntrits := 1 }) = (l, t) ∧
      ((l = .l60 ∨ l = .l210) ∧ Matches p.n p.npt f t.log (t.model p) ∧ Inverse p t ∨ l = .done ∧ t.status = .tooManyEvaluations ∧ p.maxfun ≤ t.nf) := by
  obtain ⟨s, e1, e2, ok, core, -⟩ := bobyqa_begins hp hmax (fun _ => f) T h s0
  have gen := bobyqb_genuine p (fun _ => f) T x sl su s0 (p.npt + 1)
  rw [e1] at gen
  have val := genuine_value f _ gen
  have hw : ∀ i, 1 ≤ i → i ≤ p.n → p.xl i < p.xu i := by
    intro i i1 i2
    have w := h.width i i1 i2
    have g := h.geo i i1 i2
    have r : 0 < p.rhobeg := hp.r
    rw [g.1, g.2] at w
    linarith
  refine ⟨s, e1, rescue_matches hp hw f T ?_ ⟨core.int, core.xo, e2.ge⟩ val (Neat.single h1 _ _ _)⟩
  exact ⟨ok.1.same ⟨rfl, rfl, rfl, rfl, rfl, rfl, rfl, rfl, rfl⟩, ok.2.1, ok.2.2.1, by show (0 : Int) ≤ 1; norm_num, fun w => absurd (show (1 : Int) = 0 from w) (by norm_num)⟩

/-! ### The hypotheses can be met -/

/-- Four points, all the elements of `BMAT`, `ZMAT` and `VLAG` set to seven: `rescue` restores the model of `x(1)² x(2)`. -/
example (s0 : St ℝ) (T : St ℝ → Trs ℝ) : ∃ p ls s m l t, run p (fun _ x => x 1 ^ 2 * x 2) T 5 ls = (.l60, s) ∧
    run p (fun _ x => x 1 ^ 2 * x 2) T m (.l190, { s with bmat := fun _ _ => 7, zmat := fun _ _ => 7, vlag := fun _ => 7, ntrits := 1 }) = (l, t) ∧
    ((l = .l60 ∨ l = .l210) ∧ Matches 2 4 (fun x => x 1 ^ 2 * x 2) t.log (t.model p) ∧ Inverse p t ∨ l = .done ∧ t.status = .tooManyEvaluations ∧ 100 ≤ t.nf) := by
  obtain ⟨p, scl, ls, h, -⟩ := sizedArgs_prepare (m := 4) (by norm_num) (by norm_num) s0
  obtain ⟨v, en, em, ef⟩ := prepare_valid h
  have en : p.n = 2 := en
  have em : p.npt = 4 := em
  have ef : p.maxfun = 100 := ef
  obtain ⟨-, -, -, -, x, sl, su, e, hrd⟩ := prepare_ready (sizedArgs 4) s0 p scl ls h
  obtain ⟨s, a1, m, l, t, a2, a3⟩ := rescue_mends v (by omega) (by rw [em, ef]; norm_num) (fun x => x 1 ^ 2 * x 2) T hrd s0 (fun _ _ => 7) (fun _ _ => 7) (fun _ => 7)
  rw [em] at a1
  refine ⟨p, _, s, m, l, t, a1, a2, ?_⟩
  rw [en, em, ef] at a3
  exact a3.imp id fun w => ⟨w.1, w.2.1, by exact_mod_cast w.2.2⟩

end Opk.Bobyqa
