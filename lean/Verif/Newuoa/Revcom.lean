import Verif.Newuoa.Returned

/-!
# Reverse communication

`newuoa_iterate` asks for the same points as `newuoa_optimize` and returns the same variables; its status and its counter
follow the documented protocol.
-/
namespace Opk.Newuoa
open Linalg CMath Cobyla

set_option linter.unusedSectionVars false

variable {F : Type} [Add F] [_root_.Sub F] [Mul F] [Div F] [Neg F] [Zero F] [One F] [LinearOrder F] [CMath F]

/-! ### The protocol -/

theorem iterate_null (o : Par F → Subs F) (fuel : Nat) (f : F) (x : Option (Nat → F)) :
    iterate o fuel none f x = some (.badAddress, x, none) := rfl

theorem iterate_null_x (o : Par F → Subs F) (fuel : Nat) (c : Ctx F) (f : F) :
    iterate o fuel (some c) f none = some (.badAddress, none, some { c with status := .badAddress }) := rfl

/-- Once the status is not `NEWUOA_ITERATE`, calling `newuoa_iterate` is an error; the variables are left unchanged. -/
theorem iterate_misused (o : Par F → Subs F) (fuel : Nat) (c : Ctx F) (f : F) (x : Nat → F) (h : c.status ≠ .iterate) :
    iterate o fuel (some c) f (some x) = some (.corrupted, some x, some { c with status := .corrupted }) := by
  unfold iterate
  dsimp only
  rw [if_pos h]

/-- The machine when `newuoa_iterate` begins. -/
def enter (c : Ctx F) (f : F) (x : Nat → F) : Lab × St F :=
  if c.nevals = 0 then first c.par f (init { c.st with x := x, log := [] }) else answer c.par f { c.st with x := x }

/-- What `newuoa_iterate` does with a workspace which is ready. -/
theorem iterate_ready (o : Par F → Subs F) (fuel : Nat) (c : Ctx F) (f : F) (x : Nat → F) (h : c.status = .iterate) :
    iterate o fuel (some c) f (some x) = (go c.par (o c.par) fuel (enter c f x)).map fun ls =>
      ((save { c with nevals := c.nevals + 1 } ls).1, some (save { c with nevals := c.nevals + 1 } ls).2.1, some (save { c with nevals := c.nevals + 1 } ls).2.2) := by
  unfold iterate enter
  dsimp only
  rw [if_neg (not_not.mpr h)]
  by_cases c0 : c.nevals = 0
  · rw [if_pos c0, if_neg (by omega)]
  · rw [if_neg c0, if_pos (by omega)]

/-- The status in the workspace is the returned one, and the counter is incremented. -/
theorem iterate_status (o : Par F → Subs F) (fuel : Nat) (c : Ctx F) (f : F) (x : Nat → F) (h : c.status = .iterate)
    (st : Status) (x' : Option (Nat → F)) (ctx : Option (Ctx F)) (hi : iterate o fuel (some c) f (some x) = some (st, x', ctx)) :
    getStatus ctx = st ∧ getNevals ctx = getNevals (some c) + 1 := by
  rw [iterate_ready o fuel c f x h] at hi
  obtain ⟨ls, -, e⟩ := Option.map_eq_some_iff.mp hi
  simp only [Prod.mk.injEq] at e
  obtain ⟨rfl, rfl, rfl⟩ := e
  obtain ⟨l, s⟩ := ls
  cases l <;> exact ⟨rfl, rfl⟩

/-! ### The machine and the objective function -/

theorem run_add (p : Par F) (o : Subs F) (calfun : Nat → (Nat → F) → F) (a b : Nat) :
    ∀ ls, run p o calfun (a + b) ls = run p o calfun b (run p o calfun a ls) := by
  induction a with
  | zero => intro ls; rw [Nat.zero_add]; rfl
  | succ k ih => intro ls; rw [Nat.succ_add]; exact ih _

theorem stepF_quiet (p : Par F) (o : Subs F) (calfun : Nat → (Nat → F) → F) (ls : Lab × St F) (h : ls.1 ≠ .ask) :
    stepF p o calfun ls = step p o ls := by
  unfold stepF
  split
  · exact absurd rfl h
  · rfl

/-- The steps between two calls. -/
theorem go_run (p : Par F) (o : Subs F) (calfun : Nat → (Nat → F) → F) (fuel : Nat) :
    ∀ ls r, go p o fuel ls = some r → (∃ m, run p o calfun m ls = r) ∧ (r.1 = .ask ∨ r.1 = .ret) := by
  induction fuel with
  | zero =>
    intro ls r h
    obtain ⟨l, s⟩ := ls
    cases l
    all_goals simp only [go, Option.some.injEq, reduceCtorEq] at h
    · exact ⟨⟨0, h⟩, Or.inl (by rw [← h])⟩
    · exact ⟨⟨0, h⟩, Or.inr (by rw [← h])⟩
  | succ k ih =>
    intro ls r h
    have main : ls.1 ≠ .ask → go p o k (step p o ls) = some r → (∃ m, run p o calfun m ls = r) ∧ (r.1 = .ask ∨ r.1 = .ret) := by
      intro q g
      obtain ⟨⟨m, hm⟩, hr⟩ := ih _ r g
      refine ⟨⟨m + 1, ?_⟩, hr⟩
      show run p o calfun m (stepF p o calfun ls) = r
      rw [stepF_quiet p o calfun ls q]
      exact hm
    obtain ⟨l, s⟩ := ls
    cases l
    all_goals simp only [go, Option.some.injEq] at h
    all_goals first
      | exact main (fun e => Lab.noConfusion e) h
      | exact ⟨⟨0, h⟩, Or.inl (congrArg Prod.fst h.symm)⟩
      | exact ⟨⟨0, h⟩, Or.inr (congrArg Prod.fst h.symm)⟩

/-- There is no call between two calls. -/
theorem go_log (p : Par F) (o : Subs F) (fuel : Nat) : ∀ ls r, go p o fuel ls = some r → r.2.log = ls.2.log := by
  induction fuel with
  | zero =>
    intro ls r h
    obtain ⟨l, s⟩ := ls
    cases l
    all_goals simp only [go, Option.some.injEq, reduceCtorEq] at h
    all_goals rw [← h]
  | succ k ih =>
    intro ls r h
    have main : go p o k (step p o ls) = some r → r.2.log = ls.2.log := fun g => (ih _ r g).trans (step_log p o ls)
    obtain ⟨l, s⟩ := ls
    cases l
    all_goals simp only [go, Option.some.injEq] at h
    all_goals first
      | exact main h
      | rw [← h]

/-! ### The loop of the caller -/

/-- The loop of the caller, `src/newuoa.h:205-214`: the objective function is computed and given to `newuoa_iterate` as
long as the status is `NEWUOA_ITERATE`.  The result is the status, the variables and the calls of the objective function
(the latest first); there is none after `rounds` calls or if `newuoa_iterate` does not return after `fuel` steps. -/
def converse (o : Par F → Subs F) (fuel : Nat) (obj : Nat → (Nat → F) → F) :
    Nat → Option (Ctx F) → (Nat → F) → List ((Nat → F) × F) → Option (Status × (Nat → F) × List ((Nat → F) × F) × Option (Ctx F))
  | 0, _, _, _ => none
  | rounds + 1, ctx, x, log =>
    let f := obj log.length x
    match iterate o fuel ctx f (some x) with
    | some (.iterate, some x', ctx') => converse o fuel obj rounds ctx' x' ((x, f) :: log)
    | some (st, some x', ctx') => some (st, x', (x, f) :: log, ctx')
    | _ => none

/-- The workspace after some calls: it waits for the value at `x`. -/
def Waits (p : Par F) (c : Ctx F) (x : Nat → F) (log : List ((Nat → F) × F)) : Prop :=
  c.par = p ∧ c.status = .iterate ∧ c.nevals = log.length ∧ c.st.x = x ∧ c.st.log = log ∧ log ≠ []

/-- The statuses at the end. -/
def Final (st : Status) : Prop := st = .tooManyEvaluations ∨ st = .stepFailed ∨ st = .success

theorem Ret.final {p : Par F} {s : St F} (h : Ret p s) : Final s.status := by
  rcases h.2.2.2.2.2 with ⟨h, _⟩ | ⟨_, h | ⟨h, _⟩⟩
  · exact Or.inl h
  · exact Or.inr (Or.inl h)
  · exact Or.inr (Or.inr h)

theorem Final.ne {st : Status} (h : Final st) : st ≠ .iterate := by
  rcases h with rfl | rfl | rfl <;> decide

/-- What happens in one round, from the state `ls` of the machine just after the call. -/
theorem converse_tail (L : Laws F) {p : Par F} {o : Par F → Subs F} {fuel : Nat} {obj : Nat → (Nat → F) → F} (rounds : Nat)
    (ih : ∀ (c : Ctx F) x log, Waits p c x log → Ok p .ask c.st → ∀ st x' log' ctx', converse o fuel obj rounds (some c) x log = some (st, x', log', ctx') →
      ∃ m s, run p (o p) obj m (.ask, c.st) = (.ret, s) ∧ s.status = st ∧ s.x = x' ∧ s.log = log' ∧ getStatus ctx' = st ∧ getNevals ctx' = log'.length)
    (c : Ctx F) (x : Nat → F) (log : List ((Nat → F) × F)) (hp : c.par = p) (hs : c.status = .iterate) (hn : c.nevals = log.length)
    (ok : Ok p (enter c (obj log.length x) x).1 (enter c (obj log.length x) x).2)
    (hl : (enter c (obj log.length x) x).2.log = (x, obj log.length x) :: log)
    (st : Status) (x' : Nat → F) (log' : List ((Nat → F) × F)) (ctx' : Option (Ctx F))
    (h : converse o fuel obj (rounds + 1) (some c) x log = some (st, x', log', ctx')) :
    ∃ m s, run p (o p) obj m (enter c (obj log.length x) x) = (.ret, s) ∧ s.status = st ∧ s.x = x' ∧ s.log = log' ∧ getStatus ctx' = st ∧ getNevals ctx' = log'.length := by
  unfold converse at h
  dsimp only at h
  rw [iterate_ready o fuel c _ x hs, hp] at h
  cases hg : go p (o p) fuel (enter c (obj log.length x) x) with
  | none => rw [hg] at h; exact absurd h (by simp)
  | some r =>
    rw [hg] at h
    obtain ⟨⟨m, hm⟩, hr⟩ := go_run p (o p) obj fuel _ r hg
    have okr := ok_run (o := o p) (calfun := obj) L.add_zero L.add_comm m _ ok
    rw [hm] at okr
    have hlr : r.2.log = (enter c (obj log.length x) x).2.log := go_log p (o p) fuel _ r hg
    rw [hl] at hlr
    obtain ⟨l, s⟩ := r
    rcases hr with hr | hr
    · have hr : l = .ask := hr
      subst hr
      simp only [Option.map_some, save] at h
      obtain ⟨m', s', e1, e2⟩ := ih { par := p, nevals := c.nevals + 1, st := s, status := .iterate } s.x ((x, obj log.length x) :: log) ⟨rfl, rfl, by show c.nevals + 1 = _; rw [hn]; rfl, rfl, hlr, by simp⟩ okr st x' log' ctx' h
      refine ⟨m + m', s', ?_, e2⟩
      rw [run_add, hm]
      exact e1
    · have hr : l = .ret := hr
      subst hr
      have hf := Ret.final (p := p) okr
      simp only [Option.map_some, save] at h
      refine ⟨m, s, hm, ?_⟩
      have : some (s.status, s.x, (x, obj log.length x) :: log, some ({ par := p, nevals := c.nevals + 1, st := s, status := s.status } : Ctx F)) = some (st, x', log', ctx') := by
        rw [← h]
        rcases hf with q | q | q <;> rw [q]
      simp only [Option.some.injEq, Prod.mk.injEq] at this
      obtain ⟨rfl, rfl, rfl, rfl⟩ := this
      refine ⟨rfl, rfl, hlr, rfl, ?_⟩
      show ((c.nevals + 1 : Nat) : Int) = _
      rw [hn]
      rfl

/-- The rounds after the first one. -/
theorem converse_run (L : Laws F) {p : Par F} {o : Par F → Subs F} {fuel : Nat} {obj : Nat → (Nat → F) → F} (rounds : Nat) :
    ∀ (c : Ctx F) x log, Waits p c x log → Ok p .ask c.st → ∀ st x' log' ctx', converse o fuel obj rounds (some c) x log = some (st, x', log', ctx') →
      ∃ m s, run p (o p) obj m (.ask, c.st) = (.ret, s) ∧ s.status = st ∧ s.x = x' ∧ s.log = log' ∧ getStatus ctx' = st ∧ getNevals ctx' = log'.length := by
  induction rounds with
  | zero => intro c x log _ _ st x' log' ctx' h; exact absurd h (by simp [converse])
  | succ k ih =>
    intro c x log hw ok st x' log' ctx' h
    obtain ⟨w1, w2, w3, w4, w5, w6⟩ := hw
    have e : enter c (obj log.length x) x = answer p (obj log.length x) c.st := by
      unfold enter
      have : c.nevals ≠ 0 := by rw [w3]; exact fun q => w6 (List.eq_nil_of_length_eq_zero q)
      rw [if_neg this, w1]
      rw [← w4]
    obtain ⟨m, s, e1, e2⟩ := converse_tail L k ih c x log w1 w2 w3 (by rw [e]; exact ok_after L.add_comm _ ok) (by rw [e, answer_log, w4, w5]) st x' log' ctx' h
    refine ⟨m + 1, s, ?_, e2⟩
    show run p (o p) obj m (answer p (obj c.st.log.length c.st.x) c.st) = (.ret, s)
    rw [w4, w5, ← e]
    exact e1

/-- The first call is at the variables given by the caller. -/
theorem first_spec (L : Laws F) {p : Par F} {o : Subs F} (obj : Nat → (Nat → F) → F) (hp : 0 < p.npt) (s : St F) (f : F) (hl : s.log = []) :
    ∃ s1, run p o obj 2 (.l50, init s) = (.ask, s1) ∧ Ok p .ask s1 ∧ s1.x = s.x ∧ s1.log = [] ∧ first p f (init s) = answer p f s1 := by
  have h0 : Ok p .l50 (init s) := ok_init hp s hl
  have h1 : Ok p .l310 (l50 p (init s)).2 := ok_l50 h0
  have h2 := ok_l310 h1
  have hx : (l50 p (init s)).2.x = s.x := by
    funext j
    show (point p (init s) (0 + 1)).xpt (0 + 1) j + (point p (init s) (0 + 1)).xbase j = s.x j
    have : point p (init s) (0 + 1) = init s := by
      unfold point
      dsimp only
      rw [if_pos (Nat.zero_le _), if_neg (by omega), if_neg (by omega)]
    rw [this]
    show (0 : F) + s.x j = s.x j
    rw [L.add_comm, L.add_zero]
  have hl2 : (l50 p (init s)).2.log = [] := (point_same p (init s) (0 + 1)).1.trans hl
  have hnf : (l50 p (init s)).2.nf = 1 := rfl
  have he : l310 p (l50 p (init s)).2 = (.ask, (l50 p (init s)).2) := by
    unfold l310
    rw [hnf, if_neg]
    exact not_lt.mpr (le_max_right _ _)
  rw [he] at h2
  refine ⟨(l50 p (init s)).2, ?_, h2, hx, hl2, ?_⟩
  · show l310 p (l50 p (init s)).2 = _
    exact he
  · unfold first
    rw [he]

/-- **C76.**  The loop of a caller of `newuoa_iterate` with a new workspace calls the objective function at the same
points as `newuoa_optimize` (without scaling, for a minimization, and with a workspace filled with zeros), in the same order, and
gets the same variables and the same status; the status in the workspace is the returned one and the number of evaluations in the
workspace is the number of calls. -/
theorem converse_optimize (L : Laws F) (o : Par F → Subs F) (obj : Nat → (Nat → F) → F) (n npt : Int) (rhobeg rhoend : F) (maxfun : Int)
    (ok : Bool) (zero : St F) (hz : fresh zero = zero) (hn : 2 ≤ n) (c : Ctx F) (hc : create n npt rhobeg rhoend maxfun ok zero = some c)
    (x : Nat → F) (rounds fuel : Nat) (st : Status) (x' : Nat → F) (log : List ((Nat → F) × F)) (ctx : Option (Ctx F))
    (h : converse o fuel obj rounds (some c) x [] = some (st, x', log, ctx)) :
    getStatus ctx = st ∧ getNevals ctx = log.length ∧
    ∃ fuel' v, optimize ⟨n, npt, false, x, none, rhobeg, rhoend, maxfun⟩ o obj zero fuel' = some (st, x', some v, log) := by
  unfold create at hc
  by_cases c1 : n < 0
  · omega
  rw [if_neg c1] at hc
  by_cases c2 : npt < n + 2 ∨ npt > (n + 2) * (n + 1) / 2
  · rw [if_pos c2] at hc; exact absurd hc (by simp)
  rw [if_neg c2] at hc
  by_cases c3 : rhoend ≤ 0 ∨ rhoend > rhobeg
  · rw [if_pos c3] at hc; exact absurd hc (by simp)
  rw [if_neg c3] at hc
  by_cases c4 : maxfun < 1
  · rw [if_pos c4] at hc; exact absurd hc (by simp)
  rw [if_neg c4] at hc
  cases ok with
  | false => exact absurd hc (by simp)
  | true =>
  rw [if_pos rfl] at hc
  have hc := (Option.some.inj hc).symm
  subst hc
  obtain ⟨p, hp⟩ : ∃ p : Par F, p = ⟨n.toNat, npt.toNat, rhobeg, rhoend, maxfun⟩ := ⟨_, rfl⟩
  rw [← hp] at h
  have hnpt : 0 < p.npt := by
    rw [hp]
    rw [not_or] at c2
    show 0 < npt.toNat
    omega
  cases rounds with
  | zero => exact absurd h (by simp [converse])
  | succ k =>
    have hl0 : ({ zero with x := x, log := [] } : St F).log = [] := rfl
    obtain ⟨s1, f1, f2, f3, f4, f5⟩ := first_spec L (p := p) (o := o p) obj hnpt { zero with x := x, log := [] } (obj 0 x) hl0
    have e : enter ⟨p, zero, 0, .iterate⟩ (obj 0 x) x = answer p (obj 0 x) s1 := by
      unfold enter
      rw [if_pos rfl]
      exact f5
    have f3 : s1.x = x := f3
    obtain ⟨m, s, e1, e2, e3, e4, e5, e6⟩ := converse_tail L k (converse_run L k) ⟨p, zero, 0, .iterate⟩ x [] rfl rfl rfl
      (by show Ok p (enter _ (obj 0 x) x).1 (enter _ (obj 0 x) x).2; rw [e]; exact ok_after L.add_comm _ f2)
      (by show (enter _ (obj 0 x) x).2.log = _; rw [e, answer_log, f3, f4]; rfl) st x' log ctx h
    refine ⟨e5, e6, 2 + (m + 1), s.f, ?_⟩
    unfold optimize prepare
    dsimp only
    rw [if_neg (by omega), if_neg c2, if_neg c3]
    simp only [scaling]
    rw [← hp, hz]
    have hr : run p (o p) (objfun obj false none) (2 + (m + 1)) (.l50, init { zero with x := x }) = (.ret, s) := by
      have ho : objfun obj false none = obj := rfl
      rw [ho, run_add]
      have : ({ zero with x := x } : St F) = { zero with x := x, log := [] } := by
        have : zero.log = [] := by rw [← hz]; rfl
        rw [← this]
      rw [this, f1]
      show run p (o p) obj m (answer p (obj s1.log.length s1.x) s1) = (.ret, s)
      rw [f3, f4]
      have e1 : run p (o p) obj m (enter ⟨p, zero, 0, .iterate⟩ (obj 0 x) x) = (.ret, s) := e1
      rw [e] at e1
      exact e1
    rw [hr]
    simp only [e2, unscale, e3, Bool.false_eq_true, if_false, e4, Prod.mk.eta, List.map_id']

end Opk.Newuoa
