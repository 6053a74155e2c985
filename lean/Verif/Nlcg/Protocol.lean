import Verif.Nlcg.Model
import Verif.Vmlmb.Protocol
import Verif.LineSearch.Generic
/-! # C26, C28: protocol and convergence test of the conjugate gradient optimizer -/
set_option linter.unusedSectionVars false
set_option linter.unusedSimpArgs false
namespace Opk.Nlcg
open Opk.Optim
open Opk.Vmlmb (Call evals accepts Allowed)

section any
variable {F M V : Type} [Add F] [Sub F] [Mul F] [Div F] [Neg F] [Zero F] [One F]
  [LT F] [LE F] [DecidableLT F] [DecidableLE F] [BEq F] [CMath F]

/-! ## Histories of calls -/

/-- One call (`none`: undefined behaviour). -/
def step (par : Par F V) (ops : LineSearch.Ops F M) (opt : Opt F M V) : Call F V → Option (Opt F M V)
  | .start _ => some (start opt)
  | .iterate x f g => (iterate par ops opt x f g).map Prod.fst

/-- A history of calls. -/
def calls (par : Par F V) (ops : LineSearch.Ops F M) (opt : Opt F M V) : List (Call F V) → Option (Opt F M V)
  | [] => some opt
  | c :: l => (step par ops opt c).bind fun opt => calls par ops opt l

/-- What the client sees: the kind of call (`true` for a start), the pending task before and the pending task
after. -/
def log (par : Par F V) (ops : LineSearch.Ops F M) (opt : Opt F M V) : List (Call F V) → List (Bool × Task × Task)
  | [] => []
  | c :: l =>
    match step par ops opt c with
    | none => []
    | some opt' =>
      ((match c with | .start _ => true | .iterate .. => false), opt.task, opt'.task) :: log par ops opt' l

/-- The work vectors which are needed are not `NULL`. -/
def Vecs (par : Par F V) (o : Opt F M V) : Prop :=
  par.rule ≠ .fletcherReeves ∧ par.rule ≠ .fletcher → o.g0.isSome ∧ o.y.isSome

theorem update0_eq (par : Par F V) (o : Opt F M V) (g : V) (b : F) :
    ∃ beta d ok, update0 par o g b = ({ o with beta := beta, d := d }, ok) := by
  unfold update0
  dsimp only
  split_ifs
  · exact ⟨_, _, _, rfl⟩
  · exact ⟨_, _, _, rfl⟩

theorem update1_eq (par : Par F V) (o : Opt F M V) (g : V) (b : F) :
    ∃ beta d ok, update1 par o g b = ({ o with beta := beta, d := d }, ok) := by
  unfold update1
  dsimp only
  generalize (if hasBit par.flags POWELL = true ∧ b < 0 then 0 else b) = b'
  split_ifs
  · exact ⟨_, _, _, rfl⟩
  · exact ⟨_, _, _, rfl⟩

theorem formY_eq (par : Par F V) (o : Opt F M V) (g : V) (h1 : o.g0.isSome) (h2 : o.y.isSome) :
    ∃ g0, o.g0 = some g0 ∧ formY par o g =
      some ({ o with y := some (par.vs.axpby 1 g (-1) g0) }, par.vs.axpby 1 g (-1) g0) := by
  obtain ⟨g0, e1⟩ := Option.isSome_iff_exists.1 h1
  obtain ⟨y, e2⟩ := Option.isSome_iff_exists.1 h2
  exact ⟨g0, e1, by unfold formY; rw [e1, e2]⟩

/-- The update only changes `beta`, the direction and the work vector. -/
theorem update_some (par : Par F V) (o : Opt F M V) (g : V) (h : Vecs par o) :
    ∃ beta d y ok, update par o g = some ({ o with beta := beta, d := d, y := y }, ok) ∧
      y.isSome = o.y.isSome := by
  have h0 : ∀ b, ∃ beta d y ok, some (update0 par o g b) = some (({ o with beta := beta, d := d, y := y } : Opt F M V), ok) ∧
      y.isSome = o.y.isSome := by
    intro b
    obtain ⟨beta, d, ok, e⟩ := update0_eq par o g b
    exact ⟨beta, d, o.y, ok, by rw [e], rfl⟩
  have h1 : ∀ (y : V) b, o.y.isSome → ∃ beta d y' ok, some (update1 par { o with y := some y } g b) =
      some (({ o with beta := beta, d := d, y := y' } : Opt F M V), ok) ∧ y'.isSome = o.y.isSome := by
    intro y b hy
    obtain ⟨beta, d, ok, e⟩ := update1_eq par { o with y := some y } g b
    exact ⟨beta, d, some y, ok, by rw [e], by simp [hy]⟩
  unfold update
  unfold Vecs at h
  by_cases hfr : par.rule = .fletcherReeves
  · rw [hfr]; exact h0 _
  by_cases hcd : par.rule = .fletcher
  · rw [hcd]; exact h0 _
  obtain ⟨hg, hy⟩ := h ⟨hfr, hcd⟩
  obtain ⟨g0, -, ey⟩ := formY_eq par o g hg hy
  rcases hr : par.rule <;> dsimp only
  · exact absurd hr hfr
  · unfold updateHS; rw [ey]; exact h1 _ _ hy
  · unfold updatePRP; rw [ey]; exact h1 _ _ hy
  · exact absurd hr hcd
  · unfold updateLS; rw [ey]; exact h1 _ _ hy
  · unfold updateDY; rw [ey]; exact h1 _ _ hy
  · unfold updatePS; rw [ey]
    simp only [Option.map_some]
    split_ifs
    · exact ⟨_, _, _, _, rfl, by simp [hy]⟩
    · exact ⟨_, _, _, _, rfl, by simp [hy]⟩
    · exact ⟨_, _, _, _, rfl, by simp [hy]⟩
  · unfold updateHZ; rw [ey]
    simp only [Option.map_some]
    split_ifs
    · exact h1 _ _ hy
    · exact h1 _ _ hy
    · exact h1 _ _ hy

/-- The outcome of the computation of the direction. -/
theorem direction_some (par : Par F V) (o : Opt F M V) (g : V) (h : Vecs par o) :
    ∃ beta d y dtg, direction par o g = some { o with beta := beta, d := d, y := y, dtg := dtg } ∧
      y.isSome = o.y.isSome := by
  unfold direction
  split_ifs with he
  · exact ⟨o.beta, o.d, o.y, 0, rfl, rfl⟩
  · obtain ⟨beta, d, y, ok, e, hy⟩ := update_some par o g h
    rw [e]
    simp only [Option.map_some]
    split_ifs
    · exact ⟨_, _, _, _, rfl, hy⟩
    · exact ⟨_, _, _, _, rfl, hy⟩
    · exact ⟨_, _, _, _, rfl, hy⟩

theorem initialStep_eq (par : Par F V) (o : Opt F M V) (x : V) (f : F) (g : V) :
    ∃ alpha beta d dtg rs, initialStep par o x f g =
      { o with alpha := alpha, beta := beta, d := d, dtg := dtg, restarts := rs } ∧
      (rs = o.restarts ∨ 1 < o.evaluations ∧ rs = o.restarts + 1) := by
  unfold initialStep
  split_ifs with h1 h2 h3
  · exact ⟨_, _, _, _, _, rfl, Or.inl rfl⟩
  · exact ⟨_, _, _, _, _, rfl, Or.inl rfl⟩
  · exact ⟨_, _, _, _, _, rfl, Or.inr ⟨h3, rfl⟩⟩
  · exact ⟨_, _, _, _, _, rfl, Or.inl rfl⟩

/-- What is known at the end of the case of a new iterate, in case of success or of failure. -/
structure Begun (par : Par F V) (ops : LineSearch.Ops F M) (o : Opt F M V) (x : V) (f : F) (g : V) (r : Opt F M V) : Prop where
  evaluations : r.evaluations = o.evaluations
  iterations : r.iterations = o.iterations
  restarts : r.restarts = o.restarts ∨ 1 < o.evaluations ∧ r.restarts = o.restarts + 1
  gnorm : r.gnorm = o.gnorm
  ginit : r.ginit = o.ginit
  x0 : r.x0 = x
  f0 : r.f0 = f
  g0 : r.g0 = o.g0.map fun _ => g
  y : r.y.isSome = o.y.isSome
  g0norm : r.g0norm = o.gnorm
  dtg0 : r.dtg0 = r.dtg
  ls : r.ls = LineSearch.start ops o.ls f r.dtg r.alpha (par.stpmin * r.alpha) (par.stpmax * r.alpha)
  /-- The direction is computed by the two functions of the model. -/
  stages : ∃ q, direction par o g = some q ∧ (initialStep par q x f g).d = r.d ∧ (initialStep par q x f g).dtg = r.dtg ∧
    (initialStep par q x f g).alpha = r.alpha ∧ (initialStep par q x f g).restarts = r.restarts ∧
    (initialStep par q x f g).beta = r.beta

/-- Outcome of `onNewX`. -/
theorem onNewX_some (par : Par F V) (ops : LineSearch.Ops F M) (o : Opt F M V) (x : V) (f : F) (g : V) (h : Vecs par o) :
    ∃ r, (onNewX par ops o x f g = some (.brk r) ∧ r.ls.task = .search ∨
        onNewX par ops o x f g = some (.ret r) ∧ r.task = .error ∧ r.ls.task ≠ .search ∧ r.status = .ls r.ls.status) ∧
      Begun par ops o x f g r := by
  obtain ⟨beta, d, y, dtg, e1, hy⟩ := direction_some par o g h
  generalize hq : ({ o with beta := beta, d := d, y := y, dtg := dtg } : Opt F M V) = q at e1
  obtain ⟨alpha', beta', d', dtg', rs', e2, hrs⟩ := initialStep_eq par q x f g
  have key : ∀ (st : Status) (t : Task) r, r = ({ savePoint (initialStep par q x f g) x f g with ls := (LineSearch.start ops (savePoint (initialStep par q x f g) x f g).ls (savePoint (initialStep par q x f g) x f g).f0 (savePoint (initialStep par q x f g) x f g).dtg0 (savePoint (initialStep par q x f g) x f g).alpha (par.stpmin * (savePoint (initialStep par q x f g) x f g).alpha) (par.stpmax * (savePoint (initialStep par q x f g) x f g).alpha)), status := st, task := t } : Opt F M V) →
      Begun par ops o x f g r := by
    intro st t r hr
    have hst : ∃ q, direction par o g = some q ∧ (initialStep par q x f g).d = r.d ∧ (initialStep par q x f g).dtg = r.dtg ∧
        (initialStep par q x f g).alpha = r.alpha ∧ (initialStep par q x f g).restarts = r.restarts ∧
        (initialStep par q x f g).beta = r.beta := by
      refine ⟨q, e1, ?_⟩
      rw [hr]
      exact ⟨rfl, rfl, rfl, rfl, rfl⟩
    rw [e2] at hr
    subst hr
    subst hq
    exact ⟨rfl, rfl, hrs, rfl, rfl, rfl, rfl, rfl, hy, rfl, rfl, rfl, hst⟩
  unfold onNewX
  rw [e1]
  simp only [Option.map_some]
  split_ifs with ht
  · exact ⟨_, Or.inr ⟨rfl, rfl, ht, rfl⟩, key _ _ _ rfl⟩
  · exact ⟨_, Or.inl ⟨rfl, by simpa using ht⟩, key _ _ _ rfl⟩

/-- What `accept` does. -/
theorem accept_eq (par : Par F V) (o : Opt F M V) (g : V) :
    ∃ ginit t, accept par o g = { o with gnorm := par.vs.norm2 g, ginit := ginit, status := .success, task := t } ∧
      ginit = (if o.evaluations ≤ 1 then par.vs.norm2 g else o.ginit) ∧
      t = if par.vs.norm2 g ≤ max3 0 par.gatol (par.grtol * ginit) then .finalX else .newX := by
  unfold accept
  dsimp only
  split_ifs with h1 h2 h2
  · exact ⟨_, _, rfl, rfl, by rw [if_pos h2]⟩
  · exact ⟨_, _, rfl, rfl, by rw [if_neg h2]⟩
  · exact ⟨_, _, rfl, rfl, by rw [if_pos h2]⟩
  · exact ⟨_, _, rfl, rfl, by rw [if_neg h2]⟩

/-- Outcome of `onFG`. -/
theorem onFG_cases (par : Par F V) (ops : LineSearch.Ops F M) (o : Opt F M V) (f : F) (g : V) :
    (¬ o.evaluations + 1 > 1 ∧ onFG par ops o f g = .ret (accept par { o with evaluations := o.evaluations + 1 } g)) ∨
    o.evaluations + 1 > 1 ∧ ∃ q r, q = LineSearch.iterate ops o.ls o.alpha f (-par.vs.dot o.d g) ∧
      r = ({ o with evaluations := o.evaluations + 1, dtg := -par.vs.dot o.d g, ls := q.1, alpha := q.2 } : Opt F M V) ∧
      (q.1.task = .search ∧ onFG par ops o f g = .brk r ∨
       (q.1.task = .convergence ∨ q.1.task = .warning ∧ q.1.status = .roundingErrorsPreventProgress) ∧
         onFG par ops o f g = .ret (accept par { r with iterations := r.iterations + 1 } g) ∨
       q.1.task ≠ .search ∧ q.1.task ≠ .convergence ∧
         ¬ (q.1.task = .warning ∧ q.1.status = .roundingErrorsPreventProgress) ∧
         onFG par ops o f g = .ret (failure r (.ls q.1.status))) := by
  unfold onFG
  dsimp only
  by_cases h1 : o.evaluations + 1 > 1
  · rw [if_pos h1]
    refine Or.inr ⟨h1, _, _, rfl, rfl, ?_⟩
    generalize LineSearch.iterate ops o.ls o.alpha f (-par.vs.dot o.d g) = q
    by_cases h2 : q.1.task = .convergence
    · rw [if_neg (by simpa using h2)]
      exact Or.inr (Or.inl ⟨Or.inl h2, rfl⟩)
    · rw [if_pos h2]
      by_cases h3 : q.1.task = .search
      · rw [if_pos h3]; exact Or.inl ⟨h3, rfl⟩
      · rw [if_neg h3]
        by_cases h4 : q.1.task = .warning ∧ q.1.status = .roundingErrorsPreventProgress
        · rw [if_neg (by simp [h4])]
          exact Or.inr (Or.inl ⟨Or.inr h4, rfl⟩)
        · rw [if_pos (by by_cases h5 : q.1.task = .warning <;> simp_all)]
          exact Or.inr (Or.inr ⟨h3, h2, h4, rfl⟩)
  · rw [if_neg h1]; exact Or.inl ⟨h1, rfl⟩

/-! ## C28 -/

/-- The counters: invariant between calls. -/
structure Counters (o : Opt F M V) (ev ac : Int) : Prop where
  evaluations : o.evaluations = ev
  evaluations_nonneg : 0 ≤ o.evaluations
  accepts : o.iterations = max (ac - 1) 0
  accepted : o.task = .newX ∨ o.task = .finalX ∨ o.task = .computeFG ∧ 0 < o.evaluations → 0 < ac ∧ 0 < o.evaluations
  second : o.task = .newX ∨ o.task = .finalX → 1 < o.evaluations → 1 ≤ o.iterations
  first : o.evaluations = 0 → ac = 0 ∧ o.iterations = 0
  first' : 0 ≤ ac
  iterations : 0 < o.evaluations → o.iterations < o.evaluations
  restarts : 0 ≤ o.restarts ∧ o.restarts ≤ o.iterations
  restarts' : o.task = .newX ∨ o.task = .finalX → o.restarts ≤ max (o.iterations - 1) 0

theorem start_counters (o : Opt F M V) : Counters (start o) 0 0 := by
  constructor <;> simp [start, success]

/-- One iteration: no undefined behaviour, the tasks and the counters. -/
theorem iterate_counters (par : Par F V) (ops : LineSearch.Ops F M) (o : Opt F M V)
    (x : V) (f : F) (g : V) (ev ac : Int) (h : Counters o ev ac) (hv : Vecs par o) :
    ∃ r, iterate par ops o x f g = some r ∧ Vecs par r.1 ∧
    Allowed (false, o.task, r.1.task) ∧
    Counters r.1 (if o.task = .computeFG then ev + 1 else ev)
      (if o.task = .computeFG ∧ (r.1.task = .newX ∨ r.1.task = .finalX) then ac + 1 else ac) := by
  obtain ⟨h1, h1', h2, h3, h3', h4, h4', h5, h6, h7⟩ := h
  by_cases hfg : o.task = .computeFG
  · have hit : iterate par ops o x f g = some (finish par x (onFG par ops o f g)) := by unfold iterate; rw [hfg]
    rw [hit]
    refine ⟨_, rfl, ?_⟩
    simp only [hfg, reduceCtorEq, true_and, false_or, or_self, false_imp_iff, if_true] at h3 h3' h7 ⊢
    have hacc : ∀ (r : Opt F M V), Vecs par r → r.evaluations = o.evaluations + 1 → r.restarts = o.restarts →
        (o.evaluations = 0 ∧ r.iterations = o.iterations ∨ 0 < o.evaluations ∧ r.iterations = o.iterations + 1) →
        Vecs par (accept par r g) ∧ Allowed (false, .computeFG, (accept par r g).task) ∧
        Counters (accept par r g) (ev + 1)
          (if (accept par r g).task = .newX ∨ (accept par r g).task = .finalX then ac + 1 else ac) := by
      intro r rv r1 r2 r3
      obtain ⟨gi, t, e, -, ht⟩ := accept_eq par r g
      rw [e]
      have ht' : t = .newX ∨ t = .finalX := by
        rw [ht]; split_ifs
        · right; rfl
        · left; rfl
      clear ht
      refine ⟨rv, by rcases ht' with h | h <;> rw [h] <;> simp [Allowed], ?_⟩
      rw [if_pos ht']
      rcases r3 with ⟨r3, r4⟩ | ⟨r3, r4⟩
      · obtain ⟨c1, c2⟩ := h4 r3
        constructor <;> (try dsimp only) <;> (try intro _) <;> (try intro _) <;> omega
      · obtain ⟨c1, c2⟩ := h3 r3
        constructor <;> (try dsimp only) <;> (try intro _) <;> (try intro _) <;> omega
    rcases onFG_cases par ops o f g with ⟨k1, k2⟩ | ⟨k1, q, r, -, kr, hk⟩
    · rw [k2]
      exact hacc { o with evaluations := o.evaluations + 1 } hv rfl rfl (Or.inl ⟨by omega, rfl⟩)
    · have rv : Vecs par r := by rw [kr]; exact hv
      have r1 : r.evaluations = o.evaluations + 1 := by rw [kr]
      have r2 : r.restarts = o.restarts := by rw [kr]
      have r3 : r.iterations = o.iterations := by rw [kr]
      clear kr
      obtain ⟨c1, c2⟩ := h3 (by omega)
      rcases hk with ⟨-, e⟩ | ⟨-, e⟩ | ⟨-, -, -, e⟩
      · rw [e]
        simp only [finish, trial, success, reduceCtorEq, or_self, if_false]
        refine ⟨rv, by simp [Allowed], ?_⟩
        constructor <;> (try simp only [reduceCtorEq, false_or, or_self, true_and, false_imp_iff]) <;> omega
      · rw [e]
        exact hacc { r with iterations := r.iterations + 1 } rv r1 r2 (Or.inr ⟨by omega, by simp [r3]⟩)
      · rw [e]
        simp only [finish, failure, reduceCtorEq, or_self, if_false]
        refine ⟨rv, by simp [Allowed], ?_⟩
        constructor <;> (try simp only [reduceCtorEq, false_or, or_self, false_and, false_imp_iff]) <;> omega
  rw [if_neg hfg]
  by_cases hn : o.task = .newX ∨ o.task = .finalX
  · have hit : iterate par ops o x f g = (onNewX par ops o x f g).map (finish par x) := by
      unfold iterate; rcases hn with h | h <;> rw [h]
    rw [hit]
    have hacc := h3 (hn.elim Or.inl (fun h => Or.inr (Or.inl h)))
    have h3'' := h3' hn
    have h7' := h7 hn
    have hal : ∀ a : Task, a = .computeFG ∨ a = .error → Allowed (false, o.task, a) := by
      rintro a ha; rcases hn with ht | ht <;> rw [ht] <;> exact ha
    obtain ⟨r, hr, hB⟩ := onNewX_some par ops o x f g hv
    have rv : Vecs par r := by
      intro hh
      obtain ⟨v1, v2⟩ := hv hh
      rw [hB.g0, hB.y]; simp [v1, v2]
    have b1 := hB.evaluations
    have b2 := hB.iterations
    have b3 := hB.restarts
    clear hB
    rcases hr with ⟨e, -⟩ | ⟨e, he, -⟩
    · rw [e]
      refine ⟨_, rfl, rv, hal _ (Or.inl rfl), ?_⟩
      simp only [finish, trial, success, reduceCtorEq, or_self, and_false, if_false]
      constructor <;> (try simp only [reduceCtorEq, false_or, or_self, true_and, false_imp_iff]) <;> omega
    · rw [e]
      refine ⟨_, rfl, rv, hal _ (Or.inr he), ?_⟩
      simp only [finish, he, reduceCtorEq, or_self, and_false, if_false]
      constructor <;> (try simp only [he, reduceCtorEq, false_or, or_self, false_and, false_imp_iff]) <;> omega
  · have hit : iterate par ops o x f g = some (o, x) := by
      unfold iterate
      rcases ht : o.task with _ | _ | _ | _ | _ | _ <;> simp [ht] at hfg hn ⊢
    rw [hit]
    refine ⟨_, rfl, hv, ?_, ?_⟩
    · rcases ht : o.task with _ | _ | _ | _ | _ | _ <;> simp [ht, Allowed] at hfg hn ⊢
    · simp only [hfg, false_and, if_false]
      exact ⟨h1, h1', h2, h3, h3', h4, h4', h5, h6, h7⟩

theorem calls_counters (par : Par F V) (ops : LineSearch.Ops F M) (hist : List (Call F V)) :
    ∀ (o : Opt F M V) (ev ac : Int), Vecs par o → Counters o ev ac →
      ∃ r, calls par ops o hist = some r ∧ Vecs par r ∧
      (∀ e ∈ log par ops o hist, Allowed e) ∧
      Counters r (evals ev (log par ops o hist)) (accepts ac (log par ops o hist)) := by
  induction hist with
  | nil => intro o ev ac hv h; exact ⟨o, rfl, hv, by simp [log], h⟩
  | cons c l ih =>
    intro o ev ac hv h
    rcases c with x | ⟨x, f, g⟩
    · obtain ⟨r, b0, bv, b1, b2⟩ := ih (start o) 0 0 hv (start_counters o)
      simp only [log, calls, step, evals, accepts, List.mem_cons, forall_eq_or_imp, Option.bind_some]
      exact ⟨r, b0, bv, ⟨Or.inl rfl, b1⟩, b2⟩
    · obtain ⟨q, a0, av, a1, a2⟩ := iterate_counters par ops o x f g ev ac h hv
      obtain ⟨r, b0, bv, b1, b2⟩ := ih _ _ _ av a2
      have hs : step par ops o (.iterate x f g) = some q.1 := by simp [step, a0]
      simp only [log, calls, hs, evals, accepts, List.mem_cons, forall_eq_or_imp, Option.bind_some]
      exact ⟨r, b0, bv, ⟨a1, b1⟩, b2⟩

/-- A new optimizer. -/
theorem new_spec (finite : F → Bool) (vs : Vs F V) (opts : Options F) (ls : LineSearch.Ls F M) (raw : V)
    (par : Par F V) (opt : Opt F M V) (h : new finite vs opts ls raw = some (par, opt)) :
    Vecs par opt ∧ Counters opt 0 0 ∧ opt.task = .error ∧ opt.status = .notStarted ∧ opt.ls = ls ∧
    par.vs = vs ∧ par.gatol = opts.gatol ∧ par.grtol = opts.grtol ∧ par.stpmin = opts.stpmin ∧
    par.stpmax = opts.stpmax ∧ par.delta = opts.delta ∧ par.epsilon = opts.epsilon ∧
    par.flags = (if opts.flags = 0 then DEFAULT else opts.flags) ∧ (select par.flags).map Prod.fst = some par.rule ∧
    par.fminGiven = false ∧ par.hagerZhangOrig = false ∧ checkOptions finite opts = true := by
  unfold new at h
  by_cases h1 : (!checkOptions finite opts) = true
  · rw [if_pos h1] at h; cases h
  rw [if_neg h1] at h
  dsimp only at h
  generalize hf : (if opts.flags = 0 then DEFAULT else opts.flags) = fl at h ⊢
  generalize hs : select fl = sel at h
  rcases sel with _ | ⟨rule, needed⟩
  · cases h
  simp only [Option.some.injEq, Prod.mk.injEq] at h
  obtain ⟨rfl, rfl⟩ := h
  refine ⟨?_, ?_, rfl, rfl, rfl, rfl, rfl, rfl, rfl, rfl, rfl, rfl, rfl, by simp [hs], rfl, rfl, by simpa using h1⟩
  · unfold Vecs
    dsimp only [failure]
    unfold select at hs
    intro hr
    split at hs <;> cases hs <;> first | exact ⟨rfl, rfl⟩ | exact absurd rfl hr.1 | exact absurd rfl hr.2
  · constructor <;> simp [failure]

/-- **C28** for the conjugate gradient optimizer: for a new optimizer and any history of calls, whatever
the arguments and the answers of the line search, there is no undefined behaviour, the pending tasks follow the
protocol and the counters are those of the specification and are related as announced. -/
theorem protocol (finite : F → Bool) (vs : Vs F V) (opts : Options F) (ls : LineSearch.Ls F M) (raw : V)
    (par : Par F V) (opt : Opt F M V) (hnew : new finite vs opts ls raw = some (par, opt))
    (ops : LineSearch.Ops F M) (hist : List (Call F V)) :
    let lg := log par ops opt hist
    ∃ r, calls par ops opt hist = some r ∧
    (∀ e ∈ lg, Allowed e) ∧ r.evaluations = evals 0 lg ∧ r.iterations = max (accepts 0 lg - 1) 0 ∧
    (0 < r.evaluations → r.iterations < r.evaluations) ∧ 0 ≤ r.restarts ∧ r.restarts ≤ r.iterations := by
  obtain ⟨hv, hc, -⟩ := new_spec finite vs opts ls raw par opt hnew
  obtain ⟨r, h0, -, h1, h2⟩ := calls_counters par ops hist opt 0 0 hv hc
  exact ⟨r, h0, h1, h2.evaluations, h2.accepts, h2.iterations, h2.restarts.1, h2.restarts.2⟩

/-- In the error state a call to `opk_iterate` changes nothing. -/
theorem error_absorbing (par : Par F V) (ops : LineSearch.Ops F M) (o : Opt F M V) (x : V) (f : F) (g : V)
    (h : o.task = .error) : iterate par ops o x f g = some (o, x) := by
  unfold iterate; rw [h]

end any

end Opk.Nlcg
