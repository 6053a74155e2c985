import Verif.Nlcg.Protocol
import Verif.Vmlmb.Decrease
/-! # C26, C27: convergence test of the conjugate gradient optimizer and decrease of the objective -/
set_option linter.unusedSectionVars false
set_option linter.unusedSimpArgs false
namespace Opk.Nlcg
open Opk.Optim
open Opk.Vmlmb (Call evals accepts Allowed lastStart_append)

variable {F M V : Type} [Add F] [Sub F] [Mul F] [Div F] [Neg F] [Zero F] [One F]
  [LinearOrder F] [CMath F]

/-! ## Specification -/

/-- What the caller has given: the gradient at the first evaluation since the last start, and the variables and the function
value at the last new iterate. -/
structure Past (F V : Type) where
  first : Option V
  base : Option (V × F)

/-- How a call changes this. -/
def Past.next (p : Past F V) (task : Task) : Call F V → Past F V
  | .start _ => ⟨none, none⟩
  | .iterate x f g =>
    { first := if task = .computeFG then p.first <|> some g else p.first
      base := if task = .newX ∨ task = .finalX then some (x, f) else p.base }

/-- What the caller has given in a history of calls. -/
def past (par : Par F V) (ops : LineSearch.Ops F M) (o : Opt F M V) (p : Past F V) : List (Call F V) → Past F V
  | [] => p
  | c :: l =>
    match step par ops o c with
    | none => p
    | some o' => past par ops o' (p.next o.task c) l

theorem max3_eq (a b c : F) : max3 a b c = max (max a b) c := by
  unfold max3
  split_ifs <;> order

/-- Invariant of the histories. -/
structure Inv (par : Par F V) (ops : LineSearch.Ops F M) (ls0 : LineSearch.Ls F M) (o : Opt F M V) (p : Past F V) : Prop where
  vecs : Vecs par o
  nonneg : 0 ≤ o.evaluations
  zero : o.evaluations = 0 → p.first = none
  first : o.evaluations ≠ 0 → ∃ g, p.first = some g ∧ o.ginit = par.vs.norm2 g
  newX : o.task = .newX ∨ o.task = .finalX → o.evaluations ≠ 0
  ls : ∃ lh, o.ls = LineSearch.calls ops ls0 lh ∧
    (o.task = .computeFG ∧ 0 < o.evaluations → o.ls.task = .search ∧ o.ls.stp = o.alpha ∧
      ∃ a x, LineSearch.lastStart none lh = some a ∧ p.base = some (x, a.f0) ∧ o.x0 = x ∧ o.dtg0 = a.g0)

theorem start_inv (par : Par F V) (ops : LineSearch.Ops F M) (ls0 : LineSearch.Ls F M) (o : Opt F M V) (p : Past F V)
    (h : Inv par ops ls0 o p) : Inv par ops ls0 (start o) ⟨none, none⟩ := by
  obtain ⟨lh, h1, -⟩ := h.ls
  exact ⟨h.vecs, le_refl _, fun _ => rfl, fun h => absurd rfl h, fun _ => by simp_all [start, success],
    lh, h1, fun h => absurd h.2 (lt_irrefl _)⟩

/-- What an evaluation leads to. -/
inductive Answer (par : Par F V) (ops : LineSearch.Ops F M) (o : Opt F M V) (x : V) (f : F) (g : V) : Opt F M V × V → Prop
  | first (r) (he : o.evaluations ≤ 0) (hr : r = accept par { o with evaluations := o.evaluations + 1 } g) :
      Answer par ops o x f g (r, x)
  | search (q) (he : 0 < o.evaluations) (hq : q = LineSearch.iterate ops o.ls o.alpha f (-par.vs.dot o.d g))
      (ht : q.1.task = .search) :
      Answer par ops o x f g (trial par { o with evaluations := o.evaluations + 1, dtg := -par.vs.dot o.d g, ls := q.1, alpha := q.2 })
  | accepted (q) (r) (he : 0 < o.evaluations) (hq : q = LineSearch.iterate ops o.ls o.alpha f (-par.vs.dot o.d g))
      (ht : q.1.task = .convergence ∨ q.1.task = .warning ∧ q.1.status = .roundingErrorsPreventProgress)
      (hr : r = accept par { o with evaluations := o.evaluations + 1, dtg := -par.vs.dot o.d g, ls := q.1, alpha := q.2, iterations := o.iterations + 1 } g) :
      Answer par ops o x f g (r, x)
  | failed (q) (r) (he : 0 < o.evaluations) (hq : q = LineSearch.iterate ops o.ls o.alpha f (-par.vs.dot o.d g))
      (ht : q.1.task ≠ .search)
      (hr : r = failure { o with evaluations := o.evaluations + 1, dtg := -par.vs.dot o.d g, ls := q.1, alpha := q.2 } (.ls q.1.status)) :
      Answer par ops o x f g (r, x)

theorem iterate_fg (par : Par F V) (ops : LineSearch.Ops F M) (o : Opt F M V) (x : V) (f : F) (g : V)
    (ht : o.task = .computeFG) : ∃ r, iterate par ops o x f g = some r ∧ Answer par ops o x f g r := by
  unfold iterate
  rw [ht]
  refine ⟨_, rfl, ?_⟩
  rcases onFG_cases par ops o f g with ⟨k1, k2⟩ | ⟨k1, q, r, kq, kr, hk⟩
  · rw [k2]; exact .first _ (by omega) rfl
  · subst kr
    rcases hk with ⟨h, e⟩ | ⟨h, e⟩ | ⟨h1, h2, h3, e⟩
    · rw [e]; exact .search q (by omega) kq h
    · rw [e]; exact .accepted q _ (by omega) kq h rfl
    · rw [e]; exact .failed q _ (by omega) kq h1 rfl

/-- What the call at a new iterate leads to. -/
theorem iterate_newX (par : Par F V) (ops : LineSearch.Ops F M) (o : Opt F M V) (x : V) (f : F) (g : V)
    (hv : Vecs par o) (ht : o.task = .newX ∨ o.task = .finalX) :
    ∃ r, Begun par ops o x f g r ∧
      (r.ls.task = .search ∧ iterate par ops o x f g = some (trial par r) ∨
       r.ls.task ≠ .search ∧ r.task = .error ∧ r.status = .ls r.ls.status ∧ iterate par ops o x f g = some (r, x)) := by
  obtain ⟨r, hr, hB⟩ := onNewX_some par ops o x f g hv
  have hit : iterate par ops o x f g = (onNewX par ops o x f g).map (finish par x) := by
    unfold iterate; rcases ht with h | h <;> rw [h]
  refine ⟨r, hB, ?_⟩
  rw [hit]
  rcases hr with ⟨e, h⟩ | ⟨e, h1, h2, h3⟩
  · left; rw [e]; exact ⟨h, rfl⟩
  · right; rw [e]; exact ⟨h2, h1, h3, rfl⟩

theorem iterate_other (par : Par F V) (ops : LineSearch.Ops F M) (o : Opt F M V) (x : V) (f : F) (g : V)
    (h1 : o.task ≠ .computeFG) (h2 : ¬ (o.task = .newX ∨ o.task = .finalX)) : iterate par ops o x f g = some (o, x) := by
  unfold iterate
  rcases ht : o.task with _ | _ | _ | _ | _ | _ <;> simp [ht] at h1 h2 ⊢

theorem begun_vecs (par : Par F V) (ops : LineSearch.Ops F M) (o : Opt F M V) (x : V) (f : F) (g : V) (r : Opt F M V)
    (h : Begun par ops o x f g r) (hv : Vecs par o) : Vecs par r := by
  intro hh
  obtain ⟨v1, v2⟩ := hv hh
  rw [h.g0, h.y]; simp [v1, v2]

theorem iterate_inv (par : Par F V) (ops : LineSearch.Ops F M) (ok : LineSearch.Method ops) (ls0 : LineSearch.Ls F M)
    (o : Opt F M V) (p : Past F V) (h : Inv par ops ls0 o p) (x : V) (f : F) (g : V) :
    ∃ r, iterate par ops o x f g = some r ∧ Inv par ops ls0 r.1 (p.next o.task (.iterate x f g)) := by
  obtain ⟨lh, h1, h2⟩ := h.ls
  unfold Past.next
  by_cases hfg : o.task = .computeFG
  · obtain ⟨r, e, ha⟩ := iterate_fg par ops o x f g hfg
    refine ⟨r, e, ?_⟩
    have hng := h.nonneg
    simp only [hfg, reduceCtorEq, or_self, if_true, if_false]
    have hsearch : 0 < o.evaluations → ∀ q, q = LineSearch.iterate ops o.ls o.alpha f (-par.vs.dot o.d g) →
        q.2 = q.1.stp ∧ q.1 = LineSearch.calls ops ls0 (lh ++ [.iterate o.alpha f (-par.vs.dot o.d g)]) ∧
        ∃ a x, LineSearch.lastStart none (lh ++ [.iterate o.alpha f (-par.vs.dot o.d g)]) = some a ∧
          p.base = some (x, a.f0) ∧ o.x0 = x ∧ o.dtg0 = a.g0 := by
      intro he q hq
      obtain ⟨s1, s2, a, x0, s3, s4, s5, s6⟩ := h2 ⟨hfg, he⟩
      refine ⟨?_, ?_, a, x0, ?_, s4, s5, s6⟩
      · rw [hq, ← s2, LineSearch.iterate_eq ops o.ls f _ s1]
        exact (LineSearch.finish_data _ _ _).2.2.2.2.2
      · rw [LineSearch.calls_append, ← h1, hq]; rfl
      · rw [lastStart_append, s3]; rfl
    have hfirst : 0 < o.evaluations → ∃ g1, (p.first <|> some g) = some g1 ∧ o.ginit = par.vs.norm2 g1 := by
      intro he
      obtain ⟨g1, k1, k2⟩ := h.first (by omega)
      exact ⟨g1, by rw [k1]; rfl, k2⟩
    cases ha with
    | first r he hr =>
      have he0 : o.evaluations = 0 := by omega
      obtain ⟨gi, t, e1, e2, -⟩ := accept_eq par { o with evaluations := o.evaluations + 1 } g
      rw [if_pos (show o.evaluations + 1 ≤ 1 by omega)] at e2
      rw [e1] at hr
      subst hr
      refine ⟨h.vecs, by dsimp only; omega, fun h => by dsimp only at h; omega, fun _ => ⟨g, ?_, e2⟩,
        fun _ => by dsimp only; omega, lh, h1, fun hc => ?_⟩
      · rw [h.zero he0]; rfl
      · exfalso
        obtain ⟨_, _, e1', _, ht⟩ := accept_eq par { o with evaluations := o.evaluations + 1 } g
        rw [e1'] at e1
        have := congrArg Opt.task e1
        dsimp only at this hc
        rw [← this, ht] at hc
        split_ifs at hc <;> cases hc.1
    | search q he hq ht =>
      obtain ⟨k1, k2, k3⟩ := hsearch he q hq
      exact ⟨h.vecs, by simp only [trial, success]; omega, fun h => by simp only [trial, success] at h; omega,
        fun _ => hfirst he, fun _ => by simp only [trial, success]; omega, _, k2, fun _ => ⟨ht, k1.symm, k3⟩⟩
    | accepted q r he hq ht hr =>
      obtain ⟨k1, k2, k3⟩ := hsearch he q hq
      obtain ⟨gi, t, e1, e2, ht'⟩ := accept_eq par { o with evaluations := o.evaluations + 1, dtg := -par.vs.dot o.d g, ls := q.1, alpha := q.2, iterations := o.iterations + 1 } g
      rw [e1] at hr
      rw [if_neg (by dsimp only; omega)] at e2
      subst hr
      refine ⟨h.vecs, by dsimp only; omega, fun h => by dsimp only at h; omega, fun _ => ?_,
        fun _ => by dsimp only; omega, _, k2, fun hc => ?_⟩
      · rw [e2]; exact hfirst he
      · exfalso
        dsimp only at hc
        rw [ht'] at hc
        split_ifs at hc <;> cases hc.1
    | failed q r he hq ht hr =>
      obtain ⟨k1, k2, k3⟩ := hsearch he q hq
      subst hr
      exact ⟨h.vecs, by simp only [failure]; omega, fun h => by simp only [failure] at h; omega,
        fun _ => hfirst he, fun _ => by simp only [failure]; omega, _, k2, (fun h => by cases h.1)⟩
  simp only [hfg, if_false]
  by_cases hn : o.task = .newX ∨ o.task = .finalX
  · rw [if_pos hn]
    obtain ⟨r, hB, hr⟩ := iterate_newX par ops o x f g h.vecs hn
    have he := h.newX hn
    have hls : r.ls = LineSearch.calls ops ls0 (lh ++ [.start ⟨f, r.dtg, r.alpha, par.stpmin * r.alpha, par.stpmax * r.alpha⟩]) := by
      rw [LineSearch.calls_append, ← h1, hB.ls]; rfl
    have v := begun_vecs par ops o x f g r hB h.vecs
    have b1 : 0 ≤ r.evaluations := by rw [hB.evaluations]; exact h.nonneg
    have b2 : r.evaluations = 0 → p.first = none := by rw [hB.evaluations]; exact h.zero
    have b3 : r.evaluations ≠ 0 → ∃ g, p.first = some g ∧ r.ginit = par.vs.norm2 g := by
      rw [hB.evaluations, hB.ginit]; exact h.first
    rcases hr with ⟨k1, k2⟩ | ⟨k1, k2, -, k3⟩
    · refine ⟨_, k2, v, b1, b2, b3, (fun _ => by simp only [trial, success]; rw [hB.evaluations]; exact he), _, hls, fun _ => ?_⟩
      simp only [trial, success]
      refine ⟨k1, ?_, _, x, by rw [lastStart_append]; rfl, rfl, hB.x0, hB.dtg0⟩
      obtain ⟨s1, s2, -⟩ := LineSearch.start_checks ops ok o.ls ⟨f, r.dtg, r.alpha, par.stpmin * r.alpha, par.stpmax * r.alpha⟩
      dsimp only at s1 s2
      rw [hB.ls]
      rw [hB.ls] at k1
      exact (s2 (s1.1 k1)).1
    · exact ⟨_, k3, v, b1, b2, b3, (fun h => by simp [k2] at h), _, hls, (fun h => by rw [k2] at h; cases h.1)⟩
  · rw [if_neg hn]
    refine ⟨_, iterate_other par ops o x f g hfg hn, ?_⟩
    exact h

theorem calls_inv (par : Par F V) (ops : LineSearch.Ops F M) (ok : LineSearch.Method ops) (ls0 : LineSearch.Ls F M)
    (hist : List (Call F V)) : ∀ (o : Opt F M V) (p : Past F V), Inv par ops ls0 o p →
      ∃ r, calls par ops o hist = some r ∧ Inv par ops ls0 r (past par ops o p hist) := by
  induction hist with
  | nil => intro o p h; exact ⟨o, rfl, h⟩
  | cons c l ih =>
    intro o p h
    rcases c with x | ⟨x, f, g⟩
    · exact ih _ _ (start_inv par ops ls0 o p h)
    · obtain ⟨q, e, hq⟩ := iterate_inv par ops ok ls0 o p h x f g
      have hs : step par ops o (.iterate x f g) = some q.1 := by simp [step, e]
      simp only [calls, past, hs, Option.bind_some]
      exact ih _ _ hq

theorem new_inv (finite : F → Bool) (vs : Vs F V) (opts : Options F) (ls0 : LineSearch.Ls F M) (raw : V)
    (par : Par F V) (opt : Opt F M V) (h : new finite vs opts ls0 raw = some (par, opt)) (ops : LineSearch.Ops F M) :
    Inv par ops ls0 opt ⟨none, none⟩ := by
  obtain ⟨hv, hc, ht, -, hls, -⟩ := new_spec finite vs opts ls0 raw par opt h
  have he := hc.evaluations
  exact ⟨hv, by omega, fun _ => rfl, fun h => absurd he h, (fun h => by simp [ht] at h), [], hls,
    (fun h => by rw [ht] at h; cases h.1)⟩

/-! ## C26 -/

/-- **C26 (NLCG).** For a new optimizer and any history of calls, when the caller gives a function value and a gradient and a
new iterate is announced, it is announced as final if and only if the norm of the gradient is at most the
largest of `0`, `gatol` and `grtol` times the norm of the gradient given at the first evaluation since the last start. -/
theorem convergence_test (finite : F → Bool) (vs : Vs F V) (opts : Options F) (ls0 : LineSearch.Ls F M) (raw : V)
    (par : Par F V) (opt : Opt F M V) (hnew : new finite vs opts ls0 raw = some (par, opt))
    (ops : LineSearch.Ops F M) (ok : LineSearch.Method ops) (hist : List (Call F V)) (x : V) (f : F) (g : V) :
    ∃ r r', calls par ops opt hist = some r ∧ iterate par ops r x f g = some r' ∧
    (r'.1.task = .newX ∨ r'.1.task = .finalX →
      r.task = .computeFG ∧
      ∃ g1, (past par ops opt ⟨none, none⟩ (hist ++ [.iterate x f g])).first = some g1 ∧
      (r.evaluations = 0 → g1 = g) ∧
      (r'.1.task = .finalX ↔ vs.norm2 g ≤ max (max 0 opts.gatol) (opts.grtol * vs.norm2 g1))) := by
  obtain ⟨-, -, -, -, -, evs, ega, egr, -⟩ := new_spec finite vs opts ls0 raw par opt hnew
  have hi := new_inv finite vs opts ls0 raw par opt hnew ops
  obtain ⟨r, e, hr⟩ := calls_inv par ops ok ls0 hist opt _ hi
  obtain ⟨q, e1, hq⟩ := iterate_inv par ops ok ls0 r _ hr x f g
  have hpast : past par ops opt ⟨none, none⟩ (hist ++ [.iterate x f g]) =
      (past par ops opt ⟨none, none⟩ hist).next r.task (.iterate x f g) := by
    clear hr hq
    generalize (⟨none, none⟩ : Past F V) = p at *
    clear hi hnew
    induction hist generalizing opt p with
    | nil => cases e; simp [past, step, e1]
    | cons c l ih =>
      simp only [List.cons_append, past, calls] at e ⊢
      rcases hs : step par ops opt c with _ | o'
      · rw [hs] at e; cases e
      · rw [hs] at e
        exact ih o' e _
  refine ⟨r, q, e, e1, fun hn => ?_⟩
  by_cases hfg : r.task = .computeFG
  · refine ⟨hfg, ?_⟩
    rw [hpast]
    have key : ∀ q' o', q = (q', x) → q' = accept par o' g → ∃ g1,
        ((past par ops opt ⟨none, none⟩ hist).next r.task (.iterate x f g)).first = some g1 ∧
        (q.1.task = .finalX ↔ vs.norm2 g ≤ max (max 0 opts.gatol) (opts.grtol * vs.norm2 g1)) := by
      intro q' o' h1 h2
      have hne : q.1.evaluations ≠ 0 := hq.newX hn
      obtain ⟨g1, f1, f2⟩ := hq.first hne
      refine ⟨g1, f1, ?_⟩
      obtain ⟨gi, t, a1, a2, a3⟩ := accept_eq par o' g
      rw [a1] at h2
      subst h2
      subst h1
      dsimp only at f2 ⊢
      rw [a3, max3_eq, f2, evs, ega, egr]
      split_ifs with hc
      · simp [hc]
      · simp only [reduceCtorEq, false_iff]; exact hc
    obtain ⟨q'', e2, ha⟩ := iterate_fg par ops r x f g hfg
    rw [e1] at e2
    cases e2
    cases ha with
    | first r' he hr' =>
      obtain ⟨g1, k1, k2⟩ := key _ _ rfl hr'
      refine ⟨g1, k1, fun h0 => ?_, k2⟩
      simp only [Past.next, hfg, if_true] at k1
      rw [hr.zero h0] at k1
      cases k1; rfl
    | search q he hq ht => simp [trial, success] at hn
    | accepted q r' he hq' ht hr' =>
      obtain ⟨g1, k1, k2⟩ := key _ _ rfl hr'
      exact ⟨g1, k1, fun h0 => by omega, k2⟩
    | failed q r' he hq ht hr' => subst hr'; simp [failure] at hn
  · exfalso
    by_cases hn' : r.task = .newX ∨ r.task = .finalX
    · obtain ⟨r', -, (⟨-, k⟩ | ⟨-, k1, -, k⟩)⟩ := iterate_newX par ops r x f g hr.vecs hn'
      · rw [e1] at k; cases k; simp [trial, success] at hn
      · rw [e1] at k; cases k; simp [k1] at hn
    · have := iterate_other par ops r x f g hfg hn'
      rw [e1] at this; cases this
      exact hn' hn

/-! ## C27 -/

/-- What is accepted. -/
theorem accepted_step (finite : F → Bool) (vs : Vs F V) (opts : Options F) (ls0 : LineSearch.Ls F M) (raw : V)
    (par : Par F V) (opt : Opt F M V) (hnew : new finite vs opts ls0 raw = some (par, opt))
    (ops : LineSearch.Ops F M) (ok : LineSearch.Method ops) (hist : List (Call F V)) (x : V) (f : F) (g : V) (r r')
    (h1 : calls par ops opt hist = some r) (h2 : iterate par ops r x f g = some r')
    (he : 0 < r.evaluations) (hn : r'.1.task = .newX ∨ r'.1.task = .finalX) :
    ∃ (lh : List (LineSearch.Call F)) (a : LineSearch.Args F),
      r.ls = LineSearch.calls ops ls0 lh ∧ r.ls.task = .search ∧ r.ls.stp = r.alpha ∧
      LineSearch.lastStart none lh = some a ∧ (past par ops opt ⟨none, none⟩ hist).base = some (r.x0, a.f0) ∧
      r.dtg0 = a.g0 ∧
      r'.1.ls = LineSearch.calls ops ls0 (lh ++ [.iterate r.alpha f (-vs.dot r.d g)]) ∧
      (r'.1.ls.task = .convergence ∨ r'.1.ls.task = .warning ∧ r'.1.ls.status = .roundingErrorsPreventProgress) := by
  obtain ⟨-, -, -, -, -, evs, -⟩ := new_spec finite vs opts ls0 raw par opt hnew
  have hi := new_inv finite vs opts ls0 raw par opt hnew ops
  obtain ⟨r0, e0, hr⟩ := calls_inv par ops ok ls0 hist opt _ hi
  rw [h1] at e0
  cases e0
  by_cases hfg : r.task = .computeFG
  · obtain ⟨lh, l1, l2⟩ := hr.ls
    obtain ⟨s1, s2, a, x0, s3, s4, s5, s6⟩ := l2 ⟨hfg, he⟩
    obtain ⟨q'', e2, ha⟩ := iterate_fg par ops r x f g hfg
    rw [h2] at e2
    cases e2
    cases ha with
    | first r' he' hr' => omega
    | search q he hq ht => simp [trial, success] at hn
    | accepted q r' he hq ht hr' =>
      obtain ⟨gi, t, a1, -, -⟩ := accept_eq par { r with evaluations := r.evaluations + 1, dtg := -par.vs.dot r.d g, ls := q.1, alpha := q.2, iterations := r.iterations + 1 } g
      rw [a1] at hr'
      subst hr'
      subst s5
      refine ⟨lh, a, l1, s1, s2, s3, s4, s6, ?_, ht⟩
      dsimp only
      rw [LineSearch.calls_append, ← l1, hq, evs]; rfl
    | failed q r' he hq ht hr' => subst hr'; simp [failure] at hn
  · exfalso
    by_cases hn' : r.task = .newX ∨ r.task = .finalX
    · obtain ⟨r', -, (⟨-, k⟩ | ⟨-, k1, -, k⟩)⟩ := iterate_newX par ops r x f g hr.vecs hn'
      · rw [h2] at k; cases k; simp [trial, success] at hn
      · rw [h2] at k; cases k; simp [k1] at hn
    · have := iterate_other par ops r x f g hfg hn'
      rw [h2] at this; cases this
      exact hn' hn

/-- **C27 (NLCG with backtracking).** For any arithmetic and any history: when, during a line search, the caller gives the
function value `f` and is then told of a new iterate, this value satisfies the sufficient decrease
condition with respect to the value `fb` given with the previous iterate, for the current step, positive, and the
negative derivative announced to the line search. -/
theorem backtrack_decrease (finite : F → Bool) (vs : Vs F V) (opts : Options F)
    (lraw : LineSearch.Ls F Unit) (ftol amin : F) (ls0 : LineSearch.Ls F (LineSearch.Backtrack F))
    (hls : LineSearch.newBacktrack lraw ftol amin = some ls0) (raw : V)
    (par : Par F V) (opt : Opt F (LineSearch.Backtrack F) V) (hnew : new finite vs opts ls0 raw = some (par, opt))
    (hist : List (Call F V)) (x : V) (f : F) (g : V) (r r')
    (h1 : calls par LineSearch.backtrackOps opt hist = some r)
    (h2 : iterate par LineSearch.backtrackOps r x f g = some r')
    (he : 0 < r.evaluations) (hn : r'.1.task = .newX ∨ r'.1.task = .finalX) :
    ∃ xb fb, (past par LineSearch.backtrackOps opt ⟨none, none⟩ hist).base = some (xb, fb) ∧ r.x0 = xb ∧
      r.ls.ginit = r.dtg0 ∧ r.ls.ginit < 0 ∧ 0 < r.alpha ∧ f ≤ fb + ftol * r.alpha * r.ls.ginit := by
  obtain ⟨lh, a, l1, l2, l3, l4, l5, l6, l7, l8⟩ := accepted_step finite vs opts ls0 raw par
    opt hnew _ LineSearch.backtrack_method hist x f g r r' h1 h2 he hn
  obtain ⟨a', e, hv, b1, b2, hc⟩ := LineSearch.backtrack_sufficient_decrease lraw ftol amin ls0 hls lh r.alpha f
    (-vs.dot r.d g) (by rw [← l1]; exact l2) (by rw [← l1]; exact l3.symm)
  rw [l4] at e
  cases e
  have hconv : (LineSearch.calls LineSearch.backtrackOps ls0 (lh ++ [.iterate r.alpha f (-vs.dot r.d g)])).task = .convergence := by
    rw [l7] at l8
    rcases l8 with h | ⟨hw, hs⟩
    · exact h
    · exfalso
      rw [LineSearch.calls_append, ← l1] at hw hs
      change (LineSearch.iterate LineSearch.backtrackOps r.ls r.alpha f (-vs.dot r.d g)).1.task = _ at hw
      change (LineSearch.iterate LineSearch.backtrackOps r.ls r.alpha f (-vs.dot r.d g)).1.status = _ at hs
      rw [← l3, LineSearch.iterate_eq _ _ _ _ l2] at hs hw
      rcases LineSearch.finish_task (LineSearch.boundOf r.ls)
        (LineSearch.backtrackOps.iterate r.ls r.ls.stp f (-vs.dot r.d g)).1 (LineSearch.backtrackOps.iterate r.ls r.ls.stp f (-vs.dot r.d g)).2 with
        ⟨t1, t2⟩ | ⟨t1, ⟨-, -, t2, -⟩ | ⟨-, -, t2, -⟩⟩
      · rw [t2] at hs
        rw [t1] at hw
        simp only [LineSearch.backtrackOps, LineSearch.backtrackIterate] at hs hw
        split at hs
        · simp [LineSearch.succeed] at hs
        · split at hs <;> simp_all [LineSearch.succeed, LineSearch.warn]
      · rw [t2] at hs; cases hs
      · rw [t2] at hs; cases hs
  obtain ⟨c1, c2, c3⟩ := hc.1 hconv
  have hgi : a.g0 = r.ls.ginit := by
    have ht0 : ls0.task = .error := by
      unfold LineSearch.newBacktrack at hls
      split at hls <;> cases hls
      rfl
    obtain ⟨a'', q1, -, q2⟩ := LineSearch.calls_inv _ LineSearch.backtrack_method lh ls0 none (fun h => absurd ht0 h) (by rw [← l1, l2]; simp)
    rw [l4] at q1
    cases q1
    rw [l1]; exact q2.2.1.symm
  rw [← hgi]
  exact ⟨r.x0, a.f0, l5, rfl, l6.symm, hv.2.2.2.2, lt_of_le_of_lt hv.1 c2, c1⟩

/-- **C27 (NLCG with the line search of Moré and Thuente, the default one).** Same thing, unless the line search warns of
rounding errors, and then with the curvature condition for the derivative along the direction at the new iterate. -/
theorem csrch_decrease (finite : F → Bool) (vs : Vs F V) (opts : Options F)
    (lraw : LineSearch.Ls F (LineSearch.Csrch F)) (ftol gtol xtol : F)
    (ls0 : LineSearch.Ls F (LineSearch.Csrch F)) (hls : LineSearch.newCsrch lraw ftol gtol xtol = some ls0) (raw : V)
    (par : Par F V) (opt : Opt F (LineSearch.Csrch F) V) (hnew : new finite vs opts ls0 raw = some (par, opt))
    (hist : List (Call F V)) (x : V) (f : F) (g : V) (r r')
    (h1 : calls par LineSearch.csrchOps opt hist = some r)
    (h2 : iterate par LineSearch.csrchOps r x f g = some r')
    (he : 0 < r.evaluations) (hn : r'.1.task = .newX ∨ r'.1.task = .finalX)
    (hnr : r'.1.ls.status ≠ .roundingErrorsPreventProgress) :
    ∃ xb fb, (past par LineSearch.csrchOps opt ⟨none, none⟩ hist).base = some (xb, fb) ∧ r.x0 = xb ∧
      r.ls.ginit = r.dtg0 ∧ r.ls.ginit < 0 ∧ 0 < r.alpha ∧ f ≤ fb + r.alpha * (ftol * r.ls.ginit) ∧
      fabs (-vs.dot r.d g) ≤ -gtol * r.ls.ginit := by
  obtain ⟨lh, a, l1, l2, l3, l4, l5, l6, l7, l8⟩ := accepted_step finite vs opts ls0 raw par
    opt hnew _ LineSearch.csrch_method hist x f g r r' h1 h2 he hn
  obtain ⟨a', e, hv, b1, b2, hc⟩ := LineSearch.csrch_strong_wolfe lraw ftol gtol xtol ls0 hls lh r.alpha f (-vs.dot r.d g)
    (by rw [← l1]; exact l2) (by rw [← l1]; exact l3.symm)
  rw [l4] at e
  cases e
  have hconv : (LineSearch.calls LineSearch.csrchOps ls0 (lh ++ [.iterate r.alpha f (-vs.dot r.d g)])).task = .convergence := by
    rw [← l7]
    rcases l8 with h | ⟨hw, hs⟩
    · exact h
    · exact absurd hs hnr
  obtain ⟨c1, c2, c3, c4⟩ := hc.1 hconv
  have hgi : a.g0 = r.ls.ginit := by
    have ht0 : ls0.task = .error := by
      unfold LineSearch.newCsrch at hls
      split_ifs at hls
      cases hls
      rfl
    obtain ⟨a'', q1, -, q2⟩ := LineSearch.calls_inv _ LineSearch.csrch_method lh ls0 none (fun h => absurd ht0 h) (by rw [← l1, l2]; simp)
    rw [l4] at q1
    cases q1
    rw [l1]; exact q2.2.1.symm
  rw [← hgi]
  exact ⟨r.x0, a.f0, l5, rfl, l6.symm, hv.2.2.2.2, lt_of_le_of_lt hv.1 c3, c1, c2⟩

/-- In exact arithmetic, the objective strictly decreases between the iterates of NLCG with backtracking. -/
theorem backtrack_strict_decrease {K : Type} [Field K] [LinearOrder K] [IsStrictOrderedRing K] [CMath K] [ExactMath K]
    (finite : K → Bool) (vs : Vs K V) (opts : Options K)
    (lraw : LineSearch.Ls K Unit) (ftol amin : K) (ls0 : LineSearch.Ls K (LineSearch.Backtrack K))
    (hls : LineSearch.newBacktrack lraw ftol amin = some ls0) (raw : V)
    (par : Par K V) (opt : Opt K (LineSearch.Backtrack K) V) (hnew : new finite vs opts ls0 raw = some (par, opt))
    (hist : List (Call K V)) (x : V) (f : K) (g : V) (r r')
    (h1 : calls par LineSearch.backtrackOps opt hist = some r)
    (h2 : iterate par LineSearch.backtrackOps r x f g = some r')
    (he : 0 < r.evaluations) (hn : r'.1.task = .newX ∨ r'.1.task = .finalX) :
    ∃ xb fb, (past par LineSearch.backtrackOps opt ⟨none, none⟩ hist).base = some (xb, fb) ∧ f < fb := by
  obtain ⟨xb, fb, k1, -, -, k2, k3, k4⟩ := backtrack_decrease finite vs opts lraw ftol amin ls0 hls raw par opt
    hnew hist x f g r r' h1 h2 he hn
  obtain ⟨h5, -⟩ := LineSearch.newBacktrack_params lraw ftol amin ls0 hls
  refine ⟨xb, fb, k1, ?_⟩
  have : ftol * r.alpha * r.ls.ginit < 0 := mul_neg_of_pos_of_neg (mul_pos h5 k3) k2
  linarith

end Opk.Nlcg
