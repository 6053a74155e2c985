import Verif.Vmlmb.Memory
import Verif.LineSearch.Generic
/-! # How `opk_iterate_vmlmb` starts a line search, for any arithmetic -/
set_option linter.unusedSectionVars false
set_option linter.unusedSimpArgs false
namespace Opk.Vmlmb
open Opk.Optim

variable {F M V : Type} [Add F] [Sub F] [Mul F] [Div F] [Neg F] [Zero F] [One F]
  [LinearOrder F] [CMath F]

theorem savePoint_x0 (par : Par F V) (o : Opt F M V) (x : V) (f : F) (g : V) : (savePoint par o x f g).x0 = x := by
  have h1 : ∀ q : Opt F M V, (q.setX0 x).x0 = x := by
    intro q
    unfold Opt.setX0 Opt.x0
    obtain ⟨⟩ := q
    rename_i x0ref _ _ _ _ _ _ _ _ _ _ _ _ _ _ _ _ _ _
    rcases x0ref with _ | k
    · rfl
    · exact upd_same _ _ _
  have h2 : ∀ (q : Opt F M V) (v : V), (q.setG0 v).x0 = q.x0 := by
    intro q v
    unfold Opt.setG0
    rcases q.g0ref with _ | k <;> rfl
  unfold savePoint
  dsimp only
  show ((Opt.setX0 (saveRefs par o) x).setG0 _).x0 = x
  rw [h2, h1]

/-- The direction given by the recursion, projected if there are bounds. -/
def Cand (par : Par F V) (o : Opt F M V) (x g : V) (d : V) : Prop :=
  (apply par (updated par o x g) g).2 = true ∧
  match par.box with
  | none => d = (apply par (updated par o x g) g).1.d
  | some box => box.projdir x (apply par (updated par o x g) g).1.d = .ok d

/-- Not a sufficient descent direction. -/
def Rejected (par : Par F V) (o : Opt F M V) (g d : V) : Prop :=
  ¬ -par.vs.dot d g < 0 ∨ par.epsilon > 0 ∧ - -par.vs.dot d g < par.epsilon * par.vs.norm2 d * o.gnorm

/-- The direction chosen for the new line search: that of the variable metric recursion, projected, or
the (projected) gradient if there is no such direction or if it is not a sufficient descent direction. -/
def Chosen (par : Par F V) (o : Opt F M V) (x g : V) (d : V) (dtg : F) : Prop :=
  Cand par o x g d ∧ ¬ Rejected par o g d ∧ dtg = -par.vs.dot d g ∨
  ((apply par (updated par o x g) g).2 = false ∨ ∃ d', Cand par o x g d' ∧ Rejected par o g d') ∧
    d = (match par.method with | .vmlmb => par.vs.product o.w g | .blmvm => o.gp | .lbfgs => g) ∧
    dtg = -o.gnorm * o.gnorm

theorem updated_keeps (par : Par F V) (o : Opt F M V) (x g : V) :
    (updated par o x g).w = o.w ∧ (updated par o x g).gp = o.gp ∧ (updated par o x g).gnorm = o.gnorm ∧
    (updated par o x g).ginit = o.ginit ∧ (updated par o x g).ls = o.ls ∧
    (updated par o x g).evaluations = o.evaluations ∧ (updated par o x g).iterations = o.iterations := by
  unfold updated
  by_cases hi : o.iterations ≥ 1
  · rw [if_pos hi]
    obtain ⟨k1, k2, k3, k4, k5, k6, k7, k8, k9, k10, k11⟩ :=
      update_keeps par o x (if par.method = .blmvm then o.gp else g)
    exact ⟨k8, k9, k10, k11, k6, k1, k2⟩
  · rw [if_neg hi]; exact ⟨rfl, rfl, rfl, rfl, rfl, rfl, rfl⟩

theorem direction_chosen (par : Par F V) (o : Opt F M V) (x g : V) (r : Opt F M V) (dtg : F)
    (h : direction par o x g = .ok (r, dtg)) :
    (dtg < 0 → Cand par o x g r.d ∧ ¬ Rejected par o g r.d ∧ dtg = -par.vs.dot r.d g) ∧
    (¬ dtg < 0 → (apply par (updated par o x g) g).2 = false ∨ ∃ d', Cand par o x g d' ∧ Rejected par o g d') := by
  obtain ⟨w1, w2, w3, -⟩ := updated_keeps par o x g
  unfold direction at h
  dsimp only at h
  have hu : (if o.iterations ≥ 1 then update par o x (if par.method = .blmvm then o.gp else g) else o)
      = updated par o x g := rfl
  rw [hu] at h
  have hs := apply_same par (updated par o x g) g
  unfold SameBut at hs
  obtain ⟨-, -, -, -, -, -, -, -, -, a10, -⟩ := hs
  unfold Cand
  generalize updated par o x g = u at *
  generalize apply par u g = p at *
  obtain ⟨a, b⟩ := p
  dsimp only at *
  rcases b with _ | _
  · simp only [Bool.false_eq_true, if_false, Except.ok.injEq, Prod.mk.injEq] at h
    rw [← h.2]; exact ⟨fun h => absurd h (lt_irrefl _), fun _ => Or.inl rfl⟩
  · simp only [if_true] at h
    have key : ∀ c : Opt F M V, c.gnorm = o.gnorm →
        (if par.epsilon > 0 ∧ - -par.vs.dot c.d g < par.epsilon * par.vs.norm2 c.d * c.gnorm then
          (Except.ok (c, 0) : Except (Opt F M V) (Opt F M V × F)) else .ok (c, -par.vs.dot c.d g)) = .ok (r, dtg) →
        r.d = c.d ∧ (dtg < 0 → ¬ Rejected par o g c.d ∧ dtg = -par.vs.dot c.d g) ∧
        (¬ dtg < 0 → Rejected par o g c.d) := by
      intro c hc e
      unfold Rejected
      rw [hc] at e
      split_ifs at e with he
      · simp only [Except.ok.injEq, Prod.mk.injEq] at e
        rw [← e.1, ← e.2]
        exact ⟨rfl, fun h => absurd h (lt_irrefl _), fun _ => Or.inr he⟩
      · simp only [Except.ok.injEq, Prod.mk.injEq] at e
        rw [← e.1, ← e.2]
        exact ⟨rfl, fun h => ⟨fun h' => h'.elim (fun k => k h) he, rfl⟩, fun h => Or.inl h⟩
    rcases hbox : par.box with _ | box <;> simp only [hbox] at h
    · obtain ⟨k1, k2, k3⟩ := key a (a10.trans w3) h
      rw [k1]
      exact ⟨fun h => ⟨⟨rfl, rfl⟩, k2 h⟩, fun h => Or.inr ⟨a.d, ⟨rfl, rfl⟩, k3 h⟩⟩
    · dsimp only
      generalize hpd : box.projdir x a.d = pd at h ⊢
      rcases pd with st | d
      · cases h
      · dsimp only at h
        obtain ⟨k1, k2, k3⟩ := key { a with d := d } (a10.trans w3) h
        dsimp only at k1 k2 k3
        rw [k1]
        exact ⟨fun h => ⟨⟨rfl, rfl⟩, k2 h⟩, fun h => Or.inr ⟨d, ⟨rfl, rfl⟩, k3 h⟩⟩

/-- What holds when a new line search is started at `x`. -/
structure Begun (par : Par F V) (ops : LineSearch.Ops F M) (o : Opt F M V) (x : V) (f : F) (g : V) (r : Opt F M V) : Prop where
  chosen : Chosen par o x g r.d r.ls.ginit
  ginit : r.ls.ginit < 0
  task : r.ls.task = .search
  finit : r.ls.finit = f
  f0 : r.f0 = f
  x0 : r.x0 = x
  stp : r.ls.stp = r.stp
  stpmin : 0 ≤ r.ls.stpmin ∧ r.ls.stpmin ≤ r.stp ∧ r.stp ≤ r.ls.stpmax
  lim : ∀ box, par.box = some box → ∃ l, box.steplim x r.d = .ok l ∧ 0 < l.s3 ∧ r.bsmin = l.s2 ∧
    r.stp ≤ l.s3 ∧ r.ls.stpmax ≤ l.s3
  member : ∃ a : LineSearch.Args F, r.ls = LineSearch.start ops o.ls a.f0 a.g0 a.stp a.stpmin a.stpmax ∧ a.Valid ∧
    a.f0 = f ∧ a.g0 = r.ls.ginit
  w : r.w = o.w
  gp : r.gp = o.gp
  gnorm : r.gnorm = o.gnorm

theorem onNewX_begun (par : Par F V) (ops : LineSearch.Ops F M) (ok : LineSearch.Method ops) (o : Opt F M V) (x : V)
    (f : F) (g : V) (r : Opt F M V) (h : onNewX par ops o x f g = .brk r) : Begun par ops o x f g r := by
  unfold onNewX at h
  obtain ⟨w1, w2, w3, -, w5, -⟩ := updated_keeps par o x g
  rcases direction_stages par o x g with ⟨q, st, hq, hk, -⟩ | ⟨q, hq, hk, -⟩
  · rw [hq] at h; cases h
  · obtain ⟨a, dtg⟩ := q
    have hch := direction_chosen par o x g a dtg hq
    rw [hq] at h; dsimp only at hk h
    unfold SameBut at hk
    obtain ⟨-, -, -, -, -, a6, -, a8, a9, a10, -⟩ := hk
    obtain ⟨b1, b2, b3, b4, b5, b6, b7, b8, b9, b10, b11, b12, b13, b14, b15, b16, b17, b18, b19, b20⟩ :=
      initialStep_keeps par a x f g dtg
    have hdir : Chosen par o x g (initialStep par a x f g dtg).1.d (initialStep par a x f g dtg).2 := by
      unfold initialStep
      by_cases hneg : dtg < 0
      · rw [if_pos hneg]; exact Or.inl (hch.1 hneg)
      · rw [if_neg hneg]
        refine Or.inr ⟨hch.2 hneg, ?_⟩
        dsimp only
        have e1 : ∀ q : Opt F M V, q = (if a.mp > 0 then { a with restarts := a.restarts + 1, mp := 0 } else a) →
            q.w = o.w ∧ q.gp = o.gp ∧ q.gnorm = o.gnorm := by
          intro q hq
          rw [hq]
          split_ifs <;> exact ⟨a8.trans w1, a9.trans w2, a10.trans w3⟩
        generalize hq : (if a.mp > 0 then { a with restarts := a.restarts + 1, mp := 0 } else a) = q
        obtain ⟨q1, q2, q3⟩ := e1 q hq.symm
        rcases par.method <;> dsimp only <;> rw [q3] <;> simp [q1, q2]
    generalize initialStep par a x f g dtg = is at *
    obtain ⟨b, dtg'⟩ := is
    dsimp only at *
    -- the limits
    generalize hl : limitStep par b x = lr at h
    rcases lr with q | ⟨l1, smin, smax⟩
    · cases h
    dsimp only at h
    have hlim : ∃ stp bs, l1 = { b with stp := stp, bsmin := bs } ∧
        ∀ box, par.box = some box → ∃ l, box.steplim x b.d = .ok l ∧ 0 < l.s3 ∧ l1.bsmin = l.s2 ∧
          l1.stp ≤ l.s3 ∧ smax ≤ l.s3 := by
      unfold limitStep at hl
      dsimp only at hl
      rcases hbx : par.box with _ | box
      · rw [hbx] at hl
        simp only [Except.ok.injEq, Prod.mk.injEq] at hl
        obtain ⟨rfl, rfl, rfl⟩ := hl
        exact ⟨b.stp, b.bsmin, rfl, fun _ h => by cases h⟩
      · rw [hbx] at hl
        dsimp only at hl
        generalize hsl : box.steplim x b.d = sl at hl
        rcases sl with st | l
        · cases hl
        · dsimp only at hl
          by_cases h3 : l.s3 ≤ 0
          · rw [if_pos h3] at hl; cases hl
          · rw [if_neg h3] at hl
            simp only [Except.ok.injEq, Prod.mk.injEq] at hl
            obtain ⟨rfl, rfl, rfl⟩ := hl
            by_cases h4 : b.stp > l.s3
            · simp only [if_pos h4]
              refine ⟨l.s3, l.s2, rfl, fun box' e => ?_⟩
              cases e
              exact ⟨l, hsl, not_le.1 h3, rfl, le_refl _, by split_ifs <;> order⟩
            · simp only [if_neg h4]
              refine ⟨b.stp, l.s2, rfl, fun box' e => ?_⟩
              cases e
              exact ⟨l, hsl, not_le.1 h3, rfl, not_lt.1 h4, by split_ifs <;> order⟩
    obtain ⟨stp', bs', e1, hbx⟩ := hlim
    obtain ⟨d1, d2, d3, d4, d5, d6, d7, d8, d9, d10, d11, d12, d13, d14, d15, d16, d17⟩ :=
      savePoint_keeps par l1 x f g
    have dx0 := savePoint_x0 par l1 x f g
    generalize savePoint par l1 x f g = sp at *
    have els : sp.ls = o.ls := by rw [d3, e1]; dsimp only; rw [b3, a6, w5]
    rw [els] at h
    by_cases ht : (LineSearch.start ops o.ls f dtg' sp.stp smin smax).task ≠ .search
    · rw [if_pos ht] at h; cases h
    · rw [if_neg ht] at h
      cases h
      have ht' : (LineSearch.start ops o.ls f dtg' sp.stp smin smax).task = .search := not_not.1 ht
      obtain ⟨s1, s2, -⟩ := LineSearch.start_checks ops ok o.ls ⟨f, dtg', sp.stp, smin, smax⟩
      have hv := s1.1 ht'
      obtain ⟨t1, ⟨t2, t3, t4, t5, t6, t7⟩, t8⟩ := s2 hv
      have hd : l1.d = b.d ∧ l1.w = b.w ∧ l1.gp = b.gp ∧ l1.gnorm = b.gnorm := by
        rw [e1]; exact ⟨rfl, rfl, rfl, rfl⟩
      obtain ⟨hd1, hd2, hd3, hd4⟩ := hd
      obtain ⟨v1, v2, v3, v4, v5⟩ := hv
      dsimp only at v1 v2 v3 v4 v5 t1 t2 t3 t4 t5 t6 t7
      constructor
      · dsimp only; rw [t3, d14, hd1]; exact hdir
      · dsimp only; rw [t3]; exact v5
      · exact ht'
      · exact t2
      · exact d16
      · exact dx0
      · exact t1
      · dsimp only; rw [t4, t5]; exact ⟨v1, v3, v4⟩
      · intro box e
        obtain ⟨l, l1', l2, l3, l4, l5⟩ := hbx box e
        dsimp only
        rw [t5, d14, hd1, d11, d15]
        exact ⟨l, l1', l2, l3, l4, l5⟩
      · exact ⟨⟨f, dtg', sp.stp, smin, smax⟩, rfl, ⟨v1, v2, v3, v4, v5⟩, rfl, t3.symm⟩
      · dsimp only; rw [d7, hd2, b13, a8, w1]
      · dsimp only; rw [d8, hd3, b14, a9, w2]
      · dsimp only; rw [d9, hd4, b15, a10, w3]

theorem onNewX_ls (par : Par F V) (ops : LineSearch.Ops F M) (o : Opt F M V) (x : V) (f : F) (g : V) (r : Opt F M V)
    (h : onNewX par ops o x f g = .ret r) :
    r.ls = o.ls ∨ ∃ a : LineSearch.Args F, r.ls = LineSearch.start ops o.ls a.f0 a.g0 a.stp a.stpmin a.stpmax := by
  unfold onNewX at h
  obtain ⟨-, -, -, -, w5, -⟩ := updated_keeps par o x g
  rcases direction_stages par o x g with ⟨q, st, hq, hk, -⟩ | ⟨q, hq, hk, -⟩
  · rw [hq] at h
    cases h
    unfold SameBut at hk
    exact Or.inl (hk.2.2.2.2.2.1.trans w5)
  · obtain ⟨a, dtg⟩ := q
    rw [hq] at h; dsimp only at hk h
    unfold SameBut at hk
    obtain ⟨-, -, -, -, -, a6, -⟩ := hk
    obtain ⟨-, -, b3, -⟩ := initialStep_keeps par a x f g dtg
    generalize initialStep par a x f g dtg = is at *
    obtain ⟨b, dtg'⟩ := is
    dsimp only at *
    generalize hl : limitStep par b x = lr at h
    have hls : ∀ q, lr = .error q → q.ls = b.ls := by
      intro q hq
      rw [hq] at hl
      unfold limitStep at hl
      dsimp only at hl
      generalize par.box = bx at hl
      rcases bx with _ | box
      · cases hl
      · dsimp only at hl
        generalize box.steplim x b.d = sl at hl
        rcases sl with st | l
        · cases hl; rfl
        · dsimp only at hl
          split_ifs at hl <;> cases hl <;> rfl
    have hls' : ∀ q, lr = .ok q → q.1.ls = b.ls := by
      intro q hq
      rw [hq] at hl
      unfold limitStep at hl
      dsimp only at hl
      generalize par.box = bx at hl
      rcases bx with _ | box
      · cases hl; rfl
      · dsimp only at hl
        generalize box.steplim x b.d = sl at hl
        rcases sl with st | l
        · cases hl
        · dsimp only at hl
          by_cases h3 : l.s3 ≤ 0
          · rw [if_pos h3] at hl; cases hl
          · rw [if_neg h3] at hl
            cases hl
            dsimp only
            split_ifs <;> rfl
    rcases lr with q | ⟨l1, smin, smax⟩
    · cases h
      exact Or.inl ((hls r rfl).trans (b3.trans (a6.trans w5)))
    · dsimp only at h
      obtain ⟨-, -, d3, -⟩ := savePoint_keeps par l1 x f g
      generalize savePoint par l1 x f g = sp at *
      have els : sp.ls = o.ls := d3.trans ((hls' _ rfl).trans (b3.trans (a6.trans w5)))
      rw [els] at h
      split_ifs at h with ht
      cases h
      exact Or.inr ⟨⟨f, dtg', sp.stp, smin, smax⟩, rfl⟩

theorem iterate_newX (par : Par F V) (ops : LineSearch.Ops F M) (o : Opt F M V) (x : V) (f : F) (g : V)
    (hn : o.task = .newX ∨ o.task = .finalX) :
    (∃ r, onNewX par ops o x f g = .brk r ∧ iterate par ops o x f g = trial par r) ∨
    ∃ r, onNewX par ops o x f g = .ret r ∧ r.task = .error ∧ iterate par ops o x f g = (r, x) := by
  rcases onNewX_cases par ops o x f g with ⟨r, (⟨h1, -⟩ | ⟨h1, h2⟩), -⟩
  · refine Or.inl ⟨r, h1, ?_⟩
    unfold iterate
    rcases hn with h | h <;> rw [h] <;> dsimp only <;> rw [h1]
  · refine Or.inr ⟨r, h1, h2, ?_⟩
    unfold iterate
    rcases hn with h | h <;> rw [h] <;> dsimp only <;> rw [h1]

/-- A new iterate is only announced by the acceptance of the point where the function has been computed. -/
theorem newX_accept (par : Par F V) (ops : LineSearch.Ops F M) (o : Opt F M V) (x : V) (f : F) (g : V)
    (h : (iterate par ops o x f g).1.task = .newX ∨ (iterate par ops o x f g).1.task = .finalX) :
    o.task = .computeFG ∧ (iterate par ops o x f g).2 = x ∧
    ∃ o', (iterate par ops o x f g).1 = accept par o' x g ∧ onFG par ops o x f g = .ret (accept par o' x g) ∧
      (o.evaluations < 1 ∧ o' = { o with evaluations := o.evaluations + 1 } ∨
       1 ≤ o.evaluations ∧ ∃ r, r = LineSearch.iterate ops o.ls o.stp f
          (derivative par ops { o with evaluations := o.evaluations + 1 } x g) ∧
        (r.1.task = .convergence ∨ r.1.task = .warning ∧ r.1.status = .roundingErrorsPreventProgress) ∧
        o' = { o with evaluations := o.evaluations + 1, ls := r.1, stp := r.2, iterations := o.iterations + 1 }) := by
  unfold iterate at h ⊢
  have hnx : ∀ q, q = onNewX par ops o x f g →
      ((match q with | .ret o => (o, x) | .brk o => trial par o : Opt F M V × V).1.task = .newX ∨
       (match q with | .ret o => (o, x) | .brk o => trial par o : Opt F M V × V).1.task = .finalX) → False := by
    intro q hq h
    rcases onNewX_cases par ops o x f g with ⟨r, (⟨h1, -⟩ | ⟨h1, h2⟩), -⟩
    · rw [hq, h1] at h
      dsimp only at h
      rcases trial_keeps par r with ⟨st, e, -⟩ | e <;> rw [e] at h <;> rcases h with h | h <;> cases h
    · rw [hq, h1] at h
      dsimp only at h
      rw [h2] at h; rcases h with h | h <;> cases h
  generalize ht : o.task = t at h ⊢
  rcases t with _ | _ | _ | _ | _ | _ <;> dsimp only at h ⊢
  · rw [ht] at h; rcases h with h | h <;> cases h
  · rw [ht] at h; rcases h with h | h <;> cases h
  · refine ⟨rfl, ?_⟩
    unfold onFG at h ⊢
    dsimp only at h ⊢
    by_cases h1 : o.evaluations + 1 > 1
    · rw [if_pos h1] at h ⊢
      generalize hq : LineSearch.iterate ops o.ls o.stp f _ = q at h ⊢
      by_cases h2 : q.1.task = .search
      · rw [if_pos h2] at h
        dsimp only at h
        exfalso
        rcases trial_keeps par { o with evaluations := o.evaluations + 1, ls := q.1, stp := q.2 } with ⟨st, e, -⟩ | e <;>
          rw [e] at h <;> rcases h with h | h <;> cases h
      · rw [if_neg h2] at h ⊢
        split_ifs at h ⊢ with h3
        · exfalso; rcases h with h | h <;> cases h
        · refine ⟨rfl, _, rfl, rfl, Or.inr ⟨by omega, q, by simpa only [ht] using hq.symm, ?_, by simp only [ht]⟩⟩
          by_cases hc : q.1.task = .convergence
          · exact Or.inl hc
          · right
            by_contra hcon
            refine h3 ⟨hc, ?_⟩
            by_cases hw : q.1.task = .warning
            · right; intro hs; exact hcon ⟨hw, hs⟩
            · left; exact hw
    · rw [if_neg h1]
      exact ⟨rfl, _, rfl, rfl, Or.inl ⟨by omega, by simp only [ht]⟩⟩
  · exact (hnx _ rfl h).elim
  · exact (hnx _ rfl h).elim
  · rw [ht] at h; rcases h with h | h <;> cases h

/-- What the acceptance of a point gives. -/
theorem accept_free (par : Par F V) (o : Opt F M V) (x g : V) (box : Cs F V) (hb : par.box = some box)
    (h : (accept par o x g).task ≠ .error) :
    box.freevar x g = .ok (accept par o x g).w ∧
    (par.method = .blmvm → (accept par o x g).gp = par.vs.product (accept par o x g).w g) := by
  unfold accept at h ⊢
  rw [hb] at h ⊢
  dsimp only at h ⊢
  rcases hf : box.freevar x g with st | w
  · rw [hf] at h; exact absurd rfl h
  · dsimp only
    rcases hm : par.method <;> simp only [success] <;> split_ifs <;> simp

theorem calls_snoc (par : Par F V) (ops : LineSearch.Ops F M) (o : Opt F M V) (hist : List (Call F V)) (c : Call F V) :
    calls par ops o (hist ++ [c]) = step par ops (calls par ops o hist) c := by
  induction hist generalizing o with
  | nil => rfl
  | cons a l ih => exact ih _

/-- When a new iterate is announced, the mask is that of the free variables at this point. -/
theorem newX_free (par : Par F V) (ops : LineSearch.Ops F M) (opt : Opt F M V) (h0 : opt.task = .error)
    (hist : List (Call F V)) (box : Cs F V) (hb : par.box = some box)
    (hn : (calls par ops opt hist).task = .newX ∨ (calls par ops opt hist).task = .finalX) :
    ∃ x g, box.freevar x g = .ok (calls par ops opt hist).w ∧
      (par.method = .blmvm → (calls par ops opt hist).gp = par.vs.product (calls par ops opt hist).w g) := by
  rcases List.eq_nil_or_concat hist with rfl | ⟨l, c, rfl⟩
  · exfalso
    rw [show calls par ops opt [] = opt from rfl, h0] at hn; rcases hn with h | h <;> cases h
  · rw [List.concat_eq_append, calls_snoc] at hn ⊢
    generalize calls par ops opt l = o at *
    rcases c with x | ⟨x, f, g⟩
    · exfalso
      unfold step start at hn
      rw [hb] at hn
      dsimp only at hn
      generalize box.projvar x = pv at hn
      rcases pv with st | x' <;> rcases hn with h | h <;> cases h
    · change (iterate par ops o x f g).1.task = .newX ∨ (iterate par ops o x f g).1.task = .finalX at hn
      obtain ⟨-, -, o', e, -⟩ := newX_accept par ops o x f g hn
      refine ⟨x, g, ?_⟩
      change box.freevar x g = .ok (iterate par ops o x f g).1.w ∧
        (par.method = .blmvm → (iterate par ops o x f g).1.gp = par.vs.product (iterate par ops o x f g).1.w g)
      rw [e] at hn ⊢
      exact accept_free par o' x g box hb (by rcases hn with h | h <;> rw [h] <;> simp)

end Opk.Vmlmb
