import Verif.Vmlmb.Search
import Verif.Vmlmb.Bfgs
/-! # C29: the option `save_memory` does not change the iterates -/
set_option linter.unusedSectionVars false
set_option linter.unusedSimpArgs false
namespace Opk.Vmlmb
open Opk.Optim

variable {F M V : Type} [Add F] [Sub F] [Mul F] [Div F] [Neg F] [Zero F] [One F]
  [LinearOrder F] [CMath F]

/-- The same settings with the option `save_memory`. -/
def saving (par : Par F V) : Par F V := { par with saveMemory := true }

/-- The optimizers agree on what does not depend on where the vectors are stored. -/
structure Agree (par : Par F V) (a b : Opt F M V) : Prop where
  evaluations : a.evaluations = b.evaluations
  iterations : a.iterations = b.iterations
  restarts : a.restarts = b.restarts
  updates : a.updates = b.updates
  ls : a.ls = b.ls
  stp : a.stp = b.stp
  ginit : a.ginit = b.ginit
  gnorm : a.gnorm = b.gnorm
  f0 : a.f0 = b.f0
  gamma : par.method ≠ .vmlmb → a.gamma = b.gamma

/-- The masks and the projected gradients are the same. -/
def Masks (par : Par F V) (a b : Opt F M V) : Prop :=
  (par.box ≠ none → a.w = b.w) ∧ (par.method = .blmvm → a.gp = b.gp)

/-- Simulation: `a` without and `b` with the option. -/
structure Sim (par : Par F V) (a b : Opt F M V) : Prop extends Agree par a b where
  task : a.task = b.task
  status : a.status = b.status
  mp : a.task ≠ .error → b.mp = min a.mp (par.m - 1)
  dir : a.task = .computeFG ∧ 0 < a.evaluations → a.d = b.d ∧ (par.box ≠ none → a.bsmin = b.bsmin)
  masks : a.task = .newX ∨ a.task = .finalX → Masks par a b

theorem accept_sim (par : Par F V) (a b : Opt F M V) (hp : MethodOk par) (h : Agree par a b) (x g : V) (hmp : b.mp = min a.mp (par.m - 1)) :
    Sim par (accept par a x g) (accept (saving par) b x g) := by
  obtain ⟨e1, e2, e3, e4, e5, e6, e7, e8, e9, e10⟩ := h
  unfold MethodOk at hp
  unfold accept saving
  dsimp only
  rcases hb : par.box with _ | box
  · have hl := hp.2 hb
    simp only [hl, success, e1]
    by_cases hev : b.evaluations = 1
    · simp only [hev, if_true]
      refine ⟨⟨by first | rfl | exact e1, e2, e3, e4, e5, e6, rfl, rfl, e9, e10⟩, rfl, rfl, fun _ => hmp, ?_, fun _ => ⟨fun h => absurd hb h, (fun h => by rw [hl] at h; cases h)⟩⟩
      dsimp only
      split_ifs <;> simp
    · simp only [hev, if_false]
      refine ⟨⟨by first | rfl | exact e1, e2, e3, e4, e5, e6, e7, rfl, e9, e10⟩, by dsimp only; rw [e7], rfl, fun _ => hmp, ?_, fun _ => ⟨fun h => absurd hb h, (fun h => by rw [hl] at h; cases h)⟩⟩
      dsimp only
      split_ifs <;> simp
  · dsimp only
    rcases box.freevar x g with st | w
    · exact ⟨⟨e1, e2, e3, e4, e5, e6, e7, e8, e9, e10⟩, rfl, rfl, fun h => absurd rfl h, (fun h => by cases h.1),
        (fun h => by rcases h with h | h <;> cases h)⟩
    · dsimp only
      rcases hm : par.method with _ | _ | _
      · rw [hp.1 hm] at hb; cases hb
      · simp only [success, e1]
        by_cases hev : b.evaluations = 1
        · simp only [hev, if_true]
          refine ⟨⟨by first | rfl | exact e1, e2, e3, e4, e5, e6, rfl, rfl, e9, e10⟩, rfl, rfl, fun _ => hmp, ?_, fun _ => ⟨fun h => rfl, (fun h => by rw [hm] at h; cases h)⟩⟩
          dsimp only
          split_ifs <;> simp
        · simp only [hev, if_false]
          refine ⟨⟨by first | rfl | exact e1, e2, e3, e4, e5, e6, e7, rfl, e9, e10⟩, by dsimp only; rw [e7], rfl, fun _ => hmp, ?_, fun _ => ⟨fun h => rfl, (fun h => by rw [hm] at h; cases h)⟩⟩
          dsimp only
          split_ifs <;> simp
      · simp only [success, e1]
        by_cases hev : b.evaluations = 1
        · simp only [hev, if_true]
          refine ⟨⟨by first | rfl | exact e1, e2, e3, e4, e5, e6, rfl, rfl, e9, e10⟩, rfl, rfl, fun _ => hmp, ?_, fun _ => ⟨fun h => rfl, fun h => rfl⟩⟩
          dsimp only
          split_ifs <;> simp
        · simp only [hev, if_false]
          refine ⟨⟨by first | rfl | exact e1, e2, e3, e4, e5, e6, e7, rfl, e9, e10⟩, by dsimp only; rw [e7], rfl, fun _ => hmp, ?_, fun _ => ⟨fun h => rfl, fun h => rfl⟩⟩
          dsimp only
          split_ifs <;> simp

theorem trial_sim (par : Par F V) (a b : Opt F M V) (h : Agree par a b) (hmp : b.mp = min a.mp (par.m - 1))
    (hx : a.x0 = b.x0) (hd : a.d = b.d) (hbs : par.box ≠ none → a.bsmin = b.bsmin) :
    Sim par (trial par a).1 (trial (saving par) b).1 ∧ (trial par a).2 = (trial (saving par) b).2 := by
  obtain ⟨e1, e2, e3, e4, e5, e6, e7, e8, e9, e10⟩ := h
  unfold trial saving
  dsimp only
  rcases hb : par.box with _ | box
  · refine ⟨⟨⟨e1, e2, e3, e4, e5, e6, e7, e8, e9, e10⟩, rfl, rfl, fun _ => hmp, fun _ => ⟨hd, fun h => absurd hb h⟩,
      (fun h => by rcases h with h | h <;> cases h)⟩, ?_⟩
    dsimp only; rw [hx, hd, e6]
  · dsimp only
    have hbs' := hbs (by rw [hb]; simp)
    rw [hx, hd, e6, hbs']
    split_ifs
    · generalize box.projvar _ = pv
      rcases pv with st | x'
      · exact ⟨⟨⟨e1, e2, e3, e4, e5, e6, e7, e8, e9, e10⟩, rfl, rfl, fun h => absurd rfl h, (fun h => by cases h.1),
          (fun h => by rcases h with h | h <;> cases h)⟩, rfl⟩
      · exact ⟨⟨⟨e1, e2, e3, e4, e5, e6, e7, e8, e9, e10⟩, rfl, rfl, fun _ => hmp, fun _ => ⟨hd, fun _ => hbs'⟩,
          (fun h => by rcases h with h | h <;> cases h)⟩, rfl⟩
    · exact ⟨⟨⟨e1, e2, e3, e4, e5, e6, e7, e8, e9, e10⟩, rfl, rfl, fun _ => hmp, fun _ => ⟨hd, fun _ => hbs'⟩,
          (fun h => by rcases h with h | h <;> cases h)⟩, rfl⟩

theorem onFG_sim (par : Par F V) (ops : LineSearch.Ops F M) (a b : Opt F M V) (hp : MethodOk par) (h : Sim par a b)
    (ht : a.task = .computeFG) (hx : 0 < a.evaluations → a.x0 = b.x0) (hev : 0 ≤ a.evaluations) (x : V) (f : F) (g : V) :
    Sim par (iterate par ops a x f g).1 (iterate (saving par) ops b x f g).1 ∧
    (iterate par ops a x f g).2 = (iterate (saving par) ops b x f g).2 := by
  have ht' : b.task = .computeFG := by rw [← h.task]; exact ht
  obtain ⟨⟨e1, e2, e3, e4, e5, e6, e7, e8, e9, e10⟩, -, e12, e13, e14, e15⟩ := h
  have hmp := e13 (by rw [ht]; simp)
  unfold iterate
  rw [ht, ht']
  dsimp only
  unfold onFG
  dsimp only
  by_cases he : a.evaluations + 1 > 1
  · have he' : b.evaluations + 1 > 1 := by rw [← e1]; exact he
    rw [if_pos he, if_pos he']
    have hpos : 0 < a.evaluations := by omega
    obtain ⟨hd, hbs⟩ := e14 ⟨ht, hpos⟩
    have hx0 := hx hpos
    have hder : derivative par ops { a with evaluations := a.evaluations + 1 } x g =
        derivative (saving par) ops { b with evaluations := b.evaluations + 1 } x g := by
      unfold derivative saving
      dsimp only
      have h1 : Opt.x0 { a with evaluations := a.evaluations + 1 } = Opt.x0 { b with evaluations := b.evaluations + 1 } := hx0
      rw [h1, e6, hd]
    generalize derivative par ops { a with evaluations := a.evaluations + 1 } x g = dtg at *
    generalize derivative (saving par) ops { b with evaluations := b.evaluations + 1 } x g = dtg' at *
    subst hder
    have hq : LineSearch.iterate ops a.ls a.stp f dtg = LineSearch.iterate ops b.ls b.stp f dtg := by rw [e5, e6]
    generalize LineSearch.iterate ops a.ls a.stp f dtg = q at *
    generalize LineSearch.iterate ops b.ls b.stp f dtg = q' at *
    subst hq
    by_cases hs : q.1.task = .search
    · rw [if_pos hs, if_pos hs]
      dsimp only
      exact trial_sim par _ _ ⟨by dsimp only; rw [e1], e2, e3, e4, rfl, rfl, e7, e8, e9, e10⟩ hmp hx0 hd hbs
    · rw [if_neg hs, if_neg hs]
      split_ifs
      · exact ⟨⟨⟨by simp only [failure]; rw [e1], e2, e3, e4, rfl, rfl, e7, e8, e9, e10⟩, rfl, rfl, fun h => absurd rfl h, (fun h => by cases h.1),
          (fun h => by rcases h with h | h <;> cases h)⟩, rfl⟩
      · dsimp only
        refine ⟨?_, rfl⟩
        refine accept_sim par _ _ hp ?_ x g hmp
        exact ⟨by dsimp only; rw [e1], by dsimp only; rw [e2], e3, e4, rfl, rfl, e7, e8, e9, e10⟩
  · have he' : ¬ b.evaluations + 1 > 1 := by rw [← e1]; exact he
    rw [if_neg he, if_neg he']
    dsimp only
    refine ⟨?_, rfl⟩
    refine accept_sim par _ _ hp ?_ x g hmp
    exact ⟨by dsimp only; rw [e1], e2, e3, e4, e5, e6, e7, e8, e9, e10⟩

theorem start_sim (par : Par F V) (hm : 1 ≤ par.m) (a b : Opt F M V) (h : Sim par a b) (x : V) :
    Sim par (start par a x).1 (start (saving par) b x).1 ∧ (start par a x).2 = (start (saving par) b x).2 := by
  obtain ⟨⟨e1, e2, e3, e4, e5, e6, e7, e8, e9, e10⟩, -⟩ := h
  unfold start saving
  dsimp only
  have h0 : (0 : Int) = min 0 (par.m - 1) := by omega
  rcases hb : par.box with _ | box
  · exact ⟨⟨⟨rfl, rfl, rfl, rfl, e5, e6, e7, e8, e9, e10⟩, rfl, rfl, fun _ => h0, fun h => absurd h.2 (lt_irrefl _),
      (fun h => by rcases h with h | h <;> cases h)⟩, rfl⟩
  · dsimp only
    rcases box.projvar x with st | x'
    · exact ⟨⟨⟨rfl, rfl, rfl, rfl, e5, e6, e7, e8, e9, e10⟩, rfl, rfl, fun _ => h0, fun h => absurd h.2 (lt_irrefl _),
        (fun h => by rcases h with h | h <;> cases h)⟩, rfl⟩
    · exact ⟨⟨⟨rfl, rfl, rfl, rfl, e5, e6, e7, e8, e9, e10⟩, rfl, rfl, fun _ => h0, fun h => absurd h.2 (lt_irrefl _),
        (fun h => by rcases h with h | h <;> cases h)⟩, rfl⟩

/-! ## A new iterate -/

theorem updated_agree (par : Par F V) (a b : Opt F M V) (h : Sim par a b) (hn : a.task = .newX ∨ a.task = .finalX)
    (hb0 : 1 ≤ a.iterations → a.x0 = b.x0 ∧ a.g0 = b.g0) (hm0 : a.iterations = 0 → a.mp = 0) (hit : 0 ≤ a.iterations)
    (hm : 1 ≤ par.m) (hmp : 0 ≤ a.mp ∧ a.mp ≤ par.m) (x g : V) :
    Agree par (updated par a x g) (updated (saving par) b x g) ∧ Masks par (updated par a x g) (updated (saving par) b x g) ∧
    (updated par a x g).mp = (updated (saving par) b x g).mp := by
  have hmpb := h.mp (by rcases hn with h | h <;> rw [h] <;> simp)
  have hmask := h.masks hn
  obtain ⟨⟨e1, e2, e3, e4, e5, e6, e7, e8, e9, e10⟩, -⟩ := h
  unfold updated
  rw [← e2]
  by_cases hi : a.iterations ≥ 1
  · rw [if_pos hi, if_pos hi]
    have hgp : (if par.method = .blmvm then a.gp else g) = (if (saving par).method = .blmvm then b.gp else g) := by
      show _ = (if par.method = .blmvm then b.gp else g)
      split_ifs with hbm
      · exact hmask.2 hbm
      · rfl
    rw [← hgp]
    generalize (if par.method = .blmvm then a.gp else g) = g'
    obtain ⟨k1, k2, k3, k4, k5, k6, k7, k8, k9, k10, k11⟩ := update_keeps par a x g'
    obtain ⟨l1, l2, l3, l4, l5, l6, l7, l8, l9, l10, l11⟩ := update_keeps (saving par) b x g'
    obtain ⟨-, -, -, -, -, -, s7, -, -, -, t1, -, t3, -⟩ := update_stores par a x g'
    obtain ⟨-, -, -, -, -, -, s7', -, -, -, t1', -, t3', -⟩ := update_stores (saving par) b x g'
    have hsm : (saving par).m = par.m := rfl
    have hsv : (saving par).vs = par.vs := rfl
    obtain ⟨hx, hg⟩ := hb0 hi
    refine ⟨⟨by rw [k1, l1, e1], by rw [k2, l2, e2], by rw [k3, l3, e3], by rw [k5, l5, e4], by rw [k6, l6, e5], by rw [t1, t1', e6],
      by rw [k11, l11, e7], by rw [k10, l10, e8], by rw [t3, t3', e9], fun hv => ?_⟩,
      ⟨fun h => by rw [k8, l8]; exact hmask.1 h, fun h => by rw [k9, l9]; exact hmask.2 h⟩, ?_⟩
    · rw [(s7 hv).2, (s7' hv).2, hx, hg, e10 hv]; rfl
    · rw [k4, l4, hsm, hmpb]
      have := hmp.1; have := hmp.2
      split_ifs <;> omega
  · rw [if_neg hi, if_neg hi]
    refine ⟨⟨e1, e2, e3, e4, e5, e6, e7, e8, e9, e10⟩, hmask, ?_⟩
    rw [hmpb, hm0 (by omega)]; omega

theorem apply_agree (par : Par F V) (u v : Opt F M V) (vis : List (V × V)) (h : Agree par u v) (hk : Masks par u v)
    (hp : MethodOk par) (hmp : u.mp = v.mp) (h0 : 0 ≤ u.mp) (h1 : u.mp ≤ par.m) (h2 : u.mp ≤ u.updates)
    (hu : ∀ j : Nat, 1 ≤ j → (j : Int) ≤ u.mp → PairOk par u vis j)
    (hv : ∀ j : Nat, 1 ≤ j → (j : Int) ≤ v.mp → PairOk (saving par) v vis j) (g : V) :
    (apply par u g).2 = (apply (saving par) v g).2 ∧ (apply par u g).1.d = (apply (saving par) v g).1.d := by
  have hn : ((u.mp.toNat : Nat) : Int) = u.mp := Int.toNat_of_nonneg h0
  have hu' : ∀ j : Nat, 1 ≤ j → j ≤ u.mp.toNat → PairOk par u vis j := fun j j1 j2 => hu j j1 (by omega)
  have hv' : ∀ j : Nat, 1 ≤ j → j ≤ v.mp.toNat → PairOk (saving par) v vis j := fun j j1 j2 => hv j j1 (by omega)
  by_cases hm : par.method = .vmlmb
  · obtain ⟨a1, a2⟩ := apply_weq par u g hm h0 h1 h2
    obtain ⟨b1, b2⟩ := apply_weq (saving par) v g hm (by omega) (by rw [← hmp]; exact h1) (by rw [← hmp, ← h.updates]; exact h2)
    rw [rawPairs_eq par u vis _ hu'] at a1 a2
    rw [rawPairs_eq (saving par) v vis _ hv'] at b1 b2
    have hw : u.w = v.w := hk.1 (fun hb => by unfold MethodOk at hp; rw [hp.2 hb] at hm; cases hm)
    rw [hmp, hw] at a1 a2
    exact ⟨a1.trans b1.symm, a2.trans b2.symm⟩
  · obtain ⟨a1, a2, -⟩ := apply_eq par u g hm h0 h1 h2
    obtain ⟨b1, b2, -⟩ := apply_eq (saving par) v g hm (by omega) (by rw [← hmp]; exact h1) (by rw [← hmp, ← h.updates]; exact h2)
    rw [pairsOf_eq par u vis _ hm hu'] at a1 a2
    rw [pairsOf_eq (saving par) v vis _ hm hv'] at b1 b2
    rw [hmp] at a1
    rw [hmp, h.gamma hm] at a2
    exact ⟨a1.trans b1.symm, a2.trans b2.symm⟩

/-- Outcome of the computation of the direction. -/
theorem direction_agree (par : Par F V) (a b : Opt F M V) (x g : V) (hp : MethodOk par)
    (h : Agree par (updated par a x g) (updated (saving par) b x g)) (hk : Masks par (updated par a x g) (updated (saving par) b x g))
    (hmp : (updated par a x g).mp = (updated (saving par) b x g).mp)
    (ha : (apply par (updated par a x g) g).2 = (apply (saving par) (updated (saving par) b x g) g).2)
    (hd : (apply par (updated par a x g) g).1.d = (apply (saving par) (updated (saving par) b x g) g).1.d) :
    (∃ p q st, direction par a x g = .error (failure p st) ∧ direction (saving par) b x g = .error (failure q st) ∧ Agree par p q) ∨
    ∃ p q dtg, direction par a x g = .ok (p, dtg) ∧ direction (saving par) b x g = .ok (q, dtg) ∧
      Agree par p q ∧ Masks par p q ∧ p.mp = q.mp ∧ (dtg < 0 → p.d = q.d) := by
  have hu : (if a.iterations ≥ 1 then update par a x (if par.method = .blmvm then a.gp else g) else a)
      = updated par a x g := rfl
  have hu' : (if b.iterations ≥ 1 then update (saving par) b x (if (saving par).method = .blmvm then b.gp else g) else b)
      = updated (saving par) b x g := rfl
  unfold direction
  dsimp only
  rw [hu, hu']
  have s1 := apply_same par (updated par a x g) g
  have s2 := apply_same (saving par) (updated (saving par) b x g) g
  have r1 := apply_rho par (updated par a x g) g
  have r2 := apply_rho (saving par) (updated (saving par) b x g) g
  unfold SameBut at s1 s2
  obtain ⟨a1, a2, a3, a4, a5, a6, a7, a8, a9, a10, a11, a12, a13, a14, a15, a16, a17, a18⟩ := s1
  obtain ⟨b1, b2, b3, b4, b5, b6, b7, b8, b9, b10, b11, b12, b13, b14, b15, b16, b17, b18⟩ := s2
  generalize updated par a x g = u at *
  generalize updated (saving par) b x g = v at *
  obtain ⟨e1, e2, e3, e4, e5, e6, e7, e8, e9, e10⟩ := h
  generalize hpu : apply par u g = pu at *
  generalize hpv : apply (saving par) v g = pv at *
  obtain ⟨p, c⟩ := pu
  obtain ⟨q, c'⟩ := pv
  dsimp only at *
  have hag : Agree par p q := ⟨by rw [a1, b1, e1], by rw [a2, b2, e2], by rw [a3, b3, e3], by rw [a5, b5, e4],
    by rw [a6, b6, e5], by simp_all, by simp_all, by simp_all, by simp_all, fun hv => by rw [(r1 hv).2, (r2 hv).2, e10 hv]⟩
  have hma : Masks par p q := ⟨fun h => by rw [a8, b8]; exact hk.1 h, fun h => by rw [a9, b9]; exact hk.2 h⟩
  have hmp' : p.mp = q.mp := by rw [a4, b4, hmp]
  subst ha
  rcases c with _ | _
  · right
    exact ⟨p, q, 0, rfl, rfl, hag, hma, hmp', fun h => absurd h (lt_irrefl _)⟩
  · simp only [if_true]
    have hg := hag.gnorm
    have key : ∀ d : V, ∀ p' q' : Opt F M V, p' = { p with d := d } → q' = { q with d := d } →
        ∃ p'' q'' dtg, (if par.epsilon > 0 ∧ - -par.vs.dot p'.d g < par.epsilon * par.vs.norm2 p'.d * p'.gnorm then
          (Except.ok (p', 0) : Except (Opt F M V) (Opt F M V × F)) else .ok (p', -par.vs.dot p'.d g)) = .ok (p'', dtg) ∧
        (if par.epsilon > 0 ∧ - -par.vs.dot q'.d g < par.epsilon * par.vs.norm2 q'.d * q'.gnorm then
          (Except.ok (q', 0) : Except (Opt F M V) (Opt F M V × F)) else .ok (q', -par.vs.dot q'.d g)) = .ok (q'', dtg) ∧
        Agree par p'' q'' ∧ Masks par p'' q'' ∧ p''.mp = q''.mp ∧ (dtg < 0 → p''.d = q''.d) := by
      rintro d p' q' rfl rfl
      dsimp only
      have hag' : Agree par { p with d := d } { q with d := d } := by
        obtain ⟨e1, e2, e3, e4, e5, e6, e7, e8, e9, e10⟩ := hag
        exact ⟨e1, e2, e3, e4, e5, e6, e7, e8, e9, e10⟩
      by_cases hc : par.epsilon > 0 ∧ - -par.vs.dot d g < par.epsilon * par.vs.norm2 d * p.gnorm
      · have hc' : par.epsilon > 0 ∧ - -par.vs.dot d g < par.epsilon * par.vs.norm2 d * q.gnorm := by rw [← hg]; exact hc
        rw [if_pos hc, if_pos hc']
        exact ⟨_, _, _, rfl, rfl, hag', hma, hmp', fun _ => rfl⟩
      · have hc' : ¬ (par.epsilon > 0 ∧ - -par.vs.dot d g < par.epsilon * par.vs.norm2 d * q.gnorm) := by rw [← hg]; exact hc
        rw [if_neg hc, if_neg hc']
        exact ⟨_, _, _, rfl, rfl, hag', hma, hmp', fun _ => rfl⟩
    have hsb : (saving par).box = par.box := rfl
    rw [hsb]
    rcases par.box with _ | box
    · right
      dsimp only
      exact key q.d p q (by rw [← hd]) rfl
    · dsimp only
      rw [hd]
      rcases box.projdir x q.d with st | d
      · left
        exact ⟨p, q, _, rfl, rfl, hag⟩
      · right
        exact key d _ _ rfl rfl

theorem initialStep_agree (par : Par F V) (p q : Opt F M V) (x : V) (f : F) (g : V) (dtg : F) (hp : MethodOk par)
    (h : Agree par p q) (hk : Masks par p q) (hmp : p.mp = q.mp) (hd : dtg < 0 → p.d = q.d) :
    (initialStep par p x f g dtg).2 = (initialStep (saving par) q x f g dtg).2 ∧
    Agree par (initialStep par p x f g dtg).1 (initialStep (saving par) q x f g dtg).1 ∧
    Masks par (initialStep par p x f g dtg).1 (initialStep (saving par) q x f g dtg).1 ∧
    (initialStep par p x f g dtg).1.mp = (initialStep (saving par) q x f g dtg).1.mp ∧
    (initialStep par p x f g dtg).1.d = (initialStep (saving par) q x f g dtg).1.d := by
  obtain ⟨e1, e2, e3, e4, e5, e6, e7, e8, e9, e10⟩ := h
  unfold initialStep
  by_cases hneg : dtg < 0
  · rw [if_pos hneg, if_pos hneg]
    exact ⟨rfl, ⟨e1, e2, e3, e4, e5, rfl, e7, e8, e9, e10⟩, hk, hmp, hd hneg⟩
  · rw [if_neg hneg, if_neg hneg]
    dsimp only
    rw [← hmp]
    have hstep : ∀ (p' q' : Opt F M V) (t : F), p'.gnorm = q'.gnorm → (par.box ≠ none → p'.w = q'.w) →
        steepestStep par p' x f t = steepestStep (saving par) q' x f t := by
      intro p' q' t h1 h2
      unfold steepestStep
      show _ = if !(f == 0) then lit 2 1 * fabs (f / t) else
        (let dnorm := q'.gnorm
         let xnorm := match par.box with | some _ => CMath.sqrt (par.vs.dot3 q'.w x x) | none => par.vs.norm2 x
         if xnorm > 0 then par.delta * xnorm / dnorm else par.delta / dnorm)
      rw [h1]
      rcases hb : par.box with _ | box
      · rfl
      · rw [h2 (by rw [hb]; simp)]
    generalize hP : (if p.mp > 0 then { p with restarts := p.restarts + 1, mp := 0 } else p) = P
    generalize hQ : (if p.mp > 0 then { q with restarts := q.restarts + 1, mp := 0 } else q) = Q
    have hPQ : Agree par P Q ∧ Masks par P Q ∧ P.mp = Q.mp := by
      subst hP hQ
      split_ifs
      · exact ⟨⟨e1, e2, by dsimp only; rw [e3], e4, e5, e6, e7, e8, e9, e10⟩, hk, rfl⟩
      · exact ⟨⟨e1, e2, e3, e4, e5, e6, e7, e8, e9, e10⟩, hk, hmp⟩
    obtain ⟨⟨f1, f2, f3, f4, f5, f6, f7, f8, f9, f10⟩, fk, fm⟩ := hPQ
    have hsm : (saving par).method = par.method := rfl
    have hsv : (saving par).vs = par.vs := rfl
    rw [hsm, hsv]
    have hbox : par.method ≠ .lbfgs → par.box ≠ none := fun h1 h2 => h1 (hp.2 h2)
    rcases hme : par.method with _ | _ | _ <;> dsimp only <;> rw [f8]
    · refine ⟨rfl, ⟨f1, f2, f3, f4, f5, ?_, f7, rfl, f9, f10⟩, fk, fm, rfl⟩
      exact hstep _ _ _ rfl fk.1
    · refine ⟨rfl, ⟨f1, f2, f3, f4, f5, ?_, f7, rfl, f9, f10⟩, fk, fm, ?_⟩
      · exact hstep _ _ _ rfl fk.1
      · rw [fk.1 (hbox (by rw [hme]; simp))]
    · refine ⟨rfl, ⟨f1, f2, f3, f4, f5, ?_, f7, rfl, f9, f10⟩, fk, fm, ?_⟩
      · exact hstep _ _ _ rfl fk.1
      · exact fk.2 hme

theorem limitStep_agree (par : Par F V) (p q : Opt F M V) (x : V) (h : Agree par p q) (hk : Masks par p q)
    (hmp : p.mp = q.mp) (hd : p.d = q.d) :
    (∃ st, limitStep par p x = .error (failure p st) ∧ limitStep (saving par) q x = .error (failure q st)) ∨
    ∃ p' q' smin smax, limitStep par p x = .ok (p', smin, smax) ∧ limitStep (saving par) q x = .ok (q', smin, smax) ∧
      Agree par p' q' ∧ Masks par p' q' ∧ p'.mp = q'.mp ∧ p'.d = q'.d ∧ (par.box ≠ none → p'.bsmin = q'.bsmin) := by
  obtain ⟨e1, e2, e3, e4, e5, e6, e7, e8, e9, e10⟩ := h
  unfold limitStep
  have hsb : (saving par).box = par.box := rfl
  rw [hsb]
  dsimp only
  rcases hb : par.box with _ | box
  · right
    refine ⟨p, q, _, _, rfl, ?_, ⟨e1, e2, e3, e4, e5, e6, e7, e8, e9, e10⟩, hk, hmp, hd, fun h => absurd rfl h⟩
    rw [e6]; rfl
  · dsimp only
    rw [hd]
    rcases box.steplim x q.d with st | l
    · left; exact ⟨_, rfl, rfl⟩
    · dsimp only
      by_cases h3 : l.s3 ≤ 0
      · left; rw [if_pos h3, if_pos h3]; exact ⟨_, rfl, rfl⟩
      · right
        rw [if_neg h3, if_neg h3]
        rw [e6]
        by_cases h4 : q.stp > l.s3
        · simp only [if_pos h4]
          refine ⟨_, _, _, _, rfl, rfl, ⟨e1, e2, e3, e4, e5, rfl, e7, e8, e9, e10⟩, hk, hmp, (by first | rfl | exact hd), fun _ => rfl⟩
        · simp only [if_neg h4]
          refine ⟨_, _, _, _, rfl, rfl, ⟨e1, e2, e3, e4, e5, e6, e7, e8, e9, e10⟩, hk, hmp, (by first | rfl | exact hd), fun _ => rfl⟩

theorem newX_sim (par : Par F V) (hsave : par.saveMemory = false) (ops : LineSearch.Ops F M) (a b : Opt F M V) (hp : MethodOk par) (h : Sim par a b)
    (hn : a.task = .newX ∨ a.task = .finalX) (x : V) (f : F) (g : V)
    (hupd : Agree par (updated par a x g) (updated (saving par) b x g) ∧
      Masks par (updated par a x g) (updated (saving par) b x g) ∧ (updated par a x g).mp = (updated (saving par) b x g).mp)
    (hm : 1 ≤ par.m) (hmpm : 0 ≤ (updated par a x g).mp ∧ (updated par a x g).mp ≤ par.m)
    (ha : (apply par (updated par a x g) g).2 = (apply (saving par) (updated (saving par) b x g) g).2 ∧
      (apply par (updated par a x g) g).1.d = (apply (saving par) (updated (saving par) b x g) g).1.d) :
    Sim par (iterate par ops a x f g).1 (iterate (saving par) ops b x f g).1 ∧
    (iterate par ops a x f g).2 = (iterate (saving par) ops b x f g).2 := by
  have hn' : b.task = .newX ∨ b.task = .finalX := by rw [← h.task]; exact hn
  have hfail : ∀ (p q : Opt F M V) (st : Status), Agree par p q → Sim par (failure p st) (failure q st) := by
    intro p q st hag
    obtain ⟨e1, e2, e3, e4, e5, e6, e7, e8, e9, e10⟩ := hag
    exact ⟨⟨e1, e2, e3, e4, e5, e6, e7, e8, e9, e10⟩, rfl, rfl, fun h => absurd rfl h, (fun h => by cases h.1),
          (fun h => by rcases h with h | h <;> cases h)⟩
  have hit1 : iterate par ops a x f g = (match onNewX par ops a x f g with | .ret o => (o, x) | .brk o => trial par o) := by
    unfold iterate; rcases hn with h | h <;> rw [h] <;> dsimp only <;> rcases onNewX par ops a x f g with r | r <;> rfl
  have hit2 : iterate (saving par) ops b x f g = (match onNewX (saving par) ops b x f g with | .ret o => (o, x) | .brk o => trial (saving par) o) := by
    unfold iterate; rcases hn' with h | h <;> rw [h] <;> dsimp only <;> rcases onNewX (saving par) ops b x f g with r | r <;> rfl
  rw [hit1, hit2]
  unfold onNewX
  obtain ⟨hu1, hu2, hu3⟩ := hupd
  have hmpdir : ∀ r dtg, direction par a x g = .ok (r, dtg) → 0 ≤ r.mp ∧ r.mp ≤ par.m := by
    intro r dtg hr
    rcases direction_stages par a x g with ⟨q, st, hq, hk, -⟩ | ⟨q, hq, hk, -⟩
    · rw [hq] at hr; cases hr
    · rw [hq] at hr
      cases hr
      unfold SameBut at hk
      rw [hk.2.2.2.1]; exact hmpm
  rcases direction_agree par a b x g hp hu1 hu2 hu3 ha.1 ha.2 with ⟨p, q, st, d1, d2, d3⟩ | ⟨p, q, dtg, d1, d2, d3, d4, d5, d6⟩
  · rw [d1, d2]
    dsimp only
    exact ⟨hfail _ _ _ d3, rfl⟩
  · have hpm := hmpdir p dtg d1
    rw [d1, d2]
    dsimp only
    obtain ⟨-, -, -, -, -, -, -, -, -, -, -, -, -, -, -, -, -, -, -, b20⟩ := initialStep_keeps par p x f g dtg
    obtain ⟨i1, i2, i3, i4, i5⟩ := initialStep_agree par p q x f g dtg hp d3 d4 d5 d6
    generalize initialStep par p x f g dtg = P at *
    generalize initialStep (saving par) q x f g dtg = Q at *
    obtain ⟨P, t⟩ := P
    obtain ⟨Q, t'⟩ := Q
    dsimp only at *
    subst i1
    have hPm : 0 ≤ P.mp ∧ P.mp ≤ par.m := by rcases b20 with h | h <;> omega
    rcases limitStep_agree par P Q x i2 i3 i4 i5 with ⟨st, l1, l2⟩ | ⟨p', q', smin, smax, l1, l2, l3, l4, l5, l6, l7⟩
    · rw [l1, l2]
      dsimp only
      exact ⟨hfail _ _ _ i2, rfl⟩
    · have hp'm : p'.mp = P.mp := by
        rcases limitStep_cases par P x with ⟨st, e⟩ | ⟨r, e, s', bs', e'⟩
        · rw [l1] at e; cases e
        · rw [l1] at e; cases e
          dsimp only at e'; rw [e']
      rw [l1, l2]
      dsimp only
      have sx := savePoint_x0 par p' x f g
      have sx' := savePoint_x0 (saving par) q' x f g
      obtain ⟨k1, k2, k3, k4, k5, k6, k7, k8, k9, k10, k11, k12, k13, k14, k15, k16, k17⟩ := savePoint_keeps par p' x f g
      obtain ⟨m1, m2, m3, m4, m5, m6, m7, m8, m9, m10, m11, m12, m13, m14, m15, m16, m17⟩ := savePoint_keeps (saving par) q' x f g
      generalize savePoint par p' x f g = sp at *
      generalize savePoint (saving par) q' x f g = sq at *
      obtain ⟨e1, e2, e3, e4, e5, e6, e7, e8, e9, e10⟩ := l3
      have els : sp.ls = sq.ls := by rw [k3, m3, e5]
      have estp : sp.stp = sq.stp := by rw [k15, m15, e6]
      have hls : LineSearch.start ops sp.ls f t sp.stp smin smax = LineSearch.start ops sq.ls f t sq.stp smin smax := by rw [els, estp]
      generalize LineSearch.start ops sp.ls f t sp.stp smin smax = ls at *
      generalize LineSearch.start ops sq.ls f t sq.stp smin smax = ls' at *
      subst hls
      have hag : Agree par { sp with ls := ls } { sq with ls := ls } :=
        ⟨by dsimp only; rw [k1, m1, e1], by dsimp only; rw [k2, m2, e2], by dsimp only; rw [k13, m13, e3], by dsimp only; rw [k4, m4, e4], rfl, estp,
         by dsimp only; rw [k10, m10, e7], by dsimp only; rw [k9, m9, e8], by dsimp only; rw [k16, m16], fun hv => by dsimp only; rw [k6, m6]; exact e10 hv⟩
      have hmp : sq.mp = min sp.mp (par.m - 1) := by
        have h1 : (saving par).m = par.m := rfl
        have h2 : (saving par).saveMemory = true := rfl
        rw [h1, h2] at m17
        rw [hsave] at k17
        simp only [Bool.false_eq_true, false_and, if_false, true_and] at k17 m17
        rw [k17, m17, ← l5]
        split_ifs <;> omega
      split_ifs with hs
      · exact ⟨hfail _ _ _ hag, rfl⟩
      · dsimp only
        exact trial_sim par _ _ hag hmp (sx.trans sx'.symm) (by dsimp only; rw [k14, m14, l6])
          (fun h => by dsimp only; rw [k11, m11]; exact l7 h)

/-! ## Histories -/

/-- All that is known of both optimizers. -/
structure Both (par : Par F V) (a b : Opt F M V) (ev ac : Int) (vis : List (V × V)) (pg : V) : Prop where
  sim : Sim par a b
  ca : Counters par a ev ac
  cb : Counters (saving par) b ev ac
  ma : MemInv par a vis pg
  mb : MemInv (saving par) b vis pg

theorem iterate_both (par : Par F V) (hsave : par.saveMemory = false) (hp : MethodOk par) (hm : 1 ≤ par.m) (ops : LineSearch.Ops F M)
    (a b : Opt F M V) (x : V) (f : F) (g : V) (ev ac : Int) (vis : List (V × V)) (pg : V) (h : Both par a b ev ac vis pg) :
    (∃ ev ac vis pg, Both par (iterate par ops a x f g).1 (iterate (saving par) ops b x f g).1 ev ac vis pg) ∧
    (iterate par ops a x f g).2 = (iterate (saving par) ops b x f g).2 := by
  obtain ⟨hs, ca, cb, ma, mb⟩ := h
  have hps : MethodOk (saving par) := hp
  have hms : 1 ≤ (saving par).m := hm
  have c1 := (iterate_counters par hm ops a x f g ev ac ca).2
  have c2 := (iterate_counters (saving par) hms ops b x f g ev ac cb).2
  have m1 := iterate_mem par hp hm ops a x f g ev ac ca vis pg ma
  have m2 := iterate_mem (saving par) hps hms ops b x f g ev ac cb vis pg mb
  rw [← hs.task] at c2 m2
  have hbase : (a.task = .computeFG ∧ 0 < a.evaluations ∨ (a.task = .newX ∨ a.task = .finalX) ∧ 1 ≤ a.iterations) →
      a.x0 = b.x0 ∧ a.g0 = b.g0 := by
    intro hc
    obtain ⟨p, p1, p2, p3, -⟩ := ma.base hc
    obtain ⟨q, q1, q2, q3, -⟩ := mb.base (by rw [← hs.task, ← hs.evaluations, ← hs.iterations]; exact hc)
    rw [p1] at q1
    cases q1
    exact ⟨p2.trans q2.symm, p3.trans q3.symm⟩
  have key : Sim par (iterate par ops a x f g).1 (iterate (saving par) ops b x f g).1 ∧
      (iterate par ops a x f g).2 = (iterate (saving par) ops b x f g).2 := by
    by_cases ht : a.task = .computeFG
    · exact onFG_sim par ops a b hp hs ht (fun h => (hbase (Or.inl ⟨ht, h⟩)).1) ca.evaluations_nonneg x f g
    · by_cases hn : a.task = .newX ∨ a.task = .finalX
      · have hn' : b.task = .newX ∨ b.task = .finalX := by rw [← hs.task]; exact hn
        have hupd := updated_agree par a b hs hn (fun h => hbase (Or.inr ⟨hn, h⟩))
          (fun h => by have := ca.mp; have := ca.updates' hn; omega)
          ca.iterations.1 hm ⟨ca.mp.1, ca.mp.2.1⟩ x g
        obtain ⟨u1, -, -, -, u5, u6, u7, -⟩ := updated_mem par hm a x g ev ac ca vis pg ma hn
        obtain ⟨v1, -, -, -, v5, v6, v7, -⟩ := updated_mem (saving par) hms b x g ev ac cb vis pg mb hn'
        have ha := apply_agree par _ _ _ hupd.1 hupd.2.1 hp hupd.2.2 u5 u6 u7 u1 v1 g
        exact newX_sim par hsave ops a b hp hs hn x f g hupd hm ⟨u5, u6⟩ ha
      · have hid : ∀ (q : Par F V) (o : Opt F M V), o.task = a.task → iterate q ops o x f g = (o, x) := by
          intro q o ho
          unfold iterate
          push Not at hn
          rw [ho]
          generalize a.task = t at *
          rcases t with _ | _ | _ | _ | _ | _
          · rfl
          · rfl
          · exact absurd rfl ht
          · exact absurd rfl hn.1
          · exact absurd rfl hn.2
          · rfl
        rw [hid par a rfl, hid (saving par) b hs.task.symm]
        exact ⟨hs, rfl⟩
  rw [← key.1.task] at c2
  exact ⟨⟨_, _, _, _, ⟨key.1, c1, c2, m1, m2⟩⟩, key.2⟩

theorem start_both (par : Par F V) (hm : 1 ≤ par.m) 
    (a b : Opt F M V) (x : V) (ev ac : Int) (vis : List (V × V)) (pg : V) (h : Both par a b ev ac vis pg) :
    (∃ ev ac vis pg, Both par (start par a x).1 (start (saving par) b x).1 ev ac vis pg) ∧
    (start par a x).2 = (start (saving par) b x).2 := by
  obtain ⟨hs, ca, cb, ma, mb⟩ := h
  obtain ⟨s1, s2⟩ := start_sim par hm a b hs x
  exact ⟨⟨_, _, _, _, ⟨s1, (start_counters par hm a x).2, (start_counters (saving par) hm b x).2,
    start_mem par a x vis pg pg ma, start_mem (saving par) b x vis pg pg mb⟩⟩, s2⟩

theorem calls_both (par : Par F V) (hsave : par.saveMemory = false) (hp : MethodOk par) (hm : 1 ≤ par.m) (ops : LineSearch.Ops F M)
    (hist : List (Call F V)) :
    ∀ (a b : Opt F M V), (∃ ev ac vis pg, Both par a b ev ac vis pg) →
      ∃ ev ac vis pg, Both par (calls par ops a hist) (calls (saving par) ops b hist) ev ac vis pg := by
  induction hist with
  | nil => intro a b h; exact h
  | cons c l ih =>
    intro a b h
    obtain ⟨ev, ac, vis, pg, h⟩ := h
    rcases c with x | ⟨x, f, g⟩
    · exact ih _ _ (start_both par hm a b x ev ac vis pg h).1
    · exact ih _ _ (iterate_both par hsave hp hm ops a b x f g ev ac vis pg h).1

/-- **C29.** For any arithmetic, any line search and any history of calls, two optimizers created with the same
arguments except the option `save_memory` (and whatever the initial contents of their vectors) return the same tasks and
store the same variables; they have the same status, step, gradient norm and counters. -/
theorem save_memory_transparent (finite : F → Bool) (vs : Vs F V) (opts : Options F) (size : Int)
    (box : Option (Cs F V)) (same : Bool) (ls : LineSearch.Ls F M) (raw raw' : Opt F M V) (par par' : Par F V)
    (a b : Opt F M V) (hnew : new finite vs { opts with saveMemory := false } size box same ls raw = some (par, a))
    (hnew' : new finite vs { opts with saveMemory := true } size box same ls raw' = some (par', b))
    (ops : LineSearch.Ops F M) (hist : List (Call F V)) :
    let r := calls par ops a hist
    let r' := calls par' ops b hist
    r.task = r'.task ∧ r.status = r'.status ∧ r.stp = r'.stp ∧ r.gnorm = r'.gnorm ∧
    r.evaluations = r'.evaluations ∧ r.iterations = r'.iterations ∧ r.restarts = r'.restarts ∧
    (∀ x f g, (iterate par ops r x f g).2 = (iterate par' ops r' x f g).2) ∧
    ∀ x, (start par r x).2 = (start par' r' x).2 := by
  obtain ⟨hm, -, -, t1, -, hc⟩ := new_counters finite vs _ size box same ls raw par a hnew
  obtain ⟨-, -, -, t1', -, hc'⟩ := new_counters finite vs _ size box same ls raw' par' b hnew'
  obtain ⟨hmo, -, -, -, hsave, -⟩ := new_method finite vs _ size box same ls raw par a hnew
  have hpar : par' = saving par ∧ Sim par a b := by
    have h1 := hnew
    have h2 := hnew'
    unfold new checkOptions at h1 h2
    dsimp only at h1 h2
    split_ifs at h1 h2
    all_goals
      cases h1
      cases h2
      refine ⟨rfl, ⟨⟨rfl, rfl, rfl, rfl, rfl, rfl, rfl, rfl, rfl, fun _ => rfl⟩, rfl, rfl, fun h => absurd rfl h, (fun h => by cases h.1),
          (fun h => by rcases h with h | h <;> cases h)⟩⟩
  obtain ⟨rfl, hsim⟩ := hpar
  intro r r'
  have pg : V := raw.d
  obtain ⟨ev, ac, vis, pg', hB⟩ := calls_both par hsave hmo hm ops hist a b
    ⟨_, _, [], pg, ⟨hsim, hc, hc', new_mem finite vs _ size box same ls raw par a hnew pg,
      new_mem finite vs _ size box same ls raw' _ b hnew' pg⟩⟩
  refine ⟨hB.sim.task, hB.sim.status, hB.sim.stp, hB.sim.gnorm, hB.sim.evaluations, hB.sim.iterations, hB.sim.restarts,
    fun x f g => (iterate_both par hsave hmo hm ops _ _ x f g _ _ _ _ hB).2, fun x => (start_both par hm _ _ x _ _ _ _ hB).2⟩

end Opk.Vmlmb
