import Verif.Newuoa.Model
import Verif.Cobyla.Loops

/-!
# The points evaluated by NEWUOA, the budget and the returned point

The numbers are those of any arithmetic whose order is linear (floating-point numbers without NaN).  The best point also
needs that adding zero changes nothing and that the addition commutes.
-/
namespace Opk.Newuoa
open Linalg CMath Cobyla

set_option linter.unusedSectionVars false

variable {F : Type} [Add F] [_root_.Sub F] [Mul F] [Div F] [Neg F] [Zero F] [One F] [LinearOrder F] [CMath F]

/-- The number of calls which is allowed. -/
def Par.most (p : Par F) : Int := max p.maxfun 1

/-- No value is less than `f`. -/
def Least (log : List ((Nat → F) × F)) (f : F) : Prop := ∀ e ∈ log, f ≤ e.2

/-- While the first points are evaluated. -/
def Ini (s : St F) : Prop :=
  s.log ≠ [] → Least s.log s.fopt ∧ s.fopt ≤ s.f ∧ 1 ≤ s.kopt ∧ s.kopt ≤ s.log.length ∧
    ((fun j => s.xpt s.kopt j + s.xbase j), s.fopt) ∈ s.log

/-- During the iterations. -/
def Main (s : St F) : Prop :=
  Least s.log s.fopt ∧ s.fopt ≤ s.f ∧ ((fun j => s.xbase j + s.xopt j), s.fopt) ∈ s.log

/-- At `L310`. -/
def Next (p : Par F) (s : St F) : Prop :=
  s.nf = s.log.length + 1 ∧ (s.log.length : Int) ≤ p.most ∧
    ((s.nf ≤ p.npt ∧ Ini s ∧ s.x = fun j => s.xpt s.nf j + s.xbase j) ∨
     (p.npt < s.nf ∧ Main s ∧ s.x = (fun j => s.xbase j + s.xnew j) ∧ (s.knew = -1 → s.rho ≤ p.rhoend)))

/-- During the iterations, with the number of calls. -/
def Iter (p : Par F) (s : St F) : Prop :=
  s.nf = s.log.length ∧ (s.log.length : Int) ≤ p.most ∧ p.npt ≤ s.log.length ∧ Main s

/-- At `done`. -/
def Fin (p : Par F) (s : St F) : Prop :=
  s.log ≠ [] ∧ (s.log.length : Int) ≤ p.most ∧
    ((s.fopt ≤ s.f ∧ Least s.log s.fopt ∧ (∃ x, (x, s.fopt) ∈ s.log) ∧
        (p.npt ≤ s.log.length → ((fun j => s.xbase j + s.xopt j), s.fopt) ∈ s.log)) ∨
     (s.f < s.fopt ∧ (s.x, s.f) ∈ s.log ∧ Least s.log s.f)) ∧
    (s.status = .tooManyEvaluations ∧ (s.log.length : Int) = p.most ∨ p.npt ≤ s.log.length ∧
      (s.status = .stepFailed ∨ s.status = .success ∧ s.rho ≤ p.rhoend))

/-- What is returned. -/
def Ret (p : Par F) (s : St F) : Prop :=
  s.log ≠ [] ∧ (s.log.length : Int) ≤ p.most ∧ (∃ x, (x, s.f) ∈ s.log) ∧ Least s.log s.f ∧
    (p.npt ≤ s.log.length → (s.x, s.f) ∈ s.log) ∧
    (s.status = .tooManyEvaluations ∧ (s.log.length : Int) = p.most ∨ p.npt ≤ s.log.length ∧
      (s.status = .stepFailed ∨ s.status = .success ∧ s.rho ≤ p.rhoend))

/-- The invariants at the labels. -/
def Ok (p : Par F) : Lab → St F → Prop
  | .l50, s => s.nf = s.log.length ∧ (s.log.length : Int) ≤ p.most ∧ s.nf < p.npt ∧ Ini s
  | .l310, s => Next p s
  | .ask, s => Next p s ∧ (s.nf : Int) ≤ p.most
  | .l90, s => Iter p s
  | .l100, s => Iter p s
  | .l120, s => Iter p s ∧ s.knew ≠ -1
  | .l290, s => Iter p s ∧ (s.knew = -1 → s.rho ≤ p.rhoend)
  | .l410, s => Iter p s
  | .l460, s => Iter p s
  | .l490, s => Iter p s
  | .done, s => Fin p s
  | .ret, s => Ret p s

/-- The parts of the state on which the invariants depend are not changed. -/
theorem Iter.same {p : Par F} {s t : St F} (h : Iter p s)
    (e : t.nf = s.nf ∧ t.log = s.log ∧ t.fopt = s.fopt ∧ t.f = s.f ∧ t.xbase = s.xbase ∧ t.xopt = s.xopt) : Iter p t := by
  obtain ⟨e1, e2, e3, e4, e5, e6⟩ := e
  unfold Iter Main
  rw [e1, e2, e3, e4, e5, e6]
  exact h

theorem Ini.same {s t : St F} (h : Ini s)
    (e : t.log = s.log ∧ t.fopt = s.fopt ∧ t.f = s.f ∧ t.xbase = s.xbase ∧ t.kopt = s.kopt ∧
      (1 ≤ s.kopt → s.kopt ≤ s.log.length → ∀ j, t.xpt s.kopt j = s.xpt s.kopt j)) : Ini t := by
  obtain ⟨e1, e2, e3, e4, e5, e6⟩ := e
  unfold Ini
  rw [e1, e2, e3, e4, e5]
  intro q
  obtain ⟨a, b, c, d, g⟩ := h q
  refine ⟨a, b, c, d, ?_⟩
  have : (fun j => t.xpt s.kopt j + s.xbase j) = (fun j => s.xpt s.kopt j + s.xbase j) := by
    funext j; rw [e6 c d j]
  rw [this]
  exact g

/-! ### The first points -/

theorem point_same (p : Par F) (s : St F) (nf : Nat) :
    (point p s nf).log = s.log ∧ (point p s nf).fopt = s.fopt ∧ (point p s nf).f = s.f ∧
    (point p s nf).xbase = s.xbase ∧ (point p s nf).kopt = s.kopt ∧ (point p s nf).nf = s.nf ∧
    (∀ k j, k ≠ nf → (point p s nf).xpt k j = s.xpt k j) := by
  unfold point pointC
  dsimp only
  split_ifs
  all_goals refine ⟨rfl, rfl, rfl, rfl, rfl, rfl, ?_⟩
  all_goals intro k j hk
  all_goals simp [set2, hk]

theorem ok_l50 {p : Par F} {s : St F} (h : Ok p .l50 s) : Ok p (l50 p s).1 (l50 p s).2 := by
  obtain ⟨h1, h2, h3, h4⟩ := h
  obtain ⟨q1, q2, q3, q4, q5, _, q7⟩ := point_same p s (s.nf + 1)
  refine ⟨by show s.nf + 1 = _; rw [show (l50 p s).2.log = s.log from q1, h1], by rw [show (l50 p s).2.log = s.log from q1]; exact h2, Or.inl ⟨h3, ?_, rfl⟩⟩
  refine Ini.same h4 ⟨q1, q2, q3, q4, q5, fun a b j => q7 _ _ ?_⟩
  omega

theorem ok_l310 {p : Par F} {s : St F} (h : Ok p .l310 s) : Ok p (l310 p s).1 (l310 p s).2 := by
  obtain ⟨h1, h2, h3⟩ := h
  unfold l310
  by_cases c : (s.nf : Int) > max p.maxfun 1
  · rw [if_pos c]
    have hm : (s.log.length : Int) = p.most := by
      have : (s.nf : Int) > p.most := c
      omega
    have hp : 1 ≤ p.most := le_max_right _ _
    have hne : s.log ≠ [] := by
      intro q; rw [q] at hm; simp at hm; omega
    refine ⟨hne, h2, Or.inl ?_, Or.inl ⟨rfl, hm⟩⟩
    rcases h3 with ⟨a, b, _⟩ | ⟨a, b, _⟩
    · obtain ⟨b1, b2, b3, b4, b5⟩ := b hne
      refine ⟨b2, b1, ⟨_, b5⟩, fun q => ?_⟩
      have : p.npt ≤ s.log.length := q
      omega
    · exact ⟨b.2.1, b.1, ⟨_, b.2.2⟩, fun _ => b.2.2⟩
  · rw [if_neg c]
    exact ⟨⟨h1, h2, h3⟩, not_lt.mp c⟩

/-! ### After an evaluation -/

theorem model_same (p : Par F) (s : St F) :
    (model p s).log = s.log ∧ (model p s).fopt = s.fopt ∧ (model p s).f = s.f ∧
    (model p s).xbase = s.xbase ∧ (model p s).kopt = s.kopt ∧ (model p s).nf = s.nf ∧ (model p s).xpt = s.xpt := by
  unfold model modelA modelB modelC
  dsimp only
  split_ifs
  all_goals exact ⟨rfl, rfl, rfl, rfl, rfl, rfl, rfl⟩

/-- After `L70`, the best of the first points is known. -/
theorem store_ini {p : Par F} {s : St F} (f : F) (h1 : s.nf = s.log.length + 1) (h : Ini s) (hx : s.x = fun j => s.xpt s.nf j + s.xbase j) :
    Ini (store (put f s)) := by
  intro _
  unfold store put
  dsimp only
  by_cases c : s.nf = 1
  · rw [if_pos c]
    have hl : s.log = [] := List.eq_nil_of_length_eq_zero (by omega)
    refine ⟨?_, le_refl _, le_refl _, by simp, ?_⟩
    · intro e he
      have he : e ∈ (s.x, f) :: s.log := he
      rw [hl] at he
      rw [List.mem_singleton.mp he]
    · show ((fun j => s.xpt 1 j + s.xbase j), f) ∈ (s.x, f) :: s.log
      rw [hx, c]
      exact List.mem_cons_self
  · rw [if_neg c]
    have hne : s.log ≠ [] := by
      intro q; rw [q] at h1; exact c h1
    obtain ⟨b1, b2, b3, b4, b5⟩ := h hne
    by_cases c2 : f < s.fopt
    · rw [if_pos c2]
      refine ⟨?_, le_refl _, by show 1 ≤ s.nf; omega, by show s.nf ≤ _; simp [h1], ?_⟩
      · intro e he
        rcases List.mem_cons.mp he with he | he
        · rw [he]
        · exact le_of_lt (lt_of_lt_of_le c2 (b1 e he))
      · show ((fun j => s.xpt s.nf j + s.xbase j), f) ∈ (s.x, f) :: s.log
        rw [hx]
        exact List.mem_cons_self
    · rw [if_neg c2]
      refine ⟨?_, not_lt.mp c2, b3, by show s.kopt ≤ _; simp; omega, List.mem_cons_of_mem _ b5⟩
      intro e he
      rcases List.mem_cons.mp he with he | he
      · rw [he]; exact not_lt.mp c2
      · exact b1 e he

theorem store_same (s : St F) : (store s).log = s.log ∧ (store s).nf = s.nf := by
  unfold store
  dsimp only
  split_ifs <;> exact ⟨rfl, rfl⟩

theorem ok_l70 (hc : ∀ a b : F, a + b = b + a) {p : Par F} {s : St F} (f : F) (h1 : s.nf = s.log.length + 1) (hm : (s.nf : Int) ≤ p.most)
    (hn : s.nf ≤ p.npt) (h : Ini s) (hx : s.x = fun j => s.xpt s.nf j + s.xbase j) :
    Ok p (l70 p (put f s)).1 (l70 p (put f s)).2 := by
  have hi := store_ini (p := p) f h1 h hx
  obtain ⟨e1, e2⟩ := store_same (put f s)
  obtain ⟨q1, q2, q3, q4, q5, q6, q7⟩ := model_same p (store (put f s))
  have hi := Ini.same hi ⟨q1, q2, q3, q4, q5, fun _ _ j => by rw [q7]⟩
  have hl : (model p (store (put f s))).log.length = s.log.length + 1 := by
    rw [q1, e1]; rfl
  have hnf : (model p (store (put f s))).nf = s.nf := by rw [q6, e2]; rfl
  have hnl : s.nf = s.log.length + 1 := h1
  unfold l70
  dsimp only
  obtain ⟨t, ht⟩ : ∃ t, t = model p (store (put f s)) := ⟨_, rfl⟩
  rw [← ht] at hi hl hnf
  rw [← ht]
  clear ht q1 q2 q3 q4 q5 q6 q7 e1 e2
  have hne : t.log ≠ [] := by intro q; rw [q] at hl; simp at hl
  obtain ⟨b1, b2, b3, b4, b5⟩ := hi hne
  by_cases c : t.nf < p.npt
  · rw [if_pos c]
    exact ⟨by show t.nf = t.log.length; omega, by show (t.log.length : Int) ≤ _; omega, c, hi⟩
  · rw [if_neg c]
    refine ⟨by show t.nf = t.log.length; omega, by show (t.log.length : Int) ≤ _; omega, by show p.npt ≤ t.log.length; omega, b1, b2, ?_⟩
    have : (fun j => t.xbase j + t.xpt t.kopt j) = (fun j => t.xpt t.kopt j + t.xbase j) := by
      funext j; exact hc _ _
    show ((fun j => t.xbase j + t.xpt t.kopt j), t.fopt) ∈ t.log
    rw [this]
    exact b5

theorem errors_main {p : Par F} {s : St F} (f : F) (h : Main s) (hx : s.x = fun j => s.xbase j + s.xnew j) :
    Main (errors p (put f s)) := by
  obtain ⟨b1, b2, b3⟩ := h
  unfold errors put
  dsimp only
  by_cases c : f < s.fopt
  · rw [if_pos c]
    refine ⟨?_, le_refl _, ?_⟩
    · intro e he
      rcases List.mem_cons.mp he with he | he
      · rw [he]
      · exact le_of_lt (lt_of_lt_of_le c (b1 e he))
    · show ((fun j => s.xbase j + s.xnew j), f) ∈ (s.x, f) :: s.log
      rw [hx]
      exact List.mem_cons_self
  · rw [if_neg c]
    refine ⟨?_, not_lt.mp c, List.mem_cons_of_mem _ b3⟩
    intro e he
    rcases List.mem_cons.mp he with he | he
    · rw [he]; exact not_lt.mp c
    · exact b1 e he

theorem errors_same (p : Par F) (s : St F) :
    (errors p s).log = s.log ∧ (errors p s).nf = s.nf ∧ (errors p s).knew = s.knew ∧ (errors p s).rho = s.rho := by
  unfold errors
  dsimp only
  split_ifs <;> exact ⟨rfl, rfl, rfl, rfl⟩

theorem ok_after (hc : ∀ a b : F, a + b = b + a) {p : Par F} {s : St F} (f : F) (h : Ok p .ask s) :
    Ok p (answer p f s).1 (answer p f s).2 := by
  obtain ⟨⟨h1, h2, h3⟩, hm⟩ := h
  unfold answer after
  dsimp only
  by_cases c : s.nf ≤ p.npt
  · rw [if_pos (show (put f s).nf ≤ p.npt from c)]
    rcases h3 with ⟨a, b, hx⟩ | ⟨a, b, _⟩
    · exact ok_l70 hc f h1 hm c b hx
    · omega
  · rw [if_neg (show ¬ (put f s).nf ≤ p.npt from c)]
    rcases h3 with ⟨a, _⟩ | ⟨a, b, hx, hk⟩
    · omega
    by_cases k : s.knew = -1
    · rw [if_pos (show (put f s).knew = -1 from k)]
      refine ⟨by simp [put], by show ((s.x, f) :: s.log).length ≤ p.most; simp; omega, ?_, Or.inr ⟨by show p.npt ≤ ((s.x, f) :: s.log).length; simp; omega, Or.inr ⟨rfl, hk k⟩⟩⟩
      obtain ⟨b1, b2, b3⟩ := b
      by_cases g : s.fopt ≤ f
      · refine Or.inl ⟨g, ?_, ⟨_, List.mem_cons_of_mem _ b3⟩, fun _ => List.mem_cons_of_mem _ b3⟩
        intro e he
        rcases List.mem_cons.mp he with he | he
        · subst he; exact g
        · exact b1 e he
      · refine Or.inr ⟨not_le.mp g, List.mem_cons_self, ?_⟩
        intro e he
        rcases List.mem_cons.mp he with he | he
        · subst he; exact le_refl _
        · exact le_of_lt (lt_of_lt_of_le (not_le.mp g) (b1 e he))
    · rw [if_neg (show ¬ (put f s).knew = -1 from k)]
      have he := errors_main (p := p) f b hx
      obtain ⟨e1, e2, e3, e4⟩ := errors_same p (put f s)
      have e1 : (errors p (put f s)).log.length = s.log.length + 1 := by rw [e1]; rfl
      have e2 : (errors p (put f s)).nf = s.nf := e2
      clear e3 e4
      generalize errors p (put f s) = t at he e1 e2 ⊢
      have hit : Iter p t := ⟨by omega, by omega, by omega, he⟩
      by_cases c1 : t.knew > 0
      · rw [if_pos c1]
        exact hit
      · rw [if_neg c1]
        by_cases c2 : t.vquad ≥ 0
        · rw [if_pos c2]
          refine ⟨?_, hit.2.1, Or.inl ⟨he.2.1, he.1, ⟨_, he.2.2⟩, fun _ => he.2.2⟩, Or.inr ⟨hit.2.2.1, Or.inl rfl⟩⟩
          intro q
          have q : t.log = [] := q
          rw [q] at e1
          simp at e1
        · rw [if_neg c2]
          split_ifs
          · exact Iter.same hit ⟨rfl, rfl, rfl, rfl, rfl, rfl⟩
          · exact Iter.same hit ⟨rfl, rfl, rfl, rfl, rfl, rfl⟩

/-! ### The other labels -/

theorem ok_l90 {p : Par F} {s : St F} (h : Ok p .l90 s) : Ok p .l100 { s with nfsav := s.nf } :=
  Iter.same h ⟨rfl, rfl, rfl, rfl, rfl, rfl⟩

theorem short_same (s : St F) : Lab.l460 = (short s).1 ∨ Lab.l490 = (short s).1 := by
  unfold short
  dsimp only
  split_ifs <;> simp

theorem ok_short {p : Par F} {s : St F} (h : Iter p s) : Ok p (short s).1 (short s).2 := by
  unfold short
  dsimp only
  split_ifs
  all_goals exact Iter.same h ⟨rfl, rfl, rfl, rfl, rfl, rfl⟩

theorem ok_l100 {p : Par F} {o : Subs F} {s : St F} (h : Ok p .l100 s) : Ok p (l100 p o s).1 (l100 p o s).2 := by
  unfold l100
  dsimp only
  split_ifs
  · exact ok_short (Iter.same h ⟨rfl, rfl, rfl, rfl, rfl, rfl⟩)
  · exact ⟨Iter.same h ⟨rfl, rfl, rfl, rfl, rfl, rfl⟩, by show (0 : Int) ≠ -1; decide⟩

theorem Iter.shift (hz : ∀ a : F, a + 0 = a) {p : Par F} {s : St F} (h : Iter p s) : Iter p (shift p s) := by
  obtain ⟨a, b, c, d1, d2, d3⟩ := h
  refine ⟨a, b, c, d1, d2, ?_⟩
  show ((fun j => s.xbase j + s.xopt j + 0), s.fopt) ∈ s.log
  rw [show (fun j => s.xbase j + s.xopt j + 0) = fun j => s.xbase j + s.xopt j from funext fun j => hz _]
  exact d3

theorem ok_l120 (hz : ∀ a : F, a + 0 = a) {p : Par F} {o : Subs F} {s : St F} (h : Ok p .l120 s) :
    Ok p (l120 p o s).1 (l120 p o s).2 := by
  obtain ⟨h, hk⟩ := h
  unfold l120
  dsimp only
  have h1 : Iter p (if s.dsq ≤ s.xoptsq * lit 1 1000 then shift p s else s) := by
    split_ifs
    · exact h.shift hz
    · exact h
  have k1 : (if s.dsq ≤ s.xoptsq * lit 1 1000 then shift p s else s).knew = s.knew := by split_ifs <;> rfl
  generalize (if s.dsq ≤ s.xoptsq * lit 1 1000 then shift p s else s) = t at *
  have h2 : Iter p (if t.knew > 0 then { t with alpha := (o.biglag t).1, d := (o.biglag t).2.1, vlag := (o.biglag t).2.2.1, w := (o.biglag t).2.2.2 } else t) := by
    split_ifs
    · exact Iter.same h1 ⟨rfl, rfl, rfl, rfl, rfl, rfl⟩
    · exact h1
  have k2 : (if t.knew > 0 then { t with alpha := (o.biglag t).1, d := (o.biglag t).2.1, vlag := (o.biglag t).2.2.1, w := (o.biglag t).2.2.2 } else t).knew = s.knew := by
    split_ifs <;> exact k1
  generalize (if t.knew > 0 then { t with alpha := (o.biglag t).1, d := (o.biglag t).2.1, vlag := (o.biglag t).2.2.1, w := (o.biglag t).2.2.2 } else t) = u at *
  have h3 : Iter p (lagrange p u) := Iter.same h2 ⟨rfl, rfl, rfl, rfl, rfl, rfl⟩
  have k3 : (lagrange p u).knew = s.knew := k2
  generalize lagrange p u = v at *
  split_ifs
  · exact ⟨Iter.same h3 ⟨rfl, rfl, rfl, rfl, rfl, rfl⟩, fun q => absurd (k3.symm.trans q) hk⟩
  · exact ⟨h3, fun q => absurd (k3.symm.trans q) hk⟩

theorem ok_l290 {p : Par F} {s : St F} (h : Ok p .l290 s) : Ok p (l290 s).1 (l290 s).2 := by
  obtain ⟨⟨h1, h2, h3, h4⟩, hk⟩ := h
  exact ⟨by show s.nf + 1 = _; rw [h1]; rfl, h2, Or.inr ⟨by show p.npt < s.nf + 1; omega, h4, rfl, hk⟩⟩

theorem tryFrobenius_same (p : Par F) (s : St F) :
    (tryFrobenius p s).nf = s.nf ∧ (tryFrobenius p s).log = s.log ∧ (tryFrobenius p s).fopt = s.fopt ∧ (tryFrobenius p s).f = s.f ∧
    (tryFrobenius p s).xbase = s.xbase ∧ (tryFrobenius p s).xopt = s.xopt := by
  unfold tryFrobenius frobenius
  dsimp only
  split_ifs
  all_goals exact ⟨rfl, rfl, rfl, rfl, rfl, rfl⟩

theorem ok_l410 {p : Par F} {o : Subs F} {s : St F} (h : Ok p .l410 s) : Ok p (l410 p o s).1 (l410 p o s).2 := by
  have h1 : Iter p (move p o s) := Iter.same h ⟨rfl, rfl, rfl, rfl, rfl, rfl⟩
  have h2 : Iter p (tryFrobenius p (move p o s)) := Iter.same h1 (tryFrobenius_same p _)
  unfold l410
  dsimp only
  generalize tryFrobenius p (move p o s) = t at *
  split_ifs
  all_goals exact Iter.same h2 ⟨rfl, rfl, rfl, rfl, rfl, rfl⟩

theorem ok_l460 {p : Par F} {s : St F} (h : Ok p .l460 s) : Ok p (l460 p s).1 (l460 p s).2 := by
  unfold l460
  dsimp only
  split_ifs with a b c
  all_goals first
    | exact Iter.same h ⟨rfl, rfl, rfl, rfl, rfl, rfl⟩
    | refine ⟨Iter.same h ⟨rfl, rfl, rfl, rfl, rfl, rfl⟩, ?_⟩
  all_goals intro q
  · have q : s.knew = -1 := q
    omega
  · have q : ((farthest p s).1 : Int) = -1 := q
    omega

theorem ok_l490 {p : Par F} {s : St F} (h : Ok p .l490 s) : Ok p (l490 p s).1 (l490 p s).2 := by
  unfold l490
  dsimp only
  by_cases c : s.rho > p.rhoend
  · rw [if_pos c]
    exact Iter.same h ⟨rfl, rfl, rfl, rfl, rfl, rfl⟩
  · rw [if_neg c]
    by_cases k : s.knew = -1
    · rw [if_pos k]
      exact ⟨h, fun _ => not_lt.mp c⟩
    · rw [if_neg k]
      obtain ⟨h1, h2, h3, h4, h5, h6⟩ := h
      refine ⟨?_, h2, Or.inl ⟨h5, h4, ⟨_, h6⟩, fun _ => h6⟩, Or.inr ⟨h3, Or.inr ⟨rfl, not_lt.mp c⟩⟩⟩
      exact List.ne_nil_of_mem h6

theorem ok_done {p : Par F} {s : St F} (h : Ok p .done s) : Ok p (finish s).1 (finish s).2 := by
  obtain ⟨h1, h2, h3, h4⟩ := h
  unfold finish
  dsimp only
  rcases h3 with ⟨a, b, c, d⟩ | ⟨a, b, c⟩
  · rw [if_pos a]
    exact ⟨h1, h2, c, b, d, h4⟩
  · rw [if_neg (not_le.mpr a)]
    exact ⟨h1, h2, ⟨_, b⟩, c, fun _ => b, h4⟩

/-- The invariants are kept by the steps. -/
theorem ok_step (hz : ∀ a : F, a + 0 = a) {p : Par F} {o : Subs F} (ls : Lab × St F) (h : Ok p ls.1 ls.2) :
    Ok p (step p o ls).1 (step p o ls).2 := by
  obtain ⟨l, s⟩ := ls
  cases l
  · exact ok_l50 h
  · exact ok_l310 h
  · exact h
  · exact ok_l90 h
  · exact ok_l100 h
  · exact ok_l120 hz h
  · exact ok_l290 h
  · exact ok_l410 h
  · exact ok_l460 h
  · exact ok_l490 h
  · exact ok_done h
  · exact h

/-- The invariants are kept by the steps of the machine with the objective function. -/
theorem ok_stepF (hz : ∀ a : F, a + 0 = a) (hc : ∀ a b : F, a + b = b + a) {p : Par F} {o : Subs F} {calfun : Nat → (Nat → F) → F}
    (ls : Lab × St F) (h : Ok p ls.1 ls.2) : Ok p (stepF p o calfun ls).1 (stepF p o calfun ls).2 := by
  unfold stepF
  split
  · exact ok_after hc _ h
  · exact ok_step hz _ h

/-- The invariants are kept by the runs. -/
theorem ok_run (hz : ∀ a : F, a + 0 = a) (hc : ∀ a b : F, a + b = b + a) {p : Par F} {o : Subs F} {calfun : Nat → (Nat → F) → F}
    (fuel : Nat) : ∀ ls : Lab × St F, Ok p ls.1 ls.2 → Ok p (run p o calfun fuel ls).1 (run p o calfun fuel ls).2 := by
  induction fuel with
  | zero => exact fun _ h => h
  | succ k ih => exact fun ls h => ih _ (ok_stepF hz hc ls h)

/-- At the beginning. -/
theorem ok_init {p : Par F} (hp : 0 < p.npt) (s : St F) (hl : s.log = []) : Ok p .l50 (init s) :=
  ⟨by show 0 = s.log.length; rw [hl]; rfl, by show (s.log.length : Int) ≤ p.most; rw [hl]; exact le_trans (show ((0 : Nat) : Int) ≤ 1 by decide) (le_max_right _ _), hp,
    fun q => absurd (show (init s).log = [] from hl) q⟩

end Opk.Newuoa
