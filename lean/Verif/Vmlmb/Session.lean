import Verif.Vmlmb.Decrease
import Verif.Vmlmb.Direction
import Verif.Optim.Exact
/-!
# C22: every point where the function is to be computed is feasible

Sessions of a caller which gives back to the optimizer the variables as they were set by the
optimizer, together with an arbitrary function value and an arbitrary gradient, in exact arithmetic.
-/
set_option linter.unusedSectionVars false
set_option linter.unusedSimpArgs false
namespace Opk.Vmlmb
open Opk.Optim Opk.Box Matrix

section sess
variable {F M V : Type} [Add F] [Sub F] [Mul F] [Div F] [Neg F] [Zero F] [One F]
  [LinearOrder F] [CMath F]

/-- What the caller may do: (re)start with some variables or call `opk_iterate`, with a new function
value and gradient if they were asked, with the last ones otherwise. -/
inductive Act (F V : Type) where
  | start (x : V)
  | go (f : F) (g : V)

/-- One action of the caller. -/
def Sess.act (par : Par F V) (ops : LineSearch.Ops F M) (s : Sess F M V) : Act F V → Sess F M V
  | .start x => Sess.begin par s.opt x s.f s.g
  | .go f g => if s.opt.task = .computeFG then s.reply par ops f g else s.next par ops

/-- A sequence of actions. -/
def Sess.acts (par : Par F V) (ops : LineSearch.Ops F M) (s : Sess F M V) : List (Act F V) → Sess F M V
  | [] => s
  | a :: l => Sess.acts par ops (s.act par ops a) l

theorem acts_append (par : Par F V) (ops : LineSearch.Ops F M) (s : Sess F M V) (l1 l2 : List (Act F V)) :
    s.acts par ops (l1 ++ l2) = (s.acts par ops l1).acts par ops l2 := by
  induction l1 generalizing s with
  | nil => rfl
  | cons a l ih => exact ih _

end sess

section exact
variable {K M : Type} [Field K] [LinearOrder K] [IsStrictOrderedRing K] [CMath K] {n : Nat}

/-- The optimizer works in exact arithmetic with a box set of consistent bounds (or none). -/
structure Setting (par : Par K (Fin n → K)) (inf : K) (lower upper : Side K n) : Prop where
  vs : par.vs = exactVs
  hinf : 0 < inf
  bounds : Bounds lower upper
  method : MethodOk par
  box : par.box = none ∧ lower = .unset ∧ upper = .unset ∨ par.box = some (boxCs inf lower upper)

open Classical in
/-- Specification: the gradient restricted to the variables which can move along its opposite. -/
noncomputable def freeGrad (lower upper : Side K n) (x g : Fin n → K) : Fin n → K :=
  fun i => if Blocked (-g i) (x i) (lower.at i) (upper.at i) then 0 else g i

theorem freeGrad_unset (x g : Fin n → K) : freeGrad (.unset : Side K n) .unset x g = g := by
  funext i
  unfold freeGrad
  rw [if_neg]
  simp [Side.at, Blocked]

theorem freeGrad_eq (inf : K) (lower upper : Side K n) (x g w : Fin n → K)
    (h : (boxCs inf lower upper).freevar x g = .ok w) : w * g = freeGrad lower upper x g := by
  obtain ⟨-, h2⟩ := freevar_mask inf lower upper x g w h
  obtain ⟨-, h4⟩ := projdir_open inf lower upper x g _ h2
  funext i
  unfold freeGrad
  split_ifs with hb
  · exact (h4 i).1 hb
  · exact (h4 i).2 hb

theorem open_freeGrad (lower upper : Side K n) (x g : Fin n → K) : Open lower upper x (freeGrad lower upper x g) := by
  intro i
  unfold freeGrad
  split_ifs with hb
  · rintro (⟨h, -⟩ | ⟨h, -⟩) <;> simp at h
  · exact hb

theorem freeGrad_dot (lower upper : Side K n) (x g : Fin n → K) :
    freeGrad lower upper x g ⬝ᵥ g = freeGrad lower upper x g ⬝ᵥ freeGrad lower upper x g := by
  unfold dotProduct
  refine Finset.sum_congr rfl fun i _ => ?_
  unfold freeGrad
  split_ifs <;> simp

theorem open_unset (x d : Fin n → K) : Open (.unset : Side K n) .unset x d := by
  intro i; simp [Side.at, Blocked]

theorem feasible_unset (x : Fin n → K) : Feasible (.unset : Side K n) .unset x := by
  intro i; simp [Side.at, Inside]

/-- The direction of steepest descent. -/
def steep (par : Par K (Fin n → K)) (o : Opt K M (Fin n → K)) (g : Fin n → K) : Fin n → K :=
  match par.method with | .vmlmb => par.vs.product o.w g | .blmvm => o.gp | .lbfgs => g

/-- Invariant of the sessions. -/
structure SInv (par : Par K (Fin n → K)) (inf : K) (lower upper : Side K n) (s : Sess K M (Fin n → K)) : Prop where
  feasible : s.opt.task = .computeFG ∨ s.opt.task = .newX ∨ s.opt.task = .finalX → Feasible lower upper s.x
  newX : s.opt.task = .newX ∨ s.opt.task = .finalX →
    steep par s.opt s.g = freeGrad lower upper s.x s.g ∧
    s.opt.gnorm = CMath.sqrt (freeGrad lower upper s.x s.g ⬝ᵥ freeGrad lower upper s.x s.g)
  search : s.opt.task = .computeFG ∧ 0 < s.opt.evaluations →
    Feasible lower upper s.opt.x0 ∧ Open lower upper s.opt.x0 s.opt.d ∧
    (∀ box, par.box = some box → ∃ l, box.steplim s.opt.x0 s.opt.d = .ok l ∧ s.opt.bsmin = l.s2) ∧
    s.opt.ls.task = .search ∧ s.opt.ls.stp = s.opt.stp ∧ 0 ≤ s.opt.ls.stpmin ∧
    s.opt.ls.stpmin ≤ s.opt.ls.stpmax ∧ s.opt.ls.stpmin ≤ s.opt.stp

theorem accept_inv (par : Par K (Fin n → K)) (inf : K) (lower upper : Side K n) (hs : Setting par inf lower upper)
    (o : Opt K M (Fin n → K)) (x g : Fin n → K) :
    steep par (accept par o x g) g = freeGrad lower upper x g ∧
    (accept par o x g).gnorm = CMath.sqrt (freeGrad lower upper x g ⬝ᵥ freeGrad lower upper x g) := by
  have hm := hs.method
  unfold MethodOk at hm
  rcases hs.box with ⟨hb, rfl, rfl⟩ | hb
  · rw [freeGrad_unset]
    have hl := hm.2 hb
    unfold accept steep
    rw [hb, hl, hs.vs]
    simp only [success]
    split_ifs <;> exact ⟨trivial, rfl⟩
  · have hw := freevar_eq inf lower upper x g
    generalize (fun i => freeO (-1) (g i) (x i) (lower.at i) (upper.at i) : Fin n → K) = w at hw
    have hpg := freeGrad_eq inf lower upper x g w hw
    obtain ⟨hww, -⟩ := freevar_mask inf lower upper x g w hw
    have hdot : (∑ i, w i * g i * g i) = freeGrad lower upper x g ⬝ᵥ freeGrad lower upper x g := by
      rw [← hpg]
      unfold dotProduct
      refine Finset.sum_congr rfl fun i _ => ?_
      have := congrFun hww i
      simp only [Pi.mul_apply] at this ⊢
      calc w i * g i * g i = (w i * w i) * g i * g i := by rw [this]
        _ = _ := by ring
    unfold accept steep
    rw [hb]
    dsimp only
    rw [hw]
    dsimp only
    rcases hme : par.method with _ | _ | _
    · rw [hb] at hm; exact absurd (hm.1 hme) (by simp)
    · simp only [success, hs.vs]
      rw [← hdot, ← hpg]
      split_ifs <;> exact ⟨rfl, rfl⟩
    · simp only [success, hs.vs]
      rw [← hpg]
      split_ifs <;> exact ⟨rfl, rfl⟩

theorem start_inv (par : Par K (Fin n → K)) (inf : K) (lower upper : Side K n) (hs : Setting par inf lower upper)
    (s : Sess K M (Fin n → K)) (x : Fin n → K) (f : K) (g : Fin n → K) :
    SInv par inf lower upper (Sess.begin par s.opt x f g) := by
  unfold Sess.begin start
  rcases hs.box with ⟨hb, rfl, rfl⟩ | hb
  · rw [hb]
    constructor
    · intro _; exact feasible_unset _
    · intro h; rcases h with h | h <;> cases h
    · rintro ⟨-, h⟩; exact absurd h (lt_irrefl _)
  · rw [hb]
    dsimp only
    rw [projvar_eq]
    dsimp only
    constructor
    · intro _; exact projvar_feasible inf lower upper hs.bounds x _ (projvar_eq inf lower upper x)
    · intro h; rcases h with h | h <;> cases h
    · rintro ⟨-, h⟩; exact absurd h (lt_irrefl _)

/-- The chosen direction never pushes a variable which is at a bound beyond this bound. -/
theorem chosen_open (par : Par K (Fin n → K)) (inf : K) (lower upper : Side K n) (hs : Setting par inf lower upper)
    (o : Opt K M (Fin n → K)) (x g d : Fin n → K) (dtg : K) (h : Chosen par o x g d dtg)
    (hst : steep par o g = freeGrad lower upper x g) : Open lower upper x d := by
  rcases h with ⟨⟨-, hc⟩, -⟩ | ⟨-, hd, -⟩
  · rcases hs.box with ⟨hb, rfl, rfl⟩ | hb
    · exact open_unset _ _
    · rw [hb] at hc
      exact (projdir_open inf lower upper x _ d hc).1
  · have : d = steep par o g := hd
    rw [this, hst]; exact open_freeGrad _ _ _ _

theorem trial_inv (par : Par K (Fin n → K)) (inf : K) (lower upper : Side K n) (hs : Setting par inf lower upper)
    (o : Opt K M (Fin n → K)) (f : K) (g : Fin n → K)
    (h1 : Feasible lower upper o.x0) (h2 : Open lower upper o.x0 o.d)
    (h3 : ∀ box, par.box = some box → ∃ l, box.steplim o.x0 o.d = .ok l ∧ o.bsmin = l.s2)
    (h4 : o.ls.task = .search) (h5 : o.ls.stp = o.stp) (h6 : 0 ≤ o.ls.stpmin) (h7 : o.ls.stpmin ≤ o.ls.stpmax)
    (h8 : o.ls.stpmin ≤ o.stp) :
    SInv par inf lower upper { opt := (trial par o).1, x := (trial par o).2, f := f, g := g } := by
  have key : (trial par o).1 = success o .computeFG ∧ Feasible lower upper (trial par o).2 := by
    unfold trial
    rcases hs.box with ⟨hb, rfl, rfl⟩ | hb
    · rw [hb]; exact ⟨rfl, feasible_unset _⟩
    · rw [hb]
      dsimp only
      by_cases hc : o.stp > o.bsmin
      · rw [if_pos hc, projvar_eq]
        exact ⟨rfl, projvar_feasible inf lower upper hs.bounds _ _ (projvar_eq inf lower upper _)⟩
      · rw [if_neg hc]
        refine ⟨rfl, ?_⟩
        obtain ⟨l, e1, e2⟩ := h3 _ hb
        obtain ⟨l', e3, -, -, -, -, -, e4, -⟩ := steplim_ok inf hs.hinf lower upper o.x0 o.d h1
        rw [e1] at e3
        cases e3
        have hf := e4 h2 o.stp (le_trans h6 h8) (by rw [← e2]; exact not_lt.1 hc)
        have : par.vs.axpby 1 o.x0 (-o.stp) o.d = fun i => o.x0 i - o.stp * o.d i := by
          rw [hs.vs]; funext i
          show (1 • o.x0 + (-o.stp) • o.d) i = _
          simp [sub_eq_add_neg]
        rw [this]; exact hf
  constructor
  · intro _; exact key.2
  · intro h; dsimp only at h; rw [key.1] at h; rcases h with h | h <;> cases h
  · intro _
    dsimp only
    rw [key.1]
    exact ⟨h1, h2, h3, h4, h5, h6, h7, h8⟩

theorem iterate_inv (par : Par K (Fin n → K)) (ops : LineSearch.Ops K M) (ok : LineSearch.Method ops) (inf : K)
    (lower upper : Side K n) (hs : Setting par inf lower upper) (s : Sess K M (Fin n → K)) (f : K) (g : Fin n → K)
    (hi : SInv par inf lower upper s)
    (hg : s.opt.task = .newX ∨ s.opt.task = .finalX → g = s.g) :
    SInv par inf lower upper { opt := (iterate par ops s.opt s.x f g).1, x := (iterate par ops s.opt s.x f g).2, f := f, g := g } := by
  by_cases hn : s.opt.task = .newX ∨ s.opt.task = .finalX
  · have hgs := hg hn
    subst hgs
    obtain ⟨n1, n2⟩ := hi.newX hn
    have hf := hi.feasible (Or.inr hn)
    rcases iterate_newX par ops s.opt s.x f s.g hn with ⟨r, e1, e2⟩ | ⟨r, e1, e2, e3⟩
    · have hB := onNewX_begun par ops ok s.opt s.x f s.g r e1
      rw [e2]
      apply trial_inv par inf lower upper hs
      · rw [hB.x0]; exact hf
      · rw [hB.x0]; exact chosen_open par inf lower upper hs _ _ _ _ _ hB.chosen n1
      · intro box hb
        obtain ⟨l, l1, -, l2, -⟩ := hB.lim box hb
        exact ⟨l, by rw [hB.x0]; exact l1, l2⟩
      · exact hB.task
      · exact hB.stp
      · exact hB.stpmin.1
      · exact le_trans hB.stpmin.2.1 hB.stpmin.2.2
      · exact hB.stpmin.2.1
    · rw [e3]
      constructor <;> dsimp only <;> rw [e2] <;> intro h <;> simp at h
  · by_cases hfg : s.opt.task = .computeFG
    · by_cases hnew : (iterate par ops s.opt s.x f g).1.task = .newX ∨ (iterate par ops s.opt s.x f g).1.task = .finalX
      · obtain ⟨-, hx, o', e, -⟩ := newX_accept par ops s.opt s.x f g hnew
        constructor
        · intro _; dsimp only; rw [hx]; exact hi.feasible (Or.inl hfg)
        · intro _
          dsimp only
          rw [hx, e]
          exact accept_inv par inf lower upper hs o' s.x g
        · dsimp only
          rintro ⟨h, -⟩
          rw [h] at hnew; rcases hnew with h | h <;> cases h
      · by_cases hcf : (iterate par ops s.opt s.x f g).1.task = .computeFG
        · have hit : iterate par ops s.opt s.x f g =
              (match onFG par ops s.opt s.x f g with | .ret o => (o, s.x) | .brk o => trial par o) := by
            unfold iterate; rw [hfg]; dsimp only
            rcases onFG par ops s.opt s.x f g with r | r <;> rfl
          rw [hit] at hcf ⊢
          unfold onFG at hcf ⊢
          dsimp only at hcf ⊢
          have hacc : ∀ o' : Opt K M (Fin n → K), (accept par o' s.x g).task = .computeFG → False := by
            intro o' h
            obtain ⟨-, -, -, -, -, -, -, -, -, -, -, -, -, -, -, -, -, -, -, k20, -⟩ := accept_keeps par o' s.x g
            rcases k20 with k | k | k <;> rw [k] at h <;> cases h
          by_cases he : s.opt.evaluations + 1 > 1
          · rw [if_pos he] at hcf ⊢
            obtain ⟨s1, s2, s3, s4, s5, s6, s7, s8⟩ := hi.search ⟨hfg, by omega⟩
            generalize derivative par ops { s.opt with evaluations := s.opt.evaluations + 1 } s.x g = dtg at hcf ⊢
            obtain ⟨t1, t2, t3⟩ := LineSearch.iterate_step ops ok s.opt.ls f dtg s4 s7
            obtain ⟨u1, u2, -, -⟩ := LineSearch.iterate_data ops ok s.opt.ls s.opt.ls.stp f dtg
            rw [← s5] at hcf ⊢
            generalize LineSearch.iterate ops s.opt.ls s.opt.ls.stp f dtg = q at *
            by_cases hq : q.1.task = .search
            · rw [if_pos hq]
              dsimp only
              apply trial_inv par inf lower upper hs
              · exact s1
              · exact s2
              · exact s3
              · exact hq
              · exact t3.symm
              · dsimp only; rw [u1]; exact s6
              · dsimp only; rw [u1, u2]; exact s7
              · dsimp only; rw [u1, t3]; exact t1
            · rw [if_neg hq] at hcf
              split_ifs at hcf
              · cases hcf
              · exact (hacc _ hcf).elim
          · rw [if_neg he] at hcf
            exact (hacc _ hcf).elim
        · constructor <;> dsimp only
          · intro h; rcases h with h | h
            · exact absurd h hcf
            · exact absurd h hnew
          · intro h; exact absurd h hnew
          · intro h; exact absurd h.1 hcf
    · have hit : iterate par ops s.opt s.x f g = (s.opt, s.x) := by
        unfold iterate
        push Not at hn
        generalize ht : s.opt.task = t at *
        rcases t with _ | _ | _ | _ | _ | _
        · rfl
        · rfl
        · exact absurd rfl hfg
        · exact absurd rfl hn.1
        · exact absurd rfl hn.2
        · rfl
      rw [hit]
      constructor <;> dsimp only
      · intro h; rcases h with h | h
        · exact absurd h hfg
        · exact absurd h hn
      · intro h; exact absurd h hn
      · intro h; exact absurd h.1 hfg

theorem act_inv (par : Par K (Fin n → K)) (ops : LineSearch.Ops K M) (ok : LineSearch.Method ops) (inf : K)
    (lower upper : Side K n) (hs : Setting par inf lower upper) (s : Sess K M (Fin n → K)) (a : Act K (Fin n → K))
    (hi : SInv par inf lower upper s) : SInv par inf lower upper (s.act par ops a) := by
  rcases a with x | ⟨f, g⟩
  · exact start_inv par inf lower upper hs s x s.f s.g
  · unfold Sess.act
    dsimp only
    by_cases h : s.opt.task = .computeFG
    · rw [if_pos h]
      exact iterate_inv par ops ok inf lower upper hs s f g hi
        (fun h' => by rw [h] at h'; rcases h' with h | h <;> cases h)
    · rw [if_neg h]
      exact iterate_inv par ops ok inf lower upper hs s s.f s.g hi (fun _ => rfl)

theorem acts_inv (par : Par K (Fin n → K)) (ops : LineSearch.Ops K M) (ok : LineSearch.Method ops) (inf : K)
    (lower upper : Side K n) (hs : Setting par inf lower upper) (l : List (Act K (Fin n → K))) :
    ∀ s : Sess K M (Fin n → K), SInv par inf lower upper s → SInv par inf lower upper (s.acts par ops l) := by
  induction l with
  | nil => intro s h; exact h
  | cons a l ih => intro s h; exact ih _ (act_inv par ops ok inf lower upper hs s a h)

/-- The initial session of a caller, with a new optimizer. -/
theorem new_inv (par : Par K (Fin n → K)) (inf : K) (lower upper : Side K n) (opt : Opt K M (Fin n → K))
    (ht : opt.task = .error) (x : Fin n → K) (f : K) (g : Fin n → K) :
    SInv par inf lower upper { opt := opt, x := x, f := f, g := g } := by
  constructor <;> dsimp only <;> rw [ht] <;> intro h <;> simp at h

/-- The bounds given to the constructor as a convex set (`none` is `NULL`). -/
def boxArg (inf : K) (lower upper : Side K n) (bounded : Bool) : Option (Cs K (Fin n → K)) :=
  if bounded then some (boxCs inf lower upper) else none

theorem new_setting (finite : K → Bool) (opts : Options K) (size : Int) (same bounded : Bool) (inf : K) (h0 : 0 < inf)
    (lower upper : Side K n) (hb : Bounds lower upper) (hu : bounded = false → lower = .unset ∧ upper = .unset)
    (ls0 : LineSearch.Ls K M) (raw : Opt K M (Fin n → K)) (par : Par K (Fin n → K)) (opt : Opt K M (Fin n → K))
    (hnew : new finite exactVs opts size (boxArg inf lower upper bounded) same ls0 raw = some (par, opt)) :
    Setting par inf lower upper := by
  obtain ⟨k1, k2, -, -, -, k6, -⟩ := new_method finite _ opts size _ same ls0 raw par opt hnew
  refine ⟨k6, h0, hb, k1, ?_⟩
  rcases bounded with _ | _
  · exact Or.inl ⟨k2, hu rfl⟩
  · exact Or.inr k2

/-- **C22.** In exact arithmetic, for a new optimizer with consistent bounds (or no bounds), any line search,
any options, and any sequence of actions of the caller (starts with any variables, arbitrary function
values and gradients): whenever the optimizer asks for the function value and the gradient, and whenever it
announces a new iterate or the final one, the variables satisfy the bounds. -/
theorem iterates_feasible (finite : K → Bool) (opts : Options K) (size : Int) (same bounded : Bool) (inf : K) (h0 : 0 < inf)
    (lower upper : Side K n) (hb : Bounds lower upper) (hu : bounded = false → lower = .unset ∧ upper = .unset)
    (ls0 : LineSearch.Ls K M) (raw : Opt K M (Fin n → K)) (par : Par K (Fin n → K)) (opt : Opt K M (Fin n → K))
    (hnew : new finite exactVs opts size (boxArg inf lower upper bounded) same ls0 raw = some (par, opt))
    (ops : LineSearch.Ops K M) (ok : LineSearch.Method ops) (x : Fin n → K) (f : K) (g : Fin n → K)
    (l : List (Act K (Fin n → K))) :
    let s := Sess.acts par ops { opt := opt, x := x, f := f, g := g } l
    s.opt.task = .computeFG ∨ s.opt.task = .newX ∨ s.opt.task = .finalX → Feasible lower upper s.x := by
  intro s
  have hs := new_setting finite opts size same bounded inf h0 lower upper hb hu ls0 raw par opt hnew
  obtain ⟨-, -, -, ht0, -, -⟩ := new_counters finite _ opts size _ same ls0 raw par opt hnew
  exact (acts_inv par ops ok inf lower upper hs l _ (new_inv par inf lower upper opt ht0 x f g)).feasible

end exact

end Opk.Vmlmb
