import Verif.Vmlmb.Search
import Verif.Vmlmb.Bfgs
/-! # C24: the direction of the variable metric optimizer, for all histories -/
set_option linter.unusedSectionVars false
set_option linter.unusedSimpArgs false
namespace Opk.Vmlmb
open Opk.Optim Matrix

variable {K ι M : Type} [Field K] [LinearOrder K] [IsStrictOrderedRing K] [CMath K] [Fintype ι] [DecidableEq ι]

theorem firstScale_eq (l : List ((ι → K) × (ι → K))) :
    ∀ (i : Nat) (p : (ι → K) × (ι → K)), l[i]? = some p → 0 < p.1 ⬝ᵥ p.2 →
    (∀ i' q, i' < i → l[i']? = some q → ¬ 0 < q.1 ⬝ᵥ q.2) → firstScale l = (p.1 ⬝ᵥ p.2) / (p.2 ⬝ᵥ p.2) := by
  induction l with
  | nil => intro i p h; simp at h
  | cons a l ih =>
    intro i p h hp hq
    unfold firstScale
    rcases i with _ | i
    · simp at h; subst h; rw [if_pos hp]
    · rw [if_neg (hq 0 a (by omega) (by simp))]
      refine ih i p (by simpa using h) hp fun i' q hi hq' => hq (i' + 1) q (by omega) (by simpa using hq')

/-- The first element of a list which satisfies a property. -/
theorem exists_first {α : Type} (P : α → Prop) (l : List α) (h : ∃ p ∈ l, P p) :
    ∃ (i : Nat) (p : α), l[i]? = some p ∧ P p ∧ ∀ (i' : Nat) (q : α), i' < i → l[i']? = some q → ¬ P q := by
  classical
  induction l with
  | nil => obtain ⟨p, hp, -⟩ := h; simp at hp
  | cons a l ih =>
    by_cases ha : P a
    · exact ⟨0, a, by simp, ha, fun i' q hi => by omega⟩
    · obtain ⟨p, hp, hP⟩ := h
      rcases List.mem_cons.1 hp with rfl | hm
      · exact absurd hP ha
      · obtain ⟨i, q, h1, h2, h3⟩ := ih ⟨p, hm, hP⟩
        refine ⟨i + 1, q, by simpa using h1, h2, fun i' q' hi hq' => ?_⟩
        rcases i' with _ | i'
        · simp at hq'; subst hq'; exact ha
        · exact h3 i' q' (by omega) (by simpa using hq')

theorem steps_get' (vs : Vs K (ι → K)) (vis : List ((ι → K) × (ι → K))) (i : Nat) (p : (ι → K) × (ι → K))
    (h : (steps vs vis)[i]? = some p) :
    ∃ a b, vis[i]? = some a ∧ vis[i + 1]? = some b ∧ p = (diff vs a.1 b.1, diff vs a.2 b.2) := by
  unfold steps at h
  rw [List.getElem?_zipWith, List.getElem?_tail] at h
  generalize vis[i]? = u at *
  generalize vis[i + 1]? = v at *
  rcases u with _ | u <;> rcases v with _ | v <;> simp at h
  exact ⟨u, v, rfl, rfl, h.symm⟩

theorem gamma_eq (n : Nat) (γ : K) (vis : List ((ι → K) × (ι → K))) (h : GamOk exactVs n γ vis)
    (hp : ∃ p ∈ (steps exactVs vis).take n, 0 < p.1 ⬝ᵥ p.2) : γ = firstScale ((steps exactVs vis).take n) := by
  obtain ⟨i, p, h1, h2, h3⟩ := exists_first _ _ hp
  rw [firstScale_eq _ i p h1 h2 h3]
  have hi : i < n := by
    by_contra hc
    rw [List.getElem?_eq_none (by simp; omega)] at h1; cases h1
  rw [List.getElem?_take_of_lt hi] at h1
  obtain ⟨a, b, e1, e2, rfl⟩ := steps_get' _ _ _ _ h1
  refine h (i + 1) a b (by omega) (by omega) e1 e2 (not_le.2 h2) ?_ ?_
  · refine dot_self_pos _ ?_
    intro h0
    dsimp only at h2
    rw [h0, dotProduct_zero] at h2; exact lt_irrefl _ h2
  · intro j c e j1 j2 hc he
    have hs := steps_get exactVs vis (j - 1) c e hc (by rw [Nat.sub_add_cancel j1]; exact he)
    have h4 := h3 (j - 1) _ (by omega) (by rw [List.getElem?_take_of_lt (by omega)]; exact hs)
    exact not_lt.1 h4

/-- The steps which the recursion uses: the `mp` last ones. -/
def recent (n : Nat) (vis : List ((ι → K) × (ι → K))) : List ((ι → K) × (ι → K)) := (steps exactVs vis).take n

/-- The recursion computes the product of the BFGS matrix by the gradient. -/
theorem apply_metric (par : Par K (ι → K)) (hvs : par.vs = exactVs) (o : Opt K M (ι → K)) (g : ι → K)
    (vis : List ((ι → K) × (ι → K))) (h0 : 0 ≤ o.mp) (h1 : o.mp ≤ par.m) (h2 : o.mp ≤ o.updates)
    (hp : ∀ j : Nat, 1 ≤ j → (j : Int) ≤ o.mp → PairOk par o vis j)
    (hg : par.method ≠ .vmlmb → GamOk par.vs o.mp o.gamma vis) (hw : par.method = .vmlmb → o.w * o.w = o.w) :
    let L := if par.method = .vmlmb then restrict o.w (recent o.mp.toNat vis) else recent o.mp.toNat vis
    ((apply par o g).2 = true ↔ ∃ p ∈ L, 0 < p.1 ⬝ᵥ p.2) ∧
    ((∃ p ∈ L, 0 < p.1 ⬝ᵥ p.2) →
      (apply par o g).1.d = metric L *ᵥ (if par.method = .vmlmb then o.w * g else g)) := by
  intro L
  have hn : ((o.mp.toNat : Nat) : Int) = o.mp := Int.toNat_of_nonneg h0
  have hp' : ∀ j : Nat, 1 ≤ j → j ≤ o.mp.toNat → PairOk par o vis j := fun j j1 j2 => hp j j1 (by omega)
  by_cases hm : par.method = .vmlmb
  · obtain ⟨a1, a2⟩ := apply_weq par o g hm h0 h1 h2
    have hL : L = restrict o.w (recent o.mp.toNat vis) := by simp only [L, hm, if_true]
    rw [rawPairs_eq par o vis _ hp', hvs] at a1 a2
    have ew := hw hm
    have hany : ((steps exactVs vis).take o.mp.toNat).any
        (fun p => decide (¬ (exactVs : Vs K (ι → K)).dot3 o.w p.2 p.1 ≤ 0)) = true ↔ ∃ p ∈ L, 0 < p.1 ⬝ᵥ p.2 := by
      rw [hL, List.any_eq_true]
      unfold restrict recent
      simp only [List.mem_map, decide_eq_true_eq, dot3_eq _ _ _ ew, not_le]
      constructor
      · rintro ⟨p, m1, m2⟩
        exact ⟨_, ⟨p, m1, rfl⟩, by dsimp only; rw [dotProduct_comm]; exact m2⟩
      · rintro ⟨_, ⟨p, m1, rfl⟩, m2⟩
        exact ⟨p, m1, by rw [dotProduct_comm]; exact m2⟩
    refine ⟨by rw [a1]; exact hany, fun hpos => ?_⟩
    rw [a2, if_pos (hany.2 hpos), if_pos hm]
    have e := wrecur_eq o.w ew (recent o.mp.toNat vis) 0 g (Or.inr (hL ▸ hpos))
    rw [if_pos rfl] at e
    rw [hL]; exact e
  · obtain ⟨a1, a2, -⟩ := apply_eq par o g hm h0 h1 h2
    have hL : L = recent o.mp.toNat vis := by simp only [L, hm, if_false]
    rw [pairsOf_eq par o vis _ hm hp', hvs] at a1 a2
    have hany : (((steps exactVs vis).take o.mp.toNat).map
          fun p => (p.1, p.2, factor (exactVs : Vs K (ι → K)) p.1 p.2)).any
        (fun p => decide (p.2.2 > 0)) = true ↔ ∃ p ∈ L, 0 < p.1 ⬝ᵥ p.2 := by
      have hf : ∀ p : (ι → K) × (ι → K), factor (exactVs : Vs K (ι → K)) p.1 p.2 > 0 ↔ 0 < p.1 ⬝ᵥ p.2 := by
        intro p
        unfold factor exactVs
        dsimp only
        split_ifs with h
        · exact ⟨fun h' => absurd h' (lt_irrefl _), fun h' => absurd h (not_le.2 h')⟩
        · exact ⟨fun _ => not_le.1 h, fun h' => by positivity⟩
      rw [hL, List.any_map, List.any_eq_true]
      simp only [Function.comp, decide_eq_true_eq, hf]
      rfl
    refine ⟨by rw [a1]; exact hany, fun hpos => ?_⟩
    rw [a2, if_pos (hany.2 hpos), if_neg hm, recur_eq]
    have hγ := gamma_eq o.mp.toNat o.gamma vis (by rw [hn]; exact hvs ▸ hg hm) (by rw [hL] at hpos; exact hpos)
    rw [hL]
    unfold metric
    rw [hγ]; rfl

/-- Specification: number of steps used at a new iterate: one more than those in memory, if there is a new
one, and at most `m`. -/
def usable (par : Par K (ι → K)) (o : Opt K M (ι → K)) : Nat :=
  if o.iterations ≥ 1 then (min (o.mp + 1) par.m).toNat else o.mp.toNat

/-- Specification: `d` is `q`, projected if there are bounds. -/
def Projected (box : Option (Cs K (ι → K))) (x q d : ι → K) : Prop :=
  match box with
  | none => d = q
  | some b => b.projdir x q = .ok d

/-- **C24.** Exact arithmetic.  After any history, when the caller, told of a new iterate, iterates with the
variables `x`, the function value `f` and the gradient `g` and a new line search is started: let `L` be the
differences of the last visited iterates and of their (projected, for BLMVM) gradients, restricted to the
free variables for VMLMB.  The search direction is either the projection of the product of the
limited memory BFGS matrix by the gradient, or the projected gradient, the latter only if no step has a
positive curvature or if the former does not make a sufficient angle.  This matrix is symmetric, positive
definite and satisfies the secant equation. -/
theorem bfgs_direction (finite : K → Bool) (opts : Options K) (size : Int)
    (box : Option (Cs K (ι → K))) (same : Bool) (ls : LineSearch.Ls K M) (raw : Opt K M (ι → K))
    (par : Par K (ι → K)) (opt : Opt K M (ι → K))
    (hnew : new finite exactVs opts size box same ls raw = some (par, opt))
    (hbin : ∀ b, box = some b → ∀ x g w, b.freevar x g = .ok w → w * w = w)
    (ops : LineSearch.Ops K M) (ok : LineSearch.Method ops) (hist : List (Call K (ι → K))) (pg : ι → K)
    (x g : ι → K) (f : K) :
    let r := calls par ops opt hist
    let vis := visited par ops opt [] pg hist
    let gv := if par.method = .blmvm then lastProj par ops opt pg hist else g
    let R := recent (usable par r) ((x, gv) :: vis)
    let L := if par.method = .vmlmb then restrict r.w R else R
    let q := metric L *ᵥ (if par.method = .vmlmb then r.w * g else g)
    let d := (iterate par ops r x f g).1.d
    (r.task = .newX ∨ r.task = .finalX) →
    (iterate par ops r x f g).1.task = .computeFG →
    (((∃ p ∈ L, 0 < p.1 ⬝ᵥ p.2) ∧ Projected box x q d) ∨
     d = (match par.method with | .vmlmb => r.w * g | .blmvm => lastProj par ops opt pg hist | .lbfgs => g) ∧
       ((∀ p ∈ L, p.1 ⬝ᵥ p.2 ≤ 0) ∨ ∃ d', Projected box x q d' ∧
          (d' ⬝ᵥ g ≤ 0 ∨ d' ⬝ᵥ g < opts.epsilon * CMath.sqrt (d' ⬝ᵥ d') * r.gnorm))) ∧
    (metric L)ᵀ = metric L ∧ (∀ v, v ≠ 0 → 0 < v ⬝ᵥ (metric L *ᵥ v)) ∧
    (∀ s y l, L = (s, y) :: l → 0 < s ⬝ᵥ y → metric L *ᵥ y = s) := by
  intro r vis gv R L q d hn hfg
  refine ⟨?_, metric_symm L, metric_pos L, fun s y l e h => by rw [e]; exact metric_secant s y l h⟩
  obtain ⟨hm, -, -, ht0, -, hc⟩ := new_counters finite exactVs opts size box same ls raw par opt hnew
  obtain ⟨hmo, ebox, -, -, esm, evs, eeps, -⟩ := new_method finite exactVs opts size box same ls raw par opt hnew
  have hw : par.method = .vmlmb → r.w * r.w = r.w := by
    intro hme
    rcases hbx : box with _ | b
    · have := hmo.2 (by rw [ebox, hbx]); rw [this] at hme; cases hme
    · obtain ⟨x', g', e, -⟩ := newX_free par ops opt ht0 hist b (by rw [ebox, hbx]) hn
      exact hbin b hbx _ _ _ e
  have hI := calls_mem par hmo hm ops hist opt 0 0 [] pg hc
    (new_mem finite exactVs opts size box same ls raw par opt hnew pg)
  obtain ⟨-, hC⟩ := calls_counters par hm ops hist opt 0 0 hc
  obtain ⟨u1, u2, u3, u4, u5, u6, u7, u8⟩ := updated_mem par hm r x g _ _ hC vis _ hI hn
  obtain ⟨k1, k2, k3, -⟩ := updated_keeps par r x g
  have husable : (updated par r x g).mp.toNat = usable par r := by
    obtain ⟨m1, m2, m3, m4⟩ := hC.mp
    unfold updated usable
    by_cases hi : r.iterations ≥ 1
    · rw [if_pos hi, if_pos hi]
      obtain ⟨-, -, -, k4, -⟩ := update_keeps par r x (if par.method = .blmvm then r.gp else g)
      rw [k4]
      have m2' : r.mp ≤ par.m := m2
      split_ifs with h
      · rw [min_eq_left (by omega)]
      · rw [min_eq_right (by omega)]; congr 1; omega
    · rw [if_neg hi, if_neg hi]
  have key := apply_metric par evs (updated par r x g) g ((x, gv) :: vis) u5 u6 u7 u1 u8 (by rw [k1]; exact hw)
  rw [husable, k1] at key
  obtain ⟨key1, key2⟩ := key
  -- the search has been started
  have hbrk : ∃ r', onNewX par ops r x f g = .brk r' ∧ r'.d = d := by
    have hd : d = (iterate par ops r x f g).1.d := rfl
    rcases iterate_newX par ops r x f g hn with ⟨r', h1, h2⟩ | ⟨r', h1, h2, h3⟩
    · refine ⟨r', h1, ?_⟩
      rw [hd, h2]
      rcases trial_keeps par r' with ⟨st, h, -⟩ | h <;> rw [h] <;> rfl
    · rw [h3] at hfg
      dsimp only at hfg
      rw [h2] at hfg; cases hfg
  obtain ⟨r', hb, hd⟩ := hbrk
  have hB := onNewX_begun par ops ok r x f g r' hb
  have hch := hB.chosen
  rw [hd] at hch
  -- candidates
  have hcand : ∀ d', Cand par r x g d' → (∃ p ∈ L, 0 < p.1 ⬝ᵥ p.2) ∧
      Projected box x q d' := by
    rintro d' ⟨c1, c2⟩
    have hpos := key1.1 c1
    refine ⟨hpos, ?_⟩
    rw [key2 hpos] at c2
    rw [ebox] at c2
    unfold Projected
    generalize box = bx at c2 ⊢
    rcases bx with _ | b <;> exact c2
  rcases hch with ⟨c1, -, -⟩ | ⟨c1, c2, -⟩
  · exact Or.inl (hcand d c1)
  · right
    constructor
    · rw [c2, evs]
      rcases hme : par.method with _ | _ | _
      · rfl
      · rfl
      · exact hI.proj hme hn
    · rcases c1 with c1 | ⟨d', c1, c3⟩
      · left
        intro p hp
        by_contra hc
        have := key1.2 ⟨p, hp, not_le.1 hc⟩
        rw [this] at c1; cases c1
      · right
        refine ⟨d', (hcand d' c1).2, ?_⟩
        unfold Rejected at c3
        rw [evs] at c3
        simp only [exactVs, neg_neg] at c3
        rcases c3 with c3 | ⟨-, c3⟩
        · left; simpa using c3
        · right; rw [← eeps]; exact c3

end Opk.Vmlmb
