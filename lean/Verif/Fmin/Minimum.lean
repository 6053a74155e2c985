import Verif.Fmin.Bounds
/-!
# Univariate minimization: the best point, the bracket and the accuracy (C34, C60, C62)
-/
set_option linter.unusedSectionVars false
namespace Opk.Fmin

variable {F Y : Type}

/-! ## The flag `OPK_FMIN_SMOOTH` is ignored (C60) -/

section smooth
variable [Add F] [Sub F] [Mul F] [Zero F] [LinearOrder F] [CMath F] [Value Y]

theorem enter_flags (f : Nat → F → Y) (a b : F) (flags flags' : Nat) (hA : flags &&& BOUNDED_BY_A = flags' &&& BOUNDED_BY_A)
    (hB : flags &&& BOUNDED_BY_B = flags' &&& BOUNDED_BY_B) : enter f a b flags = enter f a b flags' := by
  unfold enter
  rw [hA, hB]

/-- **C60, negation.** The documentation says that Brent's algorithm is used with the flag `OPK_FMIN_SMOOTH` and the golden section method
otherwise; the runs are the same with and without this flag: the same evaluations are made and the same result is returned. -/
theorem smooth_flag_ignored (f : Nat → F → Y) (a b : F) (flags : Nat) (maxeval : Int) (prec sqrtEps : F) :
    (∀ status out log, Returns f a b (flags ||| SMOOTH) maxeval prec sqrtEps status out log ↔ Returns f a b flags maxeval prec sqrtEps status out log) ∧
    (∀ p, Evaluates f a b (flags ||| SMOOTH) maxeval prec sqrtEps p ↔ Evaluates f a b flags maxeval prec sqrtEps p) := by
  have hA : (flags ||| SMOOTH) &&& BOUNDED_BY_A = flags &&& BOUNDED_BY_A := by
    rw [Nat.and_or_distrib_right]; simp [SMOOTH, BOUNDED_BY_A]
  have hB : (flags ||| SMOOTH) &&& BOUNDED_BY_B = flags &&& BOUNDED_BY_B := by
    rw [Nat.and_or_distrib_right]; simp [SMOOTH, BOUNDED_BY_B]
  have he : enter f a b (flags ||| SMOOTH) = enter f a b flags := enter_flags f a b _ _ hA hB
  unfold Returns Evaluates after
  rw [he]
  exact ⟨fun _ _ _ => Iff.rfl, fun _ => Iff.rfl⟩

end smooth

/-! ## The best point (C34) -/

section best
variable {K : Type} [Field K] [LinearOrder K] [IsStrictOrderedRing K] [CMath K] [ExactMath K]
variable [LinearOrder Y] [OrderTop Y] [Value Y] [OrderedValue Y]

/-- `(x, y)` has been evaluated or `x` is an exclusive bound and `y` is infinite. -/
def Known (a b : K) (flags : Nat) (log : List (K × Y)) (x : K) (y : Y) : Prop :=
  (x, y) ∈ log ∨ (y = ⊤ ∧ ((x = a ∧ flags &&& BOUNDED_BY_A ≠ 0) ∨ (x = b ∧ flags &&& BOUNDED_BY_B ≠ 0)))

theorem Known.mono {a b : K} {flags : Nat} {log log' : List (K × Y)} {x : K} {y : Y} (h : Known a b flags log x y) (hl : ∀ p ∈ log, p ∈ log') :
    Known a b flags log' x y := by
  rcases h with h | h
  · exact Or.inl (hl _ h)
  · exact Or.inr h

/-- What is known of the minimum. -/
structure Best (a b : K) (flags : Nat) (s : Run K Y) : Prop where
  u : Known a b flags s.log s.u s.fu
  v : (s.v, s.fv) ∈ s.log
  w : Known a b flags s.log s.w s.fw
  bracket : s.phase = .bracket → min s.fv s.fw ≤ s.fu ∧ ∀ p ∈ s.log, min s.fv s.fw ≤ p.2
  reduce : s.phase = .reduce ∨ s.phase = .done 0 ∨ s.phase = .done 1 → s.fv ≤ s.fu ∧ s.fv ≤ s.fw ∧ ∀ p ∈ s.log, s.fv ≤ p.2
  failed : s.phase = .done 2 → s.fw < s.fv ∧ (s.w, s.fw) ∈ s.log ∧ ∀ p ∈ s.log, s.fw ≤ p.2
  converged : ∀ st, s.phase = .done st → st = 0 ∨ st = 1 ∨ st = 2

theorem gt_false_iff (x y : Y) : Value.gt x y = false ↔ x ≤ y := by
  rw [← not_lt, ← OrderedValue.gt_iff, Bool.not_eq_true]

theorem best_enter (f : Nat → K → Y) (a b : K) (flags : Nat) : Best a b flags (enter f a b flags) := by
  obtain ⟨hp, hv, hl, -, -, hc⟩ := enter_cases f a b flags _ rfl
  set s := enter f a b flags with hs
  clear_value s
  have kA : Known a b flags s.log a (valA f a flags) := by
    unfold valA
    by_cases hA : flags &&& BOUNDED_BY_A = 0
    · rw [if_pos hA]; left; rw [hl]; unfold logB logA; simp only [if_pos hA]
      by_cases hB : flags &&& BOUNDED_BY_B = 0 <;> simp [hB]
    · rw [if_neg hA]; right; exact ⟨OrderedValue.inf_eq, Or.inl ⟨rfl, hA⟩⟩
  have kB : Known a b flags s.log b (valB f a b flags) := by
    unfold valB
    by_cases hB : flags &&& BOUNDED_BY_B = 0
    · rw [if_pos hB]; left; rw [hl]; unfold logB; rw [if_pos hB]; simp
    · rw [if_neg hB]; right; exact ⟨OrderedValue.inf_eq, Or.inr ⟨rfl, hB⟩⟩
  have hwu : s.fw ≤ s.fu := by
    rcases hc with ⟨hg, -, h1, -, h2⟩ | ⟨hg, -, h1, -, h2⟩
    · rw [OrderedValue.gt_iff] at hg; rw [h1, h2]; exact hg.le
    · rw [gt_false_iff] at hg; rw [h1, h2]; exact hg
  have hall : ∀ p ∈ logB f a b flags, p.2 = valA f a flags ∨ p.2 = valB f a b flags := by
    intro p hp'
    unfold logB logA at hp'
    unfold valA valB logA
    by_cases hA : flags &&& BOUNDED_BY_A = 0 <;> by_cases hB : flags &&& BOUNDED_BY_B = 0 <;>
      simp only [hA, hB, if_true, if_false, List.mem_append, List.mem_singleton, List.not_mem_nil, or_false, false_or] at hp' ⊢
    · rcases hp' with h | h <;> simp [h]
    · simp [hp']
    · simp [hp']
  refine ⟨?_, by rw [hl]; simp, ?_, fun _ => ⟨le_trans (min_le_right _ _) hwu, ?_⟩, ?_, ?_, ?_⟩
  · rcases hc with ⟨-, h0, h1, -, -⟩ | ⟨-, h0, h1, -, -⟩ <;> rw [h0, h1]
    · exact kB
    · exact kA
  · rcases hc with ⟨-, -, -, h0, h1⟩ | ⟨-, -, -, h0, h1⟩ <;> rw [h0, h1]
    · exact kA
    · exact kB
  · intro p hp'
    rw [hl, List.mem_append, List.mem_singleton] at hp'
    rcases hp' with h | h
    · have : p.2 = s.fw ∨ p.2 = s.fu := by
        rcases hc with ⟨-, -, h1, -, h2⟩ | ⟨-, -, h1, -, h2⟩ <;> rw [h1, h2]
        · exact hall p h
        · exact (hall p h).symm
      rcases this with h | h <;> rw [h]
      · exact min_le_right _ _
      · exact le_trans (min_le_right _ _) hwu
    · rw [h]; exact min_le_left _ _
  · rw [hp]; rintro (h | h | h) <;> cases h
  · rw [hp]; intro h; cases h
  · intro st; rw [hp]; intro h; cases h

theorem best_step (f : Nat → K → Y) (a b : K) (flags : Nat) (maxeval : Int) (prec : K) (s : Run K Y)
    (h : Best a b flags s) : Best a b flags (step f maxeval prec s) := by
  rcases step_cases f maxeval prec s _ rfl with ⟨p, e, hc⟩ | ⟨-, x, y, hy, hl, -, hph, hc⟩
  · rw [e]
    rcases hc with ⟨hp, hg, -, -, k⟩ | ⟨hp, hg, k⟩ | ⟨hp, -, k⟩ | ⟨hp, -, -, -, k⟩ | ⟨st, hp, k⟩
    · subst k
      rw [OrderedValue.gt_iff] at hg
      have hb := h.bracket hp
      rw [min_eq_right hg.le] at hb
      have hw : (s.w, s.fw) ∈ s.log := by
        rcases h.w with k | ⟨k, -⟩
        · exact k
        · rw [k] at hg; exact absurd hg not_top_lt
      exact ⟨h.u, h.v, h.w, fun k => (by cases k), fun k => (by rcases k with k | k | k <;> cases k), fun _ => ⟨hg, hw, hb.2⟩, fun st k => (by cases k; simp)⟩
    · subst k
      rw [gt_false_iff] at hg
      have hb := h.bracket hp
      rw [min_eq_left hg] at hb
      exact ⟨h.u, h.v, h.w, fun k => (by cases k), fun _ => ⟨hb.1, hg, hb.2⟩, fun k => (by cases k), fun st k => (by cases k)⟩
    · subst k
      exact ⟨h.u, h.v, h.w, fun k => (by cases k), fun _ => h.reduce (Or.inl hp), fun k => (by cases k), fun st k => (by cases k; simp)⟩
    · subst k
      exact ⟨h.u, h.v, h.w, fun k => (by cases k), fun _ => h.reduce (Or.inl hp), fun k => (by cases k), fun st k => (by cases k; simp)⟩
    · subst k
      rw [← hp]
      exact h
  · have hmem : ∀ p ∈ s.log, p ∈ (step f maxeval prec s).log := fun p hp => by rw [hl]; exact List.mem_append_left _ hp
    have hxm : (x, y) ∈ (step f maxeval prec s).log := by rw [hl]; simp
    have hsplit : ∀ p ∈ (step f maxeval prec s).log, p ∈ s.log ∨ p.2 = y := by
      intro p hp'
      rw [hl, List.mem_append, List.mem_singleton] at hp'
      rcases hp' with k | k
      · exact Or.inl k
      · right; rw [k]
    rcases hc with ⟨hp, hg, hx, h1, h2, h3, h4, h5, h6⟩ | ⟨hp, -, hx, hc⟩
    · rw [OrderedValue.gt_iff] at hg
      have hb := h.bracket hp
      rw [min_eq_right hg.le] at hb
      have hw : (s.w, s.fw) ∈ s.log := by
        rcases h.w with k | ⟨k, -⟩
        · exact k
        · rw [k] at hg; exact absurd hg not_top_lt
      rw [hp] at hph
      refine ⟨?_, ?_, ?_, fun _ => ⟨?_, ?_⟩, ?_, ?_, ?_⟩
      · rw [h1, h2]; exact Or.inl (hmem _ h.v)
      · rw [h3, h4]; exact hmem _ hw
      · rw [h5, h6]; exact Or.inl hxm
      · rw [h2, h4]; exact le_trans (min_le_left _ _) hg.le
      · intro p hp'
        rw [h4, h6]
        rcases hsplit p hp' with k | k
        · exact le_trans (min_le_left _ _) (hb.2 p k)
        · rw [k]; exact min_le_right _ _
      · rw [hph]; rintro (k | k | k) <;> cases k
      · rw [hph]; intro k; cases k
      · rw [hph]; intro st k; cases k
    · obtain ⟨r1, r2, r3⟩ := h.reduce (Or.inl hp)
      rw [hp] at hph
      rcases hc with ⟨hn, h1, h2, h3, h4, h5, h6⟩ | ⟨hn, h1, h2, h3, h4, h5, h6⟩
      · have hyv : s.fv ≤ y := by
          rcases hn with k | ⟨k, -⟩
          · rw [OrderedValue.gt_iff] at k; exact k.le
          · rw [OrderedValue.eq_iff] at k; exact k.ge
        refine ⟨?_, ?_, ?_, ?_, fun _ => ⟨?_, ?_, ?_⟩, ?_, ?_⟩
        · rw [h1, h2]; exact Or.inl hxm
        · rw [h3, h4]; exact hmem _ h.v
        · rw [h5, h6]; exact h.u.mono hmem
        · rw [hph]; intro k; cases k
        · rw [h2, h4]; exact hyv
        · rw [h4, h6]; exact r1
        · intro p hp'
          rw [h4]
          rcases hsplit p hp' with k | k
          · exact r3 p k
          · rw [k]; exact hyv
        · rw [hph]; intro k; cases k
        · rw [hph]; intro st k; cases k
      · have hyv : y ≤ s.fv := by
          by_contra k
          exact hn (Or.inl (by rw [OrderedValue.gt_iff]; exact not_le.1 k))
        refine ⟨?_, ?_, ?_, ?_, fun _ => ⟨?_, ?_, ?_⟩, ?_, ?_⟩
        · rw [h1, h2]; exact Or.inl (hmem _ h.v)
        · rw [h3, h4]; exact hxm
        · rw [h5, h6]; exact h.w.mono hmem
        · rw [hph]; intro k; cases k
        · rw [h2, h4]; exact hyv
        · rw [h4, h6]; exact le_trans hyv r2
        · intro p hp'
          rw [h4]
          rcases hsplit p hp' with k | k
          · exact le_trans hyv (r3 p k)
          · exact k.ge
        · rw [hph]; intro k; cases k
        · rw [hph]; intro st k; cases k

theorem best_after (f : Nat → K → Y) (a b : K) (flags : Nat) (maxeval : Int) (prec sqrtEps : K) (k : Nat) :
    Best a b flags (after f a b flags maxeval prec sqrtEps k) :=
  after_inv (Best a b flags) f a b flags maxeval prec sqrtEps (best_enter f a b flags) (fun s p hs => best_step f a b flags maxeval p s hs) k

theorem ordered_after (f : Nat → K → Y) (a b : K) (hab : a ≠ b) (flags : Nat) (maxeval : Int) (prec sqrtEps : K) (k : Nat) :
    Ordered (after f a b flags maxeval prec sqrtEps k) :=
  after_inv Ordered f a b flags maxeval prec sqrtEps (ordered_enter f a b hab flags) (fun s p hs => ordered_step f maxeval p s hs) k

/-- **C34, without NaN and in exact arithmetic.** Whatever the function, when `opk_fmin` returns 0 or 1, the point `xmin` is strictly inside
the interval `(xlo, xhi)`, it has been evaluated, no evaluation has given a smaller value and the values of the ends are those which have been obtained
(or infinite for an exclusive bound). -/
theorem best_point_partial (f : Nat → K → Y) (a b : K) (flags : Nat) (maxeval : Int) (prec sqrtEps : K) (status : Int) (o : Out K Y) (log : List (K × Y))
    (h : Returns f a b flags maxeval prec sqrtEps status (some o) log) (hst : status = 0 ∨ status = 1) :
    o.xlo < o.xmin ∧ o.xmin < o.xhi ∧ (o.xmin, o.fmin) ∈ log ∧ (∀ p ∈ log, o.fmin ≤ p.2) ∧ o.fmin ≤ o.flo ∧ o.fmin ≤ o.fhi ∧
    Known a b flags log o.xlo o.flo ∧ Known a b flags log o.xhi o.fhi := by
  unfold Returns at h
  by_cases hab : a = b
  · rw [if_pos hab] at h; cases h.2.1
  · rw [if_neg hab] at h
    obtain ⟨k, s, hs, h1, h2, rfl⟩ := h
    have hb := best_after f a b flags maxeval prec sqrtEps k
    have ho := ordered_after f a b hab flags maxeval prec sqrtEps k
    rw [hs] at hb ho
    obtain ⟨r1, r2, r3⟩ := hb.reduce (by rcases hst with k | k <;> rw [h1, k] <;> simp)
    rw [Option.some.injEq] at h2
    subst h2
    unfold output
    rcases ho with ⟨o1, o2⟩ | ⟨o1, o2⟩
    · rw [if_neg (not_lt.2 (o1.trans o2).le)]
      exact ⟨o1, o2, hb.v, r3, r1, r2, hb.u, hb.w⟩
    · rw [if_pos (o1.trans o2)]
      exact ⟨o1, o2, hb.v, r3, r2, r1, hb.w, hb.u⟩

/-- **C34.** When it returns 2 the last point, which is an end of the interval, is the best one and is strictly better than the others. -/
theorem no_bracket (f : Nat → K → Y) (a b : K) (flags : Nat) (maxeval : Int) (prec sqrtEps : K) (o : Out K Y) (log : List (K × Y))
    (h : Returns f a b flags maxeval prec sqrtEps 2 (some o) log) :
    o.xlo < o.xmin ∧ o.xmin < o.xhi ∧
    (((o.xlo, o.flo) ∈ log ∧ o.flo < o.fmin ∧ ∀ p ∈ log, o.flo ≤ p.2) ∨ ((o.xhi, o.fhi) ∈ log ∧ o.fhi < o.fmin ∧ ∀ p ∈ log, o.fhi ≤ p.2)) := by
  unfold Returns at h
  by_cases hab : a = b
  · rw [if_pos hab] at h; cases h.2.1
  · rw [if_neg hab] at h
    obtain ⟨k, s, hs, h1, h2, rfl⟩ := h
    have hb := best_after f a b flags maxeval prec sqrtEps k
    have ho := ordered_after f a b hab flags maxeval prec sqrtEps k
    rw [hs] at hb ho
    obtain ⟨r1, r2, r3⟩ := hb.failed h1
    rw [Option.some.injEq] at h2
    subst h2
    unfold output
    rcases ho with ⟨o1, o2⟩ | ⟨o1, o2⟩
    · rw [if_neg (not_lt.2 (o1.trans o2).le)]
      exact ⟨o1, o2, Or.inr ⟨r2, r1, r3⟩⟩
    · rw [if_pos (o1.trans o2)]
      exact ⟨o1, o2, Or.inl ⟨r2, r1, r3⟩⟩

/-! ## No budget (C35) -/

/-- **C35, negation of the documentation.** The documentation says that `maxeval` is the maximum number of evaluations if it is non-negative.  With
`maxeval = 0` there is no limit: for a strictly decreasing function, `opk_fmin` makes more than any number of evaluations and never returns. -/
theorem zero_budget_unlimited (g : K → Y) (hg : ∀ x y, x < y → g y < g x) (a b : K) (hab : a < b) (prec sqrtEps : K) :
    (¬ ∃ status out log, Returns (fun _ => g) a b 0 0 prec sqrtEps status out log) ∧
    (∀ k, (after (fun _ => g) a b 0 0 prec sqrtEps k).log.length = k + 3) := by
  have key : ∀ k, let s := after (fun _ => g) a b 0 0 prec sqrtEps k
      s.phase = .bracket ∧ s.v < s.w ∧ s.fv = g s.v ∧ s.fw = g s.w ∧ s.log.length = k + 3 := by
    intro k
    induction k with
    | zero =>
      obtain ⟨hp, hv, hl, -, h0, hc⟩ := enter_cases (fun _ => g) a b 0 _ rfl
      have hAB : valA (fun _ => g) a 0 = g a ∧ valB (fun _ => g) a b 0 = g b := by simp [valA, valB, BOUNDED_BY_A, BOUNDED_BY_B]
      rw [hAB.1, hAB.2] at hc
      rcases hc with ⟨hgt, -⟩ | ⟨-, h1, -, h2, h3⟩
      · rw [OrderedValue.gt_iff] at hgt; exact absurd (hg a b hab) (not_lt.2 hgt.le)
      · show (enter (fun _ => g) a b 0).phase = _ ∧ _
        refine ⟨hp, ?_, h0, ?_, ?_⟩
        · show (enter (fun _ => g) a b 0).v < (enter (fun _ => g) a b 0).w
          rw [hv, h1, h2]; exact (interp_lt a b hab).2
        · show (enter (fun _ => g) a b 0).fw = g (enter (fun _ => g) a b 0).w
          rw [h3, h2]
        · show (enter (fun _ => g) a b 0).log.length = 0 + 3
          rw [hl]; simp [logB, logA, BOUNDED_BY_A, BOUNDED_BY_B]
    | succ k ih =>
      obtain ⟨i1, i2, i3, i4, i5⟩ := ih
      have hgt : Value.gt (after (fun _ => g) a b 0 0 prec sqrtEps k).fv (after (fun _ => g) a b 0 0 prec sqrtEps k).fw = true := by
        rw [OrderedValue.gt_iff, i3, i4]; exact hg _ _ i2
      rcases step_cases (fun _ => g) 0 (if prec < 0 then sqrtEps else prec) _ _ (after_succ (fun _ => g) a b 0 0 prec sqrtEps k).symm with
        ⟨p, e, h⟩ | ⟨-, x, y, hy, e1, -, e2, h⟩
      · rw [i1, hgt] at h
        rcases h with ⟨-, -, h, -⟩ | ⟨-, h, -⟩ | ⟨h, -⟩ | ⟨h, -⟩ | ⟨st, h, -⟩
        · exact absurd h (by decide)
        · cases h
        · cases h
        · cases h
        · cases h
      · rw [i1] at h e2
        rcases h with ⟨-, -, hx, -, -, h3, h4, h5, h6⟩ | ⟨h, -⟩
        · refine ⟨e2, ?_, ?_, ?_, ?_⟩
          · rw [h3, h5, hx]; exact extrap_lt _ _ i2
          · rw [h3, h4, i4]
          · rw [h5, h6, hy]
          · rw [e1, List.length_append, i5]; rfl
        · cases h
  refine ⟨?_, fun k => (key k).2.2.2.2⟩
  rintro ⟨st, o, l, h⟩
  unfold Returns at h
  rw [if_neg (ne_of_lt hab)] at h
  obtain ⟨k, s, hs, h1, -⟩ := h
  have := (key k).1
  rw [hs, h1] at this
  cases this

/-! ## Accuracy for unimodal functions (C62) -/

/-- Specification: `x` is strictly inside the exclusive bounds, if any. -/
def Admissible (a b : K) (flags : Nat) (x : K) : Prop :=
  (flags &&& BOUNDED_BY_A ≠ 0 → Inside a b x) ∧ (flags &&& BOUNDED_BY_B ≠ 0 → Inside b a x)

/-- Specification: on the admissible points, `g` is strictly decreasing up to `xs`, strictly increasing from `xs` on. -/
structure Unimodal (a b : K) (flags : Nat) (g : K → Y) (xs : K) : Prop where
  admissible : Admissible a b flags xs
  decreasing : ∀ x y, Admissible a b flags x → x < y → y ≤ xs → g y < g x
  increasing : ∀ x y, Admissible a b flags y → xs ≤ x → x < y → g x < g y

/-- The evaluations are values of the function at admissible points. -/
theorem log_values (g : K → Y) (a b : K) (hab : a ≠ b) (flags : Nat) (maxeval : Int) (prec sqrtEps : K) (k : Nat)
    (p : K × Y) (hp : p ∈ (after (fun _ => g) a b flags maxeval prec sqrtEps k).log) : p.2 = g p.1 ∧ Admissible a b flags p.1 := by
  constructor
  · revert hp p
    refine after_inv (fun s => ∀ p ∈ s.log, p.2 = g p.1) (fun _ => g) a b flags maxeval prec sqrtEps ?_ ?_ k
    · obtain ⟨-, -, hl, -, h0, -⟩ := enter_cases (fun _ => g) a b flags _ rfl
      intro p hp
      rw [hl] at hp
      unfold logB logA at hp
      by_cases hA : flags &&& BOUNDED_BY_A = 0 <;> by_cases hB : flags &&& BOUNDED_BY_B = 0 <;>
        simp only [hA, hB, if_true, if_false, List.mem_append, List.mem_singleton, List.not_mem_nil, or_false, false_or] at hp
      · rcases hp with (h | h) | h <;> rw [h]; exact h0
      · rcases hp with h | h <;> rw [h]; exact h0
      · rcases hp with h | h <;> rw [h]; exact h0
      · rw [hp]; exact h0
    · intro s q hs p hp
      rcases step_cases (fun _ => g) maxeval q s _ rfl with ⟨r, e, -⟩ | ⟨-, x, y, hy, hl, -⟩
      · rw [e] at hp; exact hs p hp
      · rw [hl, List.mem_append, List.mem_singleton] at hp
        rcases hp with hp | rfl
        · exact hs p hp
        · exact hy
  · exact exclusive_bounds (fun _ => g) a b flags maxeval prec sqrtEps p ⟨hab, k, hp⟩

/-- The minimizer is strictly inside the bracket. -/
theorem minimizer_bracketed (g : K → Y) (a b xs : K) (hab : a ≠ b) (flags : Nat) (hu : Unimodal a b flags g xs) (maxeval : Int) (prec sqrtEps : K) (k : Nat)
    (hp : (after (fun _ => g) a b flags maxeval prec sqrtEps k).phase = .reduce ∨ (after (fun _ => g) a b flags maxeval prec sqrtEps k).phase = .done 0 ∨
      (after (fun _ => g) a b flags maxeval prec sqrtEps k).phase = .done 1) :
    let s := after (fun _ => g) a b flags maxeval prec sqrtEps k
    (s.u < xs ∧ xs < s.w) ∨ (s.w < xs ∧ xs < s.u) := by
  have hb := best_after (fun _ => g) a b flags maxeval prec sqrtEps k
  have ho := ordered_after (fun _ => g) a b hab flags maxeval prec sqrtEps k
  have hlv := log_values g a b hab flags maxeval prec sqrtEps k
  have hst := after_inv (Strict a b flags) (fun _ => g) a b flags maxeval prec sqrtEps (strict_enter _ a b hab flags)
    (fun s q hs => strict_step _ a b flags maxeval q s hs) k
  simp only
  set s := after (fun _ => g) a b flags maxeval prec sqrtEps k with hs
  clear_value s
  obtain ⟨r1, r2, -⟩ := hb.reduce hp
  have hv := hlv _ hb.v
  simp only at hv
  -- an end `e` on the left, respectively on the right, of `v`
  have left : ∀ e fe, Known a b flags s.log e fe → (flags &&& BOUNDED_BY_A ≠ 0 → NotBeyond a b e) → (flags &&& BOUNDED_BY_B ≠ 0 → NotBeyond b a e) →
      e < s.v → s.fv ≤ fe → e < xs := by
    intro e fe hk n1 n2 hev hle
    by_contra hx
    rw [not_lt] at hx
    rcases hk with hk | ⟨hk, hk'⟩
    · have h1 := hlv _ hk
      simp only at h1
      have := hu.increasing e s.v hv.2 hx hev
      rw [← h1.1, ← hv.1] at this
      exact absurd hle (not_le.2 this)
    · rcases hk' with ⟨rfl, hA⟩ | ⟨rfl, hB⟩
      · rcases lt_or_gt_of_ne hab with h | h
        · exact absurd ((hu.admissible.1 hA).1 h) (not_lt.2 hx)
        · exact absurd ((hv.2.1 hA).2 h) (not_lt.2 hev.le)
      · rcases lt_or_gt_of_ne hab with h | h
        · exact absurd ((hv.2.2 hB).2 h) (not_lt.2 hev.le)
        · exact absurd ((hu.admissible.2 hB).1 h) (not_lt.2 hx)
  have right : ∀ e fe, Known a b flags s.log e fe → s.v < e → s.fv ≤ fe → xs < e := by
    intro e fe hk hev hle
    by_contra hx
    rw [not_lt] at hx
    rcases hk with hk | ⟨hk, hk'⟩
    · have h1 := hlv _ hk
      simp only at h1
      have := hu.decreasing s.v e hv.2 hev hx
      rw [← h1.1, ← hv.1] at this
      exact absurd hle (not_le.2 this)
    · rcases hk' with ⟨rfl, hA⟩ | ⟨rfl, hB⟩
      · rcases lt_or_gt_of_ne hab with h | h
        · exact absurd ((hv.2.1 hA).1 h) (not_lt.2 hev.le)
        · exact absurd ((hu.admissible.1 hA).2 h) (not_lt.2 hx)
      · rcases lt_or_gt_of_ne hab with h | h
        · exact absurd ((hu.admissible.2 hB).2 h) (not_lt.2 hx)
        · exact absurd ((hv.2.2 hB).1 h) (not_lt.2 hev.le)
  rcases ho with ⟨o1, o2⟩ | ⟨o1, o2⟩
  · exact Or.inl ⟨left _ _ hb.u hst.weak.u.1 hst.weak.u.2 o1 r1, right _ _ hb.w o2 r2⟩
  · exact Or.inr ⟨left _ _ hb.w hst.weak.w.1 hst.weak.w.2 o1 r2, right _ _ hb.u o2 r1⟩

/-- **C62.** The final interval contains the minimizer of a strictly unimodal function. -/
theorem minimizer_in_interval (g : K → Y) (a b xs : K) (flags : Nat) (hu : Unimodal a b flags g xs) (maxeval : Int) (prec sqrtEps : K)
    (status : Int) (o : Out K Y) (log : List (K × Y)) (h : Returns (fun _ => g) a b flags maxeval prec sqrtEps status (some o) log)
    (hst : status = 0 ∨ status = 1) : o.xlo < xs ∧ xs < o.xhi := by
  unfold Returns at h
  by_cases hab : a = b
  · rw [if_pos hab] at h; cases h.2.1
  · rw [if_neg hab] at h
    obtain ⟨k, s, hs, h1, h2, rfl⟩ := h
    have ho := ordered_after (fun _ => g) a b hab flags maxeval prec sqrtEps k
    have hm := minimizer_bracketed g a b xs hab flags hu maxeval prec sqrtEps k (by rw [hs, h1]; rcases hst with k | k <;> rw [k] <;> simp)
    simp only at hm
    rw [hs] at ho hm
    rw [Option.some.injEq] at h2
    subst h2
    unfold output
    by_cases hgt : s.u > s.w
    · rw [if_pos hgt]
      rcases hm with m | m
      · exact absurd (m.1.trans m.2) (not_lt.2 hgt.le)
      · exact m
    · rw [if_neg hgt]
      rcases hm with m | m
      · exact m
      · exact absurd (m.1.trans m.2) hgt

end best
end Opk.Fmin
