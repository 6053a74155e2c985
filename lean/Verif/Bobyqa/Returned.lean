import Verif.Bobyqa.Best

/-!
# The first interpolation points of BOBYQA, and the point which is returned

In exact arithmetic, for any objective function and any step of `trsbox`.
-/
set_option linter.unusedSectionVars false
namespace Opk.Bobyqa
open Linalg CMath Cobyla

section
variable {K : Type} [Field K] [LinearOrder K] [IsStrictOrderedRing K] [CMath K] [ExactMath K]

/-! ### `prelim` -/

theorem Init.same {p : Par K} {s s' : St K} {m : Nat} (h : Init p s m)
    (e : s'.sl = s.sl ∧ s'.su = s.su ∧ s'.xbase = s.xbase ∧ s'.xpt = s.xpt) : Init p s' m := by
  obtain ⟨e1, e2, e3, e4⟩ := e
  refine ⟨?_, ?_, ?_, ?_, ?_, ?_, ?_, ?_, ?_⟩
  · unfold Geo; rw [e1, e2, e3]; exact h.geo
  · rw [e1]; exact h.lower
  · rw [e2]; exact h.upper
  · rw [e1, e2]; exact h.width
  · unfold Within; rw [e1, e2, e4]; exact h.within
  · rw [e4]; exact h.zero
  · rw [e4]; exact h.first
  · rw [e4]; exact h.rowa
  · rw [e4]; exact h.rowb

theorem Vals.same {p : Par K} {s s' : St K} {m : Nat} (h : Vals p s m)
    (e : s'.xbase = s.xbase ∧ s'.log = s.log ∧ s'.fval = s.fval ∧ s'.xpt = s.xpt ∧ s'.kopt = s.kopt) : Vals p s' m := by
  obtain ⟨e1, e2, e3, e4, e5⟩ := e
  refine ⟨?_, ?_, ?_, ?_⟩
  · rw [e5]; exact h.kopt1
  · rw [e5]; exact h.koptm
  · unfold Rec; rw [e1, e2, e3, e4]; exact h.recs
  · rw [e2, e3, e5]; exact h.best

/-- An element of an unused row is set. -/
theorem Init.put {p : Par K} {s : St K} {m k j : Nat} {a : K} (h : Init p s m) (hk : m < k) (hk1 : k ≠ 1)
    (ha : 1 ≤ j → j ≤ p.n → s.sl j ≤ a ∧ a ≤ s.su j) (h1 : k ≤ p.n + 1 → j = k - 1)
    (h2 : p.n + 2 ≤ k → k ≤ 2 * p.n + 1 → j = k - 1 - p.n) : Init p { s with xpt := set2 s.xpt k j a } k := by
  have hr : ∀ k' i, ¬ (k' = k ∧ i = j) → set2 s.xpt k j a k' i = s.xpt k' i := fun k' i c => if_neg c
  refine ⟨h.geo, h.lower, h.upper, h.width, ?_, ?_, ?_, ?_, ?_⟩
  · intro k' i i1 i2
    show s.sl i ≤ set2 s.xpt k j a k' i ∧ set2 s.xpt k j a k' i ≤ s.su i
    by_cases c : k' = k ∧ i = j
    · obtain ⟨c1, c2⟩ := c
      subst c1; subst c2
      rw [show set2 s.xpt k' i a k' i = a from if_pos ⟨rfl, rfl⟩]
      exact ha i1 i2
    · rw [hr k' i c]; exact h.within k' i i1 i2
  · intro k' q i
    exact (hr k' i (fun c => by omega)).trans (h.zero k' (by omega) i)
  · intro i
    exact (hr 1 i (fun c => by omega)).trans (h.first i)
  · intro k' q1 q2 i q3
    refine (hr k' i (fun c => ?_)).trans (h.rowa k' q1 q2 i q3)
    obtain ⟨c1, c2⟩ := c
    subst c1
    exact q3 (c2.trans (h1 q2))
  · intro k' q1 q2 i q3
    refine (hr k' i (fun c => ?_)).trans (h.rowb k' q1 q2 i q3)
    obtain ⟨c1, c2⟩ := c
    subst c1
    exact q3 (c2.trans (h2 q1 q2))

/-- The steps of the points `n+2` to `2*n+1` are two different positions of one variable. -/
def Steps (p : Par K) (s : St K) (m : Nat) : Prop :=
  p.n + 2 ≤ m → m ≤ 2 * p.n + 1 → s.stepa = s.xpt (m - p.n) (m - 1 - p.n) ∧ s.stepb = s.xpt m (m - 1 - p.n)

theorem prelimPoint_ok {p : Par K} {s : St K} {m : Nat} (hr : 0 < p.rhobeg) (h : Init p s m) :
    Init p (prelimPoint p s (m + 1)) (m + 1) ∧ Steps p (prelimPoint p s (m + 1)) (m + 1) := by
  unfold prelimPoint
  dsimp only
  have e1 : m + 1 - 1 = m := by omega
  rw [e1]
  by_cases c1 : m ≤ 2 * p.n
  · rw [if_pos c1]
    by_cases c2 : 1 ≤ m ∧ m ≤ p.n
    · rw [if_pos c2]
      refine ⟨?_, fun q => by omega⟩
      have := h.put (k := m + 1) (j := m) (a := if s.su m = 0 then -p.rhobeg else p.rhobeg) (by omega) (by omega) ?_ (fun _ => by omega) (fun q => by omega)
      · exact this.same ⟨rfl, rfl, rfl, rfl⟩
      · intro i1 i2
        have q1 := h.lower m i1 i2
        have q2 := h.upper m i1 i2
        have q3 := h.width m i1 i2
        split_ifs with c3
        · rw [c3] at q3 ⊢
          constructor <;> linarith
        · have := q2.resolve_left c3
          refine ⟨?_, this⟩
          rcases q1 with q1 | q1 <;> linarith
    · rw [if_neg c2]
      by_cases c3 : m > p.n
      · rw [if_pos c3]
        have hst : 1 ≤ m - p.n → m - p.n ≤ p.n →
            s.sl (m - p.n) ≤ (prelimB p s (m + 1)).stepb ∧ (prelimB p s (m + 1)).stepb ≤ s.su (m - p.n) := by
          intro i1 i2
          have q1 := h.lower _ i1 i2
          have q2 := h.upper _ i1 i2
          have q3 := h.width _ i1 i2
          unfold prelimB
          dsimp only
          rw [e1, cmin_eq, cmax_eq, lit_rat]
          push_cast
          split_ifs with d1 d2
          · rw [d1] at q3 ⊢
            refine ⟨le_max_right _ _, max_le ?_ ?_⟩ <;> linarith
          · rw [d2] at q3 ⊢
            refine ⟨le_min ?_ ?_, min_le_right _ _⟩ <;> linarith
          · have := q1.resolve_left d2
            have := q2.resolve_left d1
            constructor <;> linarith
        refine ⟨?_, ?_⟩
        · have := h.put (k := m + 1) (j := m - p.n) (a := (prelimB p s (m + 1)).stepb) (by omega) (by omega) hst (fun q => by omega) (fun q _ => by omega)
          refine this.same ⟨rfl, rfl, rfl, ?_⟩
          unfold prelimB
          dsimp only
          rw [e1]
        · intro q1 q2
          unfold prelimB
          dsimp only
          rw [e1]
          refine ⟨?_, ?_⟩
          · refine (if_neg ?_).symm
            omega
          · exact (if_pos ⟨rfl, rfl⟩).symm
      · rw [if_neg c3]
        have hm : m = 0 := by omega
        subst hm
        refine ⟨⟨h.geo, h.lower, h.upper, h.width, h.within, fun k q => h.zero k (by omega), h.first, h.rowa, h.rowb⟩, fun q => by omega⟩
  · rw [if_neg c1]
    refine ⟨?_, fun q => by omega⟩
    unfold prelimC
    dsimp only
    have h1 := h.put (k := m + 1) (j := (prelimPair p (m + 1)).1) (a := s.xpt ((prelimPair p (m + 1)).1 + 1) (prelimPair p (m + 1)).1)
      (by omega) (by omega) (fun i1 i2 => h.within _ _ i1 i2) (fun _ => by omega) (fun _ => by omega)
    obtain ⟨t, ht⟩ : ∃ t : St K, t = { s with xpt := set2 s.xpt (m + 1) (prelimPair p (m + 1)).1 (s.xpt ((prelimPair p (m + 1)).1 + 1) (prelimPair p (m + 1)).1) } := ⟨_, rfl⟩
    rw [← ht] at h1
    have hr : ∀ k' i, ¬ (k' = m + 1 ∧ i = (prelimPair p (m + 1)).2) →
        set2 t.xpt (m + 1) (prelimPair p (m + 1)).2 (t.xpt ((prelimPair p (m + 1)).2 + 1) (prelimPair p (m + 1)).2) k' i = t.xpt k' i :=
      fun k' i c => if_neg c
    have h2 : Init p { t with xpt := set2 t.xpt (m + 1) (prelimPair p (m + 1)).2 (t.xpt ((prelimPair p (m + 1)).2 + 1) (prelimPair p (m + 1)).2) } (m + 1) := by
      refine ⟨h1.geo, h1.lower, h1.upper, h1.width, ?_, ?_, ?_, ?_, ?_⟩
      · intro k' i i1 i2
        show t.sl i ≤ set2 _ _ _ _ k' i ∧ set2 _ _ _ _ k' i ≤ t.su i
        by_cases c : k' = m + 1 ∧ i = (prelimPair p (m + 1)).2
        · obtain ⟨c1, c2⟩ := c
          rw [show set2 t.xpt (m + 1) (prelimPair p (m + 1)).2 (t.xpt ((prelimPair p (m + 1)).2 + 1) (prelimPair p (m + 1)).2) k' i =
            t.xpt ((prelimPair p (m + 1)).2 + 1) (prelimPair p (m + 1)).2 from if_pos ⟨c1, c2⟩, ← c2]
          exact h1.within _ _ i1 i2
        · rw [hr k' i c]; exact h1.within k' i i1 i2
      · intro k' q i
        exact (hr k' i (fun c => by omega)).trans (h1.zero k' (by omega) i)
      · intro i
        exact (hr 1 i (fun c => by omega)).trans (h1.first i)
      · intro k' q1 q2 i q3
        exact (hr k' i (fun c => by omega)).trans (h1.rowa k' q1 q2 i q3)
      · intro k' q1 q2 i q3
        exact (hr k' i (fun c => by omega)).trans (h1.rowb k' q1 q2 i q3)
    rw [ht] at h2
    exact h2.same ⟨rfl, rfl, rfl, rfl⟩

/-- The value at the new point is stored. -/
theorem prelimStore_ok {p : Par K} {s : St K} {m : Nat} (hn : s.nf = m + 1) (x : Nat → K) (old : List ((Nat → K) × K))
    (hlog : s.log = (x, s.fl) :: old) (h0 : m = 0 → old = [])
    (hx : ∀ i, 1 ≤ i → i ≤ p.n → x i = s.xbase i + s.xpt (m + 1) i) (h : 1 ≤ m → Vals p { s with log := old } m) :
    Vals p (prelimStore s) (m + 1) ∧ (prelimStore s).fval (m + 1) = s.fl ∧ (prelimStore s).fval (prelimStore s).kopt ≤ s.fl := by
  obtain ⟨r, hr⟩ : ∃ r : St K, r = prelimStore s := ⟨_, rfl⟩
  have e1 : r.fval = set1 s.fval (m + 1) s.fl := by
    rw [hr]; unfold prelimStore; dsimp only; rw [hn]; split_ifs <;> rfl
  have e2 : r.xpt = s.xpt := by rw [hr]; unfold prelimStore; dsimp only; split_ifs <;> rfl
  have e3 : r.xbase = s.xbase := by rw [hr]; unfold prelimStore; dsimp only; split_ifs <;> rfl
  have e4 : r.log = s.log := by rw [hr]; unfold prelimStore; dsimp only; split_ifs <;> rfl
  have e5 : r.fval (m + 1) = s.fl := by rw [e1]; exact if_pos rfl
  have e6 : ∀ k, k ≠ m + 1 → r.fval k = s.fval k := by intro k c; rw [e1]; exact if_neg c
  have hrec : ∀ k, 1 ≤ k → k ≤ m + 1 → Rec p r k := by
    intro k k1 k2
    unfold Rec
    rw [e2, e3, e4, hlog]
    by_cases c : k = m + 1
    · subst c
      exact ⟨_, List.mem_cons_self, e5.symm, hx⟩
    · obtain ⟨a, ha, a1, a2⟩ := (h (by omega)).recs k k1 (by omega)
      exact ⟨a, List.mem_cons_of_mem _ ha, by rw [e6 k c]; exact a1, a2⟩
  rw [← hr]
  by_cases c : m = 0
  · have ek : r.kopt = 1 := by
      rw [hr]; unfold prelimStore; dsimp only
      rw [if_pos (by omega)]
    refine ⟨⟨by rw [ek], by rw [ek]; omega, hrec, ?_⟩, e5, ?_⟩
    · intro e he
      rw [e4, hlog, h0 c] at he
      rw [ek, show 1 = m + 1 by omega, e5, List.mem_singleton.mp he]
    · rw [ek, show 1 = m + 1 by omega, e5]
  · have hv := h (by omega)
    have v1 : 1 ≤ s.kopt := hv.kopt1
    have v2 : s.kopt ≤ m := hv.koptm
    have vb : ∀ e ∈ old, s.fval s.kopt ≤ e.2 := hv.best
    have ef : set1 s.fval (m + 1) s.fl s.kopt = s.fval s.kopt := if_neg (by omega)
    have ek : r.kopt = if s.fl < s.fval s.kopt then m + 1 else s.kopt := by
      rw [hr]; unfold prelimStore; dsimp only
      rw [if_neg (by omega), hn, ef]
    by_cases d : s.fl < s.fval s.kopt
    · rw [if_pos d] at ek
      refine ⟨⟨by omega, by omega, hrec, ?_⟩, e5, ?_⟩
      · intro e he
        rw [e4, hlog] at he
        rw [ek, e5]
        rcases List.mem_cons.mp he with rfl | he
        · exact le_refl _
        · exact d.le.trans (vb e he)
      · rw [ek, e5]
    · rw [if_neg d] at ek
      refine ⟨⟨by omega, by omega, hrec, ?_⟩, e5, ?_⟩
      · intro e he
        rw [e4, hlog] at he
        rw [ek, e6 _ (by omega)]
        rcases List.mem_cons.mp he with rfl | he
        · exact not_lt.mp d
        · exact vb e he
      · rw [ek, e6 _ (by omega)]
        exact not_lt.mp d

/-- The points `m` and `m-n` are exchanged. -/
theorem prelimSwap_ok {p : Par K} {s : St K} {m : Nat} (hm : s.nf = m) (h1 : p.n + 2 ≤ m) (h2 : m ≤ 2 * p.n + 1) (hi : Init p s m)
    (hs : Steps p s m) (hv : Vals p s m) (hf : s.fval m = s.fl) (hk : s.fval s.kopt ≤ s.fl) :
    Init p (prelimSwap p s) m ∧ Vals p (prelimSwap p s) m := by
  obtain ⟨s1, s2⟩ := hs h1 h2
  unfold prelimSwap
  dsimp only
  rw [hm]
  by_cases c1 : s.stepa * s.stepb < 0
  · rw [if_pos c1]
    by_cases c2 : s.fl < s.fval (m - p.n)
    · rw [if_pos c2]
      obtain ⟨X, hX⟩ : ∃ X, X = set2 (set2 s.xpt (m - p.n) (m - 1 - p.n) s.stepb) m (m - 1 - p.n) s.stepa := ⟨_, rfl⟩
      obtain ⟨V, hV⟩ : ∃ V, V = set1 (set1 s.fval m (s.fval (m - p.n))) (m - p.n) s.fl := ⟨_, rfl⟩
      rw [← hX, ← hV]
      have hne : m - p.n ≠ m := by omega
      have x1 : ∀ i, X m i = s.xpt (m - p.n) i := by
        intro i
        rw [hX]
        by_cases c : i = m - 1 - p.n
        · subst c
          exact (if_pos ⟨rfl, rfl⟩).trans s1
        · have q1 : set2 (set2 s.xpt (m - p.n) (m - 1 - p.n) s.stepb) m (m - 1 - p.n) s.stepa m i = s.xpt m i := by
            refine (if_neg (fun q => c q.2)).trans (if_neg (fun q => c q.2))
          rw [q1, hi.rowb m h1 h2 i c, hi.rowa (m - p.n) (by omega) (by omega) i (by omega)]
      have x2 : ∀ i, X (m - p.n) i = s.xpt m i := by
        intro i
        rw [hX]
        by_cases c : i = m - 1 - p.n
        · subst c
          exact (if_neg (fun q => hne q.1)).trans ((if_pos ⟨rfl, rfl⟩).trans s2)
        · have q1 : set2 (set2 s.xpt (m - p.n) (m - 1 - p.n) s.stepb) m (m - 1 - p.n) s.stepa (m - p.n) i = s.xpt (m - p.n) i := by
            refine (if_neg (fun q => c q.2)).trans (if_neg (fun q => c q.2))
          rw [q1, hi.rowb m h1 h2 i c, hi.rowa (m - p.n) (by omega) (by omega) i (by omega)]
      have x3 : ∀ k, k ≠ m → k ≠ m - p.n → ∀ i, X k i = s.xpt k i := by
        intro k q1 q2 i
        rw [hX]
        exact (if_neg (fun q => q1 q.1)).trans (if_neg (fun q => q2 q.1))
      have y1 : V m = s.fval (m - p.n) := by rw [hV]; exact (if_neg (Ne.symm hne)).trans (if_pos rfl)
      have y2 : V (m - p.n) = s.fval m := by rw [hV, hf]; exact if_pos rfl
      have y3 : ∀ k, k ≠ m → k ≠ m - p.n → V k = s.fval k := by
        intro k q1 q2
        rw [hV]
        exact (if_neg q2).trans (if_neg q1)
      have hw : ∀ k, Within p s (X k) := by
        intro k i i1 i2
        by_cases q1 : k = m
        · subst q1; rw [x1]; exact hi.within _ i i1 i2
        · by_cases q2 : k = m - p.n
          · rw [q2, x2]; exact hi.within _ i i1 i2
          · rw [x3 k q1 q2]; exact hi.within _ i i1 i2
      have hko : V (if s.kopt = m then m - p.n else s.kopt) = s.fval s.kopt := by
        split_ifs with c
        · rw [y2, c]
        · refine y3 _ c (fun q => ?_)
          rw [q] at hk
          exact absurd (hk.trans_lt c2) (lt_irrefl _)
      have v1 := hv.kopt1
      have v2 := hv.koptm
      refine ⟨⟨hi.geo, hi.lower, hi.upper, hi.width, hw, ?_, ?_, ?_, ?_⟩, ⟨?_, ?_, ?_, ?_⟩⟩
      · intro k q i
        exact (x3 k (by omega) (by omega) i).trans (hi.zero k q i)
      · intro i
        exact (x3 1 (by omega) (by omega) i).trans (hi.first i)
      · intro k q1 q2 i q3
        by_cases q4 : k = m - p.n
        · subst q4
          exact (x2 i).trans (hi.rowb m h1 h2 i (by omega))
        · exact (x3 k (by omega) q4 i).trans (hi.rowa k q1 q2 i q3)
      · intro k q1 q2 i q3
        by_cases q4 : k = m
        · subst q4
          exact (x1 i).trans (hi.rowa (k - p.n) (by omega) (by omega) i (by omega))
        · exact (x3 k q4 (by omega) i).trans (hi.rowb k q1 q2 i q3)
      · show 1 ≤ if s.kopt = m then m - p.n else s.kopt
        split_ifs <;> omega
      · show (if s.kopt = m then m - p.n else s.kopt) ≤ m
        split_ifs <;> omega
      · intro k k1 k2
        unfold Rec
        dsimp only
        by_cases q1 : k = m
        · subst q1
          obtain ⟨a, ha, a1, a2⟩ := hv.recs (k - p.n) (by omega) (by omega)
          exact ⟨a, ha, a1.trans y1.symm, fun i i1 i2 => by rw [x1]; exact a2 i i1 i2⟩
        · by_cases q2 : k = m - p.n
          · subst q2
            obtain ⟨a, ha, a1, a2⟩ := hv.recs m (by omega) (by omega)
            exact ⟨a, ha, a1.trans y2.symm, fun i i1 i2 => by rw [x2]; exact a2 i i1 i2⟩
          · obtain ⟨a, ha, a1, a2⟩ := hv.recs k k1 k2
            exact ⟨a, ha, a1.trans (y3 k q1 q2).symm, fun i i1 i2 => by rw [x3 k q1 q2]; exact a2 i i1 i2⟩
      · intro e he
        show V (if s.kopt = m then m - p.n else s.kopt) ≤ e.2
        rw [hko]
        exact hv.best e he
    · rw [if_neg c2]; exact ⟨hi, hv⟩
  · rw [if_neg c1]; exact ⟨hi, hv⟩

theorem prelimModel_ok {p : Par K} {s : St K} {m : Nat} (hm : s.nf = m) (hi : Init p s m)
    (hs : Steps p s m) (hv : Vals p s m) (hf : s.fval m = s.fl) (hk : s.fval s.kopt ≤ s.fl) :
    Init p (prelimModel p s) m ∧ Vals p (prelimModel p s) m := by
  unfold prelimModel
  by_cases c1 : s.nf ≤ 2 * p.n + 1
  · rw [if_pos c1]
    by_cases c2 : 2 ≤ s.nf ∧ s.nf ≤ p.n + 1
    · rw [if_pos c2]
      have : (prelimModelA p s).sl = s.sl ∧ (prelimModelA p s).su = s.su ∧ (prelimModelA p s).xbase = s.xbase ∧ (prelimModelA p s).xpt = s.xpt ∧
          (prelimModelA p s).log = s.log ∧ (prelimModelA p s).fval = s.fval ∧ (prelimModelA p s).kopt = s.kopt := by
        unfold prelimModelA
        dsimp only
        split_ifs <;> exact ⟨rfl, rfl, rfl, rfl, rfl, rfl, rfl⟩
      obtain ⟨e1, e2, e3, e4, e5, e6, e7⟩ := this
      exact ⟨hi.same ⟨e1, e2, e3, e4⟩, hv.same ⟨e3, e5, e6, e4, e7⟩⟩
    · rw [if_neg c2]
      by_cases c3 : p.n + 2 ≤ s.nf
      · rw [if_pos c3]
        obtain ⟨q1, q2⟩ := prelimSwap_ok (p := p) (s := prelimQuad p s) (m := m) hm (by omega) (by omega) (hi.same ⟨rfl, rfl, rfl, rfl⟩) hs
          (hv.same ⟨rfl, rfl, rfl, rfl, rfl⟩) hf hk
        exact ⟨q1.same ⟨rfl, rfl, rfl, rfl⟩, q2.same ⟨rfl, rfl, rfl, rfl, rfl⟩⟩
      · rw [if_neg c3]; exact ⟨hi, hv⟩
  · rw [if_neg c1]
    exact ⟨hi.same ⟨rfl, rfl, rfl, rfl⟩, hv.same ⟨rfl, rfl, rfl, rfl, rfl⟩⟩

theorem ok_begin (p : Par K) (hre : p.rhoend ≤ p.rhobeg) (s : St K) (hm : s.nf ≤ p.npt) (hi : Init p s s.nf) (hv : Vals p s s.nf)
    (hst : s.status = .success) : Ok p (begin p s).1 (begin p s).2 := by
  have v1 := hv.kopt1
  have v2 := hv.koptm
  have hfs : s.fval s.kopt ≤ s.fval 1 := by
    obtain ⟨a, ha, a1, -⟩ := hv.recs 1 (le_refl _) (by omega)
    rw [← a1]
    exact hv.best a ha
  unfold begin
  dsimp only
  by_cases c : s.nf < p.npt
  · rw [if_pos c]
    exact ⟨hi.geo, hv.recs _ v1 v2, fun _ _ _ => rfl, fun i i1 i2 => hi.within _ i i1 i2,
      Or.inl ⟨hv.best, hfs, fun e => Status.noConfusion e⟩⟩
  · rw [if_neg c]
    have hn : s.nf = p.npt := by omega
    refine ⟨⟨hi.geo, v1, by rw [← hn]; exact v2, by rw [← hn]; exact hv.recs, fun k _ _ => hi.within k, hv.best, hfs, hst⟩, fun _ _ _ => rfl,
      ⟨hre, le_refl _⟩, le_refl (0 : Int)⟩

/-- The fields which `prelimPoint` and `prelimModel` do not change. -/
theorem prelimPoint_same (p : Par K) (s : St K) (m : Nat) :
    (prelimPoint p s m).log = s.log ∧ (prelimPoint p s m).nf = s.nf ∧ (prelimPoint p s m).status = s.status ∧
    (prelimPoint p s m).fval = s.fval ∧ (prelimPoint p s m).kopt = s.kopt ∧ (prelimPoint p s m).xbase = s.xbase ∧
    (∀ k, k ≠ m → (prelimPoint p s m).xpt k = s.xpt k) := by
  have hset : ∀ (X : Nat → Nat → K) j a k, k ≠ m → set2 X m j a k = X k := by
    intro X j a k c
    funext i
    exact if_neg (fun q => c q.1)
  unfold prelimPoint
  dsimp only
  split_ifs
  · exact ⟨rfl, rfl, rfl, rfl, rfl, rfl, fun k c => hset _ _ _ k c⟩
  · exact ⟨rfl, rfl, rfl, rfl, rfl, rfl, fun k c => hset _ _ _ k c⟩
  · exact ⟨rfl, rfl, rfl, rfl, rfl, rfl, fun k c => rfl⟩
  · exact ⟨rfl, rfl, rfl, rfl, rfl, rfl, fun k c => (hset _ _ _ k c).trans (hset _ _ _ k c)⟩

theorem prelimModel_same (p : Par K) (s : St K) :
    (prelimModel p s).log = s.log ∧ (prelimModel p s).nf = s.nf ∧ (prelimModel p s).status = s.status := by
  unfold prelimModel prelimModelA prelimModelB prelimModelC prelimSwap prelimQuad
  dsimp only
  split_ifs <;> exact ⟨rfl, rfl, rfl⟩

theorem prelimStore_same (s : St K) : (prelimStore s).nf = s.nf ∧ (prelimStore s).status = s.status ∧ (prelimStore s).sl = s.sl ∧
    (prelimStore s).su = s.su ∧ (prelimStore s).xbase = s.xbase ∧ (prelimStore s).xpt = s.xpt ∧ (prelimStore s).stepa = s.stepa ∧
    (prelimStore s).stepb = s.stepb ∧ (prelimStore s).fl = s.fl ∧ (prelimStore s).log = s.log := by
  unfold prelimStore
  dsimp only
  split_ifs <;> exact ⟨rfl, rfl, rfl, rfl, rfl, rfl, rfl, rfl, rfl, rfl⟩

theorem ok_prelim (p : Par K) (hr : 0 < p.rhobeg) (hre : p.rhoend ≤ p.rhobeg) (calfun : Nat → (Nat → K) → K) (s : St K) (h : Ok p .pre s) :
    Ok p (prelim p calfun s).1 (prelim p calfun s).2 := by
  have h : Pre p s := h
  obtain ⟨i1, i2⟩ := prelimPoint_ok hr h.init
  obtain ⟨a1, a2, a3, a4, a5, a6, a7⟩ := prelimPoint_same p s (s.nf + 1)
  obtain ⟨t, ht⟩ : ∃ t, t = prelimPoint p s (s.nf + 1) := ⟨_, rfl⟩
  rw [← ht] at i1 i2 a1 a2 a3 a4 a5 a6 a7
  obtain ⟨x, hx⟩ : ∃ x, x = prelimX p t (s.nf + 1) := ⟨_, rfl⟩
  obtain ⟨u, hu⟩ : ∃ u, u = call calfun x { t with x := x } := ⟨_, rfl⟩
  have un : u.nf = s.nf + 1 := by rw [hu]; show t.nf + 1 = _; rw [a2]
  have ulog : u.log = (x, u.fl) :: s.log := by rw [hu]; show (x, _) :: t.log = _; rw [a1]; rfl
  have ui : Init p u (s.nf + 1) := by rw [hu]; exact i1.same ⟨rfl, rfl, rfl, rfl⟩
  have us : Steps p u (s.nf + 1) := by rw [hu]; exact i2
  have ux : ∀ i, 1 ≤ i → i ≤ p.n → x i = u.xbase i + u.xpt (s.nf + 1) i := by
    rw [hu, hx]
    exact fun i q1 q2 => place_eq i1.geo (i1.within (s.nf + 1)) i q1 q2
  have ust : u.status = .success := by rw [hu]; show t.status = _; rw [a3]; exact h.status
  have uv : 1 ≤ s.nf → Vals p { u with log := s.log } s.nf := by
    intro q
    have hv := h.vals q
    rw [hu]
    refine ⟨?_, ?_, ?_, ?_⟩
    · show 1 ≤ t.kopt; rw [a5]; exact hv.kopt1
    · show t.kopt ≤ _; rw [a5]; exact hv.koptm
    · intro k k1 k2
      unfold Rec
      show ∃ e ∈ s.log, e.2 = t.fval k ∧ ∀ i, 1 ≤ i → i ≤ p.n → e.1 i = t.xbase i + t.xpt k i
      rw [a4, a6, a7 k (by omega)]
      exact hv.recs k k1 k2
    · show ∀ e ∈ s.log, t.fval t.kopt ≤ e.2
      rw [a4, a5]
      exact hv.best
  obtain ⟨w1, w2, w3⟩ := prelimStore_ok (p := p) un x s.log ulog h.none ux uv
  obtain ⟨b1, b2, b3, b4, b5, b6, b7, b8, b9, b10⟩ := prelimStore_same u
  obtain ⟨v, hv⟩ : ∃ v, v = prelimStore u := ⟨_, rfl⟩
  rw [← hv] at w1 w2 w3 b1 b2 b3 b4 b5 b6 b7 b8 b9 b10
  have vs : Steps p v (s.nf + 1) := by unfold Steps; rw [b6, b7, b8]; exact us
  obtain ⟨z1, z2⟩ := prelimModel_ok (p := p) (s := v) (m := s.nf + 1) (b1.trans un) (ui.same ⟨b3, b4, b5, b6⟩) vs w1 (w2.trans b9.symm) (w3.trans_eq b9.symm)
  obtain ⟨c1, c2, c3⟩ := prelimModel_same p v
  obtain ⟨z, hz⟩ : ∃ z, z = prelimModel p v := ⟨_, rfl⟩
  rw [← hz] at z1 z2 c1 c2 c3
  have e : prelim p calfun s = if z.nf < p.npt ∧ (z.nf : Int) < p.maxfun then (.pre, z) else begin p z := by
    rw [hz, hv, hu, hx, ht]
    have a2' : (prelimPoint p s (s.nf + 1)).nf = s.nf := (prelimPoint_same p s (s.nf + 1)).2.1
    unfold prelim
    dsimp only
    rw [a2']
  have zn : z.nf = s.nf + 1 := c2.trans (b1.trans un)
  have zst : z.status = .success := c3.trans (b2.trans ust)
  rw [← zn] at z1 z2
  rw [e]
  by_cases c : z.nf < p.npt ∧ (z.nf : Int) < p.maxfun
  · rw [if_pos c]
    exact ⟨z1, zst, c.1, fun q => absurd (zn.symm.trans q) (Nat.succ_ne_zero _), fun _ => z2⟩
  · rw [if_neg c]
    exact ok_begin p hre z (by rw [zn]; exact h.nf) z1 z2 zst

/-! ### The whole algorithm -/

theorem ok_step (hsqrt : ∀ a : K, 1 ≤ a → 1 ≤ CMath.sqrt a) (p : Par K) (h0 : 0 < p.rhoend)
    (hre : p.rhoend ≤ p.rhobeg) (calfun : Nat → (Nat → K) → K) (T : St K → Trs K) (ls : Lab × St K) (h : Ok p ls.1 ls.2) :
    Ok p (step p calfun T ls).1 (step p calfun T ls).2 := by
  obtain ⟨l, s⟩ := ls
  cases l with
  | pre => exact ok_prelim p (h0.trans_le hre) hre calfun s h
  | l20 => exact ok_l20 p s h
  | l60 => exact ok_l60 p h0 T s h
  | l90 => exact ok_l90 p s h
  | l190 => exact ok_l190 p h0 s h
  | r80 => exact ok_r80 p s h
  | r120 => exact ok_r120 p s h
  | rpts => exact ok_rpts p calfun s h
  | l190b => exact ok_l190b p s h
  | l210 => exact ok_l210 p s h
  | l230 => exact ok_l230 p s h
  | l360 => exact ok_l360 p h0 calfun s h
  | l650 => exact ok_l650 p h0 s h
  | l680 => exact ok_l680 hsqrt p h0 s h
  | done => exact ok_finish p s h
  | ret => exact h
  | wrong => exact h

/-- The bounds are given relative to the first point: `SL` and `SU` at the entry of `bobyqb`. -/
structure Ready (p : Par K) (x sl su : Nat → K) : Prop where
  geo : ∀ i, 1 ≤ i → i ≤ p.n → sl i = p.xl i - x i ∧ su i = p.xu i - x i
  lower : ∀ i, 1 ≤ i → i ≤ p.n → sl i = 0 ∨ sl i ≤ -p.rhobeg
  upper : ∀ i, 1 ≤ i → i ≤ p.n → su i = 0 ∨ p.rhobeg ≤ su i
  width : ∀ i, 1 ≤ i → i ≤ p.n → sl i + 2 * p.rhobeg ≤ su i

theorem ok_start (p : Par K) (h0 : 0 < p.rhobeg) (hn : 1 ≤ p.npt) (x sl su : Nat → K) (s : St K) (h : Ready p x sl su) :
    Ok p (start x sl su s).1 (start x sl su s).2 := by
  refine ⟨⟨h.geo, h.lower, h.upper, h.width, ?_, fun _ _ _ => rfl, fun _ => rfl, fun _ _ _ _ _ => rfl, fun _ _ _ _ _ => rfl⟩, rfl, hn, fun _ => rfl, fun q => absurd q (Nat.not_succ_le_zero 0)⟩
  intro k i i1 i2
  show sl i ≤ 0 ∧ 0 ≤ su i
  have q1 := h.lower i i1 i2
  have q2 := h.upper i i1 i2
  constructor
  · rcases q1 with q | q <;> linarith
  · rcases q2 with q | q <;> linarith

/-- At any time the interpolation points are at calls of the objective function, within the bounds, and `KOPT` is the
best of all the calls. -/
theorem bobyqb_ok (hsqrt : ∀ a : K, 1 ≤ a → 1 ≤ CMath.sqrt a) (p : Par K) (h0 : 0 < p.rhoend)
    (hre : p.rhoend ≤ p.rhobeg) (hn : 1 ≤ p.npt) (calfun : Nat → (Nat → K) → K) (T : St K → Trs K) (x sl su : Nat → K) (s : St K)
    (h : Ready p x sl su) (fuel : Nat) :
    Ok p (run p calfun T fuel (start x sl su s)).1 (run p calfun T fuel (start x sl su s)).2 :=
  run_inv p calfun T (fun ls => Ok p ls.1 ls.2) (fun ls => ok_step hsqrt p h0 hre calfun T ls) fuel (start x sl su s)
    (ok_start p (h0.trans_le hre) hn x sl su s h)

/-- What is returned: see `Ret`. -/
theorem bobyqb_best (hsqrt : ∀ a : K, 1 ≤ a → 1 ≤ CMath.sqrt a) (p : Par K) (h0 : 0 < p.rhoend)
    (hre : p.rhoend ≤ p.rhobeg) (hn : 1 ≤ p.npt) (calfun : Nat → (Nat → K) → K) (T : St K → Trs K) (x sl su : Nat → K) (s r : St K)
    (h : Ready p x sl su) (fuel : Nat) (hr : run p calfun T fuel (start x sl su s) = (.ret, r)) : Ret p r := by
  have := bobyqb_ok hsqrt p h0 hre hn calfun T x sl su s h fuel
  rw [hr] at this
  exact this

/-- No index is out of range: `KNEW` is always set when it is used. -/
theorem bobyqb_never_wrong (hsqrt : ∀ a : K, 1 ≤ a → 1 ≤ CMath.sqrt a) (p : Par K) (h0 : 0 < p.rhoend)
    (hre : p.rhoend ≤ p.rhobeg) (hn : 1 ≤ p.npt) (calfun : Nat → (Nat → K) → K) (T : St K → Trs K) (x sl su : Nat → K) (s : St K)
    (h : Ready p x sl su) (fuel : Nat) : (run p calfun T fuel (start x sl su s)).1 ≠ .wrong := by
  intro e
  have := bobyqb_ok hsqrt p h0 hre hn calfun T x sl su s h fuel
  rw [e] at this
  exact this

/-! ### The driver -/

theorem adjust_ready (rho xl xu x : K) (h0 : 0 < rho) (hw : rho + rho ≤ xu - xl) :
    (adjust rho xl xu x).2.1 = xl - (adjust rho xl xu x).1 ∧ (adjust rho xl xu x).2.2 = xu - (adjust rho xl xu x).1 ∧
    ((adjust rho xl xu x).2.1 = 0 ∨ (adjust rho xl xu x).2.1 ≤ -rho) ∧ ((adjust rho xl xu x).2.2 = 0 ∨ rho ≤ (adjust rho xl xu x).2.2) ∧
    (adjust rho xl xu x).2.1 + 2 * rho ≤ (adjust rho xl xu x).2.2 := by
  unfold adjust
  dsimp only
  rw [cmax_eq, cmin_eq]
  split_ifs with c1 c2 c3 c4
  · exact ⟨by ring, by ring, Or.inl rfl, Or.inr (by linarith), by linarith⟩
  · rw [max_eq_left (by linarith)]
    exact ⟨by ring, by ring, Or.inr (le_refl _), Or.inr (by linarith), by linarith⟩
  · exact ⟨by ring, by ring, Or.inr (by linarith), Or.inl rfl, by linarith⟩
  · rw [min_eq_left (by linarith)]
    exact ⟨by ring, by ring, Or.inr (by linarith), Or.inr (le_refl _), by linarith⟩
  · push Not at c1 c3
    exact ⟨rfl, rfl, Or.inr c1.le, Or.inr c3.le, by linarith⟩

theorem firstClose_zero (n : Nat) (rho : K) (xl xu : Nat → K) (h : firstClose n rho xl xu = 0) :
    ∀ j, 1 ≤ j → j ≤ n → rho + rho ≤ xu j - xl j := by
  have key : ∀ n, firstClose n rho xl xu = 0 → ∀ j, 1 ≤ j → j ≤ n → rho + rho ≤ xu j - xl j := by
    intro n
    induction n with
    | zero => intro _ j j1 j2; omega
    | succ n ih =>
      intro h j j1 j2
      have e : firstClose (n + 1) rho xl xu = if firstClose n rho xl xu = 0 ∧ xu (n + 1) - xl (n + 1) < rho + rho then n + 1 else firstClose n rho xl xu := rfl
      rw [e] at h
      split_ifs at h with c
      by_cases q : j = n + 1
      · subst q
        by_contra hc
        exact c ⟨h, not_le.mp hc⟩
      · exact ih h j j1 (by omega)
  exact key n h

theorem prepare_ready (a : Args K) (s : St K) (p : Par K) (scl : Option (Nat → K)) (ls : Lab × St K) (h : prepare a s = .inr (p, scl, ls)) :
    0 < p.rhoend ∧ p.rhoend ≤ p.rhobeg ∧ 1 ≤ p.npt ∧ p.n = a.n.toNat ∧ ∃ x sl su, ls = start x sl su s ∧ Ready p x sl su := by
  unfold prepare at h
  dsimp only at h
  split_ifs at h with c1 c2 c3
  cases hs : scaling a.n.toNat a.scl with
  | none => rw [hs] at h; exact absurd h (by simp)
  | some sc =>
    rw [hs] at h
    dsimp only at h
    split_ifs at h with c4
    push Not at c2 c3 c4
    have hc := firstClose_zero _ _ _ _ c4
    obtain ⟨rfl, -, rfl⟩ : _ ∧ _ ∧ _ := by
      have := Sum.inr.inj h
      exact ⟨(Prod.mk.inj this).1.symm, (Prod.mk.inj (Prod.mk.inj this).2).1.symm, (Prod.mk.inj (Prod.mk.inj this).2).2.symm⟩
    have h0 : 0 < a.rhobeg := c3.1.trans_le c3.2
    refine ⟨c3.1, c3.2, ?_, rfl, _, _, _, rfl, ?_⟩
    · show 1 ≤ a.npt.toNat
      omega
    · refine ⟨fun i i1 i2 => ?_, fun i i1 i2 => ?_, fun i i1 i2 => ?_, fun i i1 i2 => ?_⟩
      · exact ⟨(adjust_ready _ _ _ _ h0 (hc i i1 i2)).1, (adjust_ready _ _ _ _ h0 (hc i i1 i2)).2.1⟩
      · exact (adjust_ready _ _ _ _ h0 (hc i i1 i2)).2.2.1
      · exact (adjust_ready _ _ _ _ h0 (hc i i1 i2)).2.2.2.1
      · exact (adjust_ready _ _ _ _ h0 (hc i i1 i2)).2.2.2.2

/-- The value `a` is at least as good as the value `b`. -/
def AsGood (maximize : Bool) (a b : K) : Prop := if maximize then b ≤ a else a ≤ b

/-- The variables `x` are those of the call `e`, and no call in the list gave a better value. -/
def BestCall (a : Args K) (x : Nat → K) (e : (Nat → K) × K) (log : List ((Nat → K) × K)) : Prop :=
  e ∈ log ∧ (∀ i : Nat, 1 ≤ i → (i : Int) ≤ a.n → x i = e.1 i) ∧ ∀ e' ∈ log, AsGood a.maximize e.2 e'.2

/-- **C72.**  In exact arithmetic, for any objective function and any step of `trsbox`, if the arguments are accepted
then the variables at the end are those of the call of the objective function which gave the best value (the least one,
or the greatest one if the function is maximized); `W(1)` is this value in case of success.  The exception is the
status `STEP_FAILED`: the last call is ignored, and the variables are the best ones before it. -/
theorem optimize_best (hsqrt : ∀ a : K, 1 ≤ a → 1 ≤ CMath.sqrt a) (a : Args K)
    (obj : Nat → (Nat → K) → K) (T : Par K → St K → Trs K) (s : St K) (fuel : Nat) (st : Status) (x : Nat → K) (w1 : K)
    (log : List ((Nat → K) × K)) (h : optimize a obj T s fuel = some (st, x, w1, log)) (hl : log ≠ []) :
    Genuine obj log ∧
    (st ≠ .stepFailed → ∃ e, BestCall a x e log ∧ (st = .success → w1 = e.2)) ∧
    (st = .stepFailed → ∃ last old, log = last :: old ∧ ∃ e, BestCall a x e old) := by
  unfold optimize at h
  cases hp : prepare a s with
  | inl e =>
    rw [hp] at h
    simp only [Option.some.injEq, Prod.mk.injEq] at h
    obtain ⟨-, -, -, rfl⟩ := h
    exact absurd rfl hl
  | inr t =>
    obtain ⟨p, scl, ls⟩ := t
    rw [hp] at h
    obtain ⟨h0, hre, hn, hpn, x0, sl, su, rfl, hrd⟩ := prepare_ready a s p scl ls hp
    dsimp only at h
    cases hr : run p (objfun obj a.maximize scl) (T p) fuel (start x0 sl su s) with
    | mk l r =>
      rw [hr] at h
      cases l <;> simp only [reduceCtorEq] at h
      simp only [Option.some.injEq, Prod.mk.injEq] at h
      obtain ⟨rfl, rfl, rfl, rfl⟩ := h
      have hR := bobyqb_best hsqrt p h0 hre hn (objfun obj a.maximize scl) (T p) x0 sl su s r hrd fuel hr
      have hG := bobyqb_genuine p (objfun obj a.maximize scl) (T p) x0 sl su s fuel
      rw [hr] at hG
      have good : ∀ u v : K, u ≤ v → AsGood a.maximize (u * if a.maximize = true then -1 else 1) (v * if a.maximize = true then -1 else 1) := by
        intro u v huv
        unfold AsGood
        by_cases c : a.maximize = true
        · rw [if_pos c, if_pos c]; linarith
        · rw [if_neg c, if_neg c]; linarith
      have gen : ∀ L : List ((Nat → K) × K), Genuine (objfun obj a.maximize scl) L →
          Genuine obj (L.map fun e => (unscale scl e.1, e.2 * if a.maximize = true then -1 else 1)) := by
        intro L
        induction L with
        | nil => intro _; exact trivial
        | cons e L ih =>
          rintro ⟨q1, q2⟩
          refine ⟨?_, ih q2⟩
          show e.2 * _ = obj _ (unscale scl e.1)
          rw [q1, List.length_map]
          unfold objfun
          by_cases c : a.maximize = true
          · rw [if_pos c]; ring
          · rw [if_neg c]; ring
      have conv : ∀ L : List ((Nat → K) × K), BestOf p r.x r.f L → ∃ e,
          BestCall a (unscale scl r.x) e (L.map fun e => (unscale scl e.1, e.2 * if a.maximize = true then -1 else 1)) ∧
          e.2 = r.f * if a.maximize = true then -1 else 1 := by
        rintro L ⟨⟨e, he, e1, e2⟩, hb⟩
        refine ⟨(unscale scl e.1, e.2 * if a.maximize = true then -1 else 1), ⟨List.mem_map.mpr ⟨e, he, rfl⟩, ?_, ?_⟩, by rw [e1]⟩
        · intro i i1 i2
          have := e2 i i1 (by omega)
          unfold unscale
          cases scl with
          | none => exact this.symm
          | some c => dsimp only; rw [this]
        · intro e' he'
          obtain ⟨e'', q1, rfl⟩ := List.mem_map.mp he'
          refine good _ _ ?_
          rw [e1]
          exact hb e'' q1
      refine ⟨gen _ hG, fun q => ?_, fun q => ?_⟩
      · obtain ⟨e, z1, z2⟩ := conv _ (hR.best q)
        refine ⟨e, z1, fun q' => ?_⟩
        rw [z2, hR.value q']
      · obtain ⟨last, old, z1, z2⟩ := hR.failed q
        refine ⟨(unscale scl last.1, last.2 * if a.maximize = true then -1 else 1), old.map fun e => (unscale scl e.1, e.2 * if a.maximize = true then -1 else 1), ?_, ?_⟩
        · rw [z1]; rfl
        · obtain ⟨e, z3, -⟩ := conv _ z2
          exact ⟨e, z3⟩

/-! ### The bounds with scaling -/

/-- The scaling factors in use are those of the user and they are positive. -/
theorem scaling_spec (n : Nat) (scl : Option (Nat → K)) (o : Option (Nat → K)) (h : scaling n scl = some o) :
    ∀ c, o = some c → scl = some c ∧ ∀ j, 1 ≤ j → j ≤ n → 0 < c j := by
  unfold scaling at h
  cases scl with
  | none =>
    simp only [Option.some.injEq] at h
    intro c e
    rw [← h] at e
    cases e
  | some s =>
    have key := up_inv (fun k (t : Option (Option (Nat → K))) => ∀ o, t = some o → (∀ j, 1 ≤ j → j ≤ k → 0 < s j) ∧ ∀ c, o = some c → c = s) n
      (body := fun j (t : Option (Option (Nat → K))) =>
        match t with
        | none => none
        | some o => if s j ≠ 1 then (if s j - s j ≠ 0 ∨ s j ≤ 0 then none else some (some s)) else some o)
      (s := some none)
      (by
        intro o e
        simp only [Option.some.injEq] at e
        refine ⟨fun j j1 j2 => by omega, fun c e' => ?_⟩
        rw [← e] at e'; cases e')
      (by
        intro k hk t ih o e
        cases t with
        | none => cases e
        | some o' =>
          dsimp only at e
          obtain ⟨i1, i2⟩ := ih o' rfl
          split_ifs at e with c1 c2
          · push Not at c2
            simp only [Option.some.injEq] at e
            refine ⟨fun j j1 j2 => ?_, fun c e' => ?_⟩
            · by_cases q : j = k + 1
              · rw [q]; exact c2.2
              · exact i1 j j1 (by omega)
            · rw [← e] at e'; exact (Option.some.inj e').symm
          · push Not at c1
            simp only [Option.some.injEq] at e
            refine ⟨fun j j1 j2 => ?_, fun c e' => i2 c (e.trans e')⟩
            by_cases q : j = k + 1
            · rw [q, c1]; exact one_pos
            · exact i1 j j1 (by omega))
    intro c e
    obtain ⟨k1, k2⟩ := key o h
    have := k2 c e
    subst this
    exact ⟨rfl, k1⟩

/-- A bound divided by the scaling factors. -/
def scaledBy (scl : Option (Nat → K)) (v : Nat → K) : Nat → K := match scl with | none => v | some c => fun j => 1 / c j * v j

theorem prepare_bounds (a : Args K) (s : St K) (p : Par K) (scl : Option (Nat → K)) (ls : Lab × St K) (h : prepare a s = .inr (p, scl, ls)) :
    scaling a.n.toNat a.scl = some scl ∧ p.xl = scaledBy scl a.xl ∧ p.xu = scaledBy scl a.xu := by
  unfold prepare at h
  dsimp only at h
  split_ifs at h with c1 c2 c3
  cases hs : scaling a.n.toNat a.scl with
  | none => rw [hs] at h; exact absurd h (by simp)
  | some sc =>
    rw [hs] at h
    dsimp only at h
    split_ifs at h with c4
    have := Sum.inr.inj h
    have e1 := (Prod.mk.inj this).1
    have e2 := (Prod.mk.inj (Prod.mk.inj this).2).1
    subst e2
    subst e1
    cases sc <;> exact ⟨rfl, rfl, rfl⟩

/-- **C49** with scaling, in exact arithmetic: the objective function is only called within the bounds, and the variables
are within the bounds at the end. -/
theorem optimize_feasible_scaled (a : Args K) (obj : Nat → (Nat → K) → K) (T : Par K → St K → Trs K) (s : St K) (fuel : Nat)
    (st : Status) (x : Nat → K) (w1 : K) (log : List ((Nat → K) × K)) (h : optimize a obj T s fuel = some (st, x, w1, log)) (hl : log ≠ []) :
    (∀ e ∈ log, Inside a e.1) ∧ Inside a x := by
  unfold optimize at h
  cases hp : prepare a s with
  | inl e =>
    rw [hp] at h
    simp only [Option.some.injEq, Prod.mk.injEq] at h
    obtain ⟨-, -, -, rfl⟩ := h
    exact absurd rfl hl
  | inr t =>
    obtain ⟨p, scl, ls⟩ := t
    rw [hp] at h
    obtain ⟨h0, hre, -, hpn, x0, sl, su, rfl, hrd⟩ := prepare_ready a s p scl ls hp
    obtain ⟨hsc, hxl, hxu⟩ := prepare_bounds a s p scl _ hp
    dsimp only at h
    have hb : Bounds p := by
      intro i i1 i2
      have q1 := hrd.geo i i1 i2
      have q2 := hrd.width i i1 i2
      have := h0.trans_le hre
      rw [q1.1, q1.2] at q2
      linarith
    obtain ⟨f1, f2⟩ := bobyqb_feasible p hb (objfun obj a.maximize scl) (T p) x0 sl su s fuel _ rfl
    have conv : ∀ v, InBox p v → Inside a (unscale scl v) := by
      intro v hv i i1 i2
      have q := hv i i1 (by omega)
      rw [hxl, hxu] at q
      unfold unscale
      unfold scaledBy at q
      cases scl with
      | none => exact q
      | some c =>
        have hc := (scaling_spec _ _ _ hsc c rfl).2 i i1 (by omega)
        dsimp only at q ⊢
        obtain ⟨q1, q2⟩ := q
        have e : ∀ b : K, c i * (1 / c i * b) = b := fun b => by field_simp
        constructor
        · rw [← e (a.xl i)]; exact mul_le_mul_of_nonneg_left q1 hc.le
        · rw [← e (a.xu i)]; exact mul_le_mul_of_nonneg_left q2 hc.le
    cases hr : run p (objfun obj a.maximize scl) (T p) fuel (start x0 sl su s) with
    | mk l r =>
      rw [hr] at h f1 f2
      cases l <;> simp only [reduceCtorEq] at h
      simp only [Option.some.injEq, Prod.mk.injEq] at h
      obtain ⟨-, rfl, -, rfl⟩ := h
      refine ⟨?_, conv _ (f2 rfl)⟩
      intro e he
      obtain ⟨e', he', rfl⟩ := List.mem_map.mp he
      exact conv _ (f1 e' he')

end
end Opk.Bobyqa
