import Verif.Bobyqa.First

/-!
# The first model of BOBYQA interpolates the first values, in exact arithmetic
-/
set_option linter.unusedSectionVars false
namespace Opk.Bobyqa
open Linalg CMath Cobyla Powell
open Newuoa (omega hform qval hform_one hform_two dot_del dot_addr hform_congr)

section
variable {K : Type} [Field K] [LinearOrder K] [IsStrictOrderedRing K] [CMath K] [ExactMath K]

/-- The state after some of the first points. -/
structure Begun (p : Par K) (s : St K) : Prop where
  arr : Arr p s.su s.nf s.xpt s.fval s.gopt s.zmat s.bmat s.hq
  pq : ∀ k, s.pq k = 0
  beg : 1 ≤ s.nf → s.fbeg = s.fval 1

/-- The state after the evaluation at the next of the first points, before the changes of the model. -/
def stored (p : Par K) (calfun : Nat → (Nat → K) → K) (s : St K) : St K :=
  prelimStore (call calfun (prelimX p (prelimPoint p s (s.nf + 1)) (s.nf + 1)) { prelimPoint p s (s.nf + 1) with x := prelimX p (prelimPoint p s (s.nf + 1)) (s.nf + 1) })

theorem prelim_eq (p : Par K) (calfun : Nat → (Nat → K) → K) (s : St K) :
    prelim p calfun s = if (prelimModel p (stored p calfun s)).nf < p.npt ∧ ((prelimModel p (stored p calfun s)).nf : Int) < p.maxfun
      then (.pre, prelimModel p (stored p calfun s)) else begin p (prelimModel p (stored p calfun s)) := by
  have a2' : (prelimPoint p s (s.nf + 1)).nf = s.nf := (prelimPoint_same p s (s.nf + 1)).2.1
  unfold prelim stored
  simp only [a2']

theorem prelimPoint_rest (p : Par K) (s : St K) (nf : Nat) :
    (prelimPoint p s nf).bmat = s.bmat ∧ (prelimPoint p s nf).zmat = s.zmat ∧ (prelimPoint p s nf).gopt = s.gopt ∧ (prelimPoint p s nf).hq = s.hq ∧
    (prelimPoint p s nf).pq = s.pq ∧ (prelimPoint p s nf).fbeg = s.fbeg ∧ (prelimPoint p s nf).su = s.su := by
  unfold prelimPoint prelimA prelimB prelimC
  dsimp only
  split_ifs <;> exact ⟨rfl, rfl, rfl, rfl, rfl, rfl, rfl⟩

theorem stored_fields (p : Par K) (calfun : Nat → (Nat → K) → K) (s : St K) :
    (stored p calfun s).nf = s.nf + 1 ∧ (stored p calfun s).fval = set1 s.fval (s.nf + 1) (stored p calfun s).fl ∧ (stored p calfun s).bmat = s.bmat ∧
    (stored p calfun s).zmat = s.zmat ∧ (stored p calfun s).gopt = s.gopt ∧ (stored p calfun s).hq = s.hq ∧ (stored p calfun s).pq = s.pq ∧ (stored p calfun s).su = s.su ∧
    (stored p calfun s).xpt = (prelimPoint p s (s.nf + 1)).xpt ∧ (stored p calfun s).fbeg = (if s.nf = 0 then (stored p calfun s).fl else s.fbeg) ∧
    (stored p calfun s).stepa = (prelimPoint p s (s.nf + 1)).stepa ∧ (stored p calfun s).stepb = (prelimPoint p s (s.nf + 1)).stepb ∧
    (stored p calfun s).ipt = (prelimPoint p s (s.nf + 1)).ipt ∧ (stored p calfun s).jpt = (prelimPoint p s (s.nf + 1)).jpt := by
  obtain ⟨r1, r2, r3, r4, r5, r6, r7⟩ := prelimPoint_rest p s (s.nf + 1)
  obtain ⟨-, q2, -, q4, -, -, -⟩ := prelimPoint_same p s (s.nf + 1)
  unfold stored prelimStore call
  dsimp only
  rw [q2]
  by_cases c : s.nf = 0
  · rw [if_pos (by omega : s.nf + 1 = 1), if_pos c]
    exact ⟨rfl, by dsimp only; rw [q4], r1, r2, r3, r4, r5, r7, rfl, rfl, rfl, rfl, rfl, rfl⟩
  · rw [if_neg (by omega : ¬ s.nf + 1 = 1), if_neg c]
    exact ⟨rfl, by dsimp only; rw [q4], r1, r2, r3, r4, r5, r7, rfl, r6, rfl, rfl, rfl, rfl⟩

set_option maxHeartbeats 4000000 in
/-- The arrays are changed by one point. -/
theorem begun_next {p : Par K} (hp : Newuoa.Valid p.nw) (hsqrt : ∀ a : K, 0 ≤ a → 0 ≤ CMath.sqrt a ∧ CMath.sqrt a * CMath.sqrt a = a)
    (calfun : Nat → (Nat → K) → K) {s : St K} (hi : Init p s s.nf) (hm : s.nf < p.npt) (h : Begun p s) : Begun p (prelimModel p (stored p calfun s)) := by
  have n1 : 1 ≤ p.n := hp.n1
  have nm := nptm_eq hp
  have hr : 0 < p.rhobeg := hp.r
  have half : (lit 1 2 : K) = 1 / 2 := by rw [lit_rat]; norm_num
  have two : (lit 2 1 : K) = 2 := by rw [lit_rat]; norm_num
  obtain ⟨f1, f2, f3, f4, f5, f6, f7, f8, f9, f10, f11, f12, f13, f14⟩ := stored_fields p calfun s
  have w := h.arr
  obtain ⟨m, em⟩ : ∃ m, m = s.nf := ⟨_, rfl⟩
  rw [← em] at f1 f2 f9 f10 f11 f12 f13 f14 w hm hi
  by_cases c0 : m = 0
  · -- the first point
    have pt : prelimPoint p s (m + 1) = s := by
      unfold prelimPoint
      dsimp only
      rw [if_pos (by omega), if_neg (by omega), if_neg (by omega)]
    rw [pt] at f9 f11 f12 f13 f14
    generalize stored p calfun s = u at *
    have md : prelimModel p u = u := by
      unfold prelimModel
      rw [if_pos (by omega), if_neg (by omega), if_neg (by omega)]
    rw [md]
    refine ⟨?_, fun k => by rw [f7]; exact h.pq k, fun _ => ?_⟩
    · rw [f8, f1, f9, f5, f4, f3, f6, c0]
      rw [c0] at w
      exact w.step0 n1 _
    · rw [f10, if_pos c0, f2, c0]; rfl
  have beg := h.beg (by omega)
  rw [if_neg c0, beg] at f10
  by_cases c1 : m ≤ p.n
  · -- the points 2 to n+1
    have pt : prelimPoint p s (m + 1) = prelimA p s (m + 1) := by
      unfold prelimPoint
      dsimp only
      rw [if_pos (by omega), if_pos (by omega)]
    rw [pt] at f9 f11 f12 f13 f14
    generalize stored p calfun s = u at *
    obtain ⟨a, ha⟩ : ∃ a, a = if s.su m = 0 then -p.rhobeg else p.rhobeg := ⟨_, rfl⟩
    have f9' : u.xpt = set2 s.xpt (m + 1) m a := by rw [f9, ha]; rfl
    have f11' : u.stepa = a := by rw [f11, ha]; rfl
    have md : prelimModel p u = prelimModelA p u := by
      unfold prelimModel
      rw [if_pos (by omega), if_pos (by omega)]
    have m2 : u.nf - 1 = m := by omega
    have e1 : (prelimModelA p u).nf = u.nf ∧ (prelimModelA p u).su = u.su ∧ (prelimModelA p u).xpt = u.xpt ∧ (prelimModelA p u).fval = u.fval ∧
        (prelimModelA p u).gopt = set1 u.gopt (u.nf - 1) ((u.fl - u.fbeg) / u.stepa) ∧ (prelimModelA p u).zmat = u.zmat ∧ (prelimModelA p u).hq = u.hq ∧ (prelimModelA p u).pq = u.pq ∧
        (prelimModelA p u).fbeg = u.fbeg ∧ (prelimModelA p u).bmat = if p.npt < u.nf + p.n then set2 (set2 (set2 u.bmat 1 (u.nf - 1) (-1 / u.stepa)) u.nf (u.nf - 1) (1 / u.stepa))
          (p.npt + (u.nf - 1)) (u.nf - 1) (-lit 1 2 * (p.rhobeg * p.rhobeg)) else u.bmat := by
      unfold prelimModelA
      dsimp only
      split_ifs
      all_goals exact ⟨rfl, rfl, rfl, rfl, rfl, rfl, rfl, rfl, rfl, rfl⟩
    obtain ⟨g1, g2, g3, g4, g5, g6, g7, g8, g9, e2⟩ := e1
    rw [m2, f3, f11', f1] at e2
    rw [m2, f5, f10, f11'] at g5
    rw [f1] at g1
    rw [f8] at g2
    rw [f9'] at g3
    rw [f2] at g4
    rw [f4] at g6
    rw [f6] at g7
    rw [f7] at g8
    rw [f10] at g9
    rw [md]
    refine ⟨?_, fun k => by rw [g8]; exact h.pq k, fun _ => ?_⟩
    · rw [g1, g2, g3, g4, g5, g6, g7, e2]
      refine w.stepA hp hm (by omega) c1 ha (fun k j => ?_) (fun k q => if_neg (by omega)) (fun k q => if_neg q) ?_ (fun k l q => ?_) (fun q k => ?_)
      · rw [show 1 + m = m + 1 by omega]; rfl
      · rw [show set1 s.fval (m + 1) u.fl (1 + m) = u.fl from if_pos (by omega)]
        exact if_pos rfl
      · split_ifs with r
        · rcases q with q | q
          · unfold set2
            rw [if_neg (fun c => q c.2), if_neg (fun c => q c.2), if_neg (fun c => q c.2)]
          · omega
        · rfl
      · rw [if_pos (by omega), half]
        unfold set2
        by_cases k1 : k = p.npt + m
        · rw [if_pos ⟨k1, rfl⟩, k1, del_self, del_ne (by omega), del_ne (by omega)]; ring
        · rw [if_neg (fun w => k1 w.1), del_ne k1]
          by_cases k2 : k = m + 1
          · rw [if_pos ⟨k2, rfl⟩, k2, show 1 + m = m + 1 by omega, del_self, del_ne (by omega)]; ring
          · rw [if_neg (fun w => k2 w.1), del_ne (by omega)]
            by_cases k3 : k = 1
            · rw [if_pos ⟨k3, rfl⟩, k3, del_self]; ring
            · rw [if_neg (fun w => k3 w.1), del_ne k3, w.b0' k m (by omega) c1 q (by omega)]; ring
    · rw [g9, g4]
      exact (if_neg (by omega)).symm
  by_cases c2 : m ≤ 2 * p.n
  · -- the points n+2 to 2*n+1
    obtain ⟨c, hc⟩ : ∃ c, c = m - p.n := ⟨_, rfl⟩
    have pt : prelimPoint p s (m + 1) = prelimB p s (m + 1) := by
      unfold prelimPoint
      dsimp only
      rw [if_pos (by omega), if_neg (by omega), if_pos (by omega)]
    have n3 : m + 1 - 1 - p.n = c := by omega
    have n4 : m + 1 - p.n = 1 + c := by omega
    rw [pt] at f9 f11 f12 f13 f14
    obtain ⟨a, ha⟩ : ∃ a, a = s.xpt (1 + c) c := ⟨_, rfl⟩
    have f11' : (stored p calfun s).stepa = a := by
      rw [f11, ha]
      unfold prelimB
      dsimp only
      rw [n3, n4]
    have f9' : (stored p calfun s).xpt = set2 s.xpt (m + 1) c (stored p calfun s).stepb := by
      rw [f9, f12]
      unfold prelimB
      dsimp only
      rw [n3]
    have aa : a * a = p.rhobeg * p.rhobeg := by rw [ha]; exact w.aa c (by omega) (by omega) (by omega)
    have a0 : a ≠ 0 := by rw [ha]; exact w.al0 hp (by omega) (by omega) (by omega)
    have ae : (stored p calfun s).stepb = -a ∨ (stored p calfun s).stepb = 2 * a := by
      have q0 := w.a0 c (by omega) (by omega) (by omega) (by omega)
      rw [← ha] at q0
      have q1 := hi.lower c (by omega) (by omega)
      have q2 := hi.upper c (by omega) (by omega)
      have q3 := hi.width c (by omega) (by omega)
      rw [f12]
      unfold prelimB
      dsimp only
      rw [n3, cmin_eq, cmax_eq, two]
      by_cases d1 : s.su c = 0
      · rw [if_pos d1, max_eq_left (by linarith)]
        rw [if_pos d1] at q0
        right; rw [q0]; ring
      · rw [if_neg d1]
        rw [if_neg d1] at q0
        by_cases d2 : s.sl c = 0
        · rw [if_pos d2, min_eq_left (by linarith), q0]
          exact Or.inr rfl
        · rw [if_neg d2, q0]
          exact Or.inl rfl
    have gq := w.q1 c (by omega) (by omega) (by omega)
    rw [← ha, w.q0 c (by omega) (by omega) (by omega)] at gq
    generalize stored p calfun s = u at *
    obtain ⟨e, he⟩ : ∃ e, e = u.stepb := ⟨_, rfl⟩
    rw [← he] at f9' ae
    have e0 : e ≠ 0 := by rcases ae with q | q <;> rw [q] <;> [exact neg_ne_zero.mpr a0; exact mul_ne_zero two_ne_zero a0]
    have ea : e - a ≠ 0 := by
      rcases ae with q | q <;> rw [q]
      · intro r; exact a0 (by linarith)
      · intro r; exact a0 (by linarith)
    have md : prelimModel p u = prelimModelB p (prelimSwap p (prelimQuad p u)) := by
      unfold prelimModel
      rw [if_pos (by omega), if_neg (by omega), if_pos (by omega)]
    have m2 : u.nf - 1 - p.n = c := by omega
    have m3 : u.nf - p.n = 1 + c := by omega
    -- the quadratic model
    obtain ⟨G, hG⟩ : ∃ G, G = (s.gopt c * e - (u.fl - s.fval 1) / e * a) / (e - a) := ⟨_, rfl⟩
    obtain ⟨H, hH⟩ : ∃ H, H = lit 2 1 * ((u.fl - s.fval 1) / e - s.gopt c) / (e - a) := ⟨_, rfl⟩
    have eqA : a * G + 1 / 2 * H * (a * a) = s.fval (1 + c) - s.fval 1 := by
      rw [← gq, hG, hH, two]
      field_simp
      ring
    have eqE : e * G + 1 / 2 * H * (e * e) = u.fl - s.fval 1 := by
      rw [hG, hH, two]
      field_simp
      ring
    have qd : prelimQuad p u = { u with hq := set2 s.hq c c H, gopt := set1 s.gopt c G } := by
      unfold prelimQuad
      dsimp only
      rw [m2, f5, f6, f10, f11', ← he, hG, hH]
    -- the arrays after the exchange
    have key : ∀ t : St K, t.nf = m + 1 → t.su = s.su → t.gopt = set1 s.gopt c G → t.hq = set2 s.hq c c H → t.pq = s.pq → t.bmat = s.bmat → t.zmat = s.zmat → t.fbeg = s.fval 1 →
        t.stepa = a → t.stepb = e → ∀ α ε : K, α * α = p.rhobeg * p.rhobeg → (ε = -α ∨ ε = 2 * α) → α * ε = a * e → α + ε = a + e →
        (∀ k j, t.xpt k j = if k = 1 + p.n + c ∧ j = c then ε else if k = 1 + c ∧ j = c then α else s.xpt k j) →
        (∀ k, k ≠ 1 + c → k ≠ 1 + p.n + c → t.fval k = s.fval k) → α * G + 1 / 2 * H * (α * α) = t.fval (1 + c) - s.fval 1 → ε * G + 1 / 2 * H * (ε * ε) = t.fval (1 + p.n + c) - s.fval 1 →
        Begun p (prelimModelB p t) := by
      intro t t1 t2 t3 t4 t5 t6 t7 t8 t9 t10 α ε k1 k2 k3 k4 k5 k6 k7 k8
      have o2 : t.nf - 1 - p.n = c := by omega
      have o3 : t.nf - p.n = 1 + c := by omega
      have o4 : t.nf = 1 + p.n + c := by omega
      have xa : t.xpt (1 + c) c = α := by rw [k5, if_neg (by omega), if_pos ⟨rfl, rfl⟩]
      refine ⟨?_, fun k => by show t.pq k = 0; rw [t5]; exact h.pq k, fun _ => ?_⟩
      · show Arr p t.su t.nf t.xpt t.fval t.gopt (prelimModelB p t).zmat (prelimModelB p t).bmat t.hq
        rw [t2, t1]
        refine w.stepB hp hm hsqrt (c := c) (a := α) (e := ε) (by omega) (by omega) (by omega) k1 k2 k5 k6 (fun k q => ?_) (fun i j q => ?_) ?_ ?_ (fun k l q => ?_) (fun k l q => ?_) (fun k => ?_) (fun k => ?_)
        · rw [t3]; exact if_neg q
        · rw [t4]; exact if_neg q
        · rw [t3, t4, show set1 s.gopt c G c = G from if_pos rfl, show set2 s.hq c c H c c = H from if_pos ⟨rfl, rfl⟩]; exact k7
        · rw [t3, t4, show set1 s.gopt c G c = G from if_pos rfl, show set2 s.hq c c H c c = H from if_pos ⟨rfl, rfl⟩]; exact k8
        · unfold prelimModelB set2
          dsimp only
          rw [o2, if_neg (fun c => q c.2), if_neg (fun c => q c.2), if_neg (fun c => q c.2), t6]
        · unfold prelimModelB set2
          dsimp only
          rw [o2, if_neg (fun c => q c.2), if_neg (fun c => q c.2), if_neg (fun c => q c.2), t7]
        · unfold prelimModelB set2
          dsimp only
          rw [o2, o3, o4, t6, t9, t10, xa, k3, k4]
          by_cases r1 : k = 1 + c
          · rw [if_pos ⟨r1, rfl⟩, if_pos r1, if_neg (by omega), if_pos ⟨rfl, rfl⟩, if_pos ⟨rfl, rfl⟩]; ring
          · rw [if_neg (fun q => r1 q.1), if_neg r1]
            by_cases r2 : k = 1 + p.n + c
            · rw [if_pos ⟨r2, rfl⟩, if_pos r2]
            · rw [if_neg (fun q => r2 q.1), if_neg r2]
              by_cases r3 : k = 1
              · rw [if_pos ⟨r3, rfl⟩, if_pos r3]
              · rw [if_neg (fun q => r3 q.1), if_neg r3]
        · unfold prelimModelB set2
          dsimp only
          rw [o2, o3, o4, t7, t9, t10, k3]
          by_cases r1 : k = 1 + c
          · rw [if_pos ⟨r1, rfl⟩, if_pos r1, if_neg (by omega), if_pos ⟨rfl, rfl⟩, if_pos ⟨rfl, rfl⟩]
          · rw [if_neg (fun q => r1 q.1), if_neg r1]
            by_cases r2 : k = 1 + p.n + c
            · rw [if_pos ⟨r2, rfl⟩, if_pos r2]
            · rw [if_neg (fun q => r2 q.1), if_neg r2]
              by_cases r3 : k = 1
              · rw [if_pos ⟨r3, rfl⟩, if_pos r3]
              · rw [if_neg (fun q => r3 q.1), if_neg r3]
      · show t.fbeg = t.fval 1
        rw [t8, k6 1 (by omega) (by omega)]
    have vnew : set1 s.fval (m + 1) u.fl (1 + p.n + c) = u.fl := if_pos (by omega)
    have vold : ∀ k, k ≠ 1 + p.n + c → set1 s.fval (m + 1) u.fl k = s.fval k := fun k q => if_neg (by omega)
    -- without exchange
    have no : Begun p (prelimModelB p (prelimQuad p u)) := by
      rw [qd]
      refine key _ f1 f8 rfl rfl f7 f3 f4 f10 f11' he.symm a e aa ae rfl rfl (fun k j => ?_) (fun k _ q => ?_) ?_ ?_
      · show u.xpt k j = _
        rw [f9']
        unfold set2
        rw [show m + 1 = 1 + p.n + c by omega]
        by_cases q : k = 1 + p.n + c ∧ j = c
        · rw [if_pos q, if_pos q]
        · rw [if_neg q, if_neg q]
          by_cases r : k = 1 + c ∧ j = c
          · rw [if_pos r, r.1, r.2, ha]
          · rw [if_neg r]
      · show u.fval k = _
        rw [f2]; exact vold k q
      · show _ = u.fval (1 + c) - _
        rw [f2, vold _ (by omega)]; exact eqA
      · show _ = u.fval (1 + p.n + c) - _
        rw [f2, vnew]; exact eqE
    rw [md]
    obtain ⟨qu, hqu⟩ : ∃ qu, qu = prelimQuad p u := ⟨_, rfl⟩
    have w1 : qu.stepa = a := by rw [hqu, qd]; exact f11'
    have w2 : qu.stepb = e := by rw [hqu, qd]; exact he.symm
    have w3 : qu.nf = m + 1 := by rw [hqu, qd]; exact f1
    have w4 : qu.fval = set1 s.fval (m + 1) u.fl := by rw [hqu, qd]; exact f2
    have w5 : qu.xpt = set2 s.xpt (m + 1) c e := by rw [hqu, qd]; exact f9'
    have w6 : qu.fl = u.fl := by rw [hqu, qd]
    have w7 : qu.su = s.su ∧ qu.gopt = set1 s.gopt c G ∧ qu.hq = set2 s.hq c c H ∧ qu.pq = s.pq ∧ qu.bmat = s.bmat ∧ qu.zmat = s.zmat ∧ qu.fbeg = s.fval 1 := by
      rw [hqu, qd]; exact ⟨f8, rfl, rfl, f7, f3, f4, f10⟩
    rw [← hqu] at no ⊢
    unfold prelimSwap
    dsimp only
    by_cases d1 : qu.stepa * qu.stepb < 0
    · rw [if_pos d1]
      by_cases d2 : qu.fl < qu.fval (qu.nf - p.n)
      · rw [if_pos d2]
        obtain ⟨v1, v2, v3, v4, v5, v6, v7⟩ := w7
        have eneg : e = -a := by
          rcases ae with q | q
          · exact q
          · rw [w1, w2, q] at d1
            nlinarith [mul_self_nonneg a]
        refine key _ w3 v1 v2 v3 v4 v5 v6 v7 w1 w2 e a (by rw [eneg]; linear_combination aa) (Or.inl (by rw [eneg]; ring)) (by ring) (by ring) (fun k j => ?_) (fun k q1 q2 => ?_) ?_ ?_
        · show set2 (set2 qu.xpt (qu.nf - p.n) (qu.nf - 1 - p.n) qu.stepb) qu.nf (qu.nf - 1 - p.n) qu.stepa k j = _
          rw [w1, w2, w3, w5, n3, n4, show m + 1 = 1 + p.n + c by omega]
          unfold set2
          by_cases q : k = 1 + p.n + c ∧ j = c
          · rw [if_pos q, if_pos q]
          · rw [if_neg q, if_neg q, if_neg q]
        · show set1 (set1 qu.fval qu.nf (qu.fval (qu.nf - p.n))) (qu.nf - p.n) qu.fl k = _
          rw [w3, n4, w4]
          unfold set1
          rw [if_neg q1, if_neg (by omega), if_neg (by omega)]
        · show _ = set1 (set1 qu.fval qu.nf (qu.fval (qu.nf - p.n))) (qu.nf - p.n) qu.fl (1 + c) - _
          rw [w3, n4, w6, show set1 (set1 qu.fval (m + 1) (qu.fval (1 + c))) (1 + c) u.fl (1 + c) = u.fl from if_pos rfl]
          exact eqE
        · show _ = set1 (set1 qu.fval qu.nf (qu.fval (qu.nf - p.n))) (qu.nf - p.n) qu.fl (1 + p.n + c) - _
          rw [w3, n4, w4]
          unfold set1
          rw [if_neg (by omega), if_pos (by omega), if_neg (by omega)]
          exact eqA
      · rw [if_neg d2]; exact no
    · rw [if_neg d1]; exact no
  · -- the other points
    have pt : prelimPoint p s (m + 1) = prelimC p s (m + 1) := by
      unfold prelimPoint
      dsimp only
      rw [if_neg (by omega)]
    rw [pt] at f9 f11 f12 f13 f14
    obtain ⟨⟨a, c⟩, hac⟩ : ∃ q, q = prelimPair p (m + 1) := ⟨_, rfl⟩
    obtain ⟨s1, s2, s3⟩ := Newuoa.pair_spec hp (nf := m + 1) (by show 2 * p.n + 1 < _; omega) hm
    rw [← prelimPair_eq, ← hac] at s1 s2 s3
    change a ≤ p.n at s3
    change c < a at s2
    change 1 ≤ c at s1
    have f13' : (stored p calfun s).ipt = a := by rw [f13]; show (prelimPair p (m + 1)).1 = a; rw [← hac]
    have f14' : (stored p calfun s).jpt = c := by rw [f14]; show (prelimPair p (m + 1)).2 = c; rw [← hac]
    have f9' : ∀ k j, (stored p calfun s).xpt k j = if k = m + 1 ∧ j = c then s.xpt (1 + c) c else if k = m + 1 ∧ j = a then s.xpt (1 + a) a else s.xpt k j := by
      intro k j
      rw [f9]
      unfold prelimC
      dsimp only
      rw [← hac]
      unfold set2
      rw [show c + 1 = 1 + c by omega, show a + 1 = 1 + a by omega]
      dsimp only
      rw [if_neg (by omega : ¬(1 + c = m + 1 ∧ c = a))]
    generalize stored p calfun s = u at *
    have md : prelimModel p u = prelimModelC p u := by
      unfold prelimModel
      rw [if_neg (by omega)]
    rw [md]
    refine ⟨?_, fun k => by show u.pq k = 0; rw [f7]; exact h.pq k, fun _ => ?_⟩
    · show Arr p u.su u.nf u.xpt u.fval u.gopt (prelimModelC p u).zmat u.bmat (prelimModelC p u).hq
      rw [f8, f1, f5, f3]
      refine w.stepC hp hm (by omega) hac.symm f9' (fun k q => ?_) (fun k l q => ?_) (fun k => ?_) (fun i j => ?_)
      · rw [f2]; exact if_neg q
      · unfold prelimModelC set2
        dsimp only
        rw [show u.nf - 1 - p.n = m - p.n by omega, if_neg (fun c => q c.2), if_neg (fun c => q c.2), if_neg (fun c => q c.2), if_neg (fun c => q c.2), f4]
      · unfold prelimModelC set2
        dsimp only
        rw [show u.nf - 1 - p.n = m - p.n by omega, f1, f13', f14', f4, show c + 1 = 1 + c by omega, show a + 1 = 1 + a by omega]
        by_cases r1 : k = 1 + c
        · rw [if_pos ⟨r1, rfl⟩, if_pos r1]
        · rw [if_neg (fun q => r1 q.1), if_neg r1]
          by_cases r2 : k = 1 + a
          · rw [if_pos ⟨r2, rfl⟩, if_pos r2]
          · rw [if_neg (fun q => r2 q.1), if_neg r2]
            by_cases r3 : k = m + 1
            · rw [if_pos ⟨r3, rfl⟩, if_pos r3]
            · rw [if_neg (fun q => r3 q.1), if_neg r3]
              by_cases r4 : k = 1
              · rw [if_pos ⟨r4, rfl⟩, if_pos r4]
              · rw [if_neg (fun q => r4 q.1), if_neg r4]
      · have y1 : u.xpt (m + 1) a = s.xpt (1 + a) a := by rw [f9', if_neg (by omega), if_pos ⟨rfl, rfl⟩]
        have y2 : u.xpt (m + 1) c = s.xpt (1 + c) c := by rw [f9', if_pos ⟨rfl, rfl⟩]
        unfold prelimModelC set2
        dsimp only
        rw [f1, f13', f14', f6, f10, y1, y2, f2, show c + 1 = 1 + c by omega, show a + 1 = 1 + a by omega]
        have z1 : set1 s.fval (m + 1) u.fl (1 + a) = s.fval (1 + a) := if_neg (by omega)
        have z2 : set1 s.fval (m + 1) u.fl (1 + c) = s.fval (1 + c) := if_neg (by omega)
        have z3 : set1 s.fval (m + 1) u.fl (m + 1) = u.fl := if_pos rfl
        rw [z1, z2, z3]
    · show u.fbeg = u.fval 1
      rw [f10, f2]
      exact (if_neg (by omega)).symm

end

end Opk.Bobyqa
