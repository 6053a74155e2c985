import Verif.Bobyqa.Step

/-!
The alternative iterations of `trsbox`, `src/bobyqa.c:2644-2807`, keep the properties of the states.
-/

namespace Opk.Bobyqa
open Linalg CMath Cobyla

section
variable {K : Type} [Field K] [LinearOrder K] [IsStrictOrderedRing K] [CMath K] [ExactMath K]

theorem t100_ok {b : Box K} {t : Tb K} (h : T100 b t) : TOk b (t100 b t).1 (t100 b t).2 := by
  unfold t100
  by_cases c : t.nact + 1 ≥ b.n
  · rw [if_pos c]; exact h.base
  · rw [if_neg c]
    unfold t210
    dsimp only
    rw [if_neg (not_not.mpr h.crvmin), if_neg (lt_irrefl _)]
    refine T120.mk (b := b) (t := { t with dredsq := _, dredg := _, gredsq := _, s := _, itcsav := t.iterc, hs := _, hred := _ })
      (h.base.same ⟨rfl, rfl, rfl, rfl, rfl⟩) h.crvmin ?_ ?_ ?_ ?_ le_rfl
    · exact accF_dot b.n t.xbdi t.d t.d
    · exact accF_dot b.n t.xbdi t.d t.gnew
    · exact accF_dot b.n t.xbdi t.gnew t.gnew
    · intro i h1 h2
      exact mulHess_eq b (mask t.xbdi t.d) i h1 h2

omit [CMath K] [ExactMath K] in
theorem one_add_sq_pos (a : K) : 0 < 1 + a * a := by
  have := mul_self_nonneg a
  linarith

omit [CMath K] [ExactMath K] in
theorem turned_mul (a d s room : K) : (1 + a * a) * (room + (cosine a * d + sine a * s)) = (room + d) + 2 * a * s + a * a * (room - d) := by
  have := (one_add_sq_pos a).ne'
  unfold cosine sine
  field_simp
  ring

/-- The limit of the angle due to a bound. -/
theorem angLimit_spec (hsqrt : ∀ a : K, 0 ≤ a → 0 ≤ CMath.sqrt a ∧ CMath.sqrt a * CMath.sqrt a = a) {d s room gap ssq : K} (hg : gap = room + d)
    (hs : ssq = d * d + s * s) (h0 : 0 < gap) (i : Nat) (xsav : K) (a : Ang K) (ha : 0 < a.angbd) :
    0 < (angLimit i gap room ssq s xsav a).angbd ∧ (angLimit i gap room ssq s xsav a).angbd ≤ a.angbd ∧
    (∀ x, 0 ≤ x → x ≤ (angLimit i gap room ssq s xsav a).angbd → 0 ≤ room + (cosine x * d + sine x * s)) ∧
    (angLimit i gap room ssq s xsav a).stop = a.stop ∧
    (angLimit i gap room ssq s xsav a = a ∨ (angLimit i gap room ssq s xsav a).iact = i ∧ (angLimit i gap room ssq s xsav a).xsav = xsav ∧
      room + (cosine (angLimit i gap room ssq s xsav a).angbd * d + sine (angLimit i gap room ssq s xsav a).angbd * s) = 0) := by
  have core : ∀ x, gap * ((1 + x * x) * (room + (cosine x * d + sine x * s))) = (gap + x * s) * (gap + x * s) - x * x * (ssq - room * room) := by
    intro x
    rw [turned_mul, hs, hg]; ring
  have fin : ∀ x, 0 ≤ gap * ((1 + x * x) * (room + (cosine x * d + sine x * s))) → 0 ≤ room + (cosine x * d + sine x * s) := by
    intro x hx
    exact nonneg_of_mul_nonneg_right (nonneg_of_mul_nonneg_right hx h0) (one_add_sq_pos x)
  unfold angLimit
  dsimp only
  by_cases c1 : ssq - room * room > 0
  · rw [if_pos c1]
    obtain ⟨w1, w2⟩ := hsqrt _ c1.le
    generalize CMath.sqrt (ssq - room * room) = q at w1 w2 ⊢
    have fac : ∀ x, gap * ((1 + x * x) * (room + (cosine x * d + sine x * s))) = (gap - x * (q - s)) * (gap - x * (q - s) + 2 * (x * q)) := by
      intro x
      rw [core, ← w2]; ring
    have ok : ∀ x, 0 ≤ x → x * (q - s) ≤ gap → 0 ≤ room + (cosine x * d + sine x * s) := by
      intro x hx hle
      apply fin
      rw [fac]
      have := mul_nonneg hx w1
      exact mul_nonneg (by linarith) (by linarith)
    by_cases c2 : a.angbd * (q - s) > gap
    · rw [if_pos c2]
      have k : 0 < q - s := by
        by_contra hc
        have := mul_nonpos_of_nonneg_of_nonpos ha.le (not_lt.mp hc)
        linarith
      refine ⟨div_pos h0 k, ?_, ?_, rfl, Or.inr ⟨rfl, rfl, ?_⟩⟩
      · show gap / (q - s) ≤ a.angbd
        rw [div_le_iff₀ k]; exact c2.le
      · intro x hx (hle : x ≤ gap / (q - s))
        rw [le_div_iff₀ k] at hle
        exact ok x hx hle
      · show room + (cosine (gap / (q - s)) * d + sine (gap / (q - s)) * s) = 0
        have := fac (gap / (q - s))
        rw [div_mul_cancel₀ _ k.ne', sub_self, zero_mul] at this
        rcases mul_eq_zero.mp this with e | e
        · exact absurd e h0.ne'
        · exact (mul_eq_zero.mp e).resolve_left (one_add_sq_pos _).ne'
    · rw [if_neg c2]
      refine ⟨ha, le_rfl, ?_, rfl, Or.inl rfl⟩
      intro x hx hle
      apply ok x hx
      by_cases k : 0 ≤ q - s
      · exact (mul_le_mul_of_nonneg_right hle k).trans (not_lt.mp c2)
      · exact (mul_nonpos_of_nonneg_of_nonpos hx (not_le.mp k).le).trans h0.le
  · rw [if_neg c1]
    refine ⟨ha, le_rfl, ?_, rfl, Or.inl rfl⟩
    intro x hx _
    apply fin
    rw [core]
    have := mul_nonpos_of_nonneg_of_nonpos (mul_self_nonneg x) (not_lt.mp c1)
    have := mul_self_nonneg (gap + x * s)
    linarith

/-- What the loop on the bounds ensures after `m` variables. -/
def AngOk (b : Box K) (t : Tb K) (s : Nat → K) (m : Nat) (a : Ang K) : Prop :=
  (a.stop = none → 0 < a.angbd ∧
    (∀ i, 1 ≤ i → i ≤ m → t.xbdi i = 0 → ∀ x, 0 ≤ x → x ≤ a.angbd →
      b.sl i ≤ b.xopt i + (cosine x * t.d i + sine x * s i) ∧ b.xopt i + (cosine x * t.d i + sine x * s i) ≤ b.su i) ∧
    (a.iact = 0 ∨ 1 ≤ a.iact ∧ a.iact ≤ m ∧ t.xbdi a.iact = 0 ∧
      (a.xsav = -1 ∧ b.xopt a.iact + (cosine a.angbd * t.d a.iact + sine a.angbd * s a.iact) = b.sl a.iact ∨
        a.xsav = 1 ∧ b.xopt a.iact + (cosine a.angbd * t.d a.iact + sine a.angbd * s a.iact) = b.su a.iact))) ∧
  (∀ i v, a.stop = some (i, v) → 1 ≤ i ∧ i ≤ m ∧ t.xbdi i = 0 ∧ (v = -1 ∧ b.xopt i + t.d i = b.sl i ∨ v = 1 ∧ b.xopt i + t.d i = b.su i))

theorem AngOk.step {b : Box K} {t : Tb K} {s : Nat → K} {m : Nat} {a : Ang K} (h : AngOk b t s m a) (hx : t.xbdi (m + 1) = 0 → a.stop ≠ none) :
    AngOk b t s (m + 1) a := by
  refine ⟨fun hn => ?_, fun i v hs => ?_⟩
  · obtain ⟨g1, g2, g3⟩ := h.1 hn
    refine ⟨g1, fun i h1 h2 h0 => ?_, ?_⟩
    · by_cases c : i = m + 1
      · subst c; exact absurd hn (hx h0)
      · exact g2 i h1 (by omega) h0
    · rcases g3 with g | ⟨q1, q2, q3⟩
      · exact Or.inl g
      · exact Or.inr ⟨q1, by omega, q3⟩
  · obtain ⟨q1, q2, q3⟩ := h.2 i v hs
    exact ⟨q1, by omega, q3⟩

theorem angPass_ok (hsqrt : ∀ a : K, 0 ≤ a → 0 ≤ CMath.sqrt a ∧ CMath.sqrt a * CMath.sqrt a = a) {b : Box K} {t : Tb K}
    (hin : ∀ i, 1 ≤ i → i ≤ b.n → b.sl i ≤ b.xopt i + t.d i ∧ b.xopt i + t.d i ≤ b.su i) {s : Nat → K} {m : Nat} (hm : m < b.n) {a : Ang K}
    (h : AngOk b t s m a) : AngOk b t s (m + 1) (angPass b t s (m + 1) a) := by
  unfold angPass
  by_cases c0 : a.stop = none ∧ t.xbdi (m + 1) = 0
  · rw [if_pos c0]
    obtain ⟨c1, c2⟩ := c0
    obtain ⟨i1, i2⟩ := hin (m + 1) (by omega) (by omega)
    obtain ⟨g1, g2, g3⟩ := h.1 c1
    dsimp only
    by_cases ca : b.xopt (m + 1) + t.d (m + 1) - b.sl (m + 1) ≤ 0
    · rw [if_pos ca]
      refine ⟨fun hn => by simp at hn, fun i v hs => ?_⟩
      simp only [Option.some.injEq, Prod.mk.injEq] at hs
      obtain ⟨rfl, rfl⟩ := hs
      exact ⟨by omega, le_rfl, c2, Or.inl ⟨rfl, by linarith⟩⟩
    rw [if_neg ca]
    by_cases cb : b.su (m + 1) - b.xopt (m + 1) - t.d (m + 1) ≤ 0
    · rw [if_pos cb]
      refine ⟨fun hn => by simp at hn, fun i v hs => ?_⟩
      simp only [Option.some.injEq, Prod.mk.injEq] at hs
      obtain ⟨rfl, rfl⟩ := hs
      exact ⟨by omega, le_rfl, c2, Or.inr ⟨rfl, by linarith⟩⟩
    rw [if_neg cb]
    obtain ⟨a1, a2, a3, a4, a5⟩ := angLimit_spec hsqrt (d := t.d (m + 1)) (s := s (m + 1)) (room := b.xopt (m + 1) - b.sl (m + 1))
      (gap := b.xopt (m + 1) + t.d (m + 1) - b.sl (m + 1)) (ssq := t.d (m + 1) * t.d (m + 1) + s (m + 1) * s (m + 1)) (by ring) rfl (not_le.mp ca) (m + 1) (-1) a g1
    generalize angLimit (m + 1) (b.xopt (m + 1) + t.d (m + 1) - b.sl (m + 1)) (b.xopt (m + 1) - b.sl (m + 1))
      (t.d (m + 1) * t.d (m + 1) + s (m + 1) * s (m + 1)) (s (m + 1)) (-1) a = A at a1 a2 a3 a4 a5 ⊢
    obtain ⟨b1, b2, b3, b4, b5⟩ := angLimit_spec hsqrt (d := -t.d (m + 1)) (s := -s (m + 1)) (room := b.su (m + 1) - b.xopt (m + 1))
      (gap := b.su (m + 1) - b.xopt (m + 1) - t.d (m + 1)) (ssq := t.d (m + 1) * t.d (m + 1) + s (m + 1) * s (m + 1)) (by ring) (by ring) (not_le.mp cb) (m + 1) 1 A a1
    generalize angLimit (m + 1) (b.su (m + 1) - b.xopt (m + 1) - t.d (m + 1)) (b.su (m + 1) - b.xopt (m + 1))
      (t.d (m + 1) * t.d (m + 1) + s (m + 1) * s (m + 1)) (-s (m + 1)) 1 A = B at b1 b2 b3 b4 b5 ⊢
    refine ⟨fun _ => ⟨b1, fun i h1 h2 h0 x hx hle => ?_, ?_⟩, fun i v hs => ?_⟩
    · by_cases c : i = m + 1
      · subst c
        have k1 := a3 x hx (hle.trans b2)
        have k2 := b3 x hx hle
        constructor <;> linarith
      · exact g2 i h1 (by omega) h0 x hx (hle.trans (b2.trans a2))
    · rcases b5 with e | ⟨e1, e2, e3⟩
      · rw [e]
        rcases a5 with e | ⟨e1, e2, e3⟩
        · rw [e]
          rcases g3 with g | ⟨q1, q2, q3⟩
          · exact Or.inl g
          · exact Or.inr ⟨q1, by omega, q3⟩
        · right
          rw [e1]
          exact ⟨by omega, le_rfl, c2, Or.inl ⟨e2, by linarith⟩⟩
      · right
        rw [e1]
        exact ⟨by omega, le_rfl, c2, Or.inr ⟨e2, by linarith⟩⟩
    · rw [b4, a4, c1] at hs
      exact absurd hs (by simp)
  · rw [if_neg c0]
    exact h.step fun h0 hn => c0 ⟨hn, h0⟩

theorem t120_ok (hsqrt : ∀ a : K, 0 ≤ a → 0 ≤ CMath.sqrt a ∧ CMath.sqrt a * CMath.sqrt a = a) {b : Box K} {t : Tb K} (h : T120 b t) :
    TOk b (t120 b t).1 (t120 b t).2 := by
  unfold t120
  dsimp only
  by_cases c0 : t.gredsq * t.dredsq - t.dredg * t.dredg ≤ t.qred * lit 1 10000 * t.qred
  · rw [if_pos c0]; exact h.base.same ⟨rfl, rfl, rfl, rfl, rfl⟩
  rw [if_neg c0]
  have hpos : 0 < t.gredsq * t.dredsq - t.dredg * t.dredg := by
    refine lt_of_le_of_lt ?_ (not_le.mp c0)
    have l : (0 : K) ≤ lit 1 10000 := by rw [lit_rat]; norm_num
    have := h.base.qred_nonneg
    positivity
  obtain ⟨w1, w2⟩ := hsqrt _ hpos.le
  generalize CMath.sqrt (t.gredsq * t.dredsq - t.dredg * t.dredg) = T at w1 w2 ⊢
  have hT : T ≠ 0 := by
    rintro rfl
    rw [mul_zero] at w2; exact hpos.ne w2
  obtain ⟨s, hs⟩ : ∃ s : Nat → K, s = fun i => if t.xbdi i = 0 then (t.dredg * t.d i - t.dredsq * t.gnew i) / T else 0 := ⟨_, rfl⟩
  rw [← hs]
  have hfree : Free b.n t.xbdi s := by
    intro i _ _ hi
    rw [hs]; dsimp only; rw [if_neg hi]
  have es : ∀ i, 1 ≤ i → i ≤ b.n → s i = (t.dredg / T) * mask t.xbdi t.d i + (-(t.dredsq / T)) * mask t.xbdi t.gnew i := by
    intro i _ _
    rw [hs]
    unfold mask
    dsimp only
    split_ifs
    · field_simp; ring
    · ring
  have hdot : ∀ v, dot b.n s v = t.dredg / T * dot b.n (mask t.xbdi t.d) v - t.dredsq / T * dot b.n (mask t.xbdi t.gnew) v := by
    intro v
    rw [dot_congr es fun _ _ _ => rfl, dot_add_left, dot_smul_left, dot_smul_left]; ring
  have hgd : dot b.n (mask t.xbdi t.gnew) t.d = t.dredg := by rw [dot_mask, dot_comm, h.dredg]
  have ang := up_inv (fun m a => AngOk b { t with iterc := t.iterc + 1 } s m a) (body := angPass b { t with iterc := t.iterc + 1 } s) b.n
    (s := ⟨1, 0, t.xsav, none⟩) ⟨fun _ => ⟨one_pos, fun i h1 h2 => by omega, Or.inl rfl⟩, fun i v hs => by simp at hs⟩
    (fun m hm a ha => angPass_ok hsqrt h.base.inside hm ha)
  generalize up b.n (angPass b { t with iterc := t.iterc + 1 } s) ⟨1, 0, t.xsav, none⟩ = a at ang ⊢
  cases hstop : a.stop with
  | some iv =>
    obtain ⟨i, v⟩ := iv
    obtain ⟨q1, q2, q3, q4⟩ := ang.2 i v hstop
    exact T100.mk (b := b) (t := { t with iterc := _, s := _, sredg := _, angbd := _, iact := _, xsav := _, nact := _, xbdi := _ })
      (h.base.fixed q1 q2 q3 q4 rfl rfl rfl rfl rfl) h.crvmin
  | none =>
    obtain ⟨q1, q2, q3⟩ := ang.1 hstop
    unfold t210
    dsimp only
    have hit : t.iterc + 1 > t.itcsav := Nat.lt_succ_of_le h.iter
    rw [if_neg (not_not.mpr h.crvmin), if_pos hit]
    refine T150.mk (b := b) (t := { t with iterc := _, s := s, sredg := _, angbd := _, iact := _, xsav := _, hs := _ })
      (h.base.same ⟨rfl, rfl, rfl, rfl, rfl⟩) h.crvmin h.dredsq h.dredg h.hred hit.le hfree (fun i h1 h2 => mulHess_eq b s i h1 h2) ?_ ?_ ?_ q1 q2 q3
    · show dot b.n s t.d = 0
      rw [hdot, ← h.dredsq, hgd]; ring
    · show dot b.n s s = t.dredsq
      have e1 : dot b.n (mask t.xbdi t.d) s = 0 := by
        rw [dot_mask, dot_comm, dot_mask_free hfree, hdot, ← h.dredsq, hgd]; ring
      have e2 : dot b.n (mask t.xbdi t.gnew) s = -T := by
        rw [dot_mask, dot_comm, dot_mask_free hfree, hdot, ← h.dredg, ← h.gredsq]
        field_simp
        linarith
      rw [hdot, e1, e2]
      field_simp
      ring
    · show dot b.n s t.gnew = -T
      rw [hdot, ← h.dredg, ← h.gredsq]
      field_simp
      linarith

/-! ### The choice of the angle -/

omit [CMath K] [ExactMath K] in
/-- What the search for the best angle ensures. -/
theorem scan_spec (red : Nat → K) (iu : Nat) (c : Scan K) (h1 : c.redmax = 0) (h2 : c.isav = 0) (h3 : c.redsav = 0) :
    (scan red iu c).isav ≤ iu ∧ ((scan red iu c).isav ≠ 0 → (scan red iu c).rdprev < (scan red iu c).redmax ∧
      ((scan red iu c).isav < iu → (scan red iu c).rdnext ≤ (scan red iu c).redmax)) := by
  have key := up_inv (s := c) (body := fun i (c : Scan K) =>
      if red i > c.redmax then { c with redmax := red i, isav := i, rdprev := c.redsav, redsav := red i }
      else if i = c.isav + 1 then { c with rdnext := red i, redsav := red i }
      else { c with redsav := red i })
    (fun m (c : Scan K) => c.isav ≤ m ∧ c.redsav ≤ c.redmax ∧ (c.isav ≠ 0 → c.rdprev < c.redmax ∧ (c.isav < m → c.rdnext ≤ c.redmax))) iu
    ⟨by omega, by rw [h1, h3], fun h => absurd h2 h⟩ ?_
  · exact ⟨key.1, key.2.2⟩
  · rintro m _ c ⟨q1, q2, q3⟩
    by_cases c1 : red (m + 1) > c.redmax
    · rw [if_pos c1]
      exact ⟨le_rfl, le_rfl, fun _ => ⟨lt_of_le_of_lt q2 c1, fun h => absurd h (lt_irrefl _)⟩⟩
    rw [if_neg c1]
    by_cases c2 : m + 1 = c.isav + 1
    · rw [if_pos c2]
      exact ⟨by dsimp only; omega, not_lt.mp c1, fun h => ⟨(q3 h).1, fun _ => not_lt.mp c1⟩⟩
    · rw [if_neg c2]
      exact ⟨by dsimp only; omega, not_lt.mp c1, fun h => ⟨(q3 h).1, fun _ => (q3 h).2 (by dsimp only at *; omega)⟩⟩

theorem angCount_pos {a : K} (h : 0 < a) : 0 < angCount a := by
  unfold angCount
  have key := up_inv (s := 0) (body := fun k m => if (lit k 1 : K) ≤ a * lit 17 1 + lit 31 10 then m + 1 else m) (fun m c => 0 < m → 0 < c) 20
    (fun h => absurd h (lt_irrefl _)) ?_
  · exact key (by norm_num)
  · intro m _ c hc _
    by_cases cm : m = 0
    · subst cm
      rw [if_pos]
      · omega
      · rw [lit_rat, lit_rat, lit_rat]
        push_cast
        linarith
    · have := hc (by omega)
      split_ifs <;> omega

theorem bestAngle_spec {a : K} (h : 0 < a) {iu : Nat} {c : Scan K} (hu : 0 < iu) (h0 : c.isav ≠ 0) (h2 : c.rdprev < c.redmax)
    (h3 : c.isav < iu → c.rdnext ≤ c.redmax) :
    0 ≤ bestAngle a iu c ∧ bestAngle a iu c ≤ a ∧ (c.isav = iu → bestAngle a iu c = a) := by
  have hu' : (0 : K) < iu := by exact_mod_cast hu
  have l1 : ∀ k : Nat, (lit k 1 : K) = k := by intro k; rw [lit_rat]; push_cast; ring
  have half : (lit 1 2 : K) = 1 / 2 := by rw [lit_rat]; norm_num
  unfold bestAngle
  by_cases c1 : c.isav < iu
  · rw [if_pos c1]
    dsimp only
    rw [l1, l1, half]
    have k := h3 c1
    have kd : 0 < c.redmax + c.redmax - c.rdprev - c.rdnext := by linarith
    have t1 : -1 ≤ (c.rdnext - c.rdprev) / (c.redmax + c.redmax - c.rdprev - c.rdnext) := by
      rw [le_div_iff₀ kd]; linarith
    have t2 : (c.rdnext - c.rdprev) / (c.redmax + c.redmax - c.rdprev - c.rdnext) ≤ 1 := by
      rw [div_le_iff₀ kd]; linarith
    generalize (c.rdnext - c.rdprev) / (c.redmax + c.redmax - c.rdprev - c.rdnext) = w at t1 t2 ⊢
    have i1 : (1 : K) ≤ c.isav := by exact_mod_cast Nat.one_le_iff_ne_zero.mpr h0
    have i2 : (c.isav : K) + 1 ≤ iu := by exact_mod_cast c1
    refine ⟨?_, ?_, fun e => absurd e c1.ne⟩
    · exact div_nonneg (mul_nonneg h.le (by linarith)) hu'.le
    · rw [div_le_iff₀ hu']
      exact mul_le_mul_of_nonneg_left (by linarith) h.le
  · rw [if_neg c1, l1, mul_div_assoc, div_self hu'.ne', mul_one]
    exact ⟨h.le, le_rfl, fun _ => rfl⟩

/-! ### The rotation -/

omit [CMath K] [ExactMath K] in
theorem cosine_sub (a : K) : cosine a - 1 = -(a * sine a) := by
  have := (one_add_sq_pos a).ne'
  unfold cosine sine
  field_simp
  ring

omit [CMath K] [ExactMath K] in
theorem cosine_sine (a : K) : cosine a * cosine a + sine a * sine a = 1 := by
  have := (one_add_sq_pos a).ne'
  unfold cosine sine
  field_simp
  ring

/-- The move due to the rotation. -/
def rotation (t : Tb K) (a : K) : Nat → K := fun i => -(a * sine a) * mask t.xbdi t.d i + sine a * t.s i

theorem T150.rotation_free {b : Box K} {t : Tb K} (h : T150 b t) (a : K) : Free b.n t.xbdi (rotation t a) := by
  intro i h1 h2 hx
  unfold rotation
  rw [mask_free b.n t.xbdi t.d i h1 h2 hx, h.free i h1 h2 hx]; ring

theorem T150.new_d {b : Box K} {t : Tb K} (h : T150 b t) (a sdec : K) :
    ∀ i, 1 ≤ i → i ≤ b.n → (turn b a sdec t).d i = t.d i + rotation t a i := by
  intro i h1 h2
  show (if t.xbdi i = 0 then cosine a * t.d i + sine a * t.s i else t.d i) = _
  by_cases c : t.xbdi i = 0
  · have := cosine_sub a
    unfold rotation mask
    rw [if_pos c, if_pos c, eq_add_of_sub_eq this]; ring
  · rw [if_neg c, h.rotation_free a i h1 h2 c, add_zero]

/-- The reduction of the model by the rotation. -/
theorem T150.reduction {b : Box K} {t : Tb K} (h : T150 b t) (a : K) :
    Bobyqa.reduction t (dot b.n t.s (b.hess t.s)) (dot b.n (mask t.xbdi t.d) (b.hess t.s)) (dot b.n (mask t.xbdi t.d) (b.hess (mask t.xbdi t.d))) a =
      -(dot b.n (rotation t a) t.gnew + 1 / 2 * dot b.n (rotation t a) (b.hess (rotation t a))) := by
  have half : (lit 1 2 : K) = 1 / 2 := by rw [lit_rat]; norm_num
  have e : ∀ i, 1 ≤ i → i ≤ b.n → b.hess (rotation t a) i = -(a * sine a) * b.hess (mask t.xbdi t.d) i + sine a * b.hess t.s i := by
    intro i _ _
    unfold rotation
    rw [hess_add, hess_smul, hess_smul]
  rw [dot_congr (u := rotation t a) (fun _ _ _ => rfl) e]
  unfold rotation
  rw [dot_add_left, dot_smul_left, dot_smul_left, ← h.dredg, h.sredg]
  simp only [dot_add_left, dot_add_right, dot_smul_left, dot_smul_right]
  rw [hess_symm b t.s (mask t.xbdi t.d)]
  show sine a * (a * t.dredg - t.sredg - lit 1 2 * sine a * _) = _
  rw [half]
  ring

theorem T150.same_norm {b : Box K} {t : Tb K} (h : T150 b t) (a sdec : K) : dot b.n (turn b a sdec t).d (turn b a sdec t).d = dot b.n t.d t.d := by
  rw [dot_congr (h.new_d a sdec) (h.new_d a sdec), dot_add_left, dot_add_right, dot_add_right, dot_comm b.n (rotation t a) t.d]
  have e1 : dot b.n t.d (rotation t a) = -(a * sine a) * t.dredsq := by
    unfold rotation
    rw [dot_add_right, dot_smul_right, dot_smul_right, dot_comm b.n t.d t.s, h.orth, dot_comm, ← h.dredsq]; ring
  have e0 : dot b.n (mask t.xbdi t.d) t.s = 0 := by rw [dot_mask, dot_comm, dot_mask_free h.free, h.orth]
  have e3 : dot b.n (mask t.xbdi t.d) (mask t.xbdi t.d) = t.dredsq := by
    rw [← dot_mask, dot_mask_free (mask_free _ _ _), h.dredsq]
  have e2 : dot b.n (rotation t a) (rotation t a) = (a * sine a) * (a * sine a) * t.dredsq + sine a * sine a * t.dredsq := by
    unfold rotation
    simp only [dot_add_left, dot_add_right, dot_smul_left, dot_smul_right]
    rw [dot_comm b.n t.s (mask t.xbdi t.d), e0, e3, h.length]; ring
  rw [e1, e2]
  have k1 := cosine_sine a
  have k2 : cosine a = 1 - a * sine a := by linarith [cosine_sub a]
  rw [k2] at k1
  linear_combination t.dredsq * k1

/-- The state after the rotation. -/
theorem turn_ok {b : Box K} {t : Tb K} (h : T150 b t) {a sdec : K} (h0 : 0 ≤ a) (h1 : a ≤ t.angbd) (hpos : 0 < sdec)
    (hs : sdec = -(dot b.n (rotation t a) t.gnew + 1 / 2 * dot b.n (rotation t a) (b.hess (rotation t a)))) : T120 b (turn b a sdec t) := by
  have hin : ∀ i, 1 ≤ i → i ≤ b.n → b.sl i ≤ b.xopt i + (turn b a sdec t).d i ∧ b.xopt i + (turn b a sdec t).d i ≤ b.su i := by
    intro i i1 i2
    show b.sl i ≤ b.xopt i + (if t.xbdi i = 0 then cosine a * t.d i + sine a * t.s i else t.d i) ∧
      b.xopt i + (if t.xbdi i = 0 then cosine a * t.d i + sine a * t.s i else t.d i) ≤ b.su i
    by_cases c : t.xbdi i = 0
    · rw [if_pos c]; exact h.angle i i1 i2 c a h0 h1
    · rw [if_neg c]; exact h.base.inside i i1 i2
  refine ⟨?_, h.crvmin, ?_, ?_, ?_, ?_, h.iter⟩
  · refine h.base.moved (rotation t a) (h.rotation_free a) (h.new_d a sdec) ?_ ?_ ?_ hin ?_ rfl rfl
    · intro i i1 i2
      show t.gnew i + (cosine a - 1) * t.hred i + sine a * t.hs i = _
      unfold rotation
      rw [hess_add, hess_smul, hess_smul, h.hred i i1 i2, h.hs i i1 i2, cosine_sub]; ring
    · show t.qred + sdec = _
      rw [hs]; ring
    · show t.qred < t.qred + sdec
      linarith
    · rw [h.same_norm]; exact h.base.norm
  · show t.dredsq = dot b.n (mask t.xbdi (turn b a sdec t).d) (turn b a sdec t).d
    have e := fixed_part (n := b.n) (xbdi := t.xbdi) (d := t.d) (d' := (turn b a sdec t).d) (fun i i1 i2 hx => by
      rw [h.new_d a sdec i i1 i2, h.rotation_free a i i1 i2 hx, add_zero])
    rw [h.same_norm] at e
    rw [h.dredsq]; linarith
  · exact accF_dot b.n t.xbdi (turn b a sdec t).d (turn b a sdec t).gnew
  · exact accF_dot b.n t.xbdi (turn b a sdec t).gnew (turn b a sdec t).gnew
  · intro i i1 i2
    show cosine a * t.hred i + sine a * t.hs i = b.hess (mask t.xbdi (turn b a sdec t).d) i
    have e : ∀ j, 1 ≤ j → j ≤ b.n → mask t.xbdi (turn b a sdec t).d j = cosine a * mask t.xbdi t.d j + sine a * t.s j := by
      intro j j1 j2
      unfold mask
      by_cases c : t.xbdi j = 0
      · rw [if_pos c, if_pos c]
        show (if t.xbdi j = 0 then cosine a * t.d j + sine a * t.s j else t.d j) = _
        rw [if_pos c]
      · rw [if_neg c, if_neg c, h.free j j1 j2 c]; ring
    rw [hess_congr e, hess_add, hess_smul, hess_smul, h.hred i i1 i2, h.hs i i1 i2]

theorem T150.same_scan {b : Box K} {t : Tb K} (h : T150 b t) (x y : K) : T150 b { t with rdprev := x, rdnext := y } :=
  ⟨h.base.same ⟨rfl, rfl, rfl, rfl, rfl⟩, h.crvmin, h.dredsq, h.dredg, h.hred, h.iter, h.free, h.hs, h.orth, h.length, h.sredg, h.angbd, h.angle, h.iact⟩

theorem t150_ok {b : Box K} {t : Tb K} (h : T150 b t) : TOk b (t150 b t).1 (t150 b t).2 := by
  have e1 : accF b.n t.xbdi (fun i => t.s i * t.hs i) 0 = dot b.n t.s (b.hess t.s) := by
    rw [accF_dot, dot_mask_free h.free, dot_congr (fun _ _ _ => rfl) h.hs]
  have e2 : accF b.n t.xbdi (fun i => t.d i * t.hs i) 0 = dot b.n (mask t.xbdi t.d) (b.hess t.s) := by
    rw [accF_dot, dot_congr (fun _ _ _ => rfl) h.hs]
  have e3 : accF b.n t.xbdi (fun i => t.d i * t.hred i) 0 = dot b.n (mask t.xbdi t.d) (b.hess (mask t.xbdi t.d)) := by
    rw [accF_dot, dot_congr (fun _ _ _ => rfl) h.hred]
  unfold t150
  rw [e1, e2, e3]
  dsimp only
  obtain ⟨-, s2⟩ := scan_spec (fun i => reduction t (dot b.n t.s (b.hess t.s)) (dot b.n (mask t.xbdi t.d) (b.hess t.s))
    (dot b.n (mask t.xbdi t.d) (b.hess (mask t.xbdi t.d))) (t.angbd * lit i 1 / lit (angCount t.angbd) 1)) (angCount t.angbd)
    ⟨0, 0, 0, t.rdprev, t.rdnext⟩ rfl rfl rfl
  generalize scan (fun i => reduction t (dot b.n t.s (b.hess t.s)) (dot b.n (mask t.xbdi t.d) (b.hess t.s))
    (dot b.n (mask t.xbdi t.d) (b.hess (mask t.xbdi t.d))) (t.angbd * lit i 1 / lit (angCount t.angbd) 1)) (angCount t.angbd)
    ⟨0, 0, 0, t.rdprev, t.rdnext⟩ = c at s2 ⊢
  by_cases c0 : c.isav = 0
  · rw [if_pos c0]; exact h.base.same ⟨rfl, rfl, rfl, rfl, rfl⟩
  rw [if_neg c0]
  obtain ⟨p1, p2⟩ := s2 c0
  obtain ⟨a1, a2, a3⟩ := bestAngle_spec h.angbd (angCount_pos h.angbd) c0 p1 p2
  generalize bestAngle t.angbd (angCount t.angbd) c = a at a1 a2 a3 ⊢
  have h' := h.same_scan c.rdprev c.rdnext
  have hr := h'.reduction a
  generalize hT : ({ t with rdprev := c.rdprev, rdnext := c.rdnext } : Tb K) = t' at h' hr ⊢
  have q1 : t'.angbd = t.angbd := by rw [← hT]
  have q2 : t'.s = t.s := by rw [← hT]
  have q3 : t'.xbdi = t.xbdi := by rw [← hT]
  have q4 : t'.d = t.d := by rw [← hT]
  rw [← q2, ← q3, ← q4]
  rw [← q1] at a2 a3 ⊢
  generalize reduction t' (dot b.n t'.s (b.hess t'.s)) (dot b.n (mask t'.xbdi t'.d) (b.hess t'.s))
    (dot b.n (mask t'.xbdi t'.d) (b.hess (mask t'.xbdi t'.d))) a = sdec at hr ⊢
  by_cases c1 : sdec ≤ 0
  · rw [if_pos c1]; exact h'.base
  rw [if_neg c1]
  have T := turn_ok h' a1 a2 (not_le.mp c1) hr
  by_cases c2 : (turn b a sdec t').iact > 0 ∧ c.isav = angCount t'.angbd
  · rw [if_pos c2]
    obtain ⟨b1, b2, b3, b4⟩ := h'.iact.resolve_left (Nat.pos_iff_ne_zero.mp c2.1)
    refine T100.mk (b := b) (t := { turn b a sdec t' with nact := _, xbdi := _ }) ?_ T.crvmin
    refine T.base.fixed b1 b2 b3 ?_ rfl rfl rfl rfl rfl
    have e : b.xopt t'.iact + (turn b a sdec t').d t'.iact = turned b t' t'.angbd t'.iact := by
      show b.xopt t'.iact + (if t'.xbdi t'.iact = 0 then cosine a * t'.d t'.iact + sine a * t'.s t'.iact else t'.d t'.iact) = _
      rw [if_pos b3, a3 c2.2]
      rfl
    rw [e]
    exact b4
  rw [if_neg c2]
  by_cases c3 : sdec > (turn b a sdec t').qred * lit 1 100
  · rw [if_pos c3]; exact T
  · rw [if_neg c3]; exact T.base

/-! ### The whole function -/

theorem tNext_ok (hsqrt : ∀ a : K, 0 ≤ a → 0 ≤ CMath.sqrt a ∧ CMath.sqrt a * CMath.sqrt a = a) {b : Box K} {x : TLab × Tb K} (h : TOk b x.1 x.2) :
    TOk b (tNext b x).1 (tNext b x).2 := by
  obtain ⟨l, t⟩ := x
  cases l with
  | t20 => exact T30.mk (b := b) (t := { t with beta := 0 }) (TCg.same h ⟨rfl, rfl, rfl, rfl, rfl, rfl, rfl⟩) (Or.inl rfl)
  | t30 => exact t30_ok h
  | t50 => exact t50_ok hsqrt h
  | t90 => exact T100.mk (b := b) (t := { t with crvmin := 0 }) (TBase.same h ⟨rfl, rfl, rfl, rfl, rfl⟩) rfl
  | t100 => exact t100_ok h
  | t120 => exact t120_ok hsqrt h
  | t150 => exact t150_ok h
  | t190 => exact h

theorem tRun_ok (hsqrt : ∀ a : K, 0 ≤ a → 0 ≤ CMath.sqrt a ∧ CMath.sqrt a * CMath.sqrt a = a) {b : Box K} :
    ∀ (fuel : Nat) (x : TLab × Tb K), TOk b x.1 x.2 → TOk b (tRun b fuel x).1 (tRun b fuel x).2
  | 0, _, h => h
  | fuel + 1, x, h => tRun_ok hsqrt fuel (tNext b x) (tNext_ok hsqrt h)

/-- **The step of `trsbox`**: it is in the trust region, the point is within the bounds, the variables declared fixed are
exactly at their bounds, the gradient is the one of the model after the step, and the model decreases unless the step is
null. -/
structure TrsGood (b : Box K) (r : Trs K) : Prop where
  inside : ∀ i, 1 ≤ i → i ≤ b.n → b.sl i ≤ b.xopt i + r.d i ∧ b.xopt i + r.d i ≤ b.su i
  fixed : ∀ i, 1 ≤ i → i ≤ b.n → r.xbdi i = 0 ∨ r.xbdi i = -1 ∧ b.xopt i + r.d i = b.sl i ∨ r.xbdi i = 1 ∧ b.xopt i + r.d i = b.su i
  trust : ∑ i ∈ Finset.Icc 1 b.n, r.d i * r.d i ≤ b.delta * b.delta
  decrease : b.quad r.d < 0 ∨ b.quad r.d = 0 ∧ ∀ i, 1 ≤ i → i ≤ b.n → r.d i = 0
  grad : ∀ i, 1 ≤ i → i ≤ b.n → r.gnew i = b.grad r.d i

theorem trsbox_good (hsqrt : ∀ a : K, 0 ≤ a → 0 ≤ CMath.sqrt a ∧ CMath.sqrt a * CMath.sqrt a = a) {b : Box K}
    (hb : ∀ i, 1 ≤ i → i ≤ b.n → b.sl i ≤ b.xopt i ∧ b.xopt i ≤ b.su i) {t : Tb K} {fuel : Nat} {r : Trs K} (hr : trsbox b t fuel = some r) :
    TrsGood b r := by
  unfold trsbox at hr
  have h := tRun_ok hsqrt fuel _ (tInit_ok hb t)
  generalize tRun b fuel (tInit b t) = x at h hr
  obtain ⟨l, t'⟩ := x
  cases l with
  | t190 =>
    have h : TBase b t' := h
    simp only [Option.some.injEq] at hr
    subst hr
    refine ⟨h.inside, h.bound, h.norm, ?_, h.grad⟩
    rcases h.pos with q | ⟨q1, q2⟩
    · left; show b.quad t'.d < 0; linarith [h.red]
    · right; exact ⟨by show b.quad t'.d = 0; linarith [h.red], q2⟩
  | _ => exact absurd hr (by simp)

end
end Opk.Bobyqa
